import Verif.Spec.Markup
import Verif.Props.Written
import Verif.Proofs.Parser.Standing

/-!
# Properties C64, C65, C66: what stands in the document where a record points

For every option list: with and without namespace awareness, for every window of every slice.
-/

namespace GoVtd
open Parser Grammar Markup

theorem drop_eq {doc : List UInt8} {n : Nat} {t : List UInt8} (h : doc.drop n = t) : doc = doc.take n ++ t := by
  rw [← h, List.take_append_drop]

theorem attribute_at {doc : List UInt8} {x y : Rec} (ho : 0 ≤ x.off) (hy : 0 ≤ y.off) (hl : 0 ≤ y.len) (ht : y.tok = .attrVal)
    (h : Wr.Shape doc x y) : AttributeAt doc x.off.toNat (x.stop - x.off).toNat y.off.toNat y.len.toNat := by
  simp only [Wr.Shape, ht] at h
  obtain ⟨q, rest, ⟨⟨h1, s, hs, hws⟩, name, w1, w2, hn, hnl, hw1, hw2, hq, hd⟩, hb, ha⟩ := h
  obtain ⟨value, hv, hv'⟩ := value_of hb
  simp only [Wr.Ate, hv, List.length_append, List.length_cons] at ha
  have h2 := drop_eq hd
  have hlt := (List.getElem?_eq_some_iff.mp hs).1
  have h3 : doc.take x.off.toNat = doc.take (x.off.toNat - 1) ++ [s] := by
    rw [show x.off.toNat = (x.off - 1).toNat + 1 by omega, List.take_add_one, hs]
    simp
  have h4 : (doc.take x.off.toNat).length = x.off.toNat := by
    rw [List.length_take]
    have := congrArg List.length hd
    simp only [List.length_drop, List.length_append, List.length_cons] at this
    omega
  refine ⟨doc.take (x.off.toNat - 1), s, name, w1, w2, q, value, rest, ?_, hws, hn, hw1, hw2, hq, hv', by rw [← h3]; exact h4,
    by omega, ?_, by omega⟩
  · rw [← h3]
    simpa [hv] using h2
  · rw [← h3]
    have := congrArg List.length hd
    simp only [List.length_drop, List.length_append, List.length_cons, h4, List.length_nil] at this ⊢
    have hvl : y.off.toNat ≤ doc.length := by
      have := congrArg List.length hv
      simp only [List.length_drop, List.length_append, List.length_cons] at this
      omega
    omega

/-- C64: every attribute is written in the document as its two records say. -/
theorem C64_attributes (fuel : Nat) (opts : List ParserOption) (doc : List UInt8) (o l : Int)
    (hd : chosenDoc opts = some (doc, o, l)) (hl : IsInt l) (ws : List (BitVec 64))
    (hp : parsedTokens fuel opts = some ws) (i : Nat) (v : BitVec 64) (hv : ws[i]? = some v) (ha : IsAttr v) :
    ∃ w, ws[i + 1]? = some w ∧ tokenType w = Token.attrVal.code ∧
      AttributeAt doc (tokenOffset v) (qnameLength v) (tokenOffset w) (tokenLength w) := by
  have hnext : ∃ w, ws[i + 1]? = some w := by
    cases hw : ws[i + 1]? with
    | some w => exact ⟨w, rfl⟩
    | none =>
      refine absurd (Or.inl ha) ((C63_values fuel opts doc o l hd hl ws hp).2 v ?_)
      rw [List.getLast?_eq_getElem?]
      have h1 := (List.getElem?_eq_some_iff.mp hv).1
      rw [List.getElem?_eq_none_iff] at hw
      rw [← hv]; congr 1; omega
  obtain ⟨w, hw⟩ := hnext
  refine ⟨w, hw, (((C63_values fuel opts doc o l hd hl ws hp).1 i v w hv hw).attr ha).1, ?_⟩
  obtain ⟨h1, h2, h3, c, xs, rfl, hwr, e1, e2, e3, rfl⟩ := parsed_written_doc hp hd hl
  have hok := written_all hwr
  have hsz := hwr.size
  rw [List.getElem?_map, Option.map_eq_some_iff] at hv hw
  obtain ⟨x, hx, rfl⟩ := hv
  obtain ⟨y, hy, rfl⟩ := hw
  have hlk := Wr.Linked.get hwr.linked hx hy
  have hx' := hok x (List.mem_of_getElem? hx)
  have hy' := hok y (List.mem_of_getElem? hy)
  rw [isAttr_iff hx' hsz] at ha
  have hyt : y.tok = .attrVal := (hlk.name .attrVal (by rcases ha with e | e <;> rw [e] <;> rfl)).1
  have hxb : ¬ x.Bad := not_bad (by rcases ha with e | e <;> rw [e] <;> decide)
  have hyb : ¬ y.Bad := not_bad (by rw [hyt]; decide)
  obtain ⟨-, -, -, f4, f5⟩ := Rec.fields hx' hsz hxb
  obtain ⟨-, -, g3, g4, -⟩ := Rec.fields hy' hsz hyb
  rw [f4, f5, g3, g4]
  have := attribute_at hx'.off hy'.off (RecOk.bounds hy' hyb).1 hyt hlk.shape
  have hst : (x.stop - x.off).toNat = x.len.toNat % 2048 := by
    have := (RecOk.bounds hx' hxb).1
    rcases ha with e | e <;> (simp only [Rec.stop, e]; omega)
  rw [hst] at this
  exact this

/-- Non-vacuity: attributes of a window inside a slice, with namespace awareness, white space and references. -/
example : (parsedTokens 100 [.xmlDocCustomOffset (some (str% "...<p:a xmlns:p='u' p:b  =\n\"&lt;'\"/>...")) 3 33,
      .nameSpaceAware true]).map (fun ws => ws.map fun w => (tokenType w, tokenOffset w, qnameLength w)) =
    some [(13, 0, 0), (0, 4, 3), (3, 8, 7), (4, 17, 1), (2, 20, 3), (4, 28, 5)] := by
  decide +kernel

/-! ## Comments, CDATA sections and character data -/

/-- What is known of the record of a text that is not a piece of a longer one. -/
theorem whole_text {fuel : Nat} {opts : List ParserOption} {doc : List UInt8} {o l : Int}
    (hd : chosenDoc opts = some (doc, o, l)) (hl : IsInt l) {ws : List (BitVec 64)}
    (hp : parsedTokens fuel opts = some ws) {i : Nat} {v w : BitVec 64} (hv : ws[i]? = some v) (hw : ws[i + 1]? = some w)
    (hn : ¬ Piece v w) {t : Token} (ht : tokenType w = t.code) :
    ∃ x y, y.tok = t ∧ Wr.Shape doc x y ∧ ¬ Wr.Part x y ∧ 0 ≤ y.off ∧ 0 ≤ y.len ∧ tokenOffset w = y.off.toNat ∧
      tokenLength w = y.len.toNat := by
  obtain ⟨h1, h2, h3, c, xs, rfl, hwr, e1, e2, e3, rfl⟩ := parsed_written_doc hp hd hl
  have hok := written_all hwr
  have hsz := hwr.size
  rw [List.getElem?_map, Option.map_eq_some_iff] at hv hw
  obtain ⟨x, hx, rfl⟩ := hv
  obtain ⟨y, hy, rfl⟩ := hw
  have hx' := hok x (List.mem_of_getElem? hx)
  have hy' := hok y (List.mem_of_getElem? hy)
  have hyb : ¬ y.Bad := fun hb => by
    rw [Rec.bad_type hy' hb] at ht
    revert ht
    cases t <;> simp [Token.code]
  obtain ⟨f1, -, f3, f4, -⟩ := Rec.fields hy' hsz hyb
  have hyt : y.tok = t := Token.code_inj (f1.symm.trans ht)
  refine ⟨x, y, hyt, (Wr.Linked.get hwr.linked hx hy).shape, ?_, hy'.off, (RecOk.bounds hy' hyb).1, f4, f3⟩
  rintro (h | ⟨h, h'⟩) <;> apply hn
  · left
    rw [f3, h]; rfl
  · right
    have hxb : ¬ x.Bad := fun hb => by
      have := hb.2
      rw [h'] at this
      exact absurd this (by decide)
    obtain ⟨g1, -, g3, -⟩ := Rec.fields hx' hsz hxb
    rw [g1, f1, h, g3, h']
    exact ⟨rfl, rfl⟩

/-- C65, comments: what the record of a comment points at stands between `!--` and the next `--`, and `>` follows. That `<`
stands before `!--` is false: see `C65_refuted`. -/
theorem C65_comments_partial (fuel : Nat) (opts : List ParserOption) (doc : List UInt8) (o l : Int)
    (hd : chosenDoc opts = some (doc, o, l)) (hl : IsInt l) (ws : List (BitVec 64))
    (hp : parsedTokens fuel opts = some ws) (i : Nat) (v w : BitVec 64) (hv : ws[i]? = some v) (hw : ws[i + 1]? = some w)
    (hn : ¬ Piece v w) (ht : tokenType w = Token.comment.code) : CommentAt doc (tokenOffset w) (tokenLength w) := by
  obtain ⟨x, y, hyt, hs, hpt, h0, h1, e1, e2⟩ := whole_text hd hl hp hv hw hn ht
  simp only [Wr.Shape, hyt] at hs
  obtain ⟨⟨pre, hpre⟩, rest, hb, ha⟩ := hs hpt
  obtain ⟨text, htx, hc, hh⟩ := comment_of hb
  rw [e1, e2]
  simp only [Wr.Ate, htx, List.length_append, List.length_cons, List.length_nil] at ha
  have hlen := congrArg List.length htx
  simp only [List.length_drop, List.length_append, List.length_cons, List.length_nil] at hlen
  refine ⟨pre, text, rest, ?_, hc, hh, ?_, by omega⟩
  · rw [← hpre]
    simpa using drop_eq htx
  · rw [← hpre, List.length_take]; omega

/-- C65, CDATA sections: what the record of a CDATA section points at stands between `![CDATA[` and the next `]>`, without the
byte before `]>`. That this byte is a bracket is false, and that `<` stands before too: see `C65_refuted`. -/
theorem C65_cdata_partial (fuel : Nat) (opts : List ParserOption) (doc : List UInt8) (o l : Int)
    (hd : chosenDoc opts = some (doc, o, l)) (hl : IsInt l) (ws : List (BitVec 64))
    (hp : parsedTokens fuel opts = some ws) (i : Nat) (v w : BitVec 64) (hv : ws[i]? = some v) (hw : ws[i + 1]? = some w)
    (hn : ¬ Piece v w) (ht : tokenType w = Token.cdataVal.code) : CdataAt doc (tokenOffset w) (tokenLength w) := by
  obtain ⟨x, y, hyt, hs, hpt, h0, h1, e1, e2⟩ := whole_text hd hl hp hv hw hn ht
  simp only [Wr.Shape, hyt] at hs
  obtain ⟨⟨pre, hpre⟩, rest, hb, ha⟩ := hs hpt
  obtain ⟨body, htx, hc, hh⟩ := cdata_of hb
  rw [e1, e2]
  simp only [Wr.Ate, htx, List.length_append, List.length_cons, List.length_nil] at ha
  have hlen := congrArg List.length htx
  simp only [List.length_drop, List.length_append, List.length_cons, List.length_nil] at hlen
  obtain ⟨text, z, rfl⟩ : ∃ text z, body = text ++ [z] :=
    ⟨body.dropLast, body.getLast (by intro h; rw [h] at ha; simp at ha; omega), (List.dropLast_concat_getLast _).symm⟩
  simp only [List.length_append, List.length_cons, List.length_nil] at ha hlen
  refine ⟨pre, text, z, rest, ?_, hc, hh, ?_, by omega⟩
  · rw [← hpre]
    simpa using drop_eq htx
  · rw [← hpre, List.length_take]; omega

/-- C66: what the record of character data points at is character data up to the next `<`. -/
theorem C66_partial (fuel : Nat) (opts : List ParserOption) (doc : List UInt8) (o l : Int)
    (hd : chosenDoc opts = some (doc, o, l)) (hl : IsInt l) (ws : List (BitVec 64))
    (hp : parsedTokens fuel opts = some ws) (i : Nat) (v w : BitVec 64) (hv : ws[i]? = some v) (hw : ws[i + 1]? = some w)
    (hn : ¬ Piece v w) (ht : tokenType w = Token.characterData.code) : TextAt doc (tokenOffset w) (tokenLength w) := by
  obtain ⟨x, y, hyt, hs, hpt, h0, h1, e1, e2⟩ := whole_text hd hl hp hv hw hn ht
  simp only [Wr.Shape, hyt] at hs
  obtain ⟨rest, hb, ha⟩ := hs hpt
  obtain ⟨text, htx, hc⟩ := text_of hb
  rw [e1, e2]
  simp only [Wr.Ate, htx, List.length_append, List.length_cons, List.length_nil] at ha
  have hlen := congrArg List.length htx
  simp only [List.length_drop, List.length_append, List.length_cons, List.length_nil] at hlen
  refine ⟨doc.take y.off.toNat, text, rest, ?_, hc, ?_, by omega⟩
  · simpa using drop_eq htx
  · rw [List.length_take]; omega

/-- Non-vacuity: a comment, a CDATA section and character data; no record is a piece. -/
example : (parsedTokens 100 [.xmlDoc (some (str% "<a>x&#65;]]<!-- y - z --><![CDATA[<b>]]></a>"))]).map
      (fun ws => (ws.map fun w => (tokenType w, tokenOffset w, tokenLength w), (ws.zip ws.tail).all fun (v, w) => ¬ Piece v w)) =
    some ([(13, 0, 0), (0, 1, 1), (5, 3, 8), (6, 15, 7), (11, 34, 3)], true) := by
  decide +kernel

/-- C65 is false for XML's comments and CDATA sections: a comment without `<` before it, one in the middle of character data,
and a CDATA section that one bracket ends and whose last byte is left out. -/
theorem C65_refuted :
    (∃ (doc : List UInt8) (ws : List (BitVec 64)) (w : BitVec 64), parsedTokens 100 [.xmlDoc (some doc)] = some ws ∧ w ∈ ws ∧
      tokenType w = Token.comment.code ∧ ¬ str% "<!--" <:+ doc.take (tokenOffset w)) ∧
    (∃ (doc : List UInt8) (ws : List (BitVec 64)) (w : BitVec 64), parsedTokens 100 [.xmlDoc (some doc)] = some ws ∧ w ∈ ws ∧
      tokenType w = Token.cdataVal.code ∧ ¬ str% "<![CDATA[" <:+ doc.take (tokenOffset w)) ∧
    (∃ (doc : List UInt8) (ws : List (BitVec 64)) (w : BitVec 64), parsedTokens 100 [.xmlDoc (some doc)] = some ws ∧ w ∈ ws ∧
      tokenType w = Token.cdataVal.code ∧ ¬ str% "]]>" <+: doc.drop (tokenOffset w + tokenLength w)) := by
  have key : ∀ (doc : List UInt8) (q : BitVec 64 → Bool), ((parsedTokens 100 [.xmlDoc (some doc)]).any fun ws => ws.any q) = true →
      ∃ ws w, parsedTokens 100 [.xmlDoc (some doc)] = some ws ∧ w ∈ ws ∧ q w = true := by
    intro doc q h
    cases hp : parsedTokens 100 [.xmlDoc (some doc)] with
    | none => rw [hp] at h; cases h
    | some ws =>
      rw [hp] at h
      obtain ⟨w, h1, h2⟩ := List.any_eq_true.1 h
      exact ⟨ws, w, rfl, h1, h2⟩
  refine ⟨⟨str% "<a><b></b>&amp;!--c--></a>", ?_⟩, ⟨str% "<a><b></b>&amp;![CDATA[c]]></a>", ?_⟩, ⟨str% "<a><![CDATA[cd]></a>", ?_⟩⟩
  · obtain ⟨ws, w, h1, h2, h3⟩ := key (str% "<a><b></b>&amp;!--c--></a>")
      (fun w => decide (tokenType w = Token.comment.code ∧ ¬ str% "<!--" <:+ (str% "<a><b></b>&amp;!--c--></a>" : List UInt8).take (tokenOffset w)))
      (by decide +kernel)
    exact ⟨ws, w, h1, h2, (of_decide_eq_true h3).1, (of_decide_eq_true h3).2⟩
  · obtain ⟨ws, w, h1, h2, h3⟩ := key (str% "<a><b></b>&amp;![CDATA[c]]></a>")
      (fun w => decide (tokenType w = Token.cdataVal.code ∧ ¬ str% "<![CDATA[" <:+ (str% "<a><b></b>&amp;![CDATA[c]]></a>" : List UInt8).take (tokenOffset w)))
      (by decide +kernel)
    exact ⟨ws, w, h1, h2, (of_decide_eq_true h3).1, (of_decide_eq_true h3).2⟩
  · obtain ⟨ws, w, h1, h2, h3⟩ := key (str% "<a><![CDATA[cd]></a>")
      (fun w => decide (tokenType w = Token.cdataVal.code ∧
        ¬ str% "]]>" <+: (str% "<a><![CDATA[cd]></a>" : List UInt8).drop (tokenOffset w + tokenLength w)))
      (by decide +kernel)
    exact ⟨ws, w, h1, h2, (of_decide_eq_true h3).1, (of_decide_eq_true h3).2⟩

end GoVtd
