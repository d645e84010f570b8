import Verif.Props.Tree

/-!
# C47: the records of long texts
-/

namespace GoVtd

open Parser Grammar

/-- These records are consecutive, none is longer than a record can be, the first begins at `off`, and together
they are `len` bytes long. -/
def Covers : Nat → Nat → List (BitVec 64) → Prop
  | _, len, [] => len = 0
  | off, len, w :: ws => tokenOffset w = off ∧ tokenLength w ≤ maxLen ∧ tokenLength w ≤ len ∧
      Covers (off + tokenLength w) (len - tokenLength w) ws

theorem covers_range {k : Nat} : ∀ {f : Nat → BitVec 64} {off len : Nat} {w : BitVec 64},
    (∀ i < k, tokenOffset (f i) = off + i * maxLen ∧ tokenLength (f i) = maxLen) → k * maxLen ≤ len →
    tokenOffset w = off + k * maxLen → tokenLength w = len - k * maxLen → len - k * maxLen ≤ maxLen →
    Covers off len ((List.range k).map f ++ [w]) := by
  induction k with
  | zero =>
    intro f off len w _ h1 h2 h3 h4
    simp only [List.range_zero, List.map_nil, List.nil_append, Covers]
    omega
  | succ k ih =>
    intro f off len w h0 h1 h2 h3 h4
    rw [List.range_succ_eq_map]
    simp only [List.map_cons, List.map_map, List.cons_append, Covers]
    obtain ⟨a1, a2⟩ := h0 0 (by omega)
    rw [Nat.succ_mul] at h1 h2 h3 h4
    refine ⟨by omega, by omega, by omega, ?_⟩
    rw [a2]
    refine ih (f := f ∘ Nat.succ) ?_ (by omega) (by omega) (by omega) (by omega)
    intro i hi
    obtain ⟨b1, b2⟩ := h0 (i + 1) (by omega)
    rw [Nat.succ_mul] at b1
    exact ⟨by simp only [Function.comp]; rw [b1]; omega, b2⟩

theorem toNat_mul (i m : Nat) : ((i : Int) * (m : Int)).toNat = i * m := by
  rw [← Int.natCast_mul]; exact Int.toNat_natCast _

theorem toNat_sub_mul (l k m : Nat) : ((l : Int) - (k : Int) * (m : Int)).toNat = l - k * m := by
  rw [← Int.natCast_mul]; omega

theorem covers_textRecs {doc : List UInt8} (hl : doc.length < 2 ^ 31) {t : Token}
    (ht : t ≠ .startingTag ∧ t ≠ .attrName ∧ t ≠ .attrNs) {o l : Nat} {d : Int}
    (h3 : o + l ≤ doc.length) (d0 : -1 ≤ d) (d1 : d ≤ 254) :
    Covers (if l ≤ maxLen then o else 0) l ((textRecs t o l d).map Rec.word) ∧
      ∀ w ∈ (textRecs t o l d).map Rec.word, tokenType w = t.code ∧ tokenDepth w = (d % 256).toNat := by
  have hok := textRecs_ok (doc := doc) (t := t) (o := o) (l := l) (d := d) ht (by omega) (Or.inl (by omega)) (by omega) d0 d1
  have hnb : ∀ x ∈ textRecs t o l d, ¬ x.Bad ∧ x.tok = t ∧ x.depth = d := by
    intro x hx
    simp only [textRecs] at hx
    split at hx
    · simp only [List.mem_append, List.mem_map, List.mem_range, List.mem_singleton] at hx
      rcases hx with ⟨i, _, rfl⟩ | rfl
      · refine ⟨?_, rfl, rfl⟩
        rintro ⟨_, h⟩
        simp [maxLen] at h
      · refine ⟨?_, rfl, rfl⟩
        rintro ⟨_, h⟩
        have hk : (((l : Int).toNat - 1) / maxLen) * maxLen ≤ (l : Int).toNat - 1 := Nat.div_mul_le_self _ _
        generalize ((l : Int).toNat - 1) / maxLen = k at *
        simp only [maxLen] at *
        omega
    · simp only [List.mem_singleton] at hx
      subst hx
      refine ⟨?_, rfl, rfl⟩
      rintro ⟨_, h⟩
      have : (l : Int) = -1 := h
      omega
  have hf : ∀ x ∈ textRecs t o l d, tokenType x.word = t.code ∧ tokenDepth x.word = (d % 256).toNat ∧
      tokenLength x.word = x.len.toNat ∧ tokenOffset x.word = x.off.toNat := by
    intro x hx
    obtain ⟨n1, n2, n3⟩ := hnb x hx
    obtain ⟨f1, f2, f3, f4, _⟩ := Rec.fields (hok x hx) hl n1
    rw [n2] at f1
    rw [n3] at f2
    exact ⟨f1, f2, f3, f4⟩
  refine ⟨?_, ?_⟩
  · revert hf
    simp only [textRecs]
    by_cases hm : l ≤ maxLen
    · rw [if_pos hm, if_neg (by omega)]
      intro hf
      obtain ⟨_, _, f3, f4⟩ := hf _ (List.mem_singleton.2 rfl)
      simp only [List.map_cons, List.map_nil, Covers, f3, f4]
      omega
    · rw [if_neg hm, if_pos (by omega)]
      intro hf
      have e : (l : Int).toNat = l := by omega
      rw [e] at hf ⊢
      have hk : ((l - 1) / maxLen) * maxLen ≤ l - 1 := Nat.div_mul_le_self _ _
      have hk2 : l - 1 < ((l - 1) / maxLen + 1) * maxLen := Nat.lt_mul_of_div_lt (Nat.lt_succ_self _) (by decide)
      generalize (l - 1) / maxLen = k at *
      rw [Nat.succ_mul] at hk2
      simp only [List.map_append, List.map_map, List.map_cons, List.map_nil]
      obtain ⟨_, _, f3, f4⟩ := hf _ (List.mem_append_right _ (List.mem_singleton.2 rfl))
      refine covers_range ?_ (by omega) ?_ ?_ (by omega)
      · intro i hi
        obtain ⟨_, _, g3, g4⟩ := hf ⟨t, i * maxLen, maxLen, d⟩ (List.mem_append_left _ (List.mem_map.2 ⟨i, List.mem_range.2 hi, rfl⟩))
        simp only [Function.comp]
        rw [g3, g4]
        refine ⟨?_, Int.toNat_natCast _⟩
        rw [toNat_mul, Nat.zero_add]
      · rw [f4]
        rw [toNat_mul, Nat.zero_add]
      · rw [f3]
        exact toNat_sub_mul _ _ _
  · intro w hw
    obtain ⟨x, hx, rfl⟩ := List.mem_map.1 hw
    exact ⟨(hf x hx).1, (hf x hx).2.1⟩

namespace Tree

/-- A document that is an element with this content. -/
def wrap (tag : StartTag) (body : List UInt8) : List UInt8 :=
  tag.bytes ++ ch% '>' :: (body ++ ch% '<' :: ch% '/' :: (tag.name ++ [ch% '>']))

theorem wrap_doc {n : Nat} {tag : StartTag} (h : tag.WellFormed) (hs : tag.Supported 0) {body : List UInt8} {recs : List Rec}
    (hi : Inside n 1 (.content .start) (body ++ ch% '<' :: ch% '/' :: (tag.name ++ [ch% '>'])) recs (tag.name ++ [ch% '>'])) :
    Grammar.Document n (wrap tag body) (tag.recs 0 (Grammar.offset n (wrap tag body)) ++ recs) := by
  obtain ⟨s, e1, e2, b, s', e3, e4⟩ := StartTag.tag (n := n) (c := ch% '>') (e := false) h hs close_not_name.1
    (.start (r := body ++ ch% '<' :: ch% '/' :: (tag.name ++ [ch% '>'])))
  have hr := Grammar.Root.element e2 (w := []) (r2 := []) (recs2 := []) (recs1 := recs)
    (by rw [List.append_nil]; exact hi) nofun (.done nofun)
  rw [List.append_nil] at hr
  simp only [wrap] at *
  rw [e1] at hr ⊢
  subst e3
  refine Grammar.Document.plain (pre := []) (.none ?_) hr
  rintro rfl
  exact absurd (Or.inl e4) close_not_name.2.2

theorem Text.inside' {n d : Nat} {t : Text} (h : t.WellFormed) (hp : ¬ HasPair (ch% ']') (ch% '>') t.bytes)
    (r : List UInt8) :
    Inside n d (.content .start) (t.bytes ++ ch% '<' :: ch% '/' :: r)
      (Grammar.textRecs .characterData (Grammar.offset n (t.bytes ++ ch% '<' :: ch% '/' :: r)) t.bytes.length (d - 1)) r := by
  rcases split_ws t.bytes with hw | ⟨w, b, r', h1, h2, h3⟩
  · exact .gap hw
  have ht := textBody h.1 hp (ch% '/' :: r)
  rw [h1] at ht ⊢
  rw [List.append_assoc] at ht
  have ht := textBody_ws ht h2
  have hlt := textBody_first ht
  have := Inside.text (n := n) (d := d) (prev := .start) (r := r' ++ ch% '<' :: ch% '/' :: r) h2 h3 hlt nofun ht .endTag
  have e : ((w ++ b :: (r' ++ ch% '<' :: ch% '/' :: r)).length - ((ch% '/' :: r).length + 1) : Int) = (w ++ b :: r').length := by
    simp only [List.length_append, List.length_cons]; omega
  rw [e, List.append_nil] at this
  simpa using this

theorem Comment.inside {n d : Nat} {data : List UInt8} (h : (Atom.comment data).WellFormed) (r : List UInt8) :
    Inside n d (.content .start) ((Atom.comment data).bytes ++ ch% '<' :: ch% '/' :: r)
      (Grammar.textRecs .comment (Grammar.offset n ((Atom.comment data).bytes ++ ch% '<' :: ch% '/' :: r) + (4 : Nat))
        data.length (d - 1)) r := by
  have i2 : Inside n d (.content .other) ([] ++ ch% '<' :: ch% '/' :: r) [] r := .space nofun nofun .endTag
  have i1 := Inside.space (prev := .start) (w := []) nofun (by simp)
    (Inside.comment (commentBody h.1 h.2 ([] ++ ch% '<' :: ch% '/' :: r)) i2)
  rw [List.append_nil] at i1
  have e1 : ((data ++ (str% "-->" ++ ([] ++ ch% '<' :: ch% '/' :: r))).length -
      (([] ++ ch% '<' :: ch% '/' :: r : List UInt8).length + 3) : Int) = data.length := by
    simp only [List.length_append, List.length_cons, List.length_nil]; omega
  have e2 : ∀ x y : List UInt8, x.length = y.length + 4 → Grammar.offset n y = Grammar.offset n x + (4 : Nat) := by
    intro x y hxy; simp only [Grammar.offset]; omega
  rw [e1, e2 ((Atom.comment data).bytes ++ ch% '<' :: ch% '/' :: r) _ (by
    simp only [Atom.bytes, List.length_append, List.length_cons, List.length_nil]; omega)] at i1
  simpa [Atom.bytes] using i1

theorem Cdata.inside {n d : Nat} {data : List UInt8} (h : (Atom.cdata data).WellFormed)
    (hp : ¬ HasPair (ch% ']') (ch% '>') data) (r : List UInt8) :
    Inside n d (.content .start) ((Atom.cdata data).bytes ++ ch% '<' :: ch% '/' :: r)
      (Grammar.textRecs .cdataVal (Grammar.offset n ((Atom.cdata data).bytes ++ ch% '<' :: ch% '/' :: r) + (9 : Nat))
        data.length (d - 1)) r := by
  have i2 : Inside n d (.content .other) ([] ++ ch% '<' :: ch% '/' :: r) [] r := .space nofun nofun .endTag
  have i1 := Inside.space (prev := .start) (w := []) nofun (by simp)
    (Inside.cdata (cdataBody h.1 hp ([] ++ ch% '<' :: ch% '/' :: r)) i2)
  rw [List.append_nil] at i1
  have e1 : ((data ++ (str% "]]>" ++ ([] ++ ch% '<' :: ch% '/' :: r))).length -
      (([] ++ ch% '<' :: ch% '/' :: r : List UInt8).length + 3) : Int) = data.length := by
    simp only [List.length_append, List.length_cons, List.length_nil]; omega
  have e2 : ∀ x y : List UInt8, x.length = y.length + 9 → Grammar.offset n y = Grammar.offset n x + (9 : Nat) := by
    intro x y hxy; simp only [Grammar.offset]; omega
  rw [e1, e2 ((Atom.cdata data).bytes ++ ch% '<' :: ch% '/' :: r) _ (by
    simp only [Atom.bytes, List.length_append, List.length_cons, List.length_nil]; omega)] at i1
  simpa [Atom.bytes] using i1

end Tree

open Tree

theorem part_exact (fuel : Nat) (opts : List ParserOption) (doc : List UInt8) (o : Nat) (h : SelectRest opts doc o)
    (hlen : doc.length < 2 ^ 31) (tag : StartTag) (hw : tag.WellFormed) (hs : tag.Supported 0) {body : List UInt8}
    (hb : doc.drop o = wrap tag body) {tok : Token} (htok : tok ≠ .startingTag ∧ tok ≠ .attrName ∧ tok ≠ .attrNs)
    {k l : Nat} (hk : k + l ≤ body.length)
    (hi : ∀ n r, Inside n 1 (.content .start) (body ++ ch% '<' :: ch% '/' :: r)
      (Grammar.textRecs tok (Grammar.offset n (body ++ ch% '<' :: ch% '/' :: r) + k) l 0) r) :
    ∃ rs, parsedTokens fuel opts = some ((docRec :: tag.recs 0 o).map Rec.word ++ rs) ∧
      (∀ w ∈ rs, tokenType w = tok.code ∧ tokenDepth w = 0) ∧
      Covers (if l ≤ maxLen then o + tag.bytes.length + 1 + k else 0) l rs := by
  have hlen' : doc.length - o = (wrap tag body).length := by rw [← hb]; simp
  have hoff : ∀ r : List UInt8, wrap tag body = tag.bytes ++ ch% '>' :: r →
      Grammar.offset doc.length r + k = ((o + tag.bytes.length + 1 + k : Nat) : Int) := by
    intro r hr
    rw [hr] at hlen'
    simp only [List.length_append, List.length_cons, Grammar.offset] at hlen' ⊢
    omega
  have hd := wrap_doc (n := doc.length) hw hs (hi doc.length (tag.name ++ [ch% '>']))
  rw [hoff _ rfl] at hd
  have e0 : Grammar.offset doc.length (wrap tag body) = o := by
    have : 0 < (wrap tag body).length := by simp only [wrap, List.length_append, List.length_cons]; omega
    simp only [Grammar.offset]; omega
  rw [e0] at hd
  have hc := covers_textRecs (doc := doc) hlen (t := tok) htok (o := o + tag.bytes.length + 1 + k)
    (l := l) (d := 0) (by
      simp only [wrap, List.length_append, List.length_cons] at hlen'
      omega) (by decide) (by decide)
  refine ⟨_, (C32_exact fuel opts doc o h _).2 ⟨hlen, _, hb ▸ hd, ?_⟩, hc.2, hc.1⟩
  simp

/-- The records of a text of any length that is all of the content of an element: they cover its length without
gaps, but from offset 0 if there is more than one. -/
theorem C47_exact (fuel : Nat) (opts : List ParserOption) (doc : List UInt8) (o : Nat) (h : SelectRest opts doc o)
    (hlen : doc.length < 2 ^ 31) (tag : StartTag) (hw : tag.WellFormed) (hs : tag.Supported 0) (t : Text)
    (ht : t.WellFormed) (hp : ¬ HasPair (ch% ']') (ch% '>') t.bytes) (hb : doc.drop o = wrap tag t.bytes) :
    ∃ rs, parsedTokens fuel opts = some ((docRec :: tag.recs 0 o).map Rec.word ++ rs) ∧
      (∀ w ∈ rs, tokenType w = Token.characterData.code ∧ tokenDepth w = 0) ∧
      Covers (if t.bytes.length ≤ maxLen then o + tag.bytes.length + 1 else 0) t.bytes.length rs :=
  part_exact fuel opts doc o h hlen tag hw hs hb (tok := .characterData) (k := 0) (by decide) (by omega) fun n r => by
    have := Text.inside' (n := n) (d := 1) ht hp r
    rw [show ((0 : Nat) : Int) = 0 from rfl, Int.add_zero]
    exact this

/-- The same for a comment that is all of the content of an element. -/
theorem C47_comment_exact (fuel : Nat) (opts : List ParserOption) (doc : List UInt8) (o : Nat)
    (h : SelectRest opts doc o) (hlen : doc.length < 2 ^ 31) (tag : StartTag) (hw : tag.WellFormed)
    (hs : tag.Supported 0) (data : List UInt8) (ht : (Atom.comment data).WellFormed)
    (hb : doc.drop o = wrap tag (Atom.comment data).bytes) :
    ∃ rs, parsedTokens fuel opts = some ((docRec :: tag.recs 0 o).map Rec.word ++ rs) ∧
      (∀ w ∈ rs, tokenType w = Token.comment.code ∧ tokenDepth w = 0) ∧
      Covers (if data.length ≤ maxLen then o + tag.bytes.length + 1 + (str% "<!--").length else 0) data.length rs :=
  part_exact fuel opts doc o h hlen tag hw hs hb (tok := .comment) (k := 4) (by decide)
    (by simp only [Atom.bytes, List.length_append, List.length_cons]; omega) fun n r => by
    exact Comment.inside (n := n) (d := 1) ht r

/-- The same for a CDATA section that is all of the content of an element. -/
theorem C47_cdata_exact (fuel : Nat) (opts : List ParserOption) (doc : List UInt8) (o : Nat)
    (h : SelectRest opts doc o) (hlen : doc.length < 2 ^ 31) (tag : StartTag) (hw : tag.WellFormed)
    (hs : tag.Supported 0) (data : List UInt8) (ht : (Atom.cdata data).WellFormed)
    (hp : ¬ HasPair (ch% ']') (ch% '>') data) (hb : doc.drop o = wrap tag (Atom.cdata data).bytes) :
    ∃ rs, parsedTokens fuel opts = some ((docRec :: tag.recs 0 o).map Rec.word ++ rs) ∧
      (∀ w ∈ rs, tokenType w = Token.cdataVal.code ∧ tokenDepth w = 0) ∧
      Covers (if data.length ≤ maxLen then o + tag.bytes.length + 1 + (str% "<![CDATA[").length else 0) data.length rs :=
  part_exact fuel opts doc o h hlen tag hw hs hb (tok := .cdataVal) (k := 9) (by decide)
    (by simp only [Atom.bytes, List.length_append, List.length_cons]; omega) fun n r => by
    exact Cdata.inside (n := n) (d := 1) ht hp r

/-- C47 for texts that fit into one record. -/
theorem C47_partial (fuel : Nat) (opts : List ParserOption) (doc : List UInt8) (o : Nat) (h : SelectRest opts doc o)
    (hlen : doc.length < 2 ^ 31) (tag : StartTag) (hw : tag.WellFormed) (hs : tag.Supported 0) (t : Text)
    (ht : t.WellFormed) (hp : ¬ HasPair (ch% ']') (ch% '>') t.bytes) (hb : doc.drop o = wrap tag t.bytes)
    (hshort : t.bytes.length ≤ maxLen) :
    ∃ rs, parsedTokens fuel opts = some ((docRec :: tag.recs 0 o).map Rec.word ++ rs) ∧
      Covers (o + tag.bytes.length + 1) t.bytes.length rs := by
  obtain ⟨rs, h1, _, h3⟩ := C47_exact fuel opts doc o h hlen tag hw hs t ht hp hb
  rw [if_pos hshort] at h3
  exact ⟨rs, h1, h3⟩

/-- C47 is false for every longer text. -/
theorem C47_refuted (fuel : Nat) (opts : List ParserOption) (doc : List UInt8) (o : Nat) (h : SelectRest opts doc o)
    (hlen : doc.length < 2 ^ 31) (tag : StartTag) (hw : tag.WellFormed) (hs : tag.Supported 0) (t : Text)
    (ht : t.WellFormed) (hp : ¬ HasPair (ch% ']') (ch% '>') t.bytes) (hb : doc.drop o = wrap tag t.bytes)
    (hlong : maxLen < t.bytes.length) :
    ∃ rs, parsedTokens fuel opts = some ((docRec :: tag.recs 0 o).map Rec.word ++ rs) ∧
      ¬ Covers (o + tag.bytes.length + 1) t.bytes.length rs := by
  obtain ⟨rs, h1, _, h3⟩ := C47_exact fuel opts doc o h hlen tag hw hs t ht hp hb
  rw [if_neg (by omega)] at h3
  refine ⟨rs, h1, fun h4 => ?_⟩
  cases rs with
  | nil => simp only [Covers] at h3; omega
  | cons w rs =>
    obtain ⟨e1, _⟩ := h3
    obtain ⟨e2, _⟩ := h4
    omega

/-- `k` times the letter `x`. -/
def xs (k : Nat) : Text := List.replicate k (.byte (ch% 'x'))

theorem xs_bytes (k : Nat) : (xs k).bytes = List.replicate k (ch% 'x') := by
  induction k with
  | zero => rfl
  | succ k ih =>
    rw [xs, List.replicate_succ, List.replicate_succ, ← ih]
    rfl

theorem xs_ok (k : Nat) : (xs k).WellFormed ∧ ¬ HasPair (ch% ']') (ch% '>') (xs k).bytes := by
  refine ⟨⟨?_, ?_⟩, ?_⟩
  · intro p hp
    rw [List.eq_of_mem_replicate hp]
    simp only [Piece.WellFormed]
    decide +kernel
  · rw [xs_bytes]
    rintro ⟨u, v, h⟩
    have : (ch% ']' : UInt8) ∈ List.replicate k (ch% 'x' : UInt8) := by rw [← h]; simp
    exact absurd (List.eq_of_mem_replicate this) (by decide)
  · rw [xs_bytes]
    rintro ⟨u, v, h⟩
    have : (ch% ']' : UInt8) ∈ List.replicate k (ch% 'x' : UInt8) := by rw [← h]; simp
    exact absurd (List.eq_of_mem_replicate this) (by decide)

/-- Non-vacuity of C47_refuted and C47_partial: `<a>` and `</a>` around letters, a million or any other number. -/
example (k : Nat) (hk : k < 2 ^ 30) : (tag "a").WellFormed ∧ (tag "a").Supported 0 ∧ (xs k).WellFormed ∧
    ¬ HasPair (ch% ']') (ch% '>') (xs k).bytes ∧ (xs k).bytes.length = k ∧ (wrap (tag "a") (xs k).bytes).length < 2 ^ 31 ∧
    SelectRest [.xmlDoc (some (wrap (tag "a") (xs k).bytes))] (wrap (tag "a") (xs k).bytes) 0 := by
  have hl : (wrap (tag "a") (xs k).bytes).length < 2 ^ 31 := by
    rw [wrap, xs_bytes]
    simp only [List.length_append, List.length_cons, List.length_replicate]
    have h1 : (tag "a").bytes.length = 2 := rfl
    have h2 : (tag "a").name.length = 1 := rfl
    simp only [h1, h2, List.length_nil]; omega
  exact ⟨by decide +kernel, by decide +kernel, (xs_ok k).1, (xs_ok k).2, by rw [xs_bytes]; simp, hl, select_whole _ hl⟩

/-- Non-vacuity of C47_comment_exact and C47_cdata_exact: letters, a million or any other number. -/
example (k : Nat) : (Atom.comment (xs k).bytes).WellFormed ∧ (Atom.cdata (xs k).bytes).WellFormed ∧
    ¬ HasPair (ch% ']') (ch% '>') (xs k).bytes := by
  have hc : ∀ b ∈ (xs k).bytes, CharByte b := by
    rw [xs_bytes]
    intro b hb
    rw [List.eq_of_mem_replicate hb]
    decide +kernel
  have hx : ∀ b ∈ (xs k).bytes, b = ch% 'x' := by
    rw [xs_bytes]
    exact fun b hb => List.eq_of_mem_replicate hb
  refine ⟨⟨hc, ?_⟩, ⟨hc, ?_⟩, (xs_ok k).2⟩
  · rintro ⟨u, v, h⟩
    generalize (xs k).bytes = l at hx h
    simp only [List.append_assoc, List.cons_append, List.nil_append] at h
    cases l with
    | nil => rcases u with _ | ⟨a, u⟩ <;> simp at h
    | cons a l =>
      rcases u with _ | ⟨b, u⟩
      · simp only [List.nil_append, List.cons_append, List.cons.injEq] at h
        exact absurd (hx a (by simp)) (by rw [← h.1]; decide)
      · have h2 : (u ++ ch% '-' :: ch% '-' :: v).length = (l ++ [ch% '-']).length := by
          simp only [List.cons_append, List.cons.injEq] at h; rw [h.2]
        simp only [List.cons_append, List.cons.injEq] at h
        have h3 := congrArg (fun z => z[u.length]?) h.2
        simp only [List.length_append, List.length_cons, List.length_nil] at h2
        rw [List.getElem?_append_right (by omega), List.getElem?_append_left (by omega)] at h3
        simp only [Nat.sub_self, List.getElem?_cons_zero] at h3
        exact absurd (hx _ (List.mem_cons_of_mem _ (List.mem_of_getElem? h3.symm))) (by decide)
  · rintro ⟨u, v, h⟩
    exact absurd (hx (ch% ']') (by rw [← h]; simp)) (by decide)

end GoVtd
