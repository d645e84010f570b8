import Verif.Proofs.Parser.NsTag

/-!
# The invariant of the prefixes at the value of an attribute
-/

namespace GoVtd
namespace Parser
namespace Sound
open Paged Grammar Two Ev Plain

variable {c : ParserCfg} {p p' : Parser} {D : List UInt8} {A B V V' xs : List (BitVec 64)} {w w0 : BitVec 64} {i : Nat}
  {st st' : PState} {o0 : ParserOut} {es : List Mark} {stk : List (Nat × Nat)} {recs : List Rec}

/-- One more record that is not that of a name with a prefix. -/
theorem OpenTag.add {a a' : ParserAttr} (h : OpenTag D V a A B w0) (hs : ¬ IsStart w) (hp : ¬ Pfx D w)
    (h1 : a'.prefixedAttCount = a.prefixedAttCount) (h2 : a'.prefixedAttrNameSlice = a.prefixedAttrNameSlice)
    (h3 : a'.currentElementRecord = a.currentElementRecord) : OpenTag D (V ++ [w]) a' A (B ++ [w]) w0 := by
  have e : (B ++ [w]).filter (fun w => decide (Pfx D w)) = B.filter fun w => decide (Pfx D w) := by
    simp [hp]
  refine ⟨by rw [h.eq, List.append_assoc]; rfl, h.done, h.start, ?_, ?_, ?_, ?_, by rw [h3]; exact h.elem, by rw [h3]; exact h.shape, by rw [h3]; exact h.plain⟩
  · intro x hx
    rcases List.mem_append.mp hx with hx | hx
    · exact h.none x hx
    · rw [List.mem_singleton.mp hx]; exact hs
  · rw [e, h1]; exact h.count
  · rw [e, h2]; exact h.slots
  · intro x hx hpx
    rcases List.mem_append.mp hx with hx | hx
    · exact h.fit x hx hpx
    · rw [List.mem_singleton.mp hx] at hpx; exact absurd hpx hp

/-- One more name with a prefix. -/
theorem OpenTag.push {a a' : ParserAttr} (h : OpenTag D V a A B w0) (hs : ¬ IsStart w) (hp : Pfx D w) (hf : Fit D w)
    (h1 : a'.prefixedAttCount = a.prefixedAttCount + 1)
    (h2 : setAt a.prefixedAttrNameSlice a.prefixedAttCount (attEntry D w) = some a'.prefixedAttrNameSlice)
    (h3 : a'.currentElementRecord = a.currentElementRecord) : OpenTag D (V ++ [w]) a' A (B ++ [w]) w0 := by
  have e : (B ++ [w]).filter (fun w => decide (Pfx D w)) = B.filter (fun w => decide (Pfx D w)) ++ [w] := by
    simp [hp]
  have hc := h.count
  obtain ⟨hlt, hset⟩ : (B.filter fun w => decide (Pfx D w)).length < a.prefixedAttrNameSlice.length ∧
      a'.prefixedAttrNameSlice = a.prefixedAttrNameSlice.set (B.filter fun w => decide (Pfx D w)).length (attEntry D w) := by
    rw [hc] at h2
    unfold setAt at h2
    split at h2
    · cases h2
    · rename_i hh
      injection h2 with h2
      rw [← h2]
      exact ⟨by omega, by simp⟩
  refine ⟨by rw [h.eq, List.append_assoc]; rfl, h.done, h.start, ?_, ?_, ?_, ?_, by rw [h3]; exact h.elem, by rw [h3]; exact h.shape, by rw [h3]; exact h.plain⟩
  · intro x hx
    rcases List.mem_append.mp hx with hx | hx
    · exact h.none x hx
    · rw [List.mem_singleton.mp hx]; exact hs
  · rw [e, h1, hc]; simp
  · intro j x hj
    rw [e] at hj
    rw [hset]
    rcases append_cases hj with hj | ⟨hl, hj⟩
    · have := lt_of_some hj
      rw [List.getElem?_set_ne (by omega)]
      exact h.slots j x hj
    · have := lt_of_some hj
      simp only [List.length_singleton] at this
      have hj0 : j = (B.filter fun w => decide (Pfx D w)).length := by omega
      subst hj0
      simp only [Nat.sub_self, List.getElem?_cons_zero, Option.some.injEq] at hj
      rw [List.getElem?_set_self hlt, hj]
  · intro x hx hpx
    rcases List.mem_append.mp hx with hx | hx
    · exact h.fit x hx hpx
    · rw [List.mem_singleton.mp hx]; exact hf

theorem low_word {a b : Int} (h0 : 0 ≤ b) (h1 : b < 2 ^ 31) :
    low32 ((BitVec.ofInt 64 a <<< 32) ||| BitVec.ofInt 64 b) = b := by
  obtain ⟨n, rfl⟩ : ∃ n : Nat, b = n := ⟨b.toNat, by omega⟩
  have e : ((BitVec.ofInt 64 a <<< 32) ||| BitVec.ofInt 64 n).setWidth 32 = BitVec.ofNat 32 n := by
    ext i hi
    rw [BitVec.ofInt_natCast]
    simp [BitVec.getElem_setWidth, hi, BitVec.getLsbD_ofNat]
  unfold low32
  have e2 : (BitVec.ofNat 32 n).toNat = n := by rw [BitVec.toNat_ofNat]; omega
  rw [e, toInt32_of_lt (by omega), e2]

theorem attrValNs_val {u : Unit} (hb : Base c p) (hns : c.nsAware = true) (h0 : 0 ≤ p.length1)
    (h : attrValNs p = .ok u p') : p'.at_ = p.at_ ∧ p'.ns.nsBuffer3 = p.ns.nsBuffer3 ∧
      (∀ e, Held p'.ns.nsBuffer2 e → Held p.ns.nsBuffer2 e ∨ (p.length1 < 2 ^ 31 → 0 < low32 e)) ∧
      (p.at_.isNs = true → p.at_.defaultNs = false → p.at_.isXml = false ∧ 0 < p.length1) := by
  unfold attrValNs at h
  rw [M.bind_apply, M.get_apply, Res.andThen_ok, M.ite_apply] at h
  by_cases hi : p.at_.isNs = true
  · rw [if_pos ⟨by rw [hb.cfg]; exact hns, hi⟩, M.ite_apply] at h
    by_cases hl : (!p.at_.defaultNs) = true ∧ p.length1 = 0
    · rw [if_pos hl] at h; exact (Two.parseErr_ok h).elim
    rw [if_neg hl] at h
    obtain ⟨t, s1, x1, y1⟩ := bind_ok (m := identifyNsUrl) h
    have hQ := identifyNsUrl_qf.ok x1 hb.out hb.enc hb.ws
    have hN := identifyNsUrl_nf _ _ _ x1
    have a1 := hQ.at_
    have n1 := hQ.ns
    have l1 := hN.length1
    rw [M.bind_apply, M.get_apply, Res.andThen_ok, M.ite_apply] at y1
    by_cases hx : s1.at_.isXml = true ∧ t ≠ .url2000
    · rw [if_pos hx] at y1; exact (Two.parseErr_ok y1).elim
    rw [if_neg hx, M.ite_apply] at y1
    have rest : ∀ {s : Parser}, (if t ≠ .default then
          if t = .url1998 then parseErr ("namespace declation cannot point to " ++ XMLNS1998)
          else parseErr ("namespace declation cannot point to " ++ XMLNS2000)
        else pure () : M Parser Unit) s = .ok u p' → p' = s ∧ t = .default := by
      intro s hs
      rw [M.ite_apply] at hs
      split at hs
      · rw [M.ite_apply] at hs
        split at hs <;> exact (Two.parseErr_ok hs).elim
      · rename_i hd
        cases hs
        exact ⟨rfl, Decidable.not_not.mp hd⟩
    by_cases hd : (!s1.at_.defaultNs) = true
    · rw [if_pos hd] at y1
      obtain ⟨u2, s2, x2, y2⟩ := bind_ok (m := onNs2 _) y1
      obtain ⟨b2, hb2, e2⟩ := onNs2_val x2
      obtain ⟨rfl, ht⟩ := rest y2
      subst ht
      rw [a1] at hx hd
      have hlp : 0 < p.length1 := by
        have : ¬ p.length1 = 0 := fun hh => hl ⟨hd, hh⟩
        omega
      refine ⟨by rw [e2]; exact a1, by rw [e2, n1], ?_, fun _ _ => ⟨?_, hlp⟩⟩
      · intro e he
        rw [e2] at he
        rw [n1, l1] at hb2
        rcases append_held hb2 he with rfl | he
        · exact .inr fun h1 => by rw [low_word h0 h1]; exact hlp
        · exact .inl he
      · cases hv : p.at_.isXml with
        | false => rfl
        | true => exact absurd ⟨hv, by simp⟩ hx
    · rw [if_neg hd] at y1
      obtain ⟨rfl, -⟩ := rest y1
      refine ⟨a1, by rw [n1], fun e he => .inl (by rw [n1] at he; exact he), fun _ hdf => ?_⟩
      rw [a1, hdf] at hd
      exact absurd rfl hd
  · rw [if_neg (fun hh => hi hh.2)] at h
    cases h
    exact ⟨rfl, rfl, fun e he => .inl he, fun h' => absurd h' hi⟩

theorem inTag_more (h : InTag c p) (hb : Base c p) (hns : c.nsAware = true) (hm : valNext2 p = .ok st p') : NsInv c st p' := by
  have close : ∀ {s : Parser}, InTag c s → Base c s → attrValEnd s = .ok st p' → NsInv c st p' := by
    intro s h hb hm
    obtain ⟨h1, h2⟩ := closed_attrValEnd h hb hns hm
    obtain ⟨h3, h4⟩ := notAttr_ne h1
    rw [NsInv, if_neg h3, if_neg h4]
    exact h2
  unfold valNext2 at hm
  obtain ⟨u0, s0, x0, y0⟩ := bind_ok (m := nextChar) hm
  obtain ⟨b0, e0, hb0, -⟩ := (nextChar_byte hb).eq x0
  have hI0 : InTag c s0 := h.same (by rw [e0]; rfl) (by rw [e0]; rfl) (by rw [e0]; rfl)
  rw [M.bind_apply, M.get_apply, Res.andThen_ok, M.ite_apply] at y0
  split at y0
  · obtain ⟨u, s1, x1, y1⟩ := bind_ok (m := nextCharAfterWs) y0
    obtain ⟨r2, y, w, e1, hb1, -⟩ := (nextCharAfterWs_byte hb0).eq x1
    have hI : InTag c s1 := hI0.same (by rw [e1]; rfl) (by rw [e1]; rfl) (by rw [e1]; rfl)
    rw [M.bind_apply, M.get_apply, Res.andThen_ok, M.ite_apply] at y1
    split at y1
    · rw [M.bind_apply, M.modify_apply, Res.andThen_ok] at y1
      cases y1
      rw [NsInv, if_pos rfl]
      exact hI.same rfl rfl rfl
    · exact close hI hb1 y1
  · exact close hI0 hb0 y0

/-- `processAttrVal` without its end. -/
def valHead : M Parser Unit := do
  attrValRead
  attrValNs
  writeVtdWithLengthCheck .attrVal AttrValueTooLong
  M.modify fun p => { p with at_ := { p.at_ with isXml := false, isNs := false } }

theorem processAttrVal_head : processAttrVal = (do valHead; valNext2) := by
  rw [processAttrVal_eq]
  funext s
  simp only [valHead, attrValRest, valNext2, M.bind_apply]
  cases attrValRead s with
  | err e s' => rfl
  | panic => rfl
  | diverge => rfl
  | ok u s1 =>
    simp only [Res.andThen_ok, M.bind_apply]
    cases attrValNs s1 with
    | err e s' => rfl
    | panic => rfl
    | diverge => rfl
    | ok u s2 =>
      simp only [Res.andThen_ok, M.bind_apply]
      cases writeVtdWithLengthCheck _ _ s2 with
      | err e s' => rfl
      | panic => rfl
      | diverge => rfl
      | ok u s3 => rfl

/-- After the value of an attribute. -/
theorem val_inTag {uu : Unit} (h : G c o0 .attrVal p es stk recs) (hI : InVal c p) (hns : c.nsAware = true)
    (hm : valHead p = .ok uu p') : InTag c p' ∧ Base c p' := by
  have hB := h.inv.base
  obtain ⟨hmark, hmark2⟩ := hI.mark
  have ho0 := hB.off0
  have he1 := hB.end1
  have he2 := hB.end2
  unfold valHead at hm
  obtain ⟨u0, s1, h1, hm⟩ := bind_ok (m := attrValRead) hm
  obtain ⟨r, ch, hs1, hb1, hl1⟩ : ∃ r ch, s1 = { p.mv r r ch with length1 := r - p.lastOffset - 1 } ∧ Base c s1 ∧ p.rd.offset < r := by
    have hP : Post (attrValRead p) fun _ s1 => ∃ r ch, s1 = { p.mv r r ch with length1 := r - p.lastOffset - 1 } ∧
        Base c s1 ∧ p.rd.offset < r := by
      refine Post.get (Post.bind (sat_post (attrValLoop_ok _ hB (Enough.loopFuel hB hB.cfg))) ?_)
      rintro _ p' ⟨r, ch, rfl, hb, hl⟩
      refine ⟨r, ch, ?_, hb, by omega⟩
      have : ({ p.mv r r ch with length1 := r - p.lastOffset - p.enc.increment } : Parser) =
          { p.mv r r ch with length1 := r - p.lastOffset - 1 } := by rw [hB.inc]
      exact this
    exact hP.eq h1
  have hoff1 := hb1.off1
  have hoff2 := hb1.off2
  have ho1 := hB.off1
  have e1 : s1.length1 = r - p.lastOffset - 1 := by rw [hs1]
  have e2 : s1.lastOffset = p.lastOffset := by rw [hs1]; rfl
  have e3 : s1.rd.offset = r := by rw [hs1]; rfl
  have e4 : s1.at_ = p.at_ := by rw [hs1]; rfl
  have e5 : s1.out = p.out := by rw [hs1]; rfl
  have e6 : s1.ns = p.ns := by rw [hs1]; rfl
  obtain ⟨u3, s3, h3, hm⟩ := bind_ok (m := attrValNs) hm
  have hN := attrValNs_nf _ _ _ h3
  obtain ⟨a3, n33, n32, hx3⟩ := attrValNs_val hb1 hns (by omega) h3
  have hb3 : Base c s3 := hN.base hb1
  have l3 : s3.length1 = s1.length1 := hN.length1
  have f3 : s3.lastOffset = s1.lastOffset := hN.lastOffset
  have o3 : s3.out = s1.out := hN.out
  obtain ⟨u2, s2, h2, hm⟩ := bind_ok (m := writeVtdWithLengthCheck _ _) hm
  have hw : Post (writeVtdWithLengthCheck .attrVal AttrValueTooLong s3) fun _ s2 => s3.length1 < 2 ^ 20 ∧
      s2 = { s3 with out := Parser.emit s3.cfg.shallowDepth s3.out [⟨.attrVal, s3.lastOffset, s3.length1, s3.depth⟩] } := by
    refine Post.get ?_
    rw [hb3.single, if_pos rfl]
    refine Post.ite (fun _ => post_err _) fun hlen => ?_
    rw [writeVtd_emit hb3.out s3.cfg.shallowDepth _ _ _ _ (by decide)]
    exact ⟨by simp [maxTokenLength] at hlen; omega, rfl⟩
  obtain ⟨hlen, hs2⟩ := hw.eq h2
  cases hm
  dsimp only
  generalize hv : (⟨.attrVal, s3.lastOffset, s3.length1, s3.depth⟩ : Rec) = v at hs2
  obtain ⟨g1, -, g3⟩ := rec_fields (x := v) (by rw [← hv]; show 0 ≤ s3.lastOffset; omega)
    (by rw [← hv]; show s3.lastOffset < 2 ^ 31; omega) (by rw [← hv]; show 0 ≤ s3.length1; omega) (by rw [← hv]; exact hlen)
  have g1 : tokenType v.word = Token.attrVal.code := by rw [g1, ← hv]
  have g3 : tokenLength v.word = s3.length1.toNat := by rw [g3, ← hv]
  have hout2 : OutOk s2.out := by rw [hs2]; exact emit_ok hb3.out _ _
  have hb2 : Base c s2 := by rw [hs2]; exact hb3.ofOut (emit_ok hb3.out _ _)
  have hv2 : vals s2 = vals p ++ [v.word] := by
    rw [hs2]
    show (Parser.emit _ s3.out _).vtdBuffer.values = _
    rw [emit_values hb3.out, o3, e5]
    rfl
  have a2 : s2.at_ = p.at_ := by rw [hs2]; show s3.at_ = _; rw [a3, e4]
  obtain ⟨A, B, w0, hO⟩ := hI.opn
  obtain ⟨V', w, hV, hD, hq⟩ := hI.last
  generalize hs4 : ({ s2 with at_ := { s2.at_ with isXml := false, isNs := false } } : Parser) = s4
  have hns : ¬ IsStart v.word := fun hh => by
    have hh : tokenType v.word = Token.startingTag.code := hh
    rw [g1] at hh; exact absurd hh (by decide)
  have hnp : ¬ Pfx c.xmlDoc v.word := fun hh => by
    have hh := hh.1
    rw [g1] at hh; exact absurd hh (by decide)
  refine ⟨?_, by rw [← hs4]; exact hb2⟩
  have hv4 : vals s4 = vals p ++ [v.word] := by rw [← hs4]; exact hv2
  refine ⟨?_, ⟨A, B ++ [v.word], w0, ?_⟩, ?_, ?_, ?_⟩
  · have hn4 : s4.ns = s3.ns := by rw [← hs4]; show s2.ns = _; rw [hs2]
    have ha4 : s4.at_ = { p.at_ with isXml := false, isNs := false } := by rw [← hs4, ← a2]
    refine ⟨?_, ?_, ?_⟩
    · unfold NsLists; rw [ha4]; exact hI.com.lists
    · rw [hn4]
      intro e he
      rcases n32 e he with he | he
      · rw [e6] at he; exact hI.com.urls e he
      · exact he (by omega)
    · rw [hn4]
      intro e he
      rw [n33, e6] at he
      exact (hI.com.entries e he).mono fun w hw => by rw [hv4]; exact List.mem_append_left _ hw
  · rw [hv4]
    exact hO.add hns hnp (by rw [← hs4]; show s2.at_.prefixedAttCount = _; rw [a2])
      (by rw [← hs4]; show s2.at_.prefixedAttrNameSlice = _; rw [a2])
      (by rw [← hs4]; show s2.at_.currentElementRecord = _; rw [a2])
  · rw [hv4, hV]
    refine hD.pair g1 fun q hdq => ?_
    obtain ⟨k1, k2, k3, k4⟩ := hq q hdq
    rw [e4] at hx3
    obtain ⟨k5, k6⟩ := hx3 k1 k2
    refine ⟨fun hh => ?_, k3, by omega⟩
    rw [k4 hh] at k5; cases k5
  · rw [← hs4]
  · rw [← hs4]

theorem step_val (h : G c o0 .attrVal p es stk recs) (hI : InVal c p) (hns : c.nsAware = true)
    (hm : processAttrVal p = .ok st p') : NsInv c st p' := by
  rw [processAttrVal_head] at hm
  obtain ⟨u, s1, x1, y1⟩ := bind_ok hm
  obtain ⟨h1, h2⟩ := val_inTag h hI hns x1
  exact inTag_more h1 h2 hns y1

end Sound
end Parser
end GoVtd
