import Verif.Proofs.Parser.Tags

/-!
# Steps over attributes
-/

namespace GoVtd
namespace Parser
open Paged
variable {c : ParserCfg} {p : Parser}

theorem skipCharSeq_cur (seq : List Nat) (hseq : ∀ x ∈ seq, x ≠ 0) {p : Parser} (hb : Base c p) :
    (skipCharSeq seq p).Sat (fun _ p' => ∃ r, p' = p.mv r r p.currentChar ∧ Base c p' ∧ p.rd.offset ≤ r)
      (Er c) (Pn c) False := by
  induction seq generalizing p with
  | nil =>
    rw [skipCharSeq_nil]
    exact ⟨_, rfl, hb.mv _ (Int.le_trans hb.off0 hb.off1) (Int.le_refl _) hb.off2 hb.sent,
      Int.le_refl _⟩
  | cons ch seq ih =>
    rw [skipCharSeq_cons]
    refine Res.Sat.andThen ((skipChar_sat hb (hseq ch (by simp))).mono (fun b p' hm => ?_)
      (fun _ _ h => h) id id)
    obtain ⟨rfl, hb'⟩ := hm
    cases b
    · exact ⟨_, rfl, hb', by simp⟩
    · refine (ih (fun x hx => hseq x (by simp [hx])) hb').mono (fun _ _ h => ?_) (fun _ _ h => h) id id
      obtain ⟨r, rfl, hb2, hl⟩ := h
      simp at hl
      exact ⟨r, rfl, hb2, by omega⟩

theorem attrNsTest_ok (hb : Base c p) (ho : p.offset = p.rd.offset)
    (hcur : isNameChar p.currentChar = true) :
    (attrNsTest p).Sat (fun _ p' => ∃ a b r ch,
      p' = ({ p with at_ := { p.at_ with isNs := a, defaultNs := b } } : Parser).mv r r ch ∧
      Base c p' ∧ p.rd.offset ≤ r ∧ (isNameChar ch = true ∨ r ≤ c.endOffset)) (Er c) (Pn c) False := by
  have hself : p = ({ p with at_ := { p.at_ with isNs := p.at_.isNs, defaultNs := p.at_.defaultNs } } :
      Parser).mv p.rd.offset p.rd.offset p.currentChar := by
    show p = p.mv p.rd.offset p.rd.offset p.currentChar
    conv => lhs; rw [← mv_self p, ho]
  refine bind_get (ite_sat (fun hx => ?_) fun _ => ?_)
  · refine Res.Sat.bind ((skipCharSeq_cur _ (by decide) hb)) fun b p' hm => ?_
    obtain ⟨r, rfl, hb', hl⟩ := hm
    refine ite_sat (fun _ => ?_) fun _ => ?_
    · refine Res.Sat.bind (nextChar_moved hb') fun _ p' ⟨hm, hle⟩ => bind_get ?_
      obtain ⟨r2, ch2, rfl, hb2, hl2⟩ := hm
      simp only [mv_rdOffset] at hl2 hle
      refine ite_sat (fun _ => ?_) fun _ => ite_sat (fun _ => ?_) fun _ => ?_
      · exact ⟨true, true, r2, ch2, rfl, hb2, by omega, Or.inr hle⟩
      · exact ⟨true, false, r2, ch2, rfl, hb2, by omega, Or.inr hle⟩
      · exact ⟨p.at_.isNs, p.at_.defaultNs, r2, ch2, rfl, hb2, by omega, Or.inr hle⟩
    · exact ⟨p.at_.isNs, p.at_.defaultNs, r, p.currentChar, rfl, hb', by omega, Or.inl hcur⟩
  · exact ⟨p.at_.isNs, p.at_.defaultNs, p.rd.offset, p.currentChar, hself, hb, by omega, Or.inl hcur⟩

theorem attrNameLoop_ok {fuel : Nat} {p : Parser} (hb : Base c p) (ho : p.offset = p.rd.offset)
    (hcur : isNameChar p.currentChar = true ∨ p.rd.offset ≤ c.endOffset) (hf : Enough c p fuel) :
    (attrNameLoop fuel p).Sat (fun _ p' => ∃ l r ch, p' = ({ p with length2 := l } : Parser).mv r r ch ∧
      Base c p' ∧ p.rd.offset ≤ r ∧ r ≤ c.endOffset) (Er c) (Pn c) False := by
  induction fuel generalizing p with
  | zero => obtain ⟨n, hn⟩ := hf.pos hb; omega
  | succ fuel ih =>
    refine bind_get (ite_sat (fun _ => ite_sat (fun _ => bind_modify ?_) fun _ => ?_) fun hx => ?_)
    · refine Res.Sat.bind (nextChar_moved (by exact hb)) fun _ p' ⟨hm, hle⟩ => ?_
      obtain ⟨r, ch, rfl, hb', hl⟩ := hm
      simp only [mv_rdOffset] at hl hle
      refine (ih hb' rfl (Or.inr hle) (hf.step (by simp; omega))).mono (fun _ _ h => ?_)
        (fun _ _ h => h) id id
      obtain ⟨l, r3, ch3, rfl, hb3, h3, h4⟩ := h
      simp only [mv_rdOffset] at h3
      exact ⟨l, r3, ch3, rfl, hb3, by omega, h4⟩
    · refine Res.Sat.bind (nextChar_moved (by exact hb)) fun _ p' ⟨hm, hle⟩ => ?_
      obtain ⟨r, ch, rfl, hb', hl⟩ := hm
      simp only [mv_rdOffset] at hl hle
      refine (ih hb' rfl (Or.inr hle) (hf.step (by simp; omega))).mono (fun _ _ h => ?_)
        (fun _ _ h => h) id id
      obtain ⟨l, r3, ch3, rfl, hb3, h3, h4⟩ := h
      simp only [mv_rdOffset] at h3
      exact ⟨l, r3, ch3, rfl, hb3, by omega, h4⟩
    · refine ⟨p.length2, p.rd.offset, p.currentChar, ?_, hb, by omega, by
        rcases hcur with h | h
        · exact absurd h hx
        · exact h⟩
      show p = p.mv p.rd.offset p.rd.offset p.currentChar
      conv => lhs; rw [← mv_self p, ho]

theorem attrNsDecl_eq (hns : p.cfg.nsAware = false) : attrNsDecl p = .ok () p := by
  simp only [attrNsDecl, M.bind_apply, M.get_apply, Res.andThen_ok, hns, Bool.false_eq_true, if_false,
    M.pure_apply, false_and, and_false]

theorem pushPrefixedAttr_eq (hns : p.cfg.nsAware = false) : pushPrefixedAttr p = .ok () p := by
  simp only [pushPrefixedAttr, M.bind_apply, M.get_apply, Res.andThen_ok, hns, Bool.false_eq_true,
    if_false, M.pure_apply, false_and]

theorem uniqueLoop_eq (hp : p.cfg = c) (hs : SlotsCore c p.tagStack p.at_ p.depth)
    (hin : InDoc c p.lastOffset p.length1) (n : Nat) {i : Int} (h0 : 0 ≤ i) (h1 : i + n ≤ 256)
    (u : Bool) : ∃ b, uniqueLoop n i u p = .ok b p := by
  induction n generalizing i u with
  | zero => exact ⟨u, rfl⟩
  | succ n ih =>
    have hi : i.toNat < p.at_.attrNameSlice.length := by rw [hs.attLen]; omega
    simp only [uniqueLoop, M.bind_apply, M.get_apply, Res.andThen_ok]
    rw [M.index_of_lt _ _ _ h0 hi]
    simp only [Res.andThen_ok, M.ite_apply, M.bind_apply]
    have he := hs.atts _ (List.getElem_mem hi)
    obtain ⟨e0, e1, e2⟩ := he
    obtain ⟨l0, l1, l2⟩ := hin
    split
    · rename_i heq
      obtain ⟨b, hb⟩ := sameBytes_eq hp (low32 p.at_.attrNameSlice[i.toNat]).toNat
        (a := high32 p.at_.attrNameSlice[i.toNat]) (b := p.lastOffset) ⟨e0, by omega, by omega⟩
        ⟨l0, by omega, by omega⟩
      rw [hb, Res.andThen_ok]
      exact ih (by omega) (by omega) _
    · exact ih (by omega) (by omega) _

theorem checkAttrUniqueness_sat (hb : Base c p) (hns : c.nsAware = false)
    (hs : SlotsCore c p.tagStack p.at_ p.depth)
    (hin : InDoc c p.lastOffset p.length1) (he : p.lastOffset + p.length1 < c.endOffset) :
    (checkAttrUniqueness p).Sat (fun _ p' => ∃ l n,
        p' = { p with at_ := { p.at_ with attrNameSlice := l, attrCount := n } } ∧
        SlotsCore c p'.tagStack p'.at_ p'.depth)
      (Er c) (p.at_.attrCount = 256) False := by
  have h0 := hs.cnt0
  have h1 := hs.cnt1
  have he2 := hb.end2
  obtain ⟨l0, l1, l2⟩ := hin
  obtain ⟨b, hu⟩ := uniqueLoop_eq hb.cfg hs ⟨l0, l1, l2⟩ p.at_.attrCount.toNat (i := 0) (by omega) (by omega) true
  refine bind_get ?_
  rw [M.bind_apply, hu, Res.andThen_ok]
  refine ite_sat (fun _ => parseErr_sat hb _) fun _ => ?_
  · simp only [setAt]
    by_cases hf : p.at_.attrCount = 256
    · rw [if_pos (by rw [hs.attLen]; omega)]
      exact hf
    · rw [if_neg (by rw [hs.attLen]; omega)]
      refine bind_modify ?_
      rw [pushPrefixedAttr_eq (by show p.cfg.nsAware = false; rw [hb.cfg]; exact hns)]
      refine ⟨_, _, rfl, { hs with attLen := by simp [hs.attLen], cnt0 := by simp; omega, cnt1 := by simp; omega, atts := fun t ht => ?_ }⟩
      rcases List.mem_or_eq_of_mem_set ht with ht | rfl
      · exact hs.atts t ht
      · have hp := packOr_toNat l0 (by omega) l1 (by omega : p.length1 < 2 ^ 32)
        rw [low32_of hp (by omega), high32_of hp (by omega) (by omega)]
        exact ⟨by omega, by omega, by omega⟩

theorem writeAttrName_ok (hb : Base c p) (hns : c.nsAware = false) : OkW c p (writeAttrName p) := by
  have hn : p.cfg.nsAware = false := by rw [hb.cfg]; exact hns
  refine bind_get ?_
  rw [if_neg (by simp [hn])]
  rw [hb.single, if_pos rfl]
  exact OkW.ite (fun _ => parseErr_sat hb _) fun _ => writeVtd_ok hb _ _ _ _

theorem attrNameEnd_ok (hb : Base c p) (hs : SlotsCore c p.tagStack p.at_ p.depth) (h0 : 0 ≤ p.depth)
    (hd : p.depth ≤ 254) {lo : Int} (hlo : lo ≤ p.rd.offset) : StepOk c lo (attrNameEnd p) := by
  have key : ∀ q : Parser, Base c q → SlotsCore c q.tagStack q.at_ q.depth → 0 ≤ q.depth →
      q.depth ≤ 254 → lo ≤ q.rd.offset → StepOk c lo ((do
        let p ← M.get
        if p.currentChar ≠ ch% '=' then parseErr InvalidChar
        else do
          nextCharAfterWs
          let p ← M.get
          if p.currentChar ≠ ch% '"' ∧ p.currentChar ≠ ch% '\'' then
            parseErr (InvalidChar ++ " should be ' or \" ")
          else do
            markOffset
            pure PState.attrVal : M Parser PState) q) := by
    intro q hb hs h0 hd hlo
    refine bind_get (ite_sat (fun _ => parseErr_sat hb _) fun _ => ?_)
    refine Res.Sat.bindMoved (nextCharAfterWs_ok hb) fun _ r ch hb hl => bind_get ?_
    refine ite_sat (fun _ => parseErr_sat hb _) fun _ => markOffset_bind ?_
    exact ⟨⟨hb, hs, fun _ => hd, fun _ => h0, by simp, by simp, by simp⟩, by simp; omega⟩
  refine bind_modify (bind_get (ite_sat (fun _ => ?_) fun _ => ?_))
  · refine Res.Sat.bindMoved (nextCharAfterWs_ok (by exact hb)) fun _ r ch hb hl => ?_
    simp only at hl
    exact key _ hb hs h0 hd (by simp; omega)
  · exact key _ hb hs h0 hd hlo

/-- What a step achieves, with the panics that only some documents can cause. -/
abbrev StepOk2 (c : ParserCfg) (X : Prop) (lo : Int) (r : Res Parser PState) : Prop :=
  r.Sat (fun st' p' => Inv c st' p' ∧ lo < p'.rd.offset) (Er c) (Pn c ∨ X) False

theorem StepOk.weaken {X : Prop} {lo : Int} {r : Res Parser PState} (h : StepOk c lo r) :
    StepOk2 c X lo r := h.mono (fun _ _ h => h) (fun _ _ h => h) Or.inl id

theorem _root_.GoVtd.Res.Sat.panicMono {α : Type} {r : Res Parser α} {Q : α → Parser → Prop}
    {E : GoErr → Parser → Prop} {P P' D : Prop} (h : r.Sat Q E P D) (hp : P → P') : r.Sat Q E P' D :=
  h.mono (fun _ _ h => h) (fun _ _ h => h) hp id

theorem attrNameRest_ok {q : Parser} (hqb : Base c q) (hns : c.nsAware = false)
    (hqs : SlotsCore c q.tagStack q.at_ q.depth) (h0 : 0 ≤ q.depth) (hd : q.depth ≤ 254)
    (hl : 0 ≤ q.lastOffset) (hl1 : 0 ≤ q.length1) (he : q.lastOffset + q.length1 < c.endOffset)
    {lo : Int} (hlo : lo ≤ q.rd.offset) :
    StepOk2 c (q.at_.attrCount = 256) lo ((attrNsDecl >>= fun _ => checkAttrUniqueness >>= fun _ =>
      writeAttrName >>= fun _ => attrNameEnd) q) := by
  have hqn : q.cfg.nsAware = false := by rw [hqb.cfg]; exact hns
  have he1 := hqb.end1
  rw [M.bind_apply, attrNsDecl_eq hqn, Res.andThen_ok]
  refine Res.Sat.bind ((checkAttrUniqueness_sat hqb hns hqs ⟨by omega, by omega, by omega⟩
    (by omega)).panicMono Or.inr) fun _ p' hp => ?_
  obtain ⟨l, n, rfl, hs'⟩ := hp
  refine Res.Sat.bind ((writeAttrName_ok (by exact hqb) hns).panicMono Or.inl) fun _ p' hp => ?_
  obtain ⟨o, rfl, hb3⟩ := hp
  exact StepOk.weaken (attrNameEnd_ok hb3 hs' (by simp; omega) (by simp; omega) (by simp; omega))

theorem processAttrName_ok (h : Inv c .attrName p) (hns : c.nsAware = false) :
    StepOk2 c (p.at_.attrCount = 256) p.rd.offset (processAttrName p) := by
  have hs := h.slots
  have h0 := h.start (by simp)
  obtain ⟨hn0, hn1, hn2⟩ := h.name (by simp)
  have hsy := h.sync (by simp)
  have hcur := h.cur rfl
  have hd := h.deep (by decide)
  have hn : p.cfg.nsAware = false := by rw [h.base.cfg]; exact hns
  refine Res.Sat.bind ((attrNsTest_ok h.base hsy hcur).panicMono Or.inl) fun _ p' hp => bind_get ?_
  obtain ⟨a, b, r, ch, rfl, hb, hl, hc⟩ := hp
  refine Res.Sat.bind ((attrNameLoop_ok hb rfl hc (Enough.loopFuel hb hb.cfg)).panicMono Or.inl)
    fun _ p' hp => ?_
  obtain ⟨l2, r2, ch2, rfl, hb2, hl2, he⟩ := hp
  simp only [mv_rdOffset] at hl2
  rw [M.bind_apply, getPrevOffset_eq hb2, Res.andThen_ok]
  refine bind_modify ?_
  have he1 := hb.end1
  exact attrNameRest_ok (by exact hb2) hns (by exact { hs with }) (by exact h0) (by exact hd)
    (by exact hn0) (by show 0 ≤ r2 - 1 - p.lastOffset; omega)
    (by show p.lastOffset + (r2 - 1 - p.lastOffset) < _; omega) (by simp; omega)

theorem attrValLoop_ok (quote : Nat) {fuel : Nat} {p : Parser} (hb : Base c p) (hf : Enough c p fuel) :
    Ok1 c p (attrValLoop quote fuel p) := by
  induction fuel generalizing p with
  | zero => obtain ⟨n, hn⟩ := hf.pos hb; omega
  | succ fuel ih =>
    refine Ok1.bind (nextChar_ok hb) fun ch p' hb' ho hlt => Ok.get ?_
    refine ite_ok (fun _ => ite_ok (fun _ => Ok.pure hb' ho _) fun _ => ite_ok (fun _ => ?_) fun _ =>
      Ok.of_ok1 (ih hb' (hf.step hlt))) fun _ => parseErr_ok hb' _
    refine Ok.bind (entityIdentifier_ok hb') fun _ p2 hb2 _ hle => ?_
    exact ite_ok (fun _ => Ok.of_ok1 (ih hb2 (hf.step (by omega)))) fun _ => parseErr_ok hb2 _

theorem attrValNs_eq (hns : p.cfg.nsAware = false) : attrValNs p = .ok () p := by
  simp only [attrValNs, M.bind_apply, M.get_apply, Res.andThen_ok, hns, Bool.false_eq_true, if_false,
    M.pure_apply, false_and]

theorem attrValQualify_eq (hns : p.cfg.nsAware = false) : attrValQualify p = .ok () p := by
  simp only [attrValQualify, M.bind_apply, M.get_apply, Res.andThen_ok, hns, Bool.false_eq_true, if_false,
    M.pure_apply]

theorem attrValEnd_ok (hb : Base c p) (hns : c.nsAware = false)
    (hs : SlotsCore c p.tagStack p.at_ p.depth) (h0 : 0 ≤ p.depth) (hd : p.depth ≤ 254) {lo : Int}
    (hlo : lo < p.rd.offset) : StepOk c lo (attrValEnd p) := by
  have hn : p.cfg.nsAware = false := by rw [hb.cfg]; exact hns
  refine bind_modify (bind_get (ite_sat (fun _ => ?_) fun _ => ?_))
  · refine bind_modify (Res.Sat.bindMoved (nextChar_ok (by exact hb)) fun _ r ch hb' hl => ?_)
    refine bind_get (ite_sat (fun _ => ?_) fun _ => parseErr_sat (by exact hb') _)
    simp only at hl
    rw [M.bind_apply, attrValQualify_eq (by exact hn), Res.andThen_ok]
    refine bind_modify ?_
    exact processElementTail_ok (by exact hb')
      (by exact { hs with dep0 := by simp; omega, dep1 := by simp; omega, cnt0 := by simp, cnt1 := by simp })
      (by simp; omega) (by simp; omega)
  · refine bind_get (ite_sat (fun _ => ?_) fun _ => parseErr_sat (by exact hb) _)
    rw [M.bind_apply, attrValQualify_eq (by exact hn), Res.andThen_ok]
    refine bind_modify ?_
    exact processElementTail_ok (by exact hb) (by exact { hs with cnt0 := by simp, cnt1 := by simp })
      (by exact hd) (by exact hlo)

theorem processAttrVal_ok (h : Inv c .attrVal p) (hns : c.nsAware = false) :
    StepOk c p.rd.offset (processAttrVal p) := by
  have hs := h.slots
  have h0 := h.start (by simp)
  have hd := h.deep (by decide)
  have hn : p.cfg.nsAware = false := by rw [h.base.cfg]; exact hns
  refine bind_get (Res.Sat.bindMoved (attrValLoop_ok _ h.base (Enough.loopFuel h.base h.base.cfg))
    fun _ r ch hb hl => bind_modify ?_)
  rw [M.bind_apply, attrValNs_eq (by exact hn), Res.andThen_ok]
  refine Res.Sat.bindWrote (writeVtdWithLengthCheck_ok (by exact hb) _ _) fun _ o hb => bind_modify ?_
  refine Res.Sat.bind (nextChar_moved (by exact hb)) fun _ p' ⟨hm, hle⟩ => bind_get ?_
  obtain ⟨r2, ch2, rfl, hb2, hl2⟩ := hm
  simp only [mv_rdOffset] at hl2
  have hr : 0 ≤ r := hb.off0
  refine ite_sat (fun _ => ?_) fun _ => ?_
  · refine Res.Sat.bind (nextCharAfterWs_moved (by exact hb2)) fun _ p' ⟨hm, hle⟩ => bind_get ?_
    obtain ⟨r3, ch3, rfl, hb3, hl3⟩ := hm
    simp only [mv_rdOffset] at hl3 hle
    refine ite_sat (fun hnm => bind_modify ?_) fun _ => ?_
    · have hinc : p.enc.increment = 1 := h.base.inc
      refine ⟨⟨hb3, { hs with }, fun _ => hd, fun _ => h0, fun _ => ⟨?_, ?_, hle⟩,
        fun _ => isNameStartChar_nameChar hnm, fun _ => rfl⟩, ?_⟩
      · show 0 ≤ r3 - p.enc.increment
        omega
      · show r3 - p.enc.increment < r3
        omega
      · simp; omega
    · exact attrValEnd_ok (by exact hb3) hns (by exact { hs with }) (by exact h0) (by exact hd)
        (by simp; omega)
  · exact attrValEnd_ok (by exact hb2) hns (by exact { hs with }) (by exact h0) (by exact hd)
      (by simp; omega)

end Parser
end GoVtd
