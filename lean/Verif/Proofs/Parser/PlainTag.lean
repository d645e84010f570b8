import Verif.Proofs.Parser.Plain

/-!
# A start tag of a document without prefixes, with and without namespace awareness
-/

namespace GoVtd
namespace Parser
namespace Plain
open Paged Grammar Two Ev

variable {f : Nat} {n n' : ParserNs} {s t : Parser} {c : ParserCfg}

/-- Every record is that of a document without prefixes. -/
def Clean (c : ParserCfg) (o : ParserOut) : Prop := NoPrefixes c.xmlDoc o.vtdBuffer.values

theorem af_ok {α : Type} {m : M Parser α} (h : Fr AF m) {a : α} {s' : Parser} (hm : m s = .ok a s')
    (h1 : OutOk s.out) (h2 : s.enc = stdEnc) (h3 : s.ws = false) : AFrame s s' := by
  have := h s
  rw [hm] at this
  exact this h1 h2 h3

/-- A record that has been written stays written. -/
theorem _root_.GoVtd.Parser.Ev.AFrame.mem {s' : Parser} (h : AFrame s s') (h1 : OutOk s.out) {w : BitVec 64} (hw : w ∈ s.out.vtdBuffer.values) :
    w ∈ s'.out.vtdBuffer.values := by
  obtain ⟨xs, hx⟩ := h.out
  rw [hx, emit_values h1]
  exact List.mem_append_left _ hw

/-- `processStartTag` after the name. -/
def tagRest2 : M Parser PState := do
  let p ← M.get
  if isSpaceChar p.currentChar then do
    nextCharAfterWs
    let p ← M.get
    if isNameStartChar p.currentChar then do
      let offset ← getPrevOffset
      M.modify fun p => { p with lastOffset := offset }
      pure .attrName
    else startTagEnd
  else startTagEnd

theorem tagRest2_pr (hr : PR f n s t) (hN : N n) {st : PState} {q : Parser} (hm : tagRest2 s = .ok st q) :
    ∃ t' n', tagRest2 t = .ok st t' ∧ PR f n' q t' ∧ N n' := by
  have e := (pr_nice.same hr).currentChar
  simp only [tagRest2, M.bind_apply, M.get_apply, Res.andThen_ok, M.ite_apply, e] at hm ⊢
  by_cases hc : isSpaceChar s.currentChar = true
  · rw [if_pos hc] at hm ⊢
    obtain ⟨u, s1, h1, hm⟩ := bind_ok (m := nextCharAfterWs) hm
    obtain ⟨t1, h2, hr1⟩ := sim_ok' (nextCharAfterWs_sim pr_nice) hr h1
    rw [h2, Res.andThen_ok]
    have e1 := (pr_nice.same hr1).currentChar
    simp only [M.bind_apply, M.get_apply, Res.andThen_ok, M.ite_apply, e1] at hm ⊢
    by_cases hx : isNameStartChar s1.currentChar = true
    · rw [if_pos hx] at hm ⊢
      obtain ⟨o, s2, h3, hm⟩ := bind_ok (m := getPrevOffset) hm
      obtain ⟨t2, h4, hr2⟩ := sim_ok' (getPrevOffset_sim pr_nice) hr1 h3
      rw [h4]
      cases hm
      exact ⟨_, n, rfl, ⟨by rw [hr2.eq]; rfl, hr2.off, hr2.enc, hr2.elem, hr2.count, hr2.xml⟩, hN⟩
    · rw [if_neg hx] at hm ⊢
      exact startTagEnd_pr hr1 hN hm
  · rw [if_neg hc] at hm ⊢
    exact startTagEnd_pr hr hN hm

/-- `processStartTag` after the record is written. -/
def tagRest : M Parser PState := do
  startTagNs
  M.modify fun p => { p with length2 := 0 }
  tagRest2

theorem tagRest_af : Fr AF tagRest := by unfold tagRest tagRest2; af

theorem tagRest_pr (hr : PR f n s t) (hN : N n) (hl : s.length2 = 0) (hd : s.depth ≤ 64)
    (hd0 : 0 ≤ s.depth) (h1 : n.nsBuffer1.size ≠ 0 → 1 ≤ s.depth) {st : PState} {q : Parser} (hm : tagRest s = .ok st q) :
    ∃ t' n', tagRest t = .ok st t' ∧ PR f n' q t' ∧ N n' := by
  obtain ⟨n1, hn1, hN1⟩ := startTagNs_pr hr hN hl hd hd0 h1
  have hr1 := hr.to n1
  have hleft : startTagNs s = .ok () s := by
    simp only [startTagNs, M.bind_apply, M.get_apply, Res.andThen_ok, hr.off]
    rfl
  simp only [tagRest] at hm ⊢
  rw [M.bind_apply, hleft, Res.andThen_ok, M.bind_apply, M.modify_apply, Res.andThen_ok] at hm
  rw [M.bind_apply, hn1, Res.andThen_ok, M.bind_apply, M.modify_apply, Res.andThen_ok]
  refine tagRest2_pr (s := { s with length2 := 0 }) ?_ hN1 hm
  exact ⟨rfl, hr1.off, hr1.enc, hr1.elem, hr1.count, hr1.xml⟩

theorem processStartTag_eq : processStartTag = (do
    let p ← M.get
    startTagLoop p.loopFuel
    M.modify fun p => { p with length1 := p.offset - p.lastOffset - p.enc.increment }
    let p ← M.get
    if p.depth > maxDepth then parseErr MaximumDepthExceeded
    else do
      pushTag
      M.modify fun p => { p with vtdDepth := if p.depth > p.vtdDepth then p.depth else p.vtdDepth }
      writeStartTag
      tagRest) := rfl

theorem startTag_pr {o0 : ParserOut} {es : List Mark} {stk : List (Nat × Nat)} {recs : List Rec} (h : G c o0 .tagStart s es stk recs) (hr : PR f n s t) (hN : N n)
    (hW : n.nsBuffer1.size ≠ 0 → 1 ≤ s.depth) {st : PState} {q : Parser} (hm : processStartTag s = .ok st q)
    (hC : Clean c q.out) : ∃ t' n', processStartTag t = .ok st t' ∧ PR f n' q t' ∧ N n' ∧
      ∃ w ∈ q.out.vtdBuffer.values, IsStart w := by
  have hs := h.inv.slots
  have h0 := h.inv.start (by simp)
  obtain ⟨hn0, hn1, hn2⟩ := h.inv.name (by simp)
  have hk := h.k
  rw [if_pos rfl, if_pos rfl] at hk
  obtain ⟨k, hk4, hk0, hkq, hko, b0, hb0, hsb⟩ := h.tagS rfl
  have hsy := h.inv.sync (by simp)
  have hinc : s.enc.increment = 1 := h.inv.base.inc
  have he1 := h.inv.base.end1
  have he2 := h.inv.base.end2
  have hdep := hk.depth
  have hlen2 := hk.len2
  rw [processStartTag_eq] at hm ⊢
  rw [M.bind_apply, M.get_apply, Res.andThen_ok] at hm ⊢
  obtain ⟨u, s1, hL, hm⟩ := bind_ok (m := startTagLoop s.loopFuel) hm
  obtain ⟨l, r, x, run, hp, hb, hr0, hre, hx, hnx, hrun, hdrop, hl0⟩ := (startTagLoop_post h.inv.base).eq hL
  have hcol := hl0 (k + 1) 0 (by rw [hlen2]; rfl) (by omega)
  have hl0 : 0 ≤ l := by omega
  rw [M.bind_apply, M.modify_apply, Res.andThen_ok, M.bind_apply, M.get_apply, Res.andThen_ok, M.ite_apply] at hm
  generalize hq : ({ s1 with length1 := s1.offset - s1.lastOffset - s1.enc.increment } : Parser) = s2 at hm
  have hq1 : s2.length1 = r - s.lastOffset := by subst hq hp; simp [hinc]; omega
  have hq2 : s2.length2 = l := by subst hq hp; rfl
  have hqb : Base c s2 := by subst hq; exact hb
  have hql : s2.lastOffset = s.lastOffset := by subst hq hp; rfl
  have hqd : s2.depth = s.depth := by subst hq hp; rfl
  have hqs : SlotsCore c s2.tagStack s2.at_ s2.depth := by subst hq hp; exact hs
  by_cases hd : s2.depth > maxDepth
  · rw [if_pos hd] at hm
    exact ((post_err (p := s2) (Q := fun _ _ => False) MaximumDepthExceeded).eq hm).elim
  rw [if_neg hd] at hm
  have hd' : s2.depth ≤ 254 := by simpa [maxDepth] using hd
  obtain ⟨tg, ht, htlo, hthi, hts⟩ := pushTag_post hqs (by omega) (by omega) (by omega) (by omega) he2 he1
  rw [M.bind_apply, ht, Res.andThen_ok, M.bind_apply, M.modify_apply, Res.andThen_ok] at hm
  generalize hq3 : ({ s2 with
    tagStack := s2.tagStack.set s2.depth.toNat tg,
    vtdDepth := if s2.depth > s2.vtdDepth then s2.depth else s2.vtdDepth } : Parser) = s3 at hm
  have hb3 : Base c s3 := by subst hq3; exact hqb
  obtain ⟨u', s4, hw, hm⟩ := bind_ok (m := writeStartTag) hm
  obtain ⟨hl2, hl1, hs4, hb4⟩ := (writeStartTag_post hb3).eq hw
  have e31 : s3.length1 = s2.length1 := by subst hq3; rfl
  have e32 : s3.length2 = s2.length2 := by subst hq3; rfl
  have e33 : s3.lastOffset = s2.lastOffset := by subst hq3; rfl
  have e34 : s3.depth = s2.depth := by subst hq3; rfl
  have hout4 : OutOk s4.out := hb4.out
  have hAF := af_ok tagRest_af hm hout4 hb4.enc hb4.ws
  -- the record
  have hmem : (startRec s3).word ∈ q.out.vtdBuffer.values := by
    apply hAF.mem hout4
    rw [hs4]
    show _ ∈ (Parser.emit c.shallowDepth s3.out [startRec s3]).vtdBuffer.values
    rw [emit_values hb3.out]
    simp
  have hrng := shlOr_range (a := s3.length2) (b := s3.length1) (k := 1) (by omega) hl2 (by omega) hl1 (by omega)
  have hsm : Small (startRec s3) := fun _ =>
    ⟨by show 0 ≤ s3.lastOffset; omega, by show s3.lastOffset < 2 ^ 31; omega, hrng.1, hrng.2,
      by show 0 ≤ s3.depth; omega, by show s3.depth ≤ 254; omega⟩
  have hst : IsStart (startRec s3).word := (small_start hsm).2 rfl
  obtain ⟨-, f2, f3, f4⟩ := small_fields hsm (show Token.startingTag.code < 4 by decide)
  have hd64 : s3.depth ≤ 64 := by
    have := hC.level _ hmem hst
    rw [f2] at this
    have e : (startRec s3).depth = s3.depth := rfl
    rw [e] at this
    omega
  have hl' : l = 0 := by
    rw [hcol, lastColon_none]
    · rfl
    · rintro y hmr rfl
      refine hC.name _ hmem (.inl hst) ?_
      obtain ⟨j, hj, hjr⟩ := List.getElem_of_mem hmr
      have hlen := drop_run (List.getElem?_eq_some_iff.mp hx).1 (by omega) hdrop
      have hnat := Parser.shlOr_nat (a := s3.length2.toNat) (b := s3.length1.toNat) (k := 1) (by omega) (by omega) (by omega)
      rw [Int.toNat_of_nonneg (by omega), Int.toNat_of_nonneg (by omega)] at hnat
      have hge : s3.length1.toNat ≤ (startRec s3).len.toNat % 2048 := by
        have e : (startRec s3).len = shlOr s3.length2 1 s3.length1 := rfl
        have h1 : s3.length1.toNat ≤ s3.length2.toNat <<< 1 ||| s3.length1.toNat := Nat.right_le_or
        have h2 : s3.length2.toNat <<< 1 ||| s3.length1.toNat < 2 ^ 11 :=
          Nat.or_lt_two_pow (by rw [Nat.shiftLeft_eq]; omega) (by omega)
        rw [e, hnat]
        omega
      have eo : (startRec s3).off = s3.lastOffset := rfl
      rw [qname, f3, f4, eo]
      refine List.mem_iff_getElem?.mpr ⟨k + 1 + j, ?_⟩
      rw [List.getElem?_take_of_lt (by omega), List.getElem?_drop]
      have h2 : (c.xmlDoc.drop s.rd.offset.toNat)[j]? = some (ch% ':') := by
        rw [hdrop, List.getElem?_append_left hj, List.getElem?_eq_getElem hj, hjr]
      rw [List.getElem?_drop] at h2
      rw [← h2]
      congr 1
      omega
  -- the run with namespace awareness
  have hf : t.loopFuel = s.loopFuel := by rw [hr.eq]; rfl
  obtain ⟨t1, hT, hr1⟩ := startTagLoop_pr (b := t.loopFuel) (by omega) h.inv.base hr (i := k) (by omega) hlen2 hL
    (by rw [hp]; exact hl')
  rw [M.bind_apply, hT, Res.andThen_ok, M.bind_apply, M.modify_apply, Res.andThen_ok, M.bind_apply, M.get_apply,
    Res.andThen_ok, M.ite_apply]
  generalize hqt : ({ t1 with length1 := t1.offset - t1.lastOffset - t1.enc.increment } : Parser) = t2
  have hr2 : PR f n s2 t2 := by
    obtain ⟨rfl, a1, a2, a3, a4, a5⟩ := hr1
    subst hq hqt
    exact ⟨rfl, a1, a2, a3, a4, a5⟩
  rw [if_neg (by rw [(pr_nice.same hr2).depth]; exact hd)]
  obtain ⟨t2', hpt, hr2'⟩ := sim_ok' (pushTag_sim pr_nice) hr2 ht
  rw [M.bind_apply, hpt, Res.andThen_ok, M.bind_apply, M.modify_apply, Res.andThen_ok]
  generalize hqt3 : ({ t2' with vtdDepth := if t2'.depth > t2'.vtdDepth then t2'.depth else t2'.vtdDepth } : Parser) = t3
  have hr3 : PR f n s3 t3 := by
    obtain ⟨rfl, a1, a2, a3, a4, a5⟩ := hr2'
    subst hq3 hqt3
    exact ⟨rfl, a1, a2, a3, a4, a5⟩
  obtain ⟨t4, hwt, hr4⟩ := sim_ok' (writeStartTag_sim pr_nice) hr3 hw
  rw [M.bind_apply, hwt, Res.andThen_ok]
  suffices ∃ t' n', tagRest t4 = .ok st t' ∧ PR f n' q t' ∧ N n' by
    obtain ⟨t', n', k1, k2, k3⟩ := this
    exact ⟨t', n', k1, k2, k3, _, hmem, hst⟩
  refine tagRest_pr hr4 hN ?_ ?_ ?_ ?_ hm
  · rw [hs4]; show s3.length2 = 0; omega
  · rw [hs4]; exact hd64
  · rw [hs4]; show 0 ≤ s3.depth; omega
  · intro hne
    have := hW hne
    rw [hs4]; show 1 ≤ s3.depth; omega

end Plain
end Parser
end GoVtd
