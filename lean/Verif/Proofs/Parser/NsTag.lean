import Verif.Proofs.Parser.NsStep

/-!
# The invariant of the prefixes at a start tag
-/

namespace GoVtd
namespace Parser
namespace Sound
open Paged Grammar Two Ev Plain

variable {c : ParserCfg} {p p' : Parser} {D : List UInt8} {A B V V' xs : List (BitVec 64)} {w w0 : BitVec 64} {i : Nat}
  {st st' : PState} {o0 : ParserOut} {es : List Mark} {stk : List (Nat × Nat)} {recs : List Rec}

theorem startTagNs_val {u : Unit} (hb : Base c p) (hns : c.nsAware = true) (h : startTagNs p = .ok u p') :
    p'.at_ = { p.at_ with currentElementRecord := if p.length2 ≠ 0 then nsRecord (p.length2 + 1) p.length1 p.lastOffset else 0 } ∧
    p'.ns.nsBuffer2.buffer = p.ns.nsBuffer2.buffer ∧ p'.ns.nsBuffer3.buffer = p.ns.nsBuffer3.buffer := by
  have hinc : p.enc.increment = 1 := hb.inc
  have rest : ∀ {s : Parser}, (do
      let p ← M.get
      if p.depth ≤ p.ns.nsBuffer1.getSize - 1 then do
        M.modify fun p => { p with ns := { p.ns with nsBuffer1 := p.ns.nsBuffer1.setSize p.depth } }
        let t ← onNs1 (Paged.intAt (p.depth - 1))
        M.modify fun p => { p with
          ns := { p.ns with nsBuffer2 := p.ns.nsBuffer2.setSize (t + 1#32).toInt,
                            nsBuffer3 := p.ns.nsBuffer3.setSize (t + 1#32).toInt } }
      else pure () : M Parser Unit) s = .ok u p' → p'.at_ = s.at_ ∧
        p'.ns.nsBuffer2.buffer = s.ns.nsBuffer2.buffer ∧ p'.ns.nsBuffer3.buffer = s.ns.nsBuffer3.buffer := by
    intro s h
    rw [M.bind_apply, M.get_apply, Res.andThen_ok, M.ite_apply] at h
    split at h
    · rw [M.bind_apply, M.modify_apply, Res.andThen_ok] at h
      obtain ⟨t, s1, x1, y1⟩ := bind_ok h
      obtain ⟨b1, -, e1⟩ := onNs1_val x1
      cases y1
      rw [e1]
      exact ⟨rfl, rfl, rfl⟩
    · cases h; exact ⟨rfl, rfl, rfl⟩
  unfold startTagNs at h
  rw [M.bind_apply, M.get_apply, Res.andThen_ok, M.ite_apply, if_pos (by rw [hb.cfg]; exact hns), M.ite_apply] at h
  split at h
  · rename_i hl
    rw [M.bind_apply, M.modify_apply, Res.andThen_ok] at h
    have := rest h
    rw [if_pos hl, ← hinc]
    exact this
  · rename_i hl
    rw [M.bind_apply, M.modify_apply, Res.andThen_ok] at h
    have := rest h
    rw [if_neg hl]
    exact this

theorem name_unique {a a' r r' : List UInt8} {b b' : UInt8} (ha : AllName a) (ha' : AllName a') (hb : ¬ NameByte b) (hb' : ¬ NameByte b')
    (h : a ++ b :: r = a' ++ b' :: r') : a = a' := by
  induction a generalizing a' with
  | nil =>
    cases a' with
    | nil => rfl
    | cons y a' =>
      injection h with h1 h2
      exact absurd (h1 ▸ ha' y (by simp)) hb
  | cons x a ih =>
    cases a' with
    | nil =>
      injection h with h1 h2
      exact absurd (h1 ▸ ha x (by simp)) hb'
    | cons y a' =>
      injection h with h1 h2
      rw [h1, ih (fun z hz => ha z (by simp [hz])) (fun z hz => ha' z (by simp [hz])) h2]

theorem inTag_next (h : InTag c p) (hb : Base c p) (hns : c.nsAware = true) (h0 : p.at_.prefixedAttCount = 0)
    (hm : tagRest2 p = .ok st p') : NsInv c st p' := by
  have close : ∀ {s : Parser}, InTag c s → Base c s → s.at_.prefixedAttCount = 0 → startTagEnd s = .ok st p' → NsInv c st p' := by
    intro s h hb h0 hm
    obtain ⟨h1, h2⟩ := closed_startTagEnd h hb hns h0 hm
    obtain ⟨h3, h4⟩ := notAttr_ne h1
    rw [NsInv, if_neg h3, if_neg h4]
    exact h2
  unfold tagRest2 at hm
  rw [M.bind_apply, M.get_apply, Res.andThen_ok, M.ite_apply] at hm
  split at hm
  · obtain ⟨u, s1, x1, y1⟩ := bind_ok (m := nextCharAfterWs) hm
    obtain ⟨r2, y, w, e1, hb1, -⟩ := (nextCharAfterWs_byte hb).eq x1
    have hI : InTag c s1 := h.same (by rw [e1]; rfl) (by rw [e1]; rfl) (by rw [e1]; rfl)
    rw [M.bind_apply, M.get_apply, Res.andThen_ok, M.ite_apply] at y1
    split at y1
    · rw [M.bind_apply, getPrevOffset_eq hb1, Res.andThen_ok, M.bind_apply, M.modify_apply, Res.andThen_ok] at y1
      cases y1
      rw [NsInv, if_pos rfl]
      exact hI.same rfl rfl rfl
    · exact close hI hb1 (by rw [e1]; exact h0) y1
  · exact close h hb h0 hm

/-- `processStartTag` without its end. -/
def startHead : M Parser Unit := do
  let p ← M.get
  startTagLoop p.loopFuel
  M.modify fun p => { p with length1 := p.offset - p.lastOffset - p.enc.increment }
  let p ← M.get
  if p.depth > maxDepth then parseErr MaximumDepthExceeded
  else do
    pushTag
    M.modify fun p => { p with vtdDepth := if p.depth > p.vtdDepth then p.depth else p.vtdDepth }
    writeStartTag
    startTagNs
    M.modify fun p => { p with length2 := 0 }

theorem processStartTag_head : processStartTag = (do startHead; tagRest2) := by
  rw [processStartTag_eq]
  funext s
  simp only [startHead, tagRest, M.bind_apply, M.get_apply, Res.andThen_ok, M.modify_apply]
  cases startTagLoop s.loopFuel s with
  | err e s' => rfl
  | panic => rfl
  | diverge => rfl
  | ok u s1 =>
    simp only [Res.andThen_ok, M.bind_apply, M.modify_apply, M.get_apply, M.ite_apply]
    split
    · simp only [parseErr, M.bind_apply]
      cases fmtLine _ <;> rfl
    · cases pushTag _ with
      | err e s' => rfl
      | panic => rfl
      | diverge => rfl
      | ok u s2 =>
        simp only [Res.andThen_ok, M.bind_apply, M.modify_apply]
        cases writeStartTag _ with
        | err e s' => rfl
        | panic => rfl
        | diverge => rfl
        | ok u s3 =>
          simp only [Res.andThen_ok, M.bind_apply]
          cases startTagNs _ with
          | err e s' => rfl
          | panic => rfl
          | diverge => rfl
          | ok u s4 => rfl

/-- After the name of an element. -/
theorem start_inTag {uu : Unit} (h : G c o0 .tagStart p es stk recs) (hI : Closed c p) (hns : c.nsAware = true)
    (hm : startHead p = .ok uu p') : InTag c p' ∧ Base c p' ∧ p'.at_.prefixedAttCount = 0 := by
  have hs := h.inv.slots
  have h0 := h.inv.start (by simp)
  obtain ⟨hn0, hn1, hn2⟩ := h.inv.name (by simp)
  have hk := h.k
  rw [if_pos rfl, if_pos rfl] at hk
  obtain ⟨k, hk4, hk0, hkq, hko, b0, hb0, hsb⟩ := h.tagS rfl
  have hsy := h.inv.sync (by simp)
  have hinc : p.enc.increment = 1 := h.inv.base.inc
  have he1 := h.inv.base.end1
  have he2 := h.inv.base.end2
  have hdep := hk.depth
  have hlen2 := hk.len2
  unfold startHead at hm
  rw [M.bind_apply, M.get_apply, Res.andThen_ok] at hm
  obtain ⟨u, s1, hL, hm⟩ := bind_ok (m := startTagLoop p.loopFuel) hm
  obtain ⟨l, r, x, run, hp, hb, hr0, hre, hx, hnx, hrun, hdrop, hl0⟩ := (startTagLoop_post h.inv.base).eq hL
  have hcol := hl0 (k + 1) 0 (by rw [hlen2]; rfl) (by omega)
  have hl0 : 0 ≤ l := by omega
  rw [M.bind_apply, M.modify_apply, Res.andThen_ok, M.bind_apply, M.get_apply, Res.andThen_ok, M.ite_apply] at hm
  generalize hq : ({ s1 with length1 := s1.offset - s1.lastOffset - s1.enc.increment } : Parser) = s2 at hm
  have hq1 : s2.length1 = r - p.lastOffset := by subst hq hp; simp [hinc]; omega
  have hq2 : s2.length2 = l := by subst hq hp; rfl
  have hqb : Base c s2 := by subst hq; exact hb
  have hql : s2.lastOffset = p.lastOffset := by subst hq hp; rfl
  have hqd : s2.depth = p.depth := by subst hq hp; rfl
  have hqo : s2.out = p.out := by subst hq hp; rfl
  have hqa : s2.at_ = p.at_ := by subst hq hp; rfl
  have hqn : s2.ns = p.ns := by subst hq hp; rfl
  have hqs : SlotsCore c s2.tagStack s2.at_ s2.depth := by subst hq hp; exact hs
  by_cases hd : s2.depth > maxDepth
  · rw [if_pos hd] at hm
    exact ((post_err (p := s2) (Q := fun _ _ => False) MaximumDepthExceeded).eq hm).elim
  rw [if_neg hd] at hm
  have hd' : s2.depth ≤ 254 := by simpa [maxDepth] using hd
  obtain ⟨tg, ht, htlo, hthi, hts⟩ := pushTag_post hqs (by omega) (by omega) (by omega) (by omega) he2 he1
  rw [M.bind_apply, ht, Res.andThen_ok, M.bind_apply, M.modify_apply, Res.andThen_ok] at hm
  generalize hq3 : ({ s2 with
    tagStack := s2.tagStack.set s2.depth.toNat tg,
    vtdDepth := if s2.depth > s2.vtdDepth then s2.depth else s2.vtdDepth } : Parser) = s3 at hm
  have hb3 : Base c s3 := by subst hq3; exact hqb
  obtain ⟨u', s4, hw, hm⟩ := bind_ok (m := writeStartTag) hm
  obtain ⟨hl2, hl1, hs4, hb4⟩ := (writeStartTag_post hb3).eq hw
  have e31 : s3.length1 = s2.length1 := by subst hq3; rfl
  have e32 : s3.length2 = s2.length2 := by subst hq3; rfl
  have e33 : s3.lastOffset = s2.lastOffset := by subst hq3; rfl
  have e34 : s3.depth = s2.depth := by subst hq3; rfl
  have e35 : s3.out = s2.out := by subst hq3; rfl
  have e36 : s3.at_ = s2.at_ := by subst hq3; rfl
  have e37 : s3.ns = s2.ns := by subst hq3; rfl
  -- the record
  have hrng := shlOr_range (a := s3.length2) (b := s3.length1) (k := 1) (by omega) hl2 (by omega) hl1 (by omega)
  have hsm : Small (startRec s3) := fun _ =>
    ⟨by show 0 ≤ s3.lastOffset; omega, by show s3.lastOffset < 2 ^ 31; omega, hrng.1, hrng.2,
      by show 0 ≤ s3.depth; omega, by show s3.depth ≤ 254; omega⟩
  have hst : IsStart (startRec s3).word := (small_start hsm).2 rfl
  obtain ⟨-, -, f3, -⟩ := small_fields hsm (show Token.startingTag.code < 4 by decide)
  have f3 : tokenOffset (startRec s3).word = p.lastOffset.toNat := by
    rw [f3]; show s3.lastOffset.toNat = _; omega
  have hv4 : vals s4 = vals p ++ [(startRec s3).word] := by
    rw [hs4]
    show (Parser.emit c.shallowDepth s3.out [startRec s3]).vtdBuffer.values = _
    rw [emit_values hb3.out, e35, hqo]
    rfl
  have a4 : s4.at_ = p.at_ := by rw [hs4]; show s3.at_ = _; rw [e36, hqa]
  have n4 : s4.ns = p.ns := by rw [hs4]; show s3.ns = _; rw [e37, hqn]
  obtain ⟨u2, s5, hT, hm⟩ := bind_ok (m := startTagNs) hm
  obtain ⟨a5, n52, n53⟩ := startTagNs_val hb4 hns hT
  obtain ⟨hN5, -⟩ := startTagNs_post.eq hT
  cases hm
  dsimp only
  generalize hq6 : ({ s5 with length2 := 0 } : Parser) = s6 at hN5 ⊢
  have hb6 : Base c s6 := hN5.base (by exact hb4)
  have o6 : s6.out = s4.out := hN5.out
  have hrec : (if s4.length2 ≠ 0 then nsRecord (s4.length2 + 1) s4.length1 s4.lastOffset else 0) =
      (if l ≠ 0 then nsRecord ((lastColon (k + 1) 0 run + 1 : Nat) : Int) ((r.toNat - p.lastOffset.toNat : Nat) : Int) (p.lastOffset.toNat : Nat) else 0) := by
    have g1 : s4.length2 = l := by rw [hs4]; show s3.length2 = l; omega
    have g2 : s4.length1 = (r.toNat - p.lastOffset.toNat : Nat) := by rw [hs4]; show s3.length1 = _; omega
    have g3 : s4.lastOffset = (p.lastOffset.toNat : Nat) := by rw [hs4]; show s3.lastOffset = _; omega
    rw [g1, g2, g3, Int.natCast_add, hcol]
    rfl
  rw [hrec, a4] at a5
  have a6 : s6.at_ = { p.at_ with currentElementRecord := if l ≠ 0 then nsRecord ((lastColon (k + 1) 0 run + 1 : Nat) : Int) ((r.toNat - p.lastOffset.toNat : Nat) : Int) (p.lastOffset.toNat : Nat) else 0 } := by
    rw [← hq6]; exact a5
  have hv6 : vals s6 = vals p ++ [(startRec s3).word] := by rw [vals, o6]; exact hv4
  have hlr := (List.getElem?_eq_some_iff.mp hx).1
  have hlen := drop_run hlr (by omega) hdrop
  have hname : ∀ n, n ≠ [] → ElementName c.xmlDoc (startRec s3).word n → k = 0 ∧ n = b0 :: run := by
    intro n hc ⟨hn, b, rr, hnr, hnb⟩
    rw [f3] at hnr
    -- the name begins with the first byte
    have hk' : k = 0 := Decidable.byContradiction fun hk' => by
      have h3 := hkq hk'
      have e0 : (c.xmlDoc.drop p.lastOffset.toNat)[0]? = c.xmlDoc[p.lastOffset.toNat]? := by rw [List.getElem?_drop]; rfl
      rw [← e0] at h3
      cases n with
      | nil => exact hc rfl
      | cons y n =>
        rw [hnr] at h3
        simp only [List.cons_append, List.getElem?_cons_zero, Option.some.injEq] at h3
        have := hn y (by simp)
        rw [h3] at this
        exact absurd ((isNameChar_iff _).mpr this) (by decide)
    subst hk'
    have hl0 := (List.getElem?_eq_some_iff.mp hb0).1
    have hsplit : c.xmlDoc.drop p.lastOffset.toNat = (b0 :: run) ++ x :: c.xmlDoc.drop (r.toNat + 1) := by
      obtain ⟨h1, h2⟩ := List.getElem?_eq_some_iff.mp hb0
      simp only [Int.natCast_zero, Int.add_zero] at h1 h2
      rw [List.drop_eq_getElem_cons h1, h2, List.cons_append]
      congr 1
      rw [show p.lastOffset.toNat + 1 = p.rd.offset.toNat by omega, hdrop, List.drop_eq_getElem_cons hlr,
        (List.getElem?_eq_some_iff.mp hx).2]
    have hall : AllName (b0 :: run) := by
      intro y hy
      rcases List.mem_cons.mp hy with rfl | hy
      · exact .inl hsb
      · exact hrun y hy
    refine ⟨rfl, ?_⟩
    rw [hsplit] at hnr
    exact (name_unique hall hn hnx hnb hnr).symm
  refine ⟨?_, hb6, show s5.at_.prefixedAttCount = 0 by rw [a5]; exact hI.count⟩
  refine ⟨?_, ⟨vals p, [], (startRec s3).word, ?_⟩, ?_, ?_, ?_⟩
  · refine hI.com.to (fun w hw => by rw [hv6]; exact List.mem_append_left _ hw) (by rw [a6]) (by rw [a6]) ?_ ?_
    · rw [← hq6]; show s5.ns.nsBuffer2.buffer = _; rw [n52, n4]
    · rw [← hq6]; show s5.ns.nsBuffer3.buffer = _; rw [n53, n4]
  · refine ⟨hv6, hI.done, hst, (fun _ h => by cases h), ?_, ?_, (fun _ h => by cases h), ?_, ?_, ?_⟩
    · rw [a6]; exact hI.count
    · intro j w hj; cases hj
    · intro n hN hc
      obtain ⟨rfl, hnn⟩ := hname n (fun hh => hc (by rw [hh]; rfl)) hN
      have e : lastColon 0 0 n = lastColon 1 0 run := by rw [hnn]; simp only [lastColon, ite_self, Nat.zero_add]
      have hlc : l ≠ 0 := by rw [hcol]; rw [e] at hc; simpa using hc
      refine ⟨?_, ?_, ?_, ?_⟩
      · rw [e]; simp only [Nat.zero_add] at hcol; omega
      · rw [hnn, List.length_cons]; omega
      · rw [f3]; omega
      · rw [a6, f3]
        dsimp only
        rw [if_pos hlc, e, hnn, List.length_cons]
        congr 2
        omega
    · rw [a6]
      dsimp only
      intro hne
      by_cases hlc : l ≠ 0
      · rw [if_pos hlc]
        refine ⟨lastColon (k + 1) 0 run, r.toNat - p.lastOffset.toNat, p.lastOffset.toNat, by omega, by omega, by omega, ?_, rfl⟩
        obtain ⟨-, h2⟩ | ⟨a, b, h1, -, h3⟩ := lastColon_cases (k + 1) 0 run
        · rw [h2]; omega
        · rw [h3]
          have := congrArg List.length h1
          simp only [List.length_append, List.length_cons] at this
          omega
      · rw [if_neg hlc] at hne; exact absurd rfl hne
    · intro n hn hN hne
      obtain ⟨rfl, hnn⟩ := hname n hn hN
      rw [a6] at hne
      dsimp only at hne
      intro hc
      refine hne (if_neg ?_)
      have e : lastColon 0 0 n = lastColon 1 0 run := by rw [hnn]; simp only [lastColon, ite_self, Nat.zero_add]
      rw [hcol, ← e, hc]
      simp
  · rw [hv6]
    refine hI.decls.append fun w hw q hd => ?_
    rcases List.mem_singleton.mp hw with rfl
    have h1 : tokenType _ = Token.startingTag.code := hst
    have h2 := hd.type
    rw [h1] at h2
    exact absurd h2 (by decide)
  · rw [a6]; exact hI.isNs
  · rw [a6]; exact hI.isXml

theorem step_start (h : G c o0 .tagStart p es stk recs) (hI : Closed c p) (hns : c.nsAware = true)
    (hm : processStartTag p = .ok st p') : NsInv c st p' := by
  rw [processStartTag_head] at hm
  obtain ⟨u, s1, x1, y1⟩ := bind_ok hm
  obtain ⟨h1, h2, h3⟩ := start_inTag h hI hns x1
  exact inTag_next h1 h2 hns h3 y1

end Sound
end Parser
end GoVtd
