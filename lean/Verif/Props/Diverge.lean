import Verif.Proofs.Parser.Resp
import Verif.Props.Total

/-!
# Property C29 with namespace awareness: a document on which `Parse` never returns
-/

namespace GoVtd
open Parser Paged

/-- The first parser has fuel 0 and the default cache, the second one differs in the fuel only. -/
def FuelRel (n : Nat) (s t : Parser) : Prop :=
  s.cfg.matchFuel = 0 ∧ s.cfg.shallowDepth = true ∧ t = setFuel n s

theorem nice_fuel (n : Nat) : Nice (FuelRel n) where
  eq := fun {s _} h => ⟨⟨n, s.cfg.shallowDepth, s.out⟩, h.2.2⟩
  put := by
    rintro s t ⟨h1, h2, rfl⟩
    intros
    exact ⟨h1, h2, rfl⟩

/-- Fuel 0 and the default cache. -/
def NoFuel (s : Parser) : Prop := s.cfg.matchFuel = 0 ∧ s.cfg.shallowDepth = true

/-- What a computation does without running out of fuel it does with every fuel. -/
theorem ok_fuel {n : Nat} {α : Type} {m : M Parser α} {a : α} {s s' : Parser} (hm : Resp (FuelRel n) True m)
    (hs : NoFuel s) (h : m s = .ok a s') : m (setFuel n s) = .ok a (setFuel n s') ∧ NoFuel s' := by
  have := hm s (setFuel n s) ⟨hs.1, hs.2, rfl⟩
  rw [h] at this
  cases hr : m (setFuel n s) with
  | ok b t =>
    rw [hr] at this
    obtain ⟨rfl, h1, h2, rfl⟩ := this
    exact ⟨rfl, h1, h2⟩
  | err e t => rw [hr] at this; exact this.elim
  | panic => rw [hr] at this; exact this.elim
  | diverge => rw [hr] at this; exact this.elim

/-- The state a computation ends in. -/
def stateOf {α : Type} (s : Parser) : Res Parser α → Parser
  | .ok _ s' => s'
  | _ => s

theorem bind_diverge {α β : Type} {m : M Parser α} {k : α → M Parser β} {s s' : Parser} {a : α}
    (h : m s = .ok a s') (hk : k a s' = .diverge) : (m >>= k) s = .diverge := by
  rw [M.bind_apply, h]; exact hk

theorem diverge_bind {α β : Type} {m : M Parser α} {k : α → M Parser β} {s : Parser}
    (h : m s = .diverge) : (m >>= k) s = .diverge := by
  rw [M.bind_apply, h]; rfl

/-- What the outer loop reads before it starts the inner loop. -/
def outerPre (i : Int) : M Parser (Int × Int × Int × Int) := do
  let p ← M.get
  let e ← M.index p.at_.prefixedAttrNameSlice i
  let preLen := attrPreLen e
  let u ← M.index p.at_.prefixUrlSlice i
  let urlLen ← onNs2 (Paged.lower32At u)
  let urlOffset ← onNs2 (Paged.upper32At u)
  pure (attrFullLen e - preLen - p.enc.increment, high32 e + preLen + p.enc.increment, urlOffset.toInt, urlLen.toInt)

theorem outer_diverge {count : Nat} {i a b c d : Int} {p p' : Parser} (h : outerPre i p = .ok (a, b, c, d) p')
    (hk : uniqueQualInner a b c d count (i + 1) p' = .diverge) : uniqueQualOuter (count + 1) i p = .diverge := by
  simp only [outerPre, M.bind_apply, M.get_apply, Res.andThen_ok] at h
  obtain ⟨e, p1, h1, h⟩ := Res.andThen_eq_ok.mp h
  simp only [M.bind_apply] at h
  obtain ⟨u, p2, h2, h⟩ := Res.andThen_eq_ok.mp h
  simp only [M.bind_apply] at h
  obtain ⟨l, p3, h3, h⟩ := Res.andThen_eq_ok.mp h
  simp only [M.bind_apply] at h
  obtain ⟨o, p4, h4, h⟩ := Res.andThen_eq_ok.mp h
  cases h
  exact bind_diverge (m := M.get) rfl (bind_diverge h1 (bind_diverge h2 (bind_diverge h3 (bind_diverge h4
    (diverge_bind hk)))))

/-- What the inner loop reads before it compares two names. -/
def innerPre (offset : Int) (postLen : Int) (j : Int) : M Parser (Int × Int × Int) := do
  let p ← M.get
  let e ← M.index p.at_.prefixedAttrNameSlice j
  let preLen2 := attrPreLen e
  let postLen2 := attrFullLen e - preLen2 - p.enc.increment
  let offset2 := high32 e + preLen2 + p.enc.increment
  let same ← if postLen < 0 then pure false else sameBytes postLen.toNat offset offset2
  if same then do
    let u ← M.index p.at_.prefixUrlSlice j
    let urlLen2 ← onNs2 (Paged.lower32At u)
    let urlOffset2 ← onNs2 (Paged.upper32At u)
    pure (postLen2, urlOffset2.toInt, urlLen2.toInt)
  else M.diverge

theorem inner_diverge {count : Nat} {postLen offset uo ul j a b : Int} {p p' : Parser}
    (h : innerPre offset postLen j p = .ok (postLen, a, b) p')
    (hk : matchUrl uo ul a b p' = .diverge) : uniqueQualInner postLen offset uo ul (count + 1) j p = .diverge := by
  simp only [innerPre, M.bind_apply, M.get_apply, Res.andThen_ok] at h
  obtain ⟨e, p1, h1, h⟩ := Res.andThen_eq_ok.mp h
  by_cases hneg : postLen < 0
  · simp only [if_pos hneg, M.bind_apply, M.pure_apply, Res.andThen_ok, Bool.false_eq_true, if_false] at h
    cases h
  simp only [if_neg hneg, M.bind_apply] at h
  obtain ⟨s, p2, h2, h⟩ := Res.andThen_eq_ok.mp h
  simp only [M.ite_apply] at h
  split at h
  · rename_i hs
    simp only [M.bind_apply] at h
    obtain ⟨u, p3, h3, h⟩ := Res.andThen_eq_ok.mp h
    simp only [M.bind_apply] at h
    obtain ⟨l, p4, h4, h⟩ := Res.andThen_eq_ok.mp h
    simp only [M.bind_apply] at h
    obtain ⟨o, p5, h5, h⟩ := Res.andThen_eq_ok.mp h
    simp only [M.pure_apply, Res.ok.injEq, Prod.mk.injEq] at h
    obtain ⟨⟨hp, rfl, rfl⟩, rfl⟩ := h
    refine bind_diverge (m := M.get) rfl (bind_diverge h1 ?_)
    simp only
    rw [if_pos hp.symm, if_neg hneg]
    refine bind_diverge h2 ?_
    rw [if_pos hs]
    exact bind_diverge h3 (bind_diverge h4 (bind_diverge h5 (diverge_bind hk)))
  · cases h

theorem attrValQualify_diverge {p p1 p2 : Parser} (hns : p.cfg.nsAware = true) (h1 : pushNs1 p = .ok () p1)
    (h2 : p.at_.prefixedAttCount > 0) (h3 : qualifyAttributes p1 = .ok () p2)
    (h4 : uniqueQualOuter p2.at_.prefixedAttCount.toNat 0 p2 = .diverge) : attrValQualify p = .diverge := by
  refine bind_diverge (m := M.get) rfl ?_
  simp only
  rw [if_pos hns]
  refine bind_diverge h1 ?_
  rw [if_pos h2]
  exact bind_diverge h3 (diverge_bind (bind_diverge (m := M.get) rfl h4))

/-- `processAttrVal` up to the end of the start tag. -/
def attrValPre : M Parser Unit := do
  let p ← M.get
  attrValLoop p.currentChar p.loopFuel
  M.modify fun p => { p with length1 := p.offset - p.lastOffset - p.enc.increment }
  attrValNs
  writeVtdWithLengthCheck .attrVal AttrValueTooLong
  M.modify fun p => { p with at_ := { p.at_ with isXml := false, isNs := false } }
  nextChar
  M.modify fun p => { p with helper := true }

theorem processAttrVal_diverge {p p' : Parser} (h : attrValPre p = .ok () p') (hc : p'.currentChar = 62)
    (hq : attrValQualify p' = .diverge) : processAttrVal p = .diverge := by
  simp only [attrValPre, M.bind_apply, M.get_apply, Res.andThen_ok] at h
  obtain ⟨_, p1, h1, h⟩ := Res.andThen_eq_ok.mp h
  simp only [M.bind_apply, M.modify_apply, Res.andThen_ok] at h
  obtain ⟨_, p2, h2, h⟩ := Res.andThen_eq_ok.mp h
  simp only [M.bind_apply] at h
  obtain ⟨_, p3, h3, h⟩ := Res.andThen_eq_ok.mp h
  simp only [M.bind_apply, M.modify_apply, Res.andThen_ok] at h
  obtain ⟨_, p4, h4, h⟩ := Res.andThen_eq_ok.mp h
  cases h
  refine bind_diverge (m := M.get) rfl (bind_diverge h1 (bind_diverge (m := M.modify _) rfl (bind_diverge h2
    (bind_diverge h3 (bind_diverge (m := M.modify _) rfl (bind_diverge h4 (bind_diverge (m := M.get) rfl ?_)))))))
  have hc : p4.currentChar = 62 := hc
  rw [if_neg (by rw [hc]; decide)]
  refine bind_diverge (m := M.modify _) rfl (bind_diverge (m := M.get) rfl ?_)
  have hc' : ({ p4 with helper := true } : Parser).currentChar = 62 := hc
  simp only
  rw [if_neg (by rw [hc]; decide)]
  refine bind_diverge (m := M.get) rfl ?_
  simp only
  rw [if_pos (by rw [hc])]
  exact diverge_bind hq

/-- The witness. Both prefixes are declared and bound to different names, the two qualified attributes
have the same local name. -/
def loopDoc : List UInt8 := bytes "<r xmlns:a=\"u\" xmlns:b=\"v\" a:x=\"\" b:x=\"\">&#xFFFFFFFF;</r>"


def loopOpts : List ParserOption := [.xmlDoc (some loopDoc), .nameSpaceAware true]

/-- The parser for the witness, with fuel 0. -/
@[irreducible] def loopParser : Parser :=
  match newVtdParser 0 loopOpts with
  | .ok p => p
  | .error _ => initParser 0 [] {} { kind := .utf8, xmlDoc := [], offset := 0, endOffset := 0 }

/-- The parser when the main loop starts. -/
@[irreducible] def loopStart : Parser := stateOf loopParser (begin_ loopParser)

/-- The parser after some states of the main loop. -/
def runSteps : Nat → PState × Parser → PState × Parser
  | 0, x => x
  | n + 1, (st, p) => match step st p with
    | .ok st' p' => runSteps n (st', p')
    | _ => (st, p)

theorem stateOf_ok {α : Type} {s : Parser} {m : M Parser α} {a : α} (h : (m s).outcome = .value a) :
    m s = .ok a (stateOf s (m s)) := by
  revert h
  cases m s <;> intro h <;> cases h
  rfl

/-- Do the first states of the main loop all succeed? -/
def stepsOk : Nat → PState × Parser → Bool
  | 0, _ => true
  | n + 1, (st, p) => match step st p with
    | .ok st' p' => stepsOk n (st', p')
    | _ => false

theorem step_fuel (n : Nat) (st : PState) : Resp (FuelRel n) True (step st) := by
  have hR := nice_fuel n
  refine step_resp hR ?_ ?_ st
  · rintro s t ⟨h1, h2, rfl⟩
    have hw : ∀ t a b d, RelRes (FuelRel n) True (writeVtd t a b d s) (writeVtd t a b d (setFuel n s)) :=
      fun t a b d => writeVtd_resp hR t a b d s _ ⟨h1, h2, rfl⟩
    have hp : ∀ m, RelRes (FuelRel n) True (parseErr (α := Unit) m s) (parseErr m (setFuel n s)) :=
      fun m => parseErr_resp hR m s _ ⟨h1, h2, rfl⟩
    have e1 : (setFuel n s).cfg.shallowDepth = true := h2
    have e2 : (setFuel n s).enc = s.enc := rfl
    have e3 : (setFuel n s).length1 = s.length1 := rfl
    have e4 : (setFuel n s).length2 = s.length2 := rfl
    have e5 : (setFuel n s).lastOffset = s.lastOffset := rfl
    have e6 : (setFuel n s).depth = s.depth := rfl
    simp only [writeStartTag, M.bind_apply, M.get_apply, Res.andThen_ok, M.ite_apply, h2, e1, e2, e3, e4, e5, e6, if_true]
    split <;> split
    · exact hp _
    · exact hw _ _ _ _
    · exact hp _
    · exact hw _ _ _ _
  · rintro a b c d s t ⟨h1, h2, rfl⟩
    simp only [matchUrl, M.bind_apply, M.get_apply, Res.andThen_ok, M.ite_apply, h1]
    split
    · exact RelRes.left trivial _
    · exact ⟨rfl, h1, h2, rfl⟩

theorem mainLoop_steps {n k fuel : Nat} {st : PState} {p : Parser} (hz : NoFuel p) (h : stepsOk k (st, p) = true)
    (hd : mainLoop fuel (runSteps k (st, p)).1 (setFuel n (runSteps k (st, p)).2) = .diverge) :
    mainLoop (fuel + k) st (setFuel n p) = .diverge := by
  induction k generalizing st p with
  | zero => exact hd
  | succ k ih =>
    simp only [stepsOk, runSteps] at h hd
    cases hs : step st p with
    | ok st' p' =>
      rw [hs] at h hd
      obtain ⟨h1, h2⟩ := ok_fuel (step_fuel n st) hz hs
      rw [← Nat.add_assoc, mainLoop_step h1]
      exact ih h2 h hd
    | err e q => rw [hs] at h; cases h
    | panic => rw [hs] at h; cases h
    | diverge => rw [hs] at h; cases h

/-! The states of the witness on the way to the loop. -/

@[irreducible] def loop0 : Parser := (runSteps 10 (.docStart, loopStart)).2
@[irreducible] def loop1 : Parser := stateOf loop0 (attrValPre loop0)
@[irreducible] def loop2 : Parser := stateOf loop1 (pushNs1 loop1)
@[irreducible] def loop3 : Parser := stateOf loop2 (qualifyAttributes loop2)
@[irreducible] def loop4 : Parser := stateOf loop3 (outerPre 0 loop3)
@[irreducible] def loop5 : Parser := stateOf loop4 (innerPre 29 1 1 loop4)

/-- At every position from 12 to 41 reading a character gives a next position in the same range. -/
def staysAt (i : Nat) : Bool :=
  match getCharResolved (12 + (i : Int)) loop5 with
  | .ok ch s => s = loop5 ∧ 12 ≤ 12 + (i : Int) + (ch.sshiftRight 32).toInt ∧
      12 + (i : Int) + (ch.sshiftRight 32).toInt ≤ 41
  | _ => false

theorem stays : ∀ i, i < 30 → staysAt i = true := by decide +kernel

theorem noFuel : (NoFuel loopParser ∧ NoFuel loopStart) ∧ NoFuel loop0 ∧ NoFuel loop1 ∧ NoFuel loop2 ∧ NoFuel loop3 ∧
    NoFuel loop4 ∧ NoFuel loop5 := by
  unfold NoFuel; decide +kernel

theorem matchUrlLoop_loops (n m : Nat) (i : Int) (h1 : 12 ≤ i) (h2 : i ≤ 41) :
    matchUrlLoop m i i (setFuel n loop5) = .diverge := by
  induction m generalizing i with
  | zero => simp only [matchUrlLoop, M.diverge_apply]
  | succ m ih =>
    have hs := stays (i.toNat - 12) (by omega)
    have hi : (12 + ((i.toNat - 12 : Nat) : Int)) = i := by omega
    simp only [staysAt, hi] at hs
    split at hs
    · rename_i ch s hg
      simp only [decide_eq_true_eq] at hs
      obtain ⟨rfl, h3, h4⟩ := hs
      have hg' := (ok_fuel (n := n) (getCharResolved_resp (nice_fuel n) i) (by obtain ⟨_, _, _, _, _, _, z⟩ := noFuel; exact z) hg).1
      refine bind_diverge hg' (bind_diverge hg' ?_)
      rw [if_neg (by simp)]
      exact ih _ h3 h4
    · cases hs

theorem loop_facts : (begin_ loopParser).outcome = .value () ∧ stepsOk 10 (.docStart, loopStart) = true ∧
    (runSteps 10 (.docStart, loopStart)).1 = .attrVal ∧ (attrValPre loop0).outcome = .value () ∧
    loop1.currentChar = 62 ∧ loop1.cfg.nsAware = true ∧ loop1.at_.prefixedAttCount > 0 ∧
    (pushNs1 loop1).outcome = .value () ∧ (qualifyAttributes loop2).outcome = .value () ∧
    loop3.at_.prefixedAttCount = 2 ∧ (outerPre 0 loop3).outcome = .value (1, 29, 12, 1) ∧
    (innerPre 29 1 1 loop4).outcome = .value (1, 12, 1) ∧ loopStart.cfg.xmlDoc.length = 57 := by
  decide +kernel

theorem newVtdParser_loop (fuel : Nat) : newVtdParser fuel loopOpts = .ok (setFuel fuel loopParser) := by
  have h : newVtdParser 0 loopOpts = .ok loopParser := by unfold loopParser; rfl
  simp only [newVtdParser] at h ⊢
  split
  · rename_i hd; rw [hd] at h; cases h
  · rename_i doc hd
    rw [hd] at h
    simp only at h
    split
    · rename_i h1; rw [if_pos h1] at h; cases h
    rename_i h1; rw [if_neg h1] at h
    split
    · rename_i h1; rw [if_pos h1] at h; cases h
    rename_i h1; rw [if_neg h1] at h
    split
    · rename_i h1; rw [if_pos h1] at h; cases h
    rename_i h1; rw [if_neg h1] at h
    split
    · rename_i h1; rw [h1] at h; cases h
    rename_i h1; rw [h1] at h
    simp only [Except.ok.injEq] at h
    rw [← h]
    rfl

/-- C29 is false in namespace-aware mode: on this document `Parse` never returns, whatever number of
iterations the model grants to the comparison of namespace names. -/
theorem C29_refuted (fuel : Nat) : parseWith fuel loopOpts = .noReturn := by
  have hR := nice_fuel fuel
  obtain ⟨f1, f2, f3, f4, f5, f6, f7, f8, f9, f10, f11, f12, f13⟩ := loop_facts
  obtain ⟨⟨zp, zs⟩, z0, z1, z2, z3, z4, z5⟩ := noFuel
  have hM : matchUrl 12 1 12 1 (setFuel fuel loop5) = .diverge := by
    refine bind_diverge (m := M.get) rfl ?_
    rw [if_pos (by decide)]
    exact matchUrlLoop_loops _ _ _ (by decide) (by decide)
  have h5 : innerPre 29 1 1 (setFuel fuel loop4) = .ok (1, 12, 1) (setFuel fuel loop5) := by
    rw [loop5]; exact (ok_fuel (by unfold innerPre; resp hR) z4 (stateOf_ok f12)).1
  have h4 : outerPre 0 (setFuel fuel loop3) = .ok (1, 29, 12, 1) (setFuel fuel loop4) := by
    rw [loop4]; exact (ok_fuel (by unfold outerPre; resp hR) z3 (stateOf_ok f11)).1
  have h3 : qualifyAttributes (setFuel fuel loop2) = .ok () (setFuel fuel loop3) := by
    rw [loop3]; exact (ok_fuel (qualifyAttributes_resp hR) z2 (stateOf_ok f9)).1
  have h2 : pushNs1 (setFuel fuel loop1) = .ok () (setFuel fuel loop2) := by
    rw [loop2]; exact (ok_fuel (pushNs1_resp hR) z1 (stateOf_ok f8)).1
  have h1 : attrValPre (setFuel fuel loop0) = .ok () (setFuel fuel loop1) := by
    rw [loop1]; exact (ok_fuel (by unfold attrValPre; resp hR) z0 (stateOf_ok f4)).1
  have h0 : begin_ (setFuel fuel loopParser) = .ok () (setFuel fuel loopStart) := by
    rw [loopStart]; exact (ok_fuel (by unfold begin_; resp hR) zp (stateOf_ok f1)).1
  have hin := inner_diverge (count := 0) h5 hM
  have hout := outer_diverge (count := 1) h4 hin
  have hq := attrValQualify_diverge (p := setFuel fuel loop1) f6 h2 f7 h3 (by
    show uniqueQualOuter loop3.at_.prefixedAttCount.toNat 0 _ = _
    rw [f10]; exact hout)
  have hv := processAttrVal_diverge h1 f5 hq
  have hm : ∀ k, mainLoop (k + 1) .attrVal (setFuel fuel loop0) = .diverge := by
    intro k
    simp only [mainLoop, M.bind_apply, M.catchErr_apply, step, hv]
    rfl
  simp only [parseWith, newVtdParser_loop, parse_eq, M.bind_apply, h0, Res.andThen_ok, M.get_apply]
  have hl : (setFuel fuel loopStart).loopFuel = 48 + 1 + 10 := by
    show loopStart.cfg.xmlDoc.length + 2 = _
    rw [f13]
  show (mainLoop (setFuel fuel loopStart).loopFuel .docStart (setFuel fuel loopStart)).outcome = _
  rw [hl, mainLoop_steps zs f2 (by rw [f3]; rw [loop0] at hm; exact hm 48)]
  rfl

end GoVtd
