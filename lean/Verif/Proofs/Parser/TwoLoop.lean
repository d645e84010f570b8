import Verif.Proofs.Parser.Two

/-!
# The main loop on two related states
-/

namespace GoVtd
namespace Parser
namespace Two
open Paged

section
variable {R : Parser → Parser → Prop} {E P : Prop} {α β : Type}

theorem flushLeaf_sim (hR : Nice R P) (d : Int) : Sim R E P (flushLeaf d) (flushLeaf d) := by
  unfold flushLeaf; sim hR
macro_rules | `(tactic| sim_lemma $h) => `(tactic| apply flushLeaf_sim $h)

theorem writeVtdL5_sim (hR : Nice R P) (tokenType : Token) (offset length depth : Int) :
    Sim R E P (writeVtdL5 tokenType offset length depth) (writeVtdL5 tokenType offset length depth) := by
  unfold writeVtdL5; sim hR
macro_rules | `(tactic| sim_lemma $h) => `(tactic| apply writeVtdL5_sim $h)

theorem writeStartTag_sim (hR : Nice R P) : Sim R E P writeStartTag writeStartTag := by
  unfold writeStartTag; sim hR
macro_rules | `(tactic| sim_lemma $h) => `(tactic| apply writeStartTag_sim $h)

theorem finishUp_sim (hR : Nice R P) : Sim R E P finishUp finishUp := by
  unfold finishUp; sim hR
macro_rules | `(tactic| sim_lemma $h) => `(tactic| apply finishUp_sim $h)

theorem attrNameEnd_sim (hR : Nice R P) : Sim R E P attrNameEnd attrNameEnd := by
  unfold attrNameEnd; sim hR
macro_rules | `(tactic| sim_lemma $h) => `(tactic| apply attrNameEnd_sim $h)

theorem processDecAttrName_sim (hR : Nice R P) : Sim R E P processDecAttrName processDecAttrName := by
  unfold processDecAttrName; sim hR
macro_rules | `(tactic| sim_lemma $h) => `(tactic| apply processDecAttrName_sim $h)

/-- The namespace bookkeeping matches. The declared URL of an attribute is looked at in
`attrValNs`; that part is left to `mainLoop_rel`. -/
structure NsNice (R : Parser → Parser → Prop) (E P : Prop) : Prop where
  nice : Nice R P
  tagCheck : ∀ {s t}, R s t → ∀ (a b : Int) (msg : String) {k k' : M Parser Unit}, Sim R E P k k' →
    Sim R E P
      ((Pure.pure s.cfg.nsAware &&! checkXmlnsPrefix a b true) >>= fun bad => if bad then parseErr msg else k)
      ((Pure.pure t.cfg.nsAware &&! checkXmlnsPrefix a b true) >>= fun bad => if bad then parseErr msg else k')
  decl : Sim R E P attrNsDecl attrNsDecl
  push : Sim R E P pushPrefixedAttr pushPrefixedAttr
  name : Sim R E P writeAttrName writeAttrName
  tagNs : ∀ {β : Type} {k k' : Unit → M Parser β}, (∀ u, Sim R E P (k u) (k' u)) →
    Sim R E P (startTagNs >>= fun _ => M.modify (fun p => { p with length2 := 0 }) >>= k)
      (startTagNs >>= fun _ => M.modify (fun p => { p with length2 := 0 }) >>= k')
  tagEnd : Sim R E P startTagEnd startTagEnd
  qualify : Sim R E P attrValQualify attrValQualify

theorem startTagLoop_sim (hN : NsNice R E P) {n m : Nat} (hn : n ≤ m) :
    Sim R E P (startTagLoop n) (startTagLoop m) := by
  have hR := hN.nice
  induction n generalizing m with
  | zero => simp only [startTagLoop]; exact Sim.diverge
  | succ n ih =>
    obtain ⟨m, rfl⟩ : ∃ k, m = k + 1 := ⟨m - 1, by omega⟩
    have ih := @ih m (by omega)
    simp only [startTagLoop]
    refine Sim.bind (nextChar_sim hR) fun _ => Sim.bind_get fun s t hr => ?_
    have hs := hR.same hr
    same_simp hs
    refine Sim.ite (Sim.ite ?_ ih) (Sim.pure _)
    refine Sim.bind (by sim hR) fun _ => Sim.bind_get fun s t hr => ?_
    have hs := hR.same hr
    same_simp hs
    exact hN.tagCheck hr _ _ _ ih

theorem processStartTag_sim (hN : NsNice R E P) : Sim R E P processStartTag processStartTag := by
  have hR := hN.nice
  have hE := hN.tagEnd
  have hL : ∀ {n m : Nat}, n ≤ m → Sim R E P (startTagLoop n) (startTagLoop m) :=
    fun h => startTagLoop_sim hN h
  unfold processStartTag
  refine Sim.bind_get fun s t hr => ?_
  have hf := (hR.same hr).fuel
  refine Sim.bind (hL hf) fun _ => Sim.bind (by sim hR) fun _ => Sim.bind_get fun s t hr => ?_
  have hs := hR.same hr
  same_simp hs
  refine Sim.ite (by sim hR) ?_
  refine Sim.bind (by sim hR) fun _ => Sim.bind (by sim hR) fun _ => Sim.bind (by sim hR) fun _ => ?_
  refine hN.tagNs fun _ => ?_
  sim hR

theorem checkAttrUniqueness_sim (hN : NsNice R E P) : Sim R E P checkAttrUniqueness checkAttrUniqueness := by
  have hR := hN.nice
  have hE := hN.push
  unfold checkAttrUniqueness
  sim hR

theorem processAttrName_sim (hN : NsNice R E P) : Sim R E P processAttrName processAttrName := by
  have hR := hN.nice
  have hE := hN.decl
  have hE' := hN.name
  have hE'' := checkAttrUniqueness_sim hN
  unfold processAttrName
  sim hR

theorem attrValEnd_sim (hN : NsNice R E P) : Sim R E P attrValEnd attrValEnd := by
  have hR := hN.nice
  have hE := hN.qualify
  unfold attrValEnd
  sim hR

theorem resetNs_sim (hR : Nice R P) : Sim R E P
    (M.modify fun p => { p with at_ := { p.at_ with isXml := false, isNs := false } })
    (M.modify fun p => { p with at_ := { p.at_ with isXml := false, isNs := false } }) := by
  refine Sim.modify fun s t h => ?_
  have hs := hR.same h
  have := hR.put (hR.xml h) s.offset s.lastOffset s.length1 s.length2 s.depth s.vtdDepth s.currentChar s.helper
    s.ws s.tagStack s.out s.at_.attrCount s.at_.attrNameSlice false s.at_.defaultNs
  have e : Two.put { t with at_ := { t.at_ with isXml := false } } s.offset s.lastOffset s.length1 s.length2
      s.depth s.vtdDepth s.currentChar s.helper s.ws s.tagStack s.out s.at_.attrCount s.at_.attrNameSlice false
      s.at_.defaultNs = { t with at_ := { t.at_ with isXml := false, isNs := false } } := by
    simp only [Two.put, ← hs.offset, ← hs.lastOffset, ← hs.length1, ← hs.length2, ← hs.depth,
      ← hs.vtdDepth, ← hs.currentChar, ← hs.helper, ← hs.ws, ← hs.tagStack, ← hs.out, ← hs.attrCount,
      ← hs.attrNameSlice, ← hs.defaultNs]
  rw [e] at this
  exact this

/-- `processAttrVal` after the namespace part. -/
def attrValRest : M Parser PState := do
  writeVtdWithLengthCheck .attrVal AttrValueTooLong
  M.modify fun p => { p with at_ := { p.at_ with isXml := false, isNs := false } }
  nextChar
  let p ← M.get
  if isSpaceChar p.currentChar then do
    nextCharAfterWs
    let p ← M.get
    if isNameStartChar p.currentChar then do
      M.modify fun p => { p with lastOffset := p.offset - p.enc.increment }
      Pure.pure .attrName
    else attrValEnd
  else attrValEnd

/-- `processAttrVal` before the namespace part. -/
def attrValRead : M Parser Unit := do
  let p ← M.get
  attrValLoop p.currentChar p.loopFuel
  M.modify fun p => { p with length1 := p.offset - p.lastOffset - p.enc.increment }

theorem processAttrVal_eq : processAttrVal = (do attrValRead; attrValNs; attrValRest) := by
  funext s
  simp only [processAttrVal, attrValRead, attrValRest, M.bind_apply, M.get_apply, Res.andThen]
  cases attrValLoop s.currentChar s.loopFuel s <;> rfl

theorem attrValRest_sim (hN : NsNice R E P) : Sim R E P attrValRest attrValRest := by
  have hR := hN.nice
  have hE := attrValEnd_sim hN
  have hE' := resetNs_sim (E := E) hR
  unfold attrValRest
  sim hR

theorem attrValRead_sim (hR : Nice R P) : Sim R E P attrValRead attrValRead := by
  unfold attrValRead
  sim hR

/-- `I st s`: an invariant of the left run at the beginning of a step in state `st`. -/
theorem step_rel (hN : NsNice R E P) {I : PState → Parser → Prop}
    (hV : ∀ s t s', R s t → I .attrVal s → attrValRead s = .ok () s' → ∀ t', R s' t' →
      RelRes R E P (attrValNs s') (attrValNs t')) (st : PState) (s t : Parser) (hI : I st s) (h : R s t) :
    RelRes R E P (step st s) (step st t) := by
  have hR := hN.nice
  have h1 := processStartTag_sim hN
  have h2 := processAttrName_sim hN
  by_cases hst : st = .attrVal
  · subst hst
    simp only [step, processAttrVal_eq]
    show RelRes R E P ((attrValRead s).andThen _) ((attrValRead t).andThen _)
    have hr := attrValRead_sim (E := E) hR s t h
    cases hm : attrValRead s with
    | ok u s' =>
      rw [hm] at hr
      obtain ⟨t', ht, hr'⟩ := hr
      rw [ht]
      show RelRes R E P ((attrValNs s').andThen _) ((attrValNs t').andThen _)
      exact RelRes.andThen (hV s t s' h hI hm t' hr') fun _ s t h => attrValRest_sim hN s t h
    | err e s' =>
      rw [hm] at hr
      obtain h | ⟨t', ht, hr'⟩ := hr
      · exact .inl h
      · rw [ht]; exact .inr ⟨_, rfl, hr'⟩
    | panic =>
      rw [hm] at hr
      obtain h | ht := hr
      · exact .inl h
      · rw [ht]; exact .inr rfl
    | diverge => trivial
  · have : Sim R E P (step st) (step st) := by
      cases st <;> simp only [step] <;> first | exact absurd rfl hst | sim hR
    exact this s t h

theorem mainLoop_rel (hN : NsNice R E P) {I : PState → Parser → Prop}
    (hV : ∀ s t s', R s t → I .attrVal s → attrValRead s = .ok () s' → ∀ t', R s' t' →
      RelRes R E P (attrValNs s') (attrValNs t'))
    (hI : ∀ st s t st' s' t', I st s → R s t → step st s = .ok st' s' → R s' t' → I st' s')
    {n m : Nat} (hn : n ≤ m) (st : PState) (s t : Parser) (hi : I st s) (h : R s t) :
    RelRes R E P (mainLoop n st s) (mainLoop m st t) := by
  have hR := hN.nice
  induction n generalizing m st s t with
  | zero => trivial
  | succ n ih =>
    obtain ⟨m, rfl⟩ : ∃ k, m = k + 1 := ⟨m - 1, by omega⟩
    have hs := step_rel hN hV st s t hi h
    have key : ∀ k : Nat, ∀ s, mainLoop (k + 1) st s =
        match step st s with
        | .ok st' s' => mainLoop k st' s'
        | .err e s' => if e.as .eof ∧ st = .docEnd then
            wrapInternal "failed to finish-up document parsing" finishUp s' else .err e s'
        | .panic => .panic
        | .diverge => .diverge := by
      intro k s
      simp only [mainLoop, M.bind_apply, M.catchErr_apply]
      cases step st s with
      | err e s' =>
        simp only [Res.andThen, Res.handle, onStepErr]
        by_cases hc : e.as .eof ∧ st = .docEnd
        · simp only [if_pos hc, M.bind_apply]
          cases wrapInternal "failed to finish-up document parsing" finishUp s' <;> rfl
        · simp only [if_neg hc]; rfl
      | _ => rfl
    rw [key, key]
    cases hm : step st s with
    | ok st' s' =>
      rw [hm] at hs
      obtain ⟨t', ht, hr⟩ := hs
      rw [ht]
      exact ih (by omega) _ _ _ (hI _ _ _ _ _ _ hi h hm hr) hr
    | panic =>
      rw [hm] at hs
      obtain h | ht := hs
      · exact .inl h
      · rw [ht]; exact .inr rfl
    | diverge => trivial
    | err e s' =>
      by_cases hd : e.as .eof ∧ st = .docEnd
      · have hs : RelRes R False P (step st s) (step st t) := by
          rw [hd.2]
          exact processDocEnd_sim hR s t h
        rw [hm] at hs
        obtain h | ⟨t', ht, hr⟩ := hs
        · exact h.elim
        · rw [ht]
          simp only [if_pos hd]
          exact Sim.wrapInternal _ (finishUp_sim hR) _ _ hr
      · rw [hm] at hs
        simp only [if_neg hd]
        obtain h | ⟨t', ht, hr⟩ := hs
        · exact .inl h
        · rw [ht]
          simp only [if_neg hd]
          exact .inr ⟨_, rfl, hr⟩

end
end Two
end Parser
end GoVtd
