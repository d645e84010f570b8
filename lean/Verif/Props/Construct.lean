import Verif.Model.Modifier
import Verif.Props.Common
import Verif.Spec.Outcome
import Verif.Proofs.Basic

/-!
# Properties C52 and C53: construction of modifiers and pilots
-/

namespace GoVtd

/-! ## C52 -/

/-- A navigator argument the modifier supports: not nil and with encoding ASCII (0) or UTF-8 (19). -/
def NavArg.Supported : NavArg → Prop
  | .nav n => n.encoding = 0 ∨ n.encoding = 19
  | _ => False

/-- Outcome of a construction that fails at an argument that is not supported. -/
def NavArg.refusal : NavArg → Outcome Unit
  | .nil => .error (newInvalidArgumentError "nav" "cannot be nil" none)
  | .nilPointer => .panic
  | .nav _ => .error (newModifyError "Master document encoding not yet supported by XML modifier")

theorem runOpts_append {σ : Type} (xs ys : List (M σ Unit)) (s : σ) :
    Paged.runOpts (xs ++ ys) s = (Paged.runOpts xs s).andThen fun _ => Paged.runOpts ys := by
  induction xs generalizing s with
  | nil => rfl
  | cons x xs ih =>
    simp only [List.cons_append, Paged.runOpts, M.bind_apply]
    cases x s with
    | ok a t => exact ih t
    | err e t => rfl
    | panic => rfl
    | diverge => rfl

/-- What one supported navigator makes of a modifier. -/
theorem withNavigation_ok {n : VtdNav} (h : n.encoding = 0 ∨ n.encoding = 19) (m : XmlModifier) :
    ∃ m', XmlModifier.withNavigation (.nav n) m = .ok () m' ∧ m'.nav = some n ∧ m'.encoding = n.encoding ∧
      m'.charset = (if n.encoding = 0 then "ASCII" else "UTF8") ∧
      m'.insertHash = some (newIntHash [n.vtdBuffer.size]) ∧ m'.deleteHash = some (newIntHash [n.vtdBuffer.size]) ∧
      m'.longBuffer = m.longBuffer ∧ m'.objBuffer = m.objBuffer := by
  simp only [XmlModifier.withNavigation, M.bind_apply, M.modify_apply, Res.andThen_ok, getCharsetFromEncoding,
    VtdNav.getEncoding]
  have h0 : FormatAscii = 0 := rfl
  have h2 : FormatUtf8 = 19 := rfl
  rw [h0, h2]
  rcases h with h | h
  · simp only [h, if_true]
    exact ⟨_, rfl, rfl, rfl, rfl, rfl, rfl, rfl, rfl⟩
  · simp only [h]
    exact ⟨_, rfl, rfl, rfl, rfl, rfl, rfl, rfl, rfl⟩

theorem withNavigation_bad {a : NavArg} (h : ¬ a.Supported) (m : XmlModifier) :
    (XmlModifier.withNavigation a m).outcome = a.refusal := by
  cases a with
  | nil => rfl
  | nilPointer => rfl
  | nav n =>
    simp only [NavArg.Supported, not_or] at h
    have hc : getCharsetFromEncoding n.getEncoding =
        .error (newModifyError "Master document encoding not yet supported by XML modifier") := by
      unfold getCharsetFromEncoding
      rw [if_neg (show ¬ n.getEncoding = FormatAscii from h.1), if_neg (show ¬ n.getEncoding = FormatUtf8 from h.2)]
    simp only [XmlModifier.withNavigation, M.bind_apply, M.modify_apply, Res.andThen_ok, hc]
    rfl

theorem refusal_ne (a : NavArg) : a.refusal ≠ .value () := by
  cases a <;> simp [NavArg.refusal]

theorem runNavs_ok {as : List NavArg} (h : ∀ a ∈ as, a.Supported) (m : XmlModifier) :
    ∃ m', Paged.runOpts (as.map XmlModifier.withNavigation) m = .ok () m' ∧ m'.longBuffer = m.longBuffer ∧
      m'.objBuffer = m.objBuffer := by
  induction as generalizing m with
  | nil => exact ⟨m, rfl, rfl, rfl⟩
  | cons a as ih =>
    have ha := h a (List.mem_cons_self ..)
    cases a with
    | nil => exact ha.elim
    | nilPointer => exact ha.elim
    | nav n =>
      obtain ⟨m1, h1, _, _, _, _, _, h2, h3⟩ := withNavigation_ok ha m
      obtain ⟨m2, h4, h5, h6⟩ := ih (fun a ha => h a (List.mem_cons_of_mem _ ha)) m1
      refine ⟨m2, ?_, h5.trans h2, h6.trans h3⟩
      simp only [List.map_cons, Paged.runOpts, M.bind_apply, h1]
      exact h4

/-- The modifier before any option ran. -/
def blankModifier : XmlModifier := XmlModifier.mk none Paged.dflt Paged.dflt none none 0 ""

theorem newXmlModifier_eq (navs : List NavArg) :
    newXmlModifier navs = Paged.runOpts (navs.map XmlModifier.withNavigation) blankModifier := rfl

/-- C52, failure: the first navigator that is not supported decides the outcome. -/
theorem C52_refuses (good : List NavArg) (bad : NavArg) (rest : List NavArg) (hg : ∀ a ∈ good, a.Supported)
    (hb : ¬ bad.Supported) : (newXmlModifier (good ++ bad :: rest)).outcome = bad.refusal := by
  simp only [newXmlModifier_eq, List.map_append, List.map_cons, runOpts_append]
  obtain ⟨m, h, _⟩ := runNavs_ok hg blankModifier
  rw [h]
  simp only [Res.andThen_ok, Paged.runOpts, M.bind_apply]
  have := withNavigation_bad hb m
  revert this
  cases XmlModifier.withNavigation bad m with
  | ok a s => intro this; exact absurd this.symm (refusal_ne bad)
  | err e s => exact id
  | panic => exact id
  | diverge => exact id

/-- A list with a member that is not supported has a first one. -/
theorem first_unsupported {navs : List NavArg} {a : NavArg} (ha : a ∈ navs) (hn : ¬ a.Supported) :
    ∃ good bad rest, navs = good ++ bad :: rest ∧ (∀ a ∈ good, a.Supported) ∧ ¬ bad.Supported := by
  induction navs with
  | nil => cases ha
  | cons x xs ih =>
    by_cases hx : x.Supported
    · rcases List.mem_cons.mp ha with h | ha
      · exact absurd (h ▸ hx) hn
      · obtain ⟨g, b, r, h0, h1, h2⟩ := ih ha
        refine ⟨x :: g, b, r, by rw [h0]; rfl, ?_, h2⟩
        intro a ha
        rcases List.mem_cons.mp ha with h | ha
        · exact h ▸ hx
        · exact h1 a ha
    · exact ⟨[], x, xs, rfl, fun _ h => absurd h (List.not_mem_nil), hx⟩

/-- C52: construction succeeds exactly when every navigator given is supported. -/
theorem C52_succeeds_iff (navs : List NavArg) :
    (newXmlModifier navs).outcome = .value () ↔ ∀ a ∈ navs, a.Supported := by
  constructor
  · intro h a ha
    apply Classical.byContradiction
    intro hn
    obtain ⟨g, b, r, h0, h1, h2⟩ := first_unsupported ha hn
    rw [h0, C52_refuses g b r h1 h2] at h
    exact refusal_ne b h
  · intro h
    obtain ⟨m, hm, _⟩ := runNavs_ok h blankModifier
    rw [newXmlModifier_eq, hm]
    rfl

/-- C52: the modifier works on the last navigator given; it has the character set of its encoding, two empty
hashes sized for the number of its tokens, and empty buffers. -/
theorem C52_result (navs : List NavArg) (n : VtdNav) (m : XmlModifier)
    (h : newXmlModifier (navs ++ [.nav n]) = .ok () m) :
    m.nav = some n ∧ m.encoding = n.encoding ∧ m.charset = (if n.encoding = 0 then "ASCII" else "UTF8") ∧
    m.insertHash = some (newIntHash [n.vtdBuffer.size]) ∧ m.deleteHash = some (newIntHash [n.vtdBuffer.size]) ∧
    m.longBuffer = Paged.dflt ∧ m.objBuffer = Paged.dflt := by
  have hs := (C52_succeeds_iff _).mp (congrArg Res.outcome h)
  simp only [newXmlModifier_eq, List.map_append, runOpts_append] at h
  obtain ⟨m1, h1, h2, h3⟩ := runNavs_ok (as := navs) (fun a ha => hs a (List.mem_append_left _ ha))
    blankModifier
  rw [h1] at h
  obtain ⟨m2, h4, h5, h6, h7, h8, h9, h10, h11⟩ := withNavigation_ok
    (hs (.nav n) (List.mem_append_right _ (List.mem_singleton.mpr rfl))) m1
  simp only [Res.andThen_ok, List.map_cons, List.map_nil, Paged.runOpts, M.bind_apply, h4] at h
  cases h
  exact ⟨h5, h6, h7, h8, h9, h10.trans h2, h11.trans h3⟩

/-- C52 for the navigator `GetNav` returns: an interface that holds a nil pointer is not equal
to nil, and the constructor panics instead of returning an error. -/
theorem C52_nil_pointer : (newXmlModifier [.nilPointer]).outcome = .panic := rfl

/-- Without navigation the constructor succeeds too. -/
example : (newXmlModifier []).outcome = .value () := rfl

/-! ## C53 -/

/-- The option carries the nil interface. -/
def PilotOption.IsNil : PilotOption → Prop
  | .navigation .nil => True
  | _ => False

/-- The navigator of the last navigation option, nil without one. -/
def lastNavigation : List PilotOption → NavArg
  | [] => .nil
  | o :: os => (os.reverse ++ [o]).findSome? (fun
      | .navigation n => some n
      | .caching _ => none) |>.getD .nil

/-- The argument of the last caching option, true without one. -/
def lastCaching : List PilotOption → Bool
  | [] => true
  | o :: os => (os.reverse ++ [o]).findSome? (fun
      | .caching b => some b
      | .navigation _ => none) |>.getD true

theorem lastNavigation_eq (opts : List PilotOption) : lastNavigation opts =
    (opts.reverse.findSome? (fun
      | .navigation n => some n
      | .caching _ => none)).getD .nil := by
  cases opts with
  | nil => rfl
  | cons o os => simp [lastNavigation]

theorem lastCaching_eq (opts : List PilotOption) : lastCaching opts =
    (opts.reverse.findSome? (fun
      | .caching b => some b
      | .navigation _ => none)).getD true := by
  cases opts with
  | nil => rfl
  | cons o os => simp [lastCaching]

theorem pilotOpts_ok {opts : List PilotOption} (h : ∀ o ∈ opts, ¬ o.IsNil) (p : AutoPilot) :
    ∃ p', Paged.runOpts (opts.map PilotOption.run) p = .ok () p' ∧
      p'.nav = (opts.reverse.findSome? (fun
        | .navigation n => some n
        | .caching _ => none)).getD p.nav ∧
      p'.enableCaching = (opts.reverse.findSome? (fun
        | .caching b => some b
        | .navigation _ => none)).getD p.enableCaching ∧
      p'.iterType = p.iterType ∧ p'.ft = p.ft := by
  induction opts generalizing p with
  | nil => exact ⟨p, rfl, rfl, rfl, rfl, rfl⟩
  | cons o os ih =>
    have hs := fun o ho => h o (List.mem_cons_of_mem _ ho)
    have ho := h o (List.mem_cons_self ..)
    have : ∃ q, PilotOption.run o p = .ok () q ∧ q.nav = ((fun
        | PilotOption.navigation n => some n
        | .caching _ => none) o).getD p.nav ∧ q.enableCaching = ((fun
        | PilotOption.caching b => some b
        | .navigation _ => none) o).getD p.enableCaching ∧ q.iterType = p.iterType ∧ q.ft = p.ft := by
      cases o with
      | navigation n =>
        cases n with
        | nil => exact absurd trivial ho
        | nilPointer => exact ⟨_, rfl, rfl, rfl, rfl, rfl⟩
        | nav n => exact ⟨_, rfl, rfl, rfl, rfl, rfl⟩
      | caching b => exact ⟨_, rfl, rfl, rfl, rfl, rfl⟩
    obtain ⟨q, h1, h2, h3, h4, h5⟩ := this
    obtain ⟨r, g1, g2, g3, g4, g5⟩ := ih hs q
    refine ⟨r, ?_, ?_, ?_, g4.trans h4, g5.trans h5⟩
    · simp only [List.map_cons, Paged.runOpts, M.bind_apply, h1]
      exact g1
    · rw [g2, h2, List.reverse_cons, List.findSome?_append]
      cases o <;> simp [Option.getD_or] <;> cases List.findSome? _ os.reverse <;> rfl
    · rw [g3, h3, List.reverse_cons, List.findSome?_append]
      cases o <;> simp [Option.getD_or] <;> cases List.findSome? _ os.reverse <;> rfl

/-- C53: construction succeeds unless a nil navigator is given; the pilot then has the values of the
last option of each kind. -/
theorem C53_succeeds (opts : List PilotOption) (h : ∀ o ∈ opts, ¬ o.IsNil) :
    ∃ p, newAutoPilot opts = .ok () p ∧ p.nav = lastNavigation opts ∧ p.enableCaching = lastCaching opts ∧
      p.iterType = .undefined ∧ p.ft = true := by
  rw [lastNavigation_eq, lastCaching_eq]
  exact pilotOpts_ok h _

/-- C53: a nil navigator anywhere in the list is an error. -/
theorem C53_refuses (opts : List PilotOption) (h : ∃ o ∈ opts, o.IsNil) :
    (newAutoPilot opts).outcome = .error (newInvalidArgumentError "nav" "cannot be nil" none) := by
  simp only [newAutoPilot]
  generalize AutoPilot.mk _ _ _ _ = p
  induction opts generalizing p with
  | nil => obtain ⟨o, ho, _⟩ := h; cases ho
  | cons o os ih =>
    obtain ⟨o', ho', hn⟩ := h
    by_cases hc : o.IsNil
    · cases o with
      | caching b => exact hc.elim
      | navigation n => cases n <;> first | rfl | exact hc.elim
    · rcases List.mem_cons.mp ho' with rfl | ho'
      · exact absurd hn hc
      · have : ∃ q, PilotOption.run o p = .ok () q := by
          cases o with
          | caching b => exact ⟨_, rfl⟩
          | navigation n => cases n <;> first | exact ⟨_, rfl⟩ | exact absurd trivial hc
        obtain ⟨q, hq⟩ := this
        simp only [List.map_cons, Paged.runOpts, M.bind_apply, hq]
        exact ih ⟨o', ho', hn⟩ q

example : ∃ p, newAutoPilot [.caching true, .navigation .nilPointer, .caching false] = .ok () p ∧
    p.enableCaching = false := ⟨_, rfl, rfl⟩

end GoVtd
