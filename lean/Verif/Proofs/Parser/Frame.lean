import Verif.Proofs.Parser.TwoLoop

/-!
# What a computation leaves alone

`Fr F m`: whatever the state `s` in which `m` starts, `F s s'` holds of the state `s'` in which it comes
back, with or without an error.
-/

namespace GoVtd
namespace Parser
namespace Two
open Paged

/-- `m` changes the state only as `F` allows. -/
def Fr (F : Parser → Parser → Prop) {α : Type} (m : M Parser α) : Prop :=
  ∀ s, match m s with
    | .ok _ s' => F s s'
    | .err _ s' => F s s'
    | _ => True

/-- `F` is a preorder. -/
structure Pre (F : Parser → Parser → Prop) : Prop where
  refl : ∀ s, F s s
  trans : ∀ {a b c}, F a b → F b c → F a c

section
variable {F : Parser → Parser → Prop} {α β : Type}

theorem Fr.ok {m : M Parser α} (h : Fr F m) {s a s'} (hm : m s = .ok a s') : F s s' := by
  have := h s; rw [hm] at this; exact this
theorem Fr.pure (hF : Pre F) (a : α) : Fr F (Pure.pure a : M Parser α) := fun s => hF.refl s
theorem Fr.raise (hF : Pre F) (e : GoErr) : Fr F (M.raise e : M Parser α) := fun s => hF.refl s
theorem Fr.panic : Fr F (M.panic : M Parser α) := fun _ => trivial
theorem Fr.diverge : Fr F (M.diverge : M Parser α) := fun _ => trivial
theorem Fr.get (hF : Pre F) : Fr F M.get := fun s => hF.refl s
theorem Fr.modify {g : Parser → Parser} (h : ∀ s, F s (g s)) : Fr F (M.modify g) := fun s => h s
theorem Fr.index (hF : Pre F) (xs : List α) (i : Int) : Fr F (M.index xs i : M Parser α) := by
  intro s
  by_cases h' : 0 ≤ i ∧ i.toNat < xs.length
  · rw [M.index_of_lt xs i s h'.1 h'.2]; exact hF.refl s
  · rw [M.index_panic xs i s (by omega)]; trivial
theorem Fr.bind (hF : Pre F) {m : M Parser α} {k : α → M Parser β} (hm : Fr F m) (hk : ∀ a, Fr F (k a)) :
    Fr F (m >>= k) := by
  intro s
  have h1 := hm s
  rw [M.bind_apply]
  cases hr : m s with
  | ok a s' =>
    rw [hr] at h1
    have h2 := hk a s'
    rw [Res.andThen_ok]
    cases hr2 : k a s' with
    | ok b s'' => rw [hr2] at h2; exact hF.trans h1 h2
    | err b s'' => rw [hr2] at h2; exact hF.trans h1 h2
    | panic => trivial
    | diverge => trivial
  | err e s' => rw [hr] at h1; exact h1
  | panic => trivial
  | diverge => trivial
theorem Fr.catchErr (hF : Pre F) {m : M Parser α} {k : GoErr → M Parser α} (hm : Fr F m) (hk : ∀ a, Fr F (k a)) :
    Fr F (M.catchErr m k) := by
  intro s
  have h1 := hm s
  rw [M.catchErr_apply]
  cases hr : m s with
  | ok a s' => rw [hr] at h1; exact h1
  | err e s' =>
    rw [hr] at h1
    have h2 := hk e s'
    simp only [Res.handle]
    cases hr2 : k e s' with
    | ok b s'' => rw [hr2] at h2; exact hF.trans h1 h2
    | err b s'' => rw [hr2] at h2; exact hF.trans h1 h2
    | panic => trivial
    | diverge => trivial
  | panic => trivial
  | diverge => trivial
theorem Fr.ite {c : Prop} [Decidable c] {a b : M Parser α} (ha : Fr F a) (hb : Fr F b) :
    Fr F (if c then a else b) := by
  split
  · exact ha
  · exact hb
theorem Fr.and (hF : Pre F) {a b : M Parser Bool} (ha : Fr F a) (hb : Fr F b) : Fr F (M.and a b) :=
  Fr.bind hF ha fun _ => Fr.ite hb (Fr.pure hF _)
theorem Fr.or (hF : Pre F) {a b : M Parser Bool} (ha : Fr F a) (hb : Fr F b) : Fr F (M.or a b) :=
  Fr.bind hF ha fun _ => Fr.ite (Fr.pure hF _) hb
theorem Fr.zoom {τ : Type} {g : Parser → τ} {u : τ → Parser → Parser} {m : M τ α} (h : ∀ s t, F s (u t s)) :
    Fr F (M.zoom g u m) := by
  intro s
  rw [M.zoom_apply]
  cases m (g s) with
  | ok a t => exact h s t
  | err e t => exact h s t
  | panic => trivial
  | diverge => trivial
theorem Fr.docByte (hF : Pre F) (i : Int) : Fr F (docByte i) := Fr.bind hF (Fr.get hF) fun _ => Fr.index hF _ _
end

/-- Lemmas for the tactic `fr`. -/
syntax "fr_lemma" term : tactic
/-- Prove `Fr F m` along the text of `m`; the argument is a proof of `Pre F`. -/
syntax "fr" term : tactic

macro_rules | `(tactic| fr_lemma $h) => `(tactic| exact Fr.docByte $h _)
macro_rules
  | `(tactic| fr $h) => `(tactic| repeat' (first
      | assumption
      | with_reducible exact Fr.pure $h _
      | with_reducible exact Fr.raise $h _
      | with_reducible exact Fr.panic
      | with_reducible exact Fr.diverge
      | with_reducible exact Fr.get $h
      | with_reducible exact Fr.index $h _ _
      | with_reducible refine Fr.bind $h ?_ fun _ => ?_
      | with_reducible refine Fr.catchErr $h ?_ fun _ => ?_
      | with_reducible refine Fr.and $h ?_ ?_
      | with_reducible refine Fr.or $h ?_ ?_
      | with_reducible refine Fr.ite ?_ ?_
      | fr_lemma $h
      | split))

section
variable {F : Parser → Parser → Prop} {α β : Type} (hF : Pre F)
include hF

theorem docIs_fr (i : Int) (b : UInt8) : Fr F (docIs i b) := by unfold docIs; fr hF
macro_rules | `(tactic| fr_lemma $h) => `(tactic| exact docIs_fr $h _ _)

theorem docMatches_fr (i : Int) (l : List UInt8) : Fr F (docMatches i l) := by
  induction l generalizing i with
  | nil => unfold docMatches; fr hF
  | cons c l ih => unfold docMatches; have := ih (i + 1); fr hF
macro_rules | `(tactic| fr_lemma $h) => `(tactic| exact docMatches_fr $h _ _)

theorem checkXmlPrefix_fr (a b : Int) (c : Bool) : Fr F (checkXmlPrefix a b c) := by
  unfold checkXmlPrefix checkPrefix; fr hF
macro_rules | `(tactic| fr_lemma $h) => `(tactic| exact checkXmlPrefix_fr $h _ _ _)
theorem checkXmlnsPrefix_fr (a b : Int) (c : Bool) : Fr F (checkXmlnsPrefix a b c) := by
  unfold checkXmlnsPrefix checkPrefix; fr hF
macro_rules | `(tactic| fr_lemma $h) => `(tactic| exact checkXmlnsPrefix_fr $h _ _ _)

theorem sameBytes_fr (n : Nat) (a b : Int) : Fr F (sameBytes n a b) := by
  induction n generalizing a b with
  | zero => unfold sameBytes; fr hF
  | succ n ih => unfold sameBytes; have := ih (a + 1) (b + 1); fr hF
macro_rules | `(tactic| fr_lemma $h) => `(tactic| exact sameBytes_fr $h _ _ _)

theorem lineLoop_fr {isNl : Int → M Parser Bool} (h : ∀ i, Fr F (isNl i)) (inc : Int) (n : Nat) (a b c : Int) :
    Fr F (lineLoop isNl inc n a b c) := by
  induction n generalizing a b c with
  | zero => unfold lineLoop; fr hF
  | succ n ih =>
    unfold lineLoop
    refine Fr.bind hF (h _) fun _ => ?_
    exact Fr.ite (ih _ _ _) (ih _ _ _)

theorem fmtCustomLine_fr (o : Int) : Fr F (fmtCustomLine o) := by
  unfold fmtCustomLine
  refine Fr.bind hF (Fr.get hF) fun _ => Fr.ite ?_ (Fr.ite ?_ ?_) <;>
  · refine Fr.bind hF (lineLoop_fr hF (fun i => by fr hF) _ _ _ _ _) fun _ => by fr hF
macro_rules | `(tactic| fr_lemma $h) => `(tactic| exact fmtCustomLine_fr $h _)

theorem parseErr_fr (msg : String) : Fr F (parseErr msg : M Parser α) := by
  unfold parseErr fmtLine; fr hF
macro_rules | `(tactic| fr_lemma $h) => `(tactic| exact parseErr_fr $h _)
theorem parseErrAt_fr (msg : String) (o : Int) : Fr F (parseErrAt msg o : M Parser α) := by
  unfold parseErrAt; fr hF
macro_rules | `(tactic| fr_lemma $h) => `(tactic| exact parseErrAt_fr $h _ _)

end

/-! ## The namespace bookkeeping -/

/-- The lists of prefixed attributes as the parser keeps them: the first has room for 256 entries, the second
starts with 256 zeros. -/
def NsLists (s : Parser) : Prop :=
  s.at_.prefixedAttrNameSlice.length = 256 ∧ ∃ l, s.at_.prefixUrlSlice = List.replicate 256 0 ++ l

/-- Overwrite the namespace bookkeeping. -/
def nsPut (s : Parser) (ns : ParserNs) (count : Int) (names : List (BitVec 64)) (urls : List Int) (isXml : Bool)
    (element : BitVec 64) : Parser :=
  { s with
    ns := ns
    at_ := { s.at_ with
      prefixedAttCount := count
      prefixedAttrNameSlice := names
      prefixUrlSlice := urls
      isXml := isXml
      currentElementRecord := element } }

/-- `s'` is `s` with other namespace bookkeeping. -/
def NsF (s s' : Parser) : Prop :=
  (∃ ns count names urls isXml element, s' = nsPut s ns count names urls isXml element) ∧
  (NsLists s → NsLists s')

theorem nsF_pre : Pre NsF where
  refl s := ⟨⟨s.ns, _, _, _, _, _, rfl⟩, id⟩
  trans := by
    rintro a b c ⟨⟨ns, v1, v2, v3, v4, v5, rfl⟩, h1⟩ ⟨⟨ns', w1, w2, w3, w4, w5, rfl⟩, h2⟩
    exact ⟨⟨ns', w1, w2, w3, w4, w5, rfl⟩, fun h => h2 (h1 h)⟩

theorem onNs1_fr {α : Type} (m : M FastIntBuffer α) : Fr NsF (onNs1 m) :=
  Fr.zoom fun _ _ => ⟨⟨_, _, _, _, _, _, rfl⟩, id⟩
theorem onNs2_fr {α : Type} (m : M FastLongBuffer α) : Fr NsF (onNs2 m) :=
  Fr.zoom fun _ _ => ⟨⟨_, _, _, _, _, _, rfl⟩, id⟩
theorem onNs3_fr {α : Type} (m : M FastLongBuffer α) : Fr NsF (onNs3 m) :=
  Fr.zoom fun _ _ => ⟨⟨_, _, _, _, _, _, rfl⟩, id⟩
macro_rules | `(tactic| fr_lemma $_h) => `(tactic| exact onNs1_fr _)
macro_rules | `(tactic| fr_lemma $_h) => `(tactic| exact onNs2_fr _)
macro_rules | `(tactic| fr_lemma $_h) => `(tactic| exact onNs3_fr _)

theorem qualifyElementLoop_fr (a b : Int) (n : Nat) : Fr NsF (qualifyElementLoop a b n) := by
  induction n with
  | zero => unfold qualifyElementLoop; fr nsF_pre
  | succ n ih => unfold qualifyElementLoop; fr nsF_pre
macro_rules | `(tactic| fr_lemma $_h) => `(tactic| exact qualifyElementLoop_fr _ _ _)

theorem qualifyElement_fr : Fr NsF qualifyElement := by unfold qualifyElement; fr nsF_pre
macro_rules | `(tactic| fr_lemma $_h) => `(tactic| exact qualifyElement_fr)
theorem pushNs1_fr : Fr NsF pushNs1 := by unfold pushNs1; fr nsF_pre
macro_rules | `(tactic| fr_lemma $_h) => `(tactic| exact pushNs1_fr)

theorem qualifyAttrLoop_fr (a b : Int) (n : Nat) : Fr NsF (qualifyAttrLoop a b n) := by
  induction n with
  | zero => unfold qualifyAttrLoop; fr nsF_pre
  | succ n ih => unfold qualifyAttrLoop; fr nsF_pre
macro_rules | `(tactic| fr_lemma $_h) => `(tactic| exact qualifyAttrLoop_fr _ _ _)

theorem qualifyAttrsLoop_fr (a : Nat) (n : Nat) (j : Int) : Fr NsF (qualifyAttrsLoop a n j) := by
  induction n generalizing j with
  | zero => unfold qualifyAttrsLoop; fr nsF_pre
  | succ n ih =>
    unfold qualifyAttrsLoop
    have ih := ih (j + 1)
    have hm : ∀ i : Int, Fr NsF (M.modify fun p : Parser => { p with
        at_ := { p.at_ with prefixUrlSlice := p.at_.prefixUrlSlice ++ [i] } }) := fun i =>
      Fr.modify fun s => ⟨⟨_, _, _, _, _, _, rfl⟩, fun h => ⟨h.1, by
        obtain ⟨-, l, hl⟩ := h
        exact ⟨l ++ [i], by simp only [hl, List.append_assoc]⟩⟩⟩
    fr nsF_pre
    exact hm _
macro_rules | `(tactic| fr_lemma $_h) => `(tactic| exact qualifyAttrsLoop_fr _ _ _)

theorem qualifyAttributes_fr : Fr NsF qualifyAttributes := by unfold qualifyAttributes; fr nsF_pre
macro_rules | `(tactic| fr_lemma $_h) => `(tactic| exact qualifyAttributes_fr)

theorem setXml_fr (x : Bool) : Fr NsF (M.modify fun p : Parser => { p with at_ := { p.at_ with isXml := x } }) :=
  Fr.modify fun _ => ⟨⟨_, _, _, _, _, _, rfl⟩, id⟩
macro_rules | `(tactic| fr_lemma $_h) => `(tactic| exact setXml_fr _)

theorem attrNsDecl_fr : Fr NsF attrNsDecl := by unfold attrNsDecl; fr nsF_pre

theorem setAt_length {α : Type} {l l' : List α} {i : Int} {x : α} (h : setAt l i x = some l') : l'.length = l.length := by
  unfold setAt at h
  split at h
  · cases h
  · cases h; simp

theorem eq_pre : Pre (fun s s' : Parser => s' = s) := ⟨fun _ => rfl, fun h h' => h'.trans h⟩

theorem pushPrefixedAttr_fr : Fr NsF pushPrefixedAttr := by
  intro s
  simp only [pushPrefixedAttr, M.bind_apply, M.get_apply, Res.andThen_ok, M.ite_apply]
  by_cases hb : s.cfg.nsAware = true ∧ (!s.at_.isNs) = true ∧ s.length2 ≠ 0
  · rw [if_pos hb]
    have hc := checkXmlPrefix_fr eq_pre s.lastOffset (-1) false s
    cases hx : checkXmlPrefix s.lastOffset (-1) false s with
    | ok b s' =>
      rw [hx] at hc
      obtain rfl := hc
      simp only [Res.andThen_ok, M.ite_apply]
      by_cases hd : (s'.enc.increment = 1 ∧ s'.length2 = 3 ∧ b = true) ∨
          (s'.enc.increment = 2 ∧ s'.length2 = 6 ∧ b = true)
      · rw [if_pos hd]; exact nsF_pre.refl _
      · rw [if_neg hd]
        cases hl : setAt s'.at_.prefixedAttrNameSlice s'.at_.prefixedAttCount _ with
        | some l => exact ⟨⟨_, _, _, _, _, _, rfl⟩, fun h => ⟨(setAt_length hl).trans h.1, h.2⟩⟩
        | none => trivial
    | err e s' => rw [hx] at hc; obtain rfl := hc; exact nsF_pre.refl _
    | panic => trivial
    | diverge => trivial
  · rw [if_neg hb]; exact nsF_pre.refl _

/-! ## Reading a value -/

/-- The configuration and the start of the token stay as they are. -/
def KeepF (s s' : Parser) : Prop := s'.lastOffset = s.lastOffset ∧ s'.cfg = s.cfg

theorem keep_pre : Pre KeepF := ⟨fun _ => ⟨rfl, rfl⟩, fun h h' => ⟨h'.1.trans h.1, h'.2.trans h.2⟩⟩

theorem getChar_keep : Fr KeepF getChar := by
  unfold getChar
  refine Fr.bind keep_pre (Fr.zoom fun _ _ => ⟨rfl, rfl⟩) fun _ => Fr.bind keep_pre (Fr.modify fun _ => ⟨rfl, rfl⟩)
    fun _ => Fr.pure keep_pre _
macro_rules | `(tactic| fr_lemma $_h) => `(tactic| exact getChar_keep)
theorem nextChar_keep : Fr KeepF nextChar := by
  unfold nextChar
  exact Fr.bind keep_pre getChar_keep fun _ => Fr.modify fun _ => ⟨rfl, rfl⟩
macro_rules | `(tactic| fr_lemma $_h) => `(tactic| exact nextChar_keep)
theorem entitySeq_keep (l : List Nat) : Fr KeepF (entitySeq l) := by
  induction l with
  | nil => unfold entitySeq; fr keep_pre
  | cons c l ih => unfold entitySeq; fr keep_pre
macro_rules | `(tactic| fr_lemma $_h) => `(tactic| exact entitySeq_keep _)
theorem entityHexLoop_keep (n v : Nat) : Fr KeepF (entityHexLoop n v) := by
  induction n generalizing v with
  | zero => unfold entityHexLoop; fr keep_pre
  | succ n ih =>
    unfold entityHexLoop
    refine Fr.bind keep_pre getChar_keep fun ch => ?_
    split
    · exact ih _
    · fr keep_pre
macro_rules | `(tactic| fr_lemma $_h) => `(tactic| exact entityHexLoop_keep _ _)
theorem entityDecLoop_keep (n c v : Nat) : Fr KeepF (entityDecLoop n c v) := by
  induction n generalizing c v with
  | zero => unfold entityDecLoop; fr keep_pre
  | succ n ih =>
    unfold entityDecLoop
    exact Fr.ite (Fr.bind keep_pre getChar_keep fun _ => ih _ _) (by fr keep_pre)
macro_rules | `(tactic| fr_lemma $_h) => `(tactic| exact entityDecLoop_keep _ _ _)
theorem entityIdentifier_keep : Fr KeepF entityIdentifier := by unfold entityIdentifier; fr keep_pre
macro_rules | `(tactic| fr_lemma $_h) => `(tactic| exact entityIdentifier_keep)
theorem attrValLoop_keep (q n : Nat) : Fr KeepF (attrValLoop q n) := by
  induction n with
  | zero => unfold attrValLoop; fr keep_pre
  | succ n ih => unfold attrValLoop; fr keep_pre
theorem attrValRead_keep : Fr KeepF attrValRead := by
  unfold attrValRead
  exact Fr.bind keep_pre (Fr.get keep_pre) fun _ => Fr.bind keep_pre (attrValLoop_keep _ _) fun _ =>
    Fr.modify fun _ => ⟨rfl, rfl⟩

/-! ## Steps that do not end in the state of an attribute value -/

/-- `m` never comes back with `attrVal`. -/
def Never (m : M Parser PState) : Prop := ∀ s s', m s ≠ .ok .attrVal s'

theorem Never.pure {st : PState} (h : st ≠ .attrVal) : Never (Pure.pure st) := by
  intro s s' he
  cases he
  exact h rfl
theorem Never.raise (e : GoErr) : Never (M.raise e) := fun _ _ h => by cases h
theorem Never.panic : Never M.panic := fun _ _ h => by cases h
theorem Never.bind {α : Type} {m : M Parser α} {k : α → M Parser PState} (h : ∀ a, Never (k a)) : Never (m >>= k) := by
  intro s s' he
  rw [M.bind_apply] at he
  cases hm : m s with
  | ok a t => rw [hm] at he; exact h a t s' he
  | err e t => rw [hm] at he; cases he
  | panic => rw [hm] at he; cases he
  | diverge => rw [hm] at he; cases he
theorem Never.ite {c : Prop} [Decidable c] {a b : M Parser PState} (ha : Never a) (hb : Never b) :
    Never (if c then a else b) := by
  split
  · exact ha
  · exact hb
theorem Never.parseErr (msg : String) : Never (parseErr msg) := Never.bind fun _ => Never.raise _
theorem Never.parseErrAt (msg : String) (o : Int) : Never (parseErrAt msg o) := Never.bind fun _ => Never.raise _

/-- Lemmas for the tactic `never`. -/
syntax "never_lemma" : tactic
/-- Prove `Never m` along the text of `m`. -/
syntax "never" : tactic
macro_rules | `(tactic| never_lemma) => `(tactic| exact Never.parseErr _)
macro_rules | `(tactic| never_lemma) => `(tactic| exact Never.parseErrAt _ _)
macro_rules
  | `(tactic| never) => `(tactic| repeat' (first
      | assumption
      | with_reducible exact Never.pure (by decide)
      | with_reducible exact Never.raise _
      | with_reducible exact Never.panic
      | with_reducible never_lemma
      | with_reducible refine Never.bind fun _ => ?_
      | with_reducible refine Never.ite ?_ ?_
      | split))

theorem processElementTail_never : Never processElementTail := by unfold processElementTail; never
macro_rules | `(tactic| never_lemma) => `(tactic| exact processElementTail_never)
theorem startTagEnd_never : Never startTagEnd := by unfold startTagEnd; never
macro_rules | `(tactic| never_lemma) => `(tactic| exact startTagEnd_never)
theorem attrValEnd_never : Never attrValEnd := by unfold attrValEnd; never
macro_rules | `(tactic| never_lemma) => `(tactic| exact attrValEnd_never)

theorem getNextProcessStateFromChar_never (c : Nat) : Never (getNextProcessStateFromChar c) := by
  unfold getNextProcessStateFromChar; never
macro_rules | `(tactic| never_lemma) => `(tactic| exact getNextProcessStateFromChar_never _)
theorem afterMarkup_never : Never afterMarkup := by unfold afterMarkup; never
macro_rules | `(tactic| never_lemma) => `(tactic| exact afterMarkup_never)
theorem processExSeen_never : Never processExSeen := by unfold processExSeen; never
macro_rules | `(tactic| never_lemma) => `(tactic| exact processExSeen_never)
theorem processQmSeen_never : Never processQmSeen := by unfold processQmSeen; never
macro_rules | `(tactic| never_lemma) => `(tactic| exact processQmSeen_never)

theorem step_never {st : PState} (h : st ≠ .attrName) : Never (step st) := by
  cases st
  case attrName => exact absurd rfl h
  case ltSeen => simp only [step]; unfold processLtSeen; never
  case tagStart => simp only [step]; unfold processStartTag; never
  case tagEnd => simp only [step]; unfold processEndTag; never
  case attrVal => simp only [step]; unfold processAttrVal; never
  case text => simp only [step]; unfold processText; never
  case docStart => simp only [step]; unfold processDocStart; never
  case docEnd => simp only [step]; unfold processDocEnd; never
  case piTag => simp only [step]; unfold processPiTag; never
  case piVal => simp only [step]; unfold processPiVal; never
  case decAttrName => simp only [step]; unfold processDecAttrName; never
  case startComment => simp only [step]; unfold processStartComment; never
  case endComment => simp only [step]; unfold processEndComment; never
  case cdata => simp only [step]; unfold processCdata; never
  case docType => simp only [step]; unfold processDocType; never
  case piEnd => simp only [step]; unfold processPiEnd; never
  case invalid => simp only [step]; never

end Two
end Parser
end GoVtd
