import Verif.Model.Parser.Parse
import Verif.Proofs.Basic

/-!
# Running the parser on two related states

`Sim R E P m m'`: started in states related by `R`, a successful run of `m` is matched by a run of
`m'` with the same value and related states. A run of `m` that ends in an error is matched by the
same error unless `E` holds, a panic by a panic unless `P` holds, and a run of `m` that exhausts its
fuel is matched by anything.

A relation is `Nice` when related states agree on everything the parser reads outside the document
and the namespace bookkeeping, and when it is kept by equal writes to those fields. Every function of
the parser outside the namespace bookkeeping is in `Sim` with itself for every nice relation.
-/

namespace GoVtd
namespace Parser
namespace Two
open Paged

/-- The right outcome matches the left one. -/
def RelRes (R : Parser → Parser → Prop) (E P : Prop) {α : Type} : Res Parser α → Res Parser α → Prop
  | .ok a s, r => ∃ t, r = .ok a t ∧ R s t
  | .err e s, r => E ∨ ∃ t, r = .err e t ∧ R s t
  | .panic, r => P ∨ r = .panic
  | .diverge, _ => True

/-- `m'` matches `m`. -/
def Sim (R : Parser → Parser → Prop) (E P : Prop) {α : Type} (m m' : M Parser α) : Prop :=
  ∀ s t, R s t → RelRes R E P (m s) (m' t)

/-- Agreement of two states. -/
structure Same (s t : Parser) : Prop where
  offset : t.offset = s.offset
  lastOffset : t.lastOffset = s.lastOffset
  length1 : t.length1 = s.length1
  length2 : t.length2 = s.length2
  depth : t.depth = s.depth
  vtdDepth : t.vtdDepth = s.vtdDepth
  currentChar : t.currentChar = s.currentChar
  helper : t.helper = s.helper
  ws : t.ws = s.ws
  tagStack : t.tagStack = s.tagStack
  enc : t.enc = s.enc
  out : t.out = s.out
  attrCount : t.at_.attrCount = s.at_.attrCount
  attrNameSlice : t.at_.attrNameSlice = s.at_.attrNameSlice
  isNs : t.at_.isNs = s.at_.isNs
  defaultNs : t.at_.defaultNs = s.at_.defaultNs
  docOffset : t.cfg.docOffset = s.cfg.docOffset
  endOffset : t.cfg.endOffset = s.cfg.endOffset
  shallowDepth : t.cfg.shallowDepth = s.cfg.shallowDepth
  rdOffset : t.rd.offset = s.rd.offset
  fuel : s.loopFuel ≤ t.loopFuel
  fixedL : encodingFixed s = true
  fixedR : encodingFixed t = true

/-- Overwrite the fields the two states agree on, without the encoding and the reader. -/
def put (p : Parser) (offset lastOffset length1 length2 depth vtdDepth : Int)
    (currentChar : Nat) (helper ws : Bool) (tagStack : List (BitVec 64)) (out : ParserOut)
    (attrCount : Int) (attrNameSlice : List (BitVec 64)) (isNs defaultNs : Bool) : Parser :=
  { cfg := p.cfg, enc := p.enc, rd := p.rd, offset := offset, lastOffset := lastOffset,
    length1 := length1, length2 := length2, depth := depth, vtdDepth := vtdDepth,
    currentChar := currentChar, helper := helper, ws := ws, tagStack := tagStack,
    at_ := { p.at_ with attrCount := attrCount, attrNameSlice := attrNameSlice, isNs := isNs,
                        defaultNs := defaultNs },
    out := out, ns := p.ns }

structure Nice (R : Parser → Parser → Prop) (P : Prop) : Prop where
  same : ∀ {s t}, R s t → Same s t
  put : ∀ {s t}, R s t → ∀ offset lastOffset length1 length2 depth vtdDepth currentChar helper
    ws tagStack out attrCount attrNameSlice isNs defaultNs,
    R (Two.put s offset lastOffset length1 length2 depth vtdDepth currentChar helper ws tagStack out
        attrCount attrNameSlice isNs defaultNs)
      (Two.put t offset lastOffset length1 length2 depth vtdDepth currentChar helper ws tagStack out
        attrCount attrNameSlice isNs defaultNs)
  seek : ∀ {s t}, R s t → ∀ o, R { s with rd := s.rd.setOffset o } { t with rd := t.rd.setOffset o }
  xml : ∀ {s t}, R s t → R { s with at_ := { s.at_ with isXml := false } }
    { t with at_ := { t.at_ with isXml := false } }
  docByte : ∀ i, Sim R False P (docByte i) (docByte i)
  getChar : Sim R False P (onRd Reader.getChar) (onRd Reader.getChar)
  skipChar : ∀ c, Sim R False P (onRd (Reader.skipChar c)) (onRd (Reader.skipChar c))
  skipCharSeq : ∀ l, Sim R False P (onRd (Reader.skipCharSeq l)) (onRd (Reader.skipCharSeq l))

section
variable {R : Parser → Parser → Prop} {E P : Prop} {α β : Type}

theorem RelRes.mono {r r' : Res Parser α} (h : RelRes R False P r r') : RelRes R E P r r' := by
  cases r
  · exact h
  · obtain h | h := h
    · exact h.elim
    · exact .inr h
  · exact h
  · exact h

theorem Sim.mono {m m' : M Parser α} (h : Sim R False P m m') : Sim R E P m m' :=
  fun s t hr => (h s t hr).mono

theorem Sim.pure (a : α) : Sim R E P (Pure.pure a : M Parser α) (Pure.pure a) :=
  fun _ _ h => ⟨_, rfl, h⟩
theorem Sim.raise (e : GoErr) : Sim R E P (M.raise e : M Parser α) (M.raise e) :=
  fun _ _ h => .inr ⟨_, rfl, h⟩
theorem Sim.panic : Sim R E P (M.panic : M Parser α) M.panic := fun _ _ _ => .inr rfl
theorem Sim.diverge {m : M Parser α} : Sim R E P (M.diverge : M Parser α) m := fun _ _ _ => trivial

theorem Sim.index (xs : List α) (i : Int) : Sim R E P (M.index xs i : M Parser α) (M.index xs i) := by
  intro s t h
  by_cases h' : 0 ≤ i ∧ i.toNat < xs.length
  · rw [M.index_of_lt xs i s h'.1 h'.2, M.index_of_lt xs i t h'.1 h'.2]
    exact ⟨_, rfl, h⟩
  · rw [M.index_panic xs i s (by omega), M.index_panic xs i t (by omega)]
    exact .inr rfl

theorem Sim.modify {g g' : Parser → Parser} (hg : ∀ s t, R s t → R (g s) (g' t)) :
    Sim R E P (M.modify g) (M.modify g') := fun s t h => ⟨_, rfl, hg s t h⟩

theorem RelRes.andThen {r r' : Res Parser α} {k k' : α → M Parser β} (h : RelRes R E P r r')
    (hk : ∀ a s t, R s t → RelRes R E P (k a s) (k' a t)) :
    RelRes R E P (r.andThen k) (r'.andThen k') := by
  cases r
  · obtain ⟨t, rfl, h⟩ := h; exact hk _ _ _ h
  · obtain h | ⟨t, rfl, h⟩ := h
    · exact .inl h
    · exact .inr ⟨_, rfl, h⟩
  · obtain h | rfl := h
    · exact .inl h
    · exact .inr rfl
  · trivial

theorem Sim.bind {m m' : M Parser α} {k k' : α → M Parser β} (hm : Sim R E P m m')
    (hk : ∀ a, Sim R E P (k a) (k' a)) : Sim R E P (m >>= k) (m' >>= k') :=
  fun s t h => RelRes.andThen (hm s t h) fun a s t h => hk a s t h

theorem Sim.bind_get {k k' : Parser → M Parser β} (hk : ∀ s t, R s t → Sim R E P (k s) (k' t)) :
    Sim R E P (M.get >>= k) (M.get >>= k') := fun s t h => hk s t h s t h

theorem Sim.ite {c : Prop} {i1 i2 : Decidable c} {a b a' b' : M Parser α} (ha : Sim R E P a a')
    (hb : Sim R E P b b') : Sim R E P (@_root_.ite _ c i1 a b) (@_root_.ite _ c i2 a' b') := by
  by_cases h : c
  · rw [if_pos h, if_pos h]; exact ha
  · rw [if_neg h, if_neg h]; exact hb

theorem Sim.catchErr {m m' : M Parser α} {k k' : GoErr → M Parser α} (hm : Sim R False P m m')
    (hk : ∀ e, Sim R E P (k e) (k' e)) : Sim R E P (M.catchErr m k) (M.catchErr m' k') := by
  intro s t h
  have := hm s t h
  simp only [M.catchErr_apply]
  revert this
  cases m s <;> intro this
  · obtain ⟨t, ht, h⟩ := this; rw [ht]; exact ⟨_, rfl, h⟩
  · obtain h | ⟨t, ht, h⟩ := this
    · exact h.elim
    · rw [ht]; exact hk _ _ _ h
  · obtain h | ht := this
    · exact .inl h
    · rw [ht]; exact .inr rfl
  · trivial

theorem Sim.and {a b a' b' : M Parser Bool} (ha : Sim R E P a a') (hb : Sim R E P b b') :
    Sim R E P (M.and a b) (M.and a' b') :=
  Sim.bind ha fun _ => Sim.ite hb (Sim.pure _)

theorem Sim.or {a b a' b' : M Parser Bool} (ha : Sim R E P a a') (hb : Sim R E P b b') :
    Sim R E P (M.or a b) (M.or a' b') :=
  Sim.bind ha fun _ => Sim.ite (Sim.pure _) hb

theorem Sim.wrapInternal {m m' : M Parser α} (msg : String) (hm : Sim R False P m m') :
    Sim R E P (Parser.wrapInternal msg m) (Parser.wrapInternal msg m') :=
  Sim.catchErr hm fun _ => Sim.raise _

theorem Sim.zoom {τ : Type} {g : Parser → τ} {u : τ → Parser → Parser} (m : M τ α)
    (hg : ∀ s t, R s t → g t = g s)
    (hu : ∀ x s t, R s t → R (u x s) (u x t)) : Sim R E P (M.zoom g u m) (M.zoom g u m) := by
  intro s t h
  simp only [M.zoom_apply, hg s t h]
  cases m (g s)
  · exact ⟨_, rfl, hu _ _ _ h⟩
  · exact .inr ⟨_, rfl, hu _ _ _ h⟩
  · exact .inr rfl
  · trivial

/-- Overwrite the fields outside the attributes. -/
def put0 (p : Parser) (offset lastOffset length1 length2 depth vtdDepth : Int)
    (currentChar : Nat) (helper ws : Bool) (tagStack : List (BitVec 64)) (out : ParserOut) : Parser :=
  { cfg := p.cfg, enc := p.enc, rd := p.rd, offset := offset, lastOffset := lastOffset,
    length1 := length1, length2 := length2, depth := depth, vtdDepth := vtdDepth,
    currentChar := currentChar, helper := helper, ws := ws, tagStack := tagStack,
    at_ := p.at_, out := out, ns := p.ns }

theorem Nice.put0 (hR : Nice R P) {s t : Parser} (h : R s t) (offset lastOffset length1 length2 depth vtdDepth : Int)
    (currentChar : Nat) (helper ws : Bool) (tagStack : List (BitVec 64)) (out : ParserOut) :
    R (Two.put0 s offset lastOffset length1 length2 depth vtdDepth currentChar helper ws tagStack out)
      (Two.put0 t offset lastOffset length1 length2 depth vtdDepth currentChar helper ws tagStack out) := by
  have hs := hR.same h
  have := hR.put h offset lastOffset length1 length2 depth vtdDepth currentChar helper
    ws tagStack out s.at_.attrCount s.at_.attrNameSlice s.at_.isNs s.at_.defaultNs
  have e : Two.put t offset lastOffset length1 length2 depth vtdDepth currentChar helper
    ws tagStack out s.at_.attrCount s.at_.attrNameSlice s.at_.isNs s.at_.defaultNs =
    Two.put0 t offset lastOffset length1 length2 depth vtdDepth currentChar helper ws tagStack out := by
    simp only [Two.put, Two.put0, ← hs.attrCount, ← hs.attrNameSlice, ← hs.isNs, ← hs.defaultNs]
  rw [e] at this
  exact this

theorem Nice.writeOut (hR : Nice R P) {s t : Parser} (h : R s t) (o : ParserOut) :
    R { s with out := o } { t with out := o } := by
  have hs := hR.same h
  have := hR.put0 h s.offset s.lastOffset s.length1 s.length2 s.depth s.vtdDepth s.currentChar s.helper
    s.ws s.tagStack o
  have e : Two.put0 t s.offset s.lastOffset s.length1 s.length2 s.depth s.vtdDepth s.currentChar s.helper
    s.ws s.tagStack o = { t with out := o } := by
    simp only [Two.put0, ← hs.offset, ← hs.lastOffset, ← hs.length1, ← hs.length2, ← hs.depth,
      ← hs.vtdDepth, ← hs.currentChar, ← hs.helper, ← hs.ws, ← hs.tagStack]
  rw [e] at this
  exact this

/-- `Nice.put0` with the encoding of the left state on both sides. -/
theorem Nice.put0E (hR : Nice R P) {s t : Parser} (h : R s t) (offset lastOffset length1 length2 depth vtdDepth : Int)
    (currentChar : Nat) (helper ws : Bool) (tagStack : List (BitVec 64)) (out : ParserOut) :
    R (Two.put0 s offset lastOffset length1 length2 depth vtdDepth currentChar helper ws tagStack out)
      { cfg := t.cfg, enc := s.enc, rd := t.rd, offset := offset, lastOffset := lastOffset,
        length1 := length1, length2 := length2, depth := depth, vtdDepth := vtdDepth,
        currentChar := currentChar, helper := helper, ws := ws, tagStack := tagStack,
        at_ := t.at_, out := out, ns := t.ns } := by
  have := hR.put0 h offset lastOffset length1 length2 depth vtdDepth currentChar helper ws tagStack out
  rw [← (hR.same h).enc]
  exact this

/-- `Nice.put` with the encoding of the left state on both sides. -/
theorem Nice.putE (hR : Nice R P) {s t : Parser} (h : R s t) (offset lastOffset length1 length2 depth vtdDepth : Int)
    (currentChar : Nat) (helper ws : Bool) (tagStack : List (BitVec 64)) (out : ParserOut)
    (attrCount : Int) (attrNameSlice : List (BitVec 64)) (isNs defaultNs : Bool) :
    R (Two.put s offset lastOffset length1 length2 depth vtdDepth currentChar helper ws tagStack out
        attrCount attrNameSlice isNs defaultNs)
      { cfg := t.cfg, enc := s.enc, rd := t.rd, offset := offset, lastOffset := lastOffset,
        length1 := length1, length2 := length2, depth := depth, vtdDepth := vtdDepth,
        currentChar := currentChar, helper := helper, ws := ws, tagStack := tagStack,
        at_ := { t.at_ with attrCount := attrCount, attrNameSlice := attrNameSlice, isNs := isNs,
                            defaultNs := defaultNs }, out := out, ns := t.ns } := by
  have := hR.put h offset lastOffset length1 length2 depth vtdDepth currentChar helper ws tagStack out
    attrCount attrNameSlice isNs defaultNs
  rw [← (hR.same h).enc]
  exact this

/-- Rewrite the fields of the right state to those of the left state. -/
syntax "same_simp" ident : tactic
macro_rules | `(tactic| same_simp $h) => `(tactic| simp only [Same.offset $h, Same.lastOffset $h,
  Same.length1 $h, Same.length2 $h, Same.depth $h, Same.vtdDepth $h, Same.currentChar $h,
  Same.helper $h, Same.ws $h, Same.tagStack $h, Same.enc $h, Same.out $h, Same.attrCount $h,
  Same.attrNameSlice $h, Same.isNs $h, Same.defaultNs $h, Same.docOffset $h, Same.endOffset $h,
  Same.shallowDepth $h, Same.rdOffset $h, Same.fixedL $h, Same.fixedR $h, if_true, if_pos, Reader.getOffset])

/-- Apply the lemma for the function at the head of the computation. -/
syntax "sim_lemma" ident : tactic
macro_rules | `(tactic| sim_lemma $h) => `(tactic| first
  | exact Sim.mono (Nice.docByte $h _) | exact Sim.mono (Nice.getChar $h)
  | exact Sim.mono (Nice.skipChar $h _) | exact Sim.mono (Nice.skipCharSeq $h _))

/-- Close the goal that equal writes keep the relation. -/
syntax "sim_put" ident : tactic
macro_rules | `(tactic| sim_put $h) => `(tactic| (
  intro _ _ hr
  have hs := Nice.same $h hr
  try same_simp hs
  first
    | exact Nice.put0E $h hr _ _ _ _ _ _ _ _ _ _ _
    | exact Nice.putE $h hr _ _ _ _ _ _ _ _ _ _ _ _ _ _ _))

/-- Follow the structure of a computation. -/
syntax "sim" ident (", " ident)? : tactic
macro_rules
  | `(tactic| sim $h) => `(tactic| repeat' (first
      | with_reducible first
        | exact Sim.pure _ | exact Sim.raise _ | exact Sim.panic | exact Sim.diverge
        | exact Sim.index _ _
      | ((with_reducible refine Sim.modify ?_); sim_put $h)
      | ((with_reducible refine Sim.bind_get (fun _ _ hr => ?_)); have hs := Nice.same $h hr
         have hf := Same.fuel hs; try same_simp hs)
      | with_reducible first
        | refine Sim.bind ?_ (fun _ => ?_) | refine Sim.ite ?_ ?_
        | refine Sim.catchErr ?_ (fun _ => ?_) | refine Sim.wrapInternal _ ?_
        | refine Sim.and ?_ ?_ | refine Sim.or ?_ ?_
        | sim_lemma $h | assumption
      | (split <;> (try simp only [*]))))
  | `(tactic| sim $h, $ih) => `(tactic| repeat' (first
      | with_reducible first
        | exact Sim.pure _ | exact Sim.raise _ | exact Sim.panic | exact Sim.diverge
        | exact Sim.index _ _
        | (apply $ih <;> first | exact Nat.le_of_succ_le_succ (by assumption) | skip)
      | ((with_reducible refine Sim.modify ?_); sim_put $h)
      | ((with_reducible refine Sim.bind_get (fun _ _ hr => ?_)); have hs := Nice.same $h hr
         have hf := Same.fuel hs; try same_simp hs)
      | with_reducible first
        | refine Sim.bind ?_ (fun _ => ?_) | refine Sim.ite ?_ ?_
        | refine Sim.catchErr ?_ (fun _ => ?_) | refine Sim.wrapInternal _ ?_
        | refine Sim.and ?_ ?_ | refine Sim.or ?_ ?_
        | sim_lemma $h | assumption
      | (split <;> (try simp only [*]))))

theorem onVtd_sim (hR : Nice R P) (m : M FastLongBuffer α) : Sim R E P (onVtd m) (onVtd m) :=
  Sim.zoom m (fun s t h => by rw [(hR.same h).out]) fun x s t h => by
    have := hR.writeOut h { s.out with vtdBuffer := x }
    simpa only [(hR.same h).out] using this
theorem onL1_sim (hR : Nice R P) (m : M FastLongBuffer α) : Sim R E P (onL1 m) (onL1 m) :=
  Sim.zoom m (fun s t h => by rw [(hR.same h).out]) fun x s t h => by
    have := hR.writeOut h { s.out with l1Buffer := x }
    simpa only [(hR.same h).out] using this
theorem onL2_sim (hR : Nice R P) (m : M FastLongBuffer α) : Sim R E P (onL2 m) (onL2 m) :=
  Sim.zoom m (fun s t h => by rw [(hR.same h).out]) fun x s t h => by
    have := hR.writeOut h { s.out with l2Buffer := x }
    simpa only [(hR.same h).out] using this
theorem onL3_sim (hR : Nice R P) (m : M FastLongBuffer α) : Sim R E P (onL3 m) (onL3 m) :=
  Sim.zoom m (fun s t h => by rw [(hR.same h).out]) fun x s t h => by
    have := hR.writeOut h { s.out with l3Buffer := x }
    simpa only [(hR.same h).out] using this
theorem onL4_sim (hR : Nice R P) (m : M FastLongBuffer α) : Sim R E P (onL4 m) (onL4 m) :=
  Sim.zoom m (fun s t h => by rw [(hR.same h).out]) fun x s t h => by
    have := hR.writeOut h { s.out with l4Buffer := x }
    simpa only [(hR.same h).out] using this
theorem onL5_sim (hR : Nice R P) (m : M FastLongBuffer α) : Sim R E P (onL5 m) (onL5 m) :=
  Sim.zoom m (fun s t h => by rw [(hR.same h).out]) fun x s t h => by
    have := hR.writeOut h { s.out with l5Buffer := x }
    simpa only [(hR.same h).out] using this
macro_rules | `(tactic| sim_lemma $h) => `(tactic| with_reducible first
  | exact onVtd_sim $h _ | exact onL1_sim $h _ | exact onL2_sim $h _
  | exact onL3_sim $h _ | exact onL4_sim $h _ | exact onL5_sim $h _)

theorem lineLoop_sim (_hR : Nice R P) {f : Int → M Parser Bool} (hf : ∀ i, Sim R E P (f i) (f i)) (step : Int)
    (n : Nat) (a b c : Int) : Sim R E P (lineLoop f step n a b c) (lineLoop f step n a b c) := by
  induction n generalizing a b c with
  | zero => exact Sim.pure _
  | succ n ih => simp only [lineLoop]; exact Sim.bind (hf _) fun _ => Sim.ite (ih _ _ _) (ih _ _ _)
macro_rules | `(tactic| sim_lemma $h) => `(tactic| refine lineLoop_sim $h (fun _ => ?_) _ _ _ _ _)

theorem setOffset_sim (hR : Nice R P) (o : Int) : Sim R E P (setOffset o) (setOffset o) := by
  unfold setOffset
  refine Sim.modify fun s t h => ?_
  have hs := hR.same h
  have := hR.put0 (hR.seek h o) o s.offset s.length1 s.length2 s.depth s.vtdDepth s.currentChar s.helper s.ws
    s.tagStack s.out
  have e : Two.put0 { t with rd := t.rd.setOffset o } o s.offset s.length1 s.length2 s.depth s.vtdDepth
      s.currentChar s.helper s.ws s.tagStack s.out =
      { t with rd := t.rd.setOffset o, lastOffset := t.offset, offset := o } := by
    simp only [Two.put0, ← hs.offset, ← hs.length1, ← hs.length2, ← hs.depth,
      ← hs.vtdDepth, ← hs.currentChar, ← hs.helper, ← hs.ws, ← hs.tagStack, ← hs.out]
  rw [e] at this
  exact this
macro_rules | `(tactic| sim_lemma $h) => `(tactic| apply setOffset_sim $h)

theorem getChar_sim (hR : Nice R P) : Sim R E P getChar getChar := by
  unfold getChar; sim hR
macro_rules | `(tactic| sim_lemma $h) => `(tactic| apply getChar_sim $h)

theorem skipChar_sim (hR : Nice R P) (ch : Nat) : Sim R E P (skipChar ch) (skipChar ch) := by
  unfold skipChar; sim hR
macro_rules | `(tactic| sim_lemma $h) => `(tactic| apply skipChar_sim $h)

theorem skipCharSeq_sim (hR : Nice R P) (seq : List Nat) : Sim R E P (skipCharSeq seq) (skipCharSeq seq) := by
  unfold skipCharSeq; sim hR
macro_rules | `(tactic| sim_lemma $h) => `(tactic| apply skipCharSeq_sim $h)

theorem docIs_sim (hR : Nice R P) (i : Int) (c : UInt8) : Sim R E P (docIs i c) (docIs i c) := by
  unfold docIs; sim hR
macro_rules | `(tactic| sim_lemma $h) => `(tactic| apply docIs_sim $h)

theorem skipCharSeqIgnoreCase_sim (hR : Nice R P) (x0 : List Nat) : Sim R E P (skipCharSeqIgnoreCase x0) (skipCharSeqIgnoreCase x0) := by
  induction x0 with
  | nil => simp only [skipCharSeqIgnoreCase]; sim hR
  | cons k l ih => simp only [skipCharSeqIgnoreCase]; sim hR, ih
macro_rules | `(tactic| sim_lemma $h) => `(tactic| apply skipCharSeqIgnoreCase_sim $h)

theorem nextChar_sim (hR : Nice R P)  : Sim R E P (nextChar) (nextChar) := by
  unfold nextChar; sim hR
macro_rules | `(tactic| sim_lemma $h) => `(tactic| apply nextChar_sim $h)

theorem nextCharAfterWsLoop_sim (hR : Nice R P) {n m : Nat} (hn : n ≤ m) :
    Sim R E P (nextCharAfterWsLoop n) (nextCharAfterWsLoop m) := by
  induction n generalizing m  with
  | zero => simp only [nextCharAfterWsLoop]; exact Sim.diverge
  | succ n ih =>
    obtain ⟨m, rfl⟩ : ∃ k, m = k + 1 := ⟨m - 1, by omega⟩
    have ih := @ih m
    simp only [nextCharAfterWsLoop]; sim hR, ih
macro_rules | `(tactic| sim_lemma $h) => `(tactic| (refine nextCharAfterWsLoop_sim $h ?_ ; (first | assumption | exact Nat.le_refl _)))

theorem nextCharAfterWs_sim (hR : Nice R P)  : Sim R E P (nextCharAfterWs) (nextCharAfterWs) := by
  unfold nextCharAfterWs; sim hR
macro_rules | `(tactic| sim_lemma $h) => `(tactic| apply nextCharAfterWs_sim $h)

theorem writeVtd_sim (hR : Nice R P) (tokenType : Token) (offset length depth : Int) : Sim R E P (writeVtd tokenType offset length depth) (writeVtd tokenType offset length depth) := by
  unfold writeVtd; sim hR
macro_rules | `(tactic| sim_lemma $h) => `(tactic| apply writeVtd_sim $h)

theorem writeVtdTextLoop_sim (hR : Nice R P) {n m : Nat} (hn : n ≤ m) (x1 : Token) (x2 : Int) (x3 : Int) (x4 : Int) :
    Sim R E P (writeVtdTextLoop n x1 x2 x3 x4) (writeVtdTextLoop m x1 x2 x3 x4) := by
  induction n generalizing m x1 x2 x3 x4 with
  | zero => simp only [writeVtdTextLoop]; exact Sim.diverge
  | succ n ih =>
    obtain ⟨m, rfl⟩ : ∃ k, m = k + 1 := ⟨m - 1, by omega⟩
    have ih := @ih m
    simp only [writeVtdTextLoop]; sim hR, ih
macro_rules | `(tactic| sim_lemma $h) => `(tactic| (refine writeVtdTextLoop_sim $h ?_ _ _ _ _ ; (first | assumption | exact Nat.le_refl _)))

theorem writeVtdText_sim (hR : Nice R P) (tokenType : Token) (offset length depth : Int) : Sim R E P (writeVtdText tokenType offset length depth) (writeVtdText tokenType offset length depth) := by
  unfold writeVtdText; sim hR
macro_rules | `(tactic| sim_lemma $h) => `(tactic| apply writeVtdText_sim $h)

theorem fmtCustomLine_sim (hR : Nice R P) (offset : Int) : Sim R E P (fmtCustomLine offset) (fmtCustomLine offset) := by
  unfold fmtCustomLine; sim hR
macro_rules | `(tactic| sim_lemma $h) => `(tactic| apply fmtCustomLine_sim $h)

theorem fmtLine_sim (hR : Nice R P)  : Sim R E P (fmtLine) (fmtLine) := by
  unfold fmtLine; sim hR
macro_rules | `(tactic| sim_lemma $h) => `(tactic| apply fmtLine_sim $h)

theorem parseErr_sim (hR : Nice R P) (msg : String) : Sim R E P (parseErr msg : M Parser α) (parseErr msg : M Parser α) := by
  unfold parseErr; sim hR
macro_rules | `(tactic| sim_lemma $h) => `(tactic| apply parseErr_sim $h)

theorem parseErrAt_sim (hR : Nice R P) (msg : String) (offset : Int) : Sim R E P (parseErrAt msg offset : M Parser α) (parseErrAt msg offset : M Parser α) := by
  unfold parseErrAt; sim hR
macro_rules | `(tactic| sim_lemma $h) => `(tactic| apply parseErrAt_sim $h)

theorem writeVtdWithLengthCheck_sim (hR : Nice R P) (tokenType : Token) (errMsg : String) : Sim R E P (writeVtdWithLengthCheck tokenType errMsg) (writeVtdWithLengthCheck tokenType errMsg) := by
  unfold writeVtdWithLengthCheck; sim hR
macro_rules | `(tactic| sim_lemma $h) => `(tactic| apply writeVtdWithLengthCheck_sim $h)

theorem prevOffsetLoop_sim (hR : Nice R P) {n m : Nat} (hn : n ≤ m) (x1 : Int) :
    Sim R E P (prevOffsetLoop n x1) (prevOffsetLoop m x1) := by
  induction n generalizing m x1 with
  | zero => simp only [prevOffsetLoop]; exact Sim.diverge
  | succ n ih =>
    obtain ⟨m, rfl⟩ : ∃ k, m = k + 1 := ⟨m - 1, by omega⟩
    have ih := @ih m
    simp only [prevOffsetLoop]; sim hR, ih
macro_rules | `(tactic| sim_lemma $h) => `(tactic| (refine prevOffsetLoop_sim $h ?_ _ ; (first | assumption | exact Nat.le_refl _)))

theorem getPrevOffset_sim (hR : Nice R P)  : Sim R E P (getPrevOffset) (getPrevOffset) := by
  unfold getPrevOffset; sim hR
macro_rules | `(tactic| sim_lemma $h) => `(tactic| apply getPrevOffset_sim $h)

theorem docMatches_sim (hR : Nice R P) (x0 : Int) (x1 : List UInt8) : Sim R E P (docMatches x0 x1) (docMatches x0 x1) := by
  induction x1 generalizing x0 with
  | nil => simp only [docMatches]; sim hR
  | cons k l ih => simp only [docMatches]; sim hR, ih
macro_rules | `(tactic| sim_lemma $h) => `(tactic| apply docMatches_sim $h)

theorem checkPrefix_sim (hR : Nice R P) (name : List UInt8) (len1 len2 : Int) (offset length : Int) (checkLength : Bool) : Sim R E P (checkPrefix name len1 len2 offset length checkLength) (checkPrefix name len1 len2 offset length checkLength) := by
  unfold checkPrefix; sim hR
macro_rules | `(tactic| sim_lemma $h) => `(tactic| apply checkPrefix_sim $h)

theorem checkXmlPrefix_sim (hR : Nice R P) (offset length : Int) (checkLength : Bool) : Sim R E P (checkXmlPrefix offset length checkLength) (checkXmlPrefix offset length checkLength) := by
  unfold checkXmlPrefix; sim hR
macro_rules | `(tactic| sim_lemma $h) => `(tactic| apply checkXmlPrefix_sim $h)

theorem checkXmlnsPrefix_sim (hR : Nice R P) (offset length : Int) (checkLength : Bool) : Sim R E P (checkXmlnsPrefix offset length checkLength) (checkXmlnsPrefix offset length checkLength) := by
  unfold checkXmlnsPrefix; sim hR
macro_rules | `(tactic| sim_lemma $h) => `(tactic| apply checkXmlnsPrefix_sim $h)

theorem sameBytes_sim (hR : Nice R P) (x0 : Nat) (x1 : Int) (x2 : Int) : Sim R E P (sameBytes x0 x1 x2) (sameBytes x0 x1 x2) := by
  induction x0 generalizing x1 x2 with
  | zero => simp only [sameBytes]; sim hR
  | succ k ih => simp only [sameBytes]; sim hR, ih
macro_rules | `(tactic| sim_lemma $h) => `(tactic| apply sameBytes_sim $h)

theorem writeText_sim (hR : Nice R P) (tokenType : Token) : Sim R E P (writeText tokenType) (writeText tokenType) := by
  unfold writeText; sim hR
macro_rules | `(tactic| sim_lemma $h) => `(tactic| apply writeText_sim $h)

theorem writeAt_sim (hR : Nice R P) (tokenType : Token) (length : Int) : Sim R E P (writeAt tokenType length) (writeAt tokenType length) := by
  unfold writeAt; sim hR
macro_rules | `(tactic| sim_lemma $h) => `(tactic| apply writeAt_sim $h)

theorem recordWhiteSpace_sim (hR : Nice R P)  : Sim R E P (recordWhiteSpace) (recordWhiteSpace) := by
  unfold recordWhiteSpace; sim hR
macro_rules | `(tactic| sim_lemma $h) => `(tactic| apply recordWhiteSpace_sim $h)

theorem recordWsIfSet_sim (hR : Nice R P)  : Sim R E P (recordWsIfSet) (recordWsIfSet) := by
  unfold recordWsIfSet; sim hR
macro_rules | `(tactic| sim_lemma $h) => `(tactic| apply recordWsIfSet_sim $h)

theorem entitySeq_sim (hR : Nice R P) (x0 : List Nat) : Sim R E P (entitySeq x0) (entitySeq x0) := by
  induction x0 with
  | nil => simp only [entitySeq]; sim hR
  | cons k l ih => simp only [entitySeq]; sim hR, ih
macro_rules | `(tactic| sim_lemma $h) => `(tactic| apply entitySeq_sim $h)

theorem entityHexLoop_sim (hR : Nice R P) {n m : Nat} (hn : n ≤ m) (x1 : Nat) :
    Sim R E P (entityHexLoop n x1) (entityHexLoop m x1) := by
  induction n generalizing m x1 with
  | zero => simp only [entityHexLoop]; exact Sim.diverge
  | succ n ih =>
    obtain ⟨m, rfl⟩ : ∃ k, m = k + 1 := ⟨m - 1, by omega⟩
    have ih := @ih m
    simp only [entityHexLoop]; sim hR, ih
macro_rules | `(tactic| sim_lemma $h) => `(tactic| (refine entityHexLoop_sim $h ?_ _ ; (first | assumption | exact Nat.le_refl _)))

theorem entityDecLoop_sim (hR : Nice R P) {n m : Nat} (hn : n ≤ m) (x1 : Nat) (x2 : Nat) :
    Sim R E P (entityDecLoop n x1 x2) (entityDecLoop m x1 x2) := by
  induction n generalizing m x1 x2 with
  | zero => simp only [entityDecLoop]; exact Sim.diverge
  | succ n ih =>
    obtain ⟨m, rfl⟩ : ∃ k, m = k + 1 := ⟨m - 1, by omega⟩
    have ih := @ih m
    simp only [entityDecLoop]; sim hR, ih
macro_rules | `(tactic| sim_lemma $h) => `(tactic| (refine entityDecLoop_sim $h ?_ _ _ ; (first | assumption | exact Nat.le_refl _)))

theorem entityIdentifier_sim (hR : Nice R P)  : Sim R E P (entityIdentifier) (entityIdentifier) := by
  unfold entityIdentifier; sim hR
macro_rules | `(tactic| sim_lemma $h) => `(tactic| apply entityIdentifier_sim $h)

theorem skipBrackets_sim (hR : Nice R P) {n m : Nat} (hn : n ≤ m) :
    Sim R E P (skipBrackets n) (skipBrackets m) := by
  induction n generalizing m  with
  | zero => simp only [skipBrackets]; exact Sim.diverge
  | succ n ih =>
    obtain ⟨m, rfl⟩ : ∃ k, m = k + 1 := ⟨m - 1, by omega⟩
    have ih := @ih m
    simp only [skipBrackets]; sim hR, ih
macro_rules | `(tactic| sim_lemma $h) => `(tactic| (refine skipBrackets_sim $h ?_ ; (first | assumption | exact Nat.le_refl _)))

theorem bracketText_sim (hR : Nice R P)  : Sim R E P (bracketText) (bracketText) := by
  unfold bracketText; sim hR
macro_rules | `(tactic| sim_lemma $h) => `(tactic| apply bracketText_sim $h)

theorem handleOtherTextChar_sim (hR : Nice R P) (ch : Nat) : Sim R E P (handleOtherTextChar ch) (handleOtherTextChar ch) := by
  unfold handleOtherTextChar; sim hR
macro_rules | `(tactic| sim_lemma $h) => `(tactic| apply handleOtherTextChar_sim $h)

theorem markOffset_sim (hR : Nice R P)  : Sim R E P (markOffset) (markOffset) := by
  unfold markOffset; sim hR
macro_rules | `(tactic| sim_lemma $h) => `(tactic| apply markOffset_sim $h)

theorem validateSeqLoop_sim (hR : Nice R P) (name : String)  (x0 : List Nat) : Sim R E P (validateSeqLoop name x0) (validateSeqLoop name x0) := by
  induction x0 with
  | nil => simp only [validateSeqLoop]; sim hR
  | cons k l ih => simp only [validateSeqLoop]; sim hR, ih
macro_rules | `(tactic| sim_lemma $h) => `(tactic| apply validateSeqLoop_sim $h)

theorem validateSeq_sim (hR : Nice R P) (name : String) (seq : List Nat) : Sim R E P (validateSeq name seq) (validateSeq name seq) := by
  unfold validateSeq; sim hR
macro_rules | `(tactic| sim_lemma $h) => `(tactic| apply validateSeq_sim $h)

theorem getNextProcessStateFromChar_sim (hR : Nice R P) (ch : Nat) : Sim R E P (getNextProcessStateFromChar ch) (getNextProcessStateFromChar ch) := by
  unfold getNextProcessStateFromChar; sim hR
macro_rules | `(tactic| sim_lemma $h) => `(tactic| apply getNextProcessStateFromChar_sim $h)

theorem processDocStart_sim (hR : Nice R P)  : Sim R E P (processDocStart) (processDocStart) := by
  unfold processDocStart; sim hR
macro_rules | `(tactic| sim_lemma $h) => `(tactic| apply processDocStart_sim $h)

theorem processDocEnd_sim (hR : Nice R P)  : Sim R E P (processDocEnd) (processDocEnd) := by
  unfold processDocEnd; sim hR
macro_rules | `(tactic| sim_lemma $h) => `(tactic| apply processDocEnd_sim $h)

theorem docTypeLoop_sim (hR : Nice R P) {n m : Nat} (hn : n ≤ m) (x1 : Int) :
    Sim R E P (docTypeLoop n x1) (docTypeLoop m x1) := by
  induction n generalizing m x1 with
  | zero => simp only [docTypeLoop]; exact Sim.diverge
  | succ n ih =>
    obtain ⟨m, rfl⟩ : ∃ k, m = k + 1 := ⟨m - 1, by omega⟩
    have ih := @ih m
    simp only [docTypeLoop]; sim hR, ih
macro_rules | `(tactic| sim_lemma $h) => `(tactic| (refine docTypeLoop_sim $h ?_ _ ; (first | assumption | exact Nat.le_refl _)))

theorem processDocType_sim (hR : Nice R P)  : Sim R E P (processDocType) (processDocType) := by
  unfold processDocType; sim hR
macro_rules | `(tactic| sim_lemma $h) => `(tactic| apply processDocType_sim $h)

theorem processExSeen_sim (hR : Nice R P)  : Sim R E P (processExSeen) (processExSeen) := by
  unfold processExSeen; sim hR
macro_rules | `(tactic| sim_lemma $h) => `(tactic| apply processExSeen_sim $h)

theorem processQmSeen_sim (hR : Nice R P)  : Sim R E P (processQmSeen) (processQmSeen) := by
  unfold processQmSeen; sim hR
macro_rules | `(tactic| sim_lemma $h) => `(tactic| apply processQmSeen_sim $h)

theorem processLtSeen_sim (hR : Nice R P)  : Sim R E P (processLtSeen) (processLtSeen) := by
  unfold processLtSeen; sim hR
macro_rules | `(tactic| sim_lemma $h) => `(tactic| apply processLtSeen_sim $h)

theorem processElementTail_sim (hR : Nice R P)  : Sim R E P (processElementTail) (processElementTail) := by
  unfold processElementTail; sim hR
macro_rules | `(tactic| sim_lemma $h) => `(tactic| apply processElementTail_sim $h)

theorem pushTag_sim (hR : Nice R P)  : Sim R E P (pushTag) (pushTag) := by
  unfold pushTag; sim hR
macro_rules | `(tactic| sim_lemma $h) => `(tactic| apply pushTag_sim $h)

theorem processEndTag_sim (hR : Nice R P)  : Sim R E P (processEndTag) (processEndTag) := by
  unfold processEndTag; sim hR
macro_rules | `(tactic| sim_lemma $h) => `(tactic| apply processEndTag_sim $h)

theorem textLoop_sim (hR : Nice R P) {n m : Nat} (hn : n ≤ m) :
    Sim R E P (textLoop n) (textLoop m) := by
  induction n generalizing m  with
  | zero => simp only [textLoop]; exact Sim.diverge
  | succ n ih =>
    obtain ⟨m, rfl⟩ : ∃ k, m = k + 1 := ⟨m - 1, by omega⟩
    have ih := @ih m
    simp only [textLoop]; sim hR, ih
macro_rules | `(tactic| sim_lemma $h) => `(tactic| (refine textLoop_sim $h ?_ ; (first | assumption | exact Nat.le_refl _)))

theorem processText_sim (hR : Nice R P)  : Sim R E P (processText) (processText) := by
  unfold processText; sim hR
macro_rules | `(tactic| sim_lemma $h) => `(tactic| apply processText_sim $h)

theorem afterMarkup_sim (hR : Nice R P)  : Sim R E P (afterMarkup) (afterMarkup) := by
  unfold afterMarkup; sim hR
macro_rules | `(tactic| sim_lemma $h) => `(tactic| apply afterMarkup_sim $h)

theorem cdataLoop_sim (hR : Nice R P) {n m : Nat} (hn : n ≤ m) :
    Sim R E P (cdataLoop n) (cdataLoop m) := by
  induction n generalizing m  with
  | zero => simp only [cdataLoop]; exact Sim.diverge
  | succ n ih =>
    obtain ⟨m, rfl⟩ : ∃ k, m = k + 1 := ⟨m - 1, by omega⟩
    have ih := @ih m
    simp only [cdataLoop]; sim hR, ih
macro_rules | `(tactic| sim_lemma $h) => `(tactic| (refine cdataLoop_sim $h ?_ ; (first | assumption | exact Nat.le_refl _)))

theorem processCdata_sim (hR : Nice R P)  : Sim R E P (processCdata) (processCdata) := by
  unfold processCdata; sim hR
macro_rules | `(tactic| sim_lemma $h) => `(tactic| apply processCdata_sim $h)

theorem commentLoop_sim (hR : Nice R P) {n m : Nat} (hn : n ≤ m) :
    Sim R E P (commentLoop n) (commentLoop m) := by
  induction n generalizing m  with
  | zero => simp only [commentLoop]; exact Sim.diverge
  | succ n ih =>
    obtain ⟨m, rfl⟩ : ∃ k, m = k + 1 := ⟨m - 1, by omega⟩
    have ih := @ih m
    simp only [commentLoop]; sim hR, ih
macro_rules | `(tactic| sim_lemma $h) => `(tactic| (refine commentLoop_sim $h ?_ ; (first | assumption | exact Nat.le_refl _)))

theorem processStartComment_sim (hR : Nice R P)  : Sim R E P (processStartComment) (processStartComment) := by
  unfold processStartComment; sim hR
macro_rules | `(tactic| sim_lemma $h) => `(tactic| apply processStartComment_sim $h)

theorem processEndComment_sim (hR : Nice R P)  : Sim R E P (processEndComment) (processEndComment) := by
  unfold processEndComment; sim hR
macro_rules | `(tactic| sim_lemma $h) => `(tactic| apply processEndComment_sim $h)

theorem nameLoop_sim (hR : Nice R P) {n m : Nat} (hn : n ≤ m) :
    Sim R E P (nameLoop n) (nameLoop m) := by
  induction n generalizing m  with
  | zero => simp only [nameLoop]; exact Sim.diverge
  | succ n ih =>
    obtain ⟨m, rfl⟩ : ∃ k, m = k + 1 := ⟨m - 1, by omega⟩
    have ih := @ih m
    simp only [nameLoop]; sim hR, ih
macro_rules | `(tactic| sim_lemma $h) => `(tactic| (refine nameLoop_sim $h ?_ ; (first | assumption | exact Nat.le_refl _)))

theorem processPiTag_sim (hR : Nice R P)  : Sim R E P (processPiTag) (processPiTag) := by
  unfold processPiTag; sim hR
macro_rules | `(tactic| sim_lemma $h) => `(tactic| apply processPiTag_sim $h)

theorem piValLoop_sim (hR : Nice R P) {n m : Nat} (hn : n ≤ m) :
    Sim R E P (piValLoop n) (piValLoop m) := by
  induction n generalizing m  with
  | zero => simp only [piValLoop]; exact Sim.diverge
  | succ n ih =>
    obtain ⟨m, rfl⟩ : ∃ k, m = k + 1 := ⟨m - 1, by omega⟩
    have ih := @ih m
    simp only [piValLoop]; sim hR, ih
macro_rules | `(tactic| sim_lemma $h) => `(tactic| (refine piValLoop_sim $h ?_ ; (first | assumption | exact Nat.le_refl _)))

theorem processPiVal_sim (hR : Nice R P)  : Sim R E P (processPiVal) (processPiVal) := by
  unfold processPiVal; sim hR
macro_rules | `(tactic| sim_lemma $h) => `(tactic| apply processPiVal_sim $h)

theorem piEndNameLoop_sim (hR : Nice R P) {n m : Nat} (hn : n ≤ m) :
    Sim R E P (piEndNameLoop n) (piEndNameLoop m) := by
  induction n generalizing m  with
  | zero => simp only [piEndNameLoop]; exact Sim.diverge
  | succ n ih =>
    obtain ⟨m, rfl⟩ : ∃ k, m = k + 1 := ⟨m - 1, by omega⟩
    have ih := @ih m
    simp only [piEndNameLoop]; sim hR, ih
macro_rules | `(tactic| sim_lemma $h) => `(tactic| (refine piEndNameLoop_sim $h ?_ ; (first | assumption | exact Nat.le_refl _)))

theorem piEndValLoop_sim (hR : Nice R P) {n m : Nat} (hn : n ≤ m) :
    Sim R E P (piEndValLoop n) (piEndValLoop m) := by
  induction n generalizing m  with
  | zero => simp only [piEndValLoop]; exact Sim.diverge
  | succ n ih =>
    obtain ⟨m, rfl⟩ : ∃ k, m = k + 1 := ⟨m - 1, by omega⟩
    have ih := @ih m
    simp only [piEndValLoop]; sim hR, ih
macro_rules | `(tactic| sim_lemma $h) => `(tactic| (refine piEndValLoop_sim $h ?_ ; (first | assumption | exact Nat.le_refl _)))

theorem piEndTarget_sim (hR : Nice R P)  : Sim R E P (piEndTarget) (piEndTarget) := by
  unfold piEndTarget; sim hR
macro_rules | `(tactic| sim_lemma $h) => `(tactic| apply piEndTarget_sim $h)

theorem processPiEnd_sim (hR : Nice R P)  : Sim R E P (processPiEnd) (processPiEnd) := by
  unfold processPiEnd; sim hR
macro_rules | `(tactic| sim_lemma $h) => `(tactic| apply processPiEnd_sim $h)

theorem attrNsTest_sim (hR : Nice R P)  : Sim R E P (attrNsTest) (attrNsTest) := by
  unfold attrNsTest; sim hR
macro_rules | `(tactic| sim_lemma $h) => `(tactic| apply attrNsTest_sim $h)

theorem attrNameLoop_sim (hR : Nice R P) {n m : Nat} (hn : n ≤ m) :
    Sim R E P (attrNameLoop n) (attrNameLoop m) := by
  induction n generalizing m  with
  | zero => simp only [attrNameLoop]; exact Sim.diverge
  | succ n ih =>
    obtain ⟨m, rfl⟩ : ∃ k, m = k + 1 := ⟨m - 1, by omega⟩
    have ih := @ih m
    simp only [attrNameLoop]; sim hR, ih
macro_rules | `(tactic| sim_lemma $h) => `(tactic| (refine attrNameLoop_sim $h ?_ ; (first | assumption | exact Nat.le_refl _)))

theorem uniqueLoop_sim (hR : Nice R P) (x0 : Nat) (x1 : Int) (x2 : Bool) : Sim R E P (uniqueLoop x0 x1 x2) (uniqueLoop x0 x1 x2) := by
  induction x0 generalizing x1 x2 with
  | zero => simp only [uniqueLoop]; sim hR
  | succ k ih => simp only [uniqueLoop]; sim hR, ih
macro_rules | `(tactic| sim_lemma $h) => `(tactic| apply uniqueLoop_sim $h)

theorem attrValLoop_sim (hR : Nice R P) (quote : Nat) {n m : Nat} (hn : n ≤ m) :
    Sim R E P (attrValLoop quote n) (attrValLoop quote m) := by
  induction n generalizing m  with
  | zero => simp only [attrValLoop]; exact Sim.diverge
  | succ n ih =>
    obtain ⟨m, rfl⟩ : ∃ k, m = k + 1 := ⟨m - 1, by omega⟩
    have ih := @ih m
    simp only [attrValLoop]; sim hR, ih
macro_rules | `(tactic| sim_lemma $h) => `(tactic| (refine attrValLoop_sim $h _ ?_ ; (first | assumption | exact Nat.le_refl _)))

theorem skipSeqOrUpper_sim (hR : Nice R P) (seq : List Nat) : Sim R E P (skipSeqOrUpper seq) (skipSeqOrUpper seq) := by
  unfold skipSeqOrUpper; sim hR
macro_rules | `(tactic| sim_lemma $h) => `(tactic| apply skipSeqOrUpper_sim $h)

theorem checkAsciiEncoding_sim (hR : Nice R P)  : Sim R E P (checkAsciiEncoding) (checkAsciiEncoding) := by
  unfold checkAsciiEncoding; sim hR
macro_rules | `(tactic| sim_lemma $h) => `(tactic| apply checkAsciiEncoding_sim $h)

theorem checkUsAsciiEncoding_sim (hR : Nice R P)  : Sim R E P (checkUsAsciiEncoding) (checkUsAsciiEncoding) := by
  unfold checkUsAsciiEncoding; sim hR
macro_rules | `(tactic| sim_lemma $h) => `(tactic| apply checkUsAsciiEncoding_sim $h)

theorem setIsoEncoding_sim (hR : Nice R P)  : Sim R E P (setIsoEncoding) (setIsoEncoding) := by
  unfold setIsoEncoding; sim hR
macro_rules | `(tactic| sim_lemma $h) => `(tactic| apply setIsoEncoding_sim $h)

theorem setWinEncoding_sim (hR : Nice R P)  : Sim R E P (setWinEncoding) (setWinEncoding) := by
  unfold setWinEncoding; sim hR
macro_rules | `(tactic| sim_lemma $h) => `(tactic| apply setWinEncoding_sim $h)

theorem checkIsoEncoding_sim (hR : Nice R P)  : Sim R E P (checkIsoEncoding) (checkIsoEncoding) := by
  unfold checkIsoEncoding; sim hR
macro_rules | `(tactic| sim_lemma $h) => `(tactic| apply checkIsoEncoding_sim $h)

theorem checkUtfEncoding_sim (hR : Nice R P)  : Sim R E P (checkUtfEncoding) (checkUtfEncoding) := by
  unfold checkUtfEncoding; sim hR
macro_rules | `(tactic| sim_lemma $h) => `(tactic| apply checkUtfEncoding_sim $h)

theorem checkCpEncoding_sim (hR : Nice R P)  : Sim R E P (checkCpEncoding) (checkCpEncoding) := by
  unfold checkCpEncoding; sim hR
macro_rules | `(tactic| sim_lemma $h) => `(tactic| apply checkCpEncoding_sim $h)

theorem checkWindowsEncoding_sim (hR : Nice R P)  : Sim R E P (checkWindowsEncoding) (checkWindowsEncoding) := by
  unfold checkWindowsEncoding; sim hR
macro_rules | `(tactic| sim_lemma $h) => `(tactic| apply checkWindowsEncoding_sim $h)

theorem checkEncodingName_sim (hR : Nice R P)  : Sim R E P (checkEncodingName) (checkEncodingName) := by
  unfold checkEncodingName; sim hR
macro_rules | `(tactic| sim_lemma $h) => `(tactic| apply checkEncodingName_sim $h)

theorem expectQuote_sim (hR : Nice R P)  : Sim R E P (expectQuote) (expectQuote) := by
  unfold expectQuote; sim hR
macro_rules | `(tactic| sim_lemma $h) => `(tactic| apply expectQuote_sim $h)

theorem expectEq_sim (hR : Nice R P)  : Sim R E P (expectEq) (expectEq) := by
  unfold expectEq; sim hR
macro_rules | `(tactic| sim_lemma $h) => `(tactic| apply expectEq_sim $h)

theorem processDecEncodingAttr_sim (hR : Nice R P)  : Sim R E P (processDecEncodingAttr) (processDecEncodingAttr) := by
  unfold processDecEncodingAttr; sim hR
macro_rules | `(tactic| sim_lemma $h) => `(tactic| apply processDecEncodingAttr_sim $h)

theorem processDecStandaloneAttr_sim (hR : Nice R P)  : Sim R E P (processDecStandaloneAttr) (processDecStandaloneAttr) := by
  unfold processDecStandaloneAttr; sim hR
macro_rules | `(tactic| sim_lemma $h) => `(tactic| apply processDecStandaloneAttr_sim $h)

theorem decVersion_sim (hR : Nice R P)  : Sim R E P (decVersion) (decVersion) := by
  unfold decVersion; sim hR
macro_rules | `(tactic| sim_lemma $h) => `(tactic| apply decVersion_sim $h)

theorem decOptional_sim (hR : Nice R P)  : Sim R E P (decOptional) (decOptional) := by
  unfold decOptional; sim hR
macro_rules | `(tactic| sim_lemma $h) => `(tactic| apply decOptional_sim $h)

end
end Two
end Parser
end GoVtd
