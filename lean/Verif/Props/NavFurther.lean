import Verif.Props.NavFail

/-!
# Property C25: the moves after a move that failed

A failed move can leave a field behind that differs (`l2lower` at level 1, `l3lower` at level 2). No later
sequence of moves shows the difference.
-/

namespace GoVtd
open Paged VtdNav

/-- What a program that moves the cursor sees: for each move its result and the current index afterwards. The
program goes on after an error; a panic ends it. -/
def observe : List Direction → VtdNav → List (Outcome Bool × Outcome Int)
  | [], _ => []
  | d :: ds, n =>
    match n.toElement d with
    | .ok b n' => (.value b, (n'.getCurrentIndex).outcome) :: observe ds n'
    | .err e n' => (.error e, (n'.getCurrentIndex).outcome) :: observe ds n'
    | .panic => [(.panic, .panic)]
    | .diverge => [(.noReturn, .noReturn)]

namespace VtdNav

/-- Change the state of a result. -/
def rmap {α : Type} (u : VtdNav → VtdNav) : Res VtdNav α → Res VtdNav α
  | .ok a n => .ok a (u n)
  | .err e n => .err e (u n)
  | .panic => .panic
  | .diverge => .diverge

/-- The function neither reads nor writes what `u` changes. -/
def Comm {α : Type} (u : VtdNav → VtdNav) (m : M VtdNav α) : Prop := ∀ n, m (u n) = rmap u (m n)

variable {u : VtdNav → VtdNav} {α β : Type}

theorem Comm.bind {m : M VtdNav α} {f : α → M VtdNav β} (h : Comm u m) (hf : ∀ a, Comm u (f a)) : Comm u (m >>= f) := by
  intro n
  simp only [M.bind_apply, h n]
  cases hm : m n <;> simp only [rmap, Res.andThen]
  exact hf _ _

theorem Comm.get {f : VtdNav → M VtdNav β} (h : ∀ n, f (u n) = f n) (hf : ∀ n, Comm u (f n)) : Comm u (M.get >>= f) := by
  intro n
  simp only [M.bind_apply, M.get_apply, Res.andThen_ok, h n]
  exact hf n n

theorem Comm.ite {c : Prop} [Decidable c] {m m' : M VtdNav α} (h : Comm u m) (h' : Comm u m') : Comm u (if c then m else m') := by
  split <;> assumption

theorem Comm.pure (a : α) : Comm u (Pure.pure a) := fun _ => rfl

theorem Comm.modify {f : VtdNav → VtdNav} (h : ∀ n, f (u n) = u (f n)) : Comm u (M.modify f) := fun n => by
  show Res.ok () (f (u n)) = .ok () (u (f n))
  rw [h]

theorem Comm.catchErr {m : M VtdNav α} {f : GoErr → M VtdNav α} (h : Comm u m) (hf : ∀ e, Comm u (f e)) :
    Comm u (M.catchErr m f) := by
  intro n
  simp only [M.catchErr, h n]
  cases hm : m n <;> simp only [rmap]
  exact hf _ _

/-- The field `l2lower` or `l3lower` is changed. -/
inductive Lower : (VtdNav → VtdNav) → Prop where
  | two (a : Int) : Lower fun n => { n with l2lower := a }
  | three (a : Int) : Lower fun n => { n with l3lower := a }

theorem comm_l1 (hu : Lower u) (m : M FastLongBuffer α) : Comm u (onL1 m) := by
  intro n
  cases hu <;> (simp only [onL1, M.zoom]; cases m n.l1Buffer <;> rfl)

theorem comm_l2 (hu : Lower u) (m : M FastLongBuffer α) : Comm u (onL2 m) := by
  intro n
  cases hu <;> (simp only [onL2, M.zoom]; cases m n.l2Buffer <;> rfl)

theorem comm_ctx (hu : Lower u) (i : Int) : Comm u (ctx i) := by
  intro n
  have : (u n).context = n.context := by cases hu <;> rfl
  simp only [ctx_apply, M.index_apply, this]
  repeat' split
  all_goals rfl

theorem comm_setCtx (hu : Lower u) (i v : Int) : Comm u (setCtx i v) := by
  intro n
  have : (u n).context = n.context := by cases hu <;> rfl
  simp only [setCtx, M.bind_apply, M.get_apply, Res.andThen_ok, this]
  cases setAt n.context i v with
  | none => rfl
  | some c => cases hu <;> rfl

theorem comm_upperLoop {lower32 : Int → M VtdNav (BitVec 32)} (h : ∀ i, Comm u (lower32 i)) (size : Int) (fuel : Nat) (i : Int) :
    Comm u (upperLoop lower32 size fuel i) := by
  induction fuel generalizing i with
  | zero => exact fun _ => rfl
  | succ fuel ih =>
    simp only [upperLoop]
    exact Comm.ite (Comm.bind (h i) fun _ => Comm.ite (Comm.pure _) (ih _)) (Comm.pure _)

theorem comm_currentIndex (hu : Lower u) : Comm u getCurrentIndex := by
  have hc := comm_ctx hu
  refine Comm.get (fun n => by cases hu <;> rfl) fun n => Comm.ite (Comm.pure _) (Comm.bind (hc 0) fun c0 =>
    Comm.ite (Comm.pure _) (Comm.ite (Comm.pure _) (Comm.ite (fun _ => rfl) (hc c0))))

/-- The cursor is at most at level `k`. -/
def AtMost (k : Int) (n : VtdNav) : Prop := ∃ c, n.context[0]? = some c ∧ c ≤ k

/-- Two navigators that no sequence of moves can tell apart. -/
inductive Same : VtdNav → VtdNav → Prop where
  | refl (n) : Same n n
  | two (n) (a : Int) : AtMost 1 n → Same n { n with l2lower := a }
  | three (n) (a : Int) : AtMost 2 n → Same n { n with l3lower := a }

/-- Results that no further move can tell apart. -/
inductive SameRes : Res VtdNav α → Res VtdNav α → Prop where
  | ok (a : α) {n m} : Same n m → SameRes (.ok a n) (.ok a m)
  | err (e) {n m} : Same n m → SameRes (.err e n) (.err e m)
  | panic : SameRes .panic .panic
  | diverge : SameRes .diverge .diverge

theorem SameRes.rfl' (r : Res VtdNav α) : SameRes r r := by
  cases r
  · exact .ok _ (.refl _)
  · exact .err _ (.refl _)
  · exact .panic
  · exact .diverge

/-- The state of a result. -/
def StateOf (P : VtdNav → Prop) : Res VtdNav α → Prop
  | .ok _ n => P n
  | .err _ n => P n
  | _ => True

theorem SameRes.two {m : M VtdNav α} {a : Int} {n : VtdNav} (hm : Comm (fun n => { n with l2lower := a }) m)
    (h : StateOf (AtMost 1) (m n)) : SameRes (m n) (m { n with l2lower := a }) := by
  rw [hm n]
  cases hr : m n <;> rw [hr] at h
  · exact .ok _ (.two _ _ h)
  · exact .err _ (.two _ _ h)
  · exact .panic
  · exact .diverge

theorem SameRes.three {m : M VtdNav α} {a : Int} {n : VtdNav} (hm : Comm (fun n => { n with l3lower := a }) m)
    (h : StateOf (AtMost 2) (m n)) : SameRes (m n) (m { n with l3lower := a }) := by
  rw [hm n]
  cases hr : m n <;> rw [hr] at h
  · exact .ok _ (.three _ _ h)
  · exact .err _ (.three _ _ h)
  · exact .panic
  · exact .diverge

theorem comm_root (hu : Lower u) : Comm u toRootElement := by
  have fin : Comm u (do M.modify fun n => { n with atTerminal := false }; pure true : M VtdNav Bool) :=
    Comm.bind (Comm.modify fun n => by cases hu <;> rfl) fun _ => Comm.pure _
  exact Comm.bind (comm_ctx hu 0) fun _ => Comm.ite (Comm.bind (comm_setCtx hu _ _) fun _ => fin) fin

theorem comm_parent (hu : Lower u) : Comm u toParentElement :=
  Comm.get (fun n => by cases hu <;> rfl) fun n => Comm.ite
    (Comm.bind (Comm.modify fun n => by cases hu <;> rfl) fun _ => Comm.pure _)
    (Comm.bind (comm_ctx hu 0) fun c0 => Comm.ite
      (Comm.bind (comm_setCtx hu _ _) fun _ => Comm.bind (comm_ctx hu 0) fun _ => Comm.bind (comm_setCtx hu _ _) fun _ => Comm.pure _)
      (Comm.ite (Comm.bind (comm_setCtx hu _ _) fun _ => Comm.pure _) (Comm.pure _)))

theorem comm_child0 (hu : Lower u) (dir : Direction) : Comm u (toChildLevel0 dir) :=
  Comm.get (fun n => by cases hu <;> rfl) fun n => Comm.ite (Comm.pure _)
    (Comm.bind (comm_setCtx hu _ _) fun _ => Comm.bind (Comm.modify fun n => by cases hu <;> rfl) fun _ =>
      Comm.bind (comm_l1 hu _) fun _ => Comm.bind (comm_setCtx hu _ _) fun _ => Comm.pure _)

/-! Where a move leaves the cursor. -/

variable {P : VtdNav → Prop}

theorem StateOf.bind {m : M VtdNav α} {f : α → M VtdNav β} {n : VtdNav} (h : StateOf P (m n))
    (hf : ∀ a n', m n = .ok a n' → StateOf P (f a n')) : StateOf P ((m >>= f) n) := by
  simp only [M.bind_apply]
  cases hm : m n <;> simp only [Res.andThen] <;> rw [hm] at h
  · exact hf _ _ hm
  · exact h
  · trivial
  · trivial

/-- After a function that reads only. -/
theorem StateOf.read {m : M VtdNav α} {f : α → M VtdNav β} {n : VtdNav} (hm : M.Keeps id m) (h : P n)
    (hf : ∀ a, m n = .ok a n → StateOf P (f a n)) : StateOf P ((m >>= f) n) := by
  have := hm n
  refine StateOf.bind ?_ fun a n' h' => ?_
  · cases hr : m n <;> rw [hr] at this <;> try trivial
    · cases this; exact h
    · cases this; exact h
  · cases hm.ok h'; exact hf a h'

theorem StateOf.ite {c : Prop} [Decidable c] {m m' : M VtdNav α} {n : VtdNav} (h : c → StateOf P (m n))
    (h' : ¬ c → StateOf P (m' n)) : StateOf P ((if c then m else m') n) := by
  split
  · exact h ‹_›
  · exact h' ‹_›

theorem StateOf.modify {g : VtdNav → VtdNav} {f : Unit → M VtdNav β} {n : VtdNav} (h : StateOf P (f () (g n))) :
    StateOf P ((M.modify g >>= f) n) := h

theorem StateOf.get {f : VtdNav → M VtdNav β} {n : VtdNav} (h : StateOf P (f n n)) : StateOf P ((M.get >>= f) n) := h

/-- After the assignment of the level. -/
theorem StateOf.level {v : Int} {f : Unit → M VtdNav β} {n : VtdNav}
    (hf : ∀ n', n'.context[0]? = some v → n' = { n with context := n.context.set 0 v } → StateOf P (f () n')) :
    StateOf P ((setCtx 0 v >>= f) n) := by
  simp only [M.bind_apply]
  cases hm : setCtx 0 v n with
  | ok a n' =>
    obtain ⟨-, h1, h2⟩ := setCtx_ok hm
    exact hf n' (by rw [h2]; exact List.getElem?_set_self h1) h2
  | err e n' =>
    simp only [setCtx, M.bind_apply, M.get_apply, Res.andThen_ok] at hm
    cases h : setAt n.context 0 v <;> rw [h] at hm <;> cases hm
  | panic => trivial
  | diverge => trivial

/-- After the assignment of an index. -/
theorem StateOf.slot {i v : Int} {f : Unit → M VtdNav β} {n : VtdNav} (hi : i ≠ 0)
    (hf : ∀ n', n'.context[0]? = n.context[0]? → StateOf P (f () n')) :
    StateOf P ((setCtx i v >>= f) n) := by
  simp only [M.bind_apply]
  cases hm : setCtx i v n with
  | ok a n' =>
    obtain ⟨h0, h1, h2⟩ := setCtx_ok hm
    exact hf n' (by rw [h2]; simp only; rw [List.getElem?_set_ne (by omega)])
  | err e n' =>
    simp only [setCtx, M.bind_apply, M.get_apply, Res.andThen_ok] at hm
    cases h : setAt n.context i v <;> rw [h] at hm <;> cases hm
  | panic => trivial
  | diverge => trivial

theorem ctx0_val {n n' : VtdNav} {c a : Int} (hc : n.context[0]? = some c) (h : ctx 0 n = .ok a n') : a = c := by
  obtain ⟨-, -, h⟩ := ctx_ok h
  rw [show (0 : Int).toNat = 0 from rfl, hc] at h
  exact (Option.some.inj h).symm

theorem state_root {k : Int} {n : VtdNav} (hk : 0 ≤ k) (h : AtMost k n) : StateOf (AtMost k) (toRootElement n) := by
  refine StateOf.read (ctx_reads 0) h fun c0 h0 => StateOf.ite (fun _ => StateOf.level fun n' h1 _ => ?_) fun _ => ?_
  · exact ⟨0, h1, hk⟩
  · exact h

theorem state_parent {k : Int} {n : VtdNav} (hk : 0 ≤ k) (h : AtMost k n) : StateOf (AtMost k) (toParentElement n) := by
  obtain ⟨c, hc, hck⟩ := h
  refine StateOf.get (StateOf.ite (fun _ => ⟨c, hc, hck⟩) fun _ => StateOf.read (ctx_reads 0) ⟨c, hc, hck⟩ fun c0 h0 => ?_)
  obtain rfl := ctx0_val hc h0
  refine StateOf.ite (fun hp => StateOf.slot (by omega) fun n1 h1 => ?_) fun _ => StateOf.ite (fun _ => ?_) fun _ => ⟨_, hc, hck⟩
  · refine StateOf.read (ctx_reads 0) ⟨_, h1.trans hc, hck⟩ fun c1 h2 => ?_
    obtain rfl := ctx0_val (h1.trans hc) h2
    exact StateOf.level fun n' h3 _ => ⟨_, h3, by omega⟩
  · exact StateOf.level fun n' h3 _ => ⟨_, h3, by omega⟩

theorem state_child0 {k : Int} {n : VtdNav} (hk : 1 ≤ k) (dir : Direction) (h : AtMost k n) :
    StateOf (AtMost k) (toChildLevel0 dir n) := by
  refine StateOf.get (StateOf.ite (fun _ => h) fun _ => StateOf.level fun n1 h1 _ => StateOf.modify ?_)
  refine StateOf.read (onL1_reads (upper32At_reads _)) ⟨1, h1, hk⟩ fun v _ => ?_
  exact StateOf.slot (by decide) fun n' h2 => ⟨1, h2.trans h1, hk⟩

theorem comm_child1 (a : Int) (dir : Direction) : Comm (fun n => { n with l3lower := a }) (toChildLevel1 dir) := by
  have hu := Lower.three a
  have fin : Comm (fun n => { n with l3lower := a }) (do
      M.modify fun n => { n with l2index := if dir = Direction.firstChild then n.l2lower else n.l2upper }
      let n' ← M.get
      let upper ← M.catchErr (do let u ← onL2 (Paged.upper32At n'.l2index); pure (some u)) (fun _ => pure none)
      match upper with
      | none => pure false
      | some upper => do
        setCtx 2 upper.toInt
        pure true : M VtdNav Bool) := by
    refine Comm.bind (Comm.modify fun n => rfl) fun _ => Comm.get (fun n => rfl) fun n' => Comm.bind
      (Comm.catchErr (Comm.bind (comm_l2 hu _) fun _ => Comm.pure _) fun _ => Comm.pure _) fun x => ?_
    cases x with
    | none => exact Comm.pure _
    | some x => exact Comm.bind (comm_setCtx hu _ _) fun _ => Comm.pure _
  refine Comm.get (fun n => rfl) fun n => Comm.bind (comm_l1 hu _) fun lower => Comm.bind (Comm.modify fun n => rfl) fun _ =>
    Comm.ite (Comm.pure _) (Comm.bind (comm_setCtx hu _ _) fun _ => Comm.bind (Comm.modify fun n => rfl) fun _ =>
      Comm.bind (comm_upperLoop (fun i => comm_l1 hu _) _ _ _) fun x => ?_)
  cases x with
  | none => exact fin
  | some x => exact Comm.bind (Comm.modify fun n => rfl) fun _ => fin

theorem ctx_neg {i : Int} {n : VtdNav} (h : i < 0) : ctx i n = .panic := by
  rw [ctx_apply, M.index_apply, if_pos h]

/-- The part of `toSiblingElement` at levels 1 to 3 that moves: the buffer index is set and an entry is read. -/
def stepL (g : VtdNav → VtdNav) (i j : Int) : M VtdNav Bool := do
  M.modify g
  let upper ← onL1 (Paged.upper32At i)
  setCtx j upper.toInt
  pure true

theorem comm_step (hu : Lower u) {g : VtdNav → VtdNav} (hg : ∀ n, g (u n) = u (g n)) (i j : Int) : Comm u (stepL g i j) :=
  Comm.bind (Comm.modify hg) fun _ => Comm.bind (comm_l1 hu _) fun _ => Comm.bind (comm_setCtx hu _ _) fun _ => Comm.pure _

theorem state_step {k : Int} {n : VtdNav} {g : VtdNav → VtdNav} (hg : (g n).context = n.context) {i j : Int} (hj : j ≠ 0) (h : AtMost k n) :
    StateOf (AtMost k) (stepL g i j n) := by
  obtain ⟨c, hc, hk⟩ := h
  have hc' : (g n).context[0]? = some c := by rw [hg]; exact hc
  exact StateOf.modify (StateOf.read (onL1_reads (upper32At_reads _)) ⟨c, hc', hk⟩ fun v _ =>
    StateOf.slot hj fun n' h2 => ⟨c, h2.trans hc', hk⟩)

theorem sibling_eq {n : VtdNav} {c : Int} (hc : n.context[0]? = some c) (hl : c ≤ 2) (dir : Direction) :
    toSiblingElement dir n =
      if n.atTerminal then .ok false n
      else if c = -1 ∨ c = 0 then .ok false n
      else if c = 1 then
        if dir = Direction.nextSibling then
          if n.l1index + 1 ≥ n.l1Buffer.getSize then .ok false n
          else stepL (fun n => { n with l1index := n.l1index + 1 }) (n.l1index + 1) 1 n
        else
          if n.l1index - 1 < 0 then .ok false n
          else stepL (fun n => { n with l1index := n.l1index - 1 }) (n.l1index - 1) 1 n
      else if c = 2 then
        if dir = Direction.nextSibling then
          if n.l2index + 1 > n.l2upper then .ok false n
          else stepL (fun n => { n with l2index := n.l2index + 1 }) n.l1index 2 n
        else
          if n.l2index - 1 < n.l2lower then .ok false n
          else stepL (fun n => { n with l2index := n.l2index - 1 }) n.l1index 2 n
      else if dir = Direction.nextSibling then toNextSibling n else toPrevSibling n := by
  have h3 : ¬ c = 3 := by omega
  unfold toSiblingElement
  rw [M.bind_apply, M.get_apply, Res.andThen_ok, M.ite_apply, M.bind_apply, ctx_of (Int.le_refl 0) hc, Res.andThen_ok]
  simp only [h3, if_false]
  repeat' rw [M.ite_apply]
  rfl

theorem next_neg {c : Int} {n : VtdNav} (hc : n.context[0]? = some c) (h : c < 0) : toNextSibling n = .panic := by
  simp only [toNextSibling, M.bind_apply, ctx_of (Int.le_refl 0) hc, Res.andThen_ok, ctx_neg h, Res.andThen]

theorem prev_neg {c : Int} {n : VtdNav} (hc : n.context[0]? = some c) (h : c < 0) : toPrevSibling n = .panic := by
  simp only [toPrevSibling, M.bind_apply, ctx_of (Int.le_refl 0) hc, Res.andThen_ok, ctx_neg h, Res.andThen]

theorem sibling_two {n : VtdNav} {c : Int} (hc : n.context[0]? = some c) (hl : c ≤ 1) (dir : Direction) (a : Int) :
    SameRes (toSiblingElement dir n) (toSiblingElement dir { n with l2lower := a }) := by
  have hu := Lower.two a
  have ham : AtMost 1 n := ⟨c, hc, hl⟩
  have hc' : ({ n with l2lower := a } : VtdNav).context[0]? = some c := hc
  rw [sibling_eq hc (by omega), sibling_eq hc' (by omega)]
  simp only
  split
  · exact .ok _ (.two _ _ ham)
  split
  · exact .ok _ (.two _ _ ham)
  split
  · split
    · split
      · exact .ok _ (.two _ _ ham)
      · exact SameRes.two (comm_step hu (fun _ => rfl) _ _) (state_step rfl (by decide) ham)
    · split
      · exact .ok _ (.two _ _ ham)
      · exact SameRes.two (comm_step hu (fun _ => rfl) _ _) (state_step rfl (by decide) ham)
  have h2 : ¬ c = 2 := by omega
  simp only [h2, if_false]
  split
  · rw [next_neg hc (by omega), next_neg hc' (by omega)]; exact .panic
  · rw [prev_neg hc (by omega), prev_neg hc' (by omega)]; exact .panic

theorem sibling_three {n : VtdNav} {c : Int} (hc : n.context[0]? = some c) (hl : c ≤ 2) (dir : Direction) (a : Int) :
    SameRes (toSiblingElement dir n) (toSiblingElement dir { n with l3lower := a }) := by
  have hu := Lower.three a
  have ham : AtMost 2 n := ⟨c, hc, hl⟩
  have hc' : ({ n with l3lower := a } : VtdNav).context[0]? = some c := hc
  rw [sibling_eq hc (by omega), sibling_eq hc' (by omega)]
  simp only
  split
  · exact .ok _ (.three _ _ ham)
  split
  · exact .ok _ (.three _ _ ham)
  split
  · split
    · split
      · exact .ok _ (.three _ _ ham)
      · exact SameRes.three (comm_step hu (fun _ => rfl) _ _) (state_step rfl (by decide) ham)
    · split
      · exact .ok _ (.three _ _ ham)
      · exact SameRes.three (comm_step hu (fun _ => rfl) _ _) (state_step rfl (by decide) ham)
  split
  · split
    · split
      · exact .ok _ (.three _ _ ham)
      · exact SameRes.three (comm_step hu (fun _ => rfl) _ _) (state_step rfl (by decide) ham)
    · split
      · exact .ok _ (.three _ _ ham)
      · exact SameRes.three (comm_step hu (fun _ => rfl) _ _) (state_step rfl (by decide) ham)
  split
  · rw [next_neg hc (by omega), next_neg hc' (by omega)]; exact .panic
  · rw [prev_neg hc (by omega), prev_neg hc' (by omega)]; exact .panic

theorem state_child1 {n : VtdNav} (dir : Direction) (hc : n.context[0]? = some 1) : StateOf (AtMost 2) (toChildLevel1 dir n) := by
  have fin : ∀ {n : VtdNav}, AtMost 2 n → StateOf (AtMost 2) ((do
      M.modify fun n => { n with l2index := if dir = Direction.firstChild then n.l2lower else n.l2upper }
      let n' ← M.get
      let upper ← M.catchErr (do let u ← onL2 (Paged.upper32At n'.l2index); pure (some u)) (fun _ => pure none)
      match upper with
      | none => pure false
      | some upper => do
        setCtx 2 upper.toInt
        pure true : M VtdNav Bool) n) := by
    rintro n ⟨c, h1, h2⟩
    refine StateOf.modify (StateOf.get (StateOf.read (by keeps [onL2_reads (upper32At_reads _)]) ⟨c, h1, h2⟩ fun x _ => ?_))
    cases x with
    | none => exact ⟨c, h1, h2⟩
    | some x => exact StateOf.slot (by decide) fun n' h3 => ⟨c, h3.trans h1, h2⟩
  refine StateOf.get (StateOf.read (onL1_reads (lower32At_reads _)) ⟨1, hc, by decide⟩ fun lower _ => StateOf.modify
    (StateOf.ite (fun _ => ⟨1, hc, by decide⟩) fun _ => StateOf.level fun n1 h1 _ => StateOf.modify
      (StateOf.read (upperLoop_reads (fun i => onL1_reads (lower32At_reads i)) _ _ _) ⟨2, h1, by decide⟩ fun x _ => ?_)))
  cases x with
  | none => exact fin ⟨2, h1, by decide⟩
  | some x => exact StateOf.modify (fin ⟨2, h1, by decide⟩)

/-- At level 1 the bound of the next cache is set before it is read. -/
theorem child1_two {n : VtdNav} (hc : n.context[0]? = some 1) (dir : Direction) (a : Int) :
    SameRes (toChildLevel1 dir n) (toChildLevel1 dir { n with l2lower := a }) := by
  have key := comm_l1 (Lower.two a) (Paged.lower32At n.l1index) n
  have hr := onL1_reads (lower32At_reads n.l1index) n
  unfold toChildLevel1
  simp only [M.bind_apply, M.get_apply, Res.andThen_ok]
  rw [key]
  cases hm : onL1 (Paged.lower32At n.l1index) n with
  | ok v n1 =>
    rw [hm] at hr
    cases hr
    exact SameRes.rfl' _
  | err e n1 =>
    rw [hm] at hr
    cases hr
    exact .err _ (.two _ _ ⟨1, hc, Int.le_refl _⟩)
  | panic => exact .panic
  | diverge => exact .diverge

theorem child2_three {n : VtdNav} (hc : n.context[0]? = some 2) (dir : Direction) (a : Int) :
    SameRes (toChildLevel2 dir n) (toChildLevel2 dir { n with l3lower := a }) := by
  have key := comm_l2 (Lower.three a) (Paged.lower32At n.l2index) n
  have hr := onL2_reads (lower32At_reads n.l2index) n
  unfold toChildLevel2
  simp only [M.bind_apply, M.get_apply, Res.andThen_ok]
  rw [key]
  cases hm : onL2 (Paged.lower32At n.l2index) n with
  | ok v n1 =>
    rw [hm] at hr
    cases hr
    exact SameRes.rfl' _
  | err e n1 =>
    rw [hm] at hr
    cases hr
    exact .err _ (.three _ _ ⟨2, hc, Int.le_refl _⟩)
  | panic => exact .panic
  | diverge => exact .diverge

theorem first_neg {c : Int} {n : VtdNav} (hc : n.context[0]? = some c) (h : c < 0) : toFirstChild n = .panic := by
  simp only [toFirstChild, M.bind_apply, ctx_of (Int.le_refl 0) hc, Res.andThen_ok, ctx_neg h, Res.andThen]

theorem last_neg {c : Int} {n : VtdNav} (hc : n.context[0]? = some c) (h : c < 0) : toLastChild n = .panic := by
  simp only [toLastChild, M.bind_apply, ctx_of (Int.le_refl 0) hc, Res.andThen_ok, ctx_neg h, Res.andThen]

theorem state_reset {k : Int} {n : VtdNav} (hk : 0 ≤ k) : StateOf (AtMost k) ((do setCtx 0 0; pure true : M VtdNav Bool) n) :=
  StateOf.level fun _ h _ => ⟨0, h, hk⟩

theorem comm_reset (hu : Lower u) : Comm u (do setCtx 0 0; pure true : M VtdNav Bool) :=
  Comm.bind (comm_setCtx hu _ _) fun _ => Comm.pure _

theorem child_two {n : VtdNav} {c : Int} (hc : n.context[0]? = some c) (hl : c ≤ 1) (dir : Direction) (a : Int) :
    SameRes (toChildElement dir n) (toChildElement dir { n with l2lower := a }) := by
  have hu := Lower.two a
  have ham : AtMost 1 n := ⟨c, hc, hl⟩
  have hc' : ({ n with l2lower := a } : VtdNav).context[0]? = some c := hc
  simp only [toChildElement, M.bind_apply, M.get_apply, Res.andThen_ok, M.ite_apply]
  split
  · exact .ok _ (.two _ _ ham)
  simp only [M.bind_apply, ctx_of (Int.le_refl 0) hc, ctx_of (Int.le_refl 0) hc', Res.andThen_ok, M.ite_apply]
  split
  · exact SameRes.two (comm_reset hu) (state_reset (by decide))
  split
  · exact SameRes.two (comm_child0 hu dir) (state_child0 (by decide) dir ham)
  split
  · subst c; exact child1_two hc dir a
  have h2 : ¬ c = 2 := by omega
  simp only [h2, if_false]
  split
  · rw [first_neg hc (by omega), first_neg hc' (by omega)]; exact .panic
  · rw [last_neg hc (by omega), last_neg hc' (by omega)]; exact .panic

theorem child_three {n : VtdNav} {c : Int} (hc : n.context[0]? = some c) (hl : c ≤ 2) (dir : Direction) (a : Int) :
    SameRes (toChildElement dir n) (toChildElement dir { n with l3lower := a }) := by
  have hu := Lower.three a
  have ham : AtMost 2 n := ⟨c, hc, hl⟩
  have hc' : ({ n with l3lower := a } : VtdNav).context[0]? = some c := hc
  simp only [toChildElement, M.bind_apply, M.get_apply, Res.andThen_ok, M.ite_apply]
  split
  · exact .ok _ (.three _ _ ham)
  simp only [M.bind_apply, ctx_of (Int.le_refl 0) hc, ctx_of (Int.le_refl 0) hc', Res.andThen_ok, M.ite_apply]
  split
  · exact SameRes.three (comm_reset hu) (state_reset (by decide))
  split
  · exact SameRes.three (comm_child0 hu dir) (state_child0 (by decide) dir ham)
  split
  · subst c; exact SameRes.three (comm_child1 a dir) (state_child1 dir hc)
  split
  · subst c; exact child2_three hc dir a
  split
  · rw [first_neg hc (by omega), first_neg hc' (by omega)]; exact .panic
  · rw [last_neg hc (by omega), last_neg hc' (by omega)]; exact .panic

/-- No move tells them apart. -/
theorem toElement_same {n m : VtdNav} (h : Same n m) (dir : Direction) : SameRes (n.toElement dir) (m.toElement dir) := by
  cases h with
  | refl => exact SameRes.rfl' _
  | two a h =>
    obtain ⟨c, hc, hl⟩ := h
    unfold toElement
    split
    · exact SameRes.two (comm_root (.two a)) (state_root (by decide) ⟨c, hc, hl⟩)
    split
    · exact SameRes.two (comm_parent (.two a)) (state_parent (by decide) ⟨c, hc, hl⟩)
    split
    · exact child_two hc hl dir a
    split
    · exact sibling_two hc hl dir a
    · exact .err _ (.two _ _ ⟨c, hc, hl⟩)
  | three a h =>
    obtain ⟨c, hc, hl⟩ := h
    unfold toElement
    split
    · exact SameRes.three (comm_root (.three a)) (state_root (by decide) ⟨c, hc, hl⟩)
    split
    · exact SameRes.three (comm_parent (.three a)) (state_parent (by decide) ⟨c, hc, hl⟩)
    split
    · exact child_three hc hl dir a
    split
    · exact sibling_three hc hl dir a
    · exact .err _ (.three _ _ ⟨c, hc, hl⟩)

theorem index_same {n m : VtdNav} (h : Same n m) : (n.getCurrentIndex).outcome = (m.getCurrentIndex).outcome := by
  have key : ∀ u, Lower u → (n.getCurrentIndex).outcome = ((u n).getCurrentIndex).outcome := by
    intro u hu
    rw [comm_currentIndex hu n]
    cases n.getCurrentIndex <;> rfl
  cases h with
  | refl => rfl
  | two a _ => exact key _ (.two a)
  | three a _ => exact key _ (.three a)

theorem observe_same (ds : List Direction) {n m : VtdNav} (h : Same n m) : observe ds n = observe ds m := by
  induction ds generalizing n m with
  | nil => rfl
  | cons d ds ih =>
    have := toElement_same h d
    simp only [observe]
    generalize n.toElement d = r at this ⊢
    generalize m.toElement d = r' at this ⊢
    cases this with
    | ok a h => simp only [index_same h, ih h]
    | err e h => simp only [index_same h, ih h]
    | panic => rfl
    | diverge => rfl

end VtdNav

/-- C25 with the moves that follow: unless the second cache lacks an entry that the first one points to, a move that returns
false changes neither the current index nor what any later sequence of moves shows. -/
theorem C25_moves_partial (dir : Direction) (n n' : VtdNav) (h : n.toElement dir = .ok false n')
    (hl2 : n.context[0]? = some 1 → ∀ i, (upper32At i n.l2Buffer).outcome.isError → i ≠ n'.l2index) (ds : List Direction) :
    (n'.getCurrentIndex).outcome = (n.getCurrentIndex).outcome ∧ observe ds n' = observe ds n := by
  have key : Same n n' := by
    rcases C25_exact dir n n' h with rfl | ⟨hc, rfl⟩ | ⟨hc, rfl⟩ | ⟨h1, h2, e, h3⟩
    · exact .refl _
    · exact .two _ _ ⟨1, hc, Int.le_refl _⟩
    · exact .three _ _ ⟨2, hc, Int.le_refl _⟩
    · exact absurd rfl (hl2 h1 _ (by rw [h3]; trivial))
  exact ⟨(index_same key).symm, (observe_same ds key).symm⟩

/-- Non-vacuity: a failed move at level 1 that does leave a field behind, and moves after it. -/
example : ∃ n n' : VtdNav, n.toElement Direction.firstChild = .ok false n' ∧ n' ≠ n ∧
    observe [Direction.nextSibling, Direction.firstChild, Direction.parent, Direction.parent] n' =
      [(.value true, .value 3), (.value true, .value 3), (.value true, .value 3), (.value true, .value 1)] :=
  ⟨{ treeNav with context := [1, 2, -1, -1, -1, -1], l1Buffer := Paged.fill 10 [0x2ffffffff, 0x300000000] }, _, rfl,
    by decide, by decide +kernel⟩

end GoVtd
