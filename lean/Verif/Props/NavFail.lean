import Verif.Props.Nav

/-!
# Property C25: a move that fails leaves the cursor alone
-/

namespace GoVtd
open Paged VtdNav

namespace VtdNav

theorem firstChildLoop_false {fuel : Nat} {i : Int} {n n' : VtdNav}
    (h : firstChildLoop fuel i n = .ok false n') : n' = n := by
  induction fuel generalizing i with
  | zero => cases h
  | succ fuel ih =>
    simp only [firstChildLoop, M.bind_apply, M.get_apply, Res.andThen_ok, M.ite_apply] at h
    split at h
    · andthen h with ⟨r, n1, h1, h⟩
      cases (typeOrNone_reads i).ok h1
      cases r with
      | none => cases h; rfl
      | some t =>
        simp only [M.bind_apply] at h
        andthen h with ⟨d, n2, h2, h⟩
        cases (getTokenDepth_reads i).ok h2
        andthen h with ⟨c', n3, h3, h⟩
        cases (ctx_reads _).ok h3
        simp only [M.ite_apply] at h
        split at h
        · split at h
          · cases h; rfl
          · split at h
            · andthen h with ⟨_, n4, h4, h⟩
              andthen h with ⟨_, n5, h5, h⟩
              cases h
            · exact ih h
        · exact ih h
    · cases h; rfl

theorem nextSiblingLoop_false {fuel : Nat} {i : Int} {n n' : VtdNav} {b : Bool}
    (h : nextSiblingLoop fuel i n = .ok b n') : b = false ∧ n' = n := by
  induction fuel generalizing i with
  | zero => cases h
  | succ fuel ih =>
    simp only [nextSiblingLoop, M.bind_apply, M.get_apply, Res.andThen_ok, M.ite_apply] at h
    split at h
    · andthen h with ⟨r, n1, h1, h⟩
      cases (typeOrNone_reads i).ok h1
      cases r with
      | none => cases h; exact ⟨rfl, rfl⟩
      | some t =>
        simp only [M.bind_apply] at h
        andthen h with ⟨d, n2, h2, h⟩
        cases (getTokenDepth_reads i).ok h2
        andthen h with ⟨c', n3, h3, h⟩
        cases (ctx_reads _).ok h3
        simp only [M.ite_apply] at h
        split at h
        · split at h
          · cases h; exact ⟨rfl, rfl⟩
          · split at h
            · omega
            · exact ih h
        · exact ih h
    · cases h; exact ⟨rfl, rfl⟩

theorem prevSiblingLoop_false {fuel : Nat} {i : Int} {n n' : VtdNav}
    (h : prevSiblingLoop fuel i n = .ok false n') : n' = n := by
  induction fuel generalizing i with
  | zero => cases h
  | succ fuel ih =>
    simp only [prevSiblingLoop, M.bind_apply] at h
    andthen h with ⟨c, n1, h1, h⟩
    cases (ctx_reads _).ok h1
    andthen h with ⟨c', n1, h1, h⟩
    cases (ctx_reads _).ok h1
    simp only [M.ite_apply] at h
    split at h
    · andthen h with ⟨r, n1, h1, h⟩
      cases (typeOrNone_reads i).ok h1
      cases r with
      | none => cases h; rfl
      | some t =>
        andthen h with ⟨d, n2, h2, h⟩
        cases (getTokenDepth_reads i).ok h2
        simp only [M.ite_apply] at h
        split at h
        · split at h
          · andthen h with ⟨_, n4, h4, h⟩
            cases h
          · exact ih h
        · exact ih h
    · cases h; rfl

theorem toLastChild_false {n n' : VtdNav} (h : toLastChild n = .ok false n') : n' = n := by
  simp only [toLastChild, M.bind_apply] at h
  andthen h with ⟨c', n1, h1, h⟩
  cases (ctx_reads _).ok h1
  andthen h with ⟨_, n2, h2, h⟩
  cases (ctx_reads _).ok h2
  simp only [M.get_apply, Res.andThen_ok, M.bind_apply] at h
  andthen h with ⟨r, n3, h3, h⟩
  cases (lastChildLoop_reads _ _ _).ok h3
  cases r with
  | none => cases h; rfl
  | some j =>
    simp only [M.ite_apply] at h
    split at h
    · cases h; rfl
    · andthen h with ⟨c'', n4, h4, h⟩
      andthen h with ⟨_, n5, h5, h⟩
      andthen h with ⟨_, n6, h6, h⟩
      cases h

theorem toChildLevel0_false {dir : Direction} {n n' : VtdNav}
    (h : toChildLevel0 dir n = .ok false n') : n' = n := by
  simp only [toChildLevel0, M.bind_apply, M.get_apply, Res.andThen_ok, M.ite_apply] at h
  split at h
  · cases h; rfl
  · andthen h with ⟨_, n1, h1, h⟩
    simp only [M.bind_apply, M.modify_apply, Res.andThen_ok] at h
    andthen h with ⟨_, n2, h2, h⟩
    andthen h with ⟨_, n3, h3, h⟩
    cases h

/-- The one failure that moves the cursor: the entry of the second cache that the first
cache points to cannot be read. -/
def BrokenL2 (dir : Direction) (n n' : VtdNav) : Prop :=
  n'.context = n.context.set 0 2 ∧
  n'.l2index = (if dir = Direction.firstChild then n'.l2lower else n'.l2upper) ∧
  ∃ e, (upper32At n'.l2index n.l2Buffer).outcome = .error e

theorem toChildLevel1_false {dir : Direction} {n n' : VtdNav}
    (h : toChildLevel1 dir n = .ok false n') :
    n' = { n with l2lower := -1 } ∨ BrokenL2 dir n n' := by
  simp only [toChildLevel1, M.bind_apply, M.get_apply, Res.andThen_ok] at h
  andthen h with ⟨lo, n1, h1, h⟩
  cases (onL1_reads (lower32At_reads _)).ok h1
  simp only [M.bind_apply, M.modify_apply, Res.andThen_ok, M.ite_apply] at h
  split at h
  · next hlo => cases h; rw [hlo]; exact .inl rfl
  andthen h with ⟨_, n2, h2, h⟩
  obtain ⟨-, -, rfl⟩ := setCtx_ok h2
  simp only [M.bind_apply, M.modify_apply, Res.andThen_ok] at h
  andthen h with ⟨u, n3, h3, h⟩
  cases (upperLoop_reads (fun i => onL1_reads (lower32At_reads i)) _ _ _).ok h3
  right
  have key : ∀ (m : VtdNav) (i : Int), m.l2index = i → m.l2Buffer = n.l2Buffer →
      m.context = n.context.set 0 2 →
      m.l2index = (if dir = Direction.firstChild then m.l2lower else m.l2upper) →
      (do
        let upper ← M.catchErr (do let u ← onL2 (Paged.upper32At i); pure (some u))
          (fun _ => pure none)
        match upper with
        | none => pure false
        | some upper => do
          setCtx 2 upper.toInt
          pure true : M VtdNav Bool) m = .ok false n' → BrokenL2 dir n n' := by
    intro m i hmi hb hc hi h
    subst hmi
    andthen h with ⟨upper, n4, h4, h⟩
    have : M.Keeps id (M.catchErr (do let u ← onL2 (Paged.upper32At m.l2index); pure (some u))
          (fun _ => pure none)) := by keeps [onL2_reads (upper32At_reads _)]
    cases this.ok h4
    cases upper with
    | none =>
      cases h
      refine ⟨hc, hi, ?_⟩
      simp only [M.catchErr_apply, M.bind_apply, onL2, M.zoom_apply, hb] at h4
      cases hu : upper32At n'.l2index n.l2Buffer with
      | err e b => exact ⟨e, rfl⟩
      | ok a b => rw [hu] at h4; cases h4
      | panic => rw [hu] at h4; cases h4
      | diverge => rw [hu] at h4; cases h4
    | some upper =>
      andthen h with ⟨_, n5, h5, h⟩
      cases h
  cases u <;>
  · simp only [M.bind_apply, M.modify_apply, M.get_apply, Res.andThen_ok] at h
    refine key _ _ ?_ ?_ ?_ ?_ h <;> rfl

theorem toChildLevel2_false {dir : Direction} {n n' : VtdNav}
    (h : toChildLevel2 dir n = .ok false n') : n' = { n with l3lower := -1 } := by
  simp only [toChildLevel2, M.bind_apply, M.get_apply, Res.andThen_ok] at h
  andthen h with ⟨lo, n1, h1, h⟩
  cases (onL2_reads (lower32At_reads _)).ok h1
  obtain ⟨u0, hu0⟩ : ∃ u, upper32At n.l2index n.l2Buffer = .ok u n.l2Buffer := by
    simp only [onL2, M.zoom_apply] at h1
    cases hl : lower32At n.l2index n.l2Buffer with
    | ok a b => exact upper_of_lower hl
    | err e b => rw [hl] at h1; cases h1
    | panic => rw [hl] at h1; cases h1
    | diverge => rw [hl] at h1; cases h1
  simp only [M.bind_apply, M.modify_apply, Res.andThen_ok, M.ite_apply] at h
  split at h
  · next hlo => cases h; rw [hlo]
  andthen h with ⟨_, n2, h2, h⟩
  obtain ⟨-, -, rfl⟩ := setCtx_ok h2
  simp only [M.bind_apply, M.modify_apply, Res.andThen_ok] at h
  andthen h with ⟨u, n3, h3, h⟩
  cases (upperLoop_reads (fun i => onL2_reads (lower32At_reads i)) _ _ _).ok h3
  exfalso
  have key : ∀ (m : VtdNav) (i : Int), m.l2Buffer = n.l2Buffer → i = n.l2index →
      (do
        let upper ← M.catchErr (do let u ← onL2 (Paged.upper32At i); pure (some u))
          (fun _ => pure none)
        match upper with
        | none => pure false
        | some upper => do
          setCtx 3 upper.toInt
          pure true : M VtdNav Bool) m = .ok false n' → False := by
    intro m i hb hi h
    simp only [M.catchErr_apply, M.bind_apply, onL2, M.zoom_apply, hb, hi, hu0] at h
    simp only [Res.zoom_ok, Res.andThen_ok, M.pure_apply, Res.handle_ok] at h
    andthen h with ⟨_, n5, h5, h⟩
    cases h
  cases u <;>
  · simp only [M.bind_apply, M.modify_apply, M.get_apply, Res.andThen_ok] at h
    refine key _ _ ?_ ?_ h <;> rfl

/-- All the ways in which `ToElement` can return false. -/
theorem toElement_false {dir : Direction} {n n' : VtdNav} (h : toElement dir n = .ok false n') :
    n' = n ∨
    (n.context[0]? = some 1 ∧ n' = { n with l2lower := -1 }) ∨
    (n.context[0]? = some 2 ∧ n' = { n with l3lower := -1 }) ∨
    (n.context[0]? = some 1 ∧ BrokenL2 dir n n') := by
  simp only [toElement, M.ite_apply] at h
  split at h
  · simp only [toRootElement] at h
    andthen h with ⟨_, _, _, h⟩
    split at h
    · andthen h with ⟨_, _, _, h⟩
      andthen h with ⟨_, _, _, h⟩
      cases h
    · andthen h with ⟨_, _, _, h⟩
      cases h
  split at h
  · left
    simp only [toParentElement, M.bind_apply, M.get_apply, Res.andThen_ok, M.ite_apply] at h
    split at h
    · andthen h with ⟨_, _, _, h⟩
      cases h
    · andthen h with ⟨_, _, h1, h⟩
      cases (ctx_reads _).ok h1
      simp only [M.ite_apply] at h
      split at h
      · andthen h with ⟨_, _, _, h⟩
        andthen h with ⟨_, _, _, h⟩
        andthen h with ⟨_, _, _, h⟩
        cases h
      split at h
      · andthen h with ⟨_, _, _, h⟩
        cases h
      · cases h; rfl
  split at h
  · simp only [toChildElement, M.bind_apply, M.get_apply, Res.andThen_ok, M.ite_apply] at h
    split at h
    · cases h; exact .inl rfl
    andthen h with ⟨c, _, h1, h⟩
    obtain ⟨rfl, -, hc⟩ := ctx_ok h1
    simp only [M.ite_apply] at h
    split at h
    · andthen h with ⟨_, _, _, h⟩
      cases h
    split at h
    · exact .inl (toChildLevel0_false h)
    split at h
    · next h1 =>
      subst h1
      rcases toChildLevel1_false h with h | h
      · exact .inr (.inl ⟨hc, h⟩)
      · exact .inr (.inr (.inr ⟨hc, h⟩))
    split at h
    · next h1 => subst h1; exact .inr (.inr (.inl ⟨hc, toChildLevel2_false h⟩))
    split at h
    · simp only [toFirstChild] at h
      andthen h with ⟨_, _, h2, h⟩
      cases (ctx_reads _).ok h2
      andthen h with ⟨_, _, h2, h⟩
      cases (ctx_reads _).ok h2
      exact .inl (firstChildLoop_false h)
    · exact .inl (toLastChild_false h)
  split at h
  · left
    simp only [toSiblingElement, M.bind_apply, M.get_apply, Res.andThen_ok, M.ite_apply] at h
    split at h
    · cases h; rfl
    andthen h with ⟨c, _, h1, h⟩
    cases (ctx_reads _).ok h1
    simp only [M.ite_apply] at h
    split at h
    · cases h; rfl
    iterate 3
      split at h
      · split at h
        all_goals
          split at h
          · cases h; rfl
          · andthen h with ⟨_, _, _, h⟩
            andthen h with ⟨_, _, _, h⟩
            andthen h with ⟨_, _, _, h⟩
            cases h
    split at h
    · simp only [toNextSibling] at h
      andthen h with ⟨_, _, h2, h⟩
      cases (ctx_reads _).ok h2
      andthen h with ⟨_, _, h2, h⟩
      cases (ctx_reads _).ok h2
      exact (nextSiblingLoop_false h).2
    · simp only [toPrevSibling] at h
      andthen h with ⟨_, _, h2, h⟩
      cases (ctx_reads _).ok h2
      andthen h with ⟨_, _, h2, h⟩
      cases (ctx_reads _).ok h2
      andthen h with ⟨_, _, h2, h⟩
      cases (ctx_reads _).ok h2
      exact prevSiblingLoop_false h
  · cases h

end VtdNav

/-! ## C25 -/

/-- What a failed move leaves behind: the same navigator; or, at level 1 and 2, a navigator
that differs in the lower bound of the next cache (a field set again by the next move that
goes down and not read before); or, at level 1, a cursor on level 2 because the second
cache lacks the entry the first one points to. -/
theorem C25_exact (dir : Direction) (n n' : VtdNav) (h : n.toElement dir = .ok false n') :
    n' = n ∨
    (n.context[0]? = some 1 ∧ n' = { n with l2lower := -1 }) ∨
    (n.context[0]? = some 2 ∧ n' = { n with l3lower := -1 }) ∨
    (n.context[0]? = some 1 ∧ n'.context = n.context.set 0 2 ∧
      ∃ e, (upper32At n'.l2index n.l2Buffer).outcome = .error e) := by
  rcases toElement_false h with h | h | h | ⟨h, h1, -, h2⟩
  · exact .inl h
  · exact .inr (.inl h)
  · exact .inr (.inr (.inl h))
  · exact .inr (.inr (.inr ⟨h, h1, h2⟩))

/-- Away from level 1 a failed move does not change the current index. At level 1 it does
not either when the second cache has an entry for every child the first one claims.
Missing from C25: the case of `C25_refuted`. `C25_moves_partial` has the moves that follow. -/
theorem C25_partial (dir : Direction) (n n' : VtdNav) (h : n.toElement dir = .ok false n')
    (hl2 : n.context[0]? = some 1 → ∀ i, (upper32At i n.l2Buffer).outcome.isError →
      i ≠ n'.l2index) :
    (n'.getCurrentIndex).outcome = (n.getCurrentIndex).outcome ∧ n'.context = n.context := by
  rcases C25_exact dir n n' h with rfl | ⟨hc, rfl⟩ | ⟨hc, rfl⟩ | ⟨h1, h2, e, h3⟩
  · exact ⟨rfl, rfl⟩
  · refine ⟨?_, rfl⟩
    rcases Bool.eq_false_or_eq_true n.atTerminal with hat | hat
    rotate_left
    · exact (getCurrentIndex_level (n := { n with l2lower := -1 }) hat hc (by omega)).trans
        (getCurrentIndex_level hat hc (by omega)).symm
    · simp [getCurrentIndex, hat, Res.outcome]
  · refine ⟨?_, rfl⟩
    rcases Bool.eq_false_or_eq_true n.atTerminal with hat | hat
    rotate_left
    · exact (getCurrentIndex_level (n := { n with l3lower := -1 }) hat hc (by omega)).trans
        (getCurrentIndex_level hat hc (by omega)).symm
    · simp [getCurrentIndex, hat, Res.outcome]
  · exact absurd rfl (hl2 h1 _ (by rw [h3]; trivial))

/-- C25 is false: with a first cache that announces a child the second one does not have,
`ToElement(FirstChild)` returns false and the current index has changed from 2 to -1. -/
theorem C25_refuted : ∃ n n' : VtdNav, n.toElement Direction.firstChild = .ok false n' ∧
    (n.getCurrentIndex).outcome = .value 2 ∧ (n'.getCurrentIndex).outcome = .value (-1) :=
  ⟨{ treeNav with context := [1, 2, -1, -1, -1, -1], l2Buffer := Paged.fill 10 [] }, _,
    rfl, rfl, rfl⟩

/-- Non-vacuity: failed moves at levels 1, 2 and 4 that satisfy the hypotheses. -/
example : toElement Direction.firstChild
    { treeNav with context := [1, 2, -1, -1, -1, -1], l1Buffer := Paged.fill 10 [0x2ffffffff] } =
    .ok false { treeNav with context := [1, 2, -1, -1, -1, -1],
                             l1Buffer := Paged.fill 10 [0x2ffffffff], l2lower := -1 } := rfl
example : toElement Direction.lastChild { treeNav with context := [4, 2, 3, 4, 6, -1] } =
    .ok false { treeNav with context := [4, 2, 3, 4, 6, -1] } := rfl

end GoVtd
