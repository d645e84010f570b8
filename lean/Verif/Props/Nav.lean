import Verif.Props.Token

/-!
# Properties C23 to C25: moving the cursor
-/

namespace GoVtd
open Paged VtdNav

namespace VtdNav

theorem ctx_apply (i : Int) (n : VtdNav) : ctx i n = M.index n.context i n := rfl

theorem ctx_ok {i v : Int} {n n' : VtdNav} (h : ctx i n = .ok v n') :
    n' = n ∧ 0 ≤ i ∧ n.context[i.toNat]? = some v := by
  rw [ctx_apply, M.index_apply] at h
  split at h
  · cases h
  · split at h <;> cases h
    exact ⟨rfl, by omega, by assumption⟩

theorem ctx_of {i v : Int} {n : VtdNav} (h0 : 0 ≤ i) (h : n.context[i.toNat]? = some v) :
    ctx i n = .ok v n := by
  rw [ctx_apply, M.index_apply, if_neg (by omega), h]

theorem setCtx_ok {i v : Int} {n n' : VtdNav} {u : Unit} (h : setCtx i v n = .ok u n') :
    0 ≤ i ∧ i.toNat < n.context.length ∧ n' = { n with context := n.context.set i.toNat v } := by
  simp only [setCtx, M.bind_apply, M.get_apply, Res.andThen_ok, setAt] at h
  by_cases hc : i < 0 ∨ (n.context.length : Int) ≤ i
  · rw [if_pos hc] at h; cases h
  · rw [if_neg hc] at h; cases h
    exact ⟨by omega, by omega, rfl⟩

theorem setCtx_of {i v : Int} {n : VtdNav} (h0 : 0 ≤ i) (h : i.toNat < n.context.length) :
    setCtx i v n = .ok () { n with context := n.context.set i.toNat v } := by
  simp only [setCtx, M.bind_apply, M.get_apply, Res.andThen_ok, setAt]
  rw [if_neg (by omega)]
  rfl

/-! Reading leaves the navigator as it is. -/

theorem Keeps.zoom_id {σ τ α : Type} {g : σ → τ} {u : τ → σ → σ} (h : ∀ s, u (g s) s = s)
    {m : M τ α} (hm : M.Keeps id m) : M.Keeps id (M.zoom g u m) := by
  intro s
  have := hm (g s)
  simp only [M.zoom_apply]
  cases hc : m (g s) <;> rw [hc] at this <;> simp_all [Res.zoom]

theorem longAt_reads (i : Int) : M.Keeps id (longAt i : M FastLongBuffer _) := by
  unfold longAt atWith
  keeps
  all_goals (unfold Paged.get; keeps)

theorem lower32At_reads (i : Int) : M.Keeps id (lower32At i : M FastLongBuffer _) := by
  unfold lower32At; keeps [longAt_reads]

theorem upper32At_reads (i : Int) : M.Keeps id (upper32At i : M FastLongBuffer _) := by
  unfold upper32At; keeps [longAt_reads]

theorem onVtd_reads {α : Type} {m : M FastLongBuffer α} (h : M.Keeps id m) :
    M.Keeps id (onVtd m) := Keeps.zoom_id (fun _ => rfl) h
theorem onL1_reads {α : Type} {m : M FastLongBuffer α} (h : M.Keeps id m) :
    M.Keeps id (onL1 m) := Keeps.zoom_id (fun _ => rfl) h
theorem onL2_reads {α : Type} {m : M FastLongBuffer α} (h : M.Keeps id m) :
    M.Keeps id (onL2 m) := Keeps.zoom_id (fun _ => rfl) h

theorem ctx_reads (i : Int) : M.Keeps id (ctx i) := by unfold ctx; keeps
theorem getTokenType_reads (i : Int) : M.Keeps id (getTokenType i) := by
  unfold getTokenType; keeps [onVtd_reads (longAt_reads _)]
theorem getTokenDepth_reads (i : Int) : M.Keeps id (getTokenDepth i) := by
  unfold getTokenDepth; keeps [onVtd_reads (longAt_reads _)]

theorem typeOrNone_reads (i : Int) : M.Keeps id
    (M.catchErr (do let t ← getTokenType i; pure (some t)) (fun _ => pure none)) := by
  keeps [getTokenType_reads _]

theorem upperLoop_reads {lower32 : Int → M VtdNav (BitVec 32)} (h : ∀ i, M.Keeps id (lower32 i))
    (size : Int) (fuel : Nat) (i : Int) : M.Keeps id (upperLoop lower32 size fuel i) := by
  induction fuel generalizing i with
  | zero => unfold upperLoop; keeps
  | succ fuel ih => unfold upperLoop; keeps [h _, ih _]

theorem lastChildLoop_reads (fuel : Nat) (i j : Int) : M.Keeps id (lastChildLoop fuel i j) := by
  induction fuel generalizing i j with
  | zero => unfold lastChildLoop; keeps
  | succ fuel ih =>
    unfold lastChildLoop; keeps [typeOrNone_reads _, getTokenDepth_reads _, ctx_reads _, ih _ _]

/-- An entry of a location cache whose lower half can be read has a readable upper half. -/
theorem upper_of_lower {i : Int} {b b' : FastLongBuffer} {v : BitVec 32}
    (h : lower32At i b = .ok v b') : ∃ u, upper32At i b = .ok u b := by
  simp only [lower32At, M.bind_apply, M.catchErr_apply] at h
  have hk := longAt_reads i b
  cases hl : longAt i b with
  | ok a b'' =>
    rw [hl] at hk
    simp only [id] at hk
    exact ⟨_, by simp only [upper32At, M.bind_apply, M.catchErr_apply, hl, Res.handle_ok,
      Res.andThen_ok, M.pure_apply, hk]; rfl⟩
  | err e b'' => rw [hl] at h; cases h
  | panic => rw [hl] at h; cases h
  | diverge => rw [hl] at h; cases h

/-- What a successful move to a child does to the part of the cursor that the current index
is computed from: one level down, and the entry of the new level is set. -/
structure Down (n n' : VtdNav) (c : Int) : Prop where
  root : n'.rootIndex = n.rootIndex
  terminal : n'.atTerminal = n.atTerminal
  level : 0 ≤ c
  room : (c + 1).toNat < n.context.length
  context : ∃ v, n'.context = (n.context.set 0 (c + 1)).set (c + 1).toNat v

theorem firstChildLoop_true {fuel : Nat} {i : Int} {n n' : VtdNav} {c : Int}
    (hc : n.context[0]? = some c) (h0 : 0 ≤ c) (h : firstChildLoop fuel i n = .ok true n') :
    Down n n' c := by
  induction fuel generalizing i with
  | zero => cases h
  | succ fuel ih =>
    simp only [firstChildLoop, M.bind_apply, M.get_apply, Res.andThen_ok, M.ite_apply] at h
    split at h
    · andthen h with ⟨r, n1, h1, h⟩
      cases (typeOrNone_reads i).ok h1
      cases r with
      | none => cases h
      | some t =>
        simp only [M.bind_apply] at h
        andthen h with ⟨d, n2, h2, h⟩
        cases (getTokenDepth_reads i).ok h2
        andthen h with ⟨c', n3, h3, h⟩
        obtain ⟨rfl, -, hcc⟩ := ctx_ok h3
        simp only [Int.toNat_zero, hc, Option.some.injEq] at hcc
        subst hcc
        simp only [M.ite_apply] at h
        split at h
        · split at h
          · cases h
          · split at h
            · simp only [M.bind_apply] at h
              andthen h with ⟨_, n4, h4, h⟩
              andthen h with ⟨_, n5, h5, h⟩
              obtain ⟨-, -, rfl⟩ := setCtx_ok h4
              obtain ⟨-, hr, rfl⟩ := setCtx_ok h5
              cases h
              exact ⟨rfl, rfl, h0, by simpa using hr, i, rfl⟩
            · exact ih h
        · exact ih h
    · cases h

theorem toLastChild_true {n n' : VtdNav} {c : Int}
    (hc : n.context[0]? = some c) (h0 : 0 ≤ c) (h : toLastChild n = .ok true n') :
    Down n n' c := by
  simp only [toLastChild, M.bind_apply] at h
  andthen h with ⟨c', n1, h1, h⟩
  obtain ⟨rfl, -, -⟩ := ctx_ok h1
  andthen h with ⟨_, n2, h2, h⟩
  obtain ⟨rfl, -, -⟩ := ctx_ok h2
  simp only [M.get_apply, Res.andThen_ok, M.bind_apply] at h
  andthen h with ⟨r, n3, h3, h⟩
  cases (lastChildLoop_reads _ _ _).ok h3
  cases r with
  | none => cases h
  | some j =>
    simp only [M.ite_apply] at h
    split at h
    · cases h
    · simp only [M.bind_apply] at h
      andthen h with ⟨c'', n4, h4, h⟩
      obtain ⟨rfl, -, hcc⟩ := ctx_ok h4
      simp only [Int.toNat_zero, hc, Option.some.injEq] at hcc
      subst hcc
      andthen h with ⟨_, n5, h5, h⟩
      andthen h with ⟨_, n6, h6, h⟩
      obtain ⟨-, -, rfl⟩ := setCtx_ok h5
      obtain ⟨-, hr, rfl⟩ := setCtx_ok h6
      cases h
      exact ⟨rfl, rfl, h0, by simpa using hr, _, rfl⟩

theorem toChildLevel0_true {dir : Direction} {n n' : VtdNav}
    (h : toChildLevel0 dir n = .ok true n') : Down n n' 0 := by
  simp only [toChildLevel0, M.bind_apply, M.get_apply, Res.andThen_ok, M.ite_apply] at h
  split at h
  · cases h
  · andthen h with ⟨_, n1, h1, h⟩
    obtain ⟨-, -, rfl⟩ := setCtx_ok h1
    simp only [M.bind_apply, M.modify_apply, Res.andThen_ok] at h
    andthen h with ⟨_, n2, h2, h⟩
    cases (onL1_reads (upper32At_reads _)).ok h2
    andthen h with ⟨_, n3, h3, h⟩
    obtain ⟨-, hr, rfl⟩ := setCtx_ok h3
    cases h
    exact ⟨rfl, rfl, by omega, by simpa using hr, _, rfl⟩

theorem toChildLevel1_true {dir : Direction} {n n' : VtdNav}
    (h : toChildLevel1 dir n = .ok true n') : Down n n' 1 := by
  simp only [toChildLevel1, M.bind_apply, M.get_apply, Res.andThen_ok] at h
  andthen h with ⟨lo, n1, h1, h⟩
  cases (onL1_reads (lower32At_reads _)).ok h1
  simp only [M.bind_apply, M.modify_apply, Res.andThen_ok, M.ite_apply] at h
  split at h
  · cases h
  andthen h with ⟨_, n2, h2, h⟩
  obtain ⟨-, -, rfl⟩ := setCtx_ok h2
  simp only [M.bind_apply, M.modify_apply, Res.andThen_ok] at h
  andthen h with ⟨u, n3, h3, h⟩
  cases (upperLoop_reads (fun i => onL1_reads (lower32At_reads i)) _ _ _).ok h3
  have key : ∀ (m : VtdNav) (i : Int), m.rootIndex = n.rootIndex → m.atTerminal = n.atTerminal →
      m.context = n.context.set 0 2 → (do
        let upper ← M.catchErr (do let u ← onL2 (Paged.upper32At i); pure (some u))
          (fun _ => pure none)
        match upper with
        | none => pure false
        | some upper => do
          setCtx 2 upper.toInt
          pure true : M VtdNav Bool) m = .ok true n' → Down n n' 1 := by
    intro m i ha hb hc h
    andthen h with ⟨upper, n4, h4, h⟩
    have : M.Keeps id (M.catchErr (do let u ← onL2 (Paged.upper32At i); pure (some u))
          (fun _ => pure none)) := by keeps [onL2_reads (upper32At_reads _)]
    cases this.ok h4
    cases upper with
    | none => cases h
    | some upper =>
      andthen h with ⟨_, n5, h5, h⟩
      obtain ⟨-, hr, rfl⟩ := setCtx_ok h5
      cases h
      refine ⟨ha, hb, by omega, ?_, upper.toInt, ?_⟩
      · rw [hc, List.length_set] at hr; exact hr
      · simp only [hc]; rfl
  cases u <;>
  · simp only [M.bind_apply, M.modify_apply, M.get_apply, Res.andThen_ok] at h
    refine key _ _ ?_ ?_ ?_ h <;> rfl

theorem toChildLevel2_true {dir : Direction} {n n' : VtdNav}
    (h : toChildLevel2 dir n = .ok true n') : Down n n' 2 := by
  simp only [toChildLevel2, M.bind_apply, M.get_apply, Res.andThen_ok] at h
  andthen h with ⟨lo, n1, h1, h⟩
  cases (onL2_reads (lower32At_reads _)).ok h1
  simp only [M.bind_apply, M.modify_apply, Res.andThen_ok, M.ite_apply] at h
  split at h
  · cases h
  andthen h with ⟨_, n2, h2, h⟩
  obtain ⟨-, -, rfl⟩ := setCtx_ok h2
  simp only [M.bind_apply, M.modify_apply, Res.andThen_ok] at h
  andthen h with ⟨u, n3, h3, h⟩
  cases (upperLoop_reads (fun i => onL2_reads (lower32At_reads i)) _ _ _).ok h3
  have key : ∀ (m : VtdNav) (i : Int), m.rootIndex = n.rootIndex → m.atTerminal = n.atTerminal →
      m.context = n.context.set 0 3 → (do
        let upper ← M.catchErr (do let u ← onL2 (Paged.upper32At i); pure (some u))
          (fun _ => pure none)
        match upper with
        | none => pure false
        | some upper => do
          setCtx 3 upper.toInt
          pure true : M VtdNav Bool) m = .ok true n' → Down n n' 2 := by
    intro m i ha hb hc h
    andthen h with ⟨upper, n4, h4, h⟩
    have : M.Keeps id (M.catchErr (do let u ← onL2 (Paged.upper32At i); pure (some u))
          (fun _ => pure none)) := by keeps [onL2_reads (upper32At_reads _)]
    cases this.ok h4
    cases upper with
    | none => cases h
    | some upper =>
      andthen h with ⟨_, n5, h5, h⟩
      obtain ⟨-, hr, rfl⟩ := setCtx_ok h5
      cases h
      refine ⟨ha, hb, by omega, ?_, upper.toInt, ?_⟩
      · rw [hc, List.length_set] at hr; exact hr
      · simp only [hc]; rfl
  cases u <;>
  · simp only [M.bind_apply, M.modify_apply, M.get_apply, Res.andThen_ok] at h
    refine key _ _ ?_ ?_ ?_ h <;> rfl

/-- A successful move to a child from level `c`. -/
theorem toChildElement_true {dir : Direction} {n n' : VtdNav}
    (h : toChildElement dir n = .ok true n') : n.atTerminal = false ∧ ∃ c,
      n.context[0]? = some c ∧
      ((c = -1 ∧ n' = { n with context := n.context.set 0 0 }) ∨ Down n n' c) := by
  simp only [toChildElement, M.bind_apply, M.get_apply, Res.andThen_ok, M.ite_apply] at h
  split at h
  · cases h
  · next hat =>
    refine ⟨by simpa using hat, ?_⟩
    andthen h with ⟨c, n1, h1, h⟩
    obtain ⟨rfl, -, hc⟩ := ctx_ok h1
    refine ⟨c, hc, ?_⟩
    simp only [M.ite_apply] at h
    split at h
    · next hm =>
      andthen h with ⟨_, n2, h2, h⟩
      obtain ⟨-, -, rfl⟩ := setCtx_ok h2
      cases h
      exact .inl ⟨hm, rfl⟩
    right
    split at h
    · next h0 => subst h0; exact toChildLevel0_true h
    split at h
    · next h0 => subst h0; exact toChildLevel1_true h
    split at h
    · next h0 => subst h0; exact toChildLevel2_true h
    have h0 : 0 ≤ c := by
      have : ∃ v m, ctx c n1 = .ok v m := by
        split at h
        · simp only [toFirstChild] at h
          andthen h with ⟨c', n2, h2, h⟩
          obtain ⟨rfl, -, hcc⟩ := ctx_ok h2
          rw [hc] at hcc; cases hcc
          andthen h with ⟨v, n3, h3, h⟩
          exact ⟨_, _, h3⟩
        · simp only [toLastChild] at h
          andthen h with ⟨c', n2, h2, h⟩
          obtain ⟨rfl, -, hcc⟩ := ctx_ok h2
          rw [hc] at hcc; cases hcc
          andthen h with ⟨v, n3, h3, h⟩
          exact ⟨_, _, h3⟩
      obtain ⟨v, m, hv⟩ := this
      exact (ctx_ok hv).2.1
    split at h
    · simp only [toFirstChild] at h
      andthen h with ⟨c', n2, h2, h⟩
      obtain ⟨rfl, -, hcc⟩ := ctx_ok h2
      rw [hc] at hcc; cases hcc
      andthen h with ⟨v, n3, h3, h⟩
      obtain ⟨rfl, -, -⟩ := ctx_ok h3
      exact firstChildLoop_true hc h0 h
    · exact toLastChild_true hc h0 h

/-- The current index at level `c`. -/
theorem getCurrentIndex_level {n : VtdNav} {c : Int} (hat : n.atTerminal = false)
    (hc : n.context[0]? = some c) (h0 : 0 ≤ c) :
    (getCurrentIndex n).outcome = if c = 0 then .value n.rootIndex else
      match n.context[c.toNat]? with
      | some v => .value v
      | none => .error (newInternalError IndexOutOfRange none) := by
  simp only [getCurrentIndex, M.bind_apply, M.get_apply, Res.andThen_ok]
  rw [if_neg (by simp [hat]), M.bind_apply, ctx_of (Int.le_refl 0) hc]
  simp only [Res.andThen_ok, M.ite_apply]
  rw [if_neg (by omega : ¬c = -1)]
  by_cases hz : c = 0
  · rw [if_pos hz, if_pos hz]; rfl
  · rw [if_neg hz, if_neg hz]
    by_cases hb : c < 0 ∨ c ≥ n.context.length
    · rw [if_pos hb, List.getElem?_eq_none (by omega)]; rfl
    · rw [if_neg hb]
      have hv : n.context[c.toNat]? = some (n.context[c.toNat]'(by omega)) := by simp
      rw [ctx_of h0 hv, hv]; rfl

/-- The current index one level up does not depend on the levels below. -/
theorem getCurrentIndex_set {n m : VtdNav} {c : Int} (hr : m.rootIndex = n.rootIndex)
    (ht : m.atTerminal = n.atTerminal) (hc : n.context[0]? = some c) (h0 : 0 ≤ c)
    (v : Int) (hm : m.context = n.context.set (c + 1).toNat v) (hat : n.atTerminal = false) :
    (getCurrentIndex m).outcome = (getCurrentIndex n).outcome := by
  have hm0 : m.context[0]? = some c := by
    rw [hm, List.getElem?_set_ne (by omega)]; exact hc
  rw [getCurrentIndex_level hat hc h0, getCurrentIndex_level (ht.trans hat) hm0 h0, hr, hm,
    List.getElem?_set_ne (by omega)]

theorem toParent_zero {n : VtdNav} (hat : n.atTerminal = false) (hc : n.context[0]? = some 0) :
    toElement Direction.parent n = .ok true { n with context := n.context.set 0 (-1) } := by
  have hl : 0 < n.context.length := (List.getElem?_eq_some_iff.mp hc).1
  show toParentElement n = _
  simp only [toParentElement, M.bind_apply, M.get_apply, Res.andThen_ok]
  rw [if_neg (by simp [hat]), M.bind_apply, ctx_of (Int.le_refl 0) hc]
  simp only [Res.andThen_ok, gt_iff_lt, Int.lt_irrefl, if_false, if_true]
  rw [M.bind_apply, setCtx_of (Int.le_refl 0) hl]
  rfl

theorem toParent_pos {n : VtdNav} {c : Int} (hat : n.atTerminal = false)
    (hc : n.context[0]? = some c) (h0 : 0 < c) (hl : c.toNat < n.context.length) :
    toElement Direction.parent n =
      .ok true { n with context := (n.context.set c.toNat (-1)).set 0 (c - 1) } := by
  show toParentElement n = _
  simp only [toParentElement, M.bind_apply, M.get_apply, Res.andThen_ok]
  rw [if_neg (by simp [hat]), M.bind_apply, ctx_of (Int.le_refl 0) hc]
  simp only [Res.andThen_ok, gt_iff_lt]
  rw [if_pos h0, M.bind_apply, setCtx_of (by omega) hl]
  simp only [Res.andThen_ok]
  have hc1 : ({ n with context := n.context.set c.toNat (-1) } : VtdNav).context[(0 : Int).toNat]? =
      some c := by
    show (n.context.set c.toNat (-1))[_]? = _
    rw [List.getElem?_set_ne (by omega)]; exact hc
  rw [M.bind_apply, ctx_of (Int.le_refl 0) hc1]
  simp only [Res.andThen_ok]
  rw [M.bind_apply, setCtx_of (Int.le_refl 0) (by show _ < (n.context.set _ _).length; simp; omega)]
  rfl

end VtdNav

/-! ## C23 -/

/-- From every cursor state that has a level entry, `ToElement(Root)` succeeds and the
current index is the root index. The proviso is needed: see `C23_refuted`. -/
theorem C23_partial (n : VtdNav) (h : n.context ≠ []) :
    ∃ n', n.toElement Direction.root = .ok true n' ∧
      (n'.getCurrentIndex).outcome = .value n.rootIndex := by
  obtain ⟨c, cs, hc⟩ : ∃ c cs, n.context = c :: cs := by
    cases h' : n.context with
    | nil => exact absurd h' h
    | cons c cs => exact ⟨c, cs, rfl⟩
  have h0 : n.context[(0 : Int).toNat]? = some c := by simp [hc]
  have hl : (0 : Int).toNat < n.context.length := by simp [hc]
  by_cases hz : c = 0
  · refine ⟨{ n with atTerminal := false }, ?_, ?_⟩
    · simp only [toElement, if_true, toRootElement, M.bind_apply, ctx_of (Int.le_refl 0) h0,
        Res.andThen_ok, hz, ne_eq, not_true_eq_false, if_false, M.modify_apply, M.pure_apply]
    · have h0' : ({ n with atTerminal := false } : VtdNav).context[(0 : Int).toNat]? = some 0 := by
        simp [hc, hz]
      simp [getCurrentIndex, ctx_of (Int.le_refl 0) h0', Res.outcome]
  · refine ⟨{ n with atTerminal := false, context := n.context.set 0 0 }, ?_, ?_⟩
    · simp only [toElement, if_true, toRootElement, M.bind_apply, ctx_of (Int.le_refl 0) h0,
        Res.andThen_ok, ne_eq, hz, not_false_eq_true, setCtx_of (Int.le_refl 0) hl,
        M.modify_apply, M.pure_apply, Int.toNat_zero]
    · have h0' : ({ n with atTerminal := false, context := n.context.set 0 0 } :
          VtdNav).context[(0 : Int).toNat]? = some 0 := by simp [hc]
      simp [getCurrentIndex, ctx_of (Int.le_refl 0) h0', Res.outcome]

/-- C23 is false for a navigator made with depth 0: `ToElement(Root)` panics. These are
the only states for which it does. -/
theorem C23_refuted (n : VtdNav) (h : n.context = []) :
    (n.toElement Direction.root).outcome = .panic := by
  simp [toElement, toRootElement, ctx_apply, M.index_apply, h, Res.outcome]

/-- `NewVtdNav` with depth 0 succeeds and makes such a navigator. -/
theorem C23_refuted_reachable (root offset length enc : Int) (ns : Bool) (doc : List UInt8)
    (b1 b2 b3 b4 : FastLongBuffer) :
    ∃ n, newVtdNav root offset length 0 enc ns (some doc) b1 b2 b3 b4 = .ok n () ∧
      (n.toElement Direction.root).outcome = .panic :=
  ⟨_, rfl, C23_refuted _ rfl⟩

/-! ## C24 -/

/-- A successful move to the first or last child can be undone by a move to the parent. -/
theorem C24_child_parent (n n' : VtdNav) (dir : Direction)
    (hdir : dir = Direction.firstChild ∨ dir = Direction.lastChild)
    (h : n.toElement dir = .ok true n') :
    ∃ n'', n'.toElement Direction.parent = .ok true n'' ∧
      (n''.getCurrentIndex).outcome = (n.getCurrentIndex).outcome := by
  have hd : toElement dir = toChildElement dir := by
    rcases hdir with rfl | rfl <;> rfl
  rw [hd] at h
  obtain ⟨hat, c, hc, hcase⟩ := toChildElement_true h
  have hl : 0 < n.context.length := by
    cases h' : n.context with
    | nil => rw [h'] at hc; cases hc
    | cons => simp
  have hset : n.context.set 0 c = n.context := by
    obtain ⟨x, xs, hx⟩ : ∃ x xs, n.context = x :: xs := by
      cases h' : n.context with
      | nil => rw [h'] at hl; simp at hl
      | cons c cs => exact ⟨c, cs, rfl⟩
    rw [hx] at hc ⊢; simp at hc; simp [hc]
  rcases hcase with ⟨rfl, rfl⟩ | hdown
  · refine ⟨_, toParent_zero hat (by simp [hl]), ?_⟩
    simp only [List.set_set, hset]
  · obtain ⟨hr, ht, h0, hroom, v, hctx⟩ := hdown
    have hc0 : n'.context[0]? = some (c + 1) := by
      rw [hctx, List.getElem?_set_ne (by omega)]; simp [hl]
    refine ⟨_, toParent_pos (ht.trans hat) hc0 (by omega) (by simp [hctx, hroom]), ?_⟩
    refine getCurrentIndex_set hr ht hc h0 (-1) ?_ hat
    show ((n'.context.set (c + 1).toNat (-1)).set 0 (c + 1 - 1)) = _
    rw [hctx, List.set_set, List.set_comm _ _ (by omega), List.set_set, Int.add_sub_cancel, hset]

/-- A navigator for `<a><b><c><d><e/><f/></d></c></b></a>` with the caches a parser should
build: the token list, and for each level its tokens with the first child in the next
cache. The cursor is on the document. -/
def treeNav : VtdNav :=
  { navOf [⟨.document, -1, 0, 0⟩, ⟨.startingTag, 0, 1, 1⟩, ⟨.startingTag, 1, 4, 1⟩,
      ⟨.startingTag, 2, 7, 1⟩, ⟨.startingTag, 3, 10, 1⟩, ⟨.startingTag, 4, 13, 1⟩,
      ⟨.startingTag, 4, 17, 1⟩] with
    context := [-1, -1, -1, -1, -1, -1],
    l1Buffer := Paged.fill 10 [0x200000000], l2Buffer := Paged.fill 10 [0x300000000],
    l3Buffer := Paged.fill 10 [0x4ffffffff] }

/-- Non-vacuity of C24 at every level: five moves to a first child succeed. -/
example : (do
    let a ← toElement Direction.firstChild
    let b ← toElement Direction.firstChild
    let c ← toElement Direction.firstChild
    let d ← toElement Direction.firstChild
    let i ← getCurrentIndex
    pure (a, b, c, d, i) : M VtdNav _) treeNav = .ok (true, true, true, true, 3)
      { treeNav with context := [3, 2, 3, 3, -1, -1], l2upper := 0, l3upper := 0 } := rfl
example : (do
    let a ← toElement Direction.lastChild
    let i ← getCurrentIndex
    pure (a, i) : M VtdNav _) { treeNav with context := [3, 2, 3, 4, -1, -1] } = .ok (true, 6)
      { treeNav with context := [4, 2, 3, 4, 6, -1] } := rfl

end GoVtd
