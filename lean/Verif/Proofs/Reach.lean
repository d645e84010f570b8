import Verif.Spec.Reach
import Verif.Spec.Parsed
import Verif.Props.NavCache
import Verif.Proofs.Sat

/-!
# Where a cursor can be moved: an invariant of the moves
-/

namespace GoVtd
namespace Reach
open Paged VtdNav

/-- No start tag after index `v` comes before one of depth at most 3. -/
def Calm (ws : List (BitVec 64)) (v : Int) : Prop :=
  ∀ (k : Nat) w, v < k → ws[k]? = some w → IsStart w →
    (∀ (i : Nat) w', v < i → i < k → ws[i]? = some w' → ¬ IsStart w') → tokenDepth w ≤ 3

/-- The buffers of the navigator and the values allowed in its context. -/
structure Inv (b b1 b2 : FastLongBuffer) (root : Int) (Low : Int → Prop) (n : VtdNav) : Prop where
  vtd : n.vtdBuffer = b
  l1 : n.l1Buffer = b1
  l2 : n.l2Buffer = b2
  root : n.rootIndex = root
  notTerminal : n.atTerminal = false
  level : ∀ v, n.context[0]? = some v → v ≤ 3
  entries : ∀ (k : Nat) v, 0 < k → n.context[k]? = some v → Low v

/-- All outcomes with a state keep the invariant. -/
abbrev Safe {α : Type} (I : VtdNav → Prop) (Q : α → VtdNav → Prop) (r : Res VtdNav α) : Prop :=
  r.Sat (fun a n => I n ∧ Q a n) (fun _ n => I n) True True

section
variable {b b1 b2 : FastLongBuffer} {root : Int} {Low : Int → Prop} {α : Type}

theorem Safe.bind {β : Type} {I : VtdNav → Prop} {m : M VtdNav α} {k : α → M VtdNav β} {n : VtdNav} {Q : β → VtdNav → Prop}
    {Q' : α → VtdNav → Prop} (h : Safe I Q' (m n)) (hk : ∀ a n', I n' → Q' a n' → Safe I Q (k a n')) :
    Safe I Q ((m >>= k) n) :=
  Res.Sat.bind h fun a n' h => hk a n' h.1 h.2

theorem safe_keeps {I : VtdNav → Prop} {m : M VtdNav α} (hm : M.Keeps id m) {n : VtdNav} (h : I n) :
    Safe I (fun a n' => n' = n ∧ m n = .ok a n) (m n) := by
  have := hm n
  cases hr : m n with
  | ok a n' => rw [hr] at this; obtain rfl : n' = n := this; exact ⟨h, rfl, rfl⟩
  | err e n' => rw [hr] at this; obtain rfl : n' = n := this; exact h
  | panic => trivial
  | diverge => trivial

theorem safe_ctx {I : VtdNav → Prop} {n : VtdNav} (h : I n) (i : Int) :
    Safe I (fun a n' => n' = n ∧ 0 ≤ i ∧ n.context[i.toNat]? = some a) (ctx i n) := by
  cases hr : ctx i n with
  | ok a n' => have := ctx_ok hr; exact ⟨this.1 ▸ h, this⟩
  | err e n' =>
    rw [ctx_apply, M.index_apply] at hr
    split at hr
    · cases hr
    · split at hr <;> cases hr
  | panic => trivial
  | diverge => trivial

theorem safe_setCtx {n : VtdNav} (h : Inv b b1 b2 root Low n) {i v : Int} (h0 : i = 0 → v ≤ 3) (h1 : i ≠ 0 → Low v) :
    Safe (Inv b b1 b2 root Low) (fun _ n' => n' = { n with context := n.context.set i.toNat v }) (setCtx i v n) := by
  cases hr : setCtx i v n with
  | ok a n' =>
    obtain ⟨hi, hl, rfl⟩ := setCtx_ok hr
    refine ⟨{ h with level := fun x hx => ?_, entries := fun k x hk hx => ?_ }, rfl⟩
    · simp only [List.getElem?_set] at hx
      split at hx
      · simp only [Option.some.injEq] at hx; subst hx; exact h0 (by omega)
      · exact h.level x hx
    · simp only [List.getElem?_set] at hx
      split at hx
      · simp only [Option.some.injEq] at hx; subst hx; exact h1 (by omega)
      · exact h.entries k x hk hx
  | err e n' =>
    simp only [setCtx, M.bind_apply, M.get_apply, Res.andThen_ok] at hr
    cases hs : setAt n.context i v <;> rw [hs] at hr <;> cases hr
  | panic => trivial
  | diverge => trivial

theorem safe_pure {I : VtdNav → Prop} {n : VtdNav} (h : I n) (a : α) : Safe I (fun x _ => x = a) ((pure a : M VtdNav α) n) :=
  ⟨h, rfl⟩

theorem Safe.weaken {I : VtdNav → Prop} {Q Q' : α → VtdNav → Prop} {r : Res VtdNav α} (h : Safe I Q r) (hq : ∀ a n, Q a n → Q' a n) : Safe I Q' r :=
  Res.Sat.mono h (fun a s h => ⟨h.1, hq a s h.2⟩) (fun _ _ h => h) id id

theorem safe_upperLoop {I : VtdNav → Prop} {rd : Int → M VtdNav (BitVec 32)} (hrd : ∀ i, M.Keeps id (rd i)) (size : Int) :
    ∀ (fuel : Nat) (i : Int) {n : VtdNav}, I n → Safe I (fun _ n' => n' = n) (upperLoop rd size fuel i n) := by
  intro fuel
  induction fuel with
  | zero => intro i n h; trivial
  | succ fuel ih =>
    intro i n h
    simp only [upperLoop, M.ite_apply]
    split
    · refine Safe.bind (safe_keeps (hrd i) h) fun a n' hn' ⟨e, _⟩ => ?_
      subst e
      rw [M.ite_apply]
      split
      · exact ⟨h, rfl⟩
      · exact ih _ h
    · exact ⟨h, rfl⟩

end

section
variable {b b1 b2 : FastLongBuffer} {root : Int} {Low : Int → Prop} {ws : List (BitVec 64)} {e : Nat}

theorem firstChildLoop_calm {n : VtdNav} (hb : n.vtdBuffer = fill e ws) (hc : n.context[0]? = some 3) {v : Int}
    (hv : Calm ws v) : ∀ (fuel : Nat) (i : Int), v < i → (∀ (k : Nat) w, v < k → k < i → ws[k]? = some w → ¬ IsStart w) →
    (firstChildLoop fuel i n).Sat (fun r n' => r = false ∧ n' = n) (fun _ n' => n' = n) True True := by
  intro fuel
  induction fuel with
  | zero => intros; trivial
  | succ fuel ih =>
    intro i hi hq
    simp only [firstChildLoop, M.bind_apply, M.get_apply, Res.andThen_ok, M.ite_apply]
    split
    · rcases onVtd_longAt_cases hb i with ⟨h0, hl, he, _⟩ | ⟨_, hr | hr⟩
      · have ht := getTokenType_eq hb i h0 hl he
        have hd := getTokenDepth_eq hb i h0 hl he
        simp only [M.catchErr_apply, M.bind_apply, ht, Res.andThen_ok, M.pure_apply, Res.handle_ok]
        rw [hd]
        simp only [Res.andThen_ok]
        rw [M.bind_apply, ctx_of (Int.le_refl 0) hc]
        simp only [Res.andThen_ok, M.ite_apply]
        obtain ⟨k, rfl⟩ := Int.eq_ofNat_of_zero_le h0
        have hk : ws[k]? = some ws[k] := by simp at hl; simp [hl]
        simp only [Int.toNat_natCast] at *
        split
        · rename_i hs
          have hst : IsStart ws[k] := by
            have hsz := ws[k].isLt
            show tokenType _ = _
            simp only [tokenType] at *
            omega
          have hle := hv k ws[k] hi hk hst fun i w h1 h2 h3 => hq i w h1 (by omega) h3
          simp only [tokenDepth] at hle
          rw [if_neg (show ¬ ws[k].toNat / 2 ^ 52 % 256 = 255 by omega), if_pos (by omega)]
          exact ⟨rfl, rfl⟩
        · rename_i hs
          refine ih _ (by omega) fun k' w h1 h2 h3 hst => ?_
          by_cases hkk : k' = k
          · subst hkk
            rw [hk] at h3
            cases h3
            have hst : tokenType _ = _ := hst
            simp only [tokenType] at hst
            omega
          · exact hq k' w h1 (by omega) h3 hst
      · simp only [M.catchErr_apply, M.bind_apply, getTokenType, hr, Res.andThen_err, Res.handle_err, M.pure_apply, Res.andThen_ok]
        exact ⟨rfl, rfl⟩
      · simp only [M.catchErr_apply, M.bind_apply, getTokenType, hr, Res.andThen_panic]
        trivial
    · exact ⟨rfl, rfl⟩

theorem lastChildLoop_calm {n : VtdNav} (hb : n.vtdBuffer = fill e ws) (hc : n.context[0]? = some 3) {v : Int}
    (hv : Calm ws v) : ∀ (fuel : Nat) (i : Int), v < i → (∀ (k : Nat) w, v < k → k < i → ws[k]? = some w → ¬ IsStart w) →
    (lastChildLoop fuel i (-1) n).Sat (fun r n' => (r = none ∨ r = some (-1)) ∧ n' = n) (fun _ n' => n' = n) True True := by
  intro fuel
  induction fuel with
  | zero => intros; trivial
  | succ fuel ih =>
    intro i hi hq
    simp only [lastChildLoop, M.bind_apply, M.get_apply, Res.andThen_ok, M.ite_apply]
    split
    · rcases onVtd_longAt_cases hb i with ⟨h0, hl, he, _⟩ | ⟨_, hr | hr⟩
      · have ht := getTokenType_eq hb i h0 hl he
        have hd := getTokenDepth_eq hb i h0 hl he
        simp only [M.catchErr_apply, M.bind_apply, ht, Res.andThen_ok, M.pure_apply, Res.handle_ok]
        rw [hd]
        simp only [Res.andThen_ok]
        rw [M.bind_apply, ctx_of (Int.le_refl 0) hc]
        simp only [Res.andThen_ok, M.ite_apply]
        obtain ⟨k, rfl⟩ := Int.eq_ofNat_of_zero_le h0
        have hk : ws[k]? = some ws[k] := by simp at hl; simp [hl]
        simp only [Int.toNat_natCast] at *
        split
        · rename_i hs
          have hst : IsStart ws[k] := by
            have hsz := ws[k].isLt
            show tokenType _ = _
            simp only [tokenType] at *
            omega
          have hle := hv k ws[k] hi hk hst fun i w h1 h2 h3 => hq i w h1 (by omega) h3
          simp only [tokenDepth] at hle
          rw [if_neg (show ¬ ws[k].toNat / 2 ^ 52 % 256 = 255 by omega), if_pos (by omega)]
          exact ⟨.inr rfl, rfl⟩
        · rename_i hs
          refine ih _ (by omega) fun k' w h1 h2 h3 hst => ?_
          by_cases hkk : k' = k
          · subst hkk
            rw [hk] at h3
            cases h3
            have hst : tokenType _ = _ := hst
            simp only [tokenType] at hst
            omega
          · exact hq k' w h1 (by omega) h3 hst
      · simp only [M.catchErr_apply, M.bind_apply, getTokenType, hr, Res.andThen_err, Res.handle_err, M.pure_apply, Res.andThen_ok]
        exact ⟨.inl rfl, rfl⟩
      · simp only [M.catchErr_apply, M.bind_apply, getTokenType, hr, Res.andThen_panic]
        trivial
    · exact ⟨.inr rfl, rfl⟩

/-- What the buffers must give. -/
structure Env (b1 b2 : FastLongBuffer) (Low : Int → Prop) (ws : List (BitVec 64)) : Prop where
  up1 : ∀ i v s, upper32At i b1 = .ok v s → Low v.toInt
  up2 : ∀ i v s, upper32At i b2 = .ok v s → Low v.toInt
  fresh : Low (-1)
  calm : ∀ v, Low v → Calm ws v

variable {n : VtdNav}

theorem keeps_up1 (i : Int) : M.Keeps id (onL1 (upper32At i)) := Keeps.zoom_id (fun _ => rfl) (upper32At_reads i)
theorem keeps_up2 (i : Int) : M.Keeps id (onL2 (upper32At i)) := Keeps.zoom_id (fun _ => rfl) (upper32At_reads i)
theorem keeps_lo1 (i : Int) : M.Keeps id (onL1 (lower32At i)) := Keeps.zoom_id (fun _ => rfl) (lower32At_reads i)
theorem keeps_lo2 (i : Int) : M.Keeps id (onL2 (lower32At i)) := Keeps.zoom_id (fun _ => rfl) (lower32At_reads i)

theorem safe_up1 (he : Env b1 b2 Low ws) (h : Inv b b1 b2 root Low n) (i : Int) :
    Safe (Inv b b1 b2 root Low) (fun a n' => n' = n ∧ Low a.toInt) (onL1 (upper32At i) n) := by
  refine (safe_keeps (keeps_up1 i) h).weaken fun a n' ⟨h1, h2⟩ => ⟨h1, ?_⟩
  simp only [onL1, M.zoom_apply, h.l1] at h2
  cases hr : upper32At i b1 with
  | ok v s => rw [hr] at h2; simp only [Res.zoom_ok, Res.ok.injEq] at h2; rw [← h2.1]; exact he.up1 i v s hr
  | err e s => rw [hr] at h2; simp at h2
  | panic => rw [hr] at h2; simp at h2
  | diverge => rw [hr] at h2; simp at h2

theorem safe_up2 (he : Env b1 b2 Low ws) (h : Inv b b1 b2 root Low n) (i : Int) :
    Safe (Inv b b1 b2 root Low) (fun a n' => n' = n ∧ ∀ u, a = some u → Low u.toInt)
      (M.catchErr (do let u ← onL2 (upper32At i); pure (some u)) (fun _ => pure none) n) := by
  have hk := keeps_up2 i n
  simp only [M.catchErr_apply, M.bind_apply]
  simp only [onL2, M.zoom_apply, h.l2] at hk ⊢
  cases hr : upper32At i b2 with
  | ok v s =>
    rw [hr] at hk
    simp only [Res.zoom_ok] at hk ⊢
    have hk : ({ n with l2Buffer := s } : VtdNav) = n := hk
    simp only [Res.andThen_ok, M.pure_apply, Res.handle_ok, hk]
    exact ⟨h, rfl, fun u hu => by cases hu; exact he.up2 i v s hr⟩
  | err e s =>
    rw [hr] at hk
    simp only [Res.zoom_err] at hk ⊢
    have hk : ({ n with l2Buffer := s } : VtdNav) = n := hk
    simp only [Res.andThen_err, Res.handle_err, M.pure_apply, hk]
    exact ⟨h, rfl, fun u hu => by cases hu⟩
  | panic => trivial
  | diverge => trivial

theorem safe_modify {f : VtdNav → VtdNav} (_ : Inv b b1 b2 root Low n) (hf : Inv b b1 b2 root Low (f n)) :
    Safe (Inv b b1 b2 root Low) (fun _ n' => n' = f n) (M.modify f n) := ⟨hf, rfl⟩

theorem safe_root (h : Inv b b1 b2 root Low n) : Safe (Inv b b1 b2 root Low) (fun _ _ => True) (toRootElement n) := by
  refine Safe.bind (safe_ctx h 0) fun c0 n' h' _ => ?_
  rw [M.ite_apply]
  split
  · exact Safe.bind (safe_setCtx h' (fun _ => by omega) (fun h => absurd rfl h)) fun _ n'' h'' _ =>
      ⟨{ h'' with notTerminal := rfl }, trivial⟩
  · exact ⟨{ h' with notTerminal := rfl }, trivial⟩

theorem safe_parent (he : Env b1 b2 Low ws) (h : Inv b b1 b2 root Low n) : Safe (Inv b b1 b2 root Low) (fun _ _ => True) (toParentElement n) := by
  simp only [toParentElement, M.bind_apply, M.get_apply, Res.andThen_ok]
  rw [if_neg (by simp [h.notTerminal])]
  refine Safe.bind (safe_ctx h 0) fun c0 n' h' ⟨e1, _, hc⟩ => ?_
  subst e1
  rw [M.ite_apply]
  split
  · rename_i hpos
    refine Safe.bind (safe_setCtx h' (fun h => by omega) (fun _ => he.fresh)) fun _ n2 h2 _ => ?_
    refine Safe.bind (safe_ctx h2 0) fun c n3 h3 ⟨e3, _, hc3⟩ => ?_
    subst e3
    refine Safe.bind (safe_setCtx h3 (fun _ => ?_) (fun h => absurd rfl h)) fun _ n4 h4 _ => ⟨h4, trivial⟩
    have := h3.level c hc3
    omega
  · rw [M.ite_apply]
    split
    · exact Safe.bind (safe_setCtx h' (fun _ => by omega) (fun h => absurd rfl h)) fun _ n4 h4 _ => ⟨h4, trivial⟩
    · exact ⟨h', trivial⟩

theorem safe_child0 (he : Env b1 b2 Low ws) (h : Inv b b1 b2 root Low n) (dir : Direction) :
    Safe (Inv b b1 b2 root Low) (fun _ _ => True) (toChildLevel0 dir n) := by
  simp only [toChildLevel0, M.bind_apply, M.get_apply, Res.andThen_ok, M.ite_apply]
  split
  · exact ⟨h, trivial⟩
  · refine Safe.bind (safe_setCtx h (fun _ => by omega) (fun h => absurd rfl h)) fun _ n1 h1 _ => ?_
    refine Safe.bind (safe_modify h1 { h1 with }) fun _ n2 h2 _ => ?_
    refine Safe.bind (safe_up1 he h2 _) fun v n3 h3 ⟨_, hv⟩ => ?_
    exact Safe.bind (safe_setCtx h3 (fun h => by omega) (fun _ => hv)) fun _ n4 h4 _ => ⟨h4, trivial⟩

theorem safe_child1 (he : Env b1 b2 Low ws) (h : Inv b b1 b2 root Low n) (dir : Direction) :
    Safe (Inv b b1 b2 root Low) (fun _ _ => True) (toChildLevel1 dir n) := by
  simp only [toChildLevel1, M.bind_apply, M.get_apply, Res.andThen_ok]
  refine Safe.bind (safe_keeps (keeps_lo1 _) h) fun lower n1 h1 _ => ?_
  refine Safe.bind (safe_modify h1 { h1 with }) fun _ n2 h2 _ => ?_
  rw [M.ite_apply]
  split
  · exact ⟨h2, trivial⟩
  · refine Safe.bind (safe_setCtx h2 (fun _ => by omega) (fun h => absurd rfl h)) fun _ n3 h3 _ => ?_
    refine Safe.bind (safe_modify h3 { h3 with }) fun _ n4 h4 _ => ?_
    refine Safe.bind (safe_upperLoop (fun i => keeps_lo1 i) _ _ _ h4) fun u n5 h5 _ => ?_
    have hrest : ∀ n6, Inv b b1 b2 root Low n6 → Safe (Inv b b1 b2 root Low) (fun _ _ => True)
        ((do
          M.modify fun n => { n with l2index := if dir = Direction.firstChild then n.l2lower else n.l2upper }
          let n' ← M.get
          let upper ← M.catchErr (do let u ← onL2 (Paged.upper32At n'.l2index); pure (some u)) (fun _ => pure none)
          match upper with
          | none => pure false
          | some upper => do
            setCtx 2 upper.toInt
            pure true : M VtdNav Bool) n6) := by
      intro n6 h6
      refine Safe.bind (safe_modify h6 { h6 with }) fun _ n7 h7 _ => ?_
      simp only [M.bind_apply, M.get_apply, Res.andThen_ok]
      refine Safe.bind (safe_up2 he h7 _) fun up n8 h8 ⟨_, hu⟩ => ?_
      cases up with
      | none => exact ⟨h8, trivial⟩
      | some v => exact Safe.bind (safe_setCtx h8 (fun h => by omega) (fun _ => hu v rfl)) fun _ n9 h9 _ => ⟨h9, trivial⟩
    cases u with
    | none => exact hrest n5 h5
    | some v => exact hrest _ { h5 with }

theorem safe_child2 (he : Env b1 b2 Low ws) (h : Inv b b1 b2 root Low n) (dir : Direction) :
    Safe (Inv b b1 b2 root Low) (fun _ _ => True) (toChildLevel2 dir n) := by
  simp only [toChildLevel2, M.bind_apply, M.get_apply, Res.andThen_ok]
  refine Safe.bind (safe_keeps (keeps_lo2 _) h) fun lower n1 h1 _ => ?_
  refine Safe.bind (safe_modify h1 { h1 with }) fun _ n2 h2 _ => ?_
  rw [M.ite_apply]
  split
  · exact ⟨h2, trivial⟩
  · refine Safe.bind (safe_setCtx h2 (fun _ => by omega) (fun h => absurd rfl h)) fun _ n3 h3 _ => ?_
    refine Safe.bind (safe_modify h3 { h3 with }) fun _ n4 h4 _ => ?_
    refine Safe.bind (safe_upperLoop (fun i => keeps_lo2 i) _ _ _ h4) fun u n5 h5 _ => ?_
    have hrest : ∀ n6, Inv b b1 b2 root Low n6 → Safe (Inv b b1 b2 root Low) (fun _ _ => True)
        ((do
          M.modify fun n => { n with l3index := if dir = Direction.firstChild then n.l3lower else n.l3upper }
          let n' ← M.get
          let upper ← M.catchErr (do let u ← onL2 (Paged.upper32At n'.l2index); pure (some u)) (fun _ => pure none)
          match upper with
          | none => pure false
          | some upper => do
            setCtx 3 upper.toInt
            pure true : M VtdNav Bool) n6) := by
      intro n6 h6
      refine Safe.bind (safe_modify h6 { h6 with }) fun _ n7 h7 _ => ?_
      simp only [M.bind_apply, M.get_apply, Res.andThen_ok]
      refine Safe.bind (safe_up2 he h7 _) fun up n8 h8 ⟨_, hu⟩ => ?_
      cases up with
      | none => exact ⟨h8, trivial⟩
      | some v => exact Safe.bind (safe_setCtx h8 (fun h => by omega) (fun _ => hu v rfl)) fun _ n9 h9 _ => ⟨h9, trivial⟩
    cases u with
    | none => exact hrest n5 h5
    | some v => exact hrest _ { h5 with }

theorem safe_firstChild (he : Env b1 b2 Low ws) (h : Inv (fill e ws) b1 b2 root Low n)
    (hc : ∀ v, n.context[0]? = some v → v < 0 ∨ v = 3) :
    Safe (Inv (fill e ws) b1 b2 root Low) (fun _ _ => True) (toFirstChild n) := by
  refine Safe.bind (safe_ctx h 0) fun c0 n1 h1 ⟨e1, _, hc0⟩ => ?_
  subst e1
  refine Safe.bind (safe_ctx h1 c0) fun cur n2 h2 ⟨e2, hpos, hcur⟩ => ?_
  subst e2
  simp only [M.bind_apply, M.get_apply, Res.andThen_ok]
  obtain rfl : c0 = 3 := by have := hc c0 hc0; omega
  have hcalm := he.calm cur (h2.entries 3 cur (by omega) hcur)
  refine (firstChildLoop_calm h2.vtd hc0 hcalm _ _ (by omega) (fun k w h1 h2 => by omega)).mono ?_ ?_ id id
  · rintro a s ⟨-, rfl⟩; exact ⟨h2, trivial⟩
  · rintro a s rfl; exact h2

theorem safe_lastChild (he : Env b1 b2 Low ws) (h : Inv (fill e ws) b1 b2 root Low n)
    (hc : ∀ v, n.context[0]? = some v → v < 0 ∨ v = 3) :
    Safe (Inv (fill e ws) b1 b2 root Low) (fun _ _ => True) (toLastChild n) := by
  refine Safe.bind (safe_ctx h 0) fun c0 n1 h1 ⟨e1, _, hc0⟩ => ?_
  subst e1
  refine Safe.bind (safe_ctx h1 c0) fun cur n2 h2 ⟨e2, hpos, hcur⟩ => ?_
  subst e2
  simp only [M.bind_apply, M.get_apply, Res.andThen_ok]
  obtain rfl : c0 = 3 := by have := hc c0 hc0; omega
  have hcalm := he.calm cur (h2.entries 3 cur (by omega) hcur)
  refine Res.Sat.andThen ((lastChildLoop_calm h2.vtd hc0 hcalm _ _ (by omega) (fun k w h1 h2 => by omega)).mono ?_ ?_ id id)
  · rintro a s ⟨rfl | rfl, rfl⟩
    · exact ⟨h2, trivial⟩
    · exact ⟨h2, trivial⟩
  · rintro a s rfl; exact h2

theorem safe_child (he : Env b1 b2 Low ws) (h : Inv (fill e ws) b1 b2 root Low n) (dir : Direction) :
    Safe (Inv (fill e ws) b1 b2 root Low) (fun _ _ => True) (toChildElement dir n) := by
  simp only [toChildElement, M.bind_apply, M.get_apply, Res.andThen_ok]
  rw [if_neg (by simp [h.notTerminal])]
  refine Safe.bind (safe_ctx h 0) fun c0 n' h' ⟨e1, _, hc⟩ => ?_
  subst e1
  rw [M.ite_apply]
  split
  · exact Safe.bind (safe_setCtx h' (fun _ => by omega) (fun h => absurd rfl h)) fun _ n4 h4 _ => ⟨h4, trivial⟩
  rw [M.ite_apply]
  split
  · exact safe_child0 he h' dir
  rw [M.ite_apply]
  split
  · exact safe_child1 he h' dir
  rw [M.ite_apply]
  split
  · exact safe_child2 he h' dir
  have hl := h'.level c0 hc
  have hc3 : ∀ v, n'.context[0]? = some v → v < 0 ∨ v = 3 := by
    intro v hv
    have := hv.symm.trans hc
    simp only [Option.some.injEq] at this
    omega
  rw [M.ite_apply]
  split
  · exact safe_firstChild he h' hc3
  · exact safe_lastChild he h' hc3

/-- Reading the first cache and writing the result at level `c`. -/
theorem safe_fromL1 (he : Env b1 b2 Low ws) (h : Inv b b1 b2 root Low n) (i c : Int) (hc : c ≠ 0) :
    Safe (Inv b b1 b2 root Low) (fun _ _ => True)
      ((do let upper ← onL1 (upper32At i); setCtx c upper.toInt; pure true : M VtdNav Bool) n) := by
  refine Safe.bind (safe_up1 he h _) fun v n3 h3 ⟨_, hv⟩ => ?_
  exact Safe.bind (safe_setCtx h3 (fun h => absurd h hc) (fun _ => hv)) fun _ n4 h4 _ => ⟨h4, trivial⟩

theorem safe_sibling (he : Env b1 b2 Low ws) (h : Inv (fill e ws) b1 b2 root Low n) (dir : Direction) :
    Safe (Inv (fill e ws) b1 b2 root Low) (fun _ _ => True) (toSiblingElement dir n) := by
  simp only [toSiblingElement, M.bind_apply, M.get_apply, Res.andThen_ok]
  rw [if_neg (by simp [h.notTerminal])]
  refine Safe.bind (safe_ctx h 0) fun c0 n' h' ⟨e1, _, hc⟩ => ?_
  subst e1
  simp only [M.ite_apply]
  split
  · exact ⟨h', trivial⟩
  split
  · split <;> split
    · exact ⟨h', trivial⟩
    · exact Safe.bind (safe_modify h' { h' with }) fun _ n2 h2 _ => safe_fromL1 he h2 _ 1 (by omega)
    · exact ⟨h', trivial⟩
    · exact Safe.bind (safe_modify h' { h' with }) fun _ n2 h2 _ => safe_fromL1 he h2 _ 1 (by omega)
  split
  · split <;> split
    · exact ⟨h', trivial⟩
    · exact Safe.bind (safe_modify h' { h' with }) fun _ n2 h2 _ => safe_fromL1 he h2 _ 2 (by omega)
    · exact ⟨h', trivial⟩
    · exact Safe.bind (safe_modify h' { h' with }) fun _ n2 h2 _ => safe_fromL1 he h2 _ 2 (by omega)
  split
  · split <;> split
    · exact ⟨h', trivial⟩
    · exact Safe.bind (safe_modify h' { h' with }) fun _ n2 h2 _ => safe_fromL1 he h2 _ 3 (by omega)
    · exact ⟨h', trivial⟩
    · exact Safe.bind (safe_modify h' { h' with }) fun _ n2 h2 _ => safe_fromL1 he h2 _ 3 (by omega)
  have hl := h'.level c0 hc
  split
  · refine Safe.bind (safe_ctx h' 0) fun c1 n2 h2 ⟨e2, _, hc1⟩ => ?_
    subst e2
    rw [hc] at hc1
    cases hc1
    refine Safe.bind (safe_ctx h2 c0) fun cur n3 h3 ⟨e3, hpos, hcur⟩ => ?_
    omega
  · refine Safe.bind (safe_ctx h' 0) fun c1 n2 h2 ⟨e2, _, hc1⟩ => ?_
    subst e2
    rw [hc] at hc1
    cases hc1
    refine Safe.bind (safe_ctx h2 c0) fun cur n3 h3 ⟨e3, hpos, hcur⟩ => ?_
    omega

theorem safe_toElement (he : Env b1 b2 Low ws) (h : Inv (fill e ws) b1 b2 root Low n) (dir : Direction) :
    Safe (Inv (fill e ws) b1 b2 root Low) (fun _ _ => True) (n.toElement dir) := by
  simp only [toElement, M.ite_apply]
  split
  · exact safe_root h
  split
  · exact safe_parent he h
  split
  · exact safe_child he h dir
  split
  · exact safe_sibling he h dir
  · exact h

theorem Inv.reaches (he : Env b1 b2 Low ws) (h : Inv (fill e ws) b1 b2 root Low n) {n' : VtdNav} (hr : Reaches n n') :
    Inv (fill e ws) b1 b2 root Low n' := by
  induction hr with
  | here => exact h
  | move _ hm ih => exact ((safe_toElement he ih _).ok hm).1
  | fail _ hm ih => exact (safe_toElement he ih _).err hm

end

end Reach
end GoVtd
