import Verif.Model.Go

/-!
# Evaluation rules for the outcome monad

Simplification lemmas that run a computation of type `M σ α` on a state.
-/

namespace GoVtd

/-- Continue after an outcome. -/
def Res.andThen {σ α β : Type} (r : Res σ α) (f : α → M σ β) : Res σ β :=
  match r with
  | .ok a s => f a s
  | .err e s => .err e s
  | .panic => .panic
  | .diverge => .diverge

section
variable {σ τ α β : Type}

@[simp] theorem Res.andThen_ok (a : α) (s : σ) (f : α → M σ β) :
    (Res.ok a s).andThen f = f a s := rfl
@[simp] theorem Res.andThen_err (e : GoErr) (s : σ) (f : α → M σ β) :
    (Res.err e s).andThen f = .err e s := rfl
@[simp] theorem Res.andThen_panic (f : α → M σ β) :
    (Res.panic : Res σ α).andThen f = .panic := rfl
@[simp] theorem Res.andThen_diverge (f : α → M σ β) :
    (Res.diverge : Res σ α).andThen f = .diverge := rfl

theorem Res.andThen_eq_ok {r : Res σ α} {f : α → M σ β} {b : β} {t : σ} :
    r.andThen f = .ok b t ↔ ∃ a s, r = .ok a s ∧ f a s = .ok b t := by
  cases r <;> simp [and_assoc]

@[simp] theorem M.bind_apply (m : M σ α) (f : α → M σ β) (s : σ) :
    (m >>= f) s = (m s).andThen f := rfl
@[simp] theorem M.bind_apply' (m : M σ α) (f : α → M σ β) (s : σ) :
    M.bind m f s = (m s).andThen f := rfl
@[simp] theorem M.pure_apply (a : α) (s : σ) : (Pure.pure a : M σ α) s = .ok a s := rfl
@[simp] theorem M.pure_apply' (a : α) (s : σ) : (M.pure a : M σ α) s = .ok a s := rfl
@[simp] theorem M.get_apply (s : σ) : (M.get : M σ σ) s = .ok s s := rfl
@[simp] theorem M.modify_apply (f : σ → σ) (s : σ) : M.modify f s = .ok () (f s) := rfl
@[simp] theorem M.raise_apply (e : GoErr) (s : σ) : (M.raise e : M σ α) s = .err e s := rfl
@[simp] theorem M.panic_apply (s : σ) : (M.panic : M σ α) s = .panic := rfl
@[simp] theorem M.diverge_apply (s : σ) : (M.diverge : M σ α) s = .diverge := rfl
@[simp] theorem M.ite_apply (c : Prop) [Decidable c] (a b : M σ α) (s : σ) :
    (if c then a else b) s = if c then a s else b s := by split <;> rfl

/-- Outcome of handling errors. -/
def Res.handle (r : Res σ α) (h : GoErr → M σ α) : Res σ α :=
  match r with
  | .ok a s => .ok a s
  | .err e s => h e s
  | .panic => .panic
  | .diverge => .diverge

@[simp] theorem Res.handle_ok (a : α) (s : σ) (h : GoErr → M σ α) :
    (Res.ok a s).handle h = .ok a s := rfl
@[simp] theorem Res.handle_err (e : GoErr) (s : σ) (h : GoErr → M σ α) :
    (Res.err e s).handle h = h e s := rfl
@[simp] theorem Res.handle_panic (h : GoErr → M σ α) :
    (Res.panic : Res σ α).handle h = .panic := rfl
@[simp] theorem Res.handle_diverge (h : GoErr → M σ α) :
    (Res.diverge : Res σ α).handle h = .diverge := rfl

@[simp] theorem M.catchErr_apply (m : M σ α) (h : GoErr → M σ α) (s : σ) :
    M.catchErr m h s = (m s).handle h := rfl

/-- Put the state of a component back. -/
def Res.zoom (u : τ → σ → σ) (s : σ) (r : Res τ α) : Res σ α :=
  match r with
  | .ok a t => .ok a (u t s)
  | .err e t => .err e (u t s)
  | .panic => .panic
  | .diverge => .diverge

@[simp] theorem Res.zoom_ok (u : τ → σ → σ) (s : σ) (a : α) (t : τ) :
    (Res.ok a t).zoom u s = .ok a (u t s) := rfl
@[simp] theorem Res.zoom_err (u : τ → σ → σ) (s : σ) (e : GoErr) (t : τ) :
    (Res.err e t : Res τ α).zoom u s = .err e (u t s) := rfl
@[simp] theorem Res.zoom_panic (u : τ → σ → σ) (s : σ) :
    (Res.panic : Res τ α).zoom u s = .panic := rfl
@[simp] theorem Res.zoom_diverge (u : τ → σ → σ) (s : σ) :
    (Res.diverge : Res τ α).zoom u s = .diverge := rfl

@[simp] theorem M.zoom_apply (g : σ → τ) (u : τ → σ → σ) (m : M τ α) (s : σ) :
    M.zoom g u m s = (m (g s)).zoom u s := rfl

theorem M.index_apply (xs : List α) (i : Int) (s : σ) :
    M.index xs i s = if i < 0 then .panic else
      match xs[i.toNat]? with
      | some x => .ok x s
      | none => .panic := rfl

@[simp] theorem M.index_nat (xs : List α) (n : Nat) (s : σ) (h : n < xs.length) :
    M.index xs (n : Int) s = .ok xs[n] s := by
  simp [M.index, h, Int.not_lt.mpr (Int.natCast_nonneg n)]

theorem M.index_of_lt (xs : List α) (i : Int) (s : σ) (h0 : 0 ≤ i)
    (h : i.toNat < xs.length) : M.index xs i s = .ok xs[i.toNat] s := by
  simp [M.index, h, Int.not_lt.mpr h0]

theorem M.index_panic (xs : List α) (i : Int) (s : σ) (h : i < 0 ∨ (xs.length : Int) ≤ i) :
    M.index xs i s = (.panic : Res σ α) := by
  simp only [M.index]
  split
  · rfl
  · have : xs.length ≤ i.toNat := by omega
    simp [List.getElem?_eq_none this]

theorem M.and_apply (a b : M σ Bool) (s : σ) :
    M.and a b s = (a s).andThen fun x => if x then b else pure false := rfl
theorem M.or_apply (a b : M σ Bool) (s : σ) :
    M.or a b s = (a s).andThen fun x => if x then pure true else b := rfl

theorem setAt_nat {xs : List α} {n : Nat} {v : α} (h : n < xs.length) :
    setAt xs (n : Int) v = some (xs.set n v) := by
  simp only [setAt]
  rw [if_neg (by omega)]
  simp

/-! Frames: computations that leave a part of the state alone. -/

/-- Whatever the outcome, `m` does not change `f` of the state. -/
def M.Keeps {γ : Type} (f : σ → γ) (m : M σ α) : Prop :=
  ∀ s, match m s with
    | .ok _ s' => f s' = f s
    | .err _ s' => f s' = f s
    | _ => True

section Keeps
variable {γ : Type} {f : σ → γ}

theorem M.Keeps.ok {m : M σ α} (h : M.Keeps f m) {s s' : σ} {a : α} (hm : m s = .ok a s') :
    f s' = f s := by have := h s; rwa [hm] at this

theorem M.Keeps.err {m : M σ α} (h : M.Keeps f m) {s s' : σ} {e : GoErr} (hm : m s = .err e s') :
    f s' = f s := by have := h s; rwa [hm] at this

theorem M.Keeps.pure (a : α) : M.Keeps f (Pure.pure a : M σ α) := fun _ => rfl
theorem M.Keeps.get : M.Keeps f (M.get : M σ σ) := fun _ => rfl
theorem M.Keeps.raise (e : GoErr) : M.Keeps f (M.raise e : M σ α) := fun _ => rfl
theorem M.Keeps.panic : M.Keeps f (M.panic : M σ α) := fun _ => trivial
theorem M.Keeps.diverge : M.Keeps f (M.diverge : M σ α) := fun _ => trivial
theorem M.Keeps.modify {g : σ → σ} (h : ∀ s, f (g s) = f s) : M.Keeps f (M.modify g) := h
theorem M.Keeps.index (xs : List α) (i : Int) : M.Keeps f (M.index xs i : M σ α) := by
  intro s
  by_cases h : 0 ≤ i ∧ i.toNat < xs.length
  · rw [M.index_of_lt xs i s h.1 h.2]
  · rw [M.index_panic xs i s (by omega)]; trivial

theorem M.Keeps.bind {m : M σ α} {k : α → M σ β} (hm : M.Keeps f m) (hk : ∀ a, M.Keeps f (k a)) :
    M.Keeps f (m >>= k) := by
  intro s
  have h1 := hm s
  simp only [M.bind_apply]
  cases h : m s with
  | ok a s' =>
    rw [h] at h1
    have h2 := hk a s'
    simp only [Res.andThen_ok]
    cases h' : k a s' <;> simp_all
  | err e s' => rw [h] at h1; exact h1
  | panic => trivial
  | diverge => trivial

theorem M.Keeps.ite {c : Prop} [Decidable c] {a b : M σ α} (ha : M.Keeps f a) (hb : M.Keeps f b) :
    M.Keeps f (if c then a else b) := by split <;> assumption

theorem M.Keeps.catchErr {m : M σ α} {k : GoErr → M σ α} (hm : M.Keeps f m)
    (hk : ∀ e, M.Keeps f (k e)) : M.Keeps f (M.catchErr m k) := by
  intro s
  have h1 := hm s
  simp only [M.catchErr_apply]
  cases h : m s with
  | ok a s' => rw [h] at h1; exact h1
  | err e s' =>
    rw [h] at h1
    have h2 := hk e s'
    simp only [Res.handle_err]
    cases h' : k e s' <;> simp_all
  | panic => trivial
  | diverge => trivial

theorem M.Keeps.zoom {g : σ → τ} {u : τ → σ → σ} (h : ∀ t s, f (u t s) = f s) (m : M τ α) :
    M.Keeps f (M.zoom g u m) := by
  intro s
  simp only [M.zoom_apply]
  cases m (g s) <;> simp [h]

theorem M.Keeps.and {a b : M σ Bool} (ha : M.Keeps f a) (hb : M.Keeps f b) :
    M.Keeps f (M.and a b) :=
  M.Keeps.bind ha fun _ => M.Keeps.ite hb (M.Keeps.pure _)

theorem M.Keeps.or {a b : M σ Bool} (ha : M.Keeps f a) (hb : M.Keeps f b) :
    M.Keeps f (M.or a b) :=
  M.Keeps.bind ha fun _ => M.Keeps.ite (M.Keeps.pure _) hb

/-- Prove a frame by following the structure of the computation; `ls` are the lemmas for
the functions it calls. -/
syntax "keeps" (" [" term,* "]")? : tactic

macro_rules
  | `(tactic| keeps) => `(tactic| keeps [])
  | `(tactic| keeps [$ls,*]) => do
    let alts ← ls.getElems.mapM fun l => `(tactic| exact $l)
    let alts2 ← ls.getElems.mapM fun l => `(tactic| apply $l)
    `(tactic| repeat' (first
        $[| $alts:tactic]*
        $[| $alts2:tactic]*
        | exact M.Keeps.pure _ | exact M.Keeps.get | exact M.Keeps.raise _
        | exact M.Keeps.panic | exact M.Keeps.diverge | exact M.Keeps.index _ _
        | (refine M.Keeps.modify ?_; intro _; rfl) | (refine M.Keeps.zoom ?_ _; intro _ _; rfl)
        | refine M.Keeps.bind ?_ (fun _ => ?_) | refine M.Keeps.ite ?_ ?_
        | refine M.Keeps.catchErr ?_ (fun _ => ?_)
        | refine M.Keeps.and ?_ ?_ | refine M.Keeps.or ?_ ?_
        | split | assumption))

end Keeps

/-- Take the first step off a computation that returned a value. -/
macro "andthen " h:ident " with " p:rcasesPat : tactic =>
  `(tactic| (try simp only [M.bind_apply] at $h:ident
             rw [Res.andThen_eq_ok] at $h:ident
             rcases $h:ident with $p:rcasesPat))

/-! Machine integers. -/

theorem wrap64_of_range {x : Int} (h1 : -2 ^ 63 ≤ x) (h2 : x < 2 ^ 63) : wrap64 x = x := by
  simp only [wrap64, BitVec.toInt_ofInt, Int.bmod_def]
  split <;> omega

theorem wrap32_of_range {x : Int} (h1 : -2 ^ 31 ≤ x) (h2 : x < 2 ^ 31) : wrap32 x = x := by
  simp only [wrap32, BitVec.toInt_ofInt, Int.bmod_def]
  split <;> omega

end
end GoVtd
