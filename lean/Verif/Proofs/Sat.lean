import Verif.Proofs.Basic

/-!
# Weakest preconditions

`m.Sat s Q E P D`: run on `s`, the computation returns a value and a state in `Q`, or an
error and a state in `E`, or panics and `P` holds, or runs out of fuel and `D` holds.
-/

namespace GoVtd

/-- What an outcome must satisfy. -/
def Res.Sat {σ α : Type} (r : Res σ α) (Q : α → σ → Prop) (E : GoErr → σ → Prop)
    (P D : Prop) : Prop :=
  match r with
  | .ok a s => Q a s
  | .err e s => E e s
  | .panic => P
  | .diverge => D

section
variable {σ τ α β : Type} {Q : α → σ → Prop} {E : GoErr → σ → Prop} {P D : Prop}

@[simp] theorem Res.sat_ok (a : α) (s : σ) : (Res.ok a s).Sat Q E P D ↔ Q a s := Iff.rfl
@[simp] theorem Res.sat_err (e : GoErr) (s : σ) : (Res.err e s : Res σ α).Sat Q E P D ↔ E e s :=
  Iff.rfl
@[simp] theorem Res.sat_panic : (Res.panic : Res σ α).Sat Q E P D ↔ P := Iff.rfl
@[simp] theorem Res.sat_diverge : (Res.diverge : Res σ α).Sat Q E P D ↔ D := Iff.rfl

theorem Res.Sat.andThen {r : Res σ α} {k : α → M σ β} {Q : β → σ → Prop}
    (h : r.Sat (fun a s => (k a s).Sat Q E P D) E P D) : (r.andThen k).Sat Q E P D := by
  cases r <;> exact h

theorem Res.Sat.mono {r : Res σ α} {Q' : α → σ → Prop} {E' : GoErr → σ → Prop} {P' D' : Prop}
    (h : r.Sat Q' E' P' D') (hQ : ∀ a s, Q' a s → Q a s) (hE : ∀ e s, E' e s → E e s)
    (hP : P' → P) (hD : D' → D) : r.Sat Q E P D := by
  cases r
  · exact hQ _ _ h
  · exact hE _ _ h
  · exact hP h
  · exact hD h

/-- The usual step: a call with a known specification, then the rest. -/
theorem Res.Sat.bind {m : M σ α} {k : α → M σ β} {s : σ} {Q : β → σ → Prop} {Q' : α → σ → Prop}
    (h : (m s).Sat Q' E P D) (hk : ∀ a s', Q' a s' → (k a s').Sat Q E P D) :
    ((m >>= k) s).Sat Q E P D :=
  Res.Sat.andThen (h.mono hk (fun _ _ h => h) id id)

theorem Res.Sat.ok {r : Res σ α} (h : r.Sat Q E P D) {a : α} {s : σ} (hr : r = .ok a s) : Q a s := by
  subst hr; exact h

theorem Res.Sat.err {r : Res σ α} (h : r.Sat Q E P D) {e : GoErr} {s : σ} (hr : r = .err e s) :
    E e s := by
  subst hr; exact h

theorem Res.Sat.and {r : Res σ α} {Q' : α → σ → Prop} {E' : GoErr → σ → Prop} {P' D' : Prop}
    (h : r.Sat Q E P D) (h' : r.Sat Q' E' P' D') :
    r.Sat (fun a s => Q a s ∧ Q' a s) (fun e s => E e s ∧ E' e s) (P ∧ P') (D ∧ D') := by
  cases r <;> exact ⟨h, h'⟩

end
end GoVtd
