import Verif.Model.Buffer
import Verif.Spec.Outcome

/-!
# Histories of buffers

"The buffer after appending `xs`", in terms of the public constructor and `Append` only.
-/

namespace GoVtd

/-- Call `Append` for each value in order, stopping at the first failure. -/
def appendAll {α : Type} (app : α → M (Paged α) Unit) : List α → M (Paged α) Unit
  | [] => pure ()
  | v :: vs => do app v; appendAll app vs

/-- Page-size exponents for which the page size is a positive machine integer. -/
def SmallExps (exps : List Int) : Prop := ∀ x ∈ exps, 0 ≤ x ∧ x ≤ 62

/-- The exponent in force: that of the last option, or 10 (pages of 1024 entries). -/
def pageExp (exps : List Int) : Nat := (exps.getLast?.getD 10).toNat

/-- `b` is a `FastLongBuffer` made with the options `exps` to which the values `xs` have
been appended, every `Append` having returned nil. -/
def LongBufferWith (exps : List Int) (xs : List (BitVec 64)) (b : FastLongBuffer) : Prop :=
  ∃ b0, Paged.newLong exps = .ok () b0 ∧ appendAll Paged.append xs b0 = .ok () b

/-- The same for a `FastIntBuffer`. -/
def IntBufferWith (exps : List Int) (xs : List (BitVec 32)) (b : FastIntBuffer) : Prop :=
  ∃ b0, Paged.newInt exps = .ok () b0 ∧ appendAll Paged.append xs b0 = .ok () b

/-- The same for a `FastObjectBuffer`. -/
def ObjectBufferWith {α : Type} (exps : List Int) (xs : List α) (b : FastObjectBuffer α) : Prop :=
  ∃ b0, Paged.newObject exps = .ok () b0 ∧ appendAll Paged.appendObject xs b0 = .ok () b

end GoVtd
