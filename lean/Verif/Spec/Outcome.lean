import Verif.Model.Go

/-!
# What a caller sees of a Go call
-/

namespace GoVtd

/-- The result of a call without the state it leaves behind. -/
inductive Outcome (α : Type) where
  | value (a : α)
  | error (e : GoErr)
  | panic
  | noReturn
  deriving DecidableEq, Repr

/-- Forget the state. -/
def Res.outcome {σ α : Type} : Res σ α → Outcome α
  | .ok a _ => .value a
  | .err e _ => .error e
  | .panic => .panic
  | .diverge => .noReturn

/-- The call returned an error value. -/
def Outcome.isError {α : Type} : Outcome α → Prop
  | .error _ => True
  | _ => False

instance {α : Type} (o : Outcome α) : Decidable o.isError := by
  cases o <;> unfold Outcome.isError <;> infer_instance

/-- The call returned the given error node (possibly wrapping another error). -/
def Outcome.isErrorOf {α : Type} (k : ErrKind) : Outcome α → Prop
  | .error (.leaf k') => k = k'
  | .error (.wrap k' _) => k = k'
  | _ => False

end GoVtd
