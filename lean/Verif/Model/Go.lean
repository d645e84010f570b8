/-!
# Representation of Go computations

Basic vocabulary of the model: error values, the four outcomes of a Go call, a state
monad over them, machine-integer wrapping and slice access. Nothing here is specific to
the XML code except the list of error types.
-/

namespace GoVtd

/-- One error node. Models the typed errors of `vtdxml/erroring/erroring.go:57-223`.
`parse` carries the line text as the pair (line number, offset) that `fmtCustomLine`
prints (`vtdxml/parser/common.go:318`), or `none` for the empty string.
Simplified: the pre-formatted text `msg` of `baseError` (lines 25-28) is not kept; it is a
function of the fields that are. -/
inductive ErrKind where
  | invalidArgument (param msg : String)
  | internal (msg : String)
  | parse (msg : String) (line : Option (Int × Int))
  | navigation (msg : String)
  | encoding (msg : String)
  | decoding (msg : String)
  | entity (msg : String)
  | eof (msg : String)
  | modify (msg : String)
  deriving DecidableEq, Repr

/-- A Go error value: an error node that wraps nothing or another error.
Models `baseError.Err` / `Unwrap`, `vtdxml/erroring/erroring.go:25-55`. -/
inductive GoErr where
  | leaf (k : ErrKind)
  | wrap (k : ErrKind) (inner : GoErr)
  deriving DecidableEq, Repr

/-- Outcome of a Go call on a mutable state: normal return, error return (the mutations
made so far stay), run-time panic, or fuel exhausted. -/
inductive Res (σ α : Type) where
  | ok (a : α) (s : σ)
  | err (e : GoErr) (s : σ)
  | panic
  | diverge
  deriving DecidableEq

/-- A Go function with receiver state `σ` and result `α`. -/
abbrev M (σ α : Type) : Type := σ → Res σ α

namespace M
variable {σ τ α β : Type}

/-- Normal return. -/
def pure (a : α) : M σ α := fun s => .ok a s

/-- Sequencing with the `if err != nil { return err }` idiom. -/
def bind (m : M σ α) (f : α → M σ β) : M σ β := fun s =>
  match m s with
  | .ok a s' => f a s'
  | .err e s' => .err e s'
  | .panic => .panic
  | .diverge => .diverge

instance : Monad (M σ) where
  pure := M.pure
  bind := M.bind

/-- Read the receiver. -/
def get : M σ σ := fun s => .ok s s

/-- Write to the receiver. -/
def modify (f : σ → σ) : M σ Unit := fun s => .ok () (f s)

/-- Return an error. -/
def raise (e : GoErr) : M σ α := fun s => .err e s

/-- Go run-time panic. -/
def panic : M σ α := fun _ => .panic

/-- A loop that did not finish within its fuel. -/
def diverge : M σ α := fun _ => .diverge

/-- `if err := m; err != nil { handle err }`: errors are passed to a handler. -/
def catchErr (m : M σ α) (h : GoErr → M σ α) : M σ α := fun s =>
  match m s with
  | .ok a s' => .ok a s'
  | .err e s' => h e s'
  | .panic => .panic
  | .diverge => .diverge

/-- Run a computation on a component of the receiver. -/
def zoom (g : σ → τ) (u : τ → σ → σ) (m : M τ α) : M σ α := fun s =>
  match m (g s) with
  | .ok a t => .ok a (u t s)
  | .err e t => .err e (u t s)
  | .panic => .panic
  | .diverge => .diverge

/-- Go `&&` on calls with effects: the right call runs only when the left one is true. -/
def and (a b : M σ Bool) : M σ Bool :=
  bind a fun x => if x then b else pure false

/-- Go `||` on calls with effects: the right call runs only when the left one is false. -/
def or (a b : M σ Bool) : M σ Bool :=
  bind a fun x => if x then pure true else b

/-- Slice indexing `xs[i]`: panics outside the slice. -/
def index (xs : List α) (i : Int) : M σ α := fun s =>
  if i < 0 then .panic else
  match xs[i.toNat]? with
  | some x => .ok x s
  | none => .panic

end M

@[inherit_doc] scoped infixr:35 " &&! " => M.and
@[inherit_doc] scoped infixr:30 " ||! " => M.or

/-- Slice element assignment `xs[i] = v` as a pure function: `none` is the panic. -/
def setAt {α : Type} (xs : List α) (i : Int) (v : α) : Option (List α) :=
  if i < 0 ∨ (xs.length : Int) ≤ i then none else some (xs.set i.toNat v)

/-- Value of a Go 64-bit `int` computed as the mathematical integer `x`: two's complement
wrap-around. -/
def wrap64 (x : Int) : Int := (BitVec.ofInt 64 x).toInt

/-- Value of a Go `int32` computed as the mathematical integer `x`. -/
def wrap32 (x : Int) : Int := (BitVec.ofInt 32 x).toInt

open Lean in
/-- Code of a character literal as a numeral: `ch% '<'` is `60`. -/
macro "ch%" x:char : term =>
  return Syntax.mkNumLit (toString x.getChar.toNat)

open Lean in
/-- Codes of the characters of a string literal: `str% "ab"` is `[97, 98]`. -/
macro "str%" x:str : term => do
  let elems := x.getString.toList.map fun c => Syntax.mkNumLit (toString c.toNat)
  `([$(elems.toArray),*])

example : ch% '<' = 60 := rfl
example : (str% "ab" : List Nat) = [97, 98] := rfl

end GoVtd
