import Verif.Model.Nav
import Verif.Spec.Outcome
import Verif.Model.Parser.Parse

/-!
# Where a cursor can be moved
-/

namespace GoVtd

/-- `n'` comes from `n` by calls of `ToElement` in any directions, some of which may have returned an error. -/
inductive Reaches (n : VtdNav) : VtdNav → Prop where
  | here : Reaches n n
  | move {n' n'' : VtdNav} {dir : Direction} {moved : Bool} : Reaches n n' → n'.toElement dir = .ok moved n'' → Reaches n n''
  | fail {n' n'' : VtdNav} {dir : Direction} {e : GoErr} : Reaches n n' → n'.toElement dir = .err e n'' → Reaches n n''

/-- `n` is a new navigator over what the parser `p` has recorded: `NewVtdNav` was called with the root index, the
token buffer and the first three caches of the parser, with `depth`, and with anything else. -/
def NavOf (p : Parser) (depth : Int) (n : VtdNav) : Prop :=
  ∃ (offset length encoding : Int) (nsAware : Bool) (bytes : Option (List UInt8)),
    newVtdNav p.out.rootIndex offset length depth encoding nsAware bytes p.out.vtdBuffer p.out.l1Buffer p.out.l2Buffer
      p.out.l3Buffer = .ok n ()

/-- The cursor can be brought to token `j`. -/
def Reachable (n : VtdNav) (j : Int) : Prop := ∃ n', Reaches n n' ∧ (n'.getCurrentIndex).outcome = .value j

/-- Calls of `ToElement` in the given directions, up to the first that does not move the cursor. -/
def VtdNav.walk : List Direction → M VtdNav Bool
  | [] => pure true
  | dir :: dirs => do
    let moved ← VtdNav.toElement dir
    if moved then walk dirs else pure false

/-- A walk, then `GetCurrentIndex`: the token of the element that was reached, none if a move failed. -/
def VtdNav.walkTo (dirs : List Direction) : M VtdNav (Option Int) := do
  let moved ← walk dirs
  if moved then do
    let i ← getCurrentIndex
    pure (some i)
  else pure none

end GoVtd
