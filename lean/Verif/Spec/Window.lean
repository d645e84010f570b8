import Verif.Spec.Parsed

/-!
# What a parse leaves behind

`parseResult` is all that a caller can see of `NewVtdParser` followed by `Parse`: the error, or the token
records and location caches.
-/

namespace GoVtd

/-- `p, err := NewVtdParser(opts...)`, then `err = p.Parse()`: the error, or the buffers afterwards. -/
def parseResult (fuel : Nat) (opts : List ParserOption) : Outcome ParserOut :=
  match newVtdParser fuel opts with
  | .error e => .error e
  | .ok p =>
    match Parser.parse p with
    | .ok _ p' => .value p'.out
    | .err e _ => .error e
    | .panic => .panic
    | .diverge => .noReturn

/-- The call came back, with or without an error. -/
def Outcome.Returns {α : Type} : Outcome α → Prop
  | .value _ => True
  | .error _ => True
  | .panic => False
  | .noReturn => False

end GoVtd
