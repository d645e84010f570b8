import Verif.Spec.Parsed

/-!
# Specification of property C59: what a caller sees of `NewVtdParser` followed by `Parse`
-/

namespace GoVtd

/-- The options other than `WithLcDepth` and `WithBufferReuse`, in their order. -/
def withoutTuning (opts : List ParserOption) : List ParserOption :=
  opts.filter fun
    | .lcDepth _ => false
    | .bufferReuse _ => false
    | _ => true

/-- How `NewVtdParser` followed by `Parse` ends: `NewVtdParser` returns an error, `Parse` returns an
error, `Parse` panics, `Parse` does not return, or `Parse` succeeds and leaves these token records,
with this encoding. -/
inductive ParseEnd where
  | refused (e : GoErr)
  | failed (e : GoErr)
  | panics
  | hangs
  | parsed (tokens : List (BitVec 64)) (encoding : Int)
  deriving DecidableEq, Repr

def parseEnd (fuel : Nat) (opts : List ParserOption) : ParseEnd :=
  match newVtdParser fuel opts with
  | .error e => .refused e
  | .ok p => match Parser.parse p with
    | .ok _ q => .parsed q.out.vtdBuffer.values q.enc.encoding
    | .err e _ => .failed e
    | .panic => .panics
    | .diverge => .hangs

end GoVtd
