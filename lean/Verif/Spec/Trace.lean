import Verif.Spec.Parsed

/-!
# The states a parse goes through
-/

namespace GoVtd
namespace Parser

/-- The states that the loop of `Parse` goes through, each with the state of the parser at the time. -/
def visited : Nat → PState → Parser → List (PState × Parser)
  | 0, _, _ => []
  | n + 1, st, p => (st, p) :: match step st p with
    | .ok st' p' => visited n st' p'
    | _ => []

/-- The same for `Parse`, which first decides on the encoding and writes the record of the document. -/
def trace (p : Parser) : List (PState × Parser) :=
  match (do decideEncoding; let p ← M.get; writeVtd .document 0 0 p.depth : M Parser Unit) p with
  | .ok _ p1 => visited p1.loopFuel .docStart p1
  | _ => []

/-- The positions of the names of the end tags among the states: where the parser was when it met one. -/
def endTags (l : List (PState × Parser)) : List Nat :=
  l.filterMap fun x => if x.1 = .tagEnd then some x.2.offset.toNat else none

end Parser

/-- The positions of the names of the end tags that `Parse` met. -/
def endTagsMet (fuel : Nat) (opts : List ParserOption) : List Nat :=
  match newVtdParser fuel opts with
  | .error _ => []
  | .ok p => Parser.endTags (Parser.trace p)

end GoVtd
