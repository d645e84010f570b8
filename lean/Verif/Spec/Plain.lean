import Verif.Spec.Parsed

/-!
# Documents without prefixes

Read off the token records and the bytes of the document.
-/

namespace GoVtd

/-- Nothing in the document calls for prefixes: no name of an element or an attribute has a colon, an element has at
most 64 elements around it, and the name of a default namespace (`xmlns="..."`) of 29 bytes or more does not begin
with `&`. The records of an attribute are its name and its value, one after the other. -/
structure NoPrefixes (doc : List UInt8) (ws : List (BitVec 64)) : Prop where
  name : ∀ w ∈ ws, IsStart w ∨ IsAttr w → ch% ':' ∉ qname doc w
  level : ∀ w ∈ ws, IsStart w → tokenDepth w ≤ 64
  value : ∀ (i : Nat) (w v : BitVec 64), ws[i]? = some w → ws[i + 1]? = some v → tokenType w = Token.attrNs.code →
    29 ≤ tokenLength v → doc[tokenOffset v]? ≠ some (ch% '&')

end GoVtd
