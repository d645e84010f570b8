import Verif.Spec.Parsed

/-!
# Prefixes and their declarations

Read off the token records and the bytes of the document.
-/

namespace GoVtd

/-- The name `n` is `p:l`: a prefix that is not empty, a colon, and a local name without a colon. -/
structure Splits (n p l : List UInt8) : Prop where
  eq : n = p ++ ch% ':' :: l
  local_ : ch% ':' ∉ l
  nonempty : p ≠ []

/-- The name that stands at the offset of a start tag, up to the first byte that is not part of a name. (The length
in the record of a start tag is wrong when there is a prefix; see property C20.) -/
def ElementName (doc : List UInt8) (w : BitVec 64) (n : List UInt8) : Prop :=
  Grammar.AllName n ∧ ∃ b r, doc.drop (tokenOffset w) = n ++ b :: r ∧ ¬ Grammar.NameByte b

/-- The record `w` is a declaration `xmlns:p="..."`, or `xmlns:...:p="..."` if its name has more than one colon. -/
structure Declares (doc : List UInt8) (w : BitVec 64) (p : List UInt8) : Prop where
  type : tokenType w = Token.attrNs.code
  name : qname doc w = str% "xmlns:" ++ p ∨ ∃ u, qname doc w = str% "xmlns:" ++ u ++ ch% ':' :: p
  colon : ch% ':' ∉ p

/-- Some declaration of the prefix `p` stands in the same start tag as the record number `i` or before it. -/
def Declared (doc : List UInt8) (ws : List (BitVec 64)) (i : Nat) (p : List UInt8) : Prop :=
  ∃ j w, ws[j]? = some w ∧ Declares doc w p ∧ ∀ k z, i < k → k ≤ j → ws[k]? = some z → ¬ IsStart z

end GoVtd
