import Verif.Spec.Parsed

/-!
# Names and values among the token records
-/

namespace GoVtd

/-- Two token records that follow each other: names come with their values, and attributes with their element. -/
structure Follows (v w : BitVec 64) : Prop where
  /-- After the name of an attribute comes its value, at the same depth. -/
  attr : IsAttr v → tokenType w = Token.attrVal.code ∧ tokenDepth w = tokenDepth v
  /-- After the name of a processing instruction comes its data, at the same depth. -/
  pi : tokenType v = Token.piName.code → tokenType w = Token.piVal.code ∧ tokenDepth w = tokenDepth v
  /-- After the name of a pseudo-attribute of the XML declaration comes its value, at the same depth. -/
  dec : tokenType v = Token.decAttrName.code → tokenType w = Token.decAttrVal.code ∧ tokenDepth w = tokenDepth v
  /-- Values come after names only. -/
  attrVal : tokenType w = Token.attrVal.code → IsAttr v
  piVal : tokenType w = Token.piVal.code → tokenType v = Token.piName.code
  decVal : tokenType w = Token.decAttrVal.code → tokenType v = Token.decAttrName.code
  /-- The name of an attribute comes after a start tag or after the value of another attribute, at the same depth. -/
  owner : IsAttr w → (IsStart v ∨ tokenType v = Token.attrVal.code) ∧ tokenDepth w = tokenDepth v

/-- The record is that of a name that needs a value. -/
def IsName (w : BitVec 64) : Prop :=
  IsAttr w ∨ tokenType w = Token.piName.code ∨ tokenType w = Token.decAttrName.code

/-- How many elements are open: the depth is the number of the ancestors, and outside of the root element it is -1,
which reads as 255. -/
def tokenLevel (w : BitVec 64) : Nat := (tokenDepth w + 1) % 256

end GoVtd
