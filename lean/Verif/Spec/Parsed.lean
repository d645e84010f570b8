import Verif.Spec.Parse
import Verif.Spec.Grammar

/-!
# The result of a parse
-/

namespace GoVtd

/-- The values in a buffer, in order: its pages put together. -/
def Paged.values {α : Type} (b : Paged α) : List α := b.buffer.flatten.take b.size.toNat

/-- `p, err := NewVtdParser(opts...)`, then `err = p.Parse()`: if both succeed, the parser afterwards. -/
def parsed (fuel : Nat) (opts : List ParserOption) : Option Parser :=
  match newVtdParser fuel opts with
  | .error _ => none
  | .ok p =>
    match Parser.parse p with
    | .ok _ p' => some p'
    | _ => none

/-- The token records after a successful parse. -/
def parsedTokens (fuel : Nat) (opts : List ParserOption) : Option (List (BitVec 64)) :=
  (parsed fuel opts).map fun p => p.out.vtdBuffer.values

/-- The record of a token as `writeVtd` packs it; `C18_write` gives the bits. -/
def Grammar.Rec.word (x : Grammar.Rec) : BitVec 64 := Parser.vtdRecord x.tok x.off x.len x.depth

/-- The record that every parse writes first. -/
def Grammar.docRec : Grammar.Rec := ⟨.document, 0, 0, -1⟩

/-- The options select bytes `doc[o..]` up to the end of the slice, and no namespace awareness. -/
structure SelectRest (opts : List ParserOption) (doc : List UInt8) (o : Nat) : Prop where
  window : ∃ l : Int, chosenDoc opts = some (doc, (o : Int), l) ∧ o + l = doc.length
  size : doc.length < 2 ^ 63 ∧ o < 2 ^ 63
  ns : chosenNs opts = false

/-! ## Reading a token record -/

/-- Token type: bits 60 to 63. -/
def tokenType (w : BitVec 64) : Nat := w.toNat / 2 ^ 60
/-- Depth: bits 52 to 59. -/
def tokenDepth (w : BitVec 64) : Nat := w.toNat / 2 ^ 52 % 2 ^ 8
/-- Length: bits 32 to 51. -/
def tokenLength (w : BitVec 64) : Nat := w.toNat / 2 ^ 32 % 2 ^ 20
/-- Length of a qualified name: bits 32 to 42. The bits above hold the length of the prefix. -/
def qnameLength (w : BitVec 64) : Nat := w.toNat / 2 ^ 32 % 2 ^ 11
/-- Offset: bits 0 to 31. The navigator keeps the lower 30. -/
def tokenOffset (w : BitVec 64) : Nat := w.toNat % 2 ^ 32

/-- The record of a start tag. -/
def IsStart (w : BitVec 64) : Prop := tokenType w = Token.startingTag.code
/-- The record of an attribute name, of a namespace declaration or another. -/
def IsAttr (w : BitVec 64) : Prop := tokenType w = Token.attrName.code ∨ tokenType w = Token.attrNs.code

instance (w : BitVec 64) : Decidable (IsStart w) := inferInstanceAs (Decidable (tokenType w = _))
instance (w : BitVec 64) : Decidable (IsAttr w) := inferInstanceAs (Decidable (tokenType w = _ ∨ tokenType w = _))

/-- The bytes of the qualified name of a record. -/
def qname (doc : List UInt8) (w : BitVec 64) : List UInt8 := (doc.drop (tokenOffset w)).take (qnameLength w)

/-- The depths of the start tags. -/
def startDepths (ws : List (BitVec 64)) : List Nat := (ws.filter IsStart).map tokenDepth

/-- The depths of the elements of one tree in document order: the first is 0, each later one is at least 1
and at most one more than the one before. -/
structure IsPreorder (ds : List Nat) : Prop where
  first : ds[0]? = some 0
  later : ∀ (i a b : Nat), ds[i]? = some a → ds[i + 1]? = some b → 1 ≤ b ∧ b ≤ a + 1

end GoVtd
