import Verif.Spec.Parsed
import Verif.Spec.Tags
import Verif.Spec.Tree

/-!
# What stands in the document where a token record points

All offsets count bytes from the start of the slice.
-/

namespace GoVtd.Markup
open Grammar
open Tree (HasPair)

/-- A reference: an ampersand, a number or the name of a predefined entity, and a semicolon. Not XML: the number is taken
modulo `2^32`. -/
def Reference (s : List UInt8) : Prop := ∃ t v, s = ch% '&' :: t ∧ Ref t v []

/-- The text between the quotes `q` of an attribute value, XML 1.0 production [10]: characters other than `<`, `&` and the
quote, and references. -/
inductive Value (q : UInt8) : List UInt8 → Prop where
  | nil : Value q []
  | char {b s} : CharByte b → b ≠ ch% '<' → b ≠ ch% '&' → b ≠ q → Value q s → Value q (b :: s)
  | ref {r s} : Reference r → Value q s → Value q (r ++ s)

/-- Character data, productions [14] and [43]: characters other than `<` and `&`, and references. Stronger than XML: `>` never
follows `]`. -/
inductive Text : List UInt8 → Prop where
  | nil : Text []
  | char {b s} : CharByte b → b ≠ ch% '<' → b ≠ ch% '&' → (b = ch% ']' → s.head? ≠ some (ch% '>')) → Text s → Text (b :: s)
  | ref {r s} : Reference r → Text s → Text (r ++ s)

/-- An attribute: white space, a name of `n` bytes at `o`, an equals sign with optional white space around it, and a value of
`l` bytes at `v` between two quotes of the same kind. -/
def AttributeAt (doc : List UInt8) (o n v l : Nat) : Prop :=
  ∃ (pre : List UInt8) (s : UInt8) (name w1 w2 : List UInt8) (q : UInt8) (value post : List UInt8),
    doc = pre ++ [s] ++ name ++ w1 ++ [ch% '='] ++ w2 ++ [q] ++ value ++ [q] ++ post ∧
    Ws s ∧ IsName name ∧ AllWs w1 ∧ AllWs w2 ∧ Grammar.Quote q ∧ Value q value ∧
    (pre ++ [s]).length = o ∧ name.length = n ∧ (pre ++ [s] ++ name ++ w1 ++ [ch% '='] ++ w2 ++ [q]).length = v ∧
    value.length = l

/-- The text of a comment, production [15] without `<`: `l` bytes at `o`, after `!--` and before `-->`. Two hyphens neither
stand in it nor begin with its last byte. -/
def CommentAt (doc : List UInt8) (o l : Nat) : Prop :=
  ∃ pre text post : List UInt8, doc = pre ++ str% "!--" ++ text ++ str% "-->" ++ post ∧
    (∀ b ∈ text, CharByte b) ∧ ¬ HasPair (ch% '-') (ch% '-') (text ++ [ch% '-']) ∧
    (pre ++ str% "!--").length = o ∧ text.length = l

/-- The text of a CDATA section, productions [18] to [21] without `<`: `l` bytes at `o`, after `![CDATA[`. Not XML: it ends at
the first `]>`, and the byte before is left out whether it is a bracket or not. -/
def CdataAt (doc : List UInt8) (o l : Nat) : Prop :=
  ∃ (pre text : List UInt8) (y : UInt8) (post : List UInt8), doc = pre ++ str% "![CDATA[" ++ text ++ [y] ++ str% "]>" ++ post ∧
    (∀ b ∈ text ++ [y], CharByte b) ∧ ¬ HasPair (ch% ']') (ch% '>') (text ++ [y] ++ [ch% ']']) ∧
    (pre ++ str% "![CDATA[").length = o ∧ text.length = l

/-- Character data of `l` bytes at `o`, up to the next `<`. -/
def TextAt (doc : List UInt8) (o l : Nat) : Prop :=
  ∃ pre text post : List UInt8, doc = pre ++ text ++ [ch% '<'] ++ post ∧ Text text ∧ pre.length = o ∧ text.length = l

/-- The record `w`, which follows `v`, can be a piece of a text that is too long for one record: it has the greatest length of a
record, or `v` has that length and the same type. -/
def Piece (v w : BitVec 64) : Prop :=
  tokenLength w = 2 ^ 20 - 1 ∨ (tokenType v = tokenType w ∧ tokenLength v = 2 ^ 20 - 1)

instance (v w : BitVec 64) : Decidable (Piece v w) := inferInstanceAs (Decidable (_ ∨ _))

end GoVtd.Markup
