import Verif.Spec.Markup

/-!
# Processing instructions and the attributes of the XML declaration in the document

All offsets count bytes from the start of the slice.
-/

namespace GoVtd.Markup
open Grammar
open Tree (HasPair)

/-- The target of a processing instruction: a name. Not XML: after `xml` in any case, one byte can be anything but white space
and `?`. -/
def Target (t : List UInt8) : Prop :=
  IsName t ∨ ∃ (x m l y : UInt8) (run : List UInt8), t = x :: m :: l :: y :: run ∧ (x = ch% 'x' ∨ x = ch% 'X') ∧
    (m = ch% 'm' ∨ m = ch% 'M') ∧ (l = ch% 'l' ∨ l = ch% 'L') ∧ y ≠ ch% '?' ∧ ¬ Ws y ∧ AllName run

/-- A processing instruction without `<`, production [16]: the target of `n` bytes at `o`, and the data of `l` bytes at `v`. -/
inductive InstructionAt (doc : List UInt8) (o n v l : Nat) : Prop where
  /-- Without data; the offset of the data is the one of the target. -/
  | bare (pre target post : List UInt8) : doc = pre ++ [ch% '?'] ++ target ++ str% "?>" ++ post → Target target →
      (pre ++ [ch% '?']).length = o → target.length = n → v = o → l = 0 → InstructionAt doc o n v l
  /-- With data: characters after one byte of white space, up to the first `?>`. -/
  | data (pre target : List UInt8) (s : UInt8) (data post : List UInt8) :
      doc = pre ++ [ch% '?'] ++ target ++ [s] ++ data ++ str% "?>" ++ post → Target target → Ws s →
      (∀ b ∈ data, CharByte b) → ¬ HasPair (ch% '?') (ch% '>') data → (pre ++ [ch% '?']).length = o → target.length = n →
      (pre ++ [ch% '?'] ++ target ++ [s]).length = v → data.length = l → InstructionAt doc o n v l

/-- Not XML: a processing instruction without data and without the `>` at its end. -/
def CutAt (doc : List UInt8) (o n v l : Nat) : Prop :=
  ∃ pre target post : List UInt8, doc = pre ++ str% "<?" ++ target ++ [ch% '?'] ++ post ∧ IsName target ∧
    post.head? ≠ some (ch% '>') ∧ (pre ++ str% "<?").length = o ∧ target.length = n ∧
    (pre ++ str% "<?" ++ target ++ [ch% '?']).length = v ∧ l = 0

/-- The values of the attributes of the XML declaration, productions [26], [32] and [80], and the lengths of their records.
Not XML: of the names of encodings only some are known, see `EncName`, and `no` can come after a part of `yes`. -/
inductive DeclValue : List UInt8 → List UInt8 → Nat → Prop where
  | version {d} : d = ch% '0' ∨ d = ch% '1' → DeclValue (str% "version") (str% "1." ++ [d]) 3
  | encoding {e l} : EncName e l → DeclValue (str% "encoding") e l.toNat
  | yes : DeclValue (str% "standalone") (str% "yes") 3
  | no {v} : v = str% "no" ∨ v = str% "yno" ∨ v = str% "yeno" → DeclValue (str% "standalone") v 2

/-- An attribute of the XML declaration: a name of `n` bytes at `o`, an equals sign with optional white space around it and a
value with a record of `l` bytes at `v` between two quotes. Not XML: they need not be the same. -/
def DeclarationAt (doc : List UInt8) (o n v l : Nat) : Prop :=
  ∃ (pre name w1 w2 : List UInt8) (q : UInt8) (value : List UInt8) (q' : UInt8) (post : List UInt8),
    doc = pre ++ name ++ w1 ++ [ch% '='] ++ w2 ++ [q] ++ value ++ [q'] ++ post ∧ AllWs w1 ∧ AllWs w2 ∧
    Grammar.Quote q ∧ Grammar.Quote q' ∧ DeclValue name value l ∧ pre.length = o ∧ name.length = n ∧
    (pre ++ name ++ w1 ++ [ch% '='] ++ w2 ++ [q]).length = v

end GoVtd.Markup
