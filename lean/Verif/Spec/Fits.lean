import Verif.Spec.Tree

/-!
# Which trees are accepted

The rules of the recommendation that are productions (`Syntax`) are separated here from those that are
constraints on the values of references and the names of attributes, and the limits of the parser are listed
one by one (`Fits`). `Verif/Props/Limits.lean` proves that a document of the right syntax is accepted if and
only if it fits. `Plain` leaves out three constructs that the parser reads as something else than they are.
-/

namespace GoVtd.Tree

open Grammar (Ws CharByte AllWs maxLen lastColon hexVal)

/-! ## Syntax -/

/-- [66], [68] -/
def Reference.Syntax : Reference → Prop
  | entity name => Name name
  | dec ds => ds ≠ [] ∧ ∀ b ∈ ds, decVal b ≠ none
  | hex ds => ds ≠ [] ∧ ∀ b ∈ ds, hexVal b ≠ none

/-- The number of a numeric reference denotes a character, and the entity is declared. -/
def Reference.Legal : Reference → Prop
  | entity name => name ∈ entityNames
  | dec ds => Spec.Char11 (number 10 decVal ds)
  | hex ds => Spec.Char11 (number 16 hexVal ds)

/-- The references that the parser accepts: as `Legal`, but with the number modulo `2^32`. -/
def Reference.Accepted : Reference → Prop
  | entity name => name ∈ entityNames
  | dec ds => Spec.Char11 (number 10 decVal ds % 2 ^ 32)
  | hex ds => Spec.Char11 (number 16 hexVal ds % 2 ^ 32)

def Piece.Syntax : Piece → Prop
  | byte b => CharByte b ∧ b ≠ ch% '<' ∧ b ≠ ch% '&'
  | ref r => r.Syntax

/-- [14] -/
def Text.Syntax (t : Text) : Prop := (∀ p ∈ t, p.Syntax) ∧ ¬ str% "]]>" <:+: t.bytes

/-- The references in a text. -/
def Text.refs (t : Text) : List Reference := t.filterMap fun | .ref r => some r | .byte _ => none

/-- [41] -/
structure Attr.Syntax (a : Attr) : Prop where
  space : a.space ≠ [] ∧ AllWs a.space ∧ AllWs a.space1 ∧ AllWs a.space2
  name : Name a.name
  quote : Quote a.quote
  value : ∀ p ∈ a.value, p.Syntax ∧ ∀ b, p = .byte b → b ≠ a.quote

/-- [40], [44] -/
structure StartTag.Syntax (t : StartTag) : Prop where
  name : Name t.name
  attrs : ∀ a ∈ t.attrs, a.Syntax
  space : AllWs t.space

def Atom.Syntax : Atom → Prop
  | empty tag => tag.Syntax
  | a => a.WellFormed

def Content.Syntax : Content → Prop
  | text t => t.Syntax
  | atom t a rest => t.Syntax ∧ a.Syntax ∧ rest.Syntax
  | element t tag body space rest => t.Syntax ∧ tag.Syntax ∧ body.Syntax ∧ AllWs space ∧ rest.Syntax

def Root.Syntax : Root → Prop
  | empty tag => tag.Syntax
  | element tag body space => tag.Syntax ∧ body.Syntax ∧ AllWs space

structure Document.Syntax (d : Document) : Prop where
  decl : ∀ x, d.decl = some x → x.WellFormed
  prolog : ∀ m ∈ d.prolog, m.WellFormed
  space : AllWs d.space ∧ AllWs d.space1
  root : d.root.Syntax
  epilog : ∀ m ∈ d.epilog, m.WellFormed

/-! ## The parts of a document -/

def Atom.tags (d : Nat) : Atom → List (Nat × StartTag)
  | empty tag => [(d, tag)]
  | _ => []

def Atom.pis : Atom → List (List UInt8 × Option (UInt8 × List UInt8))
  | pi target data => [(target, data)]
  | _ => []

/-- The start tags and empty elements in a content inside of `d` elements, with the number of elements around
each. -/
def Content.tags (d : Nat) : Content → List (Nat × StartTag)
  | text _ => []
  | atom _ a rest => a.tags d ++ rest.tags d
  | element _ tag body _ rest => (d, tag) :: (body.tags (d + 1) ++ rest.tags d)

/-- The character data in a content. -/
def Content.texts : Content → List Text
  | text t => [t]
  | atom t _ rest => t :: rest.texts
  | element t _ body _ rest => t :: (body.texts ++ rest.texts)

/-- The processing instructions in a content: targets and data. -/
def Content.pis : Content → List (List UInt8 × Option (UInt8 × List UInt8))
  | text _ => []
  | atom _ a rest => a.pis ++ rest.pis
  | element _ _ body _ rest => body.pis ++ rest.pis

def Root.tags : Root → List (Nat × StartTag)
  | empty tag => [(0, tag)]
  | element tag body _ => (0, tag) :: body.tags 1

def Root.texts : Root → List Text
  | empty _ => []
  | element _ body _ => body.texts

def Root.pis : Root → List (List UInt8 × Option (UInt8 × List UInt8))
  | empty _ => []
  | element _ body _ => body.pis

/-- All start tags and empty elements, with the number of elements around each. -/
def Document.tags (d : Document) : List (Nat × StartTag) := d.root.tags

/-- All character data. -/
def Document.texts (d : Document) : List Text := d.root.texts

/-- All processing instructions. -/
def Document.pis (d : Document) : List (List UInt8 × Option (UInt8 × List UInt8)) :=
  d.prolog.flatMap (·.atom.pis) ++ d.root.pis ++ d.epilog.flatMap (·.atom.pis)

/-- The references in the attribute values of a tag. -/
def StartTag.refs (t : StartTag) : List Reference := t.attrs.flatMap fun a => a.value.refs

/-- All references. -/
def Document.refs (d : Document) : List Reference :=
  d.tags.flatMap (fun t => t.2.refs) ++ d.texts.flatMap Text.refs

/-! ## What the parser accepts -/

/-- A text right after the end tag of an element does not begin, after white space, with a reference or a
bracket. A CDATA section has no bracket before `>`. -/
def Content.Plain : Bool → Content → Prop
  | e, text t => e = true → First t
  | e, atom t a rest => (e = true → First t) ∧ (∀ data, a = .cdata data → ¬ HasPair (ch% ']') (ch% '>') data) ∧ rest.Plain false
  | e, element t _ body _ rest => (e = true → First t) ∧ body.Plain false ∧ rest.Plain true
where
  First (t : Text) : Prop := ∀ w b r, t.bytes = w ++ b :: r → AllWs w → ¬ Ws b → b ≠ ch% '&' ∧ b ≠ ch% ']'

/-- The constructs that are read as something else: as in `Content.Plain`, and a processing instruction at the
very beginning. -/
structure Document.Plain (d : Document) : Prop where
  first : ∀ m ms t x, d.decl = none → d.prolog = m :: ms → m.atom = .pi t x → m.space ≠ []
  root : ∀ tag body space, d.root = .element tag body space → body.Plain false

/-- The limits of the parser, and the constraints of the recommendation that it checks. -/
structure Document.Fits (d : Document) : Prop where
  /-- At most 255 levels of elements. -/
  depth : ∀ t ∈ d.tags, t.1 ≤ 254
  /-- Names of at most 2047 bytes. -/
  names : ∀ t ∈ d.tags, t.2.name.length ≤ 2047 ∧ ∀ a ∈ t.2.attrs, a.name.length ≤ 2047
  /-- Prefixes of at most 511 bytes. -/
  prefixes : ∀ t ∈ d.tags, lastColon 0 0 t.2.name ≤ 511 ∧ ∀ a ∈ t.2.attrs, lastColon 0 0 a.name ≤ 511
  /-- At most 256 attributes, with different names. -/
  attrs : ∀ t ∈ d.tags, t.2.attrs.length ≤ 256 ∧ (t.2.attrs.map Attr.name).Nodup
  /-- Attribute values that fit into a record. -/
  values : ∀ t ∈ d.tags, ∀ a ∈ t.2.attrs, a.value.bytes.length ≤ maxLen
  /-- Processing instructions that fit into records. -/
  pis : ∀ x ∈ d.pis, x.1.length ≤ maxLen ∧ ∀ s data, x.2 = some (s, data) → data.length ≤ maxLen
  /-- References to characters and to predefined entities. -/
  refs : ∀ r ∈ d.refs, r.Accepted
  /-- No bracket before `>` in character data. -/
  texts : ∀ t ∈ d.texts, ¬ HasPair (ch% ']') (ch% '>') t.bytes
  /-- After the root only processing instructions with data. -/
  epilog : ∀ m ∈ d.epilog, ∃ t x, m.atom = .pi t (some x)

end GoVtd.Tree
