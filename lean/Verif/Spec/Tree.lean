import Verif.Spec.Grammar

/-!
# XML documents as trees

Documents without a document type declaration, as trees that keep every byte of the concrete syntax. Each
kind of tree has a serialisation (`bytes`), the rules of the XML recommendation for it (`WellFormed`; the
numbers are those of its productions) and its token records (`recs`). The limits of the parser, which the
recommendation does not have, are separate (`Supported`).

A document is a sequence of bytes here, as it is for the parser: a name is a sequence of bytes that are name
characters, and any byte but zero is a character.
-/

namespace GoVtd.Tree

open Grammar (Ws NameByte StartByte CharByte AllWs AllName Rec maxLen lastColon hexVal)

/-- `a` immediately before `b` somewhere in `s`. -/
def HasPair (a b : UInt8) (s : List UInt8) : Prop := [a, b] <:+: s

/-- [5] -/
def Name (s : List UInt8) : Prop := ∃ b run, s = b :: run ∧ StartByte b ∧ AllName run

/-- [9] -/
def Quote (q : UInt8) : Prop := q = ch% '"' ∨ q = ch% '\''

/-! ## Character data -/

/-- The names of the predefined entities. -/
def entityNames : List (List UInt8) := [str% "amp", str% "apos", str% "quot", str% "gt", str% "lt"]

/-- The number written with these digits. -/
def number (base : Nat) (val : UInt8 → Option Nat) : List UInt8 → Nat :=
  List.foldl (fun v b => v * base + (val b).getD 0) 0

/-- Value of a decimal digit. -/
def decVal (b : UInt8) : Option Nat := if ch% '0' ≤ b ∧ b ≤ ch% '9' then some (b.toNat - ch% '0') else none

/-- [66], [68] -/
inductive Reference where
  | entity (name : List UInt8)
  | dec (digits : List UInt8)
  | hex (digits : List UInt8)

def Reference.bytes : Reference → List UInt8
  | entity name => ch% '&' :: (name ++ [ch% ';'])
  | dec ds => ch% '&' :: ch% '#' :: (ds ++ [ch% ';'])
  | hex ds => ch% '&' :: ch% '#' :: ch% 'x' :: (ds ++ [ch% ';'])

def Reference.WellFormed : Reference → Prop
  | entity name => name ∈ entityNames
  | dec ds => (∀ b ∈ ds, decVal b ≠ none) ∧ Spec.Char11 (number 10 decVal ds)
  | hex ds => (∀ b ∈ ds, hexVal b ≠ none) ∧ Spec.Char11 (number 16 hexVal ds)

/-- A byte or a reference. -/
inductive Piece where
  | byte (b : UInt8)
  | ref (r : Reference)

def Piece.bytes : Piece → List UInt8
  | byte b => [b]
  | ref r => r.bytes

/-- Character data and references. -/
abbrev Text := List Piece

def Text.bytes (t : Text) : List UInt8 := t.flatMap Piece.bytes

/-- What [14] and [10] have in common. -/
def Piece.WellFormed : Piece → Prop
  | byte b => CharByte b ∧ b ≠ ch% '<' ∧ b ≠ ch% '&'
  | ref r => r.WellFormed

/-- [14] -/
def Text.WellFormed (t : Text) : Prop := (∀ p ∈ t, p.WellFormed) ∧ ¬ str% "]]>" <:+: t.bytes

/-! ## Tags -/

/-- [41] with the white space before. -/
structure Attr where
  space : List UInt8
  name : List UInt8
  space1 : List UInt8
  space2 : List UInt8
  quote : UInt8
  value : Text

namespace Attr

def bytes (a : Attr) : List UInt8 :=
  a.space ++ (a.name ++ (a.space1 ++ ch% '=' :: (a.space2 ++ a.quote :: (a.value.bytes ++ [a.quote]))))

structure WellFormed (a : Attr) : Prop where
  space : a.space ≠ [] ∧ AllWs a.space ∧ AllWs a.space1 ∧ AllWs a.space2
  name : Name a.name
  quote : Quote a.quote
  value : ∀ p ∈ a.value, p.WellFormed ∧ ∀ b, p = .byte b → b ≠ a.quote

/-- Limits: names, prefixes and values have to fit into a record. -/
structure Supported (a : Attr) : Prop where
  name : a.name.length ≤ 2047
  pre : lastColon 0 0 a.name ≤ 511
  value : a.value.bytes.length ≤ maxLen

/-- The names of the namespace declarations. -/
def IsNs (a : Attr) : Bool := a.name = str% "xmlns" || (str% "xmlns:").isPrefixOf a.name

/-- The records of an attribute at offset `o`: name, with the length of its prefix, and value. -/
def recs (d : Nat) (o : Int) (a : Attr) : List Rec :=
  [⟨if a.IsNs then .attrNs else .attrName, o + a.space.length,
    ((lastColon 0 0 a.name <<< 11 ||| a.name.length : Nat) : Int), d⟩,
   ⟨.attrVal, o + a.bytes.length - 1 - a.value.bytes.length, a.value.bytes.length, d⟩]

end Attr

/-- The records of a list of attributes. -/
def attrRecs (d : Nat) : Int → List Attr → List Rec
  | _, [] => []
  | o, a :: as => a.recs d o ++ attrRecs d (o + a.bytes.length) as

/-- [40] or [44] without the closing bytes. -/
structure StartTag where
  name : List UInt8
  attrs : List Attr
  space : List UInt8

namespace StartTag

def bytes (t : StartTag) : List UInt8 := ch% '<' :: (t.name ++ (t.attrs.flatMap Attr.bytes ++ t.space))

structure WellFormed (t : StartTag) : Prop where
  name : Name t.name
  attrs : ∀ a ∈ t.attrs, a.WellFormed
  /-- Attribute names differ. -/
  unique : (t.attrs.map Attr.name).Nodup
  space : AllWs t.space

/-- Limits: the level of the element, the length of its name, the number of attributes. A name with a colon
is not recorded correctly. -/
structure Supported (d : Nat) (t : StartTag) : Prop where
  depth : d ≤ 254
  name : t.name.length ≤ 2047
  colon : ch% ':' ∉ t.name
  attrs : ∀ a ∈ t.attrs, a.Supported
  count : t.attrs.length ≤ 256

/-- The records of a start tag at offset `o`. -/
def recs (d : Nat) (o : Int) (t : StartTag) : List Rec :=
  ⟨.startingTag, o + 1, t.name.length, d⟩ :: attrRecs d (o + 1 + t.name.length) t.attrs

end StartTag

/-! ## Content -/

/-- Markup without content of its own. -/
inductive Atom where
  /-- [44] -/
  | empty (tag : StartTag)
  /-- [18] -/
  | cdata (data : List UInt8)
  /-- [15] -/
  | comment (data : List UInt8)
  /-- [16]; the white space byte after the target and the data. -/
  | pi (target : List UInt8) (data : Option (UInt8 × List UInt8))

namespace Atom

def bytes : Atom → List UInt8
  | empty tag => tag.bytes ++ str% "/>"
  | cdata data => str% "<![CDATA[" ++ (data ++ str% "]]>")
  | comment data => str% "<!--" ++ (data ++ str% "-->")
  | pi target none => str% "<?" ++ (target ++ str% "?>")
  | pi target (some (s, data)) => str% "<?" ++ (target ++ s :: (data ++ str% "?>"))

def WellFormed : Atom → Prop
  | empty tag => tag.WellFormed
  | cdata data => (∀ b ∈ data, CharByte b) ∧ ¬ str% "]]>" <:+: data
  | comment data => (∀ b ∈ data, CharByte b) ∧ ¬ HasPair (ch% '-') (ch% '-') (data ++ [ch% '-'])
  | pi target data => Name target ∧ ¬ (target.length = 3 ∧ Grammar.XmlPrefix target) ∧
      ∀ s data', data = some (s, data') → Ws s ∧ (∀ b ∈ data', CharByte b) ∧ ¬ HasPair (ch% '?') (ch% '>') data'

/-- Limits: lengths have to fit into a record. A single bracket before `>` ends a CDATA section. -/
def Supported (d : Nat) : Atom → Prop
  | empty tag => tag.Supported d
  | cdata data => data.length ≤ maxLen ∧ ¬ HasPair (ch% ']') (ch% '>') data
  | comment data => data.length ≤ maxLen
  | pi target data => target.length ≤ maxLen ∧ ∀ s data', data = some (s, data') → data'.length ≤ maxLen

/-- The records of an atom at offset `o` inside of `d` elements. A processing instruction without data has a
second, empty record. -/
def recs (d : Nat) (o : Int) : Atom → List Rec
  | empty tag => tag.recs d o
  | cdata data => [⟨.cdataVal, o + 9, data.length, d - 1⟩]
  | comment data => [⟨.comment, o + 4, data.length, d - 1⟩]
  | pi target none => [⟨.piName, o + 2, target.length, d - 1⟩, ⟨.piVal, o + 2, 0, d - 1⟩]
  | pi target (some (_, data)) =>
    [⟨.piName, o + 2, target.length, d - 1⟩, ⟨.piVal, o + 2 + target.length + 1, data.length, d - 1⟩]

end Atom

/-- [43]: texts, and markup between them. -/
inductive Content where
  | text (t : Text)
  | atom (t : Text) (a : Atom) (rest : Content)
  /-- [39]; `space` is the white space in the end tag. -/
  | element (t : Text) (tag : StartTag) (body : Content) (space : List UInt8) (rest : Content)

namespace Content

def bytes : Content → List UInt8
  | text t => t.bytes
  | atom t a rest => t.bytes ++ (a.bytes ++ rest.bytes)
  | element t tag body space rest =>
    t.bytes ++ (tag.bytes ++ ch% '>' :: (body.bytes ++
      (ch% '<' :: ch% '/' :: (tag.name ++ (space ++ ch% '>' :: rest.bytes)))))

def WellFormed : Content → Prop
  | text t => t.WellFormed
  | atom t a rest => t.WellFormed ∧ a.WellFormed ∧ rest.WellFormed
  | element t tag body space rest =>
    t.WellFormed ∧ tag.WellFormed ∧ body.WellFormed ∧ AllWs space ∧ rest.WellFormed

/-- Only white space. -/
def Blank (t : Text) : Bool := t.bytes.all fun b => b = 0x20 || b = 0x9 || b = 0xD || b = 0xA

/-- Limits of a text: a bracket before `>` is refused, the length has to fit, and a text that begins with a
reference or a bracket (after white space) is not read correctly after the end tag of an element. -/
structure TextSupported (afterEnd : Bool) (t : Text) : Prop where
  pair : ¬ HasPair (ch% ']') (ch% '>') t.bytes
  length : t.bytes.length ≤ maxLen
  first : afterEnd = true → ∀ w b r, t.bytes = w ++ b :: r → AllWs w → ¬ Ws b → b ≠ ch% '&' ∧ b ≠ ch% ']'

/-- Limits of a content inside of `d` elements. -/
def Supported (d : Nat) : Bool → Content → Prop
  | e, text t => TextSupported e t
  | e, atom t a rest => TextSupported e t ∧ a.Supported d ∧ rest.Supported d false
  | e, element t tag body _ rest =>
    TextSupported e t ∧ tag.Supported d ∧ body.Supported (d + 1) false ∧ rest.Supported d true

/-- The record of a text at offset `o`; white space alone has none. -/
def textRecs (d : Nat) (o : Int) (t : Text) : List Rec :=
  if Blank t then [] else [⟨.characterData, o, t.bytes.length, d - 1⟩]

/-- The records of a content at offset `o` inside of `d` elements. `sole` for a content right after a start
tag: if it has no markup it is one record, even if it is blank or empty. -/
def recs (d : Nat) : Bool → Int → Content → List Rec
  | sole, o, text t => if sole then [⟨.characterData, o, t.bytes.length, d - 1⟩] else textRecs d o t
  | _, o, atom t a rest =>
    textRecs d o t ++ a.recs d (o + t.bytes.length) ++ rest.recs d false (o + t.bytes.length + a.bytes.length)
  | _, o, element t tag body space rest =>
    textRecs d o t ++ tag.recs d (o + t.bytes.length) ++
      body.recs (d + 1) true (o + t.bytes.length + tag.bytes.length + 1) ++
      rest.recs d false (o + t.bytes.length + tag.bytes.length + 1 + body.bytes.length +
        (2 + tag.name.length + space.length + 1))

end Content

/-! ## The document -/

/-- [27]: a comment or a processing instruction, with the white space before. -/
structure Misc where
  space : List UInt8
  atom : Atom

namespace Misc

def bytes (m : Misc) : List UInt8 := m.space ++ m.atom.bytes

structure WellFormed (m : Misc) : Prop where
  space : AllWs m.space
  kind : (∃ c, m.atom = .comment c) ∨ ∃ t x, m.atom = .pi t x
  atom : m.atom.WellFormed

end Misc

/-- The records of comments and processing instructions outside of the root. -/
def miscRecs : Int → List Misc → List Rec
  | _, [] => []
  | o, m :: ms => m.atom.recs 0 (o + m.space.length) ++ miscRecs (o + m.bytes.length) ms

/-- An attribute of the XML declaration, with the white space before. -/
structure DeclAttr where
  space : List UInt8
  space1 : List UInt8
  space2 : List UInt8
  quote : UInt8
  value : List UInt8

namespace DeclAttr

def bytes (name : List UInt8) (a : DeclAttr) : List UInt8 :=
  a.space ++ (name ++ (a.space1 ++ ch% '=' :: (a.space2 ++ a.quote :: (a.value ++ [a.quote]))))

structure WellFormed (values : List (List UInt8)) (a : DeclAttr) : Prop where
  space : a.space ≠ [] ∧ AllWs a.space ∧ AllWs a.space1 ∧ AllWs a.space2
  quote : Quote a.quote
  value : a.value ∈ values

/-- The records of the attribute at offset `o`. -/
def recs (name : List UInt8) (o : Int) (a : DeclAttr) : List Rec :=
  [⟨.decAttrName, o + a.space.length, name.length, -1⟩,
   ⟨.decAttrVal, o + (a.bytes name).length - 1 - a.value.length, a.value.length, -1⟩]

end DeclAttr

/-- `UTF-8` in any case. -/
def utf8Names : List (List UInt8) := [str% "UTF-8", str% "UTf-8", str% "UtF-8", str% "Utf-8", str% "uTF-8", str% "uTf-8",
  str% "utF-8", str% "utf-8"]

/-- [23]. The encoding is UTF-8. -/
structure Decl where
  version : DeclAttr
  encoding : Option DeclAttr
  standalone : Option DeclAttr
  space : List UInt8

/-- Bytes of an attribute that can be left out. -/
def optBytes (name : List UInt8) : Option DeclAttr → List UInt8
  | none => []
  | some a => a.bytes name

/-- Its records. -/
def optRecs (name : List UInt8) (o : Int) : Option DeclAttr → List Rec
  | none => []
  | some a => a.recs name o

namespace Decl

def bytes (d : Decl) : List UInt8 :=
  str% "<?xml" ++ (d.version.bytes (str% "version") ++ (optBytes (str% "encoding") d.encoding ++
    (optBytes (str% "standalone") d.standalone ++ (d.space ++ str% "?>"))))

structure WellFormed (d : Decl) : Prop where
  version : d.version.WellFormed [str% "1.0", str% "1.1"]
  encoding : ∀ a, d.encoding = some a → a.WellFormed utf8Names
  standalone : ∀ a, d.standalone = some a → a.WellFormed [str% "yes", str% "no"]
  space : AllWs d.space

def recs (o : Int) (d : Decl) : List Rec :=
  d.version.recs (str% "version") (o + 5) ++
  optRecs (str% "encoding") (o + 5 + (d.version.bytes (str% "version")).length) d.encoding ++
  optRecs (str% "standalone") (o + 5 + (d.version.bytes (str% "version")).length +
    (optBytes (str% "encoding") d.encoding).length) d.standalone

end Decl

/-- The root element. -/
inductive Root where
  | empty (tag : StartTag)
  | element (tag : StartTag) (body : Content) (space : List UInt8)

namespace Root

def bytes : Root → List UInt8
  | empty tag => tag.bytes ++ str% "/>"
  | element tag body space => tag.bytes ++ ch% '>' :: (body.bytes ++
      (ch% '<' :: ch% '/' :: (tag.name ++ (space ++ [ch% '>']))))

def WellFormed : Root → Prop
  | empty tag => tag.WellFormed
  | element tag body space => tag.WellFormed ∧ body.WellFormed ∧ AllWs space

def Supported : Root → Prop
  | empty tag => tag.Supported 0
  | element tag body _ => tag.Supported 0 ∧ body.Supported 1 false

def recs (o : Int) : Root → List Rec
  | empty tag => tag.recs 0 o
  | element tag body _ => tag.recs 0 o ++ body.recs 1 true (o + tag.bytes.length + 1)

end Root

/-- [1]. `space` is white space before the root, `space1` at the end. -/
structure Document where
  decl : Option Decl
  prolog : List Misc
  space : List UInt8
  root : Root
  epilog : List Misc
  space1 : List UInt8

namespace Document

/-- Bytes of the declaration. -/
def declBytes (d : Document) : List UInt8 := (d.decl.map Decl.bytes).getD []

def bytes (d : Document) : List UInt8 :=
  d.declBytes ++ (d.prolog.flatMap Misc.bytes ++ (d.space ++ (d.root.bytes ++
    (d.epilog.flatMap Misc.bytes ++ d.space1))))

structure WellFormed (d : Document) : Prop where
  decl : ∀ x, d.decl = some x → x.WellFormed
  prolog : ∀ m ∈ d.prolog, m.WellFormed
  space : AllWs d.space ∧ AllWs d.space1
  root : d.root.WellFormed
  epilog : ∀ m ∈ d.epilog, m.WellFormed

/-- Limits: no processing instruction at the very beginning, and after the root only processing instructions
with data. -/
structure Supported (d : Document) : Prop where
  prolog : ∀ m ∈ d.prolog, m.atom.Supported 0
  first : ∀ m ms t x, d.decl = none → d.prolog = m :: ms → m.atom = .pi t x → m.space ≠ []
  root : d.root.Supported
  epilog : ∀ m ∈ d.epilog, ∃ t x, m.atom = .pi t (some x) ∧ m.atom.Supported 0

/-- The records of a document at offset `o`. -/
def recs (o : Int) (d : Document) : List Rec :=
  ((d.decl.map (Decl.recs o)).getD []) ++ miscRecs (o + d.declBytes.length) d.prolog ++
  d.root.recs (o + d.declBytes.length + (d.prolog.flatMap Misc.bytes).length + d.space.length) ++
  miscRecs (o + d.declBytes.length + (d.prolog.flatMap Misc.bytes).length + d.space.length +
    d.root.bytes.length) d.epilog

end Document

end GoVtd.Tree
