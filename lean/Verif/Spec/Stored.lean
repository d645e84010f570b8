import Verif.Spec.Fits
import Verif.Spec.Items

/-!
# What is stored for a tree

`Tree.Document.recs` are the records that a document should have. The parser stores them only for documents
without prefixed element names and without long texts (`Tree.Document.Supported`). Here are the records that it
stores for every document that it accepts (`Tree.Document.Fits`): they differ from those that it should store

* for an element with a prefix: the field that should be the length of the name is the length of the prefix
  shifted by one bit, combined with the length of the name,
* for a text, a comment or a CDATA section that needs more than one record: the records begin at offset 0 of the
  slice (`Grammar.textRecs`).

`Verif/Props/Stored.lean` proves that these are the records.
-/

namespace GoVtd.Tree

open Grammar (Rec maxLen lastColon)

/-- The records of a start tag at offset `o`. -/
def StartTag.stored (d : Nat) (o : Int) (t : StartTag) : List Rec :=
  ⟨.startingTag, o + 1, ((lastColon 0 0 t.name <<< 1 ||| t.name.length : Nat) : Int), d⟩ ::
    attrRecs d (o + 1 + t.name.length) t.attrs

/-- The records of an atom at offset `o` inside of `d` elements. -/
def Atom.stored (d : Nat) (o : Int) : Atom → List Rec
  | empty tag => tag.stored d o
  | cdata data => Grammar.textRecs .cdataVal (o + 9) data.length (d - 1)
  | comment data => Grammar.textRecs .comment (o + 4) data.length (d - 1)
  | a => a.recs d o

/-- The records of a text at offset `o`; white space alone has none. -/
def Content.textStored (d : Nat) (o : Int) (t : Text) : List Rec :=
  if Blank t then [] else Grammar.textRecs .characterData o t.bytes.length (d - 1)

/-- The records of a content at offset `o` inside of `d` elements. `sole` for a content right after a start tag:
if it has no markup it has records even if it is blank or empty. -/
def Content.stored (d : Nat) : Bool → Int → Content → List Rec
  | sole, o, text t => if sole then Grammar.textRecs .characterData o t.bytes.length (d - 1) else textStored d o t
  | _, o, atom t a rest =>
    textStored d o t ++ a.stored d (o + t.bytes.length) ++ rest.stored d false (o + t.bytes.length + a.bytes.length)
  | _, o, element t tag body space rest =>
    textStored d o t ++ tag.stored d (o + t.bytes.length) ++
      body.stored (d + 1) true (o + t.bytes.length + tag.bytes.length + 1) ++
      rest.stored d false (o + t.bytes.length + tag.bytes.length + 1 + body.bytes.length +
        (2 + tag.name.length + space.length + 1))

/-- The records of comments and processing instructions outside of the root. -/
def miscStored : Int → List Misc → List Rec
  | _, [] => []
  | o, m :: ms => m.atom.stored 0 (o + m.space.length) ++ miscStored (o + m.bytes.length) ms

def Root.stored (o : Int) : Root → List Rec
  | empty tag => tag.stored 0 o
  | element tag body _ => tag.stored 0 o ++ body.stored 1 true (o + tag.bytes.length + 1)

/-- The records of a document at offset `o`. -/
def Document.stored (o : Int) (d : Document) : List Rec :=
  ((d.decl.map (Decl.recs o)).getD []) ++ miscStored (o + d.declBytes.length) d.prolog ++
  d.root.stored (o + d.declBytes.length + (d.prolog.flatMap Misc.bytes).length + d.space.length) ++
  miscStored (o + d.declBytes.length + (d.prolog.flatMap Misc.bytes).length + d.space.length +
    d.root.bytes.length) d.epilog

/-! ## Texts, comments and CDATA sections -/

/-- A text, a comment or a CDATA section: the type of its records, where its data begins, the data, and the
number of elements around it. -/
structure Span where
  tok : Token
  off : Nat
  data : List UInt8
  depth : Nat

/-- The comment or the CDATA section at offset `o`. -/
def Atom.spans (d o : Nat) : Atom → List Span
  | cdata data => [⟨.cdataVal, o + 9, data, d⟩]
  | comment data => [⟨.comment, o + 4, data, d⟩]
  | _ => []

/-- A text at offset `o`, if it is not blank. -/
def Content.textSpan (d o : Nat) (t : Text) : List Span := if Blank t then [] else [⟨.characterData, o, t.bytes, d⟩]

/-- The texts, comments and CDATA sections in a content. -/
def Content.spans (d : Nat) : Bool → Nat → Content → List Span
  | sole, o, text t => if sole then [⟨.characterData, o, t.bytes, d⟩] else textSpan d o t
  | _, o, atom t a rest =>
    textSpan d o t ++ a.spans d (o + t.bytes.length) ++ rest.spans d false (o + t.bytes.length + a.bytes.length)
  | _, o, element t tag body space rest =>
    textSpan d o t ++ body.spans (d + 1) true (o + t.bytes.length + tag.bytes.length + 1) ++
      rest.spans d false (o + t.bytes.length + tag.bytes.length + 1 + body.bytes.length +
        (2 + tag.name.length + space.length + 1))

/-- The comments outside of the root. -/
def miscSpans : Nat → List Misc → List Span
  | _, [] => []
  | o, m :: ms => m.atom.spans 0 (o + m.space.length) ++ miscSpans (o + m.bytes.length) ms

def Root.spans (o : Nat) : Root → List Span
  | empty _ => []
  | element tag body _ => body.spans 1 true (o + tag.bytes.length + 1)

/-- The texts, comments and CDATA sections of a document at offset `o`. -/
def Document.spans (o : Nat) (d : Document) : List Span :=
  miscSpans (o + d.declBytes.length) d.prolog ++
  d.root.spans (o + d.declBytes.length + (d.prolog.flatMap Misc.bytes).length + d.space.length) ++
  miscSpans (o + d.declBytes.length + (d.prolog.flatMap Misc.bytes).length + d.space.length +
    d.root.bytes.length) d.epilog

/-- Every text, comment and CDATA section fits into one record. -/
def Document.Short (d : Document) : Prop := ∀ s ∈ d.spans 0, s.data.length ≤ maxLen

/-- The documents that are accepted and that have one record for each text: prefixes are allowed everywhere. -/
structure Document.Regular (d : Document) : Prop where
  syn : d.Syntax
  plain : d.Plain
  fits : d.Fits
  short : d.Short

end GoVtd.Tree

namespace GoVtd

/-- The length that is recorded for an element of this name is too large: twice the position of the colon has a bit that the
length of the name has not. -/
def Overrun (name : List UInt8) : Prop := (Grammar.lastColon 0 0 name <<< 1 ||| name.length) ≠ name.length

instance (name : List UInt8) : Decidable (Overrun name) := inferInstanceAs (Decidable (_ ≠ _))

/-- The start tag of an element whose name runs on. -/
def Item.RunsOn (x : Item) : Prop := x.kind = Token.startingTag.code ∧ Overrun x.text

instance (x : Item) : Decidable x.RunsOn := inferInstanceAs (Decidable (_ ∧ _))

/-- `x` is read where `y` is due: the same, unless the name of an element runs on. -/
structure Item.Shows (x y : Item) : Prop where
  kind : x.kind = y.kind
  depth : x.depth = y.depth
  text : ¬ y.RunsOn → x.text = y.text
  more : y.RunsOn → ∃ r, r ≠ [] ∧ x.text = y.text ++ r

/-- Item by item. -/
inductive Shown : List Item → List Item → Prop where
  | nil : Shown [] []
  | cons {x y : Item} {xs ys : List Item} : x.Shows y → Shown xs ys → Shown (x :: xs) (y :: ys)

end GoVtd
