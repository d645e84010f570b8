import Verif.Spec.Tree
import Verif.Spec.Parsed

/-!
# What the tokens of a document should spell

The names, values and texts of a document in document order, each with the kind of its token and the number of elements
around it less one. No offsets: this is read off the tree.
-/

namespace GoVtd

/-- A token as its reader sees it: the number of its kind, its depth (-1 outside of the root element) and its bytes. -/
structure Item where
  kind : Nat
  depth : Int
  text : List UInt8
  deriving DecidableEq, Repr

/-- Reading a token record: kind, depth (255 stands for -1) and the bytes of the slice that it covers. The length of a name is
in the lower eleven bits. -/
def readToken (doc : List UInt8) (w : BitVec 64) : Item where
  kind := tokenType w
  depth := if tokenDepth w = 255 then -1 else tokenDepth w
  text := (doc.drop (tokenOffset w)).take (if IsStart w ∨ IsAttr w then qnameLength w else tokenLength w)

namespace Tree
open Grammar

def item (t : Token) (d : Int) (text : List UInt8) : Item := ⟨t.code, d, text⟩

/-- Name and value. -/
def Attr.items (d : Int) (a : Attr) : List Item :=
  [item (if a.IsNs then .attrNs else .attrName) d a.name, item .attrVal d a.value.bytes]

/-- The name of the element and the attributes. -/
def StartTag.items (d : Int) (t : StartTag) : List Item := item .startingTag d t.name :: t.attrs.flatMap (Attr.items d)

/-- The items of markup inside of an element at depth `d`. A processing instruction without data has empty data. -/
def Atom.items (d : Int) : Atom → List Item
  | empty tag => tag.items (d + 1)
  | cdata data => [item .cdataVal d data]
  | comment data => [item .comment d data]
  | pi target none => [item .piName d target, item .piVal d []]
  | pi target (some (_, data)) => [item .piName d target, item .piVal d data]

/-- White space alone is not reported. -/
def textItems (d : Int) (t : Text) : List Item := if Content.Blank t then [] else [item .characterData d t.bytes]

/-- The items of a content inside of an element at depth `d`. A text that is the whole content of an element (`sole`) is
reported even if it is blank. -/
def Content.items (d : Int) : Bool → Content → List Item
  | true, text t => [item .characterData d t.bytes]
  | false, text t => textItems d t
  | _, atom t a rest => textItems d t ++ a.items d ++ rest.items d false
  | _, element t tag body _ rest => textItems d t ++ tag.items (d + 1) ++ body.items (d + 1) true ++ rest.items d false

def Root.items : Root → List Item
  | empty tag => tag.items 0
  | element tag body _ => tag.items 0 ++ body.items 0 true

/-- An attribute of the XML declaration. -/
def DeclAttr.items (name : List UInt8) (a : DeclAttr) : List Item :=
  [item .decAttrName (-1) name, item .decAttrVal (-1) a.value]

def Decl.items (x : Decl) : List Item :=
  x.version.items (str% "version") ++ (x.encoding.map (DeclAttr.items (str% "encoding"))).getD [] ++
    (x.standalone.map (DeclAttr.items (str% "standalone"))).getD []

/-- All items of a document, after one for the document as a whole. -/
def Document.items (d : Document) : List Item :=
  item .document (-1) [] :: ((d.decl.map Decl.items).getD [] ++ d.prolog.flatMap (fun m => m.atom.items (-1)) ++ d.root.items ++
    d.epilog.flatMap fun m => m.atom.items (-1))

end Tree
end GoVtd
