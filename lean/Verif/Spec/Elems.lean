import Verif.Spec.Stored
import Verif.Spec.Plain
import Verif.Spec.NsOnly

/-!
# The elements of a document and their tokens

Read off the tree: the child elements of an element in document order, each with the number of the token of its start
tag, which is the number of items (`Verif/Spec/Items.lean`) before it.
-/

namespace GoVtd.Tree

/-- An element: the number of its token, its start tag, and its content (none for an empty-element tag). -/
structure Elem where
  token : Nat
  tag : StartTag
  body : Option Content

/-- The elements at the top of a content; `k` tokens come before the content. -/
def Content.elems (k : Nat) : Content → List Elem
  | text _ => []
  | atom t a rest =>
    (match a with
      | .empty tag => [⟨k + (textItems 0 t).length, tag, none⟩]
      | _ => []) ++
    rest.elems (k + (textItems 0 t).length + (a.items 0).length)
  | element t tag body _ rest =>
    ⟨k + (textItems 0 t).length, tag, some body⟩ ::
      rest.elems (k + (textItems 0 t).length + (tag.items 0).length + (body.items 0 true).length)

/-- The child elements of an element, in document order. -/
def Elem.children (e : Elem) : List Elem :=
  match e.body with
  | none => []
  | some c => c.elems (e.token + (e.tag.items 0).length)

/-- The root element. Before it come the tokens of the document, of the declaration and of the prolog. -/
def Document.rootElem (d : Document) : Elem :=
  let k := 1 + ((d.decl.map Decl.items).getD []).length + (d.prolog.flatMap fun m => m.atom.items (-1)).length
  match d.root with
  | .empty tag => ⟨k, tag, none⟩
  | .element tag body _ => ⟨k, tag, some body⟩

/-- `e` is an element of the document with `n` elements around it. -/
inductive Document.Has (d : Document) : Nat → Elem → Prop where
  | root : Has d 0 d.rootElem
  | child {n : Nat} {e c : Elem} : Has d n e → c ∈ e.children → Has d (n + 1) c

end GoVtd.Tree

namespace GoVtd

/-- Namespaces play no part in the records of a tree that begins at byte `o` of `doc`: the parser is not namespace-aware, or
nothing in the document calls for prefixes (`Verif/Spec/Plain.lean`), or no attribute value can be mistaken for another when
namespace names are compared (`Verif/Spec/NsOnly.lean`). -/
def NsNeutral (opts : List ParserOption) (doc : List UInt8) (o : Nat) (tree : Tree.Document) : Prop :=
  chosenNs opts = false ∨ doc.length < 2 ^ 30 ∧ NoPrefixes doc ((Grammar.docRec :: tree.stored o).map Grammar.Rec.word) ∨
    doc.length < 2 ^ 31 ∧ NoEntityStart doc

end GoVtd
