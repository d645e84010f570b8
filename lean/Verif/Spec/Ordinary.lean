import Verif.Spec.Tree

/-!
# Documents without the constructs that the parser misreads

Only the bytes of the document, and the trees that declarations are.
-/

namespace GoVtd

open Grammar (Ws NameByte AllWs AllName XmlPrefix)
open Tree (HasPair Name)

/-- Nothing in the document looks like one of the constructs that the parser reads as something else than they are.
A well-formed document without a document type declaration satisfies `doctype`, `target` and `cut` unless it has the bytes
in question in a comment, a CDATA section or the data of a processing instruction. -/
structure Ordinary (s : List UInt8) : Prop where
  /-- A document that begins with `<?` begins with an XML declaration. -/
  decl : str% "<?" <+: s → ∃ d : Tree.Decl, d.WellFormed ∧ d.bytes <+: s
  /-- The first character after an end tag, white space aside, is not `&` and not `]`. -/
  after : ∀ name w w' b, AllName name → AllWs w → AllWs w' → (b = ch% '&' ∨ b = ch% ']') →
    ¬ str% "</" ++ (name ++ (w ++ ch% '>' :: (w' ++ [b]))) <:+: s
  /-- The first `]>` in a CDATA section is the end of a `]]>`. -/
  cdata : ∀ u, str% "<![CDATA[" ++ (u ++ str% "]>") <:+: s → ¬ HasPair (ch% ']') (ch% '>') u → ∃ v, u = v ++ [ch% ']']
  /-- No `DOCTYPE` with two `D`. -/
  doctype : ¬ str% "<!DDOCTYPE" <:+: s
  /-- After `<?xml` the name goes on or ends. -/
  target : ∀ x m l y, XmlPrefix [x, m, l] → str% "<?" ++ [x, m, l, y] <:+: s → NameByte y ∨ Ws y ∨ y = ch% '?'
  /-- After the name of a processing instruction, `?` is followed by `>`. -/
  cut : ∀ name y, Name name → str% "<?" ++ (name ++ [ch% '?', y]) <:+: s → y = ch% '>'

end GoVtd
