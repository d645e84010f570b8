import Verif.Spec.Rooted

/-!
# What the namespace-aware parser checks, and the documents for which it checks it correctly

`RootPrefixes` is split here in two: the documents it is about, and the rules of the namespace recommendation.
-/

namespace GoVtd

/-- The document declares prefixes at its root element only, and what the namespace-aware parser mishandles does not
occur: an element has at most 64 elements around it, its name has at most one colon and its prefix is not `xmlns`, not
ten bytes beginning with `xmlns` and not seven bytes beginning with `xml`; a declaration is `xmlns` or
`xmlns:` with a prefix; there are at most 64 of the latter, and a long value of one does not begin with `&`. Whether
the prefixes that are used are among those declared is left open. -/
structure RootDeclared (doc : List UInt8) (ws : List (BitVec 64)) : Prop where
  level : ∀ w ∈ ws, IsStart w → tokenDepth w ≤ 64
  elem : ∀ w ∈ ws, IsStart w → ∃ n, n ≠ [] ∧ ElementName doc w n ∧ (ch% ':' ∉ n ∨
    ∃ p l, Splits n p l ∧ ch% ':' ∉ p ∧ p ≠ str% "xmlns" ∧ ¬ (str% "xmlns" <+: p ∧ p.length = 10) ∧
      ¬ (str% "xml" <+: p ∧ p.length = 7))
  decl : ∀ w ∈ ws, tokenType w = Token.attrNs.code → ch% ':' ∉ qname doc w ∨ tokenDepth w = 0 ∧ ∃ p, Declares doc w p
  value : ∀ (i : Nat) (w v : BitVec 64), ws[i]? = some w → ws[i + 1]? = some v → tokenType w = Token.attrNs.code →
    29 ≤ tokenLength v → doc[tokenOffset v]? ≠ some (ch% '&')
  few : (ws.filter fun w => tokenType w = Token.attrNs.code ∧ ch% ':' ∈ qname doc w).length ≤ 64

/-- Every prefix of an element or attribute is `xml` or declared in the same start tag or before it. In a document that
declares prefixes at its root only, this is the scope of every declaration. -/
structure PrefixesDeclared (doc : List UInt8) (ws : List (BitVec 64)) : Prop where
  elem : ∀ (i : Nat) w, ws[i]? = some w → IsStart w → ∀ n p l, ElementName doc w n → Splits n p l →
    p = str% "xml" ∨ Declared doc ws i p
  attr : ∀ (i : Nat) w, ws[i]? = some w → tokenType w = Token.attrName.code → ∀ p l, Splits (qname doc w) p l →
    p = str% "xml" ∨ Declared doc ws i p

/-- Every declaration of a prefix names another one than `xml` and `xmlns`, and its value is not empty. -/
def DeclarationsValid (doc : List UInt8) (ws : List (BitVec 64)) : Prop :=
  ∀ (i : Nat) w p, ws[i]? = some w → Declares doc w p → p ≠ str% "xml" ∧ p ≠ str% "xmlns" ∧
    ∀ v, ws[i + 1]? = some v → 0 < tokenLength v

/-- The attributes of one start tag with a prefix other than `xml` have different local names. -/
def LocalsDistinct (doc : List UInt8) (ws : List (BitVec 64)) : Prop :=
  ∀ (i k : Nat) w z, ws[i]? = some w → ws[k]? = some z → i < k →
    (∀ (m : Nat) y, i < m → m ≤ k → ws[m]? = some y → ¬ IsStart y) →
    tokenType w = Token.attrName.code → tokenType z = Token.attrName.code →
    ∀ p l p' l', Splits (qname doc w) p l → Splits (qname doc z) p' l' → p ≠ str% "xml" → p' ≠ str% "xml" → l ≠ l'

end GoVtd
