import Verif.Spec.Scoped
import Verif.Spec.RootDeclared

/-!
# What the namespace-aware parser checks when declarations stand anywhere

`VisiblePrefixes` is split here in two, as `RootPrefixes` is in `Verif/Spec/RootDeclared.lean`: the documents it is about,
and the rules. The rules `DeclarationsValid` and `LocalsDistinct` are those of `Verif/Spec/RootDeclared.lean`.
-/

namespace GoVtd

/-- What the namespace-aware parser mishandles does not occur: an element has at most 63 elements around it; the name
of the root does not begin with a false start of an XML declaration (`?`); a long value of a declaration
does not begin with `&`; the parser never looks at more than 64 declarations. Whether the prefixes that are used are
declared is left open. -/
structure VisibleDeclared (doc : List UInt8) (ws : List (BitVec 64)) : Prop where
  level : ∀ w ∈ ws, IsStart w → tokenDepth w ≤ 63
  root : ∀ w ∈ ws, IsStart w → tokenDepth w = 0 → doc[tokenOffset w]? ≠ some (ch% '?')
  value : ∀ (i : Nat) (w v : BitVec 64), ws[i]? = some w → ws[i + 1]? = some v → tokenType w = Token.attrNs.code →
    29 ≤ tokenLength v → doc[tokenOffset v]? ≠ some (ch% '&')
  few : ∀ m, (scopeOf doc (ws.take m)).visible ≤ 64

/-- Where a prefix is declared, the parser looks at some declaration before, or there is none before. -/
def DeclarationsInReach (doc : List UInt8) (ws : List (BitVec 64)) : Prop :=
  ∀ (i : Nat) w, ws[i]? = some w → IsPrefixDecl doc w → (scopeOf doc (ws.take i)).visible = 0 → declsOf doc (ws.take i) = []

/-- The names of the elements are free of the prefix `xmlns`. -/
def NamesWithoutXmlns (doc : List UInt8) (ws : List (BitVec 64)) : Prop :=
  ∀ w ∈ ws, IsStart w → ∀ n, ElementName doc w n → NoXmlns n

/-- Every prefix of an attribute is `xml` or declared by a declaration that the parser looks at, and every prefix of an
element is declared so or taken for `xml`. -/
structure PrefixesVisible (doc : List UInt8) (ws : List (BitVec 64)) : Prop where
  elem : ∀ (i : Nat) w, ws[i]? = some w → IsStart w → ∀ n p l, ElementName doc w n → Splits n p l →
    XmlLike p ∨ Visible doc ws i p
  attr : ∀ (i : Nat) w, ws[i]? = some w → tokenType w = Token.attrName.code → ∀ p l, Splits (qname doc w) p l →
    p = str% "xml" ∨ Visible doc ws i p

end GoVtd
