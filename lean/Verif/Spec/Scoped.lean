import Verif.Spec.Prefixes

/-!
# The declarations that the parser looks at

Read off the token records and the bytes of the document. The namespace-aware parser does not look for a prefix among
the declarations in scope, but among the first `visible` declarations of the document, and `visible` depends on the
levels of the elements before:

* the root element starts with 0;
* an element that is the first child of its parent starts with the number of the element before it;
* any other element, at level `d`, starts with the number of the `d`-th element of the document (not of its parent);
* each declaration of a prefix in the tag adds 1.

For a document that declares its prefixes only at the root element, these are all its declarations.
-/

namespace GoVtd

/-- The record `w` is a declaration of a prefix, `xmlns:...="..."`. -/
def IsPrefixDecl (doc : List UInt8) (w : BitVec 64) : Prop :=
  tokenType w = Token.attrNs.code ∧ ch% ':' ∈ qname doc w

instance (doc : List UInt8) (w : BitVec 64) : Decidable (IsPrefixDecl doc w) := by
  unfold IsPrefixDecl; infer_instance

/-- The declarations of prefixes among the records, in document order. -/
def declsOf (doc : List UInt8) (ws : List (BitVec 64)) : List (BitVec 64) := ws.filter fun w => IsPrefixDecl doc w

/-- What decides which declarations the parser looks at. -/
structure Scope where
  /-- The numbers of the elements before the last one, in document order. -/
  before : List Nat
  /-- The number of the last element. -/
  visible : Nat
  /-- The level of the last element. -/
  level : Option Nat

/-- The numbers of all elements. -/
def Scope.all (s : Scope) : List Nat :=
  match s.level with
  | none => []
  | some _ => s.before ++ [s.visible]

/-- The number that an element at level `d` starts with. -/
def Scope.start (s : Scope) (d : Nat) : Nat :=
  match s.level with
  | none => s.visible
  | some e => if d ≤ e then s.all[d - 1]?.getD 0 else s.visible

/-- One record more. -/
def Scope.step (doc : List UInt8) (s : Scope) (w : BitVec 64) : Scope :=
  if IsStart w then ⟨s.all, s.start (tokenDepth w), some (tokenDepth w)⟩
  else if IsPrefixDecl doc w then { s with visible := s.visible + 1 }
  else s

/-- After the records `ws`. -/
def scopeOf (doc : List UInt8) (ws : List (BitVec 64)) : Scope := ws.foldl (Scope.step doc) ⟨[], 0, none⟩

/-- The declarations that the parser looks at after the records `ws`. -/
def visibleDecls (doc : List UInt8) (ws : List (BitVec 64)) : List (BitVec 64) :=
  (declsOf doc ws).take (scopeOf doc ws).visible

/-- The parser finds the prefix `p` for the start tag of the record number `i`: some number of records reaches into the
same start tag, and `p` is declared by one of the declarations that the parser looks at then. -/
def Visible (doc : List UInt8) (ws : List (BitVec 64)) (i : Nat) (p : List UInt8) : Prop :=
  ∃ m, i < m ∧ (∀ k z, i < k → k < m → ws[k]? = some z → ¬ IsStart z) ∧
    ∃ w ∈ visibleDecls doc (ws.take m), Declares doc w p

/-- No colon of the name of an element stands after `xmlns` or after ten bytes that begin with `xmlns`. -/
def NoXmlns (n : List UInt8) : Prop :=
  ∀ i : Nat, n[i]? = some (ch% ':') → str% "xmlns" <+: n.take i → i ≠ 5 ∧ i ≠ 10

/-- The prefix of an element that the parser takes for `xml`. -/
def XmlLike (p : List UInt8) : Prop := p = str% "xml" ∨ str% "xml" <+: p ∧ p.length = 7

/-- Every prefix is declared by a declaration that the parser looks at, or taken for `xml`, and what the namespace-aware
parser mishandles besides does not occur: an element has at most 63 elements around it and its name is free of the prefix `xmlns`
(`NoXmlns`); a declaration does not name the prefixes `xml` and `xmlns`, its value is
not empty and a long value does not begin with `&`; the parser never looks at more than 64 declarations, and a
declaration at which it looks at none before is the first of the document; the attributes of an element with a prefix
other than `xml` have different local names. -/
structure VisiblePrefixes (doc : List UInt8) (ws : List (BitVec 64)) : Prop where
  level : ∀ w ∈ ws, IsStart w → tokenDepth w ≤ 63
  elem : ∀ (i : Nat) w, ws[i]? = some w → IsStart w → ∃ n, n ≠ [] ∧ ElementName doc w n ∧ NoXmlns n ∧
    ∀ p l, Splits n p l → XmlLike p ∨ Visible doc ws i p
  attr : ∀ (i : Nat) w, ws[i]? = some w → tokenType w = Token.attrName.code → ∀ p l, Splits (qname doc w) p l →
    p = str% "xml" ∨ Visible doc ws i p
  decl : ∀ w ∈ ws, ∀ p, Declares doc w p → p ≠ str% "xml" ∧ p ≠ str% "xmlns"
  value : ∀ (i : Nat) (w v : BitVec 64), ws[i]? = some w → ws[i + 1]? = some v → tokenType w = Token.attrNs.code →
    (∀ p, Declares doc w p → 0 < tokenLength v) ∧ (29 ≤ tokenLength v → doc[tokenOffset v]? ≠ some (ch% '&'))
  few : ∀ m, (scopeOf doc (ws.take m)).visible ≤ 64
  again : ∀ (i : Nat) w, ws[i]? = some w → IsPrefixDecl doc w → (scopeOf doc (ws.take i)).visible = 0 →
    declsOf doc (ws.take i) = []
  locals : ∀ (i k : Nat) w z, ws[i]? = some w → ws[k]? = some z → i < k →
    (∀ (m : Nat) y, i < m → m ≤ k → ws[m]? = some y → ¬ IsStart y) →
    tokenType w = Token.attrName.code → tokenType z = Token.attrName.code →
    ∀ p l p' l', Splits (qname doc w) p l → Splits (qname doc z) p' l' → p ≠ str% "xml" → p' ≠ str% "xml" → l ≠ l'

end GoVtd
