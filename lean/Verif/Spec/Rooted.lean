import Verif.Spec.Prefixes

/-!
# Documents that declare their prefixes at the root

Read off the token records and the bytes of the document.
-/

namespace GoVtd

/-- The prefixes of the document are declared at its root element, and what the namespace-aware parser mishandles does
not occur: an element has at most 64 elements around it, its name has at most one colon and its prefix is not `xmlns`
or ten bytes beginning with `xmlns`; a declaration does not name the prefixes `xml` and `xmlns`, there are at most 64 of
them, their values are not empty and a long value does not begin with `&`; the attributes of an element with a prefix
other than `xml` have different local names. -/
structure RootPrefixes (doc : List UInt8) (ws : List (BitVec 64)) : Prop where
  level : ∀ w ∈ ws, IsStart w → tokenDepth w ≤ 64
  elem : ∀ (i : Nat) w, ws[i]? = some w → IsStart w → ∃ n, n ≠ [] ∧ ElementName doc w n ∧ (ch% ':' ∉ n ∨
    ∃ p l, Splits n p l ∧ ch% ':' ∉ p ∧ p ≠ str% "xmlns" ∧ ¬ (str% "xmlns" <+: p ∧ p.length = 10) ∧
      (p = str% "xml" ∨ Declared doc ws i p))
  attr : ∀ (i : Nat) w, ws[i]? = some w → tokenType w = Token.attrName.code → ∀ p l, Splits (qname doc w) p l →
    p = str% "xml" ∨ Declared doc ws i p
  decl : ∀ w ∈ ws, tokenType w = Token.attrNs.code → ch% ':' ∉ qname doc w ∨
    tokenDepth w = 0 ∧ ∃ p, Declares doc w p ∧ p ≠ str% "xml" ∧ p ≠ str% "xmlns"
  value : ∀ (i : Nat) (w v : BitVec 64), ws[i]? = some w → ws[i + 1]? = some v → tokenType w = Token.attrNs.code →
    (ch% ':' ∈ qname doc w → 0 < tokenLength v) ∧ (29 ≤ tokenLength v → doc[tokenOffset v]? ≠ some (ch% '&'))
  few : (ws.filter fun w => tokenType w = Token.attrNs.code ∧ ch% ':' ∈ qname doc w).length ≤ 64
  locals : ∀ (i k : Nat) w z, ws[i]? = some w → ws[k]? = some z → i < k →
    (∀ (m : Nat) y, i < m → m ≤ k → ws[m]? = some y → ¬ IsStart y) →
    tokenType w = Token.attrName.code → tokenType z = Token.attrName.code →
    ∀ p l p' l', Splits (qname doc w) p l → Splits (qname doc z) p' l' → p ≠ str% "xml" → p' ≠ str% "xml" → l ≠ l'

end GoVtd
