import Verif.Props.Total
import Verif.Proofs.Parser.Resp

/-!
# Properties C42, C43, C44: namespace-aware mode
-/

namespace GoVtd
open Parser Paged

/-- A parse of an ASCII document with namespace awareness. -/
def parseNs (fuel : Nat) (s : String) : Outcome Unit :=
  parseWith fuel [.xmlDoc (some (bytes s)), .nameSpaceAware true]

/-! ## C42 -/

/-- C42 is false: the prefix `b` of the second child is declared on it, and the document is refused.
Leaving the first child shrinks the table of declarations, and the next entry goes to the wrong place. -/
theorem C42_refuted_declared :
    parseNs 100 "<r xmlns:q='w'><x xmlns:a='u'/><b:z xmlns:b='v'/></r>" =
      .error (newParseError "namespace qualification exception: element not qualified" (some (1, 33)) none) := by
  decide +kernel

/-- C42 is false: the prefix `a` is declared on a sibling only, and the document is accepted. -/
theorem C42_refuted_undeclared :
    parseNs 100 "<r xmlns:q='w'><x xmlns:a='u'/><a:z xmlns:b='v'/></r>" = .value () := by
  decide +kernel

/-- C42 is false for attributes as well. -/
theorem C42_refuted_attribute :
    parseNs 100 "<r xmlns:q='w'><x xmlns:a='u'/><z xmlns:b='v' b:c='1'/></r>" =
      .error (newParseError "prefixed attribute not qualified" (some (1, 56)) none) ∧
    parseNs 100 "<r xmlns:q='w'><x xmlns:a='u'/><z xmlns:b='v' a:c='1'/></r>" = .value () := by
  decide +kernel

/-- The cases the library gets right: a declaration on the element or on an ancestor, and none. -/
example : parseNs 100 "<a:b xmlns:a='u'/>" = .value () ∧ parseNs 100 "<r xmlns:a='u'><x><a:b/></x></r>" = .value () ∧
    parseNs 100 "<a:b/>" =
      .error (newParseError "namespace qualification exception: element not qualified" (some (1, 2)) none) := by
  decide +kernel

/-! ## C43 -/

/-- C43 is false: two attributes with the same local name and different namespaces, which the property
accepts, make `Parse` panic. So do two with the same namespace, for which it asks for an error. -/
theorem C43_refuted :
    parseNs 100 "<r xmlns:a='u' xmlns:b='v' a:x='1' b:x=''/>" = .panic ∧
    parseNs 100 "<r xmlns:a='u' xmlns:b='u' a:x='1' b:x=''/>" = .panic := by
  decide +kernel

/-! ## C44 -/

/-- C44 is false: `xmlns:xml` bound to the XML namespace is refused; another prefix bound to the XML
namespace or to the xmlns namespace is accepted. -/
theorem C44_refuted :
    parseNs 100 "<r xmlns:xml='http://www.w3.org/XML/1998/namespace'/>" =
      .error (newParseError "xmlns:xml cant only point to http://www.w3.org/XML/1998/namespace" (some (1, 52)) none) ∧
    parseNs 100 "<r xmlns:p='http://www.w3.org/XML/1998/namespace'/>" = .value () ∧
    parseNs 100 "<r xmlns:p='http://www.w3.org/2000/xmlns/'/>" = .value () := by
  decide +kernel

end GoVtd
