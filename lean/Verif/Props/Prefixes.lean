import Verif.Spec.Prefixes
import Verif.Proofs.Parser.NsParse
import Verif.Props.NsOnly
import Verif.Props.Namespaces

/-!
# Properties C42, C43, C44: what an accepted document is known to satisfy

`Verif/Props/Namespaces.lean` shows that the three properties are false. Here is what the checks of the parser do
establish, for every document it accepts: prefixes are declared before they are used or in the tag that uses them,
no two attributes of a tag with prefixes share a local name, and nothing rebinds `xml` or `xmlns`.
-/

namespace GoVtd
open Parser Parser.Sound

theorem newVtdParser_nsAware {fuel : Nat} {opts : List ParserOption} {p : Parser} (h : newVtdParser fuel opts = .ok p) :
    p.cfg.nsAware = chosenNs opts := by
  rw [← (args_chosen opts).2.2.1]
  simp only [newVtdParser] at h
  generalize opts.foldl ParserArgs.apply {} = a at h ⊢
  cases hd : a.doc with
  | none => rw [hd] at h; cases h
  | some doc =>
    rw [hd] at h
    simp only at h
    by_cases h1 : doc.length = 0
    · rw [if_pos h1] at h; cases h
    rw [if_neg h1] at h
    by_cases h2 : a.offset < 0
    · rw [if_pos h2] at h; cases h
    rw [if_neg h2] at h
    by_cases h3 : a.length = 0 ∨ wrap64 (a.offset + a.length) > doc.length
    · rw [if_pos h3] at h; cases h
    rw [if_neg h3] at h
    cases h4 : Reader.newUtf8 (some doc) a.offset a.endOffset with
    | error e => rw [h4] at h; cases h
    | ok rd =>
      rw [h4] at h
      simp only [Except.ok.injEq] at h
      rw [← h]; rfl

/-- An accepted document satisfies the invariants. -/
theorem parsed_ns {fuel : Nat} {opts : List ParserOption} {doc : List UInt8} {o l : Int} {ws : List (BitVec 64)}
    (hd : chosenDoc opts = some (doc, o, l)) (hns : chosenNs opts = true) (h : parsedTokens fuel opts = some ws) :
    Done doc ws ∧ Decls doc ws := by
  simp only [parsedTokens, parsed, Option.map_eq_some_iff] at h
  obtain ⟨q, hq, rfl⟩ := h
  cases hp : newVtdParser fuel opts with
  | error e => rw [hp] at hq; cases hq
  | ok p =>
    rw [hp] at hq
    have hx : p.cfg.xmlDoc = doc := by
      have h1 := newVtdParser_doc hp
      rw [(args_chosen _).1, hd] at h1
      exact (Option.some.inj h1).symm
    simp only at hq
    cases hr : Parser.parse p with
    | ok u p' =>
      rw [hr] at hq
      cases hq
      have := parse_ns (newVtdParser_fresh hp) (by rw [newVtdParser_nsAware hp]; exact hns) hr
      rw [hx] at this
      exact this
    | err e p' => rw [hr] at hq; cases hq
    | panic => rw [hr] at hq; cases hq
    | diverge => rw [hr] at hq; cases hq

/-- The record of an attribute whose name has a prefix other than `xml`. -/
theorem pfx_of {doc : List UInt8} {x : BitVec 64} {p l : List UInt8} (ht : tokenType x = Token.attrName.code)
    (hs : Splits (qname doc x) p l) (hp : p ≠ bytes "xml") : Pfx doc x ∧ prefixOf doc x = p ∧ localOf doc x = l := by
  have hc : colonAt doc x = p.length := splits_colon hs
  have hne : colonAt doc x ≠ 0 := by
    rw [hc]; exact fun h => hs.nonempty (List.length_eq_zero_iff.mp h)
  obtain ⟨h1, h2⟩ := splits_unique (colon_splits hne).1 hs
  refine ⟨⟨ht, hne, ?_⟩, h1, h2⟩
  rintro ⟨h3, h4⟩
  apply hp
  rw [hs.eq] at h4
  have : str% "xml" <+: p := List.prefix_of_prefix_length_le h4 (List.prefix_append _ _) (by rw [← hc, h3]; decide)
  obtain ⟨t, rfl⟩ := this
  have : t = [] := by
    apply List.length_eq_zero_iff.mp
    simp only [List.length_append, List.length_cons, List.length_nil] at hc
    omega
  rw [this]; rfl

/-- A document with two declarations, prefixed attributes and a prefixed child, for the examples below. -/
def prefixSample : List UInt8 :=
  bytes "<r xmlns:a='u' xmlns:b='v' a:x='1' b:y='2'><a:k b:z='' xml:q=''/></r>"

def prefixOpts : List ParserOption := [.xmlDoc (some prefixSample), .nameSpaceAware true]

/-- Its records. -/
def prefixWords : List (BitVec 64) := [16136397464868487168, 4294967297, 3458808524350423043, 4611686022722355212,
  3458808524350423055, 4611686022722355224, 2305851818191618075, 4611686022722355232, 2305851818191618083,
  4611686022722355240, 4503612512272428, 2310355417818988592, 4616189618054758453, 2310373018594967607,
  4616189618054758462]

theorem prefixWords_eq : parsedTokens 100 prefixOpts = some prefixWords := by decide +kernel

example : chosenDoc prefixOpts = some (prefixSample, 0, (prefixSample.length : Int)) ∧ chosenNs prefixOpts = true ∧
    prefixSample.length < 2 ^ 31 := by decide +kernel

/-! ## C42 -/

/-- C42, one direction, for attributes: with namespace awareness on, the prefix of every attribute of an accepted
document is `xml`, or some declaration of it stands in the same start tag or before it. Missing: that the
declaration is in scope (`C42_refuted_undeclared`), and that declared prefixes are accepted
(`C42_refuted_declared`). -/
theorem C42_attributes_partial (fuel : Nat) (opts : List ParserOption) (doc : List UInt8) (o l : Int)
    (ws : List (BitVec 64)) (hd : chosenDoc opts = some (doc, o, l)) (hns : chosenNs opts = true)
    (h : parsedTokens fuel opts = some ws) (i : Nat) (x : BitVec 64) (hx : ws[i]? = some x)
    (ht : tokenType x = Token.attrName.code) (p n : List UInt8) (hs : Splits (qname doc x) p n) :
    p = bytes "xml" ∨ Declared doc ws i p := by
  by_cases hp : p = bytes "xml"
  · exact .inl hp
  · obtain ⟨h1, h2, -⟩ := pfx_of ht hs hp
    exact .inr (h2 ▸ (parsed_ns hd hns h).1.attr i x hx h1)

/-- Non-vacuity: the records 6 and 8 are `a:x` and `b:y`. -/
example : (prefixWords[6]?.map fun x => (tokenType x, qname prefixSample x)) = some (Token.attrName.code, bytes "a:x") ∧
    (prefixWords[8]?.map fun x => (tokenType x, qname prefixSample x)) = some (Token.attrName.code, bytes "b:y") := by
  decide +kernel
example : Splits (bytes "a:x") (bytes "a") (bytes "x") := ⟨by decide, by decide, by decide⟩

/-- The same for elements. A prefix of seven bytes that begins with `xml` is not looked up at all
(`C42_refuted_seven`). -/
theorem C42_elements_partial (fuel : Nat) (opts : List ParserOption) (doc : List UInt8) (o l : Int)
    (ws : List (BitVec 64)) (hd : chosenDoc opts = some (doc, o, l)) (hns : chosenNs opts = true)
    (h : parsedTokens fuel opts = some ws) (i : Nat) (x : BitVec 64) (hx : ws[i]? = some x) (ht : IsStart x)
    (e p n : List UInt8) (he : ElementName doc x e) (hs : Splits e p n) :
    p = bytes "xml" ∨ (bytes "xml" <+: p ∧ p.length = 7) ∨ Declared doc ws i p := by
  have hc : Grammar.lastColon 0 0 e = p.length := splits_colon hs
  have hne : Grammar.lastColon 0 0 e ≠ 0 := by
    rw [hc]; exact fun h => hs.nonempty (List.length_eq_zero_iff.mp h)
  obtain ⟨h1, -⟩ := splits_unique (colon_splits hne).1 hs
  rcases (parsed_ns hd hns h).1.elem i x e hx ht he hne with hD | ⟨h2, h3⟩
  · exact .inr (.inr (h1 ▸ hD))
  · rw [hc] at h3
    rw [hs.eq] at h2
    have : bytes "xml" <+: p := List.prefix_of_prefix_length_le h2 (List.prefix_append _ _) (by
      show 3 ≤ p.length
      omega)
    rcases h3 with h3 | h3
    · left
      obtain ⟨t, rfl⟩ := this
      have : t = [] := by
        apply List.length_eq_zero_iff.mp
        have e : (bytes "xml").length = 3 := rfl
        simp only [List.length_append] at h3
        omega
      rw [this, List.append_nil]
    · exact .inr (.inl ⟨this, h3⟩)

/-- Non-vacuity: the record 10 is the child `a:k`. -/
example : ∃ x, prefixWords[10]? = some x ∧ IsStart x ∧ ElementName prefixSample x (bytes "a:k") ∧
    Splits (bytes "a:k") (bytes "a") (bytes "k") := by
  refine ⟨_, rfl, by decide +kernel, ⟨by simp only [Grammar.AllName]; decide +kernel, ch% ' ', prefixSample.drop 48, by decide +kernel, ?_⟩,
    ⟨by decide, by decide, by decide⟩⟩
  decide

/-- No declaration of the prefix `xmlabcd` exists, and the document is accepted. -/
theorem C42_refuted_seven : parseNs 100 "<xmlabcd:e/>" = .value () := by decide +kernel

/-! ## C43 -/

/-- C43, in part: in an accepted document no two attributes of one tag with prefixes other than `xml` have the same
local name, so none have the same local name and the same namespace. Missing: that attributes with the same local
name in different namespaces are accepted (`C43_refuted`). The hypothesis on entities cannot be dropped
(`C43_refuted_entity`). -/
theorem C43_partial (fuel : Nat) (opts : List ParserOption) (doc : List UInt8) (o l : Int)
    (ws : List (BitVec 64)) (hd : chosenDoc opts = some (doc, o, l)) (hns : chosenNs opts = true)
    (hq : NoEntityStart doc) (hl : doc.length < 2 ^ 31)
    (h : parsedTokens fuel opts = some ws) (i k : Nat) (x y : BitVec 64) (hx : ws[i]? = some x) (hy : ws[k]? = some y)
    (hik : i < k) (hsame : ∀ m z, i < m → m ≤ k → ws[m]? = some z → ¬ IsStart z)
    (tx : tokenType x = Token.attrName.code) (ty : tokenType y = Token.attrName.code)
    (p n p' n' : List UInt8) (hs : Splits (qname doc x) p n) (hs' : Splits (qname doc y) p' n')
    (hp : p ≠ bytes "xml") (hp' : p' ≠ bytes "xml") : n ≠ n' := by
  obtain ⟨h1, -, h2⟩ := pfx_of tx hs hp
  obtain ⟨h3, -, h4⟩ := pfx_of ty hs' hp'
  rw [← h2, ← h4]
  exact (parsed_ns hd hns h).1.uniq ⟨hq.quiet, hl⟩ i k x y hx hy hik h1 h3 hsame

/-- Non-vacuity: no start tag stands between the records 6 and 8, and the document has no entity at all. -/
example : NoEntityStart prefixSample ∧ ∀ m z, 6 < m → m ≤ 8 → prefixWords[m]? = some z → ¬ IsStart z := by
  have ha : ch% '&' ∉ prefixSample := by decide +kernel
  refine ⟨⟨?_, ?_, ?_, ?_⟩, ?_⟩
  all_goals first | exact fun h => ha (h.subset (by decide)) | skip
  intro m z h1 h2 h3
  obtain rfl | rfl : m = 7 ∨ m = 8 := by omega
  · cases h3; decide +kernel
  · cases h3; decide +kernel

/-- Two attributes with the same local name and the same namespace are accepted because of an entity in the content
of the element. -/
theorem C43_refuted_entity :
    parseNs 100 "<r xmlns:a='u' xmlns:b='u' a:x='' b:x=''>mz<![CDATA[&ap;]]></r>" = .value () := by decide +kernel

/-! ## C44 -/

/-- C44, in part: an accepted document declares neither the prefix `xml` nor the prefix `xmlns`, and binds no prefix
to the empty name: the next record is the value, and it is not empty. Missing: that `xml` may be bound to its own
namespace, and that no other prefix is bound to a reserved one (`C44_refuted`). -/
theorem C44_partial (fuel : Nat) (opts : List ParserOption) (doc : List UInt8) (o l : Int)
    (ws : List (BitVec 64)) (hd : chosenDoc opts = some (doc, o, l)) (hns : chosenNs opts = true)
    (h : parsedTokens fuel opts = some ws) (i : Nat) (x : BitVec 64) (hx : ws[i]? = some x)
    (p : List UInt8) (hp : Declares doc x p) :
    p ≠ bytes "xml" ∧ p ≠ bytes "xmlns" ∧
      ∃ v, ws[i + 1]? = some v ∧ tokenType v = Token.attrVal.code ∧ 0 < tokenLength v :=
  (parsed_ns hd hns h).2 i x p hx hp

/-- Non-vacuity: the record 2 declares the prefix `a`. -/
example : ∃ x, prefixWords[2]? = some x ∧ Declares prefixSample x (bytes "a") :=
  ⟨_, rfl, by decide +kernel, .inl (by decide +kernel), by decide⟩

end GoVtd
