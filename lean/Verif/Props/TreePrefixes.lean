import Verif.Props.VisibleDeclared
import Verif.Props.Neutral

/-!
# Properties C34 and C58 with namespace awareness, for documents with prefixes

`C34_stored_aware_partial` and `C58_aware_partial` are about documents that call for no prefixes. Here the document may have
them: what the parser checks is stated on the records that the tree of the document says.
-/

namespace GoVtd
open Parser Grammar

/-- C34 with namespace awareness, for trees with prefixes: a document within the limits whose prefixes are declared by
declarations that the parser looks at is accepted with the records of its tree. -/
theorem C34_stored_visible_partial (fuel : Nat) (opts : List ParserOption) (doc : List UInt8) (o l : Nat)
    (h : SelectWindow opts doc o l) (hlen : doc.length < 2 ^ 30) (tree : Tree.Document)
    (hb : (doc.drop o).take l = tree.bytes) (hs : tree.Syntax) (hp : tree.Plain) (hf : tree.Fits)
    (hq : VisiblePrefixes doc ((docRec :: tree.stored o).map Rec.word)) :
    parsedTokens fuel opts = some ((docRec :: tree.stored o).map Rec.word) := by
  cases hn : chosenNs opts with
  | false => exact C34_stored_window_partial fuel opts doc o l h hn (by have := h.inside; omega) tree hb hs hp hf
  | true =>
    have d : ∀ b, chosenDoc (opts ++ [.nameSpaceAware b]) = chosenDoc opts := by
      intro b; simp only [chosenDoc, List.foldl_append]; rfl
    have n : ∀ b, chosenNs (opts ++ [.nameSpaceAware b]) = b := by
      intro b; simp only [chosenNs, List.foldl_append]; rfl
    have c : ∀ b, chosenDeep (opts ++ [.nameSpaceAware b]) = chosenDeep opts := by
      intro b; simp only [chosenDeep, List.foldl_append]; rfl
    have hf' : SelectWindow (opts ++ [.nameSpaceAware false]) doc o l :=
      ⟨(d _).trans h.window, h.nonempty, h.inside, h.size⟩
    have key := C34_stored_window_partial fuel _ doc o l hf' (n false) (by have := h.inside; omega) tree hb hs hp hf
    obtain ⟨out, k1, k2⟩ := parsedTokens_of.1 key
    rw [(C67_result fuel opts (opts ++ [.nameSpaceAware true]) h.args (d _).symm (by rw [hn, n]) (c _).symm).2]
    exact parsedTokens_of.2 ⟨out, C42_visible_partial fuel fuel opts doc o l out h.window hlen k1 (by rw [k2]; exact hq), k2⟩

/-- C34 with namespace awareness, exactly: of the documents within the limits in which the parser mishandles no name and no
declaration (`VisibleDeclared`), those are accepted whose prefixes are declared by declarations that the parser looks at,
whose declarations are valid and in reach (`DeclarationsInReach`), whose prefixed attributes have different local names and
whose elements do not have the prefix `xmlns`, and with the records of the tree. -/
theorem C34_stored_visible_exact (fuel : Nat) (opts : List ParserOption) (doc : List UInt8) (o l : Nat)
    (h : SelectWindow opts doc o l) (hn : chosenNs opts = true) (hlen : doc.length < 2 ^ 30) (he : NoEntityStart doc)
    (tree : Tree.Document) (hb : (doc.drop o).take l = tree.bytes) (hs : tree.Syntax) (hp : tree.Plain) (hf : tree.Fits)
    (hq : VisibleDeclared doc ((docRec :: tree.stored o).map Rec.word)) (ws : List (BitVec 64)) :
    parsedTokens fuel opts = some ws ↔ ws = (docRec :: tree.stored o).map Rec.word ∧
      PrefixesVisible doc ws ∧ DeclarationsValid doc ws ∧ LocalsDistinct doc ws ∧ DeclarationsInReach doc ws ∧
      NamesWithoutXmlns doc ws := by
  have d : ∀ b, chosenDoc (opts ++ [.nameSpaceAware b]) = chosenDoc opts := by
    intro b; simp only [chosenDoc, List.foldl_append]; rfl
  have n : ∀ b, chosenNs (opts ++ [.nameSpaceAware b]) = b := by
    intro b; simp only [chosenNs, List.foldl_append]; rfl
  have c : ∀ b, chosenDeep (opts ++ [.nameSpaceAware b]) = chosenDeep opts := by
    intro b; simp only [chosenDeep, List.foldl_append]; rfl
  have hf' : SelectWindow (opts ++ [.nameSpaceAware false]) doc o l :=
    ⟨(d _).trans h.window, h.nonempty, h.inside, h.size⟩
  have key := C34_stored_window_partial fuel _ doc o l hf' (n false) (by have := h.inside; omega) tree hb hs hp hf
  obtain ⟨out, k1, k2⟩ := parsedTokens_of.1 key
  have hx := C42_visible_exact fuel fuel opts doc o l out h.window hlen he (by rw [k2]; exact hq)
  rw [(C67_result fuel opts (opts ++ [.nameSpaceAware true]) h.args (d _).symm (by rw [hn, n]) (c _).symm).2]
  constructor
  · intro hw
    obtain ⟨out', h1, h2⟩ := parsedTokens_of.1 hw
    have h3 := C56_partial fuel fuel (opts ++ [.nameSpaceAware true]) doc o l out' ((d _).trans h.window) (by omega) he h1
    have h4 : parseResult fuel (opts ++ [.nameSpaceAware false]) = .value out' := by
      simp only [parseResult, newVtdParser, List.foldl_append, List.foldl_cons, List.foldl_nil, ParserArgs.apply] at h3 ⊢
      exact h3
    rw [k1] at h4
    cases h4
    have h5 := (hx.mp h1).2
    rw [h2] at h5
    exact ⟨h2.symm.trans k2, h5⟩
  · rintro ⟨rfl, h5⟩
    exact parsedTokens_of.2 ⟨out, hx.mpr ⟨k1, by rw [k2]; exact h5⟩, k2⟩

/-- C58 with namespace awareness, for documents with prefixes declared by declarations that the parser looks at. The limit
on the levels is the 63 of `VisiblePrefixes`, not the 255 of the property (`C58_refuted`). -/
theorem C58_visible_partial (fuel : Nat) (opts : List ParserOption) (doc : List UInt8) (o l : Nat)
    (h : SelectWindow opts doc o l) (hlen : doc.length < 2 ^ 30) (tree : Tree.Document)
    (hb : (doc.drop o).take l = tree.bytes) (hs : tree.Syntax) (hp : tree.Plain) (hf : tree.FitsElse)
    (hq : VisiblePrefixes doc ((docRec :: tree.stored o).map Rec.word))
    (h1 : ∀ t ∈ tree.tags, t.1 < 255)
    (h2 : ∀ t ∈ tree.tags, t.2.name.length ≤ 2047 ∧ ∀ a ∈ t.2.attrs, a.name.length ≤ 2047)
    (h3 : ∀ t ∈ tree.tags, lastColon 0 0 t.2.name ≤ 511 ∧ ∀ a ∈ t.2.attrs, lastColon 0 0 a.name ≤ 511) :
    Accepts fuel opts :=
  ⟨_, C34_stored_visible_partial fuel opts doc o l h hlen tree hb hs hp
    ⟨fun t ht => by have := h1 t ht; omega, h2, h3, hf.attrs, hf.values, hf.pis, hf.refs, hf.texts, hf.epilog⟩ hq⟩

open Tree in
/-- The sample of `Verif/Props/Scoped.lean` as a tree. -/
def belowTree : Tree.Document :=
  only (.element (tag "r")
    (.element [] ⟨bytes "a", [⟨bytes " ", bytes "xmlns:p", [], [], ch% '\'', lit "u"⟩], []⟩
      (.atom [] (.empty ⟨bytes "p:b", [⟨bytes " ", bytes "p:x", [], [], ch% '\'', lit "1"⟩], []⟩) (.text [])) []
      (.atom [] (.empty (tag "c")) (.text []))) [])

theorem belowTree_bytes : belowTree.bytes = belowRoot := by decide +kernel

theorem belowTree_syntax : belowTree.Syntax := Tree.Document.WellFormed.syn (by decide +kernel)

theorem belowTree_plain : belowTree.Plain := by
  refine ⟨nofun, fun t b sp e => ?_⟩
  simp only [belowTree, Tree.only, Tree.Root.element.injEq] at e
  obtain ⟨-, rfl, -⟩ := e
  refine ⟨nofun, ⟨nofun, nofun, nofun⟩, ?_, nofun, nofun⟩
  intro _ w b r h
  cases w <;> cases h

theorem belowTree_fits : belowTree.Fits :=
  (C34_fits 0 [.xmlDoc (some belowRoot)] belowRoot 0 (select_whole _ (by decide)) (by decide) belowTree
    belowTree_bytes.symm belowTree_syntax belowTree_plain).1
    (Option.isSome_iff_exists.1 (by decide +kernel : accepts belowRoot = true))

theorem belowTree_words : (docRec :: belowTree.stored ((0 : Nat) : Int)).map Rec.word = belowWords := by decide +kernel

/-- Non-vacuity of the three theorems. -/
example : parsedTokens 0 [.xmlDoc (some belowRoot), .nameSpaceAware true] = some belowWords ∧
    Accepts 0 [.xmlDoc (some belowRoot), .nameSpaceAware true] ∧ PrefixesVisible belowRoot belowWords ∧
    DeclarationsValid belowRoot belowWords ∧ LocalsDistinct belowRoot belowWords ∧ DeclarationsInReach belowRoot belowWords ∧
    NamesWithoutXmlns belowRoot belowWords := by
  have hl : belowRoot.length = 44 := by decide +kernel
  have hsel : SelectWindow [.xmlDoc (some belowRoot), .nameSpaceAware true] belowRoot 0 44 :=
    ⟨by rw [← hl]; exact rfl, by omega, by omega, by omega⟩
  have hb : (belowRoot.drop 0).take 44 = belowTree.bytes := by rw [← hl, belowTree_bytes]; simp
  have hq := belowRoot_visible
  have hr := belowRoot_declared
  rw [← belowTree_words] at hq hr
  have ha : ch% '&' ∉ belowRoot := by decide +kernel
  have he : NoEntityStart belowRoot := by
    refine ⟨?_, ?_, ?_, ?_⟩ <;> exact fun h => ha (h.subset (by decide))
  have hf := belowTree_fits
  have k1 := C34_stored_visible_partial 0 _ belowRoot 0 44 hsel (by omega) belowTree hb belowTree_syntax belowTree_plain hf hq
  have k2 := (C34_stored_visible_exact 0 _ belowRoot 0 44 hsel rfl (by omega) he belowTree hb belowTree_syntax belowTree_plain hf hr _).mp k1
  have k3 := C58_visible_partial 0 _ belowRoot 0 44 hsel (by omega) belowTree hb belowTree_syntax belowTree_plain hf.else hq
    (fun t ht => by have := hf.depth t ht; omega) hf.names hf.prefixes
  rw [belowTree_words] at k1 k2
  exact ⟨k1, k3, k2.2⟩

end GoVtd
