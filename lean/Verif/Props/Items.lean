import Verif.Proofs.Parser.Items
import Verif.Props.Options

/-!
# C68: the tokens spell out the document
-/

namespace GoVtd

open Parser Grammar

theorem window_eq {doc : List UInt8} {o l : Nat} {s : List UInt8} (hi : o + l ≤ doc.length) (hb : (doc.drop o).take l = s) :
    doc = doc.take o ++ s ++ doc.drop (o + l) ∧ (doc.take o).length = o ∧ s.length = l := by
  subst hb
  refine ⟨?_, by simp; omega, by simp; omega⟩
  rw [List.append_assoc, ← List.drop_drop, List.take_append_drop, List.take_append_drop]

/-- C68 for the well-formed documents within the limits of `Supported`, in any window, parsed without namespace awareness:
the tokens read as the items of the document, in order. -/
theorem C68_partial (fuel : Nat) (opts : List ParserOption) (doc : List UInt8) (o l : Nat)
    (h : SelectWindow opts doc o l) (hn : chosenNs opts = false) (hlen : o + l < 2 ^ 31) (tree : Tree.Document)
    (hb : (doc.drop o).take l = tree.bytes) (hw : tree.WellFormed) (hs : tree.Supported) :
    (parsedTokens fuel opts).map (List.map (readToken doc)) = some tree.items := by
  rw [C34_window_partial fuel opts doc o l h hn hlen tree hb hw hs, Option.map_some]
  obtain ⟨e1, e2, e3⟩ := window_eq h.inside hb
  have := Tree.Document.spell hw hs (pre := doc.take o) (post := doc.drop (o + l)) (by rw [List.length_append]; omega)
  rw [← e1, e2] at this
  rw [this]

/-- C68 in every mode, for documents without prefixes (`Verif/Spec/Plain.lean`). -/
theorem C68_aware_partial (fuel : Nat) (opts : List ParserOption) (doc : List UInt8) (o l : Nat)
    (h : SelectWindow opts doc o l) (hlen : doc.length < 2 ^ 30) (tree : Tree.Document)
    (hb : (doc.drop o).take l = tree.bytes) (hw : tree.WellFormed) (hs : tree.Supported)
    (hp : NoPrefixes doc ((docRec :: tree.recs o).map Rec.word)) :
    (parsedTokens fuel opts).map (List.map (readToken doc)) = some tree.items := by
  rw [C34_aware_partial fuel opts doc o l h hlen tree hb hw hs hp, Option.map_some]
  have hi := h.inside
  obtain ⟨e1, e2, e3⟩ := window_eq hi hb
  have := Tree.Document.spell hw hs (pre := doc.take o) (post := doc.drop (o + l)) (by rw [List.length_append]; omega)
  rw [← e1, e2] at this
  rw [this]

/-- A whole slice as a window. -/
theorem select_all (doc : List UInt8) (h : doc ≠ []) (hl : doc.length < 2 ^ 31) : SelectWindow [.xmlDoc (some doc)] doc 0 doc.length := by
  have := List.length_pos_iff.2 h
  exact ⟨rfl, by omega, by omega, by omega⟩

/-- The items of a document do not depend on the tree that is chosen for its bytes. -/
theorem C68_unique {t t' : Tree.Document} (h : t.WellFormed) (hs : t.Supported) (h' : t'.WellFormed) (hs' : t'.Supported)
    (hl : t.bytes.length < 2 ^ 31) (e : t.bytes = t'.bytes) : t.items = t'.items := by
  have k := Tree.Document.doc (n := t.bytes.length) h hs
  have hn : t.bytes ≠ [] := by
    intro he
    rw [he] at k
    generalize hz : ([] : List UInt8) = z at k
    generalize t.recs _ = recs at k
    cases k <;> simp at hz
  have a := C68_partial 0 _ t.bytes 0 t.bytes.length (select_all _ hn hl) rfl (by omega) t (by simp) h hs
  have b := C68_partial 0 _ t.bytes 0 t.bytes.length (select_all _ hn hl) rfl (by omega) t' (by simp [e]) h' hs'
  rw [a] at b
  exact Option.some.inj b

open Tree in
/-- Non-vacuity: what the tokens of a document with every construct spell. -/
example : (parsedTokens 0 [.xmlDoc (some full.bytes)]).map (List.map (readToken full.bytes)) = some full.items ∧
    full.items.map (fun x => (x.kind, x.depth, x.text)) =
      [(13, -1, []), (9, -1, bytes "version"), (10, -1, bytes "1.0"), (9, -1, bytes "encoding"), (10, -1, bytes "UTF-8"),
       (9, -1, bytes "standalone"), (10, -1, bytes "no"), (6, -1, bytes "c"), (7, -1, bytes "p"), (8, -1, bytes "d"),
       (0, 0, bytes "a"), (2, 0, bytes "x:b"), (4, 0, bytes "1&amp;2"), (3, 0, bytes "xmlns"), (4, 0, bytes "u"),
       (0, 1, bytes "e"), (5, 1, bytes "t&#65;"), (11, 0, bytes "]"), (0, 1, bytes "f"), (5, 1, []), (5, 0, bytes "x"),
       (0, 1, bytes "g"), (7, 0, bytes "q"), (8, 0, []), (7, -1, bytes "r"), (8, -1, bytes "s")] := by
  refine ⟨C68_partial 0 _ full.bytes 0 full.bytes.length ?_ rfl (by decide +kernel) full (by simp) (by decide +kernel)
    (by decide +kernel), by decide +kernel⟩
  exact select_all _ (by decide +kernel) (by decide +kernel)

open Tree in
/-- C68 is false of names with a prefix: the token of the element in `<abc:d/>` reads `abc:d/>`. -/
theorem C68_refuted : (only (.empty (tag "abc:d"))).WellFormed ∧
    (parsedTokens 0 [.xmlDoc (some (bytes "<abc:d/>"))]).map (List.map (readToken (bytes "<abc:d/>"))) =
      some [⟨13, -1, []⟩, ⟨0, 0, bytes "abc:d/>"⟩] ∧
    (only (.empty (tag "abc:d"))).items = [⟨13, -1, []⟩, ⟨0, 0, bytes "abc:d"⟩] := by
  refine ⟨by decide +kernel, by decide +kernel, by decide +kernel⟩

end GoVtd
