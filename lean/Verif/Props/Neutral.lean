import Verif.Props.Pages

/-!
# Windows and namespace-aware parsing

C34, C47 and C58 for documents that end before the slice does, and for namespace-aware parsing where namespaces play no part
(`NsNeutral`, `Verif/Spec/Elems.lean`).
-/

namespace GoVtd

open Parser Grammar

/-- C34 for every tree that fits, in every window and both modes: if `Parse` accepts, the records are those of the
tree. -/
theorem C34_neutral_partial (fuel : Nat) (opts : List ParserOption) (doc : List UInt8) (o l : Nat)
    (h : SelectWindow opts doc o l) (hlen : o + l < 2 ^ 31) (tree : Tree.Document) (hn : NsNeutral opts doc o tree)
    (hb : (doc.drop o).take l = tree.bytes) (hs : tree.Syntax) (hp : tree.Plain) (hf : tree.Fits)
    (ws : List (BitVec 64)) (hw : parsedTokens fuel opts = some ws) : ws = (docRec :: tree.stored o).map Rec.word := by
  rw [parsedTokens, Option.map_eq_some_iff] at hw
  obtain ⟨p, hp', rfl⟩ := hw
  exact parsed_stored h hlen hn hb hs hp hf hp'

/-- C47 in every window and both modes: as `C47_document_exact`. -/
theorem C47_neutral_exact (fuel : Nat) (opts : List ParserOption) (doc : List UInt8) (o l : Nat)
    (h : SelectWindow opts doc o l) (hlen : o + l < 2 ^ 31) (tree : Tree.Document) (hn : NsNeutral opts doc o tree)
    (hb : (doc.drop o).take l = tree.bytes) (hs : tree.Syntax) (hp : tree.Plain) (hf : tree.Fits)
    (ws : List (BitVec 64)) (hw : parsedTokens fuel opts = some ws) (s : Tree.Span) (hm : s ∈ tree.spans o) :
    (doc.drop s.off).take s.data.length = s.data ∧
    ∃ a rs b, ws = a ++ rs ++ b ∧ (∀ w ∈ rs, tokenType w = s.tok.code) ∧
      Covers (if s.data.length ≤ maxLen then s.off else 0) s.data.length rs := by
  have hin := h.inside
  obtain rfl := C34_neutral_partial fuel opts doc o l h hlen tree hn hb hs hp hf ws hw
  obtain ⟨⟨⟨x, y, h1, h2⟩, u, v, h3⟩, h4⟩ := Tree.Document.spans_in hf hm
  obtain ⟨e1, e2, e3⟩ := window_eq hin hb
  have ht : (doc.take (o + l)).length = o + l := by rw [List.length_take]; omega
  rw [h1] at e3
  simp only [List.length_append] at e3
  refine ⟨?_, ?_⟩
  · rw [e1, h1, h2]
    rw [show o + x.length = (doc.take o ++ x).length by simp [e2]]
    rw [show doc.take o ++ (x ++ (s.data ++ y)) ++ doc.drop (o + l) = (doc.take o ++ x) ++ (s.data ++ (y ++ doc.drop (o + l))) by simp,
      List.drop_left, List.take_left]
  · obtain ⟨k1, k2⟩ := covers_textRecs (doc := doc.take (o + l)) (by omega) (t := s.tok)
      (by rcases Tree.Span.tok_of hm with e | e | e <;> rw [e] <;> decide) (o := s.off) (l := s.data.length)
      (d := (s.depth : Int) - 1) (by omega) (by omega) (by omega)
    refine ⟨(docRec :: u).map Rec.word, _, v.map Rec.word, ?_, fun w hw => (k2 w hw).1, k1⟩
    rw [← h3]; simp

/-- C58 in every window: a document of the right syntax within the other limits is accepted as long as no element is inside of 255
others, no name is longer than 2047 bytes and no prefix longer than 511 bytes. -/
theorem C58_window_partial (fuel : Nat) (opts : List ParserOption) (doc : List UInt8) (o l : Nat)
    (h : SelectWindow opts doc o l) (hn : chosenNs opts = false) (hlen : o + l < 2 ^ 31) (tree : Tree.Document)
    (hb : (doc.drop o).take l = tree.bytes) (hs : tree.Syntax) (hp : tree.Plain) (hf : tree.FitsElse)
    (h1 : ∀ t ∈ tree.tags, t.1 < 255)
    (h2 : ∀ t ∈ tree.tags, t.2.name.length ≤ 2047 ∧ ∀ a ∈ t.2.attrs, a.name.length ≤ 2047)
    (h3 : ∀ t ∈ tree.tags, lastColon 0 0 t.2.name ≤ 511 ∧ ∀ a ∈ t.2.attrs, lastColon 0 0 a.name ≤ 511) :
    Accepts fuel opts :=
  ⟨_, C34_stored_window_partial fuel opts doc o l h hn hlen tree hb hs hp
    ⟨fun t ht => by have := h1 t ht; omega, h2, h3, hf.attrs, hf.values, hf.pis, hf.refs, hf.texts, hf.epilog⟩⟩

/-- C58 with namespace awareness, for documents in which nothing calls for prefixes. -/
theorem C58_aware_partial (fuel : Nat) (opts : List ParserOption) (doc : List UInt8) (o l : Nat)
    (h : SelectWindow opts doc o l) (hlen : doc.length < 2 ^ 30) (tree : Tree.Document)
    (hb : (doc.drop o).take l = tree.bytes) (hs : tree.Syntax) (hp : tree.Plain) (hf : tree.FitsElse)
    (hq : NoPrefixes doc ((docRec :: tree.stored o).map Rec.word))
    (h1 : ∀ t ∈ tree.tags, t.1 < 255)
    (h2 : ∀ t ∈ tree.tags, t.2.name.length ≤ 2047 ∧ ∀ a ∈ t.2.attrs, a.name.length ≤ 2047)
    (h3 : ∀ t ∈ tree.tags, lastColon 0 0 t.2.name ≤ 511 ∧ ∀ a ∈ t.2.attrs, lastColon 0 0 a.name ≤ 511) :
    Accepts fuel opts :=
  ⟨_, C34_stored_aware_partial fuel opts doc o l h hlen tree hb hs hp
    ⟨fun t ht => by have := h1 t ht; omega, h2, h3, hf.attrs, hf.values, hf.pis, hf.refs, hf.texts, hf.epilog⟩ hq⟩

/-! ## Documents -/

/-- Non-vacuity of `C34_neutral_partial` and `C47_neutral_exact`: the text in the document with prefixes, parsed with namespace awareness,
is record number 6. -/
example : ∃ ws a rs b, parsedTokens 0 prefixTreeOpts = some ws ∧ ws = (docRec :: prefixTree.stored (0 : Nat)).map Rec.word ∧
    ws = a ++ rs ++ b ∧ Covers 26 1 rs := by
  obtain ⟨ws, hw⟩ := Option.isSome_iff_exists.1 (by decide +kernel : (parsedTokens 0 prefixTreeOpts).isSome = true)
  have hl : prefixTreeDoc.length = 43 := by decide +kernel
  have hsel : SelectWindow prefixTreeOpts prefixTreeDoc 0 43 := ⟨by rw [← hl]; exact rfl, by omega, by omega, by omega⟩
  have hb : (prefixTreeDoc.drop 0).take 43 = prefixTree.bytes := by rw [← hl, prefixTree_bytes]; simp
  have hg := prefixTree_regular
  have hsp : ((prefixTree.spans 0)[0]?.map fun s => (s.off, s.data.length)) = some (26, 1) := by decide +kernel
  obtain ⟨s, hs, e⟩ := Option.map_eq_some_iff.1 hsp
  simp only [Prod.mk.injEq] at e
  obtain ⟨-, a, rs, b, h1, -, h2⟩ := C47_neutral_exact 0 prefixTreeOpts prefixTreeDoc 0 43 hsel (by decide) prefixTree prefixTree_neutral hb
    hg.syn hg.plain hg.fits ws hw s (List.mem_of_getElem? hs)
  rw [e.1, e.2, if_pos (by decide)] at h2
  exact ⟨ws, a, rs, b, hw, C34_neutral_partial 0 prefixTreeOpts prefixTreeDoc 0 43 hsel (by decide) prefixTree prefixTree_neutral hb
    hg.syn hg.plain hg.fits ws hw, h1, h2⟩

theorem Tree.Document.Fits.else {d : Tree.Document} (h : d.Fits) : d.FitsElse := ⟨h.attrs, h.values, h.pis, h.refs, h.texts, h.epilog⟩

def fourSlice : List UInt8 := bytes "zz<a><b/><c><d><e/></d></c></a>z"

def fourWindow (b : Bool) : List ParserOption := [.xmlDocCustomOffset (some fourSlice) 2 29, .nameSpaceAware b]

theorem fourSlice_length : fourSlice.length = 32 := by decide +kernel

theorem fourWindow_select (b : Bool) : SelectWindow (fourWindow b) fourSlice 2 29 :=
  ⟨rfl, by decide, by rw [fourSlice_length]; decide, by rw [fourSlice_length]; decide⟩

theorem fourSlice_bytes : (fourSlice.drop 2).take 29 = fourDoc.bytes := by decide +kernel

theorem fourSlice_words : ((parsedTokens 0 (fourWindow false)).getD []).all (fun w => decide ((IsStart w ∨ IsAttr w → ch% ':' ∉ qname fourSlice w) ∧
    (IsStart w → tokenDepth w ≤ 64) ∧ tokenType w ≠ Token.attrNs.code)) = true := by decide +kernel

/-- Non-vacuity of `C58_window_partial` and `C58_aware_partial`: a document in the middle of a slice, in both modes. -/
example : Accepts 0 (fourWindow false) ∧ Accepts 0 (fourWindow true) := by
  have hg := fourDoc_regular
  have hf := hg.fits
  have hd : ∀ t ∈ fourDoc.tags, t.1 < 255 := fun t ht => by have := hf.depth t ht; omega
  have hw := fourSlice_words
  rw [C34_stored_window_partial 0 (fourWindow false) fourSlice 2 29 (fourWindow_select false) rfl (by decide) fourDoc fourSlice_bytes hg.syn hg.plain
    hf, Option.getD_some, List.all_eq_true] at hw
  replace hw := fun w h => of_decide_eq_true (hw w h)
  have hq : NoPrefixes fourSlice ((docRec :: fourDoc.stored ((2 : Nat) : Int)).map Rec.word) :=
    ⟨fun w h => (hw w h).1, fun w h => (hw w h).2.1, fun i w v h _ ht => absurd ht (hw w (List.mem_of_getElem? h)).2.2⟩
  exact ⟨C58_window_partial 0 (fourWindow false) fourSlice 2 29 (fourWindow_select false) rfl (by decide) fourDoc fourSlice_bytes hg.syn hg.plain
      hf.else hd hf.names hf.prefixes,
    C58_aware_partial 0 (fourWindow true) fourSlice 2 29 (fourWindow_select true) (by rw [fourSlice_length]; decide) fourDoc fourSlice_bytes hg.syn
      hg.plain hf.else hq hd hf.names hf.prefixes⟩

end GoVtd
