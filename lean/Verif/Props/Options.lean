import Verif.Props.Plain
import Verif.Props.Window

/-!
# Property C67: what the options of the parser decide; and C34 for every window
-/

namespace GoVtd
open Parser Grammar

/-- C67, the constructor: two lists of options that select the same document and window, the same namespace
awareness and the same depth of the location cache make the same parser. The order of the options, options
that later ones override, `WithBufferReuse` and cache depths other than 3 and 5 make no difference. -/
theorem C67_construct (fuel : Nat) (opts opts' : List ParserOption) (hg : GoArgs opts)
    (hd : chosenDoc opts = chosenDoc opts') (hn : chosenNs opts = chosenNs opts')
    (hc : chosenDeep opts = chosenDeep opts') : newVtdParser fuel opts = newVtdParser fuel opts' := by
  obtain ⟨a1, a2, a3, a4⟩ := args_chosen opts
  obtain ⟨b1, b2, b3, b4⟩ := args_chosen opts'
  have as := args_sum opts {} rfl
  have bs := args_sum opts' {} rfl
  rw [← hd] at b1 b2
  simp only [newVtdParser]
  generalize opts.foldl ParserArgs.apply {} = a at a1 a2 a3 a4 as
  generalize opts'.foldl ParserArgs.apply {} = b at b1 b2 b3 b4 bs
  rw [← hn] at b3
  rw [← hc] at b4
  cases hw : chosenDoc opts with
  | none =>
    rw [hw] at a1 b1
    rw [a1, b1]
    rfl
  | some w =>
    obtain ⟨doc, o, l⟩ := w
    obtain ⟨-, -, hl⟩ := hg _ _ _ hw
    rw [hw] at a1 b1
    obtain ⟨a5, a6⟩ := a2 _ _ _ hw
    obtain ⟨b5, b6⟩ := b2 _ _ _ hw
    rw [wrap64_id hl, or_self] at a6 b6
    have : a = b := by
      cases a; cases b
      simp only at a1 a3 a4 a5 a6 b1 b3 b4 b5 b6 as bs
      simp [a1, a3, a4, a5, a6, b1, b3, b4, b5, b6, as, bs]
    rw [this]

/-- C67: the outcome of construction and `Parse` depends on the selected document and window, the selected
namespace awareness and the selected cache depth only. -/
theorem C67_result (fuel : Nat) (opts opts' : List ParserOption) (hg : GoArgs opts)
    (hd : chosenDoc opts = chosenDoc opts') (hn : chosenNs opts = chosenNs opts')
    (hc : chosenDeep opts = chosenDeep opts') :
    parseResult fuel opts = parseResult fuel opts' ∧ parsedTokens fuel opts = parsedTokens fuel opts' := by
  have := C67_construct fuel opts opts' hg hd hn hc
  simp only [parseResult, parsedTokens, parsed, this, and_self]

/-- C67 in terms of single options: where `WithBufferReuse` stands in the list does not matter, and neither
does any other option that a later one of its kind overrides. -/
theorem C67_override (fuel : Nat) (before between after : List ParserOption) (x y : ParserOption)
    (hg : GoArgs (before ++ x :: between ++ y :: after))
    (hxy : (∃ b, x = .bufferReuse b) ∨ (∃ b b', x = .nameSpaceAware b ∧ y = .nameSpaceAware b') ∨
      (∃ d d', x = .lcDepth d ∧ y = .lcDepth d' ∧ (d' = 3 ∨ d' = 5)) ∨
      ((∃ d, x = .xmlDoc d) ∨ ∃ d o l, x = .xmlDocCustomOffset d o l) ∧
        ((∃ d, y = .xmlDoc d) ∨ ∃ d o l, y = .xmlDocCustomOffset d o l)) :
    parseResult fuel (before ++ x :: between ++ y :: after) = parseResult fuel (before ++ between ++ y :: after) := by
  refine (C67_result fuel _ _ hg ?_ ?_ ?_).1
  all_goals
    simp only [chosenDoc, chosenNs, chosenDeep, List.foldl_append, List.foldl_cons]
    rcases hxy with ⟨b, rfl⟩ | ⟨b, b', rfl, rfl⟩ | ⟨d, d', rfl, rfl, rfl | rfl⟩ | ⟨⟨d, rfl⟩ | ⟨d, o, l, rfl⟩, ⟨d', rfl⟩ | ⟨d', o', l', rfl⟩⟩ <;>
      rfl

/-- Non-vacuity: options that are given twice, in another order and with irrelevant ones in between. -/
example : GoArgs [.xmlDoc none, .nameSpaceAware false, .lcDepth 5, .bufferReuse true, .lcDepth 4,
      .xmlDocCustomOffset (some (bytes "xx<a b='1'>t<c/></a>y")) 2 18, .nameSpaceAware true] ∧
    parseResult 9 [.xmlDoc none, .nameSpaceAware false, .lcDepth 5, .bufferReuse true, .lcDepth 4,
      .xmlDocCustomOffset (some (bytes "xx<a b='1'>t<c/></a>y")) 2 18, .nameSpaceAware true] =
    parseResult 9 [.nameSpaceAware true, .xmlDocCustomOffset (some (bytes "xx<a b='1'>t<c/></a>y")) 2 18, .lcDepth 5] ∧
    (parsedTokens 9 [.nameSpaceAware true, .xmlDocCustomOffset (some (bytes "xx<a b='1'>t<c/></a>y")) 2 18,
      .lcDepth 5]).isSome = true := by
  have hg : GoArgs [.xmlDoc none, .nameSpaceAware false, .lcDepth 5, .bufferReuse true, .lcDepth 4,
      .xmlDocCustomOffset (some (bytes "xx<a b='1'>t<c/></a>y")) 2 18, .nameSpaceAware true] := by
    intro doc o l h
    have : (bytes "xx<a b='1'>t<c/></a>y", (2 : Int), (18 : Int)) = (doc, o, l) := Option.some.inj h
    simp only [Prod.mk.injEq] at this
    obtain ⟨rfl, rfl, rfl⟩ := this
    simp only [IsInt]
    decide
  refine ⟨hg, (C67_result 9 _ _ hg ?_ ?_ ?_).1, by decide +kernel⟩ <;> decide +kernel

/-! ## Windows -/

/-- The options select the window `doc[o : o + l]` of a slice, which is not empty. -/
structure SelectWindow (opts : List ParserOption) (doc : List UInt8) (o l : Nat) : Prop where
  window : chosenDoc opts = some (doc, (o : Int), (l : Int))
  nonempty : 0 < l
  inside : o + l ≤ doc.length
  size : doc.length < 2 ^ 63

/-- The same options for another slice and window. -/
def reselect (opts : List ParserOption) (doc : List UInt8) (o l : Nat) : List ParserOption :=
  opts ++ [.xmlDocCustomOffset (some doc) o l]

theorem SelectWindow.args {opts : List ParserOption} {doc : List UInt8} {o l : Nat} (h : SelectWindow opts doc o l) :
    GoArgs opts := by
  have := h.inside
  have := h.size
  intro d o' l' hc
  rw [h.window] at hc
  cases hc
  simp only [IsInt]
  omega

theorem reselect_same {opts : List ParserOption} {doc : List UInt8} {o l : Nat} (fuel : Nat)
    (h : SelectWindow opts doc o l) : newVtdParser fuel opts = newVtdParser fuel (reselect opts doc o l) := by
  refine C67_construct fuel _ _ h.args ?_ ?_ ?_
  · rw [h.window]; simp only [reselect, chosenDoc, List.foldl_append]; rfl
  · simp only [reselect, chosenNs, List.foldl_append]; rfl
  · simp only [reselect, chosenDeep, List.foldl_append]; rfl

/-- C51 for every list of options: if `Parse` comes back when the slice is cut off at the end of the window,
then the outcome is the same with whatever follows. -/
theorem C51_options_partial (fuel : Nat) (opts opts' : List ParserOption) (doc rest : List UInt8) (o l : Nat)
    (h : SelectWindow opts doc o l) (h' : SelectWindow opts' (doc ++ rest) o l)
    (hn : chosenNs opts = chosenNs opts') (hc : chosenDeep opts = chosenDeep opts')
    (hr : (parseResult fuel opts).Returns) : parseResult fuel opts' = parseResult fuel opts := by
  have e : parseResult fuel opts = parseResult fuel (reselect opts doc o l) := by
    simp only [parseResult, reselect_same fuel h]
  have e' : parseResult fuel opts' = parseResult fuel (reselect opts (doc ++ rest) o l) := by
    have : newVtdParser fuel opts' = newVtdParser fuel (reselect opts (doc ++ rest) o l) := by
      refine C67_construct fuel _ _ h'.args ?_ ?_ ?_
      · rw [h'.window]; simp only [reselect, chosenDoc, List.foldl_append]; rfl
      · rw [← hn]; simp only [reselect, chosenNs, List.foldl_append]; rfl
      · rw [← hc]; simp only [reselect, chosenDeep, List.foldl_append]; rfl
    simp only [parseResult, this]
  rw [e] at hr ⊢
  rw [e']
  have := h.inside
  have := h.size
  have := h.nonempty
  have hd : doc ≠ [] := by rintro rfl; simp only [List.length_nil] at *; omega
  exact C51_partial fuel opts doc rest o l hd (by omega) (by omega) h.size hr

theorem parsedTokens_of {fuel : Nat} {opts : List ParserOption} {ws : List (BitVec 64)} :
    parsedTokens fuel opts = some ws ↔ ∃ out, parseResult fuel opts = .value out ∧ out.vtdBuffer.values = ws := by
  simp only [parsedTokens, parsed, parseResult]
  cases newVtdParser fuel opts with
  | error e => simp
  | ok p =>
    dsimp only
    generalize Parser.parse p = r
    cases r <;> simp

/-- C34 for every window, for trees within the limits of the parser: wherever the serialisation of a
well-formed tree stands in a slice, with any bytes before and after it, selecting it gives exactly the token
records of the tree. -/
theorem C34_window_partial (fuel : Nat) (opts : List ParserOption) (doc : List UInt8) (o l : Nat)
    (h : SelectWindow opts doc o l) (hn : chosenNs opts = false) (hlen : o + l < 2 ^ 31) (tree : Tree.Document)
    (hb : (doc.drop o).take l = tree.bytes) (hw : tree.WellFormed) (hs : tree.Supported) :
    parsedTokens fuel opts = some ((docRec :: tree.recs o).map Rec.word) := by
  have h1 := h.nonempty
  have h2 := h.inside
  have hl : (doc.take (o + l)).length = o + l := by rw [List.length_take]; omega
  have hc : SelectWindow (reselect opts (doc.take (o + l)) o l) (doc.take (o + l)) o l := by
    refine ⟨?_, h1, by omega, by rw [hl]; omega⟩
    simp only [reselect, chosenDoc, List.foldl_append]; rfl
  have ns : chosenNs (reselect opts (doc.take (o + l)) o l) = chosenNs opts := by
    simp only [reselect, chosenNs, List.foldl_append]; rfl
  have dp : chosenDeep (reselect opts (doc.take (o + l)) o l) = chosenDeep opts := by
    simp only [reselect, chosenDeep, List.foldl_append]; rfl
  have hr : SelectRest (reselect opts (doc.take (o + l)) o l) (doc.take (o + l)) o :=
    ⟨⟨l, hc.window, by omega⟩, ⟨by omega, by omega⟩, ns.trans hn⟩
  have hbytes : (doc.take (o + l)).drop o = tree.bytes := by
    rw [List.drop_take, Nat.add_sub_cancel_left]; exact hb
  have key := C34_partial fuel _ _ o hr (by omega) tree hbytes hw hs
  obtain ⟨out, k1, k2⟩ := parsedTokens_of.1 key
  refine parsedTokens_of.2 ⟨out, ?_, k2⟩
  rw [← k1]
  refine C51_options_partial fuel _ opts (doc.take (o + l)) (doc.drop (o + l)) o l hc ?_ ns dp (by rw [k1]; trivial)
  rw [List.take_append_drop]; exact h

/-- C34 with namespace awareness, for trees within the limits of the parser that call for no prefixes. -/
theorem C34_aware_partial (fuel : Nat) (opts : List ParserOption) (doc : List UInt8) (o l : Nat)
    (h : SelectWindow opts doc o l) (hlen : doc.length < 2 ^ 30) (tree : Tree.Document)
    (hb : (doc.drop o).take l = tree.bytes) (hw : tree.WellFormed) (hs : tree.Supported)
    (hp : NoPrefixes doc ((docRec :: tree.recs o).map Rec.word)) :
    parsedTokens fuel opts = some ((docRec :: tree.recs o).map Rec.word) := by
  cases hn : chosenNs opts with
  | false => exact C34_window_partial fuel opts doc o l h hn (by have := h.inside; omega) tree hb hw hs
  | true =>
    have d : ∀ b, chosenDoc (opts ++ [.nameSpaceAware b]) = chosenDoc opts := by
      intro b; simp only [chosenDoc, List.foldl_append]; rfl
    have n : ∀ b, chosenNs (opts ++ [.nameSpaceAware b]) = b := by
      intro b; simp only [chosenNs, List.foldl_append]; rfl
    have c : ∀ b, chosenDeep (opts ++ [.nameSpaceAware b]) = chosenDeep opts := by
      intro b; simp only [chosenDeep, List.foldl_append]; rfl
    have hf : SelectWindow (opts ++ [.nameSpaceAware false]) doc o l :=
      ⟨(d _).trans h.window, h.nonempty, h.inside, h.size⟩
    have key := C34_window_partial fuel _ doc o l hf (n false) (by have := h.inside; omega) tree hb hw hs
    obtain ⟨out, k1, k2⟩ := parsedTokens_of.1 key
    rw [(C67_result fuel opts (opts ++ [.nameSpaceAware true]) h.args (d _).symm (by rw [hn, n]) (c _).symm).2]
    exact parsedTokens_of.2 ⟨out, C60_partial fuel fuel opts doc o l out h.window hlen k1 (by rw [k2]; exact hp), k2⟩

open Tree in
/-- Non-vacuity: the document with every construct in the middle of a slice. -/
example : parsedTokens 0 [.xmlDocCustomOffset (some (bytes "<<<" ++ full.bytes ++ bytes "<!--")) 3 (full.bytes.length : Nat)] =
    some ((docRec :: full.recs 3).map Rec.word) := by
  refine C34_window_partial 0 _ (bytes "<<<" ++ full.bytes ++ bytes "<!--") 3 full.bytes.length ⟨rfl, ?_, ?_, ?_⟩ rfl ?_
    full ?_ ?_ ?_ <;> decide +kernel

/-- A document without prefixes: `<a x="1"><e>t</e><g/></a>`. -/
def Tree.unprefixed : Tree.Document where
  decl := none
  prolog := []
  space := []
  root := .element ⟨bytes "a", [⟨bytes " ", bytes "x", [], [], ch% '"', Tree.lit "1"⟩], []⟩
    (.element [] (Tree.tag "e") (.text (Tree.lit "t")) [] (.atom [] (.empty (Tree.tag "g")) (.text []))) []
  epilog := []
  space1 := []

open Tree in
/-- Non-vacuity: namespace-aware, in the middle of a slice. -/
example : parsedTokens 9 [.nameSpaceAware true,
      .xmlDocCustomOffset (some (bytes "</" ++ unprefixed.bytes ++ bytes "<")) 2 (unprefixed.bytes.length : Nat)] =
    some ((docRec :: unprefixed.recs 2).map Rec.word) := by
  have key : ((docRec :: unprefixed.recs 2).map Rec.word).all (fun w =>
      decide (ch% ':' ∉ qname (bytes "</" ++ unprefixed.bytes ++ bytes "<") w) && decide (tokenDepth w ≤ 64 ∨ ¬ IsStart w) &&
        decide (tokenType w ≠ Token.attrNs.code)) = true := by
    decide +kernel
  simp only [List.all_eq_true, Bool.and_eq_true, decide_eq_true_eq] at key
  refine C34_aware_partial 9 _ (bytes "</" ++ unprefixed.bytes ++ bytes "<") 2 unprefixed.bytes.length ⟨rfl, ?_, ?_, ?_⟩ ?_
    unprefixed ?_ ?_ ?_ ⟨fun w hw _ => (key w hw).1.1, fun w hw hs => (key w hw).1.2.resolve_right fun h => h hs,
      fun i w v hw _ ha => absurd ha (key w (List.mem_of_getElem? hw)).2⟩ <;> decide +kernel

end GoVtd
