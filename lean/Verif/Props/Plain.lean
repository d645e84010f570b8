import Verif.Proofs.Parser.PlainParse
import Verif.Props.NsOnly

/-!
# Property C60: a document without prefixes parses the same with namespace awareness

`C60_partial` proves it for documents nested at most 65 deep whose long default namespace names do not begin
with an entity; `C60_deep_refuted` and `C60_entity_refuted` show that neither restriction can be dropped.
-/

namespace GoVtd
open Parser

theorem newVtdParser_aware {fuel fuel' : Nat} {opts : List ParserOption} {p : Parser}
    (h : newVtdParser fuel (opts ++ [.nameSpaceAware false]) = .ok p) :
    p.cfg.nsAware = false ∧ newVtdParser fuel' (opts ++ [.nameSpaceAware true]) = .ok (Plain.aware fuel' p.ns p) := by
  have e : ∀ b, (opts ++ [ParserOption.nameSpaceAware b]).foldl ParserArgs.apply {} =
      { opts.foldl ParserArgs.apply {} with nsAware := b } := by
    intro b
    rw [List.foldl_append]; rfl
  simp only [newVtdParser, e] at h ⊢
  generalize opts.foldl ParserArgs.apply {} = a at h ⊢
  cases hd : a.doc with
  | none => rw [hd] at h; cases h
  | some doc =>
    rw [hd] at h
    simp only at h ⊢
    by_cases h1 : doc.length = 0
    · rw [if_pos h1] at h; cases h
    rw [if_neg h1] at h ⊢
    by_cases h2 : a.offset < 0
    · rw [if_pos h2] at h; cases h
    rw [if_neg h2] at h ⊢
    by_cases h3 : a.length = 0 ∨ wrap64 (a.offset + a.length) > doc.length
    · rw [if_pos h3] at h; cases h
    rw [if_neg h3] at h ⊢
    cases h4 : Reader.newUtf8 (some doc) a.offset a.endOffset with
    | error e => rw [h4] at h; cases h
    | ok rd =>
      rw [h4] at h
      simp only [Except.ok.injEq] at h ⊢
      rw [← h]
      exact ⟨rfl, rfl⟩

/-- C60 for documents of less than 2^30 bytes, nested at most 65 deep, whose names contain no colon and whose
long default namespace names do not begin with an entity: what the parser accepts without namespace awareness
it also accepts with it, and the token records and location caches are the same. -/
theorem C60_partial (fuel fuel' : Nat) (opts : List ParserOption) (doc : List UInt8) (o l : Int) (out : ParserOut)
    (hd : chosenDoc opts = some (doc, o, l)) (hl : doc.length < 2 ^ 30)
    (h : parseResult fuel (opts ++ [.nameSpaceAware false]) = .value out) (hn : NoPrefixes doc out.vtdBuffer.values) :
    parseResult fuel' (opts ++ [.nameSpaceAware true]) = .value out := by
  simp only [parseResult] at h ⊢
  cases hp : newVtdParser fuel (opts ++ [.nameSpaceAware false]) with
  | error e => rw [hp] at h; cases h
  | ok p =>
    rw [hp] at h
    have hx : p.cfg.xmlDoc = doc := by
      have h1 := newVtdParser_doc hp
      rw [(args_chosen _).1] at h1
      have e : chosenDoc (opts ++ [.nameSpaceAware false]) = chosenDoc opts := by
        simp only [chosenDoc, List.foldl_append]; rfl
      rw [e, hd] at h1
      exact (Option.some.inj h1).symm
    obtain ⟨ha, hb⟩ := newVtdParser_aware (fuel' := fuel') hp
    rw [hb]
    simp only at h ⊢
    cases hq : Parser.parse p with
    | ok u p' =>
      rw [hq] at h
      cases h
      have hf := newVtdParser_fresh hp
      obtain ⟨t', h1, h2⟩ := Plain.parse_aware (f := fuel') hf ha (by have := hf.end1; rw [hx] at this; omega)
        hq (by rw [hx]; exact hn)
      rw [h1]
      simp only [h2]
    | err e p' => rw [hq] at h; cases h
    | panic => rw [hq] at h; cases h
    | diverge => rw [hq] at h; cases h

/-- With `C56_partial`: for such a document the two parsers accept alike, with the same results. -/
theorem C60_iff_partial (fuel fuel' : Nat) (opts : List ParserOption) (doc : List UInt8) (o l : Int) (out : ParserOut)
    (hd : chosenDoc opts = some (doc, o, l)) (hl : doc.length < 2 ^ 30) (he : NoEntityStart doc)
    (hn : NoPrefixes doc out.vtdBuffer.values) :
    parseResult fuel (opts ++ [.nameSpaceAware true]) = .value out ↔
      parseResult fuel' (opts ++ [.nameSpaceAware false]) = .value out := by
  constructor
  · intro h
    have hd' : chosenDoc (opts ++ [.nameSpaceAware true]) = some (doc, o, l) := by
      rw [← hd]; simp only [chosenDoc, List.foldl_append]; rfl
    have := C56_partial fuel fuel' (opts ++ [.nameSpaceAware true]) doc o l out hd' (by omega) he h
    simp only [parseResult, newVtdParser, List.foldl_append, List.foldl_cons, List.foldl_nil, ParserArgs.apply] at this ⊢
    exact this
  · intro h
    exact C60_partial fuel' fuel opts doc o l out hd hl h hn

/-- In terms of the document alone, but for the nesting: no colon and no ampersand in the document. -/
theorem C60_plain_partial (fuel fuel' : Nat) (opts : List ParserOption) (doc : List UInt8) (o l : Int) (out : ParserOut)
    (hd : chosenDoc opts = some (doc, o, l)) (hl : doc.length < 2 ^ 30) (hc : ch% ':' ∉ doc) (ha : ch% '&' ∉ doc)
    (hn : ∀ w ∈ out.vtdBuffer.values, IsStart w → tokenDepth w ≤ 64) :
    parseResult fuel (opts ++ [.nameSpaceAware true]) = .value out ↔
      parseResult fuel' (opts ++ [.nameSpaceAware false]) = .value out := by
  have hmem : ∀ {p : List UInt8}, p <:+: doc → ch% '&' ∉ p := fun h hm => ha (h.subset hm)
  refine C60_iff_partial fuel fuel' opts doc o l out hd hl ⟨?_, ?_, ?_, ?_⟩ ⟨?_, hn, ?_⟩
  · exact fun h => hmem h (by decide)
  · exact fun h => hmem h (by decide)
  · exact fun h => hmem h (by decide)
  · exact fun h => hmem h (by decide)
  · intro w _ _ hm
    exact hc (List.mem_of_mem_drop (List.mem_of_mem_take hm))
  · intro i w v _ _ _ _ h
    exact ha (List.mem_of_getElem? h)

/-- Non-vacuity: a document with default namespaces, a redeclaration, attributes and nested elements. -/
def plainSample : List UInt8 :=
  bytes "<a xmlns='http-//www.w3.org/1999/xhtml/long' x='1'><b xmlns=''>t</b><c/></a>"

example : ch% ':' ∉ plainSample ∧ ch% '&' ∉ plainSample ∧
    (∃ out, parseResult 100 ([.xmlDoc (some plainSample)] ++ [.nameSpaceAware false]) = .value out ∧
      ∀ w ∈ out.vtdBuffer.values, IsStart w → tokenDepth w ≤ 64) := by
  refine ⟨by decide +kernel, by decide +kernel, ?_⟩
  have key : (match parseResult 100 ([.xmlDoc (some plainSample)] ++ [.nameSpaceAware false]) with
    | .value out => out.vtdBuffer.values.all fun w => tokenType w != Token.startingTag.code || Nat.ble (tokenDepth w) 64
    | _ => false) = true := by
    decide +kernel
  cases h : parseResult 100 ([.xmlDoc (some plainSample)] ++ [.nameSpaceAware false]) with
  | value a =>
    rw [h] at key
    simp only [List.all_eq_true, Bool.or_eq_true, bne_iff_ne, Nat.ble_eq] at key
    exact ⟨a, rfl, fun w hw hs => (key w hw).resolve_left fun h => h hs⟩
  | _ => rw [h] at key; cases key

/-- `<a>` 65 times, two empty elements, and the end tags. -/
def deepDoc : List UInt8 :=
  (List.replicate 65 (bytes "<a>")).flatten ++ bytes "<a/><a/>" ++ (List.replicate 65 (bytes "</a>")).flatten

/-- C60 is false of deeply nested documents: the second of two elements at depth 65 stops the namespace-aware
parser, although the document contains no colon. -/
theorem C60_deep_refuted : ch% ':' ∉ deepDoc ∧
    (∃ out, parseResult 100 [.xmlDoc (some deepDoc), .nameSpaceAware false] = .value out) ∧
    ∀ out, parseResult 100 [.xmlDoc (some deepDoc), .nameSpaceAware true] ≠ .value out := by
  refine ⟨by decide +kernel, ?_, ?_⟩
  · cases h : parseResult 100 [.xmlDoc (some deepDoc), .nameSpaceAware false] with
    | value a => exact ⟨a, rfl⟩
    | _ =>
      have : (match parseResult 100 [.xmlDoc (some deepDoc), .nameSpaceAware false] with
        | .value _ => true | _ => false) = true := by decide +kernel
      rw [h] at this; cases this
  · intro out h
    have : (match parseResult 100 [.xmlDoc (some deepDoc), .nameSpaceAware true] with
      | .value _ => false | _ => true) = true := by decide +kernel
    rw [h] at this; cases this

/-- `<a>` 64 times, two empty elements, and the end tags. -/
def lessDeepDoc : List UInt8 :=
  (List.replicate 64 (bytes "<a>")).flatten ++ bytes "<a/><a/>" ++ (List.replicate 64 (bytes "</a>")).flatten

/-- Did the parse succeed? -/
def succeeds (opts : List ParserOption) : Bool := match parseResult 100 opts with | .value _ => true | _ => false

/-- C58 is false with namespace awareness: of two documents that differ in the number of levels only, 65 and 66, both far
below the limit, the second is refused. -/
theorem C58_refuted : succeeds [.xmlDoc (some lessDeepDoc), .nameSpaceAware true] = true ∧
    succeeds [.xmlDoc (some deepDoc), .nameSpaceAware false] = true ∧
    succeeds [.xmlDoc (some deepDoc), .nameSpaceAware true] = false := by
  decide +kernel

/-- A default namespace name of 33 characters that begins with an entity. -/
def entityDoc : List UInt8 := bytes "<a xmlns=\"&amp;aaaaaaaaaaaaaaaaaaaaaaaaaaaa\"/>"

/-- C60 is false of a long default namespace name that begins with an entity. -/
theorem C60_entity_refuted : ch% ':' ∉ entityDoc ∧
    (∃ out, parseResult 100 [.xmlDoc (some entityDoc), .nameSpaceAware false] = .value out) ∧
    ∀ out, parseResult 100 [.xmlDoc (some entityDoc), .nameSpaceAware true] ≠ .value out := by
  refine ⟨by decide +kernel, ?_, ?_⟩
  · cases h : parseResult 100 [.xmlDoc (some entityDoc), .nameSpaceAware false] with
    | value a => exact ⟨a, rfl⟩
    | _ =>
      have : (match parseResult 100 [.xmlDoc (some entityDoc), .nameSpaceAware false] with
        | .value _ => true | _ => false) = true := by decide +kernel
      rw [h] at this; cases this
  · intro out h
    have : (match parseResult 100 [.xmlDoc (some entityDoc), .nameSpaceAware true] with
      | .value _ => false | _ => true) = true := by decide +kernel
    rw [h] at this; cases this

end GoVtd
