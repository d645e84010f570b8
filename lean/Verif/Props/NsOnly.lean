import Verif.Spec.NsOnly
import Verif.Proofs.Parser.NsOnly
import Verif.Props.Window

/-!
# Property C56: namespace awareness only restricts

Every document the namespace-aware parser accepts is accepted without namespace awareness, with the same
records. `C56_refuted` shows a document for which this fails; `C56_partial` proves it for the documents that
satisfy `NoEntityStart`.
-/

namespace GoVtd
open Parser

theorem infix_of_get {p doc : List UInt8} {i : Nat} (h : ∀ k b, p[k]? = some b → doc[i + k]? = some b) : p <:+: doc := by
  have h1 : p <+: doc.drop i := by
    rw [List.prefix_iff_getElem?]
    intro k hk
    rw [List.getElem?_drop]
    exact h k _ (List.getElem?_eq_getElem hk)
  exact h1.isInfix.trans (List.drop_suffix i doc).isInfix

theorem NoEntityStart.quiet {doc : List UInt8} (h : NoEntityStart doc) : Two.Quiet doc where
  value := by
    rintro i (h1 | h1) h2 h3
    · refine h.double (infix_of_get (i := i) fun k b hk => ?_)
      match k, hk with
      | 0, hk => cases hk; exact h1
      | 1, hk => cases hk; exact h2
      | 2, hk => cases hk; exact h3
    · refine h.single (infix_of_get (i := i) fun k b hk => ?_)
      match k, hk with
      | 0, hk => cases hk; exact h1
      | 1, hk => cases hk; exact h2
      | 2, hk => cases hk; exact h3
  ap := by
    intro i h1 h2 h3 h4
    refine h.ap (infix_of_get (i := i) fun k b hk => ?_)
    match k, hk with
    | 0, hk => cases hk; exact h1
    | 1, hk => cases hk; exact h2
    | 2, hk => cases hk; exact h3
    | 3, hk => cases hk; exact h4
  aos := by
    intro i h1 h2 h3 h4 h5
    refine h.aos (infix_of_get (i := i) fun k b hk => ?_)
    match k, hk with
    | 0, hk => cases hk; exact h1
    | 1, hk => cases hk; exact h2
    | 2, hk => cases hk; exact h3
    | 3, hk => cases hk; exact h4
    | 4, hk => cases hk; exact h5

theorem newVtdParser_off {fuel fuel' : Nat} {opts : List ParserOption} {p : Parser} (h : newVtdParser fuel opts = .ok p) :
    newVtdParser fuel' (opts ++ [.nameSpaceAware false]) = .ok (Two.off fuel' p) := by
  have e : (opts ++ [ParserOption.nameSpaceAware false]).foldl ParserArgs.apply {} =
      { opts.foldl ParserArgs.apply {} with nsAware := false } := by
    rw [List.foldl_append]; rfl
  simp only [newVtdParser, e] at h ⊢
  generalize opts.foldl ParserArgs.apply {} = a at h ⊢
  cases hd : a.doc with
  | none => rw [hd] at h; cases h
  | some doc =>
    rw [hd] at h
    simp only at h ⊢
    by_cases h1 : doc.length = 0
    · rw [if_pos h1] at h; cases h
    rw [if_neg h1] at h ⊢
    by_cases h2 : a.offset < 0
    · rw [if_pos h2] at h; cases h
    rw [if_neg h2] at h ⊢
    by_cases h3 : a.length = 0 ∨ wrap64 (a.offset + a.length) > doc.length
    · rw [if_pos h3] at h; cases h
    rw [if_neg h3] at h ⊢
    cases h4 : Reader.newUtf8 (some doc) a.offset a.endOffset with
    | error e => rw [h4] at h; cases h
    | ok rd =>
      rw [h4] at h
      simp only [Except.ok.injEq] at h ⊢
      rw [← h]
      rfl

theorem newVtdParser_doc {fuel : Nat} {opts : List ParserOption} {p : Parser} (h : newVtdParser fuel opts = .ok p) :
    (opts.foldl ParserArgs.apply {}).doc = some p.cfg.xmlDoc := by
  simp only [newVtdParser] at h
  generalize opts.foldl ParserArgs.apply {} = a at h ⊢
  cases hd : a.doc with
  | none => rw [hd] at h; cases h
  | some doc =>
    rw [hd] at h
    simp only at h
    split at h
    · cases h
    split at h
    · cases h
    split at h
    · cases h
    split at h
    · cases h
    · cases h; rfl

/-- C56 for documents with no attribute value that begins with `&a`: whatever a parser with any options
accepts, it also accepts with namespace awareness switched off, and the token records and location caches are
the same. `fuel` and `fuel'` only bound the comparison of namespace names. -/
theorem C56_partial (fuel fuel' : Nat) (opts : List ParserOption) (doc : List UInt8) (o l : Int) (out : ParserOut)
    (hd : chosenDoc opts = some (doc, o, l)) (hl : doc.length < 2 ^ 31) (hn : NoEntityStart doc)
    (h : parseResult fuel opts = .value out) :
    parseResult fuel' (opts ++ [.nameSpaceAware false]) = .value out := by
  simp only [parseResult] at h ⊢
  cases hp : newVtdParser fuel opts with
  | error e => rw [hp] at h; cases h
  | ok p =>
    rw [hp] at h
    have hx : p.cfg.xmlDoc = doc := by
      have h1 := newVtdParser_doc hp
      rw [(args_chosen opts).1, hd] at h1
      exact (Option.some.inj h1).symm
    rw [newVtdParser_off (fuel' := fuel') hp]
    simp only at h ⊢
    cases hq : Parser.parse p with
    | ok u p' =>
      rw [hq] at h
      obtain ⟨t', h1, h2⟩ := Two.parse_off (newVtdParser_fresh hp) (by rw [hx]; exact hn.quiet) (by rw [hx]; exact hl)
        fuel' hq
      rw [h1]
      simp only [h2]
      exact h
    | err e p' => rw [hq] at h; cases h
    | panic => rw [hq] at h; cases h
    | diverge => rw [hq] at h; cases h

/-- A document whose namespace name begins with `&amp;`: after the name the parser has lost a character. -/
def swallowed : List UInt8 := bytes "<a xmlns=\"&amp;aaaaaaaaaaaaaaaaaaaaaaaaaaaa\"x/>"

/-- C56 is false: the namespace-aware parser accepts a document with garbage behind an attribute value, which
the other parser refuses. -/
theorem C56_refuted : (∃ out, parseResult 100 [.xmlDoc (some swallowed), .nameSpaceAware true] = .value out) ∧
    ∃ e, parseResult 100 [.xmlDoc (some swallowed)] = .error e := by
  constructor
  · cases h : parseResult 100 [.xmlDoc (some swallowed), .nameSpaceAware true] with
    | value a => exact ⟨a, rfl⟩
    | _ =>
      have : (match parseResult 100 [.xmlDoc (some swallowed), .nameSpaceAware true] with
        | .value _ => true | _ => false) = true := by decide +kernel
      rw [h] at this; cases this
  · cases h : parseResult 100 [.xmlDoc (some swallowed)] with
    | error e => exact ⟨e, rfl⟩
    | _ =>
      have : (match parseResult 100 [.xmlDoc (some swallowed)] with
        | .error _ => true | _ => false) = true := by decide +kernel
      rw [h] at this; cases this

/-- The token records of a result. -/
theorem parsedTokens_iff {fuel : Nat} {opts : List ParserOption} {ws : List (BitVec 64)} :
    parsedTokens fuel opts = some ws ↔ ∃ out, parseResult fuel opts = .value out ∧ out.vtdBuffer.values = ws := by
  simp only [parsedTokens, parsed, parseResult]
  cases hp : newVtdParser fuel opts with
  | error e => simp
  | ok p =>
    cases hq : Parser.parse p <;> simp [hq]

/-- The token records of a namespace-aware parse are those of the parse without. -/
theorem aware_tokens {fuel : Nat} {opts : List ParserOption} {doc : List UInt8} {o : Nat} {ws : List (BitVec 64)}
    (hs : SelectRest (opts ++ [.nameSpaceAware false]) doc o) (hl : doc.length < 2 ^ 31) (hn : NoEntityStart doc)
    (h : parsedTokens fuel opts = some ws) : parsedTokens fuel (opts ++ [.nameSpaceAware false]) = some ws := by
  obtain ⟨out, h1, h2⟩ := parsedTokens_iff.1 h
  obtain ⟨l, hw, -⟩ := hs.window
  have hd : chosenDoc opts = some (doc, (o : Int), l) := by
    rw [← hw]
    simp only [chosenDoc, List.foldl_append]
    rfl
  exact parsedTokens_iff.2 ⟨out, C56_partial fuel fuel opts doc o l out hd hl hn h1, h2⟩

/-- Consequence: the grammar and the records of `C32_exact` bound the namespace-aware parser as well. -/
theorem C56_grammar_partial (fuel : Nat) (opts : List ParserOption) (doc : List UInt8) (o : Nat) (ws : List (BitVec 64))
    (hs : SelectRest (opts ++ [.nameSpaceAware false]) doc o) (hl : doc.length < 2 ^ 31) (hn : NoEntityStart doc)
    (h : parsedTokens fuel opts = some ws) :
    ∃ recs, Grammar.Document doc.length (doc.drop o) recs ∧ ws = (Grammar.docRec :: recs).map Grammar.Rec.word :=
  ((C32_exact fuel _ doc o hs ws).1 (aware_tokens hs hl hn h)).2

/-- Non-vacuity: a namespace-aware parse of a document with a default namespace, a declared prefix, a prefixed
element and a prefixed attribute. -/
def nsSample : List UInt8 :=
  bytes "<a xmlns='u' xmlns:p='http://www.w3.org/1999/xhtml/long'><p:b p:c='x&amp;'>t&apos;</p:b></a>"

example : NoEntityStart nsSample ∧ nsSample.length < 2 ^ 31 ∧
    (parsedTokens 100 [.xmlDoc (some nsSample), .nameSpaceAware true]).isSome := by
  refine ⟨⟨?_, ?_, ?_, ?_⟩, by decide, by decide +kernel⟩ <;> decide +kernel

end GoVtd
