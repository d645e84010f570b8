import Verif.Spec.VisibleDeclared
import Verif.Props.Scoped

/-!
# Property C42, exactly, for declarations that stand anywhere

`C42_visible_partial` is the direction from declarations to acceptance. Here is the other one: with namespace awareness
the parser accepts a document only if its prefixes are declared by declarations that it looks at. Together with
`C42_refuted_declared` this says exactly how far what it accepts is from the namespace recommendation.
-/

namespace GoVtd
open Parser Parser.Sound

/-- The elements of an accepted document have names. -/
theorem VisibleDeclared.named {doc : List UInt8} {ws : List (BitVec 64)} (hr : VisibleDeclared doc ws) {fuel : Nat}
    {opts : List ParserOption} {o l : Int} (hd : chosenDoc opts = some (doc, o, l)) (ht : parsedTokens fuel opts = some ws) :
    ∀ w ∈ ws, IsStart w → ∃ n, n ≠ [] ∧ ElementName doc w n := by
  intro w hw hs
  obtain ⟨-, len, k, -, h1, h0, h2, -⟩ := (C48_limits fuel opts doc o l hd ws ht w hw).1 hs
  obtain rfl : k = 0 := Decidable.byContradiction fun hk =>
    hr.root w hw hs (Decidable.byContradiction fun h => hk (h1 h)) (h0 hk)
  obtain ⟨⟨b, t, e, hb, hn⟩, z, hz, hz'⟩ := h2
  rw [List.drop_zero] at e
  have hlt := (List.getElem?_eq_some_iff.mp hz).1
  have hlen : (Grammar.sub doc (tokenOffset w) len).length = len := by
    simp only [Grammar.sub, List.length_take, List.length_drop]; omega
  refine ⟨b :: t, by simp, fun y hy => ?_, z, doc.drop (tokenOffset w + len + 1), ?_, hz'⟩
  · rcases List.mem_cons.mp hy with rfl | hy
    · exact .inl hb
    · exact hn y hy
  · rw [← e, ← (List.getElem?_eq_some_iff.mp hz).2, ← List.drop_eq_getElem_cons hlt, ← List.drop_drop]
    exact (List.take_append_drop len _).symm

theorem VisibleDeclared.visible {doc : List UInt8} {ws : List (BitVec 64)} (hr : VisibleDeclared doc ws)
    (hm : ∀ w ∈ ws, IsStart w → ∃ n, n ≠ [] ∧ ElementName doc w n) (hp : PrefixesVisible doc ws) (hv : DeclarationsValid doc ws) (hl : LocalsDistinct doc ws)
    (ha : DeclarationsInReach doc ws) (hx : NamesWithoutXmlns doc ws) : VisiblePrefixes doc ws where
  level := hr.level
  elem := by
    intro i w hw hs
    obtain ⟨n, h0, h1⟩ := hm w (List.mem_of_getElem? hw) hs
    exact ⟨n, h0, h1, hx w (List.mem_of_getElem? hw) hs n h1, fun p l h3 => hp.elem i w hw hs n p l h1 h3⟩
  attr := hp.attr
  decl := by
    intro w hw p h2
    obtain ⟨i, hi⟩ := List.getElem?_of_mem hw
    obtain ⟨h3, h4, -⟩ := hv i w p hi h2
    exact ⟨h3, h4⟩
  value := by
    intro i w v hw hv' ht
    exact ⟨fun p h2 => (hv i w p hw h2).2.2 v hv', hr.value i w v hw hv' ht⟩
  few := hr.few
  again := ha
  locals := hl

/-- What the proofs about the main loop need. -/
theorem VisibleDeclared.part {doc : List UInt8} {ws : List (BitVec 64)} (hr : VisibleDeclared doc ws)
    (hm : ∀ w ∈ ws, IsStart w → ∃ n, n ≠ [] ∧ ElementName doc w n) (hv : DeclarationsValid doc ws) (hN : IsPreorder (startDepths ws)) : Scoped.Part doc ws := by
  refine ⟨hr.level, hm, ?_, ?_, ?_, Scoped.nest_of hN⟩
  · intro w hw p h2
    obtain ⟨i, hi⟩ := List.getElem?_of_mem hw
    obtain ⟨h3, h4, -⟩ := hv i w p hi h2
    exact ⟨h3, h4⟩
  · intro i w v hw hv' ht
    exact ⟨fun p h2 => (hv i w p hw h2).2.2 v hv', hr.value i w v hw hv' ht⟩
  · rintro A B rfl
    have := hr.few A.length
    rwa [List.take_left' rfl] at this

/-- C42, the direction from acceptance to declarations, with the declarations at which the parser looks. -/
theorem prefixes_visible (fuel fuel' : Nat) (opts : List ParserOption) (doc : List UInt8) (o l : Int) (out : ParserOut)
    (hd : chosenDoc opts = some (doc, o, l)) (hl : doc.length < 2 ^ 30)
    (h : parseResult fuel' (opts ++ [.nameSpaceAware false]) = .value out)
    (h' : parseResult fuel (opts ++ [.nameSpaceAware true]) = .value out) (hr : VisibleDeclared doc out.vtdBuffer.values)
    (hv : DeclarationsValid doc out.vtdBuffer.values) (hu : LocalsDistinct doc out.vtdBuffer.values) :
    PrefixesVisible doc out.vtdBuffer.values ∧ DeclarationsInReach doc out.vtdBuffer.values ∧
      NamesWithoutXmlns doc out.vtdBuffer.values := by
  have hN := (C31_nesting fuel' (opts ++ [.nameSpaceAware false]) _ (parseResult_tokens h)).1
  have hm := hr.named (by rw [← hd]; simp only [chosenDoc, List.foldl_append]; rfl) (parseResult_tokens h)
  simp only [parseResult] at h h'
  cases hp : newVtdParser fuel' (opts ++ [.nameSpaceAware false]) with
  | error e => rw [hp] at h; cases h
  | ok p =>
    rw [hp] at h
    have hx : p.cfg.xmlDoc = doc := by
      have h1 := newVtdParser_doc hp
      rw [(args_chosen _).1] at h1
      have e : chosenDoc (opts ++ [.nameSpaceAware false]) = chosenDoc opts := by
        simp only [chosenDoc, List.foldl_append]; rfl
      rw [e, hd] at h1
      exact (Option.some.inj h1).symm
    obtain ⟨ha, hb⟩ := newVtdParser_aware (fuel' := fuel) hp
    rw [hb] at h'
    simp only at h h'
    cases hq : Parser.parse p with
    | ok u p' =>
      rw [hq] at h
      cases h
      have hf := newVtdParser_fresh hp
      have hok : ∃ a t', Parser.parse (Plain.aware fuel p.ns p) = .ok a t' := by
        cases hz : Parser.parse (Plain.aware fuel p.ns p) with
        | ok a t' => exact ⟨a, t', rfl⟩
        | err e t' => rw [hz] at h'; cases h'
        | panic => rw [hz] at h'; cases h'
        | diverge => rw [hz] at h'; cases h'
      obtain ⟨-, -, -, h3, h4, h5⟩ := Scoped.parse_both (f := fuel) hf ha (by have := hf.end1; rw [hx] at this; omega)
        (by rw [hx]; exact hl) hq (by rw [hx]; exact hr.part hm hv hN) (.inr ⟨by rw [hx]; exact ⟨hu⟩, hok⟩)
      rw [hx] at h3 h4 h5
      refine ⟨h3.visible fun _ _ _ => elementName_unique, fun i w hw => ?_, fun w hw hs n hn => ?_⟩
      rotate_left
      · obtain ⟨n', -, h6, h7⟩ := h5 w hw hs
        rw [elementName_unique hn h6]; exact h7
      obtain ⟨hi, rfl⟩ := List.getElem?_eq_some_iff.mp hw
      exact h4 _ _ (p'.out.vtdBuffer.values.drop (i + 1)) (by rw [← List.drop_eq_getElem_cons hi, List.take_append_drop])
    | err e p' => rw [hq] at h; cases h
    | panic => rw [hq] at h; cases h
    | diverge => rw [hq] at h; cases h

/-- C42, exactly, for documents of less than 2^30 bytes with declarations at any elements (`VisibleDeclared` leaves out what
the parser mishandles for other reasons): with namespace awareness the parser accepts the document exactly when it accepts
it without, every prefix that is used is declared by a declaration at which the parser looks, the declarations are valid,
the prefixed attributes of each tag have different local names, where a prefix is declared the parser looks at some
declaration before unless there is none, and no element has the prefix `xmlns`; the results are then the same. (`XmlLike`
and `NoXmlns` say which prefixes the parser takes for `xml` and `xmlns`.) -/
theorem C42_visible_exact (fuel fuel' : Nat) (opts : List ParserOption) (doc : List UInt8) (o l : Int) (out : ParserOut)
    (hd : chosenDoc opts = some (doc, o, l)) (hl : doc.length < 2 ^ 30) (he : NoEntityStart doc)
    (hr : VisibleDeclared doc out.vtdBuffer.values) :
    parseResult fuel (opts ++ [.nameSpaceAware true]) = .value out ↔
      parseResult fuel' (opts ++ [.nameSpaceAware false]) = .value out ∧
      PrefixesVisible doc out.vtdBuffer.values ∧ DeclarationsValid doc out.vtdBuffer.values ∧
      LocalsDistinct doc out.vtdBuffer.values ∧ DeclarationsInReach doc out.vtdBuffer.values ∧
      NamesWithoutXmlns doc out.vtdBuffer.values := by
  have hd' : chosenDoc (opts ++ [.nameSpaceAware true]) = some (doc, o, l) := by
    rw [← hd]; simp only [chosenDoc, List.foldl_append]; rfl
  have hns : chosenNs (opts ++ [.nameSpaceAware true]) = true := by
    simp only [chosenNs, List.foldl_append, List.foldl_cons, List.foldl_nil]
  constructor
  · intro h
    have ht := parseResult_tokens h
    have h0 : parseResult fuel' (opts ++ [.nameSpaceAware false]) = .value out := by
      have := C56_partial fuel fuel' (opts ++ [.nameSpaceAware true]) doc o l out hd' (by omega) he h
      simp only [parseResult, newVtdParser, List.foldl_append, List.foldl_cons, List.foldl_nil, ParserArgs.apply] at this ⊢
      exact this
    have hv : DeclarationsValid doc out.vtdBuffer.values := by
      intro i w p hw hp
      obtain ⟨h1, h2, v, h3, -, h4⟩ := C44_partial _ _ doc o l _ hd' hns ht i w hw p hp
      refine ⟨h1, h2, fun v' hv' => ?_⟩
      obtain rfl : v = v' := Option.some.inj (h3.symm.trans hv')
      exact h4
    have hu : LocalsDistinct doc out.vtdBuffer.values := by
      intro i k w z hw hz hik hm tw tz p q p' q' h1 h2 h3 h4
      exact C43_partial _ _ doc o l _ hd' hns he (by omega) ht i k w z hw hz hik hm tw tz p q p' q' h1 h2 h3 h4
    obtain ⟨h1, h2⟩ := prefixes_visible fuel fuel' opts doc o l out hd hl h0 h hr hv hu
    exact ⟨h0, h1, hv, hu, h2⟩
  · rintro ⟨h, h1, h2, h3, h4, h5⟩
    exact C42_visible_partial fuel' fuel opts doc o l out hd hl h
      (hr.visible (hr.named (by rw [← hd]; simp only [chosenDoc, List.foldl_append]; rfl) (parseResult_tokens h)) h1 h2 h3 h4 h5)

/-- So a document of this kind that breaks one of the five rules is refused, although the parser without namespace
awareness accepts it. -/
theorem C42_visible_refuses_partial (fuel fuel' : Nat) (opts : List ParserOption) (doc : List UInt8) (o l : Int)
    (out : ParserOut) (hd : chosenDoc opts = some (doc, o, l)) (hl : doc.length < 2 ^ 30) (he : NoEntityStart doc)
    (hr : VisibleDeclared doc out.vtdBuffer.values)
    (h : parseResult fuel' (opts ++ [.nameSpaceAware false]) = .value out)
    (hb : ¬ PrefixesVisible doc out.vtdBuffer.values ∨ ¬ DeclarationsValid doc out.vtdBuffer.values ∨
      ¬ LocalsDistinct doc out.vtdBuffer.values ∨ ¬ DeclarationsInReach doc out.vtdBuffer.values ∨
      ¬ NamesWithoutXmlns doc out.vtdBuffer.values) :
    ∀ out', parseResult fuel (opts ++ [.nameSpaceAware true]) ≠ .value out' := by
  intro out' h'
  have hd' : chosenDoc (opts ++ [.nameSpaceAware true]) = some (doc, o, l) := by
    rw [← hd]; simp only [chosenDoc, List.foldl_append]; rfl
  have h2 := C56_partial fuel fuel' (opts ++ [.nameSpaceAware true]) doc o l out' hd' (by omega) he h'
  have h3 : parseResult fuel' (opts ++ [.nameSpaceAware false]) = .value out' := by
    simp only [parseResult, newVtdParser, List.foldl_append, List.foldl_cons, List.foldl_nil, ParserArgs.apply] at h2 ⊢
    exact h2
  rw [h] at h3
  cases h3
  obtain ⟨-, h4, h5, h6, h7, h8⟩ := (C42_visible_exact fuel fuel' opts doc o l out hd hl he hr).mp h'
  rcases hb with hb | hb | hb | hb | hb
  · exact hb h4
  · exact hb h5
  · exact hb h6
  · exact hb h7
  · exact hb h8

/-- C43, exactly, for the same documents when their prefixes and declarations are in order: the document is accepted
exactly when no two attributes of a tag that have prefixes other than `xml` have the same local name, whatever the
prefixes are bound to. -/
theorem C43_visible_exact (fuel fuel' : Nat) (opts : List ParserOption) (doc : List UInt8) (o l : Int) (out : ParserOut)
    (hd : chosenDoc opts = some (doc, o, l)) (hl : doc.length < 2 ^ 30) (he : NoEntityStart doc)
    (hr : VisibleDeclared doc out.vtdBuffer.values)
    (h : parseResult fuel' (opts ++ [.nameSpaceAware false]) = .value out)
    (hp : PrefixesVisible doc out.vtdBuffer.values) (hv : DeclarationsValid doc out.vtdBuffer.values)
    (ha : DeclarationsInReach doc out.vtdBuffer.values) (hx : NamesWithoutXmlns doc out.vtdBuffer.values) :
    parseResult fuel (opts ++ [.nameSpaceAware true]) = .value out ↔ LocalsDistinct doc out.vtdBuffer.values := by
  rw [C42_visible_exact fuel fuel' opts doc o l out hd hl he hr]
  exact ⟨fun h => h.2.2.2.1, fun h1 => ⟨h, hp, hv, h1, ha, hx⟩⟩

/-- C44, exactly, for the same documents when their prefixes are declared and their local names different: the document
is accepted exactly when no declaration names `xml` or `xmlns` and none has an empty value. -/
theorem C44_visible_exact (fuel fuel' : Nat) (opts : List ParserOption) (doc : List UInt8) (o l : Int) (out : ParserOut)
    (hd : chosenDoc opts = some (doc, o, l)) (hl : doc.length < 2 ^ 30) (he : NoEntityStart doc)
    (hr : VisibleDeclared doc out.vtdBuffer.values)
    (h : parseResult fuel' (opts ++ [.nameSpaceAware false]) = .value out)
    (hp : PrefixesVisible doc out.vtdBuffer.values) (hu : LocalsDistinct doc out.vtdBuffer.values)
    (ha : DeclarationsInReach doc out.vtdBuffer.values) (hx : NamesWithoutXmlns doc out.vtdBuffer.values) :
    parseResult fuel (opts ++ [.nameSpaceAware true]) = .value out ↔ DeclarationsValid doc out.vtdBuffer.values := by
  rw [C42_visible_exact fuel fuel' opts doc o l out hd hl he hr]
  exact ⟨fun h => h.2.2.1, fun h1 => ⟨h, hp, h1, hu, ha, hx⟩⟩

/-- Non-vacuity: the sample document of `Verif/Props/Scoped.lean` declares a prefix below its root. -/
theorem belowRoot_declared : VisibleDeclared belowRoot belowWords := by
  have h := belowRoot_visible
  have key : ∀ i : Fin 9, IsStart (belowWords[i.val]'i.isLt) → tokenDepth (belowWords[i.val]'i.isLt) = 0 →
      belowRoot[tokenOffset (belowWords[i.val]'i.isLt)]? ≠ some (ch% '?') := by decide +kernel
  refine ⟨h.level, fun w hw => ?_, fun i w v hw hv ht => (h.value i w v hw hv ht).2, h.few⟩
  obtain ⟨i, hi, rfl⟩ := List.getElem_of_mem hw
  exact key ⟨i, hi⟩

/-- The sample meets the five rules as well, because it is accepted. -/
example : ∃ out, parseResult 100 ([.xmlDoc (some belowRoot)] ++ [.nameSpaceAware false]) = .value out ∧
    VisibleDeclared belowRoot out.vtdBuffer.values ∧ PrefixesVisible belowRoot out.vtdBuffer.values ∧
    DeclarationsValid belowRoot out.vtdBuffer.values ∧ LocalsDistinct belowRoot out.vtdBuffer.values ∧
    DeclarationsInReach belowRoot out.vtdBuffer.values ∧ NamesWithoutXmlns belowRoot out.vtdBuffer.values := by
  have key : (match parseResult 100 ([.xmlDoc (some belowRoot)] ++ [.nameSpaceAware false]) with
    | .value out => out.vtdBuffer.values == belowWords
    | _ => false) = true := by decide +kernel
  have ha : ch% '&' ∉ belowRoot := by decide +kernel
  have he : NoEntityStart belowRoot := by
    refine ⟨?_, ?_, ?_, ?_⟩ <;> exact fun h => ha (h.subset (by decide))
  cases h : parseResult 100 ([.xmlDoc (some belowRoot)] ++ [.nameSpaceAware false]) with
  | value a =>
    rw [h] at key
    have e := eq_of_beq key
    have hd : chosenDoc [.xmlDoc (some belowRoot)] = some (belowRoot, 0, (belowRoot.length : Int)) := by decide +kernel
    have hr : VisibleDeclared belowRoot a.vtdBuffer.values := by rw [e]; exact belowRoot_declared
    have hq : VisiblePrefixes belowRoot a.vtdBuffer.values := by rw [e]; exact belowRoot_visible
    have hok := C42_visible_partial 100 100 _ _ _ _ a hd (by decide +kernel) h hq
    obtain ⟨-, h1, h2, h3⟩ := (C42_visible_exact 100 100 _ _ _ _ a hd (by decide +kernel) he hr).mp hok
    exact ⟨a, rfl, hr, h1, h2, h3⟩
  | _ => rw [h] at key; cases key

/-- A document that uses a prefix after the element that declares it. -/
def outOfScope : List UInt8 := bytes "<r><a xmlns:p='u'><p:b/></a><p:c/></r>"

/-- Its records. -/
def outOfScopeWords : List (BitVec 64) := [0xdff0000000000000, 0x0000000100000001, 0x0010000100000004, 0x3010280700000006,
  0x401000010000000f, 0x0020000300000013, 0x001000030000001d]

theorem outOfScope_declared : VisibleDeclared outOfScope outOfScopeWords := by
  have hall : ∀ {P : BitVec 64 → Prop}, (∀ i : Fin 7, P (outOfScopeWords[i.val]'i.isLt)) → ∀ w ∈ outOfScopeWords, P w := by
    intro P h w hw
    obtain ⟨i, hi, rfl⟩ := List.getElem_of_mem hw
    exact h ⟨i, hi⟩
  refine ⟨hall (by decide +kernel), hall (by decide +kernel), ?_, ?_⟩
  · have key : ∀ i : Fin 6, tokenType (outOfScopeWords[i.val]'(Nat.lt_succ_of_lt i.isLt)) ≠ Token.attrNs.code ∨
      tokenLength (outOfScopeWords[i.val + 1]'(Nat.succ_lt_succ i.isLt)) = 1 := by decide +kernel
    intro i w v hw hv ht
    obtain ⟨h1, rfl⟩ := List.getElem?_eq_some_iff.mp hw
    obtain ⟨h2, rfl⟩ := List.getElem?_eq_some_iff.mp hv
    rcases key ⟨i, by have : outOfScopeWords.length = 7 := rfl; omega⟩ with h | h
    · exact absurd ht h
    · have h : tokenLength outOfScopeWords[i + 1] = 1 := h
      exact fun h => by omega
  · have key : ∀ m : Fin 8, (scopeOf outOfScope (outOfScopeWords.take m.val)).visible ≤ 64 := by decide +kernel
    intro m
    by_cases hm : m < 8
    · exact key ⟨m, hm⟩
    · rw [List.take_of_length_le (show outOfScopeWords.length ≤ m by have : outOfScopeWords.length = 7 := rfl; omega)]
      exact key ⟨7, by decide⟩

/-- Non-vacuity of the negative conclusion: the parser without namespace awareness accepts this document, and at its last
element the parser looks at no declaration. -/
theorem outOfScope_stray : ¬ PrefixesVisible outOfScope outOfScopeWords := by
  intro h
  have hn : ElementName outOfScope 0x001000030000001d (bytes "p:c") :=
    ⟨by simp only [Grammar.AllName]; decide +kernel, ch% '/', outOfScope.drop 33, by decide +kernel, by decide⟩
  rcases h.elem 6 0x001000030000001d rfl (by decide +kernel) (bytes "p:c") (bytes "p") (bytes "c") hn
      ⟨by decide, by decide, by decide⟩ with h | ⟨m, hm, -, d, hd, -⟩
  · rcases h with h | h <;> exact absurd h (by decide)
  · rw [List.take_of_length_le (show outOfScopeWords.length ≤ m from hm),
      show visibleDecls outOfScope outOfScopeWords = [] by decide +kernel] at hd
    cases hd

example : succeeds [.xmlDoc (some outOfScope), .nameSpaceAware false] = true ∧
    ∀ fuel out, parseResult fuel ([.xmlDoc (some outOfScope)] ++ [.nameSpaceAware true]) ≠ .value out := by
  refine ⟨by decide +kernel, fun fuel => ?_⟩
  have key : (match parseResult 100 ([.xmlDoc (some outOfScope)] ++ [.nameSpaceAware false]) with
    | .value out => out.vtdBuffer.values == outOfScopeWords
    | _ => false) = true := by decide +kernel
  have ha : ch% '&' ∉ outOfScope := by decide +kernel
  have he : NoEntityStart outOfScope := by
    refine ⟨?_, ?_, ?_, ?_⟩ <;> exact fun h => ha (h.subset (by decide))
  cases h : parseResult 100 ([.xmlDoc (some outOfScope)] ++ [.nameSpaceAware false]) with
  | value a =>
    rw [h] at key
    have e := eq_of_beq key
    exact C42_visible_refuses_partial fuel 100 [.xmlDoc (some outOfScope)] outOfScope 0 outOfScope.length a (by decide +kernel)
      (by decide +kernel) he (by rw [e]; exact outOfScope_declared) h (.inl (by rw [e]; exact outOfScope_stray))
  | _ => rw [h] at key; cases key

/-- The document of `C42_refuted_again`: two siblings declare a prefix each. -/
def siblings : List UInt8 := bytes "<r><x xmlns:a='u'/><z xmlns:b='v'/></r>"

/-- Its records. -/
def siblingsWords : List (BitVec 64) := [0xdff0000000000000, 0x0000000100000001, 0x0010000100000004, 0x3010280700000006,
  0x401000010000000f, 0x0010000100000014, 0x3010280700000016, 0x401000010000001f]

theorem siblings_declared : VisibleDeclared siblings siblingsWords := by
  have hall : ∀ {P : BitVec 64 → Prop}, (∀ i : Fin 8, P (siblingsWords[i.val]'i.isLt)) → ∀ w ∈ siblingsWords, P w := by
    intro P h w hw
    obtain ⟨i, hi, rfl⟩ := List.getElem_of_mem hw
    exact h ⟨i, hi⟩
  refine ⟨hall (by decide +kernel), hall (by decide +kernel), ?_, ?_⟩
  · have key : ∀ i : Fin 7, tokenType (siblingsWords[i.val]'(Nat.lt_succ_of_lt i.isLt)) ≠ Token.attrNs.code ∨
      tokenLength (siblingsWords[i.val + 1]'(Nat.succ_lt_succ i.isLt)) = 1 := by decide +kernel
    intro i w v hw hv ht
    obtain ⟨h1, rfl⟩ := List.getElem?_eq_some_iff.mp hw
    obtain ⟨h2, rfl⟩ := List.getElem?_eq_some_iff.mp hv
    rcases key ⟨i, by have : siblingsWords.length = 8 := rfl; omega⟩ with h | h
    · exact absurd ht h
    · have h : tokenLength siblingsWords[i + 1] = 1 := h
      exact fun h => by omega
  · have key : ∀ m : Fin 9, (scopeOf siblings (siblingsWords.take m.val)).visible ≤ 64 := by decide +kernel
    intro m
    by_cases hm : m < 9
    · exact key ⟨m, hm⟩
    · rw [List.take_of_length_le (show siblingsWords.length ≤ m by have : siblingsWords.length = 8 := rfl; omega)]
      exact key ⟨8, by decide⟩

/-- Where the second prefix is declared, the parser looks at no declaration, although there is one. -/
theorem siblings_outOfReach : ¬ DeclarationsInReach siblings siblingsWords := by
  intro h
  have := h 6 0x3010280700000016 rfl (by decide +kernel) (by decide +kernel)
  exact absurd this (by decide +kernel)

/-- The document uses no prefix, so it keeps the other rules, and it is refused with namespace awareness because of this
one. -/
example : succeeds [.xmlDoc (some siblings), .nameSpaceAware false] = true ∧
    ∀ fuel out, parseResult fuel ([.xmlDoc (some siblings)] ++ [.nameSpaceAware true]) ≠ .value out := by
  refine ⟨by decide +kernel, fun fuel => ?_⟩
  have key : (match parseResult 100 ([.xmlDoc (some siblings)] ++ [.nameSpaceAware false]) with
    | .value out => out.vtdBuffer.values == siblingsWords
    | _ => false) = true := by decide +kernel
  have ha : ch% '&' ∉ siblings := by decide +kernel
  have he : NoEntityStart siblings := by
    refine ⟨?_, ?_, ?_, ?_⟩ <;> exact fun h => ha (h.subset (by decide))
  cases h : parseResult 100 ([.xmlDoc (some siblings)] ++ [.nameSpaceAware false]) with
  | value a =>
    rw [h] at key
    have e := eq_of_beq key
    exact C42_visible_refuses_partial fuel 100 [.xmlDoc (some siblings)] siblings 0 siblings.length a (by decide +kernel)
      (by decide +kernel) he (by rw [e]; exact siblings_declared) h
      (.inr (.inr (.inr (.inl (by rw [e]; exact siblings_outOfReach)))))
  | _ => rw [h] at key; cases key

/-- A document with an element whose name begins with `xmlns:`; the name has two colons. -/
def reservedName : List UInt8 := bytes "<r><xmlns:a:b/></r>"

/-- Its records. -/
def reservedWords : List (BitVec 64) := [0xdff0000000000000, 0x0000000100000001, 0x0010000f00000004]

theorem reserved_name : ElementName reservedName 0x0010000f00000004 (bytes "xmlns:a:b") :=
  ⟨by simp only [Grammar.AllName]; decide +kernel, ch% '/', reservedName.drop 14, by decide +kernel, by decide⟩

theorem reserved_declared : VisibleDeclared reservedName reservedWords := by
  have hall : ∀ {P : BitVec 64 → Prop}, (∀ i : Fin 3, P (reservedWords[i.val]'i.isLt)) → ∀ w ∈ reservedWords, P w := by
    intro P h w hw
    obtain ⟨i, hi, rfl⟩ := List.getElem_of_mem hw
    exact h ⟨i, hi⟩
  have hno : ∀ i : Fin 3, tokenType (reservedWords[i.val]'i.isLt) ≠ Token.attrNs.code := by decide +kernel
  refine ⟨hall (by decide +kernel), hall (by decide +kernel), ?_, ?_⟩
  · intro i w v hw _ ht
    obtain ⟨hi, rfl⟩ := List.getElem?_eq_some_iff.mp hw
    exact absurd ht (hno ⟨i, hi⟩)
  · have key : ∀ m : Fin 4, (scopeOf reservedName (reservedWords.take m.val)).visible ≤ 64 := by decide +kernel
    intro m
    by_cases hm : m < 4
    · exact key ⟨m, hm⟩
    · rw [List.take_of_length_le (show reservedWords.length ≤ m by have : reservedWords.length = 3 := rfl; omega)]
      exact key ⟨3, by decide⟩

/-- It breaks the last rule, and is refused. -/
example : succeeds [.xmlDoc (some reservedName), .nameSpaceAware false] = true ∧
    ∀ fuel out, parseResult fuel ([.xmlDoc (some reservedName)] ++ [.nameSpaceAware true]) ≠ .value out := by
  refine ⟨by decide +kernel, fun fuel => ?_⟩
  have key : (match parseResult 100 ([.xmlDoc (some reservedName)] ++ [.nameSpaceAware false]) with
    | .value out => out.vtdBuffer.values == reservedWords
    | _ => false) = true := by decide +kernel
  have ha : ch% '&' ∉ reservedName := by decide +kernel
  have he : NoEntityStart reservedName := by
    refine ⟨?_, ?_, ?_, ?_⟩ <;> exact fun h => ha (h.subset (by decide))
  cases h : parseResult 100 ([.xmlDoc (some reservedName)] ++ [.nameSpaceAware false]) with
  | value a =>
    rw [h] at key
    have e := eq_of_beq key
    refine C42_visible_refuses_partial fuel 100 [.xmlDoc (some reservedName)] reservedName 0 reservedName.length a
      (by decide +kernel) (by decide +kernel) he (by rw [e]; exact reserved_declared) h
      (.inr (.inr (.inr (.inr fun hx => ?_))))
    rw [e] at hx
    exact absurd rfl (hx 0x0010000f00000004 (by simp [reservedWords]) (by decide +kernel) _ reserved_name 5 (by decide) (by decide)).1
  | _ => rw [h] at key; cases key

end GoVtd
