import Verif.Spec.Rooted
import Verif.Proofs.Parser.RootedParse
import Verif.Props.Plain
import Verif.Props.Prefixes

/-!
# Property C42, the other direction: documents that declare their prefixes at the root

`C42_refuted_declared` shows that a declared prefix can be refused. `C42_root_partial` is a class of documents in
which every declared prefix is accepted: those that declare their prefixes at the root element. `C42_refuted_ten` shows
why its prefixes are restricted.
-/

namespace GoVtd
open Parser Parser.Sound

/-- C42, the direction from declarations to acceptance, for documents of less than 2^30 bytes that declare their
prefixes at the root (`RootPrefixes`): what the parser accepts without namespace awareness, where prefixes mean
nothing, it also accepts with it, and the token records and location caches are the same. -/
theorem C42_root_partial (fuel fuel' : Nat) (opts : List ParserOption) (doc : List UInt8) (o l : Int) (out : ParserOut)
    (hd : chosenDoc opts = some (doc, o, l)) (hl : doc.length < 2 ^ 30)
    (h : parseResult fuel (opts ++ [.nameSpaceAware false]) = .value out) (hn : RootPrefixes doc out.vtdBuffer.values) :
    parseResult fuel' (opts ++ [.nameSpaceAware true]) = .value out := by
  simp only [parseResult] at h ⊢
  cases hp : newVtdParser fuel (opts ++ [.nameSpaceAware false]) with
  | error e => rw [hp] at h; cases h
  | ok p =>
    rw [hp] at h
    have hx : p.cfg.xmlDoc = doc := by
      have h1 := newVtdParser_doc hp
      rw [(args_chosen _).1] at h1
      have e : chosenDoc (opts ++ [.nameSpaceAware false]) = chosenDoc opts := by
        simp only [chosenDoc, List.foldl_append]; rfl
      rw [e, hd] at h1
      exact (Option.some.inj h1).symm
    obtain ⟨ha, hb⟩ := newVtdParser_aware (fuel' := fuel') hp
    rw [hb]
    simp only at h ⊢
    cases hq : Parser.parse p with
    | ok u p' =>
      rw [hq] at h
      cases h
      have hf := newVtdParser_fresh hp
      obtain ⟨t', h1, h2⟩ := Rooted.parse_rooted (f := fuel') hf ha (by have := hf.end1; rw [hx] at this; omega)
        (by rw [hx]; exact hl) hq (by rw [hx]; exact hn)
      rw [h1]
      simp only [h2]
    | err e p' => rw [hq] at h; cases h
    | panic => rw [hq] at h; cases h
    | diverge => rw [hq] at h; cases h

/-- With `C56_partial`: for such a document the two parsers accept alike, with the same results. -/
theorem C42_root_iff_partial (fuel fuel' : Nat) (opts : List ParserOption) (doc : List UInt8) (o l : Int) (out : ParserOut)
    (hd : chosenDoc opts = some (doc, o, l)) (hl : doc.length < 2 ^ 30) (he : NoEntityStart doc)
    (hn : RootPrefixes doc out.vtdBuffer.values) :
    parseResult fuel (opts ++ [.nameSpaceAware true]) = .value out ↔
      parseResult fuel' (opts ++ [.nameSpaceAware false]) = .value out := by
  constructor
  · intro h
    have hd' : chosenDoc (opts ++ [.nameSpaceAware true]) = some (doc, o, l) := by
      rw [← hd]; simp only [chosenDoc, List.foldl_append]; rfl
    have := C56_partial fuel fuel' (opts ++ [.nameSpaceAware true]) doc o l out hd' (by omega) he h
    simp only [parseResult, newVtdParser, List.foldl_append, List.foldl_cons, List.foldl_nil, ParserArgs.apply] at this ⊢
    exact this
  · intro h
    exact C42_root_partial fuel' fuel opts doc o l out hd hl h hn

/-- Non-vacuity: the sample of the theorems above declares two prefixes at its root, and uses them on attributes of the
root and on a child element and its attributes. -/
theorem prefixSample_rooted : RootPrefixes prefixSample prefixWords := by
  have hall : ∀ {P : BitVec 64 → Prop}, (∀ i : Fin 15, P (prefixWords[i.val]'i.isLt)) → ∀ w ∈ prefixWords, P w := by
    intro P h w hw
    obtain ⟨i, hi, rfl⟩ := List.getElem_of_mem hw
    exact h ⟨i, hi⟩
  have hget : ∀ {P : Nat → BitVec 64 → Prop}, (∀ i : Fin 15, P i.val (prefixWords[i.val]'i.isLt)) →
      ∀ (i : Nat) w, prefixWords[i]? = some w → P i w := by
    intro P h i w hw
    obtain ⟨hi, rfl⟩ := List.getElem?_eq_some_iff.mp hw
    exact h ⟨i, hi⟩
  have da : Declares prefixSample 3458808524350423043 (bytes "a") := ⟨by decide +kernel, .inl (by decide +kernel), by decide⟩
  have db : Declares prefixSample 3458808524350423055 (bytes "b") := ⟨by decide +kernel, .inl (by decide +kernel), by decide⟩
  have hna : ∀ i, 2 ≤ i → Declared prefixSample prefixWords i (bytes "a") := fun i hi => ⟨2, _, rfl, da, fun k z h1 h2 => by omega⟩
  have hnb : ∀ i, 4 ≤ i → Declared prefixSample prefixWords i (bytes "b") := fun i hi => ⟨4, _, rfl, db, fun k z h1 h2 => by omega⟩
  have sp : ∀ {n p l p' l'}, Splits n p l → Splits n p' l' → p = p' ∧ l = l' := fun h h' => splits_unique h h'
  refine ⟨?_, ?_, ?_, ?_, ?_, by decide +kernel, ?_⟩
  · exact hall (by decide +kernel)
  · have key : ∀ i : Fin 15, i.val = 1 ∨ i.val = 10 ∨ ¬ IsStart (prefixWords[i.val]'i.isLt) := by decide +kernel
    refine hget fun i hs => ?_
    rcases key i with h | h | h
    · obtain ⟨i, hi⟩ := i
      obtain rfl : i = 1 := h
      exact ⟨bytes "r", by decide, ⟨by simp only [Grammar.AllName]; decide +kernel, ch% ' ', prefixSample.drop 3, by decide +kernel +revert,
        by decide⟩, .inl (by decide)⟩
    · obtain ⟨i, hi⟩ := i
      obtain rfl : i = 10 := h
      exact ⟨bytes "a:k", by decide, ⟨by simp only [Grammar.AllName]; decide +kernel, ch% ' ', prefixSample.drop 48, by decide +kernel +revert,
        by decide⟩, .inr ⟨bytes "a", bytes "k", ⟨by decide, by decide, by decide⟩, by decide, by decide, by decide, .inr (hna 10 (by decide))⟩⟩
    · exact absurd hs h
  · have key : ∀ i : Fin 15, (4 ≤ i.val ∧ (qname prefixSample (prefixWords[i.val]'i.isLt) = bytes "a:x" ∨
      qname prefixSample (prefixWords[i.val]'i.isLt) = bytes "b:y" ∨ qname prefixSample (prefixWords[i.val]'i.isLt) = bytes "b:z" ∨
      qname prefixSample (prefixWords[i.val]'i.isLt) = bytes "xml:q")) ∨ tokenType (prefixWords[i.val]'i.isLt) ≠ Token.attrName.code := by
      decide +kernel
    refine hget fun i ht p l hs => ?_
    rcases key i with ⟨hi, h | h | h | h⟩ | h
    · rw [h] at hs
      rw [(sp hs (p' := bytes "a") (l' := bytes "x") ⟨by decide, by decide, by decide⟩).1]
      exact .inr (hna _ (by omega))
    · rw [h] at hs
      rw [(sp hs (p' := bytes "b") (l' := bytes "y") ⟨by decide, by decide, by decide⟩).1]
      exact .inr (hnb _ (by omega))
    · rw [h] at hs
      rw [(sp hs (p' := bytes "b") (l' := bytes "z") ⟨by decide, by decide, by decide⟩).1]
      exact .inr (hnb _ (by omega))
    · rw [h] at hs
      rw [(sp hs (p' := bytes "xml") (l' := bytes "q") ⟨by decide, by decide, by decide⟩).1]
      exact .inl rfl
    · exact absurd ht h
  · have key : ∀ i : Fin 15, i.val = 2 ∨ i.val = 4 ∨ tokenType (prefixWords[i.val]'i.isLt) ≠ Token.attrNs.code := by
      decide +kernel
    refine hall fun i ht => ?_
    rcases key i with h | h | h
    · obtain ⟨i, hi⟩ := i
      obtain rfl : i = 2 := h
      exact .inr ⟨by decide +kernel +revert, _, da, by decide, by decide⟩
    · obtain ⟨i, hi⟩ := i
      obtain rfl : i = 4 := h
      exact .inr ⟨by decide +kernel +revert, _, db, by decide, by decide⟩
    · exact absurd ht h
  · have key : ∀ i : Fin 14, tokenType (prefixWords[i.val]'(Nat.lt_succ_of_lt i.isLt)) ≠ Token.attrNs.code ∨
      tokenLength (prefixWords[i.val + 1]'(Nat.succ_lt_succ i.isLt)) = 1 := by decide +kernel
    intro i w v hw hv ht
    obtain ⟨h1, rfl⟩ := List.getElem?_eq_some_iff.mp hw
    obtain ⟨h2, rfl⟩ := List.getElem?_eq_some_iff.mp hv
    rcases key ⟨i, by have : prefixWords.length = 15 := rfl; omega⟩ with h | h
    · exact absurd ht h
    · have h : tokenLength prefixWords[i + 1] = 1 := h
      exact ⟨fun _ => by omega, fun h => by omega⟩
  · have key : ∀ i k : Fin 15, tokenType (prefixWords[i.val]'i.isLt) ≠ Token.attrName.code ∨
      tokenType (prefixWords[k.val]'k.isLt) ≠ Token.attrName.code ∨ k.val ≤ i.val ∨
      (qname prefixSample (prefixWords[i.val]'i.isLt) = bytes "a:x" ∧ qname prefixSample (prefixWords[k.val]'k.isLt) = bytes "b:y") ∨
      (i.val < 10 ∧ 10 ≤ k.val) ∨ qname prefixSample (prefixWords[k.val]'k.isLt) = bytes "xml:q" := by decide +kernel
    intro i k w z hw hz hik hb tw tz p l p' l' h1 h2 h3 h4
    obtain ⟨hi, rfl⟩ := List.getElem?_eq_some_iff.mp hw
    obtain ⟨hk, rfl⟩ := List.getElem?_eq_some_iff.mp hz
    rcases key ⟨i, hi⟩ ⟨k, hk⟩ with h | h | h | ⟨h, h'⟩ | ⟨h, h'⟩ | h
    · exact absurd tw h
    · exact absurd tz h
    · simp only at h; omega
    · simp only at h h'
      have h1 : Splits (bytes "a:x") p l := Eq.mp (congrArg (Splits · p l) h) h1
      have h2 : Splits (bytes "b:y") p' l' := Eq.mp (congrArg (Splits · p' l') h') h2
      rw [(sp h1 (p' := bytes "a") (l' := bytes "x") ⟨by decide, by decide, by decide⟩).2,
        (sp h2 (p' := bytes "b") (l' := bytes "y") ⟨by decide, by decide, by decide⟩).2]
      decide
    · exact absurd (by decide +kernel) (hb 10 _ h h' rfl)
    · simp only at h
      have h2 : Splits (bytes "xml:q") p' l' := Eq.mp (congrArg (Splits · p' l') h) h2
      exact absurd (sp h2 (p' := bytes "xml") (l' := bytes "q") ⟨by decide, by decide, by decide⟩).1 h4

example : chosenDoc [.xmlDoc (some prefixSample)] = some (prefixSample, 0, (prefixSample.length : Int)) ∧
    prefixSample.length < 2 ^ 30 ∧
    ∃ out, parseResult 100 ([.xmlDoc (some prefixSample)] ++ [.nameSpaceAware false]) = .value out ∧
      RootPrefixes prefixSample out.vtdBuffer.values := by
  refine ⟨by decide +kernel, by decide +kernel, ?_⟩
  have key : (match parseResult 100 ([.xmlDoc (some prefixSample)] ++ [.nameSpaceAware false]) with
    | .value out => out.vtdBuffer.values == prefixWords
    | _ => false) = true := by decide +kernel
  cases h : parseResult 100 ([.xmlDoc (some prefixSample)] ++ [.nameSpaceAware false]) with
  | value a =>
    rw [h] at key
    refine ⟨a, rfl, ?_⟩
    rw [eq_of_beq key]
    exact prefixSample_rooted
  | _ => rw [h] at key; cases key

/-- A declared prefix of ten bytes that begins with `xmlns` is refused; without the last byte it is accepted. -/
theorem C42_refuted_ten :
    succeeds [.xmlDoc (some (bytes "<xmlnsabcde:r xmlns:xmlnsabcde='u'/>")), .nameSpaceAware false] = true ∧
    succeeds [.xmlDoc (some (bytes "<xmlnsabcde:r xmlns:xmlnsabcde='u'/>")), .nameSpaceAware true] = false ∧
    succeeds [.xmlDoc (some (bytes "<xmlnsabcd:r xmlns:xmlnsabcd='u'/>")), .nameSpaceAware true] = true := by
  decide +kernel

end GoVtd
