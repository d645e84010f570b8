import Verif.Spec.Scoped
import Verif.Proofs.Parser.ScopedParse
import Verif.Props.Rooted
import Verif.Props.RootDeclared
import Verif.Props.Tags
import Verif.Props.Namespaces

/-!
# Property C42, the other direction: declarations below the root

`C42_root_partial` is about documents that declare their prefixes at the root element. Here the declarations may stand
at any element. `C42_refuted_declared` shows that the parser does not look at all declarations in scope;
`Verif/Spec/Scoped.lean` says at which ones it does, and for documents whose prefixes are declared by those it accepts.
-/

namespace GoVtd
open Parser Parser.Sound

/-- C42, the direction from declarations to acceptance, for documents of less than 2^30 bytes whose prefixes are declared
by declarations that the parser looks at (`VisiblePrefixes`), at the root or at other elements: what the parser accepts
without namespace awareness, where prefixes mean nothing, it also accepts with it, and the token records and location
caches are the same. -/
theorem C42_visible_partial (fuel fuel' : Nat) (opts : List ParserOption) (doc : List UInt8) (o l : Int) (out : ParserOut)
    (hd : chosenDoc opts = some (doc, o, l)) (hl : doc.length < 2 ^ 30)
    (h : parseResult fuel (opts ++ [.nameSpaceAware false]) = .value out) (hn : VisiblePrefixes doc out.vtdBuffer.values) :
    parseResult fuel' (opts ++ [.nameSpaceAware true]) = .value out := by
  have hN := (C31_nesting fuel (opts ++ [.nameSpaceAware false]) _ (parseResult_tokens h)).1
  simp only [parseResult] at h ⊢
  cases hp : newVtdParser fuel (opts ++ [.nameSpaceAware false]) with
  | error e => rw [hp] at h; cases h
  | ok p =>
    rw [hp] at h
    have hx : p.cfg.xmlDoc = doc := by
      have h1 := newVtdParser_doc hp
      rw [(args_chosen _).1] at h1
      have e : chosenDoc (opts ++ [.nameSpaceAware false]) = chosenDoc opts := by
        simp only [chosenDoc, List.foldl_append]; rfl
      rw [e, hd] at h1
      exact (Option.some.inj h1).symm
    obtain ⟨ha, hb⟩ := newVtdParser_aware (fuel' := fuel') hp
    rw [hb]
    simp only at h ⊢
    cases hq : Parser.parse p with
    | ok u p' =>
      rw [hq] at h
      cases h
      have hf := newVtdParser_fresh hp
      obtain ⟨t', h1, h2⟩ := Scoped.parse_scoped (f := fuel') hf ha (by have := hf.end1; rw [hx] at this; omega)
        (by rw [hx]; exact hl) hq (by rw [hx]; exact hn) hN
      rw [h1]
      simp only [h2]
    | err e p' => rw [hq] at h; cases h
    | panic => rw [hq] at h; cases h
    | diverge => rw [hq] at h; cases h

/-- With `C56_partial`: for such a document the two parsers accept alike, with the same results. -/
theorem C42_visible_iff_partial (fuel fuel' : Nat) (opts : List ParserOption) (doc : List UInt8) (o l : Int)
    (out : ParserOut) (hd : chosenDoc opts = some (doc, o, l)) (hl : doc.length < 2 ^ 30) (he : NoEntityStart doc)
    (hn : VisiblePrefixes doc out.vtdBuffer.values) :
    parseResult fuel (opts ++ [.nameSpaceAware true]) = .value out ↔
      parseResult fuel' (opts ++ [.nameSpaceAware false]) = .value out := by
  constructor
  · intro h
    have hd' : chosenDoc (opts ++ [.nameSpaceAware true]) = some (doc, o, l) := by
      rw [← hd]; simp only [chosenDoc, List.foldl_append]; rfl
    have := C56_partial fuel fuel' (opts ++ [.nameSpaceAware true]) doc o l out hd' (by omega) he h
    simp only [parseResult, newVtdParser, List.foldl_append, List.foldl_cons, List.foldl_nil, ParserArgs.apply] at this ⊢
    exact this
  · intro h
    exact C42_visible_partial fuel' fuel opts doc o l out hd hl h hn

/-- A document with a declaration below the root. -/
def belowRoot : List UInt8 := bytes "<r><a xmlns:p='u'><p:b p:x='1'/></a><c/></r>"

/-- Its records. -/
def belowWords : List (BitVec 64) := [0xdff0000000000000, 0x0000000100000001, 0x0010000100000004, 0x3010280700000006,
  0x401000010000000f, 0x0020000300000013, 0x2020080300000017, 0x402000010000001c, 0x0010000100000025]

/-- Non-vacuity: the sample declares a prefix at a child of the root, and uses it on an element below and its
attribute. -/
theorem belowRoot_visible : VisiblePrefixes belowRoot belowWords := by
  have hall : ∀ {P : BitVec 64 → Prop}, (∀ i : Fin 9, P (belowWords[i.val]'i.isLt)) → ∀ w ∈ belowWords, P w := by
    intro P h w hw
    obtain ⟨i, hi, rfl⟩ := List.getElem_of_mem hw
    exact h ⟨i, hi⟩
  have hget : ∀ {P : Nat → BitVec 64 → Prop}, (∀ i : Fin 9, P i.val (belowWords[i.val]'i.isLt)) →
      ∀ (i : Nat) w, belowWords[i]? = some w → P i w := by
    intro P h i w hw
    obtain ⟨hi, rfl⟩ := List.getElem?_eq_some_iff.mp hw
    exact h ⟨i, hi⟩
  have dp : Declares belowRoot 0x3010280700000006 (bytes "p") := ⟨by decide +kernel, .inl (by decide +kernel), by decide⟩
  have vis : ∀ m : Fin 3, visibleDecls belowRoot (belowWords.take (m.val + 6)) = [0x3010280700000006] := by decide +kernel
  have vp : ∀ i, 5 ≤ i → i < 8 → Visible belowRoot belowWords i (bytes "p") := fun i h1 h2 =>
    ⟨i + 1, by omega, fun k z h3 h4 => by omega, 0x3010280700000006, by
      have := vis ⟨i - 5, by omega⟩
      simp only [show i - 5 + 6 = i + 1 by omega] at this
      rw [this]; exact List.mem_singleton_self _, dp⟩
  have sp : ∀ {n p l p' l'}, Splits n p l → Splits n p' l' → p = p' ∧ l = l' := fun h h' => splits_unique h h'
  have fr : ∀ n : List UInt8, n.length ≤ 5 → NoXmlns n := by
    intro n hn i hi
    have := (List.getElem?_eq_some_iff.mp hi).1
    exact fun _ => by omega
  have none : ∀ {n : List UInt8} {i : Nat}, ch% ':' ∉ n → ∀ p l, Splits n p l → XmlLike p ∨ Visible belowRoot belowWords i p :=
    fun h p l hs => absurd (by rw [hs.eq]; simp) h
  refine ⟨?_, ?_, ?_, ?_, ?_, ?_, ?_, ?_⟩
  · exact hall (by decide +kernel)
  · have key : ∀ i : Fin 9, i.val = 1 ∨ i.val = 2 ∨ i.val = 5 ∨ i.val = 8 ∨ ¬ IsStart (belowWords[i.val]'i.isLt) := by
      decide +kernel
    refine hget fun i hs => ?_
    rcases key i with h | h | h | h | h
    · obtain ⟨i, hi⟩ := i
      obtain rfl : i = 1 := h
      exact ⟨bytes "r", by decide, ⟨by simp only [Grammar.AllName]; decide +kernel, ch% '>', belowRoot.drop 3,
        by decide +kernel +revert, by decide⟩, fr _ (by decide), none (by decide)⟩
    · obtain ⟨i, hi⟩ := i
      obtain rfl : i = 2 := h
      exact ⟨bytes "a", by decide, ⟨by simp only [Grammar.AllName]; decide +kernel, ch% ' ', belowRoot.drop 6,
        by decide +kernel +revert, by decide⟩, fr _ (by decide), none (by decide)⟩
    · obtain ⟨i, hi⟩ := i
      obtain rfl : i = 5 := h
      exact ⟨bytes "p:b", by decide, ⟨by simp only [Grammar.AllName]; decide +kernel, ch% ' ', belowRoot.drop 23,
        by decide +kernel +revert, by decide⟩,
        fr _ (by decide), fun p l hs => by
          rw [(sp hs (p' := bytes "p") (l' := bytes "b") ⟨by decide, by decide, by decide⟩).1]
          exact .inr (vp 5 (by decide) (by decide))⟩
    · obtain ⟨i, hi⟩ := i
      obtain rfl : i = 8 := h
      exact ⟨bytes "c", by decide, ⟨by simp only [Grammar.AllName]; decide +kernel, ch% '/', belowRoot.drop 39,
        by decide +kernel +revert, by decide⟩, fr _ (by decide), none (by decide)⟩
    · exact absurd hs h
  · have key : ∀ i : Fin 9, (i.val = 6 ∧ qname belowRoot (belowWords[i.val]'i.isLt) = bytes "p:x") ∨
      tokenType (belowWords[i.val]'i.isLt) ≠ Token.attrName.code := by decide +kernel
    refine hget fun i ht p l hs => ?_
    rcases key i with ⟨hi, h⟩ | h
    · rw [h] at hs
      rw [(sp hs (p' := bytes "p") (l' := bytes "x") ⟨by decide, by decide, by decide⟩).1]
      exact .inr (vp _ (by omega) (by omega))
    · exact absurd ht h
  · have key : ∀ i : Fin 9, i.val = 3 ∨ tokenType (belowWords[i.val]'i.isLt) ≠ Token.attrNs.code := by decide +kernel
    refine hall fun i p hp => ?_
    rcases key i with h | h
    · obtain ⟨i, hi⟩ := i
      obtain rfl : i = 3 := h
      obtain rfl : p = bytes "p" := (declares_colon hp).2.trans (declares_colon dp).2.symm
      exact ⟨by decide, by decide⟩
    · exact absurd hp.type h
  · have key : ∀ i : Fin 8, tokenType (belowWords[i.val]'(Nat.lt_succ_of_lt i.isLt)) ≠ Token.attrNs.code ∨
      tokenLength (belowWords[i.val + 1]'(Nat.succ_lt_succ i.isLt)) = 1 := by decide +kernel
    intro i w v hw hv ht
    obtain ⟨h1, rfl⟩ := List.getElem?_eq_some_iff.mp hw
    obtain ⟨h2, rfl⟩ := List.getElem?_eq_some_iff.mp hv
    rcases key ⟨i, by have : belowWords.length = 9 := rfl; omega⟩ with h | h
    · exact absurd ht h
    · have h : tokenLength belowWords[i + 1] = 1 := h
      exact ⟨fun _ _ => by omega, fun h => by omega⟩
  · have key : ∀ m : Fin 10, (scopeOf belowRoot (belowWords.take m.val)).visible ≤ 64 := by decide +kernel
    intro m
    by_cases hm : m < 10
    · exact key ⟨m, hm⟩
    · rw [List.take_of_length_le (show belowWords.length ≤ m by have : belowWords.length = 9 := rfl; omega)]
      exact key ⟨9, by decide⟩
  · have key : ∀ i : Fin 9, i.val = 3 ∨ ¬ IsPrefixDecl belowRoot (belowWords[i.val]'i.isLt) := by decide +kernel
    refine hget fun i hp _ => ?_
    rcases key i with h | h
    · rw [h]; decide +kernel
    · exact absurd hp h
  · have key : ∀ i k : Fin 9, tokenType (belowWords[i.val]'i.isLt) ≠ Token.attrName.code ∨
      tokenType (belowWords[k.val]'k.isLt) ≠ Token.attrName.code ∨ k.val ≤ i.val := by decide +kernel
    intro i k w z hw hz hik hb tw tz
    obtain ⟨hi, rfl⟩ := List.getElem?_eq_some_iff.mp hw
    obtain ⟨hk, rfl⟩ := List.getElem?_eq_some_iff.mp hz
    rcases key ⟨i, hi⟩ ⟨k, hk⟩ with h | h | h
    · exact absurd tw h
    · exact absurd tz h
    · simp only at h; omega

example : chosenDoc [.xmlDoc (some belowRoot)] = some (belowRoot, 0, (belowRoot.length : Int)) ∧
    belowRoot.length < 2 ^ 30 ∧
    ∃ out, parseResult 100 ([.xmlDoc (some belowRoot)] ++ [.nameSpaceAware false]) = .value out ∧
      VisiblePrefixes belowRoot out.vtdBuffer.values := by
  refine ⟨by decide +kernel, by decide +kernel, ?_⟩
  have key : (match parseResult 100 ([.xmlDoc (some belowRoot)] ++ [.nameSpaceAware false]) with
    | .value out => out.vtdBuffer.values == belowWords
    | _ => false) = true := by decide +kernel
  cases h : parseResult 100 ([.xmlDoc (some belowRoot)] ++ [.nameSpaceAware false]) with
  | value a =>
    rw [h] at key
    refine ⟨a, rfl, ?_⟩
    rw [eq_of_beq key]
    exact belowRoot_visible
  | _ => rw [h] at key; cases key

/-- `again` is needed: no prefix is used in this document, two are declared at siblings, and it is refused with an error
about an array index. At the second declaration the parser looks at none of those before. -/
theorem C42_refuted_again :
    succeeds [.xmlDoc (some (bytes "<r><x xmlns:a='u'/><z xmlns:b='v'/></r>")), .nameSpaceAware false] = true ∧
    parseNs 100 "<r><x xmlns:a='u'/><z xmlns:b='v'/></r>" =
      .error (.leaf (.invalidArgument "index" "array index out of range")) := by
  decide +kernel

end GoVtd
