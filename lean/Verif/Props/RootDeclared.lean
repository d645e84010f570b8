import Verif.Spec.RootDeclared
import Verif.Props.Rooted

/-!
# Properties C42, C43, C44: exactly what the namespace-aware parser refuses

For the documents that declare their prefixes at the root, namespace awareness adds exactly three checks to the parser:
the prefixes are declared, the declarations are valid, and the prefixed attributes of a tag have different local names.
-/

namespace GoVtd
open Parser Parser.Sound

theorem RootDeclared.rooted {doc : List UInt8} {ws : List (BitVec 64)} (hr : RootDeclared doc ws)
    (hp : PrefixesDeclared doc ws) (hv : DeclarationsValid doc ws) (hl : LocalsDistinct doc ws) : RootPrefixes doc ws where
  level := hr.level
  elem := by
    intro i w hw hs
    obtain ⟨n, h0, h1, h2⟩ := hr.elem w (List.mem_of_getElem? hw) hs
    refine ⟨n, h0, h1, h2.imp_right ?_⟩
    rintro ⟨p, l, h3, h4, h5, h6, -⟩
    exact ⟨p, l, h3, h4, h5, h6, hp.elem i w hw hs n p l h1 h3⟩
  attr := hp.attr
  decl := by
    intro w hw ht
    refine (hr.decl w hw ht).imp_right ?_
    rintro ⟨h1, p, h2⟩
    obtain ⟨i, hi⟩ := List.getElem?_of_mem hw
    obtain ⟨h3, h4, -⟩ := hv i w p hi h2
    exact ⟨h1, p, h2, h3, h4⟩
  value := by
    intro i w v hw hv' ht
    refine ⟨fun hc => ?_, hr.value i w v hw hv' ht⟩
    rcases hr.decl w (List.mem_of_getElem? hw) ht with h | ⟨-, p, h2⟩
    · exact absurd hc h
    · exact (hv i w p hw h2).2.2 v hv'
  few := hr.few
  locals := hl

theorem name_prefix_unique {n n' r r' : List UInt8} {b b' : UInt8} (hn : Grammar.AllName n) (hn' : Grammar.AllName n')
    (hb : ¬ Grammar.NameByte b) (hb' : ¬ Grammar.NameByte b') (h : n ++ b :: r = n' ++ b' :: r') : n = n' := by
  induction n generalizing n' with
  | nil =>
    cases n' with
    | nil => rfl
    | cons c t =>
      simp only [List.nil_append, List.cons_append, List.cons.injEq] at h
      exact absurd (hn' c (List.mem_cons_self ..)) (h.1 ▸ hb)
  | cons a s ih =>
    cases n' with
    | nil =>
      simp only [List.nil_append, List.cons_append, List.cons.injEq] at h
      exact absurd (hn a (List.mem_cons_self ..)) (h.1 ▸ hb')
    | cons c t =>
      simp only [List.cons_append, List.cons.injEq] at h
      rw [h.1, ih (fun x hx => hn x (List.mem_cons_of_mem _ hx)) (fun x hx => hn' x (List.mem_cons_of_mem _ hx)) h.2]

theorem elementName_unique {doc : List UInt8} {w : BitVec 64} {n n' : List UInt8} (h : ElementName doc w n)
    (h' : ElementName doc w n') : n = n' := by
  obtain ⟨h1, b, r, h2, h3⟩ := h
  obtain ⟨h1', b', r', h2', h3'⟩ := h'
  exact name_prefix_unique h1 h1' h3 h3' (h2.symm.trans h2')

theorem parseResult_tokens {fuel : Nat} {opts : List ParserOption} {out : ParserOut}
    (h : parseResult fuel opts = .value out) : parsedTokens fuel opts = some out.vtdBuffer.values := by
  simp only [parseResult] at h
  simp only [parsedTokens, parsed]
  cases hp : newVtdParser fuel opts with
  | error e => rw [hp] at h; cases h
  | ok p =>
    rw [hp] at h
    simp only at h ⊢
    cases hq : Parser.parse p with
    | ok u p' => rw [hq] at h; cases h; rfl
    | err e p' => rw [hq] at h; cases h
    | panic => rw [hq] at h; cases h
    | diverge => rw [hq] at h; cases h

/-- C42, exactly, for documents of less than 2^30 bytes that declare prefixes at the root only: with namespace awareness
the parser accepts the document exactly when it accepts it without, every prefix that is used is declared, the
declarations are valid, and the prefixed attributes of each tag have different local names; the results are then the
same. The last condition is stronger than C43's, which compares namespaces (`C43_refuted`). -/
theorem C42_root_exact (fuel fuel' : Nat) (opts : List ParserOption) (doc : List UInt8) (o l : Int) (out : ParserOut)
    (hd : chosenDoc opts = some (doc, o, l)) (hl : doc.length < 2 ^ 30) (he : NoEntityStart doc)
    (hr : RootDeclared doc out.vtdBuffer.values) :
    parseResult fuel (opts ++ [.nameSpaceAware true]) = .value out ↔
      parseResult fuel' (opts ++ [.nameSpaceAware false]) = .value out ∧
      PrefixesDeclared doc out.vtdBuffer.values ∧ DeclarationsValid doc out.vtdBuffer.values ∧
      LocalsDistinct doc out.vtdBuffer.values := by
  have hd' : chosenDoc (opts ++ [.nameSpaceAware true]) = some (doc, o, l) := by
    rw [← hd]; simp only [chosenDoc, List.foldl_append]; rfl
  have hns : chosenNs (opts ++ [.nameSpaceAware true]) = true := by
    simp only [chosenNs, List.foldl_append, List.foldl_cons, List.foldl_nil]
  constructor
  · intro h
    have ht := parseResult_tokens h
    refine ⟨?_, ⟨?_, ?_⟩, ?_, ?_⟩
    · have := C56_partial fuel fuel' (opts ++ [.nameSpaceAware true]) doc o l out hd' (by omega) he h
      simp only [parseResult, newVtdParser, List.foldl_append, List.foldl_cons, List.foldl_nil, ParserArgs.apply] at this ⊢
      exact this
    · intro i w hw hs n p q hn hsp
      rcases C42_elements_partial _ _ doc o l _ hd' hns ht i w hw hs n p q hn hsp with h1 | h1 | h1
      · exact .inl h1
      · obtain ⟨n', -, hn', h2⟩ := hr.elem w (List.mem_of_getElem? hw) hs
        obtain rfl : n = n' := elementName_unique hn hn'
        rcases h2 with h2 | ⟨p', l', h3, -, -, -, h4⟩
        · exact absurd (by rw [hsp.eq]; simp) h2
        · rw [(splits_unique h3 hsp).1] at h4
          exact absurd h1 h4
      · exact .inr h1
    · intro i w hw hy p q hsp
      exact C42_attributes_partial _ _ doc o l _ hd' hns ht i w hw hy p q hsp
    · intro i w p hw hp
      obtain ⟨h1, h2, v, h3, -, h4⟩ := C44_partial _ _ doc o l _ hd' hns ht i w hw p hp
      refine ⟨h1, h2, fun v' hv' => ?_⟩
      obtain rfl : v = v' := Option.some.inj (h3.symm.trans hv')
      exact h4
    · intro i k w z hw hz hik hm tw tz p q p' q' h1 h2 h3 h4
      exact C43_partial _ _ doc o l _ hd' hns he (by omega) ht i k w z hw hz hik hm tw tz p q p' q' h1 h2 h3 h4
  · rintro ⟨h, h1, h2, h3⟩
    exact C42_root_partial fuel' fuel opts doc o l out hd hl h (hr.rooted h1 h2 h3)

/-- So a document of this kind that breaks one of the three rules is refused, although the parser without namespace
awareness accepts it. -/
theorem C42_root_refuses_partial (fuel fuel' : Nat) (opts : List ParserOption) (doc : List UInt8) (o l : Int) (out : ParserOut)
    (hd : chosenDoc opts = some (doc, o, l)) (hl : doc.length < 2 ^ 30) (he : NoEntityStart doc)
    (hr : RootDeclared doc out.vtdBuffer.values)
    (h : parseResult fuel' (opts ++ [.nameSpaceAware false]) = .value out)
    (hb : ¬ PrefixesDeclared doc out.vtdBuffer.values ∨ ¬ DeclarationsValid doc out.vtdBuffer.values ∨
      ¬ LocalsDistinct doc out.vtdBuffer.values) :
    ∀ out', parseResult fuel (opts ++ [.nameSpaceAware true]) ≠ .value out' := by
  intro out' h'
  have hd' : chosenDoc (opts ++ [.nameSpaceAware true]) = some (doc, o, l) := by
    rw [← hd]; simp only [chosenDoc, List.foldl_append]; rfl
  have h2 := C56_partial fuel fuel' (opts ++ [.nameSpaceAware true]) doc o l out' hd' (by omega) he h'
  have h3 : parseResult fuel' (opts ++ [.nameSpaceAware false]) = .value out' := by
    simp only [parseResult, newVtdParser, List.foldl_append, List.foldl_cons, List.foldl_nil, ParserArgs.apply] at h2 ⊢
    exact h2
  rw [h] at h3
  cases h3
  obtain ⟨-, h4, h5, h6⟩ := (C42_root_exact fuel fuel' opts doc o l out hd hl he hr).mp h'
  rcases hb with hb | hb | hb
  · exact hb h4
  · exact hb h5
  · exact hb h6

/-- C43, exactly, for the same documents when their prefixes and declarations are in order: the document is accepted
exactly when no two attributes of a tag that have prefixes other than `xml` have the same local name, whatever the
prefixes are bound to. -/
theorem C43_root_exact (fuel fuel' : Nat) (opts : List ParserOption) (doc : List UInt8) (o l : Int) (out : ParserOut)
    (hd : chosenDoc opts = some (doc, o, l)) (hl : doc.length < 2 ^ 30) (he : NoEntityStart doc)
    (hr : RootDeclared doc out.vtdBuffer.values)
    (h : parseResult fuel' (opts ++ [.nameSpaceAware false]) = .value out)
    (hp : PrefixesDeclared doc out.vtdBuffer.values) (hv : DeclarationsValid doc out.vtdBuffer.values) :
    parseResult fuel (opts ++ [.nameSpaceAware true]) = .value out ↔ LocalsDistinct doc out.vtdBuffer.values := by
  rw [C42_root_exact fuel fuel' opts doc o l out hd hl he hr]
  exact ⟨fun h => h.2.2.2, fun h1 => ⟨h, hp, hv, h1⟩⟩

/-- C44, exactly, for the same documents when their prefixes are declared and their local names different: the document
is accepted exactly when no declaration names `xml` or `xmlns` and none has an empty value. What else the values are
does not matter. -/
theorem C44_root_exact (fuel fuel' : Nat) (opts : List ParserOption) (doc : List UInt8) (o l : Int) (out : ParserOut)
    (hd : chosenDoc opts = some (doc, o, l)) (hl : doc.length < 2 ^ 30) (he : NoEntityStart doc)
    (hr : RootDeclared doc out.vtdBuffer.values)
    (h : parseResult fuel' (opts ++ [.nameSpaceAware false]) = .value out)
    (hp : PrefixesDeclared doc out.vtdBuffer.values) (hu : LocalsDistinct doc out.vtdBuffer.values) :
    parseResult fuel (opts ++ [.nameSpaceAware true]) = .value out ↔ DeclarationsValid doc out.vtdBuffer.values := by
  rw [C42_root_exact fuel fuel' opts doc o l out hd hl he hr]
  exact ⟨fun h => h.2.2.1, fun h1 => ⟨h, hp, h1, hu⟩⟩

/-- Non-vacuity: the sample document of `Verif/Props/Rooted.lean` declares two prefixes at its root. -/
theorem prefixSample_declared : RootDeclared prefixSample prefixWords := by
  have h := prefixSample_rooted
  refine ⟨h.level, ?_, ?_, fun i w v hw hv ht => (h.value i w v hw hv ht).2, h.few⟩
  · have key : ∀ i : Fin 15, i.val = 1 ∨ i.val = 10 ∨ ¬ IsStart (prefixWords[i.val]'i.isLt) := by decide +kernel
    intro w hw hs
    obtain ⟨i, hi, rfl⟩ := List.getElem_of_mem hw
    rcases key ⟨i, hi⟩ with h | h | h
    · obtain rfl : i = 1 := h
      exact ⟨bytes "r", by decide, ⟨by simp only [Grammar.AllName]; decide +kernel, ch% ' ', prefixSample.drop 3,
        by decide +kernel +revert, by decide⟩, .inl (by decide)⟩
    · obtain rfl : i = 10 := h
      exact ⟨bytes "a:k", by decide, ⟨by simp only [Grammar.AllName]; decide +kernel, ch% ' ', prefixSample.drop 48,
        by decide +kernel +revert, by decide⟩,
        .inr ⟨bytes "a", bytes "k", ⟨by decide, by decide, by decide⟩, by decide, by decide, by decide, by decide⟩⟩
    · exact absurd hs h
  · intro w hw ht
    exact (h.decl w hw ht).imp_right fun ⟨h1, p, h2, _⟩ => ⟨h1, p, h2⟩

/-- The sample meets the three rules as well, because it is accepted. -/
example : ∃ out, parseResult 100 ([.xmlDoc (some prefixSample)] ++ [.nameSpaceAware false]) = .value out ∧
    RootDeclared prefixSample out.vtdBuffer.values ∧ PrefixesDeclared prefixSample out.vtdBuffer.values ∧
    DeclarationsValid prefixSample out.vtdBuffer.values ∧ LocalsDistinct prefixSample out.vtdBuffer.values := by
  have key : (match parseResult 100 ([.xmlDoc (some prefixSample)] ++ [.nameSpaceAware false]) with
    | .value out => out.vtdBuffer.values == prefixWords
    | _ => false) = true := by decide +kernel
  have ha : ch% '&' ∉ prefixSample := by decide +kernel
  have he : NoEntityStart prefixSample := by
    refine ⟨?_, ?_, ?_, ?_⟩ <;> exact fun h => ha (h.subset (by decide))
  cases h : parseResult 100 ([.xmlDoc (some prefixSample)] ++ [.nameSpaceAware false]) with
  | value a =>
    rw [h] at key
    have e := eq_of_beq key
    have hd : chosenDoc [.xmlDoc (some prefixSample)] = some (prefixSample, 0, (prefixSample.length : Int)) := by decide +kernel
    have hr : RootDeclared prefixSample a.vtdBuffer.values := by rw [e]; exact prefixSample_declared
    have hq : RootPrefixes prefixSample a.vtdBuffer.values := by rw [e]; exact prefixSample_rooted
    have hok := C42_root_partial 100 100 _ _ _ _ a hd (by decide +kernel) h hq
    obtain ⟨-, h1, h2, h3⟩ := (C42_root_exact 100 100 _ _ _ _ a hd (by decide +kernel) he hr).mp hok
    exact ⟨a, rfl, hr, h1, h2, h3⟩
  | _ => rw [h] at key; cases key

/-- A document that uses a prefix it does not declare. -/
def strayPrefix : List UInt8 := bytes "<r xmlns:a='u'><b:k/></r>"

/-- Its records. -/
def strayWords : List (BitVec 64) := [16136397464868487168, 4294967297, 3458808524350423043, 4611686022722355212, 4503612512272400]

theorem strayPrefix_declared : RootDeclared strayPrefix strayWords := by
  have hall : ∀ {P : BitVec 64 → Prop}, (∀ i : Fin 5, P (strayWords[i.val]'i.isLt)) → ∀ w ∈ strayWords, P w := by
    intro P h w hw
    obtain ⟨i, hi, rfl⟩ := List.getElem_of_mem hw
    exact h ⟨i, hi⟩
  refine ⟨hall (by decide +kernel), ?_, ?_, ?_, by decide +kernel⟩
  · have key : ∀ i : Fin 5, i.val = 1 ∨ i.val = 4 ∨ ¬ IsStart (strayWords[i.val]'i.isLt) := by decide +kernel
    refine hall fun i hs => ?_
    rcases key i with h | h | h
    · obtain ⟨i, hi⟩ := i
      obtain rfl : i = 1 := h
      exact ⟨bytes "r", by decide, ⟨by simp only [Grammar.AllName]; decide +kernel, ch% ' ', strayPrefix.drop 3,
        by decide +kernel +revert, by decide⟩, .inl (by decide)⟩
    · obtain ⟨i, hi⟩ := i
      obtain rfl : i = 4 := h
      exact ⟨bytes "b:k", by decide, ⟨by simp only [Grammar.AllName]; decide +kernel, ch% '/', strayPrefix.drop 20,
        by decide +kernel +revert, by decide⟩,
        .inr ⟨bytes "b", bytes "k", ⟨by decide, by decide, by decide⟩, by decide, by decide, by decide, by decide⟩⟩
    · exact absurd hs h
  · have key : ∀ i : Fin 5, i.val = 2 ∨ tokenType (strayWords[i.val]'i.isLt) ≠ Token.attrNs.code := by decide +kernel
    refine hall fun i ht => ?_
    rcases key i with h | h
    · obtain ⟨i, hi⟩ := i
      obtain rfl : i = 2 := h
      exact .inr ⟨by decide +kernel +revert, bytes "a", by decide +kernel +revert, .inl (by decide +kernel +revert), by decide⟩
    · exact absurd ht h
  · have key : ∀ i : Fin 4, tokenType (strayWords[i.val]'(Nat.lt_succ_of_lt i.isLt)) ≠ Token.attrNs.code ∨
      tokenLength (strayWords[i.val + 1]'(Nat.succ_lt_succ i.isLt)) = 1 := by decide +kernel
    intro i w v hw hv ht
    obtain ⟨h1, rfl⟩ := List.getElem?_eq_some_iff.mp hw
    obtain ⟨h2, rfl⟩ := List.getElem?_eq_some_iff.mp hv
    rcases key ⟨i, by have : strayWords.length = 5 := rfl; omega⟩ with h | h
    · exact absurd ht h
    · have h : tokenLength strayWords[i + 1] = 1 := h
      exact fun h => by omega

theorem strayPrefix_stray : ¬ PrefixesDeclared strayPrefix strayWords := by
  have hstray : qname strayPrefix (strayWords[2]'(by decide)) = bytes "xmlns:a" := by decide +kernel
  intro h
  rcases h.elem 4 _ rfl (by decide +kernel) (bytes "b:k") (bytes "b") (bytes "k")
    ⟨by simp only [Grammar.AllName]; decide +kernel, ch% '/', strayPrefix.drop 20, by decide +kernel, by decide⟩
    ⟨by decide, by decide, by decide⟩ with h1 | ⟨j, w, h1, h2, -⟩
  · exact absurd h1 (by decide)
  · have key : ∀ i : Fin 5, i.val = 2 ∨ tokenType (strayWords[i.val]'i.isLt) ≠ Token.attrNs.code := by decide +kernel
    obtain ⟨hj, rfl⟩ := List.getElem?_eq_some_iff.mp h1
    rcases key ⟨j, hj⟩ with h3 | h3
    · obtain rfl : j = 2 := h3
      have hq : qname strayPrefix strayWords[2] = bytes "xmlns:a" := hstray
      rcases h2.name with h4 | ⟨u, h4⟩
      · rw [hq] at h4
        exact absurd h4 (by decide)
      · rw [hq] at h4
        have := congrArg List.length h4
        simp [bytes] at this
    · exact absurd h2.type h3

example : chosenDoc [.xmlDoc (some strayPrefix)] = some (strayPrefix, 0, (strayPrefix.length : Int)) ∧
    strayPrefix.length < 2 ^ 30 ∧ NoEntityStart strayPrefix ∧
    ∃ out, parseResult 100 ([.xmlDoc (some strayPrefix)] ++ [.nameSpaceAware false]) = .value out ∧
      RootDeclared strayPrefix out.vtdBuffer.values ∧ ¬ PrefixesDeclared strayPrefix out.vtdBuffer.values := by
  have ha : ch% '&' ∉ strayPrefix := by decide +kernel
  refine ⟨by decide +kernel, by decide +kernel, ⟨?_, ?_, ?_, ?_⟩, ?_⟩
  all_goals first | exact fun h => ha (h.subset (by decide)) | skip
  have key : (match parseResult 100 ([.xmlDoc (some strayPrefix)] ++ [.nameSpaceAware false]) with
    | .value out => out.vtdBuffer.values == strayWords
    | _ => false) = true := by decide +kernel
  cases h : parseResult 100 ([.xmlDoc (some strayPrefix)] ++ [.nameSpaceAware false]) with
  | value a =>
    rw [h] at key
    refine ⟨a, rfl, ?_⟩
    rw [eq_of_beq key]
    exact ⟨strayPrefix_declared, strayPrefix_stray⟩
  | _ => rw [h] at key; cases key

end GoVtd
