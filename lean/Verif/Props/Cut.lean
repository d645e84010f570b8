import Verif.Proofs.Parser.Append
import Verif.Props.NsOnly

/-!
# C73: truncated documents
-/

namespace GoVtd

open Grammar

/-- What can follow an accepted document. If `Parse` accepts `x`, with the token records `ws`, then it accepts
`x ++ z` exactly when `z` is what the grammar allows after the root element, which is white space and processing
instructions, and the token records are `ws` and those of the processing instructions in `z`. -/
theorem C73_exact (fuel fuel' : Nat) (opts opts' : List ParserOption) (x z : List UInt8) (o : Nat)
    (h : SelectRest opts x o) (h' : SelectRest opts' (x ++ z) o) (ws ws' : List (BitVec 64))
    (hp : parsedTokens fuel opts = some ws) :
    parsedTokens fuel' opts' = some ws' ↔
      (x ++ z).length < 2 ^ 31 ∧ ∃ recs, Epilog (x ++ z).length z recs ∧ ws' = ws ++ recs.map Rec.word := by
  obtain ⟨hl, recs, hd, rfl⟩ := (C32_exact fuel opts x o h ws).1 hp
  have ho : o ≤ x.length := by
    refine Nat.le_of_not_lt fun hlt => ?_
    rw [List.drop_eq_nil_of_le (Nat.le_of_lt hlt)] at hd
    generalize hs : ([] : List UInt8) = s at hd
    cases hd <;> simp at hs
  have e : (x ++ z).drop o = x.drop o ++ z := List.drop_append_of_le_length ho
  have el : (x ++ z).length = x.length + z.length := List.length_append
  have fwd : ∀ {r}, Epilog (x ++ z).length z r → Document (x ++ z).length ((x ++ z).drop o) (recs ++ r) := by
    intro r hr
    rw [el] at hr ⊢
    rw [e]
    exact document_extend hd hr
  constructor
  · intro hp'
    obtain ⟨hl', recs', hd', rfl⟩ := (C32_exact fuel' opts' (x ++ z) o h' ws').1 hp'
    refine ⟨hl', ?_⟩
    obtain ⟨r, hr⟩ : ∃ r, Epilog (x ++ z).length z r := by
      rw [el] at hd' ⊢
      rw [e] at hd'
      exact document_split hd hd'
    refine ⟨r, hr, ?_⟩
    have := (C32_exact fuel' opts' (x ++ z) o h' _).2 ⟨hl', _, fwd hr, rfl⟩
    rw [hp'] at this
    simpa using Option.some.inj this
  · rintro ⟨hl', r, hr, rfl⟩
    exact (C32_exact fuel' opts' (x ++ z) o h' _).2 ⟨hl', _, fwd hr, by simp⟩

/-- A truncated document is refused. Let `Parse` accept a document that ends, up to white space `t`, with a `>`
that does not end a processing instruction. Then it accepts no prefix of the document in which that `>` is
missing. -/
theorem C73_truncated (fuel fuel' : Nat) (opts opts' : List ParserOption) (u t x z : List UInt8) (c : UInt8) (o : Nat)
    (h' : SelectRest opts' (u ++ [c, ch% '>'] ++ t) o) (ht : AllWs t) (hc : c ≠ ch% '?')
    (hp' : (parsedTokens fuel' opts').isSome)
    (hx : u ++ [c, ch% '>'] ++ t = x ++ z) (hlen : x.length < (u ++ [c, ch% '>']).length) (h : SelectRest opts x o) :
    parsedTokens fuel opts = none := by
  cases hp : parsedTokens fuel opts with
  | none => rfl
  | some ws =>
    obtain ⟨ws', hw⟩ := Option.isSome_iff_exists.1 hp'
    rw [hx] at h'
    obtain ⟨-, r, hr, -⟩ := (C73_exact fuel fuel' opts opts' x z o h h' ws ws' hp).1 hw
    exfalso
    have e1 : (u ++ [c]) ++ ch% '>' :: t = x ++ z := by rw [← hx]; simp
    rcases List.append_eq_append_iff.1 e1 with ⟨a, rfl, e2⟩ | ⟨a, e2, e3⟩
    · cases a with
      | nil =>
        rw [List.nil_append] at e2
        rcases epilog_end (v := []) hr ht Tree.gt_not_ws e2.symm with k | ⟨-, v', k⟩
        · exact absurd k (by decide)
        · simp at k
      | cons b a => simp at hlen; omega
    · rcases epilog_end (v := a) hr ht Tree.gt_not_ws e3 with k | ⟨-, v', rfl⟩
      · exact absurd k (by decide)
      · rw [← List.append_assoc] at e2
        have := (List.append_inj' e2 rfl).2
        simp only [List.cons.injEq, and_true] at this
        exact hc this

/-- With namespace awareness, for documents without the references that a namespace-aware parser can misread. -/
theorem C73_aware_partial (fuel fuel' : Nat) (opts opts' : List ParserOption) (u t x z : List UInt8) (c : UInt8) (o : Nat)
    (h' : SelectRest (opts' ++ [.nameSpaceAware false]) (u ++ [c, ch% '>'] ++ t) o) (ht : AllWs t) (hc : c ≠ ch% '?')
    (hl : (u ++ [c, ch% '>'] ++ t).length < 2 ^ 31) (hn : NoEntityStart (u ++ [c, ch% '>'] ++ t))
    (hp' : (parsedTokens fuel' opts').isSome)
    (hx : u ++ [c, ch% '>'] ++ t = x ++ z) (hlen : x.length < (u ++ [c, ch% '>']).length)
    (h : SelectRest (opts ++ [.nameSpaceAware false]) x o) :
    parsedTokens fuel opts = none := by
  obtain ⟨ws', hw⟩ := Option.isSome_iff_exists.1 hp'
  have k := C73_truncated fuel fuel' _ _ u t x z c o h' ht hc (by rw [aware_tokens h' hl hn hw]; rfl) hx hlen h
  cases hp : parsedTokens fuel opts with
  | none => rfl
  | some ws =>
    rw [hx] at hl hn
    have hi : ∀ {s : List UInt8}, s <:+: x → s <:+: x ++ z := fun hs => hs.trans (List.prefix_append x z).isInfix
    rw [aware_tokens h (by rw [List.length_append] at hl; omega)
      ⟨mt hi hn.double, mt hi hn.single, mt hi hn.ap, mt hi hn.aos⟩ hp] at k
    cases k

/-- Non-vacuity of `C73_truncated`: a document with a declaration, a comment, attributes, text and a line end after the root
element, and the same without its last two bytes. -/
def cutSample : List UInt8 := bytes "<?xml version='1.0'?><!--c--><a b='1'><c>x</c>y</a>\n"

theorem cutSample_select : SelectRest [.xmlDoc (some cutSample)] cutSample 0 where
  window := ⟨cutSample.length, by decide +kernel, by decide +kernel⟩
  size := by decide +kernel
  ns := by decide +kernel

example : cutSample = cutSample.take 49 ++ [ch% 'a', ch% '>'] ++ [ch% '\n'] ∧ AllWs [ch% '\n'] ∧
    (parsedTokens 0 [.xmlDoc (some cutSample)]).isSome ∧
    cutSample.take 49 ++ [ch% 'a', ch% '>'] ++ [ch% '\n'] = cutSample.take 50 ++ [ch% '>', ch% '\n'] := by
  refine ⟨by decide +kernel, ?_, by decide +kernel, by decide +kernel⟩
  simp only [AllWs, List.mem_singleton, forall_eq, Spec.S]; decide

/-- Non-vacuity of `C73_exact`: white space and a processing instruction can follow a document. -/
example : (parsedTokens 0 [.xmlDoc (some (bytes "<a/>"))]).isSome ∧
    (parsedTokens 0 [.xmlDoc (some (bytes "<a/> <?p q?>"))]).isSome ∧
    parsedTokens 0 [.xmlDoc (some (bytes "<a/><b/>"))] = none := by
  refine ⟨?_, ?_, ?_⟩ <;> decide +kernel

/-- Not to succeed is not always to return an error: this prefix of an accepted document makes `Parse` panic
(`C30_refuted_truncated_content`). -/
example : (parsedTokens 0 [.xmlDoc (some (bytes "<a></a>"))]).isSome ∧ parseDoc (bytes "<a><") = .panic := by
  refine ⟨?_, ?_⟩ <;> decide +kernel

/-- Why the last byte matters: a processing instruction after the root element can be missing, and nothing
tells. -/
example : (parsedTokens 0 [.xmlDoc (some (bytes "<a/><?p q?>"))]).isSome ∧
    (parsedTokens 0 [.xmlDoc (some (bytes "<a/>"))]).isSome := by
  refine ⟨?_, ?_⟩ <;> decide +kernel

end GoVtd
