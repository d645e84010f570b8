import Verif.Proofs.Parser.WindowParse
import Verif.Props.Tree
import Verif.Props.Refuted

/-!
# Property C51: the window

`C51_refuted` shows that the bytes after the window can matter. They matter only where the parser runs over
the end of the window: if the slice may end with the window and `Parse` still comes back, then nothing that
could follow the window changes the outcome.
-/

namespace GoVtd
open Parser Grammar

theorem foldl_doc (flags : List ParserOption) (doc : List UInt8) (o l : Int) :
    ∃ a : ParserArgs, ∀ d : List UInt8,
      (flags ++ [ParserOption.xmlDocCustomOffset (some (doc ++ d)) o l]).foldl ParserArgs.apply {} =
        { a with doc := some (doc ++ d), offset := o, length := l, endOffset := wrap64 (o + l) } := by
  refine ⟨flags.foldl ParserArgs.apply {}, fun d => ?_⟩
  rw [List.foldl_append]
  rfl

theorem newVtdParser_ext {fuel : Nat} {flags : List ParserOption} {doc rest : List UInt8} {o l : Int}
    (hd : doc ≠ []) (h0 : 0 ≤ o + l) (h1 : o + l ≤ doc.length) (h2 : doc.length < 2 ^ 63) :
    newVtdParser fuel (flags ++ [.xmlDocCustomOffset (some (doc ++ rest)) o l]) =
      (newVtdParser fuel (flags ++ [.xmlDocCustomOffset (some doc) o l])).map (Two.ext rest) := by
  obtain ⟨a, ha⟩ := foldl_doc flags doc o l
  have h3 := ha []
  rw [List.append_nil] at h3
  have hw : wrap64 (o + l) = o + l := wrap64_of_range (by omega) (by omega)
  have hd1 : ¬ doc.length = 0 := by simpa using hd
  have hd2 : ¬ (doc ++ rest).length = 0 := by simp; intro h; exact absurd h hd
  simp only [newVtdParser, ha rest, h3, Reader.newUtf8]
  rw [if_neg hd1, if_neg hd2]
  by_cases ho : o < 0
  · rw [if_pos ho, if_pos ho]; rfl
  by_cases hl : l = 0
  · simp only [if_neg ho, hl, true_or, if_true]; rfl
  have e1 : ¬ (l = 0 ∨ o + l > (doc.length : Int)) := by omega
  have e2 : ¬ (l = 0 ∨ o + l > ((doc ++ rest).length : Int)) := by rw [List.length_append]; omega
  have e3 : ¬ (o + l < 0 ∨ o + l > (doc.length : Int)) := by omega
  have e4 : ¬ (o + l < 0 ∨ o + l > ((doc ++ rest).length : Int)) := by rw [List.length_append]; omega
  simp only [hw, if_neg ho, if_neg e1, if_neg e2, if_neg e3, if_neg e4]
  rfl

/-- C51, the bytes after the window: if `Parse` comes back when the slice is cut off somewhere at or after the
end of the window, then its outcome (the error, or the token records and location caches) is the same whatever
follows in the slice. Missing from the full property: the inputs on which the cut-off parse panics. -/
theorem C51_partial (fuel : Nat) (flags : List ParserOption) (doc rest : List UInt8) (o l : Int)
    (hd : doc ≠ []) (h0 : 0 ≤ o + l) (h1 : o + l ≤ doc.length) (h2 : doc.length < 2 ^ 63)
    (hr : (parseResult fuel (flags ++ [.xmlDocCustomOffset (some doc) o l])).Returns) :
    parseResult fuel (flags ++ [.xmlDocCustomOffset (some (doc ++ rest)) o l]) =
      parseResult fuel (flags ++ [.xmlDocCustomOffset (some doc) o l]) := by
  have hx := newVtdParser_ext (fuel := fuel) (flags := flags) (rest := rest) hd h0 h1 h2
  simp only [parseResult] at hr ⊢
  rw [hx]
  cases hp : newVtdParser fuel (flags ++ [.xmlDocCustomOffset (some doc) o l]) with
  | error e => rfl
  | ok p =>
    rw [hp] at hr
    exact Two.parse_ext (newVtdParser_fresh hp) rest hr

/-- Two slices that agree up to the end of the window. -/
theorem C51_after_partial (fuel : Nat) (flags : List ParserOption) (doc rest rest' : List UInt8) (o l : Int)
    (hd : doc ≠ []) (h0 : 0 ≤ o + l) (h1 : o + l = doc.length) (h2 : doc.length < 2 ^ 63)
    (hr : (parseResult fuel (flags ++ [.xmlDocCustomOffset (some doc) o l])).Returns) :
    parseResult fuel (flags ++ [.xmlDocCustomOffset (some (doc ++ rest)) o l]) =
      parseResult fuel (flags ++ [.xmlDocCustomOffset (some (doc ++ rest')) o l]) := by
  rw [C51_partial fuel flags doc rest o l hd h0 (by omega) h2 hr,
    C51_partial fuel flags doc rest' o l hd h0 (by omega) h2 hr]

/-- C51, the bytes before the window, for a window that reaches the end of the slice, without namespace
awareness: acceptance and the token records do not depend on them. -/
theorem C51_before_partial (fuel fuel' : Nat) (opts opts' : List ParserOption) (doc doc' : List UInt8) (o : Nat)
    (h : SelectRest opts doc o) (h' : SelectRest opts' doc' o) (hl : doc.length = doc'.length)
    (hd : doc.drop o = doc'.drop o) : parsedTokens fuel opts = parsedTokens fuel' opts' := by
  have key : ∀ ws, parsedTokens fuel opts = some ws ↔ parsedTokens fuel' opts' = some ws := by
    intro ws
    rw [C32_exact fuel opts doc o h, C32_exact fuel' opts' doc' o h', hl, hd]
  cases hp : parsedTokens fuel opts with
  | some ws => exact ((key ws).mp hp).symm
  | none =>
    cases hq : parsedTokens fuel' opts' with
    | none => rfl
    | some ws => rw [(key ws).mpr hq] at hp; cases hp

instance {α : Type} (o : Outcome α) : Decidable o.Returns := by
  cases o <;> unfold Outcome.Returns <;> infer_instance

/-- Non-vacuity: an accepted window in the middle of a slice, namespace aware and with the deep cache, and a
window that is refused at its end. -/
example :
    (parseResult 100 [.nameSpaceAware true, .lcDepth 5,
      .xmlDocCustomOffset (some (bytes "xx<a b='1'>t<c/></a>")) 2 18]).Returns ∧
    (parseResult 100 [.xmlDocCustomOffset (some (bytes "<a><b>")) 0 6]).Returns ∧
    ¬ (parseResult 100 [.xmlDocCustomOffset (some (bytes "<a/><?b ?")) 0 9]).Returns := by
  decide +kernel

example : SelectRest [.xmlDocCustomOffset (some (bytes "xx<a/>")) 2 4] (bytes "xx<a/>") 2 ∧
    SelectRest [.xmlDocCustomOffset (some (bytes "<b<a/>")) 2 4] (bytes "<b<a/>") 2 ∧
    (bytes "xx<a/>").drop 2 = (bytes "<b<a/>").drop 2 :=
  ⟨⟨⟨4, rfl, by decide⟩, by decide, rfl⟩, ⟨⟨4, rfl, by decide⟩, by decide, rfl⟩, by decide⟩

end GoVtd
