import Verif.Proofs.Parser.NsTotal
import Verif.Spec.Parse
import Verif.Props.Total

/-!
# Property C29 for namespace-aware parsers
-/

namespace GoVtd
open Parser

theorem newVtdParser_matchFuel {fuel : Nat} {opts : List ParserOption} {p : Parser}
    (h : newVtdParser fuel opts = .ok p) : p.cfg.matchFuel = fuel := by
  simp only [newVtdParser] at h
  repeat' split at h
  all_goals first
    | (cases h; done)
    | (simp only [Except.ok.injEq] at h; rw [← h]; rfl)

/-- C29 in every mode, for slices whose numeric character references are not longer than the references to the
characters of XML (C29_refuted has one that is longer): `Parse` comes back. `fuel` is the number of characters the model
lets the comparison of two namespace names read; more than the length of the slice are never read. -/
theorem C29_aware_partial {fuel : Nat} {opts : List ParserOption} {p : Parser}
    (h : newVtdParser fuel opts = .ok p) (hr : ShortRefs p.cfg.xmlDoc) (hf : p.cfg.xmlDoc.length < fuel) :
    (parse p).outcome ≠ .noReturn := by
  have hs := NsTotal.parse_ends (newVtdParser_fresh h) ⟨hr, by rw [newVtdParser_matchFuel h]; exact hf⟩
  cases hr : parse p with
  | ok a s => simp [Res.outcome]
  | err e s => simp [Res.outcome]
  | panic => simp [Res.outcome]
  | diverge => rw [hr] at hs; exact hs.elim

/-- A way to check `ShortRefs` by evaluation. -/
def shortRefsB : List UInt8 → Bool
  | 0x26 :: 0x23 :: r => decide ((r.takeWhile (· ≠ 0x3B)).length ≤ 8) && shortRefsB (0x23 :: r)
  | _ :: r => shortRefsB r
  | [] => true

theorem shortRefsB_iff (doc : List UInt8) (h : shortRefsB doc = true) : ShortRefs doc := by
  intro pre post e
  induction pre generalizing doc with
  | nil =>
    subst e
    simp only [List.nil_append, List.cons_append, shortRefsB, Bool.and_eq_true, decide_eq_true_eq] at h
    exact h.1
  | cons x pre ih =>
    subst e
    refine ih (pre ++ [0x26, 0x23] ++ post) ?_ rfl
    simp only [List.cons_append] at h
    unfold shortRefsB at h
    split at h
    · rename_i r e
      simp only [List.cons.injEq] at e
      simp only [Bool.and_eq_true] at h
      rw [← e.2] at h
      exact h.2
    · rename_i e
      simp only [List.cons.injEq] at e
      rw [← e.2] at h; exact h
    · rename_i e; simp at e

/-- A document in which the namespace names of two attributes are compared character by character, through references. -/
def awareDoc : List UInt8 :=
  bytes "<r xmlns:a=\"u&#x10FFFF;w\" xmlns:b=\"u&#1114111;x\" a:x=\"\" b:x=\"\"/>"

example : ∃ p, newVtdParser 100 [.xmlDoc (some awareDoc), .nameSpaceAware true] = .ok p ∧
    ShortRefs p.cfg.xmlDoc ∧ p.cfg.xmlDoc.length < 100 ∧ p.cfg.nsAware = true :=
  ⟨_, rfl, shortRefsB_iff _ (by decide +kernel), by decide +kernel, rfl⟩

/-- The comparison reads the same name twice (`C43_refuted`), so it goes on to the end of the slice, where it panics. -/
example : parseWith 100 [.xmlDoc (some awareDoc), .nameSpaceAware true] = .panic := by decide +kernel

/-- A document with such references that is accepted. -/
example : parseWith 100 [.xmlDoc (some (bytes "<r xmlns:a=\"u&#x10FFFF;\" xmlns:b=\"&#10;\" a:x=\"\" b:y=\"\"/>")),
    .nameSpaceAware true] = .value () := by decide +kernel

end GoVtd
