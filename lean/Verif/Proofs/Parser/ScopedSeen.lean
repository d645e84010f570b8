import Verif.Spec.VisibleDeclared
import Verif.Proofs.Parser.ScopedLoop

/-!
# What the checks of an accepted document say about its prefixes
-/

namespace GoVtd
namespace Parser
namespace Scoped
open Paged Grammar Two Ev Plain Sound
open Rooted

theorem cut_next (R : List (BitVec 64)) : ∃ B R', R = B ++ R' ∧ (∀ w ∈ B, ¬ IsStart w) ∧
    (R' = [] ∨ ∃ z R'', R' = z :: R'' ∧ IsStart z) := by
  induction R with
  | nil => exact ⟨[], [], rfl, (fun _ h => by cases h), .inl rfl⟩
  | cons a R ih =>
    by_cases h : IsStart a
    · exact ⟨[], a :: R, rfl, (fun _ h => by cases h), .inr ⟨a, R, rfl, h⟩⟩
    · obtain ⟨B, R', rfl, h2, h3⟩ := ih
      refine ⟨a :: B, R', rfl, fun w hw => ?_, h3⟩
      rcases List.mem_cons.mp hw with rfl | hw
      · exact h
      · exact h2 w hw

theorem cut_last {P : List (BitVec 64)} (h : ∃ z ∈ P, IsStart z) : ∃ A w0 B, P = A ++ w0 :: B ∧ IsStart w0 ∧
    ∀ w ∈ B, ¬ IsStart w := by
  induction P with
  | nil => obtain ⟨z, hz, -⟩ := h; cases hz
  | cons a P ih =>
    by_cases hP : ∃ z ∈ P, IsStart z
    · obtain ⟨A, w0, B, rfl, h1, h2⟩ := ih hP
      exact ⟨a :: A, w0, B, rfl, h1, h2⟩
    · refine ⟨[], a, P, rfl, ?_, fun w hw hs => hP ⟨w, hw, hs⟩⟩
      obtain ⟨z, hz, hs⟩ := h
      rcases List.mem_cons.mp hz with rfl | hz
      · exact hs
      · exact absurd ⟨z, hz, hs⟩ hP

theorem split_at {V : List (BitVec 64)} {i : Nat} (h : V[i]? = some w) : ∃ A R, V = A ++ w :: R ∧ A.length = i := by
  obtain ⟨h1, rfl⟩ := List.getElem?_eq_some_iff.mp h
  exact ⟨V.take i, V.drop (i + 1), by rw [← List.drop_eq_getElem_cons h1, List.take_append_drop], by rw [List.length_take]; omega⟩

/-- In the records of an accepted document the prefixes are declared by declarations that the parser looks at. -/
theorem Seen.visible (h : Seen D true V) (hu : ∀ w n n', ElementName D w n → ElementName D w n' → n = n') :
    PrefixesVisible D V := by
  have key : ∀ (A : List (BitVec 64)) (w : BitVec 64) (B R : List (BitVec 64)) p, V = A ++ w :: (B ++ R) →
      (∀ z ∈ B, ¬ IsStart z) → (∃ d ∈ visibleDecls D (A ++ w :: B), Declares D d p) → Visible D V A.length p := by
    rintro A w B R p rfl hB ⟨d, h1, h2⟩
    refine ⟨A.length + 1 + B.length, by omega, fun k z hk hk' hz => ?_, d, ?_, h2⟩
    · rw [List.getElem?_append_right (by omega)] at hz
      obtain ⟨j, hj⟩ : ∃ j, k - A.length = j + 1 := ⟨k - A.length - 1, by omega⟩
      rw [hj, List.getElem?_cons_succ, List.getElem?_append_left (by omega)] at hz
      exact hB z (List.mem_of_getElem? hz)
    · rw [← List.cons_append, ← List.append_assoc, List.take_left' (by simp; omega)]
      exact h1
  constructor
  · intro i w hw hs n p l hn hsp
    obtain ⟨A, R, hV, rfl⟩ := split_at hw
    obtain ⟨B, R', rfl, hB, hR⟩ := cut_next R
    obtain ⟨-, ⟨n', -, hn', h4⟩, -⟩ := h.ready (A ++ w :: B) R' (by rw [hV]; simp) (hR.imp (fun e => ⟨e, rfl⟩) id) A w B rfl hs hB
    obtain rfl := hu w n n' hn hn'
    have e : n.take (lastColon 0 0 n) = p := by
      rw [splits_colon hsp, hsp.eq, List.take_left']; rfl
    rw [e] at h4
    refine (h4 (by rw [splits_colon hsp]; exact fun h0 => hsp.nonempty (List.length_eq_zero_iff.mp h0))).imp id fun h5 => ?_
    exact key A w B R' p hV hB h5
  · intro i w hw ht p l hsp
    by_cases hx : p = str% "xml"
    · exact .inl hx
    refine .inr ?_
    obtain ⟨A, R, hV, rfl⟩ := split_at hw
    obtain ⟨A0, w0, B0, rfl, h0, hB0⟩ := cut_last (h.head A w R hV ht)
    obtain ⟨B, R', rfl, hB, hR⟩ := cut_next R
    have hnw : ¬ IsStart w := fun hs => by
      have h1 : tokenType w = Token.startingTag.code := hs
      rw [ht] at h1; exact absurd h1 (by decide)
    obtain ⟨h1, -, -⟩ := h.ready ((A0 ++ w0 :: B0) ++ w :: B) R' (by rw [hV]; simp) (hR.imp (fun e => ⟨e, rfl⟩) id) A0 w0 (B0 ++ w :: B)
      (by simp) h0 (fun z hz => by
        rcases List.mem_append.mp hz with hz | hz
        · exact hB0 z hz
        · rcases List.mem_cons.mp hz with rfl | hz
          · exact hnw
          · exact hB z hz)
    have hc : colonAt D w = p.length := splits_colon hsp
    have hp : prefixOf D w = p := by
      rw [prefixOf, hc, hsp.eq, List.take_left']; rfl
    have h2 := h1 w (by simp) ⟨ht, by rw [hc]; exact fun h0 => hsp.nonempty (List.length_eq_zero_iff.mp h0), fun ⟨e1, e2⟩ => hx (by
      rw [hc] at e1
      rw [hsp.eq] at e2
      have := List.prefix_of_prefix_length_le e2 (List.prefix_append p _) (by rw [e1]; decide)
      exact (this.eq_of_length (by rw [e1]; rfl)).symm)⟩
    rw [hp] at h2
    exact key _ w B R' p hV hB h2

end Scoped
end Parser
end GoVtd
