import Verif.Proofs.Parser.Caches
import Verif.Props.Shape

/-!
# C57, and lemmas for C45: the location caches
-/

namespace GoVtd

open Parser Grammar Paged

theorem startsFrom_eq {doc : List UInt8} {recs : List Rec} (i : Nat) (h : ∀ x ∈ recs, RecOk doc x)
    (hl : doc.length < 2 ^ 31) : startsFrom i (recs.map Rec.word) = startsRec i recs := by
  induction recs generalizing i with
  | nil => rfl
  | cons x xs ih =>
    have hx := h x (by simp)
    have ih := ih (i + 1) fun y hy => h y (by simp [hy])
    simp only [List.map_cons, startsFrom, startsRec, isStart_iff hx hl, ih]
    split
    · rename_i ht
      have := (Rec.fields hx hl (not_bad (by rw [ht]; decide))).2.1
      have h1 := hx.depth1
      obtain ⟨_, _, _, _, _, _, _, h0, _⟩ := hx.start ht
      congr 2
      omega
    · rfl

theorem startsRec_depths (recs : List Rec) (i : Nat) :
    (startsRec i recs).map (·.2) = (starts recs).map Int.toNat := by
  induction recs generalizing i with
  | nil => rfl
  | cons x xs ih =>
    simp only [startsRec, starts]
    split
    · simp [ih]
    · exact ih _

theorem pre'_of {ds : List Int} {l : List (Nat × Nat)} {m : Nat} (he : l.map (·.2) = ds.map Int.toNat)
    (h : Pre (m + 1) ds) : Pre' m l := by
  induction ds generalizing l m with
  | nil =>
    obtain rfl : l = [] := by simpa using he
    trivial
  | cons d ds ih =>
    cases l with
    | nil => simp at he
    | cons x l =>
      simp only [List.map_cons, List.cons.injEq] at he
      obtain ⟨h1, h2, h3⟩ := h
      refine ⟨by omega, by omega, ih he.2 ?_⟩
      rw [he.1, Int.toNat_of_nonneg (by omega)]
      exact h3

/-- The caches of a new parser are empty. -/
theorem initOut_view (n : Int) : View (initOut false n) ⟨[], [], [], [], [], 0, 0, 0, 0, 0, 0⟩ := by
  have key : ∀ k : Nat, k ≤ 62 → ∃ e, freshBuffer (BitVec 64) k = fill e [] :=
    fun k hk => ⟨k, withPageSize_small k hk⟩
  have h2 : (deepSizes n).1 ≤ 62 ∧ (deepSizes n).2.1 ≤ 62 ∧ (deepSizes n).2.2.1 ≤ 62 ∧
      (deepSizes n).2.2.2.1 ≤ 62 ∧ (deepSizes n).2.2.2.2.1 ≤ 62 ∧ (deepSizes n).2.2.2.2.2 ≤ 62 := by
    simp only [deepSizes]; repeat' split
    all_goals decide
  exact ⟨key _ h2.2.1, key _ h2.2.2.1, key _ h2.2.2.2.1, key _ h2.2.2.2.2.1, key _ h2.2.2.2.2.2,
    rfl, rfl, rfl, rfl, rfl, rfl⟩

theorem initOut_vtd (n : Int) : ∃ e, (initOut false n).vtdBuffer = fill e [] := by
  have h2 : (deepSizes n).1 ≤ 62 := by
    simp only [deepSizes]; repeat' split
    all_goals decide
  exact ⟨_, withPageSize_small _ h2⟩

theorem values_view {b : FastLongBuffer} {xs : List (BitVec 64)} (h : ∃ e, b = fill e xs) : b.values = xs := by
  obtain ⟨e, rfl⟩ := h
  exact values_fill _ _

/-- A document with elements of depths up to 6. -/
def caches : List UInt8 := bytes "<a><b><c/><c><d><e><f><g/></f><f/></e></d></c></b><b/></a>"

/-- C57 is false: the marker is not the one that the navigator knows. In `<a><b/></a>` the element `b` has no
children. -/
theorem C57_refuted : ∃ doc opts p, SelectRest opts doc 0 ∧ chosenDeep opts = true ∧ parsed 0 opts = some p ∧
    p.out.l1Buffer.values ≠ level navNoChild 1 0 (startsFrom 0 p.out.vtdBuffer.values) := by
  refine ⟨bytes "<a><b/></a>", [.xmlDoc (some (bytes "<a><b/></a>")), .lcDepth 5], ?_⟩
  cases h : parsed 0 [.xmlDoc (some (bytes "<a><b/></a>")), .lcDepth 5] with
  | none =>
    have : (parsed 0 [.xmlDoc (some (bytes "<a><b/></a>")), .lcDepth 5]).isSome = true := by decide +kernel
    rw [h] at this; simp at this
  | some p =>
    have : (parsed 0 [.xmlDoc (some (bytes "<a><b/></a>")), .lcDepth 5]).all fun p =>
      decide (p.out.l1Buffer.values ≠ level navNoChild 1 0 (startsFrom 0 p.out.vtdBuffer.values)) := by decide +kernel
    rw [h] at this
    exact ⟨p, ⟨⟨_, rfl, rfl⟩, by decide, rfl⟩, rfl, rfl, by simpa using this⟩

end GoVtd
