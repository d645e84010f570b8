import Verif.Spec.Buffer
import Verif.Proofs.Buffer

/-!
# Properties C01 to C07 and C09: the long and int buffers
-/

namespace GoVtd
open Paged

variable {α : Type}

/-! ## Constructors and the filled state -/

theorem withPageSize_fill (e e' : Nat) (he : e ≤ 62) :
    withPageSize e (fill e' [] : Paged α) = fill e [] := by
  have := withPageSize_small (α := α) e he
  rw [fill_nil] at *
  simpa [withPageSize, fill_nil, dflt] using this

theorem pageExp_cons (x : Int) (exps : List Int) (d : Int) :
    ((x :: exps).getLast?.getD d) = exps.getLast?.getD x := by
  cases exps with
  | nil => simp
  | cons y ys => simp [List.getLast?_cons]

theorem runOpts_small (opt : Int → M (Paged α) Unit)
    (hopt : ∀ (x : Int) b, 0 ≤ x → opt x b = .ok () (withPageSize x.toNat b))
    (exps : List Int) (h : SmallExps exps) (d : Int) (e : Nat) (hd : d.toNat = e) :
    runOpts (exps.map opt) (fill e [] : Paged α) =
      .ok () (fill (exps.getLast?.getD d).toNat []) := by
  induction exps generalizing e d with
  | nil => simp [runOpts, hd]
  | cons x exps ih =>
    have hx := h x (by simp)
    simp only [List.map, runOpts, M.bind_apply, hopt x _ hx.1, Res.andThen_ok]
    rw [withPageSize_fill _ _ (by omega), ih (fun y hy => h y (by simp [hy])) x _ rfl,
      pageExp_cons]

theorem newLong_fill (exps : List Int) (h : SmallExps exps) :
    newLong exps = .ok () (fill (pageExp exps) [] : Paged α) := by
  simp only [newLong, M.bind_apply, dflt_eq]
  rw [runOpts_small optPanicking _ exps h 10 10 rfl]
  · simp [checkPageSize_fill, pageExp]
  · intro x b hx
    simp only [optPanicking]
    rw [if_neg (by omega)]; rfl

theorem newObject_fill (exps : List Int) (h : SmallExps exps) :
    newObject exps = .ok () (fill (pageExp exps) [] : Paged α) := newLong_fill exps h

theorem newInt_fill (exps : List Int) (h : SmallExps exps) :
    newInt exps = .ok () (fill (pageExp exps) [] : Paged α) := by
  simp only [newInt, M.bind_apply, dflt_eq]
  rw [runOpts_small optIgnoring _ exps h 10 10 rfl]
  · simp [checkPageSize_fill, pageExp]
  · intro x b hx
    simp only [optIgnoring]
    rw [if_pos (by omega)]; rfl

theorem appendAll_fill (e : Nat) (ys xs : List α) :
    appendAll append xs (fill e ys) = .ok () (fill e (ys ++ xs)) := by
  induction xs generalizing ys with
  | nil => simp [appendAll]
  | cons v vs ih => simp [appendAll, append_fill, ih]

theorem pageExp_le (exps : List Int) (h : SmallExps exps) : pageExp exps ≤ 62 := by
  simp only [pageExp]
  cases h' : exps.getLast? with
  | none => simp
  | some x => have := h x (List.mem_of_getLast? h'); simp; omega

theorem LongBufferWith.iff_fill {exps xs b} (h : SmallExps exps) :
    LongBufferWith exps xs b ↔ b = fill (pageExp exps) xs := by
  simp only [LongBufferWith, newLong_fill exps h]
  constructor
  · rintro ⟨b0, h1, h2⟩
    cases h1
    rw [appendAll_fill] at h2
    cases h2; simp
  · rintro rfl
    exact ⟨_, rfl, by rw [appendAll_fill]; simp⟩

theorem IntBufferWith.iff_fill {exps xs b} (h : SmallExps exps) :
    IntBufferWith exps xs b ↔ b = fill (pageExp exps) xs := by
  simp only [IntBufferWith, newInt_fill exps h]
  constructor
  · rintro ⟨b0, h1, h2⟩
    cases h1
    rw [appendAll_fill] at h2
    cases h2; simp
  · rintro rfl
    exact ⟨_, rfl, by rw [appendAll_fill]; simp⟩

/-! ## C01: appended values are all there, in order -/

/-- Every sequence of `Append` calls succeeds and its values are read back in order
(`FastLongBuffer`). `hlen` says that the number of values is a Go `int`. -/
theorem C01_long (exps : List Int) (h : SmallExps exps) (xs : List (BitVec 64))
    (hlen : xs.length < 2 ^ 63) :
    ∃ b0 b, newLong exps = .ok () b0 ∧ appendAll append xs b0 = .ok () b ∧
      b.getSize = xs.length ∧ toArray b = .ok xs b :=
  ⟨_, _, newLong_fill exps h, by rw [appendAll_fill], by simp [getSize, fill],
    by simpa using toArray_fill _ (pageExp_le exps h) xs hlen⟩

/-- The same for `FastIntBuffer`. -/
theorem C01_int (exps : List Int) (h : SmallExps exps) (xs : List (BitVec 32))
    (hlen : xs.length < 2 ^ 63) :
    ∃ b0 b, newInt exps = .ok () b0 ∧ appendAll append xs b0 = .ok () b ∧
      b.getSize = xs.length ∧ toArray b = .ok xs b :=
  ⟨_, _, newInt_fill exps h, by rw [appendAll_fill], by simp [getSize, fill],
    by simpa using toArray_fill _ (pageExp_le exps h) xs hlen⟩

/-- Non-vacuity: no option, and pages of two entries with five values. -/
example : SmallExps [] ∧ SmallExps [1] := by simp [SmallExps]
example : (do appendAll append [1, 2, 3, 4, 5]; toArray : M FastLongBuffer _)
    { buffer := [], capacity := 0, size := 0, exp := 1, r := 1, pageSize := 2 } =
    .ok [1, 2, 3, 4, 5]
    { buffer := [[1, 2], [3, 4], [5]], capacity := 6, size := 5, exp := 1, r := 1,
      pageSize := 2 } := rfl

/-! ## C02: random access -/

/-- On the first page `LongAt` returns the value appended at that position. Missing from
C02: the entries behind the first page, see `C02_refuted`. -/
theorem C02_longAt_partial (exps : List Int) (h : SmallExps exps) (xs : List (BitVec 64)) (b)
    (hb : LongBufferWith exps xs b) (i : Nat) (hi : i < xs.length) (hp : i < 2 ^ pageExp exps) :
    longAt i b = .ok xs[i] b := by
  rw [LongBufferWith.iff_fill h] at hb
  subst hb
  have := (atWith_fill (fun _ => indexErr none) (pageExp exps) xs i).1
    ⟨by omega, by omega, by exact_mod_cast hp⟩
  obtain ⟨_, h2⟩ := this
  simpa [longAt] using h2

/-- The same for `IntAt`. -/
theorem C02_intAt_partial (exps : List Int) (h : SmallExps exps) (xs : List (BitVec 32)) (b)
    (hb : IntBufferWith exps xs b) (i : Nat) (hi : i < xs.length) (hp : i < 2 ^ pageExp exps) :
    intAt i b = .ok xs[i] b := by
  rw [IntBufferWith.iff_fill h] at hb
  subst hb
  have := (atWith_fill (fun e => e) (pageExp exps) xs i).1
    ⟨by omega, by omega, by exact_mod_cast hp⟩
  obtain ⟨_, h2⟩ := this
  simpa [intAt] using h2

theorem not_panics_of_lt {e n : Nat} {i : Nat} (h : i < n) : ¬panics e n i := by
  rintro ⟨_, h1, _⟩
  have : (i : Int) / 2 ^ e * 2 ^ e ≤ i :=
    Int.ediv_mul_le _ (by have := pow_pos' e; exact_mod_cast (Nat.ne_of_gt this))
  omega

/-- C02 is false: every value behind the first page is unreadable, whatever was appended.
`LongAt` reports its index as out of range. -/
theorem C02_refuted (exps : List Int) (h : SmallExps exps) (xs : List (BitVec 64)) (b)
    (hb : LongBufferWith exps xs b) (i : Nat) (hi : i < xs.length)
    (hp : 2 ^ pageExp exps ≤ i) :
    (longAt i b).outcome = .error (indexErr none) := by
  rw [LongBufferWith.iff_fill h] at hb
  subst hb
  have := (atWith_fill (fun _ => indexErr none) (pageExp exps) xs i).2.2
    (by
      rintro ⟨_, _, h3⟩
      rw [show (2 ^ pageExp exps : Int) = ((2 ^ pageExp exps : Nat) : Int) by simp] at h3
      omega)
    (not_panics_of_lt hi)
  rcases this with h3 | h3 <;> simp [longAt, h3, Res.outcome]

/-- A concrete refutation: three values in pages of two entries; the third is lost. -/
theorem C02_witness : ∃ b, LongBufferWith [1] [7, 8, 9] b ∧
    (longAt 2 b).outcome = .error (indexErr none) :=
  ⟨_, (LongBufferWith.iff_fill (by simp [SmallExps])).mpr rfl, rfl⟩

example : ∃ b, LongBufferWith [1] [7, 8, 9] b ∧ longAt 1 b = .ok 8 b :=
  ⟨_, (LongBufferWith.iff_fill (by simp [SmallExps])).mpr rfl, rfl⟩

/-! ## C03: out-of-range access -/

/-- What `LongAt` does outside the contents: it panics exactly when the page of the index
does not exist although the page number is below the number of entries; otherwise it
returns the index error. -/
theorem C03_exact (exps : List Int) (h : SmallExps exps) (xs : List (BitVec 64)) (b)
    (hb : LongBufferWith exps xs b) (i : Int) (hi : i < 0 ∨ (xs.length : Int) ≤ i) :
    (longAt i b).outcome =
      if 0 ≤ i ∧ (xs.length : Int) ≤ i / 2 ^ pageExp exps * 2 ^ pageExp exps ∧
          i / 2 ^ pageExp exps < xs.length
      then .panic else .error (indexErr none) := by
  rw [LongBufferWith.iff_fill h] at hb
  subst hb
  have := atWith_fill (fun _ => indexErr none) (pageExp exps) xs i
  by_cases hp : panics (pageExp exps) xs.length i
  · have h1 := this.2.1 hp
    simp only [panics] at hp
    rw [if_pos hp]; simp [longAt, h1, Res.outcome]
  · have h1 := this.2.2 (by omega) hp
    simp only [panics] at hp
    rw [if_neg hp]
    rcases h1 with h3 | h3 <;> simp [longAt, h3, Res.outcome]

/-- The same for `IntAt`. -/
theorem C03_exact_int (exps : List Int) (h : SmallExps exps) (xs : List (BitVec 32)) (b)
    (hb : IntBufferWith exps xs b) (i : Int) (hi : i < 0 ∨ (xs.length : Int) ≤ i) :
    (intAt i b).outcome =
      if 0 ≤ i ∧ (xs.length : Int) ≤ i / 2 ^ pageExp exps * 2 ^ pageExp exps ∧
          i / 2 ^ pageExp exps < xs.length
      then .panic else .error (indexErr none) := by
  rw [IntBufferWith.iff_fill h] at hb
  subst hb
  have := atWith_fill (fun e => e) (pageExp exps) xs i
  by_cases hp : panics (pageExp exps) xs.length i
  · have h1 := this.2.1 hp
    simp only [panics] at hp
    rw [if_pos hp]; simp [intAt, h1, Res.outcome]
  · have h1 := this.2.2 (by omega) hp
    simp only [panics] at hp
    rw [if_neg hp]
    rcases h1 with h3 | h3 <;> simp [intAt, h3, Res.outcome]

/-- Negative indices, indices on the first page, and every index when the buffer is empty
are reported as errors. Missing from C03: larger indices, see `C03_exact`,
`C03_refuted`. -/
theorem C03_partial (exps : List Int) (h : SmallExps exps) (xs : List (BitVec 64)) (b)
    (hb : LongBufferWith exps xs b) (i : Int) (hi : i < 0 ∨ (xs.length : Int) ≤ i)
    (hs : i < 2 ^ pageExp exps ∨ xs = []) :
    (longAt i b).outcome = .error (indexErr none) := by
  rw [C03_exact exps h xs b hb i hi, if_neg]
  rintro ⟨h0, h1, h2⟩
  rcases hs with hs | hs
  · rw [Int.ediv_eq_zero_of_lt h0 hs] at h1 h2; omega
  · subst hs
    have : 0 ≤ i / 2 ^ pageExp exps :=
      Int.ediv_nonneg h0 (by have := pow_pos' (pageExp exps); exact_mod_cast (Nat.zero_le _))
    simp at h2; omega

/-- C03 is false: with two values in one page of two entries, `LongAt(2)` panics. -/
theorem C03_refuted : ∃ b, LongBufferWith [1] [7, 8] b ∧ (longAt 2 b).outcome = .panic :=
  ⟨_, (LongBufferWith.iff_fill (by simp [SmallExps])).mpr rfl, rfl⟩

example : ∃ b, LongBufferWith [1] [7] b ∧ (longAt 1 b).outcome = .error (indexErr none) :=
  ⟨_, (LongBufferWith.iff_fill (by simp [SmallExps])).mpr rfl, rfl⟩

/-! ## C04: `ModifyEntry` is a point update -/

/-- The readable contents of two filled buffers that differ at one position. -/
theorem atWith_set_ne (w : GoErr → GoErr) (e : Nat) (xs : List α) (n : Nat) (v : α) (j : Int)
    (hj : j ≠ n) :
    (atWith w j (fill e (xs.set n v))).outcome = (atWith w j (fill e xs)).outcome := by
  simp only [atWith, M.bind_apply, M.get_apply, Res.andThen_ok, M.catchErr_apply]
  by_cases h0 : j < 0
  · rw [get_fill_neg _ _ _ (pageNum_neg e _ j h0), get_fill_neg _ _ _ (pageNum_neg e _ j h0)]
    simp [Res.outcome]
  · obtain ⟨m, rfl⟩ := Int.eq_ofNat_of_zero_le (Int.not_lt.mp h0)
    rw [pageNum_nat, pageNum_nat, get_fill, get_fill, pageOffset_nat, pageOffset_nat]
    simp only [List.length_set]
    split
    · simp [Res.outcome]
    · split
      · simp [Res.outcome]
      · rename_i h1 h2
        simp only [Res.handle_ok, Res.andThen_ok, M.ite_apply, List.length_take, List.length_drop,
          List.length_set]
        split
        · simp [Res.outcome]
        · rename_i h3
          have hk := pow_pos' e
          have hmod : m % 2 ^ e < 2 ^ e := Nat.mod_lt _ hk
          have hdm := Nat.div_add_mod m (2 ^ e)
          rw [Nat.mul_comm] at hdm
          have hlt : m < 2 ^ e ∧ m < xs.length - m / 2 ^ e * 2 ^ e := by omega
          have hz : m / 2 ^ e = 0 := Nat.div_eq_of_lt hlt.1
          rw [M.index_nat, M.index_nat]
          · have hmm : m % 2 ^ e = m := Nat.mod_eq_of_lt hlt.1
            have hne : n ≠ m := by omega
            simp only [Res.outcome, hz, hmm, Nat.zero_mul, List.drop_zero, List.getElem_take]
            rw [List.getElem_set_ne hne]
          · simp; omega
          · simp; omega

/-- A successful `ModifyEntry(i,v)` makes `LongAt(i)` return `v`, changes no other access
and not the size; the buffer is then the one filled with the updated list. A failing one
changes nothing. -/
theorem C04_modifyEntry (exps : List Int) (h : SmallExps exps) (xs : List (BitVec 64)) (b)
    (hb : LongBufferWith exps xs b) (i : Int) (v : BitVec 64) :
    (∀ b', modifyEntry i v b = .ok () b' →
      (longAt i b').outcome = .value v ∧
      (∀ j, j ≠ i → (longAt j b').outcome = (longAt j b).outcome) ∧
      b'.getSize = b.getSize ∧ LongBufferWith exps (xs.set i.toNat v) b') ∧
    (∀ er b', modifyEntry i v b = .err er b' → b' = b) := by
  rw [LongBufferWith.iff_fill h] at hb
  subst hb
  obtain ⟨h1, h2, h3⟩ := modifyEntry_fill (pageExp exps) xs i v
  constructor
  · intro b' hb'
    by_cases hc : 0 ≤ i ∧ i < xs.length ∧ i < 2 ^ pageExp exps
    · rw [h1 hc] at hb'
      cases hb'
      refine ⟨?_, ?_, by simp [getSize, fill], (LongBufferWith.iff_fill h).mpr rfl⟩
      · obtain ⟨_, h4⟩ := (atWith_fill (fun _ => indexErr none) (pageExp exps)
          (xs.set i.toNat v) i).1 (by simpa using hc)
        rw [longAt, h4]; simp [Res.outcome]
      · intro j hj
        exact atWith_set_ne _ _ _ _ _ _ (by omega)
    · by_cases hp : panics (pageExp exps) xs.length i
      · rw [h2 hp] at hb'; cases hb'
      · obtain ⟨er, h4⟩ := h3 hc hp
        rw [h4] at hb'; cases hb'
  · intro er b' hb'
    by_cases hc : 0 ≤ i ∧ i < xs.length ∧ i < 2 ^ pageExp exps
    · rw [h1 hc] at hb'; cases hb'
    · by_cases hp : panics (pageExp exps) xs.length i
      · rw [h2 hp] at hb'; cases hb'
      · obtain ⟨er, h4⟩ := h3 hc hp
        rw [h4] at hb'; cases hb'; rfl

/-- The same for `FastIntBuffer`. -/
theorem C04_modifyEntry_int (exps : List Int) (h : SmallExps exps) (xs : List (BitVec 32)) (b)
    (hb : IntBufferWith exps xs b) (i : Int) (v : BitVec 32) :
    (∀ b', modifyEntry i v b = .ok () b' →
      (intAt i b').outcome = .value v ∧
      (∀ j, j ≠ i → (intAt j b').outcome = (intAt j b).outcome) ∧
      b'.getSize = b.getSize ∧ IntBufferWith exps (xs.set i.toNat v) b') ∧
    (∀ er b', modifyEntry i v b = .err er b' → b' = b) := by
  rw [IntBufferWith.iff_fill h] at hb
  subst hb
  obtain ⟨h1, h2, h3⟩ := modifyEntry_fill (pageExp exps) xs i v
  constructor
  · intro b' hb'
    by_cases hc : 0 ≤ i ∧ i < xs.length ∧ i < 2 ^ pageExp exps
    · rw [h1 hc] at hb'
      cases hb'
      refine ⟨?_, ?_, by simp [getSize, fill], (IntBufferWith.iff_fill h).mpr rfl⟩
      · obtain ⟨_, h4⟩ := (atWith_fill (fun e => e) (pageExp exps)
          (xs.set i.toNat v) i).1 (by simpa using hc)
        rw [intAt, h4]; simp [Res.outcome]
      · intro j hj
        exact atWith_set_ne _ _ _ _ _ _ (by omega)
    · by_cases hp : panics (pageExp exps) xs.length i
      · rw [h2 hp] at hb'; cases hb'
      · obtain ⟨er, h4⟩ := h3 hc hp
        rw [h4] at hb'; cases hb'
  · intro er b' hb'
    by_cases hc : 0 ≤ i ∧ i < xs.length ∧ i < 2 ^ pageExp exps
    · rw [h1 hc] at hb'; cases hb'
    · by_cases hp : panics (pageExp exps) xs.length i
      · rw [h2 hp] at hb'; cases hb'
      · obtain ⟨er, h4⟩ := h3 hc hp
        rw [h4] at hb'; cases hb'; rfl

/-- When `ModifyEntry` succeeds: exactly for the readable indices. -/
theorem C04_succeeds_iff (exps : List Int) (h : SmallExps exps) (xs : List (BitVec 64)) (b)
    (hb : LongBufferWith exps xs b) (i : Int) (v : BitVec 64) :
    (∃ b', modifyEntry i v b = .ok () b') ↔ ∃ w, (longAt i b).outcome = .value w := by
  rw [LongBufferWith.iff_fill h] at hb
  subst hb
  obtain ⟨h1, h2, h3⟩ := modifyEntry_fill (pageExp exps) xs i v
  obtain ⟨g1, g2, g3⟩ := atWith_fill (fun _ => indexErr none) (pageExp exps) xs i
  by_cases hc : 0 ≤ i ∧ i < xs.length ∧ i < 2 ^ pageExp exps
  · obtain ⟨_, g4⟩ := g1 hc
    simp [h1 hc, longAt, g4, Res.outcome]
  · by_cases hp : panics (pageExp exps) xs.length i
    · simp [h2 hp, longAt, g2 hp, Res.outcome]
    · obtain ⟨er, h4⟩ := h3 hc hp
      rcases g3 hc hp with g | g <;> simp [h4, longAt, g, Res.outcome]

example : ∃ b b', LongBufferWith [1] [7, 8, 9] b ∧ modifyEntry 1 5 b = .ok () b' ∧
    toArray b' = .ok [7, 5, 9] b' :=
  ⟨_, _, (LongBufferWith.iff_fill (by simp [SmallExps])).mpr rfl, rfl, rfl⟩

/-! ## C05: a cleared buffer -/

/-- C05 is false for every buffer that ever held a value: after `Clear` every `Append`
fails with the index error and leaves the buffer as it is. -/
theorem C05_refuted (exps : List Int) (h : SmallExps exps) (xs : List (BitVec 64)) (b)
    (hb : LongBufferWith exps xs b) (hne : xs ≠ []) (v : BitVec 64) :
    append v b.clear = .err (indexErr none) b.clear := by
  rw [LongBufferWith.iff_fill h] at hb
  subst hb
  have hpos : 0 < xs.length := List.length_pos_iff.mpr hne
  have hk := pow_pos' (pageExp exps)
  have hn : 0 < numPages (2 ^ pageExp exps) xs.length := (lt_numPages hk).mpr (by omega)
  simp only [append, M.bind_apply, M.get_apply, Res.andThen_ok, M.ite_apply, clear]
  rw [if_pos]
  · simp only [Paged.get, M.bind_apply, M.get_apply, Res.andThen_ok, M.ite_apply, M.raise_apply]
    rw [if_pos]
    · simp
    · simp [pageNum]
  · simp only [fill]
    exact_mod_cast Nat.mul_pos hk hn

/-- Clearing a buffer that never held a value changes nothing, so it can be filled.
Missing from C05: all other buffers, see `C05_refuted`. -/
theorem C05_partial (exps : List Int) (h : SmallExps exps) (b : FastLongBuffer)
    (hb : LongBufferWith exps [] b) (xs : List (BitVec 64)) :
    ∃ b', appendAll append xs b.clear = .ok () b' ∧ LongBufferWith exps xs b' := by
  rw [LongBufferWith.iff_fill h] at hb
  subst hb
  refine ⟨fill (pageExp exps) xs, ?_, (LongBufferWith.iff_fill h).mpr rfl⟩
  have : clear (fill (pageExp exps) [] : FastLongBuffer) = fill (pageExp exps) [] := by
    simp [clear, fill]
  rw [this, appendAll_fill]; simp

/-- What `Clear` does show: size 0 and an empty array, for every buffer. -/
theorem C05_clear_reads_empty (b : FastLongBuffer) :
    b.clear.getSize = 0 ∧ toArray b.clear = .ok [] b.clear := by
  simp [clear, getSize, toArray]

example : ∃ b, LongBufferWith [1] [7] b ∧ append 8 b.clear = .err (indexErr none) b.clear :=
  ⟨_, (LongBufferWith.iff_fill (by simp [SmallExps])).mpr rfl, rfl⟩

/-! ## C06: truncate, then append -/

/-- C06 is false for every buffer and every cut inside the first page: after `SetSize(k)`
with `0 < k` the next `Append` succeeds and counts, but the entry at `k` still is the old
value. (`pageExp` is at least 1 here; see `C06_refuted_unit_pages`, `C06_refuted_zero`.) -/
theorem C06_refuted (exps : List Int) (h : SmallExps exps) (xs : List (BitVec 64)) (b)
    (hb : LongBufferWith exps xs b) (k : Nat) (hk0 : 0 < k) (hk : k < xs.length)
    (hp : k < 2 ^ pageExp exps) (v : BitVec 64) :
    ∃ b', append v (b.setSize k) = .ok () b' ∧ b'.getSize = k + 1 ∧
      (longAt k b').outcome = .value xs[k] := by
  rw [LongBufferWith.iff_fill h] at hb
  subst hb
  have hpos := pow_pos' (pageExp exps)
  generalize hb : fill (pageExp exps) xs = b
  have hbuf : b.buffer = pages (2 ^ pageExp exps) xs := by rw [← hb]; rfl
  have hexp : b.exp = pageExp exps := by rw [← hb]; rfl
  have hr : b.r = 2 ^ pageExp exps - 1 := by rw [← hb]; rfl
  have hcap : (k : Int) < b.capacity := by
    rw [← hb]; simp only [fill]
    have : xs.length ≤ 2 ^ pageExp exps * numPages (2 ^ pageExp exps) xs.length := by
      rw [Nat.mul_comm, ← numPages_le hpos]; exact Nat.le_refl _
    exact_mod_cast Nat.lt_of_lt_of_le hk this
  have hlt : 0 < numPages (2 ^ pageExp exps) xs.length := (lt_numPages hpos).mpr (by omega)
  have hq : (k : Int) / 2 ^ pageExp exps = 0 :=
    Int.ediv_eq_zero_of_lt (by omega) (by exact_mod_cast hp)
  let pg := xs.take (2 ^ pageExp exps)
  have hidx : ∀ s : FastLongBuffer, M.index b.buffer 0 s = .ok pg s := by
    intro s
    have := M.index_nat b.buffer 0 s (by rw [hbuf]; simpa using hlt)
    simpa [hbuf, pages_getElem] using this
  refine ⟨{ b with size := k + 1, buffer := b.buffer.set 0 (pg ++ [v]) }, ?_, rfl, ?_⟩
  · simp only [append, M.bind_apply, M.get_apply, Res.andThen_ok, M.ite_apply, setSize]
    rw [if_pos hcap]
    have hg : get (pageNum { b with size := (k : Int) } (k : Int)) { b with size := (k : Int) }
        = .ok pg { b with size := (k : Int) } := by
      simp only [Paged.get, M.bind_apply, M.get_apply, Res.andThen_ok, M.ite_apply]
      simp only [pageNum, hexp]
      rw [hq, if_neg (by omega), hidx]
    rw [hg]
    simp only [Res.andThen_ok, M.bind_apply, M.modify_apply, Paged.set, M.get_apply, M.ite_apply]
    simp only [pageNum, hexp]
    rw [hq, if_neg (by omega)]
    rw [show (0 : Int) = ((0 : Nat) : Int) from rfl, setAt_nat (by rw [hbuf]; simpa using hlt)]
    simp
  · simp only [longAt, atWith, M.bind_apply, M.get_apply, Res.andThen_ok, M.catchErr_apply]
    simp only [pageNum, hexp]
    rw [hq]
    simp only [Paged.get, M.bind_apply, M.get_apply, Res.andThen_ok, M.ite_apply]
    rw [if_neg (by omega)]
    rw [show (0 : Int) = ((0 : Nat) : Int) from rfl, M.index_nat _ _ _ (by
      rw [List.length_set, hbuf]; simpa using hlt)]
    simp only [List.getElem_set_self, Res.handle_ok, Res.andThen_ok, M.ite_apply]
    have hpl : k < pg.length := by simp only [pg, List.length_take]; omega
    rw [if_neg (by rw [List.length_append]; omega)]
    have hoff : pageOffset
        { b with size := (k : Int) + 1, buffer := b.buffer.set 0 (pg ++ [v]), exp := pageExp exps }
        (k : Int) = k := by
      simp only [pageOffset, hr, r_toNat, Int.toNat_natCast, Nat.and_two_pow_sub_one_eq_mod]
      exact Nat.mod_eq_of_lt hp
    rw [hoff, M.index_nat _ _ _ (by rw [List.length_append]; omega)]
    simp only [Res.outcome]
    rw [List.getElem_append_left hpl]
    simp [pg]

/-- After `SetSize(0)` the next `Append` fails. -/
theorem C06_refuted_zero (exps : List Int) (h : SmallExps exps) (xs : List (BitVec 64)) (b)
    (hb : LongBufferWith exps xs b) (hne : xs ≠ []) (v : BitVec 64) :
    append v (b.setSize 0) = .err (indexErr none) (b.setSize 0) :=
  C05_refuted exps h xs b hb hne v

/-- With pages of one entry, the next `Append` after any truncation fails. -/
theorem C06_refuted_unit_pages (exps : List Int) (h : SmallExps exps) (h0 : pageExp exps = 0)
    (xs : List (BitVec 64)) (b) (hb : LongBufferWith exps xs b) (k : Nat) (hk : k < xs.length)
    (v : BitVec 64) :
    append v (b.setSize k) = .err (indexErr none) (b.setSize k) := by
  rw [LongBufferWith.iff_fill h, h0] at hb
  subst hb
  simp only [append, M.bind_apply, M.get_apply, Res.andThen_ok, M.ite_apply, setSize]
  rw [if_pos]
  · simp only [Paged.get, M.bind_apply, M.get_apply, Res.andThen_ok, M.ite_apply, M.raise_apply]
    rw [if_pos]
    · simp
    · simp [pageNum, fill]
  · simp [fill, numPages]; omega

/-- What holds of C06: setting the size to the number of values held changes nothing, so
the next `Append` puts its value at that index. Missing: every real truncation, see
`C06_refuted`. -/
theorem C06_partial (exps : List Int) (h : SmallExps exps) (xs : List (BitVec 64)) (b)
    (hb : LongBufferWith exps xs b) (v : BitVec 64) :
    ∃ b', append v (b.setSize xs.length) = .ok () b' ∧ LongBufferWith exps (xs ++ [v]) b' := by
  rw [LongBufferWith.iff_fill h] at hb
  subst hb
  refine ⟨fill (pageExp exps) (xs ++ [v]), ?_, (LongBufferWith.iff_fill h).mpr rfl⟩
  have : setSize xs.length (fill (pageExp exps) xs) = fill (pageExp exps) xs := by
    simp [setSize, fill]
  rw [this, append_fill]

example : ∃ b b', LongBufferWith [2] [7, 8, 9] b ∧ append 5 (b.setSize 1) = .ok () b' ∧
    longAt 1 b' = .ok 8 b' :=
  ⟨_, _, (LongBufferWith.iff_fill (by simp [SmallExps])).mpr rfl, rfl, rfl⟩

/-! ## C07: the two halves of a value -/

/-- `Lower32At` returns the low 32 bits of what `LongAt` returns. -/
theorem C07_lower (b : FastLongBuffer) (i : Int) (v : BitVec 64)
    (hv : (longAt i b).outcome = .value v) :
    (lower32At i b).outcome = .value (v.extractLsb' 0 32) := by
  simp only [lower32At, M.bind_apply, M.catchErr_apply]
  cases h : longAt i b <;> simp [h, Res.outcome] at hv ⊢
  subst hv
  ext k; simp

/-- `Upper32At` returns bits 32 to 59 of what `LongAt` returns: the four highest bits are
lost. -/
theorem C07_upper_exact (b : FastLongBuffer) (i : Int) (v : BitVec 64)
    (hv : (longAt i b).outcome = .value v) :
    (upper32At i b).outcome = .value (v.extractLsb' 32 32 &&& 0x0FFFFFFF#32) := by
  simp only [upper32At, M.bind_apply, M.catchErr_apply]
  cases h : longAt i b <;> simp [h, Res.outcome] at hv ⊢
  subst hv
  rename_i v _
  ext k hk
  have hmsb : (v &&& 1152921500311879680#64).msb = false := by
    simp [BitVec.msb_eq_getLsbD_last]
  rw [BitVec.sshiftRight_eq_of_msb_false hmsb]
  simp only [BitVec.getElem_setWidth, BitVec.getLsbD_ushiftRight, BitVec.getLsbD_and,
    BitVec.getElem_and, BitVec.getElem_extractLsb']
  congr 1
  have : ∀ k : Fin 32, (1152921500311879680#64).getLsbD (32 + k) = (268435455#32).getLsbD k := by
    decide
  simpa [BitVec.getLsbD_eq_getElem hk] using this ⟨k, hk⟩

/-- For values whose four highest bits are zero the two halves are right and determine the
value. Missing from C07: all other values, see `C07_refuted`. -/
theorem C07_partial (b : FastLongBuffer) (i : Int) (v : BitVec 64)
    (hv : (longAt i b).outcome = .value v) (htop : v.extractLsb' 60 4 = 0#4) :
    ∃ lo hi : BitVec 32, (lower32At i b).outcome = .value lo ∧
      (upper32At i b).outcome = .value hi ∧
      lo = v.extractLsb' 0 32 ∧ hi = v.extractLsb' 32 32 ∧ v = hi ++ lo := by
  refine ⟨_, _, C07_lower b i v hv, C07_upper_exact b i v hv, rfl, ?_, ?_⟩
  · ext k hk
    simp only [BitVec.getElem_and, BitVec.getElem_extractLsb']
    by_cases h28 : k < 28
    · have : ∀ k : Fin 28, (0x0FFFFFFF#32).getLsbD k = true := by decide
      have := this ⟨k, h28⟩
      simp [BitVec.getLsbD_eq_getElem hk] at this
      simp [this]
    · have h0 := congrArg (fun x => x.getLsbD (k - 28)) htop
      simp only [BitVec.getLsbD_extractLsb', BitVec.getLsbD_zero] at h0
      rw [show 60 + (k - 28) = 32 + k by omega] at h0
      simp [show k - 28 < 4 by omega] at h0
      simp [h0]
  · ext k hk
    rw [BitVec.getElem_append]
    split
    · simp [BitVec.getLsbD_eq_getElem hk]
    · rename_i h32
      simp only [BitVec.getElem_and, BitVec.getElem_extractLsb']
      rw [show 32 + (k - 32) = k by omega, BitVec.getLsbD_eq_getElem hk]
      by_cases h28 : k - 32 < 28
      · have : ∀ k : Fin 28, (0x0FFFFFFF#32).getLsbD k = true := by decide
        have := this ⟨k - 32, h28⟩
        simp [BitVec.getLsbD_eq_getElem (show k - 32 < 32 by omega)] at this
        simp [this]
      · have h0 := congrArg (fun x => x.getLsbD (k - 60)) htop
        simp only [BitVec.getLsbD_extractLsb', BitVec.getLsbD_zero] at h0
        rw [show 60 + (k - 60) = k by omega] at h0
        simp [show k - 60 < 4 by omega, BitVec.getLsbD_eq_getElem hk] at h0
        simp [h0]

/-- C07 is false: two different values with the same halves. -/
theorem C07_refuted : ∃ b b' : FastLongBuffer,
    LongBufferWith [] [0x1000000000000000#64] b ∧ LongBufferWith [] [0#64] b' ∧
    (lower32At 0 b).outcome = (lower32At 0 b').outcome ∧
    (upper32At 0 b).outcome = (upper32At 0 b').outcome :=
  ⟨_, _, (LongBufferWith.iff_fill (by simp [SmallExps])).mpr rfl,
    (LongBufferWith.iff_fill (by simp [SmallExps])).mpr rfl, rfl, rfl⟩

example : ∃ b, LongBufferWith [] [0x0123456789ABCDEF#64] b ∧
    lower32At 0 b = .ok 0x89ABCDEF b ∧ upper32At 0 b = .ok 0x01234567 b :=
  ⟨_, (LongBufferWith.iff_fill (by simp [SmallExps])).mpr rfl, rfl, rfl⟩

end GoVtd
