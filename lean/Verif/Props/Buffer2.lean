import Verif.Props.Buffer

/-!
# Properties C08 to C10: object buffer, page-size options, byte buffer
-/

namespace GoVtd
open Paged

variable {α : Type}

/-! ## C08: object buffer -/

/-- State of an object buffer after appending `xs`: with pages of at least two entries
everything goes to the first page and only the first append is counted. -/
def objFill (e : Nat) (xs : List α) : Paged α :=
  if e = 0 then fill 0 xs
  else if xs = [] then fill e []
  else { buffer := [xs], capacity := 2 ^ e, size := 1, exp := e, r := 2 ^ e - 1,
         pageSize := 2 ^ e }

theorem appendObject_objFill (e : Nat) (xs : List α) (v : α) :
    appendObject v (objFill e xs) = .ok () (objFill e (xs ++ [v])) := by
  simp only [objFill]
  by_cases he : e = 0
  · subst he
    simp only [if_true]
    have hcap : ∀ ys : List α, (fill 0 ys).capacity = ys.length := by intro ys; simp [fill, numPages]
    have h1 := append_fill 0 xs v
    simp only [append, appendObject, M.bind_apply, M.get_apply, Res.andThen_ok, M.ite_apply,
      hcap] at h1 ⊢
    rw [if_neg (by simp [fill])] at h1 ⊢
    exact h1
  · simp only [if_neg he]
    have h2 : 2 ≤ 2 ^ e := by
      calc 2 = 2 ^ 1 := rfl
        _ ≤ 2 ^ e := Nat.pow_le_pow_right (by decide) (by omega)
    by_cases hx : xs = []
    · subst hx
      simp [appendObject, fill_nil]
    · simp only [if_neg hx, appendObject, M.bind_apply, M.get_apply, Res.andThen_ok, M.ite_apply]
      have hc : (1 : Int) < 2 ^ e := by exact_mod_cast h2
      have hz : (1 : Int) / 2 ^ e = 0 := Int.ediv_eq_zero_of_lt (by omega) hc
      rw [if_pos hc]
      simp [pageNum, hz, Paged.get, Paged.set, M.index, setAt]

theorem appendAll_objFill (e : Nat) (ys xs : List α) :
    appendAll appendObject xs (objFill e ys) = .ok () (objFill e (ys ++ xs)) := by
  induction xs generalizing ys with
  | nil => simp [appendAll]
  | cons v vs ih => simp [appendAll, appendObject_objFill, ih]

theorem ObjectBufferWith.iff_fill {exps : List Int} {xs : List α} {b} (h : SmallExps exps) :
    ObjectBufferWith exps xs b ↔ b = objFill (pageExp exps) xs := by
  have h0 : (fill (pageExp exps) [] : Paged α) = objFill (pageExp exps) [] := by
    simp only [objFill]; split <;> simp_all
  simp only [ObjectBufferWith, newObject_fill exps h]
  constructor
  · rintro ⟨b0, h1, h2⟩
    cases h1
    rw [h0, appendAll_objFill] at h2
    cases h2; simp
  · rintro rfl
    exact ⟨_, rfl, by rw [h0, appendAll_objFill]; simp⟩

/-- `ObjectAt(i)` returns the `i`-th object while `i` is on the first page. Missing from
C08: larger indices (`C08_lost`) and the size (`C08_size_exact`). -/
theorem C08_objectAt_partial (exps : List Int) (h : SmallExps exps) (xs : List α) (b)
    (hb : ObjectBufferWith exps xs b) (i : Nat) (hi : i < xs.length)
    (hp : i < 2 ^ pageExp exps) : objectAt i b = .ok xs[i] b := by
  rw [ObjectBufferWith.iff_fill h] at hb
  subst hb
  simp only [objFill]
  by_cases he : pageExp exps = 0
  · rw [he] at hp
    rw [if_pos he]
    obtain ⟨_, h2⟩ := (atWith_fill (fun e => indexErr (some e)) 0 xs i).1
      ⟨by omega, by omega, by omega⟩
    simpa [objectAt] using h2
  · have hx : xs ≠ [] := by intro hx; subst hx; simp at hi
    have hz : (i : Int) / 2 ^ pageExp exps = 0 :=
      Int.ediv_eq_zero_of_lt (by omega) (by exact_mod_cast hp)
    rw [if_neg he, if_neg hx]
    simp only [objectAt, atWith, M.bind_apply, M.get_apply, Res.andThen_ok, M.catchErr_apply,
      pageNum, hz, Paged.get, M.ite_apply]
    rw [if_neg (by omega)]
    simp only [M.index_apply, pageOffset, r_toNat, Int.toNat_natCast,
      Nat.and_two_pow_sub_one_eq_mod, Nat.mod_eq_of_lt hp]
    simp [hi]

/-- The size after appending `xs`: with pages of two or more entries it is never more
than 1. -/
theorem C08_size_exact (exps : List Int) (h : SmallExps exps) (xs : List α) (b)
    (hb : ObjectBufferWith exps xs b) :
    b.getSize = if pageExp exps = 0 then (xs.length : Int) else min xs.length 1 := by
  rw [ObjectBufferWith.iff_fill h] at hb
  subst hb
  simp only [objFill, getSize]
  by_cases he : pageExp exps = 0
  · simp [he, fill]
  · by_cases hx : xs = []
    · subst hx; rw [if_neg he, if_pos rfl, if_neg he]; rfl
    · have := List.length_pos_iff.mpr hx
      simp [he, hx]; omega

/-- Every object behind the first page is unreadable. -/
theorem C08_lost (exps : List Int) (h : SmallExps exps) (xs : List α) (b)
    (hb : ObjectBufferWith exps xs b) (i : Nat) (hi : i < xs.length)
    (hp : 2 ^ pageExp exps ≤ i) : (objectAt i b).outcome.isError := by
  rw [ObjectBufferWith.iff_fill h] at hb
  subst hb
  simp only [objFill]
  by_cases he : pageExp exps = 0
  · rw [if_pos he]
    rcases (atWith_fill (fun e => indexErr (some e)) 0 xs i).2.2
      (by rw [he] at hp; rintro ⟨_, _, h3⟩; simp at h3; omega) (not_panics_of_lt hi) with h3 | h3 <;>
    simp [objectAt, h3, Res.outcome, Outcome.isError]
  · have hx : xs ≠ [] := by intro hx; subst hx; simp at hi
    have hpos := pow_pos' (pageExp exps)
    have hz : 1 ≤ (i : Int) / 2 ^ pageExp exps := by
      apply Int.le_ediv_of_mul_le (by exact_mod_cast hpos)
      rw [Int.one_mul]; exact_mod_cast hp
    rw [if_neg he, if_neg hx]
    simp only [objectAt, atWith, M.bind_apply, M.get_apply, Res.andThen_ok, M.catchErr_apply,
      Paged.get, M.ite_apply]
    rw [if_pos (by simp only [pageNum]; omega)]
    simp [Res.outcome, Outcome.isError]

/-- C08 is false: two objects, size 1. -/
theorem C08_refuted : ∃ b, ObjectBufferWith [] [true, false] b ∧ b.getSize = 1 :=
  ⟨_, (ObjectBufferWith.iff_fill (by simp [SmallExps])).mpr rfl, rfl⟩

example : ∃ b, ObjectBufferWith [1] [5, 6, 7] b ∧ objectAt 1 b = .ok 6 b ∧
    (objectAt 2 b).outcome.isError :=
  ⟨_, (ObjectBufferWith.iff_fill (by simp [SmallExps])).mpr rfl, rfl, trivial⟩

/-! ## C09: page-size options -/

theorem wrap64_two_pow_big (n : Nat) (h : 64 ≤ n) : wrap64 (2 ^ n) = 0 := by
  have : (2 : Int) ^ n = (2 ^ (n - 64)) * 2 ^ 64 := by
    rw [← Int.pow_add]; congr 1; omega
  simp only [wrap64, BitVec.toInt_ofInt, Int.bmod_def, this]
  have : (2 : Int) ^ (n - 64) * 2 ^ 64 % ((2 ^ 64 : Nat) : Int) = 0 := by
    exact Int.mul_emod_left _ _
  rw [this]; decide

/-- `NewFastLongBuffer` with one page-size option, for every exponent: a negative one
panics, 0 to 62 are accepted with pages of `2^x` entries, 63 is accepted with a negative
page size, larger ones are refused. -/
theorem C09_long_exact (x : Int) :
    (x < 0 → (newLong [x] : Res FastLongBuffer Unit) = .panic) ∧
    (0 ≤ x ∧ x ≤ 62 → ∃ b : FastLongBuffer, newLong [x] = .ok () b ∧ b.pageSize = 2 ^ x.toNat) ∧
    (x = 63 → ∃ b : FastLongBuffer, newLong [x] = .ok () b ∧ b.pageSize = -2 ^ 63) ∧
    (64 ≤ x → (newLong [x] : Res FastLongBuffer Unit).outcome =
      .error (newInvalidArgumentError "size" InvalidBufferPageSize none)) := by
  refine ⟨?_, ?_, ?_, ?_⟩
  · intro h
    simp [newLong, runOpts, optPanicking, h]
  · rintro ⟨h1, h2⟩
    obtain ⟨n, rfl⟩ := Int.eq_ofNat_of_zero_le h1
    exact ⟨_, newLong_small n (by omega), by simp [fill]⟩
  · rintro rfl
    exact ⟨_, rfl, rfl⟩
  · intro h
    simp only [newLong, List.map, runOpts, optPanicking, checkPageSize, M.bind_apply, M.ite_apply]
    rw [if_neg (by omega)]
    simp [withPageSize, wrap64_two_pow_big x.toNat (by omega), Res.outcome]

/-- The object buffer has the same options. -/
theorem C09_object_exact (x : Int) :
    (x < 0 → (newObject [x] : Res (FastObjectBuffer α) Unit) = .panic) ∧
    (0 ≤ x ∧ x ≤ 62 →
      ∃ b : FastObjectBuffer α, newObject [x] = .ok () b ∧ b.pageSize = 2 ^ x.toNat) ∧
    (x = 63 → ∃ b : FastObjectBuffer α, newObject [x] = .ok () b ∧ b.pageSize = -2 ^ 63) ∧
    (64 ≤ x → (newObject [x] : Res (FastObjectBuffer α) Unit).outcome =
      .error (newInvalidArgumentError "size" InvalidBufferPageSize none)) := by
  refine ⟨?_, ?_, ?_, ?_⟩
  · intro h
    simp [newObject, runOpts, optPanicking, h]
  · rintro ⟨h1, h2⟩
    obtain ⟨n, rfl⟩ := Int.eq_ofNat_of_zero_le h1
    exact ⟨_, newObject_small n (by omega), by simp [fill]⟩
  · rintro rfl
    exact ⟨_, rfl, rfl⟩
  · intro h
    simp only [newObject, List.map, runOpts, optPanicking, checkPageSize, M.bind_apply, M.ite_apply]
    rw [if_neg (by omega)]
    simp [withPageSize, wrap64_two_pow_big x.toNat (by omega), Res.outcome]

/-- The int buffer: a negative exponent is accepted and ignored (pages of 1024 entries). -/
theorem C09_int_exact (x : Int) :
    (x < 0 → ∃ b : FastIntBuffer, newInt [x] = .ok () b ∧ b.pageSize = 1024) ∧
    (0 ≤ x ∧ x ≤ 62 → ∃ b : FastIntBuffer, newInt [x] = .ok () b ∧ b.pageSize = 2 ^ x.toNat) ∧
    (x = 63 → ∃ b : FastIntBuffer, newInt [x] = .ok () b ∧ b.pageSize = -2 ^ 63) ∧
    (64 ≤ x → (newInt [x] : Res FastIntBuffer Unit).outcome =
      .error (newInvalidArgumentError "size" InvalidBufferPageSize none)) := by
  refine ⟨?_, ?_, ?_, ?_⟩
  · intro h
    simp only [newInt, List.map, runOpts, optIgnoring, checkPageSize, M.bind_apply, M.ite_apply]
    rw [if_neg (by omega)]
    exact ⟨dflt, by simp [dflt], rfl⟩
  · rintro ⟨h1, h2⟩
    obtain ⟨n, rfl⟩ := Int.eq_ofNat_of_zero_le h1
    exact ⟨_, newInt_small n (by omega), by simp [fill]⟩
  · rintro rfl
    exact ⟨_, rfl, rfl⟩
  · intro h
    simp only [newInt, List.map, runOpts, optIgnoring, checkPageSize, M.bind_apply, M.ite_apply]
    rw [if_pos (by omega)]
    simp [withPageSize, wrap64_two_pow_big x.toNat (by omega), Res.outcome]

/-- C09 for the exponents where it holds, 0..62 and 64 upwards, in its own words. Missing:
negative exponents and 63 (`C09_refuted`). -/
theorem C09_partial (x : Int) (h0 : 0 ≤ x) (h63 : x ≠ 63) :
    (∃ b : FastLongBuffer, newLong [x] = .ok () b ∧ b.pageSize = 2 ^ x.toNat) ∨
    (newLong [x] : Res FastLongBuffer Unit).outcome.isErrorOf
      (.invalidArgument "size" InvalidBufferPageSize) := by
  by_cases h : x ≤ 62
  · exact .inl ((C09_long_exact x).2.1 ⟨h0, h⟩)
  · right
    rw [(C09_long_exact x).2.2.2 (by omega)]
    simp [Outcome.isErrorOf, newInvalidArgumentError, mkErr]

/-- C09 is false: -1 panics; 63 is accepted with a page size that is not `2^63`. -/
theorem C09_refuted :
    (newLong [-1] : Res FastLongBuffer Unit) = .panic ∧
    ∃ b : FastLongBuffer, newLong [63] = .ok () b ∧ b.pageSize ≠ 2 ^ 63 :=
  ⟨rfl, _, rfl, by decide⟩

example : ∃ b : FastLongBuffer, newLong [4] = .ok () b ∧ b.pageSize = 16 := ⟨_, rfl, rfl⟩

/-! ## C10: byte buffer -/

/-- `ByteAt(i)` returns byte `i` when there is one and the index error otherwise. -/
theorem C10_byteAt (bs : List UInt8) (i : Int) :
    (UniByteBuffer.byteAt i ⟨bs⟩).outcome =
      if h : 0 ≤ i ∧ i < bs.length then .value (bs[i.toNat]'(by omega))
      else .error (indexErr none) := by
  simp only [UniByteBuffer.byteAt, M.bind_apply, M.get_apply, Res.andThen_ok, M.ite_apply]
  by_cases h : 0 ≤ i ∧ i < bs.length
  · rw [dif_pos h, if_neg (by omega), M.index_of_lt _ _ _ h.1 (by omega)]
    rfl
  · rw [dif_neg h, if_pos (by omega)]
    rfl

/-- What `GetByteSlice(offset, length)` does, for offsets and lengths whose sum is a Go
`int`: `length` is used as the end of the slice. -/
theorem C10_slice_exact (bs : List UInt8) (o l : Int) (ho : o + l < 2 ^ 63) (hl : -2 ^ 63 ≤ o + l) :
    (UniByteBuffer.getByteSlice o l ⟨bs⟩).outcome =
      if o < 0 ∨ o ≥ bs.length then .error (newInvalidArgumentError "offset" IndexOutOfRange none)
      else if l < 1 ∨ o + l ≥ bs.length then
        .error (newInvalidArgumentError "length" InvalidSliceLength none)
      else if o > l then .panic
      else .value ((bs.take l.toNat).drop o.toNat) := by
  simp only [UniByteBuffer.getByteSlice, M.bind_apply, M.get_apply, Res.andThen_ok, M.ite_apply,
    wrap64_of_range hl ho]
  by_cases h1 : o < 0 ∨ o ≥ bs.length
  · rw [if_pos h1, if_pos h1]; rfl
  · rw [if_neg h1, if_neg h1]
    by_cases h2 : l < 1 ∨ o + l ≥ bs.length
    · rw [if_pos h2, if_pos h2]; rfl
    · rw [if_neg h2, if_neg h2]
      by_cases h3 : o > l
      · rw [if_pos h3, if_pos (Or.inl h3)]; rfl
      · rw [if_neg h3, if_neg (by omega)]
        simp only [M.pure_apply, Res.outcome, Outcome.value.injEq]
        rw [List.drop_take]
        congr 1
        omega

/-- C10 for slices that start at 0 and end before the last byte. Missing: all other
ranges, see `C10_slice_exact` and `C10_refuted`. -/
theorem C10_slice_partial (bs : List UInt8) (l : Nat) (h0 : 0 < l) (hl : l < bs.length)
    (hbs : bs.length < 2 ^ 63) :
    (UniByteBuffer.getByteSlice 0 l ⟨bs⟩).outcome = .value ((bs.drop 0).take l) := by
  rw [C10_slice_exact _ _ _ (by omega) (by omega), if_neg (by omega), if_neg (by omega),
    if_neg (by omega)]
  simp

/-- C10 is false: in a buffer of four bytes, two bytes from offset 1 come back as one
byte, one byte from offset 2 is a panic, and the whole buffer is refused. -/
theorem C10_refuted :
    (UniByteBuffer.getByteSlice 1 2 ⟨[10, 11, 12, 13]⟩).outcome = .value [11] ∧
    (UniByteBuffer.getByteSlice 2 1 ⟨[10, 11, 12, 13]⟩).outcome = .panic ∧
    (UniByteBuffer.getByteSlice 0 4 ⟨[10, 11, 12, 13]⟩).outcome =
      .error (newInvalidArgumentError "length" InvalidSliceLength none) := ⟨rfl, rfl, rfl⟩

example : (UniByteBuffer.byteAt 2 ⟨[10, 11, 12, 13]⟩).outcome = .value 12 := rfl
example : (UniByteBuffer.getByteSlice 0 3 ⟨[10, 11, 12, 13]⟩).outcome = .value [10, 11, 12] := rfl

end GoVtd
