import Verif.Model.Buffer
import Verif.Proofs.Basic

/-!
# Paged buffers filled by appends

`Paged.fill e xs` is the state a buffer with pages of `2^e` entries reaches by appending
the values `xs`; every operation is computed on it exactly.
-/

namespace GoVtd.Paged
variable {α : Type}

/-- Number of pages of `k` entries needed for `n` entries. -/
def numPages (k n : Nat) : Nat := (n + k - 1) / k

/-- `xs` cut into pages of `k` entries. -/
def pages (k : Nat) (xs : List α) : List (List α) :=
  (List.range (numPages k xs.length)).map fun i => (xs.drop (i * k)).take k

/-- The buffer holding `xs` in pages of `2^e` entries. -/
def fill (e : Nat) (xs : List α) : Paged α :=
  { buffer := pages (2 ^ e) xs, capacity := ((2 ^ e * numPages (2 ^ e) xs.length : Nat) : Int),
    size := xs.length, exp := e, r := 2 ^ e - 1, pageSize := 2 ^ e }

@[simp] theorem pages_length (k : Nat) (xs : List α) :
    (pages k xs).length = numPages k xs.length := by simp [pages]

theorem pages_getElem (k : Nat) (xs : List α) (i : Nat) (h : i < (pages k xs).length) :
    (pages k xs)[i] = (xs.drop (i * k)).take k := by simp [pages]

theorem numPages_zero (k : Nat) (hk : 0 < k) : numPages k 0 = 0 := by
  simp only [numPages]; exact Nat.div_eq_of_lt (by omega)

theorem lt_numPages {k n i : Nat} (hk : 0 < k) : i < numPages k n ↔ i * k < n := by
  simp only [numPages]
  constructor
  · intro h
    have := (Nat.le_div_iff_mul_le hk).mp h
    rw [Nat.succ_mul] at this; omega
  · intro h
    apply (Nat.le_div_iff_mul_le hk).mpr
    rw [Nat.succ_mul]; omega

theorem numPages_le {k n i : Nat} (hk : 0 < k) : numPages k n ≤ i ↔ n ≤ i * k := by
  have := @lt_numPages k n i hk
  omega

theorem numPages_succ (k n : Nat) (hk : 0 < k) :
    numPages k (n + 1) = n / k + 1 := by
  simp only [numPages]
  rw [show n + 1 + k - 1 = n + k by omega, Nat.add_div_right _ hk]

theorem numPages_eq (k n : Nat) (hk : 0 < k) :
    numPages k n = if n % k = 0 then n / k else n / k + 1 := by
  have hd := Nat.div_add_mod n k
  have hm := Nat.mod_lt n hk
  split
  · apply Nat.le_antisymm
    · rw [numPages_le hk, Nat.mul_comm]; omega
    · apply Nat.le_of_not_lt
      intro hc
      have := (numPages_le (n := n) hk).mp (Nat.le_sub_one_of_lt hc)
      have h2 : (n / k - 1) * k + k = n / k * k := by
        rw [← Nat.succ_mul]; congr 1; omega
      rw [Nat.mul_comm (n / k)] at h2; omega
  · apply Nat.le_antisymm
    · rw [numPages_le hk, Nat.mul_comm, Nat.mul_add]; omega
    · rw [Nat.add_one_le_iff, lt_numPages hk, Nat.mul_comm]; omega

theorem numPages_le_self (k n : Nat) (hk : 0 < k) : numPages k n ≤ n := by
  rw [numPages_le hk]; exact Nat.le_mul_of_pos_right n hk

theorem pages_append_full (k : Nat) (xs : List α) (v : α) (hk : 0 < k)
    (h : xs.length % k = 0) : pages k (xs ++ [v]) = pages k xs ++ [[v]] := by
  have hd := Nat.div_add_mod xs.length k
  have hn := numPages_eq k xs.length hk
  rw [if_pos h] at hn
  apply List.ext_getElem
  · simp [numPages_succ k xs.length hk, hn]
  · intro i h1 h2
    simp only [pages_length, List.length_append, List.length_cons, List.length_nil,
      numPages_succ k xs.length hk] at h1 h2
    rw [pages_getElem]
    by_cases hi : i < numPages k xs.length
    · rw [List.getElem_append_left (by simpa using hi), pages_getElem]
      have h3 : i * k + k ≤ xs.length := by
        have : (i + 1) * k ≤ (xs.length / k) * k := Nat.mul_le_mul_right k (by omega)
        rw [Nat.succ_mul] at this
        rw [Nat.mul_comm (xs.length / k)] at this; omega
      rw [List.drop_append_of_le_length (by omega), List.take_append_of_le_length]
      simp; omega
    · have hi' : i = numPages k xs.length := by omega
      rw [List.getElem_append_right (by simp; omega)]
      have h4 : i * k = xs.length := by rw [hi', hn, Nat.mul_comm]; omega
      rw [h4, List.drop_left, List.take_of_length_le (by simp; omega)]
      simp [hi']

theorem pages_append_part (k : Nat) (xs : List α) (v : α) (hk : 0 < k)
    (h : xs.length % k ≠ 0) :
    pages k (xs ++ [v]) = (pages k xs).set (xs.length / k)
      ((xs.drop (xs.length / k * k)).take k ++ [v]) := by
  have hd := Nat.div_add_mod xs.length k
  have hm := Nat.mod_lt xs.length hk
  have hn := numPages_eq k xs.length hk
  rw [if_neg h] at hn
  apply List.ext_getElem
  · simp [numPages_succ k xs.length hk, hn]
  · intro i h1 h2
    simp only [pages_length, List.length_append, List.length_cons, List.length_nil,
      numPages_succ k xs.length hk, List.length_set] at h1 h2
    rw [pages_getElem, List.getElem_set]
    split
    · rename_i hi
      subst hi
      rw [Nat.mul_comm] 
      rw [List.drop_append_of_le_length (by omega)]
      rw [List.take_of_length_le (by simp; omega), List.take_of_length_le (by simp; omega)]
    · rename_i hi
      rw [pages_getElem]
      have h3 : i * k + k ≤ xs.length := by
        have : (i + 1) * k ≤ (xs.length / k) * k := Nat.mul_le_mul_right k (by omega)
        rw [Nat.succ_mul] at this
        rw [Nat.mul_comm (xs.length / k)] at this; omega
      rw [List.drop_append_of_le_length (by omega), List.take_append_of_le_length]
      simp; omega

@[simp] theorem pow_pos' (e : Nat) : 0 < 2 ^ e := Nat.pow_pos (by decide)

theorem pageNum_nat (e : Nat) (xs : List α) (n : Nat) :
    (fill e xs).pageNum (n : Int) = ((n / 2 ^ e : Nat) : Int) := by
  simp [pageNum, fill]

theorem r_toNat (e : Nat) : ((2 ^ e - 1 : Int)).toNat = 2 ^ e - 1 := by
  have := pow_pos' e
  have h : (2 ^ e - 1 : Int) = ((2 ^ e - 1 : Nat) : Int) := by
    rw [Int.natCast_sub this]; simp
  rw [h]; rfl

theorem pageOffset_nat (e : Nat) (xs : List α) (n : Nat) :
    (fill e xs).pageOffset (n : Int) = n % 2 ^ e := by
  simp only [pageOffset, fill, r_toNat, Int.toNat_natCast]
  exact Nat.and_two_pow_sub_one_eq_mod n e

/-- Appending to a filled buffer. -/
theorem append_fill (e : Nat) (xs : List α) (v : α) :
    append v (fill e xs) = .ok () (fill e (xs ++ [v])) := by
  have hk := pow_pos' e
  have hd := Nat.div_add_mod xs.length (2 ^ e)
  have hm := Nat.mod_lt xs.length hk
  have hn := numPages_eq (2 ^ e) xs.length hk
  simp only [append, M.bind_apply, M.get_apply, Res.andThen_ok, M.ite_apply, M.modify_apply]
  by_cases h : xs.length % 2 ^ e = 0
  · rw [if_neg]
    · have hn' := hn; rw [if_pos h] at hn'
      simp only [fill, pages_append_full _ xs v hk h, List.length_append, List.length_cons,
        List.length_nil, numPages_succ _ _ hk, hn']
      simp [Int.mul_add]
    · rw [if_pos h] at hn
      simp only [fill, hn]
      have : 2 ^ e * (xs.length / 2 ^ e) = xs.length := by omega
      rw [this]; omega
  · rw [if_neg h] at hn
    have hlt : xs.length / 2 ^ e < numPages (2 ^ e) xs.length := by omega
    have hlt2 := Nat.lt_of_lt_of_le hlt (numPages_le_self (2 ^ e) xs.length hk)
    rw [if_pos]
    · have hg : get ((fill e xs).pageNum (fill e xs).size) (fill e xs)
          = .ok ((xs.drop (xs.length / 2 ^ e * 2 ^ e)).take (2 ^ e)) (fill e xs) := by
        rw [show (fill e xs).size = (xs.length : Int) from rfl, pageNum_nat]
        simp only [get, M.bind_apply, M.get_apply, Res.andThen_ok, M.ite_apply]
        rw [if_neg]
        · rw [M.index_nat _ _ _ (by simpa [fill] using hlt)]
          simp [fill, pages_getElem]
        · simp only [fill]
          generalize xs.length / 2 ^ e = q at *
          omega
      rw [hg]
      simp only [Res.andThen_ok]
      rw [show (fill e xs).size = (xs.length : Int) from rfl, pageNum_nat]
      simp only [set, M.bind_apply, M.get_apply, M.modify_apply, Res.andThen_ok, M.ite_apply]
      rw [if_neg (by
        simp only [fill]
        generalize xs.length / 2 ^ e = q at *
        omega)]
      rw [setAt_nat (by simpa [fill] using hlt)]
      simp only [fill, pages_append_part _ xs v hk h, List.length_append, List.length_cons,
        List.length_nil, numPages_succ _ _ hk, hn, M.modify_apply]
      congr 2
    · simp only [fill, hn, Nat.mul_add]; omega

/-- `get` of a page number on a filled buffer. -/
theorem get_fill (e : Nat) (xs : List α) (q : Nat) :
    get (q : Int) (fill e xs) =
      if xs.length ≤ q then .err (indexErr none) (fill e xs)
      else if xs.length ≤ q * 2 ^ e then .panic
      else .ok ((xs.drop (q * 2 ^ e)).take (2 ^ e)) (fill e xs) := by
  have hk := pow_pos' e
  simp only [get, M.bind_apply, M.get_apply, Res.andThen_ok, M.ite_apply, M.raise_apply]
  by_cases h : xs.length ≤ q
  · rw [if_pos h, if_pos (by simp only [fill]; omega)]
  · rw [if_neg h, if_neg (by simp only [fill]; omega)]
    by_cases h2 : xs.length ≤ q * 2 ^ e
    · rw [if_pos h2, M.index_panic]
      right
      have := (numPages_le hk).mpr h2
      simp only [fill, pages_length]; omega
    · have hlt : q < numPages (2 ^ e) xs.length := (lt_numPages hk).mpr (by omega)
      rw [if_neg h2, M.index_nat _ _ _ (by simpa [fill] using hlt)]
      simp [fill, pages_getElem]

theorem get_fill_neg (e : Nat) (xs : List α) (q : Int) (h : q < 0) :
    get q (fill e xs) = .err (indexErr none) (fill e xs) := by
  simp only [get, M.bind_apply, M.get_apply, Res.andThen_ok, M.ite_apply, M.raise_apply]
  rw [if_pos (Or.inl h)]

theorem pageNum_neg (e : Nat) (xs : List α) (i : Int) (h : i < 0) :
    (fill e xs).pageNum i < 0 := by
  have h2 : (0 : Int) < 2 ^ e := by exact_mod_cast pow_pos' e
  exact Int.ediv_neg_of_neg_of_pos h h2

/-- The page numbers for which an access outside the contents panics: beyond the pages
that exist, but (compared with the number of entries) not beyond the contents. -/
def panics (e n : Nat) (i : Int) : Prop :=
  0 ≤ i ∧ (n : Int) ≤ i / 2 ^ e * 2 ^ e ∧ i / 2 ^ e < n

instance (e n : Nat) (i : Int) : Decidable (panics e n i) := by
  unfold panics; infer_instance

/-- Read access on a filled buffer. -/
theorem atWith_fill (w : GoErr → GoErr) (e : Nat) (xs : List α) (i : Int) :
    (0 ≤ i ∧ i < xs.length ∧ i < 2 ^ e →
      ∃ h : i.toNat < xs.length, atWith w i (fill e xs) = .ok xs[i.toNat] (fill e xs)) ∧
    (panics e xs.length i → atWith w i (fill e xs) = .panic) ∧
    (¬(0 ≤ i ∧ i < xs.length ∧ i < 2 ^ e) → ¬panics e xs.length i →
      atWith w i (fill e xs) = .err (indexErr none) (fill e xs) ∨
      atWith w i (fill e xs) = .err (w (indexErr none)) (fill e xs)) := by
  have hk := pow_pos' e
  simp only [atWith, M.bind_apply, M.get_apply, Res.andThen_ok, M.catchErr_apply]
  by_cases h0 : i < 0
  · refine ⟨fun h => by omega, fun h => by have := h.1; omega, fun _ _ => .inr ?_⟩
    rw [get_fill_neg _ _ _ (pageNum_neg e xs i h0)]
    simp
  · obtain ⟨n, rfl⟩ := Int.eq_ofNat_of_zero_le (Int.not_lt.mp h0)
    have hpan : panics e xs.length n ↔ xs.length ≤ n / 2 ^ e * 2 ^ e ∧ n / 2 ^ e < xs.length := by
      simp only [panics]
      have : (n : Int) / 2 ^ e * 2 ^ e = ((n / 2 ^ e * 2 ^ e : Nat) : Int) := by simp
      have h2 : (n : Int) / 2 ^ e = ((n / 2 ^ e : Nat) : Int) := by simp
      rw [this, h2]; omega
    have hin : (n : Int) < 2 ^ e ↔ n < 2 ^ e := by
      rw [show (2 ^ e : Int) = ((2 ^ e : Nat) : Int) by simp]; omega
    rw [hpan, hin, pageNum_nat, get_fill, pageOffset_nat]
    refine ⟨?_, ?_, ?_⟩
    · rintro ⟨_, h1, h2⟩
      have hlen : n < xs.length := by omega
      refine ⟨by simpa using hlen, ?_⟩
      rw [Nat.div_eq_of_lt h2, Nat.mod_eq_of_lt h2, if_neg (by omega), if_neg (by omega)]
      simp only [Res.handle_ok, Res.andThen_ok, Nat.zero_mul, List.drop_zero, M.ite_apply]
      have : n < (xs.take (2 ^ e)).length := by simp; omega
      rw [if_neg (by omega), M.index_nat _ _ _ this]
      simp
    · rintro ⟨h1, h2⟩
      rw [if_neg (by omega), if_pos h1]
      simp
    · intro h1 h2
      split
      · right; simp
      · rename_i h3
        rw [if_neg (by omega)]
        left
        simp only [Res.handle_ok, Res.andThen_ok, M.ite_apply]
        rw [if_pos]
        · simp
        · right
          simp only [List.length_take, List.length_drop]
          have hle : n / 2 ^ e * 2 ^ e ≤ n := Nat.div_mul_le_self n (2 ^ e)
          by_cases h4 : n < 2 ^ e
          · rw [Nat.div_eq_of_lt h4]; omega
          · omega

theorem pages_set (k : Nat) (xs : List α) (n : Nat) (v : α) (hk : n < k) :
    pages k (xs.set n v) = (pages k xs).set 0 ((xs.take k).set n v) := by
  apply List.ext_getElem
  · simp
  · intro i h1 h2
    rw [pages_getElem, List.getElem_set]
    split
    · rename_i h; subst h; simp [List.take_set]
    · rename_i h
      rw [pages_getElem, List.drop_set_of_lt]
      have : 1 * k ≤ i * k := Nat.mul_le_mul_right k (by omega)
      omega

/-- Write access on a filled buffer. -/
theorem modifyEntry_fill (e : Nat) (xs : List α) (i : Int) (v : α) :
    (0 ≤ i ∧ i < xs.length ∧ i < 2 ^ e →
      modifyEntry i v (fill e xs) = .ok () (fill e (xs.set i.toNat v))) ∧
    (panics e xs.length i → modifyEntry i v (fill e xs) = .panic) ∧
    (¬(0 ≤ i ∧ i < xs.length ∧ i < 2 ^ e) → ¬panics e xs.length i →
      ∃ er, modifyEntry i v (fill e xs) = .err er (fill e xs)) := by
  have hk := pow_pos' e
  simp only [modifyEntry, M.bind_apply, M.get_apply, Res.andThen_ok, M.catchErr_apply]
  by_cases h0 : i < 0
  · refine ⟨fun h => by omega, fun h => by have := h.1; omega, fun _ _ => ?_⟩
    rw [get_fill_neg _ _ _ (pageNum_neg e xs i h0)]
    simp
  · obtain ⟨n, rfl⟩ := Int.eq_ofNat_of_zero_le (Int.not_lt.mp h0)
    have hpan : panics e xs.length n ↔ xs.length ≤ n / 2 ^ e * 2 ^ e ∧ n / 2 ^ e < xs.length := by
      simp only [panics]
      have : (n : Int) / 2 ^ e * 2 ^ e = ((n / 2 ^ e * 2 ^ e : Nat) : Int) := by simp
      have h2 : (n : Int) / 2 ^ e = ((n / 2 ^ e : Nat) : Int) := by simp
      rw [this, h2]; omega
    have hin : (n : Int) < 2 ^ e ↔ n < 2 ^ e := by
      rw [show (2 ^ e : Int) = ((2 ^ e : Nat) : Int) by simp]; omega
    rw [hpan, hin, pageNum_nat, get_fill, pageOffset_nat]
    refine ⟨?_, ?_, ?_⟩
    · rintro ⟨_, h1, h2⟩
      have hlen : n < xs.length := by omega
      rw [Nat.div_eq_of_lt h2, Nat.mod_eq_of_lt h2, if_neg (by omega), if_neg (by omega)]
      simp only [Res.handle_ok, Res.andThen_ok, Nat.zero_mul, List.drop_zero, M.ite_apply]
      have : n < (xs.take (2 ^ e)).length := by simp; omega
      rw [if_neg (by omega), setAt_nat this]
      simp only [set, M.bind_apply, M.get_apply, Res.andThen_ok, M.ite_apply]
      rw [if_neg (by simp only [fill]; omega), setAt_nat]
      · simp only [M.modify_apply, Int.toNat_natCast]
        simp only [fill, pages_set _ xs n v h2, List.length_set]
      · simp only [fill, pages_length]
        exact (lt_numPages hk).mpr (by omega)
    · rintro ⟨h1, h2⟩
      rw [if_neg (by omega), if_pos h1]
      simp
    · intro h1 h2
      split
      · simp
      · rename_i h3
        rw [if_neg (by omega)]
        simp only [Res.handle_ok, Res.andThen_ok, M.ite_apply]
        rw [if_pos]
        · simp
        · right
          simp only [List.length_take, List.length_drop]
          have hle : n / 2 ^ e * 2 ^ e ≤ n := Nat.div_mul_le_self n (2 ^ e)
          by_cases h4 : n < 2 ^ e
          · rw [Nat.div_eq_of_lt h4]; omega
          · omega

theorem toArrayLoop_fill (e : Nat) (he : e ≤ 62) (xs : List α) (hlen : xs.length < 2 ^ 63) :
    ∀ fuel i : Nat, ∀ acc : List α, xs.length + 2 ≤ fuel + i → i ≤ numPages (2 ^ e) xs.length →
      toArrayLoop fuel (i : Int) (xs.length - i * 2 ^ e) acc (fill e xs) =
        .ok (acc ++ xs.drop (i * 2 ^ e)) (fill e xs) := by
  have hk := pow_pos' e
  have he2 : 2 ^ e ≤ 2 ^ 62 := Nat.pow_le_pow_right (by decide) he
  intro fuel
  induction fuel with
  | zero =>
    intro i acc h hi
    have := numPages_le_self (2 ^ e) xs.length hk
    omega
  | succ fuel ih =>
    intro i acc h hi
    have hcast : (i : Int) * 2 ^ e = ((i * 2 ^ e : Nat) : Int) := by simp
    simp only [toArrayLoop, M.ite_apply]
    by_cases hpos : i * 2 ^ e < xs.length
    · have hilt : i < numPages (2 ^ e) xs.length := (lt_numPages hk).mpr hpos
      have := numPages_le_self (2 ^ e) xs.length hk
      rw [if_pos (by omega)]
      simp only [M.bind_apply]
      rw [get_fill, if_neg (by omega), if_neg (by omega)]
      simp only [Res.andThen_ok, M.bind_apply, M.get_apply]
      have hps : (fill e xs).pageSize = 2 ^ e := rfl
      have hc2 : (2 : Int) ^ e = ((2 ^ e : Nat) : Int) := by simp
      rw [hps, wrap64_of_range (by omega) (by omega)]
      have := ih (i + 1) (acc ++ (xs.drop (i * 2 ^ e)).take (2 ^ e)) (by omega) (by omega)
      rw [show ((xs.length : Int) - i * 2 ^ e - 2 ^ e) = xs.length - ((i + 1 : Nat) : Int) * 2 ^ e by
        rw [Int.natCast_add, Int.add_mul]; omega]
      rw [show ((i : Int) + 1) = ((i + 1 : Nat) : Int) by simp]
      rw [this, List.append_assoc, Nat.succ_mul]
      rw [← List.drop_drop]
      rw [List.take_append_drop]
    · rw [if_neg (by omega)]
      simp [List.drop_eq_nil_of_le (Nat.not_lt.mp hpos)]

/-- Reading the whole contents of a filled buffer. -/
theorem toArray_fill (e : Nat) (he : e ≤ 62) (xs : List α) (hlen : xs.length < 2 ^ 63) :
    toArray (fill e xs) = .ok xs (fill e xs) := by
  simp only [toArray, M.bind_apply, M.get_apply, Res.andThen_ok, M.ite_apply]
  by_cases h : xs = []
  · subst h; simp [fill]
  · have hpos : 0 < xs.length := List.length_pos_iff.mpr h
    rw [if_neg (by simp only [fill]; omega)]
    have := toArrayLoop_fill e he xs hlen ((fill e xs).size.toNat + 2) 0 []
      (by simp [fill]) (Nat.zero_le _)
    simpa [fill] using this

theorem fill_nil (e : Nat) : (fill e [] : Paged α) =
    { buffer := [], capacity := 0, size := 0, exp := e, r := 2 ^ e - 1, pageSize := 2 ^ e } := by
  simp [fill, pages, numPages_zero (2 ^ e) (pow_pos' e)]

theorem withPageSize_small (e : Nat) (he : e ≤ 62) :
    withPageSize e (dflt : Paged α) = fill e [] := by
  have he2 : 2 ^ e ≤ 2 ^ 62 := Nat.pow_le_pow_right (by decide) he
  have hk := pow_pos' e
  have hc2 : (2 : Int) ^ e = ((2 ^ e : Nat) : Int) := by simp
  have h1 : wrap64 (2 ^ e) = 2 ^ e := wrap64_of_range (by omega) (by omega)
  have h2 : wrap64 (2 ^ e - 1) = 2 ^ e - 1 := wrap64_of_range (by omega) (by omega)
  simp [fill_nil, withPageSize, dflt, h1, h2]

theorem checkPageSize_fill (e : Nat) (xs : List α) :
    checkPageSize (fill e xs) = .ok () (fill e xs) := by
  have hk := pow_pos' e
  have hc2 : (2 : Int) ^ e = ((2 ^ e : Nat) : Int) := by simp
  simp only [checkPageSize, M.bind_apply, M.get_apply, Res.andThen_ok, M.ite_apply]
  rw [if_neg (by simp only [fill]; omega)]
  rfl

/-- The constructors with a small exponent return the empty buffer. -/
theorem newLong_small (e : Nat) (he : e ≤ 62) :
    newLong [(e : Int)] = .ok () (fill e [] : Paged α) := by
  simp only [newLong, List.map, runOpts, optPanicking]
  rw [if_neg (by omega)]
  simp [withPageSize_small e he, checkPageSize_fill]

theorem newObject_small (e : Nat) (he : e ≤ 62) :
    newObject [(e : Int)] = .ok () (fill e [] : Paged α) := newLong_small e he

theorem newInt_small (e : Nat) (he : e ≤ 62) :
    newInt [(e : Int)] = .ok () (fill e [] : Paged α) := by
  simp only [newInt, List.map, runOpts, optIgnoring]
  rw [if_pos (by omega)]
  simp [withPageSize_small e he, checkPageSize_fill]

theorem dflt_eq : (dflt : Paged α) = fill 10 [] := by
  rw [fill_nil]; rfl

end GoVtd.Paged
