import Verif.Proofs.XmlChar
import Verif.Proofs.Basic
import Verif.Model.Common

/-!
# Properties C11, C12 and C17: character classes, hash width, error chains
-/

namespace GoVtd

/-! ## C11: character classes -/

/-- The five predicates of `NewXmlChar()` decide the W3C productions. -/
theorem C11_classes (c : Nat) :
    (newXmlChar.isNameStartChar c = true ↔ Spec.NameStartChar c) ∧
    (newXmlChar.isNameChar c = true ↔ Spec.NameChar c) ∧
    (newXmlChar.isSpaceChar c = true ↔ Spec.S c) ∧
    (newXmlChar.isValidChar c = true ↔ Spec.Char11 c) ∧
    (newXmlChar.isContentChar c = true ↔ Spec.ContentChar c) := by
  rw [newXmlChar_isNameStartChar, newXmlChar_isNameChar, newXmlChar_isSpaceChar,
    newXmlChar_isValidChar, newXmlChar_isContentChar]
  exact ⟨isNameStartChar_iff c, isNameChar_iff c, isSpaceChar_iff c, isValidChar_iff c,
    isContentChar_iff c⟩

/-- The XML 1.0 production `Char` differs: the parser also accepts the control
characters that XML 1.0 forbids. -/
theorem C11_not_xml10 : ∃ c, newXmlChar.isValidChar c = true ∧ ¬Spec.Char10 c :=
  ⟨1, by rw [newXmlChar_isValidChar]; decide, by simp [Spec.Char10]⟩

example : Spec.NameStartChar 0x61 ∧ ¬Spec.NameStartChar 0x2D ∧ Spec.NameChar 0x2D := by
  simp [Spec.NameStartChar, Spec.NameChar]

/-! ## C12: hash width -/

theorem determineHashWidth_cases (i : Int) (w : Nat) (h : determineHashWidth i = w) :
    (i < 2 ^ 8 ∧ w = 3) ∨ (4 ≤ w ∧ w ≤ 18 ∧ 2 ^ (w + 4) ≤ i ∧ i < 2 ^ (w + 5)) ∨
    (2 ^ 23 ≤ i ∧ i < 2 ^ 25 ∧ w = 19) ∨ (2 ^ 25 ≤ i ∧ i < 2 ^ 27 ∧ w = 20) ∨
    (2 ^ 27 ≤ i ∧ i < 2 ^ 29 ∧ w = 21) ∨ (2 ^ 29 ≤ i ∧ w = 22) := by
  unfold determineHashWidth at h
  by_cases h8 : i < 2 ^ 8
  · rw [if_pos h8] at h; exact .inl ⟨h8, h.symm⟩
  rw [if_neg h8] at h
  right
  by_cases h9 : i < 2 ^ 9
  · rw [if_pos h9] at h
    subst h
    exact .inl ⟨by decide, by decide, Int.not_lt.mp h8, h9⟩
  rw [if_neg h9] at h
  clear h8
  by_cases h10 : i < 2 ^ 10
  · rw [if_pos h10] at h
    subst h
    exact .inl ⟨by decide, by decide, Int.not_lt.mp h9, h10⟩
  rw [if_neg h10] at h
  clear h9
  by_cases h11 : i < 2 ^ 11
  · rw [if_pos h11] at h
    subst h
    exact .inl ⟨by decide, by decide, Int.not_lt.mp h10, h11⟩
  rw [if_neg h11] at h
  clear h10
  by_cases h12 : i < 2 ^ 12
  · rw [if_pos h12] at h
    subst h
    exact .inl ⟨by decide, by decide, Int.not_lt.mp h11, h12⟩
  rw [if_neg h12] at h
  clear h11
  by_cases h13 : i < 2 ^ 13
  · rw [if_pos h13] at h
    subst h
    exact .inl ⟨by decide, by decide, Int.not_lt.mp h12, h13⟩
  rw [if_neg h13] at h
  clear h12
  by_cases h14 : i < 2 ^ 14
  · rw [if_pos h14] at h
    subst h
    exact .inl ⟨by decide, by decide, Int.not_lt.mp h13, h14⟩
  rw [if_neg h14] at h
  clear h13
  by_cases h15 : i < 2 ^ 15
  · rw [if_pos h15] at h
    subst h
    exact .inl ⟨by decide, by decide, Int.not_lt.mp h14, h15⟩
  rw [if_neg h15] at h
  clear h14
  by_cases h16 : i < 2 ^ 16
  · rw [if_pos h16] at h
    subst h
    exact .inl ⟨by decide, by decide, Int.not_lt.mp h15, h16⟩
  rw [if_neg h16] at h
  clear h15
  by_cases h17 : i < 2 ^ 17
  · rw [if_pos h17] at h
    subst h
    exact .inl ⟨by decide, by decide, Int.not_lt.mp h16, h17⟩
  rw [if_neg h17] at h
  clear h16
  by_cases h18 : i < 2 ^ 18
  · rw [if_pos h18] at h
    subst h
    exact .inl ⟨by decide, by decide, Int.not_lt.mp h17, h18⟩
  rw [if_neg h18] at h
  clear h17
  by_cases h19 : i < 2 ^ 19
  · rw [if_pos h19] at h
    subst h
    exact .inl ⟨by decide, by decide, Int.not_lt.mp h18, h19⟩
  rw [if_neg h19] at h
  clear h18
  by_cases h20 : i < 2 ^ 20
  · rw [if_pos h20] at h
    subst h
    exact .inl ⟨by decide, by decide, Int.not_lt.mp h19, h20⟩
  rw [if_neg h20] at h
  clear h19
  by_cases h21 : i < 2 ^ 21
  · rw [if_pos h21] at h
    subst h
    exact .inl ⟨by decide, by decide, Int.not_lt.mp h20, h21⟩
  rw [if_neg h21] at h
  clear h20
  by_cases h22 : i < 2 ^ 22
  · rw [if_pos h22] at h
    subst h
    exact .inl ⟨by decide, by decide, Int.not_lt.mp h21, h22⟩
  rw [if_neg h22] at h
  clear h21
  by_cases h23 : i < 2 ^ 23
  · rw [if_pos h23] at h
    subst h
    exact .inl ⟨by decide, by decide, Int.not_lt.mp h22, h23⟩
  rw [if_neg h23] at h
  clear h22
  right
  by_cases h25 : i < 2 ^ 25
  · rw [if_pos h25] at h; omega
  rw [if_neg h25] at h
  by_cases h27 : i < 2 ^ 27
  · rw [if_pos h27] at h; omega
  rw [if_neg h27] at h
  by_cases h29 : i < 2 ^ 29
  · rw [if_pos h29] at h; omega
  rw [if_neg h29] at h
  omega

theorem pow_cmp {n m : Int} {a b : Nat} (h1 : 2 ^ a ≤ n) (h2 : m < 2 ^ b) (h : n ≤ m) : a < b := by
  apply Nat.lt_of_not_le
  intro hb
  have : (2 : Int) ^ b ≤ 2 ^ a := by exact_mod_cast Nat.pow_le_pow_right (by decide) hb
  omega

/-- The width is between 3 and 22 and never decreases with the size; the bucket count and
the reserved storage are `2^width`. This is C12 except for the mask (`C12_mask_refuted`). -/
theorem C12_partial (n : Int) :
    3 ≤ (newIntHash [n]).width ∧ (newIntHash [n]).width ≤ 22 ∧
    (∀ m, n ≤ m → (newIntHash [n]).width ≤ (newIntHash [m]).width) ∧
    (newIntHash [n]).hashWidth = 2 ^ (newIntHash [n]).width ∧
    (newIntHash [n]).storageCap = 2 ^ (newIntHash [n]).width := by
  simp only [newIntHash, List.foldl, IntHash.withSize, and_true]
  have hn := determineHashWidth_cases n _ rfl
  generalize determineHashWidth n = w at hn
  refine ⟨by omega, by omega, ?_⟩
  intro m h
  have hm := determineHashWidth_cases m _ rfl
  generalize determineHashWidth m = v at hm
  rcases hn with hn | hn | hn | hn | hn | hn
  · omega
  · rcases hm with hm | hm | hm | hm | hm | hm
    · have := pow_cmp hn.2.2.1 hm.1 h; omega
    · have := pow_cmp hn.2.2.1 hm.2.2.2 h; omega
    all_goals omega
  all_goals
    rcases hm with hm | hm | hm | hm | hm | hm
    · omega
    · have := pow_cmp hn.1 hm.2.2.2 h; omega
    all_goals omega

/-- The width exactly: `w` for sizes from `2^(w+4)` up to `2^(w+5)` while `w` is at most 18;
above that each step covers a factor of four. -/
theorem C12_width_exact (n : Int) (w : Nat) (hw : 4 ≤ w) (hw' : w ≤ 18) :
    (newIntHash [n]).width = w ↔ 2 ^ (w + 4) ≤ n ∧ n < 2 ^ (w + 5) := by
  simp only [newIntHash, List.foldl, IntHash.withSize]
  have hn := determineHashWidth_cases n _ rfl
  generalize determineHashWidth n = v at hn
  constructor
  · rintro rfl
    rcases hn with hn | hn | hn | hn | hn | hn
    · omega
    · exact hn.2.2
    all_goals omega
  · rintro ⟨h1, h2⟩
    rcases hn with hn | hn | hn | hn | hn | hn
    · have := pow_cmp h1 hn.1 (Int.le_refl n); omega
    · have := pow_cmp h1 hn.2.2.2 (Int.le_refl n)
      have := pow_cmp hn.2.2.1 h2 (Int.le_refl n); omega
    all_goals have := pow_cmp hn.1 h2 (Int.le_refl n); omega

/-- The mask part of C12 is false: for every size the mask is 1, so it selects two
buckets of at least eight. -/
theorem C12_mask_refuted (n : Int) :
    (newIntHash [n]).mask = 1 ∧ (newIntHash [n]).mask ≠ (newIntHash [n]).hashWidth - 1 := by
  refine ⟨rfl, ?_⟩
  have h := C12_partial n
  rw [h.2.2.2.1]
  have : 2 ^ 3 ≤ 2 ^ (newIntHash [n]).width := Nat.pow_le_pow_right (by decide) h.1
  show 1 ≠ _
  omega

/-- The last of several sizes counts. -/
theorem C12_last_size (sizes : List Int) (n : Int) :
    newIntHash (sizes ++ [n]) = newIntHash [n] := by
  have : ∀ (h : IntHash), h.maxDepth = 0 → h.mask = 1 →
      (sizes.foldl (fun h s => h.withSize s) h).maxDepth = 0 ∧
      (sizes.foldl (fun h s => h.withSize s) h).mask = 1 := by
    induction sizes with
    | nil => intro h h1 h2; exact ⟨h1, h2⟩
    | cons s ss ih => intro h h1 h2; exact ih _ h1 h2
  have := this { storage := [], storageCap := 1, maxDepth := 0, hashWidth := 1, width := 0, mask := 1 }
    rfl rfl
  simp only [newIntHash, List.foldl_append, List.foldl]
  rw [IntHash.withSize, this.1, this.2]
  rfl

example : (newIntHash [1000]).width = 5 ∧ (newIntHash [1000]).hashWidth = 32 := by decide

/-! ## C17: error chains -/

/-- The nodes of an error chain from the outside in, by repeated `Unwrap`. -/
def chain : GoErr → List ErrKind
  | .leaf k => [k]
  | .wrap k e => k :: chain e

/-- The chain is what `Unwrap` shows. -/
theorem chain_unwrap (e : GoErr) :
    chain e = e.kind :: (match e.unwrap with | none => [] | some i => chain i) := by
  cases e <;> rfl

/-- `errors.As` with target type `t` succeeds exactly when a node of the chain has that
type; in particular an end-of-file error is recognised through every wrapping. -/
theorem C17_as_iff (e : GoErr) (t : ErrType) :
    e.as t = true ↔ ∃ k ∈ chain e, k.type = t := by
  induction e with
  | leaf k => simp [GoErr.as, chain]
  | wrap k e ih => simp [GoErr.as, chain, ih]

/-- Each constructor yields the type its name says, except `NewNavigationError`. -/
theorem C17_constructor_types (p m : String) (l : Option (Int × Int)) (e : Option GoErr) :
    (newInvalidArgumentError p m e).kind.type = .invalidArgument ∧
    (newInternalError m e).kind.type = .internal ∧
    (newParseError m l e).kind.type = .parse ∧
    (newEncodingError m).kind.type = .encoding ∧
    (newDecodingError m).kind.type = .decoding ∧
    (newEntityError m).kind.type = .entity ∧
    (newEOFError m).kind.type = .eof ∧
    (newModifyError m).kind.type = .modify := by
  cases e <;> exact ⟨rfl, rfl, rfl, rfl, rfl, rfl, rfl, rfl⟩

/-- A wrapped error is the next node of the chain. -/
theorem C17_wrapping_keeps_chain (k : ErrKind) (e : GoErr) :
    chain (mkErr k (some e)) = k :: chain e := rfl

/-- The constructor part of C17 is false for `NewNavigationError`: no error it makes has
the navigation type, all have the parse type. -/
theorem C17_navigation_refuted (m : String) (e : Option GoErr) :
    (newNavigationError m e).kind.type = .parse ∧
    (e = none → (newNavigationError m e).as .navigation = false) := by
  cases e <;> simp [newNavigationError, mkErr, GoErr.kind, ErrKind.type, GoErr.as]

example : (newInternalError "x" (some (newParseError "y" none (some (newEOFError "z"))))).as .eof
    = true := by decide

end GoVtd
