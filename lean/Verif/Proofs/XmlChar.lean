import Verif.Model.XmlChar
import Verif.Spec.Xml

/-!
# The character tables

The list form of the tables (as in Go), the range form (used by the parser model) and the
W3C productions agree for every natural number.
-/

namespace GoVtd

theorem XmlChar.exists_iff (arr : List Nat) (ch : Nat) :
    XmlChar.«exists» arr ch = true ↔ ch ∈ arr := by
  induction arr with
  | nil => simp [XmlChar.«exists»]
  | cons a rest ih =>
    simp only [XmlChar.«exists»]
    split
    · rename_i h; simp [h]
    · rename_i h; simp [ih, Ne.symm h]

theorem mem_expandRange (i : Nat × Nat) (c : Nat) : c ∈ expandRange i ↔ i.1 ≤ c ∧ c ≤ i.2 := by
  simp only [expandRange, List.mem_range'_1]; omega

theorem mem_flatMap_expandRange (rs : List (Nat × Nat)) (c : Nat) :
    c ∈ rs.flatMap expandRange ↔ inRanges rs c = true := by
  simp [inRanges, mem_expandRange]

theorem isNameStartChar_iff (c : Nat) : isNameStartChar c = true ↔ Spec.NameStartChar c := by
  simp [isNameStartChar, inRanges, nameStartRanges, Spec.NameStartChar]; omega

theorem isNameChar_iff (c : Nat) : isNameChar c = true ↔ Spec.NameChar c := by
  have := isNameStartChar_iff c
  simp only [isNameStartChar, inRanges] at this
  simp only [isNameChar, inRanges, nameRanges, List.any_append, Bool.or_eq_true, this,
    Spec.NameChar]
  by_cases h : Spec.NameStartChar c
  · simp [h]
  · simp [h]; omega

theorem isSpaceChar_iff (c : Nat) : isSpaceChar c = true ↔ Spec.S c := by
  simp [isSpaceChar, spaceChars, Spec.S]

theorem isValidChar_iff (c : Nat) : isValidChar c = true ↔ Spec.Char11 c := by
  simp [isValidChar, inRanges, validRanges, Spec.Char11]; omega

theorem isContentChar_iff (c : Nat) : isContentChar c = true ↔ Spec.ContentChar c := by
  have := isValidChar_iff c
  simp only [isContentChar, Bool.and_eq_true, this, Spec.ContentChar]
  by_cases h : Spec.Char11 c
  · simp [h, specialChars]
  · simp [h]

/-! The list form and the range form. -/

theorem newXmlChar_isNameStartChar (c : Nat) :
    newXmlChar.isNameStartChar c = isNameStartChar c := by
  rw [Bool.eq_iff_iff]
  simp only [XmlChar.isNameStartChar, XmlChar.exists_iff, newXmlChar, mem_flatMap_expandRange,
    isNameStartChar]

theorem newXmlChar_isNameChar (c : Nat) : newXmlChar.isNameChar c = isNameChar c := by
  rw [Bool.eq_iff_iff]
  simp only [XmlChar.isNameChar, XmlChar.exists_iff, newXmlChar, mem_flatMap_expandRange,
    isNameChar]

theorem newXmlChar_isSpaceChar (c : Nat) : newXmlChar.isSpaceChar c = isSpaceChar c := by
  rw [Bool.eq_iff_iff]
  simp [XmlChar.isSpaceChar, XmlChar.exists_iff, newXmlChar, isSpaceChar]

theorem newXmlChar_isValidChar (c : Nat) : newXmlChar.isValidChar c = isValidChar c := by
  rw [Bool.eq_iff_iff]
  simp only [XmlChar.isValidChar, XmlChar.exists_iff, newXmlChar, List.mem_filter,
    mem_flatMap_expandRange, isValidChar, Bool.and_eq_true]

theorem newXmlChar_isContentChar (c : Nat) : newXmlChar.isContentChar c = isContentChar c := by
  have hv := newXmlChar_isValidChar c
  simp only [XmlChar.isValidChar] at hv
  simp only [XmlChar.isContentChar, hv, isContentChar]
  congr 2
  rw [Bool.eq_iff_iff]
  simp [XmlChar.exists_iff, newXmlChar]

end GoVtd
