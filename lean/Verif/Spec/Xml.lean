/-!
# XML character productions

The productions of the W3C recommendation, written as predicates on code points,
independently of the tables in the Go code.
-/

namespace GoVtd.Spec

/-- XML 1.0 (fifth edition) and XML 1.1, production [4]. -/
def NameStartChar (c : Nat) : Prop :=
  c = 0x3A ∨ (0x41 ≤ c ∧ c ≤ 0x5A) ∨ c = 0x5F ∨ (0x61 ≤ c ∧ c ≤ 0x7A) ∨
  (0xC0 ≤ c ∧ c ≤ 0xD6) ∨ (0xD8 ≤ c ∧ c ≤ 0xF6) ∨ (0xF8 ≤ c ∧ c ≤ 0x2FF) ∨
  (0x370 ≤ c ∧ c ≤ 0x37D) ∨ (0x37F ≤ c ∧ c ≤ 0x1FFF) ∨ (0x200C ≤ c ∧ c ≤ 0x200D) ∨
  (0x2070 ≤ c ∧ c ≤ 0x218F) ∨ (0x2C00 ≤ c ∧ c ≤ 0x2FEF) ∨ (0x3001 ≤ c ∧ c ≤ 0xD7FF) ∨
  (0xF900 ≤ c ∧ c ≤ 0xFDCF) ∨ (0xFDF0 ≤ c ∧ c ≤ 0xFFFD) ∨ (0x10000 ≤ c ∧ c ≤ 0xEFFFF)

/-- Production [4a]. -/
def NameChar (c : Nat) : Prop :=
  NameStartChar c ∨ c = 0x2D ∨ c = 0x2E ∨ (0x30 ≤ c ∧ c ≤ 0x39) ∨ c = 0xB7 ∨
  (0x300 ≤ c ∧ c ≤ 0x36F) ∨ (0x203F ≤ c ∧ c ≤ 0x2040)

/-- Production [3], white space. -/
def S (c : Nat) : Prop := c = 0x20 ∨ c = 0x9 ∨ c = 0xD ∨ c = 0xA

/-- XML 1.1, production [2]. -/
def Char11 (c : Nat) : Prop :=
  (0x1 ≤ c ∧ c ≤ 0xD7FF) ∨ (0xE000 ≤ c ∧ c ≤ 0xFFFD) ∨ (0x10000 ≤ c ∧ c ≤ 0x10FFFF)

/-- XML 1.0, production [2]. -/
def Char10 (c : Nat) : Prop :=
  c = 0x9 ∨ c = 0xA ∨ c = 0xD ∨ (0x20 ≤ c ∧ c ≤ 0xD7FF) ∨ (0xE000 ≤ c ∧ c ≤ 0xFFFD) ∨
  (0x10000 ≤ c ∧ c ≤ 0x10FFFF)

/-- `Char11` without `<`, `&` and `]`. -/
def ContentChar (c : Nat) : Prop := Char11 c ∧ c ≠ 0x3C ∧ c ≠ 0x26 ∧ c ≠ 0x5D

end GoVtd.Spec
