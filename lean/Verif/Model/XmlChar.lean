import Verif.Model.Buffer

/-!
# Package `common`: `XmlChar`

The Go type holds explicit lists of code points, filled range by range, and decides
membership by linear search. The model keeps the tables of ranges and has both forms: the
expanded lists (`XmlChar`, as in Go) and the range test (`inRanges`) that the parser model
uses for evaluation. `Verif/Proofs/XmlChar.lean` proves that they agree.
-/

namespace GoVtd

/-- Ranges of valid characters, `vtdxml/common/xml_char.go:23`. -/
def validRanges : List (Nat × Nat) := [(0x1, 0xD7FF), (0xE000, 0xFFFD), (0x10000, 0x10FFFF)]

/-- Space characters, `vtdxml/common/xml_char.go:35`. -/
def spaceChars : List Nat := [0x20, 0x9, 0xD, 0xA]

/-- Name start ranges, `vtdxml/common/xml_char.go:40-44`. -/
def nameStartRanges : List (Nat × Nat) :=
  [(ch% ':', ch% ':'), (ch% 'A', ch% 'Z'), (ch% '_', ch% '_'), (ch% 'a', ch% 'z'),
   (0xC0, 0xD6), (0xD8, 0xF6), (0xF8, 0x2FF),
   (0x370, 0x37D), (0x37F, 0x1FFF), (0x200C, 0x200D), (0x2070, 0x218F), (0x2C00, 0x2FEF),
   (0x3001, 0xD7FF), (0xF900, 0xFDCF), (0xFDF0, 0xFFFD), (0x10000, 0xEFFFF)]

/-- Name ranges, `vtdxml/common/xml_char.go:52-57`. -/
def nameRanges : List (Nat × Nat) :=
  nameStartRanges ++ [(ch% '-', ch% '-'), (ch% '.', ch% '.'), (ch% '0', ch% '9'),
    (0xB7, 0xB7), (0x0300, 0x036F), (0x203F, 0x2040)]

/-- Special characters, `vtdxml/common/xml_char.go:64`. -/
def specialChars : List Nat := [ch% '<', ch% '&', ch% ']']

/-- The struct `XmlChar`, `vtdxml/common/xml_char.go:3-10` (`contentCharSlice` is never
filled or read). -/
structure XmlChar where
  validCharSlice : List Nat
  spaceCharSlice : List Nat
  nameCharSlice : List Nat
  nameStartCharSlice : List Nat
  specialCharSlice : List Nat

/-- Inner loop `for j := i[0]; j <= i[1]; j++`, `vtdxml/common/xml_char.go:25,46,59`. -/
def expandRange (i : Nat × Nat) : List Nat := List.range' i.1 (i.2 + 1 - i.1)

/-- `NewXmlChar`, `vtdxml/common/xml_char.go:12-69`. The filter is the `continue` of
lines 27-29. -/
def newXmlChar : XmlChar where
  validCharSlice := (validRanges.flatMap expandRange).filter fun j =>
    !((j ≥ 0xD800 && j ≤ 0xDFFF) || j == 0xFFFE || j == 0xFFFF)
  spaceCharSlice := spaceChars
  nameStartCharSlice := nameStartRanges.flatMap expandRange
  nameCharSlice := nameRanges.flatMap expandRange
  specialCharSlice := specialChars

namespace XmlChar

/-- `exists`, `vtdxml/common/xml_char.go:91-98`. -/
def «exists» (arr : List Nat) (ch : Nat) : Bool :=
  match arr with
  | [] => false
  | i :: rest => if i = ch then true else «exists» rest ch

/-- `IsNameStartChar`, `vtdxml/common/xml_char.go:71-73`. -/
def isNameStartChar (x : XmlChar) (ch : Nat) : Bool := «exists» x.nameStartCharSlice ch

/-- `IsSpaceChar`, `vtdxml/common/xml_char.go:75-77`. -/
def isSpaceChar (x : XmlChar) (ch : Nat) : Bool := «exists» x.spaceCharSlice ch

/-- `IsValidChar`, `vtdxml/common/xml_char.go:79-81`. -/
def isValidChar (x : XmlChar) (ch : Nat) : Bool := «exists» x.validCharSlice ch

/-- `IsNameChar`, `vtdxml/common/xml_char.go:83-85`. -/
def isNameChar (x : XmlChar) (ch : Nat) : Bool := «exists» x.nameCharSlice ch

/-- `IsContentChar`, `vtdxml/common/xml_char.go:87-89`. -/
def isContentChar (x : XmlChar) (ch : Nat) : Bool :=
  !«exists» x.specialCharSlice ch && «exists» x.validCharSlice ch

end XmlChar

/-- Membership in a table of ranges. -/
def inRanges (rs : List (Nat × Nat)) (ch : Nat) : Bool :=
  rs.any fun i => decide (i.1 ≤ ch) && decide (ch ≤ i.2)

/-- Range form of `IsNameStartChar`, `vtdxml/common/xml_char.go:39-49,71-73`. -/
def isNameStartChar (ch : Nat) : Bool := inRanges nameStartRanges ch

/-- Range form of `IsNameChar`, `vtdxml/common/xml_char.go:51-62,83-85`. -/
def isNameChar (ch : Nat) : Bool := inRanges nameRanges ch

/-- Range form of `IsSpaceChar`, `vtdxml/common/xml_char.go:34-37,75-77`. -/
def isSpaceChar (ch : Nat) : Bool := spaceChars.contains ch

/-- Range form of `IsValidChar`, `vtdxml/common/xml_char.go:22-32,79-81`. -/
def isValidChar (ch : Nat) : Bool :=
  inRanges validRanges ch &&
    !((decide (ch ≥ 0xD800) && decide (ch ≤ 0xDFFF)) || ch == 0xFFFE || ch == 0xFFFF)

/-- Range form of `IsContentChar`, `vtdxml/common/xml_char.go:64-66,87-89`. -/
def isContentChar (ch : Nat) : Bool := !specialChars.contains ch && isValidChar ch

end GoVtd
