import Verif.Model.Nav
import Verif.Spec.Outcome

/-!
# What the string functions of the navigator should return
-/

namespace GoVtd

/-- The document the navigator is over. -/
def VtdNav.doc (n : VtdNav) : List UInt8 := n.xmlBuffer.buffer

/-- The encodings whose documents are read byte by byte: ASCII, ISO-8859-1, UTF-8. -/
def VtdNav.ByteEncoded (n : VtdNav) : Prop :=
  n.encoding = FormatAscii ∨ n.encoding = FormatIso88591 ∨ n.encoding = FormatUtf8

/-- A carriage return is shown as a newline. -/
def crToLf (b : UInt8) : UInt8 := if b = 13 then 10 else b

/-- The `length` bytes from `offset` on, with carriage returns shown as newlines. -/
def rangeText (doc : List UInt8) (offset length : Nat) : List UInt8 :=
  ((doc.drop offset).take length).map crToLf

/-- The five built-in entities and the text they stand for. -/
def builtinEntities : List (List UInt8 × UInt8) :=
  [(str% "&amp;", ch% '&'), (str% "&apos;", ch% '\''), (str% "&quot;", ch% '"'),
   (str% "&lt;", ch% '<'), (str% "&gt;", ch% '>')]

/-- Machine integers of 32 bits. -/
def Int32Range (x : Int) : Prop := -2 ^ 31 ≤ x ∧ x < 2 ^ 31

end GoVtd
