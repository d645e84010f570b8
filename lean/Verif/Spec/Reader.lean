import Verif.Model.Reader
import Verif.Spec.Outcome

/-!
# What a reader should deliver
-/

namespace GoVtd

/-- The outcomes of `k` successive calls of `GetChar`, whatever each of them returns, and
the reader afterwards. (A call that panics or does not return ends the sequence.) -/
def getChars : Nat → Reader → List (Outcome Nat) × Reader
  | 0, r => ([], r)
  | k + 1, r =>
    match Reader.getChar r with
    | .ok c r' => let (os, r'') := getChars k r'; (.value c :: os, r'')
    | .err e r' => let (os, r'') := getChars k r'; (.error e :: os, r'')
    | .panic => ([.panic], r)
    | .diverge => ([.noReturn], r)

/-- The bytes `doc[offset:endOffset]`. -/
def window (doc : List UInt8) (offset endOffset : Nat) : List UInt8 :=
  (doc.take endOffset).drop offset

/-- What a UTF-8 reader should return for a byte. -/
def utf8Outcome (b : UInt8) : Outcome Nat := .value b.toNat

/-- What an ASCII reader should return for a byte. -/
def asciiOutcome (b : UInt8) : Outcome Nat :=
  if b.toNat ≤ 0x7F then .value b.toNat
  else .error (newParseError "invalid ASCII character" none none)

/-- The end-of-file error. -/
def eofOutcome : Outcome Nat := .error (newEOFError "XML document incomplete")

/-- Number of leading positions in which the characters and the bytes agree. -/
def commonPrefix : List Nat → List UInt8 → Nat
  | c :: cs, b :: bs => if c = b.toNat then commonPrefix cs bs + 1 else 0
  | _, _ => 0

/-- A character with its width, as `GetLongCharAt` packs them. -/
def packChar (width c : Nat) : BitVec 64 := BitVec.ofNat 64 (width * 2 ^ 32 + c)

end GoVtd
