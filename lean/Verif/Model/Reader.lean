import Verif.Model.Common

/-!
# Package `reader`
-/

namespace GoVtd

/-- Which of the two readers a `Reader` value is. -/
inductive ReaderKind where
  | utf8 | ascii
  deriving DecidableEq, Repr

/-- `Utf8Reader` (`vtdxml/reader/utf8_reader.go:9-13`) and `AsciiReader`
(`vtdxml/reader/ascii_reader.go:9-13`) have the same fields. -/
structure Reader where
  kind : ReaderKind
  xmlDoc : List UInt8
  offset : Int
  endOffset : Int
  deriving DecidableEq, Repr

namespace Reader

/-- `NewUtf8Reader`, `vtdxml/reader/utf8_reader.go:15-30`. `none` is the nil slice. -/
def newUtf8 (xmlDoc : Option (List UInt8)) (offset endOffset : Int) : Except GoErr Reader :=
  match xmlDoc with
  | none => .error (newInvalidArgumentError "xmlDoc" CannotBeNil none)
  | some doc =>
    if offset < 0 then .error (newInvalidArgumentError "offset" IndexOutOfRange none)
    else if endOffset < 0 ∨ endOffset > doc.length then
      .error (newInvalidArgumentError "endOffset" IndexOutOfRange none)
    else .ok { kind := .utf8, xmlDoc := doc, offset := offset, endOffset := endOffset }

/-- `NewAsciiReader`, `vtdxml/reader/ascii_reader.go:15-30`. -/
def newAscii (xmlDoc : Option (List UInt8)) (offset endOffset : Int) : Except GoErr Reader :=
  match xmlDoc with
  | none => .error (newInvalidArgumentError "xmlDoc" CannotBeNil none)
  | some doc =>
    if offset < 0 then .error (newInvalidArgumentError "offset" IndexOutOfRange none)
    else if endOffset < 0 ∨ endOffset ≥ doc.length then
      .error (newInvalidArgumentError "endOffset" IndexOutOfRange none)
    else .ok { kind := .ascii, xmlDoc := doc, offset := offset, endOffset := endOffset }

/-- `isUTF8` (`vtdxml/reader/utf8_reader.go:83-85`, `unicode.MaxRune` is `0x10FFFF`) and
`isASCII` (`vtdxml/reader/ascii_reader.go:83-85`, `unicode.MaxASCII` is `0x7F`). -/
def accepts : ReaderKind → UInt8 → Bool
  | .utf8, ch => decide (ch.toNat ≤ 0x10FFFF)
  | .ascii, ch => decide (ch.toNat ≤ 0x7F)

/-- Message of the error for a refused byte: `vtdxml/reader/utf8_reader.go:39`,
`vtdxml/reader/ascii_reader.go:39`. -/
def refusal : ReaderKind → String
  | .utf8 => "invalid UTF-8 character"
  | .ascii => "invalid ASCII character"

/-- `GetChar`: `vtdxml/reader/utf8_reader.go:32-42`, `vtdxml/reader/ascii_reader.go:32-42`. -/
def getChar : M Reader Nat := do
  let r ← M.get
  if r.offset ≥ r.endOffset then M.raise (newEOFError XmlIncomplete)
  else do
    let ch ← M.index r.xmlDoc r.offset
    M.modify fun r => { r with offset := r.offset + 1 }
    if accepts r.kind ch then pure ch.toNat
    else M.raise (newParseError (refusal r.kind) none none)

/-- `GetLongCharAt`: `vtdxml/reader/utf8_reader.go:44-50`,
`vtdxml/reader/ascii_reader.go:44-50`. -/
def getLongCharAt (offset : Int) : M Reader (BitVec 64) := do
  let r ← M.get
  let ch ← M.index r.xmlDoc offset
  if ch = ch% '\r' then do
    let ch2 ← M.index r.xmlDoc (offset + 1)
    if ch2 = ch% '\n' then pure ((2#64 <<< 32) ||| ch% '\n')
    else pure ((1#64 <<< 32) ||| BitVec.ofNat 64 ch.toNat)
  else pure ((1#64 <<< 32) ||| BitVec.ofNat 64 ch.toNat)

/-- `GetCharAt`: `vtdxml/reader/utf8_reader.go:52-54`, `vtdxml/reader/ascii_reader.go:70-72`. -/
def getCharAt (offset : Int) : M Reader Nat := do
  let r ← M.get
  let ch ← M.index r.xmlDoc offset
  pure ch.toNat

/-- `SkipChar`: `vtdxml/reader/utf8_reader.go:56-63`, `vtdxml/reader/ascii_reader.go:52-59`. -/
def skipChar (ch : Nat) : M Reader Bool := do
  let r ← M.get
  let b ← M.index r.xmlDoc r.offset
  if ch = b.toNat then do
    M.modify fun r => { r with offset := r.offset + 1 }
    pure true
  else pure false

/-- `SkipCharSeq`: `vtdxml/reader/utf8_reader.go:65-72`, `vtdxml/reader/ascii_reader.go:61-68`.
The Go string is given as the list of its characters. -/
def skipCharSeq : List Nat → M Reader Bool
  | [] => pure true
  | ch :: seq => do
    let b ← skipChar ch
    if b then skipCharSeq seq else pure false

/-- `GetOffset`: `vtdxml/reader/utf8_reader.go:74-76`, `vtdxml/reader/ascii_reader.go:74-76`. -/
def getOffset (r : Reader) : Int := r.offset

/-- `SetOffset`: `vtdxml/reader/utf8_reader.go:78-80`, `vtdxml/reader/ascii_reader.go:78-80`. -/
def setOffset (offset : Int) (r : Reader) : Reader := { r with offset := offset }

end Reader

end GoVtd
