import Verif.Model.XmlChar

/-!
# Package `common`: tokens, masks, encodings and `IntHash`
-/

namespace GoVtd

/-- `Token`, `vtdxml/common/common.go:3-20`. -/
inductive Token where
  | startingTag | endingTag | attrName | attrNs | attrVal | characterData | comment
  | piName | piVal | decAttrName | decAttrVal | cdataVal | dtdVal | document
  deriving DecidableEq, Repr

/-- Numeric value of a token constant (`iota`), `vtdxml/common/common.go:5-20`. -/
def Token.code : Token → Nat
  | .startingTag => 0 | .endingTag => 1 | .attrName => 2 | .attrNs => 3 | .attrVal => 4
  | .characterData => 5 | .comment => 6 | .piName => 7 | .piVal => 8 | .decAttrName => 9
  | .decAttrVal => 10 | .cdataVal => 11 | .dtdVal => 12 | .document => 13

/-! Masks, `vtdxml/common/common.go:22-29`. -/

def MaskTokenType : BitVec 64 := 0xF000000000000000#64
def MaskTokenOffset : BitVec 64 := 0x000000003FFFFFFF#64
def MaskTokenQnLength : BitVec 64 := 0x000007FF00000000#64
def MaskTokenFullLength : BitVec 64 := 0x000FFFFF00000000#64
def MaskTokenPreLength : BitVec 64 := 0x000FF80000000000#64
def MaskTokenDepth : BitVec 64 := 0x0FF0000000000000#64

/-! `FormatEncoding`, `vtdxml/common/common.go:31-63`: an `int`; the constants the code
compares with. -/

def FormatAscii : Int := 0
def FormatIso88591 : Int := 1
def FormatIso885916 : Int := 16
def FormatUtf16BE : Int := 17
def FormatUtf16LE : Int := 18
def FormatUtf8 : Int := 19
def FormatWin1250 : Int := 20
def FormatWin1258 : Int := 28

/-- `determineHashWidth`, `vtdxml/common/int_hash.go:43-102`. -/
def determineHashWidth (i : Int) : Nat :=
  if i < 2 ^ 8 then 3
  else if i < 2 ^ 9 then 4
  else if i < 2 ^ 10 then 5
  else if i < 2 ^ 11 then 6
  else if i < 2 ^ 12 then 7
  else if i < 2 ^ 13 then 8
  else if i < 2 ^ 14 then 9
  else if i < 2 ^ 15 then 10
  else if i < 2 ^ 16 then 11
  else if i < 2 ^ 17 then 12
  else if i < 2 ^ 18 then 13
  else if i < 2 ^ 19 then 14
  else if i < 2 ^ 20 then 15
  else if i < 2 ^ 21 then 16
  else if i < 2 ^ 22 then 17
  else if i < 2 ^ 23 then 18
  else if i < 2 ^ 25 then 19
  else if i < 2 ^ 27 then 20
  else if i < 2 ^ 29 then 21
  else 22

/-- `IntHash`, `vtdxml/common/int_hash.go:13-17`. `storage` is created empty and never
filled; `storageCap` is the capacity it is created with. -/
structure IntHash where
  storage : List FastIntBuffer
  storageCap : Nat
  maxDepth : Nat
  hashWidth : Nat
  width : Nat
  mask : Nat
  deriving DecidableEq, Repr

/-- `WithSize`, `vtdxml/common/int_hash.go:19-27`. -/
def IntHash.withSize (size : Int) (h : IntHash) : IntHash :=
  let width := determineHashWidth size
  { h with width := width, hashWidth := 2 ^ width, storage := [], storageCap := 2 ^ width }

/-- `NewIntHash`, `vtdxml/common/int_hash.go:29-41`, with a list of `WithSize` options
(the only option there is). -/
def newIntHash (sizes : List Int) : IntHash :=
  sizes.foldl (fun h size => h.withSize size)
    { storage := [], storageCap := 1, maxDepth := 0, hashWidth := 1, width := 0, mask := 1 }

end GoVtd
