import Verif.Model.Reader

/-!
# Package `parser`: state, character access, writing of records (`common.go`)

Offsets, lengths and depths are mathematical integers. A window that passes
`decideEncoding` ends below `2^31`, so no Go `int` computed from them wraps; the values
packed into 64-bit words are computed with `BitVec 64`.
-/

namespace GoVtd

/-- `State`, `vtdxml/parser/common.go:11-31`. -/
inductive PState where
  | ltSeen | tagStart | tagEnd | attrName | attrVal | text | docStart | docEnd | piTag
  | piVal | decAttrName | startComment | endComment | cdata | docType | piEnd | invalid
  deriving DecidableEq, Repr

/-- Fields of `VtdParser` fixed by the constructor (`vtdxml/parser/vtd_parser.go:37-59`).
`lcDepth` and `bufferReuse` are not modelled: nothing reads them. `matchFuel` is not in
the Go code: it is the number of iterations the model grants to the loop of `matchUrl`,
which does not always end; every theorem holds for all its values or names it. -/
structure ParserCfg where
  xmlDoc : List UInt8
  docOffset : Int
  endOffset : Int
  length : Int
  docLength : Int
  nsAware : Bool
  shallowDepth : Bool
  matchFuel : Nat
  deriving DecidableEq, Repr

/-- Fields of `VtdParser` about the encoding. -/
structure ParserEnc where
  encoding : Int
  increment : Int
  singleByteEncoding : Bool
  bomDetected : Bool
  mustUtf8 : Bool
  deriving DecidableEq, Repr

/-- Fields of `VtdParser` about the attributes of the current element. -/
structure ParserAttr where
  attrCount : Int
  prefixedAttCount : Int
  attrNameSlice : List (BitVec 64)
  prefixedAttrNameSlice : List (BitVec 64)
  prefixUrlSlice : List Int
  isNs : Bool
  defaultNs : Bool
  isXml : Bool
  currentElementRecord : BitVec 64
  deriving DecidableEq, Repr

/-- Fields of `VtdParser` that hold the result: records and location caches.
In shallow mode Go leaves `l4Buffer` and `l5Buffer` nil; nothing touches them there, and
the model keeps unused empty buffers. -/
structure ParserOut where
  vtdBuffer : FastLongBuffer
  l1Buffer : FastLongBuffer
  l2Buffer : FastLongBuffer
  l3Buffer : FastLongBuffer
  l4Buffer : FastLongBuffer
  l5Buffer : FastLongBuffer
  rootIndex : Int
  lastL1Index : Int
  lastL2Index : Int
  lastL3Index : Int
  lastL4Index : Int
  lastDepth : Int
  deriving DecidableEq, Repr

/-- Namespace buffers of `VtdParser`. -/
structure ParserNs where
  nsBuffer1 : FastIntBuffer
  nsBuffer2 : FastLongBuffer
  nsBuffer3 : FastLongBuffer
  deriving DecidableEq, Repr

/-- `VtdParser`, `vtdxml/parser/vtd_parser.go:37-59`, with its fields grouped. `lastChar` is
not modelled: it is written in `nextChar` and never read. -/
structure Parser where
  cfg : ParserCfg
  enc : ParserEnc
  rd : Reader
  offset : Int
  lastOffset : Int
  length1 : Int
  length2 : Int
  depth : Int
  vtdDepth : Int
  currentChar : Nat
  helper : Bool
  ws : Bool
  tagStack : List (BitVec 64)
  at_ : ParserAttr
  out : ParserOut
  ns : ParserNs
  deriving DecidableEq, Repr

/-! Constants, `vtdxml/parser/common.go:33-44`. -/

def maxTokenLength : Int := 0xFFFFF
def maxDepth : Int := 254
def maxPrefixLength : Int := 0x1FF
def maxQnameLength : Int := 0x7FF
def XMLNS1998 : String := "http://www.w3.org/XML/1998/namespace"
def XMLNS2000 : String := "http://www.w3.org/2000/xmlns"

/-- `int(int32(x))` of an `int64`. -/
def low32 (x : BitVec 64) : Int := (x.setWidth 32).toInt

/-- `int(int32(x >> 32))` of an `int64`. -/
def high32 (x : BitVec 64) : Int := ((x.sshiftRight 32).setWidth 32).toInt

/-- Go `(a << k) | b` on `int`. -/
def shlOr (a : Int) (k : Nat) (b : Int) : Int :=
  ((BitVec.ofInt 64 a <<< k) ||| BitVec.ofInt 64 b).toInt

namespace Parser

/-! ## Access to the components -/

/-- A call on `p.reader`. -/
def onRd {α : Type} (m : M Reader α) : M Parser α :=
  M.zoom (·.rd) (fun r p => { p with rd := r }) m

/-- A call on `p.vtdBuffer`. -/
def onVtd {α : Type} (m : M FastLongBuffer α) : M Parser α :=
  M.zoom (·.out.vtdBuffer) (fun b p => { p with out := { p.out with vtdBuffer := b } }) m

/-- A call on `p.l1Buffer`. -/
def onL1 {α : Type} (m : M FastLongBuffer α) : M Parser α :=
  M.zoom (·.out.l1Buffer) (fun b p => { p with out := { p.out with l1Buffer := b } }) m

/-- A call on `p.l2Buffer`. -/
def onL2 {α : Type} (m : M FastLongBuffer α) : M Parser α :=
  M.zoom (·.out.l2Buffer) (fun b p => { p with out := { p.out with l2Buffer := b } }) m

/-- A call on `p.l3Buffer`. -/
def onL3 {α : Type} (m : M FastLongBuffer α) : M Parser α :=
  M.zoom (·.out.l3Buffer) (fun b p => { p with out := { p.out with l3Buffer := b } }) m

/-- A call on `p.l4Buffer`. -/
def onL4 {α : Type} (m : M FastLongBuffer α) : M Parser α :=
  M.zoom (·.out.l4Buffer) (fun b p => { p with out := { p.out with l4Buffer := b } }) m

/-- A call on `p.l5Buffer`. -/
def onL5 {α : Type} (m : M FastLongBuffer α) : M Parser α :=
  M.zoom (·.out.l5Buffer) (fun b p => { p with out := { p.out with l5Buffer := b } }) m

/-- A call on `p.nsBuffer1`. -/
def onNs1 {α : Type} (m : M FastIntBuffer α) : M Parser α :=
  M.zoom (·.ns.nsBuffer1) (fun b p => { p with ns := { p.ns with nsBuffer1 := b } }) m

/-- A call on `p.nsBuffer2`. -/
def onNs2 {α : Type} (m : M FastLongBuffer α) : M Parser α :=
  M.zoom (·.ns.nsBuffer2) (fun b p => { p with ns := { p.ns with nsBuffer2 := b } }) m

/-- A call on `p.nsBuffer3`. -/
def onNs3 {α : Type} (m : M FastLongBuffer α) : M Parser α :=
  M.zoom (·.ns.nsBuffer3) (fun b p => { p with ns := { p.ns with nsBuffer3 := b } }) m

/-- `p.xmlDoc[i]`. -/
def docByte (i : Int) : M Parser UInt8 := do
  let p ← M.get
  M.index p.cfg.xmlDoc i

/-- `p.xmlDoc[i] == c`. -/
def docIs (i : Int) (c : UInt8) : M Parser Bool := do
  let b ← docByte i
  pure (b == c)

/-- Iterations granted to loops that read the document: each iteration consumes at least
one byte, so this is never reached (`Verif/Proofs/Total.lean`). -/
def loopFuel (p : Parser) : Nat := p.cfg.xmlDoc.length + 2

/-! ## `common.go` -/

/-- `setOffset`, `vtdxml/parser/common.go:48-52`. -/
def setOffset (offset : Int) : M Parser Unit :=
  M.modify fun p => { p with rd := p.rd.setOffset offset, lastOffset := p.offset, offset := offset }

/-- `getChar`, `vtdxml/parser/common.go:54-61`. -/
def getChar : M Parser Nat := do
  let ch ← onRd Reader.getChar
  M.modify fun p => { p with offset := p.rd.getOffset }
  pure ch

/-- `skipChar`, `vtdxml/parser/common.go:63-67`. -/
def skipChar (ch : Nat) : M Parser Bool := do
  let skipped ← onRd (Reader.skipChar ch)
  M.modify fun p => { p with offset := p.rd.getOffset }
  pure skipped

/-- `skipCharSeq`, `vtdxml/parser/common.go:69-73`. -/
def skipCharSeq (seq : List Nat) : M Parser Bool := do
  let skipped ← onRd (Reader.skipCharSeq seq)
  M.modify fun p => { p with offset := p.rd.getOffset }
  pure skipped

/-- `strings.ToUpper` on one ASCII character. -/
def toUpperChar (c : Nat) : Nat := if ch% 'a' ≤ c ∧ c ≤ ch% 'z' then c - 32 else c

/-- `skipCharSeqIgnoreCase`, `vtdxml/parser/common.go:77-99`. -/
def skipCharSeqIgnoreCase : List Nat → M Parser Bool
  | [] => pure true
  | c :: seq => do
    let skipped ← (skipChar c ||! skipChar (toUpperChar c))
    if skipped then skipCharSeqIgnoreCase seq else pure false

/-- `nextChar`, `vtdxml/parser/common.go:103-111`. The write to `lastChar` is not
modelled: nothing reads it. -/
def nextChar : M Parser Unit := do
  let ch ← getChar
  M.modify fun p => { p with currentChar := ch }

/-- Loop of `nextCharAfterWs`, `vtdxml/parser/common.go:116-123`. -/
def nextCharAfterWsLoop : Nat → M Parser Unit
  | 0 => M.diverge
  | fuel + 1 => do
    nextChar
    let p ← M.get
    if isSpaceChar p.currentChar then nextCharAfterWsLoop fuel else pure ()

/-- `nextCharAfterWs`, `vtdxml/parser/common.go:115-124`. -/
def nextCharAfterWs : M Parser Unit := do
  let p ← M.get
  nextCharAfterWsLoop p.loopFuel

/-- The 64-bit record `writeVtd` appends, `vtdxml/parser/common.go:128-131`. -/
def vtdRecord (tokenType : Token) (offset length depth : Int) : BitVec 64 :=
  let a := BitVec.ofNat 64 tokenType.code <<< 28
  let b := (a ||| ((BitVec.ofInt 64 depth &&& 0xff#64) <<< 20) ||| BitVec.ofInt 64 length) <<< 32
  b ||| BitVec.ofInt 64 offset

/-- `writeVtd`, `vtdxml/parser/common.go:127-132`. -/
def writeVtd (tokenType : Token) (offset length depth : Int) : M Parser Unit :=
  onVtd (Paged.append (vtdRecord tokenType offset length depth))

/-- `int64((index << 32) | 0xFFFF)`, the location-cache entry of an element without
children (`vtdxml/parser/common.go:149` and its copies, `vtdxml/parser/parse.go:88-100`). -/
def lcLeaf (index : Int) : BitVec 64 := (BitVec.ofInt 64 index <<< 32) ||| 0xFFFF#64

/-- `int64((index << 32) + child)`, the entry of an element whose first child is entry
`child` of the next cache (`vtdxml/parser/common.go:172,195,214,232`). -/
def lcEntry (index child : Int) : BitVec 64 := (BitVec.ofInt 64 index <<< 32) + BitVec.ofInt 64 child

/-- The branch `if p.lastDepth == d { p.l<d>Buffer.Append(leaf) }` for one level `d`. -/
def flushLeaf (d : Int) : M Parser Unit := do
  let p ← M.get
  if d = 1 then onL1 (Paged.append (lcLeaf p.out.lastL1Index))
  else if d = 2 then onL2 (Paged.append (lcLeaf p.out.lastL2Index))
  else if d = 3 then onL3 (Paged.append (lcLeaf p.out.lastL3Index))
  else if d = 4 then onL4 (Paged.append (lcLeaf p.out.lastL4Index))
  else pure ()

/-- `writeVtdL5`, `vtdxml/parser/common.go:135-241`. The chains `else if p.lastDepth == d`
test exactly the levels at least the new depth, and `depth - 1`. -/
def writeVtdL5 (tokenType : Token) (offset length depth : Int) : M Parser Unit := do
  writeVtd tokenType offset length depth
  let p ← M.get
  let last := p.out.vtdBuffer.getSize - 1
  if depth = 0 then M.modify fun p => { p with out := { p.out with rootIndex := last } }
  else if depth = 1 then do
    flushLeaf p.out.lastDepth
    M.modify fun p => { p with out := { p.out with lastL1Index := last, lastDepth := 1 } }
  else if depth = 2 then do
    if p.out.lastDepth = 1 then
      onL1 (Paged.append (lcEntry p.out.lastL1Index p.out.l2Buffer.getSize))
    else flushLeaf p.out.lastDepth
    M.modify fun p => { p with out := { p.out with lastL2Index := last, lastDepth := 2 } }
  else if depth = 3 then do
    if p.out.lastDepth = 2 then
      onL2 (Paged.append (lcEntry p.out.lastL2Index p.out.l3Buffer.getSize))
    else if p.out.lastDepth = 3 ∨ p.out.lastDepth = 4 then flushLeaf p.out.lastDepth
    else pure ()
    M.modify fun p => { p with out := { p.out with lastL3Index := last, lastDepth := 3 } }
  else if depth = 4 then do
    if p.out.lastDepth = 3 then
      onL3 (Paged.append (lcEntry p.out.lastL3Index p.out.l4Buffer.getSize))
    else if p.out.lastDepth = 4 then flushLeaf p.out.lastDepth
    else pure ()
    M.modify fun p => { p with out := { p.out with lastL4Index := last, lastDepth := 4 } }
  else if depth = 5 then do
    onL5 (Paged.append (BitVec.ofInt 64 last))
    let p ← M.get
    if p.out.lastDepth = 4 then
      onL4 (Paged.append (lcEntry p.out.lastL4Index (p.out.l5Buffer.getSize - 1)))
    else pure ()
    M.modify fun p => { p with out := { p.out with lastDepth := 5 } }
  else pure ()

/-- Loop of `writeVtdText`, `vtdxml/parser/common.go:247-253`, with the final write. -/
def writeVtdTextLoop : Nat → Token → Int → Int → Int → M Parser Unit
  | 0, _, _, _, _ => M.diverge
  | fuel + 1, tokenType, rOffset, j, depth =>
    if j > maxTokenLength then do
      writeVtd tokenType rOffset maxTokenLength depth
      writeVtdTextLoop fuel tokenType (rOffset + maxTokenLength) (j - maxTokenLength) depth
    else writeVtd tokenType rOffset j depth

/-- `writeVtdText`, `vtdxml/parser/common.go:244-257`. In the first branch `rOffset` starts
at 0, not at `offset`. -/
def writeVtdText (tokenType : Token) (offset length depth : Int) : M Parser Unit :=
  if length > maxTokenLength then
    writeVtdTextLoop (length.toNat + 1) tokenType 0 length depth
  else writeVtd tokenType offset length depth

/-- Line counting loops of `fmtCustomLine`, `vtdxml/parser/common.go:290-317`: `count`
iterations from `so` with step `step`; `isNl` tests for a line feed at an offset. -/
def lineLoop (isNl : Int → M Parser Bool) (step : Int) :
    Nat → Int → Int → Int → M Parser (Int × Int)
  | 0, _, lineNumber, lineOffset => pure (lineNumber, lineOffset)
  | count + 1, so, lineNumber, lineOffset => do
    let b ← isNl so
    if b then lineLoop isNl step count (so + step) (lineNumber + 1) so
    else lineLoop isNl step count (so + step) lineNumber lineOffset

/-- `fmtCustomLine`, `vtdxml/parser/common.go:286-319`: the pair of printed numbers. -/
def fmtCustomLine (offset : Int) : M Parser (Int × Int) := do
  let p ← M.get
  let so := p.cfg.docOffset
  if p.enc.encoding < FormatUtf16BE then do
    let (ln, lo) ← lineLoop (fun so => docIs so (ch% '\n')) 1 (offset - so).toNat so 0 0
    pure (ln + 1, offset - lo + 1)
  else if p.enc.encoding = FormatUtf16BE then do
    let (ln, lo) ← lineLoop (fun so => docIs (so + 1) (ch% '\n') &&! docIs so 0) 2
      ((offset - so) / 2).toNat so 0 0
    pure (ln + 1, (offset - lo) / 2 + 1)
  else do
    let (ln, lo) ← lineLoop (fun so => docIs so (ch% '\n') &&! docIs (so + 1) 0) 2
      ((offset - so) / 2).toNat so 0 0
    pure (ln + 1, (offset - lo) / 2 + 1)

/-- `fmtLine`, `vtdxml/parser/common.go:280-282`. -/
def fmtLine : M Parser (Int × Int) := do
  let p ← M.get
  fmtCustomLine p.offset

/-- `return erroring.NewParseError(msg, p.fmtLine(), nil)`. -/
def parseErr {α : Type} (msg : String) : M Parser α := do
  let l ← fmtLine
  M.raise (newParseError msg (some l) none)

/-- `return erroring.NewParseError(msg, p.fmtCustomLine(offset), nil)`. -/
def parseErrAt {α : Type} (msg : String) (offset : Int) : M Parser α := do
  let l ← fmtCustomLine offset
  M.raise (newParseError msg (some l) none)

/-- `writeVtdWithLengthCheck`, `vtdxml/parser/common.go:259-276`. -/
def writeVtdWithLengthCheck (tokenType : Token) (errMsg : String) : M Parser Unit := do
  let p ← M.get
  if p.enc.singleByteEncoding then
    if p.length1 > maxTokenLength then parseErr errMsg
    else writeVtd tokenType p.lastOffset p.length1 p.depth
  else
    if p.length1 > maxTokenLength * 2 then parseErr errMsg
    else writeVtd tokenType (p.lastOffset / 2) (p.length1 / 2) p.depth

/-- Loop of `getPrevOffset` for UTF-8, `vtdxml/parser/common.go:326-328`. -/
def prevOffsetLoop : Nat → Int → M Parser Int
  | 0, _ => M.diverge
  | fuel + 1, prevOffset => do
    let b ← docByte prevOffset
    if b &&& 0xc0 == 0x80 then prevOffsetLoop fuel (prevOffset - 1) else pure prevOffset

/-- `getPrevOffset`, `vtdxml/parser/common.go:322-344`. The encodings listed in the second
case are the constants `0..16` and `20..28`. -/
def getPrevOffset : M Parser Int := do
  let p ← M.get
  if p.enc.encoding = FormatUtf8 then prevOffsetLoop p.loopFuel p.offset
  else if (0 ≤ p.enc.encoding ∧ p.enc.encoding ≤ FormatIso885916) ∨
      (FormatWin1250 ≤ p.enc.encoding ∧ p.enc.encoding ≤ FormatWin1258) then pure (p.offset - 1)
  else if p.enc.encoding = FormatUtf16LE ∨ p.enc.encoding = FormatUtf16BE then do
    let b1 ← docByte p.offset
    let b2 ← docByte (p.offset + 1)
    let temp := b1.toNat * 256 + b2.toNat
    if temp < 0xd800 ∨ temp > 0xdfff then pure (p.offset - 2) else pure (p.offset - 4)
  else M.raise (newInternalError "unsupported encoding" none)

/-- `int32(b) == v` for a byte `b`. -/
def byteIs32 (b : UInt8) (v : Int) : Bool := (b.toNat : Int) == v

/-- `int32(p.xmlDoc[i]) == v`. -/
def docIs32 (i : Int) (v : Int) : M Parser Bool := do
  let b ← docByte i
  pure (byteIs32 b v)

/-- The first-bytes test of `decideEncoding`, `vtdxml/parser/common.go:347-394`. -/
def detectEncoding : M Parser Unit := do
  let p ← M.get
  let b ← docByte p.offset
  if byteIs32 b (-2) then do
    M.modify fun p => { p with enc := { p.enc with increment := 2 } }
    let t ← docIs32 (p.offset + 1) (-1)
    if t then
      M.modify fun p => { p with
        offset := p.offset + 2,
        enc := { p.enc with encoding := FormatUtf16BE, bomDetected := true } }
    else M.raise (newEncodingError "should be 0xFF 0xFE")
  else if byteIs32 b (-1) then do
    M.modify fun p => { p with enc := { p.enc with increment := 2 } }
    let t ← docIs32 (p.offset + 1) (-2)
    if t then
      M.modify fun p => { p with
        offset := p.offset + 2,
        enc := { p.enc with encoding := FormatUtf16LE, bomDetected := true } }
    else M.raise (newEncodingError "not UTF-16LE")
  else if byteIs32 b 0 then do
    let t ← (docIs32 (p.offset + 1) 0x3c &&! docIs32 (p.offset + 2) 0 &&!
      docIs32 (p.offset + 3) 0x3f)
    if t then
      M.modify fun p => { p with
        enc := { p.enc with encoding := FormatUtf16BE, increment := 2 } }
    else M.raise (newEncodingError "not UTF-16BE")
  else if byteIs32 b (-17) then do
    let t ← (docIs32 (p.offset + 1) (-69) &&! docIs32 (p.offset + 2) (-65))
    if t then
      M.modify fun p => { p with offset := p.offset + 3, enc := { p.enc with mustUtf8 := true } }
    else M.raise (newEncodingError "not UTF-8")
  else if byteIs32 b 0x3c then do
    let t ← (docIs32 (p.offset + 1) 0 &&! docIs32 (p.offset + 2) 0x3f &&!
      docIs32 (p.offset + 3) 0)
    if t then
      M.modify fun p => { p with
        enc := { p.enc with encoding := FormatUtf16LE, increment := 2 } }
    else pure ()
  else pure ()

/-- `decideEncoding`, `vtdxml/parser/common.go:346-416`. The size sum wraps at 64 bits. -/
def decideEncoding : M Parser Unit := do
  detectEncoding
  let p ← M.get
  if wrap64 (p.offset + p.cfg.docLength) ≥
      (if p.enc.encoding < FormatUtf16BE ∧ p.cfg.nsAware then 2 ^ 30 else 2 ^ 31) then
    M.raise (newInternalError
      (if p.enc.encoding < FormatUtf16BE ∧ p.cfg.nsAware then "file size too big >= 1GB"
       else "file size too big >= 2GB") none)
  else if p.enc.encoding ≥ FormatUtf16BE then
    M.modify fun p => { p with enc := { p.enc with singleByteEncoding := false } }
  else pure ()

/-- `p.xmlDoc[offset+0] == c0 && p.xmlDoc[offset+1] == c1 && ...`: the comparison chains of
`checkXmlPrefix` and `checkXmlnsPrefix`. -/
def docMatches : Int → List UInt8 → M Parser Bool
  | _, [] => pure true
  | offset, c :: cs => docIs offset c &&! docMatches (offset + 1) cs

/-- Each character followed, or preceded, by a zero byte. -/
def zeroAfter : List UInt8 → List UInt8
  | [] => []
  | c :: cs => c :: 0 :: zeroAfter cs

@[inherit_doc zeroAfter]
def zeroBefore : List UInt8 → List UInt8
  | [] => []
  | c :: cs => 0 :: c :: zeroBefore cs

/-- Common shape of `checkXmlPrefix` (`vtdxml/parser/common.go:421-447`, 4 and 8 as the
checked lengths) and `checkXmlnsPrefix` (`vtdxml/parser/common.go:452-488`, 5 and 10). -/
def checkPrefix (name : List UInt8) (len1 len2 : Int) (offset length : Int)
    (checkLength : Bool) : M Parser Bool := do
  let p ← M.get
  let valid ←
    if p.enc.encoding < FormatUtf16BE then docMatches offset name
    else if p.enc.encoding = FormatUtf16BE then docMatches offset (zeroBefore name)
    else docMatches offset (zeroAfter name)
  if valid && checkLength then
    pure (decide ((p.enc.encoding < FormatUtf16BE ∧ length = len1) ∨ length = len2))
  else pure valid

/-- `checkXmlPrefix`, `vtdxml/parser/common.go:421-447`. -/
def checkXmlPrefix (offset length : Int) (checkLength : Bool) : M Parser Bool :=
  checkPrefix (str% "xml") 4 8 offset length checkLength

/-- `checkXmlnsPrefix`, `vtdxml/parser/common.go:452-488`. -/
def checkXmlnsPrefix (offset length : Int) (checkLength : Bool) : M Parser Bool :=
  checkPrefix (str% "xmlns") 5 10 offset length checkLength

/-- The byte comparison loops `for ; j < n; j++ { if xmlDoc[a+j] != xmlDoc[b+j] { break } }`:
true when all `n` bytes are equal (`vtdxml/parser/common.go:509-517`,
`vtdxml/parser/process_attr_val.go:208-217,253-259`,
`vtdxml/parser/process_attr_name.go:117-122`, `vtdxml/parser/process_end_tag.go:15-19`). -/
def sameBytes : Nat → Int → Int → M Parser Bool
  | 0, _, _ => pure true
  | n + 1, a, b => do
    let x ← docByte a
    let y ← docByte b
    if x = y then sameBytes n (a + 1) (b + 1) else pure false

/-- Loop of `qualifyElement`, `vtdxml/parser/common.go:497-519`: `count` entries are left,
the next one is `count - 1`. The result is true when the function returned inside the loop.
`upVal`, `diff` and the offsets are `int32` computations. -/
def qualifyElementLoop (preLen preOs : Int) : Nat → M Parser Bool
  | 0 => pure false
  | i + 1 => do
    let upVal ← onNs3 (Paged.upper32At i)
    let p ← M.get
    let diff := ((upVal &&& 0xFFFF#32) - upVal.sshiftRight 16).toInt
    if diff = preLen then do
      let lowVal ← M.catchErr (do let l ← onNs3 (Paged.lower32At i); pure (some l))
        (fun _ => pure none)
      match lowVal with
      | none => pure true
      | some lowVal => do
        let os := (lowVal + upVal.sshiftRight 16).toInt + p.enc.increment
        let n := preLen - p.enc.increment
        if n < 0 then qualifyElementLoop preLen preOs i
        else do
          let same ← sameBytes n.toNat os preOs
          if same then pure true else qualifyElementLoop preLen preOs i
    else qualifyElementLoop preLen preOs i

/-- `qualifyElement`, `vtdxml/parser/common.go:494-525`. The mask has 15 hexadecimal
digits. -/
def qualifyElement : M Parser Unit := do
  let p ← M.get
  let preLen := (((p.at_.currentElementRecord &&& 0xFFFF00000000000#64).sshiftRight 48).setWidth 32).toInt
  let preOs := low32 p.at_.currentElementRecord
  let done ← qualifyElementLoop preLen preOs p.ns.nsBuffer3.getSize.toNat
  if done then pure ()
  else do
    let x ← checkXmlPrefix preOs preLen true
    if x then pure ()
    else parseErrAt "namespace qualification exception: element not qualified" preOs

/-- The two-way `writeVtdText` call that several process functions end with, e.g.
`vtdxml/parser/process_text.go:26-34`. -/
def writeText (tokenType : Token) : M Parser Unit := do
  let p ← M.get
  if p.enc.singleByteEncoding then writeVtdText tokenType p.lastOffset p.length1 p.depth
  else writeVtdText tokenType (p.lastOffset / 2) (p.length1 / 2) p.depth

/-- The two-way `writeVtd` call, e.g. `vtdxml/parser/process_pi_tag.go:22-30`. -/
def writeAt (tokenType : Token) (length : Int) : M Parser Unit := do
  let p ← M.get
  if p.enc.singleByteEncoding then writeVtd tokenType p.lastOffset length p.depth
  else writeVtd tokenType (p.lastOffset / 2) length p.depth

/-- `recordWhiteSpace`, `vtdxml/parser/common.go:529-541`. -/
def recordWhiteSpace : M Parser Unit := do
  let p ← M.get
  if p.depth > -1 then
    let length := p.offset - p.enc.increment - p.lastOffset
    if length ≠ 0 then
      if p.enc.singleByteEncoding then
        writeVtdText .characterData p.lastOffset length p.depth
      else writeVtdText .characterData (p.lastOffset / 2) (length / 2) p.depth
    else pure ()
  else pure ()

/-- The statement `if p.ws { if err := p.recordWhiteSpace(); err != nil { return err } }`. -/
def recordWsIfSet : M Parser Unit := do
  let p ← M.get
  if p.ws then recordWhiteSpace else pure ()

/-- `checkSeq` inside `entityIdentifier`, `vtdxml/parser/common.go:578-589`. -/
def entitySeq : List Nat → M Parser Unit
  | [] => pure ()
  | seqCh :: seq => do
    let ch ← getChar
    if ch ≠ seqCh then M.raise (newEntityError IllegalBuiltInEntity) else entitySeq seq

/-- One hexadecimal digit, `vtdxml/parser/common.go:609-614`. -/
def hexDigit (ch : Nat) : Option Nat :=
  if ch ≥ ch% '0' ∧ ch ≤ ch% '9' then some (ch - ch% '0')
  else if ch ≥ ch% 'a' ∧ ch ≤ ch% 'f' then some (ch - ch% 'a' + 10)
  else if ch ≥ ch% 'A' ∧ ch ≤ ch% 'F' then some (ch - ch% 'A' + 10)
  else none

/-- Hexadecimal loop of `entityIdentifier`, `vtdxml/parser/common.go:604-620`; `uint32`
arithmetic. -/
def entityHexLoop : Nat → Nat → M Parser Nat
  | 0, _ => M.diverge
  | fuel + 1, value => do
    let ch ← getChar
    match hexDigit ch with
    | some d => entityHexLoop fuel ((value * 16 + d) % 2 ^ 32)
    | none =>
      if ch = ch% ';' then pure value
      else M.raise (newEntityError "illegal char following &#x")

/-- Decimal loop of `entityIdentifier`, `vtdxml/parser/common.go:622-634`; `ch` is the
character already read. -/
def entityDecLoop : Nat → Nat → Nat → M Parser Nat
  | 0, _, _ => M.diverge
  | fuel + 1, ch, value =>
    if ch ≥ ch% '0' ∧ ch ≤ ch% '9' then do
      let ch' ← getChar
      entityDecLoop fuel ch' ((value * 10 + (ch - ch% '0')) % 2 ^ 32)
    else if ch = ch% ';' then pure value
    else M.raise (newEntityError "illegal char following &#x")

/-- `entityIdentifier`, `vtdxml/parser/common.go:576-687`. -/
def entityIdentifier : M Parser Nat := do
  let ch ← getChar
  if ch = ch% '#' then do
    let ch ← getChar
    let p ← M.get
    let value ← if ch = ch% 'x' then entityHexLoop p.loopFuel 0
      else entityDecLoop p.loopFuel ch 0
    if isValidChar value then pure value else M.raise (newEntityError InvalidChar)
  else if ch = ch% 'a' then do
    let ch2 ← getChar
    if ch2 = ch% 'm' then do entitySeq (str% "p;"); pure (ch% '&')
    else if ch2 = ch% 'p' then do entitySeq (str% "os;"); pure (ch% '\'')
    else M.raise (newEntityError IllegalBuiltInEntity)
  else if ch = ch% 'q' then do entitySeq (str% "uot;"); pure (ch% '"')
  else if ch = ch% 'g' ∨ ch = ch% 'l' then do
    entitySeq (str% "t;")
    if ch = ch% 'g' then pure (ch% '>') else pure (ch% '<')
  else M.raise (newEntityError "illegal entity character")

/-- `for p.skipChar(']') {}`: `vtdxml/parser/common.go:560`, `vtdxml/parser/process.go:49`,
`vtdxml/parser/process_cdata.go:18`. -/
def skipBrackets : Nat → M Parser Unit
  | 0 => M.diverge
  | fuel + 1 => do
    let s ← skipChar (ch% ']')
    if s then skipBrackets fuel else pure ()

/-- The `']'` case shared by `handleOtherTextChar` (`vtdxml/parser/common.go:557-566`) and
`getNextProcessStateFromChar` (`vtdxml/parser/process.go:47-53`). -/
def bracketText : M Parser Unit := do
  let p ← M.get
  skipBrackets p.loopFuel
  let s ← skipChar (ch% '>')
  if s then parseErr "]]> sequence in text content" else pure ()

/-- `handleOtherTextChar`, `vtdxml/parser/common.go:544-571`. -/
def handleOtherTextChar (ch : Nat) : M Parser Unit :=
  if ch = ch% '&' then do
    let ch2 ← entityIdentifier
    if isValidChar ch2 then pure () else parseErr InvalidCharInText
  else if ch = ch% ']' then bracketText
  else parseErr InvalidCharInText

end Parser

end GoVtd
