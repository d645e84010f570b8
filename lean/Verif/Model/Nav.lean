import Verif.Model.Reader

/-!
# Package `navigation`

`int32` results and cursor values are mathematical integers. They are wrapped where a
caller-chosen value can overflow (`ToStringAtRange`, `ToRawStringAtRange`) and not where
they are token indices or levels, which stay below the size of a buffer held in memory.
-/

namespace GoVtd

/-- `VtdNav`, `vtdxml/navigation/vtd_nav.go:29-41`. `xmlChar` is the constant table. -/
structure VtdNav where
  context : List Int
  rootIndex : Int
  offset : Int
  length : Int
  depth : Int
  encoding : Int
  nsAware : Bool
  atTerminal : Bool
  ln : Int
  xmlBuffer : UniByteBuffer
  vtdBuffer : FastLongBuffer
  l1Buffer : FastLongBuffer
  l2Buffer : FastLongBuffer
  l3Buffer : FastLongBuffer
  l1index : Int
  l2index : Int
  l3index : Int
  l2lower : Int
  l2upper : Int
  l3lower : Int
  l3upper : Int
  deriving DecidableEq, Repr

/-- `Direction`, `vtdxml/navigation/common.go:8-17`: any `int`; the six constants. -/
abbrev Direction := Int

def Direction.root : Direction := 0
def Direction.parent : Direction := 1
def Direction.firstChild : Direction := 2
def Direction.lastChild : Direction := 3
def Direction.nextSibling : Direction := 4
def Direction.prevSibling : Direction := 5

/-- `NewVtdNav`, `vtdxml/navigation/vtd_nav.go:43-77`. A negative `depth` panics in
`make` (line 62). -/
def newVtdNav (rootIndex offset length depth encoding : Int) (nsAware : Bool)
    (bytes : Option (List UInt8)) (vtdBuffer l1Buffer l2Buffer l3Buffer : FastLongBuffer) :
    Res Unit VtdNav :=
  if depth < 0 then .panic else
  match UniByteBuffer.new bytes with
  | .error e => .err e ()
  | .ok xmlBuffer => .ok
    { context := List.replicate depth.toNat (-1), rootIndex := rootIndex, offset := offset,
      length := length, depth := depth + 1, encoding := encoding, nsAware := nsAware,
      atTerminal := false, ln := 0, xmlBuffer := xmlBuffer, vtdBuffer := vtdBuffer,
      l1Buffer := l1Buffer, l2Buffer := l2Buffer, l3Buffer := l3Buffer, l1index := 0,
      l2index := 0, l3index := 0, l2lower := 0, l2upper := 0, l3lower := 0, l3upper := 0 } ()

namespace VtdNav

/-! Access to the components (Go method calls on the fields). -/

/-- A call on `n.vtdBuffer`. -/
def onVtd {α : Type} (m : M FastLongBuffer α) : M VtdNav α :=
  M.zoom (·.vtdBuffer) (fun b n => { n with vtdBuffer := b }) m

/-- A call on `n.l1Buffer`. -/
def onL1 {α : Type} (m : M FastLongBuffer α) : M VtdNav α :=
  M.zoom (·.l1Buffer) (fun b n => { n with l1Buffer := b }) m

/-- A call on `n.l2Buffer`. -/
def onL2 {α : Type} (m : M FastLongBuffer α) : M VtdNav α :=
  M.zoom (·.l2Buffer) (fun b n => { n with l2Buffer := b }) m

/-- A call on `n.xmlBuffer`. -/
def onXml {α : Type} (m : M UniByteBuffer α) : M VtdNav α :=
  M.zoom (·.xmlBuffer) (fun b n => { n with xmlBuffer := b }) m

/-- `n.context[i]`. -/
def ctx (i : Int) : M VtdNav Int := do
  let n ← M.get
  M.index n.context i

/-- `n.context[i] = v`. -/
def setCtx (i v : Int) : M VtdNav Unit := do
  let n ← M.get
  match setAt n.context i v with
  | some c => M.modify fun n => { n with context := c }
  | none => M.panic

/-- `GetCurrentIndex`, `vtdxml/navigation/common.go:19-34`. -/
def getCurrentIndex : M VtdNav Int := do
  let n ← M.get
  if n.atTerminal then pure n.ln
  else do
    let c0 ← ctx 0
    if c0 = -1 then pure 0
    else if c0 = 0 then pure n.rootIndex
    else if c0 < 0 ∨ c0 ≥ n.context.length then
      M.raise (newInternalError IndexOutOfRange none)
    else ctx c0

/-- `GetTokenType`, `vtdxml/navigation/common.go:36-43`. -/
def getTokenType (index : Int) : M VtdNav Int := do
  let val ← onVtd (Paged.longAt index)
  let res := (val &&& MaskTokenType) >>> 60
  pure ((res.setWidth 32 &&& 0xF#32).toInt)

/-- `GetTokenOffset`, `vtdxml/navigation/common.go:45-51`. -/
def getTokenOffset (index : Int) : M VtdNav Int := do
  let val ← onVtd (Paged.longAt index)
  pure ((val &&& MaskTokenOffset).setWidth 32).toInt

/-- `GetTokenDepth`, `vtdxml/navigation/common.go:53-63`. -/
def getTokenDepth (index : Int) : M VtdNav Int := do
  let val ← onVtd (Paged.longAt index)
  let res := (val &&& MaskTokenDepth) >>> 52
  if res ≠ 255#64 then pure (res.setWidth 32).toInt else pure (-1)

/-- The `for` loop of `GetTokenLength`, `vtdxml/navigation/common.go:99-115`. The
arguments are the loop variable, `length` and `tokenOffsetNew`; `depth == tokenDepthNew`,
`tokenType == tokenTypeNew` and `offset == 0` never change in the loop. -/
def tokenLengthLoop : Nat → Int → BitVec 64 → Int → M VtdNav (BitVec 64)
  | 0, _, _, _ => M.diverge
  | fuel + 1, i, length, tokenOffsetNew => do
    let n ← M.get
    if i < n.vtdBuffer.getSize ∧ tokenOffsetNew = 0 then do
      let val ← onVtd (Paged.longAt i)
      let length := length + ((val &&& MaskTokenFullLength) >>> 32)
      let _ ← getTokenOffset i
      let tokenOffsetNew := (((val &&& MaskTokenFullLength) >>> 32).setWidth 32).toInt
      tokenLengthLoop fuel (i + 1) length tokenOffsetNew
    else pure length

/-- `GetTokenLength`, `vtdxml/navigation/common.go:65-125`. -/
def getTokenLength (index : Int) : M VtdNav Int := do
  let tokenType ← getTokenType index
  let n ← M.get
  if tokenType = Token.attrName.code ∨ tokenType = Token.attrNs.code ∨
      tokenType = Token.startingTag.code then do
    let val ← onVtd (Paged.longAt index)
    if n.nsAware then
      let a := (val &&& MaskTokenQnLength) >>> 32
      let b := ((val &&& MaskTokenPreLength) >>> 32) <<< 5
      pure ((a ||| b).setWidth 32).toInt
    else pure (((val &&& MaskTokenQnLength) >>> 32).setWidth 32).toInt
  else if tokenType = Token.characterData.code ∨ tokenType = Token.cdataVal.code ∨
      tokenType = Token.comment.code then do
    let _ ← getTokenDepth index
    let length ← tokenLengthLoop ((n.vtdBuffer.getSize - index).toNat + 1) index 0 0
    pure (length.setWidth 32).toInt
  else do
    let val ← onVtd (Paged.longAt index)
    pure (((val &&& MaskTokenFullLength) >>> 32).setWidth 32).toInt

/-- `GetVtdBufferSize`, `vtdxml/navigation/common.go:136-138`. -/
def getVtdBufferSize (n : VtdNav) : Int := n.vtdBuffer.getSize

/-- `GetEncoding`, `vtdxml/navigation/common.go:140-142`. -/
def getEncoding (n : VtdNav) : Int := n.encoding

/-! ## `get_char_resolved.go` -/

/-- `decode`, `vtdxml/navigation/decode.go:3-6`: a stub. -/
def decode (_offset : Int) : M VtdNav Nat := pure 0

/-- `getCharUnit`, `vtdxml/navigation/get_char_resolved.go:140-177`. -/
def getCharUnit (offset : Int) : M VtdNav Nat := do
  let n ← M.get
  if n.encoding = FormatAscii ∨ n.encoding = FormatIso88591 ∨ n.encoding = FormatUtf8 then do
    let b ← onXml (UniByteBuffer.byteAt offset)
    pure b.toNat
  else if (n.encoding > FormatIso88591 ∧ n.encoding < FormatIso885916) ∨
      (n.encoding ≥ FormatWin1250 ∧ n.encoding ≤ FormatWin1258) then decode offset
  else do
    let b1 ← onXml (UniByteBuffer.byteAt (offset * 2))
    let b2 ← onXml (UniByteBuffer.byteAt (offset * 2 + 1))
    if n.encoding = FormatUtf16BE then pure (b1.toNat * 256 + b2.toNat)
    else pure (b2.toNat * 256 + b1.toNat)

/-- The three identical cases of `getChar` for ASCII, ISO-8859-1 and UTF-8,
`vtdxml/navigation/get_char_resolved.go:185-232`, after the first byte was read. -/
def getCharByte (offset : Int) (b : UInt8) : M VtdNav (BitVec 64) :=
  if b = ch% '\r' then
    M.catchErr
      (do
        let b2 ← onXml (UniByteBuffer.byteAt (offset + 1))
        if b2 = ch% '\n' then pure (BitVec.ofNat 64 b2.toNat ||| (2#64 <<< 32))
        else pure (ch% '\n' ||| (1#64 <<< 32)))
      (fun _ => pure 0)
  else pure (BitVec.ofNat 64 b.toNat ||| (1#64 <<< 32))

/-- `getChar`, `vtdxml/navigation/get_char_resolved.go:179-258` (with the stubs
`getCharUtf16BE`, `getCharUtf16LE` and `getChar4OtherEncodings`). -/
def getChar (offset : Int) : M VtdNav (BitVec 64) := do
  let b ← onXml (UniByteBuffer.byteAt offset)
  let n ← M.get
  if n.encoding = FormatAscii ∨ n.encoding = FormatIso88591 ∨ n.encoding = FormatUtf8 then
    getCharByte offset b
  else if n.encoding = FormatUtf16BE ∨ n.encoding = FormatUtf16LE then pure 0
  else if n.encoding > FormatWin1258 then M.raise (newEncodingError "unknown encoding")
  else pure 0

/-- `checkSeq` inside `resolveEntity`, `vtdxml/navigation/get_char_resolved.go:30-41`. -/
def checkSeq (os : Int) : List Nat → M VtdNav Unit
  | [] => pure ()
  | seqCh :: seq => do
    let ch ← getCharUnit os
    if ch ≠ seqCh then M.raise (newEntityError IllegalBuiltInEntity)
    else checkSeq (os + 1) seq

/-- One hexadecimal digit, `vtdxml/navigation/get_char_resolved.go:60-65` and
`vtdxml/parser/common.go:609-614`. -/
def hexDigit (ch : Nat) : Option Nat :=
  if ch ≥ ch% '0' ∧ ch ≤ ch% '9' then some (ch - ch% '0')
  else if ch ≥ ch% 'a' ∧ ch ≤ ch% 'f' then some (ch - ch% 'a' + 10)
  else if ch ≥ ch% 'A' ∧ ch ≤ ch% 'F' then some (ch - ch% 'A' + 10)
  else none

/-- Hexadecimal loop, `vtdxml/navigation/get_char_resolved.go:53-71`; `uint32` arithmetic. -/
def hexLoop : Nat → Int → Nat → M VtdNav Nat
  | 0, _, _ => M.diverge
  | fuel + 1, offset, value => do
    let ch ← getCharUnit (offset + 1)
    match hexDigit ch with
    | some d => hexLoop fuel (offset + 1) ((value * 16 + d) % 2 ^ 32)
    | none =>
      if ch = ch% ';' then pure value
      else M.raise (newEntityError "illegal char following &#x")

/-- Decimal loop, `vtdxml/navigation/get_char_resolved.go:73-85`: `offset` is not
advanced. -/
def decLoop : Nat → Int → Nat → Nat → M VtdNav Nat
  | 0, _, _, _ => M.diverge
  | fuel + 1, offset, ch2, value =>
    if ch2 ≥ ch% '0' ∧ ch2 ≤ ch% '9' then do
      let ch2' ← getCharUnit offset
      decLoop fuel offset ch2' ((value * 10 + (ch2 - ch% '0')) % 2 ^ 32)
    else if ch2 = ch% ';' then pure value
    else M.raise (newEntityError "illegal char following &#x")

/-- `resolveEntity`, `vtdxml/navigation/get_char_resolved.go:29-138`. Simplified: the
increment is not returned; its only use, `uint32(inc << 32)` (line 26), is zero. -/
def resolveEntity (fuel : Nat) (offset : Int) (ch : Nat) : M VtdNav Nat :=
  if ch = ch% '#' then do
    let ch2 ← getCharUnit offset
    let value ← if ch2 = ch% 'x' then hexLoop fuel offset 0 else decLoop fuel offset ch2 0
    if isValidChar value then pure value else M.raise (newEntityError InvalidChar)
  else if ch = ch% 'a' then do
    let ch2 ← getCharUnit offset
    if ch2 = ch% 'm' then do checkSeq offset (str% "p;"); pure (ch% '&')
    else if ch2 = ch% 'p' then do checkSeq offset (str% "os;"); pure (ch% '\'')
    else M.raise (newEntityError IllegalBuiltInEntity)
  else if ch = ch% 'q' then do checkSeq offset (str% "uot;"); pure (ch% '"')
  else if ch = ch% 'l' ∨ ch = ch% 'g' then do
    checkSeq offset (str% "t;")
    if ch = ch% 'l' then pure (ch% '<') else pure (ch% '>')
  else M.raise (newEntityError "illegal entity character")

/-- `getCharResolved`, `vtdxml/navigation/get_char_resolved.go:8-27`. The comparison with
`'&'` is on the 64-bit value that carries the increment in its upper half. -/
def getCharResolved (fuel : Nat) (offset : Int) : M VtdNav (BitVec 32) := do
  let ch ← getChar offset
  if ch ≠ ch% '&' then pure (ch.setWidth 32)
  else do
    let ch2 ← getCharUnit (offset + 1)
    let val ← resolveEntity fuel (offset + 2) ch2
    pure (BitVec.ofNat 32 val)

/-! ## `to_string.go` -/

/-- Loop shared by `ToStringAtRange` (`vtdxml/navigation/to_string.go:33-39`) and
`ToRawStringAtRange` (`vtdxml/navigation/to_string.go:76-82`): `count` iterations starting
at `i`, one byte written for each. -/
def writeBytes (readByte : Int → M VtdNav UInt8) : Nat → Int → List UInt8 → M VtdNav (List UInt8)
  | 0, _, acc => pure acc
  | count + 1, i, acc => do
    let b ← readByte i
    writeBytes readByte count (i + 1) (acc ++ [b])

/-- `ToStringAtRange`, `vtdxml/navigation/to_string.go:29-42`. The end offset is an `int32`
sum. `fuel` bounds the loops of `resolveEntity`. -/
def toStringAtRange (fuel : Nat) (offset length : Int) : M VtdNav (List UInt8) :=
  let endOffset := wrap32 (offset + length)
  writeBytes (fun i => do
      let ch ← getCharResolved fuel i
      pure (UInt8.ofNat ch.toNat))
    (endOffset - offset).toNat offset []

/-- `ToRawStringAtRange`, `vtdxml/navigation/to_string.go:72-85`. -/
def toRawStringAtRange (offset length : Int) : M VtdNav (List UInt8) :=
  let endOffset := wrap32 (offset + length)
  writeBytes (fun i => do
      let ch ← getChar i
      pure (UInt8.ofNat ch.toNat))
    (endOffset - offset).toNat offset []

/-- `ToRawStringAtIndex`, `vtdxml/navigation/to_string.go:44-70`. -/
def toRawStringAtIndex (index : Int) : M VtdNav (List UInt8) := do
  let tokenType ← getTokenType index
  let l ← getTokenLength index
  let length :=
    if tokenType = Token.startingTag.code ∨ tokenType = Token.attrName.code ∨
        tokenType = Token.attrNs.code then
      (BitVec.ofInt 32 l &&& 0xFFFF#32).toInt
    else l
  let offset ← getTokenOffset index
  toRawStringAtRange offset length

/-- `ToStringAtIndex`, `vtdxml/navigation/to_string.go:9-27`. -/
def toStringAtIndex (fuel : Nat) (index : Int) : M VtdNav (List UInt8) := do
  let tokenType ← getTokenType index
  if tokenType ≠ Token.characterData.code ∧ tokenType ≠ Token.attrVal.code then
    toRawStringAtIndex index
  else do
    let length ← getTokenLength index
    let offset ← getTokenOffset index
    toStringAtRange fuel offset length

/-! ## `to_element.go` -/

/-- `toRootElement`, `vtdxml/navigation/to_element.go:23-29`. -/
def toRootElement : M VtdNav Bool := do
  let c0 ← ctx 0
  if c0 ≠ 0 then setCtx 0 0 else pure ()
  M.modify fun n => { n with atTerminal := false }
  pure true

/-- `toParentElement`, `vtdxml/navigation/to_element.go:31-46`. -/
def toParentElement : M VtdNav Bool := do
  let n ← M.get
  if n.atTerminal then do
    M.modify fun n => { n with atTerminal := false }
    pure true
  else do
    let c0 ← ctx 0
    if c0 > 0 then do
      setCtx c0 (-1)
      let c0' ← ctx 0
      setCtx 0 (c0' - 1)
      pure true
    else if c0 = 0 then do
      setCtx 0 (-1)
      pure true
    else pure false

/-- Loop of `toFirstChild`, `vtdxml/navigation/to_element.go:155-175`. -/
def firstChildLoop : Nat → Int → M VtdNav Bool
  | 0, _ => M.diverge
  | fuel + 1, index => do
    let n ← M.get
    if index < n.vtdBuffer.getSize then do
      let r ← M.catchErr (do let t ← getTokenType index; pure (some t)) (fun _ => pure none)
      match r with
      | none => pure false
      | some tokenType => do
        let depth ← getTokenDepth index
        let c0 ← ctx 0
        if tokenType = Token.startingTag.code then
          if depth ≤ c0 then pure false
          else if depth = c0 + 1 then do
            setCtx 0 (c0 + 1)
            setCtx (c0 + 1) index
            pure true
          else firstChildLoop fuel (index + 1)
        else firstChildLoop fuel (index + 1)
    else pure false

/-- `toFirstChild`, `vtdxml/navigation/to_element.go:153-176`. -/
def toFirstChild : M VtdNav Bool := do
  let c0 ← ctx 0
  let cur ← ctx c0
  let n ← M.get
  firstChildLoop ((n.vtdBuffer.getSize - (cur + 1)).toNat + 1) (cur + 1)

/-- Loop of `toLastChild`, `vtdxml/navigation/to_element.go:181-198`. The result is
`none` for `return false, nil` inside the loop and `some lastIndex` after it. -/
def lastChildLoop : Nat → Int → Int → M VtdNav (Option Int)
  | 0, _, _ => M.diverge
  | fuel + 1, index, lastIndex => do
    let n ← M.get
    if index < n.vtdBuffer.getSize then do
      let r ← M.catchErr (do let t ← getTokenType index; pure (some t)) (fun _ => pure none)
      match r with
      | none => pure none
      | some tokenType => do
        let depth ← getTokenDepth index
        let c0 ← ctx 0
        if tokenType = Token.startingTag.code then
          if depth ≤ c0 then pure (some lastIndex)
          else if depth = c0 + 1 then lastChildLoop fuel (index + 1) index
          else lastChildLoop fuel (index + 1) lastIndex
        else lastChildLoop fuel (index + 1) lastIndex
    else pure (some lastIndex)

/-- `toLastChild`, `vtdxml/navigation/to_element.go:178-206`. -/
def toLastChild : M VtdNav Bool := do
  let c0 ← ctx 0
  let cur ← ctx c0
  let n ← M.get
  let r ← lastChildLoop ((n.vtdBuffer.getSize - (cur + 1)).toNat + 1) (cur + 1) (-1)
  match r with
  | none => pure false
  | some lastIndex =>
    if lastIndex = -1 then pure false
    else do
      let c0 ← ctx 0
      setCtx 0 (c0 + 1)
      setCtx (c0 + 1) lastIndex
      pure true

/-- The search for the next sibling cache entry with a child,
`vtdxml/navigation/to_element.go:88-97` (`l1Buffer`) and `122-131` (`l2Buffer`):
the result is the new upper bound, `none` when no entry sets it. -/
def upperLoop (lower32 : Int → M VtdNav (BitVec 32)) (size : Int) :
    Nat → Int → M VtdNav (Option Int)
  | 0, _ => M.diverge
  | fuel + 1, i =>
    if i < size then do
      let lower ← lower32 i
      if lower ≠ 0xffffffff#32 then pure (some (wrap32 (lower.toInt - 1)))
      else upperLoop lower32 size fuel (i + 1)
    else pure none

/-- Case 0 of `toChildElement`, `vtdxml/navigation/to_element.go:58-75`. -/
def toChildLevel0 (dir : Direction) : M VtdNav Bool := do
  let n ← M.get
  if n.l1Buffer.getSize = 0 then pure false
  else do
    setCtx 0 1
    let l1index := if dir = Direction.firstChild then 0 else n.l1Buffer.getSize - 1
    M.modify fun n => { n with l1index := l1index }
    let val ← onL1 (Paged.upper32At l1index)
    setCtx 1 val.toInt
    pure true

/-- Case 1 of `toChildElement`, `vtdxml/navigation/to_element.go:76-109`. -/
def toChildLevel1 (dir : Direction) : M VtdNav Bool := do
  let n ← M.get
  let lower ← onL1 (Paged.lower32At n.l1index)
  M.modify fun n => { n with l2lower := lower.toInt }
  if lower.toInt = -1 then pure false
  else do
    setCtx 0 2
    M.modify fun n => { n with l2upper := n.l2Buffer.getSize - 1 }
    let u ← upperLoop (fun i => onL1 (Paged.lower32At i)) n.l1Buffer.getSize
      ((n.l1Buffer.getSize - n.l1index).toNat + 1) (n.l1index + 1)
    match u with
    | some v => M.modify fun n => { n with l2upper := v }
    | none => pure ()
    M.modify fun n =>
      { n with l2index := if dir = Direction.firstChild then n.l2lower else n.l2upper }
    let n' ← M.get
    let upper ← M.catchErr (do let u ← onL2 (Paged.upper32At n'.l2index); pure (some u))
      (fun _ => pure none)
    match upper with
    | none => pure false
    | some upper => do
      setCtx 2 upper.toInt
      pure true

/-- Case 2 of `toChildElement`, `vtdxml/navigation/to_element.go:110-143`. The last read
is from `l2Buffer` at `l2index`. -/
def toChildLevel2 (dir : Direction) : M VtdNav Bool := do
  let n ← M.get
  let lower ← onL2 (Paged.lower32At n.l2index)
  M.modify fun n => { n with l3lower := lower.toInt }
  if lower.toInt = -1 then pure false
  else do
    setCtx 0 3
    M.modify fun n => { n with l3upper := n.l3Buffer.getSize - 1 }
    let u ← upperLoop (fun i => onL2 (Paged.lower32At i)) n.l2Buffer.getSize
      ((n.l2Buffer.getSize - n.l2index).toNat + 1) (n.l2index + 1)
    match u with
    | some v => M.modify fun n => { n with l3upper := v }
    | none => pure ()
    M.modify fun n =>
      { n with l3index := if dir = Direction.firstChild then n.l3lower else n.l3upper }
    let n' ← M.get
    let upper ← M.catchErr (do let u ← onL2 (Paged.upper32At n'.l2index); pure (some u))
      (fun _ => pure none)
    match upper with
    | none => pure false
    | some upper => do
      setCtx 3 upper.toInt
      pure true

/-- `toChildElement`, `vtdxml/navigation/to_element.go:48-151`. -/
def toChildElement (dir : Direction) : M VtdNav Bool := do
  let n ← M.get
  if n.atTerminal then pure false
  else do
    let c0 ← ctx 0
    if c0 = -1 then do
      setCtx 0 0
      pure true
    else if c0 = 0 then toChildLevel0 dir
    else if c0 = 1 then toChildLevel1 dir
    else if c0 = 2 then toChildLevel2 dir
    else if dir = Direction.firstChild then toFirstChild
    else toLastChild

/-- Loop of `toNextSibling`, `vtdxml/navigation/to_element.go:288-306`. -/
def nextSiblingLoop : Nat → Int → M VtdNav Bool
  | 0, _ => M.diverge
  | fuel + 1, index => do
    let n ← M.get
    if index < n.vtdBuffer.getSize then do
      let r ← M.catchErr (do let t ← getTokenType index; pure (some t)) (fun _ => pure none)
      match r with
      | none => pure false
      | some tokenType => do
        let depth ← getTokenDepth index
        let c0 ← ctx 0
        if tokenType = Token.startingTag.code then
          if depth ≤ c0 then pure false
          else if depth = c0 then do
            setCtx c0 index
            pure true
          else nextSiblingLoop fuel (index + 1)
        else nextSiblingLoop fuel (index + 1)
    else pure false

/-- `toNextSibling`, `vtdxml/navigation/to_element.go:286-308`. -/
def toNextSibling : M VtdNav Bool := do
  let c0 ← ctx 0
  let cur ← ctx c0
  let n ← M.get
  nextSiblingLoop ((n.vtdBuffer.getSize - (cur + 1)).toNat + 1) (cur + 1)

/-- Loop of `toPrevSibling`, `vtdxml/navigation/to_element.go:312-328`. -/
def prevSiblingLoop : Nat → Int → M VtdNav Bool
  | 0, _ => M.diverge
  | fuel + 1, index => do
    let c0 ← ctx 0
    let parent ← ctx (c0 - 1)
    if index > parent then do
      let r ← M.catchErr (do let t ← getTokenType index; pure (some t)) (fun _ => pure none)
      match r with
      | none => pure false
      | some tokenType => do
        let depth ← getTokenDepth index
        if tokenType = Token.startingTag.code then
          if depth = c0 then do
            setCtx c0 index
            pure true
          else prevSiblingLoop fuel (index - 1)
        else prevSiblingLoop fuel (index - 1)
    else pure false

/-- `toPrevSibling`, `vtdxml/navigation/to_element.go:310-330`. -/
def toPrevSibling : M VtdNav Bool := do
  let c0 ← ctx 0
  let cur ← ctx c0
  let parent ← ctx (c0 - 1)
  prevSiblingLoop ((cur - parent).toNat + 1) (cur - 1)

/-- `toSiblingElement`, `vtdxml/navigation/to_element.go:208-284`. -/
def toSiblingElement (dir : Direction) : M VtdNav Bool := do
  let n ← M.get
  if n.atTerminal then pure false
  else do
    let c0 ← ctx 0
    if c0 = -1 ∨ c0 = 0 then pure false
    else if c0 = 1 then
      if dir = Direction.nextSibling then
        if n.l1index + 1 ≥ n.l1Buffer.getSize then pure false
        else do
          M.modify fun n => { n with l1index := n.l1index + 1 }
          let upper ← onL1 (Paged.upper32At (n.l1index + 1))
          setCtx 1 upper.toInt
          pure true
      else
        if n.l1index - 1 < 0 then pure false
        else do
          M.modify fun n => { n with l1index := n.l1index - 1 }
          let upper ← onL1 (Paged.upper32At (n.l1index - 1))
          setCtx 1 upper.toInt
          pure true
    else if c0 = 2 then
      if dir = Direction.nextSibling then
        if n.l2index + 1 > n.l2upper then pure false
        else do
          M.modify fun n => { n with l2index := n.l2index + 1 }
          let upper ← onL1 (Paged.upper32At n.l1index)
          setCtx 2 upper.toInt
          pure true
      else
        if n.l2index - 1 < n.l2lower then pure false
        else do
          M.modify fun n => { n with l2index := n.l2index - 1 }
          let upper ← onL1 (Paged.upper32At n.l1index)
          setCtx 2 upper.toInt
          pure true
    else if c0 = 3 then
      if dir = Direction.nextSibling then
        if n.l3index + 1 > n.l3upper then pure false
        else do
          M.modify fun n => { n with l3index := n.l3index + 1 }
          let upper ← onL1 (Paged.upper32At n.l1index)
          setCtx 3 upper.toInt
          pure true
      else
        if n.l3index - 1 < n.l3lower then pure false
        else do
          M.modify fun n => { n with l3index := n.l3index - 1 }
          let upper ← onL1 (Paged.upper32At n.l1index)
          setCtx 3 upper.toInt
          pure true
    else if dir = Direction.nextSibling then toNextSibling
    else toPrevSibling

/-- `ToElement`, `vtdxml/navigation/to_element.go:8-21`. -/
def toElement (dir : Direction) : M VtdNav Bool :=
  if dir = Direction.root then toRootElement
  else if dir = Direction.parent then toParentElement
  else if dir = Direction.firstChild ∨ dir = Direction.lastChild then toChildElement dir
  else if dir = Direction.nextSibling ∨ dir = Direction.prevSibling then toSiblingElement dir
  else M.raise (newNavigationError "illegal navigation options" none)

end VtdNav

end GoVtd
