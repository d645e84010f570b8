import Verif.Model.Parser.Process

/-!
# Package `parser`: attributes and namespace checks
-/

namespace GoVtd
namespace Parser

/-- The test for `xmlns`, `vtdxml/parser/process_attr_name.go:11-23`. -/
def attrNsTest : M Parser Unit := do
  let p ← M.get
  if p.currentChar = ch% 'x' then do
    let s ← skipCharSeq (str% "mlns")
    if s then do
      nextChar
      let p ← M.get
      if p.currentChar = ch% '=' ∨ isSpaceChar p.currentChar then
        M.modify fun p => { p with at_ := { p.at_ with defaultNs := true, isNs := true } }
      else if p.currentChar = ch% ':' then
        M.modify fun p => { p with at_ := { p.at_ with defaultNs := false, isNs := true } }
      else pure ()
    else pure ()
  else pure ()

/-- Name loop of `processAttrName`, `vtdxml/parser/process_attr_name.go:24-34`. -/
def attrNameLoop : Nat → M Parser Unit
  | 0 => M.diverge
  | fuel + 1 => do
    let p ← M.get
    if isNameChar p.currentChar then do
      if p.currentChar = ch% ':' then
        M.modify fun p => { p with length2 := p.offset - p.lastOffset - p.enc.increment }
      else pure ()
      nextChar
      attrNameLoop fuel
    else pure ()

/-- Namespace-declaration tests, `vtdxml/parser/process_attr_name.go:42-56`. -/
def attrNsDecl : M Parser Unit := do
  let p ← M.get
  if p.at_.isNs ∧ p.cfg.nsAware ∧ !p.at_.defaultNs then do
    let byteOffset := p.lastOffset + p.length2 + p.enc.increment
    if (p.enc.increment = 1 ∧ p.length1 - p.length2 = 6) ∨
        (p.enc.increment = 2 ∧ p.length1 - p.length2 = 12) then do
      let x ← checkXmlnsPrefix byteOffset (-1) false
      if x then parseErrAt "XMLNS as namespace cannot be re-declared" byteOffset else pure ()
    else pure ()
    if (p.enc.increment = 1 ∧ p.length1 - p.length2 = 4) ∨
        (p.enc.increment = 2 ∧ p.length1 - p.length2 = 8) then do
      let x ← checkXmlPrefix byteOffset (-1) false
      M.modify fun p => { p with at_ := { p.at_ with isXml := x } }
    else pure ()
  else pure ()

/-- Loop of `checkAttrUniqueness`, `vtdxml/parser/process_attr_name.go:112-127`: `count`
entries are left, starting at entry `i`. -/
def uniqueLoop : Nat → Int → Bool → M Parser Bool
  | 0, _, unique => pure unique
  | count + 1, i, unique => do
    let p ← M.get
    let e ← M.index p.at_.attrNameSlice i
    let prevLen := low32 e
    if p.length1 = prevLen then do
      let same ← sameBytes prevLen.toNat (high32 e) p.lastOffset
      uniqueLoop count (i + 1) (unique && !same)
    else uniqueLoop count (i + 1) unique

/-- `p.prefixedAttrNameSlice[p.prefixedAttCount] = …; p.prefixedAttCount++`,
`vtdxml/parser/process_attr_name.go:134-141`. -/
def pushPrefixedAttr : M Parser Unit := do
  let p ← M.get
  if p.cfg.nsAware ∧ !p.at_.isNs ∧ p.length2 ≠ 0 then do
    let isXml ← checkXmlPrefix p.lastOffset (-1) false
    if (p.enc.increment = 1 ∧ p.length2 = 3 ∧ isXml) ∨
        (p.enc.increment = 2 ∧ p.length2 = 6 ∧ isXml) then pure ()
    else
      match setAt p.at_.prefixedAttrNameSlice p.at_.prefixedAttCount
          ((BitVec.ofInt 64 p.lastOffset <<< 32) ||| (BitVec.ofInt 64 p.length2 <<< 16) |||
            BitVec.ofInt 64 p.length1) with
      | some l => M.modify fun p => { p with
          at_ := { p.at_ with prefixedAttrNameSlice := l,
                              prefixedAttCount := p.at_.prefixedAttCount + 1 } }
      | none => M.panic
  else pure ()

/-- `checkAttrUniqueness`, `vtdxml/parser/process_attr_name.go:109-143`. -/
def checkAttrUniqueness : M Parser Unit := do
  let p ← M.get
  let unique ← uniqueLoop p.at_.attrCount.toNat 0 true
  if unique = false ∧ p.at_.attrCount ≠ 0 then parseErr AttrNotUnique
  else
    match setAt p.at_.attrNameSlice p.at_.attrCount
        ((BitVec.ofInt 64 p.lastOffset <<< 32) ||| BitVec.ofInt 64 p.length1) with
    | some l => do
      M.modify fun p => { p with
        at_ := { p.at_ with attrNameSlice := l, attrCount := p.at_.attrCount + 1 } }
      pushPrefixedAttr
    | none => M.panic

/-- Record of the attribute name, `vtdxml/parser/process_attr_name.go:61-88`. -/
def writeAttrName : M Parser Unit := do
  let p ← M.get
  if p.at_.isNs ∧ p.cfg.nsAware ∧ p.length2 ≠ 0 ∧ !p.at_.isXml then
    onNs3 (Paged.append (nsRecord p.length2 p.length1 p.lastOffset))
  else pure ()
  let tokenType := if p.at_.isNs then Token.attrNs else Token.attrName
  let errMsg := if p.at_.isNs then AttrNsPrefixQnameTooLong else AttrNamePrefixQnameTooLong
  if p.enc.singleByteEncoding then
    if p.length2 > maxPrefixLength ∨ p.length1 > maxQnameLength then parseErr errMsg
    else writeVtd tokenType p.lastOffset (shlOr p.length2 11 p.length1) p.depth
  else
    if p.length2 > maxPrefixLength * 2 ∨ p.length1 > maxQnameLength * 2 then parseErr errMsg
    else writeVtd tokenType (p.lastOffset / 2) (shlOr p.length2 10 (p.length1 / 2)) p.depth

/-- End of `processAttrName`, `vtdxml/parser/process_attr_name.go:90-106`. -/
def attrNameEnd : M Parser PState := do
  M.modify fun p => { p with length2 := 0 }
  let p ← M.get
  if isSpaceChar p.currentChar then nextCharAfterWs else pure ()
  let p ← M.get
  if p.currentChar ≠ ch% '=' then parseErr InvalidChar
  else do
    nextCharAfterWs
    let p ← M.get
    if p.currentChar ≠ ch% '"' ∧ p.currentChar ≠ ch% '\'' then
      parseErr (InvalidChar ++ " should be ' or \" ")
    else do
      markOffset
      pure .attrVal

/-- `processAttrName`, `vtdxml/parser/process_attr_name.go:10-107`. -/
def processAttrName : M Parser PState := do
  attrNsTest
  let p ← M.get
  attrNameLoop p.loopFuel
  let offset ← getPrevOffset
  M.modify fun p => { p with length1 := offset - p.lastOffset }
  attrNsDecl
  checkAttrUniqueness
  writeAttrName
  attrNameEnd

/-! ## `process_attr_val.go` -/

/-- Value loop of `processAttrVal`, `vtdxml/parser/process_attr_val.go:28-47`; `quote` is
the opening quote. -/
def attrValLoop (quote : Nat) : Nat → M Parser Unit
  | 0 => M.diverge
  | fuel + 1 => do
    nextChar
    let p ← M.get
    if isValidChar p.currentChar ∧ p.currentChar ≠ ch% '<' then
      if p.currentChar = quote then pure ()
      else if p.currentChar = ch% '&' then do
        let ch ← entityIdentifier
        if isValidChar ch then attrValLoop quote fuel else parseErr InvalidChar
      else attrValLoop quote fuel
    else parseErr InvalidChar

/-- `getCharUnit`, `vtdxml/parser/process_attr_val.go:443-457`. -/
def getCharUnit (offset : Int) : M Parser Int := do
  let p ← M.get
  if p.enc.encoding ≤ 2 then do
    let b ← docByte offset
    pure b.toNat
  else if p.enc.encoding < FormatUtf16BE then do
    let ch ← onRd (Reader.getCharAt offset)
    pure ch
  else if p.enc.encoding = FormatUtf16BE then do
    let b1 ← docByte offset
    let b2 ← docByte (offset + 1)
    pure (b1.toNat * 256 + b2.toNat)
  else do
    let b2 ← docByte (offset + 1)
    let b1 ← docByte offset
    pure (b2.toNat * 256 + b1.toNat)

/-- `checkSeq` inside `getCharResolved`, `vtdxml/parser/process_attr_val.go:287-300`. -/
def unitSeq (inc : Int) : List Int → Int → M Parser Unit
  | [], _ => pure ()
  | seqCh :: seq, offset => do
    let ch ← getCharUnit offset
    if ch ≠ seqCh then M.raise (newEntityError IllegalBuiltInEntity)
    else unitSeq inc seq (offset + inc)

/-- Hexadecimal loop of `getCharResolved`, `vtdxml/parser/process_attr_val.go:327-344`:
other characters are skipped; `int32` arithmetic. The result is `(val, inc)`. -/
def resolveHexLoop : Nat → Int → Int → Int → M Parser (Int × Int)
  | 0, _, _, _ => M.diverge
  | fuel + 1, offset, val, inc => do
    let p ← M.get
    let ch ← getCharUnit (offset + p.enc.increment)
    let inc := inc + p.enc.increment
    match hexDigit ch.toNat with
    | some d => resolveHexLoop fuel (offset + p.enc.increment) (wrap32 (val * 16 + d)) inc
    | none =>
      if ch = ch% ';' then pure (val, inc + p.enc.increment)
      else resolveHexLoop fuel (offset + p.enc.increment) val inc

/-- Decimal loop of `getCharResolved`, `vtdxml/parser/process_attr_val.go:346-358`. -/
def resolveDecLoop : Nat → Int → Int → Int → M Parser (Int × Int)
  | 0, _, _, _ => M.diverge
  | fuel + 1, offset, val, inc => do
    let p ← M.get
    let ch ← getCharUnit offset
    let inc := inc + p.enc.increment
    if ch ≥ ch% '0' ∧ ch ≤ ch% '9' then
      resolveDecLoop fuel (offset + p.enc.increment) (wrap32 (val * 10 + (ch - ch% '0'))) inc
    else if ch = ch% ';' then pure (val, inc)
    else resolveDecLoop fuel (offset + p.enc.increment) val inc

/-- The `switch` of `getCharResolved`, `vtdxml/parser/process_attr_val.go:319-439`: the pair
`(val, inc)`. The case `'a'` reads a character from the reader, not from `offset`. -/
def resolveUnit (offset : Int) (ch : Int) (inc : Int) : M Parser (Int × Int) := do
  let p ← M.get
  let single : Bool := p.enc.encoding < FormatUtf16BE
  let step : Int := if single then 1 else 2
  if ch = ch% '#' then do
    let ch ← getCharUnit offset
    if ch = ch% 'x' then resolveHexLoop p.loopFuel offset 0 inc
    else resolveDecLoop p.loopFuel offset 0 inc
  else if ch = ch% 'a' then do
    let ch2 ← getChar
    if ch2 = ch% 'm' then do
      unitSeq step (str% "p;") offset
      pure (ch% '&', if single then 5 else 10)
    else if ch2 = ch% 'p' then do
      unitSeq step (str% "os;") offset
      pure (ch% '\'', if single then 5 else 12)
    else pure (0, inc)
  else if ch = ch% 'q' then do
    unitSeq step (str% "uot;") offset
    pure (ch% '"', if single then 6 else 12)
  else if ch = ch% 'g' ∨ ch = ch% 'l' then do
    unitSeq step (str% "t;") offset
    pure (if ch = ch% 'g' then ch% '>' else ch% '<', if single then 4 else 8)
  else pure (0, inc)

/-- `getCharResolved`, `vtdxml/parser/process_attr_val.go:286-441`. -/
def getCharResolved (offset : Int) : M Parser (BitVec 64) := do
  let p ← M.get
  let inc : Int := if p.enc.increment = 1 then 2 else 4
  let ch64 ← onRd (Reader.getLongCharAt offset)
  if ch64.setWidth 32 ≠ (ch% '&' : BitVec 32) then pure ch64
  else do
    let ch ← getCharUnit (offset + p.enc.increment)
    let (val, inc) ← resolveUnit (offset + p.enc.increment + p.enc.increment) ch inc
    pure (BitVec.ofInt 64 val ||| (BitVec.ofInt 64 inc <<< 32))

/-- `NsUrlType`, `vtdxml/parser/process_attr_val.go:10-16` (without the error value). -/
inductive NsUrlType where
  | default | url2000 | url1998
  deriving DecidableEq, Repr

/-- The loops of `identifyNsUrl`, `vtdxml/parser/process_attr_val.go:148-157,159-168,
173-182`: compare the characters from `offset` with `url`, until the end of `url` or the
offset `g`. `none` is `return DefaultNsUrl`; otherwise the new offset. -/
def urlLoop (g : Int) : List Nat → Int → M Parser (Option Int)
  | [], offset => pure (some offset)
  | u :: url, offset =>
    if offset < g then do
      let ch ← getCharResolved offset
      if BitVec.ofNat 64 u ≠ ch then pure none
      else urlLoop g url (offset + (ch.sshiftRight 32).toInt)
    else pure (some offset)

/-- `identifyNsUrl`, `vtdxml/parser/process_attr_val.go:138-187`. -/
def identifyNsUrl : M Parser NsUrlType := do
  let p ← M.get
  let g := p.lastOffset + p.length1
  if p.length1 < 29 ∨ (p.enc.increment = 2 ∧ p.length1 < 58) then pure .default
  else do
    let r1 ← urlLoop g (str% "http://www.w3.org/") p.lastOffset
    match r1 with
    | none => pure .default
    | some tmpOffset => do
      let r2 ← urlLoop g (str% "2000/xmlns/") tmpOffset
      match r2 with
      | none => pure .default
      | some offset =>
        if offset = g then pure .url1998
        else do
          let r3 ← urlLoop g (str% "XML/1998/namespace") tmpOffset
          match r3 with
          | none => pure .default
          | some offset => if offset = g then pure .url2000 else pure .default

/-- Inner loop of `qualifyAttributes`, `vtdxml/parser/process_attr_val.go:195-219`: `count`
entries are left, the next one is `count - 1`; the index of the match or `none`. -/
def qualifyAttrLoop (preLen preOs : Int) : Nat → M Parser (Option Int)
  | 0 => pure none
  | i + 1 => do
    let upper ← onNs3 (Paged.upper32At i)
    let p ← M.get
    let lo16 := (upper &&& 0xFFFF#32).toInt
    let hi16 := (upper.sshiftRight 16).toInt
    if lo16 - hi16 = preLen + p.enc.increment then do
      let lower ← onNs3 (Paged.lower32At i)
      let offset := lower.toInt + hi16 + p.enc.increment
      let same ← sameBytes preLen.toNat offset preOs
      if same then pure (some i) else qualifyAttrLoop preLen preOs i
    else qualifyAttrLoop preLen preOs i

/-- Fields of an entry of `prefixedAttrNameSlice`: prefix length
(`int(int32((e & 0xFFFF0000) >> 16))`). -/
def attrPreLen (e : BitVec 64) : Int := low32 ((e &&& 0xFFFF0000#64).sshiftRight 16)

/-- Full name length of an entry of `prefixedAttrNameSlice`. -/
def attrFullLen (e : BitVec 64) : Int := low32 (e &&& 0xFFFF#64)

/-- Outer loop of `qualifyAttributes`, `vtdxml/parser/process_attr_val.go:191-225`. The
index is appended to `prefixUrlSlice`, which starts with 256 zeros. -/
def qualifyAttrsLoop (nsCount : Nat) : Nat → Int → M Parser Unit
  | 0, _ => pure ()
  | count + 1, j => do
    let p ← M.get
    let e ← M.index p.at_.prefixedAttrNameSlice j
    let r ← qualifyAttrLoop (attrPreLen e) (high32 e) nsCount
    match r with
    | none => parseErr "prefixed attribute not qualified"
    | some i => do
      M.modify fun p => { p with
        at_ := { p.at_ with prefixUrlSlice := p.at_.prefixUrlSlice ++ [i] } }
      qualifyAttrsLoop nsCount count (j + 1)

/-- `qualifyAttributes`, `vtdxml/parser/process_attr_val.go:189-227`. -/
def qualifyAttributes : M Parser Unit := do
  let p ← M.get
  qualifyAttrsLoop p.ns.nsBuffer3.getSize.toNat p.at_.prefixedAttCount.toNat 0

/-- Loop of `matchUrl`, `vtdxml/parser/process_attr_val.go:460-475`; the conditions
`x.offset < x.offset + x.length` do not depend on the offsets. -/
def matchUrlLoop : Nat → Int → Int → M Parser Bool
  | 0, _, _ => M.diverge
  | fuel + 1, a, b => do
    let chA ← getCharResolved a
    let chB ← getCharResolved b
    if chA ≠ chB then pure false
    else matchUrlLoop fuel (a + (chA.sshiftRight 32).toInt) (b + (chB.sshiftRight 32).toInt)

/-- `matchUrl`, `vtdxml/parser/process_attr_val.go:459-481`. -/
def matchUrl (aOffset aLength bOffset bLength : Int) : M Parser Bool := do
  let p ← M.get
  if 0 < aLength ∧ 0 < bLength then matchUrlLoop p.cfg.matchFuel aOffset bOffset
  else pure (decide (aLength = 0 ∧ bLength = 0))

/-- Inner loop of `checkQualifiedAttributeUniqueness`,
`vtdxml/parser/process_attr_val.go:246-281`. -/
def uniqueQualInner (postLen offset urlOffset urlLen : Int) : Nat → Int → M Parser Unit
  | 0, _ => pure ()
  | count + 1, j => do
    let p ← M.get
    let e ← M.index p.at_.prefixedAttrNameSlice j
    let preLen2 := attrPreLen e
    let postLen2 := attrFullLen e - preLen2 - p.enc.increment
    let offset2 := high32 e + preLen2 + p.enc.increment
    if postLen = postLen2 then do
      let same ← if postLen < 0 then pure false else sameBytes postLen.toNat offset offset2
      if same then do
        let u ← M.index p.at_.prefixUrlSlice j
        let urlLen2 ← onNs2 (Paged.lower32At u)
        let urlOffset2 ← onNs2 (Paged.upper32At u)
        let m ← matchUrl urlOffset urlLen urlOffset2.toInt urlLen2.toInt
        if m then parseErrAt "qualified attribute names collide" offset2
        else uniqueQualInner postLen offset urlOffset urlLen count (j + 1)
      else uniqueQualInner postLen offset urlOffset urlLen count (j + 1)
    else uniqueQualInner postLen offset urlOffset urlLen count (j + 1)

/-- Outer loop of `checkQualifiedAttributeUniqueness`,
`vtdxml/parser/process_attr_val.go:230-282`. -/
def uniqueQualOuter : Nat → Int → M Parser Unit
  | 0, _ => pure ()
  | count + 1, i => do
    let p ← M.get
    let e ← M.index p.at_.prefixedAttrNameSlice i
    let preLen := attrPreLen e
    let postLen := attrFullLen e - preLen - p.enc.increment
    let offset := high32 e + preLen + p.enc.increment
    let u ← M.index p.at_.prefixUrlSlice i
    let urlLen ← onNs2 (Paged.lower32At u)
    let urlOffset ← onNs2 (Paged.upper32At u)
    uniqueQualInner postLen offset urlOffset.toInt urlLen.toInt count (i + 1)
    uniqueQualOuter count (i + 1)

/-- `checkQualifiedAttributeUniqueness`, `vtdxml/parser/process_attr_val.go:229-284`. -/
def checkQualifiedAttributeUniqueness : M Parser Unit := do
  let p ← M.get
  uniqueQualOuter p.at_.prefixedAttCount.toNat 0

/-- Namespace-declaration part of `processAttrVal`,
`vtdxml/parser/process_attr_val.go:49-84`. -/
def attrValNs : M Parser Unit := do
  let p ← M.get
  if p.cfg.nsAware ∧ p.at_.isNs then
    if !p.at_.defaultNs ∧ p.length1 = 0 then parseErr NonDefaultNsEmpty
    else do
      let t ← identifyNsUrl
      let p ← M.get
      if p.at_.isXml ∧ t ≠ .url2000 then
        parseErr ("xmlns:xml cant only point to " ++ XMLNS1998)
      else do
        if !p.at_.defaultNs then
          onNs2 (Paged.append ((BitVec.ofInt 64 p.lastOffset <<< 32) ||| BitVec.ofInt 64 p.length1))
        else pure ()
        if t ≠ .default then
          if t = .url1998 then parseErr ("namespace declation cannot point to " ++ XMLNS1998)
          else parseErr ("namespace declation cannot point to " ++ XMLNS2000)
        else pure ()
  else pure ()

/-- Namespace qualification at the end of a start tag with attributes,
`vtdxml/parser/process_attr_val.go:111-131`. -/
def attrValQualify : M Parser Unit := do
  let p ← M.get
  if p.cfg.nsAware then do
    pushNs1
    if p.at_.prefixedAttCount > 0 then do
      qualifyAttributes
      checkQualifiedAttributeUniqueness
    else pure ()
    if p.at_.currentElementRecord ≠ 0 then qualifyElement else pure ()
    M.modify fun p => { p with at_ := { p.at_ with prefixedAttCount := 0 } }
  else pure ()

/-- End of `processAttrVal`, `vtdxml/parser/process_attr_val.go:102-135`. -/
def attrValEnd : M Parser PState := do
  M.modify fun p => { p with helper := true }
  let p ← M.get
  if p.currentChar = ch% '/' then do
    M.modify fun p => { p with depth := p.depth - 1, helper := false }
    nextChar
  else pure ()
  let p ← M.get
  if p.currentChar = ch% '>' then do
    attrValQualify
    M.modify fun p => { p with at_ := { p.at_ with attrCount := 0 } }
    processElementTail
  else parseErr InvalidChar

/-- `processAttrVal`, `vtdxml/parser/process_attr_val.go:26-136`. -/
def processAttrVal : M Parser PState := do
  let p ← M.get
  attrValLoop p.currentChar p.loopFuel
  M.modify fun p => { p with length1 := p.offset - p.lastOffset - p.enc.increment }
  attrValNs
  writeVtdWithLengthCheck .attrVal AttrValueTooLong
  M.modify fun p => { p with at_ := { p.at_ with isXml := false, isNs := false } }
  nextChar
  let p ← M.get
  if isSpaceChar p.currentChar then do
    nextCharAfterWs
    let p ← M.get
    if isNameStartChar p.currentChar then do
      M.modify fun p => { p with lastOffset := p.offset - p.enc.increment }
      pure .attrName
    else attrValEnd
  else attrValEnd

end Parser
end GoVtd
