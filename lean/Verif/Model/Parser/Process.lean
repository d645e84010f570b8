import Verif.Model.Parser.State

/-!
# Package `parser`: the process functions of the state machine

Every `process…` function returns the next state. `StateInvalid` accompanied by an error
is modelled as the error alone.
-/

namespace GoVtd
namespace Parser

/-- `p.lastOffset = p.offset`. -/
def markOffset : M Parser Unit := M.modify fun p => { p with lastOffset := p.offset }

/-- Reading loop of `validateSeq`, `vtdxml/parser/process.go:11-20`; `name` is the sequence
as printed in the message. -/
def validateSeqLoop (name : String) : List Nat → M Parser Unit
  | [] => pure ()
  | seqChar :: seq => do
    let c ← getChar
    if c ≠ seqChar then parseErr ("invalid char sequence in " ++ name)
    else validateSeqLoop name seq

/-- `validateSeq`, `vtdxml/parser/process.go:10-26`. -/
def validateSeq (name : String) (seq : List Nat) : M Parser Unit := do
  validateSeqLoop name seq
  let p ← M.get
  if p.depth < 0 then parseErr ("wrong place for " ++ name) else pure ()

/-- `getNextProcessStateFromChar`, `vtdxml/parser/process.go:28-60`. -/
def getNextProcessStateFromChar (ch : Nat) : M Parser PState :=
  if ch = ch% '<' then do
    recordWsIfSet
    pure .ltSeen
  else if ch = ch% '&' then do
    let ch ← entityIdentifier
    if isValidChar ch then pure .text else parseErr InvalidChar
  else if ch = ch% ']' then do
    bracketText
    pure .text
  else if isContentChar ch then pure .text
  else parseErr InvalidChar

/-- `processDocStart`, `vtdxml/parser/process_doc_start.go:5-39`. In line 32 the error of
`nextCharAfterWs` is dropped. -/
def processDocStart : M Parser PState := do
  nextChar
  let p ← M.get
  if p.currentChar = ch% '<' then do
    markOffset
    let xml ← (skipChar (ch% '?') &&! (skipChar (ch% 'x') ||! skipChar (ch% 'X')) &&!
      (skipChar (ch% 'm') ||! skipChar (ch% 'M')) &&! (skipChar (ch% 'l') ||! skipChar (ch% 'L')))
    if xml then do
      let sp ← (skipChar (ch% ' ') ||! skipChar (ch% '\t') ||! skipChar (ch% '\n') ||!
        skipChar (ch% '\r'))
      if sp then do
        nextCharAfterWs
        markOffset
        pure .decAttrName
      else do
        let q ← skipChar (ch% '?')
        if q then parseErr "premature ending"
        else do
          M.modify fun p => { p with offset := p.lastOffset }
          pure .ltSeen
    else do
      M.modify fun p => { p with offset := p.lastOffset }
      pure .ltSeen
  else if p.currentChar = ch% ' ' ∨ p.currentChar = ch% '\t' ∨ p.currentChar = ch% '\n' ∨
      p.currentChar = ch% '\r' then do
    let ok ← M.catchErr (do nextCharAfterWs; pure true) (fun _ => pure false)
    let p ← M.get
    if ok ∧ p.currentChar = ch% '<' then pure .ltSeen else pure .invalid
  else pure .invalid

/-- `processDocEnd`, `vtdxml/parser/process_doc_end.go:5-19`. -/
def processDocEnd : M Parser PState := do
  nextCharAfterWs
  let p ← M.get
  if p.currentChar = ch% '<' then do
    let q ← skipChar (ch% '?')
    if q then do
      markOffset
      pure .piEnd
    else do
      let c ← skipCharSeq (str% "!--")
      if c then do
        markOffset
        pure .endComment
      else parseErr "XML not terminated properly"
  else parseErr "XML not terminated properly"

/-- Loop of `processDocType`, `vtdxml/parser/process_doc_type.go:10-27`. -/
def docTypeLoop : Nat → Int → M Parser Unit
  | 0, _ => M.diverge
  | fuel + 1, z => do
    let ch ← getChar
    if isValidChar ch then
      let z := if ch = ch% '>' then z - 1 else if ch = ch% '<' then z + 1 else z
      if z = 0 then pure () else docTypeLoop fuel z
    else parseErr "invalid char in DOCTYPE"

/-- `processDocType`, `vtdxml/parser/process_doc_type.go:8-40`. -/
def processDocType : M Parser PState := do
  let p ← M.get
  docTypeLoop p.loopFuel 1
  M.modify fun p => { p with length1 := p.offset - p.lastOffset - p.enc.increment }
  writeVtdWithLengthCheck .dtdVal "DTD value too long >0xFFFFF"
  nextCharAfterWs
  let p ← M.get
  if p.currentChar ≠ ch% '<' then parseErr InvalidChar else pure .ltSeen

/-- `if err != nil { return StateInvalid, NewInternalError(msg, err) }`. -/
def wrapInternal {α : Type} (msg : String) (m : M Parser α) : M Parser α :=
  M.catchErr m (fun e => M.raise (newInternalError msg (some e)))

/-- `processExSeen`, `vtdxml/parser/process_lt_seen.go:27-58`. -/
def processExSeen : M Parser PState := do
  let ch ← wrapInternal "failed to parse EX seen" getChar
  if ch = ch% '-' then do
    let s ← skipChar (ch% '-')
    if s then do
      markOffset
      pure .startComment
    else parseErr "invalid char sequence to start a comment"
  else if ch = ch% '[' then do
    validateSeq "CDATA[" (str% "CDATA[")
    markOffset
    pure .cdata
  else if ch = ch% 'D' then do
    validateSeq "DOCTYPE" (str% "DOCTYPE")
    markOffset
    pure .docType
  else parseErr "unrecognized char after <!"

/-- `processQmSeen`, `vtdxml/parser/process_lt_seen.go:60-87`. -/
def processQmSeen : M Parser PState := do
  markOffset
  let ch ← wrapInternal "failed to parse QM seen" getChar
  if isNameStartChar ch then do
    let xml ← (pure (ch = ch% 'x' ∨ ch = ch% 'X') &&! (skipChar (ch% 'm') ||! skipChar (ch% 'M')) &&!
      (skipChar (ch% 'l') ||! skipChar (ch% 'L')))
    if xml then do
      let ch ← getChar
      if ch = ch% '?' ∨ isSpaceChar ch then parseErr "[xX][mM][lL] not a valid PI target name"
      else do
        let offset ← getPrevOffset
        M.modify fun p => { p with offset := offset }
        pure .piTag
    else pure .piTag
  else parseErr "invalid first char after <?"

/-- `processLtSeen`, `vtdxml/parser/process_lt_seen.go:5-25`. -/
def processLtSeen : M Parser PState := do
  markOffset
  wrapInternal "failed to parse LT seen" nextChar
  let p ← M.get
  if isNameStartChar p.currentChar then do
    M.modify fun p => { p with depth := p.depth + 1 }
    pure .tagStart
  else if p.currentChar = ch% '/' then pure .tagEnd
  else if p.currentChar = ch% '!' then processExSeen
  else if p.currentChar = ch% '?' then processQmSeen
  else parseErr "invalid character after <"

/-- `processElementTail`, `vtdxml/parser/process_element_tail.go:5-44`. -/
def processElementTail : M Parser PState := do
  let p ← M.get
  if p.depth ≠ -1 then do
    markOffset
    nextCharAfterWs
    let p ← M.get
    if p.currentChar = ch% '<' then do
      recordWsIfSet
      let s ← skipChar (ch% '/')
      if s then do
        let p ← M.get
        if p.helper then do
          M.modify fun p => { p with length1 := p.offset - p.lastOffset - p.enc.increment * 2 }
          writeText .characterData
          pure .tagEnd
        else pure .tagEnd
      else pure .ltSeen
    else if isContentChar p.currentChar then pure .text
    else do
      handleOtherTextChar p.currentChar
      pure .text
  else pure .docEnd

/-- Name loop of `processStartTag`, `vtdxml/parser/process_start_tag.go:9-22`. -/
def startTagLoop : Nat → M Parser Unit
  | 0 => M.diverge
  | fuel + 1 => do
    nextChar
    let p ← M.get
    if isNameChar p.currentChar then
      if p.currentChar = ch% ':' then do
        M.modify fun p => { p with length2 := p.offset - p.lastOffset - p.enc.increment }
        let p ← M.get
        let bad ← (pure p.cfg.nsAware &&! checkXmlnsPrefix p.lastOffset p.length2 true)
        if bad then parseErr "XMLNS cannot be element prefix" else startTagLoop fuel
      else startTagLoop fuel
    else pure ()

/-- `p.tagStack[p.depth] = int64((p.length1 << 32) + p.lastOffset)`,
`vtdxml/parser/process_start_tag.go:29-30`. -/
def pushTag : M Parser Unit := do
  let p ← M.get
  match setAt p.tagStack p.depth
      ((BitVec.ofInt 64 p.length1 <<< 32) + BitVec.ofInt 64 p.lastOffset) with
  | some t => M.modify fun p => { p with tagStack := t }
  | none => M.panic

/-- Record of the start tag, `vtdxml/parser/process_start_tag.go:36-64`. -/
def writeStartTag : M Parser Unit := do
  let p ← M.get
  if p.enc.singleByteEncoding then
    if p.length2 > maxPrefixLength ∨ p.length1 > maxQnameLength then parseErr TagPrefixQnameTooLong
    else if p.cfg.shallowDepth then
      writeVtd .startingTag p.lastOffset (shlOr p.length2 1 p.length1) p.depth
    else writeVtdL5 .startingTag p.lastOffset (shlOr p.length2 1 p.length1) p.depth
  else
    if p.length2 > maxPrefixLength * 2 ∨ p.length1 > maxQnameLength * 2 then
      parseErr TagPrefixQnameTooLong
    else if p.cfg.shallowDepth then
      writeVtd .startingTag (p.lastOffset / 2) (shlOr p.length2 10 (p.length1 / 2)) p.depth
    else writeVtdL5 .startingTag (p.lastOffset / 2) (shlOr p.length2 10 (p.length1 / 2)) p.depth

/-- `int64(((length2 << 16) | length1) << 32) | int64(lastOffset)`,
`vtdxml/parser/process_start_tag.go:69`, `vtdxml/parser/process_attr_name.go:67`. -/
def nsRecord (length2 length1 lastOffset : Int) : BitVec 64 :=
  (((BitVec.ofInt 64 length2 <<< 16) ||| BitVec.ofInt 64 length1) <<< 32) |||
    BitVec.ofInt 64 lastOffset

/-- Namespace bookkeeping of a start tag, `vtdxml/parser/process_start_tag.go:66-83`. -/
def startTagNs : M Parser Unit := do
  let p ← M.get
  if p.cfg.nsAware then do
    if p.length2 ≠ 0 then
      M.modify fun p => { p with
        length2 := p.length2 + p.enc.increment,
        at_ := { p.at_ with
          currentElementRecord := nsRecord (p.length2 + p.enc.increment) p.length1 p.lastOffset } }
    else M.modify fun p => { p with at_ := { p.at_ with currentElementRecord := 0 } }
    let p ← M.get
    if p.depth ≤ p.ns.nsBuffer1.getSize - 1 then do
      M.modify fun p => { p with ns := { p.ns with nsBuffer1 := p.ns.nsBuffer1.setSize p.depth } }
      let t ← onNs1 (Paged.intAt (p.depth - 1))
      M.modify fun p => { p with
        ns := { p.ns with nsBuffer2 := p.ns.nsBuffer2.setSize (t + 1#32).toInt,
                          nsBuffer3 := p.ns.nsBuffer3.setSize (t + 1#32).toInt } }
    else pure ()
  else pure ()

/-- `p.nsBuffer1.Append(int32(p.nsBuffer3.GetSize() - 1))`,
`vtdxml/parser/process_start_tag.go:110`, `vtdxml/parser/process_attr_val.go:112`. -/
def pushNs1 : M Parser Unit := do
  let p ← M.get
  onNs1 (Paged.append (BitVec.ofInt 32 (p.ns.nsBuffer3.getSize - 1)))

/-- End of `processStartTag`, `vtdxml/parser/process_start_tag.go:98-121`. -/
def startTagEnd : M Parser PState := do
  M.modify fun p => { p with helper := true }
  let p ← M.get
  if p.currentChar = ch% '/' then do
    M.modify fun p => { p with depth := p.depth - 1, helper := false }
    let ch ← getChar
    M.modify fun p => { p with currentChar := ch }
  else pure ()
  let p ← M.get
  if p.currentChar = ch% '>' then do
    if p.cfg.nsAware then do
      pushNs1
      if p.at_.currentElementRecord ≠ 0 then qualifyElement else pure ()
    else pure ()
    processElementTail
  else parseErr "invalid char in starting tag"

/-- `processStartTag`, `vtdxml/parser/process_start_tag.go:8-122`. -/
def processStartTag : M Parser PState := do
  let p ← M.get
  startTagLoop p.loopFuel
  M.modify fun p => { p with length1 := p.offset - p.lastOffset - p.enc.increment }
  let p ← M.get
  if p.depth > maxDepth then parseErr MaximumDepthExceeded
  else do
    pushTag
    M.modify fun p => { p with vtdDepth := if p.depth > p.vtdDepth then p.depth else p.vtdDepth }
    writeStartTag
    startTagNs
    M.modify fun p => { p with length2 := 0 }
    let p ← M.get
    if isSpaceChar p.currentChar then do
      nextCharAfterWs
      let p ← M.get
      if isNameStartChar p.currentChar then do
        let offset ← getPrevOffset
        M.modify fun p => { p with lastOffset := offset }
        pure .attrName
      else startTagEnd
    else startTagEnd

/-- `processEndTag`, `vtdxml/parser/process_end_tag.go:5-50`. -/
def processEndTag : M Parser PState := do
  markOffset
  let p ← M.get
  let t ← M.index p.tagStack p.depth
  let sOffset := low32 t
  let sLength := high32 t
  setOffset (p.lastOffset + sLength)
  let p ← M.get
  if p.offset ≥ p.cfg.endOffset then M.raise (newEOFError XmlIncomplete)
  else do
    let same ← sameBytes sLength.toNat sOffset p.lastOffset
    if same then do
      M.modify fun p => { p with depth := p.depth - 1 }
      nextCharAfterWs
      let p ← M.get
      if p.currentChar ≠ ch% '>' then parseErr "invalid char in ending"
      else if p.depth ≠ -1 then do
        markOffset
        nextCharAfterWs
        let p ← M.get
        if p.currentChar = ch% '<' then do
          recordWsIfSet
          pure .ltSeen
        else if isContentChar p.currentChar then pure .text
        else do
          handleOtherTextChar p.currentChar
          pure .ltSeen
      else pure .docEnd
    else parseErr "start/end tag mismatch"

/-- Loop of `processText`, `vtdxml/parser/process_text.go:12-24`. -/
def textLoop : Nat → M Parser Unit
  | 0 => M.diverge
  | fuel + 1 => do
    nextChar
    let p ← M.get
    if isContentChar p.currentChar then textLoop fuel
    else if p.currentChar = ch% '<' then pure ()
    else do
      handleOtherTextChar p.currentChar
      textLoop fuel

/-- `processText`, `vtdxml/parser/process_text.go:8-37`. -/
def processText : M Parser PState := do
  let p ← M.get
  if p.depth < 0 then parseErr "text content at the wrong place"
  else do
    textLoop p.loopFuel
    M.modify fun p => { p with length1 := p.offset - p.enc.increment - p.lastOffset }
    writeText .characterData
    pure .ltSeen

/-- The ending of several process functions: mark the offset, skip white space and decide
from the next character (`vtdxml/parser/process_cdata.go:35-39` and copies). -/
def afterMarkup : M Parser PState := do
  markOffset
  nextCharAfterWs
  let p ← M.get
  getNextProcessStateFromChar p.currentChar

/-- Loop of `processCdata`, `vtdxml/parser/process_cdata.go:9-24`. -/
def cdataLoop : Nat → M Parser Unit
  | 0 => M.diverge
  | fuel + 1 => do
    nextChar
    let p ← M.get
    if isValidChar p.currentChar then
      if p.currentChar = ch% ']' then do
        skipBrackets p.loopFuel
        let s ← skipChar (ch% '>')
        if s then pure () else cdataLoop fuel
      else cdataLoop fuel
    else parseErr InvalidChar

/-- `processCdata`, `vtdxml/parser/process_cdata.go:8-40`. -/
def processCdata : M Parser PState := do
  let p ← M.get
  cdataLoop p.loopFuel
  M.modify fun p => { p with
    length1 := p.offset - p.lastOffset - p.enc.increment * 2 - p.enc.increment }
  writeText .cdataVal
  afterMarkup

/-- Loop of `processStartComment` (`vtdxml/parser/process_start_comment.go:9-20`) and
`processEndComment` (`vtdxml/parser/process_end_comment.go:9-20`). -/
def commentLoop : Nat → M Parser Unit
  | 0 => M.diverge
  | fuel + 1 => do
    nextChar
    let p ← M.get
    if isValidChar p.currentChar then do
      let e ← (pure (p.currentChar = ch% '-') &&! skipChar (ch% '-'))
      if e then
        M.modify fun p => { p with length1 := p.offset - p.lastOffset - p.enc.increment * 2 }
      else commentLoop fuel
    else parseErr InvalidChar

/-- `processStartComment`, `vtdxml/parser/process_start_comment.go:8-41`. -/
def processStartComment : M Parser PState := do
  let p ← M.get
  commentLoop p.loopFuel
  nextChar
  let p ← M.get
  if p.currentChar ≠ ch% '>' then parseErr "invalid terminating sequence"
  else do
    writeText .comment
    afterMarkup

/-- `processEndComment`, `vtdxml/parser/process_end_comment.go:8-34`. -/
def processEndComment : M Parser PState := do
  let p ← M.get
  commentLoop p.loopFuel
  let p ← M.get
  if p.currentChar ≠ ch% '>' then parseErr "invalid terminating sequence, --> expected"
  else do
    if p.enc.singleByteEncoding then writeVtdText .comment p.lastOffset p.length1 p.depth
    else writeVtd .comment (p.lastOffset / 2) (p.length1 / 2) p.depth
    pure .docEnd

/-- `for { nextChar; if !IsNameChar { break } }`, `vtdxml/parser/process_pi_tag.go:9-16`. -/
def nameLoop : Nat → M Parser Unit
  | 0 => M.diverge
  | fuel + 1 => do
    nextChar
    let p ← M.get
    if isNameChar p.currentChar then nameLoop fuel else pure ()

/-- `processPiTag`, `vtdxml/parser/process_pi_tag.go:8-42`. -/
def processPiTag : M Parser PState := do
  let p ← M.get
  nameLoop p.loopFuel
  M.modify fun p => { p with length1 := p.offset - p.lastOffset - p.enc.increment }
  writeVtdWithLengthCheck .piName "PI name too long >0xFFFFF"
  let p ← M.get
  if p.currentChar = ch% '?' then do
    writeAt .piVal 0
    let s ← skipChar (ch% '>')
    if s then afterMarkup else parseErr "invalid PI termination sequence"
  else pure .piVal

/-- Loop of `processPiVal`, `vtdxml/parser/process_pi_val.go:13-23`. -/
def piValLoop : Nat → M Parser Unit
  | 0 => M.diverge
  | fuel + 1 => do
    nextChar
    let p ← M.get
    if isValidChar p.currentChar then do
      let e ← (pure (p.currentChar = ch% '?') &&! skipChar (ch% '>'))
      if e then pure () else piValLoop fuel
    else parseErr "invalid char in PI value"

/-- `processPiVal`, `vtdxml/parser/process_pi_val.go:8-33`. -/
def processPiVal : M Parser PState := do
  let p ← M.get
  if isSpaceChar p.currentChar then do
    markOffset
    piValLoop p.loopFuel
    M.modify fun p => { p with length1 := p.offset - p.lastOffset - p.enc.increment * 2 }
    writeVtdWithLengthCheck .piVal "PI value too long (>0xFFFF"
    afterMarkup
  else parseErr "invalid termination sequence"

/-- `for { if !IsNameChar { break }; nextChar }`, `vtdxml/parser/process_pi_end.go:25-32`. -/
def piEndNameLoop : Nat → M Parser Unit
  | 0 => M.diverge
  | fuel + 1 => do
    let p ← M.get
    if isNameChar p.currentChar then do
      nextChar
      piEndNameLoop fuel
    else pure ()

/-- Value loop of `processPiEnd`, `vtdxml/parser/process_pi_end.go:43-53`. -/
def piEndValLoop : Nat → M Parser Unit
  | 0 => M.diverge
  | fuel + 1 => do
    let p ← M.get
    if isValidChar p.currentChar then do
      let e ← (pure (p.currentChar = ch% '?') &&! skipChar (ch% '>'))
      if e then pure ()
      else do
        nextChar
        piEndValLoop fuel
    else parseErr "invalid char in PI value"

/-- The target test of `processPiEnd`, `vtdxml/parser/process_pi_end.go:15-24`. -/
def piEndTarget : M Parser Unit := do
  let p ← M.get
  let xml ← (pure (p.currentChar = ch% 'x' ∨ p.currentChar = ch% 'X') &&!
    (skipChar (ch% 'm') ||! skipChar (ch% 'M')) &&! (skipChar (ch% 'l') ||! skipChar (ch% 'L')))
  if xml then do
    nextChar
    let p ← M.get
    if isSpaceChar p.currentChar ∨ p.currentChar = ch% '?' then
      parseErr "[xX][mM][lL] not a valid PI target"
    else pure ()
  else pure ()

/-- `processPiEnd`, `vtdxml/parser/process_pi_end.go:8-73`. The test in line 68 reports an
error when `?>` is complete. -/
def processPiEnd : M Parser PState := do
  nextChar
  let p ← M.get
  if isNameStartChar p.currentChar then do
    piEndTarget
    piEndNameLoop p.loopFuel
    M.modify fun p => { p with length1 := p.offset - p.lastOffset - p.enc.increment }
    writeVtdWithLengthCheck .piName "PI name too long (>0xFFFF)"
    markOffset
    let p ← M.get
    if isSpaceChar p.currentChar then do
      nextCharAfterWs
      piEndValLoop p.loopFuel
      M.modify fun p => { p with length1 := p.offset - p.lastOffset - p.enc.increment * 2 }
      writeVtdWithLengthCheck .piVal "PI value too long (>0xFFFF)"
      pure .docEnd
    else do
      writeAt .piVal 0
      let bad ← (pure (p.currentChar ≠ ch% '?') ||! skipChar (ch% '>'))
      if bad then parseErr "invalid termination sequence" else pure .docEnd
  else parseErr "invalid char in PI target"

end Parser
end GoVtd
