import Verif.Model.Parser.Attr

/-!
# Package `parser`: the XML declaration (`process_dec_attr_name.go`)
-/

namespace GoVtd
namespace Parser

/-- `!p.skipCharSeq(s) && !p.skipCharSeq(strings.ToUpper(s))`, negated: some spelling was
skipped. A failed first attempt keeps what it has consumed. -/
def skipSeqOrUpper (seq : List Nat) : M Parser Bool :=
  skipCharSeq seq ||! skipCharSeq (seq.map toUpperChar)

/-- `p.encoding < FormatUtf16BE || p.encoding == FormatUtf16LE || p.mustUtf8`. -/
def encodingFixed (p : Parser) : Bool :=
  p.enc.encoding < FormatUtf16BE || p.enc.encoding == FormatUtf16LE || p.enc.mustUtf8

/-- `r, err := reader.NewAsciiReader(p.xmlDoc, p.offset, p.endOffset); …; p.reader = r`,
`vtdxml/parser/process_dec_attr_name.go:247-252`. -/
def switchToAscii : M Parser Unit := do
  M.modify fun p => { p with enc := { p.enc with encoding := FormatAscii } }
  let p ← M.get
  match Reader.newAscii (some p.cfg.xmlDoc) p.offset p.cfg.endOffset with
  | .error e => M.raise e
  | .ok r => M.modify fun p => { p with rd := r }

/-- `checkAsciiEncoding`, `vtdxml/parser/process_dec_attr_name.go:240-257`. -/
def checkAsciiEncoding : M Parser Unit := do
  let s ← skipSeqOrUpper (str% "scii")
  if s then do
    let p ← M.get
    if encodingFixed p then parseErr "cannot switch document encoding to ASCII"
    else do
      switchToAscii
      writeVtd .decAttrVal p.lastOffset 5 p.depth
  else parseErr "invalid document encoding"

/-- `checkUsAsciiEncoding`, `vtdxml/parser/process_dec_attr_name.go:259-276`. -/
def checkUsAsciiEncoding : M Parser Unit := do
  let s ← skipSeqOrUpper (str% "-ascii")
  if s then do
    let p ← M.get
    if encodingFixed p then parseErr "cannot switch document encoding to US-ASCII"
    else do
      switchToAscii
      writeVtd .decAttrVal p.lastOffset 8 p.depth
  else parseErr "invalid document encoding"

/-- `setIsoEncoding`, `vtdxml/parser/process_dec_attr_name.go:459-462`: a stub. -/
def setIsoEncoding : M Parser Int := pure 0

/-- `setWinEncoding`, `vtdxml/parser/process_dec_attr_name.go:389-457`: a stub. -/
def setWinEncoding : M Parser Unit := pure ()

/-- `checkIsoEncoding`, `vtdxml/parser/process_dec_attr_name.go:278-293`. -/
def checkIsoEncoding : M Parser Unit := do
  let s ← skipSeqOrUpper (str% "so-8859-")
  if s then do
    let p ← M.get
    if encodingFixed p then parseErr "cannot switch document encoding to ISO8859x"
    else do
      let length ← setIsoEncoding
      writeVtd .decAttrVal p.lastOffset length p.depth
  else parseErr "invalid document encoding"

/-- `checkUtfEncoding`, `vtdxml/parser/process_dec_attr_name.go:295-355`. -/
def checkUtfEncoding : M Parser Unit := do
  let tf ← skipCharSeqIgnoreCase (str% "tf-")
  if tf then do
    let eight ← skipChar (ch% '8')
    if eight then do
      let p ← M.get
      if p.enc.singleByteEncoding then writeVtd .decAttrVal p.lastOffset 5 p.depth
      else parseErr "cannot switch document encoding to UTF-8"
    else do
      let sixteen ← skipCharSeqIgnoreCase (str% "16")
      if sixteen then do
        let le ← skipCharSeqIgnoreCase (str% "le")
        if le then do
          let p ← M.get
          if p.enc.encoding = FormatUtf16LE then
            writeVtd .decAttrVal (p.lastOffset / 2) 8 p.depth
          else parseErr "cannot switch document encoding to UTF-16LE"
        else do
          let be ← skipCharSeqIgnoreCase (str% "be")
          let p ← M.get
          if be then
            if p.enc.encoding = FormatUtf16BE then
              writeVtd .decAttrVal (p.lastOffset / 2) 8 p.depth
            else parseErr "cannot switch document encoding to UTF-16BE"
          else if !p.enc.singleByteEncoding then
            if !p.enc.bomDetected then parseErr "BOM not detected for UTF-16"
            else writeVtd .decAttrVal (p.lastOffset / 2) 6 p.depth
          else parseErr "cannot switch document encoding to UTF-16"
      else parseErr "invalid document encoding"
  else parseErr "invalid document encoding"

/-- `checkCpEncoding`, `vtdxml/parser/process_dec_attr_name.go:357-371`. -/
def checkCpEncoding : M Parser Unit := do
  let s ← skipSeqOrUpper (str% "p125")
  if s then do
    let p ← M.get
    if p.enc.encoding > FormatUtf16LE ∨ p.enc.mustUtf8 then
      parseErr "cannot switch document encoding to CP125x"
    else do
      setWinEncoding
      writeVtd .decAttrVal p.lastOffset 6 p.depth
  else parseErr "invalid document encoding"

/-- `checkWindowsEncoding`, `vtdxml/parser/process_dec_attr_name.go:373-387`. -/
def checkWindowsEncoding : M Parser Unit := do
  let s ← skipSeqOrUpper (str% "indows-125")
  if s then do
    let p ← M.get
    if p.enc.encoding > FormatUtf16LE ∨ p.enc.mustUtf8 then
      parseErr "cannot switch document encoding to WINDOWS-125x"
    else do
      setWinEncoding
      writeVtd .decAttrVal p.lastOffset 12 p.depth
  else parseErr "invalid document encoding"

/-- The `switch` on the first character of the encoding name,
`vtdxml/parser/process_dec_attr_name.go:138-167`. -/
def checkEncodingName : M Parser Unit := do
  let p ← M.get
  if p.currentChar = ch% 'a' ∨ p.currentChar = ch% 'A' then checkAsciiEncoding
  else if p.currentChar = ch% 'c' ∨ p.currentChar = ch% 'C' then checkCpEncoding
  else if p.currentChar = ch% 'i' ∨ p.currentChar = ch% 'I' then checkIsoEncoding
  else if p.currentChar = ch% 'u' ∨ p.currentChar = ch% 'U' then do
    let us ← skipChar (ch% 's')
    if us then checkUsAsciiEncoding else checkUtfEncoding
  else if p.currentChar = ch% 'w' ∨ p.currentChar = ch% 'W' then checkWindowsEncoding
  else parseErr "invalid document encoding"

/-- `if p.currentChar != '\'' && p.currentChar != '"' { return … }`. -/
def expectQuote : M Parser Unit := do
  let p ← M.get
  if p.currentChar ≠ ch% '\'' ∧ p.currentChar ≠ ch% '"' then
    parseErr "invalid char to start attribute name"
  else pure ()

/-- `nextCharAfterWs` followed by the test for `'='`. -/
def expectEq : M Parser Unit := do
  nextCharAfterWs
  let p ← M.get
  if p.currentChar ≠ ch% '=' then parseErr InvalidChar else pure ()

/-- `processDecEncodingAttr`, `vtdxml/parser/process_dec_attr_name.go:112-179`. -/
def processDecEncodingAttr : M Parser Unit := do
  expectEq
  writeAt .decAttrName 8
  nextCharAfterWs
  expectQuote
  markOffset
  nextChar
  checkEncodingName
  nextChar
  expectQuote
  nextCharAfterWs
  M.modify fun p => { p with lastOffset := p.offset - p.enc.increment }

/-- `processDecStandaloneAttr`, `vtdxml/parser/process_dec_attr_name.go:181-238`. -/
def processDecStandaloneAttr : M Parser Unit := do
  expectEq
  writeAt .decAttrName 10
  nextCharAfterWs
  markOffset
  expectQuote
  let yes ← skipCharSeq (str% "yes")
  if yes then writeAt .decAttrVal 3
  else do
    let no ← skipCharSeq (str% "no")
    if no then writeAt .decAttrVal 2
    else parseErr "invalid value for attribute standalone (valid options are yes or no)"
  nextChar
  expectQuote
  nextCharAfterWs

/-- The `version` part, `vtdxml/parser/process_dec_attr_name.go:28-73`. -/
def decVersion : M Parser Unit := do
  let p ← M.get
  let v ← (pure (p.currentChar = ch% 'v') &&! skipCharSeq (str% "ersion"))
  if v then do
    expectEq
    let p ← M.get
    if p.enc.singleByteEncoding then writeVtd .decAttrName (p.lastOffset - 1) 7 p.depth
    else writeVtd .decAttrName ((p.lastOffset - 2) / 4) 7 p.depth
    nextCharAfterWs
    expectQuote
    markOffset
    let one ← (skipCharSeq (str% "1.") &&! (skipChar (ch% '0') ||! skipChar (ch% '1')))
    if one then writeAt .decAttrVal 3
    else parseErr "invalid version detected (supported 1.0 or 1.1)"
    let p ← M.get
    let q ← skipChar p.currentChar
    if q then nextChar else parseErr "version not terminated properly"
  else parseErr "declaration should be version"

/-- The optional parts, `vtdxml/parser/process_dec_attr_name.go:75-96`. -/
def decOptional : M Parser Unit := do
  let p ← M.get
  if isSpaceChar p.currentChar then do
    nextCharAfterWs
    M.modify fun p => { p with lastOffset := p.offset - p.enc.increment }
    let p ← M.get
    if p.currentChar = ch% 'e' then do
      let e ← skipCharSeq (str% "ncoding")
      if e then processDecEncodingAttr else parseErr "declaration should be encoding"
    else pure ()
    let p ← M.get
    if p.currentChar = ch% 's' then do
      let s ← skipCharSeq (str% "tandalone")
      if s then processDecStandaloneAttr else parseErr "declaration should be standalone"
    else pure ()
  else pure ()

/-- `processDecAttrName`, `vtdxml/parser/process_dec_attr_name.go:27-110`. -/
def processDecAttrName : M Parser PState := do
  decVersion
  decOptional
  let p ← M.get
  let e ← (pure (p.currentChar = ch% '?') &&! skipChar (ch% '>'))
  if e then do
    markOffset
    nextCharAfterWs
    let p ← M.get
    if p.currentChar = ch% '<' then pure .ltSeen else parseErr InvalidChar
  else parseErr "invalid termination sequence"

end Parser
end GoVtd
