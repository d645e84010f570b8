import Verif.Model.Parser.Decl
import Verif.Model.Nav

/-!
# Package `parser`: construction, `Parse`, `GetNav`, `Clear`
-/

namespace GoVtd

/-- The options of `NewVtdParser`, `vtdxml/parser/vtd_parser.go:61-100`. `none` is the nil
slice. -/
inductive ParserOption where
  | xmlDoc (doc : Option (List UInt8))
  | xmlDocCustomOffset (doc : Option (List UInt8)) (offset length : Int)
  | nameSpaceAware (nsAware : Bool)
  | bufferReuse (br : Bool)
  | lcDepth (depth : Int)
  deriving Repr

/-- The fields the options write, with their values before the options run
(`vtdxml/parser/vtd_parser.go:105-117`). -/
structure ParserArgs where
  doc : Option (List UInt8) := none
  offset : Int := 0
  length : Int := 0
  endOffset : Int := 0
  nsAware : Bool := false
  shallowDepth : Bool := true
  deriving Repr

/-- Effect of one option: `WithXmlDoc` (lines 61-69), `WithXmlDocCustomOffset` (71-78),
`WithNameSpaceAware` (80-84), `WithBufferReuse` (86-90, the field is never read) and
`WithLcDepth` (92-100) of `vtdxml/parser/vtd_parser.go`. `len(doc)` is a Go `int`, hence
the `wrap64`: it is the identity on the length of every Go slice. -/
def ParserArgs.apply (a : ParserArgs) : ParserOption → ParserArgs
  | .xmlDoc doc =>
    let n : Int := wrap64 (doc.getD []).length
    { a with doc := doc, offset := 0, length := n, endOffset := n }
  | .xmlDocCustomOffset doc offset length =>
    { a with doc := doc, offset := offset, length := length, endOffset := wrap64 (offset + length) }
  | .nameSpaceAware b => { a with nsAware := b }
  | .bufferReuse _ => a
  | .lcDepth d =>
    if d = 3 then { a with shallowDepth := true }
    else if d = 5 then { a with shallowDepth := false }
    else a

/-- A buffer from `NewFastLongBuffer` or `NewFastIntBuffer` with one page-size option with
a small non-negative exponent (`vtdxml/parser/init.go`); these calls cannot fail
(`Verif/Proofs/Buffer.lean`, `newLong_small`). -/
def freshBuffer (α : Type) (exp : Nat) : Paged α := Paged.withPageSize exp Paged.dflt

/-- Page-size exponents `(vtd, l1, l2, l3)` of `initWithShallowDepth`,
`vtdxml/parser/init.go:52-76`. -/
def shallowSizes (docLength : Int) : Nat × Nat × Nat × Nat :=
  if docLength ≤ 1024 then (6, 5, 5, 5)
  else if docLength ≤ 4096 then (7, 6, 6, 6)
  else if docLength ≤ 1024 * 16 then (8, 7, 7, 7)
  else if docLength ≤ 1024 * 16 * 4 then (11, 8, 9, 11)
  else if docLength ≤ 1024 * 256 then (12, 8, 9, 11)
  else (15, 8, 9, 11)

/-- Page-size exponents `(vtd, l1, l2, l3, l4, l5)` of `initWithoutShallowDepth`,
`vtdxml/parser/init.go:113-152`. -/
def deepSizes (docLength : Int) : Nat × Nat × Nat × Nat × Nat × Nat :=
  if docLength ≤ 1024 then (6, 5, 5, 5, 5, 5)
  else if docLength ≤ 4096 then (7, 6, 6, 6, 6, 6)
  else if docLength ≤ 1024 * 16 then (8, 7, 7, 7, 7, 7)
  else if docLength ≤ 1024 * 16 * 4 then (11, 7, 8, 8, 8, 8)
  else if docLength ≤ 1024 * 256 then (12, 8, 9, 9, 9, 9)
  else (15, 7, 9, 11, 11, 11)

/-- The result buffers made by `init`, `vtdxml/parser/init.go:39-47,52-203`. -/
def initOut (shallow : Bool) (docLength : Int) : ParserOut :=
  let mk := freshBuffer (BitVec 64)
  let (v, a, b, c, d, e) :=
    if shallow then
      let (v, a, b, c) := shallowSizes docLength
      (v, a, b, c, 0, 0)
    else deepSizes docLength
  { vtdBuffer := mk v, l1Buffer := mk a, l2Buffer := mk b, l3Buffer := mk c, l4Buffer := mk d,
    l5Buffer := mk e, rootIndex := 0, lastL1Index := 0, lastL2Index := 0, lastL3Index := 0,
    lastL4Index := 0, lastDepth := 0 }

/-- `init` (`vtdxml/parser/init.go:8-50`) on the fields set by the options: the complete
initial parser. -/
def initParser (fuel : Nat) (doc : List UInt8) (a : ParserArgs) (rd : Reader) : Parser :=
  { cfg := { xmlDoc := doc, docOffset := a.offset, endOffset := a.endOffset, length := a.length,
             docLength := a.length, nsAware := a.nsAware, shallowDepth := a.shallowDepth,
             matchFuel := fuel },
    enc := { encoding := FormatAscii, increment := 1, singleByteEncoding := true,
             bomDetected := false, mustUtf8 := false },
    rd := rd, offset := a.offset, lastOffset := 0, length1 := 0, length2 := 0, depth := -1,
    vtdDepth := 0, currentChar := 0, helper := false, ws := false,
    tagStack := List.replicate 256 0,
    at_ := { attrCount := 0, prefixedAttCount := 0, attrNameSlice := List.replicate 256 0,
             prefixedAttrNameSlice := List.replicate 256 0,
             prefixUrlSlice := List.replicate 256 0, isNs := false, defaultNs := false,
             isXml := false, currentElementRecord := 0 },
    out := initOut a.shallowDepth a.length,
    ns := { nsBuffer1 := freshBuffer (BitVec 32) 6, nsBuffer2 := freshBuffer (BitVec 64) 6,
            nsBuffer3 := freshBuffer (BitVec 64) 6 } }

/-- `NewVtdParser`, `vtdxml/parser/vtd_parser.go:104-141`. `fuel` is for `matchUrl` only. -/
def newVtdParser (fuel : Nat) (opts : List ParserOption) : Except GoErr Parser :=
  let a := opts.foldl ParserArgs.apply {}
  match a.doc with
  | none => .error (newInvalidArgumentError "xmlDoc" CannotBeNil none)
  | some doc =>
    if doc.length = 0 then
      .error (newInvalidArgumentError "xmlDoc" "document cannot be empty" none)
    else if a.offset < 0 then
      .error (newInvalidArgumentError "offset" IndexOutOfRange none)
    else if a.length = 0 ∨ wrap64 (a.offset + a.length) > doc.length then
      .error (newInvalidArgumentError "length" InvalidSliceLength none)
    else match Reader.newUtf8 (some doc) a.offset a.endOffset with
      | .error e => .error e
      | .ok rd => .ok (initParser fuel doc a rd)

namespace Parser

/-- `finishUp`, `vtdxml/parser/parse.go:84-104`. -/
def finishUp : M Parser Unit := do
  let p ← M.get
  if p.cfg.shallowDepth then
    if p.out.lastDepth = 1 ∨ p.out.lastDepth = 2 then flushLeaf p.out.lastDepth else pure ()
  else flushLeaf p.out.lastDepth

/-- The `switch` of `Parse`, `vtdxml/parser/parse.go:31-68`. -/
def step : PState → M Parser PState
  | .docType => processDocType
  | .docStart => processDocStart
  | .docEnd => processDocEnd
  | .ltSeen => processLtSeen
  | .tagStart => processStartTag
  | .tagEnd => processEndTag
  | .attrName => processAttrName
  | .attrVal => processAttrVal
  | .decAttrName => processDecAttrName
  | .text => processText
  | .piTag => processPiTag
  | .piVal => processPiVal
  | .piEnd => processPiEnd
  | .startComment => processStartComment
  | .endComment => processEndComment
  | .cdata => processCdata
  | .invalid => parseErr "invalid parser state"

/-- What `Parse` does with an error in state `st`, `vtdxml/parser/parse.go:70-77`: an
end-of-file error in the state after the root element ends the parse. -/
def onStepErr (st : PState) (e : GoErr) : M Parser (Option PState) :=
  if e.as .eof ∧ st = .docEnd then do
    wrapInternal "failed to finish-up document parsing" finishUp
    pure none
  else M.raise e

/-- The `for` loop of `Parse`, `vtdxml/parser/parse.go:26-80`. Not modelled: the two
`fmt.Printf` calls in lines 27-29. -/
def mainLoop : Nat → PState → M Parser Unit
  | 0, _ => M.diverge
  | fuel + 1, st => do
    let next ← M.catchErr (do let st' ← step st; pure (some st')) (onStepErr st)
    match next with
    | none => pure ()
    | some st' => mainLoop fuel st'

/-- `Parse`, `vtdxml/parser/parse.go:14-81`. -/
def parse : M Parser Unit := do
  decideEncoding
  let p ← M.get
  writeVtd .document 0 0 p.depth
  mainLoop p.loopFuel .docStart

/-- `GetNav`, `vtdxml/parser/get_nav.go:6-9`: `nil, nil`. -/
def getNav : M Parser (Option VtdNav) := pure none

/-- `Clear`, `vtdxml/parser/clear.go:3-6`. -/
def clear : M Parser Unit := pure ()

end Parser
end GoVtd
