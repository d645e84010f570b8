import Verif.Model.Nav

/-!
# Packages `modifier` and `pilot` (and the empty package `expresion`)
-/

namespace GoVtd

/-- A value of the interface type `navigation.Nav` as the two `WithNavigation` options see
it: the nil interface, an interface holding a nil `*VtdNav` (what a caller gets by passing
on the first result of `GetNav`, `vtdxml/parser/get_nav.go:6-9`), or a navigator. -/
inductive NavArg where
  | nil
  | nilPointer
  | nav (n : VtdNav)
  deriving Repr

/-- `XmlModifier`, `vtdxml/modifier/xml_modifier.go:12-19`. -/
structure XmlModifier where
  nav : Option VtdNav
  longBuffer : FastLongBuffer
  objBuffer : FastObjectBuffer Unit
  insertHash : Option IntHash
  deleteHash : Option IntHash
  encoding : Int
  charset : String

/-- `getCharsetFromEncoding`, `vtdxml/modifier/xml_modifier.go:62-71`. -/
def getCharsetFromEncoding (enc : Int) : Except GoErr String :=
  if enc = FormatAscii then .ok "ASCII"
  else if enc = FormatUtf8 then .ok "UTF8"
  else .error (newModifyError "Master document encoding not yet supported by XML modifier")

/-- `WithNavigation`, `vtdxml/modifier/xml_modifier.go:21-37`. The call of
`GetVtdBufferSize` on a nil pointer panics (`vtdxml/navigation/common.go:136-138`). -/
def XmlModifier.withNavigation : NavArg → M XmlModifier Unit
  | .nil => M.raise (newInvalidArgumentError "nav" CannotBeNil none)
  | .nilPointer => M.panic
  | .nav n => do
    M.modify fun m => { m with
      nav := some n,
      insertHash := some (newIntHash [n.getVtdBufferSize]),
      deleteHash := some (newIntHash [n.getVtdBufferSize]),
      encoding := n.getEncoding }
    match getCharsetFromEncoding n.getEncoding with
    | .error e => M.raise e
    | .ok cs => M.modify fun m => { m with charset := cs }

/-- `NewXmlModifier`, `vtdxml/modifier/xml_modifier.go:39-60`, with `WithNavigation` options
(the only option there is). The two buffer constructors run without options and cannot
fail (`Verif/Proofs/Buffer.lean`). The modifier built is the final state. -/
def newXmlModifier (navs : List NavArg) : Res XmlModifier Unit :=
  Paged.runOpts (navs.map XmlModifier.withNavigation)
    { nav := none, longBuffer := Paged.dflt, objBuffer := Paged.dflt, insertHash := none,
      deleteHash := none, encoding := 0, charset := "" }

/-- `IterationType`, `vtdxml/pilot/common.go:3-22`; only the first constant is used. -/
inductive IterationType where
  | undefined | simple | simpleNs | descending | descendingNs | following | followingNs
  | preceding | precedingNs | attr | attrNs | namespace | simpleNode | descendantNode
  | followingNode | precedingNode
  deriving DecidableEq, Repr

/-- `AutoPilot`, `vtdxml/pilot/auto_pilot.go:12-21`. The fields no code sets (`name`,
`special`, `size`, `intBuffer`, `exp`, `symbolMap`) are left out. -/
structure AutoPilot where
  nav : NavArg
  iterType : IterationType
  ft : Bool
  enableCaching : Bool

/-- Options of `NewAutoPilot`, `vtdxml/pilot/auto_pilot.go:23-38`. -/
inductive PilotOption where
  | navigation (n : NavArg)
  | caching (enable : Bool)

/-- Effect of one option, `vtdxml/pilot/auto_pilot.go:23-38`. An interface holding a nil
pointer is stored. -/
def PilotOption.run : PilotOption → M AutoPilot Unit
  | .navigation .nil => M.raise (newInvalidArgumentError "nav" CannotBeNil none)
  | .navigation n => M.modify fun p => { p with nav := n }
  | .caching b => M.modify fun p => { p with enableCaching := b }

/-- `NewAutoPilot`, `vtdxml/pilot/auto_pilot.go:40-53`. -/
def newAutoPilot (opts : List PilotOption) : Res AutoPilot Unit :=
  Paged.runOpts (opts.map PilotOption.run)
    { nav := .nil, iterType := .undefined, ft := true, enableCaching := true }

end GoVtd
