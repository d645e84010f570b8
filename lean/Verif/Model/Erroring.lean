import Verif.Model.Go

/-!
# Package `erroring`

Constructors of the typed errors and the part of `errors.As` that the library uses.
-/

namespace GoVtd

/-- Wrap an optional inner error (Go passes `nil` or an error to `newBaseError`).
Models `vtdxml/erroring/erroring.go:32-37`. -/
def mkErr (k : ErrKind) : Option GoErr → GoErr
  | none => .leaf k
  | some e => .wrap k e

/-- `NewInvalidArgumentError`, `vtdxml/erroring/erroring.go:69-78`. -/
def newInvalidArgumentError (param msg : String) (e : Option GoErr) : GoErr :=
  mkErr (.invalidArgument param msg) e

/-- `NewInternalError`, `vtdxml/erroring/erroring.go:90-97`. -/
def newInternalError (msg : String) (e : Option GoErr) : GoErr :=
  mkErr (.internal msg) e

/-- `NewParseError`, `vtdxml/erroring/erroring.go:108-117`. -/
def newParseError (msg : String) (line : Option (Int × Int)) (e : Option GoErr) : GoErr :=
  mkErr (.parse msg line) e

/-- `NewNavigationError`, `vtdxml/erroring/erroring.go:127-135`. The code builds a
`ParseError`. -/
def newNavigationError (msg : String) (e : Option GoErr) : GoErr :=
  mkErr (.parse msg none) e

/-- `NewEncodingError`, `vtdxml/erroring/erroring.go:145-153`. -/
def newEncodingError (msg : String) : GoErr := .leaf (.encoding msg)

/-- `NewDecodingError`, `vtdxml/erroring/erroring.go:163-171`. -/
def newDecodingError (msg : String) : GoErr := .leaf (.decoding msg)

/-- `NewEntityError`, `vtdxml/erroring/erroring.go:181-189`. -/
def newEntityError (msg : String) : GoErr := .leaf (.entity msg)

/-- `NewEOFError`, `vtdxml/erroring/erroring.go:198-206`. -/
def newEOFError (msg : String) : GoErr := .leaf (.eof msg)

/-- `NewModifyError`, `vtdxml/erroring/erroring.go:215-223`. -/
def newModifyError (msg : String) : GoErr := .leaf (.modify msg)

/-- The concrete Go type of an error, `vtdxml/erroring/erroring.go:7-21,61-212`. -/
inductive ErrType where
  | invalidArgument | internal | parse | navigation | encoding | decoding | entity | eof
  | modify
  deriving DecidableEq, Repr

/-- Go type of an error node (`vtdxml/erroring/erroring.go:57-212`). -/
def ErrKind.type : ErrKind → ErrType
  | .invalidArgument _ _ => .invalidArgument
  | .internal _ => .internal
  | .parse _ _ => .parse
  | .navigation _ => .navigation
  | .encoding _ => .encoding
  | .decoding _ => .decoding
  | .entity _ => .entity
  | .eof _ => .eof
  | .modify _ => .modify

/-- Outermost node of an error. -/
def GoErr.kind : GoErr → ErrKind
  | .leaf k => k
  | .wrap k _ => k

/-- `Unwrap`, `vtdxml/erroring/erroring.go:47-55`. -/
def GoErr.unwrap : GoErr → Option GoErr
  | .leaf _ => none
  | .wrap _ e => some e

/-- `errors.As(err, &T)` of the Go standard library: walks the chain of `Unwrap` and
succeeds at the first node of type `t`. Used in `vtdxml/parser/parse.go:70`. Not
modelled: the write of the found node to the global variable `EOFErrorType`. -/
def GoErr.as (t : ErrType) : GoErr → Bool
  | .leaf k => k.type == t
  | .wrap k e => k.type == t || e.as t

/-! Message constants, `vtdxml/erroring/messages.go:3-19`. -/

def CannotBeNil := "cannot be nil"
def IndexOutOfRange := "array index out of range"
def InvalidSliceLength := "invalid slice length"
def InvalidBufferPageSize := "invalid buffer page size"
def InvalidChar := "invalid character"
def MaximumDepthExceeded := "maximum depth exceeded"
def TagPrefixQnameTooLong := "starting tag prefix or QNAME length too long"
def InvalidCharInText := "invalid char in text content"
def IllegalBuiltInEntity := "illegal build-in entity reference"
def XmlIncomplete := "XML document incomplete"
def AttrNotUnique := "attribute name not unique"
def AttrNamePrefixQnameTooLong := "attribute name prefix or QNAME length too long"
def AttrNsPrefixQnameTooLong := "attribute namespace tag prefix or QNAME length too long"
def NonDefaultNsEmpty := "non-default namespace cannot be empty"
def AttrValueTooLong := "attribute value is too long"

end GoVtd
