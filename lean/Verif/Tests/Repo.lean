import Verif.Spec.Window
import Verif.Model.Nav

/-!
# The unit tests of the repository, run on the model

Nothing here is a proof of a property. The expected values are those of the `_test.go` files
under `/repo/vtdxml`; each `example` evaluates the model on the input of the test. They guard
the transcription, since the Go code itself could not be run.
Left out: two range tests of length 999999, the larger documents of `parse_test.go` (they give the expected result when the
model is evaluated, but take the kernel too long) and the loops over 1024 and 4096 elements of the
buffer tests, which are instances of C01 and C02.
-/

namespace GoVtd.Tests

set_option maxRecDepth 100000

/-- Message and kind of the error of a call, `none` without an error. -/
def errOf {σ α : Type} : Res σ α → Option ErrKind
  | .err e _ => some e.kind
  | _ => none

/-- Value of a call, `none` without a value. -/
def valOf {σ α : Type} : Res σ α → Option α
  | .ok a _ => some a
  | _ => none

/-- `assert.Nil(t, parser.Parse())`. -/
def accepted (ns : Bool) (doc : List UInt8) : Bool :=
  match parseResult 10000 [.xmlDoc (some doc), .nameSpaceAware ns] with
  | .value _ => true
  | _ => false

/-- `assert.EqualError(t, err, ...)` for a parse error. -/
def refused (msg : String) (doc : List UInt8) : Bool :=
  match parseResult 10000 [.xmlDoc (some doc), .nameSpaceAware false] with
  | .error e => match e.kind with
    | .parse m _ => m == msg
    | _ => false
  | _ => false

/-! ## `vtdxml/parser/parse_test.go` -/

/-- `testdata/xml_valid/mirs.095.001.01.no_snl.golden`. -/
def mirs_095_001_01_no_snl : List UInt8 :=
  [60, 68, 111, 99, 117, 109, 101, 110, 116, 32, 120, 109, 108, 110, 115, 61, 34, 117, 114, 110,
   58, 115, 119, 105, 102, 116, 58, 120, 115, 100, 58, 109, 105, 114, 115, 46, 48, 57, 53, 46,
   48, 48, 49, 46, 48, 49, 34, 62, 13, 10, 9, 60, 65, 99, 116, 118, 116, 110, 68, 101, 97, 99,
   116, 118, 116, 110, 62, 13, 10, 9, 9, 60, 77, 115, 103, 73, 100, 62, 97, 115, 100, 97, 115,
   100, 60, 47, 77, 115, 103, 73, 100, 62, 13, 10, 9, 9, 60, 68, 116, 65, 110, 100, 84, 109, 62,
   50, 48, 50, 49, 45, 48, 56, 45, 51, 48, 84, 48, 51, 58, 48, 52, 58, 48, 54, 46, 48, 48, 48,
   43, 48, 49, 58, 48, 48, 60, 47, 68, 116, 65, 110, 100, 84, 109, 62, 13, 10, 9, 9, 60, 65, 99,
   116, 118, 116, 110, 68, 101, 97, 99, 116, 118, 116, 110, 62, 68, 69, 65, 67, 60, 47, 65, 99,
   116, 118, 116, 110, 68, 101, 97, 99, 116, 118, 116, 110, 62, 13, 10, 9, 60, 47, 65, 99, 116,
   118, 116, 110, 68, 101, 97, 99, 116, 118, 116, 110, 62, 13, 10, 60, 47, 68, 111, 99, 117, 109,
   101, 110, 116, 62, 13, 10]

example : accepted false mirs_095_001_01_no_snl = true := by decide +kernel
example : accepted true mirs_095_001_01_no_snl = true := by decide +kernel

/-- `testdata/xml_valid/mirs.095.001.01.golden`. -/
def mirs_095_001_01 : List UInt8 :=
  [60, 63, 120, 109, 108, 32, 118, 101, 114, 115, 105, 111, 110, 61, 34, 49, 46, 48, 34, 32, 101,
   110, 99, 111, 100, 105, 110, 103, 61, 34, 85, 84, 70, 45, 56, 34, 32, 115, 116, 97, 110, 100,
   97, 108, 111, 110, 101, 61, 34, 121, 101, 115, 34, 63, 62, 13, 10, 60, 83, 119, 73, 110, 116,
   58, 69, 120, 99, 104, 97, 110, 103, 101, 82, 101, 113, 117, 101, 115, 116, 32, 120, 109, 108,
   110, 115, 58, 83, 119, 61, 34, 117, 114, 110, 58, 115, 119, 105, 102, 116, 58, 115, 110, 108,
   58, 110, 115, 46, 83, 119, 34, 13, 10, 32, 32, 32, 32, 32, 32, 32, 32, 32, 32, 32, 32, 32, 32,
   32, 32, 32, 32, 32, 32, 32, 32, 32, 120, 109, 108, 110, 115, 58, 83, 119, 73, 110, 116, 61,
   34, 117, 114, 110, 58, 115, 119, 105, 102, 116, 58, 115, 110, 108, 58, 110, 115, 46, 83, 119,
   73, 110, 116, 34, 13, 10, 32, 32, 32, 32, 32, 32, 32, 32, 32, 32, 32, 32, 32, 32, 32, 32, 32,
   32, 32, 32, 32, 32, 32, 120, 109, 108, 110, 115, 58, 83, 119, 83, 101, 99, 61, 34, 117, 114,
   110, 58, 115, 119, 105, 102, 116, 58, 115, 110, 108, 58, 110, 115, 46, 83, 119, 83, 101, 99,
   34, 62, 13, 10, 32, 32, 32, 32, 60, 83, 119, 73, 110, 116, 58, 82, 101, 113, 117, 101, 115,
   116, 62, 13, 10, 32, 32, 32, 32, 32, 32, 32, 32, 60, 83, 119, 73, 110, 116, 58, 82, 101, 113,
   117, 101, 115, 116, 72, 101, 97, 100, 101, 114, 62, 13, 10, 32, 32, 32, 32, 32, 32, 32, 32,
   32, 32, 32, 32, 60, 83, 119, 73, 110, 116, 58, 82, 101, 113, 117, 101, 115, 116, 111, 114, 62,
   111, 117, 61, 120, 120, 120, 44, 111, 61, 99, 105, 116, 105, 117, 115, 51, 51, 44, 111, 61,
   115, 119, 105, 102, 116, 60, 47, 83, 119, 73, 110, 116, 58, 82, 101, 113, 117, 101, 115, 116,
   111, 114, 62, 13, 10, 32, 32, 32, 32, 32, 32, 32, 32, 32, 32, 32, 32, 60, 83, 119, 73, 110,
   116, 58, 82, 101, 115, 112, 111, 110, 100, 101, 114, 62, 111, 117, 61, 120, 120, 120, 44, 111,
   61, 99, 105, 116, 105, 117, 115, 51, 51, 44, 111, 61, 115, 119, 105, 102, 116, 60, 47, 83,
   119, 73, 110, 116, 58, 82, 101, 115, 112, 111, 110, 100, 101, 114, 62, 13, 10, 32, 32, 32, 32,
   32, 32, 32, 32, 32, 32, 32, 32, 60, 83, 119, 73, 110, 116, 58, 83, 101, 114, 118, 105, 99,
   101, 62, 115, 119, 105, 102, 116, 46, 102, 105, 110, 112, 108, 117, 115, 33, 120, 112, 102,
   60, 47, 83, 119, 73, 110, 116, 58, 83, 101, 114, 118, 105, 99, 101, 62, 13, 10, 32, 32, 32,
   32, 32, 32, 32, 32, 32, 32, 32, 32, 60, 83, 119, 73, 110, 116, 58, 82, 101, 113, 117, 101,
   115, 116, 84, 121, 112, 101, 62, 109, 105, 114, 115, 46, 48, 57, 53, 46, 48, 48, 49, 46, 48,
   49, 60, 47, 83, 119, 73, 110, 116, 58, 82, 101, 113, 117, 101, 115, 116, 84, 121, 112, 101,
   62, 13, 10, 32, 32, 32, 32, 32, 32, 32, 32, 60, 47, 83, 119, 73, 110, 116, 58, 82, 101, 113,
   117, 101, 115, 116, 72, 101, 97, 100, 101, 114, 62, 13, 10, 32, 32, 32, 32, 32, 32, 32, 32,
   60, 83, 119, 73, 110, 116, 58, 82, 101, 113, 117, 101, 115, 116, 80, 97, 121, 108, 111, 97,
   100, 62, 13, 10, 32, 32, 32, 32, 32, 32, 32, 32, 32, 32, 32, 32, 60, 65, 112, 112, 72, 100,
   114, 32, 120, 109, 108, 110, 115, 61, 34, 117, 114, 110, 58, 105, 115, 111, 58, 115, 116, 100,
   58, 105, 115, 111, 58, 50, 48, 48, 50, 50, 58, 116, 101, 99, 104, 58, 120, 115, 100, 58, 104,
   101, 97, 100, 46, 48, 48, 49, 46, 48, 48, 49, 46, 48, 50, 34, 62, 13, 10, 32, 32, 32, 32, 32,
   32, 32, 32, 32, 32, 32, 32, 32, 32, 32, 32, 60, 70, 114, 62, 13, 10, 32, 32, 32, 32, 32, 32,
   32, 32, 32, 32, 32, 32, 32, 32, 32, 32, 32, 32, 32, 32, 60, 70, 73, 73, 100, 62, 13, 10, 32,
   32, 32, 32, 32, 32, 32, 32, 32, 32, 32, 32, 32, 32, 32, 32, 32, 32, 32, 32, 32, 32, 32, 32,
   60, 70, 105, 110, 73, 110, 115, 116, 110, 73, 100, 62, 13, 10, 32, 32, 32, 32, 32, 32, 32, 32,
   32, 32, 32, 32, 32, 32, 32, 32, 32, 32, 32, 32, 32, 32, 32, 32, 32, 32, 32, 32, 60, 66, 73,
   67, 70, 73, 62, 67, 73, 84, 73, 85, 83, 51, 51, 65, 88, 88, 60, 47, 66, 73, 67, 70, 73, 62,
   13, 10, 32, 32, 32, 32, 32, 32, 32, 32, 32, 32, 32, 32, 32, 32, 32, 32, 32, 32, 32, 32, 32,
   32, 32, 32, 60, 47, 70, 105, 110, 73, 110, 115, 116, 110, 73, 100, 62, 13, 10, 32, 32, 32, 32,
   32, 32, 32, 32, 32, 32, 32, 32, 32, 32, 32, 32, 32, 32, 32, 32, 60, 47, 70, 73, 73, 100, 62,
   13, 10, 32, 32, 32, 32, 32, 32, 32, 32, 32, 32, 32, 32, 32, 32, 32, 32, 60, 47, 70, 114, 62,
   13, 10, 32, 32, 32, 32, 32, 32, 32, 32, 32, 32, 32, 32, 32, 32, 32, 32, 60, 84, 111, 62, 13,
   10, 32, 32, 32, 32, 32, 32, 32, 32, 32, 32, 32, 32, 32, 32, 32, 32, 32, 32, 32, 32, 60, 70,
   73, 73, 100, 62, 13, 10, 32, 32, 32, 32, 32, 32, 32, 32, 32, 32, 32, 32, 32, 32, 32, 32, 32,
   32, 32, 32, 32, 32, 32, 32, 60, 70, 105, 110, 73, 110, 115, 116, 110, 73, 100, 62, 13, 10, 32,
   32, 32, 32, 32, 32, 32, 32, 32, 32, 32, 32, 32, 32, 32, 32, 32, 32, 32, 32, 32, 32, 32, 32,
   32, 32, 32, 32, 60, 66, 73, 67, 70, 73, 62, 67, 73, 84, 73, 85, 83, 51, 51, 65, 88, 88, 60,
   47, 66, 73, 67, 70, 73, 62, 13, 10, 32, 32, 32, 32, 32, 32, 32, 32, 32, 32, 32, 32, 32, 32,
   32, 32, 32, 32, 32, 32, 32, 32, 32, 32, 60, 47, 70, 105, 110, 73, 110, 115, 116, 110, 73, 100,
   62, 13, 10, 32, 32, 32, 32, 32, 32, 32, 32, 32, 32, 32, 32, 32, 32, 32, 32, 32, 32, 32, 32,
   60, 47, 70, 73, 73, 100, 62, 13, 10, 32, 32, 32, 32, 32, 32, 32, 32, 32, 32, 32, 32, 32, 32,
   32, 32, 60, 47, 84, 111, 62, 13, 10, 32, 32, 32, 32, 32, 32, 32, 32, 32, 32, 32, 32, 32, 32,
   32, 32, 60, 66, 105, 122, 77, 115, 103, 73, 100, 114, 62, 97, 115, 100, 97, 115, 100, 60, 47,
   66, 105, 122, 77, 115, 103, 73, 100, 114, 62, 13, 10, 32, 32, 32, 32, 32, 32, 32, 32, 32, 32,
   32, 32, 32, 32, 32, 32, 60, 77, 115, 103, 68, 101, 102, 73, 100, 114, 62, 97, 115, 100, 97,
   60, 47, 77, 115, 103, 68, 101, 102, 73, 100, 114, 62, 13, 10, 32, 32, 32, 32, 32, 32, 32, 32,
   32, 32, 32, 32, 32, 32, 32, 32, 60, 66, 105, 122, 83, 118, 99, 62, 98, 111, 101, 46, 99, 104,
   97, 112, 115, 46, 48, 49, 60, 47, 66, 105, 122, 83, 118, 99, 62, 13, 10, 32, 32, 32, 32, 32,
   32, 32, 32, 32, 32, 32, 32, 32, 32, 32, 32, 60, 67, 114, 101, 68, 116, 62, 50, 48, 50, 49, 45,
   48, 56, 45, 51, 48, 84, 48, 56, 58, 48, 51, 58, 53, 57, 46, 48, 48, 48, 43, 48, 49, 58, 48,
   48, 60, 47, 67, 114, 101, 68, 116, 62, 13, 10, 32, 32, 32, 32, 32, 32, 32, 32, 32, 32, 32, 32,
   60, 47, 65, 112, 112, 72, 100, 114, 62, 13, 10, 32, 32, 32, 32, 32, 32, 32, 32, 32, 32, 32,
   32, 60, 68, 111, 99, 117, 109, 101, 110, 116, 32, 120, 109, 108, 110, 115, 61, 34, 117, 114,
   110, 58, 115, 119, 105, 102, 116, 58, 120, 115, 100, 58, 109, 105, 114, 115, 46, 48, 57, 53,
   46, 48, 48, 49, 46, 48, 49, 34, 62, 13, 10, 32, 32, 32, 32, 32, 32, 32, 32, 32, 32, 32, 32,
   32, 32, 32, 32, 60, 65, 99, 116, 118, 116, 110, 68, 101, 97, 99, 116, 118, 116, 110, 62, 13,
   10, 32, 32, 32, 32, 32, 32, 32, 32, 32, 32, 32, 32, 32, 32, 32, 32, 32, 32, 32, 32, 60, 77,
   115, 103, 73, 100, 62, 97, 115, 100, 97, 115, 100, 60, 47, 77, 115, 103, 73, 100, 62, 13, 10,
   32, 32, 32, 32, 32, 32, 32, 32, 32, 32, 32, 32, 32, 32, 32, 32, 32, 32, 32, 32, 60, 68, 116,
   65, 110, 100, 84, 109, 62, 50, 48, 50, 49, 45, 48, 56, 45, 51, 48, 84, 48, 51, 58, 48, 52, 58,
   48, 54, 46, 48, 48, 48, 43, 48, 49, 58, 48, 48, 60, 47, 68, 116, 65, 110, 100, 84, 109, 62,
   13, 10, 32, 32, 32, 32, 32, 32, 32, 32, 32, 32, 32, 32, 32, 32, 32, 32, 32, 32, 32, 32, 60,
   65, 99, 116, 118, 116, 110, 68, 101, 97, 99, 116, 118, 116, 110, 62, 68, 69, 65, 67, 60, 47,
   65, 99, 116, 118, 116, 110, 68, 101, 97, 99, 116, 118, 116, 110, 62, 13, 10, 32, 32, 32, 32,
   32, 32, 32, 32, 32, 32, 32, 32, 32, 32, 32, 32, 60, 47, 65, 99, 116, 118, 116, 110, 68, 101,
   97, 99, 116, 118, 116, 110, 62, 13, 10, 32, 32, 32, 32, 32, 32, 32, 32, 32, 32, 32, 32, 60,
   47, 68, 111, 99, 117, 109, 101, 110, 116, 62, 13, 10, 32, 32, 32, 32, 32, 32, 32, 32, 60, 47,
   83, 119, 73, 110, 116, 58, 82, 101, 113, 117, 101, 115, 116, 80, 97, 121, 108, 111, 97, 100,
   62, 13, 10, 32, 32, 32, 32, 60, 47, 83, 119, 73, 110, 116, 58, 82, 101, 113, 117, 101, 115,
   116, 62, 13, 10, 60, 47, 83, 119, 73, 110, 116, 58, 69, 120, 99, 104, 97, 110, 103, 101, 82,
   101, 113, 117, 101, 115, 116, 62, 13, 10]


/-- `testdata/xml_valid/xml_opt1.golden`. -/
def xml_opt1 : List UInt8 :=
  [60, 63, 120, 109, 108, 32, 118, 101, 114, 115, 105, 111, 110, 61, 34, 49, 46, 48, 34, 32, 101,
   110, 99, 111, 100, 105, 110, 103, 61, 34, 117, 84, 102, 45, 56, 34, 32, 115, 116, 97, 110,
   100, 97, 108, 111, 110, 101, 61, 34, 110, 111, 34, 63, 62, 13, 10, 60, 112, 114, 101, 58, 86,
   101, 104, 105, 99, 108, 101, 32, 120, 109, 108, 110, 115, 58, 112, 114, 101, 61, 39, 117, 114,
   110, 58, 101, 120, 97, 109, 112, 108, 101, 45, 111, 114, 103, 58, 84, 114, 97, 110, 115, 112,
   111, 114, 116, 39, 32, 116, 121, 112, 101, 61, 39, 99, 97, 114, 39, 62, 13, 10, 9, 60, 115,
   101, 97, 116, 115, 62, 32, 52, 32, 60, 47, 115, 101, 97, 116, 115, 62, 13, 10, 9, 60, 99, 111,
   108, 111, 117, 114, 62, 32, 87, 104, 105, 116, 101, 32, 60, 47, 99, 111, 108, 111, 117, 114,
   62, 13, 10, 9, 60, 101, 110, 103, 105, 110, 101, 62, 13, 10, 9, 9, 60, 112, 101, 116, 114,
   111, 108, 47, 62, 13, 10, 9, 9, 60, 99, 97, 112, 97, 99, 105, 116, 121, 32, 117, 110, 105,
   116, 115, 61, 39, 99, 99, 39, 62, 49, 53, 57, 56, 60, 47, 99, 97, 112, 97, 99, 105, 116, 121,
   62, 13, 10, 9, 60, 47, 101, 110, 103, 105, 110, 101, 62, 13, 10, 60, 47, 112, 114, 101, 58,
   86, 101, 104, 105, 99, 108, 101, 62]

example : accepted false xml_opt1 = true := by decide +kernel
example : accepted true xml_opt1 = true := by decide +kernel

/-- `testdata/xml_valid/xml_opt2.golden`. -/
def xml_opt2 : List UInt8 :=
  [60, 63, 120, 109, 108, 32, 118, 101, 114, 115, 105, 111, 110, 61, 34, 49, 46, 48, 34, 32, 101,
   110, 99, 111, 100, 105, 110, 103, 61, 34, 117, 116, 102, 45, 56, 34, 32, 115, 116, 97, 110,
   100, 97, 108, 111, 110, 101, 61, 34, 110, 111, 34, 63, 62, 13, 10, 60, 112, 114, 101, 58, 86,
   101, 104, 105, 99, 108, 101, 32, 120, 109, 108, 110, 115, 58, 112, 114, 101, 61, 39, 117, 114,
   110, 58, 101, 120, 97, 109, 112, 108, 101, 45, 111, 114, 103, 58, 84, 114, 97, 110, 115, 112,
   111, 114, 116, 39, 32, 116, 121, 112, 101, 61, 39, 99, 97, 114, 39, 62, 13, 10, 9, 60, 115,
   101, 97, 116, 115, 62, 32, 52, 32, 60, 47, 115, 101, 97, 116, 115, 62, 13, 10, 9, 60, 99, 111,
   108, 111, 117, 114, 62, 32, 87, 104, 105, 116, 101, 32, 60, 47, 99, 111, 108, 111, 117, 114,
   62, 13, 10, 9, 60, 33, 45, 45, 32, 84, 104, 105, 115, 32, 105, 115, 32, 97, 32, 99, 111, 109,
   109, 101, 110, 116, 32, 97, 98, 111, 117, 116, 32, 104, 111, 119, 32, 116, 111, 32, 111, 112,
   101, 110, 32, 40, 32, 13, 10, 60, 33, 91, 67, 68, 65, 84, 65, 91, 32, 41, 32, 97, 110, 100,
   32, 13, 10, 99, 108, 111, 115, 101, 32, 40, 32, 93, 93, 62, 32, 41, 32, 67, 68, 65, 84, 65,
   32, 115, 101, 99, 116, 105, 111, 110, 115, 32, 45, 45, 62, 13, 10, 9, 60, 33, 45, 45, 32, 73,
   32, 114, 101, 97, 108, 108, 121, 32, 108, 105, 107, 101, 32, 104, 97, 118, 105, 110, 103, 32,
   101, 108, 101, 109, 101, 110, 116, 115, 32, 99, 97, 108, 108, 101, 100, 32, 60, 102, 114, 101,
   100, 62, 32, 105, 110, 32, 109, 121, 32, 13, 10, 109, 97, 114, 107, 117, 112, 32, 108, 97,
   110, 103, 117, 97, 103, 101, 115, 32, 45, 45, 62, 13, 10, 9, 60, 33, 45, 45, 32, 67, 111, 109,
   109, 101, 110, 116, 115, 32, 99, 97, 110, 32, 99, 111, 110, 116, 97, 105, 110, 32, 97, 108,
   108, 32, 115, 111, 114, 116, 115, 32, 111, 102, 32, 99, 104, 97, 114, 97, 99, 116, 101, 114,
   32, 108, 105, 116, 101, 114, 97, 108, 115, 13, 10, 105, 110, 99, 108, 117, 100, 105, 110, 103,
   32, 38, 44, 32, 60, 44, 32, 62, 44, 32, 39, 32, 97, 110, 100, 34, 46, 32, 45, 45, 62, 13, 10,
   9, 60, 33, 45, 45, 32, 73, 102, 32, 101, 110, 116, 105, 116, 105, 101, 115, 32, 97, 114, 101,
   32, 117, 115, 101, 100, 32, 105, 110, 115, 105, 100, 101, 32, 99, 111, 109, 109, 101, 110,
   116, 115, 32, 40, 32, 38, 108, 116, 59, 32, 102, 111, 114, 32, 13, 10, 101, 120, 97, 109, 112,
   108, 101, 32, 41, 32, 116, 104, 101, 121, 32, 97, 114, 101, 32, 110, 111, 116, 32, 101, 120,
   112, 97, 110, 100, 101, 100, 46, 32, 45, 45, 62, 13, 10, 9, 60, 101, 110, 103, 105, 110, 101,
   62, 13, 10, 9, 9, 60, 112, 101, 116, 114, 111, 108, 47, 62, 13, 10, 9, 9, 60, 99, 97, 112, 97,
   99, 105, 116, 121, 32, 117, 110, 105, 116, 115, 61, 39, 99, 99, 39, 62, 49, 53, 57, 56, 60,
   47, 99, 97, 112, 97, 99, 105, 116, 121, 62, 13, 10, 9, 60, 47, 101, 110, 103, 105, 110, 101,
   62, 13, 10, 60, 47, 112, 114, 101, 58, 86, 101, 104, 105, 99, 108, 101, 62]


/-- `testdata/xml_valid/xml_opt3.golden`. -/
def xml_opt3 : List UInt8 :=
  [60, 63, 120, 109, 108, 32, 118, 101, 114, 115, 105, 111, 110, 61, 34, 49, 46, 48, 34, 32, 101,
   110, 99, 111, 100, 105, 110, 103, 61, 34, 117, 116, 102, 45, 56, 34, 32, 115, 116, 97, 110,
   100, 97, 108, 111, 110, 101, 61, 34, 110, 111, 34, 63, 62, 13, 10, 60, 112, 114, 101, 58, 86,
   101, 104, 105, 99, 108, 101, 32, 120, 109, 108, 110, 115, 58, 112, 114, 101, 61, 39, 117, 114,
   110, 58, 101, 120, 97, 109, 112, 108, 101, 45, 111, 114, 103, 58, 84, 114, 97, 110, 115, 112,
   111, 114, 116, 39, 32, 116, 121, 112, 101, 61, 39, 99, 97, 114, 39, 62, 13, 10, 9, 60, 115,
   101, 97, 116, 115, 62, 32, 52, 32, 60, 47, 115, 101, 97, 116, 115, 62, 13, 10, 9, 60, 99, 111,
   108, 111, 117, 114, 62, 32, 87, 104, 105, 116, 101, 32, 60, 47, 99, 111, 108, 111, 117, 114,
   62, 13, 10, 9, 60, 63, 120, 109, 108, 45, 115, 116, 121, 108, 101, 115, 104, 101, 101, 116,
   32, 104, 114, 101, 102, 32, 61, 32, 34, 116, 117, 116, 111, 114, 105, 97, 108, 115, 112, 111,
   105, 110, 116, 115, 116, 121, 108, 101, 46, 99, 115, 115, 34, 32, 116, 121, 112, 101, 32, 61,
   32, 34, 116, 101, 120, 116, 47, 99, 115, 115, 34, 63, 62, 13, 10, 32, 32, 32, 32, 60, 63, 119,
   101, 108, 99, 111, 109, 101, 32, 116, 111, 32, 112, 103, 32, 61, 32, 49, 48, 32, 111, 102, 32,
   116, 117, 116, 111, 114, 105, 97, 108, 115, 32, 112, 111, 105, 110, 116, 63, 62, 13, 10, 13,
   10, 32, 32, 32, 32, 60, 63, 119, 101, 108, 99, 111, 109, 101, 63, 62, 13, 10, 9, 60, 101, 110,
   103, 105, 110, 101, 62, 13, 10, 9, 9, 60, 112, 101, 116, 114, 111, 108, 47, 62, 13, 10, 9, 9,
   60, 99, 97, 112, 97, 99, 105, 116, 121, 32, 117, 110, 105, 116, 115, 61, 39, 99, 99, 39, 62,
   49, 53, 57, 56, 60, 47, 99, 97, 112, 97, 99, 105, 116, 121, 62, 13, 10, 9, 60, 47, 101, 110,
   103, 105, 110, 101, 62, 13, 10, 60, 47, 112, 114, 101, 58, 86, 101, 104, 105, 99, 108, 101, 62]

example : accepted false xml_opt3 = true := by decide +kernel
example : accepted true xml_opt3 = true := by decide +kernel

/-- `testdata/xml_invalid/illegal_comments.golden`. -/
def illegal_comments : List UInt8 :=
  [60, 112, 114, 101, 58, 86, 101, 104, 105, 99, 108, 101, 32, 120, 109, 108, 110, 115, 58, 112,
   114, 101, 61, 39, 117, 114, 110, 58, 101, 120, 97, 109, 112, 108, 101, 45, 111, 114, 103, 58,
   84, 114, 97, 110, 115, 112, 111, 114, 116, 39, 32, 116, 121, 112, 101, 61, 39, 99, 97, 114,
   39, 62, 13, 10, 9, 60, 115, 101, 97, 116, 115, 62, 32, 52, 32, 60, 47, 115, 101, 97, 116, 115,
   62, 13, 10, 9, 60, 99, 111, 108, 111, 117, 114, 62, 32, 87, 104, 105, 116, 101, 32, 60, 47,
   99, 111, 108, 111, 117, 114, 62, 13, 10, 60, 33, 45, 45, 32, 67, 111, 109, 109, 101, 110, 116,
   115, 32, 99, 97, 110, 110, 111, 116, 32, 99, 111, 110, 116, 97, 105, 110, 32, 116, 104, 101,
   32, 45, 45, 32, 13, 10, 99, 104, 97, 114, 97, 99, 116, 101, 114, 32, 115, 101, 113, 117, 101,
   110, 99, 101, 32, 45, 45, 62, 13, 10, 60, 33, 45, 45, 32, 67, 111, 109, 109, 101, 110, 116,
   115, 32, 99, 97, 110, 110, 111, 116, 32, 101, 110, 100, 32, 119, 105, 116, 104, 32, 97, 32,
   104, 121, 112, 104, 101, 110, 32, 45, 45, 45, 62, 13, 10, 60, 33, 45, 45, 32, 67, 111, 109,
   109, 101, 110, 116, 115, 32, 99, 97, 110, 110, 111, 116, 32, 60, 33, 45, 45, 32, 98, 101, 32,
   110, 101, 115, 116, 101, 100, 32, 45, 45, 62, 32, 45, 45, 62, 13, 10, 9, 60, 101, 110, 103,
   105, 110, 101, 62, 13, 10, 9, 9, 60, 112, 101, 116, 114, 111, 108, 47, 62, 13, 10, 9, 9, 60,
   99, 97, 112, 97, 99, 105, 116, 121, 32, 117, 110, 105, 116, 115, 61, 39, 99, 99, 39, 62, 49,
   53, 57, 56, 60, 47, 99, 97, 112, 97, 99, 105, 116, 121, 62, 13, 10, 9, 60, 47, 101, 110, 103,
   105, 110, 101, 62, 13, 10, 60, 47, 112, 114, 101, 58, 86, 101, 104, 105, 99, 108, 101, 62]

example : refused "invalid terminating sequence" illegal_comments = true := by decide +kernel

/-- `testdata/xml_invalid/illegal_dec_attr_version_name.golden`. -/
def illegal_dec_attr_version_name : List UInt8 :=
  [60, 63, 120, 109, 108, 32, 118, 101, 114, 115, 61, 34, 49, 46, 48, 34, 32, 101, 110, 99, 111,
   100, 105, 110, 103, 61, 34, 85, 84, 70, 45, 56, 34, 32, 115, 116, 97, 110, 100, 97, 108, 111,
   110, 101, 61, 34, 121, 101, 115, 34, 63, 62, 13, 10, 60, 112, 114, 101, 58, 86, 101, 104, 105,
   99, 108, 101, 32, 120, 109, 108, 110, 115, 58, 112, 114, 101, 61, 39, 117, 114, 110, 58, 101,
   120, 97, 109, 112, 108, 101, 45, 111, 114, 103, 58, 84, 114, 97, 110, 115, 112, 111, 114, 116,
   39, 32, 116, 121, 112, 101, 61, 39, 99, 97, 114, 39, 62, 13, 10, 9, 60, 115, 101, 97, 116,
   115, 62, 32, 52, 32, 60, 47, 115, 101, 97, 116, 115, 62, 13, 10, 9, 60, 99, 111, 108, 111,
   117, 114, 62, 32, 87, 104, 105, 116, 101, 32, 60, 47, 99, 111, 108, 111, 117, 114, 62, 13, 10,
   9, 60, 101, 110, 103, 105, 110, 101, 62, 13, 10, 9, 9, 60, 112, 101, 116, 114, 111, 108, 47,
   62, 13, 10, 9, 9, 60, 99, 97, 112, 97, 99, 105, 116, 121, 32, 117, 110, 105, 116, 115, 61, 39,
   99, 99, 39, 62, 49, 53, 57, 56, 60, 47, 99, 97, 112, 97, 99, 105, 116, 121, 62, 13, 10, 9, 60,
   47, 101, 110, 103, 105, 110, 101, 62, 13, 10, 60, 47, 112, 114, 101, 58, 86, 101, 104, 105,
   99, 108, 101, 62]

example : refused "declaration should be version" illegal_dec_attr_version_name = true := by decide +kernel

/-- `testdata/xml_invalid/illegal_dec_attr_version_val.golden`. -/
def illegal_dec_attr_version_val : List UInt8 :=
  [60, 63, 120, 109, 108, 32, 118, 101, 114, 115, 105, 111, 110, 61, 34, 50, 46, 48, 34, 32, 101,
   110, 99, 111, 100, 105, 110, 103, 61, 34, 85, 84, 70, 45, 56, 34, 32, 115, 116, 97, 110, 100,
   97, 108, 111, 110, 101, 61, 34, 121, 101, 115, 34, 63, 62, 13, 10, 60, 112, 114, 101, 58, 86,
   101, 104, 105, 99, 108, 101, 32, 120, 109, 108, 110, 115, 58, 112, 114, 101, 61, 39, 117, 114,
   110, 58, 101, 120, 97, 109, 112, 108, 101, 45, 111, 114, 103, 58, 84, 114, 97, 110, 115, 112,
   111, 114, 116, 39, 32, 116, 121, 112, 101, 61, 39, 99, 97, 114, 39, 62, 13, 10, 9, 60, 115,
   101, 97, 116, 115, 62, 32, 52, 32, 60, 47, 115, 101, 97, 116, 115, 62, 13, 10, 9, 60, 99, 111,
   108, 111, 117, 114, 62, 32, 87, 104, 105, 116, 101, 32, 60, 47, 99, 111, 108, 111, 117, 114,
   62, 13, 10, 9, 60, 101, 110, 103, 105, 110, 101, 62, 13, 10, 9, 9, 60, 112, 101, 116, 114,
   111, 108, 47, 62, 13, 10, 9, 9, 60, 99, 97, 112, 97, 99, 105, 116, 121, 32, 117, 110, 105,
   116, 115, 61, 39, 99, 99, 39, 62, 49, 53, 57, 56, 60, 47, 99, 97, 112, 97, 99, 105, 116, 121,
   62, 13, 10, 9, 60, 47, 101, 110, 103, 105, 110, 101, 62, 13, 10, 60, 47, 112, 114, 101, 58,
   86, 101, 104, 105, 99, 108, 101, 62]

example : refused "invalid version detected (supported 1.0 or 1.1)" illegal_dec_attr_version_val = true := by decide +kernel

/-- `testdata/xml_invalid/illegal_dec_attr_encoding_name.golden`. -/
def illegal_dec_attr_encoding_name : List UInt8 :=
  [60, 63, 120, 109, 108, 32, 118, 101, 114, 115, 105, 111, 110, 61, 34, 49, 46, 48, 34, 32, 101,
   110, 118, 61, 34, 85, 84, 70, 45, 56, 34, 32, 115, 116, 97, 110, 100, 97, 108, 111, 110, 101,
   61, 34, 121, 101, 115, 34, 63, 62, 13, 10, 60, 112, 114, 101, 58, 86, 101, 104, 105, 99, 108,
   101, 32, 120, 109, 108, 110, 115, 58, 112, 114, 101, 61, 39, 117, 114, 110, 58, 101, 120, 97,
   109, 112, 108, 101, 45, 111, 114, 103, 58, 84, 114, 97, 110, 115, 112, 111, 114, 116, 39, 32,
   116, 121, 112, 101, 61, 39, 99, 97, 114, 39, 62, 13, 10, 9, 60, 115, 101, 97, 116, 115, 62,
   32, 52, 32, 60, 47, 115, 101, 97, 116, 115, 62, 13, 10, 9, 60, 99, 111, 108, 111, 117, 114,
   62, 32, 87, 104, 105, 116, 101, 32, 60, 47, 99, 111, 108, 111, 117, 114, 62, 13, 10, 9, 60,
   101, 110, 103, 105, 110, 101, 62, 13, 10, 9, 9, 60, 112, 101, 116, 114, 111, 108, 47, 62, 13,
   10, 9, 9, 60, 99, 97, 112, 97, 99, 105, 116, 121, 32, 117, 110, 105, 116, 115, 61, 39, 99, 99,
   39, 62, 49, 53, 57, 56, 60, 47, 99, 97, 112, 97, 99, 105, 116, 121, 62, 13, 10, 9, 60, 47,
   101, 110, 103, 105, 110, 101, 62, 13, 10, 60, 47, 112, 114, 101, 58, 86, 101, 104, 105, 99,
   108, 101, 62]

example : refused "declaration should be encoding" illegal_dec_attr_encoding_name = true := by decide +kernel

/-- `testdata/xml_invalid/illegal_dec_attr_encoding_val.golden`. -/
def illegal_dec_attr_encoding_val : List UInt8 :=
  [60, 63, 120, 109, 108, 32, 118, 101, 114, 115, 105, 111, 110, 61, 34, 49, 46, 48, 34, 32, 101,
   110, 99, 111, 100, 105, 110, 103, 61, 34, 85, 80, 83, 45, 56, 34, 32, 115, 116, 97, 110, 100,
   97, 108, 111, 110, 101, 61, 34, 121, 101, 115, 34, 63, 62, 13, 10, 60, 112, 114, 101, 58, 86,
   101, 104, 105, 99, 108, 101, 32, 120, 109, 108, 110, 115, 58, 112, 114, 101, 61, 39, 117, 114,
   110, 58, 101, 120, 97, 109, 112, 108, 101, 45, 111, 114, 103, 58, 84, 114, 97, 110, 115, 112,
   111, 114, 116, 39, 32, 116, 121, 112, 101, 61, 39, 99, 97, 114, 39, 62, 13, 10, 9, 60, 115,
   101, 97, 116, 115, 62, 32, 52, 32, 60, 47, 115, 101, 97, 116, 115, 62, 13, 10, 9, 60, 99, 111,
   108, 111, 117, 114, 62, 32, 87, 104, 105, 116, 101, 32, 60, 47, 99, 111, 108, 111, 117, 114,
   62, 13, 10, 9, 60, 101, 110, 103, 105, 110, 101, 62, 13, 10, 9, 9, 60, 112, 101, 116, 114,
   111, 108, 47, 62, 13, 10, 9, 9, 60, 99, 97, 112, 97, 99, 105, 116, 121, 32, 117, 110, 105,
   116, 115, 61, 39, 99, 99, 39, 62, 49, 53, 57, 56, 60, 47, 99, 97, 112, 97, 99, 105, 116, 121,
   62, 13, 10, 9, 60, 47, 101, 110, 103, 105, 110, 101, 62, 13, 10, 60, 47, 112, 114, 101, 58,
   86, 101, 104, 105, 99, 108, 101, 62]

example : refused "invalid document encoding" illegal_dec_attr_encoding_val = true := by decide +kernel

/-- `testdata/xml_invalid/illegal_dec_attr_standalone_name.golden`. -/
def illegal_dec_attr_standalone_name : List UInt8 :=
  [60, 63, 120, 109, 108, 32, 118, 101, 114, 115, 105, 111, 110, 61, 34, 49, 46, 48, 34, 32, 101,
   110, 99, 111, 100, 105, 110, 103, 61, 34, 85, 84, 70, 45, 56, 34, 32, 115, 116, 97, 110, 100,
   111, 114, 111, 110, 101, 61, 34, 121, 101, 115, 34, 63, 62, 13, 10, 60, 112, 114, 101, 58, 86,
   101, 104, 105, 99, 108, 101, 32, 120, 109, 108, 110, 115, 58, 112, 114, 101, 61, 39, 117, 114,
   110, 58, 101, 120, 97, 109, 112, 108, 101, 45, 111, 114, 103, 58, 84, 114, 97, 110, 115, 112,
   111, 114, 116, 39, 32, 116, 121, 112, 101, 61, 39, 99, 97, 114, 39, 62, 13, 10, 9, 60, 115,
   101, 97, 116, 115, 62, 32, 52, 32, 60, 47, 115, 101, 97, 116, 115, 62, 13, 10, 9, 60, 99, 111,
   108, 111, 117, 114, 62, 32, 87, 104, 105, 116, 101, 32, 60, 47, 99, 111, 108, 111, 117, 114,
   62, 13, 10, 9, 60, 101, 110, 103, 105, 110, 101, 62, 13, 10, 9, 9, 60, 112, 101, 116, 114,
   111, 108, 47, 62, 13, 10, 9, 9, 60, 99, 97, 112, 97, 99, 105, 116, 121, 32, 117, 110, 105,
   116, 115, 61, 39, 99, 99, 39, 62, 49, 53, 57, 56, 60, 47, 99, 97, 112, 97, 99, 105, 116, 121,
   62, 13, 10, 9, 60, 47, 101, 110, 103, 105, 110, 101, 62, 13, 10, 60, 47, 112, 114, 101, 58,
   86, 101, 104, 105, 99, 108, 101, 62]

example : refused "declaration should be standalone" illegal_dec_attr_standalone_name = true := by decide +kernel

/-- `testdata/xml_invalid/illegal_dec_attr_standalone_val.golden`. -/
def illegal_dec_attr_standalone_val : List UInt8 :=
  [60, 63, 120, 109, 108, 32, 118, 101, 114, 115, 105, 111, 110, 61, 34, 49, 46, 48, 34, 32, 101,
   110, 99, 111, 100, 105, 110, 103, 61, 34, 85, 84, 70, 45, 56, 34, 32, 115, 116, 97, 110, 100,
   97, 108, 111, 110, 101, 61, 34, 121, 34, 63, 62, 13, 10, 60, 112, 114, 101, 58, 86, 101, 104,
   105, 99, 108, 101, 32, 120, 109, 108, 110, 115, 58, 112, 114, 101, 61, 39, 117, 114, 110, 58,
   101, 120, 97, 109, 112, 108, 101, 45, 111, 114, 103, 58, 84, 114, 97, 110, 115, 112, 111, 114,
   116, 39, 32, 116, 121, 112, 101, 61, 39, 99, 97, 114, 39, 62, 13, 10, 9, 60, 115, 101, 97,
   116, 115, 62, 32, 52, 32, 60, 47, 115, 101, 97, 116, 115, 62, 13, 10, 9, 60, 99, 111, 108,
   111, 117, 114, 62, 32, 87, 104, 105, 116, 101, 32, 60, 47, 99, 111, 108, 111, 117, 114, 62,
   13, 10, 9, 60, 101, 110, 103, 105, 110, 101, 62, 13, 10, 9, 9, 60, 112, 101, 116, 114, 111,
   108, 47, 62, 13, 10, 9, 9, 60, 99, 97, 112, 97, 99, 105, 116, 121, 32, 117, 110, 105, 116,
   115, 61, 39, 99, 99, 39, 62, 49, 53, 57, 56, 60, 47, 99, 97, 112, 97, 99, 105, 116, 121, 62,
   13, 10, 9, 60, 47, 101, 110, 103, 105, 110, 101, 62, 13, 10, 60, 47, 112, 114, 101, 58, 86,
   101, 104, 105, 99, 108, 101, 62]

example : refused "invalid value for attribute standalone (valid options are yes or no)" illegal_dec_attr_standalone_val = true := by decide +kernel

/-! ## `vtdxml/navigation/common_test.go` and `to_string_test.go` -/

/-- `vtdBufferValues`. -/
def vtdBufferValues : List (BitVec 64) :=
  [(-537919488), (-1611661305), (-1343225841), (-1611661284), (-1343225825), (-1611661265),
   (-1343225805), 44070659424314, 805316696, 1073741915, 805316751, 1073741974, 805316815,
   1073742039, 4547635927056624, 9051261324230921, 13554843771732268, 5778118429290529084,
   13554843771732342, 5778118429290529158, 13554835181797824, 5778118394930790862,
   13554852361667070, 5778118386340856336, 9051265619198558, 13510824651915906, 808452749,
   1076888254, 18014407099417299, 22518015316722413, 27021640713896717, 31525218866430775,
   5796132767670469437, 18014407099417534, 22518015316722648, 27021640713896952,
   31525218866431010, 5796132767670469672, 18014437164188841, 5782621947313521843,
   18014437164188888, 5782621938723587298, 18014424279287045, 5782621973083325708,
   18014419984319796, 5782622046097769786, 13510833241851269, 808453519, 1076888989,
   18014458639025607, 22518019611690477, 5787125546940892659, 22518028201625112,
   5787125645725140512, 22518058266396254, 5787125538350958189]

/-- An empty buffer with pages of `2^e` values. -/
def emptyBuf (e : Nat) : FastLongBuffer := Paged.withPageSize e Paged.dflt

/-- Append a list of values. -/
def fill (b : FastLongBuffer) : List (BitVec 64) → FastLongBuffer
  | [] => b
  | v :: vs => match Paged.append v b with
    | .ok _ b' => fill b' vs
    | _ => b

/-- `getNav`. -/
def nav : VtdNav :=
  match newVtdNav 7 0 mirs_095_001_01.length 7 19 true (some mirs_095_001_01)
      (fill (emptyBuf 7) vtdBufferValues) (emptyBuf 6) (emptyBuf 6) (emptyBuf 6) with
  | .ok n _ => n
  | _ => { context := [], rootIndex := 0, offset := 0, length := 0, depth := 0, encoding := 0,
           nsAware := false, atTerminal := false, ln := 0, xmlBuffer := ⟨[]⟩, vtdBuffer := Paged.dflt,
           l1Buffer := Paged.dflt, l2Buffer := Paged.dflt, l3Buffer := Paged.dflt, l1index := 0,
           l2index := 0, l3index := 0, l2lower := 0, l2upper := 0, l3lower := 0, l3upper := 0 }

/-- `invalid argument index: array index out of range`, with nothing wrapped. -/
def indexError {σ α : Type} : Res σ α → Bool
  | .err e _ => e == indexErr none
  | _ => false

/-- `an internal error occurred: array index out of range`. -/
def internalError {σ α : Type} : Res σ α → Bool
  | .err e _ => e == newInternalError IndexOutOfRange none
  | _ => false

example : valOf (VtdNav.getTokenType 0 nav) = some 15 := by decide +kernel
example : valOf (VtdNav.getTokenType 8 nav) = some 0 := by decide +kernel
example : valOf (VtdNav.getTokenType 39 nav) = some 5 := by decide +kernel
example : indexError (VtdNav.getTokenType 9999 nav) = true := by decide +kernel
example : indexError (VtdNav.getTokenType (-1) nav) = true := by decide +kernel

example : valOf (VtdNav.getCurrentIndex nav) = some 0 := by decide +kernel
example : valOf (VtdNav.getCurrentIndex { nav with context := nav.context.set 0 0 }) = some 7 := by decide +kernel
example : valOf (VtdNav.getCurrentIndex { nav with atTerminal := true }) = some 0 := by decide +kernel
example : valOf (VtdNav.getCurrentIndex { nav with context := nav.context.set 0 2 }) = some (-1) := by decide +kernel
example : internalError (VtdNav.getCurrentIndex { nav with context := nav.context.set 0 9999 }) = true := by decide +kernel
example : internalError (VtdNav.getCurrentIndex { nav with context := nav.context.set 0 (-5) }) = true := by decide +kernel

example : valOf (VtdNav.getTokenOffset 0 nav) = some 535822336 := by decide +kernel
example : valOf (VtdNav.getTokenOffset 8 nav) = some 805316696 := by decide +kernel
example : valOf (VtdNav.getTokenOffset 39 nav) = some 1203 := by decide +kernel
example : indexError (VtdNav.getTokenOffset 9999 nav) = true := by decide +kernel
example : indexError (VtdNav.getTokenOffset (-1) nav) = true := by decide +kernel

example : valOf (VtdNav.getTokenDepth 0 nav) = some (-1) := by decide +kernel
example : valOf (VtdNav.getTokenDepth 8 nav) = some 0 := by decide +kernel
example : valOf (VtdNav.getTokenDepth 39 nav) = some 4 := by decide +kernel
example : valOf (VtdNav.getTokenDepth 55 nav) = some 5 := by decide +kernel
example : indexError (VtdNav.getTokenDepth 9999 nav) = true := by decide +kernel
example : indexError (VtdNav.getTokenDepth (-1) nav) = true := by decide +kernel

example : valOf (VtdNav.getTokenLength 0 nav) = some 1048575 := by decide +kernel
example : valOf (VtdNav.getTokenLength 6 nav) = some 1048575 := by decide +kernel
example : valOf (VtdNav.getTokenLength 7 nav) = some 327701 := by decide +kernel
example : valOf (VtdNav.getTokenLength 11 nav) = some 0 := by decide +kernel
example : valOf (VtdNav.getTokenLength 23 nav) = some 15 := by decide +kernel
example : valOf (VtdNav.getTokenLength 45 nav) = some 29 := by decide +kernel
example : indexError (VtdNav.getTokenLength 9999 nav) = true := by decide +kernel
example : indexError (VtdNav.getTokenLength (-1) nav) = true := by decide +kernel

example : valOf (VtdNav.toStringAtRange 1000 0 55 nav) = some (str% "<?xml version=\"1.0\" encoding=\"UTF-8\" standalone=\"yes\"?>") := by decide +kernel
example : valOf (VtdNav.toStringAtRange 1000 240 2 nav) = some (str% "Sw") := by decide +kernel
example : valOf (VtdNav.toStringAtRange 1000 328 10 nav) = some (str% "ius33,o=sw") := by decide +kernel
example : valOf (VtdNav.toStringAtRange 1000 0 300 nav) = some (str% "<?xml version=\"1.0\" encoding=\"UTF-8\" standalone=\"yes\"?>\n\n<SwInt:ExchangeRequest xmlns:Sw=\"urn:swift:snl:ns.Sw\"\n\n                       xmlns:SwInt=\"urn:swift:snl:ns.SwInt\"\n\n                       xmlns:SwSec=\"urn:swift:snl:ns.SwSec\">\n\n    <SwInt:Request>\n\n        <SwInt:RequestHeader>\n\n            <") := by decide +kernel
example : indexError (VtdNav.toStringAtRange 1000 (-1) 55 nav) = true := by decide +kernel

example : valOf (VtdNav.toRawStringAtRange 0 55 nav) = some (str% "<?xml version=\"1.0\" encoding=\"UTF-8\" standalone=\"yes\"?>") := by decide +kernel
example : valOf (VtdNav.toRawStringAtRange 240 2 nav) = some (str% "Sw") := by decide +kernel
example : valOf (VtdNav.toRawStringAtRange 328 10 nav) = some (str% "ius33,o=sw") := by decide +kernel
example : valOf (VtdNav.toRawStringAtRange 0 300 nav) = some (str% "<?xml version=\"1.0\" encoding=\"UTF-8\" standalone=\"yes\"?>\n\n<SwInt:ExchangeRequest xmlns:Sw=\"urn:swift:snl:ns.Sw\"\n\n                       xmlns:SwInt=\"urn:swift:snl:ns.SwInt\"\n\n                       xmlns:SwSec=\"urn:swift:snl:ns.SwSec\">\n\n    <SwInt:Request>\n\n        <SwInt:RequestHeader>\n\n            <") := by decide +kernel
example : indexError (VtdNav.toRawStringAtRange (-1) 55 nav) = true := by decide +kernel

example : valOf (VtdNav.toRawStringAtIndex 7 nav) = some (str% "SwInt:ExchangeRequest") := by decide +kernel
example : valOf (VtdNav.toRawStringAtIndex 14 nav) = some (str% "SwInt:Request") := by decide +kernel
example : valOf (VtdNav.toRawStringAtIndex 19 nav) = some (str% "ou=xxx,o=citius33,o=swift") := by decide +kernel
example : valOf (VtdNav.toRawStringAtIndex 25 nav) = some (str% "AppHdr") := by decide +kernel
example : indexError (VtdNav.toRawStringAtIndex 5 nav) = true := by decide +kernel
example : indexError (VtdNav.toRawStringAtIndex (-1) nav) = true := by decide +kernel
example : indexError (VtdNav.toRawStringAtIndex 99999 nav) = true := by decide +kernel

/-! ## `vtdxml/reader/utf8_reader_test.go` -/

/-- `XML`. -/
def XML : List UInt8 :=
  [60, 63, 120, 109, 108, 32, 118, 101, 114, 115, 105, 111, 110, 61, 34, 49, 46, 48, 34, 32, 101,
   110, 99, 111, 100, 105, 110, 103, 61, 34, 117, 84, 102, 45, 56, 34, 32, 115, 116, 97, 110,
   100, 97, 108, 111, 110, 101, 61, 34, 110, 111, 34, 63, 62, 10, 60, 112, 114, 101, 58, 86, 101,
   104, 105, 99, 108, 101, 32, 120, 109, 108, 110, 115, 58, 112, 114, 101, 61, 39, 117, 114, 110,
   58, 101, 120, 97, 109, 112, 108, 101, 45, 111, 114, 103, 58, 84, 114, 97, 110, 115, 112, 111,
   114, 116, 39, 32, 116, 121, 112, 101, 61, 39, 99, 97, 114, 39, 62, 10, 9, 60, 115, 101, 97,
   116, 115, 62, 32, 52, 32, 60, 47, 115, 101, 97, 116, 115, 62, 10, 9, 60, 99, 111, 108, 111,
   117, 114, 62, 32, 87, 104, 105, 116, 101, 32, 60, 47, 99, 111, 108, 111, 117, 114, 62, 10, 9,
   60, 101, 110, 103, 105, 110, 101, 62, 10, 9, 9, 60, 112, 101, 116, 114, 111, 108, 47, 62, 10,
   9, 9, 60, 99, 97, 112, 97, 99, 105, 116, 121, 32, 117, 110, 105, 116, 115, 61, 39, 99, 99, 39,
   62, 49, 53, 57, 56, 60, 47, 99, 97, 112, 97, 99, 105, 116, 121, 62, 10, 9, 60, 47, 101, 110,
   103, 105, 110, 101, 62, 10, 60, 47, 112, 114, 101, 58, 86, 101, 104, 105, 99, 108, 101, 62]

/-- A reader over the document. -/
def rd (off : Int) : Reader :=
  match Reader.newUtf8 (some XML) off XML.length with
  | .ok r => r
  | .error _ => ⟨.utf8, [], 0, 0⟩

/-- `i` calls of `GetChar`, each with a positive result. -/
def readAll : Nat → Reader → Bool
  | 0, _ => true
  | n + 1, r => match Reader.getChar r with
    | .ok c r' => decide (c > 0) && readAll n r'
    | _ => false

/-- The error of a constructor. -/
def ctorErr {α : Type} : Except GoErr α → Option GoErr
  | .error e => some e
  | .ok _ => none

example : ctorErr (Reader.newUtf8 (some XML) 0 XML.length) = none := by decide +kernel
example : ctorErr (Reader.newUtf8 none 0 0) =
    some (newInvalidArgumentError "xmlDoc" CannotBeNil none) := by decide +kernel
example : ctorErr (Reader.newUtf8 (some XML) (-1) 0) =
    some (newInvalidArgumentError "offset" IndexOutOfRange none) := by decide +kernel
example : ctorErr (Reader.newUtf8 (some XML) 0 (-1)) =
    some (newInvalidArgumentError "endOffset" IndexOutOfRange none) := by decide +kernel
example : ctorErr (Reader.newUtf8 (some XML) 0 999999999) =
    some (newInvalidArgumentError "endOffset" IndexOutOfRange none) := by decide +kernel
example : readAll XML.length (rd 0) = true := by decide +kernel
example : errOf (Reader.getChar (rd XML.length)) = some (.eof XmlIncomplete) := by decide +kernel
example : valOf ((do
    let a ← Reader.skipChar (ch% '<')
    let b ← Reader.skipChar (ch% '?')
    let c ← Reader.skipChar (ch% 'x')
    pure (a && b && c) : M Reader Bool) (rd 0)) = some true := by decide +kernel
example : valOf (Reader.skipCharSeq (str% "<?xml ") (rd 0)) = some true := by decide +kernel

/-! ## `vtdxml/buffer/byte_buffer_test.go`, `int_buffer_test.go`, `long_buffer_test.go`, `object_buffer_test.go` -/

/-- `getInitializedBuffer`. -/
def bytes : UniByteBuffer := ⟨[15, 23, 10] ++ List.replicate 1021 0⟩

example : bytes.getSize = 1024 := by decide +kernel
example : ctorErr (UniByteBuffer.new none) = some (newInvalidArgumentError "buffer" CannotBeNil none) := by decide +kernel
example : valOf (UniByteBuffer.byteAt 0 bytes) = some 15 := by decide +kernel
example : valOf (UniByteBuffer.byteAt 1 bytes) = some 23 := by decide +kernel
example : valOf (UniByteBuffer.byteAt 2 bytes) = some 10 := by decide +kernel
example : indexError (UniByteBuffer.byteAt (-1) bytes) = true := by decide +kernel
example : indexError (UniByteBuffer.byteAt 1024 bytes) = true := by decide +kernel
example : indexError (UniByteBuffer.byteAt 1025 bytes) = true := by decide +kernel
example : valOf (UniByteBuffer.getByteSlice 0 3 bytes) = some [15, 23, 10] := by decide +kernel
example : errOf (UniByteBuffer.getByteSlice (-1) 3 bytes) = some (.invalidArgument "offset" IndexOutOfRange) := by decide +kernel
example : errOf (UniByteBuffer.getByteSlice 1024 3 bytes) = some (.invalidArgument "offset" IndexOutOfRange) := by decide +kernel
example : errOf (UniByteBuffer.getByteSlice 1025 3 bytes) = some (.invalidArgument "offset" IndexOutOfRange) := by decide +kernel
example : errOf (UniByteBuffer.getByteSlice 0 (-1) bytes) = some (.invalidArgument "length" InvalidSliceLength) := by decide +kernel
example : errOf (UniByteBuffer.getByteSlice 0 1024 bytes) = some (.invalidArgument "length" InvalidSliceLength) := by decide +kernel

/-- Size, capacity, exponent, page size and mask of a new buffer. -/
def fields {α : Type} : Res (Paged α) Unit → Option (List Int)
  | .ok _ b => some [b.size, b.capacity, b.exp, b.pageSize, b.r]
  | _ => none

example : fields (Paged.newInt (α := BitVec 32) []) = some [0, 0, 10, 1024, 1023] := by decide +kernel
example : fields (Paged.newInt (α := BitVec 32) [32]) =
    some [0, 0, 32, 4294967296, 4294967295] := by decide +kernel
example : fields (Paged.newLong (α := BitVec 64) []) = some [0, 0, 10, 1024, 1023] := by decide +kernel
example : fields (Paged.newLong (α := BitVec 64) [32]) =
    some [0, 0, 32, 4294967296, 4294967295] := by decide +kernel
example : fields (Paged.newObject (α := Nat) []) = some [0, 0, 10, 1024, 1023] := by decide +kernel
example : fields (Paged.newObject (α := Nat) [32]) =
    some [0, 0, 32, 4294967296, 4294967295] := by decide +kernel
example : errOf (Paged.newInt (α := BitVec 32) [2048]) =
    some (.invalidArgument "size" InvalidBufferPageSize) := by decide +kernel

/-- The values 0 … 99 with the page size of the tests. -/
def longs : FastLongBuffer := fill (emptyBuf 32) ((List.range 100).map (BitVec.ofNat 64))

/-- `ModifyEntry` and then a read. -/
def modifyThen {α : Type} (i : Int) (v : BitVec 64) (m : M FastLongBuffer α) : Option α :=
  valOf ((do Paged.modifyEntry i v; m : M FastLongBuffer α) longs)

example : modifyThen 99 100 (Paged.longAt 99) = some 100 := by decide +kernel
example : modifyThen 99 100 (Paged.lower32At 99) = some 100 := by decide +kernel
example : modifyThen 99 100 (Paged.upper32At 99) = some 0 := by decide +kernel
example : modifyThen 50 1234567891234 (Paged.longAt 50) = some 1234567891234 := by decide +kernel
example : modifyThen 50 1234567891234 (Paged.lower32At 50) = some 1912277282 := by decide +kernel
example : modifyThen 50 1234567891234 (Paged.upper32At 50) = some 287 := by decide +kernel
example : modifyThen 95 9685749585475 (Paged.longAt 95) = some 9685749585475 := by decide +kernel
example : modifyThen 95 9685749585475 (Paged.lower32At 95) = some 598332995 := by decide +kernel
example : modifyThen 95 9685749585475 (Paged.upper32At 95) = some 2255 := by decide +kernel
example : valOf (Paged.toArray longs) = some ((List.range 100).map (BitVec.ofNat 64)) := by decide +kernel
example : longs.getSize = 100 := by decide +kernel
example : longs.clear.getSize = 0 := by decide +kernel
example : indexError (Paged.longAt (-1) longs) = true := by decide +kernel
example : errOf (Paged.lower32At (-1) longs) = some (.invalidArgument "index" IndexOutOfRange) := by decide +kernel
example : errOf (Paged.upper32At (-1) longs) = some (.invalidArgument "index" IndexOutOfRange) := by decide +kernel
example : errOf (Paged.modifyEntry (-1) 1234 longs) = some (.invalidArgument "index" IndexOutOfRange) := by decide +kernel
example : indexError (Paged.longAt 100 longs) = true := by decide +kernel
example : errOf (Paged.lower32At 100 longs) = some (.invalidArgument "index" IndexOutOfRange) := by decide +kernel
example : errOf (Paged.upper32At 100 longs) = some (.invalidArgument "index" IndexOutOfRange) := by decide +kernel
example : errOf (Paged.modifyEntry 100 1234 longs) = some (.invalidArgument "index" IndexOutOfRange) := by decide +kernel
example : indexError (Paged.longAt 101 longs) = true := by decide +kernel
example : errOf (Paged.lower32At 101 longs) = some (.invalidArgument "index" IndexOutOfRange) := by decide +kernel
example : errOf (Paged.upper32At 101 longs) = some (.invalidArgument "index" IndexOutOfRange) := by decide +kernel
example : errOf (Paged.modifyEntry 101 1234 longs) = some (.invalidArgument "index" IndexOutOfRange) := by decide +kernel

end GoVtd.Tests
