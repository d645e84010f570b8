import Verif.Spec.Outcome
import Verif.Model.Parser.Parse

/-!
# A whole parse as the caller sees it
-/

namespace GoVtd

/-- The bytes of an ASCII string. -/
def bytes (s : String) : List UInt8 := s.toList.map fun c => UInt8.ofNat c.toNat

/-- `p, err := NewVtdParser(opts...)`, then `err = p.Parse()`: what the caller sees. -/
def parseWith (fuel : Nat) (opts : List ParserOption) : Outcome Unit :=
  match newVtdParser fuel opts with
  | .error e => .error e
  | .ok p => (Parser.parse p).outcome

/-- The same with `WithXmlDoc` only. -/
def parseDoc (doc : List UInt8) : Outcome Unit := parseWith 0 [.xmlDoc (some doc)]

/-- The document, offset and length that a list of options selects: the last document option
counts. The length of a whole document is its number of bytes. -/
def chosenDoc (opts : List ParserOption) : Option (List UInt8 × Int × Int) :=
  opts.foldl (fun w o => match o with
    | .xmlDoc d => d.map fun doc => (doc, 0, (doc.length : Int))
    | .xmlDocCustomOffset d o l => d.map fun doc => (doc, o, l)
    | _ => w) none

/-- Namespace awareness that a list of options selects: the last such option counts. -/
def chosenNs (opts : List ParserOption) : Bool :=
  opts.foldl (fun b o => match o with
    | .nameSpaceAware b' => b'
    | _ => b) false

/-- Do the options ask for the deep (5-level) location cache? The last `WithLcDepth` with 3 or
5 counts. -/
def chosenDeep (opts : List ParserOption) : Bool :=
  opts.foldl (fun b o => match o with
    | .lcDepth d => if d = 3 then false else if d = 5 then true else b
    | _ => b) false

/-- Bytes that look like the start of UTF-16 text: `0x00 '<' 0x00 '?'` or `'<' 0x00 '?' 0x00`. -/
def LooksUtf16 (bs : List UInt8) : Prop :=
  [0x00, 0x3c, 0x00, 0x3f] <+: bs ∨ [0x3c, 0x00, 0x3f, 0x00] <+: bs

end GoVtd
