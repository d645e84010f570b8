import Verif.Model.Parser.State
import Verif.Spec.Xml

/-!
# The language the parser accepts

A grammar for the documents that `Parse` accepts without namespace awareness, with the token records that it
writes for them. `Verif/Props/Grammar.lean` proves that the grammar is exact, in both directions. It is
close to XML. The places where it is not are the productions marked "not XML".

Conventions. The input is a list of bytes and every production relates the input that is left before to the
input that is left after, so that a position is the length of a rest. `n` is the length of the whole byte
slice and `offset n r` the offset of the rest `r` in it. A stack `st` lists the names of the open elements,
innermost first; the records of a tag or a text have depth `st.length - 1` for the stack in force.
-/

namespace GoVtd.Grammar

/-! ## Bytes -/

/-- White space. -/
abbrev Ws (b : UInt8) : Prop := Spec.S b.toNat
/-- A byte that can continue a name. -/
abbrev NameByte (b : UInt8) : Prop := Spec.NameChar b.toNat
/-- A byte that can start a name. -/
abbrev StartByte (b : UInt8) : Prop := Spec.NameStartChar b.toNat
/-- A byte that is a character of the document. -/
abbrev CharByte (b : UInt8) : Prop := Spec.Char11 b.toNat
/-- A byte of character data: none of `<`, `&` and `]`. -/
abbrev ContentByte (b : UInt8) : Prop := Spec.ContentChar b.toNat

/-- A list of white space. -/
def AllWs (w : List UInt8) : Prop := ∀ b ∈ w, Ws b
/-- A list of name bytes. -/
def AllName (w : List UInt8) : Prop := ∀ b ∈ w, NameByte b

/-! ## Records -/

/-- A token record. -/
structure Rec where
  tok : Token
  off : Int
  len : Int
  depth : Int
  deriving DecidableEq, Repr

/-- Offset of the rest `r` of a slice of `n` bytes. -/
def offset (n : Nat) (r : List UInt8) : Int := n - r.length

/-- Largest length of one record. -/
def maxLen : Nat := 0xFFFFF

/-- The records of a text, a comment or a CDATA section. Not as documented: the records of a text that needs
more than one begin at offset 0 of the slice, not at the text. -/
def textRecs (tok : Token) (off len depth : Int) : List Rec :=
  if len > maxLen then
    let k := (len.toNat - 1) / maxLen
    (List.range k).map (fun (i : Nat) => ⟨tok, i * maxLen, maxLen, depth⟩) ++
      [⟨tok, k * maxLen, len - k * maxLen, depth⟩]
  else [⟨tok, off, len, depth⟩]

/-- Position of the last colon in a list of bytes that starts at position `i`; `acc` if there is none. -/
def lastColon : Nat → Nat → List UInt8 → Nat
  | _, acc, [] => acc
  | i, acc, b :: r => lastColon (i + 1) (if b = ch% ':' then i else acc) r

/-! ## References and character data -/

/-- Value of a hexadecimal digit. -/
def hexVal (b : UInt8) : Option Nat :=
  if ch% '0' ≤ b ∧ b ≤ ch% '9' then some (b.toNat - ch% '0')
  else if ch% 'a' ≤ b ∧ b ≤ ch% 'f' then some (b.toNat - ch% 'a' + 10)
  else if ch% 'A' ≤ b ∧ b ≤ ch% 'F' then some (b.toNat - ch% 'A' + 10)
  else none

/-- Hexadecimal digits up to a semicolon. Not XML: the number is taken modulo `2^32`. -/
inductive HexDigits : Nat → List UInt8 → Nat → List UInt8 → Prop where
  | stop {v r} : HexDigits v (ch% ';' :: r) v r
  | digit {v b d r v' r'} : hexVal b = some d → HexDigits ((v * 16 + d) % 2 ^ 32) r v' r' →
      HexDigits v (b :: r) v' r'

/-- Decimal digits up to a semicolon. Not XML: the number is taken modulo `2^32`. -/
inductive DecDigits : Nat → List UInt8 → Nat → List UInt8 → Prop where
  | stop {v r} : DecDigits v (ch% ';' :: r) v r
  | digit {v b r v' r'} : ch% '0' ≤ b → b ≤ ch% '9' →
      DecDigits ((v * 10 + (b.toNat - ch% '0')) % 2 ^ 32) r v' r' → DecDigits v (b :: r) v' r'

/-- A reference after its ampersand, with the character it denotes. -/
inductive Ref : List UInt8 → Nat → List UInt8 → Prop where
  | hex {r v r'} : HexDigits 0 r v r' → Spec.Char11 v → Ref (ch% '#' :: ch% 'x' :: r) v r'
  | dec {r v r'} : DecDigits 0 r v r' → Spec.Char11 v → Ref (ch% '#' :: r) v r'
  | amp {r} : Ref (str% "amp;" ++ r) (ch% '&') r
  | apos {r} : Ref (str% "apos;" ++ r) (ch% '\'') r
  | quot {r} : Ref (str% "quot;" ++ r) (ch% '"') r
  | gt {r} : Ref (str% "gt;" ++ r) (ch% '>') r
  | lt {r} : Ref (str% "lt;" ++ r) (ch% '<') r

/-- A piece of character data that begins with `&` or `]`: a reference, or right brackets that no `>`
follows. Not XML: a single bracket before `>` is refused. -/
inductive Item : List UInt8 → List UInt8 → Prop where
  | ref {r v r'} : Ref r v r' → Item (ch% '&' :: r) r'
  | brackets {k b r} : b ≠ ch% ']' → b ≠ ch% '>' →
      Item (ch% ']' :: (List.replicate k (ch% ']') ++ b :: r)) (b :: r)

/-- Character data up to and including the next `<`. -/
inductive TextBody : List UInt8 → List UInt8 → Prop where
  | stop {r} : TextBody (ch% '<' :: r) r
  | char {b r r'} : ContentByte b → TextBody r r' → TextBody (b :: r) r'
  | item {r r1 r'} : Item r r1 → TextBody r1 r' → TextBody r r'

/-- An attribute value up to and including its closing quote `q`. -/
inductive AttrBody (q : UInt8) : List UInt8 → List UInt8 → Prop where
  | stop {r} : AttrBody q (q :: r) r
  | char {b r r'} : CharByte b → b ≠ ch% '<' → b ≠ ch% '&' → b ≠ q → AttrBody q r r' →
      AttrBody q (b :: r) r'
  | ref {r v r1 r'} : Ref r v r1 → AttrBody q r1 r' → AttrBody q (ch% '&' :: r) r'

/-! ## Comments, CDATA sections, processing instructions, `DOCTYPE` -/

/-- A comment after `<!--`, up to and including the next `--`. -/
inductive CommentBody : List UInt8 → List UInt8 → Prop where
  | stop {r} : CommentBody (ch% '-' :: ch% '-' :: r) r
  | char {b r r'} : CharByte b → (b = ch% '-' → r.head? ≠ some (ch% '-')) → CommentBody r r' →
      CommentBody (b :: r) r'

/-- A CDATA section after `<![CDATA[`. Not XML: one bracket before `>` ends it. -/
inductive CdataBody : List UInt8 → List UInt8 → Prop where
  | stop {k r} : CdataBody (ch% ']' :: (List.replicate k (ch% ']') ++ ch% '>' :: r)) r
  | char {b r r'} : CharByte b → b ≠ ch% ']' → CdataBody r r' → CdataBody (b :: r) r'
  | brackets {k b r r'} : b ≠ ch% ']' → b ≠ ch% '>' → CdataBody (b :: r) r' →
      CdataBody (ch% ']' :: (List.replicate k (ch% ']') ++ b :: r)) r'

/-- The data of a processing instruction, up to and including the next `?>`. -/
inductive PiBody : List UInt8 → List UInt8 → Prop where
  | stop {r} : PiBody (ch% '?' :: ch% '>' :: r) r
  | char {b r r'} : CharByte b → (b = ch% '?' → r.head? ≠ some (ch% '>')) → PiBody r r' →
      PiBody (b :: r) r'

/-- The rest of a `DOCTYPE`, with `z` more closing than opening angle brackets. -/
inductive DtdBody : Nat → List UInt8 → List UInt8 → Prop where
  | stop {r} : DtdBody 1 (ch% '>' :: r) r
  | close {z r r'} : DtdBody (z + 1) r r' → DtdBody (z + 2) (ch% '>' :: r) r'
  | opening {z r r'} : DtdBody (z + 1) r r' → DtdBody z (ch% '<' :: r) r'
  | char {z b r r'} : CharByte b → b ≠ ch% '<' → b ≠ ch% '>' → DtdBody z r r' → DtdBody z (b :: r) r'

/-- The input starts with `xml` in any case. -/
def XmlPrefix (r : List UInt8) : Prop :=
  ∃ a b c r', r = a :: b :: c :: r' ∧ (a = ch% 'x' ∨ a = ch% 'X') ∧ (b = ch% 'm' ∨ b = ch% 'M') ∧
    (c = ch% 'l' ∨ c = ch% 'L')

/-- The target of a processing instruction with the byte `x` after it. Not XML: after `xml` one byte can be
anything but white space and `?`. -/
inductive PiTarget : List UInt8 → UInt8 → List UInt8 → Prop where
  | plain {b run x r} : StartByte b → ¬ XmlPrefix (b :: (run ++ x :: r)) → AllName run → ¬ NameByte x →
      PiTarget (b :: (run ++ x :: r)) x r
  | xml {a b c y run x r} : XmlPrefix [a, b, c] → y ≠ ch% '?' → ¬ Ws y → AllName run → ¬ NameByte x →
      PiTarget (a :: b :: c :: y :: (run ++ x :: r)) x r

/-- A processing instruction after `<?` with its records. -/
inductive Pi (n : Nat) (depth : Int) : List UInt8 → List Rec → List UInt8 → Prop where
  | bare {r r1} : PiTarget r (ch% '?') (ch% '>' :: r1) → r.length - (r1.length + 2) ≤ maxLen →
      Pi n depth r [⟨.piName, offset n r, r.length - (r1.length + 2), depth⟩, ⟨.piVal, offset n r, 0, depth⟩] r1
  | value {r x r1 r2} : PiTarget r x r1 → Ws x → r.length - (r1.length + 1) ≤ maxLen → PiBody r1 r2 →
      r1.length - (r2.length + 2) ≤ maxLen →
      Pi n depth r [⟨.piName, offset n r, r.length - (r1.length + 1), depth⟩,
        ⟨.piVal, offset n r1, r1.length - (r2.length + 2), depth⟩] r2

/-! ## Tags -/

/-- The end of a start tag; `true` if the element is empty. -/
inductive Close : List UInt8 → Bool → List UInt8 → Prop where
  | start {r} : Close (ch% '>' :: r) false r
  | empty {r} : Close (ch% '/' :: ch% '>' :: r) true r

/-- The names `xmlns` and `xmlns:…`. -/
def IsNs (name : List UInt8) : Prop := name = str% "xmlns" ∨ str% "xmlns:" <+: name

open Classical in
/-- Record of an attribute name. -/
noncomputable def attrRec (n : Nat) (depth : Int) (r name : List UInt8) : Rec :=
  ⟨if IsNs name then .attrNs else .attrName, offset n r,
    (((lastColon 0 0 name) <<< 11 ||| name.length : Nat) : Int), depth⟩

/-- The rest of a start tag after the name: attributes and end. `seen` are the names before. -/
inductive TagRest (n : Nat) (depth : Int) :
    List (List UInt8) → List UInt8 → List Rec → Bool → List UInt8 → Prop where
  | close {seen w r e r'} : AllWs w → Close r e r' → TagRest n depth seen (w ++ r) [] e r'
  | attr {seen w b run w1 w2 q r r1 recs e r'} : w ≠ [] → AllWs w → StartByte b → AllName run →
      (b :: run) ∉ seen → seen.length < 256 → lastColon 0 0 (b :: run) ≤ 511 → run.length + 1 ≤ 2047 →
      AllWs w1 → AllWs w2 → (q = ch% '"' ∨ q = ch% '\'') → AttrBody q r r1 →
      r.length - (r1.length + 1) ≤ maxLen → TagRest n depth ((b :: run) :: seen) r1 recs e r' →
      TagRest n depth seen (w ++ b :: run ++ w1 ++ ch% '=' :: w2 ++ q :: r)
        (attrRec n depth (b :: run ++ w1 ++ ch% '=' :: w2 ++ q :: r) (b :: run) ::
          ⟨.attrVal, offset n r, r.length - (r1.length + 1), depth⟩ :: recs) e r'

/-! ## The document -/

/-- What was seen last: a start tag, an end tag, or an empty element, a comment, a processing instruction or
a CDATA section. -/
inductive Prev where
  | start | «end» | other
  deriving DecidableEq

/-- Nonterminals. -/
inductive NT where
  /-- After `<`. `pre` are bytes after `<` that were read and count as part of the name. -/
  | lt (pre : List UInt8) (st : List (List UInt8))
  /-- After markup. -/
  | content (prev : Prev) (st : List (List UInt8))
  /-- After `</`. -/
  | close (st : List (List UInt8))
  /-- After the root element. -/
  | epilog

/-- What comes after the element on top of the stack, which is popped. -/
def next (prev : Prev) : List (List UInt8) → NT
  | [] => .epilog
  | st => .content prev st

/-- The target of a processing instruction after the root element. -/
inductive PiEndTarget : List UInt8 → UInt8 → List UInt8 → Prop where
  | mk {b run x r} : StartByte b → (XmlPrefix (b :: (run ++ x :: r)) → 3 ≤ run.length) → AllName run →
      ¬ NameByte x → PiEndTarget (b :: (run ++ x :: r)) x r

/-- The rest of a document: nonterminal, input, records. The input is read to its end. -/
inductive G (n : Nat) : NT → List UInt8 → List Rec → Prop where
  /-- A start tag. -/
  | start {pre st b run x r recs e r' recs'} : StartByte b → AllName run → ¬ NameByte x →
      st.length ≤ 254 → lastColon (pre.length + 1) 0 run ≤ 511 → (pre ++ b :: run).length ≤ 2047 →
      TagRest n st.length [] (x :: r) recs e r' →
      G n (if e then next .other st else .content .start ((pre ++ b :: run) :: st)) r' recs' →
      G n (.lt pre st) (b :: (run ++ x :: r))
        (⟨.startingTag, offset n (pre ++ b :: (run ++ x :: r)),
          ((lastColon (pre.length + 1) 0 run <<< 1 ||| (pre ++ b :: run).length : Nat) : Int), st.length⟩ ::
          (recs ++ recs'))
  /-- An end tag: the name on top of the stack. -/
  | endTag {pre st r recs} : G n (.close st) r recs → G n (.lt pre st) (ch% '/' :: r) recs
  | close {name st w r recs} : AllWs w → G n (next .end st) r recs →
      G n (.close (name :: st)) (name ++ w ++ ch% '>' :: r) recs
  /-- A comment. -/
  | comment {pre st r r1 recs} : CommentBody r (ch% '>' :: r1) → G n (.content .other st) r1 recs →
      G n (.lt pre st) (str% "!--" ++ r)
        (textRecs .comment (offset n r) (r.length - (r1.length + 3)) (st.length - 1) ++ recs)
  /-- A CDATA section. Not XML: its length is counted as if two brackets ended it. -/
  | cdata {pre st r r1 recs} : st ≠ [] → CdataBody r r1 → G n (.content .other st) r1 recs →
      G n (.lt pre st) (str% "![CDATA[" ++ r)
        (textRecs .cdataVal (offset n r) (r.length - (r1.length + 3)) (st.length - 1) ++ recs)
  /-- Not XML: `<!DDOCTYPE` inside the root element. -/
  | doctype {pre st r r1 w r2 recs} : st ≠ [] → DtdBody 1 r r1 → r.length - (r1.length + 1) ≤ maxLen →
      AllWs w → r1 = w ++ ch% '<' :: r2 → G n (.lt [] st) r2 recs →
      G n (.lt pre st) (str% "!DDOCTYPE" ++ r)
        (⟨.dtdVal, offset n r, r.length - (r1.length + 1), st.length - 1⟩ :: recs)
  /-- A processing instruction. -/
  | pi {pre st r recs r1 recs'} : Pi n (st.length - 1) r recs r1 → G n (.content .other st) r1 recs' →
      G n (.lt pre st) (ch% '?' :: r) (recs ++ recs')
  /-- White space and `<`; the white space is not recorded. -/
  | markup {prev st w r recs} : AllWs w → (prev = .start → r.head? ≠ some (ch% '/')) →
      G n (.lt [] st) r recs → G n (.content prev st) (w ++ ch% '<' :: r) recs
  /-- White space and `</` right after a start tag: the white space is recorded, even if it is empty. -/
  | gap {st w r recs} : AllWs w → G n (.close st) r recs →
      G n (.content .start st) (w ++ ch% '<' :: ch% '/' :: r)
        (textRecs .characterData (offset n (w ++ ch% '<' :: ch% '/' :: r)) w.length (st.length - 1) ++ recs)
  /-- Character data, with the white space before it. -/
  | text {prev st w b r r1 recs} : st ≠ [] → AllWs w → ¬ Ws b → b ≠ ch% '<' →
      (prev = .end → ContentByte b) → TextBody (b :: r) r1 → G n (.lt [] st) r1 recs →
      G n (.content prev st) (w ++ b :: r)
        (textRecs .characterData (offset n (w ++ b :: r)) ((w ++ b :: r).length - (r1.length + 1))
          (st.length - 1) ++ recs)
  /-- Not XML: a reference or brackets right after an end tag are read and lost, and what follows is taken
  as if it came after `<`. -/
  | lost {st w r r1 recs} : AllWs w → Item r r1 → G n (.lt [] st) r1 recs →
      G n (.content .end st) (w ++ r) recs
  /-- The end of the document. -/
  | done {w} : AllWs w → G n .epilog w []
  /-- A processing instruction with data after the root element. -/
  | piEnd {w r x r1 r2 recs} : AllWs w → PiEndTarget r x r1 → Ws x → r.length - (r1.length + 1) ≤ maxLen →
      PiBody r1 r2 → r1.length - (r2.length + 2) ≤ maxLen → G n .epilog r2 recs →
      G n .epilog (w ++ ch% '<' :: ch% '?' :: r)
        (⟨.piName, offset n r, r.length - (r1.length + 1), -1⟩ ::
          ⟨.piVal, offset n r1, r1.length - (r2.length + 2), -1⟩ :: recs)
  /-- Not XML: one without data, and without the closing `>`. -/
  | piCut {w r r1 recs} : AllWs w → PiEndTarget r (ch% '?') r1 → r1 ≠ [] → r1.head? ≠ some (ch% '>') →
      r.length - (r1.length + 1) ≤ maxLen → G n .epilog r1 recs →
      G n .epilog (w ++ ch% '<' :: ch% '?' :: r)
        (⟨.piName, offset n r, r.length - (r1.length + 1), -1⟩ :: ⟨.piVal, offset n r1, 0, -1⟩ :: recs)

/-! ## The XML declaration -/

/-- `=` between white space. -/
inductive Eq : List UInt8 → List UInt8 → Prop where
  | mk {w w' r} : AllWs w → AllWs w' → Eq (w ++ ch% '=' :: w' ++ r) r

/-- A quote. -/
def Quote (q : UInt8) : Prop := q = ch% '"' ∨ q = ch% '\''

/-- `version="1.0"` after white space, and the record of the value. Input starts at the name. -/
inductive Version (n : Nat) : List UInt8 → List Rec → List UInt8 → Prop where
  | mk {w w' q d r} : AllWs w → AllWs w' → Quote q → (d = ch% '0' ∨ d = ch% '1') →
      Version n (str% "version" ++ w ++ ch% '=' :: w' ++ q :: str% "1." ++ d :: q :: r)
        [⟨.decAttrName, offset n (str% "version" ++ w ++ ch% '=' :: w' ++ q :: str% "1." ++ d :: q :: r), 7, -1⟩,
         ⟨.decAttrVal, offset n (str% "1." ++ d :: q :: r), 3, -1⟩] r

/-- The name of the encoding and the length that is recorded for it. Not XML: of the names of Windows code
pages the last digit is missing, and they can start with a part of their lower-case spelling. -/
inductive EncName : List UInt8 → Int → Prop where
  | utf8 {u t f} : (u = ch% 'u' ∨ u = ch% 'U') → (t = ch% 't' ∨ t = ch% 'T') → (f = ch% 'f' ∨ f = ch% 'F') →
      EncName [u, t, f, ch% '-', ch% '8'] 5
  | cp {a s} : (a = ch% 'c' ∨ a = ch% 'C') → (s = str% "p125" ∨ ∃ k, k < 4 ∧
      s = (str% "p125" : List UInt8).take k ++ str% "P125") → EncName (a :: s) 6
  | win {a s} : (a = ch% 'w' ∨ a = ch% 'W') → (s = str% "indows-125" ∨ ∃ k, k < 10 ∧
      s = (str% "indows-125" : List UInt8).take k ++ str% "INDOWS-125") → EncName (a :: s) 12

/-- `encoding="…"` and the white space after it. Not XML: the quotes can differ. -/
inductive Encoding (n : Nat) : List UInt8 → List Rec → List UInt8 → Prop where
  | mk {w w' q e l q' w2 r} : AllWs w → AllWs w' → Quote q → EncName e l → Quote q' → AllWs w2 →
      (∀ b, r.head? = some b → ¬ Ws b) →
      Encoding n (str% "encoding" ++ w ++ ch% '=' :: w' ++ q :: e ++ q' :: w2 ++ r)
        [⟨.decAttrName, offset n (str% "encoding" ++ w ++ ch% '=' :: w' ++ q :: e ++ q' :: w2 ++ r), 8, -1⟩,
         ⟨.decAttrVal, offset n (e ++ q' :: w2 ++ r), l, -1⟩] r

/-- `standalone="…"` and the white space after it. Not XML: the quotes can differ, and `no` can come after a
part of `yes`. -/
inductive Standalone (n : Nat) : List UInt8 → List Rec → List UInt8 → Prop where
  | mk {w w' q v l q' w2 r} : AllWs w → AllWs w' → Quote q →
      ((v = str% "yes" ∧ l = 3) ∨ ((v = str% "no" ∨ v = str% "yno" ∨ v = str% "yeno") ∧ l = 2)) →
      Quote q' → AllWs w2 → (∀ b, r.head? = some b → ¬ Ws b) →
      Standalone n (str% "standalone" ++ w ++ ch% '=' :: w' ++ q :: v ++ q' :: w2 ++ r)
        [⟨.decAttrName, offset n (str% "standalone" ++ w ++ ch% '=' :: w' ++ q :: v ++ q' :: w2 ++ r), 10, -1⟩,
         ⟨.decAttrVal, offset n (v ++ q' :: w2 ++ r), l, -1⟩] r

/-- The part between the version and `?>`. -/
inductive DeclRest (n : Nat) : List UInt8 → List Rec → List UInt8 → Prop where
  | none {r} : DeclRest n r [] r
  | ws {w r} : w ≠ [] → AllWs w → DeclRest n (w ++ r) [] r
  | enc {w r recs r1} : w ≠ [] → AllWs w → Encoding n r recs r1 → DeclRest n (w ++ r) recs r1
  | alone {w r recs r1} : w ≠ [] → AllWs w → Standalone n r recs r1 → DeclRest n (w ++ r) recs r1
  | both {w r recs r1 recs' r2} : w ≠ [] → AllWs w → Encoding n r recs r1 → Standalone n r1 recs' r2 →
      DeclRest n (w ++ r) (recs ++ recs') r2

/-- Bytes after the first `<` that are read in search of `<?xml` and then count as part of a name (not XML):
`pre` is the longest start of `?xml`, and `r` the rest. -/
inductive NoDecl : List UInt8 → List UInt8 → Prop where
  | none {b r} : b ≠ ch% '?' → NoDecl [] (b :: r)
  | q {b r} : b ≠ ch% 'x' → b ≠ ch% 'X' → NoDecl [ch% '?'] (b :: r)
  | x {x b r} : (x = ch% 'x' ∨ x = ch% 'X') → b ≠ ch% 'm' → b ≠ ch% 'M' → NoDecl [ch% '?', x] (b :: r)
  | m {x m b r} : (x = ch% 'x' ∨ x = ch% 'X') → (m = ch% 'm' ∨ m = ch% 'M') → b ≠ ch% 'l' → b ≠ ch% 'L' →
      NoDecl [ch% '?', x, m] (b :: r)
  | l {x m l b r} : (x = ch% 'x' ∨ x = ch% 'X') → (m = ch% 'm' ∨ m = ch% 'M') → (l = ch% 'l' ∨ l = ch% 'L') →
      ¬ Ws b → b ≠ ch% '?' → NoDecl [ch% '?', x, m, l] (b :: r)

/-- A whole document. -/
inductive Doc (n : Nat) : List UInt8 → List Rec → Prop where
  /-- With an XML declaration. -/
  | decl {x m l s w r recs r1 recs1 w' r2 recs2} : XmlPrefix [x, m, l] → Ws s → AllWs w →
      Version n r recs r1 → DeclRest n r1 recs1 (str% "?>" ++ w' ++ ch% '<' :: r2) → AllWs w' →
      G n (.lt [] []) r2 recs2 →
      Doc n (ch% '<' :: ch% '?' :: x :: m :: l :: s :: (w ++ r)) (recs ++ recs1 ++ recs2)
  /-- Without. -/
  | plain {pre r recs} : NoDecl pre r → G n (.lt pre []) r recs → Doc n (ch% '<' :: (pre ++ r)) recs
  /-- After white space. -/
  | space {w r recs} : w ≠ [] → AllWs w → G n (.lt [] []) r recs → Doc n (w ++ ch% '<' :: r) recs

end GoVtd.Grammar
