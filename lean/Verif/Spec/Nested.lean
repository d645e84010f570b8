import Verif.Spec.Grammar

/-!
# The accepted language as a context-free grammar

The grammar of `Verif/Spec/Grammar.lean` follows the parser and keeps a stack of open elements. This one has
no stack: an element is a start tag, a content, and an end tag with the same name. `Verif/Props/Nested.lean`
proves that both give the same documents with the same records. `d` is the number of open elements.
-/

namespace GoVtd.Grammar

/-- A start tag after `<`: name, input, records, is the element empty, rest. `pre` as in `NT.lt`. -/
inductive Tag (n d : Nat) (pre : List UInt8) : List UInt8 → List UInt8 → List Rec → Bool → List UInt8 → Prop where
  | mk {b run x r recs e r'} : StartByte b → AllName run → ¬ NameByte x →
      d ≤ 254 → lastColon (pre.length + 1) 0 run ≤ 511 → (pre ++ b :: run).length ≤ 2047 →
      TagRest n d [] (x :: r) recs e r' →
      Tag n d pre (pre ++ b :: run) (b :: (run ++ x :: r))
        (⟨.startingTag, offset n (pre ++ b :: (run ++ x :: r)),
          ((lastColon (pre.length + 1) 0 run <<< 1 ||| (pre ++ b :: run).length : Nat) : Int), d⟩ :: recs) e r'

/-- Parts of the content of an element. -/
inductive Part where
  /-- What comes after markup. -/
  | content (prev : Prev)
  /-- What comes after `<`. -/
  | markup

/-- The content of an element up to and including the `</` of its end tag: part, input, records, rest. -/
inductive Inside (n : Nat) : Nat → Part → List UInt8 → List Rec → List UInt8 → Prop where
  | endTag {d r} : Inside n d .markup (ch% '/' :: r) [] r
  /-- An empty element. -/
  | empty {d name s recs r1 recs1 r'} : Tag n d [] name s recs true r1 → Inside n d (.content .other) r1 recs1 r' →
      Inside n d .markup s (recs ++ recs1) r'
  /-- An element: start tag, content, end tag with the same name. -/
  | element {d name s recs r1 recs1 w r2 recs2 r'} : Tag n d [] name s recs false r1 →
      Inside n (d + 1) (.content .start) r1 recs1 (name ++ w ++ ch% '>' :: r2) → AllWs w →
      Inside n d (.content .end) r2 recs2 r' → Inside n d .markup s (recs ++ recs1 ++ recs2) r'
  | comment {d r r1 recs r'} : CommentBody r (ch% '>' :: r1) → Inside n d (.content .other) r1 recs r' →
      Inside n d .markup (str% "!--" ++ r)
        (textRecs .comment (offset n r) (r.length - (r1.length + 3)) (d - 1) ++ recs) r'
  | cdata {d r r1 recs r'} : CdataBody r r1 → Inside n d (.content .other) r1 recs r' →
      Inside n d .markup (str% "![CDATA[" ++ r)
        (textRecs .cdataVal (offset n r) (r.length - (r1.length + 3)) (d - 1) ++ recs) r'
  /-- Not XML. -/
  | doctype {d r w r2 recs r'} : DtdBody 1 r (w ++ ch% '<' :: r2) →
      r.length - ((w ++ ch% '<' :: r2).length + 1) ≤ maxLen → AllWs w → Inside n d .markup r2 recs r' →
      Inside n d .markup (str% "!DDOCTYPE" ++ r)
        (⟨.dtdVal, offset n r, r.length - ((w ++ ch% '<' :: r2).length + 1), d - 1⟩ :: recs) r'
  | pi {d : Nat} {r recs r1 recs' r'} : Pi n (d - 1) r recs r1 → Inside n d (.content .other) r1 recs' r' →
      Inside n d .markup (ch% '?' :: r) (recs ++ recs') r'
  /-- White space that is not recorded, and markup. -/
  | space {d prev w r recs r'} : AllWs w → (prev = .start → r.head? ≠ some (ch% '/')) →
      Inside n d .markup r recs r' → Inside n d (.content prev) (w ++ ch% '<' :: r) recs r'
  /-- White space that is all of the content. -/
  | gap {d w r} : AllWs w → Inside n d (.content .start) (w ++ ch% '<' :: ch% '/' :: r)
      (textRecs .characterData (offset n (w ++ ch% '<' :: ch% '/' :: r)) w.length (d - 1)) r
  | text {d prev w b r r1 recs r'} : AllWs w → ¬ Ws b → b ≠ ch% '<' → (prev = .end → ContentByte b) →
      TextBody (b :: r) r1 → Inside n d .markup r1 recs r' →
      Inside n d (.content prev) (w ++ b :: r)
        (textRecs .characterData (offset n (w ++ b :: r)) ((w ++ b :: r).length - (r1.length + 1)) (d - 1) ++ recs) r'
  /-- Not XML. -/
  | lost {d w r r1 recs r'} : AllWs w → Item r r1 → Inside n d .markup r1 recs r' →
      Inside n d (.content .end) (w ++ r) recs r'

/-- The rest of a document after the root element. -/
inductive Epilog (n : Nat) : List UInt8 → List Rec → Prop where
  | done {w} : AllWs w → Epilog n w []
  | pi {w r x r1 r2 recs} : AllWs w → PiEndTarget r x r1 → Ws x → r.length - (r1.length + 1) ≤ maxLen →
      PiBody r1 r2 → r1.length - (r2.length + 2) ≤ maxLen → Epilog n r2 recs →
      Epilog n (w ++ ch% '<' :: ch% '?' :: r)
        (⟨.piName, offset n r, r.length - (r1.length + 1), -1⟩ ::
          ⟨.piVal, offset n r1, r1.length - (r2.length + 2), -1⟩ :: recs)
  /-- Not XML. -/
  | piCut {w r r1 recs} : AllWs w → PiEndTarget r (ch% '?') r1 → r1 ≠ [] → r1.head? ≠ some (ch% '>') →
      r.length - (r1.length + 1) ≤ maxLen → Epilog n r1 recs →
      Epilog n (w ++ ch% '<' :: ch% '?' :: r)
        (⟨.piName, offset n r, r.length - (r1.length + 1), -1⟩ :: ⟨.piVal, offset n r1, 0, -1⟩ :: recs)

/-- A document from behind its first `<`: comments and processing instructions, one root element, and the
rest. -/
inductive Root (n : Nat) : List UInt8 → List UInt8 → List Rec → Prop where
  | empty {pre name s recs r1 recs1} : Tag n 0 pre name s recs true r1 → Epilog n r1 recs1 →
      Root n pre s (recs ++ recs1)
  | element {pre name s recs r1 recs1 w r2 recs2} : Tag n 0 pre name s recs false r1 →
      Inside n 1 (.content .start) r1 recs1 (name ++ w ++ ch% '>' :: r2) → AllWs w → Epilog n r2 recs2 →
      Root n pre s (recs ++ recs1 ++ recs2)
  | comment {pre r r1 w r2 recs} : CommentBody r (ch% '>' :: r1) → AllWs w → r1 = w ++ ch% '<' :: r2 → Root n [] r2 recs →
      Root n pre (str% "!--" ++ r) (textRecs .comment (offset n r) (r.length - (r1.length + 3)) (-1) ++ recs)
  | pi {pre r recs w r2 recs'} : Pi n (-1) r recs (w ++ ch% '<' :: r2) → AllWs w → Root n [] r2 recs' →
      Root n pre (ch% '?' :: r) (recs ++ recs')

/-- A whole document. -/
inductive Document (n : Nat) : List UInt8 → List Rec → Prop where
  /-- With an XML declaration. -/
  | decl {x m l s w r recs r1 recs1 w' r2 recs2} : XmlPrefix [x, m, l] → Ws s → AllWs w →
      Version n r recs r1 → DeclRest n r1 recs1 (str% "?>" ++ w' ++ ch% '<' :: r2) → AllWs w' →
      Root n [] r2 recs2 →
      Document n (ch% '<' :: ch% '?' :: x :: m :: l :: s :: (w ++ r)) (recs ++ recs1 ++ recs2)
  /-- Without. -/
  | plain {pre r recs} : NoDecl pre r → Root n pre r recs → Document n (ch% '<' :: (pre ++ r)) recs
  /-- After white space. -/
  | space {w r recs} : w ≠ [] → AllWs w → Root n [] r recs → Document n (w ++ ch% '<' :: r) recs

end GoVtd.Grammar
