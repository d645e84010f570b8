import Verif.Spec.Reach
import Verif.Spec.Items
import Verif.Spec.NavString

/-!
# Reading the strings of a parsed document
-/

namespace GoVtd

/-- `n` is a new navigator over what the parser `p` has recorded and over the bytes `doc`: `NewVtdNav` was called with the
root index, the token buffer and the first three caches of the parser, with `depth`, with `doc`, with one of the encodings
ASCII, ISO-8859-1 and UTF-8, and with anything else. -/
def ReaderOf (p : Parser) (doc : List UInt8) (depth : Int) (n : VtdNav) : Prop :=
  ∃ (offset length encoding : Int) (nsAware : Bool),
    (encoding = FormatAscii ∨ encoding = FormatIso88591 ∨ encoding = FormatUtf8) ∧
    newVtdNav p.out.rootIndex offset length depth encoding nsAware (some doc) p.out.vtdBuffer p.out.l1Buffer p.out.l2Buffer
      p.out.l3Buffer = .ok n ()

/-- The kinds whose length `GetTokenLength` looks for in the following tokens too: text, comments and CDATA sections. -/
def Item.IsText (x : Item) : Prop := x.kind = Token.characterData.code ∨ x.kind = Token.comment.code ∨ x.kind = Token.cdataVal.code

instance (x : Item) : Decidable x.IsText := inferInstanceAs (Decidable (_ ∨ _))

/-- A walk, `GetCurrentIndex` and `ToRawStringAtIndex`: the name of the element that was reached, none if a move failed. -/
def VtdNav.walkName (dirs : List Direction) : M VtdNav (Option (List UInt8)) := do
  let moved ← walk dirs
  if moved then do
    let i ← getCurrentIndex
    let name ← toRawStringAtIndex i
    pure (some name)
  else pure none

end GoVtd
