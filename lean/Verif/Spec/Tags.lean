import Verif.Spec.Grammar

/-!
# The tags of a document

A list of the tags in the order in which they stand, and what it means that every end tag closes the
innermost element that is still open. Positions and lengths are in bytes. Nothing here refers to the parser.
-/

namespace GoVtd
namespace Grammar

/-- A tag: a start tag (where its name is, how long the name is, how many elements are open around it), the end
`/>` of a start tag (where its `>` is), an end tag (where its name is). -/
inductive Mark where
  | start (pos len level : Nat)
  | empty (pos : Nat)
  | close (pos : Nat)
  deriving DecidableEq, Repr

/-- Where the tag is. -/
def Mark.pos : Mark → Nat
  | .start p _ _ => p
  | .empty p => p
  | .close p => p

/-- Position and level of a start tag. -/
def Mark.startOf : Mark → Option (Nat × Nat)
  | .start p _ l => some (p, l)
  | _ => none

/-- Position of an end tag. -/
def Mark.closeOf : Mark → Option Nat
  | .close p => some p
  | _ => none

/-- The positions of the end tags. -/
def closes (es : List Mark) : List Nat := es.filterMap Mark.closeOf

/-- The bytes `doc[q .. q + len]`. -/
def sub (doc : List UInt8) (q len : Nat) : List UInt8 := (doc.drop q).take len

/-- A name: a start byte followed by name bytes. -/
def IsName (n : List UInt8) : Prop := ∃ b t, n = b :: t ∧ StartByte b ∧ AllName t

/-- A name of `len` bytes stands at `q` and ends there. At the start of a document up to four bytes of a false
start of an XML declaration (`?xml`) can belong to it; `k` is their number. -/
structure NameAt (doc : List UInt8) (q len k : Nat) : Prop where
  name : IsName ((sub doc q len).drop k)
  ends : ∃ b, doc[q + len]? = some b ∧ ¬ NameByte b

/-- After the name of an end tag: white space, then `>`. -/
def ClosesAt (doc : List UInt8) (i : Nat) : Prop := ∃ w r, AllWs w ∧ doc.drop i = w ++ 0x3E :: r

/-- `Tags doc es stk`: the tags `es` come one after the other, each end tag repeats the name of the innermost
open start tag, and `stk` are the open start tags (position and length of the name), innermost first. -/
inductive Tags (doc : List UInt8) : List Mark → List (Nat × Nat) → Prop where
  | nil : Tags doc [] []
  | start {es stk q len k} : Tags doc es stk → (∀ e ∈ es, e.pos < q) → (stk = [] → es = []) →
      k ≤ 4 → (stk ≠ [] → k = 0) → NameAt doc q len k →
      Tags doc (es ++ [.start q len stk.length]) ((q, len) :: stk)
  | empty {es stk o len q} : Tags doc es ((o, len) :: stk) → es.getLast? = some (.start o len stk.length) →
      (∀ e ∈ es, e.pos < q) → doc[q - 1]? = some 0x2F → doc[q]? = some 0x3E → Tags doc (es ++ [.empty q]) stk
  | close {es stk o len q} : Tags doc es ((o, len) :: stk) → (∀ e ∈ es, e.pos < q) → doc[q - 1]? = some 0x2F →
      sub doc q len = sub doc o len → ClosesAt doc (q + len) → Tags doc (es ++ [.close q]) stk

end Grammar
end GoVtd
