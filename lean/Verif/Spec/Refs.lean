import Verif.Spec.Xml

/-!
# Numeric character references
-/

namespace GoVtd

/-- Wherever the bytes `&#` occur, at most eight bytes stand between them and the next `;` (or the end of the slice, if
there is no `;`). Eight are enough for every character of XML: the longest references without leading zeros are
`&#x10FFFF;` and `&#1114111;`, with seven. -/
def ShortRefs (doc : List UInt8) : Prop :=
  ∀ pre post, doc = pre ++ [0x26, 0x23] ++ post → (post.takeWhile (· ≠ 0x3B)).length ≤ 8

end GoVtd
