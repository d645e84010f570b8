import Verif.Spec.Parsed

/-!
# The location caches that a tree calls for
-/

namespace GoVtd

/-- The start tags among the token records: index of the record, and depth. The first record has index `i`. -/
def startsFrom : Nat → List (BitVec 64) → List (Nat × Nat)
  | _, [] => []
  | i, w :: ws => if IsStart w then (i, tokenDepth w) :: startsFrom (i + 1) ws else startsFrom (i + 1) ws

/-- The entry of a start tag: the upper half is the index of its record, the lower half is the position of its
first child in the next cache. -/
def entry (index child : Nat) : BitVec 64 := BitVec.ofNat 64 (index * 2 ^ 32 + child)

/-- What the parser writes in place of the position of the first child for elements without one. -/
def noChild : Nat := 0xFFFF

/-- What the navigator takes for the marker of elements without children
(`vtdxml/navigation/to_element.go:93,127`). -/
def navNoChild : Nat := 0xFFFFFFFF

/-- The level-`k` cache of a list of start tags in document order, preceded by `c` start tags of depth `k + 1`.
It has an entry for each start tag of depth `k`. The first child of that element is the next start tag, if
its depth is `k + 1`; `c` start tags of its depth precede it. If there is none the entry has the marker `m`. -/
def level (m k : Nat) : Nat → List (Nat × Nat) → List (BitVec 64)
  | _, [] => []
  | c, (i, d) :: rest =>
    if d = k then entry i (if rest.head?.map (·.2) = some (k + 1) then c else m) :: level m k c rest
    else level m k (if d = k + 1 then c + 1 else c) rest

/-- The last cache has only the indices of the start tags of depth `k`. -/
def lastLevel (k : Nat) (sts : List (Nat × Nat)) : List (BitVec 64) :=
  (sts.filter (·.2 = k)).map fun x => BitVec.ofNat 64 x.1

end GoVtd
