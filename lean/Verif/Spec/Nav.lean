import Verif.Model.Nav
import Verif.Spec.Buffer

/-!
# Navigators over a list of records

The token buffer of a navigator is described by the values appended to it. Random access
works on the first page only (property C02), so the theorems about navigation speak about
token buffers that fit on one page, or about indices on the first page.
-/

namespace GoVtd

/-- The token buffer of `n` was built with page-size options `exps` and holds `xs`. -/
def NavOver (exps : List Int) (xs : List (BitVec 64)) (n : VtdNav) : Prop :=
  SmallExps exps ∧ LongBufferWith exps xs n.vtdBuffer

/-- The index lies on the first page of a buffer with options `exps`. -/
def FirstPage (exps : List Int) (i : Int) : Prop := 0 ≤ i ∧ i < 2 ^ pageExp exps

/-- One token as a user thinks of it. -/
structure Tok where
  type : Token
  depth : Int
  offset : Nat
  length : Nat
  deriving DecidableEq, Repr

/-- The fields fit their places: depth -1 (before the root) to 254, length below `2^20`,
offset below `2^30`. -/
def Tok.Fits (t : Tok) : Prop :=
  -1 ≤ t.depth ∧ t.depth ≤ 254 ∧ t.length < 2 ^ 20 ∧ t.offset < 2 ^ 30

/-- The packed form: type in bits 60..63, depth modulo 256 in bits 52..59, length in bits
32..51, offset in bits 0..29. -/
def Tok.packed (t : Tok) : BitVec 64 :=
  BitVec.ofNat 64 (t.type.code * 2 ^ 60 + (t.depth % 256).toNat * 2 ^ 52 + t.length * 2 ^ 32 +
    t.offset)

/-! Elements in a token list. Tokens come in document order and a start tag carries the
nesting depth of its element, so the tree can be read off the list. -/

/-- Token `k` is the start tag of an element at depth `d`. -/
def StartAt (ts : List Tok) (k : Nat) (d : Int) : Prop :=
  ∃ t, ts[k]? = some t ∧ t.type = .startingTag ∧ t.depth = d

/-- Token `j` is the start tag of a child of the element at depth `d` whose start tag is
token `i`: it is one level deeper, and nothing between the two has left the element. -/
def IsChild (ts : List Tok) (i : Nat) (d : Int) (j : Nat) : Prop :=
  i < j ∧ StartAt ts j (d + 1) ∧ ∀ k, i < k → k < j → ∀ d', StartAt ts k d' → d < d'

def IsFirstChild (ts : List Tok) (i : Nat) (d : Int) (j : Nat) : Prop :=
  IsChild ts i d j ∧ ∀ j', IsChild ts i d j' → j ≤ j'

def IsLastChild (ts : List Tok) (i : Nat) (d : Int) (j : Nat) : Prop :=
  IsChild ts i d j ∧ ∀ j', IsChild ts i d j' → j' ≤ j

/-- Token `j` is the start tag of the next element at depth `d` after token `i` that has
the same parent. -/
def IsNextSibling (ts : List Tok) (i : Nat) (d : Int) (j : Nat) : Prop :=
  i < j ∧ StartAt ts j d ∧ ∀ k, i < k → k < j → ∀ d', StartAt ts k d' → d < d'

/-- Token `j` is the start tag of the nearest element at depth `d` before token `i` and
after token `par`, the start tag of the parent. -/
def IsPrevSibling (ts : List Tok) (par i : Nat) (d : Int) (j : Nat) : Prop :=
  par < j ∧ j < i ∧ StartAt ts j d ∧ ∀ k, j < k → k < i → ¬ StartAt ts k d

/-! Location caches. -/

/-- One entry of a location cache: the token of an element, and the position of its first
child in the cache of the next level. -/
structure CacheEntry where
  token : Nat
  child : Option Nat
  deriving DecidableEq, Repr

/-- Token index in the upper half, child position (or all ones) in the lower half. -/
def CacheEntry.packed (e : CacheEntry) : BitVec 64 :=
  BitVec.ofNat 64 (e.token * 2 ^ 32 + e.child.getD (2 ^ 32 - 1))

/-- Token indices below `2^28`, positions below `2^31`. -/
def CacheEntry.Fits (e : CacheEntry) : Prop :=
  e.token < 2 ^ 28 ∧ ∀ c, e.child = some c → c < 2 ^ 31

/-- The cache buffer `b` holds the entries `es` on one page. -/
structure CacheOver (exps : List Int) (es : List CacheEntry) (b : FastLongBuffer) : Prop where
  small : SmallExps exps
  holds : LongBufferWith exps (es.map CacheEntry.packed) b
  fits : ∀ e ∈ es, e.Fits
  page : es.length ≤ 2 ^ pageExp exps

/-- `u` is the position, in a next-level cache of `size` entries, of the last child of
entry `k`: the one before the first child of the next entry that has children, or the last
of the cache. -/
def IsLastPos (es : List CacheEntry) (size k u : Nat) : Prop :=
  (∃ (j : Nat) (e : CacheEntry), k < j ∧ es[j]? = some e ∧ e.child = some (u + 1) ∧
    ∀ j', k < j' → j' < j → ∀ e', es[j']? = some e' → e'.child = none) ∨
  ((∀ j, k < j → ∀ e, es[j]? = some e → e.child = none) ∧ u + 1 = size)

end GoVtd
