import Verif.Spec.Caches
import Verif.Proofs.Parser.Shape
import Verif.Props.Grammar

/-!
# The location caches of a parse
-/

namespace GoVtd
namespace Parser
open Paged Grammar

/-- The caches as lists, with what is pending. -/
structure Lists where
  l1 : List (BitVec 64)
  l2 : List (BitVec 64)
  l3 : List (BitVec 64)
  l4 : List (BitVec 64)
  l5 : List (BitVec 64)
  i1 : Nat
  i2 : Nat
  i3 : Nat
  i4 : Nat
  last : Nat
  root : Nat

theorem leaf_eq (i : Nat) : lcLeaf i = GoVtd.entry i noChild := by
  simp only [lcLeaf, GoVtd.entry, noChild, BitVec.ofInt_natCast]
  apply BitVec.eq_of_toNat_eq
  simp only [BitVec.toNat_or, BitVec.toNat_shiftLeft, BitVec.toNat_ofNat, Nat.shiftLeft_eq]
  have e : i % 2 ^ 64 * 2 ^ 32 % 2 ^ 64 = (i % 2 ^ 32) <<< 32 := by
    rw [Nat.shiftLeft_eq]; omega
  rw [e, ← Nat.shiftLeft_add_eq_or_of_lt (by decide), Nat.shiftLeft_eq]
  omega

theorem entry_eq (i c : Nat) : lcEntry i c = GoVtd.entry i c := by
  simp only [lcEntry, GoVtd.entry, BitVec.ofInt_natCast]
  apply BitVec.eq_of_toNat_eq
  simp only [BitVec.toNat_add, BitVec.toNat_shiftLeft, BitVec.toNat_ofNat, Nat.shiftLeft_eq]
  omega

/-- `flush` on lists. -/
def Lists.flush (c : Lists) : Lists :=
  match c.last with
  | 1 => { c with l1 := c.l1 ++ [entry c.i1 noChild] }
  | 2 => { c with l2 := c.l2 ++ [entry c.i2 noChild] }
  | 3 => { c with l3 := c.l3 ++ [entry c.i3 noChild] }
  | 4 => { c with l4 := c.l4 ++ [entry c.i4 noChild] }
  | _ => c

/-- `cache` on lists. -/
def Lists.cache (i d : Nat) (c : Lists) : Lists :=
  match d with
  | 0 => { c with root := i }
  | 1 => { c.flush with i1 := i, last := 1 }
  | 2 => { (if c.last = 1 then { c with l1 := c.l1 ++ [entry c.i1 c.l2.length] } else c.flush) with i2 := i, last := 2 }
  | 3 => { (if c.last = 2 then { c with l2 := c.l2 ++ [entry c.i2 c.l3.length] }
      else if c.last = 3 ∨ c.last = 4 then c.flush else c) with i3 := i, last := 3 }
  | 4 => { (if c.last = 3 then { c with l3 := c.l3 ++ [entry c.i3 c.l4.length] }
      else if c.last = 4 then c.flush else c) with i4 := i, last := 4 }
  | 5 => { c with l5 := c.l5 ++ [BitVec.ofNat 64 i], l4 := (if c.last = 4 then c.l4 ++ [entry c.i4 c.l5.length] else c.l4), last := 5 }
  | _ => c

/-- The caches of a parser are these lists. -/
structure View (o : ParserOut) (c : Lists) : Prop where
  l1 : ∃ e, o.l1Buffer = fill e c.l1
  l2 : ∃ e, o.l2Buffer = fill e c.l2
  l3 : ∃ e, o.l3Buffer = fill e c.l3
  l4 : ∃ e, o.l4Buffer = fill e c.l4
  l5 : ∃ e, o.l5Buffer = fill e c.l5
  i1 : o.lastL1Index = c.i1
  i2 : o.lastL2Index = c.i2
  i3 : o.lastL3Index = c.i3
  i4 : o.lastL4Index = c.i4
  last : o.lastDepth = c.last
  root : o.rootIndex = c.root

theorem bpush_view {b : FastLongBuffer} {xs : List (BitVec 64)} (h : ∃ e, b = fill e xs) (v : BitVec 64) :
    ∃ e, bpush b v = fill e (xs ++ [v]) := by
  obtain ⟨e, rfl⟩ := h
  exact ⟨e, bpush_fill _ _ _⟩

theorem size_view {b : FastLongBuffer} {xs : List (BitVec 64)} (h : ∃ e, b = fill e xs) :
    b.getSize = xs.length := by
  obtain ⟨e, rfl⟩ := h
  simp [getSize, fill]

theorem View.flush {o : ParserOut} {c : Lists} (h : View o c) : View (flush o.lastDepth o) c.flush := by
  have hl := h.last
  simp only [Parser.flush, Lists.flush]
  split
  · have : c.last = 1 := by omega
    simp only [this]
    exact { h with l1 := by rw [h.i1, leaf_eq]; exact bpush_view h.l1 _, last := hl.trans (congrArg _ this) }
  split
  · have : c.last = 2 := by omega
    simp only [this]
    exact { h with l2 := by rw [h.i2, leaf_eq]; exact bpush_view h.l2 _, last := hl.trans (congrArg _ this) }
  split
  · have : c.last = 3 := by omega
    simp only [this]
    exact { h with l3 := by rw [h.i3, leaf_eq]; exact bpush_view h.l3 _, last := hl.trans (congrArg _ this) }
  split
  · have : c.last = 4 := by omega
    simp only [this]
    exact { h with l4 := by rw [h.i4, leaf_eq]; exact bpush_view h.l4 _, last := hl.trans (congrArg _ this) }
  · split <;> first | omega | exact h

theorem View.cache {o : ParserOut} {c : Lists} (h : View o c) (i d : Nat) :
    View (cache d i o) (c.cache i d) := by
  have hl := h.last
  have hf := h.flush
  simp only [Parser.cache, Lists.cache]
  match d with
  | 0 => exact { h with root := rfl }
  | 1 =>
    rw [if_neg (by omega), if_pos (by omega)]
    exact { hf with i1 := rfl, last := rfl }
  | 2 =>
    rw [if_neg (by omega), if_neg (by omega), if_pos (by omega)]
    by_cases h1 : c.last = 1
    · rw [if_pos (by omega)]
      simp only [h1, if_true]
      exact { h with l1 := by rw [h.i1, size_view h.l2, entry_eq]; exact bpush_view h.l1 _, i2 := rfl, last := rfl }
    · rw [if_neg (by omega)]
      simp only [h1, if_false]
      exact { hf with i2 := rfl, last := rfl }
  | 3 =>
    rw [if_neg (by omega), if_neg (by omega), if_neg (by omega), if_pos (by omega)]
    by_cases h1 : c.last = 2
    · rw [if_pos (by omega)]
      simp only [h1, if_true]
      exact { h with l2 := by rw [h.i2, size_view h.l3, entry_eq]; exact bpush_view h.l2 _, i3 := rfl, last := rfl }
    · rw [if_neg (by omega)]
      simp only [h1, if_false]
      by_cases h2 : c.last = 3 ∨ c.last = 4
      · rw [if_pos (by omega)]
        simp only [h2, if_true]
        exact { hf with i3 := rfl, last := rfl }
      · rw [if_neg (by omega)]
        simp only [h2, if_false]
        exact { h with i3 := rfl, last := rfl }
  | 4 =>
    rw [if_neg (by omega), if_neg (by omega), if_neg (by omega), if_neg (by omega), if_pos (by omega)]
    by_cases h1 : c.last = 3
    · rw [if_pos (by omega)]
      simp only [h1, if_true]
      exact { h with l3 := by rw [h.i3, size_view h.l4, entry_eq]; exact bpush_view h.l3 _, i4 := rfl, last := rfl }
    · rw [if_neg (by omega)]
      simp only [h1, if_false]
      by_cases h2 : c.last = 4
      · rw [if_pos (by omega)]
        simp only [h2, if_true]
        exact { hf with i4 := rfl, last := rfl }
      · rw [if_neg (by omega)]
        simp only [h2, if_false]
        exact { h with i4 := rfl, last := rfl }
  | 5 =>
    rw [if_neg (by omega), if_neg (by omega), if_neg (by omega), if_neg (by omega), if_neg (by omega),
      if_pos (by omega)]
    have h5 := bpush_view h.l5 (BitVec.ofInt 64 i)
    by_cases h1 : c.last = 4
    · rw [if_pos (by omega)]
      simp only [h1, if_true]
      refine { h with l5 := by simpa using h5, l4 := ?_, last := rfl }
      have e : ((c.l5 ++ [BitVec.ofInt 64 (i : Int)]).length : Int) - 1 = (c.l5.length : Int) := by simp
      show ∃ e, bpush o.l4Buffer _ = _
      rw [h.i4, size_view h5, e, entry_eq]
      exact bpush_view h.l4 _
    · rw [if_neg (by omega)]
      simp only [h1, if_false]
      exact { h with l5 := by simpa using h5, last := rfl }
  | d + 6 =>
    rw [if_neg (by omega), if_neg (by omega), if_neg (by omega), if_neg (by omega), if_neg (by omega),
      if_neg (by omega)]
    exact h

/-- The start tags with the indices of their records. -/
def startsRec : Nat → List Rec → List (Nat × Nat)
  | _, [] => []
  | i, x :: xs => if x.tok = .startingTag then (i, x.depth.toNat) :: startsRec (i + 1) xs else startsRec (i + 1) xs

/-- The caches after start tags. -/
def Lists.run (c : Lists) (sts : List (Nat × Nat)) : Lists := sts.foldl (fun c x => c.cache x.1 x.2) c

theorem View.emit {o : ParserOut} {c : Lists} (h : View o c) {ys : List (BitVec 64)} (hv : ∃ e, o.vtdBuffer = fill e ys)
    (xs : List Rec) (hd : ∀ x ∈ xs, x.tok = .startingTag → 0 ≤ x.depth) :
    View (Parser.emit false o xs) (c.run (startsRec ys.length xs)) := by
  induction xs generalizing o c ys with
  | nil => exact h
  | cons x xs ih =>
    have hp : View (push o (word x)) c := { h with }
    have hv' := bpush_view hv (word x)
    rw [emit_cons]
    by_cases ht : x.tok = .startingTag
    · have hx := hd x (by simp) ht
      simp only [startsRec, ht, if_true, emit1, true_and, pushL5]
      have e : (push o (word x)).vtdBuffer.getSize - 1 = (ys.length : Int) := by
        rw [size_view (show ∃ e, (push o (word x)).vtdBuffer = _ from hv')]; simp
      have e2 : x.depth = ((x.depth.toNat : Nat) : Int) := by omega
      rw [e]
      have := hp.cache ys.length x.depth.toNat
      rw [← e2] at this
      have := ih this (ys := ys ++ [word x]) (by rw [cache_vtd]; exact hv') fun y hy => hd y (by simp [hy])
      rw [show (ys ++ [word x]).length = ys.length + 1 by simp] at this
      exact this
    · simp only [startsRec, ht, if_false, emit1, false_and]
      have := ih hp (ys := ys ++ [word x]) hv' fun y hy => hd y (by simp [hy])
      simpa using this

/-- A start tag of depth up to 4 is pending. -/
def pend (i d : Nat) (rest : List (Nat × Nat)) : List (Nat × Nat) := if d ≤ 4 then (i, d) :: rest else rest

/-- Depths in document order after depth `d`. -/
def Pre' : Nat → List (Nat × Nat) → Prop
  | _, [] => True
  | d, x :: xs => 1 ≤ x.2 ∧ x.2 ≤ d + 1 ∧ Pre' x.2 xs

/-- What is pending. -/
structure Pending (c : Lists) (i d : Nat) : Prop where
  last : c.last = min d 5
  i1 : d = 1 → c.i1 = i
  i2 : d = 2 → c.i2 = i
  i3 : d = 3 → c.i3 = i
  i4 : d = 4 → c.i4 = i

theorem run_level {rest : List (Nat × Nat)} : ∀ {c : Lists} {i d : Nat}, Pending c i d → Pre' d rest →
    (c.run rest).flush.l1 = c.l1 ++ level noChild 1 c.l2.length (pend i d rest) ∧
    (c.run rest).flush.l2 = c.l2 ++ level noChild 2 c.l3.length (pend i d rest) ∧
    (c.run rest).flush.l3 = c.l3 ++ level noChild 3 c.l4.length (pend i d rest) ∧
    (c.run rest).flush.l4 = c.l4 ++ level noChild 4 c.l5.length (pend i d rest) ∧
    (c.run rest).flush.l5 = c.l5 ++ lastLevel 5 rest ∧ (c.run rest).flush.root = c.root := by
  induction rest with
  | nil =>
    intro c i d hp _
    obtain ⟨hl, h1, h2, h3, h4⟩ := hp
    match d with
    | 0 | 1 | 2 | 3 | 4 => simp_all [Lists.run, Lists.flush, pend, level, lastLevel]
    | d + 5 =>
      have : c.last = 5 := by omega
      simp [Lists.run, Lists.flush, pend, level, lastLevel, this]
  | cons x rest ih =>
    intro c i d hp hr
    obtain ⟨j, e⟩ := x
    obtain ⟨r1, r2, r3⟩ := hr
    simp only at r1 r2 r3
    have hp' : Pending (c.cache j e) j e := by
      match e with
      | 0 => omega
      | 1 | 2 | 3 | 4 => constructor <;> simp [Lists.cache]
      | 5 => constructor <;> simp [Lists.cache]
      | e + 6 =>
        have := hp.last
        have : c.last = 5 := by omega
        constructor <;> simp [Lists.cache, this]
    have := ih hp' r3
    have er : c.run ((j, e) :: rest) = (c.cache j e).run rest := rfl
    rw [er]
    obtain ⟨g1, g2, g3, g4, g5, g6⟩ := this
    rw [g1, g2, g3, g4, g5, g6]
    clear g1 g2 g3 g4 g5 g6 ih er hp'
    obtain ⟨hl, h1, h2, h3, h4⟩ := hp
    match d with
    | 0 =>
      obtain rfl : e = 1 := by omega
      simp_all [Lists.cache, Lists.flush, pend, level, lastLevel]
    | 1 =>
      match e with
      | 0 => omega
      | 1 | 2 => simp_all [Lists.cache, Lists.flush, pend, level, lastLevel]
      | e + 3 => omega
    | 2 =>
      match e with
      | 0 => omega
      | 1 | 2 | 3 => simp_all [Lists.cache, Lists.flush, pend, level, lastLevel]
      | e + 4 => omega
    | 3 =>
      match e with
      | 0 => omega
      | 1 | 2 | 3 | 4 => simp_all [Lists.cache, Lists.flush, pend, level, lastLevel]
      | e + 5 => omega
    | 4 =>
      match e with
      | 0 => omega
      | 1 | 2 | 3 | 4 | 5 => simp_all [Lists.cache, Lists.flush, pend, level, lastLevel]
      | e + 6 => omega
    | d + 5 =>
      have : c.last = 5 := by omega
      clear h1 h2 h3 h4 hl
      match e with
      | 0 => omega
      | 1 | 2 | 3 | 4 | 5 => simp_all [Lists.cache, Lists.flush, pend, level, lastLevel]
      | e + 6 => simp_all [Lists.cache, Lists.flush, pend, level, lastLevel]

end Parser
end GoVtd
