import Verif.Spec.Prefixes
import Verif.Proofs.Parser.Grow

/-!
# The words in the namespace tables
-/

namespace GoVtd
namespace Parser
namespace Sound
open Paged Grammar Two Ev

/-! ## The last colon of a name -/

theorem lastColon_cases (i acc : Nat) (l : List UInt8) : (ch% ':' ∉ l ∧ lastColon i acc l = acc) ∨
    ∃ a b, l = a ++ ch% ':' :: b ∧ ch% ':' ∉ b ∧ lastColon i acc l = i + a.length := by
  induction l generalizing i acc with
  | nil => exact .inl ⟨List.not_mem_nil, rfl⟩
  | cons x l ih =>
    rw [lastColon]
    obtain ⟨h1, h2⟩ | ⟨a, b, h1, h2, h3⟩ := ih (i + 1) (if x = ch% ':' then i else acc)
    · by_cases hx : x = ch% ':'
      · rw [if_pos hx] at h2 ⊢
        exact .inr ⟨[], l, by rw [hx]; rfl, h1, by rw [h2]; rfl⟩
      · rw [if_neg hx] at h2 ⊢
        exact .inl ⟨by rw [List.mem_cons, not_or]; exact ⟨fun h => hx h.symm, h1⟩, h2⟩
    · exact .inr ⟨x :: a, b, by rw [h1]; rfl, h2, by rw [h3, List.length_cons]; omega⟩

theorem splits_colon {n p l : List UInt8} (h : Splits n p l) : lastColon 0 0 n = p.length := by
  rw [h.eq, lastColon_append, lastColon, if_pos rfl, Nat.zero_add, Parser.lastColon_none]
  rintro y hmr rfl
  exact h.local_ hmr

theorem colon_splits {n : List UInt8} (h : lastColon 0 0 n ≠ 0) :
    Splits n (n.take (lastColon 0 0 n)) (n.drop (lastColon 0 0 n + 1)) ∧ lastColon 0 0 n < n.length := by
  obtain ⟨-, h2⟩ | ⟨a, b, h1, h2, h3⟩ := lastColon_cases 0 0 n
  · exact absurd h2 h
  · rw [h3, Nat.zero_add] at h ⊢
    have e : (a ++ ch% ':' :: b).drop (a.length + 1) = b := by simp
    rw [h1, List.take_left, e]
    exact ⟨⟨rfl, h2, by rintro rfl; exact h rfl⟩, by simp⟩

theorem splits_unique {n p l p' l' : List UInt8} (h : Splits n p l) (h' : Splits n p' l') : p = p' ∧ l = l' := by
  have e := (splits_colon h).symm.trans (splits_colon h')
  have := h.eq.symm.trans h'.eq
  obtain ⟨h1, h2⟩ := List.append_inj this e
  exact ⟨h1, (List.cons.inj h2).2⟩

/-! ## Words -/

theorem nsRecord_toNat {l2 l1 o : Nat} (h2 : l2 ≤ 512) (h1 : l1 ≤ 2047) (ho : o < 2 ^ 31) :
    (nsRecord l2 l1 o).toNat = (l2 * 2 ^ 16 + l1) * 2 ^ 32 + o := by
  have e2 := ofInt64_toNat (x := (l2 : Int)) (by omega) (by omega)
  have e1 := ofInt64_toNat (x := (l1 : Int)) (by omega) (by omega)
  have e0 := ofInt64_toNat (x := (o : Int)) (by omega) (by omega)
  simp only [Int.toNat_natCast] at e0 e1 e2
  rw [nsRecord, BitVec.toNat_or, BitVec.toNat_shiftLeft, BitVec.toNat_or, BitVec.toNat_shiftLeft, e0, e1, e2,
    Nat.shiftLeft_eq l2, Nat.mod_eq_of_lt (a := l2 * _) (by omega), nat_or_add _ 16 _ (by omega), Nat.shiftLeft_eq,
    Nat.mod_eq_of_lt (by omega), nat_or_add _ 32 _ (by omega)]

/-- What `Upper32At` makes of an entry. -/
def upperOf (e : BitVec 64) : BitVec 32 := ((e &&& (0xFFFFFFF#64 <<< 32)).sshiftRight 32).setWidth 32

theorem upperOf_toNat (e : BitVec 64) : (upperOf e).toNat = e.toNat / 2 ^ 32 % 2 ^ 28 := by
  have hm : (e &&& (0xFFFFFFF#64 <<< 32)).toNat = e.toNat / 2 ^ 32 % 2 ^ 28 * 2 ^ 32 := by
    rw [BitVec.toNat_and, show ((0xFFFFFFF#64 <<< 32 : BitVec 64).toNat) = (2 ^ 28 - 1) * 2 ^ 32 from rfl, and_mask]
  have hmsb : (e &&& (0xFFFFFFF#64 <<< 32)).msb = false := by
    rw [BitVec.msb_eq_false_iff_two_mul_lt, hm]; omega
  rw [upperOf, BitVec.sshiftRight_eq_of_msb_false hmsb, BitVec.toNat_setWidth, BitVec.toNat_ushiftRight, hm,
    Nat.shiftRight_eq_div_pow]
  omega

/-- The fields of an entry of the table of declarations. -/
theorem nsRecord_fields {l2 l1 o : Nat} (h2 : l2 ≤ 511) (h1 : l1 ≤ 2047) (ho : o + l2 < 2 ^ 31) :
    ((upperOf (nsRecord l2 l1 o)) &&& 0xFFFF#32).toNat = l1 ∧ ((upperOf (nsRecord l2 l1 o)).sshiftRight 16).toNat = l2 ∧
      ((nsRecord l2 l1 o).setWidth 32).toNat = o := by
  have e := nsRecord_toNat (l2 := l2) (l1 := l1) (o := o) (by omega) h1 (by omega)
  have u : (upperOf (nsRecord l2 l1 o)).toNat = l2 * 2 ^ 16 + l1 := by rw [upperOf_toNat, e]; omega
  refine ⟨?_, ?_, ?_⟩
  · rw [BitVec.toNat_and, u, show ((0xFFFF#32 : BitVec 32).toNat) = 2 ^ 16 - 1 from rfl, Nat.and_two_pow_sub_one_eq_mod]
    omega
  · rw [BitVec.sshiftRight_eq_of_msb_false (by rw [BitVec.msb_eq_false_iff_two_mul_lt, u]; omega), BitVec.toNat_ushiftRight, u,
      Nat.shiftRight_eq_div_pow]
    omega
  · rw [BitVec.toNat_setWidth, e]; omega

theorem nsRecord_ne {l2 l1 o : Nat} (h2 : l2 ≤ 512) (h0 : l2 ≠ 0) (h1 : l1 ≤ 2047) (ho : o < 2 ^ 31) : nsRecord l2 l1 o ≠ 0 := by
  intro h
  have e := nsRecord_toNat h2 h1 ho
  rw [h, show ((0 : BitVec 64).toNat) = 0 from rfl] at e
  omega

/-- The fields of the record of an element. -/
theorem elemRecord_fields {l2 l1 o : Nat} (h2 : l2 ≤ 512) (h1 : l1 ≤ 2047) (ho : o < 2 ^ 31) :
    (((nsRecord l2 l1 o &&& 0xFFFF00000000000#64).sshiftRight 48).setWidth 32).toInt = l2 ∧
      low32 (nsRecord l2 l1 o) = o := by
  have e := nsRecord_toNat h2 h1 ho
  have hm : (nsRecord l2 l1 o &&& 0xFFFF00000000000#64).toNat = (nsRecord l2 l1 o).toNat / 2 ^ 44 % 2 ^ 16 * 2 ^ 44 := by
    rw [BitVec.toNat_and, show ((0xFFFF00000000000#64 : BitVec 64).toNat) = (2 ^ 16 - 1) * 2 ^ 44 from rfl, and_mask]
  refine ⟨?_, low32_of e ho⟩
  have hmsb : (nsRecord l2 l1 o &&& 0xFFFF00000000000#64).msb = false := by
    rw [BitVec.msb_eq_false_iff_two_mul_lt, hm]; omega
  have : (((nsRecord l2 l1 o &&& 0xFFFF00000000000#64).sshiftRight 48).setWidth 32).toNat = l2 := by
    rw [BitVec.sshiftRight_eq_of_msb_false hmsb, BitVec.toNat_setWidth, BitVec.toNat_ushiftRight, hm, e,
      Nat.shiftRight_eq_div_pow]
    omega
  rw [toInt32_of_lt (by omega), this]

/-- The word for a prefixed attribute. -/
def attWord (o l2 l1 : Int) : BitVec 64 :=
  (BitVec.ofInt 64 o <<< 32) ||| (BitVec.ofInt 64 l2 <<< 16) ||| BitVec.ofInt 64 l1

theorem attWord_fields {l2 l1 o : Nat} (h2 : l2 ≤ 511) (h1 : l1 ≤ 2047) (ho : o < 2 ^ 31) :
    attrPreLen (attWord o l2 l1) = l2 ∧ attrFullLen (attWord o l2 l1) = l1 ∧ high32 (attWord o l2 l1) = o := by
  have e2 := ofInt64_toNat (x := (l2 : Int)) (by omega) (by omega)
  have e1 := ofInt64_toNat (x := (l1 : Int)) (by omega) (by omega)
  have e0 := ofInt64_toNat (x := (o : Int)) (by omega) (by omega)
  simp only [Int.toNat_natCast] at e0 e1 e2
  have e : (attWord o l2 l1).toNat = o * 2 ^ 32 + (l2 * 2 ^ 16 + l1) := by
    rw [attWord, BitVec.toNat_or, BitVec.toNat_or, BitVec.toNat_shiftLeft, BitVec.toNat_shiftLeft, e0, e1, e2,
      Nat.shiftLeft_eq, Nat.shiftLeft_eq, Nat.mod_eq_of_lt (by omega), Nat.mod_eq_of_lt (by omega), Nat.or_assoc,
      nat_or_add _ 16 _ (by omega), nat_or_add _ 32 _ (by omega)]
  refine ⟨?_, ?_, high32_of e ho (by omega)⟩
  · have hm : (attWord o l2 l1 &&& 0xFFFF0000#64).toNat = (attWord o l2 l1).toNat / 2 ^ 16 % 2 ^ 16 * 2 ^ 16 := by
      rw [BitVec.toNat_and, show ((0xFFFF0000#64 : BitVec 64).toNat) = (2 ^ 16 - 1) * 2 ^ 16 from rfl, and_mask]
    have hmsb : (attWord o l2 l1 &&& 0xFFFF0000#64).msb = false := by
      rw [BitVec.msb_eq_false_iff_two_mul_lt, hm]; omega
    have : ((attWord o l2 l1 &&& 0xFFFF0000#64).sshiftRight 16).toNat = 0 * 2 ^ 32 + l2 := by
      rw [BitVec.sshiftRight_eq_of_msb_false hmsb, BitVec.toNat_ushiftRight, hm, e, Nat.shiftRight_eq_div_pow]
      omega
    exact low32_of this (by omega)
  · have : (attWord o l2 l1 &&& 0xFFFF#64).toNat = 0 * 2 ^ 32 + l1 := by
      rw [BitVec.toNat_and, show ((0xFFFF#64 : BitVec 64).toNat) = 2 ^ 16 - 1 from rfl, Nat.and_two_pow_sub_one_eq_mod, e]
      omega
    exact low32_of this (by omega)

/-! ## Buffers -/

/-- A value in one of the pages. -/
def Held (b : FastLongBuffer) (e : BitVec 64) : Prop := ∃ page ∈ b.buffer, e ∈ page

theorem index_val {σ α : Type} {xs : List α} {i : Int} {a : α} {s s' : σ} (h : M.index xs i s = .ok a s') :
    0 ≤ i ∧ xs[i.toNat]? = some a ∧ s' = s := by
  obtain ⟨h0, b, hb, h'⟩ | h' := index_eq xs i s <;> rw [h'] at h <;> cases h
  exact ⟨h0, hb, rfl⟩

theorem longAt_held {i : Int} {b b' : FastLongBuffer} {v : BitVec 64} (h : Paged.longAt i b = .ok v b') : Held b v := by
  unfold Paged.longAt Paged.atWith at h
  obtain ⟨p, t, h1, h⟩ := bind_ok h
  cases h1
  obtain ⟨page, t, h1, h⟩ := bind_ok h
  have e : page ∈ b.buffer := by
    rw [M.catchErr_apply] at h1
    cases hr : Paged.get (b.pageNum i) b with
    | ok a r =>
      rw [hr] at h1
      cases h1
      unfold Paged.get at hr
      obtain ⟨p, t', h2, hr⟩ := bind_ok hr
      cases h2
      rw [M.ite_apply] at hr
      split at hr
      · cases hr
      · exact List.mem_of_getElem? (index_val hr).2.1
    | err e r => rw [hr] at h1; cases h1
    | panic => rw [hr] at h1; cases h1
    | diverge => rw [hr] at h1; cases h1
  rw [M.ite_apply] at h
  split at h
  · cases h
  · exact ⟨page, e, List.mem_of_getElem? (index_val h).2.1⟩

theorem append_held {v : BitVec 64} {b b' : FastLongBuffer} {u : Unit} (h : Paged.append v b = .ok u b') {e : BitVec 64}
    (he : Held b' e) : e = v ∨ Held b e := by
  unfold Paged.append at h
  obtain ⟨p, t, h1, h⟩ := bind_ok h
  cases h1
  rw [M.ite_apply] at h
  split at h
  · obtain ⟨page, t, h1, h⟩ := bind_ok h
    have hp : page ∈ b.buffer ∧ t = b := by
      unfold Paged.get at h1
      obtain ⟨p, t', h2, h1⟩ := bind_ok h1
      cases h2
      rw [M.ite_apply] at h1
      split at h1
      · cases h1
      · obtain ⟨-, g1, g2⟩ := index_val h1
        exact ⟨List.mem_of_getElem? g1, g2⟩
    obtain ⟨hp, rfl⟩ := hp
    rw [M.bind_apply, M.modify_apply, Res.andThen_ok] at h
    unfold Paged.set at h
    obtain ⟨p, t', h2, h⟩ := bind_ok h
    cases h2
    rw [M.ite_apply] at h
    split at h
    · cases h
    · generalize hs : setAt _ _ _ = r at h
      cases r with
      | none => cases h
      | some pages =>
        unfold setAt at hs
        split at hs
        · cases hs
        · cases hs
          cases h
          obtain ⟨pg, hpg, heg⟩ := he
          rcases List.mem_or_eq_of_mem_set hpg with hpg | rfl
          · exact .inr ⟨pg, hpg, heg⟩
          · rcases List.mem_append.mp heg with heg | heg
            · exact .inr ⟨page, hp, heg⟩
            · exact .inl (List.mem_singleton.mp heg)
  · cases h
    obtain ⟨pg, hpg, heg⟩ := he
    rcases List.mem_append.mp hpg with hpg | hpg
    · exact .inr ⟨pg, hpg, heg⟩
    · obtain rfl := List.mem_singleton.mp hpg
      exact .inl (List.mem_singleton.mp heg)

theorem upper32_val {i : Int} {b b' : FastLongBuffer} {v : BitVec 32} (h : Paged.upper32At i b = .ok v b') :
    b' = b ∧ ∃ e, Paged.longAt i b = .ok e b ∧ v = upperOf e := by
  simp only [Paged.upper32At, M.bind_apply, M.catchErr_apply] at h
  cases hr : Paged.longAt i b with
  | ok a r => rw [hr] at h; cases h; obtain rfl := longAt_read hr; exact ⟨rfl, a, rfl, rfl⟩
  | err e r => rw [hr] at h; cases h
  | panic => rw [hr] at h; cases h
  | diverge => rw [hr] at h; cases h

theorem lower32_val {i : Int} {b b' : FastLongBuffer} {v : BitVec 32} (h : Paged.lower32At i b = .ok v b') :
    b' = b ∧ ∃ e, Paged.longAt i b = .ok e b ∧ v = e.setWidth 32 := by
  simp only [Paged.lower32At, M.bind_apply, M.catchErr_apply] at h
  cases hr : Paged.longAt i b with
  | ok a r => rw [hr] at h; cases h; obtain rfl := longAt_read hr; exact ⟨rfl, a, rfl, rfl⟩
  | err e r => rw [hr] at h; cases h
  | panic => rw [hr] at h; cases h
  | diverge => rw [hr] at h; cases h

theorem lower32_of {i : Int} {b : FastLongBuffer} {e : BitVec 64} (h : Paged.longAt i b = .ok e b) :
    Paged.lower32At i b = .ok (e.setWidth 32) b := by
  simp only [Paged.lower32At, M.bind_apply, M.catchErr_apply, h]
  rfl

theorem onNs3_val {α : Type} {m : M FastLongBuffer α} {s s' : Parser} {a : α} (h : onNs3 m s = .ok a s') :
    ∃ b', m s.ns.nsBuffer3 = .ok a b' ∧ s' = { s with ns := { s.ns with nsBuffer3 := b' } } := by
  simp only [onNs3, M.zoom_apply] at h
  cases hr : m s.ns.nsBuffer3 with
  | ok a r => rw [hr] at h; cases h; exact ⟨r, rfl, rfl⟩
  | err e r => rw [hr] at h; cases h
  | panic => rw [hr] at h; cases h
  | diverge => rw [hr] at h; cases h

theorem onNs2_val {α : Type} {m : M FastLongBuffer α} {s s' : Parser} {a : α} (h : onNs2 m s = .ok a s') :
    ∃ b', m s.ns.nsBuffer2 = .ok a b' ∧ s' = { s with ns := { s.ns with nsBuffer2 := b' } } := by
  simp only [onNs2, M.zoom_apply] at h
  cases hr : m s.ns.nsBuffer2 with
  | ok a r => rw [hr] at h; cases h; exact ⟨r, rfl, rfl⟩
  | err e r => rw [hr] at h; cases h
  | panic => rw [hr] at h; cases h
  | diverge => rw [hr] at h; cases h

end Sound
end Parser
end GoVtd
