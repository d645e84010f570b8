import Verif.Proofs.Token
import Verif.Proofs.Basic
import Verif.Props.Buffer
import Verif.Spec.Nav

/-!
# Running the navigator on a filled token buffer
-/

namespace GoVtd
namespace VtdNav
open Paged

/-- Token access on the first page. -/
theorem onVtd_longAt {n : VtdNav} {e : Nat} {xs : List (BitVec 64)} (h : n.vtdBuffer = fill e xs)
    (i : Int) (h0 : 0 ≤ i) (hi : i.toNat < xs.length) (he : i < 2 ^ e) :
    onVtd (longAt i) n = .ok xs[i.toNat] n := by
  obtain ⟨h1, -, -⟩ := atWith_fill (fun _ => indexErr none) e xs i
  obtain ⟨_, h2⟩ := h1 ⟨h0, by omega, he⟩
  simp only [onVtd, M.zoom_apply, longAt, h, h2, Res.zoom_ok]
  cases n; simp_all

/-- Any token access leaves the navigator alone. -/
theorem onVtd_longAt_cases {n : VtdNav} {e : Nat} {xs : List (BitVec 64)}
    (h : n.vtdBuffer = fill e xs) (i : Int) :
    (∃ (_ : 0 ≤ i) (hi : i.toNat < xs.length), i < 2 ^ e ∧ onVtd (longAt i) n = .ok xs[i.toNat] n) ∨
    (¬(0 ≤ i ∧ i < xs.length ∧ i < 2 ^ e) ∧
      (onVtd (longAt i) n = .err (indexErr none) n ∨ onVtd (longAt i) n = .panic)) := by
  by_cases hc : 0 ≤ i ∧ i < xs.length ∧ i < 2 ^ e
  · exact .inl ⟨hc.1, by omega, hc.2.2, onVtd_longAt h i hc.1 (by omega) hc.2.2⟩
  · refine .inr ⟨hc, ?_⟩
    obtain ⟨-, h2, h3⟩ := atWith_fill (fun _ => indexErr none) e xs i
    by_cases hp : panics e xs.length i
    · right; simp [onVtd, longAt, h, h2 hp]
    · left
      rcases h3 hc hp with h3 | h3 <;>
      · simp only [onVtd, M.zoom_apply, longAt, h, h3, Res.zoom_err]
        cases n; simp_all

section
variable {n : VtdNav} {e : Nat} {xs : List (BitVec 64)} (h : n.vtdBuffer = fill e xs)
  (i : Int) (h0 : 0 ≤ i) (hi : i.toNat < xs.length) (he : i < 2 ^ e)
include h h0 hi he

theorem getTokenType_eq : getTokenType i n = .ok ((xs[i.toNat].toNat / 2 ^ 60 : Nat) : Int) n := by
  simp only [getTokenType, M.bind_apply, onVtd_longAt h i h0 hi he, Res.andThen_ok, typeField,
    M.pure_apply]

theorem getTokenOffset_eq :
    getTokenOffset i n = .ok ((xs[i.toNat].toNat % 2 ^ 30 : Nat) : Int) n := by
  simp only [getTokenOffset, M.bind_apply, onVtd_longAt h i h0 hi he, Res.andThen_ok, offsetField,
    M.pure_apply]

theorem getTokenDepth_eq :
    getTokenDepth i n = .ok (if xs[i.toNat].toNat / 2 ^ 52 % 256 = 255 then -1
      else ((xs[i.toNat].toNat / 2 ^ 52 % 256 : Nat) : Int)) n := by
  simp only [getTokenDepth, M.bind_apply, onVtd_longAt h i h0 hi he, Res.andThen_ok, M.ite_apply,
    M.pure_apply, ← depthField]
  split <;> rfl

theorem getTokenLength_name (ht : xs[i.toNat].toNat / 2 ^ 60 = 0 ∨ xs[i.toNat].toNat / 2 ^ 60 = 2 ∨
      xs[i.toNat].toNat / 2 ^ 60 = 3) :
    getTokenLength i n = .ok (if n.nsAware then
        ((xs[i.toNat].toNat / 2 ^ 43 % 2 ^ 9 * 2 ^ 16 + xs[i.toNat].toNat / 2 ^ 32 % 2 ^ 11 : Nat) : Int)
      else ((xs[i.toNat].toNat / 2 ^ 32 % 2 ^ 11 : Nat) : Int)) n := by
  simp only [getTokenLength, M.bind_apply, getTokenType_eq h i h0 hi he, Res.andThen_ok,
    M.get_apply, M.ite_apply]
  rw [if_pos (by simp only [Token.code]; omega)]
  simp only [onVtd_longAt h i h0 hi he, Res.andThen_ok, M.ite_apply, M.pure_apply, preQnLenField,
    qnLenField]
  split <;> rfl

theorem getTokenLength_plain (ht : ∀ c ∈ [0, 2, 3, 5, 6, 11], xs[i.toNat].toNat / 2 ^ 60 ≠ c) :
    getTokenLength i n = .ok ((xs[i.toNat].toNat / 2 ^ 32 % 2 ^ 20 : Nat) : Int) n := by
  simp only [List.mem_cons, List.not_mem_nil, or_false, forall_eq_or_imp, forall_eq] at ht
  simp only [getTokenLength, M.bind_apply, getTokenType_eq h i h0 hi he, Res.andThen_ok,
    M.get_apply, M.ite_apply]
  rw [if_neg (by simp only [Token.code]; omega), if_neg (by simp only [Token.code]; omega)]
  simp only [onVtd_longAt h i h0 hi he, Res.andThen_ok, M.pure_apply, fullLenField]

end

/-- The length `GetTokenLength` computes for a text token: the first non-zero length
field at or after the token, whatever the type of the record it is in. -/
def firstLength : List (BitVec 64) → Nat
  | [] => 0
  | v :: vs => if v.toNat / 2 ^ 32 % 2 ^ 20 = 0 then firstLength vs else v.toNat / 2 ^ 32 % 2 ^ 20

theorem firstLength_lt (xs : List (BitVec 64)) : firstLength xs < 2 ^ 20 := by
  induction xs with
  | nil => simp [firstLength]
  | cons v vs ih => simp only [firstLength]; split <;> omega

/-- The search for a length that starts at `i` does not leave the first page. -/
def OnPage (e : Nat) (xs : List (BitVec 64)) (i : Nat) : Prop :=
  xs.length ≤ 2 ^ e ∨ ∃ k v, i ≤ k ∧ k < 2 ^ e ∧ xs[k]? = some v ∧ v.toNat / 2 ^ 32 % 2 ^ 20 ≠ 0

theorem OnPage.lt {e : Nat} {xs : List (BitVec 64)} {i : Nat} (h : OnPage e xs i) (hi : i < xs.length) : i < 2 ^ e := by
  rcases h with h | ⟨k, v, h1, h2, -⟩ <;> omega

theorem OnPage.succ {e : Nat} {xs : List (BitVec 64)} {i : Nat} (h : OnPage e xs i) (hi : i < xs.length)
    (h0 : xs[i].toNat / 2 ^ 32 % 2 ^ 20 = 0) : OnPage e xs (i + 1) := by
  rcases h with h | ⟨k, v, h1, h2, h3, h4⟩
  · exact .inl h
  · refine .inr ⟨k, v, ?_, h2, h3, h4⟩
    rcases Nat.lt_or_eq_of_le h1 with h1 | rfl
    · omega
    · rw [List.getElem?_eq_getElem hi, Option.some.injEq] at h3
      subst h3
      exact absurd h0 h4

theorem tokenLengthLoop_eq {n : VtdNav} {e : Nat} {xs : List (BitVec 64)}
    (h : n.vtdBuffer = fill e xs) (fuel : Nat) (i : Nat) (hp : OnPage e xs i)
    (hi : i ≤ xs.length) (hf : xs.length - i < fuel) :
    tokenLengthLoop fuel i 0 0 n = .ok (BitVec.ofNat 64 (firstLength (xs.drop i))) n := by
  have hc2 : (2 : Int) ^ e = ((2 ^ e : Nat) : Int) := by simp
  induction fuel generalizing i with
  | zero => omega
  | succ fuel ih =>
    have hs : n.vtdBuffer.getSize = xs.length := by simp [h, getSize, fill]
    simp only [tokenLengthLoop, M.bind_apply, M.get_apply, Res.andThen_ok, M.ite_apply, hs]
    by_cases hlt : i < xs.length
    · have hpl := hp.lt hlt
      rw [if_pos ⟨by omega, trivial⟩]
      have hdrop : xs.drop i = xs[i] :: xs.drop (i + 1) := List.drop_eq_getElem_cons hlt
      simp only [onVtd_longAt h i (by omega) (by simpa using hlt) (by rw [hc2]; omega),
        Res.andThen_ok, M.bind_apply,
        getTokenOffset_eq h i (by omega) (by simpa using hlt) (by rw [hc2]; omega)]
      rw [fullLenField]
      simp only [Int.toNat_natCast]
      have hb : ((0 : BitVec 64) + (xs[i] &&& MaskTokenFullLength) >>> 32) =
          BitVec.ofNat 64 (xs[i].toNat / 2 ^ 32 % 2 ^ 20) := by
        apply BitVec.eq_of_toNat_eq
        show (0#64 + _).toNat = _
        rw [BitVec.zero_add, fullLenField64, BitVec.toNat_ofNat]; omega
      rw [hb, hdrop]
      simp only [firstLength]
      by_cases hz : xs[i].toNat / 2 ^ 32 % 2 ^ 20 = 0
      · rw [if_pos hz, hz]
        exact ih (i + 1) (hp.succ hlt hz) (by omega) (by omega)
      · rw [if_neg hz]
        cases fuel with
        | zero => omega
        | succ fuel =>
          simp only [tokenLengthLoop, M.bind_apply, M.get_apply, Res.andThen_ok, M.ite_apply]
          rw [if_neg (by omega)]
          rfl
    · rw [if_neg (by omega), List.drop_eq_nil_of_le (by omega)]
      rfl

theorem getTokenLength_text {n : VtdNav} {e : Nat} {xs : List (BitVec 64)}
    (h : n.vtdBuffer = fill e xs) (i : Nat) (hp : OnPage e xs i) (hi : i < xs.length)
    (ht : xs[i].toNat / 2 ^ 60 = 5 ∨ xs[i].toNat / 2 ^ 60 = 6 ∨ xs[i].toNat / 2 ^ 60 = 11) :
    getTokenLength i n = .ok (firstLength (xs.drop i) : Int) n := by
  have hc2 : (2 : Int) ^ e = ((2 ^ e : Nat) : Int) := by simp
  have hs : n.vtdBuffer.getSize = xs.length := by simp [h, getSize, fill]
  have hi' : (i : Int).toNat < xs.length := by simpa using hi
  have he' : (i : Int) < 2 ^ e := by rw [hc2]; have := hp.lt hi; omega
  simp only [getTokenLength, M.bind_apply, getTokenType_eq h i (by omega) hi' he', Res.andThen_ok,
    M.get_apply, M.ite_apply, Int.toNat_natCast]
  rw [if_neg (by simp only [Token.code]; omega), if_pos (by simp only [Token.code]; omega)]
  simp only [getTokenDepth_eq h i (by omega) hi' he', Res.andThen_ok, hs]
  rw [M.bind_apply, tokenLengthLoop_eq h _ i hp (by omega) (by omega)]
  simp only [Res.andThen_ok, M.pure_apply]
  have hl := firstLength_lt (xs.drop i)
  have h32 : ((BitVec.ofNat 64 (firstLength (xs.drop i))).setWidth 32).toNat =
      firstLength (xs.drop i) := by
    rw [BitVec.toNat_setWidth, BitVec.toNat_ofNat]; omega
  rw [toInt32_of_lt (by omega), h32]

end VtdNav
end GoVtd
