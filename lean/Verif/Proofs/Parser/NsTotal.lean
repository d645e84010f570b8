import Verif.Proofs.Parser.EventNs
import Verif.Proofs.Total
import Verif.Spec.Refs

/-!
# `Parse` with namespace awareness always ends when there is no numeric reference

Only one loop of the parser may go on for ever, the one that compares two namespace names. In a document without
`&#` every character it compares takes it at least one byte further, and it cannot go past the end of the slice.
-/

namespace GoVtd
namespace Parser
namespace NsTotal
open Paged Two Ev
variable {c : ParserCfg} {p : Parser}

/-! ## Computations that always end -/

/-- `m` ends, whatever the state. -/
def Nv {σ α : Type} (m : M σ α) : Prop := ∀ s, m s ≠ .diverge

section
variable {σ α β : Type}
theorem Nv.pure (a : α) : Nv (Pure.pure a : M σ α) := fun s h => by cases h
theorem Nv.raise (e : GoErr) : Nv (M.raise e : M σ α) := fun s h => by cases h
theorem Nv.panic : Nv (M.panic : M σ α) := fun s h => by cases h
theorem Nv.get : Nv (M.get : M σ σ) := fun s h => by cases h
theorem Nv.modify (g : σ → σ) : Nv (M.modify g) := fun s h => by cases h
theorem Nv.bind {m : M σ α} {k : α → M σ β} (hm : Nv m) (hk : ∀ a, Nv (k a)) : Nv (m >>= k) := by
  intro s h
  rw [M.bind_apply] at h
  cases hr : m s with
  | ok a s' => rw [hr, Res.andThen_ok] at h; exact hk a s' h
  | err e s' => rw [hr] at h; cases h
  | panic => rw [hr] at h; cases h
  | diverge => exact hm s hr
theorem Nv.catchErr {m : M σ α} {k : GoErr → M σ α} (hm : Nv m) (hk : ∀ a, Nv (k a)) : Nv (M.catchErr m k) := by
  intro s h
  rw [M.catchErr_apply] at h
  cases hr : m s with
  | ok a s' => rw [hr] at h; cases h
  | err e s' => rw [hr, Res.handle_err] at h; exact hk e s' h
  | panic => rw [hr] at h; cases h
  | diverge => exact hm s hr
theorem Nv.ite {q : Prop} [Decidable q] {a b : M σ α} (ha : Nv a) (hb : Nv b) : Nv (if q then a else b) := by
  split
  · exact ha
  · exact hb
theorem Nv.index (xs : List α) (i : Int) : Nv (M.index xs i : M σ α) := by
  intro s h
  by_cases h' : 0 ≤ i ∧ i.toNat < xs.length
  · rw [M.index_of_lt xs i s h'.1 h'.2] at h; cases h
  · rw [M.index_panic xs i s (by omega)] at h; cases h
theorem Nv.zoom {τ : Type} {g : τ → σ} {f : σ → τ → τ} {m : M σ α} (h : Nv m) : Nv (M.zoom g f m) := by
  intro s hs
  rw [M.zoom_apply] at hs
  cases hr : m (g s) with
  | ok a s' => rw [hr] at hs; cases hs
  | err e s' => rw [hr] at hs; cases hs
  | panic => rw [hr] at hs; cases hs
  | diverge => exact h _ hr
end

/-- Lemmas for the tactic `nv`. -/
syntax "nv_lemma" : tactic
/-- Prove `Nv m` along the text of `m`. -/
syntax "nv" : tactic
macro_rules
  | `(tactic| nv) => `(tactic| repeat' (first
      | assumption
      | with_reducible exact Nv.pure _
      | with_reducible exact Nv.raise _
      | with_reducible exact Nv.panic
      | with_reducible exact Nv.get
      | with_reducible exact Nv.modify _
      | with_reducible exact Nv.index _ _
      | nv_lemma
      | with_reducible refine Nv.bind ?_ fun _ => ?_
      | with_reducible refine Nv.catchErr ?_ fun _ => ?_
      | with_reducible refine Nv.ite ?_ ?_
      | split))

section
variable {α : Type}
theorem get_nv (i : Int) : Nv (Paged.get i : M (Paged α) (List α)) := by unfold Paged.get; nv
macro_rules | `(tactic| nv_lemma) => `(tactic| with_reducible exact get_nv _)
theorem set_nv (i : Int) (v : List α) : Nv (Paged.set i v) := by unfold Paged.set; nv
macro_rules | `(tactic| nv_lemma) => `(tactic| with_reducible exact set_nv _ _)
theorem atWith_nv (f : GoErr → GoErr) (i : Int) : Nv (Paged.atWith f i : M (Paged α) α) := by unfold Paged.atWith; nv
theorem append_nv (v : α) : Nv (Paged.append v) := by unfold Paged.append; nv
macro_rules | `(tactic| nv_lemma) => `(tactic| with_reducible exact append_nv _)
end
theorem intAt_nv (i : Int) : Nv (Paged.intAt i) := atWith_nv _ _
macro_rules | `(tactic| nv_lemma) => `(tactic| with_reducible exact intAt_nv _)
theorem longAt_nv (i : Int) : Nv (Paged.longAt i) := atWith_nv _ _
macro_rules | `(tactic| nv_lemma) => `(tactic| with_reducible exact longAt_nv _)
theorem lower_nv (i : Int) : Nv (Paged.lower32At i) := by unfold Paged.lower32At; nv
macro_rules | `(tactic| nv_lemma) => `(tactic| with_reducible exact lower_nv _)
theorem upper_nv (i : Int) : Nv (Paged.upper32At i) := by unfold Paged.upper32At; nv
macro_rules | `(tactic| nv_lemma) => `(tactic| with_reducible exact upper_nv _)
theorem onNs1_nv {α : Type} {m : M FastIntBuffer α} (h : Nv m) : Nv (onNs1 m) := Nv.zoom h
theorem onNs2_nv {α : Type} {m : M FastLongBuffer α} (h : Nv m) : Nv (onNs2 m) := Nv.zoom h
theorem onNs3_nv {α : Type} {m : M FastLongBuffer α} (h : Nv m) : Nv (onNs3 m) := Nv.zoom h
macro_rules | `(tactic| nv_lemma) => `(tactic| with_reducible refine onNs1_nv ?_)
macro_rules | `(tactic| nv_lemma) => `(tactic| with_reducible refine onNs2_nv ?_)
macro_rules | `(tactic| nv_lemma) => `(tactic| with_reducible refine onNs3_nv ?_)

theorem getLongCharAt_nv (o : Int) : Nv (onRd (Reader.getLongCharAt o)) := by
  refine Nv.zoom ?_
  unfold Reader.getLongCharAt
  nv
macro_rules | `(tactic| nv_lemma) => `(tactic| with_reducible exact getLongCharAt_nv _)
theorem getCharAt_nv (o : Int) : Nv (onRd (Reader.getCharAt o)) := by
  refine Nv.zoom ?_
  unfold Reader.getCharAt
  nv
macro_rules | `(tactic| nv_lemma) => `(tactic| with_reducible exact getCharAt_nv _)

theorem docByte_nv (i : Int) : Nv (docByte i) := by unfold docByte; nv
macro_rules | `(tactic| nv_lemma) => `(tactic| with_reducible exact docByte_nv _)
theorem docIs_nv (i : Int) (b : UInt8) : Nv (docIs i b) := by unfold docIs; nv
macro_rules | `(tactic| nv_lemma) => `(tactic| with_reducible exact docIs_nv _ _)
theorem and_nv {a b : M Parser Bool} (ha : Nv a) (hb : Nv b) : Nv (a &&! b) :=
  Nv.bind ha fun _ => Nv.ite hb (Nv.pure _)
macro_rules | `(tactic| nv_lemma) => `(tactic| with_reducible refine and_nv ?_ ?_)
theorem docMatches_nv (o : Int) (l : List UInt8) : Nv (docMatches o l) := by
  induction l generalizing o with
  | nil => unfold docMatches; nv
  | cons x l ih =>
    have := ih (o + 1)
    unfold docMatches
    exact and_nv (docIs_nv _ _) this
macro_rules | `(tactic| nv_lemma) => `(tactic| with_reducible exact docMatches_nv _ _)
theorem checkPrefix_nv (n : List UInt8) (a b d e : Int) (f : Bool) : Nv (checkPrefix n a b d e f) := by
  unfold checkPrefix; nv
theorem checkXml_nv (a b : Int) (f : Bool) : Nv (checkXmlPrefix a b f) := checkPrefix_nv _ _ _ _ _ _
macro_rules | `(tactic| nv_lemma) => `(tactic| with_reducible exact checkXml_nv _ _ _)
theorem checkXmlns_nv (a b : Int) (f : Bool) : Nv (checkXmlnsPrefix a b f) := checkPrefix_nv _ _ _ _ _ _
macro_rules | `(tactic| nv_lemma) => `(tactic| with_reducible exact checkXmlns_nv _ _ _)
theorem sameBytes_nv (n : Nat) (a b : Int) : Nv (sameBytes n a b) := by
  induction n generalizing a b with
  | zero => unfold sameBytes; nv
  | succ n ih =>
    have := ih (a + 1) (b + 1)
    unfold sameBytes
    nv
macro_rules | `(tactic| nv_lemma) => `(tactic| with_reducible exact sameBytes_nv _ _ _)
theorem lineLoop_nv {f : Int → M Parser Bool} (hf : ∀ i, Nv (f i)) (a : Int) (n : Nat) (b d e : Int) :
    Nv (lineLoop f a n b d e) := by
  induction n generalizing b d e with
  | zero => unfold lineLoop; nv
  | succ n ih =>
    unfold lineLoop
    exact Nv.bind (hf _) fun _ => Nv.ite (ih _ _ _) (ih _ _ _)
theorem fmtCustomLine_nv (o : Int) : Nv (fmtCustomLine o) := by
  unfold fmtCustomLine
  refine Nv.bind Nv.get fun p => Nv.ite ?_ (Nv.ite ?_ ?_) <;>
  · refine Nv.bind (lineLoop_nv (fun i => ?_) _ _ _ _ _) fun _ => ?_ <;> nv
macro_rules | `(tactic| nv_lemma) => `(tactic| with_reducible exact fmtCustomLine_nv _)
theorem fmtLine_nv : Nv fmtLine := by unfold fmtLine; nv
macro_rules | `(tactic| nv_lemma) => `(tactic| with_reducible exact fmtLine_nv)
theorem parseErr_nv {α : Type} (m : String) : Nv (parseErr m : M Parser α) := by
  unfold parseErr; nv
macro_rules | `(tactic| nv_lemma) => `(tactic| with_reducible exact parseErr_nv _)
theorem parseErrAt_nv {α : Type} (m : String) (o : Int) : Nv (parseErrAt m o : M Parser α) := by
  unfold parseErrAt; nv
macro_rules | `(tactic| nv_lemma) => `(tactic| with_reducible exact parseErrAt_nv _ _)
theorem qualifyElementLoop_nv (a b : Int) (n : Nat) : Nv (qualifyElementLoop a b n) := by
  induction n with
  | zero => unfold qualifyElementLoop; nv
  | succ n ih => unfold qualifyElementLoop; nv
macro_rules | `(tactic| nv_lemma) => `(tactic| with_reducible exact qualifyElementLoop_nv _ _ _)
theorem qualifyElement_nv : Nv qualifyElement := by unfold qualifyElement; nv
macro_rules | `(tactic| nv_lemma) => `(tactic| with_reducible exact qualifyElement_nv)
theorem pushNs1_nv : Nv pushNs1 := by unfold pushNs1; nv
macro_rules | `(tactic| nv_lemma) => `(tactic| with_reducible exact pushNs1_nv)
theorem qualifyAttrLoop_nv (a b : Int) (n : Nat) : Nv (qualifyAttrLoop a b n) := by
  induction n with
  | zero => unfold qualifyAttrLoop; nv
  | succ n ih => unfold qualifyAttrLoop; nv
macro_rules | `(tactic| nv_lemma) => `(tactic| with_reducible exact qualifyAttrLoop_nv _ _ _)
theorem qualifyAttrsLoop_nv (a n : Nat) (j : Int) : Nv (qualifyAttrsLoop a n j) := by
  induction n generalizing j with
  | zero => unfold qualifyAttrsLoop; nv
  | succ n ih =>
    have := ih (j + 1)
    unfold qualifyAttrsLoop
    nv
macro_rules | `(tactic| nv_lemma) => `(tactic| with_reducible exact qualifyAttrsLoop_nv _ _ _)
theorem qualifyAttributes_nv : Nv qualifyAttributes := by unfold qualifyAttributes; nv
theorem attrNsDecl_nv : Nv attrNsDecl := by unfold attrNsDecl; nv
theorem pushPrefixedAttr_nv : Nv pushPrefixedAttr := by unfold pushPrefixedAttr; nv
theorem startTagNs_nv : Nv startTagNs := by unfold startTagNs; nv
theorem getCharUnit_nv (o : Int) : Nv (getCharUnit o) := by unfold getCharUnit; nv
macro_rules | `(tactic| nv_lemma) => `(tactic| with_reducible exact getCharUnit_nv _)
theorem unitSeq_nv (i : Int) (l : List Int) (o : Int) : Nv (unitSeq i l o) := by
  induction l generalizing o with
  | nil => unfold unitSeq; nv
  | cons x l ih =>
    have := ih (o + i)
    unfold unitSeq
    nv

/-! ## The value of a short reference -/

theorem wrap32_small {x : Int} (h0 : 0 ≤ x) (h1 : x < 2 ^ 31) : wrap32 x = x := by
  unfold wrap32
  rw [BitVec.toInt_ofInt]
  exact Int.bmod_eq_of_le (n := x) (m := 2 ^ 32) (by omega) (by omega)

/-- The bytes from `o` to the next `;`. -/
def untilSemi (doc : List UInt8) (o : Int) : Nat := ((doc.drop o.toNat).takeWhile (· ≠ 0x3B)).length

theorem untilSemi_step {doc : List UInt8} {o : Int} {b : UInt8} (h0 : 0 ≤ o) (h : doc[o.toNat]? = some b) (hb : b ≠ 0x3B) :
    untilSemi doc o = untilSemi doc (o + 1) + 1 := by
  obtain ⟨hl, he⟩ := List.getElem?_eq_some_iff.mp h
  unfold untilSemi
  rw [List.drop_eq_getElem_cons hl, he, List.takeWhile_cons_of_pos (by simpa using hb), List.length_cons,
    show (o + 1).toNat = o.toNat + 1 by omega]

theorem shortRefs_at {doc : List UInt8} (h : ShortRefs doc) {o : Int} (h0 : 0 ≤ o) (h1 : doc[o.toNat]? = some 0x26)
    (h2 : doc[o.toNat + 1]? = some 0x23) : untilSemi doc (o + 2) ≤ 8 := by
  obtain ⟨hl, he⟩ := List.getElem?_eq_some_iff.mp h1
  obtain ⟨hl2, he2⟩ := List.getElem?_eq_some_iff.mp h2
  unfold untilSemi
  rw [show (o + 2).toNat = o.toNat + 1 + 1 by omega]
  refine h (doc.take o.toNat) _ ?_
  conv => lhs; rw [← List.take_append_drop o.toNat doc]
  rw [List.drop_eq_getElem_cons hl, he, List.drop_eq_getElem_cons hl2, he2]
  simp

theorem hexDigit_lt {n d : Nat} (h : hexDigit n = some d) : d < 16 ∧ n ≠ 0x3B := by
  unfold hexDigit at h
  split at h
  · cases h; rename_i h; simp at h; omega
  split at h
  · cases h; rename_i h; simp at h; omega
  split at h
  · cases h; rename_i h; simp at h; omega
  · cases h

theorem hex_ok {n : Nat} {o v i v' i' : Int} {s s' : Parser} (he : s.enc = stdEnc)
    (h : resolveHexLoop n o v i s = .ok (v', i') s') (k : Nat) (hv0 : 0 ≤ v) (hv : v < 16 ^ k)
    (hk : k + untilSemi s.cfg.xmlDoc (o + 1) ≤ 7) : 0 ≤ v' ∧ v' < 2 ^ 31 ∧ i < i' ∧ i' ≤ i + 9 := by
  have hi : s.enc.increment = 1 := by rw [he]; rfl
  suffices hs : 0 ≤ v' ∧ v' < 2 ^ 31 ∧ i < i' ∧ i' ≤ i + untilSemi s.cfg.xmlDoc (o + 1) + 2 by
    obtain ⟨a, b, d, e⟩ := hs
    exact ⟨a, b, d, by omega⟩
  induction n generalizing o v i k with
  | zero => cases h
  | succ n ih =>
    unfold resolveHexLoop at h
    obtain ⟨p, t, h1, h⟩ := bind_ok h
    cases h1
    obtain ⟨c, t, h1, h⟩ := bind_ok h
    rw [hi] at h1
    obtain ⟨rfl, h0, b, hb, rfl⟩ := getCharUnit_ok he h1
    simp only [hi] at h
    have hpow : (16 : Int) ^ k ≤ 16 ^ 7 := by
      exact_mod_cast Nat.pow_le_pow_right (by omega) (by omega : k ≤ 7)
    have h7 : (16 : Int) ^ 7 = 268435456 := by decide
    have hstep : b ≠ 0x3B → untilSemi t.cfg.xmlDoc (o + 1) = untilSemi t.cfg.xmlDoc (o + 1 + 1) + 1 :=
      untilSemi_step h0 hb
    cases hx : hexDigit (b.toNat : Int).toNat with
    | some d =>
      obtain ⟨hd, hne⟩ := hexDigit_lt hx
      have hb' : b ≠ 0x3B := by rintro rfl; exact hne rfl
      simp only [hx] at h
      have hk1 : (16 : Int) ^ (k + 1) = 16 ^ k * 16 := Int.pow_succ ..
      have hpow1 : (16 : Int) ^ (k + 1) ≤ 16 ^ 7 := by
        exact_mod_cast Nat.pow_le_pow_right (by omega) (by have := hstep hb'; omega : k + 1 ≤ 7)
      have hw : wrap32 (v * 16 + d) = v * 16 + d := wrap32_small (by omega) (by omega)
      rw [hw] at h
      have := ih h (k + 1) (by omega) (by omega) (by have := hstep hb'; omega)
      have := hstep hb'
      omega
    | none =>
      simp only [hx, M.ite_apply] at h
      split at h
      · cases h; omega
      · rename_i hne
        have hb' : b ≠ 0x3B := by rintro rfl; exact hne rfl
        have := ih h k hv0 hv (by have := hstep hb'; omega)
        have := hstep hb'
        omega

theorem dec_ok {n : Nat} {o v i v' i' : Int} {s s' : Parser} (he : s.enc = stdEnc)
    (h : resolveDecLoop n o v i s = .ok (v', i') s') (k : Nat) (hv0 : 0 ≤ v) (hv : v < 10 ^ k)
    (hk : k + untilSemi s.cfg.xmlDoc o ≤ 8) : 0 ≤ v' ∧ v' < 2 ^ 31 ∧ i < i' ∧ i' ≤ i + 9 := by
  have hi : s.enc.increment = 1 := by rw [he]; rfl
  suffices hs : 0 ≤ v' ∧ v' < 2 ^ 31 ∧ i < i' ∧ i' ≤ i + untilSemi s.cfg.xmlDoc o + 1 by
    obtain ⟨a, b, d, e⟩ := hs
    exact ⟨a, b, d, by omega⟩
  induction n generalizing o v i k with
  | zero => cases h
  | succ n ih =>
    unfold resolveDecLoop at h
    obtain ⟨p, t, h1, h⟩ := bind_ok h
    cases h1
    obtain ⟨c, t, h1, h⟩ := bind_ok h
    obtain ⟨rfl, h0, b, hb, rfl⟩ := getCharUnit_ok he h1
    simp only [hi, M.ite_apply] at h
    have hpow : (10 : Int) ^ k ≤ 10 ^ 8 := by
      exact_mod_cast Nat.pow_le_pow_right (by omega) (by omega : k ≤ 8)
    have h7 : (10 : Int) ^ 8 = 100000000 := by decide
    have hstep : b ≠ 0x3B → untilSemi t.cfg.xmlDoc o = untilSemi t.cfg.xmlDoc (o + 1) + 1 :=
      untilSemi_step h0 hb
    split at h
    · rename_i hd
      have hb' : b ≠ 0x3B := by rintro rfl; exact absurd hd (by decide)
      have hk1 : (10 : Int) ^ (k + 1) = 10 ^ k * 10 := Int.pow_succ ..
      have hpow1 : (10 : Int) ^ (k + 1) ≤ 10 ^ 8 := by
        exact_mod_cast Nat.pow_le_pow_right (by omega) (by have := hstep hb'; omega : k + 1 ≤ 8)
      have hlo : (48 : Int) ≤ b.toNat ∧ (b.toNat : Int) ≤ 57 := hd
      have hw : wrap32 (v * 10 + ((b.toNat : Int) - ch% '0')) = v * 10 + ((b.toNat : Int) - 48) :=
        wrap32_small (by show (0:Int) ≤ v * 10 + ((b.toNat : Int) - 48); omega)
          (by show v * 10 + ((b.toNat : Int) - 48) < _; omega)
      rw [hw] at h
      have := ih h (k + 1) (by omega) (by omega) (by have := hstep hb'; omega)
      have := hstep hb'
      omega
    · split at h
      · cases h; omega
      · rename_i hne
        have hb' : b ≠ 0x3B := by rintro rfl; exact hne rfl
        have := ih h k hv0 hv (by have := hstep hb'; omega)
        have := hstep hb'
        omega

/-! ## The loop that compares two namespace names -/

theorem or_nat {a b : Nat} (ha : a < 2 ^ 31) (hb : b < 2 ^ 31) :
    (BitVec.ofInt 64 (a : Int) ||| (BitVec.ofInt 64 (b : Int) <<< 32)).toNat = b * 2 ^ 32 + a := by
  rw [BitVec.toNat_or, BitVec.toNat_shiftLeft, BitVec.ofInt_natCast, BitVec.ofInt_natCast, BitVec.toNat_ofNat,
    BitVec.toNat_ofNat, Nat.mod_eq_of_lt (a := a) (by omega), Nat.mod_eq_of_lt (a := b) (by omega), Nat.shiftLeft_eq,
    Nat.mod_eq_of_lt (by omega), Nat.or_comm, nat_or_add _ 32 _ (by omega)]

theorem step_of {x : BitVec 64} {a b : Nat} (h : x.toNat = b * 2 ^ 32 + a) (ha : a < 2 ^ 32) (hb : b < 2 ^ 31) :
    (x.sshiftRight 32).toInt = b := by
  have hmsb : x.msb = false := by rw [BitVec.msb_eq_false_iff_two_mul_lt]; omega
  have ht : (x.sshiftRight 32).toNat = b := by
    rw [BitVec.sshiftRight_eq_of_msb_false hmsb, BitVec.toNat_ushiftRight, h, Nat.shiftRight_eq_div_pow]
    omega
  rw [BitVec.toInt_eq_toNat_of_lt (by omega), ht]

theorem resolveUnit_small {o ch val inc : Int} {s s' : Parser} (he : s.enc = stdEnc)
    (href : ch = ch% '#' → untilSemi s.cfg.xmlDoc o ≤ 8) (h : resolveUnit o ch 2 s = .ok (val, inc) s') :
    0 ≤ val ∧ val < 2 ^ 31 ∧ 0 < inc ∧ inc < 2 ^ 31 := by
  have hu : (s.enc.encoding < FormatUtf16BE) := by rw [he]; decide
  unfold resolveUnit at h
  obtain ⟨p, t, h1, h⟩ := bind_ok h
  cases h1
  simp only [hu, decide_true, if_true] at h
  by_cases c1 : ch = ch% '#'
  · have hsh := href c1
    rw [if_pos c1] at h
    obtain ⟨c, t, h1, h⟩ := bind_ok h
    obtain ⟨rfl, h0, b, hb, rfl⟩ := getCharUnit_ok he h1
    rw [M.ite_apply] at h
    split at h
    · rename_i hx
      have hbx : b ≠ 0x3B := by rintro rfl; exact absurd hx (by decide)
      have := hex_ok he h 0 (by omega) (by decide) (by have := untilSemi_step h0 hb hbx; omega)
      omega
    · have := dec_ok he h 0 (by omega) (by decide) (by omega)
      omega
  rw [if_neg c1] at h
  by_cases c2 : ch = ch% 'a'
  · rw [if_pos c2] at h
    obtain ⟨c, t, h1, h⟩ := bind_ok h
    simp only [M.ite_apply] at h
    split at h
    · obtain ⟨u, t', h2, h⟩ := bind_ok h
      cases h
      decide
    · split at h
      · obtain ⟨u, t', h2, h⟩ := bind_ok h
        cases h
        decide
      · cases h
        decide
  rw [if_neg c2] at h
  by_cases c3 : ch = ch% 'q'
  · rw [if_pos c3] at h
    obtain ⟨u, t', h2, h⟩ := bind_ok h
    cases h
    decide
  rw [if_neg c3] at h
  by_cases c4 : ch = ch% 'g' ∨ ch = ch% 'l'
  · rw [if_pos c4] at h
    obtain ⟨u, t', h2, h⟩ := bind_ok h
    cases h
    split <;> decide
  rw [if_neg c4] at h
  cases h
  decide

theorem getLong_step {o : Int} {s s' : Parser} {v : BitVec 64} (h : onRd (Reader.getLongCharAt o) s = .ok v s') :
    1 ≤ (v.sshiftRight 32).toInt := by
  have key : ∀ b : UInt8, (((1#64 <<< 32) ||| BitVec.ofNat 64 b.toNat).sshiftRight 32).toInt = 1 := by
    intro b
    have hb : b.toNat < 256 := b.toNat_lt
    refine step_of (a := b.toNat) (b := 1) ?_ (by omega) (by omega)
    have := or_nat (a := b.toNat) (b := 1) (by omega) (by omega)
    rw [BitVec.or_comm, ← this, BitVec.ofInt_natCast]
    rfl
  simp only [onRd, M.zoom_apply, Reader.getLongCharAt, M.bind_apply, M.get_apply, Res.andThen_ok] at h
  obtain ⟨h0, a, ha, h1⟩ | h1 := index_eq s.rd.xmlDoc o s.rd
  · rw [h1] at h
    simp only [Res.andThen_ok, M.ite_apply] at h
    by_cases hc : a = ch% '\r'
    · rw [if_pos hc] at h
      obtain ⟨h0', a', ha', h1'⟩ | h1' := index_eq s.rd.xmlDoc (o + 1) s.rd
      · simp only [M.bind_apply, h1', Res.andThen_ok, M.ite_apply] at h
        by_cases hn : a' = ch% '\n'
        · rw [if_pos hn] at h
          cases h; decide
        · rw [if_neg hn] at h
          cases h; rw [key]; decide
      · simp only [M.bind_apply, h1'] at h; cases h
    · rw [if_neg hc] at h
      cases h; rw [key]; decide
  · rw [h1] at h; cases h

/-- The slice has only short numeric references, and the loop may run longer than the slice. -/
structure Good (c : ParserCfg) : Prop where
  refs : ShortRefs c.xmlDoc
  fuel : c.xmlDoc.length < c.matchFuel

theorem getCharResolved_step (hg : Good c) {o : Int} {v : BitVec 64} {p' : Parser} (hb : Base c p)
    (h : getCharResolved o p = .ok v p') : 0 ≤ o ∧ o < c.xmlDoc.length ∧ 1 ≤ (v.sshiftRight 32).toInt := by
  have he : p.enc = stdEnc := hb.enc
  have hi : p.enc.increment = 1 := hb.inc
  unfold getCharResolved at h
  obtain ⟨q, t, h1, h⟩ := bind_ok h
  cases h1
  obtain ⟨c64, t, h1, h⟩ := bind_ok h
  have hst := getLong_step h1
  obtain ⟨rfl, h0, b, hbb, hv, hamp⟩ := getLongCharAt_ok h1
  rw [hb.doc] at hbb
  have hlt : o < c.xmlDoc.length := by
    obtain ⟨hl, -⟩ := List.getElem?_eq_some_iff.mp hbb; omega
  refine ⟨h0, hlt, ?_⟩
  rw [M.ite_apply] at h
  split at h
  · cases h; exact hst
  · rename_i hc
    have hc := hamp.mp (by simpa using hc)
    obtain ⟨ch, t, h1, h⟩ := bind_ok h
    simp only [hi] at h1 h
    obtain ⟨rfl, h0', b', hb', rfl⟩ := getCharUnit_ok he h1
    obtain ⟨⟨val, inc⟩, t', h1, h⟩ := bind_ok h
    cases h
    rw [hb.cfg] at hb'
    have := resolveUnit_small he (o := o + 1 + 1) (fun hh => ?_) h1
    · obtain ⟨v0, v1, i0, i1⟩ := this
      obtain ⟨a, rfl⟩ : ∃ n : Nat, val = n := ⟨val.toNat, by omega⟩
      obtain ⟨b, rfl⟩ : ∃ n : Nat, inc = n := ⟨inc.toNat, by omega⟩
      rw [step_of (or_nat (by omega) (by omega)) (by omega) (by omega)]
      omega
    · have hsharp : b' = 0x23 := UInt8.toNat_inj.mp (by simpa using (Int.ofNat.inj hh))
      rw [hb.cfg, show o + 1 + 1 = o + 2 by omega]
      refine shortRefs_at hg.refs h0 (by rw [hbb, hc]) ?_
      rw [show o.toNat + 1 = (o + 1).toNat by omega, hb', hsharp]

/-- `m` ends in the states of the parser and changes nothing but the namespace bookkeeping. -/
structure Nn (c : ParserCfg) {α : Type} (m : M Parser α) : Prop where
  nf : Nf m
  nd : ∀ p, Base c p → m p ≠ .diverge

section
variable {α β : Type}
theorem Nn.of {m : M Parser α} (hf : Nf m) (hd : Nv m) : Nn c m := ⟨hf, fun p _ => hd p⟩
theorem Nn.bind {m : M Parser α} {k : α → M Parser β} (hm : Nn c m) (hk : ∀ a, Nn c (k a)) : Nn c (m >>= k) := by
  refine ⟨Nf.bind hm.nf fun a => (hk a).nf, fun p hb h => ?_⟩
  rw [M.bind_apply] at h
  cases hr : m p with
  | ok a s' => rw [hr, Res.andThen_ok] at h; exact (hk a).nd s' ((hm.nf _ _ _ hr).base hb) h
  | err e s' => rw [hr] at h; cases h
  | panic => rw [hr] at h; cases h
  | diverge => exact hm.nd p hb hr
theorem Nn.ite {q : Prop} [Decidable q] {a b : M Parser α} (ha : Nn c a) (hb : Nn c b) : Nn c (if q then a else b) := by
  split
  · exact ha
  · exact hb
theorem Nn.pure (a : α) : Nn c (Pure.pure a : M Parser α) := .of (.pure a) (.pure a)
theorem Nn.get : Nn c (M.get : M Parser Parser) := .of .get .get
theorem Nn.parseErr (m : String) : Nn c (Parser.parseErr m : M Parser α) := .of (.eq (parseErr_fr eq_pre _)) (parseErr_nv _)
theorem Nn.parseErrAt (m : String) (o : Int) : Nn c (Parser.parseErrAt m o : M Parser α) :=
  .of (.eq (parseErrAt_fr eq_pre _ _)) (parseErrAt_nv _ _)
theorem Nn.index (xs : List α) (i : Int) : Nn c (M.index xs i : M Parser α) := .of (.eq (Fr.index eq_pre _ _)) (.index _ _)
theorem Nn.ns2 {m : M FastLongBuffer α} (h : Nv m) : Nn c (onNs2 m) := .of (.of (onNs2_fr _)) (onNs2_nv h)
end

theorem getChar_nn : Nn c getChar := by
  refine ⟨getChar_nf, fun p hb h => ?_⟩
  have := getChar_ok hb
  rw [h] at this
  exact this

theorem hexLoop_nd {n : Nat} {o v i : Int} {s : Parser} (he : s.enc = stdEnc) (hn : 0 < n)
    (hf : 0 ≤ o + 1 → (s.cfg.xmlDoc.length : Int) - (o + 1) < n) : resolveHexLoop n o v i s ≠ .diverge := by
  have hi : s.enc.increment = 1 := by rw [he]; rfl
  induction n generalizing o v i with
  | zero => omega
  | succ n ih =>
    intro h
    simp only [resolveHexLoop, M.bind_apply, M.get_apply, Res.andThen_ok, hi] at h
    cases hr : getCharUnit (o + 1) s with
    | ok a t =>
      obtain ⟨rfl, h0, b, hb, rfl⟩ := getCharUnit_ok he hr
      obtain ⟨hl, -⟩ := List.getElem?_eq_some_iff.mp hb
      rw [hr, Res.andThen_ok] at h
      have h1 := hf h0
      cases hx : hexDigit (b.toNat : Int).toNat with
      | some d => simp only [hx] at h; exact ih (by omega) (fun _ => by omega) h
      | none =>
        simp only [hx, M.ite_apply] at h
        split at h
        · cases h
        · exact ih (by omega) (fun _ => by omega) h
    | err e t => rw [hr] at h; cases h
    | panic => rw [hr] at h; cases h
    | diverge => exact getCharUnit_nv _ _ hr

theorem decLoop_nd {n : Nat} {o v i : Int} {s : Parser} (he : s.enc = stdEnc) (hn : 0 < n)
    (hf : 0 ≤ o → (s.cfg.xmlDoc.length : Int) - o < n) : resolveDecLoop n o v i s ≠ .diverge := by
  have hi : s.enc.increment = 1 := by rw [he]; rfl
  induction n generalizing o v i with
  | zero => omega
  | succ n ih =>
    intro h
    simp only [resolveDecLoop, M.bind_apply, M.get_apply, Res.andThen_ok, hi] at h
    cases hr : getCharUnit o s with
    | ok a t =>
      obtain ⟨rfl, h0, b, hb, rfl⟩ := getCharUnit_ok he hr
      obtain ⟨hl, -⟩ := List.getElem?_eq_some_iff.mp hb
      rw [hr, Res.andThen_ok] at h
      have h1 := hf h0
      simp only [M.ite_apply] at h
      split at h
      · exact ih (by omega) (fun _ => by omega) h
      · split at h
        · cases h
        · exact ih (by omega) (fun _ => by omega) h
    | err e t => rw [hr] at h; cases h
    | panic => rw [hr] at h; cases h
    | diverge => exact getCharUnit_nv _ _ hr

theorem unit_nn (o ch i : Int) : Nn c (resolveUnit o ch i) := by
  refine ⟨resolveUnit_nf _ _ _, fun p hb h => ?_⟩
  have hs : ∀ a b d, Nn c (unitSeq a b d) := fun a b d => .of (.eq (unitSeq_eq _ _ _)) (unitSeq_nv _ _ _)
  simp only [resolveUnit, M.bind_apply, M.get_apply, Res.andThen_ok] at h
  rw [M.ite_apply] at h
  split at h
  · simp only [M.bind_apply] at h
    cases hr : getCharUnit o p with
    | ok a t =>
      obtain ⟨rfl, h0, b, hb', rfl⟩ := getCharUnit_ok hb.enc hr
      rw [hr, Res.andThen_ok, M.ite_apply] at h
      split at h
      · exact hexLoop_nd hb.enc (by simp only [loopFuel]; omega) (fun _ => by simp only [loopFuel]; omega) h
      · exact decLoop_nd hb.enc (by simp only [loopFuel]; omega) (fun _ => by simp only [loopFuel]; omega) h
    | err e t => rw [hr] at h; cases h
    | panic => rw [hr] at h; cases h
    | diverge => exact getCharUnit_nv _ _ hr
  · refine Nn.nd (c := c) ?_ p hb h
    refine Nn.ite (Nn.bind getChar_nn fun x => Nn.ite ?_ (Nn.ite ?_ (.pure _))) (Nn.ite ?_ (Nn.ite ?_ (.pure _)))
    all_goals exact Nn.bind (hs _ _ _) fun _ => .pure _

theorem resolved_nn (o : Int) : Nn c (getCharResolved o) := by
  unfold getCharResolved
  refine Nn.bind .get fun p => Nn.bind (.of (getLongCharAt_nf _) (getLongCharAt_nv _)) fun x => Nn.ite (.pure _) ?_
  exact Nn.bind (.of (.eq (getCharUnit_eq _)) (getCharUnit_nv _)) fun ch => Nn.bind (unit_nn _ _ _) fun x => .pure _

theorem urlLoop_nn (g : Int) (l : List Nat) (o : Int) : Nn c (urlLoop g l o) := by
  induction l generalizing o with
  | nil => exact .pure _
  | cons u l ih =>
    unfold urlLoop
    exact Nn.ite (Nn.bind (resolved_nn _) fun ch => Nn.ite (.pure _) (ih _)) (.pure _)

theorem identify_nn : Nn c identifyNsUrl := by
  unfold identifyNsUrl
  refine Nn.bind .get fun p => Nn.ite (.pure _) (Nn.bind (urlLoop_nn _ _ _) fun r => ?_)
  cases r with
  | none => exact .pure _
  | some o =>
    refine Nn.bind (urlLoop_nn _ _ _) fun r => ?_
    cases r with
    | none => exact .pure _
    | some o2 =>
      refine Nn.ite (.pure _) (Nn.bind (urlLoop_nn _ _ _) fun r => ?_)
      cases r with
      | none => exact .pure _
      | some o3 => exact Nn.ite (.pure _) (.pure _)

theorem attrValNs_nn : Nn c attrValNs := by
  unfold attrValNs
  refine Nn.bind .get fun p => Nn.ite (Nn.ite (.parseErr _) (Nn.bind identify_nn fun t => Nn.bind .get fun p =>
    Nn.ite (.parseErr _) ?_)) (.pure _)
  refine Nn.ite (Nn.bind (.ns2 (append_nv _)) fun _ => ?_) (Nn.bind (.pure _) fun _ => ?_)
  all_goals exact Nn.ite (Nn.ite (.parseErr _) (.parseErr _)) (.pure _)

theorem matchUrlLoop_nd (hg : Good c) {n : Nat} {a b : Int} {p : Parser} (hb : Base c p) (hn : 0 < n)
    (hf : 0 ≤ a → (c.xmlDoc.length : Int) - a < n) : matchUrlLoop n a b p ≠ .diverge := by
  induction n generalizing a b p with
  | zero => omega
  | succ n ih =>
    intro h
    simp only [matchUrlLoop, M.bind_apply] at h
    cases hr : getCharResolved a p with
    | ok x t =>
      obtain ⟨a0, a1, hs⟩ := getCharResolved_step hg hb hr
      have hb1 := (getCharResolved_nf _ _ _ _ hr).base hb
      rw [hr, Res.andThen_ok, M.bind_apply] at h
      cases hr2 : getCharResolved b t with
      | ok y t2 =>
        have hb2 := (getCharResolved_nf _ _ _ _ hr2).base hb1
        have := hf a0
        rw [hr2, Res.andThen_ok, M.ite_apply] at h
        split at h
        · cases h
        · exact ih hb2 (by omega) (fun _ => by omega) h
      | err e t => rw [hr2] at h; cases h
      | panic => rw [hr2] at h; cases h
      | diverge => exact (resolved_nn b).nd _ hb1 hr2
    | err e t => rw [hr] at h; cases h
    | panic => rw [hr] at h; cases h
    | diverge => exact (resolved_nn a).nd _ hb hr

theorem matchUrl_nn (hg : Good c) (a b d e : Int) : Nn c (matchUrl a b d e) := by
  refine ⟨matchUrl_nf _ _ _ _, fun p hb h => ?_⟩
  have hf := hg.fuel
  simp only [matchUrl, M.bind_apply, M.get_apply, Res.andThen_ok, M.ite_apply] at h
  split at h
  · refine matchUrlLoop_nd hg hb ?_ (fun _ => ?_) h <;> rw [hb.cfg] <;> omega
  · cases h

theorem inner_nn (hg : Good c) (a b d e : Int) (n : Nat) (j : Int) : Nn c (uniqueQualInner a b d e n j) := by
  induction n generalizing j with
  | zero => exact .pure _
  | succ n ih =>
    unfold uniqueQualInner
    refine Nn.bind .get fun p => Nn.bind (.index _ _) fun x => Nn.ite ?_ (ih _)
    have key : ∀ same : Bool, Nn c (if same = true then do
        let u ← M.index p.at_.prefixUrlSlice j
        let urlLen2 ← onNs2 (Paged.lower32At u)
        let urlOffset2 ← onNs2 (Paged.upper32At u)
        let m ← matchUrl d e urlOffset2.toInt urlLen2.toInt
        if m then parseErrAt "qualified attribute names collide" (high32 x + attrPreLen x + p.enc.increment)
        else uniqueQualInner a b d e n (j + 1)
      else uniqueQualInner a b d e n (j + 1)) := by
      intro same
      refine Nn.ite ?_ (ih _)
      exact Nn.bind (.index _ _) fun u => Nn.bind (.ns2 (lower_nv _)) fun l => Nn.bind (.ns2 (upper_nv _)) fun o =>
        Nn.bind (matchUrl_nn hg _ _ _ _) fun m => Nn.ite (.parseErrAt _ _) (ih _)
    exact Nn.ite (Nn.bind (.pure _) key) (Nn.bind (.of (.eq (sameBytes_fr eq_pre _ _ _)) (sameBytes_nv _ _ _)) key)

theorem outer_nn (hg : Good c) (n : Nat) (j : Int) : Nn c (uniqueQualOuter n j) := by
  induction n generalizing j with
  | zero => exact .pure _
  | succ n ih =>
    unfold uniqueQualOuter
    exact Nn.bind .get fun p => Nn.bind (.index _ _) fun x => Nn.bind (.index _ _) fun u =>
      Nn.bind (.ns2 (lower_nv _)) fun l => Nn.bind (.ns2 (upper_nv _)) fun o =>
      Nn.bind (inner_nn hg _ _ _ _ _ _) fun _ => ih _

theorem attrValQualify_nn (hg : Good c) : Nn c attrValQualify := by
  have h1 : Nn c pushNs1 := .of (.of pushNs1_fr) pushNs1_nv
  have h2 : Nn c qualifyAttributes := .of (.of qualifyAttributes_fr) qualifyAttributes_nv
  have h3 : Nn c qualifyElement := .of (.of qualifyElement_fr) qualifyElement_nv
  have h4 : Nn c checkQualifiedAttributeUniqueness := Nn.bind .get fun p => outer_nn hg _ _
  have h5 : Nn c (M.modify fun p : Parser => { p with at_ := { p.at_ with prefixedAttCount := 0 } }) :=
    .of resetPrefixed_nf (.modify _)
  unfold attrValQualify
  refine Nn.bind .get fun p => Nn.ite (Nn.bind h1 fun _ => Nn.ite (Nn.bind h2 fun _ => Nn.bind h4 fun _ => ?_)
    (Nn.bind (.pure _) fun _ => ?_)) (.pure _)
  all_goals exact Nn.ite (Nn.bind h3 fun _ => h5) h5

/-! ## The steps -/

/-- What a computation achieves if it succeeds; it may fail or panic, but it ends. -/
abbrev Ends {α : Type} (r : Res Parser α) (Q : α → Parser → Prop) : Prop := r.Sat Q (fun _ _ => True) True False

theorem ends {α : Type} {r : Res Parser α} {Q : α → Parser → Prop} {E : GoErr → Parser → Prop} {P : Prop}
    (h : r.Sat Q E P False) : Ends r Q := h.mono (fun _ _ h => h) (fun _ _ _ => trivial) (fun _ => trivial) id

theorem nn_ends {α : Type} {m : M Parser α} (h : Nn c m) (hb : Base c p) : Ends (m p) fun _ p' => NFrame p p' := by
  have hd := h.nd p hb
  cases hr : m p with
  | ok a s => exact h.nf _ _ _ hr
  | err e s => trivial
  | panic => trivial
  | diverge => exact absurd hr hd

theorem nv_ends {α : Type} {m : M Parser α} {Q : α → Parser → Prop} (hd : Nv m) (h : ∀ a s, m p = .ok a s → Q a s) :
    Ends (m p) Q := by
  have hd := hd p
  cases hr : m p with
  | ok a s => exact h _ _ hr
  | err e s => trivial
  | panic => trivial
  | diverge => exact absurd hr hd

theorem err_ends {α : Type} {Q : α → Parser → Prop} (msg : String) : Ends (parseErr msg p) Q :=
  nv_ends (parseErr_nv _) fun _ _ h => by simp at h

abbrev StepEnds (c : ParserCfg) (lo : Int) (r : Res Parser PState) : Prop :=
  Ends r fun st' p' => Inv c st' p' ∧ lo < p'.rd.offset

theorem startTagLoop_ends {fuel : Nat} {p : Parser} (hb : Base c p) (hf : Enough c p fuel) :
    Ends (startTagLoop fuel p) fun _ p' => ∃ l r ch, p' = ({ p with length2 := l } : Parser).mv r r ch ∧
      Base c p' ∧ p.rd.offset < r ∧ r ≤ c.endOffset := by
  induction fuel generalizing p with
  | zero => obtain ⟨n, hn⟩ := hf.pos hb; omega
  | succ fuel ih =>
    refine Res.Sat.bind (ends (nextChar_moved hb)) fun _ p' ⟨hm, hle⟩ => bind_get ?_
    obtain ⟨r, ch, rfl, hb', hl⟩ := hm
    simp only [mv_rdOffset] at hle
    refine ite_sat (fun _ => ite_sat (fun _ => bind_modify (bind_get ?_)) fun _ => ?_) fun _ => ?_
    · have hnv : ∀ (b : Bool) (x y : Int) (z : Bool), Nv (pure b &&! checkXmlnsPrefix x y z) := fun _ _ _ _ =>
        and_nv (.pure _) (checkXmlns_nv _ _ _)
      have hfr : ∀ (b : Bool) (x y : Int) (z : Bool), Fr (fun s s' : Parser => s' = s) (pure b &&! checkXmlnsPrefix x y z) :=
        fun _ _ _ _ => Fr.bind eq_pre (Fr.pure eq_pre _) fun _ => Fr.ite (checkXmlnsPrefix_fr eq_pre _ _ _) (Fr.pure eq_pre _)
      refine Res.Sat.bind (nv_ends (Q := fun _ p' => p' = _) (hnv _ _ _ _) fun a s h => (hfr _ _ _ _).ok h) ?_
      rintro bad _ rfl
      refine ite_sat (fun _ => err_ends _) fun _ => ?_
      refine (ih (by exact hb') (hf.step (by simp; omega))).mono (fun _ _ h => ?_) (fun _ _ h => h) id id
      obtain ⟨l, r3, ch3, rfl, hb3, h3, h4⟩ := h
      simp only [mv_rdOffset] at h3
      exact ⟨l, r3, ch3, rfl, hb3, by omega, h4⟩
    · refine (ih hb' (hf.step (by simp; omega))).mono (fun _ _ h => ?_) (fun _ _ h => h) id id
      obtain ⟨l, r3, ch3, rfl, hb3, h3, h4⟩ := h
      simp only [mv_rdOffset] at h3
      exact ⟨l, r3, ch3, rfl, hb3, by omega, h4⟩
    · exact ⟨p.length2, r, ch, rfl, hb', by omega, hle⟩

theorem startTagNs_ends : Ends (startTagNs p) fun _ p' =>
    ∃ l e ns, p' = { p with length2 := l, at_ := { p.at_ with currentElementRecord := e }, ns := ns } := by
  refine nv_ends startTagNs_nv fun a s h => ?_
  have hF : Fr (fun s s' : Parser => ∃ l e ns, s' = { s with length2 := l, at_ := { s.at_ with currentElementRecord := e }, ns := ns })
      startTagNs := by
    have hp : Pre (fun s s' : Parser => ∃ l e ns, s' = { s with length2 := l, at_ := { s.at_ with currentElementRecord := e }, ns := ns }) :=
      ⟨fun s => ⟨_, _, _, rfl⟩, by rintro a b c ⟨l, e, ns, rfl⟩ ⟨l', e', ns', rfl⟩; exact ⟨l', e', ns', rfl⟩⟩
    unfold startTagNs
    refine Fr.bind hp (Fr.get hp) fun p => Fr.ite ?_ (Fr.pure hp _)
    have tail : Fr (fun s s' : Parser => ∃ l e ns, s' = { s with length2 := l, at_ := { s.at_ with currentElementRecord := e }, ns := ns }) (do
        let p ← M.get
        if p.depth ≤ p.ns.nsBuffer1.getSize - 1 then do
          M.modify fun p => { p with ns := { p.ns with nsBuffer1 := p.ns.nsBuffer1.setSize p.depth } }
          let t ← onNs1 (Paged.intAt (p.depth - 1))
          M.modify fun p => { p with
            ns := { p.ns with nsBuffer2 := p.ns.nsBuffer2.setSize (t + 1#32).toInt,
                              nsBuffer3 := p.ns.nsBuffer3.setSize (t + 1#32).toInt } }
        else pure ()) := by
      refine Fr.bind hp (Fr.get hp) fun p => Fr.ite (Fr.bind hp (Fr.modify fun s => ⟨_, _, _, rfl⟩) fun _ =>
        Fr.bind hp (Fr.zoom fun _ _ => ⟨_, _, _, rfl⟩) fun t => Fr.modify fun s => ⟨_, _, _, rfl⟩) (Fr.pure hp _)
    exact Fr.ite (Fr.bind hp (Fr.modify fun s => ⟨_, _, _, rfl⟩) fun _ => tail)
      (Fr.bind hp (Fr.modify fun s => ⟨_, _, _, rfl⟩) fun _ => tail)
  exact hF.ok h

theorem tagTail_ends (hb : Base c p) (hs : SlotsCore c p.tagStack p.at_ p.depth) (hd : p.depth ≤ 254) {lo : Int}
    (hlo : lo < p.rd.offset) (a : Bool) (q : Prop) [Decidable q] : StepEnds c lo ((do
      if a then do
        pushNs1
        if q then qualifyElement else pure ()
      else pure ()
      processElementTail) p) := by
  have h1 : Nn c pushNs1 := .of (.of pushNs1_fr) pushNs1_nv
  have h3 : Nn c qualifyElement := .of (.of qualifyElement_fr) qualifyElement_nv
  have last : ∀ p', NFrame p p' → StepEnds c lo (processElementTail p') := fun p' hf => by
    have := hf.rd hb
    exact ends (processElementTail_ok (hf.base hb) (hf.slots hs) (by rw [hf.depth]; exact hd) (by omega))
  refine ite_sat (fun _ => Res.Sat.bind (nn_ends h1 hb) fun _ p1 hf1 => ite_sat (fun _ => ?_) fun _ => ?_) fun _ => ?_
  · refine Res.Sat.bind (nn_ends h3 (hf1.base hb)) fun _ p2 hf2 => last _ (hf1.trans hf2)
  · exact last _ hf1
  · exact last _ (NFrame.refl _)

theorem startTagEnd_ends (hb : Base c p)
    (hs : SlotsCore c p.tagStack p.at_ p.depth) (h0 : 0 ≤ p.depth) (hd : p.depth ≤ 254) {lo : Int}
    (hlo : lo < p.rd.offset) : StepEnds c lo (startTagEnd p) := by
  refine bind_modify (bind_get (ite_sat (fun _ => ?_) fun _ => ?_))
  · refine bind_modify (Res.Sat.bind (ends (getChar_ok (c := c) (by exact hb))) fun ch p' hm => ?_)
    obtain ⟨r, _, rfl, hb', hl⟩ := hm
    refine bind_modify (bind_get (ite_sat (fun _ => ?_) fun _ => err_ends _))
    simp only at hl
    exact tagTail_ends (by exact hb')
      (by exact { hs with dep0 := by simp; omega, dep1 := by simp; omega }) (by simp; omega)
      (by simp; omega) _ _
  · refine bind_get (ite_sat (fun _ => ?_) fun _ => err_ends _)
    exact tagTail_ends (by exact hb) (by exact hs) (by exact hd) (by exact hlo) _ _

theorem processStartTag_ends (h : Inv c .tagStart p) : StepEnds c p.rd.offset (processStartTag p) := by
  have hs := h.slots
  have h0 := h.start (by simp)
  obtain ⟨hn0, hn1, hn2⟩ := h.name (by simp)
  have hsy := h.sync (by simp)
  refine bind_get (Res.Sat.bind (startTagLoop_ends h.base (Enough.loopFuel h.base h.base.cfg))
    fun _ p' hp => ?_)
  obtain ⟨l2, r, ch, rfl, hb, hl, hle⟩ := hp
  refine bind_modify (bind_get (ite_sat (fun _ => err_ends _) fun hd => ?_))
  have hd : p.depth ≤ 254 := by simpa [maxDepth] using hd
  have hinc : p.enc.increment = 1 := h.base.inc
  have he2 := hb.end2
  have he1 := hb.end1
  generalize hq : ({ (({ p with length2 := l2 } : Parser).mv r r ch) with
    length1 := (({ p with length2 := l2 } : Parser).mv r r ch).offset -
      (({ p with length2 := l2 } : Parser).mv r r ch).lastOffset -
      (({ p with length2 := l2 } : Parser).mv r r ch).enc.increment } : Parser) = q
  have hq1 : q.length1 = r - p.lastOffset - 1 := by subst hq; simp [hinc]
  have hqb : Base c q := by subst hq; exact hb
  have hql : q.lastOffset = p.lastOffset := by subst hq; rfl
  have hqd : q.depth = p.depth := by subst hq; rfl
  have hqs : SlotsCore c q.tagStack q.at_ q.depth := by subst hq; exact hs
  have hqr : q.rd.offset = r := by subst hq; rfl
  have hqo : q.offset = r := by subst hq; rfl
  clear hq
  obtain ⟨t, ht, hts⟩ := pushTag_sat hqs (by omega) (by omega) (by omega) (by omega) he2 he1
  rw [M.bind_apply, ht, Res.andThen_ok]
  refine bind_modify (Res.Sat.bind (ends (writeStartTag_ok (by exact hqb))) fun _ p' hw => ?_)
  obtain ⟨o, rfl, hb⟩ := hw
  refine Res.Sat.bind startTagNs_ends ?_
  rintro _ p' ⟨l, e, ns, rfl⟩
  have hts' : SlotsCore c t { q.at_ with currentElementRecord := e } q.depth := { hts with }
  refine bind_modify (bind_get (ite_sat (fun _ => ?_) fun _ => ?_))
  · refine Res.Sat.bind (ends (nextCharAfterWs_moved (c := c) (by exact hb))) fun _ p' ⟨hm, hle⟩ => bind_get ?_
    obtain ⟨r2, ch2, rfl, hb2, hl2⟩ := hm
    simp only [mv_rdOffset] at hl2 hle
    refine ite_sat (fun hnm => ?_) fun _ => ?_
    · simp only [M.bind_apply, getPrevOffset_eq hb2, Res.andThen_ok, M.modify_apply, M.pure_apply]
      have := hb2.off0
      have hx := hqb.off0
      refine ⟨⟨hb2, by simpa using hts', fun _ => by simpa [hqd] using hd, fun _ => by simp [hqd, h0],
        fun _ => ⟨by simp; omega, by simp; omega, hle⟩, fun _ => isNameStartChar_nameChar hnm, fun _ => rfl⟩, ?_⟩
      simp; omega
    · exact startTagEnd_ends (by exact hb2) (by exact hts') (by simpa [hqd] using h0)
        (by simpa [hqd] using hd) (by simp; omega)
  · exact startTagEnd_ends (by exact hb) (by exact hts') (by simpa [hqd] using h0)
      (by simpa [hqd] using hd) (by simp; omega)

theorem checkAttrUniqueness_ends (hb : Base c p) (hs : SlotsCore c p.tagStack p.at_ p.depth)
    (hin : InDoc c p.lastOffset p.length1) (he : p.lastOffset + p.length1 < c.endOffset) :
    Ends (checkAttrUniqueness p) fun _ p' => ∃ l n, NFrame { p with at_ := { p.at_ with attrNameSlice := l, attrCount := n } } p' ∧
        SlotsCore c p'.tagStack p'.at_ p'.depth := by
  have h0 := hs.cnt0
  have h1 := hs.cnt1
  have he2 := hb.end2
  obtain ⟨l0, l1, l2⟩ := hin
  obtain ⟨b, hu⟩ := uniqueLoop_eq hb.cfg hs ⟨l0, l1, l2⟩ p.at_.attrCount.toNat (i := 0) (by omega) (by omega) true
  refine bind_get ?_
  rw [M.bind_apply, hu, Res.andThen_ok]
  refine ite_sat (fun _ => err_ends _) fun _ => ?_
  · simp only [setAt]
    by_cases hf : p.at_.attrCount = 256
    · rw [if_pos (by rw [hs.attLen]; omega)]
      trivial
    · rw [if_neg (by rw [hs.attLen]; omega)]
      refine bind_modify ?_
      refine (nn_ends (.of (.of pushPrefixedAttr_fr) pushPrefixedAttr_nv) (by exact hb)).mono (fun _ p' hf => ?_)
        (fun _ _ h => h) id id
      refine ⟨_, _, hf, hf.slots ?_⟩
      refine { hs with attLen := by simp [hs.attLen], cnt0 := by simp; omega, cnt1 := by simp; omega, atts := fun t ht => ?_ }
      rcases List.mem_or_eq_of_mem_set ht with ht | rfl
      · exact hs.atts t ht
      · have hp := packOr_toNat l0 (by omega) l1 (by omega : p.length1 < 2 ^ 32)
        rw [low32_of hp (by omega), high32_of hp (by omega) (by omega)]
        exact ⟨by omega, by omega, by omega⟩

theorem writeAttrName_ends (hb : Base c p) :
    Ends (writeAttrName p) fun _ p' => ∃ o ns, p' = { p with out := o, ns := ns } ∧ Base c p' := by
  have key : ∀ q : Parser, Base c q → Ends ((do
      let tokenType := if p.at_.isNs then Token.attrNs else Token.attrName
      let errMsg := if p.at_.isNs then AttrNsPrefixQnameTooLong else AttrNamePrefixQnameTooLong
      if p.enc.singleByteEncoding then
        if p.length2 > maxPrefixLength ∨ p.length1 > maxQnameLength then parseErr errMsg
        else writeVtd tokenType p.lastOffset (shlOr p.length2 11 p.length1) p.depth
      else
        if p.length2 > maxPrefixLength * 2 ∨ p.length1 > maxQnameLength * 2 then parseErr errMsg
        else writeVtd tokenType (p.lastOffset / 2) (shlOr p.length2 10 (p.length1 / 2)) p.depth : M Parser Unit) q)
      fun _ p' => ∃ o, p' = { q with out := o } ∧ Base c p' := by
    intro q hq
    exact ite_sat (fun _ => ite_sat (fun _ => err_ends _) fun _ => ends (writeVtd_ok hq _ _ _ _))
      fun _ => ite_sat (fun _ => err_ends _) fun _ => ends (writeVtd_ok hq _ _ _ _)
  refine bind_get (ite_sat (fun _ => ?_) fun _ => ?_)
  · refine Res.Sat.bind (nv_ends (Q := fun _ p' => ∃ ns, p' = { p with ns := ns }) (onNs3_nv (append_nv _)) fun a s h => ?_) ?_
    · have : Fr (fun s s' : Parser => ∃ ns, s' = { s with ns := ns }) (onNs3 (Paged.append (nsRecord p.length2 p.length1 p.lastOffset))) :=
        Fr.zoom fun _ _ => ⟨_, rfl⟩
      exact this.ok h
    · rintro _ _ ⟨ns, rfl⟩
      refine (key _ (by exact hb)).mono (fun _ p' h => ?_) (fun _ _ h => h) id id
      obtain ⟨o, rfl, h⟩ := h
      exact ⟨o, ns, rfl, h⟩
  · refine (key _ hb).mono (fun _ p' h => ?_) (fun _ _ h => h) id id
    obtain ⟨o, rfl, h⟩ := h
    exact ⟨o, p.ns, rfl, h⟩

theorem processAttrName_ends (h : Inv c .attrName p) : StepEnds c p.rd.offset (processAttrName p) := by
  have hs := h.slots
  have h0 := h.start (by simp)
  obtain ⟨hn0, hn1, hn2⟩ := h.name (by simp)
  have hsy := h.sync (by simp)
  have hcur := h.cur rfl
  have hd := h.deep (by decide)
  refine Res.Sat.bind (ends (attrNsTest_ok h.base hsy hcur)) fun _ p' hp => bind_get ?_
  obtain ⟨a, b, r, ch, rfl, hb, hl, hc⟩ := hp
  refine Res.Sat.bind (ends (attrNameLoop_ok hb rfl hc (Enough.loopFuel hb hb.cfg))) fun _ p' hp => ?_
  obtain ⟨l2, r2, ch2, rfl, hb2, hl2, he⟩ := hp
  simp only [mv_rdOffset] at hl2
  rw [M.bind_apply, getPrevOffset_eq hb2, Res.andThen_ok]
  refine bind_modify ?_
  have he1 := hb.end1
  refine Res.Sat.bind (nn_ends (.of (.of attrNsDecl_fr) attrNsDecl_nv) (by exact hb2)) fun _ p1 hf => ?_
  have hfd := hf.depth
  have hfl := hf.lastOffset
  have hf1 := hf.length1
  have hfb := hf.base hb2
  have hfr := hf.rd hb2
  have hfs : SlotsCore c p1.tagStack p1.at_ p1.depth := hf.slots { hs with }
  replace hfl : p1.lastOffset = p.lastOffset := hfl
  replace hf1 : p1.length1 = r2 - 1 - p.lastOffset := hf1
  replace hfd : p1.depth = p.depth := hfd
  simp only [mv_rdOffset] at hfr
  refine Res.Sat.bind (checkAttrUniqueness_ends hfb hfs ⟨by omega, by omega, by omega⟩ (by omega)) fun _ p2 hp => ?_
  obtain ⟨l, n, hf2, hs2⟩ := hp
  have hb3 := hf2.base (c := c) hfb
  have hr3 := hf2.rd (c := c) hfb
  have hd3 := hf2.depth
  simp only at hr3 hd3
  refine Res.Sat.bind (writeAttrName_ends hb3) ?_
  rintro _ _ ⟨o, ns, rfl, hb4⟩
  exact ends (attrNameEnd_ok hb4 hs2 (by simp; omega) (by simp; omega) (by simp; omega))

theorem attrValEnd_ends (hg : Good c) (hb : Base c p)
    (hs : SlotsCore c p.tagStack p.at_ p.depth) (h0 : 0 ≤ p.depth) (hd : p.depth ≤ 254) {lo : Int}
    (hlo : lo < p.rd.offset) : StepEnds c lo (attrValEnd p) := by
  have tail : ∀ q, Base c q → SlotsCore c q.tagStack q.at_ q.depth → q.depth ≤ 254 → lo < q.rd.offset → StepEnds c lo ((do
        attrValQualify
        M.modify fun p => { p with at_ := { p.at_ with attrCount := 0 } }
        processElementTail : M Parser PState) q) := by
    intro q hb hs hd hlo
    refine Res.Sat.bind (nn_ends (attrValQualify_nn hg) hb) fun _ p' hf => bind_modify ?_
    have := hf.rd hb
    exact ends (processElementTail_ok (by exact hf.base hb) (by exact { hf.slots hs with cnt0 := by simp, cnt1 := by simp })
      (by simp [hf.depth]; omega) (by simp; omega))
  refine bind_modify (bind_get (ite_sat (fun _ => ?_) fun _ => ?_))
  · refine bind_modify (Res.Sat.bind (ends (nextChar_ok (c := c) (by exact hb))) fun _ p' hm => ?_)
    obtain ⟨r, ch, rfl, hb', hl⟩ := hm
    refine bind_get (ite_sat (fun _ => ?_) fun _ => err_ends _)
    simp only at hl
    exact tail _ hb' (by exact { hs with dep0 := by simp; omega, dep1 := by simp; omega })
      (by simp; omega) (by simp; omega)
  · refine bind_get (ite_sat (fun _ => ?_) fun _ => err_ends _)
    exact tail _ (by exact hb) (by exact hs) (by exact hd) (by exact hlo)

theorem processAttrVal_ends (hg : Good c) (h : Inv c .attrVal p) : StepEnds c p.rd.offset (processAttrVal p) := by
  have hs := h.slots
  have h0 := h.start (by simp)
  have hd := h.deep (by decide)
  refine bind_get (Res.Sat.bind (ends (attrValLoop_ok _ h.base (Enough.loopFuel h.base h.base.cfg)))
    fun _ p' hm => bind_modify ?_)
  obtain ⟨r, ch, rfl, hb, hl⟩ := hm
  refine Res.Sat.bind (nn_ends attrValNs_nn (by exact hb)) fun _ p1 hf => ?_
  have hfb := hf.base (c := c) hb
  have hfr := hf.rd (c := c) hb
  have hfd := hf.depth
  have hfs : SlotsCore c p1.tagStack p1.at_ p1.depth := hf.slots hs
  simp only [mv_depth, mv_rdOffset] at hfd hfr
  clear hf
  refine Res.Sat.bind (ends (writeVtdWithLengthCheck_ok hfb _ _)) fun _ p2 hw => bind_modify ?_
  obtain ⟨o, rfl, hb1⟩ := hw
  refine Res.Sat.bind (ends (nextChar_moved (c := c) (by exact hb1))) fun _ p' ⟨hm, hle⟩ => bind_get ?_
  obtain ⟨r2, ch2, rfl, hb2, hl2⟩ := hm
  simp only at hl2
  have hr : 0 ≤ p1.rd.offset := Int.le_trans hfb.off0 hfb.off1
  refine ite_sat (fun _ => ?_) fun _ => ?_
  · refine Res.Sat.bind (ends (nextCharAfterWs_moved (c := c) (by exact hb2))) fun _ p' ⟨hm, hle⟩ => bind_get ?_
    obtain ⟨r3, ch3, rfl, hb3, hl3⟩ := hm
    simp only [mv_rdOffset] at hl3 hle
    refine ite_sat (fun hnm => bind_modify ?_) fun _ => ?_
    · have hinc : p1.enc.increment = 1 := hfb.inc
      refine ⟨⟨hb3, { hfs with }, fun _ => ?_, fun _ => ?_, fun _ => ⟨?_, ?_, hle⟩,
        fun _ => isNameStartChar_nameChar hnm, fun _ => rfl⟩, ?_⟩
      · show p1.depth ≤ 254; omega
      · show 0 ≤ p1.depth; omega
      · show 0 ≤ r3 - p1.enc.increment
        omega
      · show r3 - p1.enc.increment < r3
        omega
      · simp; omega
    · exact attrValEnd_ends hg (by exact hb3) (by exact { hfs with }) (by show 0 ≤ p1.depth; omega)
        (by show p1.depth ≤ 254; omega) (by simp; omega)
  · exact attrValEnd_ends hg (by exact hb2) (by exact { hfs with }) (by show 0 ≤ p1.depth; omega)
      (by show p1.depth ≤ 254; omega) (by simp; omega)

theorem step_ends (hg : Good c) {st : PState} (h : Inv c st p) : StepEnds c p.rd.offset (step st p) := by
  cases st with
  | docType => exact ends (processDocType_ok h)
  | docStart => exact ends (processDocStart_ok h)
  | docEnd => exact ends (processDocEnd_ok h)
  | ltSeen => exact ends (processLtSeen_ok h)
  | tagStart => exact processStartTag_ends h
  | tagEnd =>
    by_cases h0 : 0 ≤ p.depth
    · exact ends (processEndTag_ok h h0)
    · have h1 : p.depth = -1 := by have := h.slots.dep0; omega
      have h2 : processEndTag p = .panic := by
        simp only [processEndTag, markOffset, M.bind_apply, M.modify_apply, Res.andThen_ok, M.get_apply]
        rw [M.index_panic _ _ _ (Or.inl (by simp [h1]))]
        rfl
      show Ends (processEndTag p) _
      rw [h2]
      trivial
  | attrName => exact processAttrName_ends h
  | attrVal => exact processAttrVal_ends hg h
  | decAttrName => exact ends (processDecAttrName_ok h)
  | text => exact ends (processText_ok h)
  | piTag => exact ends (processPiTag_ok h)
  | piVal => exact ends (processPiVal_ok h)
  | piEnd => exact ends (processPiEnd_ok h)
  | startComment => exact ends (processStartComment_ok h)
  | endComment => exact ends (processEndComment_ok h)
  | cdata => exact ends (processCdata_ok h)
  | invalid => exact err_ends _

theorem mainLoop_ends (hg : Good c) (fuel : Nat) {st : PState} {p : Parser} (h : Inv c st p)
    (hf : (c.xmlDoc.length : Int) - p.rd.offset < fuel) : Ends (mainLoop fuel st p) fun _ _ => True := by
  induction fuel generalizing st p with
  | zero => have := h.base.off2; omega
  | succ fuel ih =>
    have hs := step_ends hg h
    simp only [mainLoop, M.bind_apply, M.catchErr_apply]
    cases hr : step st p with
    | ok st' p' =>
      rw [hr] at hs
      obtain ⟨hi, hlt⟩ := hs
      simp only [Res.andThen_ok, M.pure_apply, Res.handle_ok]
      exact ih hi (by omega)
    | err e p' =>
      simp only [Res.andThen_err, Res.handle_err, onStepErr, M.ite_apply, M.raise_apply]
      by_cases he : e.as .eof ∧ st = .docEnd
      · rw [if_pos he]
        obtain ⟨_, rfl⟩ := he
        have hb : Base c p' := (processDocEnd_errB h.base).err hr
        obtain ⟨p2, h1, o, rfl, h2⟩ := finishUp_noErr hb
        simp only [wrapInternal, M.bind_apply, M.catchErr_apply, h1, Res.handle_ok, Res.andThen_ok,
          M.pure_apply]
        trivial
      · rw [if_neg he]
        trivial
    | panic => trivial
    | diverge => rw [hr] at hs; exact hs.elim

theorem parse_ends (h : Fresh p) (hg : Good p.cfg) : Ends (parse p) fun _ _ => True := by
  obtain ⟨f1, f2, f3, f4, f5, f6, f7, f8, f9⟩ := h.fields
  rw [parse_eq]
  have hd := decideEncoding_sat h
  simp only [M.bind_apply, begin_]
  cases hr : decideEncoding p with
  | err e q => trivial
  | panic => trivial
  | diverge => rw [hr] at hd; exact hd
  | ok a q =>
    rw [hr] at hd
    simp only [Res.andThen_ok, M.bind_apply, M.get_apply]
    have hw : ∃ o, writeVtd .document 0 0 q.depth q = .ok () { q with out := o } ∧ OutOk o := by
      have : q.out = p.out := by
        obtain ⟨rfl, _⟩ | ⟨e, rfl, _⟩ := hd <;> rfl
      obtain ⟨b, h1, h2⟩ := appendFill (this ▸ f9.vtd) (vtdRecord .document 0 0 q.depth)
      simp only [writeVtd, onVtd, M.zoom_apply, h1]
      exact ⟨_, rfl, { (this ▸ f9 : OutOk q.out) with vtd := h2 }⟩
    obtain ⟨o, hw1, hw2⟩ := hw
    rw [hw1, Res.andThen_ok]
    refine bind_get ?_
    obtain ⟨rfl, n1, n2, he⟩ | ⟨e, rfl, hu⟩ := hd
    · by_cases hwin : q.cfg.docOffset ≤ q.cfg.endOffset
      · have hi : Inv q.cfg .docStart { q with out := o } := by
          have := h.inv hwin he
          exact { this with base := this.base.ofOut hw2 }
        refine mainLoop_ends hg _ hi ?_
        have := hi.base.off0; have := hi.base.off1
        simp only [loopFuel] at *; omega
      · have : nextChar { q with out := o } = .err (newEOFError XmlIncomplete) { q with out := o } := by
          simp only [nextChar, getChar, onRd, M.bind_apply, M.zoom_apply]
          rw [rdGetChar_eq _ (by rw [f2]) (by rw [f2]; exact h.start) (by rw [f2]; exact h.end1), dif_neg]
          · rfl
          · rw [f2]; show ¬ (q.cfg.docOffset < q.cfg.endOffset); omega
        have hm : ∀ fuel, mainLoop (fuel + 1) .docStart { q with out := o } =
            .err (newEOFError XmlIncomplete) { q with out := o } := by
          intro fuel
          simp only [mainLoop, M.bind_apply, M.catchErr_apply, step, processDocStart, this, Res.andThen_err,
            Res.handle_err, onStepErr]
          rfl
        simp only [loopFuel]
        rw [hm]
        trivial
    · obtain ⟨e', p', h1, h2⟩ := utf16_err (c := p.cfg) (p := { p with enc := e, out := o })
        (p.cfg.xmlDoc.length + 2) (by omega) rfl f2 h.start h.end1 (by exact hu)
      simp only [loopFuel]
      rw [h1]
      trivial

end NsTotal
end Parser
end GoVtd
