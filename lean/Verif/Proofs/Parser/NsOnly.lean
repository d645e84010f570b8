import Verif.Proofs.Parser.Frame
import Verif.Proofs.Total

/-!
# Namespace awareness only restricts

`NsRel s t`: `s` is a state of a namespace-aware parse and `t` the same state of a parse that is not. What
the bookkeeping does to `s` alone keeps the relation, except that resolving `&a...` in a namespace name reads
a character from the reader (`getCharResolved`). `Quiet` says that a document has no place where that
happens in a parse that succeeds.
-/

namespace GoVtd
namespace Parser
namespace Two
open Paged

/-- The document does not contain a quote followed by `&a`, nor `&ap;`, nor `&aos;`. -/
structure Quiet (doc : List UInt8) : Prop where
  value : ∀ i : Nat, (doc[i]? = some (ch% '"') ∨ doc[i]? = some (ch% '\'')) → doc[i + 1]? = some (ch% '&') →
    doc[i + 2]? ≠ some (ch% 'a')
  ap : ∀ i : Nat, doc[i]? = some (ch% '&') → doc[i + 1]? = some (ch% 'a') → doc[i + 2]? = some (ch% 'p') →
    doc[i + 3]? ≠ some (ch% ';')
  aos : ∀ i : Nat, doc[i]? = some (ch% '&') → doc[i + 1]? = some (ch% 'a') → doc[i + 2]? = some (ch% 'o') →
    doc[i + 3]? = some (ch% 's') → doc[i + 4]? ≠ some (ch% ';')

/-- The parser that is not namespace aware, with some namespace bookkeeping. -/
def unaware (s : Parser) (ns : ParserNs) (count : Int) (names : List (BitVec 64)) (urls : List Int) (isXml : Bool)
    (element : BitVec 64) (fuel : Nat) : Parser :=
  { nsPut s ns count names urls isXml element with cfg := { s.cfg with nsAware := false, matchFuel := fuel } }

structure NsRel (s t : Parser) : Prop where
  eq : ∃ ns count names urls isXml element fuel, t = unaware s ns count names urls isXml element fuel
  enc : s.enc = stdEnc
  doc : s.rd.xmlDoc = s.cfg.xmlDoc
  lists : NsLists s
  quiet : Quiet s.cfg.xmlDoc
  len : s.cfg.xmlDoc.length < 2 ^ 31

theorem NsRel.ns {s s' t : Parser} (h : NsRel s t) (hf : NsF s s') : NsRel s' t := by
  obtain ⟨⟨ns', v1, v2, v3, v4, v5, rfl⟩, hl⟩ := hf
  obtain ⟨⟨ns, w1, w2, w3, w4, w5, w6, rfl⟩, h2, h3, h4, h5, h6⟩ := h
  exact ⟨⟨ns, w1, w2, w3, w4, w5, w6, rfl⟩, h2, h3, hl h4, h5, h6⟩

/-- A computation on the reader that does not replace the document. -/
def RdKeep {α : Type} (m : M Reader α) : Prop :=
  ∀ r, match m r with
    | .ok _ r' => r'.xmlDoc = r.xmlDoc
    | .err _ r' => r'.xmlDoc = r.xmlDoc
    | _ => True

theorem RdKeep.bind {α β : Type} {m : M Reader α} {k : α → M Reader β} (hm : RdKeep m) (hk : ∀ a, RdKeep (k a)) :
    RdKeep (m >>= k) := by
  intro r
  have h1 := hm r
  rw [M.bind_apply]
  cases hr : m r with
  | ok a r' =>
    rw [hr] at h1
    have h2 := hk a r'
    rw [Res.andThen_ok]
    cases hr2 : k a r' with
    | ok b s'' => rw [hr2] at h2; exact h2.trans h1
    | err b s'' => rw [hr2] at h2; exact h2.trans h1
    | panic => trivial
    | diverge => trivial
  | err e s' => rw [hr] at h1; exact h1
  | panic => trivial
  | diverge => trivial
theorem RdKeep.pure {α : Type} (a : α) : RdKeep (Pure.pure a) := fun _ => rfl
theorem RdKeep.raise {α : Type} (e : GoErr) : RdKeep (M.raise e : M Reader α) := fun _ => rfl
theorem RdKeep.get : RdKeep M.get := fun _ => rfl
theorem RdKeep.modify {g : Reader → Reader} (h : ∀ r, (g r).xmlDoc = r.xmlDoc) : RdKeep (M.modify g) := h
theorem RdKeep.ite {α : Type} {c : Prop} [Decidable c] {a b : M Reader α} (ha : RdKeep a) (hb : RdKeep b) :
    RdKeep (if c then a else b) := by
  split
  · exact ha
  · exact hb
theorem RdKeep.index {α : Type} (xs : List α) (i : Int) : RdKeep (M.index xs i) := by
  intro s
  by_cases h' : 0 ≤ i ∧ i.toNat < xs.length
  · rw [M.index_of_lt xs i s h'.1 h'.2]
  · rw [M.index_panic xs i s (by omega)]; trivial

theorem rdGetChar_keep : RdKeep Reader.getChar := by
  unfold Reader.getChar
  refine .bind .get fun _ => .ite (.raise _) (.bind (.index _ _) fun _ => .bind (.modify fun _ => rfl) fun _ =>
    .ite (.pure _) (.raise _))
theorem rdSkipChar_keep (c : Nat) : RdKeep (Reader.skipChar c) := by
  unfold Reader.skipChar
  refine .bind .get fun _ => .bind (.index _ _) fun _ => .ite (.bind (.modify fun _ => rfl) fun _ => .pure _) (.pure _)
theorem rdSkipCharSeq_keep (l : List Nat) : RdKeep (Reader.skipCharSeq l) := by
  induction l with
  | nil => exact .pure _
  | cons c l ih => unfold Reader.skipCharSeq; exact .bind (rdSkipChar_keep c) fun _ => .ite ih (.pure _)

theorem onRd_ns {α : Type} {m : M Reader α} (hm : RdKeep m) : Sim NsRel False True (onRd m) (onRd m) := by
  intro s t h
  have h1 := hm s.rd
  obtain ⟨⟨ns, w1, w2, w3, w4, w5, w6, rfl⟩, h2, h3, h4, h5, h6⟩ := h
  simp only [onRd, M.zoom_apply]
  have e : (unaware s ns w1 w2 w3 w4 w5 w6).rd = s.rd := rfl
  rw [e]
  cases hr : m s.rd with
  | ok a r => rw [hr] at h1; exact ⟨_, rfl, ⟨⟨ns, w1, w2, w3, w4, w5, w6, rfl⟩, h2, h1.trans h3, h4, h5, h6⟩⟩
  | err e r => rw [hr] at h1; exact .inr ⟨_, rfl, ⟨⟨ns, w1, w2, w3, w4, w5, w6, rfl⟩, h2, h1.trans h3, h4, h5, h6⟩⟩
  | panic => exact .inl trivial
  | diverge => trivial

theorem nsRel_nice : Nice NsRel True where
  same := by
    rintro s t ⟨⟨ns, w1, w2, w3, w4, w5, w6, rfl⟩, h2, h3, h4, h5, h6⟩
    constructor <;> first | rfl | exact Nat.le_refl _ | (simp only [encodingFixed, unaware, nsPut, h2]; rfl)
  put := by
    rintro s t ⟨⟨ns, w1, w2, w3, w4, w5, w6, rfl⟩, h2, h3, h4, h5, h6⟩
    intros
    exact ⟨⟨ns, w1, w2, w3, w4, w5, w6, rfl⟩, h2, h3, h4, h5, h6⟩
  seek := by
    rintro s t ⟨⟨ns, w1, w2, w3, w4, w5, w6, rfl⟩, h2, h3, h4, h5, h6⟩ o
    exact ⟨⟨ns, w1, w2, w3, w4, w5, w6, rfl⟩, h2, h3, h4, h5, h6⟩
  xml := by
    rintro s t ⟨⟨ns, w1, w2, w3, w4, w5, w6, rfl⟩, h2, h3, h4, h5, h6⟩
    exact ⟨⟨ns, w1, w2, w3, false, w5, w6, rfl⟩, h2, h3, h4, h5, h6⟩
  docByte i := by
    rintro s t h
    obtain ⟨ns, w1, w2, w3, w4, w5, w6, rfl⟩ := h.eq
    exact Sim.index _ _ _ _ h
  getChar := onRd_ns rdGetChar_keep
  skipChar c := onRd_ns (rdSkipChar_keep c)
  skipCharSeq l := onRd_ns (rdSkipCharSeq_keep l)

/-! ## Reading a character of a namespace name -/

abbrev EqF : Parser → Parser → Prop := fun s s' => s' = s

theorem onRd_eq {α : Type} {m : M Reader α} (h : ∀ r, match m r with
    | .ok _ r' => r' = r
    | .err _ r' => r' = r
    | _ => True) : Fr EqF (onRd m) := by
  intro s
  have h1 := h s.rd
  simp only [onRd, M.zoom_apply]
  cases hr : m s.rd with
  | ok a r => rw [hr] at h1; cases h1; rfl
  | err e r => rw [hr] at h1; cases h1; rfl
  | panic => trivial
  | diverge => trivial

theorem index_eq {α σ : Type} (xs : List α) (i : Int) (s : σ) : (0 ≤ i ∧ ∃ a, xs[i.toNat]? = some a ∧
    (M.index xs i s : Res σ α) = .ok a s) ∨ (M.index xs i s : Res σ α) = .panic := by
  by_cases h' : 0 ≤ i ∧ i.toNat < xs.length
  · exact .inl ⟨h'.1, _, List.getElem?_eq_getElem h'.2, M.index_of_lt xs i s h'.1 h'.2⟩
  · exact .inr (M.index_panic xs i s (by omega))

theorem getCharAt_eq (o : Int) : Fr EqF (onRd (Reader.getCharAt o)) := by
  refine onRd_eq fun r => ?_
  simp only [Reader.getCharAt, M.bind_apply, M.get_apply, Res.andThen_ok]
  obtain ⟨-, a, -, h⟩ | h := index_eq r.xmlDoc o r <;> rw [h]
  · rfl
  · trivial

/-- A character and the number of its bytes. -/
theorem getLongCharAt_ok {o : Int} {s s' : Parser} {v : BitVec 64} (h : onRd (Reader.getLongCharAt o) s = .ok v s') :
    s' = s ∧ 0 ≤ o ∧ ∃ b, s.rd.xmlDoc[o.toNat]? = some b ∧ v.toNat / 2 ^ 32 ≠ 0 ∧
      (v.setWidth 32 = (ch% '&' : BitVec 32) ↔ b = ch% '&') := by
  simp only [onRd, M.zoom_apply, Reader.getLongCharAt, M.bind_apply, M.get_apply, Res.andThen_ok] at h
  obtain ⟨h0, a, ha, h1⟩ | h1 := index_eq s.rd.xmlDoc o s.rd
  · rw [h1] at h
    simp only [Res.andThen_ok, M.ite_apply] at h
    have key : ∀ b : UInt8, ((1#64 <<< 32) ||| BitVec.ofNat 64 b.toNat).toNat / 2 ^ 32 ≠ 0 ∧
      (((1#64 <<< 32) ||| BitVec.ofNat 64 b.toNat).setWidth 32 = (ch% '&' : BitVec 32) ↔ b = ch% '&') := by
      intro b
      have hb : b.toNat < 256 := b.toNat_lt
      have e : ((1#64 <<< 32) ||| BitVec.ofNat 64 b.toNat).toNat = 2 ^ 32 * 1 + b.toNat := by
        rw [Nat.two_pow_add_eq_or_of_lt (by omega), BitVec.toNat_or, BitVec.toNat_ofNat,
          Nat.mod_eq_of_lt (by omega)]
        rfl
      refine ⟨by omega, fun h => ?_, fun h => by subst h; decide⟩
      have h2 := congrArg BitVec.toNat h
      rw [BitVec.toNat_setWidth, e] at h2
      refine UInt8.toNat_inj.mp ?_
      have h3 : b.toNat = 38 := by
        have : (38 : BitVec 32).toNat = 38 := rfl
        omega
      rw [h3]; rfl
    have close : ∀ w : BitVec 64, Res.zoom (fun r (p : Parser) => { p with rd := r }) s (.ok w s.rd) = .ok v s' →
        s' = s ∧ v = w := by
      intro w hw
      cases hw
      exact ⟨rfl, rfl⟩
    by_cases hc : a = ch% '\r'
    · rw [if_pos hc] at h
      obtain ⟨h0', a', ha', h1'⟩ | h1' := index_eq s.rd.xmlDoc (o + 1) s.rd
      · simp only [M.bind_apply, h1', Res.andThen_ok, M.ite_apply] at h
        by_cases hn : a' = ch% '\n'
        · rw [if_pos hn] at h
          obtain ⟨rfl, rfl⟩ := close _ h
          exact ⟨rfl, h0, a, ha, by decide, fun h => absurd h (by decide), fun h => absurd (hc.symm.trans h) (by decide)⟩
        · rw [if_neg hn] at h
          obtain ⟨rfl, rfl⟩ := close _ h
          exact ⟨rfl, h0, a, ha, key a⟩
      · simp only [M.bind_apply, h1'] at h; cases h
    · rw [if_neg hc] at h
      obtain ⟨rfl, rfl⟩ := close _ h
      exact ⟨rfl, h0, a, ha, key a⟩
  · rw [h1] at h; cases h

theorem getCharUnit_eq (o : Int) : Fr EqF (getCharUnit o) := by
  unfold getCharUnit
  have := getCharAt_eq o
  fr eq_pre
theorem unitSeq_eq (inc : Int) (l : List Int) (o : Int) : Fr EqF (unitSeq inc l o) := by
  induction l generalizing o with
  | nil => unfold unitSeq; fr eq_pre
  | cons c l ih =>
    unfold unitSeq
    have := ih (o + inc)
    have := getCharUnit_eq o
    fr eq_pre
theorem resolveHexLoop_eq (n : Nat) (o v i : Int) : Fr EqF (resolveHexLoop n o v i) := by
  induction n generalizing o v i with
  | zero => unfold resolveHexLoop; fr eq_pre
  | succ n ih =>
    unfold resolveHexLoop
    refine Fr.bind eq_pre (Fr.get eq_pre) fun p => Fr.bind eq_pre (getCharUnit_eq _) fun ch => ?_
    split
    · exact ih _ _ _
    · exact Fr.ite (Fr.pure eq_pre _) (ih _ _ _)
theorem resolveDecLoop_eq (n : Nat) (o v i : Int) : Fr EqF (resolveDecLoop n o v i) := by
  induction n generalizing o v i with
  | zero => unfold resolveDecLoop; fr eq_pre
  | succ n ih =>
    unfold resolveDecLoop
    refine Fr.bind eq_pre (Fr.get eq_pre) fun p => Fr.bind eq_pre (getCharUnit_eq _) fun ch => ?_
    exact Fr.ite (ih _ _ _) (Fr.ite (Fr.pure eq_pre _) (ih _ _ _))

/-- With the standard encoding a unit is a byte. -/
theorem getCharUnit_ok {o v : Int} {s s' : Parser} (he : s.enc = stdEnc) (h : getCharUnit o s = .ok v s') :
    s' = s ∧ 0 ≤ o ∧ ∃ b : UInt8, s.cfg.xmlDoc[o.toNat]? = some b ∧ v = b.toNat := by
  simp only [getCharUnit, M.bind_apply, M.get_apply, Res.andThen_ok, M.ite_apply, he] at h
  rw [if_pos (by decide)] at h
  simp only [docByte, M.bind_apply, M.get_apply, Res.andThen_ok] at h
  obtain ⟨h0, b, hb, h1⟩ | h1 := index_eq s.cfg.xmlDoc o s
  · rw [h1] at h
    cases h
    exact ⟨rfl, h0, b, hb, rfl⟩
  · rw [h1] at h; cases h

theorem bind_ok {σ α β : Type} {m : M σ α} {k : α → M σ β} {s s' : σ} {b : β}
    (h : (m >>= k) s = .ok b s') : ∃ a t, m s = .ok a t ∧ k a t = .ok b s' := by
  rw [M.bind_apply] at h
  cases hm : m s with
  | ok a t => rw [hm] at h; exact ⟨a, t, rfl, h⟩
  | err e t => rw [hm] at h; cases h
  | panic => rw [hm] at h; cases h
  | diverge => rw [hm] at h; cases h

theorem resolveHexLoop_inc {n : Nat} {o v i v' i' : Int} {s s' : Parser} (he : s.enc = stdEnc)
    (h : resolveHexLoop n o v i s = .ok (v', i') s') : i < i' ∧ i' ≤ i + n + 1 := by
  induction n generalizing o v i with
  | zero => cases h
  | succ n ih =>
    unfold resolveHexLoop at h
    obtain ⟨p, t, h1, h⟩ := bind_ok h
    cases h1
    have hi : s.enc.increment = 1 := by rw [he]; rfl
    obtain ⟨c, t, h1, h⟩ := bind_ok h
    rw [(getCharUnit_eq _).ok h1] at h
    simp only [hi] at h
    cases hx : hexDigit c.toNat with
    | some d => simp only [hx] at h; have := ih h; omega
    | none =>
      simp only [hx, M.ite_apply] at h
      split at h
      · cases h; omega
      · have := ih h; omega

theorem resolveDecLoop_inc {n : Nat} {o v i v' i' : Int} {s s' : Parser} (he : s.enc = stdEnc)
    (h : resolveDecLoop n o v i s = .ok (v', i') s') : i < i' ∧ i' ≤ i + n + 1 := by
  induction n generalizing o v i with
  | zero => cases h
  | succ n ih =>
    unfold resolveDecLoop at h
    obtain ⟨p, t, h1, h⟩ := bind_ok h
    cases h1
    have hi : s.enc.increment = 1 := by rw [he]; rfl
    obtain ⟨c, t, h1, h⟩ := bind_ok h
    rw [(getCharUnit_eq _).ok h1] at h
    simp only [hi, M.ite_apply] at h
    split at h
    · have := ih h; omega
    · split at h
      · cases h; omega
      · have := ih h; omega

theorem unitSeq_ok {l : List Int} {o : Int} {s s' : Parser} {u : Unit} (he : s.enc = stdEnc) (h : unitSeq 1 l o s = .ok u s')
    (i : Nat) (c : Int) (hi : l[i]? = some c) :
    ∃ b : UInt8, s.cfg.xmlDoc[o.toNat + i]? = some b ∧ (b.toNat : Int) = c := by
  induction l generalizing o i with
  | nil => cases hi
  | cons d l ih =>
    unfold unitSeq at h
    obtain ⟨v, t, h1, h⟩ := bind_ok h
    obtain ⟨rfl, h0, b, hb, rfl⟩ := getCharUnit_ok he h1
    rw [M.ite_apply] at h
    split at h
    · cases h
    · rename_i hd
      cases i with
      | zero =>
        cases hi
        exact ⟨b, hb, by omega⟩
      | succ i =>
        have := ih h i hi
        rwa [show (o + 1).toNat + i = o.toNat + (i + 1) by omega] at this

/-- The state after a character has been read from the reader. -/
def RdF (s s' : Parser) : Prop := s'.cfg = s.cfg ∧ s'.enc = s.enc ∧ s'.rd.xmlDoc = s.rd.xmlDoc

theorem getChar_rd : Fr RdF getChar := by
  have hp : Pre RdF := ⟨fun _ => ⟨rfl, rfl, rfl⟩, fun h h' => ⟨h'.1.trans h.1, h'.2.1.trans h.2.1, h'.2.2.trans h.2.2⟩⟩
  unfold getChar
  refine Fr.bind hp ?_ fun _ => Fr.bind hp (Fr.modify fun _ => ⟨rfl, rfl, rfl⟩) fun _ => Fr.pure hp _
  intro s
  have h1 := rdGetChar_keep s.rd
  simp only [onRd, M.zoom_apply]
  cases hr : Reader.getChar s.rd with
  | ok a r => rw [hr] at h1; exact ⟨rfl, rfl, h1⟩
  | err e r => rw [hr] at h1; exact ⟨rfl, rfl, h1⟩
  | panic => trivial
  | diverge => trivial

theorem byte_of {b : UInt8} {n : Nat} (h : (b.toNat : Int) = n) (hn : n < 256) : b = UInt8.ofNat n := by
  refine UInt8.toNat_inj.mp ?_
  rw [UInt8.toNat_ofNat']
  omega

/-- A successful `resolveUnit`. -/
theorem resolveUnit_ok {o ch val inc : Int} {s s' : Parser} (he : s.enc = stdEnc)
    (hlen : s.cfg.xmlDoc.length < 2 ^ 31) (ho : 0 ≤ o) (h : resolveUnit o ch 2 s = .ok (val, inc) s') :
    0 < inc ∧ inc < 2 ^ 32 ∧ ((s' = s ∧ ch ≠ ch% 'a') ∨ (ch = ch% 'a' ∧ RdF s s' ∧
      ((val = 0 ∧ inc = 2) ∨
        (s.cfg.xmlDoc[o.toNat]? = some (ch% 'p') ∧ s.cfg.xmlDoc[o.toNat + 1]? = some (ch% ';')) ∨
        (s.cfg.xmlDoc[o.toNat]? = some (ch% 'o') ∧ s.cfg.xmlDoc[o.toNat + 1]? = some (ch% 's') ∧
          s.cfg.xmlDoc[o.toNat + 2]? = some (ch% ';'))))) := by
  have hu : (s.enc.encoding < FormatUtf16BE) := by rw [he]; decide
  have hf : (s.loopFuel : Int) < 2 ^ 31 + 2 := by simp only [loopFuel]; omega
  unfold resolveUnit at h
  obtain ⟨p, t, h1, h⟩ := bind_ok h
  cases h1
  simp only [hu, decide_true, if_true] at h
  by_cases c1 : ch = ch% '#'
  · rw [if_pos c1] at h
    obtain ⟨c, t, h1, h⟩ := bind_ok h
    rw [(getCharUnit_eq _).ok h1, M.ite_apply] at h
    split at h
    · have := resolveHexLoop_inc he h
      exact ⟨by omega, by omega, .inl ⟨(resolveHexLoop_eq _ _ _ _).ok h, by rw [c1]; decide⟩⟩
    · have := resolveDecLoop_inc he h
      exact ⟨by omega, by omega, .inl ⟨(resolveDecLoop_eq _ _ _ _).ok h, by rw [c1]; decide⟩⟩
  rw [if_neg c1] at h
  by_cases c2 : ch = ch% 'a'
  · rw [if_pos c2] at h
    obtain ⟨c, t, h1, h⟩ := bind_ok h
    have hF := getChar_rd.ok h1
    have he' : t.enc = stdEnc := hF.2.1.trans he
    simp only [M.ite_apply] at h
    split at h
    · obtain ⟨u, t', h2, h⟩ := bind_ok h
      have := (unitSeq_eq _ _ _).ok h2
      cases h; subst this
      refine ⟨by decide, by decide, .inr ⟨c2, hF, .inr (.inl ?_)⟩⟩
      obtain ⟨b0, hb0, e0⟩ := unitSeq_ok he' h2 0 _ rfl
      obtain ⟨b1, hb1, e1⟩ := unitSeq_ok he' h2 1 _ rfl
      rw [hF.1] at hb0 hb1
      obtain rfl := byte_of e0 (by decide)
      obtain rfl := byte_of e1 (by decide)
      exact ⟨hb0, hb1⟩
    · split at h
      · obtain ⟨u, t', h2, h⟩ := bind_ok h
        have := (unitSeq_eq _ _ _).ok h2
        cases h; subst this
        refine ⟨by decide, by decide, .inr ⟨c2, hF, .inr (.inr ?_)⟩⟩
        obtain ⟨b0, hb0, e0⟩ := unitSeq_ok he' h2 0 _ rfl
        obtain ⟨b1, hb1, e1⟩ := unitSeq_ok he' h2 1 _ rfl
        obtain ⟨b2, hb2, e2⟩ := unitSeq_ok he' h2 2 _ rfl
        rw [hF.1] at hb0 hb1 hb2
        obtain rfl := byte_of e0 (by decide)
        obtain rfl := byte_of e1 (by decide)
        obtain rfl := byte_of e2 (by decide)
        exact ⟨hb0, hb1, hb2⟩
      · cases h
        exact ⟨by decide, by decide, .inr ⟨c2, hF, .inl ⟨rfl, rfl⟩⟩⟩
  rw [if_neg c2] at h
  by_cases c3 : ch = ch% 'q'
  · rw [if_pos c3] at h
    obtain ⟨u, t', h2, h⟩ := bind_ok h
    have := (unitSeq_eq _ _ _).ok h2
    cases h; subst this
    exact ⟨by decide, by decide, .inl ⟨rfl, c2⟩⟩
  rw [if_neg c3] at h
  by_cases c4 : ch = ch% 'g' ∨ ch = ch% 'l'
  · rw [if_pos c4] at h
    obtain ⟨u, t', h2, h⟩ := bind_ok h
    have := (unitSeq_eq _ _ _).ok h2
    cases h; subst this
    exact ⟨by decide, by decide, .inl ⟨rfl, c2⟩⟩
  rw [if_neg c4] at h
  cases h
  exact ⟨by decide, by decide, .inl ⟨rfl, c2⟩⟩

/-- `&a` at the offset `o`. -/
def AmpA (doc : List UInt8) (o : Int) : Prop :=
  doc[o.toNat]? = some (ch% '&') ∧ doc[o.toNat + 1]? = some (ch% 'a')

/-- Everything about a successful `getCharResolved`: the reader moves only for `&a`; then the value is that of
an unknown character, unless the text is `&ap;` or `&aos;`. -/
theorem getCharResolved_ok {o : Int} {v : BitVec 64} {s s' : Parser} (he : s.enc = stdEnc)
    (hd : s.rd.xmlDoc = s.cfg.xmlDoc) (hlen : s.cfg.xmlDoc.length < 2 ^ 31) (h : getCharResolved o s = .ok v s') :
    v.toNat / 2 ^ 32 ≠ 0 ∧
    ((s' = s ∧ ¬ AmpA s.cfg.xmlDoc o) ∨ (AmpA s.cfg.xmlDoc o ∧ RdF s s' ∧
      (v = BitVec.ofInt 64 0 ||| (BitVec.ofInt 64 2 <<< 32) ∨
        (s.cfg.xmlDoc[o.toNat + 2]? = some (ch% 'p') ∧ s.cfg.xmlDoc[o.toNat + 3]? = some (ch% ';')) ∨
        (s.cfg.xmlDoc[o.toNat + 2]? = some (ch% 'o') ∧ s.cfg.xmlDoc[o.toNat + 3]? = some (ch% 's') ∧
          s.cfg.xmlDoc[o.toNat + 4]? = some (ch% ';'))))) := by
  have hi : s.enc.increment = 1 := by rw [he]; rfl
  unfold getCharResolved at h
  obtain ⟨p, t, h1, h⟩ := bind_ok h
  cases h1
  obtain ⟨c64, t, h1, h⟩ := bind_ok h
  obtain ⟨rfl, h0, b, hb, hv, hamp⟩ := getLongCharAt_ok h1
  rw [M.ite_apply] at h
  split at h
  · rename_i hc
    cases h
    refine ⟨hv, .inl ⟨rfl, fun hA => hc (hamp.mpr ?_)⟩⟩
    rw [hd, hA.1] at hb
    exact (Option.some.inj hb).symm
  rename_i hc
  have hc := hamp.mp (by simpa using hc)
  subst hc
  rw [hd] at hb
  obtain ⟨ch, t, h1, h⟩ := bind_ok h
  simp only [hi] at h1 h
  obtain ⟨rfl, h0', b', hb', rfl⟩ := getCharUnit_ok he h1
  obtain ⟨⟨val, inc⟩, t, h1, h⟩ := bind_ok h
  cases h
  have hbig : ∀ {x : Int}, 0 < x → x < 2 ^ 32 → ∀ y : Int,
      (BitVec.ofInt 64 y ||| (BitVec.ofInt 64 x <<< 32)).toNat / 2 ^ 32 ≠ 0 := by
    intro x hx hx' y
    obtain ⟨n, rfl⟩ : ∃ n : Nat, x = n := ⟨x.toNat, by omega⟩
    have e : ((BitVec.ofInt 64 (n : Int)) <<< 32).toNat = n * 2 ^ 32 := by
      rw [BitVec.toNat_shiftLeft, BitVec.ofInt_natCast, BitVec.toNat_ofNat, Nat.mod_eq_of_lt (a := n) (by omega),
        Nat.shiftLeft_eq, Nat.mod_eq_of_lt (by omega)]
    have := @Nat.right_le_or (BitVec.ofInt 64 y).toNat (n * 2 ^ 32)
    rw [BitVec.toNat_or, e]
    omega
  obtain ⟨hp, hq, hr⟩ := resolveUnit_ok he hlen (by omega) h1
  refine ⟨hbig hp hq _, ?_⟩
  rcases hr with ⟨rfl, hc⟩ | ⟨hc, hF, hr⟩
  · refine .inl ⟨rfl, fun hA => hc ?_⟩
    have := hA.2
    rw [show o.toNat + 1 = (o + 1).toNat by omega, hb'] at this
    cases this
    rfl
  refine .inr ⟨⟨hb, ?_⟩, hF, ?_⟩
  · have : b' = ch% 'a' := UInt8.toNat_inj.mp (by simpa using (Int.ofNat.inj hc))
    rw [← this, ← hb']
    congr 1; omega
  · rw [show (o + 1 + 1).toNat = o.toNat + 2 by omega] at hr
    rcases hr with ⟨rfl, rfl⟩ | hr | hr
    · exact .inl rfl
    · exact .inr (.inl hr)
    · exact .inr (.inr hr)

/-- What of `NsRel s t` concerns `s`. -/
structure Base (s : Parser) : Prop where
  enc : s.enc = stdEnc
  doc : s.rd.xmlDoc = s.cfg.xmlDoc
  quiet : Quiet s.cfg.xmlDoc
  len : s.cfg.xmlDoc.length < 2 ^ 31

theorem NsRel.base {s t : Parser} (h : NsRel s t) : Base s := ⟨h.enc, h.doc, h.quiet, h.len⟩
theorem NsRel.aware {s t : Parser} (h : NsRel s t) : t.cfg.nsAware = false := by
  obtain ⟨ns, w1, w2, w3, w4, w5, w6, rfl⟩ := h.eq; rfl

theorem Base.rd {s s' : Parser} (h : Base s) (hF : RdF s s') : Base s' :=
  ⟨hF.2.1.trans h.enc, hF.2.2.trans (h.doc.trans (congrArg (·.xmlDoc) hF.1.symm)), by rw [hF.1]; exact h.quiet,
    by rw [hF.1]; exact h.len⟩

/-- In a quiet document. -/
theorem getCharResolved_quiet {o : Int} {v : BitVec 64} {s s' : Parser} (hs : Base s) (h : getCharResolved o s = .ok v s') :
    v.toNat / 2 ^ 32 ≠ 0 ∧ ((s' = s ∧ ¬ AmpA s.cfg.xmlDoc o) ∨ (AmpA s.cfg.xmlDoc o ∧ RdF s s' ∧
      v = BitVec.ofInt 64 0 ||| (BitVec.ofInt 64 2 <<< 32))) := by
  obtain ⟨h1, h2⟩ := getCharResolved_ok hs.enc hs.doc hs.len h
  refine ⟨h1, h2.imp id fun ⟨ha, hF, hv⟩ => ⟨ha, hF, ?_⟩⟩
  rcases hv with hv | ⟨a, b⟩ | ⟨a, b, c⟩
  · exact hv
  · exact absurd b (hs.quiet.ap _ ha.1 ha.2 a)
  · exact absurd c (hs.quiet.aos _ ha.1 ha.2 a b)

theorem urlLoop_ne {g : Int} {u : Nat} {url : List Nat} {r : Option Int} {o : Int} {s t' : Parser} (hs : Base s)
    (hA : ¬ AmpA s.cfg.xmlDoc o) (hu : u < 2 ^ 32) (ho : o < g) (h1 : urlLoop g (u :: url) o s = .ok r t') :
    r = none ∧ t' = s := by
  rw [urlLoop, if_pos ho] at h1
  obtain ⟨v, t'', h2, h3⟩ := bind_ok h1
  obtain ⟨hv, ⟨rfl, -⟩ | ⟨ha, -⟩⟩ := getCharResolved_quiet hs h2
  · rw [M.ite_apply] at h3
    split at h3
    · cases h3; exact ⟨rfl, rfl⟩
    · rename_i hne
      refine absurd ?_ hv
      rw [← Decidable.not_not.mp hne, BitVec.toNat_ofNat, Nat.mod_eq_of_lt (by omega)]
      omega
  · exact absurd ha hA

theorem identifyNsUrl_ok {t : NsUrlType} {s s' : Parser} (hs : Base s) (hA : ¬ AmpA s.cfg.xmlDoc s.lastOffset)
    (h : identifyNsUrl s = .ok t s') : s' = s ∧ t = .default := by
  unfold identifyNsUrl at h
  obtain ⟨p, t', h1, h⟩ := bind_ok h
  cases h1
  simp only [M.ite_apply] at h
  split at h
  · cases h; exact ⟨rfl, rfl⟩
  rename_i hc
  obtain ⟨r, t', h1, h⟩ := bind_ok h
  have key := urlLoop_ne (u := ch% 'h') hs hA (by decide) (by omega) h1
  obtain ⟨rfl, rfl⟩ := key
  cases h
  exact ⟨rfl, rfl⟩

/-- `matchUrl` does not come back when it compares a URL with itself. -/
theorem matchUrlLoop_same {n : Nat} {a : Int} {s s' : Parser} {b : Bool} (hs : Base s)
    (h : matchUrlLoop n a a s = .ok b s') : False := by
  induction n generalizing a s with
  | zero => cases h
  | succ n ih =>
    unfold matchUrlLoop at h
    obtain ⟨v, t, h1, h⟩ := bind_ok h
    obtain ⟨w, t', h2, h⟩ := bind_ok h
    have key : v = w ∧ Base t' := by
      obtain ⟨hv, ⟨e, hA⟩ | ⟨ha, hF, e⟩⟩ := getCharResolved_quiet hs h1
      · subst e
        have := h1.symm.trans h2
        cases this
        exact ⟨rfl, hs⟩
      · have hs' := hs.rd hF
        obtain ⟨hv', ⟨-, hA⟩ | ⟨-, hF', e'⟩⟩ := getCharResolved_quiet hs' h2
        · rw [hF.1] at hA; exact absurd ha hA
        · exact ⟨e.trans e'.symm, hs'.rd hF'⟩
    obtain ⟨rfl, hs'⟩ := key
    rw [M.ite_apply, if_neg (by simp)] at h
    exact ih hs' h

theorem parseErr_ok {α : Type} {msg : String} {s s' : Parser} {a : α} (h : (parseErr msg : M Parser α) s = .ok a s') :
    False := by
  obtain ⟨_, _, _, h⟩ := bind_ok h
  cases h
theorem parseErrAt_ok {α : Type} {msg : String} {o : Int} {s s' : Parser} {a : α}
    (h : (parseErrAt msg o : M Parser α) s = .ok a s') : False := by
  obtain ⟨_, _, _, h⟩ := bind_ok h
  cases h

theorem onNs2_read {α : Type} {m : M FastLongBuffer α} (h : ∀ b a b', m b = .ok a b' → b' = b) {s s' : Parser} {a : α}
    (hm : onNs2 m s = .ok a s') : s' = s := by
  simp only [onNs2, M.zoom_apply] at hm
  cases hr : m s.ns.nsBuffer2 with
  | ok a r => rw [hr] at hm; cases hm; have := h _ _ _ hr; subst this; rfl
  | err e r => rw [hr] at hm; cases hm
  | panic => rw [hr] at hm; cases hm
  | diverge => rw [hr] at hm; cases hm

theorem index_ok {σ α : Type} {xs : List α} {i : Int} {a : α} {s s' : σ} (h : M.index xs i s = .ok a s') : s' = s := by
  obtain ⟨-, b, -, h'⟩ | h' := index_eq xs i s <;> rw [h'] at h <;> cases h
  rfl

theorem longAt_read {i : Int} {b b' : FastLongBuffer} {v : BitVec 64} (h : Paged.longAt i b = .ok v b') : b' = b := by
  unfold Paged.longAt Paged.atWith at h
  obtain ⟨p, t, h1, h⟩ := bind_ok h
  cases h1
  obtain ⟨page, t, h1, h⟩ := bind_ok h
  have e : t = b := by
    rw [M.catchErr_apply] at h1
    cases hr : Paged.get (b.pageNum i) b with
    | ok a r =>
      rw [hr] at h1
      cases h1
      unfold Paged.get at hr
      obtain ⟨p, t', h2, hr⟩ := bind_ok hr
      cases h2
      rw [M.ite_apply] at hr
      split at hr
      · cases hr
      · exact index_ok hr
    | err e r => rw [hr] at h1; cases h1
    | panic => rw [hr] at h1; cases h1
    | diverge => rw [hr] at h1; cases h1
  subst e
  rw [M.ite_apply] at h
  split at h
  · cases h
  · exact index_ok h
theorem lower32At_read {i : Int} {s s' : Parser} {v : BitVec 32} (h : onNs2 (Paged.lower32At i) s = .ok v s') : s' = s := by
  refine onNs2_read (fun b a b' h => ?_) h
  simp only [Paged.lower32At, M.bind_apply, M.catchErr_apply] at h
  cases hr : Paged.longAt i b with
  | ok a r => rw [hr] at h; cases h; exact longAt_read hr
  | err e r => rw [hr] at h; cases h
  | panic => rw [hr] at h; cases h
  | diverge => rw [hr] at h; cases h
theorem upper32At_read {i : Int} {s s' : Parser} {v : BitVec 32} (h : onNs2 (Paged.upper32At i) s = .ok v s') : s' = s := by
  refine onNs2_read (fun b a b' h => ?_) h
  simp only [Paged.upper32At, M.bind_apply, M.catchErr_apply] at h
  cases hr : Paged.longAt i b with
  | ok a r => rw [hr] at h; cases h; exact longAt_read hr
  | err e r => rw [hr] at h; cases h
  | panic => rw [hr] at h; cases h
  | diverge => rw [hr] at h; cases h

/-- The index of a namespace is always read from the 256 zeros. -/
theorem url_zero {s s1 s2 : Parser} (hl : NsLists s) {j u : Int} {e : BitVec 64} {t t' : Parser}
    (h1 : M.index s.at_.prefixedAttrNameSlice j t = .ok e s1) (h2 : M.index s.at_.prefixUrlSlice j t' = .ok u s2) : u = 0 := by
  obtain ⟨hn, l, hu⟩ := hl
  obtain ⟨h0, a, ha, -⟩ | h := index_eq s.at_.prefixedAttrNameSlice j t
  · have hj := (List.getElem?_eq_some_iff.mp ha).1
    obtain ⟨-, b, hb, h⟩ | h := index_eq s.at_.prefixUrlSlice j t'
    · rw [h] at h2
      cases h2
      rw [hu, List.getElem?_append_left (by rw [List.length_replicate]; omega), List.getElem?_replicate] at hb
      rw [if_pos (by omega)] at hb
      exact (Option.some.inj hb).symm
    · rw [h] at h2; cases h2
  · rw [h] at h1; cases h1

theorem uniqueQualInner_ok {postLen offset : Int} {ul uo : BitVec 32} {n : Nat} {j : Int} {s s' : Parser} {x : Unit}
    (hs : Base s) (hl : NsLists s) (h1 : onNs2 (Paged.lower32At 0) s = .ok ul s) (h2 : onNs2 (Paged.upper32At 0) s = .ok uo s)
    (h : uniqueQualInner postLen offset uo.toInt ul.toInt n j s = .ok x s') : s' = s := by
  induction n generalizing j s with
  | zero => cases h; rfl
  | succ n ih =>
    unfold uniqueQualInner at h
    obtain ⟨p, t, h3, h⟩ := bind_ok h
    cases h3
    obtain ⟨e, t, he, h⟩ := bind_ok h
    obtain rfl := index_ok he
    simp only [M.ite_apply] at h
    have rest : ∀ b : Bool, (if b = true then do
          let u ← M.index t.at_.prefixUrlSlice j
          let urlLen2 ← onNs2 (lower32At u)
          let urlOffset2 ← onNs2 (upper32At u)
          let m ← matchUrl uo.toInt ul.toInt urlOffset2.toInt urlLen2.toInt
          if m = true then parseErrAt "qualified attribute names collide" (high32 e + attrPreLen e + t.enc.increment)
            else uniqueQualInner postLen offset uo.toInt ul.toInt n (j + 1)
        else uniqueQualInner postLen offset uo.toInt ul.toInt n (j + 1)) t = .ok x s' → s' = t := by
      intro b h
      rw [M.ite_apply] at h
      split at h
      · obtain ⟨u, t1, hu, h⟩ := bind_ok h
        obtain rfl := url_zero hl he hu
        have e1 := index_ok hu
        subst e1
        obtain ⟨l2, t2, h4, h⟩ := bind_ok h
        have e1 := lower32At_read h4
        subst e1
        obtain ⟨o2, t3, h5, h⟩ := bind_ok h
        have e1 := upper32At_read h5
        subst e1
        obtain rfl : ul = l2 := by have := h1.symm.trans h4; cases this; rfl
        obtain rfl : uo = o2 := by have := h2.symm.trans h5; cases this; rfl
        obtain ⟨m, t4, h6, h⟩ := bind_ok h
        have : m = decide (ul.toInt = 0) ∧ t4 = t3 := by
          unfold matchUrl at h6
          obtain ⟨p, _, h7, h6⟩ := bind_ok h6
          cases h7
          rw [M.ite_apply] at h6
          split at h6
          · exact (matchUrlLoop_same hs h6).elim
          · cases h6
            simp
        obtain ⟨rfl, rfl⟩ := this
        rw [M.ite_apply] at h
        split at h
        · exact (parseErrAt_ok h).elim
        · exact ih hs hl h1 h2 h
      · exact ih hs hl h1 h2 h
    split at h
    · split at h
      · obtain ⟨b, t', h3, h⟩ := bind_ok h
        cases h3
        exact rest _ h
      · obtain ⟨b, t', h3, h⟩ := bind_ok h
        rw [(sameBytes_fr eq_pre _ _ _).ok h3] at h
        exact rest _ h
    · exact ih hs hl h1 h2 h

theorem uniqueQualOuter_ok {n : Nat} {j : Int} {s s' : Parser} {x : Unit} (hs : Base s) (hl : NsLists s)
    (h : uniqueQualOuter n j s = .ok x s') : s' = s := by
  induction n generalizing j s with
  | zero => cases h; rfl
  | succ n ih =>
    unfold uniqueQualOuter at h
    obtain ⟨p, t, h3, h⟩ := bind_ok h
    cases h3
    obtain ⟨e, t, he, h⟩ := bind_ok h
    obtain rfl := index_ok he
    obtain ⟨u, t', hu, h⟩ := bind_ok h
    obtain rfl := url_zero hl he hu
    obtain rfl := index_ok hu
    obtain ⟨l2, t, h4, h⟩ := bind_ok h
    obtain rfl := lower32At_read h4
    obtain ⟨o2, t', h5, h⟩ := bind_ok h
    obtain rfl := upper32At_read h5
    obtain ⟨_, t, h6, h7⟩ := bind_ok h
    rw [uniqueQualInner_ok hs hl h4 h5 h6] at h7
    exact ih hs hl h7

theorem checkQual_ok {s s' : Parser} {x : Unit} (hs : Base s) (hl : NsLists s)
    (h : checkQualifiedAttributeUniqueness s = .ok x s') : s' = s := by
  obtain ⟨p, t, h3, h⟩ := bind_ok h
  cases h3
  exact uniqueQualOuter_ok hs hl h

theorem Base.ns {s s' : Parser} (h : Base s) (hf : NsF s s') : Base s' := by
  obtain ⟨⟨ns', v1, v2, v3, v4, v5, rfl⟩, -⟩ := hf
  exact ⟨h.enc, h.doc, h.quiet, h.len⟩

/-! ## The simulation -/

theorem sim_ok {α : Type} {R : Parser → Parser → Prop} {m m' : M Parser α} (h : ∀ s t, R s t → ∀ a s', m s = .ok a s' →
    ∃ t', m' t = .ok a t' ∧ R s' t') : Sim R True True m m' := by
  intro s t hr
  cases hm : m s with
  | ok a s' => exact h s t hr a s' hm
  | err e s' => exact .inl trivial
  | panic => exact .inl trivial
  | diverge => trivial

/-- A block of the left parser alone. -/
theorem sim_left {m m' : M Parser Unit} (hm : Fr NsF m) (h : ∀ s t, NsRel s t → m' t = .ok () t) : Sim NsRel True True m m' :=
  sim_ok fun s t hr _ _ e => ⟨t, h s t hr, hr.ns (hm.ok e)⟩

theorem decl_ns : Sim NsRel True True attrNsDecl attrNsDecl := by
  refine sim_left attrNsDecl_fr fun s t h => ?_
  simp only [attrNsDecl, M.bind_apply, M.get_apply, Res.andThen_ok, h.aware, M.ite_apply]
  rw [if_neg (by simp)]
  rfl
theorem push_ns : Sim NsRel True True pushPrefixedAttr pushPrefixedAttr := by
  refine sim_left pushPrefixedAttr_fr fun s t h => ?_
  simp only [pushPrefixedAttr, M.bind_apply, M.get_apply, Res.andThen_ok, h.aware, M.ite_apply]
  rw [if_neg (by simp)]
  rfl

theorem attrValQualify_fr {s s' : Parser} {x : Unit} (hs : Base s) (hl : NsLists s) (h : attrValQualify s = .ok x s') : NsF s s' := by
  unfold attrValQualify at h
  obtain ⟨p, t, h3, h⟩ := bind_ok h
  cases h3
  rw [M.ite_apply] at h
  split at h
  · obtain ⟨_, t1, h1, h⟩ := bind_ok h
    have f1 := pushNs1_fr.ok h1
    have last : ∀ {t2 : Parser}, NsF t1 t2 → (if s.at_.currentElementRecord ≠ 0 then do
          qualifyElement
          M.modify fun p => { p with at_ := { p.at_ with prefixedAttCount := 0 } }
        else M.modify fun p => { p with at_ := { p.at_ with prefixedAttCount := 0 } }) t2 = .ok x s' → NsF s s' := by
      intro t2 f2 h
      rw [M.ite_apply] at h
      split at h
      · obtain ⟨_, t3, h3, h⟩ := bind_ok h
        cases h
        exact nsF_pre.trans f1 (nsF_pre.trans f2 (nsF_pre.trans (qualifyElement_fr.ok h3) ⟨⟨_, _, _, _, _, _, rfl⟩, id⟩))
      · cases h
        exact nsF_pre.trans f1 (nsF_pre.trans f2 ⟨⟨_, _, _, _, _, _, rfl⟩, id⟩)
    simp only [M.ite_apply] at h
    split at h
    · obtain ⟨_, t3, h3, h⟩ := bind_ok h
      have f3 := qualifyAttributes_fr.ok h3
      have f4 := nsF_pre.trans f1 f3
      obtain ⟨_, t4, h4, h⟩ := bind_ok h
      rw [checkQual_ok (hs.ns f4) (f4.2 hl) h4] at h
      exact last f3 h
    · refine last (nsF_pre.refl _) ?_
      rw [M.ite_apply]
      exact h
  · cases h; exact nsF_pre.refl _

theorem qualify_ns : Sim NsRel True True attrValQualify attrValQualify := by
  refine sim_ok fun s t hr a s' h => ⟨t, ?_, hr.ns (attrValQualify_fr hr.base hr.lists h)⟩
  simp only [attrValQualify, M.bind_apply, M.get_apply, Res.andThen_ok, hr.aware, M.ite_apply]
  rfl

/-- `writeAttrName` after the namespace part. -/
def writeAttrRecord (p : Parser) (_ : Unit) : M Parser Unit :=
  let tokenType := if p.at_.isNs then Token.attrNs else Token.attrName
  let errMsg := if p.at_.isNs then AttrNsPrefixQnameTooLong else AttrNamePrefixQnameTooLong
  if p.enc.singleByteEncoding then
    if p.length2 > maxPrefixLength ∨ p.length1 > maxQnameLength then parseErr errMsg
    else writeVtd tokenType p.lastOffset (shlOr p.length2 11 p.length1) p.depth
  else
    if p.length2 > maxPrefixLength * 2 ∨ p.length1 > maxQnameLength * 2 then parseErr errMsg
    else writeVtd tokenType (p.lastOffset / 2) (shlOr p.length2 10 (p.length1 / 2)) p.depth

theorem name_ns : Sim NsRel True True writeAttrName writeAttrName := by
  have hR := nsRel_nice
  unfold writeAttrName
  refine Sim.bind_get fun s t hr => ?_
  have hs := hR.same hr
  have hk : ∀ u : Unit, Sim NsRel True True (writeAttrRecord s u) (writeAttrRecord t u) := by
    intro u
    unfold writeAttrRecord
    same_simp hs
    sim hR
  show Sim NsRel True True (if _ then onNs3 _ >>= writeAttrRecord s else writeAttrRecord s ())
    (if _ then onNs3 _ >>= writeAttrRecord t else writeAttrRecord t ())
  rw [hr.aware, if_neg (c := _ ∧ false = true ∧ _) (by simp)]
  split
  · refine sim_ok fun s1 t1 hr1 a s' h => ?_
    obtain ⟨u, s2, h1, h2⟩ := bind_ok h
    have := hk () s2 t1 (hr1.ns ((onNs3_fr _).ok h1))
    rw [h2] at this
    exact this
  · exact hk ()

/-- `NsF` up to the length of the prefix. -/
def NsF0 (s s' : Parser) : Prop := NsF { s with length2 := 0 } { s' with length2 := 0 }
theorem nsF0_pre : Pre NsF0 := ⟨fun _ => nsF_pre.refl _, fun h h' => nsF_pre.trans h h'⟩

theorem startTagNs_fr : Fr NsF0 startTagNs := by
  unfold startTagNs
  have h1 : ∀ (m : M FastIntBuffer (BitVec 32)), Fr NsF0 (onNs1 m) := fun m =>
    Fr.zoom fun _ _ => ⟨⟨_, _, _, _, _, _, rfl⟩, id⟩
  have h2 : ∀ {g : Parser → Parser}, (∀ s, NsF0 s (g s)) → Fr NsF0 (M.modify g) := fun h => Fr.modify h
  refine Fr.bind nsF0_pre (Fr.get nsF0_pre) fun p => Fr.ite ?_ (Fr.pure nsF0_pre _)
  have rest : ∀ u : Unit, Fr NsF0 (do
      let p ← M.get
      if p.depth ≤ p.ns.nsBuffer1.getSize - 1 then do
        M.modify fun p => { p with ns := { p.ns with nsBuffer1 := p.ns.nsBuffer1.setSize p.depth } }
        let t ← onNs1 (Paged.intAt (p.depth - 1))
        M.modify fun p => { p with
          ns := { p.ns with nsBuffer2 := p.ns.nsBuffer2.setSize (t + 1#32).toInt,
                            nsBuffer3 := p.ns.nsBuffer3.setSize (t + 1#32).toInt } }
      else pure ()) := by
    intro u
    refine Fr.bind nsF0_pre (Fr.get nsF0_pre) fun p => Fr.ite ?_ (Fr.pure nsF0_pre _)
    exact Fr.bind nsF0_pre (h2 fun _ => ⟨⟨_, _, _, _, _, _, rfl⟩, id⟩) fun _ => Fr.bind nsF0_pre (h1 _) fun _ =>
      h2 fun _ => ⟨⟨_, _, _, _, _, _, rfl⟩, id⟩
  exact Fr.ite (Fr.bind nsF0_pre (h2 fun _ => ⟨⟨_, _, _, _, _, _, rfl⟩, id⟩) rest)
    (Fr.bind nsF0_pre (h2 fun _ => ⟨⟨_, _, _, _, _, _, rfl⟩, id⟩) rest)

/-- The end of `startTagEnd`. -/
def startTagClose : M Parser PState := do
  let p ← M.get
  if p.currentChar = ch% '>' then do
    if p.cfg.nsAware then do
      pushNs1
      if p.at_.currentElementRecord ≠ 0 then qualifyElement else pure ()
    else pure ()
    processElementTail
  else parseErr "invalid char in starting tag"

/-- `startTagEnd` with its last part by name. -/
def startTagEnd' : M Parser PState := do
  M.modify fun p => { p with helper := true }
  let p ← M.get
  if p.currentChar = ch% '/' then do
    M.modify fun p => { p with depth := p.depth - 1, helper := false }
    let ch ← getChar
    M.modify fun p => { p with currentChar := ch }
    startTagClose
  else startTagClose

theorem startTagEnd_eq : startTagEnd = startTagEnd' := rfl

theorem startTagClose_ns : Sim NsRel True True startTagClose startTagClose := by
  have hR := nsRel_nice
  have ht : Sim NsRel True True processElementTail processElementTail := by sim hR
  unfold startTagClose
  refine Sim.bind_get fun s t hr => ?_
  have hs := hR.same hr
  rw [hr.aware]
  same_simp hs
  refine Sim.ite ?_ (by sim hR)
  have key : ∀ {m : M Parser PState}, (∀ s1 a s', m s1 = .ok a s' → ∃ s2, NsF s1 s2 ∧ processElementTail s2 = .ok a s') →
      Sim NsRel True True m processElementTail := by
    intro m hm
    refine sim_ok fun s1 t1 hr1 a s' h => ?_
    obtain ⟨s2, hf, h2⟩ := hm _ _ _ h
    have := ht s2 t1 (hr1.ns hf)
    rw [h2] at this
    exact this
  refine key fun s1 a s' h => ?_
  simp only [M.ite_apply] at h
  split at h
  · obtain ⟨_, s2, h1, h⟩ := bind_ok h
    have f1 := pushNs1_fr.ok h1
    rw [M.ite_apply] at h
    split at h
    · obtain ⟨_, s3, h2, h⟩ := bind_ok h
      exact ⟨s3, nsF_pre.trans f1 (qualifyElement_fr.ok h2), h⟩
    · exact ⟨s2, f1, h⟩
  · exact ⟨s1, nsF_pre.refl _, h⟩

theorem nsNice : NsNice NsRel True True where
  nice := nsRel_nice
  tagCheck := by
    intro s t hr a b msg k k' hk
    rw [hr.aware]
    refine sim_ok fun s1 t1 hr1 x s' h => ?_
    obtain ⟨bad, s2, h1, h2⟩ := bind_ok h
    have e : s2 = s1 := (Fr.and eq_pre (Fr.pure eq_pre _) (checkXmlnsPrefix_fr eq_pre _ _ _)).ok h1
    subst e
    rw [M.ite_apply] at h2
    split at h2
    · exact (parseErr_ok h2).elim
    · have := hk s2 t1 hr1
      rw [h2] at this
      exact this
  decl := decl_ns
  push := push_ns
  name := name_ns
  tagNs := by
    intro β k k' hk
    refine sim_ok fun s t hr a s' h => ?_
    obtain ⟨_, s1, h1, h2⟩ := bind_ok h
    obtain ⟨_, s2, h3, h4⟩ := bind_ok h2
    cases h3
    have h0 : NsRel { s with length2 := 0 } { t with length2 := 0 } := by
      obtain ⟨⟨ns, w1, w2, w3, w4, w5, w6, rfl⟩, q2, q3, q4, q5, q6⟩ := hr
      exact ⟨⟨ns, w1, w2, w3, w4, w5, w6, rfl⟩, q2, q3, q4, q5, q6⟩
    have := hk () _ _ (h0.ns (startTagNs_fr.ok h1))
    rw [h4] at this
    have e : startTagNs t = .ok () t := by
      simp only [startTagNs, M.bind_apply, M.get_apply, Res.andThen_ok, hr.aware, M.ite_apply]
      rfl
    rw [M.bind_apply, e]
    exact this
  tagEnd := by
    have hR := nsRel_nice
    have hc := startTagClose_ns
    rw [startTagEnd_eq]
    unfold startTagEnd'
    sim hR
  qualify := qualify_ns

/-! ## The value of an attribute -/

/-- A value does not begin with `&a`. -/
def ValueStart (st : PState) (s : Parser) : Prop := st = .attrVal → ¬ AmpA s.cfg.xmlDoc s.lastOffset

theorem nextChar_ok {s s' : Parser} {u : Unit} (h : nextChar s = .ok u s') : s'.offset = s'.rd.offset ∧ 0 < s'.offset ∧
    ∃ b : UInt8, s'.rd.xmlDoc[(s'.offset - 1).toNat]? = some b ∧ s'.currentChar = b.toNat := by
  unfold nextChar getChar at h
  obtain ⟨c, s1, h1, h⟩ := bind_ok h
  obtain ⟨c', s2, h2, h1⟩ := bind_ok h1
  cases h1
  cases h
  simp only [onRd, M.zoom_apply] at h2
  cases hr : Reader.getChar s.rd with
  | ok a r =>
    rw [hr] at h2
    cases h2
    unfold Reader.getChar at hr
    obtain ⟨_, r1, h3, hr⟩ := bind_ok hr
    cases h3
    rw [M.ite_apply] at hr
    split at hr
    · cases hr
    obtain ⟨b, r1, h3, hr⟩ := bind_ok hr
    obtain ⟨h0, b', hb, h4⟩ | h4 := index_eq s.rd.xmlDoc s.rd.offset s.rd
    · rw [h4] at h3
      cases h3
      obtain ⟨_, r1, h3, hr⟩ := bind_ok hr
      cases h3
      rw [M.ite_apply] at hr
      split at hr
      · cases hr
        refine ⟨rfl, ?_, b, ?_, rfl⟩
        · show 0 < s.rd.offset + 1
          omega
        · show s.rd.xmlDoc[(s.rd.offset + 1 - 1).toNat]? = some b
          rw [show s.rd.offset + 1 - 1 = s.rd.offset by omega]
          exact hb
      · cases hr
    · rw [h4] at h3; cases h3
  | err e r => rw [hr] at h2; cases h2
  | panic => rw [hr] at h2; cases h2
  | diverge => rw [hr] at h2; cases h2

theorem nextCharAfterWsLoop_ok {n : Nat} {s s' : Parser} {u : Unit} (h : nextCharAfterWsLoop n s = .ok u s') :
    s'.offset = s'.rd.offset ∧ 0 < s'.offset ∧
      ∃ b : UInt8, s'.rd.xmlDoc[(s'.offset - 1).toNat]? = some b ∧ s'.currentChar = b.toNat := by
  induction n generalizing s with
  | zero => cases h
  | succ n ih =>
    unfold nextCharAfterWsLoop at h
    obtain ⟨_, s1, h1, h⟩ := bind_ok h
    obtain ⟨p, s2, h2, h⟩ := bind_ok h
    cases h2
    rw [M.ite_apply] at h
    split at h
    · exact ih h
    · cases h; exact nextChar_ok h1

theorem nextCharAfterWs_ok {s s' : Parser} {u : Unit} (h : nextCharAfterWs s = .ok u s') : s'.offset = s'.rd.offset ∧
    0 < s'.offset ∧ ∃ b : UInt8, s'.rd.xmlDoc[(s'.offset - 1).toNat]? = some b ∧ s'.currentChar = b.toNat := by
  unfold nextCharAfterWs at h
  obtain ⟨p, s1, h1, h⟩ := bind_ok h
  cases h1
  exact nextCharAfterWsLoop_ok h

theorem attrNameEnd_ok {s s' : Parser} {st : PState} (h : attrNameEnd s = .ok st s') :
    0 < s'.lastOffset ∧ (s'.rd.xmlDoc[(s'.lastOffset - 1).toNat]? = some (ch% '"') ∨
      s'.rd.xmlDoc[(s'.lastOffset - 1).toNat]? = some (ch% '\'')) := by
  have last : ∀ s1 : Parser, (do
      let p ← M.get
      if p.currentChar ≠ ch% '=' then parseErr InvalidChar
      else do
        nextCharAfterWs
        let p ← M.get
        if p.currentChar ≠ ch% '"' ∧ p.currentChar ≠ ch% '\'' then
          parseErr (InvalidChar ++ " should be ' or \" ")
        else do
          markOffset
          pure .attrVal : M Parser PState) s1 = .ok st s' → 0 < s'.lastOffset ∧
      (s'.rd.xmlDoc[(s'.lastOffset - 1).toNat]? = some (ch% '"') ∨
      s'.rd.xmlDoc[(s'.lastOffset - 1).toNat]? = some (ch% '\'')) := by
    intro s1 h
    obtain ⟨p, s2, h1, h⟩ := bind_ok h
    cases h1
    rw [M.ite_apply] at h
    split at h
    · exact (parseErr_ok h).elim
    obtain ⟨_, s2, h1, h⟩ := bind_ok h
    obtain ⟨p, s3, h2, h⟩ := bind_ok h
    cases h2
    rw [M.ite_apply] at h
    split at h
    · exact (parseErr_ok h).elim
    rename_i hc
    cases h
    obtain ⟨-, h0, b, hb, e⟩ := nextCharAfterWs_ok h1
    refine ⟨h0, ?_⟩
    show s2.rd.xmlDoc[(s2.offset - 1).toNat]? = _ ∨ s2.rd.xmlDoc[(s2.offset - 1).toNat]? = _
    rw [hb]
    by_cases h1 : s2.currentChar = ch% '"'
    · exact .inl (congrArg some (byte_of (by rw [← e, h1]) (by decide)))
    · have h2 : s2.currentChar = ch% '\'' := Decidable.not_not.mp fun h2 => hc ⟨h1, h2⟩
      exact .inr (congrArg some (byte_of (by rw [← e, h2]) (by decide)))
  unfold attrNameEnd at h
  obtain ⟨_, s1, h1, h⟩ := bind_ok h
  obtain ⟨p, s2, h2, h⟩ := bind_ok h
  rw [M.ite_apply] at h
  split at h
  · obtain ⟨_, s3, h3, h⟩ := bind_ok h
    exact last _ h
  · exact last _ h

theorem valueStart_step (st : PState) (s t : Parser) (st' : PState) (s' t' : Parser) (_ : ValueStart st s) (_ : NsRel s t)
    (h : step st s = .ok st' s') (hr : NsRel s' t') : ValueStart st' s' := by
  rintro rfl hA
  by_cases hst : st = .attrName
  · subst hst
    simp only [step] at h
    unfold processAttrName at h
    obtain ⟨_, _, _, h⟩ := bind_ok h
    obtain ⟨_, _, _, h⟩ := bind_ok h
    obtain ⟨_, _, _, h⟩ := bind_ok h
    obtain ⟨_, _, _, h⟩ := bind_ok h
    obtain ⟨_, _, _, h⟩ := bind_ok h
    obtain ⟨_, _, _, h⟩ := bind_ok h
    obtain ⟨_, _, _, h⟩ := bind_ok h
    obtain ⟨_, _, _, h⟩ := bind_ok h
    obtain ⟨h0, hq⟩ := attrNameEnd_ok h
    rw [hr.doc] at hq
    have := hr.quiet.value _ hq (by rw [show (s'.lastOffset - 1).toNat + 1 = s'.lastOffset.toNat by omega]; exact hA.1)
    rw [show (s'.lastOffset - 1).toNat + 2 = s'.lastOffset.toNat + 1 by omega] at this
    exact this hA.2
  · exact step_never hst _ _ h

theorem attrValNs_ns (s t s' : Parser) (_ : NsRel s t) (hv : ValueStart .attrVal s) (h : attrValRead s = .ok () s')
    (t' : Parser) (hr : NsRel s' t') : RelRes NsRel True True (attrValNs s') (attrValNs t') := by
  obtain ⟨k1, k2⟩ := attrValRead_keep.ok h
  have hA : ¬ AmpA s'.cfg.xmlDoc s'.lastOffset := by rw [k1, k2]; exact hv rfl
  have e : attrValNs t' = .ok () t' := by
    simp only [attrValNs, M.bind_apply, M.get_apply, Res.andThen_ok, hr.aware, M.ite_apply]
    rfl
  have key : ∀ x s1, attrValNs s' = .ok x s1 → NsF s' s1 := by
    intro x s1 h
    unfold attrValNs at h
    obtain ⟨p, s2, h1, h⟩ := bind_ok h
    cases h1
    rw [M.ite_apply] at h
    split at h
    · rw [M.ite_apply] at h
      split at h
      · exact (parseErr_ok h).elim
      obtain ⟨ty, s2, h1, h3⟩ := bind_ok h
      obtain ⟨e1, rfl⟩ := identifyNsUrl_ok hr.base hA h1
      rw [e1] at h3
      clear h
      obtain ⟨p, s3, h2, h⟩ := bind_ok h3
      cases h2
      rw [M.ite_apply] at h
      split at h
      · exact (parseErr_ok h).elim
      simp only [M.ite_apply] at h
      split at h
      · obtain ⟨_, s3, h2, h⟩ := bind_ok h
        rw [if_neg (by simp)] at h
        cases h
        exact (onNs2_fr _).ok h2
      · cases h
        exact nsF_pre.refl _
    · cases h; exact nsF_pre.refl _
  cases hm : attrValNs s' with
  | ok a s1 => exact ⟨t', e, hr.ns (key _ _ hm)⟩
  | err e s1 => exact .inl trivial
  | panic => exact .inl trivial
  | diverge => trivial

/-! ## A whole parse -/

/-- The parser with namespace awareness switched off. -/
def off (fuel : Nat) (s : Parser) : Parser := { s with cfg := { s.cfg with nsAware := false, matchFuel := fuel } }

def Off (fuel : Nat) (s t : Parser) : Prop := t = off fuel s

section
variable {f : Nat}
theorem docByte_off (i : Int) : Sim (Off f) True True (docByte i) (docByte i) := by
  rintro s _ rfl
  simp only [docByte, M.bind_apply, M.get_apply, Res.andThen_ok]
  exact Sim.index (R := Off f) _ _ _ _ rfl

theorem docIs32_off (i v : Int) : Sim (Off f) True True (docIs32 i v) (docIs32 i v) :=
  Sim.bind (docByte_off i) fun _ => Sim.pure _

theorem detectEncoding_off : Sim (Off f) True True detectEncoding detectEncoding := by
  refine Sim.bind_get fun s t h => ?_
  rw [show t.offset = s.offset by rw [h]; rfl]
  refine Sim.bind (docByte_off _) fun b =>
    Sim.ite ?_ (Sim.ite ?_ (Sim.ite ?_ (Sim.ite ?_ (Sim.ite ?_ (Sim.pure _)))))
  · exact Sim.bind (Sim.modify fun s t h => by obtain rfl := h; rfl) fun _ => Sim.bind (docIs32_off _ _) fun t =>
      Sim.ite (Sim.modify fun s t h => by obtain rfl := h; rfl) (Sim.raise _)
  · exact Sim.bind (Sim.modify fun s t h => by obtain rfl := h; rfl) fun _ => Sim.bind (docIs32_off _ _) fun t =>
      Sim.ite (Sim.modify fun s t h => by obtain rfl := h; rfl) (Sim.raise _)
  · exact Sim.bind (Sim.and (docIs32_off _ _) (Sim.and (docIs32_off _ _) (docIs32_off _ _))) fun t =>
      Sim.ite (Sim.modify fun s t h => by obtain rfl := h; rfl) (Sim.raise _)
  · exact Sim.bind (Sim.and (docIs32_off _ _) (docIs32_off _ _)) fun t =>
      Sim.ite (Sim.modify fun s t h => by obtain rfl := h; rfl) (Sim.raise _)
  · exact Sim.bind (Sim.and (docIs32_off _ _) (Sim.and (docIs32_off _ _) (docIs32_off _ _))) fun t =>
      Sim.ite (Sim.modify fun s t h => by obtain rfl := h; rfl) (Sim.pure _)

theorem decideEncoding_off : Sim (Off f) True True decideEncoding decideEncoding := by
  refine Sim.bind detectEncoding_off fun _ => Sim.bind_get fun s t h => ?_
  obtain rfl := h
  have e1 : (off f s).enc = s.enc := rfl
  have e2 : (off f s).offset = s.offset := rfl
  have e3 : (off f s).cfg.nsAware = false := rfl
  have e4 : (off f s).cfg.docLength = s.cfg.docLength := rfl
  simp only [e1, e2, e3, e4, Bool.false_eq_true, and_false, if_false]
  by_cases hb : wrap64 (s.offset + s.cfg.docLength) ≥ 2 ^ 31
  · rw [if_pos (by split <;> omega)]
    exact fun _ _ _ => .inl trivial
  · rw [if_neg hb]
    by_cases hc : wrap64 (s.offset + s.cfg.docLength) ≥ (if s.enc.encoding < FormatUtf16BE ∧ s.cfg.nsAware = true then 2 ^ 30 else 2 ^ 31)
    · rw [if_pos hc]
      exact fun _ _ _ => .inl trivial
    · rw [if_neg hc]
      exact Sim.ite (Sim.modify fun s t h => by obtain rfl := h; rfl) (Sim.pure _)
end

/-- A parse that succeeds also succeeds without namespace awareness, with the same records. -/
theorem parse_off {p p' : Parser} {u : Unit} (hf : Fresh p) (hq : Quiet p.cfg.xmlDoc) (hl : p.cfg.xmlDoc.length < 2 ^ 31)
    (fuel : Nat) (h : parse p = .ok u p') : ∃ t', parse (off fuel p) = .ok u t' ∧ t'.out = p'.out := by
  obtain ⟨f1, f2, f3, f4, f5, f6, f7, f8, f9⟩ := hf.fields
  have hd := decideEncoding_sat hf
  have hs := decideEncoding_off (f := fuel) p (off fuel p) rfl
  have hp := h
  unfold parse at hp
  obtain ⟨a, q, h1, -⟩ := bind_ok hp
  clear hp
  rw [h1] at hd hs
  obtain ⟨t, ht, rfl⟩ := hs
  have hout : q.out = p.out := by
    obtain ⟨rfl, _⟩ | ⟨e, rfl, _⟩ := hd <;> rfl
  obtain ⟨b, h3, h4⟩ := appendFill (hout ▸ f9.vtd) (vtdRecord .document 0 0 q.depth)
  have hw : ∀ q' : Parser, q'.out = q.out → q'.depth = q.depth →
      writeVtd .document 0 0 q'.depth q' = .ok () { q' with out := { q.out with vtdBuffer := b } } := by
    intro q' e1 e2
    cases q'
    simp only at e1 e2
    subst e1 e2
    simp only [writeVtd, onVtd, M.zoom_apply, h3]
    rfl
  have key1 : parse p = mainLoop q.loopFuel .docStart { q with out := { q.out with vtdBuffer := b } } := by
    simp only [parse, M.bind_apply, h1, Res.andThen_ok, M.get_apply]
    rw [hw q rfl rfl]
    rfl
  have key2 : parse (off fuel p) = mainLoop (off fuel q).loopFuel .docStart
      { off fuel q with out := { q.out with vtdBuffer := b } } := by
    simp only [parse, M.bind_apply, ht, Res.andThen_ok, M.get_apply]
    rw [hw (off fuel q) rfl rfl]
    rfl
  rw [key1] at h
  rw [key2]
  clear key1 key2 hw hout
  obtain ⟨rfl, -⟩ | ⟨e, rfl, hu⟩ := hd
  · have hI : ValueStart .docStart { q with out := { q.out with vtdBuffer := b } } := fun h => by cases h
    have hr : NsRel { q with out := { q.out with vtdBuffer := b } } { off fuel q with out := { q.out with vtdBuffer := b } } := by
      refine ⟨⟨q.ns, _, _, _, _, _, fuel, rfl⟩, f1, ?_, ?_, hq, hl⟩
      · show q.rd.xmlDoc = _
        rw [f2]
      · obtain ⟨fl, a, e⟩ := hf.init
        show NsLists q
        rw [e]
        exact ⟨List.length_replicate, [], (List.append_nil _).symm⟩
    have := mainLoop_rel nsNice attrValNs_ns valueStart_step (n := q.loopFuel) (m := (off fuel q).loopFuel) (Nat.le_refl _)
      .docStart _ _ hI hr
    rw [h] at this
    obtain ⟨t', h5, h6⟩ := this
    exact ⟨t', h5, (nsRel_nice.same h6).out⟩
  · obtain ⟨e', p'', h5, -⟩ := utf16_err (p := { p with enc := e, out := { p.out with vtdBuffer := b } }) p.loopFuel
      (by simp only [loopFuel]; omega) rfl f2 hf.start hf.end1 hu
    have := h.symm.trans h5
    cases this

end Two
end Parser
end GoVtd
