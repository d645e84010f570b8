import Verif.Proofs.Total
import Verif.Proofs.XmlChar
import Verif.Spec.Grammar

/-!
# Reading as consumption of a list of bytes

`Rd c p r`: the parser `p` has `r` left to read. The lemmas say for each reading function which inputs it
accepts and in which state it ends.
-/

namespace GoVtd
namespace Parser
open Paged Grammar

/-- Offset of the rest `r` of the document. -/
def pos (c : ParserCfg) (r : List UInt8) : Int := Grammar.offset c.xmlDoc.length r

/-- `Rd` on the fields it depends on. -/
structure RdCore (c : ParserCfg) (r : List UInt8) (cfg : ParserCfg) (enc : ParserEnc) (rd : Reader)
    (offset : Int) (ws : Bool) (out : ParserOut) : Prop where
  base : BaseCore c cfg enc rd offset ws out
  whole : c.endOffset = c.xmlDoc.length
  suf : r <:+ c.xmlDoc
  off : rd.offset = pos c r

/-- The bytes `r` are left to read. -/
def Rd (c : ParserCfg) (p : Parser) (r : List UInt8) : Prop :=
  RdCore c r p.cfg p.enc p.rd p.offset p.ws p.out

/-- The parser that has read up to the rest `r`, the last character being `ch`. -/
def go (c : ParserCfg) (p : Parser) (r : List UInt8) (ch : Nat) : Parser := p.mv (pos c r) (pos c r) ch

section
variable {c : ParserCfg} {p p' : Parser} {r r' : List UInt8} {b : UInt8} {ch : Nat}

@[simp] theorem go_cfg : (go c p r ch).cfg = p.cfg := rfl
@[simp] theorem go_enc : (go c p r ch).enc = p.enc := rfl
@[simp] theorem go_rdOffset : (go c p r ch).rd.offset = pos c r := rfl
@[simp] theorem go_offset : (go c p r ch).offset = pos c r := rfl
@[simp] theorem go_cur : (go c p r ch).currentChar = ch := rfl
@[simp] theorem go_lastOffset : (go c p r ch).lastOffset = p.lastOffset := rfl
@[simp] theorem go_length1 : (go c p r ch).length1 = p.length1 := rfl
@[simp] theorem go_length2 : (go c p r ch).length2 = p.length2 := rfl
@[simp] theorem go_depth : (go c p r ch).depth = p.depth := rfl
@[simp] theorem go_helper : (go c p r ch).helper = p.helper := rfl
@[simp] theorem go_tagStack : (go c p r ch).tagStack = p.tagStack := rfl
@[simp] theorem go_at : (go c p r ch).at_ = p.at_ := rfl
@[simp] theorem go_out : (go c p r ch).out = p.out := rfl
@[simp] theorem go_go {r' : List UInt8} {ch' : Nat} : go c (go c p r ch) r' ch' = go c p r' ch' := rfl

theorem go_self (h : Rd c p r) (ho : p.offset = pos c r) : go c p r p.currentChar = p := by
  have := h.off
  simp only [go]
  rw [← this]
  rw [← this] at ho
  conv => rhs; rw [← mv_self p, ho]

theorem Rd.cfg (h : Rd c p r) : p.cfg = c := h.base.cfg
theorem Rd.toBase (h : Rd c p r) : Base c p := h.base

theorem Rd.go (h : Rd c p r) (hs : r' <:+ r) (ch : Nat) : Rd c (go c p r' ch) r' := by
  have hs' := hs.trans h.suf
  have hl := hs'.length_le
  refine ⟨?_, h.whole, hs', rfl⟩
  refine h.toBase.mv ch ?_ (Int.le_refl _) ?_ (fun _ => ?_)
  · simp only [pos, Grammar.offset]; omega
  · simp only [pos, Grammar.offset]; omega
  · rw [h.whole]; simp only [pos, Grammar.offset]; omega

theorem Rd.tail (h : Rd c p (b :: r)) (ch : Nat) : Rd c (Parser.go c p r ch) r := h.go (List.suffix_cons b r) ch

theorem pos_cons : pos c (b :: r) + 1 = pos c r := by simp only [pos, Grammar.offset, List.length_cons]; omega

theorem pos_append {w : List UInt8} : pos c (w ++ r) = pos c r - w.length := by
  simp only [pos, Grammar.offset, List.length_append]; omega

theorem Rd.lt (h : Rd c p (b :: r)) : p.rd.offset < c.xmlDoc.length := by
  rw [h.off]; simp only [pos, Grammar.offset, List.length_cons]; omega

theorem Rd.get (h : Rd c p (b :: r)) : ∀ hl, c.xmlDoc[p.rd.offset.toNat]'hl = b := by
  intro hl
  obtain ⟨t, ht⟩ := h.suf
  have h1 : p.rd.offset.toNat = t.length := by
    rw [h.off]; simp only [pos, Grammar.offset, ← ht, List.length_append]; omega
  have h2 : c.xmlDoc[p.rd.offset.toNat]? = some b := by rw [h1, ← ht]; simp
  rw [List.getElem?_eq_getElem hl] at h2
  exact Option.some.inj h2

theorem nextChar_nil (h : Rd c p []) : nextChar p = .err (newEOFError XmlIncomplete) p := by
  rw [nextChar_eq h.toBase, dif_neg]
  rw [h.off, h.whole]; simp [pos, Grammar.offset]

theorem nextChar_cons (h : Rd c p (b :: r)) : nextChar p = .ok () (go c p r b.toNat) := by
  rw [nextChar_eq h.toBase, dif_pos (by rw [h.whole]; exact h.lt), h.get, h.off, pos_cons]
  rfl

theorem getChar_nil (h : Rd c p []) : getChar p = .err (newEOFError XmlIncomplete) p := by
  rw [getChar_eq h.toBase, dif_neg]
  rw [h.off, h.whole]; simp [pos, Grammar.offset]

theorem getChar_cons (h : Rd c p (b :: r)) : getChar p = .ok b.toNat (go c p r p.currentChar) := by
  rw [getChar_eq h.toBase, dif_pos (by rw [h.whole]; exact h.lt), h.get, h.off, pos_cons]
  rfl

theorem skipChar_nil (h : Rd c p []) (ch : Nat) : skipChar ch p = .panic :=
  skipChar_panic h.toBase ch (by rw [h.off]; simp [pos, Grammar.offset])

theorem skipChar_cons (h : Rd c p (b :: r)) (ch : Nat) :
    skipChar ch p = if ch = b.toNat then .ok true (go c p r p.currentChar)
      else .ok false (go c p (b :: r) p.currentChar) := by
  rw [skipChar_eq h.toBase ch h.lt]
  simp only [h.get]
  simp only [h.off, pos_cons]
  rfl

theorem skipChar_true (h : Rd c p (b :: r)) {ch : Nat} (hc : ch = b.toNat) :
    skipChar ch p = .ok true (go c p r p.currentChar) := by
  rw [skipChar_cons h, if_pos hc]

theorem skipChar_false (h : Rd c p (b :: r)) {ch : Nat} (hc : ch ≠ b.toNat) :
    skipChar ch p = .ok false (go c p (b :: r) p.currentChar) := by
  rw [skipChar_cons h, if_neg hc]

/-! ## Characters as numbers -/

theorem eqNat (n : Nat) (b : UInt8) (h : n < 256) : b.toNat = n ↔ b = UInt8.ofNat n := by
  constructor
  · rintro rfl; simp
  · rintro rfl; exact UInt8.toNat_ofNat_of_lt' h

theorem ne_nat {b v : UInt8} (n : Nat) (h : b ≠ v) (hn : v.toNat = n := by rfl) : ¬ b.toNat = n := by
  subst hn; exact fun h' => h (UInt8.toNat_inj.mp h')

theorem eq_nat {b v : UInt8} (n : Nat) (h : b = v) (hn : v.toNat = n := by rfl) : b.toNat = n := by
  subst hn; rw [h]

@[simp] theorem raise_ne_ok {σ α : Type} (e : GoErr) (s s' : σ) (a : α) :
    ((M.raise e : M σ α) s = .ok a s') ↔ False := by simp

@[simp] theorem parseErr_ne_ok {α : Type} (m : String) (a : α) : (parseErr m p = .ok a p') ↔ False := by
  simp [parseErr, Res.andThen_eq_ok]

@[simp] theorem parseErrAt_ne_ok {α : Type} (m : String) (o : Int) (a : α) :
    (parseErrAt m o p = .ok a p') ↔ False := by
  simp [parseErrAt, Res.andThen_eq_ok]

/-! ## Spans -/

/-- The longest prefix with a property. -/
theorem span (P : UInt8 → Prop) (r : List UInt8) :
    (∀ b ∈ r, P b) ∨ ∃ w b r', r = w ++ b :: r' ∧ (∀ b ∈ w, P b) ∧ ¬ P b := by
  induction r with
  | nil => exact Or.inl (by simp)
  | cons b r ih =>
    by_cases hb : P b
    · rcases ih with h | ⟨w, x, r', rfl, h1, h2⟩
      · exact Or.inl (by simpa [hb] using h)
      · exact Or.inr ⟨b :: w, x, r', rfl, by simpa [hb] using h1, h2⟩
    · exact Or.inr ⟨[], b, r, rfl, by simp, hb⟩

theorem span_unique {P : UInt8 → Prop} {w w' : List UInt8} {b b' : UInt8} {r r' : List UInt8}
    (h : w ++ b :: r = w' ++ b' :: r') (h1 : ∀ b ∈ w, P b) (h2 : ¬ P b) (h1' : ∀ b ∈ w', P b)
    (h2' : ¬ P b') : w = w' ∧ b = b' ∧ r = r' := by
  induction w generalizing w' with
  | nil =>
    cases w' with
    | nil => simpa using h
    | cons x w' =>
      simp only [List.nil_append, List.cons_append, List.cons.injEq] at h
      exact absurd (h.1 ▸ h1' x (by simp)) h2
  | cons x w ih =>
    cases w' with
    | nil =>
      simp only [List.nil_append, List.cons_append, List.cons.injEq] at h
      exact absurd (h.1 ▸ h1 x (by simp)) h2'
    | cons y w' =>
      simp only [List.cons_append, List.cons.injEq] at h
      obtain ⟨rfl, h⟩ := h
      obtain ⟨rfl, h3, h4⟩ := ih h (fun b hb => h1 b (by simp [hb])) (fun b hb => h1' b (by simp [hb]))
      exact ⟨rfl, h3, h4⟩

theorem suffix_append_cons (w : List UInt8) (b : UInt8) (r : List UInt8) : r <:+ w ++ b :: r :=
  ⟨w ++ [b], by simp⟩

theorem exists_span_nil {P : UInt8 → Prop} {Q : List UInt8 → UInt8 → List UInt8 → Prop} :
    (∃ w b r', ([] : List UInt8) = w ++ b :: r' ∧ (∀ b ∈ w, P b) ∧ ¬ P b ∧ Q w b r') ↔ False := by
  simp

theorem exists_span_pos {P : UInt8 → Prop} {Q : List UInt8 → UInt8 → List UInt8 → Prop} (hb : P b) :
    (∃ w x r', b :: r = w ++ x :: r' ∧ (∀ b ∈ w, P b) ∧ ¬ P x ∧ Q w x r') ↔
      ∃ w x r', r = w ++ x :: r' ∧ (∀ b ∈ w, P b) ∧ ¬ P x ∧ Q (b :: w) x r' := by
  constructor
  · rintro ⟨w, x, r', h, h1, h2, h3⟩
    cases w with
    | nil =>
      simp only [List.nil_append, List.cons.injEq] at h
      exact absurd (h.1 ▸ hb) h2
    | cons y w =>
      simp only [List.cons_append, List.cons.injEq] at h
      obtain ⟨rfl, h⟩ := h
      exact ⟨w, x, r', h, fun z hz => h1 z (by simp [hz]), h2, h3⟩
  · rintro ⟨w, x, r', rfl, h1, h2, h3⟩
    exact ⟨b :: w, x, r', rfl, by simpa [hb] using h1, h2, h3⟩

theorem exists_span_neg {P : UInt8 → Prop} {Q : List UInt8 → UInt8 → List UInt8 → Prop} (hb : ¬ P b) :
    (∃ w x r', b :: r = w ++ x :: r' ∧ (∀ b ∈ w, P b) ∧ ¬ P x ∧ Q w x r') ↔ Q [] b r := by
  constructor
  · rintro ⟨w, x, r', h, h1, h2, h3⟩
    cases w with
    | nil =>
      simp only [List.nil_append, List.cons.injEq] at h
      obtain ⟨rfl, rfl⟩ := h
      exact h3
    | cons y w =>
      simp only [List.cons_append, List.cons.injEq] at h
      obtain ⟨rfl, h⟩ := h
      exact absurd (h1 b (by simp)) hb
  · intro h
    exact ⟨[], b, r, rfl, by simp, hb, h⟩

/-! ## White space and names -/

theorem nextCharAfterWsLoop_iff {fuel : Nat} (h : Rd c p r) (hf : r.length < fuel) {u : Unit} :
    nextCharAfterWsLoop fuel p = .ok u p' ↔
      ∃ w b r', r = w ++ b :: r' ∧ AllWs w ∧ ¬ Ws b ∧ p' = go c p r' b.toNat := by
  induction fuel generalizing p r with
  | zero => omega
  | succ fuel ih =>
    simp only [nextCharAfterWsLoop, M.bind_apply]
    cases r with
    | nil => rw [nextChar_nil h]; simp
    | cons b r =>
      rw [nextChar_cons h]
      simp only [Res.andThen_ok, M.bind_apply, M.get_apply, M.ite_apply, M.pure_apply]
      simp only [go_cur]
      by_cases hb : Ws b
      · simp only [(isSpaceChar_iff _).2 hb, if_true]
        rw [ih (h.tail _) (by simpa using hf)]
        exact (exists_span_pos (Q := fun _ x r' => p' = go c p r' x.toNat) hb).symm
      · simp only [mt (isSpaceChar_iff _).1 hb, if_false]
        refine Iff.trans ?_ (exists_span_neg (Q := fun _ x r' => p' = go c p r' x.toNat) hb).symm
        simp [eq_comm]

theorem Rd.fuel (h : Rd c p r) {q : Parser} (hq : q.cfg = c) : r.length < q.loopFuel := by
  have := h.suf.length_le
  simp only [loopFuel, hq]; omega

theorem nextCharAfterWs_iff (h : Rd c p r) {u : Unit} :
    nextCharAfterWs p = .ok u p' ↔
      ∃ w b r', r = w ++ b :: r' ∧ AllWs w ∧ ¬ Ws b ∧ p' = go c p r' b.toNat :=
  nextCharAfterWsLoop_iff h (h.fuel h.cfg)

theorem nextCharAfterWs_eq {w : List UInt8} (h : Rd c p (w ++ b :: r)) (hw : AllWs w) (hb : ¬ Ws b) :
    nextCharAfterWs p = .ok () (go c p r b.toNat) :=
  (nextCharAfterWs_iff h).2 ⟨w, b, r, rfl, hw, hb, rfl⟩

/-- Only white space is left: the end of the input is reported. -/
theorem nextCharAfterWsLoop_eof {fuel : Nat} (h : Rd c p r) (hf : r.length < fuel) (hr : AllWs r) :
    ∃ p', nextCharAfterWsLoop fuel p = .err (newEOFError XmlIncomplete) p' ∧ Rd c p' [] ∧ p'.out = p.out := by
  induction fuel generalizing p r with
  | zero => omega
  | succ fuel ih =>
    simp only [nextCharAfterWsLoop, M.bind_apply]
    cases r with
    | nil => rw [nextChar_nil h]; exact ⟨p, rfl, h, rfl⟩
    | cons b r =>
      rw [nextChar_cons h]
      simp only [Res.andThen_ok, M.bind_apply, M.get_apply, M.ite_apply, M.pure_apply]
      simp only [go_cur]
      simp only [(isSpaceChar_iff _).2 (hr b (by simp)), if_true]
      exact ih (h.tail _) (by simpa using hf) fun x hx => hr x (by simp [hx])

theorem nextCharAfterWs_eof (h : Rd c p r) (hr : AllWs r) :
    ∃ p', nextCharAfterWs p = .err (newEOFError XmlIncomplete) p' ∧ Rd c p' [] ∧ p'.out = p.out :=
  nextCharAfterWsLoop_eof h (h.fuel h.cfg) hr

theorem nameLoop_iff {fuel : Nat} (h : Rd c p r) (hf : r.length < fuel) {u : Unit} :
    nameLoop fuel p = .ok u p' ↔
      ∃ w b r', r = w ++ b :: r' ∧ AllName w ∧ ¬ NameByte b ∧ p' = go c p r' b.toNat := by
  induction fuel generalizing p r with
  | zero => omega
  | succ fuel ih =>
    simp only [nameLoop, M.bind_apply]
    cases r with
    | nil => rw [nextChar_nil h]; simp
    | cons b r =>
      rw [nextChar_cons h]
      simp only [Res.andThen_ok, M.bind_apply, M.get_apply, M.ite_apply, M.pure_apply]
      simp only [go_cur]
      by_cases hb : NameByte b
      · simp only [(isNameChar_iff _).2 hb, if_true]
        rw [ih (h.tail _) (by simpa using hf)]
        exact (exists_span_pos (Q := fun _ x r' => p' = go c p r' x.toNat) hb).symm
      · simp only [mt (isNameChar_iff _).1 hb, if_false]
        refine Iff.trans ?_ (exists_span_neg (Q := fun _ x r' => p' = go c p r' x.toNat) hb).symm
        simp [eq_comm]

/-- The name loop that starts with the current character. -/
theorem piEndNameLoop_iff {fuel : Nat} (h : Rd c p r) (ho : p.offset = pos c r) (hf : r.length + 1 < fuel)
    (hb : p.currentChar = b.toNat) {u : Unit} :
    piEndNameLoop fuel p = .ok u p' ↔
      ∃ w x r', b :: r = w ++ x :: r' ∧ AllName w ∧ ¬ NameByte x ∧ p' = go c p r' x.toNat := by
  induction fuel generalizing p r b with
  | zero => omega
  | succ fuel ih =>
    simp only [piEndNameLoop, M.bind_apply, M.get_apply, Res.andThen_ok, M.ite_apply, M.pure_apply, hb]
    by_cases hn : NameByte b
    · simp only [(isNameChar_iff _).2 hn, if_true]
      refine Iff.trans ?_ (exists_span_pos (Q := fun _ x r' => p' = go c p r' x.toNat) hn).symm
      cases r with
      | nil => rw [nextChar_nil h]; simp
      | cons x r =>
        rw [nextChar_cons h, Res.andThen_ok]
        exact ih (b := x) (h.tail _) rfl (by simpa using hf) rfl
    · simp only [mt (isNameChar_iff _).1 hn, if_false]
      refine Iff.trans ?_ (exists_span_neg (Q := fun _ x r' => p' = go c p r' x.toNat) hn).symm
      rw [← hb, go_self h ho]
      simp [eq_comm]

end
end Parser
end GoVtd
