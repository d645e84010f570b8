import Verif.Proofs.Parser.Body
import Verif.Proofs.Parser.EventAttr

/-!
# What the loops read, in every window

If a loop over a text, a value, a comment or a CDATA section ends, then the bytes it read are what the grammar says. Unlike
`Body`, this does not need the window to be the whole slice.
-/

namespace GoVtd
namespace Parser
namespace Ev
open Paged Grammar
variable {c : ParserCfg} {p : Parser}

/-- The bytes of the slice from an offset. -/
abbrev from_ (c : ParserCfg) (r : Int) : List UInt8 := c.xmlDoc.drop r.toNat

theorem from_cons {b : UInt8} (hb : Base c p) {r : Int} (hr : p.rd.offset ≤ r) (h : c.xmlDoc[r.toNat]? = some b) :
    from_ c r = b :: from_ c (r + 1) := by
  have h0 := hb.off0; have h1 := hb.off1
  obtain ⟨hl, hd⟩ := List.getElem?_eq_some_iff.mp h
  rw [from_, List.drop_eq_getElem_cons hl, hd, show r.toNat + 1 = (r + 1).toNat by omega]

theorem from_head (hb : Base c p) : (from_ c p.rd.offset).head? = c.xmlDoc[p.rd.offset.toNat]? := by
  rw [from_, List.head?_drop]

/-- The parser moved to `r`, and the bytes it read are in the relation `R`. -/
def Read (c : ParserCfg) (p : Parser) (R : List UInt8 → List UInt8 → Prop) (p' : Parser) : Prop :=
  ∃ (r : Int) (ch : Nat), p' = p.mv r r ch ∧ Base c p' ∧ p.rd.offset ≤ r ∧ R (from_ c p.rd.offset) (from_ c r)

/-- `skipChar`, with both outcomes. -/
theorem skipChar_byte2 (hb : Base c p) (ch : UInt8) (hch : ch ≠ 0) : Post (skipChar ch.toNat p) fun x p' =>
    p' = p.mv (p.rd.offset + x.toNat) (p.rd.offset + x.toNat) p.currentChar ∧ Base c p' ∧
    ∃ b, c.xmlDoc[p.rd.offset.toNat]? = some b ∧ (x = true ↔ b = ch) := by
  refine Post.of fun x p' h => ?_
  obtain ⟨h1, h2⟩ := (skipChar_sat hb (ch := ch.toNat) (by intro h; exact hch (UInt8.toNat_inj.mp h))).ok h
  have h0 := hb.off0; have h1' := hb.off1
  refine ⟨h1, h2, ?_⟩
  by_cases hl : p.rd.offset < c.xmlDoc.length
  · have hl' : p.rd.offset.toNat < c.xmlDoc.length := by omega
    rw [skipChar_eq hb _ hl] at h
    refine ⟨c.xmlDoc[p.rd.offset.toNat], List.getElem?_eq_getElem hl', ?_⟩
    split at h
    · rename_i he
      cases h
      simp only [true_iff]
      exact (UInt8.toNat_inj.mp he).symm
    · rename_i he
      cases h
      simp only [Bool.false_eq_true, false_iff]
      intro h; exact he (by rw [h])
  · rw [skipChar_panic hb _ (by omega)] at h; cases h

/-! ## References -/

theorem entityHexLoop_post {fuel : Nat} (v : Nat) (hb : Base c p) :
    Post (entityHexLoop fuel v p) fun v' p' => Read c p (fun s s' => HexDigits v s v' s') p' := by
  induction fuel generalizing p v with
  | zero => trivial
  | succ fuel ih =>
    refine Post.bind (getChar_byte hb) fun ch p' ⟨b, hch, hp, hb', _, hd⟩ => ?_
    subst hp
    have hc := from_cons hb (Int.le_refl _) hd
    rw [hch, hexDigit_eq]
    cases hx : hexVal b with
    | some d =>
      refine (ih _ hb').mono fun v' p' ⟨r, ch, h1, h2, h3, h4⟩ => ?_
      simp only [mv_rdOffset] at h3 h4
      refine ⟨r, ch, by rw [h1, mv_mv], h2, by omega, ?_⟩
      rw [hc]
      exact .digit hx h4
    | none =>
      refine Post.ite (fun he => ?_) fun _ => trivial
      have he : b = ch% ';' := UInt8.toNat_inj.mp he
      exact ⟨_, _, rfl, hb', by omega, by rw [hc, he]; exact .stop⟩

theorem entityDecLoop_post {fuel : Nat} {ch : Nat} {b : UInt8} (v : Nat) (hb : Base c p) (ho : p.offset = p.rd.offset) (hch : ch = b.toNat) :
    Post (entityDecLoop fuel ch v p) fun v' p' => Read c p (fun s s' => DecDigits v (b :: s) v' s') p' := by
  induction fuel generalizing p v ch b with
  | zero => trivial
  | succ fuel ih =>
    simp only [entityDecLoop]
    subst hch
    refine Post.ite (fun hd => ?_) fun _ => Post.ite (fun he => ?_) fun _ => trivial
    · refine Post.bind (getChar_byte hb) fun ch p' ⟨b', hch, hp, hb', _, hd'⟩ => ?_
      subst hp
      have hc := from_cons hb (Int.le_refl _) hd'
      refine (ih _ hb' rfl hch).mono fun v' p' ⟨r, ch, h1, h2, h3, h4⟩ => ?_
      simp only [mv_rdOffset] at h3 h4
      refine ⟨r, ch, by rw [h1, mv_mv], h2, by omega, ?_⟩
      rw [hc]
      exact .digit (UInt8.le_iff_toNat_le.mpr hd.1) (UInt8.le_iff_toNat_le.mpr hd.2) h4
    · have he : b = ch% ';' := UInt8.toNat_inj.mp he
      refine ⟨p.rd.offset, p.currentChar, ?_, hb, Int.le_refl _, by rw [he]; exact .stop⟩
      obtain ⟨p1, p2, p3, p4, p5, p6⟩ := p
      simp only at ho
      subst ho
      rfl

theorem entitySeq_post (s : List UInt8) (hb : Base c p) (ho : p.offset = p.rd.offset) :
    Post (entitySeq (s.map UInt8.toNat) p) fun _ p' => Read c p (fun t t' => t = s ++ t') p' := by
  induction s generalizing p with
  | nil =>
    refine ⟨p.rd.offset, p.currentChar, ?_, hb, Int.le_refl _, rfl⟩
    obtain ⟨p1, p2, p3, p4, p5, p6⟩ := p
    simp only at ho
    subst ho
    rfl
  | cons x s ih =>
    refine Post.bind (getChar_byte hb) fun ch p' ⟨b, hch, hp, hb', _, hd⟩ => ?_
    subst hp
    have hc := from_cons hb (Int.le_refl _) hd
    refine Post.ite (fun _ => trivial) fun he => ?_
    refine (ih hb' rfl).mono fun v' p' ⟨r, ch', h1, h2, h3, h4⟩ => ?_
    simp only [mv_rdOffset] at h3 h4
    refine ⟨r, ch', by rw [h1, mv_mv], h2, by omega, ?_⟩
    have he : b = x := by
      refine UInt8.toNat_inj.mp ?_
      rw [← hch]; exact Decidable.not_not.mp he
    rw [hc, h4, he]; rfl

theorem entityIdentifier_post (hb : Base c p) :
    Post (entityIdentifier p) fun v p' => Read c p (fun s s' => Ref s v s') p' := by
  refine Post.bind (getChar_byte hb) fun ch p1 ⟨b, hch, hp, hb1, _, hd⟩ => ?_
  subst hp hch
  have hc := from_cons hb (Int.le_refl _) hd
  have seq : ∀ (s : List UInt8) (v : Nat) (q : Parser) (hq : Base c q) (hqo : q.offset = q.rd.offset),
      Post ((do entitySeq (s.map UInt8.toNat); pure v : M Parser Nat) q) fun v' p' => Read c q (fun t t' => t = s ++ t') p' ∧ v' = v := by
    intro s v q hq hqo
    exact Post.bind (entitySeq_post s hq hqo) fun _ p' h => ⟨h, rfl⟩
  have done : ∀ {v : Nat} {p' : Parser} {s : List UInt8},
      Read c (p.mv (p.rd.offset + 1) (p.rd.offset + 1) p.currentChar) (fun t t' => t = s ++ t') p' →
      (∀ t', Ref (b :: (s ++ t')) v t') → Read c p (fun s s' => Ref s v s') p' := by
    rintro v p' s ⟨r, ch, h1, h2, h3, h4⟩ h
    simp only [mv_rdOffset] at h3 h4
    exact ⟨r, ch, by rw [h1, mv_mv], h2, by omega, by rw [hc, h4]; exact h _⟩
  refine Post.ite (fun he => ?_) fun _ => Post.ite (fun he => ?_) fun _ => Post.ite (fun he => ?_) fun _ => Post.ite (fun he => ?_) fun _ => trivial
  · have he : b = ch% '#' := UInt8.toNat_inj.mp he
    refine Post.bind (getChar_byte hb1) fun ch p2 ⟨b2, hch, hp, hb2, _, hd2⟩ => Post.get ?_
    subst hp hch
    have hc2 := from_cons hb1 (Int.le_refl _) hd2
    simp only [mv_rdOffset, mv_mv, mv_cur] at hc2 hb2 ⊢
    have fin : ∀ {v : Nat} {p' : Parser}, Read c p (fun s s' => ∀ {h : Spec.Char11 v}, Ref s v s') p' →
        Post ((if isValidChar v then pure v else M.raise (newEntityError InvalidChar) : M Parser Nat) p')
          fun v p' => Read c p (fun s s' => Ref s v s') p' := by
      rintro v p' ⟨r, ch, h1, h2, h3, h4⟩
      refine Post.ite (fun hv => ?_) fun _ => trivial
      exact ⟨r, ch, h1, h2, h3, h4 (h := (isValidChar_iff _).mp hv)⟩
    refine Post.ite (fun hx => ?_) fun _ => ?_
    · have hx : b2 = ch% 'x' := UInt8.toNat_inj.mp hx
      refine Post.bind (entityHexLoop_post _ hb2) fun v p' ⟨r, ch, h1, h2, h3, h4⟩ => fin ?_
      simp only [mv_rdOffset] at h3 h4
      refine ⟨r, ch, by rw [h1, mv_mv], h2, by omega, fun {hv} => ?_⟩
      rw [hc, he, hc2, hx]
      exact .hex h4 hv
    · refine Post.bind (entityDecLoop_post _ hb2 rfl rfl) fun v p' ⟨r, ch, h1, h2, h3, h4⟩ => fin ?_
      simp only [mv_rdOffset] at h3 h4
      refine ⟨r, ch, by rw [h1, mv_mv], h2, by omega, fun {hv} => ?_⟩
      rw [hc, he, hc2]
      exact .dec h4 hv
  · have he : b = ch% 'a' := UInt8.toNat_inj.mp he
    refine Post.bind (getChar_byte hb1) fun ch p2 ⟨b2, hch, hp, hb2, _, hd2⟩ => ?_
    subst hp hch
    have hc2 := from_cons hb1 (Int.le_refl _) hd2
    simp only [mv_rdOffset, mv_mv, mv_cur] at hc2 hb2 ⊢
    refine Post.ite (fun hx => ?_) fun _ => Post.ite (fun hx => ?_) fun _ => trivial
    · have hx : b2 = ch% 'm' := UInt8.toNat_inj.mp hx
      refine (seq (str% "p;") (ch% '&') _ hb2 rfl).mono ?_
      rintro v p' ⟨⟨r, ch, h1, h2, h3, h4⟩, rfl⟩
      simp only [mv_rdOffset] at h3 h4
      exact ⟨r, ch, by rw [h1, mv_mv], h2, by omega, by rw [hc, he, hc2, hx, h4]; exact .amp⟩
    · have hx : b2 = ch% 'p' := UInt8.toNat_inj.mp hx
      refine (seq (str% "os;") (ch% '\'') _ hb2 rfl).mono ?_
      rintro v p' ⟨⟨r, ch, h1, h2, h3, h4⟩, rfl⟩
      simp only [mv_rdOffset] at h3 h4
      exact ⟨r, ch, by rw [h1, mv_mv], h2, by omega, by rw [hc, he, hc2, hx, h4]; exact .apos⟩
  · have he : b = ch% 'q' := UInt8.toNat_inj.mp he
    refine (seq (str% "uot;") (ch% '"') _ hb1 rfl).mono ?_
    rintro v p' ⟨h, rfl⟩
    exact done h fun t' => by rw [he]; exact .quot
  · refine Post.bind (entitySeq_post (str% "t;") hb1 rfl) fun _ p' h => ?_
    refine Post.ite (fun hg => ?_) fun hg => ?_
    · have hg : b = ch% 'g' := UInt8.toNat_inj.mp hg
      exact done h fun t' => by rw [hg]; exact .gt
    · have he : b = ch% 'l' := UInt8.toNat_inj.mp (he.resolve_left hg)
      exact done h fun t' => by rw [he]; exact .lt

/-! ## Texts -/

/-- Brackets up to another byte. -/
def Brackets (s s' : List UInt8) : Prop := ∃ k x r, s = List.replicate k (ch% ']') ++ x :: r ∧ s' = x :: r ∧ x ≠ ch% ']'

theorem skipBrackets_post {fuel : Nat} (hb : Base c p) : Post (skipBrackets fuel p) fun _ p' => Read c p Brackets p' := by
  induction fuel generalizing p with
  | zero => trivial
  | succ fuel ih =>
    refine Post.bind (skipChar_byte2 hb (ch% ']') (by decide)) fun x p' ⟨hp, hb', b, hd, hx⟩ => ?_
    subst hp
    have hc := from_cons hb (Int.le_refl _) hd
    refine Post.ite (fun h => ?_) fun h => ?_
    · subst h
      refine (ih hb').mono fun v' p' ⟨r, ch', h1, h2, h3, k, y, s, h4, h5, h6⟩ => ?_
      simp only [mv_rdOffset, Bool.toNat_true] at h3 h4
      refine ⟨r, ch', by rw [h1, mv_mv], h2, by omega, k + 1, y, s, ?_, h5, h6⟩
      rw [hc, show p.rd.offset + 1 = p.rd.offset + ((1 : Nat) : Int) from rfl, h4, hx.mp rfl, List.replicate_succ]; rfl
    · have h : x = false := by simpa using h
      subst h
      refine ⟨_, _, rfl, hb', by simp, 0, b, from_ c (p.rd.offset + 1), by rw [hc]; rfl, ?_, fun h => by cases hx.mpr h⟩
      rw [← hc]; simp

/-- A bracket was read: the brackets, which no `>` follows. -/
theorem bracketText_post (hb : Base c p) :
    Post (bracketText p) fun _ p' => Read c p (fun s s' => Item (ch% ']' :: s) s') p' := by
  refine Post.get (Post.bind (skipBrackets_post hb) fun _ p1 ⟨r, ch, hp, hb1, h1, k, y, s, h2, h3, h4⟩ => ?_)
  subst hp
  refine Post.bind (skipChar_byte2 hb1 (ch% '>') (by decide)) fun x p' ⟨hp, hb', b, hd, hx⟩ => ?_
  subst hp
  refine Post.ite (fun _ => post_err _) fun h => ?_
  have h : x = false := by simpa using h
  subst h
  have hh := from_head hb1
  rw [hd] at hh
  simp only [mv_rdOffset] at hh
  rw [h3] at hh
  simp only [List.head?_cons, Option.some.injEq] at hh
  refine ⟨_, _, by rw [mv_mv], hb', by simpa using h1, ?_⟩
  simp only [mv_rdOffset, Bool.toNat_false, Int.natCast_zero, Int.add_zero]
  rw [h2, h3]
  exact .brackets h4 fun h => by cases hx.mpr (by rw [← hh, h])

theorem handleOtherTextChar_post {b : UInt8} (hb : Base c p) :
    Post (handleOtherTextChar b.toNat p) fun _ p' => Read c p (fun s s' => Item (b :: s) s') p' := by
  refine Post.ite (fun h => ?_) fun _ => Post.ite (fun h => ?_) fun _ => post_err _
  · have h : b = ch% '&' := UInt8.toNat_inj.mp h
    refine Post.bind (entityIdentifier_post hb) fun v p' ⟨r, ch, h1, h2, h3, h4⟩ => Post.ite (fun _ => ?_) fun _ => post_err _
    exact ⟨r, ch, h1, h2, h3, by rw [h]; exact .ref h4⟩
  · have h : b = ch% ']' := UInt8.toNat_inj.mp h
    rw [h]; exact bracketText_post hb

theorem textLoop_post {fuel : Nat} (hb : Base c p) : Post (textLoop fuel p) fun _ p' =>
    Read c p TextBody p' ∧ p'.rd.offset ≤ c.endOffset ∧ p.rd.offset + 1 ≤ p'.rd.offset := by
  induction fuel generalizing p with
  | zero => trivial
  | succ fuel ih =>
    refine Post.bind (nextChar_byte hb) fun _ p1 ⟨b, hp, hb1, hlt, hd⟩ => Post.get ?_
    subst hp
    have hc := from_cons hb (Int.le_refl _) hd
    refine Post.ite (fun h => ?_) fun _ => Post.ite (fun h => ?_) fun _ => ?_
    · refine (ih hb1).mono fun v' p' ⟨⟨r, ch', h1, h2, h3, h4⟩, h5, h6⟩ => ?_
      simp only [mv_rdOffset] at h3 h4 h6
      refine ⟨⟨r, ch', by rw [h1, mv_mv], h2, by omega, ?_⟩, h5, by omega⟩
      rw [hc]
      exact .char ((isContentChar_iff _).mp h) h4
    · have h : b = ch% '<' := UInt8.toNat_inj.mp h
      exact ⟨⟨_, _, rfl, hb1, by omega, by rw [hc, h]; exact .stop⟩, by simp; omega, Int.le_refl _⟩
    · refine Post.bind (handleOtherTextChar_post hb1) fun _ p2 ⟨r, ch, h1, h2, h3, h4⟩ => ?_
      subst h1
      simp only [mv_rdOffset, mv_cur, mv_mv] at h3 h4
      refine (ih h2).mono fun v' p' ⟨⟨r', ch', h1', h2', h3', h4'⟩, h5, h6⟩ => ?_
      simp only [mv_rdOffset] at h3' h4' h6
      refine ⟨⟨r', ch', by rw [h1', mv_mv, mv_mv], h2', by omega, ?_⟩, h5, by omega⟩
      rw [hc]
      exact .item h4 h4'

/-! ## Values -/

theorem attrValLoop_post {fuel : Nat} {q : UInt8} (hq : q ≠ ch% '&') (hb : Base c p) : Post (attrValLoop q.toNat fuel p) fun _ p' =>
    Read c p (AttrBody q) p' ∧ p'.rd.offset ≤ c.endOffset ∧ p.rd.offset + 1 ≤ p'.rd.offset := by
  induction fuel generalizing p with
  | zero => trivial
  | succ fuel ih =>
    refine Post.bind (nextChar_byte hb) fun _ p1 ⟨b, hp, hb1, hlt, hd⟩ => Post.get ?_
    subst hp
    have hc := from_cons hb (Int.le_refl _) hd
    refine Post.ite (fun hv => Post.ite (fun h => ?_) fun hnq => Post.ite (fun h => ?_) fun hna => ?_) fun _ => post_err _
    · have h : b = q := UInt8.toNat_inj.mp h
      exact ⟨⟨_, _, rfl, hb1, by omega, by rw [hc, h]; exact .stop⟩, by simp; omega, Int.le_refl _⟩
    · have h : b = ch% '&' := UInt8.toNat_inj.mp h
      refine Post.bind (entityIdentifier_post hb1) fun v p2 ⟨r, ch, h1, h2, h3, h4⟩ => Post.ite (fun _ => ?_) fun _ => post_err _
      subst h1
      simp only [mv_rdOffset, mv_mv] at h3 h4
      refine (ih h2).mono fun v' p' ⟨⟨r', ch', h1', h2', h3', h4'⟩, h5, h6⟩ => ?_
      simp only [mv_rdOffset] at h3' h4' h6
      refine ⟨⟨r', ch', by rw [h1', mv_mv, mv_mv], h2', by omega, ?_⟩, h5, by omega⟩
      rw [hc, h]
      exact .ref h4 h4'
    · refine (ih hb1).mono fun v' p' ⟨⟨r, ch', h1, h2, h3, h4⟩, h5, h6⟩ => ?_
      simp only [mv_rdOffset] at h3 h4 h6
      refine ⟨⟨r, ch', by rw [h1, mv_mv], h2, by omega, ?_⟩, h5, by omega⟩
      rw [hc]
      exact .char ((isValidChar_iff _).mp hv.1) (fun h => hv.2 (congrArg UInt8.toNat h)) (fun h => hna (congrArg UInt8.toNat h))
        (fun h => hnq (congrArg UInt8.toNat h)) h4

/-! ## Comments and CDATA sections -/

theorem commentLoop_body {fuel : Nat} (hb : Base c p) : Post (commentLoop fuel p) fun _ p' =>
    CommentBody (from_ c p.rd.offset) (from_ c p'.rd.offset) := by
  induction fuel generalizing p with
  | zero => trivial
  | succ fuel ih =>
    refine Post.bind (nextChar_byte hb) fun _ p1 ⟨b, hp, hb1, hlt, hd⟩ => Post.get ?_
    subst hp
    have hc := from_cons hb (Int.le_refl _) hd
    refine Post.ite (fun hv => ?_) fun _ => post_err _
    have hv : CharByte b := (isValidChar_iff _).mp hv
    have next : ∀ {q : Parser}, Base c q → q.rd.offset = p.rd.offset + 1 → (b = ch% '-' → (from_ c (p.rd.offset + 1)).head? ≠ some (ch% '-')) →
        Post (commentLoop fuel q) fun _ p' => CommentBody (from_ c p.rd.offset) (from_ c p'.rd.offset) := by
      intro q hq hr hne
      refine (ih hq).mono fun _ p' h => ?_
      rw [hr] at h
      rw [hc]
      exact .char hv hne h
    by_cases hm : b = ch% '-'
    · refine Post.bind (Q := fun x p' => p' = (p.mv (p.rd.offset + 1) (p.rd.offset + 1) b.toNat).mv (p.rd.offset + 1 + x.toNat) (p.rd.offset + 1 + x.toNat) b.toNat ∧ Base c p' ∧
        ∃ y, c.xmlDoc[(p.rd.offset + 1).toNat]? = some y ∧ (x = true ↔ y = ch% '-')) ?_ ?_
      · rw [show (p.mv (p.rd.offset + 1) (p.rd.offset + 1) b.toNat).currentChar = b.toNat from rfl, hm]
        exact skipChar_byte2 (ch := ch% '-') (by rw [← hm]; exact hb1) (by decide)
      · rintro x p2 ⟨rfl, hb2, y, hy, hx⟩
        have hh := from_head hb1
        simp only [mv_rdOffset] at hh
        cases x with
        | true =>
          show CommentBody (from_ c p.rd.offset) (from_ c (p.rd.offset + 1 + (1 : Nat)))
          have hy' := hx.mp rfl
          rw [hc, hm, from_cons (r := p.rd.offset + 1) hb (by omega) hy, hy']
          exact .stop
        | false =>
          refine next hb2 (by simp) fun _ => ?_
          rw [hh, hy]
          intro h
          exact absurd (hx.mpr (Option.some.inj h)) (by simp)
    · refine Post.bind (Q := fun x p' => x = false ∧ p' = p.mv (p.rd.offset + 1) (p.rd.offset + 1) b.toNat) ?_ ?_
      · have : decide ((p.mv (p.rd.offset + 1) (p.rd.offset + 1) b.toNat).currentChar = ch% '-') = false := by
          exact decide_eq_false fun h => hm (UInt8.toNat_inj.mp h)
        rw [this]
        exact ⟨rfl, rfl⟩
      · rintro x p2 ⟨rfl, rfl⟩
        exact next hb1 rfl fun h => absurd h hm

theorem cdataLoop_body {fuel : Nat} (hb : Base c p) : Post (cdataLoop fuel p) fun _ p' =>
    CdataBody (from_ c p.rd.offset) (from_ c p'.rd.offset) := by
  induction fuel generalizing p with
  | zero => trivial
  | succ fuel ih =>
    refine Post.bind (nextChar_byte hb) fun _ p1 ⟨b, hp, hb1, hlt, hd⟩ => Post.get ?_
    subst hp
    have hc := from_cons hb (Int.le_refl _) hd
    refine Post.ite (fun hv => Post.ite (fun hm => ?_) fun hm => ?_) fun _ => post_err _
    · have hm : b = ch% ']' := UInt8.toNat_inj.mp hm
      refine Post.bind (skipBrackets_post hb1) fun _ p2 ⟨r, ch, hp, hb2, h1, k, y, s, h2, h3, h4⟩ => ?_
      subst hp
      simp only [mv_rdOffset, mv_mv] at h1 h2 hb2
      refine Post.bind (skipChar_byte2 hb2 (ch% '>') (by decide)) fun x p' ⟨hp, hb', z, hd2, hx⟩ => ?_
      subst hp
      simp only [mv_rdOffset, mv_mv, mv_cur] at hd2 hb' ⊢
      have hz := from_cons (r := r) hb (by omega) hd2
      have hyz : y = z ∧ s = from_ c (r + 1) := by
        rw [h3] at hz; exact List.cons.inj hz
      cases x with
      | true =>
        show CdataBody (from_ c p.rd.offset) (from_ c (r + (1 : Nat)))
        rw [hc, hm, h2, hyz.1, hx.mp rfl, hyz.2]
        exact .stop
      | false =>
        refine (ih hb').mono fun _ p' h => ?_
        simp only [mv_rdOffset, Bool.toNat_false, Int.natCast_zero, Int.add_zero] at h
        rw [hc, hm, h2]
        rw [h3] at h
        exact .brackets h4 (fun h => absurd (hx.mpr (hyz.1.symm.trans h)) (by simp)) h
    · refine (ih hb1).mono fun _ p' h => ?_
      rw [hc]
      exact .char ((isValidChar_iff _).mp hv) (fun h => hm (congrArg UInt8.toNat h)) h

/-! ## The character and the byte -/

/-- The character is the byte before the reader. -/
def Cur (c : ParserCfg) (p : Parser) : Prop := ∃ y : UInt8, c.xmlDoc[(p.rd.offset - 1).toNat]? = some y ∧ p.currentChar = y.toNat

/-- The same, or the character is part of a name. -/
def CurOk (c : ParserCfg) (p : Parser) : Prop := isNameChar p.currentChar = true ∨ Cur c p

theorem nextChar_cur (hb : Base c p) : Post (nextChar p) fun _ p' => Base c p' ∧ Cur c p' :=
  (nextChar_byte hb).mono fun _ p' ⟨b, hp, hb', _, hd⟩ => by
    subst hp
    refine ⟨hb', b, ?_, rfl⟩
    rw [← hd]; simp

theorem attrNsTest_cur (hb : Base c p) (hc : Cur c p) : Post (attrNsTest p) fun _ p' => CurOk c p' := by
  refine Post.get (Post.ite (fun hx => ?_) fun _ => .inr hc)
  refine Post.bind (skipSeq_post [0x6D, 0x6C, 0x6E, 0x73] (by decide) hb) ?_
  rintro s p' ⟨j, hj, rfl, hb', hd, hs⟩
  refine Post.ite (fun hst => ?_) fun hst => ?_
  · refine Post.bind (nextChar_cur hb') ?_
    rintro _ p' ⟨_, hc'⟩
    refine Post.get (Post.ite (fun _ => ?_) fun _ => Post.ite (fun _ => ?_) fun _ => ?_)
    all_goals exact .inr hc'
  · refine .inl ?_
    show isNameChar p.currentChar = true
    rw [hx]; decide

theorem attrNameLoop_cur {fuel : Nat} (hb : Base c p) (hc : CurOk c p) : Post (attrNameLoop fuel p) fun _ p' => Cur c p' := by
  induction fuel generalizing p with
  | zero => trivial
  | succ fuel ih =>
    refine Post.get (Post.ite (fun hn => Post.ite (fun hcol => Post.modify ?_) fun hcol => ?_) fun hn => ?_)
    · exact Post.bind (nextChar_cur (c := c) (by exact hb)) fun _ p' ⟨h1, h2⟩ => ih h1 (.inr h2)
    · exact Post.bind (nextChar_cur (c := c) (by exact hb)) fun _ p' ⟨h1, h2⟩ => ih h1 (.inr h2)
    · exact hc.resolve_left hn

/-- The reader and the character stay as they are. -/
def RdF (s s' : Parser) : Prop := s'.rd = s.rd ∧ s'.currentChar = s.currentChar

theorem rdF_pre : Two.Pre RdF := ⟨fun _ => ⟨rfl, rfl⟩, fun h h' => ⟨h'.1.trans h.1, h'.2.trans h.2⟩⟩

theorem NsF.rdF {s s' : Parser} (h : Two.NsF s s') : RdF s s' := by
  obtain ⟨⟨_, _, _, _, _, _, rfl⟩, _⟩ := h; exact ⟨rfl, rfl⟩

theorem Fr.rdF {α : Type} {m : M Parser α} (h : Two.Fr Two.NsF m) : Two.Fr RdF m := by
  intro s
  have := h s
  cases hm : m s <;> rw [hm] at this <;> first | exact NsF.rdF this | trivial

theorem attrNsDecl_rd : Two.Fr RdF attrNsDecl := Fr.rdF Two.attrNsDecl_fr

theorem uniqueLoop_rd (n : Nat) (i : Int) (u : Bool) : Two.Fr RdF (uniqueLoop n i u) := by
  induction n generalizing i u with
  | zero => unfold uniqueLoop; exact Two.Fr.pure rdF_pre _
  | succ n ih =>
    unfold uniqueLoop
    refine Two.Fr.bind rdF_pre (Two.Fr.get rdF_pre) fun _ => Two.Fr.bind rdF_pre (Two.Fr.index rdF_pre _ _) fun _ => Two.Fr.ite ?_ (ih _ _)
    exact Two.Fr.bind rdF_pre (Two.sameBytes_fr rdF_pre _ _ _) fun _ => ih _ _

theorem checkAttrUniqueness_rd : Two.Fr RdF checkAttrUniqueness := by
  unfold checkAttrUniqueness
  refine Two.Fr.bind rdF_pre (Two.Fr.get rdF_pre) fun _ => Two.Fr.bind rdF_pre (uniqueLoop_rd _ _ _) fun _ => Two.Fr.ite ?_ ?_
  · exact Two.parseErr_fr rdF_pre _
  · split
    · exact Two.Fr.bind rdF_pre (Two.Fr.modify fun _ => ⟨rfl, rfl⟩) fun _ => Fr.rdF Two.pushPrefixedAttr_fr
    · exact Two.Fr.panic

theorem writeAttrName_rd : Two.Fr RdF writeAttrName := by
  have hv : ∀ t o l d, Two.Fr RdF (writeVtd t o l d) := fun _ _ _ _ => Two.Fr.zoom fun _ _ => ⟨rfl, rfl⟩
  unfold writeAttrName
  refine Two.Fr.bind rdF_pre (Two.Fr.get rdF_pre) fun p => ?_
  refine Two.Fr.ite (Two.Fr.bind rdF_pre (Fr.rdF (Two.onNs3_fr _)) fun _ => ?_) ?_ <;>
    exact Two.Fr.ite (Two.Fr.ite (Two.parseErr_fr rdF_pre _) (hv _ _ _ _)) (Two.Fr.ite (Two.parseErr_fr rdF_pre _) (hv _ _ _ _))

theorem fr_post {α : Type} {F : Parser → Parser → Prop} {m : M Parser α} (h : Two.Fr F m) : Post (m p) fun _ p' => F p p' :=
  Post.of fun _ _ hm => h.ok hm

theorem Cur.mono {p' : Parser} (h : Cur c p) (hf : RdF p p') : Cur c p' := by
  obtain ⟨y, h1, h2⟩ := h
  exact ⟨y, by rw [hf.1]; exact h1, by rw [hf.2]; exact h2⟩

/-- White space, `=`, white space, a quote. -/
theorem attrNameEnd_bytes (hb : Base c p) (h1 : 1 ≤ p.rd.offset) (hc : Cur c p) : Post (attrNameEnd p) fun _ p' => ∃ (w1 w2 : List UInt8) (q : UInt8),
    AllWs w1 ∧ AllWs w2 ∧ (q = ch% '"' ∨ q = ch% '\'') ∧ p'.currentChar = q.toNat ∧
    from_ c (p.rd.offset - 1) = w1 ++ ch% '=' :: (w2 ++ q :: from_ c p'.rd.offset) := by
  have fin : ∀ {q : Parser}, Base c q → 1 ≤ q.rd.offset → Cur c q → Post ((do
        let p ← M.get
        if p.currentChar ≠ ch% '=' then parseErr InvalidChar
        else do
          nextCharAfterWs
          let p ← M.get
          if p.currentChar ≠ ch% '"' ∧ p.currentChar ≠ ch% '\'' then
            parseErr (InvalidChar ++ " should be ' or \" ")
          else do
            markOffset
            pure PState.attrVal : M Parser PState) q) fun _ p' => ∃ (w2 : List UInt8) (u : UInt8), AllWs w2 ∧
              (u = ch% '"' ∨ u = ch% '\'') ∧ p'.currentChar = u.toNat ∧
              from_ c (q.rd.offset - 1) = ch% '=' :: (w2 ++ u :: from_ c p'.rd.offset) := by
    rintro q hb h1 ⟨y, hy, hyc⟩
    refine Post.get (Post.ite (fun _ => post_err _) fun he => ?_)
    refine Post.bind (nextCharAfterWs_byte (c := c) hb) ?_
    rintro _ p' ⟨r, b, w, rfl, hb', hr, hre, hbd, hw, hdrop⟩
    refine Post.get (Post.ite (fun _ => post_err _) fun hq => ?_)
    have he : y = ch% '=' := UInt8.toNat_inj.mp (hyc ▸ Decidable.not_not.mp he)
    refine ⟨w, b, hw, ?_, rfl, ?_⟩
    · simp only [mv_cur] at hq
      by_cases hq1 : b.toNat = ch% '"'
      · exact .inl (UInt8.toNat_inj.mp hq1)
      · refine .inr (UInt8.toNat_inj.mp (Decidable.not_not.mp fun h => hq ⟨hq1, h⟩))
    · obtain ⟨hl, hd⟩ := List.getElem?_eq_some_iff.mp hy
      have h0 := hb.off0; have h0' := hb.off1
      have e := from_cons (r := r) hb hr hbd
      show from_ c (q.rd.offset - 1) = ch% '=' :: (w ++ b :: from_ c (r + 1))
      rw [← e, ← hdrop, from_, List.drop_eq_getElem_cons hl, hd, he]
      congr 2; omega
  refine Post.modify (Post.get (Post.ite (fun hsp => ?_) fun _ => ?_))
  · refine Post.bind (nextCharAfterWs_byte (c := c) (by exact hb)) ?_
    rintro _ p' ⟨r, b, w, rfl, hb', hr, hre, hbd, hw, hdrop⟩
    simp only at hr hdrop
    have hbd' : c.xmlDoc[(r + 1 - 1).toNat]? = some b := by rw [← hbd]; simp
    refine (fin hb' (by simp; omega) ⟨b, by exact hbd', rfl⟩).mono ?_
    rintro st p' ⟨w2, u, h2, h3, h4, h5⟩
    obtain ⟨y, hy, hyc⟩ := hc
    obtain ⟨hl, hd⟩ := List.getElem?_eq_some_iff.mp hy
    refine ⟨y :: w, w2, u, ?_, h2, h3, h4, ?_⟩
    · intro z hz
      rcases List.mem_cons.mp hz with rfl | hz
      · exact (isSpaceChar_iff _).mp (hyc ▸ hsp)
      · exact hw z hz
    · simp only [mv_rdOffset] at h5
      have h0 := hb.off0; have h0' := hb.off1
      rw [show r + 1 - 1 = r by omega] at h5
      rw [from_, List.drop_eq_getElem_cons hl, hd, List.cons_append, ← h5, ← hdrop]
      congr 2; omega
  · refine Post.mono (fin (q := { p with length2 := 0 }) (by exact hb) h1 hc) ?_
    rintro st p' ⟨w2, u, h2, h3, h4, h5⟩
    exact ⟨[], w2, u, (fun _ h => by cases h), h2, h3, h4, h5⟩

end Ev
end Parser
end GoVtd
