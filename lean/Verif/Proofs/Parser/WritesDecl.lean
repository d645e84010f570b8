import Verif.Proofs.Parser.WritesDoc

/-!
# The records of the XML declaration
-/

namespace GoVtd
namespace Parser
namespace Wr
open Paged Grammar Two Ev
variable {c : ParserCfg} {p : Parser} {o0 out : ParserOut} {xs : List Rec} {pos cnt : Int}
  {es : List Mark} {stk : List (Nat × Nat)} {recs : List Rec}

/-- A test that reads at least `n` bytes if it succeeds. -/
def Took (c : ParserCfg) (n : Nat) (p : Parser) (b : Bool) (p' : Parser) : Prop :=
  ∃ r, p' = p.mv r r p.currentChar ∧ Base c p' ∧ p.rd.offset ≤ r ∧ (b = true → p.rd.offset + n ≤ r)

theorem skip_took {ch : Nat} (hb : Base c p) (hch : ch ≠ 0) : Post (skipChar ch p) (Took c 1 p) :=
  sat_post ((skipChar_sat hb hch).mono (fun _ _ ⟨h1, h2⟩ => ⟨_, h1, h2, by omega, by rintro rfl; simp⟩) (fun _ _ h => h) id id)

theorem seq_took (seq : List Nat) (hseq : ∀ x ∈ seq, x ≠ 0) {p : Parser} (hb : Base c p) :
    Post (skipCharSeq seq p) (Took c seq.length p) := by
  induction seq generalizing p with
  | nil =>
    rw [skipCharSeq_nil]
    exact ⟨_, rfl, hb.mv _ (Int.le_trans hb.off0 hb.off1) (Int.le_refl _) hb.off2 hb.sent, Int.le_refl _, by simp⟩
  | cons ch seq ih =>
    rw [skipCharSeq_cons]
    refine Post.bind (m := skipChar ch) (skip_took hb (hseq ch (by simp))) ?_
    rintro b p' ⟨r, rfl, hb', h1, h2⟩
    cases b
    · exact ⟨_, rfl, hb', h1, by simp⟩
    · refine (ih (fun x hx => hseq x (by simp [hx])) hb').mono ?_
      rintro b p' ⟨r2, rfl, hb2, h3, h4⟩
      have := h2 rfl
      simp only [mv_rdOffset] at h3 h4
      exact ⟨r2, rfl, hb2, by omega, fun h => by have := h4 h; simp only [List.length_cons]; omega⟩

theorem or_took {n : Nat} {a b : M Parser Bool} (ha : Post (a p) (Took c n p)) (hb : ∀ p', Base c p' → Post (b p') (Took c n p')) :
    Post ((a ||! b) p) (Took c n p) := by
  refine Post.bind ha ?_
  rintro x p' ⟨r, rfl, h1, h2, h3⟩
  cases x
  · refine (hb _ h1).mono ?_
    rintro x p' ⟨r2, rfl, h4, h5, h6⟩
    simp only [mv_rdOffset] at h5 h6
    exact ⟨r2, rfl, h4, by omega, fun h => by have := h6 h; omega⟩
  · exact ⟨r, rfl, h1, h2, h3⟩

theorem and_took {n m : Nat} {a b : M Parser Bool} (ha : Post (a p) (Took c n p)) (hb : ∀ p', Base c p' → Post (b p') (Took c m p')) :
    Post ((a &&! b) p) (Took c (n + m) p) := by
  refine Post.bind ha ?_
  rintro x p' ⟨r, rfl, h1, h2, h3⟩
  cases x
  · exact ⟨r, rfl, h1, h2, by simp⟩
  · refine (hb _ h1).mono ?_
    rintro x p' ⟨r2, rfl, h4, h5, h6⟩
    simp only [mv_rdOffset] at h5 h6
    have := h3 rfl
    exact ⟨r2, rfl, h4, by omega, fun h => by have := h6 h; omega⟩

theorem pure_took (hb : Base c p) (hsy : p.offset = p.rd.offset) (x : Bool) : Post ((pure x : M Parser Bool) p) (Took c 0 p) :=
  ⟨p.rd.offset, (mv_sync hsy).symm, hb, Int.le_refl _, by simp⟩

theorem up_ne {ch : Nat} (h : ch ≠ 0) : toUpperChar ch ≠ 0 := by simp only [toUpperChar]; split <;> omega

theorem ignoreCase_took (seq : List Nat) (hseq : ∀ x ∈ seq, x ≠ 0) {p : Parser} (hb : Base c p) (hsy : p.offset = p.rd.offset) :
    Post (skipCharSeqIgnoreCase seq p) (Took c seq.length p) := by
  induction seq generalizing p with
  | nil => exact pure_took hb hsy true
  | cons ch seq ih =>
    have hch := hseq ch (by simp)
    refine Post.bind (or_took (skip_took hb hch) fun p' h1 => skip_took h1 (up_ne hch)) ?_
    rintro b p' ⟨r, rfl, hb', h1, h2⟩
    cases b
    · exact ⟨_, rfl, hb', h1, by simp⟩
    · refine (ih (fun x hx => hseq x (by simp [hx])) hb' rfl).mono ?_
      rintro b p' ⟨r2, rfl, hb2, h3, h4⟩
      have := h2 rfl
      simp only [mv_rdOffset] at h3 h4
      exact ⟨r2, rfl, hb2, by omega, fun h => by have := h4 h; simp only [List.length_cons]; omega⟩

theorem orUpper_took (seq : List Nat) (hseq : ∀ x ∈ seq, x ≠ 0) (hb : Base c p) :
    Post (skipSeqOrUpper seq p) (Took c seq.length p) := by
  refine or_took (seq_took seq hseq hb) fun p' h1 => ?_
  have := seq_took (c := c) (seq.map toUpperChar) (fun x hx => ?_) h1
  · rwa [List.length_map] at this
  · obtain ⟨y, hy, rfl⟩ := List.mem_map.mp hx
    exact up_ne (hseq y hy)

/-- After a test. -/
theorem Post.took {β : Type} {n : Nat} {m : M Parser Bool} {k : Bool → M Parser β} {Q : β → Parser → Prop}
    (h : Post (m p) (Took c n p))
    (hk : ∀ b r, Base c (p.mv r r p.currentChar) → p.rd.offset ≤ r → (b = true → p.rd.offset + n ≤ r) →
      Post (k b (p.mv r r p.currentChar)) Q) : Post ((m >>= k) p) Q :=
  Post.bind h fun b p' ⟨r, hp, hb, h1, h2⟩ => by subst hp; exact hk b r hb h1 h2

theorem post_vtd (hb : Base c p) (l : Int) : Post (writeVtd .decAttrVal p.lastOffset l p.depth p) fun _ q =>
    q = { p with out := Parser.emit c.shallowDepth p.out [⟨.decAttrVal, p.lastOffset, l, p.depth⟩] } ∧ Base c q := by
  rw [writeVtd_emit hb.out c.shallowDepth _ _ _ _ (by decide)]
  exact ⟨rfl, hb.ofOut (emit_ok hb.out _ _)⟩

/-! ## The name of the encoding -/

/-- The value that was written, and how far the reader is. -/
def EncQ (c : ParserCfg) (p q : Parser) : Prop :=
  ∃ r l, q = ({ p with out := Parser.emit c.shallowDepth p.out [⟨.decAttrVal, p.lastOffset, l, p.depth⟩] } : Parser).mv r r p.currentChar ∧
    Base c q ∧ 0 ≤ l ∧ l ≤ 12 ∧ p.rd.offset + l ≤ r + 2

theorem encQ_of {r l : Int} (hb : Base c (p.mv r r p.currentChar)) (h0 : 0 ≤ l) (h1 : l ≤ 12) (h2 : p.rd.offset + l ≤ r + 2) :
    Post (writeVtd .decAttrVal p.lastOffset l p.depth (p.mv r r p.currentChar)) fun _ q => EncQ c p q := by
  refine (post_vtd hb l).mono ?_
  rintro _ q ⟨rfl, hq⟩
  exact ⟨r, l, rfl, hq, h0, h1, h2⟩

theorem checkEncodingName_w (hb : Base c p) (hsy : p.offset = p.rd.offset) : Post (checkEncodingName p) fun _ q => EncQ c p q := by
  refine Post.get (Post.ite (fun _ => ?_) fun _ => Post.ite (fun _ => ?_) fun _ => Post.ite (fun _ => ?_) fun _ =>
    Post.ite (fun _ => ?_) fun _ => Post.ite (fun _ => ?_) fun _ => post_err _)
  · refine Post.took (orUpper_took _ (by decide) hb) fun b r hb1 h1 h2 => Post.ite (fun _ => Post.get ?_) fun _ => post_err _
    rw [encodingFixed_eq hb1, if_pos rfl]
    exact post_err _
  · refine Post.took (orUpper_took _ (by decide) hb) fun b r hb1 h1 h2 => Post.ite (fun hx => Post.get ?_) fun _ => post_err _
    have := h2 hx
    refine Post.ite (fun _ => post_err _) fun _ => ?_
    exact encQ_of hb1 (by decide) (by decide) (by simp at this; omega)
  · refine Post.took (orUpper_took _ (by decide) hb) fun b r hb1 h1 h2 => Post.ite (fun _ => Post.get ?_) fun _ => post_err _
    rw [encodingFixed_eq hb1, if_pos rfl]
    exact post_err _
  · refine Post.took (skip_took hb (by decide)) fun b r hb1 h1 h2 => Post.ite (fun _ => ?_) fun _ => ?_
    · refine Post.took (orUpper_took _ (by decide) hb1) fun b r hb1 h1 h2 => Post.ite (fun _ => Post.get ?_) fun _ => post_err _
      rw [encodingFixed_eq hb1, if_pos rfl]
      exact post_err _
    · refine Post.took (ignoreCase_took _ (by decide) hb1 rfl) fun b r2 hb2 h3 h4 => Post.ite (fun hx => ?_) fun _ => post_err _
      have h4 := h4 hx
      refine Post.took (skip_took hb2 (by decide)) fun b r3 hb3 h5 h6 => Post.ite (fun hx => Post.get ?_) fun _ => ?_
      · have h6 := h6 hx
        simp only [mv_rdOffset, List.length_cons, List.length_nil] at h4 h6
        refine Post.ite (fun _ => ?_) fun _ => post_err _
        exact encQ_of (p := p) hb3 (by decide) (by decide) (by omega)
      · refine Post.took (ignoreCase_took _ (by decide) hb3 rfl) fun b r4 hb4 h7 h8 => Post.ite (fun _ => ?_) fun _ => post_err _
        refine Post.took (ignoreCase_took _ (by decide) hb4 rfl) fun b r5 hb5 h7 h8 => Post.ite (fun _ => Post.get ?_) fun _ => ?_
        · rw [if_neg (by rw [hb5.encoding]; decide)]
          exact post_err _
        · refine Post.took (ignoreCase_took _ (by decide) hb5 rfl) fun b r6 hb6 h7 h8 => Post.get (Post.ite (fun _ => ?_) fun _ => ?_)
          · rw [if_neg (by rw [hb6.encoding]; decide)]
            exact post_err _
          · rw [if_neg (by rw [hb6.single]; decide)]
            exact post_err _
  · refine Post.took (orUpper_took _ (by decide) hb) fun b r hb1 h1 h2 => Post.ite (fun hx => Post.get ?_) fun _ => post_err _
    have := h2 hx
    refine Post.ite (fun _ => post_err _) fun _ => ?_
    exact encQ_of hb1 (by decide) (by decide) (by simp at this; omega)

/-! ## The parts -/

/-- A name and its value. -/
theorem Wrote.pair (hw : Wrote c o0 out xs pos cnt) (hb : Base c p) {o l o' l' d pos' cnt' : Int} (hr : Rest d (lastRec xs))
    (h0 : pos ≤ o) (h1 : 0 ≤ l) (h2 : l ≤ 12) (h3 : o + l ≤ o') (h4 : 0 ≤ l') (h5 : l' ≤ 12) (h6 : o' + l' ≤ pos') (h7 : o' + l' ≤ c.endOffset)
    (d0 : -1 ≤ d) (d1 : d ≤ 254) (h8 : cnt + 4 ≤ cnt') :
    Wrote c o0 (Parser.emit c.shallowDepth (Parser.emit c.shallowDepth out [⟨.decAttrName, o, l, d⟩]) [⟨.decAttrVal, o', l', d⟩])
      ((xs ++ [⟨.decAttrName, o, l, d⟩]) ++ [⟨.decAttrVal, o', l', d⟩]) pos' cnt' ∧
      Rest d (lastRec ((xs ++ [⟨.decAttrName, o, l, d⟩]) ++ [⟨.decAttrVal, o', l', d⟩])) := by
  have hle := hw.le
  have hs := hb.start
  have hm : (12 : Int) ≤ maxLen := by decide
  have hw1 := hw.one (pos' := o + l) (cnt' := cnt + 2) (y := ⟨.decAttrName, o, l, d⟩) h0 (by simp [Rec.stop]) (by omega)
    (ok_plain hb (by decide) (by omega) h1 (by omega) (by omega) d0 d1) (by omega) (Link.decName hr)
  refine ⟨hw1.one (by simpa using h3) (by simpa [Rec.stop] using h6) (by omega)
    (ok_plain hb (by decide) (by omega) h4 (by omega) h7 d0 d1) (by omega) ?_, ?_⟩
  · rw [lastRec_one]; exact Link.value_ rfl rfl trivial
  · rw [lastRec_one]; exact ⟨rfl, Int.le_refl _⟩

/-- Between the parts. -/
structure Dec (c : ParserCfg) (o0 : ParserOut) (m : Int) (p : Parser) : Prop where
  base : Base c p
  sync : p.offset = p.rd.offset
  le : m ≤ p.rd.offset
  wr : ∃ xs, Wrote c o0 p.out xs m m ∧ Rest p.depth (lastRec xs)
  d0 : -1 ≤ p.depth
  d1 : p.depth ≤ 254

theorem Dec.all {m : Int} (h : Dec c o0 m p) : Dec c o0 p.rd.offset p := by
  obtain ⟨xs, h1, h2⟩ := h.wr
  exact ⟨h.base, h.sync, Int.le_refl _, ⟨xs, h1.mono h.le h.le, h2⟩, h.d0, h.d1⟩

/-- After a quote is expected. -/
theorem Post.quote {β : Type} {k : Unit → M Parser β} {Q : β → Parser → Prop}
    (hk : (p.currentChar = ch% '\'' ∨ p.currentChar = ch% '"') → Post (k () p) Q) : Post ((expectQuote >>= k) p) Q := by
  refine Post.bind (Q := fun _ q => q = p ∧ (p.currentChar = ch% '\'' ∨ p.currentChar = ch% '"')) ?_ ?_
  · exact Post.get (Post.ite (fun _ => post_err _) fun hq => ⟨rfl, by omega⟩)
  · rintro _ q ⟨rfl, hq⟩
    exact hk hq

theorem Post.eq_ {β : Type} {k : Unit → M Parser β} {Q : β → Parser → Prop} (hb : Base c p)
    (hk : ∀ r ch, Base c (p.mv r r ch) → p.rd.offset + 1 ≤ r → r ≤ c.endOffset → Post (k () (p.mv r r ch)) Q) :
    Post ((expectEq >>= k) p) Q := by
  have : Post (expectEq p) fun _ p' => Moved c p (p.rd.offset + 1) p' ∧ p'.rd.offset ≤ c.endOffset := by
    refine Post.movedIn (sat_post (nextCharAfterWs_moved hb)) fun _ r ch hb hl he => Post.get (Post.ite (fun _ => post_err _) fun _ => ?_)
    exact ⟨⟨r, ch, rfl, hb, hl⟩, he⟩
  exact Post.movedIn this fun _ r ch hb hl he => hk r ch hb hl he

theorem encodingAttr_w {m : Int} (h : Dec c o0 m p) (hl : p.lastOffset = m) (h8 : m + 8 ≤ p.rd.offset) :
    Post (processDecEncodingAttr p) fun _ q => Dec c o0 q.lastOffset q ∧ q.lastOffset + 1 = q.rd.offset := by
  obtain ⟨xs, hw, hr⟩ := h.wr
  have hd0 := h.d0
  have hd1 := h.d1
  refine Post.eq_ h.base fun r1 ch1 hb1 h1 e1 => ?_
  refine Post.at_ hb1 _ (by decide) _ fun hb2 => ?_
  simp only [Parser.mv] at hb2 ⊢
  refine Post.movedIn (sat_post (nextCharAfterWs_moved hb2)) fun _ r3 ch3 hb3 h3 e3 => Post.quote fun _ => Post.modify ?_
  simp only [Parser.mv] at h3 hb3 ⊢
  refine Post.movedIn (sat_post (nextChar_moved (by exact hb3))) fun _ r4 ch4 hb4 h4 e4 => ?_
  simp only at h4
  refine Post.bind (checkEncodingName_w hb4 rfl) ?_
  rintro _ q ⟨r5, l, rfl, hb5, hl0, hl1, h5⟩
  simp only [mv_rdOffset] at h5
  refine Post.movedIn (sat_post (nextChar_moved hb5)) fun _ r6 ch6 hb6 h6 e6 => Post.quote fun _ => ?_
  simp only [mv_rdOffset] at h6
  refine Post.movedIn (sat_post (nextCharAfterWs_moved hb6)) fun _ r7 ch7 hb7 h7 e7 => ?_
  simp only [mv_rdOffset] at h7
  have hi := h.base.inc
  obtain ⟨hw', hr'⟩ := hw.pair h.base (o := p.lastOffset) (l := 8) (o' := r3) (l' := l) (d := p.depth) (pos' := r7 - 1) (cnt' := r7 - 1) hr
    (by omega) (by omega) (by omega) (by omega) hl0 hl1 (by omega) (by omega) hd0 hd1 (by omega)
  refine ⟨⟨by exact hb7, rfl, ?_, ⟨_, ?_, by exact hr'⟩, hd0, hd1⟩, ?_⟩
  · show r7 - p.enc.increment ≤ r7
    omega
  · show Wrote _ _ _ _ (r7 - p.enc.increment) (r7 - p.enc.increment)
    rw [hi]
    exact hw'
  · show r7 - p.enc.increment + 1 = r7
    omega

theorem standaloneAttr_w {m : Int} (h : Dec c o0 m p) (hl : p.lastOffset = m) (h8 : m + 10 ≤ p.rd.offset) :
    Post (processDecStandaloneAttr p) fun _ q => Dec c o0 q.rd.offset q := by
  obtain ⟨xs, hw, hr⟩ := h.wr
  have hd0 := h.d0
  have hd1 := h.d1
  refine Post.eq_ h.base fun r1 ch1 hb1 h1 e1 => ?_
  refine Post.at_ hb1 _ (by decide) _ fun hb2 => ?_
  simp only [Parser.mv] at hb2 ⊢
  refine Post.movedIn (sat_post (nextCharAfterWs_moved hb2)) fun _ r3 ch3 hb3 h3 e3 => Post.modify (Post.quote fun _ => ?_)
  simp only [Parser.mv] at h3 hb3 ⊢
  refine Post.took (seq_took _ (by decide) (by exact hb3)) fun b r4 hb4 h4 h4' => ?_
  simp only [List.length_cons, List.length_nil] at h4 h4'
  have tail : ∀ {q : Parser} {l : Int}, Base c q → 0 ≤ l → l ≤ 12 → r3 + l ≤ q.rd.offset → r3 ≤ q.rd.offset → q.depth = p.depth →
      q.out = Parser.emit c.shallowDepth (Parser.emit c.shallowDepth p.out [⟨.decAttrName, p.lastOffset, 10, p.depth⟩]) [⟨.decAttrVal, r3, l, p.depth⟩] →
      Post ((do nextChar; expectQuote; nextCharAfterWs : M Parser Unit) q) fun _ q => Dec c o0 q.rd.offset q := by
    intro q l hb a0 a1 a2 a3 a4 a5
    refine Post.movedIn (sat_post (nextChar_moved hb)) fun _ r6 ch6 hb6 h6 e6 => Post.quote fun _ => ?_
    refine (sat_post (nextCharAfterWs_moved hb6)).mono ?_
    rintro _ q' ⟨⟨r7, ch7, rfl, hb7, h7⟩, e7⟩
    simp only [mv_rdOffset] at h7
    obtain ⟨hw', hr'⟩ := hw.pair h.base (o := p.lastOffset) (l := 10) (o' := r3) (l' := l) (d := p.depth) (pos' := r7) (cnt' := r7) hr
      (by omega) (by omega) (by omega) (by omega) a0 a1 (by omega) (by omega) hd0 hd1 (by omega)
    refine ⟨hb7, rfl, Int.le_refl _, ⟨(xs ++ [⟨.decAttrName, p.lastOffset, 10, p.depth⟩]) ++ [⟨.decAttrVal, r3, l, p.depth⟩], ?_, ?_⟩, ?_, ?_⟩
    · show Wrote _ _ q.out _ r7 r7
      rw [a5]; exact hw'
    · show Rest q.depth _
      rw [a4]; exact hr'
    · show -1 ≤ q.depth
      omega
    · show q.depth ≤ 254
      omega
  refine Post.ite (fun hx => ?_) fun _ => ?_
  · refine Post.at_ hb4 _ (by decide) _ fun hb5 => ?_
    exact tail (l := 3) hb5 (by decide) (by decide) (by have := h4' hx; simp; omega) h4 rfl rfl
  · refine Post.took (seq_took _ (by decide) hb4) fun b r5 hb5 h5 h5' => ?_
    simp only [List.length_cons, List.length_nil, mv_rdOffset] at h5 h5'
    refine Post.ite (fun hx => ?_) fun _ => ?_
    · refine Post.at_ hb5 _ (by decide) _ fun hb6 => ?_
      exact tail (l := 2) hb6 (by decide) (by decide) (by have := h5' hx; simp; omega) (by simp; omega) rfl rfl
    · exact Post.bind (Q := fun _ _ => False) (post_err _) fun _ _ h => h.elim

theorem version_w (h : G c o0 .decAttrName p es stk recs) (w : W c o0 .decAttrName p xs) :
    Post (decVersion p) fun _ q => Dec c o0 q.rd.offset q := by
  have hr : Rest p.depth (lastRec xs) := w.last
  have hw : Wrote c o0 p.out xs (p.lastOffset - 1) p.rd.offset := w.wr
  have hl : p.lastOffset = p.rd.offset := w.pos
  have hd0 := h.inv.slots.dep0
  have hd1 := h.inv.deep (by decide)
  have hsy := h.inv.sync (by simp)
  have hb0 := h.inv.base
  refine Post.get (Post.took (and_took (pure_took hb0 hsy _) fun _ h1 => seq_took _ (by decide) h1) fun b r0 hb h0 h0' =>
    Post.ite (fun hx => ?_) fun _ => post_err _)
  have h0' := h0' hx
  simp only [List.length_cons, List.length_nil] at h0'
  refine Post.eq_ hb fun r1 ch1 hb1 h1 e1 => Post.get ?_
  simp only [mv_rdOffset] at h1
  rw [if_pos (by exact hb1.single), M.bind_apply, writeVtd_emit hb1.out c.shallowDepth _ _ _ _ (by decide), Res.andThen_ok]
  have hb2 := hb1.ofOut (emit_ok hb1.out c.shallowDepth [⟨.decAttrName, p.lastOffset - 1, 7, p.depth⟩])
  simp only [Parser.mv] at hb2 ⊢
  refine Post.movedIn (sat_post (nextCharAfterWs_moved hb2)) fun _ r3 ch3 hb3 h3 e3 => Post.quote fun hq => Post.modify ?_
  simp only [Parser.mv] at h3 hb3 hq ⊢
  refine Post.took (and_took (seq_took _ (by decide) (by exact hb3)) fun _ h1 => or_took (skip_took h1 (by decide))
    fun _ h1 => skip_took h1 (by decide)) fun b r4 hb4 h4 h4' => ?_
  simp only [List.length_cons, List.length_nil] at h4 h4'
  refine Post.ite (fun hx => ?_) fun _ => Post.bind (Q := fun _ _ => False) (post_err _) fun _ _ h => h.elim
  have h4' := h4' hx
  refine Post.at_ hb4 _ (by decide) _ fun hb5 => Post.get ?_
  refine Post.skip hb5 (by simp; omega) fun b hb6 => Post.ite (fun hx => ?_) fun _ => post_err _
  subst hx
  refine (sat_post (nextChar_moved hb6)).mono ?_
  rintro _ q' ⟨⟨r7, ch7, rfl, hb7, h7⟩, e7⟩
  simp only [mv_rdOffset, Bool.toNat_true] at h7 e7
  obtain ⟨hw', hr'⟩ := hw.pair hb0 (o := p.lastOffset - 1) (l := 7) (o' := r3) (l' := 3) (d := p.depth) (pos' := r7) (cnt' := r7) hr
    (by omega) (by omega) (by omega) (by omega) (by omega) (by omega) (by omega) (by omega) hd0 hd1 (by omega)
  exact ⟨hb7, rfl, Int.le_refl _, ⟨_, by exact hw', by exact hr'⟩, hd0, hd1⟩

theorem optional_w (h : Dec c o0 p.rd.offset p) : Post (decOptional p) fun _ q => Dec c o0 q.rd.offset q := by
  refine Post.get (Post.ite (fun _ => ?_) fun _ => h)
  refine Post.movedIn (sat_post (nextCharAfterWs_moved h.base)) fun _ r1 ch1 hb1 h1 e1 => Post.modify (Post.get ?_)
  have hi := h.base.inc
  obtain ⟨xs, hw, hr⟩ := h.wr
  have tail : ∀ p : Parser, Dec c o0 p.lastOffset p → p.lastOffset + 1 = p.rd.offset → Post ((do
      let p ← M.get
      if p.currentChar = ch% 's' then do
        let s ← skipCharSeq (str% "tandalone")
        if s then processDecStandaloneAttr else Parser.parseErr "declaration should be standalone"
      else pure () : M Parser Unit) p) fun _ q => Dec c o0 q.rd.offset q := by
    intro p h hl
    refine Post.get (Post.ite (fun _ => ?_) fun _ => h.all)
    refine Post.took (seq_took _ (by decide) h.base) fun b r hb h1 h2 => Post.ite (fun hx => ?_) fun _ => post_err _
    have h2 := h2 hx
    simp only [List.length_cons, List.length_nil] at h2
    exact standaloneAttr_w (m := p.lastOffset) ⟨hb, rfl, by simp; omega, h.wr, h.d0, h.d1⟩ rfl (by simp; omega)
  have hD : Dec c o0 (r1 - 1) ({ p.mv r1 r1 ch1 with lastOffset := (p.mv r1 r1 ch1).offset - (p.mv r1 r1 ch1).enc.increment } : Parser) :=
    ⟨by exact hb1, rfl, by simp; omega, ⟨xs, hw.mono (by omega) (by omega), hr⟩, h.d0, h.d1⟩
  refine Post.ite (fun _ => ?_) fun _ => ?_
  · refine Post.took (seq_took _ (by decide) hD.base) fun b r hb h2 h3 => Post.ite (fun hx => ?_) fun _ =>
      Post.bind (Q := fun _ _ => False) (post_err _) fun _ _ h => h.elim
    have h3 := h3 hx
    simp only [List.length_cons, List.length_nil, mv_rdOffset] at h3 h2
    refine Post.bind (encodingAttr_w (m := r1 - 1) ⟨hb, rfl, by simp; omega, hD.wr, hD.d0, hD.d1⟩ ?_ (by simp; omega)) fun _ q ⟨hq, hq'⟩ => tail q hq hq'
    show r1 - p.enc.increment = _
    rw [hi]
  · refine tail _ ?_ ?_
    · show Dec c o0 (r1 - p.enc.increment) _
      rw [hi]; exact hD
    · show r1 - p.enc.increment + 1 = r1
      omega

theorem decl_w (h : G c o0 .decAttrName p es stk recs) (w : W c o0 .decAttrName p xs) : Post (processDecAttrName p) (Next c o0) := by
  refine Post.bind (version_w h w) fun _ q1 h1 => Post.bind (optional_w h1) fun _ q2 h2 => Post.get ?_
  obtain ⟨ys, hw, hr⟩ := h2.wr
  refine Post.took (and_took (pure_took h2.base h2.sync _) fun _ h1 => skip_took h1 (by decide)) fun b r hb h3 h4 =>
    Post.ite (fun hx => Post.modify ?_) fun _ => post_err _
  refine Post.movedIn (sat_post (nextCharAfterWs_moved (by exact hb))) fun _ r2 ch2 hb2 h5 e2 => Post.get (Post.ite (fun _ => ?_) fun _ => post_err _)
  simp only [mv_rdOffset] at h5
  exact W.lt hw hr (by simp; omega) (by simp; omega)

end Wr
end Parser
end GoVtd
