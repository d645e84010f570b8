import Verif.Proofs.Parser.Writes

/-!
# The records of the steps outside of start tags
-/

namespace GoVtd
namespace Parser
namespace Wr
open Paged Grammar Two Ev
variable {c : ParserCfg} {p : Parser} {o0 out : ParserOut} {xs : List Rec} {pos cnt : Int}
  {es : List Mark} {stk : List (Nat × Nat)} {recs : List Rec}

/-! ## Calls -/

theorem Post.moved {α β : Type} {m : M Parser α} {k : α → M Parser β} {lo : Int} {Q : β → Parser → Prop}
    (h : (m p).Sat (fun _ p' => Moved c p lo p') (Er c) (Pn c) False)
    (hk : ∀ a r ch, Base c (p.mv r r ch) → lo ≤ r → Post (k a (p.mv r r ch)) Q) : Post ((m >>= k) p) Q :=
  Post.bind (sat_post h) fun a p' ⟨r, ch, hp, hb, hl⟩ => by subst hp; exact hk a r ch hb hl

theorem Post.movedIn {α β : Type} {m : M Parser α} {k : α → M Parser β} {lo : Int} {Q : β → Parser → Prop}
    (h : Post (m p) (fun _ p' => Moved c p lo p' ∧ p'.rd.offset ≤ c.endOffset))
    (hk : ∀ a r ch, Base c (p.mv r r ch) → lo ≤ r → r ≤ c.endOffset → Post (k a (p.mv r r ch)) Q) : Post ((m >>= k) p) Q :=
  Post.bind h fun a p' ⟨⟨r, ch, hp, hb, hl⟩, he⟩ => by subst hp; exact hk a r ch hb hl he

theorem Post.check {β : Type} {k : Unit → M Parser β} {Q : β → Parser → Prop} (hb : Base c p) (t : Token)
    (ht : t ≠ .startingTag) (msg : String)
    (hk : p.length1 ≤ maxLen → Base c { p with out := Parser.emit c.shallowDepth p.out [⟨t, p.lastOffset, p.length1, p.depth⟩] } →
      Post (k () { p with out := Parser.emit c.shallowDepth p.out [⟨t, p.lastOffset, p.length1, p.depth⟩] }) Q) :
    Post ((writeVtdWithLengthCheck t msg >>= k) p) Q := by
  refine Post.of fun a s h => ?_
  rw [M.bind_apply] at h
  cases hw : writeVtdWithLengthCheck t msg p with
  | ok u q =>
    have := (leads_writeCheck (K := fun _ s => s = q) hb t ht msg).mp ⟨u, q, hw, rfl⟩
    obtain ⟨h1, h2⟩ := this
    rw [hw, Res.andThen_ok] at h
    subst h2
    exact (hk h1 (hb.ofOut (emit_ok hb.out _ _))).eq h
  | err e q => rw [hw] at h; cases h
  | panic => rw [hw] at h; cases h
  | diverge => rw [hw] at h; cases h

theorem Post.text {β : Type} {k : Unit → M Parser β} {Q : β → Parser → Prop} (hb : Base c p) (t : Token)
    (ht : t ≠ .startingTag)
    (hk : Base c { p with out := Parser.emit c.shallowDepth p.out (textRecs t p.lastOffset p.length1 p.depth) } →
      Post (k () { p with out := Parser.emit c.shallowDepth p.out (textRecs t p.lastOffset p.length1 p.depth) }) Q) :
    Post ((writeText t >>= k) p) Q := by
  rw [M.bind_apply, writeText_go hb t ht, Res.andThen_ok]
  exact hk (hb.ofOut (emit_ok hb.out _ _))

theorem Post.at_ {β : Type} {k : Unit → M Parser β} {Q : β → Parser → Prop} (hb : Base c p) (t : Token)
    (ht : t ≠ .startingTag) (l : Int)
    (hk : Base c { p with out := Parser.emit c.shallowDepth p.out [⟨t, p.lastOffset, l, p.depth⟩] } →
      Post (k () { p with out := Parser.emit c.shallowDepth p.out [⟨t, p.lastOffset, l, p.depth⟩] }) Q) :
    Post ((writeAt t l >>= k) p) Q := by
  rw [M.bind_apply, writeAt_go hb t ht, Res.andThen_ok]
  exact hk (hb.ofOut (emit_ok hb.out _ _))

theorem Post.skip {β : Type} {k : Bool → M Parser β} {Q : β → Parser → Prop} (hb : Base c p) {ch : Nat} (hch : ch ≠ 0)
    (hk : ∀ b : Bool, Base c (p.mv (p.rd.offset + b.toNat) (p.rd.offset + b.toNat) p.currentChar) →
      Post (k b (p.mv (p.rd.offset + b.toNat) (p.rd.offset + b.toNat) p.currentChar)) Q) : Post ((skipChar ch >>= k) p) Q :=
  Post.bind (sat_post (skipChar_sat hb hch)) fun b p' ⟨h1, h2⟩ => by subst h1; exact hk b h2

theorem mv_sync (h : p.offset = p.rd.offset) : p.mv p.rd.offset p.rd.offset p.currentChar = p := by
  obtain ⟨p1, p2, p3, p4, p5, p6⟩ := p
  simp only at h
  subst h
  rfl

theorem Post.andSkip {β : Type} {k : Bool → M Parser β} {Q : β → Parser → Prop} (hb : Base c p) (hsy : p.offset = p.rd.offset)
    {ch : Nat} (hch : ch ≠ 0) {q : Bool}
    (hk : ∀ b : Bool, (b = true → q = true) → Base c (p.mv (p.rd.offset + b.toNat) (p.rd.offset + b.toNat) p.currentChar) →
      Post (k b (p.mv (p.rd.offset + b.toNat) (p.rd.offset + b.toNat) p.currentChar)) Q) :
    Post (((pure q &&! skipChar ch) >>= k) p) Q := by
  cases q
  · have := hk false (by simp) (by simpa [mv_sync hsy] using hb)
    simp only [Bool.toNat_false, Int.natCast_zero, Int.add_zero, mv_sync hsy] at this
    exact this
  · exact Post.skip hb hch fun b hb' => hk b (by simp) hb'

/-! ## Loops -/

theorem textLoop_in (fuel : Nat) {p : Parser} (hb : Base c p) : Post (textLoop fuel p) fun _ p' =>
    Moved c p (p.rd.offset + 1) p' ∧ p'.rd.offset ≤ c.endOffset := by
  induction fuel generalizing p with
  | zero => trivial
  | succ fuel ih =>
    refine Post.movedIn (sat_post (nextChar_moved hb)) fun _ r ch hb' hl he => Post.get ?_
    refine Post.ite (fun _ => ?_) fun _ => Post.ite (fun _ => ?_) fun _ => ?_
    · exact (ih hb').mono fun _ _ ⟨h1, h2⟩ => ⟨Moved.trans ⟨r, ch, rfl, hb', hl⟩ (h1.le (by simp; omega)), h2⟩
    · exact ⟨⟨r, ch, rfl, hb', hl⟩, he⟩
    · refine Post.moved (handleOtherTextChar_ok hb' _) fun _ r2 ch2 hb2 hl2 => ?_
      simp only [mv_rdOffset] at hl2
      exact (ih hb2).mono fun _ _ ⟨h1, h2⟩ => ⟨Moved.trans ⟨r2, ch2, rfl, hb2, Int.le_refl _⟩ (h1.le (by simp; omega)), h2⟩

theorem nameLoop_in (fuel : Nat) {p : Parser} (hb : Base c p) : Post (nameLoop fuel p) fun _ p' =>
    Moved c p (p.rd.offset + 1) p' ∧ p'.rd.offset ≤ c.endOffset := by
  induction fuel generalizing p with
  | zero => trivial
  | succ fuel ih =>
    refine Post.movedIn (sat_post (nextChar_moved hb)) fun _ r ch hb' hl he => Post.get ?_
    refine Post.ite (fun _ => ?_) fun _ => ?_
    · exact (ih hb').mono fun _ _ ⟨h1, h2⟩ => ⟨Moved.trans ⟨r, ch, rfl, hb', hl⟩ (h1.le (by simp; omega)), h2⟩
    · exact ⟨⟨r, ch, rfl, hb', hl⟩, he⟩

theorem cdataLoop_two (fuel : Nat) {p : Parser} (hb : Base c p) : Post (cdataLoop fuel p) fun _ p' =>
    Moved c p (p.rd.offset + 2) p' := by
  induction fuel generalizing p with
  | zero => trivial
  | succ fuel ih =>
    refine Post.moved (nextChar_ok hb) fun _ r ch hb' hl => Post.get ?_
    refine Post.ite (fun _ => Post.ite (fun _ => ?_) fun _ => ?_) fun _ => post_err _
    · refine Post.moved (skipBrackets_ok hb' (Enough.loopFuel hb' hb'.cfg)) fun _ r2 ch2 hb2 hl2 => ?_
      simp only [mv_rdOffset] at hl2
      refine Post.skip hb2 (by decide) fun b hb3 => ?_
      cases b
      · exact (ih hb3).mono fun _ _ h1 => Moved.trans ⟨_, _, rfl, hb3, Int.le_refl _⟩ (h1.le (by simp; omega))
      · exact ⟨_, _, rfl, hb3, by simp; omega⟩
    · exact (ih hb').mono fun _ _ h1 => Moved.trans ⟨r, ch, rfl, hb', hl⟩ (h1.le (by simp; omega))

theorem piValLoop_two (fuel : Nat) {p : Parser} (hb : Base c p) : Post (piValLoop fuel p) fun _ p' =>
    Moved c p (p.rd.offset + 2) p' := by
  induction fuel generalizing p with
  | zero => trivial
  | succ fuel ih =>
    refine Post.moved (nextChar_ok hb) fun _ r ch hb' hl => Post.get ?_
    refine Post.ite (fun _ => ?_) fun _ => post_err _
    refine Post.andSkip hb' rfl (by decide) fun b _ hb3 => ?_
    cases b
    · exact (ih hb3).mono fun _ _ h1 => Moved.trans ⟨_, _, rfl, hb3, Int.le_refl _⟩ (h1.le (by simp; omega))
    · exact ⟨_, _, rfl, hb3, by simp; omega⟩

theorem commentLoop_two (fuel : Nat) {p : Parser} (hb : Base c p) : Post (commentLoop fuel p) fun _ p' =>
    ∃ r ch, p' = ({ p with length1 := r - p.lastOffset - 2 } : Parser).mv r r ch ∧ Base c p' ∧ p.rd.offset + 2 ≤ r ∧ ch = 0x2D := by
  induction fuel generalizing p with
  | zero => trivial
  | succ fuel ih =>
    refine Post.moved (nextChar_ok hb) fun _ r ch hb' hl => Post.get ?_
    refine Post.ite (fun _ => ?_) fun _ => post_err _
    refine Post.andSkip hb' rfl (by decide) fun b hq hb3 => ?_
    cases b
    · refine (ih hb3).mono fun _ _ ⟨r2, ch2, h1, h2, h3, h4⟩ => ⟨r2, ch2, h1, h2, ?_, h4⟩
      simp only [mv_rdOffset] at h3
      simp at h3; omega
    · have hi := hb3.inc
      have hq := hq rfl
      simp only [decide_eq_true_eq] at hq
      simp only [if_true]
      refine ⟨r + 1, ch, ?_, hb3, by omega, hq⟩
      simp only [mv_rdOffset, M.modify_apply]
      simp only [Parser.mv, Bool.toNat_true] at hi ⊢
      rw [hi]
      rfl

/-- The reader moved on and the character is the same. -/
def Stay (c : ParserCfg) (p p' : Parser) : Prop :=
  ∃ r, p' = p.mv r r p.currentChar ∧ Base c p' ∧ p.rd.offset ≤ r

theorem skip_stay {ch : Nat} (hb : Base c p) (hch : ch ≠ 0) : Post (skipChar ch p) fun _ p' => Stay c p p' :=
  sat_post ((skipChar_sat hb hch).mono (fun _ _ ⟨h1, h2⟩ => ⟨_, h1, h2, by omega⟩) (fun _ _ h => h) id id)

theorem pure_stay {α : Type} (hb : Base c p) (hsy : p.offset = p.rd.offset) (a : α) : Post ((pure a : M Parser α) p) fun _ p' => Stay c p p' :=
  ⟨p.rd.offset, (mv_sync hsy).symm, hb, Int.le_refl _⟩

theorem Stay.trans {p p' p'' : Parser} (h : Stay c p p') (h' : Stay c p' p'') : Stay c p p'' := by
  obtain ⟨r, rfl, h1, h2⟩ := h
  obtain ⟨r', rfl, h1', h2'⟩ := h'
  exact ⟨r', rfl, h1', by simp at h2'; omega⟩

theorem and_stay {a b : M Parser Bool} (ha : Post (a p) fun _ p' => Stay c p p')
    (hb : ∀ p', Base c p' → p'.offset = p'.rd.offset → Post (b p') fun _ p'' => Stay c p' p'') :
    Post ((a &&! b) p) fun _ p' => Stay c p p' := by
  refine Post.bind ha fun x p' h => ?_
  have h' := h
  obtain ⟨r, rfl, h1, h2⟩ := h
  cases x
  · exact h'
  · exact (hb _ h1 rfl).mono fun _ _ h => h'.trans h

theorem or_stay {a b : M Parser Bool} (ha : Post (a p) fun _ p' => Stay c p p')
    (hb : ∀ p', Base c p' → p'.offset = p'.rd.offset → Post (b p') fun _ p'' => Stay c p' p'') :
    Post ((a ||! b) p) fun _ p' => Stay c p p' := by
  refine Post.bind ha fun x p' h => ?_
  have h' := h
  obtain ⟨r, rfl, h1, h2⟩ := h
  cases x
  · exact (hb _ h1 rfl).mono fun _ _ h => h'.trans h
  · exact h'

theorem piEndTarget_name {p : Parser} (hb : Base c p) (hsy : p.offset = p.rd.offset) (hc : isNameChar p.currentChar = true) :
    Post (piEndTarget p) fun _ p' => Moved c p p.rd.offset p' ∧
      (isNameChar p'.currentChar = true ∨ (p.rd.offset + 1 ≤ p'.rd.offset ∧ p'.rd.offset ≤ c.endOffset)) := by
  refine Post.get (Post.bind (Q := fun _ p' => Stay c p p') ?_ fun b p2 ⟨r, hp, hb2, hl⟩ => ?_)
  · refine and_stay (pure_stay hb hsy _) fun _ h1 h2 => ?_
    refine and_stay (or_stay (skip_stay h1 (by decide)) fun _ h1 _ => skip_stay h1 (by decide)) fun _ h1 h2 => ?_
    exact or_stay (skip_stay h1 (by decide)) fun _ h1 _ => skip_stay h1 (by decide)
  subst hp
  refine Post.ite (fun _ => ?_) fun _ => ⟨⟨r, _, rfl, hb2, hl⟩, .inl hc⟩
  refine Post.movedIn (sat_post (nextChar_moved hb2)) fun _ r2 ch2 hb3 hl3 he => Post.get ?_
  simp only [mv_rdOffset] at hl3
  refine Post.ite (fun _ => post_err _) fun _ => ⟨⟨r2, ch2, rfl, hb3, by omega⟩, .inr ⟨by simp; omega, he⟩⟩

theorem piEndNameLoop_in (fuel : Nat) {p : Parser} (hb : Base c p) (hsy : p.offset = p.rd.offset)
    (h : isNameChar p.currentChar = true ∨ p.rd.offset ≤ c.endOffset) : Post (piEndNameLoop fuel p) fun _ p' =>
      Moved c p (p.rd.offset + (if isNameChar p.currentChar = true then 1 else 0)) p' ∧ p'.rd.offset ≤ c.endOffset := by
  induction fuel generalizing p with
  | zero => trivial
  | succ fuel ih =>
    refine Post.get (Post.ite (fun hn => ?_) fun hn => ?_)
    · rw [if_pos hn]
      refine Post.movedIn (sat_post (nextChar_moved hb)) fun _ r ch hb' hl he => ?_
      refine (ih hb' rfl (.inr he)).mono fun _ _ ⟨h1, h2⟩ => ⟨Moved.trans ⟨r, ch, rfl, hb', hl⟩ (h1.le ?_), h2⟩
      by_cases hx : isNameChar ch = true <;> simp [hx] <;> omega
    · rw [if_neg hn]
      refine ⟨(Moved.refl hb hsy).le (by omega), ?_⟩
      rcases h with h | h
      · exact absurd h hn
      · exact h

theorem piEndValLoop_in (fuel : Nat) {p : Parser} (hb : Base c p) (hsy : p.offset = p.rd.offset)
    (h : p.rd.offset ≤ c.endOffset) : Post (piEndValLoop fuel p) fun _ p' =>
      Moved c p (p.rd.offset + 1) p' ∧ p'.rd.offset ≤ c.endOffset + 1 := by
  induction fuel generalizing p with
  | zero => trivial
  | succ fuel ih =>
    refine Post.get (Post.ite (fun hn => ?_) fun hn => post_err _)
    refine Post.andSkip hb hsy (by decide) fun b hq hb3 => ?_
    cases b
    · refine Post.movedIn (sat_post (nextChar_moved hb3)) fun _ r ch hb' hl he => ?_
      simp at hl
      exact (ih hb' rfl he).mono fun _ _ ⟨h1, h2⟩ => ⟨Moved.trans ⟨r, ch, rfl, hb', Int.le_refl _⟩ (h1.le (by simp; omega)), h2⟩
    · exact ⟨⟨_, _, rfl, hb3, by simp⟩, by simp; omega⟩

/-! ## Texts -/

theorem text_ws {w s r : List UInt8} (hw : AllWs w) (h : TextBody s r) : TextBody (w ++ s) r := by
  induction w with
  | nil => exact h
  | cons b w ih =>
    refine .char ?_ (ih fun x hx => hw x (by simp [hx]))
    have := hw b (by simp)
    simp only [Ws, Spec.S, ContentByte, Spec.ContentChar, Spec.Char11] at this ⊢
    omega

/-- White space and the byte after it. -/
theorem Post.ws {β : Type} {k : Unit → M Parser β} {Q : β → Parser → Prop} (hb : Base c p)
    (hk : ∀ r (b : UInt8) w, Base c (p.mv r r b.toNat) → p.rd.offset + 1 ≤ r → r ≤ c.endOffset → AllWs w →
      from_ c p.rd.offset = w ++ b :: from_ c r → Post (k () (p.mv r r b.toNat)) Q) : Post ((nextCharAfterWs >>= k) p) Q := by
  refine Post.bind (nextCharAfterWs_byte hb) ?_
  rintro _ p' ⟨r, b, w, rfl, hb', hr, hre, hbd, hw, hdrop⟩
  refine hk (r + 1) b w hb' (by omega) (by omega) hw ?_
  rw [← from_cons (r := r) hb hr hbd]
  exact hdrop

/-- The same for a text that starts with it. -/
theorem text_start {r : Int} {b : UInt8} {w s : List UInt8} (hw : AllWs w) (hd : s = w ++ b :: from_ c r)
    (hb : ContentByte b) : ∀ rest, TextBody (from_ c r) rest → TextBody s rest := by
  intro rest h
  rw [hd]
  exact text_ws hw (.char hb h)

theorem text_item {r r2 : Int} {b : UInt8} {w s : List UInt8} (hw : AllWs w) (hd : s = w ++ b :: from_ c r)
    (hb : Item (b :: from_ c r) (from_ c r2)) : ∀ rest, TextBody (from_ c r2) rest → TextBody s rest := by
  intro rest h
  rw [hd]
  exact text_ws hw (.item hb h)

/-- The number of bytes between two offsets. -/
theorem ate {a b : Int} (hb : Base c p) (h : p.rd.offset ≤ a ∧ a ≤ b) (h1 : b ≤ c.xmlDoc.length) :
    ((from_ c a).length : Int) = (from_ c b).length + (b - a) := by
  have h0 := hb.off0; have h0' := hb.off1
  simp only [from_, List.length_drop]; omega

theorem Post.read {α β : Type} {m : M Parser α} {k : α → M Parser β} {R : α → List UInt8 → List UInt8 → Prop} {Q : β → Parser → Prop}
    (h : Post (m p) (fun a p' => Read c p (R a) p'))
    (hk : ∀ a r ch, Base c (p.mv r r ch) → p.rd.offset ≤ r → R a (from_ c p.rd.offset) (from_ c r) → Post (k a (p.mv r r ch)) Q) :
    Post ((m >>= k) p) Q :=
  Post.bind h fun a p' ⟨r, ch, hp, hb, hl, hR⟩ => by subst hp; exact hk a r ch hb hl hR

/-! ## The states that come next -/

theorem W.lt (hw : Wrote c o0 p.out xs pos cnt) (hr : Rest p.depth (lastRec xs)) (hp : pos ≤ p.offset)
    (hc : cnt ≤ p.rd.offset - 1) : Next c o0 .ltSeen p := ⟨xs, hw.mono hp hc, hr, trivial⟩

theorem W.txt (hw : Wrote c o0 p.out xs pos cnt) (hr : Rest p.depth (lastRec xs)) (hp : pos ≤ p.lastOffset)
    (hc : cnt ≤ p.lastOffset - 1) (h : p.lastOffset + 1 ≤ p.rd.offset)
    (ht : ∀ rest, TextBody (from_ c p.rd.offset) rest → TextBody (from_ c p.lastOffset) rest) : Next c o0 .text p :=
  ⟨xs, hw.mono hp hc, hr, h, ht⟩

theorem W.tagEnd (hw : Wrote c o0 p.out xs pos cnt) (hr : Rest p.depth (lastRec xs)) (hp : pos ≤ p.offset)
    (hc : cnt ≤ p.rd.offset) : Next c o0 .tagEnd p := ⟨xs, hw.mono hp hc, hr, trivial⟩

theorem W.docEnd (hw : Wrote c o0 p.out xs pos cnt) (hr : Rest p.depth (lastRec xs)) (hp : pos ≤ p.offset)
    (hc : cnt ≤ p.rd.offset - 1) (hc' : cnt ≤ c.endOffset - 1) : Next c o0 .docEnd p :=
  ⟨xs, hw.mono hp (by simp only [budget]; omega), hr, trivial⟩

theorem afterMarkup_w (hb : Base c p) (hsy : p.offset = p.rd.offset)
    (hw : p.rd.offset < c.endOffset → Wrote c o0 p.out xs p.rd.offset (p.rd.offset - 1))
    (hr : Rest p.depth (lastRec xs)) : Post (afterMarkup p) (Next c o0) := by
  refine Post.modify (Post.ws (c := c) (by exact hb) fun r b w hb1 hl he hww hd => Post.get ?_)
  simp only at hl hd
  have hd' : from_ c p.offset = w ++ b :: from_ c r := by rw [← hd, hsy]
  have hw := hw (by omega)
  refine Post.ite (fun _ => ?_) fun _ => Post.ite (fun hx => ?_) fun _ => Post.ite (fun hx => ?_) fun _ => Post.ite (fun hx => ?_) fun _ => post_err _
  · rw [M.bind_apply, recordWsIfSet_eq hb1, Res.andThen_ok]
    exact W.lt hw hr (by simp; omega) (by simp; omega)
  · have hx : b = ch% '&' := UInt8.toNat_inj.mp hx
    refine Post.read (entityIdentifier_post hb1) fun _ r2 ch2 hb2 hl2 hR => ?_
    simp only [mv_rdOffset] at hl2 hR
    refine Post.ite (fun _ => ?_) fun _ => post_err _
    refine W.txt hw hr (by simp; omega) (by simp; omega) (by simp; omega) ?_
    exact text_item hww hd' (by rw [hx]; exact .ref hR)
  · have hx : b = ch% ']' := UInt8.toNat_inj.mp hx
    refine Post.read (R := fun _ s s' => Item (ch% ']' :: s) s') (bracketText_post hb1) fun _ r2 ch2 hb2 hl2 hR => ?_
    simp only [mv_rdOffset] at hl2 hR
    refine W.txt hw hr (by simp; omega) (by simp; omega) (by simp; omega) ?_
    exact text_item hww hd' (by rw [hx]; exact hR)
  · refine W.txt hw hr (by simp; omega) (by simp; omega) (by simp; omega) ?_
    exact text_start hww hd' ((isContentChar_iff _).mp hx)

theorem processElementTail_w (hb : Base c p) (hsy : p.offset = p.rd.offset) {m : Int} (hm : m ≤ p.rd.offset)
    (hm' : m ≤ c.endOffset) (hd : -1 ≤ p.depth) (hd1 : p.depth ≤ 254)
    (hw : Wrote c o0 p.out xs m (m - 1)) (hr : Rest p.depth (lastRec xs)) :
    Post (processElementTail p) (Next c o0) := by
  refine Post.get (Post.ite (fun _ => ?_) fun _ => ?_)
  · replace hw := hw.mono (pos' := p.rd.offset) (cnt' := p.rd.offset - 1) hm (by omega)
    refine Post.modify (Post.ws (c := c) (by exact hb) fun r b w hb1 hl he hww hd0 => Post.get ?_)
    simp only at hl hd0
    have hd' : from_ c p.offset = w ++ b :: from_ c r := by rw [← hd0, hsy]
    refine Post.ite (fun hx => ?_) fun _ => Post.ite (fun hx => ?_) fun _ => ?_
    · have hbx : b = ch% '<' := UInt8.toNat_inj.mp hx
      rw [M.bind_apply, recordWsIfSet_eq hb1, Res.andThen_ok]
      refine Post.skip hb1 (by decide) fun b' hb2 => ?_
      cases b'
      · exact W.lt hw hr (by simp; omega) (by simp; omega)
      · refine Post.get (Post.ite (fun _ => ?_) fun _ => ?_)
        · refine Post.modify (Post.text (by exact hb2) _ (by decide) fun hb3 => ?_)
          have hi := hb2.inc
          simp only [Parser.mv, Bool.toNat_true] at hi ⊢
          rw [hi]
          simp only [hsy]
          generalize hl : r + 1 - p.rd.offset - 1 * 2 = l
          have hl : r = p.rd.offset + 1 + l := by omega
          subst hl
          have hsh : ∀ x, Shape c.xmlDoc x ⟨.characterData, p.rd.offset, l, p.depth⟩ := by
            refine fun _ _ => ⟨from_ c (p.rd.offset + 1 + l), ?_, ?_⟩
            · show TextBody (from_ c p.rd.offset) _
              rw [hd0, hbx]; exact text_ws hww .stop
            · refine (ate (a := p.rd.offset) (b := p.rd.offset + 1 + l) hb (by omega) (by have := hb.end1; omega)).trans ?_
              simp only; omega
          obtain ⟨w1, w2⟩ := hw.text hb hr (.inl rfl) (t := .characterData) (l := l) (o := p.rd.offset) (pos' := p.rd.offset + 1 + l + 1)
            (cnt' := p.rd.offset + 1 + l + 1) (Int.le_refl _) (.inl (by omega)) (by omega) (by omega) (by omega) hd hd1 (by omega) hsh
          refine W.tagEnd w1 w2 (by simp) (by simp)
        · exact W.tagEnd hw hr (by simp; omega) (by simp; omega)
    · refine W.txt hw hr (by simp; omega) (by simp; omega) (by simp; omega) ?_
      exact text_start hww hd' ((isContentChar_iff _).mp hx)
    · refine Post.read (R := fun _ s s' => Item (b :: s) s') (handleOtherTextChar_post hb1) fun _ r2 ch2 hb2 hl2 hR => ?_
      simp only [mv_rdOffset] at hl2 hR
      refine W.txt hw hr (by simp; omega) (by simp; omega) (by simp; omega) ?_
      exact text_item hww hd' hR
  · exact W.docEnd hw hr (by omega) (by omega) (by omega)

end Wr
end Parser
end GoVtd
