import Verif.Proofs.Parser.WritesStep

/-!
# The records of the steps outside of start tags, step by step
-/

namespace GoVtd
namespace Parser
namespace Wr
open Paged Grammar Two Ev
variable {c : ParserCfg} {p : Parser} {o0 out : ParserOut} {xs : List Rec} {pos cnt : Int}
  {es : List Mark} {stk : List (Nat × Nat)} {recs : List Rec}

theorem text_w (h : G c o0 .text p es stk recs) (w : W c o0 .text p xs) : Post (processText p) (Next c o0) := by
  have hd := h.inv.deep (by decide)
  have hb := h.inv.base
  have hd0 := h.inv.slots.dep0
  obtain ⟨hp, htb⟩ : _ ∧ _ := w.pos
  refine Post.get (Post.ite (fun _ => post_err _) fun _ => ?_)
  refine Post.bind (textLoop_post hb) ?_
  rintro _ p' ⟨⟨r, ch, rfl, hb1, -, hR⟩, he, hl⟩
  simp only [mv_rdOffset] at he hl
  refine Post.modify ?_
  refine Post.text (by exact hb1) _ (by decide) fun hb2 => ?_
  have hi := hb.inc
  simp only [Parser.mv, hi]
  generalize hl : r - 1 - p.lastOffset = l
  have hl : r = p.lastOffset + 1 + l := by omega
  subst hl
  have hsh : ∀ x, Shape c.xmlDoc x ⟨.characterData, p.lastOffset, l, p.depth⟩ := by
    refine fun _ _ => ⟨_, htb _ hR, ?_⟩
    have h0 := w.wr.le; have hs := hb.start; have e1 := hb.end1
    simp only [posn] at h0
    simp only [Ate, from_, List.length_drop]; omega
  obtain ⟨w1, w2⟩ := w.wr.text hb (d := p.depth) w.last (.inl rfl) (t := .characterData) (l := l) (o := p.lastOffset)
    (pos' := p.lastOffset + l) (cnt' := p.lastOffset + l) (Int.le_refl _) (.inl (by omega)) (by omega) (by simp only [posn]; omega)
    (by omega) hd0 hd (by simp only [budget]; omega) hsh
  exact W.lt w1 w2 (by simp; omega) (by simp; omega)

theorem cdata_w (h : G c o0 .cdata p es stk recs) (w : W c o0 .cdata p xs) : Post (processCdata p) (Next c o0) := by
  have hd := h.inv.deep (by decide)
  have hb := h.inv.base
  have hd0 := h.inv.slots.dep0
  obtain ⟨hp, hpre⟩ : _ ∧ _ := w.pos
  have h0 := hb.off0; have h1 := hb.off1; have e1 := hb.end1
  refine Post.get (Post.bind ((cdataLoop_two _ hb).and (cdataLoop_body hb)) fun _ p1 ⟨⟨r, ch, hp1, hb1, hl⟩, hR⟩ => Post.modify ?_)
  subst hp1
  refine Post.text (by exact hb1) _ (by decide) fun hb2 => ?_
  have hi := hb.inc
  simp only [Parser.mv, hi] at hb2 ⊢
  generalize hl : r - p.lastOffset - 1 * 2 - 1 = l at *
  have hl : r = p.lastOffset + 3 + l := by omega
  subst hl
  have hsh : p.lastOffset + 3 + l < c.endOffset → ∀ x, Shape c.xmlDoc x ⟨.cdataVal, p.lastOffset, l, p.depth⟩ := by
    intro hlt
    refine fun _ _ => ⟨by rw [hp]; exact hpre, _, by rw [hp]; exact hR, ?_⟩
    simp only [Ate, from_, List.length_drop, mv_rdOffset] at *; omega
  have key : p.lastOffset + 3 + l < c.endOffset → _ := fun hlt =>
    w.wr.text hb (d := p.depth) w.last (.inr (.inl rfl)) (t := .cdataVal) (l := l) (o := p.lastOffset)
    (pos' := p.lastOffset + 3 + l) (cnt' := p.lastOffset + 3 + l - 1) (Int.le_refl _) (if h : 0 ≤ l then .inl h else .inr ⟨rfl, by omega⟩) (by omega) (by simp only [posn]; omega)
    (by omega) hd0 hd (by simp only [budget]; omega) (hsh hlt)
  refine afterMarkup_w (xs := xs ++ textRecs .cdataVal p.lastOffset l p.depth) hb2 rfl (fun hlt => (key hlt).1) ?_
  rw [lastRec, getLastD_append]
  exact rest_texts (.inr (.inl rfl)) textRecs_same w.last

theorem comment_w (h : G c o0 .startComment p es stk recs) (w : W c o0 .startComment p xs) :
    Post (processStartComment p) (Next c o0) := by
  have hd := h.inv.deep (by decide)
  have hb := h.inv.base
  have hd0 := h.inv.slots.dep0
  obtain ⟨hp, hpre⟩ : _ ∧ _ := w.pos
  have h0 := hb.off0; have h1 := hb.off1; have e1 := hb.end1
  refine Post.get (Post.bind ((commentLoop_two _ hb).and (commentLoop_body hb)) fun _ p1 ⟨⟨r, ch, hp1, hb1, hl, _⟩, hR⟩ => ?_)
  subst hp1
  refine Post.bind (nextChar_byte hb1) ?_
  rintro _ p2 ⟨y, rfl, hb2, hlt, hy⟩
  refine Post.get ?_
  simp only [mv_rdOffset] at hlt hy hR hb2
  refine Post.ite (fun _ => post_err _) fun hgt => Post.text hb2 _ (by decide) fun hb3 => ?_
  simp only [Parser.mv] at hb3 ⊢
  have hgt : y = ch% '>' := UInt8.toNat_inj.mp (Decidable.not_not.mp hgt)
  have hc := from_cons (r := r) hb1 (Int.le_refl _) hy
  rw [hgt] at hc
  generalize hl : r - p.lastOffset - 2 = l at *
  have hl : r = p.lastOffset + 2 + l := by omega
  subst hl
  have hsh : ∀ x, Shape c.xmlDoc x ⟨.comment, p.lastOffset, l, p.depth⟩ := by
    refine fun _ _ => ⟨by rw [hp]; exact hpre, _, by rw [hp]; rw [hc] at hR; exact hR, ?_⟩
    simp only [Ate, from_, List.length_drop]; omega
  obtain ⟨w1, w2⟩ := w.wr.text hb (d := p.depth) w.last (.inr (.inr (.inl rfl))) (t := .comment) (l := l) (o := p.lastOffset)
    (pos' := p.lastOffset + 2 + l + 1) (cnt' := p.lastOffset + 2 + l) (Int.le_refl _) (.inl (by omega)) (by omega) (by simp only [posn]; omega)
    (by omega) hd0 hd (by simp only [budget]; omega) hsh
  exact afterMarkup_w hb3 rfl (fun _ => w1.mono (Int.le_refl _) (by simp only; omega)) w2

theorem endComment_w (h : G c o0 .endComment p es stk recs) : Post (processEndComment p) (Next c o0) := by
  refine Post.get (Post.bind (commentLoop_two _ h.inv.base) fun _ p1 ⟨r, ch, hp1, hb1, hl, hc⟩ => Post.get ?_)
  subst hp1
  subst hc
  exact Post.ite (fun _ => post_err _) fun h => absurd (by decide : (45 : Nat) ≠ 62) h

theorem lastRec_one {y : Rec} : lastRec (xs ++ [y]) = y := by rw [lastRec, getLastD_append]; rfl

theorem docType_w (h : G c o0 .docType p es stk recs) (w : W c o0 .docType p xs) : Post (processDocType p) (Next c o0) := by
  have hd := h.inv.deep (by decide)
  have hb := h.inv.base
  have hd0 := h.inv.slots.dep0
  have h0 := hb.off0
  have h1 := hb.off1
  have hp : p.lastOffset = p.rd.offset := w.pos
  refine Post.get (Post.moved (docTypeLoop_ok hb (Enough.loopFuel hb hb.cfg) _) fun _ r ch hb1 hl => Post.modify ?_)
  refine Post.check (by exact hb1) _ (by decide) _ fun hm hb2 => ?_
  have hi := hb.inc
  simp only [Parser.mv, hi] at hb2 hm ⊢
  refine Post.movedIn (sat_post (nextCharAfterWs_moved hb2)) fun _ r2 ch2 hb3 hl2 he => Post.get ?_
  simp only at hl2
  refine Post.ite (fun _ => post_err _) fun _ => ?_
  have hw := w.wr.one (pos' := r) (cnt' := r - 1) (y := ⟨.dtdVal, p.lastOffset, r - p.lastOffset - 1, p.depth⟩) (Int.le_refl _)
    (by simp only [Rec.stop]; omega) (by simp only [posn]; omega)
    (ok_plain hb (by decide) (by omega) (by omega) hm (by omega) hd0 hd) (by simp only [budget]; omega)
    (Link.text w.last (.inr (.inr (.inr rfl))) trivial)
  refine W.lt hw ?_ (by simp; omega) (by simp; omega)
  rw [lastRec_one]; exact rest_text (.inr (.inr (.inr rfl)))

/-- A processing instruction without data. -/
theorem Wrote.bare (hw : Wrote c o0 out xs pos cnt) (hb : Base c p) {o l d pos' cnt' : Int} (hr : Rest d (lastRec xs))
    (h0 : pos ≤ o) (h1 : 0 ≤ l) (h2 : l ≤ maxLen) (h3 : o + l ≤ pos') (h4 : o + l ≤ c.endOffset)
    (d0 : -1 ≤ d) (d1 : d ≤ 254) (h5 : cnt + 4 ≤ cnt') :
    Wrote c o0 (Parser.emit c.shallowDepth (Parser.emit c.shallowDepth out [⟨.piName, o, l, d⟩]) [⟨.piVal, o, 0, d⟩])
      (xs ++ [⟨.piName, o, l, d⟩, ⟨.piVal, o, 0, d⟩]) pos' cnt' ∧ Rest d (lastRec (xs ++ [⟨.piName, o, l, d⟩, ⟨.piVal, o, 0, d⟩])) := by
  have hle := hw.le
  have hs := hb.start
  refine ⟨?_, ?_⟩
  · rw [← emit_append]
    refine hw.add (fun _ => ⟨by omega, ?_, ?_, ?_⟩) (by omega) ?_ (by simpa using h5) ⟨Link.piName hr, Link.value_ rfl rfl trivial, trivial⟩
    · simpa using h0
    · intro x hx
      simp only [List.cons_append, List.nil_append, List.mem_cons, List.not_mem_nil, or_false] at hx
      rcases hx with rfl | rfl <;> simp only [Rec.stop] <;> omega
    · simp [Before]
    · intro x hx
      simp only [List.cons_append, List.nil_append, List.mem_cons, List.not_mem_nil, or_false] at hx
      rcases hx with rfl | rfl
      · exact ok_plain hb (by decide) (by omega) h1 h2 h4 d0 d1
      · exact ok_plain hb (by decide) (by omega) (by omega) (by decide) (by omega) d0 d1
  · rw [lastRec, getLastD_append]
    exact ⟨rfl, Int.le_refl _⟩

theorem piTag_w (h : G c o0 .piTag p es stk recs) (w : W c o0 .piTag p xs) : Post (processPiTag p) (Next c o0) := by
  have hd := h.inv.deep (by decide)
  have hb := h.inv.base
  have hd0 := h.inv.slots.dep0
  have hle := w.wr.le
  have hs := hb.start
  have h1 := hb.off1
  have hp : p.lastOffset + 1 ≤ p.offset := w.pos
  refine Post.get (Post.movedIn (nameLoop_in _ hb) fun _ r ch hb1 hl he => Post.modify ?_)
  refine Post.check (by exact hb1) _ (by decide) _ fun hm hb2 => Post.get ?_
  have hi := hb.inc
  simp only [Parser.mv, hi] at hb2 hm ⊢
  simp only [posn] at hle
  refine Post.ite (fun _ => ?_) fun _ => ?_
  · refine Post.at_ hb2 _ (by decide) _ fun hb3 => ?_
    refine Post.skip hb3 (by decide) fun b hb4 => ?_
    cases b
    · exact post_err _
    · obtain ⟨w1, w2⟩ := w.wr.bare hb (o := p.lastOffset) (l := r - p.lastOffset - 1) (d := p.depth) (pos' := r + 1) (cnt' := r + 1 - 1)
        w.last (Int.le_refl _) (by omega) hm (by omega) (by omega) hd0 hd (by simp only [budget]; omega)
      exact afterMarkup_w hb4 rfl (fun _ => w1) w2
  · have hw := w.wr.one (pos' := r) (cnt' := r - 2) (y := ⟨.piName, p.lastOffset, r - p.lastOffset - 1, p.depth⟩) (Int.le_refl _)
      (by simp only [Rec.stop]; omega) (by simp only [posn]; omega)
      (ok_plain hb (by decide) (by omega) (by omega) hm (by omega) hd0 hd) (by simp only [budget]; omega)
      (Link.piName w.last)
    refine ⟨_, hw, ?_, trivial⟩
    rw [lastRec_one]
    exact ⟨rfl, rfl⟩

theorem piVal_w (h : G c o0 .piVal p es stk recs) (w : W c o0 .piVal p xs) : Post (processPiVal p) (Next c o0) := by
  have hd := h.inv.deep (by decide)
  have hb := h.inv.base
  have hd0 := h.inv.slots.dep0
  have h0 := hb.off0
  have hsy := h.sync rfl
  obtain ⟨hl1, hl2⟩ : _ ∧ _ := w.last
  refine Post.get (Post.ite (fun _ => Post.modify ?_) fun _ => post_err _)
  refine Post.bind (piValLoop_two (c := c) _ (by exact hb)) fun _ p1 ⟨r, ch, hp1, hb1, hl⟩ => Post.modify ?_
  subst hp1
  simp only at hl
  refine Post.check (by exact hb1) _ (by decide) _ fun hm hb2 => ?_
  have hi := hb.inc
  simp only [Parser.mv, hi, hsy] at hb2 hm ⊢
  have hv : valueTok (lastRec xs).tok = some .piVal := by rw [hl1]; rfl
  have key : r < c.endOffset → _ := fun hlt => w.wr.one (pos' := r) (cnt' := r - 1)
    (y := ⟨.piVal, p.rd.offset, r - p.rd.offset - 1 * 2, p.depth⟩) (by simp only [posn]; omega)
    (by simp only [Rec.stop]; omega) (by simp only [posn]; omega)
    (ok_plain hb (by decide) (by omega) (by omega) hm (by omega) hd0 hd) (by simp only [budget]; omega)
    (Link.value_ hv hl2 trivial)
  refine afterMarkup_w hb2 rfl key ?_
  rw [lastRec_one]
  exact rest_value hv

theorem piEnd_w (h : G c o0 .piEnd p es stk recs) (w : W c o0 .piEnd p xs) : Post (processPiEnd p) (Next c o0) := by
  have hd := h.inv.deep (by decide)
  have hb := h.inv.base
  have hd0 := h.inv.slots.dep0
  have h0 := hb.off0
  have h1 := hb.off1
  have hp : p.lastOffset = p.rd.offset := w.pos
  refine Post.movedIn (sat_post (nextChar_moved hb)) fun _ r ch hb1 hl he => Post.get ?_
  refine Post.ite (fun hn => ?_) fun _ => post_err _
  have hn' : isNameChar ch = true := isNameStartChar_nameChar hn
  refine Post.bind (piEndTarget_name hb1 rfl hn') fun _ p2 ⟨⟨r2, ch2, hp2, hb2, hl2⟩, hor⟩ => ?_
  subst hp2
  simp only [mv_rdOffset] at hl2 hor
  refine Post.movedIn (piEndNameLoop_in _ hb2 rfl (hor.imp id fun h => h.2)) fun _ r3 ch3 hb3 hl3 he3 => Post.modify ?_
  have hr3 : r + 1 ≤ r3 := by
    simp only [mv_rdOffset] at hl3
    rcases hor with h | h
    · rw [if_pos h] at hl3; omega
    · split at hl3 <;> omega
  clear hl3 hor
  refine Post.check (by exact hb3) _ (by decide) _ fun hm hb4 => Post.modify (Post.get ?_)
  have hi := hb.inc
  simp only [Parser.mv, hi] at hb4 hm ⊢
  refine Post.ite (fun _ => ?_) fun _ => ?_
  · have hw := w.wr.one (pos' := r3) (cnt' := r3 - 2) (y := ⟨.piName, p.lastOffset, r3 - p.lastOffset - 1, p.depth⟩) (Int.le_refl _)
      (by simp only [Rec.stop]; omega) (by simp only [posn]; omega)
      (ok_plain hb (by decide) (by omega) (by omega) hm (by omega) hd0 hd) (by simp only [budget]; omega)
      (Link.piName w.last)
    refine Post.movedIn (sat_post (nextCharAfterWs_moved (by exact hb4))) fun _ r4 ch4 hb5 hl4 he4 => ?_
    simp only at hl4
    refine Post.bind (piEndValLoop_in _ hb5 rfl he4) fun _ p5 ⟨⟨r5, ch5, hp5, hb6, hl5⟩, he5⟩ => Post.modify ?_
    subst hp5
    simp only [mv_rdOffset] at hl5 he5
    refine Post.check (by exact hb6) _ (by decide) _ fun hm2 hb7 => ?_
    simp only [Parser.mv, hi] at hb7 hm2 ⊢
    have hw2 := hw.one (pos' := r5) (cnt' := r3) (y := ⟨.piVal, r3, r5 - r3 - 1 * 2, p.depth⟩) (Int.le_refl _)
      (by simp only [Rec.stop]; omega) (by omega)
      (ok_plain hb (by decide) (by omega) (by omega) hm2 (by omega) hd0 hd) (by omega)
      (by rw [lastRec_one]; exact Link.value_ rfl rfl trivial)
    refine W.docEnd hw2 ?_ (Int.le_refl _) (by simp only; omega) (by omega)
    rw [lastRec_one]; exact ⟨rfl, Int.le_refl _⟩
  · have hw := w.wr.one (pos' := r3) (cnt' := r3 - 3) (y := ⟨.piName, p.lastOffset, r3 - p.lastOffset - 1, p.depth⟩) (Int.le_refl _)
      (by simp only [Rec.stop]; omega) (by simp only [posn]; omega)
      (ok_plain hb (by decide) (by omega) (by omega) hm (by omega) hd0 hd) (by simp only [budget]; omega)
      (Link.piName w.last)
    refine Post.at_ (by exact hb4) _ (by decide) _ fun hb5 => ?_
    refine Post.bind (Q := fun _ p' => Stay c _ p') (or_stay (pure_stay hb5 rfl _) fun _ h1 _ => skip_stay h1 (by decide))
      fun b p6 ⟨r6, hp6, hb6, hl6⟩ => Post.ite (fun _ => post_err _) fun _ => ?_
    subst hp6
    simp only at hl6
    have hw2 := hw.one (pos' := r3) (cnt' := r3 - 1) (y := ⟨.piVal, r3, 0, p.depth⟩) (Int.le_refl _)
      (by simp only [Rec.stop]; omega) (by omega)
      (ok_plain hb (by decide) (by omega) (by omega) (by decide) (by omega) hd0 hd) (by omega)
      (by rw [lastRec_one]; exact Link.value_ rfl rfl trivial)
    refine W.docEnd hw2 ?_ (by simp; omega) (by simp; omega) (by omega)
    rw [lastRec_one]; exact ⟨rfl, Int.le_refl _⟩

end Wr
end Parser
end GoVtd
