import Verif.Proofs.Parser.WritesTag

/-!
# The steps that write nothing: the start and the end of the document, `<`, end tags
-/

namespace GoVtd
namespace Parser
namespace Wr
open Paged Grammar Two Ev
variable {c : ParserCfg} {p : Parser} {o0 out : ParserOut} {xs : List Rec} {pos cnt : Int}
  {es : List Mark} {stk : List (Nat × Nat)} {recs : List Rec}

theorem Post.stay {β : Type} {m : M Parser Bool} {k : Bool → M Parser β} {Q : β → Parser → Prop}
    (h : Post (m p) (fun _ p' => Stay c p p'))
    (hk : ∀ a r, Base c (p.mv r r p.currentChar) → p.rd.offset ≤ r → Post (k a (p.mv r r p.currentChar)) Q) : Post ((m >>= k) p) Q :=
  Post.bind h fun a p' ⟨r, hp, hb, hl⟩ => by subst hp; exact hk a r hb hl

theorem docStart_w (h : Inv c .docStart p) (w : W c o0 .docStart p xs) : Post (processDocStart p) (Next c o0) := by
  have hr : Rest p.depth (lastRec xs) := w.last
  have hw : Wrote c o0 p.out xs p.offset p.rd.offset := w.wr
  have hb0 := h.base
  have ho1 := hb0.off1
  refine Post.bind (nextChar_byte hb0) ?_
  rintro _ p' ⟨b, rfl, hb, hlt, -⟩
  refine Post.get (Post.ite (fun _ => ?_) fun _ => Post.ite (fun _ => ?_) fun _ => ?_)
  · refine Post.modify (Post.stay (c := c) ?_ fun x r hb2 hl => ?_)
    · refine and_stay (skip_stay (by exact hb) (by decide)) fun _ h1 h2 => ?_
      refine and_stay (or_stay (skip_stay h1 (by decide)) fun _ h1 _ => skip_stay h1 (by decide)) fun _ h1 h2 => ?_
      refine and_stay (or_stay (skip_stay h1 (by decide)) fun _ h1 _ => skip_stay h1 (by decide)) fun _ h1 h2 => ?_
      exact or_stay (skip_stay h1 (by decide)) fun _ h1 _ => skip_stay h1 (by decide)
    simp only [mv_rdOffset] at hl
    refine Post.ite (fun _ => ?_) fun _ => Post.modify ?_
    · refine Post.stay (c := c) ?_ fun x r2 hb3 hl3 => ?_
      · refine or_stay (skip_stay hb2 (by decide)) fun _ h1 _ => ?_
        refine or_stay (skip_stay h1 (by decide)) fun _ h1 _ => ?_
        exact or_stay (skip_stay h1 (by decide)) fun _ h1 _ => skip_stay h1 (by decide)
      simp only [mv_rdOffset] at hl3
      refine Post.ite (fun _ => ?_) fun _ => ?_
      · refine Post.movedIn (sat_post (nextCharAfterWs_moved hb3)) fun _ r4 ch hb4 hl4 he => Post.modify ?_
        simp only [mv_rdOffset] at hl4
        exact ⟨xs, hw.mono (by simp [posn]; omega) (by simp [budget]; omega), hr, rfl⟩
      · refine Post.skip hb3 (by decide) fun b hb4 => Post.ite (fun _ => post_err _) fun _ => Post.modify ?_
        exact ⟨xs, hw.mono (by simp [posn]; omega) (by simp [budget]; omega), hr, trivial⟩
    · exact ⟨xs, hw.mono (by simp [posn]; omega) (by simp [budget]; omega), hr, trivial⟩
  · have : Post (M.catchErr (do nextCharAfterWs; pure true) (fun _ => pure false) (p.mv (p.rd.offset + 1) (p.rd.offset + 1) b.toNat))
        fun _ p2 => Moved c (p.mv (p.rd.offset + 1) (p.rd.offset + 1) b.toNat) (p.rd.offset + 1) p2 := by
      refine sat_post (E := fun _ _ => True) (P := Pn c) (D := False)
        (catch_sat (E' := fun _ p2 => Moved c (p.mv (p.rd.offset + 1) (p.rd.offset + 1) b.toNat) (p.rd.offset + 1) p2) ?_ ?_)
      · refine Res.Sat.bind (nextCharAfterWs_err hb rfl) fun _ p2 ⟨r, ch, h, h1, h2⟩ => ?_
        exact ⟨r, ch, h, h1, by simp at h2; omega⟩
      · exact fun _ p2 h => h
    refine Post.bind this ?_
    rintro ok p2 ⟨r, ch, rfl, hb2, hl⟩
    refine Post.get (Post.ite (fun _ => ?_) fun _ => ?_)
    · exact ⟨xs, hw.mono (by simp [posn]; omega) (by simp [budget]; omega), hr, trivial⟩
    · exact ⟨xs, hw.mono (by simp [posn]; omega) (by simp [budget]; omega), hr, trivial⟩
  · exact ⟨xs, hw.mono (by simp [posn]; omega) (by simp [budget]; omega), hr, trivial⟩

theorem docEnd_w (h : Inv c .docEnd p) (w : W c o0 .docEnd p xs) : Post (processDocEnd p) (Next c o0) := by
  have hr : Rest p.depth (lastRec xs) := w.last
  have hw : Wrote c o0 p.out xs p.offset (min p.rd.offset c.endOffset - 1) := w.wr
  have hb0 := h.base
  have ho1 := hb0.off1
  refine Post.movedIn (sat_post (nextCharAfterWs_moved hb0)) fun _ r ch hb hl he => Post.get (Post.ite (fun _ => ?_) fun _ => post_err _)
  refine Post.skip hb (by decide) fun b hb2 => Post.ite (fun hx => Post.modify ?_) fun _ => ?_
  · subst hx
    exact ⟨xs, hw.mono (by simp [posn]; omega) (by simp [budget]; omega), hr, rfl⟩
  · refine Post.moved (skipCharSeq_ok _ (by decide) hb2) fun b r2 ch2 hb3 hl3 => Post.ite (fun _ => Post.modify ?_) fun _ => post_err _
    simp only [mv_rdOffset] at hl3
    exact ⟨xs, hw.mono (by simp [posn]; omega) (by simp [budget]; omega), hr, trivial⟩

theorem Pred.snoc {o : Int} {s : List UInt8} {b : UInt8} {doc : List UInt8} (h : Pred doc o s) (h0 : 0 ≤ o)
    (hb : doc[o.toNat]? = some b) : Pred doc (o + 1) (s ++ [b]) := by
  obtain ⟨pre, h⟩ := h
  refine ⟨pre, ?_⟩
  rw [show (o + 1).toNat = o.toNat + 1 by omega, List.take_add_one, h, hb]
  simp

theorem validateSeqLoop_pred (name : String) (t : List UInt8) {s : List UInt8} {p : Parser} (hb : Base c p)
    (hp : Pred c.xmlDoc p.rd.offset s) : Post (validateSeqLoop name (t.map UInt8.toNat) p) fun _ p' => Pred c.xmlDoc p'.rd.offset (s ++ t) := by
  induction t generalizing p s with
  | nil => show Pred _ _ _; simpa using hp
  | cons x t ih =>
    have h0 := hb.off0; have h1 := hb.off1
    refine Post.bind (getChar_byte hb) ?_
    rintro _ p' ⟨b, rfl, rfl, hb', -, hd⟩
    refine Post.ite (fun _ => post_err _) fun he => ?_
    have he : b = x := UInt8.toNat_inj.mp (Decidable.not_not.mp he)
    subst he
    refine (ih (s := s ++ [b]) hb' (hp.snoc (by omega) hd)).mono fun _ p' h => ?_
    rw [List.append_assoc] at h
    exact h

theorem validateSeq_pred (name : String) (t : List UInt8) {s : List UInt8} {p : Parser} (hb : Base c p)
    (hp : Pred c.xmlDoc p.rd.offset s) : Post (validateSeq name (t.map UInt8.toNat) p) fun _ p' => Pred c.xmlDoc p'.rd.offset (s ++ t) := by
  refine Post.bind (validateSeqLoop_pred name t hb hp) fun _ p' h => ?_
  exact Post.get (Post.ite (fun _ => post_err _) fun _ => h)

theorem exSeen_w (hb0 : Base c p) (hw : Wrote c o0 p.out xs pos cnt) (hp : pos ≤ p.offset)
    (hc : cnt ≤ p.rd.offset - 2) (hr : Rest p.depth (lastRec xs)) (hex : Pred c.xmlDoc p.rd.offset [ch% '!']) :
    Post (processExSeen p) (Next c o0) := by
  have ho0 := hb0.off0
  have ho1 := hb0.off1
  refine Post.bind (post_wrap (getChar_byte hb0)) ?_
  rintro _ p' ⟨y, rfl, rfl, hb, -, hy⟩
  have hex := hex.snoc (by omega) hy
  refine Post.ite (fun hx => ?_) fun _ => Post.ite (fun hx => ?_) fun _ => Post.ite (fun _ => ?_) fun _ => post_err _
  · have hx : y = ch% '-' := UInt8.toNat_inj.mp hx
    refine Post.bind (skipChar_byte hb (ch% '-') (by decide)) ?_
    rintro b p' ⟨rfl, hb2, hb'⟩
    refine Post.ite (fun hb => Post.modify ?_) fun _ => post_err _
    subst hb
    refine ⟨xs, hw.mono (by simp [posn]; omega) (by simp [budget]; omega), hr, rfl, ?_⟩
    rw [hx] at hex
    exact hex.snoc (by show (0:Int) ≤ p.rd.offset + 1; omega) (hb' rfl)
  · have hx : y = ch% '[' := UInt8.toNat_inj.mp hx
    rw [hx] at hex
    refine Post.bind ((sat_post (validateSeq_ok _ _ hb rfl)).and (validateSeq_pred "CDATA[" (str% "CDATA[") hb hex)) ?_
    rintro b p' ⟨⟨r2, ch2, rfl, hb2, hl2⟩, hpre⟩
    refine Post.modify ?_
    simp only [mv_rdOffset] at hl2
    exact ⟨xs, hw.mono (by simp [posn]; omega) (by simp [budget]; omega), hr, rfl, hpre⟩
  · refine Post.moved (validateSeq_ok _ _ hb rfl) fun b r2 ch2 hb2 hl2 => Post.modify ?_
    simp only [mv_rdOffset] at hl2
    exact ⟨xs, hw.mono (by simp [posn]; omega) (by simp [budget]; omega), hr, rfl⟩

theorem qmSeen_w (hb0 : Base c p) (hw : Wrote c o0 p.out xs pos cnt) (hp : pos ≤ p.offset)
    (hc : cnt ≤ p.rd.offset - 2) (hr : Rest p.depth (lastRec xs)) : Post (processQmSeen p) (Next c o0) := by
  have ho1 := hb0.off1
  refine Post.modify (Post.moved (wrapInternal_sat _ (getChar_ok (by exact hb0))) fun chr r ch hb hl => ?_)
  simp only at hl
  refine Post.ite (fun _ => ?_) fun _ => post_err _
  refine Post.stay (c := c) ?_ fun x r2 hb2 hl2 => ?_
  · refine and_stay (pure_stay hb rfl _) fun _ h1 h2 => ?_
    refine and_stay (or_stay (skip_stay h1 (by decide)) fun _ h1 _ => skip_stay h1 (by decide)) fun _ h1 h2 => ?_
    exact or_stay (skip_stay h1 (by decide)) fun _ h1 _ => skip_stay h1 (by decide)
  simp only [mv_rdOffset] at hl2
  refine Post.ite (fun _ => ?_) fun _ => ?_
  · refine Post.moved (getChar_ok hb2) fun chr r3 ch3 hb3 hl3 => Post.ite (fun _ => post_err _) fun _ => ?_
    simp only [mv_rdOffset] at hl3
    simp only [M.bind_apply, getPrevOffset_eq hb3, Res.andThen_ok, M.modify_apply, M.pure_apply]
    exact ⟨xs, hw.mono (by simp [posn]; omega) (by simp [budget]; omega), hr, by simp [PosOk]; omega⟩
  · exact ⟨xs, hw.mono (by simp [posn]; omega) (by simp [budget]; omega), hr, by simp [PosOk]; omega⟩

theorem ltSeen_w (h : Inv c .ltSeen p) (w : W c o0 .ltSeen p xs) : Post (processLtSeen p) (Next c o0) := by
  have hr : Rest p.depth (lastRec xs) := w.last
  have hw : Wrote c o0 p.out xs p.offset (p.rd.offset - 1) := w.wr
  have hb0 := h.base
  have ho1 := hb0.off1
  refine Post.modify (Post.bind (post_wrap (nextChar_byte (c := c) (by exact hb0))) ?_)
  rintro _ p' ⟨b, rfl, hb, hend, hbd⟩
  refine Post.get (Post.ite (fun _ => Post.modify ?_) fun _ => Post.ite (fun _ => ?_) fun _ =>
    Post.ite (fun hx => ?_) fun _ => Post.ite (fun _ => ?_) fun _ => post_err _)
  · exact ⟨xs, hw.mono (by simp [posn]) (by simp [budget]; omega), ⟨hr.1, by have := hr.2; show p.depth + 1 ≤ _; omega⟩, trivial⟩
  · exact ⟨xs, hw.mono (by simp [posn]; omega) (by simp [budget]; omega), hr, trivial⟩
  · have hx : b = ch% '!' := UInt8.toNat_inj.mp hx
    rw [hx] at hbd
    have ho0 := hb0.off0
    exact exSeen_w hb (by exact hw) (by simp; omega) (by simp; omega) (by exact hr)
      (Pred.snoc (o := p.rd.offset) (s := []) ⟨c.xmlDoc.take p.rd.offset.toNat, by simp⟩ (by omega) hbd)
  · exact qmSeen_w hb (by exact hw) (by simp; omega) (by simp; omega) (by exact hr)

theorem endTag_w (h : G c o0 .tagEnd p es stk recs) (w : W c o0 .tagEnd p xs) : Post (processEndTag p) (Next c o0) := by
  have hr : Rest p.depth (lastRec xs) := w.last
  have hw : Wrote c o0 p.out xs p.offset p.rd.offset := w.wr
  have hs := h.inv.slots
  have hsy := h.inv.sync (by simp)
  have ho0 := h.inv.base.off0
  have hk := h.k
  simp only [reduceCtorEq, if_false] at hk
  have hdep := hk.depth
  cases stk with
  | nil =>
    have h1 : p.depth = -1 := by simpa using hdep
    have h2 : processEndTag p = .panic := by
      simp only [processEndTag, markOffset, M.bind_apply, M.modify_apply, Res.andThen_ok, M.get_apply]
      rw [M.index_panic _ _ _ (Or.inl (by simp [h1]))]
      rfl
    rw [h2]; trivial
  | cons x stk =>
    obtain ⟨o, len⟩ := x
    have h0 : p.depth = stk.length := by simp at hdep; omega
    obtain ⟨⟨t, ht, hlo, hhi⟩, hsl'⟩ := hk.slots
    refine Post.modify (Post.get ?_)
    obtain ⟨htl, ht'⟩ := List.getElem?_eq_some_iff.mp ht
    have hidx : M.index p.tagStack p.depth ({ p with lastOffset := p.offset } : Parser) = .ok t { p with lastOffset := p.offset } := by
      rw [M.index_of_lt _ _ _ (by omega) (by omega)]
      congr 1
      rw [← ht']; congr 1; omega
    rw [M.bind_apply]
    simp only
    rw [hidx, Res.andThen_ok]
    have hti := hs.tags t (List.mem_of_getElem? ht)
    obtain ⟨t0, t1, t2⟩ := hti
    rw [hlo, hhi] at *
    refine Post.modify (Post.get (Post.ite (fun _ => trivial) fun hlt => ?_))
    simp only [h.inv.base.cfg] at hlt
    have he1 := h.inv.base.end1
    have ⟨same, hsame, hiff⟩ := sameBytes_iff (c := c) (p := { p with rd := p.rd.setOffset (p.offset + len), lastOffset := p.offset, offset := p.offset + len }) h.inv.base.cfg len
      (a := o) (b := p.offset) ⟨t0, by omega, by omega⟩ ⟨ho0, by omega, by omega⟩
    rw [M.bind_apply]
    simp only [Int.toNat_natCast]
    rw [hsame, Res.andThen_ok]
    have hb : Base c { p with rd := p.rd.setOffset (p.offset + len), lastOffset := p.offset, offset := p.offset + len } :=
      { h.inv.base with
        off0 := by simp; omega, off1 := by simp [Reader.setOffset], off2 := by simp [Reader.setOffset]; omega
        sent := fun _ => by simp [Reader.setOffset]; omega }
    refine Post.ite (fun hst => ?_) fun _ => post_err _
    refine Post.modify (Post.movedIn (sat_post (nextCharAfterWs_moved (by exact hb))) fun _ r ch hb' hr1 hre => ?_)
    simp only [Reader.setOffset] at hr1
    refine Post.get (Post.ite (fun _ => post_err _) fun hgt => ?_)
    refine Post.ite (fun hne => ?_) fun hne => ?_
    · refine Post.modify (Post.ws (c := c) (by exact hb') fun r2 b2 ww hb2 hr2 hre2 hww hd2 => Post.get ?_)
      simp only [mv_rdOffset] at hr2 hd2
      refine Post.ite (fun _ => ?_) fun _ => Post.ite (fun hx => ?_) fun _ => ?_
      · rw [M.bind_apply, recordWsIfSet_eq hb2, Res.andThen_ok]
        exact W.lt hw hr.pred (by simp; omega) (by simp; omega)
      · refine W.txt hw hr.pred (by simp; omega) (by simp; omega) (by simp; omega) ?_
        exact text_start hww hd2 ((isContentChar_iff _).mp hx)
      · refine Post.moved (handleOtherTextChar_ok hb2 _) fun _ r3 ch3 hb3 hl3 => ?_
        simp only [mv_rdOffset] at hl3
        exact W.lt hw hr.pred (by simp; omega) (by simp; omega)
    · exact W.docEnd hw hr.pred (by simp; omega) (by simp; omega) (by omega)

end Wr
end Parser
end GoVtd
