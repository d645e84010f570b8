import Verif.Proofs.Parser.WritesProc

/-!
# The records of start tags and attributes
-/

namespace GoVtd
namespace Parser
namespace Wr
open Paged Grammar Two Ev
variable {c : ParserCfg} {p : Parser} {o0 out : ParserOut} {xs : List Rec} {pos cnt : Int}
  {es : List Mark} {stk : List (Nat × Nat)} {recs : List Rec}

theorem bytesAt_win {o l : Int} (hb : Base c p) (h0 : 0 ≤ o) (h1 : 0 ≤ l) (h2 : o + l ≤ c.endOffset) :
    BytesAt (win c) o ((c.xmlDoc.drop o.toNat).take l.toNat) ∧ ((c.xmlDoc.drop o.toNat).take l.toNat).length = l.toNat := by
  have e1 := hb.end1
  have e2 := win_length hb.end0 hb.end1
  have hn : (c.xmlDoc.drop o.toNat).take l.toNat = ((win c).drop o.toNat).take l.toNat := by
    rw [win, List.drop_take, List.take_take]
    congr 1; omega
  refine ⟨⟨(win c).take o.toNat, ((win c).drop o.toNat).drop l.toNat, ?_, ?_⟩, ?_⟩
  · rw [hn, List.take_append_drop, List.take_append_drop]
  · rw [List.length_take]; omega
  · rw [List.length_take, List.length_drop]; omega

/-- The record of a start tag that was read from `o`. -/
theorem ok_start {o l2 l1 d : Int} (hb : Base c p) (h0 : 0 ≤ o) (h1 : 1 ≤ l1) (h2 : o + l1 ≤ c.endOffset) (h3 : l1 ≤ 2047)
    (h4 : 0 ≤ l2) (h5 : l2 ≤ 511) (h6 : ch% ':' ∉ (c.xmlDoc.drop o.toNat).take l1.toNat → l2 = 0) (d0 : 0 ≤ d) (d1 : d ≤ 254) :
    RecOk (win c) ⟨.startingTag, o, shlOr l2 1 l1, d⟩ := by
  obtain ⟨e1, e2⟩ := bytesAt_win hb h0 (by omega) h2
  refine ⟨by show -1 ≤ d; omega, d1, h0, (fun _ => ⟨_, l2.toNat, e1, ?_, by omega, by omega, ?_, d0, (fun h => by have := h6 h; omega)⟩),
    (fun h => by simp at h), (fun h => by simp at h), (fun h => absurd rfl h)⟩
  · intro h; rw [h] at e2; simp at e2; omega
  · have h := Parser.shlOr_nat (a := l2.toNat) (b := l1.toNat) (k := 1) (by omega) (by omega) (by omega)
    rw [Int.toNat_of_nonneg (by omega), Int.toNat_of_nonneg (by omega)] at h
    rw [e2]; exact h

/-- The record of an attribute name that was read from `o`. -/
theorem ok_attr {t : Token} {o l2 l1 d : Int} (ht : t = .attrName ∨ t = .attrNs) (hb : Base c p) (h0 : 0 ≤ o) (h1 : 1 ≤ l1)
    (h2 : o + l1 ≤ c.endOffset) (h3 : l1 ≤ 2047) (h4 : 0 ≤ l2) (h5 : l2 ≤ 511) (d0 : 0 ≤ d) (d1 : d ≤ 254) :
    RecOk (win c) ⟨t, o, shlOr l2 11 l1, d⟩ ∧ (⟨t, o, shlOr l2 11 l1, d⟩ : Rec).stop = o + l1 := by
  obtain ⟨e1, e2⟩ := bytesAt_win hb h0 (by omega) h2
  have h := Parser.shlOr_nat (a := l2.toNat) (b := l1.toNat) (k := 11) (by omega) (by omega) (by omega)
  rw [Int.toNat_of_nonneg (by omega), Int.toNat_of_nonneg (by omega)] at h
  refine ⟨⟨by show -1 ≤ d; omega, d1, h0, (fun h => by rcases ht with rfl | rfl <;> simp at h),
    (fun _ => ⟨_, l2.toNat, e1, ?_, by omega, by omega, by rw [e2]; exact h⟩),
    (fun h => by rcases ht with rfl | rfl <;> simp at h), (fun _ h1 h2 => by rcases ht with rfl | rfl <;> simp at h1 h2)⟩, ?_⟩
  · intro h; rw [h] at e2; simp at e2; omega
  · have hlow := lower_bits (k := l2.toNat) (m := l1.toNat) (by omega)
    rw [← h] at hlow
    rcases ht with rfl | rfl <;> (simp only [Rec.stop, hlow]; omega)

theorem Rest.pred {d : Int} {x : Rec} (h : Rest d x) : Rest (d - 1) x := ⟨h.1, by have := h.2; omega⟩

theorem startTagEnd_w (hb : Base c p) (hsy : p.offset = p.rd.offset) (hin : p.rd.offset ≤ c.endOffset) (hd0 : 0 ≤ p.depth)
    (hd1 : p.depth ≤ 254) (hw : Wrote c o0 p.out xs p.rd.offset (p.rd.offset - 1)) (hr : Rest p.depth (lastRec xs)) :
    Post (startTagEnd p) (Next c o0) := by
  have tail : ∀ {p : Parser} {m : Int}, Base c p → p.offset = p.rd.offset → m ≤ p.rd.offset → m ≤ c.endOffset →
      -1 ≤ p.depth → p.depth ≤ 254 → Wrote c o0 p.out xs m (m - 1) → Rest p.depth (lastRec xs) → Post ((do
        if p.cfg.nsAware then do
          pushNs1
          if p.at_.currentElementRecord ≠ 0 then qualifyElement else pure ()
        else pure ()
        processElementTail : M Parser PState) p) (Next c o0) := by
    intro p m hb hsy h1 h2 h3 h4 hw hr
    have fin : ∀ {q : Parser}, NFrame p q → Post (processElementTail q) (Next c o0) := by
      intro q hf
      have := hf.rd hb
      exact processElementTail_w (m := m) (hf.base hb) (hf.sync hsy) (by omega) h2 (by rw [hf.depth]; exact h3)
        (by rw [hf.depth]; exact h4) (by rw [hf.out]; exact hw) (by rw [hf.depth]; exact hr)
    refine Post.ite (fun _ => ?_) fun _ => fin (NFrame.refl _)
    refine Post.bind (nf_post (Nf.of pushNs1_fr)) fun _ q hq => Post.ite (fun _ => ?_) fun _ => fin hq
    exact Post.bind (nf_post (Nf.of qualifyElement_fr)) fun _ q' hq' => fin (hq.trans hq')
  refine Post.modify (Post.get (Post.ite (fun _ => ?_) fun _ => ?_))
  · refine Post.modify (Post.bind (getChar_byte (c := c) (by exact hb)) ?_)
    rintro ch p' ⟨y, rfl, hp, hb', hlt, hy⟩
    subst hp
    refine Post.modify (Post.get (Post.ite (fun _ => ?_) fun _ => post_err _))
    exact tail (m := p.rd.offset) (by exact hb') rfl (by simp; omega) hin (by simp; omega) (by simp; omega) (by exact hw) (by exact hr.pred)
  · refine Post.get (Post.ite (fun _ => ?_) fun _ => post_err _)
    exact tail (m := p.rd.offset) (by exact hb) hsy (Int.le_refl _) hin (by simp; omega) (by exact hd1) (by exact hw) (by exact hr)

/-- The byte before a name that stands after white space. -/
theorem ws_before {doc w : List UInt8} {r r2 : Int} {x y : UInt8} (h0 : 0 ≤ r) (hr : r + 1 ≤ r2) (hx : doc[r.toNat]? = some x) (hxs : Ws x)
    (hy : doc[r2.toNat]? = some y) (hw : AllWs w) (hd : doc.drop (r + 1).toNat = w ++ doc.drop r2.toNat) :
    1 ≤ r2 ∧ ∃ s, doc[(r2 - 1).toNat]? = some s ∧ Ws s := by
  refine ⟨by omega, ?_⟩
  have hl := (List.getElem?_eq_some_iff.mp hy).1
  have hlen : (w.length : Int) = r2 - r - 1 := by
    have := congrArg List.length hd
    simp only [List.length_drop, List.length_append] at this; omega
  rcases Nat.eq_zero_or_pos w.length with h | h
  · exact ⟨x, by rw [← hx]; congr 1; omega, hxs⟩
  · have hn : w.length - 1 < w.length := by omega
    refine ⟨w[w.length - 1], ?_, hw _ (List.getElem_mem hn)⟩
    have : (doc.drop (r + 1).toNat)[w.length - 1]? = some w[w.length - 1] := by
      rw [hd, List.getElem?_append_left hn, List.getElem?_eq_getElem hn]
    rw [List.getElem?_drop] at this
    rw [← this]; congr 1; omega

theorem startTagNs_cur : Post (startTagNs p) fun _ p' => p'.currentChar = p.currentChar := by
  refine Post.of fun _ s h => ?_
  obtain ⟨⟨ns, v1, v2, v3, v4, v5, e⟩, -⟩ := startTagNs_fr.ok h
  have := congrArg Parser.currentChar e
  exact this

theorem startTag_w (h : G c o0 .tagStart p es stk recs) (w : W c o0 .tagStart p xs) : Post (processStartTag p) (Next c o0) := by
  have hs := h.inv.slots
  have h0 := h.inv.start (by simp)
  obtain ⟨hn0, hn1, hn2⟩ := h.inv.name (by simp)
  have hsy := h.inv.sync (by simp)
  have hk := h.k
  rw [if_pos rfl, if_pos rfl] at hk
  obtain ⟨k, hk4, hk0, hkq, hko, b0, hb0, hsb⟩ := h.tagS rfl
  have hinc : p.enc.increment = 1 := h.inv.base.inc
  have he1 := h.inv.base.end1
  have he2 := h.inv.base.end2
  have hlen2 := hk.len2
  obtain ⟨hw1, hw2⟩ : _ ∧ _ := w.last
  refine Post.get (Post.bind (startTagLoop_post h.inv.base) ?_)
  rintro _ p' ⟨l, r, x, run, hp, hb, hr, hre, hx, hnx, hrun, hdrop, hl0⟩
  subst hp
  have hcol := hl0 (k + 1) 0 (by rw [hlen2]; rfl) (by omega)
  refine Post.modify (Post.get (Post.ite (fun _ => post_err _) fun hd => ?_))
  have hd : p.depth ≤ 254 := by simpa [maxDepth] using hd
  generalize hq : ({ (({ p with length2 := l } : Parser).mv (r + 1) (r + 1) x.toNat) with
    length1 := (({ p with length2 := l } : Parser).mv (r + 1) (r + 1) x.toNat).offset -
      (({ p with length2 := l } : Parser).mv (r + 1) (r + 1) x.toNat).lastOffset -
      (({ p with length2 := l } : Parser).mv (r + 1) (r + 1) x.toNat).enc.increment } : Parser) = q
  have hq1 : q.length1 = r - p.lastOffset := by subst hq; simp [hinc]; omega
  have hq2 : q.length2 = l := by subst hq; rfl
  have hqb : Base c q := by subst hq; exact hb
  have hql : q.lastOffset = p.lastOffset := by subst hq; rfl
  have hqd : q.depth = p.depth := by subst hq; rfl
  have hqs : SlotsCore c q.tagStack q.at_ q.depth := by subst hq; exact hs
  have hqr : q.rd.offset = r + 1 := by subst hq; rfl
  have hqo : q.offset = r + 1 := by subst hq; rfl
  have hqc : q.currentChar = x.toNat := by subst hq; rfl
  have hqout : q.out = p.out := by subst hq; rfl
  clear hq
  obtain ⟨t, ht, htlo, hthi, hts⟩ := pushTag_post hqs (by omega) (by omega) (by omega) (by omega) he2 he1
  rw [M.bind_apply, ht, Res.andThen_ok]
  refine Post.modify (Post.bind (writeStartTag_post (by exact hqb)) ?_)
  rintro _ p' ⟨hl2, hl1, hp, hb3⟩
  subst hp
  replace hl2 : q.length2 ≤ 511 := hl2
  replace hl1 : q.length1 ≤ 2047 := hl1
  refine Post.bind (startTagNs_post.and startTagNs_cur) fun _ q' ⟨⟨hq', hrd⟩, hcur⟩ => Post.modify ?_
  generalize he : ({ q' with length2 := 0 } : Parser) = u at hq'
  have hub : Base c u := hq'.base (by exact hb3)
  have hur : u.rd.offset = r + 1 := by rw [← he]; show q'.rd.offset = r + 1; rw [hrd]; exact hqr
  have huo : u.offset = u.rd.offset := hq'.sync (by show q.offset = q.rd.offset; omega)
  have hud : u.depth = p.depth := hq'.depth.trans hqd
  have hu1 : u.out = Parser.emit c.shallowDepth p.out [⟨.startingTag, p.lastOffset, shlOr q.length2 1 q.length1, p.depth⟩] := by
    rw [hq'.out]; simp only [hqout, startRec, hql, hqd]
  have hok : RecOk (win c) ⟨.startingTag, p.lastOffset, shlOr q.length2 1 q.length1, p.depth⟩ := by
    refine ok_start hqb hn0 (by omega) (by omega) hl1 (by omega) hl2 (fun hno => ?_) h0 hd
    have : ch% ':' ∉ run := by
      intro hmem
      apply hno
      have e : (c.xmlDoc.drop p.lastOffset.toNat).take q.length1.toNat =
          (c.xmlDoc.drop p.lastOffset.toNat).take (k + 1) ++ run := by
        have hl' := (List.getElem?_eq_some_iff.mp hx).1
        have hlen := drop_run hl' (by omega) hdrop
        rw [show q.length1.toNat = (k + 1) + run.length by omega, List.take_add, List.drop_drop,
          show p.lastOffset.toNat + (k + 1) = p.rd.offset.toNat by omega, hdrop, List.take_left]
      rw [e]
      exact List.mem_append_right _ hmem
    rw [hq2, hcol, Grammar.lastColon_none this]; rfl
  have hwu : Wrote c o0 u.out (xs ++ [⟨.startingTag, p.lastOffset, shlOr q.length2 1 q.length1, p.depth⟩]) r r := by
    rw [hu1]
    refine w.wr.one (by simp only [posn]; omega) (by simp only [Rec.stop]; omega) (by simp only [posn]; omega) hok (by simp only [budget]; omega) ?_
    exact Link.start hw1 hw2
  have hru : Rest u.depth (lastRec (xs ++ [⟨.startingTag, p.lastOffset, shlOr q.length2 1 q.length1, p.depth⟩])) := by
    rw [lastRec_one, hud]; exact ⟨rfl, Int.le_refl _⟩
  have huc : u.currentChar = x.toNat := by
    rw [← he]; show q'.currentChar = _; rw [hcur]; exact hqc
  refine Post.get (Post.ite (fun hsp => ?_) fun _ => ?_)
  · refine Post.bind (nextCharAfterWs_byte (c := c) hub) ?_
    rintro _ p' ⟨r2, y, w, hp, hb4, hr2, hr2e, hy, hww, hwd⟩
    subst hp
    rw [hur] at hwd
    refine Post.get (Post.ite (fun hnm => ?_) fun _ => ?_)
    · simp only [M.bind_apply, getPrevOffset_eq hb4, Res.andThen_ok, M.modify_apply, M.pure_apply]
      refine ⟨_, hwu.mono (by simp [posn]; omega) (by simp [budget]; omega), ?_, ?_⟩
      rotate_left
      · rw [huc, isSpaceChar_iff] at hsp
        simpa [PosOk] using ws_before (by omega) (by omega) hx hsp hy hww hwd
      rw [lastRec_one]
      exact ⟨.inl rfl, hud.symm⟩
    · exact startTagEnd_w hb4 rfl (by simp; omega) (by simp; omega) (by simp; omega) (hwu.mono (by simp; omega) (by simp; omega)) hru
  · exact startTagEnd_w hub huo (by omega) (by omega) (by omega) (hwu.mono (by omega) (by omega)) hru

theorem attrName_w (h : G c o0 .attrName p es stk recs) (w : W c o0 .attrName p xs) : Post (processAttrName p) (Next c o0) := by
  have hs := h.inv.slots
  have h0 := h.inv.start (by simp)
  obtain ⟨hn0, hn1, hn2⟩ := h.inv.name (by simp)
  have hsy := h.inv.sync (by simp)
  have hd := h.inv.deep (by decide)
  obtain ⟨-, hat⟩ := h.attr (by simp)
  have hk := h.k
  simp only [reduceCtorEq, if_false] at hk
  have hlen2 := hk.len2
  obtain ⟨hl1, y, hy, hys, hyc⟩ := h.attrS rfl
  obtain ⟨hw1, hw2⟩ : _ ∧ _ := w.last
  obtain ⟨hp1, hpws⟩ : _ ∧ _ := w.pos
  have hcur : Cur c p := ⟨y, by rw [← hy]; congr 1; omega, hyc⟩
  refine Post.bind ((attrNsTest_post h.inv.base hsy hl1 hn0 (by omega) hy hyc).and (attrNsTest_cur h.inv.base hcur)) ?_
  rintro _ p' ⟨⟨a, b, ch, u, y', rfl, hb, hu, hu0, hud, hy', hsh, hc⟩, hcur⟩
  refine Post.get (Post.bind ((attrNameLoop_post (q := p.lastOffset + u.length) hb rfl rfl (by omega)
    (by rw [← hy']; congr 1; omega) hsh hc).and (attrNameLoop_cur hb hcur)) ?_)
  rintro _ p' ⟨⟨l2, r2, ch2, x, run, rfl, hb2, hl2, he, hx, hnx, hrun, hdrop, hlc⟩, hcur⟩
  rw [M.bind_apply, getPrevOffset_eq hb2, Res.andThen_ok]
  refine Post.modify ?_
  have he1 := hb.end1
  have he2 := hb.end2
  have hlc := hlc u.length 0 (by simpa using hlen2) rfl
  have hr2 : p.lastOffset + 1 ≤ r2 := by
    rcases Int.lt_or_le p.lastOffset r2 with h | h
    · omega
    · have : r2 = p.lastOffset := by omega
      subst this
      rw [hy] at hx
      cases hx
      exact absurd (Or.inl hys) hnx
  generalize hq : ({ (({ (({ p with at_ := { p.at_ with isNs := a, defaultNs := b } } : Parser).mv
      (p.lastOffset + u.length + 1) (p.lastOffset + u.length + 1) ch) with length2 := l2 } : Parser).mv (r2 + 1) (r2 + 1) ch2) with
      length1 := (({ (({ p with at_ := { p.at_ with isNs := a, defaultNs := b } } : Parser).mv
      (p.lastOffset + u.length + 1) (p.lastOffset + u.length + 1) ch) with length2 := l2 } : Parser).mv (r2 + 1) (r2 + 1) ch2).offset - 1 -
      (({ (({ p with at_ := { p.at_ with isNs := a, defaultNs := b } } : Parser).mv
      (p.lastOffset + u.length + 1) (p.lastOffset + u.length + 1) ch) with length2 := l2 } : Parser).mv (r2 + 1) (r2 + 1) ch2).lastOffset } : Parser) = q
  have hq1 : q.length1 = r2 - p.lastOffset := by subst hq; simp
  have hq2 : q.length2 = l2 := by subst hq; rfl
  have hqb : Base c q := by subst hq; exact hb2
  have hql : q.lastOffset = p.lastOffset := by subst hq; rfl
  have hqd : q.depth = p.depth := by subst hq; rfl
  have hqs : SlotsCore c q.tagStack q.at_ q.depth := by subst hq; exact { hs with }
  have hqr : q.rd.offset = r2 + 1 := by subst hq; rfl
  have hqout : q.out = p.out := by subst hq; rfl
  have hqc : Cur c q := by subst hq; exact hcur
  have hqat : Atts c.xmlDoc q.at_.attrNameSlice q.at_.attrCount (seenAfter c.xmlDoc [] recs) := by subst hq; exact hat
  clear hq
  refine Post.bind ((nf_post (Nf.of attrNsDecl_fr)).and (fr_post attrNsDecl_rd)) fun _ s1 ⟨h1, f1⟩ => ?_
  refine Post.bind (Post.and (unique_post (h1.base hqb) (h1.slots hqs) ⟨by rw [h1.lastOffset]; omega, by rw [h1.length1]; omega,
    by rw [h1.lastOffset, h1.length1]; omega⟩ (by rw [h1.lastOffset, h1.length1]; omega)
    (by rw [h1.names, h1.count]; exact hqat)) (fr_post checkAttrUniqueness_rd)) ?_
  rintro _ s2 ⟨⟨l, n, h2, hs2, -, -⟩, f2⟩
  have hb2 : Base c s2 := h2.base (by exact h1.base hqb)
  refine Post.bind ((writeAttrName_post hb2).and (fr_post writeAttrName_rd)) ?_
  rintro _ s3 ⟨⟨hm2, hm1, s3', h3, rfl, hb3⟩, f3⟩
  have hqc := ((hqc.mono f1).mono f2).mono f3
  have hrr : s3'.rd.offset = r2 + 1 := by rw [← hqr, ← f1.1, ← f2.1, ← f3.1]
  have e1 : s2.length1 = q.length1 := h2.length1.trans h1.length1
  have e2 : s2.length2 = q.length2 := h2.length2.trans h1.length2
  have e3 : s2.lastOffset = q.lastOffset := h2.lastOffset.trans h1.lastOffset
  have e4 : s2.depth = q.depth := h2.depth.trans h1.depth
  have e5 : s2.out = q.out := h2.out.trans h1.out
  have hr1 := h1.rd hqb
  have hr2' : s1.rd.offset ≤ s2.rd.offset := h2.rd (by exact h1.base hqb)
  have hr3 := h3.rd hb2
  refine ((attrNameEnd_post hb3).and (attrNameEnd_bytes hb3 (by simp only; omega) hqc)).mono ?_
  rintro st p' ⟨⟨rfl, r, ch, rfl, hb4, hr⟩, wa, wb, qt, hwa, hwb, hqt, hqch, hbytes⟩
  simp only [hrr, show r2 + 1 - 1 = r2 by omega] at hr hqch hbytes
  have hrec : Ev.attrRec s2 = ⟨if s2.at_.isNs then .attrNs else .attrName, p.lastOffset, shlOr q.length2 11 q.length1, p.depth⟩ := by
    rw [Ev.attrRec, e3, e2, e1, e4, hql, hqd]
  have ht : (if s2.at_.isNs then Token.attrNs else Token.attrName) = .attrName ∨ (if s2.at_.isNs then Token.attrNs else Token.attrName) = .attrNs := by
    split <;> simp
  obtain ⟨hok, hstop⟩ := ok_attr ht hqb hn0 (l1 := q.length1) (l2 := q.length2) (d := p.depth) (by omega) (by omega) (by omega) (by omega) (by omega) h0 hd
  refine ⟨xs ++ [Ev.attrRec s2], ?_, ?_, rfl, qt, hqch, ?_⟩
  · show Wrote c o0 (Parser.emit c.shallowDepth s2.out [Ev.attrRec s2]) _ r (r - 2)
    rw [hrec, e5, hqout]
    refine w.wr.one (by simp only [posn]; omega) (by rw [hstop]; omega) (by simp only [posn]; omega) hok (by simp only [budget]; omega) ?_
    exact Link.attrName ht hw1 hw2
  · rw [lastRec_one, hrec]
    exact ⟨ht, by show p.depth = s3'.depth; rw [h3.depth, e4, hqd]⟩
  · rw [lastRec_one, hrec]
    have hname : c.xmlDoc.drop p.lastOffset.toNat = (u ++ run) ++ c.xmlDoc.drop r2.toNat := by
      rw [hud, List.append_assoc, ← hdrop]; congr 2; omega
    have hlen := congrArg List.length hname
    have hxl := (List.getElem?_eq_some_iff.mp hx).1
    simp only [List.length_append, List.length_drop] at hlen
    refine ⟨⟨hp1, hpws⟩, u ++ run, wa, wb, ?_, ?_, hwa, hwb, hqt, ?_⟩
    · have hyl := (List.getElem?_eq_some_iff.mp hy).1
      cases hur : u ++ run with
      | nil => rw [← List.length_append, hur] at hlen; simp at hlen; omega
      | cons b t =>
        have hbt : y = b := by
          have := congrArg (·[0]?) hname
          simp only [List.getElem?_drop, Nat.add_zero, hy, hur] at this
          simpa using this
        have hall : AllName (u ++ run) := by
          intro z hz
          rcases List.mem_append.mp hz with h | h
          · exact hu z h
          · exact hrun z h
        exact ⟨b, t, rfl, hbt ▸ hys, fun z hz => hall z (by rw [hur]; simp [hz])⟩
    · rw [hstop, List.length_append]; simp only; omega
    · rw [hname]; exact congrArg _ hbytes

theorem attrValEnd_w (hb : Base c p) (hsy : p.offset = p.rd.offset) (hin : p.rd.offset ≤ c.endOffset) (hd0 : 0 ≤ p.depth)
    (hd1 : p.depth ≤ 254) (hw : Wrote c o0 p.out xs p.rd.offset (p.rd.offset - 1)) (hr : Rest p.depth (lastRec xs)) :
    Post (attrValEnd p) (Next c o0) := by
  have tail : ∀ {p : Parser} {m : Int}, Base c p → p.offset = p.rd.offset → m ≤ p.rd.offset → m ≤ c.endOffset →
      -1 ≤ p.depth → p.depth ≤ 254 → Wrote c o0 p.out xs m (m - 1) → Rest p.depth (lastRec xs) → Post ((do
        attrValQualify
        M.modify fun p => { p with at_ := { p.at_ with attrCount := 0 } }
        processElementTail : M Parser PState) p) (Next c o0) := by
    intro p m hb hsy h1 h2 h3 h4 hw hr
    refine Post.bind (nf_post attrValQualify_nf) fun _ q hf => Post.modify ?_
    have := hf.rd hb
    exact processElementTail_w (m := m) (by exact hf.base hb) (hf.sync hsy) (by show m ≤ q.rd.offset; omega) h2
      (by show -1 ≤ q.depth; rw [hf.depth]; exact h3)
      (by show q.depth ≤ 254; rw [hf.depth]; exact h4) (by show Wrote c o0 q.out _ _ _; rw [hf.out]; exact hw)
      (by show Rest q.depth _; rw [hf.depth]; exact hr)
  refine Post.modify (Post.get (Post.ite (fun _ => ?_) fun _ => ?_))
  · refine Post.modify (Post.bind (nextChar_byte (c := c) (by exact hb)) ?_)
    rintro _ p' ⟨y, hp, hb', hlt, hy⟩
    subst hp
    refine Post.get (Post.ite (fun _ => ?_) fun _ => post_err _)
    exact tail (m := p.rd.offset) (by exact hb') rfl (by simp; omega) hin (by simp; omega) (by simp; omega) (by exact hw) (by exact hr.pred)
  · refine Post.get (Post.ite (fun _ => ?_) fun _ => post_err _)
    exact tail (m := p.rd.offset) (by exact hb) hsy (Int.le_refl _) hin (by simp; omega) (by exact hd1) (by exact hw) (by exact hr)

theorem attrVal_w (h : G c o0 .attrVal p es stk recs) (w : W c o0 .attrVal p xs) : Post (processAttrVal p) (Next c o0) := by
  have h0 := h.inv.start (by simp)
  have hd := h.inv.deep (by decide)
  have hb0 := h.inv.base
  have ho0 := hb0.off0
  have ho1 := hb0.off1
  obtain ⟨hp, qt, hqc, hopen⟩ : _ ∧ _ := w.pos
  obtain ⟨hw1, hw2⟩ : _ ∧ _ := w.last
  have hv : valueTok (lastRec xs).tok = some .attrVal := by rcases hw1 with h | h <;> (rw [h]; rfl)
  have hqa : qt ≠ ch% '&' := by
    obtain ⟨-, _, _, _, -, -, -, -, h, -⟩ := hopen
    rcases h with h | h <;> rw [h] <;> decide
  refine Post.get ?_
  rw [hqc]
  refine Post.bind (attrValLoop_post hqa h.inv.base) ?_
  rintro _ p' ⟨⟨r, ch, rfl, hb, -, hR⟩, hre, hl⟩
  simp only [mv_rdOffset] at hre hl
  refine Post.modify ?_
  have hinc : p.enc.increment = 1 := hb0.inc
  refine Post.bind (nf_post attrValNs_nf) fun _ q hq => ?_
  have hqb : Base c q := hq.base (by exact hb)
  have hqr : r ≤ q.rd.offset := hq.rd (c := c) (by exact hb)
  have hqs : q.offset = q.rd.offset := hq.sync rfl
  have hql : q.lastOffset = p.lastOffset := hq.lastOffset
  have hq1 : q.length1 = r - p.lastOffset - 1 := hq.length1.trans (by simp [hinc])
  have hqd : q.depth = p.depth := hq.depth
  have hqo : q.out = p.out := hq.out
  refine Post.check hqb _ (by decide) _ fun hm hb2 => Post.modify ?_
  rw [hql, hq1, hqd, hqo] at hb2 ⊢
  refine Post.bind (nextChar_byte (c := c) (by exact hb2)) ?_
  rintro _ p' ⟨x, rfl, hb3, hlt, hx⟩
  simp only at hlt hx
  have hwu : Wrote c o0 (Parser.emit c.shallowDepth p.out [⟨.attrVal, p.lastOffset, r - p.lastOffset - 1, p.depth⟩])
      (xs ++ [⟨.attrVal, p.lastOffset, r - p.lastOffset - 1, p.depth⟩]) r r := by
    refine w.wr.one (by simp only [posn]; omega) (by simp only [Rec.stop]; omega) (by simp only [posn]; omega) ?_ (by simp only [budget]; omega) ?_
    · exact ok_plain hb0 (by decide) (by omega) (by omega) (by omega) (by omega) (by omega) hd
    · refine Link.value_ hv hw2 ⟨qt, _, by rw [hp]; exact hopen, by rw [hp]; exact hR, ?_⟩
      have e1 := hb0.end1
      simp only [Ate, from_, List.length_drop]; omega
  have hru : Rest p.depth (lastRec (xs ++ [⟨.attrVal, p.lastOffset, r - p.lastOffset - 1, p.depth⟩])) := by
    rw [lastRec_one]; exact ⟨rfl, Int.le_refl _⟩
  refine Post.get (Post.ite (fun hsp => ?_) fun _ => ?_)
  · refine Post.bind (nextCharAfterWs_byte (c := c) hb3) ?_
    rintro _ p' ⟨r2, y, w, rfl, hb4, hr2, hr2e, hy, hww, hwd⟩
    simp only [mv_rdOffset] at hr2 hwd
    refine Post.get (Post.ite (fun hnm => Post.modify ?_) fun _ => ?_)
    · have hqi : q.enc.increment = 1 := hqb.inc
      refine ⟨_, hwu.mono (by show r ≤ r2 + 1 - q.enc.increment; omega) (by show r ≤ r2 + 1 - 2; omega), ?_, ?_⟩
      rotate_left
      · have hsp : Ws x := (isSpaceChar_iff _).mp hsp
        have := ws_before (by omega) (by omega) hx hsp hy hww hwd
        rw [show r2 = r2 + 1 - q.enc.increment by omega] at this
        exact this
      rw [lastRec_one]
      exact ⟨.inr rfl, rfl⟩
    · exact attrValEnd_w hb4 rfl (by simp; omega) (by exact h0) (by exact hd) (hwu.mono (by simp; omega) (by simp; omega)) (by exact hru)
  · exact attrValEnd_w hb3 rfl (by simp; omega) (by exact h0) (by exact hd) (hwu.mono (by simp; omega) (by simp; omega)) (by exact hru)

end Wr
end Parser
end GoVtd
