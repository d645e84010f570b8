import Verif.Proofs.Parser.RootedAttr

/-!
# The value of an attribute of a document that declares its prefixes at the root
-/

namespace GoVtd
namespace Parser
namespace Rooted
open Paged Grammar Two Ev Plain Sound

variable {f : Nat} {x : Ext} {s t p p' : Parser} {c : ParserCfg} {D : List UInt8} {V V' ws ds : List (BitVec 64)} {w : BitVec 64}
  {st st' : PState} {o0 : ParserOut} {es : List Mark} {stk : List (Nat × Nat)} {recs : List Rec}

/-! ## The end of the tag -/

theorem attrValQualify_rr (hr : RR f s t) (hb : Base c s) (hI : InTag (aw f c) t) (hT : Tab c.xmlDoc (vals s) 0 t.ns)
    (hR : Ready c.xmlDoc (vals s)) : ∃ t', attrValQualify t = .ok () t' ∧ RR f s t' ∧ Tab c.xmlDoc (vals s) 0 t'.ns := by
  have hbt := hr.base hb
  obtain ⟨A, B, w0, hO⟩ := hI.opn
  have hC := hI.com
  rw [hr.vals] at hO hC
  have hO : OpenTag c.xmlDoc (vals s) t.at_ A B w0 := hO
  obtain ⟨hR1, -, hR3⟩ := hR A w0 B hO.eq hO.start hO.none
  obtain ⟨b, h1, h2⟩ := pushNs1_rr hr hT
  simp only [attrValQualify, M.bind_apply, M.get_apply, Res.andThen_ok, M.ite_apply, hr.on, if_true, h1]
  generalize hq1 : ({ t with ns := { t.ns with nsBuffer1 := b } } : Parser) = t1
  have hr1 : RR f s t1 := hr.ns ⟨_, t.at_.currentElementRecord, t.at_.prefixedAttCount, t.at_.prefixedAttrNameSlice, t.at_.prefixUrlSlice, hq1.symm⟩
  have ha1 : t1.at_ = t.at_ := by rw [← hq1]
  have hT1 : Tab c.xmlDoc (vals s) 0 t1.ns := by rw [← hq1]; exact h2
  have hb1 : Base (aw f c) t1 := hr1.base hb
  have hC1 : Common c.xmlDoc (vals s) t1 := by rw [← hq1]; exact hC.to (fun _ h => h) rfl rfl rfl rfl
  have fin : ∀ l t2, t2 = ({ t1 with at_ := { t1.at_ with prefixUrlSlice := l } } : Parser) →
      ∃ t', (if t.at_.currentElementRecord ≠ 0 then do
        qualifyElement
        M.modify fun p => { p with at_ := { p.at_ with prefixedAttCount := 0 } }
      else M.modify fun p => { p with at_ := { p.at_ with prefixedAttCount := 0 } } : M Parser Unit) t2 = .ok () t' ∧
        RR f s t' ∧ Tab c.xmlDoc (vals s) 0 t'.ns := by
    rintro l t2 e2
    have hr2 : RR f s t2 := hr1.ns ⟨_, t1.at_.currentElementRecord, t1.at_.prefixedAttCount, t1.at_.prefixedAttrNameSlice, l, e2⟩
    have hT2 : Tab c.xmlDoc (vals s) 0 t2.ns := by rw [e2]; exact hT1
    have hO2 : OpenTag c.xmlDoc (vals s) t2.at_ A B w0 := by
      rw [e2]
      dsimp only
      rw [ha1]
      exact ⟨hO.eq, hO.done, hO.start, hO.none, hO.count, hO.slots, hO.fit, hO.elem, hO.shape, hO.plain⟩
    have hel := elem_total (c := aw f c) (hr2.base hb) (V := vals s) hO2 hT2.b3 hR
    have hce : t2.at_.currentElementRecord = t.at_.currentElementRecord := by rw [e2]; dsimp only; rw [ha1]
    rw [hce, M.ite_apply] at hel
    refine ⟨{ t2 with at_ := { t2.at_ with prefixedAttCount := 0 } }, ?_,
      hr2.ns ⟨t2.ns, t2.at_.currentElementRecord, 0, t2.at_.prefixedAttrNameSlice, t2.at_.prefixUrlSlice, rfl⟩, hT2⟩
    rw [M.ite_apply]
    split
    · rename_i h0
      rw [if_pos h0] at hel
      rw [M.bind_apply, hel, Res.andThen_ok]
      rfl
    · rfl
  by_cases hcnt : t.at_.prefixedAttCount > 0
  · rw [if_pos hcnt]
    have hslots : ∀ i : Nat, i < t1.at_.prefixedAttCount.toNat → ∃ e, t1.at_.prefixedAttrNameSlice[i]? = some e ∧ ∃ w,
        (B.filter fun w => Pfx c.xmlDoc w)[i]? = some w ∧ e = attEntry c.xmlDoc w ∧ Fit c.xmlDoc w ∧ Pfx c.xmlDoc w := by
      intro i hi
      rw [ha1] at hi ⊢
      have hlt : i < (B.filter fun w => Pfx c.xmlDoc w).length := by rw [hO.count] at hi; omega
      have he := hO.slots i _ (List.getElem?_eq_getElem hlt)
      exact ⟨_, he, hO.slot (c := c) hi he⟩
    have hknown : ∀ i : Nat, i < t1.at_.prefixedAttCount.toNat → ∃ e, t1.at_.prefixedAttrNameSlice[i]? = some e ∧
        InDoc c (high32 e) (attrPreLen e) ∧ 0 ≤ attrPreLen e ∧
        ∃ d ∈ decls c.xmlDoc (vals s), localOf c.xmlDoc d = sub c.xmlDoc (high32 e).toNat (attrPreLen e).toNat := by
      intro i hi
      obtain ⟨e, he, w, hw, rfl, hf, hp⟩ := hslots i hi
      obtain ⟨z1, z2, z3, z4⟩ := entry_slot (c := c) hf hp.2.1
      obtain ⟨m1, m2⟩ := List.mem_filter.mp (List.mem_of_getElem? hw)
      obtain ⟨d, hd, hdd⟩ := hR1 w m1 hp
      refine ⟨_, he, ⟨z1, z2, by omega⟩, z2, d, ?_⟩
      rw [entry_prefix hf hp.2.1]
      exact mem_decls hd hdd
    have hsz : t1.ns.nsBuffer3.getSize.toNat = (decls c.xmlDoc (vals s)).length := by rw [hT1.b3.eq]; simp [getSize, fill]
    obtain ⟨t2, g2⟩ := qualifyAttrsLoop_total (c := aw f c) hT1.b3 hb1 t1.at_.prefixedAttCount.toNat (Int.le_refl 0)
      (fun i _ hi => hknown i (by simpa using hi))
    obtain ⟨⟨l, hs2⟩, -⟩ := qualifyAttrsLoop_found hb1 hC1.entries (Int.le_refl 0) (fun i e hi he => by
      obtain ⟨e', he', w, -, rfl, hf, hp⟩ := hslots i (by simpa using hi)
      rw [he'] at he
      cases he
      obtain ⟨z1, z2, z3, z4⟩ := entry_slot (c := c) hf hp.2.1
      exact ⟨z1, z2, by show _ ≤ (c.xmlDoc.length : Int); omega⟩) g2
    have hqa : qualifyAttributes t1 = .ok () t2 := by
      simp only [qualifyAttributes, M.bind_apply, M.get_apply, Res.andThen_ok]
      rw [hsz, g2]
    have hls := (qualifyAttributes_fr.ok hqa).2 hC1.lists
    have hb2 : Base (aw f c) t2 := by rw [hs2]; exact hb1
    have ha2 : t2.at_.prefixedAttrNameSlice = t1.at_.prefixedAttrNameSlice := by rw [hs2]
    have hc2 : t2.at_.prefixedAttCount = t1.at_.prefixedAttCount := by rw [hs2]
    obtain ⟨ys, y1, y2⟩ := hT1.b2
    have hu : checkQualifiedAttributeUniqueness t2 = .ok () t2 := by
      simp only [checkQualifiedAttributeUniqueness, M.bind_apply, M.get_apply, Res.andThen_ok]
      refine uniqueQualOuter_total hb2 hls (ys := ys) (by rw [hs2]; exact y1) ?_ (Int.le_refl 0) ?_ ?_
      · have := hT1.b3.few
        obtain ⟨-, -, -, -, d, hd, -⟩ := hknown 0 (by rw [ha1]; omega)
        have := List.length_pos_of_mem hd
        omega
      · intro i hi
        obtain ⟨e, he, w, -, rfl, hf, hp⟩ := hslots i (by rw [hc2] at hi; simpa using hi)
        exact ⟨_, by rw [ha2]; exact he, entry_slot (c := aw f c) hf hp.2.1⟩
      · intro i k e e' hik hk he he'
        rw [hc2] at hk
        rw [ha2] at he he'
        obtain ⟨_, k1, w, hw, rfl, hf, -⟩ := hslots i (by omega)
        obtain ⟨_, k2, z, hz, rfl, hg, -⟩ := hslots k (by omega)
        rw [k1] at he; cases he
        rw [k2] at he'; cases he'
        have := List.pairwise_iff_getElem.mp hR3 i k (lt_of_some hw) (lt_of_some hz) hik
        rw [(List.getElem?_eq_some_iff.mp hw).2, (List.getElem?_eq_some_iff.mp hz).2] at this
        show slotLocal c.xmlDoc _ ≠ slotLocal c.xmlDoc _
        rw [entry_local hf, entry_local hg]
        exact this
    rw [hqa, Res.andThen_ok, M.bind_apply, hu, Res.andThen_ok]
    exact fin l t2 hs2
  · rw [if_neg hcnt]
    obtain ⟨t', k1, k2⟩ := fin t1.at_.prefixUrlSlice t1 rfl
    rw [M.ite_apply] at k1
    exact ⟨t', k1, k2⟩

theorem valClose_rr {q : Parser} (hr : RR f s t) (hb : Base c s) (hI : InTag (aw f c) t)
    (hT : Tab c.xmlDoc (vals s) 0 t.ns) (hm : valClose s = .ok st q) (hR : Ready c.xmlDoc (vals q)) :
    ∃ t', valClose t = .ok st t' ∧ RR f q t' ∧ Tab c.xmlDoc (vals q) 0 t'.ns := by
  have e := hr.same.currentChar
  simp only [valClose, M.bind_apply, M.get_apply, Res.andThen_ok, M.ite_apply, e] at hm ⊢
  by_cases hc : s.currentChar = ch% '>'
  · rw [if_pos hc] at hm ⊢
    rw [attrValQualify_left hr.off] at hm
    simp only [Res.andThen_ok, M.bind_apply, M.modify_apply] at hm ⊢
    have hb' : Base c { s with at_ := { s.at_ with attrCount := 0 } } := hb
    obtain ⟨ws, hv, hq⟩ := (lf_ok (LF.quiet processElementTail_qf) hm hb').vals hb'.out
    have hv : vals q = vals s ++ ws := hv
    obtain ⟨t1, h1, hr1, hT1⟩ := attrValQualify_rr hr hb hI hT (by
      refine Ready.cut (ws := ws) ?_ hq
      rw [← hv]; exact hR)
    rw [h1, Res.andThen_ok]
    have hr2 : RR f { s with at_ := { s.at_ with attrCount := 0 } } { t1 with at_ := { t1.at_ with attrCount := 0 } } := by
      obtain ⟨x, rfl, g1, g2, g3⟩ := hr1
      exact ⟨x, rfl, g1, g2, g3⟩
    obtain ⟨t', h3, h4, n4, -⟩ := sim_ok' (fun x => processElementTail_sim (rx_nice (x := x))) hr2 hm
    refine ⟨t', h3, h4, ?_⟩
    rw [n4, hv]
    exact hT1.quiet fun w hw => (hq w hw).2.2
  · rw [if_neg hc] at hm
    exact (Two.parseErr_ok hm).elim

theorem valSlash_base (hb : Base c s) : Post (valSlash s) fun _ s' => Base c s' ∧ s'.at_ = s.at_ ∧ s'.ns = s.ns ∧ s'.out = s.out := by
  refine Post.modify (Post.get (Post.ite (fun _ => Post.modify ?_) fun _ => ⟨hb, rfl, rfl, rfl⟩))
  refine (nextChar_byte (c := c) (by exact hb)).mono ?_
  rintro _ _ ⟨b, rfl, hb', -⟩
  exact ⟨hb', rfl, rfl, rfl⟩

theorem attrValEnd_rr {q : Parser} (hr : RR f s t) (hb : Base c s) (hI : InTag (aw f c) t)
    (hT : Tab c.xmlDoc (vals s) 0 t.ns) (hm : attrValEnd s = .ok st q) (hR : Ready c.xmlDoc (vals q)) :
    ∃ t', attrValEnd t = .ok st t' ∧ RR f q t' ∧ Tab c.xmlDoc (vals q) 0 t'.ns := by
  have hs : ∀ x, Sim (RX f x) False False valSlash valSlash := by
    intro x
    have hR := rx_nice (f := f) (x := x)
    unfold valSlash
    sim hR
  rw [attrValEnd_eq] at hm ⊢
  obtain ⟨u, s', h1, h2⟩ := bind_ok hm
  obtain ⟨hb1, -, -, o1⟩ := (valSlash_base hb).eq h1
  obtain ⟨t', h3, h4, n4, -⟩ := sim_ok' hs hr h1
  obtain ⟨-, a2, n2, o2⟩ := (valSlash_base (hr.base hb)).eq h3
  obtain ⟨t'', h5, h6⟩ := valClose_rr h4 hb1 (hI.same a2 n2 o2) (by rw [vals, o1, n4]; exact hT) h2 hR
  refine ⟨t'', ?_, h6⟩
  rw [M.bind_apply, h3, Res.andThen_ok, h5]

theorem attrValEnd_notAttr : Ends notAttr attrValEnd := by
  have hT := tail_notAttr
  rw [attrValEnd_eq]
  unfold valClose
  ends

theorem valNext2_rr {q : Parser} (hr : RR f s t) (hb : Base c s) (hI : InTag (aw f c) t)
    (hT : Tab c.xmlDoc (vals s) 0 t.ns) (hm : valNext2 s = .ok st q) (hR : notAttr st = true → Ready c.xmlDoc (vals q)) :
    ∃ t', valNext2 t = .ok st t' ∧ RR f q t' ∧ Tab c.xmlDoc (vals q) 0 t'.ns ∧
      (notAttr st = true ∨ st = .attrName ∧ t'.ns = t.ns ∧ t'.at_ = t.at_ ∧ q.depth = s.depth ∧ q.at_ = s.at_) := by
  have fin : ∀ {s t : Parser}, RR f s t → Base c s → InTag (aw f c) t → Tab c.xmlDoc (vals s) 0 t.ns → attrValEnd s = .ok st q →
      ∃ t', attrValEnd t = .ok st t' ∧ RR f q t' ∧ Tab c.xmlDoc (vals q) 0 t'.ns ∧ notAttr st = true := by
    intro s t hr hb hI hT hm
    have hn := attrValEnd_notAttr _ _ _ hm
    obtain ⟨t', k1, k2, k3⟩ := attrValEnd_rr hr hb hI hT hm (hR hn)
    exact ⟨t', k1, k2, k3, hn⟩
  unfold valNext2 at hm ⊢
  obtain ⟨u0, s0, h0, hm⟩ := bind_ok (m := nextChar) hm
  obtain ⟨t0, g0, hr0, n0, -⟩ := sim_ok' (fun x => nextChar_sim (rx_nice (x := x))) hr h0
  obtain ⟨b0, i0, hb0, -⟩ := (nextChar_byte hb).eq h0
  obtain ⟨b0', j0, -, -⟩ := (nextChar_byte (hr.base hb)).eq g0
  have hI0 : InTag (aw f c) t0 := hI.same (by rw [j0]; rfl) (by rw [j0]; rfl) (by rw [j0]; rfl)
  have hT0 : Tab c.xmlDoc (vals s0) 0 t0.ns := by rw [n0, vals, show s0.out = s.out by rw [i0]; rfl]; exact hT
  rw [M.bind_apply, g0, Res.andThen_ok]
  have e := hr0.same.currentChar
  simp only [M.bind_apply, M.get_apply, Res.andThen_ok, M.ite_apply, e] at hm ⊢
  by_cases hc : isSpaceChar s0.currentChar = true
  · rw [if_pos hc] at hm ⊢
    obtain ⟨u, s1, h1, hm⟩ := bind_ok (m := nextCharAfterWs) hm
    obtain ⟨t1, h2, hr1, n1, -⟩ := sim_ok' (fun x => nextCharAfterWs_sim (rx_nice (x := x))) hr0 h1
    obtain ⟨r2, y, w, e1, hb1, -⟩ := (nextCharAfterWs_byte hb0).eq h1
    obtain ⟨r2', y', w', e2, -, -⟩ := (nextCharAfterWs_byte (hr0.base hb0)).eq h2
    have hI1 : InTag (aw f c) t1 := hI0.same (by rw [e2]; rfl) (by rw [e2]; rfl) (by rw [e2]; rfl)
    have hT1 : Tab c.xmlDoc (vals s1) 0 t1.ns := by rw [n1, vals, show s1.out = s0.out by rw [e1]; rfl]; exact hT0
    rw [h2, Res.andThen_ok]
    have e1' := hr1.same.currentChar
    simp only [M.bind_apply, M.get_apply, Res.andThen_ok, M.ite_apply, e1'] at hm ⊢
    by_cases hx : isNameStartChar s1.currentChar = true
    · rw [if_pos hx] at hm ⊢
      cases hm
      refine ⟨_, rfl, ?_, hT1, .inr ⟨rfl, n1.trans n0, ?_, ?_, ?_⟩⟩
      · obtain ⟨x, rfl, a1, a2, a3⟩ := hr1
        exact ⟨x, rfl, a1, a2, a3⟩
      · show t1.at_ = _; rw [e2]; show t0.at_ = _; rw [j0]; rfl
      · show s1.depth = _; rw [e1]; show s0.depth = _; rw [i0]; rfl
      · show s1.at_ = _; rw [e1]; show s0.at_ = _; rw [i0]; rfl
    · rw [if_neg hx] at hm ⊢
      obtain ⟨t', k1, k2, k3, k4⟩ := fin hr1 hb1 hI1 hT1 hm
      exact ⟨t', k1, k2, k3, .inl k4⟩
  · rw [if_neg hc] at hm ⊢
    obtain ⟨t', k1, k2, k3, k4⟩ := fin hr0 hb0 hI0 hT0 hm
    exact ⟨t', k1, k2, k3, .inl k4⟩

/-! ## The value -/

theorem attrValNs_total (hb : Base c p) (h0 : 0 ≤ p.lastOffset) (h1 : p.lastOffset + p.length1 ≤ c.xmlDoc.length)
    (hx : p.at_.isXml = false) (hT : Tab D V (pend p.at_) p.ns) (hon : p.cfg.nsAware = true)
    (hv : p.at_.isNs = true → (p.at_.defaultNs = false → 0 < p.length1) ∧ (29 ≤ p.length1 → c.xmlDoc[p.lastOffset.toNat]? ≠ some (ch% '&'))) :
    ∃ b, attrValNs p = .ok () { p with ns := { p.ns with nsBuffer2 := b } } ∧ Tab D V 0 { p.ns with nsBuffer2 := b } := by
  simp only [attrValNs, M.bind_apply, M.get_apply, Res.andThen_ok, M.ite_apply]
  by_cases hi : p.at_.isNs = true
  · obtain ⟨v1, v2⟩ := hv hi
    rw [if_pos ⟨hon, hi⟩, if_neg (by rintro ⟨k1, k2⟩; have := v1 (by simpa using k1); omega),
      identifyNsUrl_plain hb.doc hb.enc h0 h1 v2]
    simp only [Res.andThen_ok, M.bind_apply, M.get_apply, M.ite_apply]
    rw [if_neg (by rw [hx]; simp)]
    obtain ⟨ys, y1, y2⟩ := hT.b2
    by_cases hd : p.at_.defaultNs = false
    · rw [if_pos (by simp [hd])]
      simp only [onNs2, M.zoom_apply, y1]
      rw [append_fill]
      refine ⟨_, rfl, hT.b1, ⟨_, rfl, ?_⟩, hT.b3⟩
      rw [pend, if_pos ⟨hi, hd⟩] at y2
      simp only [List.length_append, List.length_singleton]
      omega
    · rw [if_neg (by simp [hd])]
      refine ⟨p.ns.nsBuffer2, rfl, hT.b1, ⟨ys, y1, ?_⟩, hT.b3⟩
      rw [pend, if_neg (fun h => hd h.2)] at y2
      exact y2
  · rw [if_neg (fun h => hi h.2)]
    obtain ⟨ys, y1, y2⟩ := hT.b2
    refine ⟨p.ns.nsBuffer2, rfl, hT.b1, ⟨ys, y1, ?_⟩, hT.b3⟩
    rw [pend, if_neg (fun h => hi h.1)] at y2
    exact y2

theorem attrVal_rr {o1 : ParserOut} {es' : List Mark} {stk' : List (Nat × Nat)} {recs' : List Rec}
    (h : G c o0 .attrVal s es stk recs) (ht : G (aw f c) o1 .attrVal t es' stk' recs') (hr : RR f s t) (hI : InVal (aw f c) t)
    (hT : Tab c.xmlDoc (vals s) (pend s.at_) t.ns)
    (hdp : t.ns.nsBuffer1.size ≠ 0 → 1 ≤ s.depth) (hcnt : t.at_.prefixedAttCount ≤ s.at_.attrCount) (hK : K c .attrVal s) {q : Parser}
    (hm : processAttrVal s = .ok st q) (hC : Part c.xmlDoc (vals q)) (hR : notAttr st = true → Ready c.xmlDoc (vals q)) :
    ∃ t', processAttrVal t = .ok st t' ∧ RR f q t' ∧ Tab c.xmlDoc (vals q) 0 t'.ns ∧
      (notAttr st = true ∨ st = .attrName ∧ (t'.ns.nsBuffer1.size ≠ 0 → 1 ≤ q.depth) ∧ t'.at_.prefixedAttCount ≤ q.at_.attrCount) := by
  have hB := h.inv.base
  obtain ⟨hmark, hmark2⟩ := hK.mark rfl
  have ho0 := hB.off0
  have he1 := hB.end1
  have he2 := hB.end2
  rw [processAttrVal_head] at hm ⊢
  obtain ⟨u, s4, hh, hm⟩ := bind_ok hm
  unfold valHead at hh
  obtain ⟨u0, s1, h1, hh⟩ := bind_ok (m := attrValRead) hh
  obtain ⟨r, ch, hs1, hb1, hl1⟩ : ∃ r ch, s1 = { s.mv r r ch with length1 := r - s.lastOffset - 1 } ∧ Base c s1 ∧ s.rd.offset < r := by
    have hP : Post (attrValRead s) fun _ s1 => ∃ r ch, s1 = { s.mv r r ch with length1 := r - s.lastOffset - 1 } ∧
        Base c s1 ∧ s.rd.offset < r := by
      refine Post.get (Post.bind (sat_post (attrValLoop_ok _ hB (Enough.loopFuel hB hB.cfg))) ?_)
      rintro _ p' ⟨r, ch, rfl, hb, hl⟩
      refine ⟨r, ch, ?_, hb, by omega⟩
      have : ({ s.mv r r ch with length1 := r - s.lastOffset - s.enc.increment } : Parser) =
          { s.mv r r ch with length1 := r - s.lastOffset - 1 } := by rw [hB.inc]
      exact this
    exact hP.eq h1
  have hoff1 := hb1.off1
  have hoff2 := hb1.off2
  have ho1 := hB.off1
  have e1 : s1.length1 = r - s.lastOffset - 1 := by rw [hs1]
  have e2 : s1.lastOffset = s.lastOffset := by rw [hs1]; rfl
  have e3 : s1.rd.offset = r := by rw [hs1]; rfl
  have e4 : s1.at_ = s.at_ := by rw [hs1]; rfl
  have e5 : s1.out = s.out := by rw [hs1]; rfl
  have e6 : s1.depth = s.depth := by rw [hs1]; rfl
  obtain ⟨t1, g1, hr1, n1, -, c1, -⟩ := sim_ok' (fun x => attrValRead_sim (rx_nice (x := x))) hr h1
  rw [M.bind_apply, attrValNs_left hr1.off, Res.andThen_ok] at hh
  obtain ⟨u2, s2, h2, hh⟩ := bind_ok (m := writeVtdWithLengthCheck _ _) hh
  have hw : Post (writeVtdWithLengthCheck .attrVal AttrValueTooLong s1) fun _ s2 => s1.length1 < 2 ^ 20 ∧
      s2 = { s1 with out := Parser.emit s1.cfg.shallowDepth s1.out [⟨.attrVal, s1.lastOffset, s1.length1, s1.depth⟩] } := by
    refine Post.get ?_
    rw [hb1.single, if_pos rfl]
    refine Post.ite (fun _ => post_err _) fun hlen => ?_
    rw [writeVtd_emit hb1.out s1.cfg.shallowDepth _ _ _ _ (by decide)]
    exact ⟨by simp [maxTokenLength] at hlen; omega, rfl⟩
  obtain ⟨hlen, hs2⟩ := hw.eq h2
  cases hh
  dsimp only at hm
  generalize hv : (⟨.attrVal, s1.lastOffset, s1.length1, s1.depth⟩ : Rec) = v at hs2
  obtain ⟨f1, f2, f3⟩ := rec_fields (x := v) (by rw [← hv]; show 0 ≤ s1.lastOffset; omega)
    (by rw [← hv]; show s1.lastOffset < 2 ^ 31; omega) (by rw [← hv]; show 0 ≤ s1.length1; omega) (by rw [← hv]; exact hlen)
  have f1 : tokenType v.word = Token.attrVal.code := by rw [f1, ← hv]
  have f2 : tokenOffset v.word = s1.lastOffset.toNat := by rw [f2, ← hv]
  have f3 : tokenLength v.word = s1.length1.toNat := by rw [f3, ← hv]
  have hout2 : OutOk s2.out := by rw [hs2]; exact emit_ok hb1.out _ _
  have hb2 : Base c s2 := by rw [hs2]; exact hb1.ofOut (emit_ok hb1.out _ _)
  have hv2 : vals s2 = vals s ++ [v.word] := by
    rw [hs2]
    show (Parser.emit _ s1.out _).vtdBuffer.values = _
    rw [emit_values hb1.out, e5]
    rfl
  have a2 : s2.at_ = s.at_ := by rw [hs2]; show s1.at_ = _; rw [e4]
  have d2 : s2.depth = s.depth := by rw [hs2]; show s1.depth = _; rw [e6]
  generalize hs4 : ({ s2 with at_ := { s2.at_ with isXml := false, isNs := false } } : Parser) = s4 at hm
  have hb4 : Base c s4 := by rw [← hs4]; exact hb2
  have hv4 : vals s4 = vals s ++ [v.word] := by rw [← hs4]; exact hv2
  have hAF : AFrame s4 q := by
    have := valNext2_ao s4
    rw [hm] at this
    refine this ?_ hb4.out hb4.enc hb4.ws
    rw [← hs4]
    show s2.cfg.nsAware = false
    rw [hs2]; exact hr1.off
  obtain ⟨ys, hys⟩ : ∃ ys, vals q = vals s ++ v.word :: ys := by
    obtain ⟨xs, hx⟩ := hAF.out
    refine ⟨xs.map Rec.word, ?_⟩
    rw [vals, hx, emit_values hb4.out]
    show vals s4 ++ _ = _
    rw [hv4, List.append_assoc]
    rfl
  have hval : s1.at_.isNs = true → (s1.at_.defaultNs = false → 0 < s1.length1) ∧
      (29 ≤ s1.length1 → c.xmlDoc[s1.lastOffset.toNat]? ≠ some (ch% '&')) := by
    rw [e4]
    intro hi
    obtain ⟨-, vs, w, hvs, hwt, hcol⟩ := hK.isNs hi
    rw [hvs, List.append_assoc, List.singleton_append] at hys
    obtain ⟨k1, k2⟩ := hC.value vs.length w v.word (by rw [hys, List.getElem?_append_right (by omega), Nat.sub_self]; rfl)
      (by rw [hys, List.getElem?_append_right (by omega), Nat.add_sub_cancel_left]; rfl) hwt
    rw [f2, f3] at k2
    rw [f3] at k1
    exact ⟨fun hdf => by have := k1 (hcol hdf); omega, fun h29 => k2 (by omega)⟩
  -- the run with namespace awareness
  have hbt1 := hr1.base hb1
  have hsame := hr1.same
  have hp1 : pend t1.at_ = pend s.at_ := by rw [pend, pend, hsame.isNs, hsame.defaultNs, e4]
  obtain ⟨b, g2, hT2⟩ := attrValNs_total hbt1 (D := c.xmlDoc) (V := vals s) (by rw [hsame.lastOffset]; omega)
    (by rw [hsame.lastOffset, hsame.length1]; show _ ≤ (c.xmlDoc.length : Int); omega) hr1.xml (by rw [hp1, n1]; exact hT) hr1.on
    (by rw [hsame.isNs, hsame.defaultNs, hsame.length1, hsame.lastOffset]; exact hval)
  generalize hq2 : ({ t1 with ns := { t1.ns with nsBuffer2 := b } } : Parser) = t2 at g2
  have hr2 : RR f s1 t2 := hr1.ns ⟨_, t1.at_.currentElementRecord, t1.at_.prefixedAttCount, t1.at_.prefixedAttrNameSlice, t1.at_.prefixUrlSlice, hq2.symm⟩
  have hn2 : t2.ns = { t1.ns with nsBuffer2 := b } := by rw [← hq2]
  have hc2 : t2.at_.prefixedAttCount = t.at_.prefixedAttCount := by rw [← hq2]; exact c1
  obtain ⟨t3, g3, hr3, n3, -, c3, -⟩ := sim_ok' (fun x => writeVtdWithLengthCheck_sim (rx_nice (x := x)) _ _) hr2 h2
  have hr4 : RR f s4 { t3 with at_ := { t3.at_ with isXml := false, isNs := false } } := by
    rw [← hs4]
    obtain ⟨x, rfl, k1, k2, k3⟩ := hr3
    exact ⟨x, rfl, k1, k2, rfl⟩
  have hH : valHead t = .ok () { t3 with at_ := { t3.at_ with isXml := false, isNs := false } } := by
    unfold valHead
    rw [M.bind_apply, g1, Res.andThen_ok, M.bind_apply, g2, Res.andThen_ok, M.bind_apply, g3, Res.andThen_ok]
    rfl
  generalize hq4 : ({ t3 with at_ := { t3.at_ with isXml := false, isNs := false } } : Parser) = t4 at hH hr4
  have hn4 : t4.ns = { t1.ns with nsBuffer2 := b } := by rw [← hq4]; show t3.ns = _; rw [n3, hn2]
  have hc4 : t4.at_.prefixedAttCount = t.at_.prefixedAttCount := by rw [← hq4]; show t3.at_.prefixedAttCount = _; rw [c3, hc2]
  obtain ⟨hI4, -⟩ := val_inTag ht hI rfl hH
  have hT4 : Tab c.xmlDoc (vals s4) 0 t4.ns := by
    rw [hv4, hn4]
    refine hT2.quiet fun w hw => ?_
    rw [List.mem_singleton.mp hw, f1]
    decide
  rw [M.bind_apply, hH, Res.andThen_ok]
  obtain ⟨t', k1, k2, k3, k4⟩ := valNext2_rr hr4 hb4 hI4 hT4 hm hR
  refine ⟨t', k1, k2, k3, k4.imp id ?_⟩
  rintro ⟨j1, j2, j3, j4, j5⟩
  refine ⟨j1, ?_, ?_⟩
  · rw [j2, j4, hn4, ← hs4]
    show t1.ns.nsBuffer1.size ≠ 0 → 1 ≤ s2.depth
    rw [n1, d2]
    exact hdp
  · rw [j3, j5, hc4, ← hs4]
    show _ ≤ s2.at_.attrCount
    rw [a2]
    exact hcnt

end Rooted
end Parser
end GoVtd
