import Verif.Proofs.Parser.RootedVal

/-!
# A document that declares its prefixes at the root, with and without namespace awareness
-/

namespace GoVtd
namespace Parser
namespace Rooted
open Paged Grammar Two Ev Plain Sound

variable {f : Nat} {x : Ext} {s t p p' : Parser} {c : ParserCfg} {D : List UInt8} {V V' ws xs ds : List (BitVec 64)} {w : BitVec 64}
  {st st' : PState} {o0 : ParserOut} {es : List Mark} {stk : List (Nat × Nat)} {recs : List Rec}

/-! ## From the specification -/

/-- Every declaration comes after a start tag. -/
def Led (xs : List (BitVec 64)) : Prop := ∀ (j : Nat) w, xs[j]? = some w → tokenType w = Token.attrNs.code →
  ∃ (k : Nat) (z : BitVec 64), k < j ∧ xs[k]? = some z ∧ IsStart z

theorem Led.quiet (h : Led xs) (hq : ∀ w ∈ ws, tokenType w ≠ Token.attrNs.code) : Led (ws ++ xs) := by
  intro j w hw ht
  rcases append_cases hw with hw | ⟨hl, hw⟩
  · exact absurd ht (hq w (List.mem_of_getElem? hw))
  · obtain ⟨k, z, h1, h2, h3⟩ := h _ w hw ht
    refine ⟨ws.length + k, z, by omega, ?_, h3⟩
    rw [List.getElem?_append_right (by omega), Nat.add_sub_cancel_left]
    exact h2

theorem Led.start (h : IsStart w) : Led (w :: xs) := by
  intro j z hz ht
  cases j with
  | zero =>
    simp only [List.getElem?_cons_zero, Option.some.injEq] at hz
    rw [← hz] at ht
    have h : tokenType w = Token.startingTag.code := h
    rw [h] at ht
    exact absurd ht (by decide)
  | succ j => exact ⟨0, w, by omega, rfl, h⟩

theorem declared_in {i : Nat} {q : List UInt8} (hL : Led xs) (hi : i < V.length) (h : Declared D (V ++ xs) i q) :
    ∃ d ∈ V, Declares D d q := by
  obtain ⟨j, w, hw, hd, hk⟩ := h
  rcases append_cases hw with hw | ⟨hl, hw⟩
  · exact ⟨w, List.mem_of_getElem? hw, hd⟩
  · obtain ⟨k, z, h1, h2, h3⟩ := hL _ w hw hd.type
    exact absurd h3 (hk (V.length + k) z (by omega) (by omega) (by
      rw [List.getElem?_append_right (by omega), Nat.add_sub_cancel_left]
      exact h2))

theorem pfx_splits (h : Pfx D w) : Splits (qname D w) (prefixOf D w) (localOf D w) ∧ prefixOf D w ≠ str% "xml" := by
  obtain ⟨h1, h2, h3⟩ := h
  obtain ⟨k1, k2⟩ := colon_splits (n := qname D w) h2
  refine ⟨k1, fun hx => h3 ⟨?_, ?_⟩⟩
  · have := congrArg List.length hx
    have e : (prefixOf D w).length = colonAt D w := by
      rw [prefixOf, List.length_take]
      have : colonAt D w < (qname D w).length := k2
      omega
    rw [e] at this
    exact this
  · rw [← hx, prefixOf]; exact List.take_prefix _ _

theorem ready_of (hP : RootPrefixes D (V ++ xs)) (hL : Led xs) : Ready D V := by
  rintro A w0 B hV h0 hB
  have hlen : V.length = A.length + 1 + B.length := by rw [hV]; simp; omega
  have hat : ∀ (i : Nat) w, B[i]? = some w → (V ++ xs)[A.length + 1 + i]? = some w := by
    intro i w hw
    have := lt_of_some hw
    rw [List.getElem?_append_left (by omega), hV, List.getElem?_append_right (by omega), show A.length + 1 + i - A.length = i + 1 by omega,
      List.getElem?_cons_succ]
    exact hw
  refine ⟨?_, ?_, ?_⟩
  · intro w hw hp
    obtain ⟨i, hi⟩ := List.mem_iff_getElem?.mp hw
    have := lt_of_some hi
    obtain ⟨k1, k2⟩ := pfx_splits hp
    rcases hP.attr _ w (hat i w hi) hp.1 _ _ k1 with h | h
    · exact absurd h k2
    · exact declared_in hL (by omega) h
  · obtain ⟨n, h1, h2, h3⟩ := hP.elem A.length w0 (by rw [hV, List.append_assoc, List.getElem?_append_right (by omega), Nat.sub_self]; rfl) h0
    refine ⟨n, h1, h2, fun hc => ?_⟩
    rcases h3 with h3 | ⟨q, l, k1, -, -, -, k2⟩
    · exact absurd (Parser.lastColon_none fun b hb e => h3 (e ▸ hb)) hc
    · have e : n.take (lastColon 0 0 n) = q := by
        rw [splits_colon k1, k1.eq, List.take_left']; rfl
      rw [e]
      exact k2.imp id (declared_in hL (by omega))
  · rw [List.pairwise_filter, List.pairwise_iff_getElem]
    intro i k hi hk hik hp hz
    have hp := of_decide_eq_true hp
    have hz := of_decide_eq_true hz
    obtain ⟨k1, k2⟩ := pfx_splits hp
    obtain ⟨k3, k4⟩ := pfx_splits hz
    refine hP.locals _ _ _ _ (hat i _ (List.getElem?_eq_getElem hi)) (hat k _ (List.getElem?_eq_getElem hk)) (by omega) ?_ hp.1 hz.1
      _ _ _ _ k1 k3 k2 k4
    intro m y h1 h2 hy
    obtain ⟨m, rfl⟩ : ∃ j, m = A.length + 1 + j := ⟨m - A.length - 1, by omega⟩
    rw [hat m _ (List.getElem?_eq_getElem (by omega))] at hy
    cases hy
    exact hB _ (List.getElem_mem _)

theorem goodName_of {n : List UInt8} (h : ch% ':' ∉ n ∨ ∃ p l, Splits n p l ∧ ch% ':' ∉ p ∧ p ≠ str% "xmlns" ∧
    ¬ (str% "xmlns" <+: p ∧ p.length = 10)) : GoodName n := by
  intro i hi
  rcases h with h | ⟨p, l, h1, h2, h3, h4⟩
  · exact absurd (List.mem_of_getElem? hi) h
  · have hp : i = p.length := by
      rw [h1.eq] at hi
      by_cases hl : i < p.length
      · rw [List.getElem?_append_left hl] at hi
        exact absurd (List.mem_of_getElem? hi) h2
      · rw [List.getElem?_append_right (by omega)] at hi
        cases hj : i - p.length with
        | zero => omega
        | succ j =>
          rw [hj, List.getElem?_cons_succ] at hi
          exact absurd (List.mem_of_getElem? hi) h1.local_
    have e : n.take i = p := by rw [h1.eq, hp, List.take_left']; rfl
    rw [e]
    refine ⟨h2, ?_⟩
    rintro ⟨k1, k2 | k2⟩
    · exact h3 (prefix_full k1 (by rw [← hp, k2]; rfl))
    · exact h4 ⟨k1, by rw [← hp, k2]⟩

theorem part_of (hP : RootPrefixes D V) : Part D V := by
  refine ⟨hP.level, ?_, hP.decl, hP.value, ?_⟩
  · intro w hw hs
    obtain ⟨i, hi⟩ := List.mem_iff_getElem?.mp hw
    obtain ⟨n, h1, h2, h3⟩ := hP.elem i w hi hs
    exact ⟨n, h1, h2, goodName_of (h3.imp id fun ⟨p, l, k1, k2, k3, k4, _⟩ => ⟨p, l, k1, k2, k3, k4⟩)⟩
  · refine Nat.le_trans ?_ hP.few
    rw [decls, ← List.countP_eq_length_filter, ← List.countP_eq_length_filter]
    refine List.countP_mono_left fun w _ hd => ?_
    obtain ⟨h1, h2⟩ := of_decide_eq_true hd
    refine decide_eq_true ⟨h1, ?_⟩
    rw [(colon_splits (n := qname D w) h2).1.eq]
    simp

/-! ## What the rest of the parse writes -/

theorem startHead_vals {q : Parser} {uu : Unit} (h : G c o0 .tagStart s es stk recs) (hoff : s.cfg.nsAware = false)
    (hm : startHead s = .ok uu q) : (∃ w, vals q = vals s ++ [w] ∧ IsStart w) ∧ Base c q := by
  have hs := h.inv.slots
  have h0 := h.inv.start (by simp)
  obtain ⟨hn0, hn1, hn2⟩ := h.inv.name (by simp)
  have hk := h.k
  rw [if_pos rfl, if_pos rfl] at hk
  obtain ⟨k, hk4, hk0, hkq, hko, b0, hb0, hsb⟩ := h.tagS rfl
  have hsy := h.inv.sync (by simp)
  have hinc : s.enc.increment = 1 := h.inv.base.inc
  have he1 := h.inv.base.end1
  have he2 := h.inv.base.end2
  have hdep := hk.depth
  have hlen2 := hk.len2
  unfold startHead at hm
  rw [M.bind_apply, M.get_apply, Res.andThen_ok] at hm
  obtain ⟨u, s1, hL, hm⟩ := bind_ok (m := startTagLoop s.loopFuel) hm
  obtain ⟨l, r, x, run, hp, hb, hr0, hre, hx, hnx, hrun, hdrop, hl0⟩ := (startTagLoop_post h.inv.base).eq hL
  have hcol := hl0 (k + 1) 0 (by rw [hlen2]; rfl) (by omega)
  have hl0 : 0 ≤ l := by omega
  rw [M.bind_apply, M.modify_apply, Res.andThen_ok, M.bind_apply, M.get_apply, Res.andThen_ok, M.ite_apply] at hm
  generalize hq : ({ s1 with length1 := s1.offset - s1.lastOffset - s1.enc.increment } : Parser) = s2 at hm
  have hq1 : s2.length1 = r - s.lastOffset := by subst hq hp; simp [hinc]; omega
  have hq2 : s2.length2 = l := by subst hq hp; rfl
  have hqb : Base c s2 := by subst hq; exact hb
  have hql : s2.lastOffset = s.lastOffset := by subst hq hp; rfl
  have hqd : s2.depth = s.depth := by subst hq hp; rfl
  have hqo : s2.out = s.out := by subst hq hp; rfl
  have hqs : SlotsCore c s2.tagStack s2.at_ s2.depth := by subst hq hp; exact hs
  by_cases hd : s2.depth > maxDepth
  · rw [if_pos hd] at hm
    exact ((post_err (p := s2) (Q := fun _ _ => False) MaximumDepthExceeded).eq hm).elim
  rw [if_neg hd] at hm
  have hd' : s2.depth ≤ 254 := by simpa [maxDepth] using hd
  obtain ⟨tg, ht, htlo, hthi, hts⟩ := pushTag_post hqs (by omega) (by omega) (by omega) (by omega) he2 he1
  rw [M.bind_apply, ht, Res.andThen_ok, M.bind_apply, M.modify_apply, Res.andThen_ok] at hm
  generalize hq3 : ({ s2 with
    tagStack := s2.tagStack.set s2.depth.toNat tg,
    vtdDepth := if s2.depth > s2.vtdDepth then s2.depth else s2.vtdDepth } : Parser) = s3 at hm
  have hb3 : Base c s3 := by subst hq3; exact hqb
  obtain ⟨u', s4, hw, hm⟩ := bind_ok (m := writeStartTag) hm
  obtain ⟨hl2, hl1, hs4, hb4⟩ := (writeStartTag_post hb3).eq hw
  have e31 : s3.length1 = s2.length1 := by subst hq3; rfl
  have e32 : s3.length2 = s2.length2 := by subst hq3; rfl
  have e33 : s3.lastOffset = s2.lastOffset := by subst hq3; rfl
  have e34 : s3.depth = s2.depth := by subst hq3; rfl
  have e35 : s3.out = s2.out := by subst hq3; rfl
  have hleft : startTagNs s4 = .ok () s4 := by
    have : s4.cfg.nsAware = false := by rw [hb4.cfg, ← h.inv.base.cfg]; exact hoff
    simp only [startTagNs, M.bind_apply, M.get_apply, Res.andThen_ok, this]
    rfl
  rw [M.bind_apply, hleft, Res.andThen_ok] at hm
  cases hm
  have hv4 : vals s4 = vals s ++ [(startRec s3).word] := by
    rw [hs4]
    show (Parser.emit c.shallowDepth s3.out [startRec s3]).vtdBuffer.values = _
    rw [emit_values hb3.out, e35, hqo]
    rfl
  have hrng := shlOr_range (a := s3.length2) (b := s3.length1) (k := 1) (by omega) hl2 (by omega) hl1 (by omega)
  have hsm : Small (startRec s3) := fun _ =>
    ⟨by show 0 ≤ s3.lastOffset; omega, by show s3.lastOffset < 2 ^ 31; omega, hrng.1, hrng.2,
      by show 0 ≤ s3.depth; omega, by show s3.depth ≤ 254; omega⟩
  exact ⟨⟨_, hv4, (small_start hsm).2 rfl⟩, hb4⟩

theorem tagRest2_vals {q : Parser} (hb : Base c s) (hm : tagRest2 s = .ok st q) : ∃ ys, vals q = vals s ++ ys := by
  have hA := af_ok (by unfold tagRest2; af) hm hb.out hb.enc hb.ws
  obtain ⟨xs, hx⟩ := hA.out
  exact ⟨xs.map Rec.word, by rw [vals, hx, emit_values hb.out]⟩

theorem mainLoop_led (k : Nat) {cl : List Nat} {s' : Parser} (h : Good c o0 cl st s) (hoff : s.cfg.nsAware = false)
    (hst : notAttr st = true) (hm : mainLoop k st s = .ok () s') : ∃ xs, vals s' = vals s ++ xs ∧ Led xs := by
  induction k generalizing st s cl with
  | zero => cases hm
  | succ k ih =>
    obtain ⟨es, stk, recs, rfl, h⟩ := h
    have hB := h.inv.base
    obtain ⟨n1, n2⟩ := notAttr_ne hst
    rw [mainLoop_key] at hm
    cases hr : step st s with
    | ok st' q =>
      rw [hr] at hm
      have hgood := (step_good h).eq hr
      have hoff' : q.cfg.nsAware = false := by
        have hg := step_gf st s
        rw [hr] at hg
        rw [(hg hoff hB.out hB.enc hB.ws).cfg]
        exact hoff
      by_cases h3 : st = .tagStart
      · subst h3
        have hr' : processStartTag s = .ok st' q := hr
        rw [processStartTag_head] at hr'
        obtain ⟨uu, s4, x1, x2⟩ := bind_ok hr'
        obtain ⟨⟨w, hw, hsw⟩, hb4⟩ := startHead_vals h hoff x1
        obtain ⟨ys, hy⟩ := tagRest2_vals hb4 x2
        obtain ⟨zs, hz⟩ := mainLoop_values k hgood hoff' hm
        have hz : vals s' = vals q ++ zs := hz
        refine ⟨w :: (ys ++ zs), ?_, Led.start hsw⟩
        rw [hz, hy, hw]
        simp
      · obtain ⟨ws, hv, hq⟩ := (lf_ok (step_lf n1 n2 h3) hr hB).vals hB.out
        obtain ⟨xs, hx, hL⟩ := ih hgood hoff' (step_notAttr n1 n2 h3 _ _ _ hr) hm
        exact ⟨ws ++ xs, by rw [hx, hv, List.append_assoc], hL.quiet fun w hw => (hq w hw).2.2⟩
    | err e q =>
      rw [hr] at hm
      simp only at hm
      split at hm
      · rename_i hd
        obtain ⟨-, rfl⟩ := hd
        have hq := fr_err processDocEnd_qf hr hB.out hB.enc hB.ws
        have hL := fr_err (LF.quiet processDocEnd_qf) hr hB.out hB.enc hB.ws
        simp only [wrapInternal, M.bind_apply, M.catchErr_apply, finishUp_go hq.ok, Res.handle_ok, Res.andThen_ok,
          M.pure_apply] at hm
        cases hm
        obtain ⟨ws, hv, hq⟩ := hL.vals hB.out
        refine ⟨ws, by rw [← hv, vals, finish_vtd], ?_⟩
        have : Led ([] : List (BitVec 64)) := by intro j w hw; cases hw
        have := this.quiet fun w hw => (hq w hw).2.2
        rwa [List.append_nil] at this
      · cases hm
    | panic => rw [hr] at hm; cases hm
    | diverge => rw [hr] at hm; cases hm

/-! ## The step -/

/-- The two parses before a step. -/
structure Both (f : Nat) (c : ParserCfg) (st : PState) (s t : Parser) : Prop where
  rr : RR f s t
  tab : Tab c.xmlDoc (vals s) (pend s.at_) t.ns
  some : t.ns.nsBuffer1.size ≠ 0 → ∃ w ∈ vals s, IsStart w
  att : notAttr st = false → (t.ns.nsBuffer1.size ≠ 0 → 1 ≤ s.depth) ∧ t.at_.prefixedAttCount ≤ s.at_.attrCount
  k : K c st s
  ns : NsInv (aw f c) st t

theorem vals_mem {q : Parser} (h : Base c s) (hoff : s.cfg.nsAware = false) (hm : step st s = .ok st' q) {w : BitVec 64} (hw : w ∈ vals s) :
    w ∈ vals q := by
  have := step_gf st s
  rw [hm] at this
  exact (this hoff h.out h.enc h.ws).mem h.out hw

theorem pend_zero {a : ParserAttr} (h : a.isNs = false) : pend a = 0 := by
  rw [pend, if_neg (fun hh => by rw [h] at hh; cases hh.1)]

theorem nsInv_isNs (h : NsInv c st p) (hv : st ≠ .attrVal) : p.at_.isNs = false := by
  rw [NsInv] at h
  split at h
  · exact h.isNs
  · exact h.isNs

/-- After a step that is not that of an attribute name. -/
theorem both_of {q t' : Parser} (h1 : st ≠ .attrName) (hm : step st s = .ok st' q) (hr : RR f q t') (hT : Tab c.xmlDoc (vals q) 0 t'.ns)
    (hS : t'.ns.nsBuffer1.size ≠ 0 → ∃ w ∈ vals q, IsStart w) (hN : NsInv (aw f c) st' t')
    (ha : notAttr st' = false → (t'.ns.nsBuffer1.size ≠ 0 → 1 ≤ q.depth) ∧ t'.at_.prefixedAttCount ≤ q.at_.attrCount) : Both f c st' q t' := by
  have hv := step_notVal h1 _ _ _ hm
  have hne : st' ≠ .attrVal := by rintro rfl; cases hv
  have hns : q.at_.isNs = false := by rw [← hr.same.isNs]; exact nsInv_isNs hN hne
  exact ⟨hr, by rw [pend_zero hns]; exact hT, hS, ha, ⟨(fun h => by rw [hns] at h; cases h), (fun h => absurd h hne)⟩, hN⟩

theorem step_rr {o1 : ParserOut} {es' : List Mark} {stk' : List (Nat × Nat)} {recs' : List Rec}
    (h : G c o0 st s es stk recs) (ht : G (aw f c) o1 st t es' stk' recs') (ho : OutOk o0)
    (h0 : ∀ w ∈ o0.vtdBuffer.values, ¬ IsStart w) (hI : Both f c st s t) {q : Parser} (hm : step st s = .ok st' q)
    (hC : Part c.xmlDoc (vals q)) (hR : notAttr st' = true → Ready c.xmlDoc (vals q)) :
    ∃ t', step st t = .ok st' t' ∧ Both f c st' q t' := by
  have hB := h.inv.base
  have hoff := hI.rr.off
  have hgood := (step_good h).eq hm
  by_cases h1 : st = .attrName
  · subst h1
    have hns : s.at_.isNs = false := by rw [← hI.rr.same.isNs]; exact nsInv_isNs hI.ns (by simp)
    obtain ⟨a1, a2⟩ := hI.att rfl
    have hT := hI.tab
    rw [pend_zero hns] at hT
    obtain ⟨t', k1, k2, k3, k4, k5, rfl, k7⟩ := attrName_rr h hI.rr (by simpa [NsInv] using hI.ns) hT a1 a2 hm hC
    have hN := step_ns (st := .attrName) ht hI.ns rfl k1
    refine ⟨t', k1, k2, k3, fun _ => ?_, fun _ => ⟨k4, k5⟩, k7, hN⟩
    have hV : InVal (aw f c) t' := by simpa [NsInv] using hN
    obtain ⟨A, B, w0, hO⟩ := hV.opn
    refine ⟨w0, ?_, hO.start⟩
    rw [← k2.vals, hO.eq]
    simp
  by_cases h2 : st = .attrVal
  · subst h2
    obtain ⟨a1, a2⟩ := hI.att rfl
    have hV : InVal (aw f c) t := by simpa [NsInv] using hI.ns
    obtain ⟨t', k1, k2, k3, k4⟩ := attrVal_rr h ht hI.rr hV hI.tab a1 a2 hI.k hm hC hR
    have hN := step_ns (st := .attrVal) ht hI.ns rfl k1
    refine ⟨t', k1, both_of h1 hm k2 k3 (fun _ => ?_) hN fun hn => ?_⟩
    · obtain ⟨A, B, w0, hO⟩ := hV.opn
      refine ⟨w0, vals_mem hB hoff hm ?_, hO.start⟩
      rw [← hI.rr.vals, hO.eq]
      simp
    · rcases k4 with k4 | ⟨-, k4⟩
      · rw [hn] at k4; cases k4
      · exact k4
  have hns : s.at_.isNs = false := by rw [← hI.rr.same.isNs]; exact nsInv_isNs hI.ns h2
  have hT := hI.tab
  rw [pend_zero hns] at hT
  by_cases h3 : st = .tagStart
  · subst h3
    have hm' : processStartTag s = .ok st' q := hm
    rw [processStartTag_head] at hm'
    obtain ⟨uu, s4, x1, x2⟩ := bind_ok hm'
    obtain ⟨⟨w, hw, hsw⟩, hb4⟩ := startHead_vals h hoff x1
    obtain ⟨ys, hy⟩ := tagRest2_vals hb4 x2
    have hC4 : Part c.xmlDoc (vals s4) := by rw [hy] at hC; exact hC.cut
    have hcl := closed_of hI.ns h1 h2
    obtain ⟨t4, g1, g2, g3, g4, -, -, g5⟩ := startHead_rr h hI.rr hT (fun hn => by
      have hes := (recs_start h ho h0).1 (hI.some hn)
      have hstk : stk ≠ [] := by
        intro hn
        have := h.root.2 ⟨hn, fun he => hes (by rw [he]; rfl)⟩
        cases this
      have hd := h.k.depth
      simp only [if_true] at hd
      have : 0 < stk.length := List.length_pos_iff.mpr hstk
      omega) x1 hC4
    obtain ⟨hI4, hbt4, hc4⟩ := start_inTag ht hcl rfl g1
    obtain ⟨t', k1, k2, k3, k4⟩ := tagRest2_rr g2 hb4 hI4 g3 x2 hR
    have hstep : step .tagStart t = .ok st' t' := by
      show processStartTag t = _
      rw [processStartTag_head, M.bind_apply, g1, Res.andThen_ok, k1]
    have hN := step_ns (st := .tagStart) ht hI.ns rfl hstep
    refine ⟨t', hstep, both_of h1 hm k2 k3 (fun _ => ⟨w, by rw [hy, hw]; simp, hsw⟩) hN fun hn => ?_⟩
    rcases k4 with k4 | ⟨-, j1, j2, j3⟩
    · rw [hn] at k4; cases k4
    · obtain ⟨es2, stk2, recs2, -, hG⟩ := hgood
      have := hG.inv.slots.cnt0
      rw [j1, j2, j3, hc4]
      exact ⟨g4, this⟩
  have hsim : ∀ x, Sim (RX f x) False False (step st) (step st) := by
    intro x
    have hR : Nice (RX f x) False := rx_nice
    cases st with
    | docType => exact processDocType_sim hR
    | docStart => exact processDocStart_sim hR
    | docEnd => exact processDocEnd_sim hR
    | ltSeen => exact processLtSeen_sim hR
    | tagStart => exact absurd rfl h3
    | tagEnd => exact processEndTag_sim hR
    | attrName => exact absurd rfl h1
    | attrVal => exact absurd rfl h2
    | decAttrName => exact processDecAttrName_sim hR
    | text => exact processText_sim hR
    | piTag => exact processPiTag_sim hR
    | piVal => exact processPiVal_sim hR
    | piEnd => exact processPiEnd_sim hR
    | startComment => exact processStartComment_sim hR
    | endComment => exact processEndComment_sim hR
    | cdata => exact processCdata_sim hR
    | invalid => unfold step; sim hR
  obtain ⟨t', k1, k2, k3, -⟩ := sim_ok' hsim hI.rr hm
  have hN := step_ns ht hI.ns rfl k1
  obtain ⟨ws, hv, hq⟩ := (lf_ok (step_lf h1 h2 h3) hm hB).vals hB.out
  refine ⟨t', k1, both_of h1 hm k2 ?_ (fun hn => ?_) hN fun hn => ?_⟩
  · rw [k3, hv]
    exact hT.quiet fun w hw => (hq w hw).2.2
  · rw [k3] at hn
    obtain ⟨w, hw, hs⟩ := hI.some hn
    exact ⟨w, vals_mem hB hoff hm hw, hs⟩
  · rw [step_notAttr h1 h2 h3 _ _ _ hm] at hn; cases hn

/-! ## The loop -/

theorem mainLoop_rr {o1 : ParserOut} (ho : OutOk o0) (h0 : ∀ w ∈ o0.vtdBuffer.values, ¬ IsStart w) {k m : Nat} (hk : k ≤ m)
    {cl cl' : List Nat} {s' : Parser} (h : Good c o0 cl st s) (ht : Good (aw f c) o1 cl' st t)
    (hI : Both f c st s t) (hm : mainLoop k st s = .ok () s') (hC : RootPrefixes c.xmlDoc (vals s')) :
    ∃ t', mainLoop m st t = .ok () t' ∧ t'.out = s'.out := by
  induction k generalizing m st s t cl cl' with
  | zero => cases hm
  | succ k ih =>
    obtain ⟨m, rfl⟩ : ∃ j, m = j + 1 := ⟨m - 1, by omega⟩
    obtain ⟨es, stk, recs, rfl, h⟩ := h
    obtain ⟨es', stk', recs', rfl, ht⟩ := ht
    have hB := h.inv.base
    rw [mainLoop_key] at hm ⊢
    cases hs : step st s with
    | ok st' q =>
      rw [hs] at hm
      have hgood := (step_good h).eq hs
      have hoff : q.cfg.nsAware = false := by
        have hg := step_gf st s
        rw [hs] at hg
        rw [(hg hI.rr.off hB.out hB.enc hB.ws).cfg]
        exact hI.rr.off
      obtain ⟨xs, hx⟩ := mainLoop_values k hgood hoff hm
      have hx : vals s' = vals q ++ xs := hx
      have hP : Part c.xmlDoc (vals q) := by
        have := part_of hC
        rw [hx] at this
        exact this.cut
      obtain ⟨t1, k1, k2⟩ := step_rr h ht ho h0 hI hs hP (fun hn => by
        obtain ⟨ys, hy, hL⟩ := mainLoop_led k hgood hoff hn hm
        rw [hy] at hC
        exact ready_of hC hL)
      rw [k1]
      exact ih (by omega) hgood ((step_good ht).eq k1) k2 hm
    | err e q =>
      rw [hs] at hm
      simp only at hm
      by_cases hd : e.as .eof ∧ st = .docEnd
      · rw [if_pos hd] at hm
        obtain ⟨x, hr⟩ := hI.rr
        have hsim : RelRes (RX f x) False False (step st s) (step st t) := by
          rw [hd.2]
          exact processDocEnd_sim rx_nice s t hr
        rw [hs] at hsim
        obtain h | ⟨t1, k1, k2⟩ := hsim
        · exact h.elim
        rw [k1]
        simp only [if_pos hd]
        obtain ⟨t', g1, g2, -⟩ := sim_ok' (fun x => Sim.wrapInternal _ (finishUp_sim (rx_nice (x := x)))) ⟨x, k2⟩ hm
        exact ⟨t', g1, g2.out⟩
      · rw [if_neg hd] at hm; cases hm
    | panic => rw [hs] at hm; cases hm
    | diverge => rw [hs] at hm; cases hm

end Rooted
end Parser
end GoVtd
