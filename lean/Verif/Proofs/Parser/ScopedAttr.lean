import Verif.Proofs.Parser.ScopedTag

/-!
# Prefixes declared anywhere: the name of an attribute
-/

namespace GoVtd
namespace Parser
namespace Scoped
open Paged Grammar Two Ev Plain Sound
open Rooted (RR RX rx_nice sim_ok' ent NsOnly aw attrNsDecl_total checkAttrUniqueness_rr nsAppend writeAttrName_split writeAttrName2_sim nsAppend_left valSlash_base attrValEnd_notAttr pend_zero)

variable {f : Nat} {x : Rooted.Ext} {s t p p' : Parser} {c : ParserCfg} {D : List UInt8} {V V' ws ds : List (BitVec 64)} {w : BitVec 64}
  {st st' : PState} {o0 : ParserOut} {es : List Mark} {stk : List (Nat × Nat)} {recs : List Rec}

set_option maxHeartbeats 1000000 in
theorem attrName_rr (h : G c o0 .attrName s es stk recs) (hr : RR f s t) (hI : InTag (aw f c) t) (hT : Tab c.xmlDoc (vals s) false 0 t.ns)
    (hcnt : t.at_.prefixedAttCount ≤ s.at_.attrCount) {q : Parser}
    (hm : processAttrName s = .ok st q) (hC : Part c.xmlDoc (vals q))
    (hA : Again c.xmlDoc (vals q) ∨ ∃ a t', processAttrName t = .ok a t') :
    ∃ t', processAttrName t = .ok st t' ∧ RR f q t' ∧ Tab c.xmlDoc (vals q) false (Rooted.pend q.at_) t'.ns ∧
      t'.at_.prefixedAttCount ≤ q.at_.attrCount ∧ st = .attrVal ∧ Rooted.K c st q ∧ ∃ w, vals q = vals s ++ [w] ∧ ¬ IsStart w ∧
        (IsPrefixDecl c.xmlDoc w → (scopeOf c.xmlDoc (vals s)).visible = 0 → declsOf c.xmlDoc (vals s) = []) := by
  have hJ : s.at_.isNs = false := by rw [← hr.same.isNs]; exact hI.isNs
  have hs := h.inv.slots
  have h0 := h.inv.start (by simp)
  obtain ⟨hn0, hn1, hn2⟩ := h.inv.name (by simp)
  have hsy := h.inv.sync (by simp)
  have hcur := h.inv.cur rfl
  have hd := h.inv.deep (by decide)
  have hk := h.k
  simp only [reduceCtorEq, if_false] at hk
  have hlen2 := hk.len2
  have hB := h.inv.base
  obtain ⟨hl1, y, hy, hys, hyc⟩ := h.attrS rfl
  rw [processAttrName_eq] at hm hA ⊢
  obtain ⟨u0, s1, h1, hm⟩ := bind_ok (m := attrNsTest) hm
  have hkind := (attrNsTest_kind hB hsy hl1 hn0 hy hyc hJ).eq h1
  obtain ⟨a, b, ch, u, y', hs1, hb, hu, hu0, hud, hy', hsh, hc⟩ := (attrNsTest_post hB hsy hl1 hn0 (by omega) hy hyc).eq h1
  rw [M.bind_apply, M.get_apply, Res.andThen_ok] at hm
  obtain ⟨u1, s2, h2, hm⟩ := bind_ok (m := attrNameLoop _) hm
  obtain ⟨l2, r2, ch2, x, run, hs2, hb2, hl2, he, hx, hnx, hrun, hdrop, hlc⟩ :=
    (attrNameLoop_post (q := s.lastOffset + u.length) hb (by rw [hs1]; rfl) (by rw [hs1]; rfl) (by omega)
    (by rw [← hy']; congr 1; omega) (by rw [hs1]; exact hsh) (by rw [hs1]; exact hc)).eq h2
  rw [M.bind_apply, getPrevOffset_eq hb2, Res.andThen_ok, M.bind_apply, M.modify_apply, Res.andThen_ok] at hm
  have hlc := hlc u.length 0 (by rw [hs1]; simpa using hlen2) (by rw [hs1]; rfl)
  have hq2 : s2.offset = r2 + 1 := by rw [hs2]; rfl
  generalize hq3 : ({ s2 with length1 := s2.offset - 1 - s2.lastOffset } : Parser) = s3 at hm
  have e1 : s3.length1 = r2 - s.lastOffset := by
    rw [← hq3]
    show s2.offset - 1 - s2.lastOffset = _
    rw [hq2, hs2, hs1]
    show r2 + 1 - 1 - s.lastOffset = _
    omega
  have e2 : s3.length2 = l2 := by rw [← hq3, hs2]; rfl
  have e3 : s3.lastOffset = s.lastOffset := by rw [← hq3, hs2, hs1]; rfl
  have e4 : s3.depth = s.depth := by rw [← hq3, hs2, hs1]; rfl
  have e5 : s3.at_ = s1.at_ := by rw [← hq3, hs2]; rfl
  have e6 : s1.at_ = { s.at_ with isNs := a, defaultNs := b } := by rw [hs1]; rfl
  have e7 : s3.cfg = s.cfg := by rw [← hq3, hs2, hs1]; rfl
  have e8 : s3.out = s.out := by rw [← hq3, hs2, hs1]; rfl
  have hb3 : Base c s3 := by rw [← hq3]; exact hb2
  have hall : c.xmlDoc.drop s.lastOffset.toNat = (u ++ run) ++ c.xmlDoc.drop r2.toNat := by
    rw [hud, List.append_assoc, ← hdrop]
    congr 2; omega
  obtain ⟨hxl, hxd⟩ := List.getElem?_eq_some_iff.mp hx
  have he1 := hb.end1
  have he2 := hb.end2
  have hlen : (u ++ run).length = r2.toNat - s.lastOffset.toNat := by
    have := congrArg List.length hall
    simp only [List.length_append, List.length_drop] at this ⊢
    omega
  generalize hNd : u ++ run = N at hall hlen
  have hallx : c.xmlDoc.drop s.lastOffset.toNat = N ++ x :: c.xmlDoc.drop (r2.toNat + 1) := by
    rw [hall, List.drop_eq_getElem_cons hxl, hxd]
  have hcol : l2 = lastColon 0 0 N := by
    rw [← hNd, lastColon_append, hu0, Nat.zero_add]; exact hlc
  -- the rest of the step
  unfold nameRest at hm hA ⊢
  rw [M.bind_apply, attrNsDecl_left (by rw [e7]; exact hr.off), Res.andThen_ok] at hm
  obtain ⟨v1, s5, h5, hm⟩ := bind_ok (m := checkAttrUniqueness) hm
  obtain ⟨l, k, hs5⟩ := (checkAttrUniqueness_left (by rw [e7]; exact hr.off)).eq h5
  have hb5 : Base c s5 := by rw [hs5]; exact hb3
  have hoff5 : s5.cfg.nsAware = false := by rw [hs5]; show s3.cfg.nsAware = _; rw [e7]; exact hr.off
  obtain ⟨v2, s6, h6, hm⟩ := bind_ok (m := writeAttrName) hm
  obtain ⟨hw2, hw1, q6, hf6, hs6, hb6⟩ := (writeAttrName_post hb5).eq h6
  have hAF := (writeAttrName_val hb5 h6).1
  obtain ⟨rfl, r7, ch7, hs7, hb7, -⟩ := (attrNameEnd_post hb6).eq hm
  obtain ⟨-, hmark, -⟩ := (attrNameEnd_mark hb6).eq hm
  rw [writeAttrName_split, M.bind_apply, nsAppend_left hoff5, Res.andThen_ok] at h6
  have d1 : s5.length1 = s3.length1 := by rw [hs5]
  have d2 : s5.length2 = s3.length2 := by rw [hs5]
  have d3 : s5.lastOffset = s3.lastOffset := by rw [hs5]
  have d4 : s5.depth = s3.depth := by rw [hs5]
  have d5 : s5.out = s3.out := by rw [hs5]
  have d7 : s5.at_.isNs = s1.at_.isNs := by rw [hs5, ← e5]
  have d8 : s5.at_.defaultNs = s1.at_.defaultNs := by rw [hs5, ← e5]
  have i6 : q.at_.isNs = s1.at_.isNs := by rw [hs7]; show s6.at_.isNs = _; rw [hAF, d7]
  have i7 : q.at_.defaultNs = s1.at_.defaultNs := by rw [hs7]; show s6.at_.defaultNs = _; rw [hAF, d8]
  have ho7 : q.out = s6.out := by rw [hs7]; rfl
  generalize hwd : (Ev.attrRec s5).word = w
  have hv7 : vals q = vals s ++ [w] := by
    rw [vals, ho7, hs6]
    show (Parser.emit c.shallowDepth s5.out [Ev.attrRec s5]).vtdBuffer.values = _
    rw [emit_values hb5.out, d5, e8, ← hwd]
    rfl
  have hrng := shlOr_range (a := s5.length2) (b := s5.length1) (k := 11) (by omega) hw2 (by omega) hw1 (by omega)
  have hsm : Small (Ev.attrRec s5) := fun _ =>
    ⟨by show 0 ≤ s5.lastOffset; omega, by show s5.lastOffset < 2 ^ 31; omega, hrng.1, hrng.2,
      by show 0 ≤ s5.depth; omega, by show s5.depth ≤ 254; omega⟩
  have htk : (Ev.attrRec s5).tok = (if s1.at_.isNs then Token.attrNs else Token.attrName) := by
    show (if s5.at_.isNs then Token.attrNs else Token.attrName) = _
    rw [d7]
  obtain ⟨f1, f2, f3, f4⟩ := small_fields hsm (by rw [htk]; split <;> decide)
  rw [hwd] at f1 f2 f3 f4
  rw [htk] at f1
  have f2 : (tokenDepth w : Int) = s.depth := by
    rw [f2]
    have : (Ev.attrRec s5).depth = s5.depth := rfl
    omega
  have f3 : tokenOffset w = s.lastOffset.toNat := by rw [f3]; show s5.lastOffset.toNat = _; omega
  have f4 : qnameLength w = N.length := by
    have hnat := Parser.shlOr_nat (a := s5.length2.toNat) (b := s5.length1.toNat) (k := 11) (by omega) (by omega) (by omega)
    rw [Int.toNat_of_nonneg (by omega), Int.toNat_of_nonneg (by omega)] at hnat
    have e : (Ev.attrRec s5).len = shlOr s5.length2 11 s5.length1 := rfl
    rw [f4, e, hnat, Int.toNat_natCast, or_low _ _ (by omega)]
    omega
  have hqn : qname c.xmlDoc w = N := by
    rw [qname, f3, f4, hall, List.take_left']; rfl
  have hca : colonAt c.xmlDoc w = lastColon 0 0 N := by rw [colonAt, hqn]
  have hmem : w ∈ vals q := by rw [hv7]; simp
  have hns : ¬ IsStart w := by
    intro hh
    have hh : tokenType w = Token.startingTag.code := hh
    rw [f1] at hh
    split at hh
    · exact absurd hh (by decide)
    · exact absurd hh (by decide)
  -- a declaration with a prefix
  have hdef : s1.at_.isNs = true → s1.at_.defaultNs = true → N = str% "xmlns" := by
    intro hi hdf
    obtain ⟨hof, hpr, ⟨-, hnc⟩ | ⟨hdf', -⟩⟩ := hkind hi
    · have h6 : s1.currentChar = ch := by rw [hs1]; rfl
      rw [h6] at hnc
      have h5 : u.length = 5 := by
        have : s1.offset = s.lastOffset + u.length + 1 := by rw [hs1]; rfl
        omega
      rw [run_nil (rest := c.xmlDoc.drop r2.toNat) (by rw [hNd]; exact hall) hy' hsh hrun hnc, List.append_nil] at hNd
      rw [hall] at hpr
      exact ((List.prefix_of_prefix_length_le hpr (List.prefix_append N _) (by rw [← hNd, h5]; decide)).eq_of_length
        (by rw [← hNd, h5]; rfl)).symm
    · rw [hdf] at hdf'; cases hdf'
  have hnd : s1.at_.isNs = true → s1.at_.defaultNs = false → str% "xmlns:" <+: N := by
    intro hi hdf
    obtain ⟨hof, hpr, ⟨hdf', -⟩ | ⟨-, hch⟩⟩ := hkind hi
    · rw [hdf] at hdf'; cases hdf'
    · have h5 : u.length = 5 := by
        have : s1.offset = s.lastOffset + u.length + 1 := by rw [hs1]; rfl
        omega
      have h6 : s1.currentChar = ch := by rw [hs1]; rfl
      rw [h6] at hch
      rw [← hNd]
      exact run_colon (by rw [hNd]; exact hallx) hy' hsh hnx hch h5 hpr
  have hcm : s1.at_.isNs = true → s1.at_.defaultNs = false → ch% ':' ∈ N := by
    intro hi hdf
    exact (hnd hi hdf).subset (by decide)
  have hdecl : s1.at_.isNs = true → s1.at_.defaultNs = false → tokenType w = Token.attrNs.code ∧ lastColon 0 0 N ≠ 0 ∧
      lastColon 0 0 N < N.length ∧ N.drop (lastColon 0 0 N + 1) ≠ str% "xmlns" ∧ N.drop (lastColon 0 0 N + 1) ≠ str% "xml" := by
    intro hi hdf
    have hty : tokenType w = Token.attrNs.code := by rw [f1, if_pos hi]
    have hq := declares_of hty (by rw [hqn]; exact hnd hi hdf)
    obtain ⟨h2, h3⟩ := hC.decl w hmem _ hq
    have k1 := (declares_colon hq).1
    rw [hca] at k1
    rw [localOf, hqn, hca] at h2 h3
    exact ⟨hty, k1, (colon_splits k1).2, h3, h2⟩
  -- the run with namespace awareness
  obtain ⟨t1, g1, hr1, n1, -, c1, p1, -⟩ := sim_ok' (fun x => attrNsTest_sim (rx_nice (x := x))) hr h1
  rw [M.bind_apply, g1, Res.andThen_ok, M.bind_apply, M.get_apply, Res.andThen_ok] at hA ⊢
  obtain ⟨t2, g2, hr2, n2, -, c2, p2, -⟩ := sim_ok' (fun x => attrNameLoop_sim (rx_nice (x := x)) hr1.same.fuel) hr1 h2
  rw [M.bind_apply, g2, Res.andThen_ok, M.bind_apply, getPrevOffset_eq (hr2.base hb2), Res.andThen_ok, M.bind_apply, M.modify_apply, Res.andThen_ok] at hA ⊢
  have hr3 : RR f s3 { t2 with length1 := t2.offset - 1 - t2.lastOffset } := by
    rw [← hq3]
    obtain ⟨x, rfl, a1, a2, a3⟩ := hr2
    exact ⟨x, rfl, a1, a2, a3⟩
  generalize hq4 : ({ t2 with length1 := t2.offset - 1 - t2.lastOffset } : Parser) = t3 at hr3 hA ⊢
  have n3 : t3.ns = t.ns := by rw [← hq4]; show t2.ns = _; rw [n2, n1]
  have c3 : t3.at_.prefixedAttCount = t.at_.prefixedAttCount := by rw [← hq4]; show t2.at_.prefixedAttCount = _; rw [c2, c1]
  have p3 : t3.at_.prefixedAttrNameSlice = t.at_.prefixedAttrNameSlice := by rw [← hq4]; show t2.at_.prefixedAttrNameSlice = _; rw [p2, p1]
  have hbt3 := hr3.base hb3
  have hz : s3.length2 = (lastColon 0 0 N : Nat) := by rw [e2]; exact hcol
  rw [M.bind_apply, attrNsDecl_total (N := N) hbt3 (l2 := lastColon 0 0 N) (by rw [hr3.same.length2]; exact hz)
    (by rw [hr3.same.length1, e1]; omega) (by rw [hr3.same.lastOffset]; omega) (by rw [hr3.same.lastOffset, e3]; exact hallx) hnx hr3.xml
    (by
      rw [hr3.same.isNs, hr3.same.defaultNs, e5]
      intro hi hdf
      obtain ⟨-, -, k1, k2, k3⟩ := hdecl hi hdf
      exact ⟨k1, k2, k3⟩), Res.andThen_ok] at hA ⊢
  have hst3 : s3.at_.attrCount = s.at_.attrCount := by rw [e5, e6]
  have hcnt0 : 0 ≤ t.at_.prefixedAttCount := by
    obtain ⟨A, B, w0, hO⟩ := hI.opn
    rw [hO.count]; omega
  obtain ⟨t5, g5, hr5, n5, c5, c5'⟩ := checkAttrUniqueness_rr (N := N) hr3 hb3 (by omega) (by rw [e3]; exact hallx) hnx
    (by rw [p3]; exact hI.com.lists.1) (by rw [e5, e6]; exact hs.attLen) (by rw [c3, hst3]; exact ⟨hcnt0, hcnt⟩) h5
  rw [M.bind_apply, g5, Res.andThen_ok, writeAttrName_split, M.bind_apply, M.bind_apply] at hA ⊢
  -- the entry
  have key : ∃ n', nsAppend t5 = .ok () { t5 with ns := n' } ∧ Tab c.xmlDoc (vals q) false (Rooted.pend q.at_) n' ∧
      (IsPrefixDecl c.xmlDoc w → (scopeOf c.xmlDoc (vals s)).visible = 0 → declsOf c.xmlDoc (vals s) = []) := by
    have hA : Again c.xmlDoc (vals q) ∨ ∃ u p', nsAppend t5 = .ok u p' := by
      refine hA.imp id ?_
      rintro ⟨a, t', hok⟩
      obtain ⟨u0, p0, k1, -⟩ := Res.andThen_eq_ok.mp hok
      obtain ⟨u, p', k1, -⟩ := Res.andThen_eq_ok.mp k1
      exact ⟨u, p', k1⟩
    simp only [nsAppend, M.bind_apply, M.get_apply, Res.andThen_ok, M.ite_apply] at hA ⊢
    have hns5 : t5.ns = t.ns := n5.trans n3
    have k5 : t5.at_.isNs = s1.at_.isNs := by rw [hr5.same.isNs, d7]
    have k6 : t5.length2 = (lastColon 0 0 N : Nat) := by rw [hr5.same.length2, d2, hz]
    by_cases hi : s1.at_.isNs = true ∧ s1.at_.defaultNs = false
    · obtain ⟨k1, k2, k3, -, -⟩ := hdecl hi.1 hi.2
      have hpend : Rooted.pend q.at_ = 1 := by rw [Rooted.pend, i6, i7, if_pos hi]
      have hdw : IsPrefixDecl c.xmlDoc w := ⟨k1, by rw [hqn]; exact hcm hi.1 hi.2⟩
      have hdv : declsOf c.xmlDoc (vals q) = declsOf c.xmlDoc (vals s) ++ [w] := by
        rw [hv7, declsOf_append]
        congr 1
        exact List.filter_cons_of_pos (decide_eq_true hdw)
      have hsv : scopeOf c.xmlDoc (vals q) = { scopeOf c.xmlDoc (vals s) with visible := (scopeOf c.xmlDoc (vals s)).visible + 1 } := by
        rw [hv7]; exact scopeOf_decl hdw
      have hfew := hC.few (vals q) [] (by simp)
      rw [hsv] at hfew
      have hfew : (scopeOf c.xmlDoc (vals s)).visible + 1 ≤ 64 := hfew
      have hle := (scope_le (D := c.xmlDoc) (V := vals s)).2.2
      have hent : nsRecord t5.length2 t5.length1 t5.lastOffset = ent c.xmlDoc w := by
        rw [ent, hca, f4, f3, k6, hr5.same.length1, hr5.same.lastOffset]
        congr 1 <;> omega
      rw [if_pos ⟨by rw [k5]; exact hi.1, hr5.on, by rw [k6]; omega, by rw [hr5.xml]; rfl⟩, hent] at hA ⊢
      have hag : (scopeOf c.xmlDoc (vals s)).visible = 0 → declsOf c.xmlDoc (vals s) = [] := by
        rcases hA with hA | ⟨u, p', hok⟩
        · exact hA (vals s) w [] hv7 hdw
        · intro h0
          simp only [onNs3, M.zoom_apply, hns5] at hok
          rw [hT.b3.eq, h0] at hok
          cases hap : Paged.append (ent c.xmlDoc w) (plog ((declsOf c.xmlDoc (vals s)).map (ent c.xmlDoc)) 0) with
          | ok u b => exact List.map_eq_nil_iff.mp (append_plog_zero hap)
          | err e b => rw [hap] at hok; cases hok
          | panic => rw [hap] at hok; cases hok
          | diverge => rw [hap] at hok; cases hok
      have happ := append_plog (xs := (declsOf c.xmlDoc (vals s)).map (ent c.xmlDoc)) (n := (scopeOf c.xmlDoc (vals s)).visible)
        (ent c.xmlDoc w) (by omega) (fun h => by rw [hag h]; rfl) (fun h => by rw [List.map_eq_nil_iff.mp h] at hle; simpa using hle)
      refine ⟨{ t.ns with nsBuffer3 := plog ((declsOf c.xmlDoc (vals q)).map (ent c.xmlDoc)) ((scopeOf c.xmlDoc (vals s)).visible + 1) }, ?_, ?_, fun _ => hag⟩
      · simp only [onNs3, M.zoom_apply, hns5]
        rw [hT.b3.eq, happ, hdv, List.map_append]
        simp only [Res.zoom, hns5]
        rfl
      · constructor
        · rw [hsv]
          show t.ns.nsBuffer1 = _
          rw [hT.b1]
          simp only [first]
          split
          · rfl
          · rfl
        · intro _; rw [hsv]; exact hT.opn rfl
        · rw [hsv]; exact hT.len
        · obtain ⟨ys, y1, y2, y3⟩ := hT.b2
          rw [hsv, hdv, hpend]
          refine ⟨ys, y1, ?_, ?_⟩
          · rw [List.length_append, ← y2]; rfl
          · show 1 ≤ _ + 1; omega
        · rw [hsv, hdv]
          intro _ h
          have h : (scopeOf c.xmlDoc (vals s)).visible + 1 = 1 := h
          rw [hag (by omega)]
          rfl
        · rw [hsv]
          refine ⟨rfl, ?_, hfew, ?_, hT.b3.small⟩
          · rw [hdv, List.length_append]
            show _ + 1 ≤ _ + 1
            omega
          · intro d hd
            rw [hdv] at hd
            rcases List.mem_append.mp hd with hd | hd
            · exact hT.b3.fit d hd
            · rw [List.mem_singleton.mp hd]
              exact ⟨⟨by rw [hca]; omega, by rw [f3]; omega, by rw [f3, f4]; omega⟩, by rw [hca]; exact k2,
                declares_of k1 (by rw [hqn]; exact hnd hi.1 hi.2)⟩
    · have hpend : Rooted.pend q.at_ = 0 := by rw [Rooted.pend, i6, i7, if_neg hi]
      have hl0 : s1.at_.isNs = true → lastColon 0 0 N = 0 := by
        intro h1
        cases hh : s1.at_.defaultNs with
        | true => rw [hdef h1 hh]; rfl
        | false => exact absurd ⟨h1, hh⟩ hi
      rw [if_neg (by rintro ⟨k1, -, k2, -⟩; rw [k5] at k1; have := hl0 k1; omega)]
      rw [hpend]
      have hnd : ¬ IsPrefixDecl c.xmlDoc w := by
        rintro ⟨k1, k2⟩
        rw [f1] at k1
        cases hh : s1.at_.isNs with
        | true =>
          cases hh' : s1.at_.defaultNs with
          | true =>
            rw [hqn, hdef hh hh'] at k2
            exact absurd k2 (by decide)
          | false => exact hi ⟨hh, hh'⟩
        | false => rw [hh] at k1; exact absurd k1 (by decide)
      refine ⟨t5.ns, rfl, ?_, fun hd => absurd hd hnd⟩
      rw [hns5]
      refine hT.to ?_ ?_
      · rw [hv7, declsOf_append, show declsOf c.xmlDoc [w] = [] from List.filter_cons_of_neg (by simpa using hnd), List.append_nil]
      · rw [hv7, scopeOf_append]
        exact step_quiet hns hnd
  obtain ⟨n', g6, hT6, hag⟩ := key
  rw [g6, Res.andThen_ok]
  have hr6 : RR f s5 { t5 with ns := n' } := hr5.ns ⟨n', t5.at_.currentElementRecord, t5.at_.prefixedAttCount, t5.at_.prefixedAttrNameSlice, t5.at_.prefixUrlSlice, rfl⟩
  obtain ⟨t7, g7, hr7, n7, -, c7, -⟩ := sim_ok' (fun x => writeAttrName2_sim (x := x)) hr6 h6
  obtain ⟨t8, g8, hr8, n8, -, c8, -⟩ := sim_ok' (fun x => attrNameEnd_sim (rx_nice (x := x))) hr7 hm
  rw [g7, Res.andThen_ok, g8]
  have hac : q.at_.attrCount = s5.at_.attrCount := by
    rw [hs7]; show s6.at_.attrCount = _; rw [hs6]; exact hf6.count
  refine ⟨t8, rfl, hr8, by rw [n8, n7]; exact hT6, ?_, rfl, ⟨?_, fun _ => hmark⟩, w, hv7, hns, hag⟩
  · rw [c8, c7, hac]; exact c5'
  · intro hi
    rw [i6] at hi
    refine ⟨rfl, vals s, w, hv7, by rw [f1, if_pos hi], ?_⟩
    rw [i7, hqn]
    exact hcm hi

end Scoped
end Parser
end GoVtd
