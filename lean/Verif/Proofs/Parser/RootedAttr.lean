import Verif.Proofs.Parser.RootedTag

/-!
# The name of an attribute of a document that declares its prefixes at the root
-/

namespace GoVtd
namespace Parser
namespace Rooted
open Paged Grammar Two Ev Plain Sound

variable {f : Nat} {x : Ext} {s t p p' : Parser} {c : ParserCfg} {D : List UInt8} {V V' ws ds : List (BitVec 64)} {w : BitVec 64}
  {st st' : PState} {o0 : ParserOut} {es : List Mark} {stk : List (Nat × Nat)} {recs : List Rec}

theorem notin_xmlns {y : UInt8} (h : ¬ NameByte y) : y ∉ (str% "xmlns" : List UInt8) := by
  intro hy
  apply h
  have : ∀ z ∈ (str% "xmlns" : List UInt8), isNameChar z.toNat = true := by decide
  exact (isNameChar_iff _).mp (this y hy)

theorem notin_xml {y : UInt8} (h : ¬ NameByte y) : y ∉ (str% "xml" : List UInt8) := by
  intro hy
  apply h
  have : ∀ z ∈ (str% "xml" : List UInt8), isNameChar z.toNat = true := by decide
  exact (isNameChar_iff _).mp (this y hy)

theorem prefix_full {a l : List UInt8} (h : l <+: a) (he : a.length = l.length) : a = l :=
  (List.IsPrefix.eq_of_length h he.symm).symm

/-- The tests of a declaration succeed. -/
theorem attrNsDecl_total {N : List UInt8} {y : UInt8} {r : List UInt8} (hb : Base c p) {l2 : Nat} (h2 : p.length2 = l2) (h1 : p.length1 = N.length)
    (h0 : 0 ≤ p.lastOffset) (hN : c.xmlDoc.drop p.lastOffset.toNat = N ++ y :: r) (hy : ¬ NameByte y) (hx : p.at_.isXml = false)
    (hq : p.at_.isNs = true → p.at_.defaultNs = false → l2 < N.length ∧ N.drop (l2 + 1) ≠ str% "xmlns" ∧ N.drop (l2 + 1) ≠ str% "xml") :
    attrNsDecl p = .ok () p := by
  have hinc : p.enc.increment = 1 := hb.inc
  unfold attrNsDecl
  rw [M.bind_apply, M.get_apply, Res.andThen_ok, M.ite_apply]
  by_cases hd : p.at_.isNs = true ∧ p.cfg.nsAware = true ∧ (!p.at_.defaultNs) = true
  · rw [if_pos hd]
    obtain ⟨hl, q1, q2⟩ := hq hd.1 (by simpa using hd.2.2)
    rw [hinc]
    have hbo : (0 : Int) ≤ p.lastOffset + p.length2 + 1 := by omega
    have hdrop : c.xmlDoc.drop (p.lastOffset + p.length2 + 1).toNat = N.drop (l2 + 1) ++ y :: r := by
      rw [show (p.lastOffset + p.length2 + 1).toNat = p.lastOffset.toNat + (l2 + 1) by omega, ← List.drop_drop, hN,
        List.drop_append_of_le_length (by omega)]
    have hlen : (N.drop (l2 + 1)).length = N.length - l2 - 1 := by rw [List.length_drop]; omega
    have tail : (if (1 : Int) = 1 ∧ p.length1 - p.length2 = 4 ∨ (1 : Int) = 2 ∧ p.length1 - p.length2 = 8 then do
          let x ← checkXmlPrefix (p.lastOffset + p.length2 + 1) (-1) false
          M.modify fun p => { p with at_ := { p.at_ with isXml := x } }
        else pure () : M Parser Unit) p = .ok () p := by
      rw [M.ite_apply]
      split
      · rename_i h4
        rw [M.bind_apply, checkXml_upto hb hbo hdrop (notin_xml hy), Res.andThen_ok]
        have e : decide (str% "xml" <+: N.drop (l2 + 1) ∧ (false = true → (-1 : Int) = 4 ∨ (-1 : Int) = 8)) = false := by
          rw [decide_eq_false_iff_not]
          rintro ⟨k1, -⟩
          exact q2 (prefix_full k1 (by rw [hlen]; show _ = 3; omega))
        rw [e, M.modify_apply, ← hx]
      · rfl
    rw [M.ite_apply]
    split
    · rename_i h6
      rw [M.bind_apply, checkXmlns_upto hb hbo hdrop (notin_xmlns hy), Res.andThen_ok]
      have e : decide (str% "xmlns" <+: N.drop (l2 + 1) ∧ (false = true → (-1 : Int) = 5 ∨ (-1 : Int) = 10)) = false := by
        rw [decide_eq_false_iff_not]
        rintro ⟨k1, -⟩
        exact q1 (prefix_full k1 (by rw [hlen]; show _ = 5; omega))
      rw [e]
      exact tail
    · exact tail
  · rw [if_neg hd]
    rfl

theorem checkAttrUniqueness_rr {N : List UInt8} {y : UInt8} {r : List UInt8} (hr : RR f s t) (hb : Base c s) (h0 : 0 ≤ s.lastOffset)
    (hN : c.xmlDoc.drop s.lastOffset.toNat = N ++ y :: r) (hy : ¬ NameByte y)
    (hl : t.at_.prefixedAttrNameSlice.length = 256) (hl' : s.at_.attrNameSlice.length = 256)
    (hk : 0 ≤ t.at_.prefixedAttCount ∧ t.at_.prefixedAttCount ≤ s.at_.attrCount) {q : Parser} {u : Unit} (hm : checkAttrUniqueness s = .ok u q) :
    ∃ t', checkAttrUniqueness t = .ok u t' ∧ RR f q t' ∧ t'.ns = t.ns ∧
      0 ≤ t'.at_.prefixedAttCount ∧ t'.at_.prefixedAttCount ≤ q.at_.attrCount := by
  have hs := hr.same
  simp only [checkAttrUniqueness] at hm ⊢
  rw [M.bind_apply, M.get_apply, Res.andThen_ok] at hm ⊢
  obtain ⟨b, s1, h1, hm⟩ := bind_ok (m := uniqueLoop _ _ _) hm
  obtain ⟨t1, h2, hr1, -⟩ := sim_ok' (fun x => uniqueLoop_sim (rx_nice (x := x)) _ _ _) hr h1
  rw [hs.attrCount, hs.attrNameSlice, hs.lastOffset, hs.length1]
  rw [M.bind_apply, h2, Res.andThen_ok]
  obtain rfl : s1 = s := (eq_post (uniqueLoop_fr eq_pre _ _ _)).eq h1
  obtain rfl : t1 = t := (eq_post (uniqueLoop_fr eq_pre _ _ _)).eq h2
  rw [M.ite_apply] at hm ⊢
  by_cases hc : b = false ∧ s1.at_.attrCount ≠ 0
  · rw [if_pos hc] at hm
    exact ((post_err (p := s1) (Q := fun _ _ => False) AttrNotUnique).eq hm).elim
  rw [if_neg hc] at hm ⊢
  cases hsl : setAt s1.at_.attrNameSlice s1.at_.attrCount
      ((BitVec.ofInt 64 s1.lastOffset <<< 32) ||| BitVec.ofInt 64 s1.length1) with
  | none => rw [hsl] at hm; cases hm
  | some l =>
    have hbd : s1.at_.attrCount < 256 := by
      unfold setAt at hsl
      split at hsl
      · cases hsl
      · omega
    rw [hsl] at hm
    simp only [M.bind_apply, M.modify_apply, Res.andThen_ok] at hm ⊢
    have hleft : ∀ {s : Parser}, s.cfg.nsAware = false → pushPrefixedAttr s = .ok () s := by
      intro s hoff
      simp only [pushPrefixedAttr, M.bind_apply, M.get_apply, Res.andThen_ok, M.ite_apply, hoff]
      rw [if_neg (fun h => by cases h.1)]
      rfl
    rw [hleft (by exact hr.off)] at hm
    cases hm
    have hr2 : RR f { s1 with at_ := { s1.at_ with attrNameSlice := l, attrCount := s1.at_.attrCount + 1 } }
        { t1 with at_ := { t1.at_ with attrNameSlice := l, attrCount := t1.at_.attrCount + 1 } } := by
      obtain ⟨x, rfl, a1, a2, a3⟩ := hr
      exact ⟨x, rfl, a1, a2, a3⟩
    have hbt := hr.base hb
    have hc1 := hs.attrCount
    have hlo := hs.lastOffset
    generalize hg : ({ t1 with at_ := { t1.at_ with attrNameSlice := l, attrCount := t1.at_.attrCount + 1 } } : Parser) = t2 at hr2 ⊢
    have g1 : t2.at_.prefixedAttCount = t1.at_.prefixedAttCount := by rw [← hg]
    have g2 : t2.at_.prefixedAttrNameSlice = t1.at_.prefixedAttrNameSlice := by rw [← hg]
    have g3 : t2.ns = t1.ns := by rw [← hg]
    have hbt2 : Base (aw f c) t2 := by rw [← hg]; exact hbt
    have hlo2 : t2.lastOffset = s1.lastOffset := by rw [← hg]; exact hlo
    show ∃ t', pushPrefixedAttr t2 = .ok () t' ∧ _ ∧ t'.ns = _ ∧ _ ∧ t'.at_.prefixedAttCount ≤ s1.at_.attrCount + 1
    have same : ∃ t', .ok () t2 = Res.ok () t' ∧ RR f _ t' ∧ t'.ns = t1.ns ∧ 0 ≤ t'.at_.prefixedAttCount ∧ t'.at_.prefixedAttCount ≤ s1.at_.attrCount + 1 :=
      ⟨t2, rfl, hr2, g3, by omega, by omega⟩
    unfold pushPrefixedAttr
    rw [M.bind_apply, M.get_apply, Res.andThen_ok, M.ite_apply]
    split
    · rw [M.bind_apply, checkXml_upto hbt2 (by rw [hlo2]; exact h0) (by rw [hlo2]; exact hN) (notin_xml hy), Res.andThen_ok, M.ite_apply]
      split
      · exact same
      · rw [setAt_some (l := t2.at_.prefixedAttrNameSlice) (i := t2.at_.prefixedAttCount) (by omega) (by rw [g2, hl]; omega)]
        refine ⟨_, rfl, hr2.ns ⟨_, _, _, _, _, rfl⟩, g3, ?_, ?_⟩
        · show 0 ≤ t2.at_.prefixedAttCount + 1; omega
        · show t2.at_.prefixedAttCount + 1 ≤ _; omega
    · exact same

/-- The first part of `writeAttrName`. -/
def nsAppend : M Parser Unit := do
  let p ← M.get
  if p.at_.isNs ∧ p.cfg.nsAware ∧ p.length2 ≠ 0 ∧ !p.at_.isXml then
    onNs3 (Paged.append (nsRecord p.length2 p.length1 p.lastOffset))
  else pure ()

theorem writeAttrName_split : writeAttrName = (do nsAppend; writeAttrName2) := by
  funext s
  simp only [writeAttrName, nsAppend, writeAttrName2, M.bind_apply, M.get_apply, Res.andThen_ok, M.ite_apply]
  split
  · simp only [onNs3, M.zoom_apply]
    cases Paged.append (nsRecord s.length2 s.length1 s.lastOffset) s.ns.nsBuffer3 <;> rfl
  · simp only [M.pure_apply, Res.andThen_ok, M.bind_apply, M.get_apply, M.ite_apply]

theorem writeAttrName2_sim : Sim (RX f x) False False writeAttrName2 writeAttrName2 := by
  have hR := rx_nice (f := f) (x := x)
  unfold writeAttrName2
  sim hR

theorem nsAppend_left (h : s.cfg.nsAware = false) : nsAppend s = .ok () s := by
  simp only [nsAppend, M.bind_apply, M.get_apply, Res.andThen_ok, M.ite_apply]
  rw [if_neg (fun h' => by rw [h] at h'; cases h'.2.1)]
  rfl

/-- 1 between a declaration of a prefix and its value. -/
def pend (a : ParserAttr) : Nat := if a.isNs = true ∧ a.defaultNs = false then 1 else 0

/-- What is known of the state of the attributes. -/
structure K (c : ParserCfg) (st : PState) (p : Parser) : Prop where
  isNs : p.at_.isNs = true → st = .attrVal ∧
    ∃ vs w, vals p = vs ++ [w] ∧ tokenType w = Token.attrNs.code ∧ (p.at_.defaultNs = false → ch% ':' ∈ qname c.xmlDoc w)
  mark : st = .attrVal → p.lastOffset = p.offset ∧ p.offset ≤ c.endOffset

theorem b1_any {u v : BitVec 32} {b : FastIntBuffer} (h : B1 u b) (h0 : b.size = 0) : B1 v b := by
  have he := h.empty h0
  refine { h with all := ?_ }
  rw [he]
  intro p hp
  cases hp

set_option maxHeartbeats 1000000 in
theorem attrName_rr (h : G c o0 .attrName s es stk recs) (hr : RR f s t) (hI : InTag (aw f c) t) (hT : Tab c.xmlDoc (vals s) 0 t.ns)
    (hdp : t.ns.nsBuffer1.size ≠ 0 → 1 ≤ s.depth) (hcnt : t.at_.prefixedAttCount ≤ s.at_.attrCount) {q : Parser}
    (hm : processAttrName s = .ok st q) (hC : Part c.xmlDoc (vals q)) :
    ∃ t', processAttrName t = .ok st t' ∧ RR f q t' ∧ Tab c.xmlDoc (vals q) (pend q.at_) t'.ns ∧
      (t'.ns.nsBuffer1.size ≠ 0 → 1 ≤ q.depth) ∧ t'.at_.prefixedAttCount ≤ q.at_.attrCount ∧ st = .attrVal ∧ K c st q := by
  have hJ : s.at_.isNs = false := by rw [← hr.same.isNs]; exact hI.isNs
  have hs := h.inv.slots
  have h0 := h.inv.start (by simp)
  obtain ⟨hn0, hn1, hn2⟩ := h.inv.name (by simp)
  have hsy := h.inv.sync (by simp)
  have hcur := h.inv.cur rfl
  have hd := h.inv.deep (by decide)
  have hk := h.k
  simp only [reduceCtorEq, if_false] at hk
  have hlen2 := hk.len2
  have hB := h.inv.base
  obtain ⟨hl1, y, hy, hys, hyc⟩ := h.attrS rfl
  rw [processAttrName_eq] at hm ⊢
  obtain ⟨u0, s1, h1, hm⟩ := bind_ok (m := attrNsTest) hm
  have hkind := (attrNsTest_kind hB hsy hl1 hn0 hy hyc hJ).eq h1
  obtain ⟨a, b, ch, u, y', hs1, hb, hu, hu0, hud, hy', hsh, hc⟩ := (attrNsTest_post hB hsy hl1 hn0 (by omega) hy hyc).eq h1
  rw [M.bind_apply, M.get_apply, Res.andThen_ok] at hm
  obtain ⟨u1, s2, h2, hm⟩ := bind_ok (m := attrNameLoop _) hm
  obtain ⟨l2, r2, ch2, x, run, hs2, hb2, hl2, he, hx, hnx, hrun, hdrop, hlc⟩ :=
    (attrNameLoop_post (q := s.lastOffset + u.length) hb (by rw [hs1]; rfl) (by rw [hs1]; rfl) (by omega)
    (by rw [← hy']; congr 1; omega) (by rw [hs1]; exact hsh) (by rw [hs1]; exact hc)).eq h2
  rw [M.bind_apply, getPrevOffset_eq hb2, Res.andThen_ok, M.bind_apply, M.modify_apply, Res.andThen_ok] at hm
  have hlc := hlc u.length 0 (by rw [hs1]; simpa using hlen2) (by rw [hs1]; rfl)
  have hq2 : s2.offset = r2 + 1 := by rw [hs2]; rfl
  generalize hq3 : ({ s2 with length1 := s2.offset - 1 - s2.lastOffset } : Parser) = s3 at hm
  have e1 : s3.length1 = r2 - s.lastOffset := by
    rw [← hq3]
    show s2.offset - 1 - s2.lastOffset = _
    rw [hq2, hs2, hs1]
    show r2 + 1 - 1 - s.lastOffset = _
    omega
  have e2 : s3.length2 = l2 := by rw [← hq3, hs2]; rfl
  have e3 : s3.lastOffset = s.lastOffset := by rw [← hq3, hs2, hs1]; rfl
  have e4 : s3.depth = s.depth := by rw [← hq3, hs2, hs1]; rfl
  have e5 : s3.at_ = s1.at_ := by rw [← hq3, hs2]; rfl
  have e6 : s1.at_ = { s.at_ with isNs := a, defaultNs := b } := by rw [hs1]; rfl
  have e7 : s3.cfg = s.cfg := by rw [← hq3, hs2, hs1]; rfl
  have e8 : s3.out = s.out := by rw [← hq3, hs2, hs1]; rfl
  have hb3 : Base c s3 := by rw [← hq3]; exact hb2
  have hall : c.xmlDoc.drop s.lastOffset.toNat = (u ++ run) ++ c.xmlDoc.drop r2.toNat := by
    rw [hud, List.append_assoc, ← hdrop]
    congr 2; omega
  obtain ⟨hxl, hxd⟩ := List.getElem?_eq_some_iff.mp hx
  have he1 := hb.end1
  have he2 := hb.end2
  have hlen : (u ++ run).length = r2.toNat - s.lastOffset.toNat := by
    have := congrArg List.length hall
    simp only [List.length_append, List.length_drop] at this ⊢
    omega
  generalize hNd : u ++ run = N at hall hlen
  have hallx : c.xmlDoc.drop s.lastOffset.toNat = N ++ x :: c.xmlDoc.drop (r2.toNat + 1) := by
    rw [hall, List.drop_eq_getElem_cons hxl, hxd]
  have hcol : l2 = lastColon 0 0 N := by
    rw [← hNd, lastColon_append, hu0, Nat.zero_add]; exact hlc
  -- the rest of the step
  unfold nameRest at hm ⊢
  rw [M.bind_apply, attrNsDecl_left (by rw [e7]; exact hr.off), Res.andThen_ok] at hm
  obtain ⟨v1, s5, h5, hm⟩ := bind_ok (m := checkAttrUniqueness) hm
  obtain ⟨l, k, hs5⟩ := (checkAttrUniqueness_left (by rw [e7]; exact hr.off)).eq h5
  have hb5 : Base c s5 := by rw [hs5]; exact hb3
  have hoff5 : s5.cfg.nsAware = false := by rw [hs5]; show s3.cfg.nsAware = _; rw [e7]; exact hr.off
  obtain ⟨v2, s6, h6, hm⟩ := bind_ok (m := writeAttrName) hm
  obtain ⟨hw2, hw1, q6, hf6, hs6, hb6⟩ := (writeAttrName_post hb5).eq h6
  have hAF := (writeAttrName_val hb5 h6).1
  obtain ⟨rfl, r7, ch7, hs7, hb7, -⟩ := (attrNameEnd_post hb6).eq hm
  obtain ⟨-, hmark, -⟩ := (attrNameEnd_mark hb6).eq hm
  rw [writeAttrName_split, M.bind_apply, nsAppend_left hoff5, Res.andThen_ok] at h6
  have d1 : s5.length1 = s3.length1 := by rw [hs5]
  have d2 : s5.length2 = s3.length2 := by rw [hs5]
  have d3 : s5.lastOffset = s3.lastOffset := by rw [hs5]
  have d4 : s5.depth = s3.depth := by rw [hs5]
  have d5 : s5.out = s3.out := by rw [hs5]
  have d7 : s5.at_.isNs = s1.at_.isNs := by rw [hs5, ← e5]
  have d8 : s5.at_.defaultNs = s1.at_.defaultNs := by rw [hs5, ← e5]
  have i6 : q.at_.isNs = s1.at_.isNs := by rw [hs7]; show s6.at_.isNs = _; rw [hAF, d7]
  have i7 : q.at_.defaultNs = s1.at_.defaultNs := by rw [hs7]; show s6.at_.defaultNs = _; rw [hAF, d8]
  have ho7 : q.out = s6.out := by rw [hs7]; rfl
  generalize hwd : (Ev.attrRec s5).word = w
  have hv7 : vals q = vals s ++ [w] := by
    rw [vals, ho7, hs6]
    show (Parser.emit c.shallowDepth s5.out [Ev.attrRec s5]).vtdBuffer.values = _
    rw [emit_values hb5.out, d5, e8, ← hwd]
    rfl
  have hrng := shlOr_range (a := s5.length2) (b := s5.length1) (k := 11) (by omega) hw2 (by omega) hw1 (by omega)
  have hsm : Small (Ev.attrRec s5) := fun _ =>
    ⟨by show 0 ≤ s5.lastOffset; omega, by show s5.lastOffset < 2 ^ 31; omega, hrng.1, hrng.2,
      by show 0 ≤ s5.depth; omega, by show s5.depth ≤ 254; omega⟩
  have htk : (Ev.attrRec s5).tok = (if s1.at_.isNs then Token.attrNs else Token.attrName) := by
    show (if s5.at_.isNs then Token.attrNs else Token.attrName) = _
    rw [d7]
  obtain ⟨f1, f2, f3, f4⟩ := small_fields hsm (by rw [htk]; split <;> decide)
  rw [hwd] at f1 f2 f3 f4
  rw [htk] at f1
  have f2 : (tokenDepth w : Int) = s.depth := by
    rw [f2]
    have : (Ev.attrRec s5).depth = s5.depth := rfl
    omega
  have f3 : tokenOffset w = s.lastOffset.toNat := by rw [f3]; show s5.lastOffset.toNat = _; omega
  have f4 : qnameLength w = N.length := by
    have hnat := Parser.shlOr_nat (a := s5.length2.toNat) (b := s5.length1.toNat) (k := 11) (by omega) (by omega) (by omega)
    rw [Int.toNat_of_nonneg (by omega), Int.toNat_of_nonneg (by omega)] at hnat
    have e : (Ev.attrRec s5).len = shlOr s5.length2 11 s5.length1 := rfl
    rw [f4, e, hnat, Int.toNat_natCast, or_low _ _ (by omega)]
    omega
  have hqn : qname c.xmlDoc w = N := by
    rw [qname, f3, f4, hall, List.take_left']; rfl
  have hca : colonAt c.xmlDoc w = lastColon 0 0 N := by rw [colonAt, hqn]
  have hmem : w ∈ vals q := by rw [hv7]; simp
  -- a declaration with a prefix
  have hdef : s1.at_.isNs = true → s1.at_.defaultNs = true → lastColon 0 0 N = 0 := by
    intro hi hdf
    obtain ⟨hof, hpr, ⟨-, hnc⟩ | ⟨hdf', -⟩⟩ := hkind hi
    · have h6 : s1.currentChar = ch := by rw [hs1]; rfl
      rw [h6] at hnc
      rw [← hNd, run_nil (rest := c.xmlDoc.drop r2.toNat) (by rw [hNd]; exact hall) hy' hsh hrun hnc, List.append_nil]
      exact hu0
    · rw [hdf] at hdf'; cases hdf'
  have hnd : s1.at_.isNs = true → s1.at_.defaultNs = false → str% "xmlns:" <+: N := by
    intro hi hdf
    obtain ⟨hof, hpr, ⟨hdf', -⟩ | ⟨-, hch⟩⟩ := hkind hi
    · rw [hdf] at hdf'; cases hdf'
    · have h5 : u.length = 5 := by
        have : s1.offset = s.lastOffset + u.length + 1 := by rw [hs1]; rfl
        omega
      have h6 : s1.currentChar = ch := by rw [hs1]; rfl
      rw [h6] at hch
      rw [← hNd]
      exact run_colon (by rw [hNd]; exact hallx) hy' hsh hnx hch h5 hpr
  have hcm : s1.at_.isNs = true → s1.at_.defaultNs = false → ch% ':' ∈ N := by
    intro hi hdf
    exact (hnd hi hdf).subset (by decide)
  have hdecl : s1.at_.isNs = true → s1.at_.defaultNs = false → tokenType w = Token.attrNs.code ∧ lastColon 0 0 N ≠ 0 ∧
      lastColon 0 0 N < N.length ∧ s.depth = 0 ∧ N.drop (lastColon 0 0 N + 1) ≠ str% "xmlns" ∧ N.drop (lastColon 0 0 N + 1) ≠ str% "xml" := by
    intro hi hdf
    have hty : tokenType w = Token.attrNs.code := by rw [f1, if_pos hi]
    rcases hC.decl w hmem hty with hh | ⟨h1, q, hq, h2, h3⟩
    · rw [hqn] at hh
      exact absurd (hcm hi hdf) hh
    · obtain ⟨k1, k2⟩ := declares_colon hq
      rw [hca] at k1
      rw [localOf, hqn, hca] at k2
      exact ⟨hty, k1, (colon_splits k1).2, by omega, by rw [← k2]; exact h3, by rw [← k2]; exact h2⟩
  -- the run with namespace awareness
  obtain ⟨t1, g1, hr1, n1, -, c1, p1, -⟩ := sim_ok' (fun x => attrNsTest_sim (rx_nice (x := x))) hr h1
  rw [M.bind_apply, g1, Res.andThen_ok, M.bind_apply, M.get_apply, Res.andThen_ok]
  obtain ⟨t2, g2, hr2, n2, -, c2, p2, -⟩ := sim_ok' (fun x => attrNameLoop_sim (rx_nice (x := x)) hr1.same.fuel) hr1 h2
  rw [M.bind_apply, g2, Res.andThen_ok, M.bind_apply, getPrevOffset_eq (hr2.base hb2), Res.andThen_ok, M.bind_apply, M.modify_apply, Res.andThen_ok]
  have hr3 : RR f s3 { t2 with length1 := t2.offset - 1 - t2.lastOffset } := by
    rw [← hq3]
    obtain ⟨x, rfl, a1, a2, a3⟩ := hr2
    exact ⟨x, rfl, a1, a2, a3⟩
  generalize hq4 : ({ t2 with length1 := t2.offset - 1 - t2.lastOffset } : Parser) = t3 at hr3 ⊢
  have n3 : t3.ns = t.ns := by rw [← hq4]; show t2.ns = _; rw [n2, n1]
  have c3 : t3.at_.prefixedAttCount = t.at_.prefixedAttCount := by rw [← hq4]; show t2.at_.prefixedAttCount = _; rw [c2, c1]
  have p3 : t3.at_.prefixedAttrNameSlice = t.at_.prefixedAttrNameSlice := by rw [← hq4]; show t2.at_.prefixedAttrNameSlice = _; rw [p2, p1]
  have hbt3 := hr3.base hb3
  have hz : s3.length2 = (lastColon 0 0 N : Nat) := by rw [e2]; exact hcol
  rw [M.bind_apply, attrNsDecl_total (N := N) hbt3 (l2 := lastColon 0 0 N) (by rw [hr3.same.length2]; exact hz)
    (by rw [hr3.same.length1, e1]; omega) (by rw [hr3.same.lastOffset]; omega) (by rw [hr3.same.lastOffset, e3]; exact hallx) hnx hr3.xml
    (by
      rw [hr3.same.isNs, hr3.same.defaultNs, e5]
      intro hi hdf
      obtain ⟨-, -, k1, -, k2, k3⟩ := hdecl hi hdf
      exact ⟨k1, k2, k3⟩), Res.andThen_ok]
  have hst3 : s3.at_.attrCount = s.at_.attrCount := by rw [e5, e6]
  have hcnt0 : 0 ≤ t.at_.prefixedAttCount := by
    obtain ⟨A, B, w0, hO⟩ := hI.opn
    rw [hO.count]; omega
  obtain ⟨t5, g5, hr5, n5, c5, c5'⟩ := checkAttrUniqueness_rr (N := N) hr3 hb3 (by omega) (by rw [e3]; exact hallx) hnx
    (by rw [p3]; exact hI.com.lists.1) (by rw [e5, e6]; exact hs.attLen) (by rw [c3, hst3]; exact ⟨hcnt0, hcnt⟩) h5
  rw [M.bind_apply, g5, Res.andThen_ok, writeAttrName_split, M.bind_apply, M.bind_apply]
  -- the entry
  have key : ∃ n', nsAppend t5 = .ok () { t5 with ns := n' } ∧ Tab c.xmlDoc (vals q) (pend q.at_) n' ∧ n'.nsBuffer1 = t.ns.nsBuffer1 := by
    simp only [nsAppend, M.bind_apply, M.get_apply, Res.andThen_ok, M.ite_apply]
    have hns5 : t5.ns = t.ns := n5.trans n3
    have k5 : t5.at_.isNs = s1.at_.isNs := by rw [hr5.same.isNs, d7]
    have k6 : t5.length2 = (lastColon 0 0 N : Nat) := by rw [hr5.same.length2, d2, hz]
    by_cases hi : s1.at_.isNs = true ∧ s1.at_.defaultNs = false
    · obtain ⟨k1, k2, k3, k4, -, -⟩ := hdecl hi.1 hi.2
      have hpend : pend q.at_ = 1 := by rw [pend, i6, i7, if_pos hi]
      have hdw : IsDecl c.xmlDoc w := ⟨k1, by rw [hca]; exact k2⟩
      have hdv : decls c.xmlDoc (vals q) = decls c.xmlDoc (vals s) ++ [w] := by
        rw [hv7, decls_append]
        congr 1
        exact List.filter_cons_of_pos (decide_eq_true hdw)
      have hent : nsRecord t5.length2 t5.length1 t5.lastOffset = ent c.xmlDoc w := by
        rw [ent, hca, f4, f3, k6, hr5.same.length1, hr5.same.lastOffset]
        congr 1 <;> omega
      rw [if_pos ⟨by rw [k5]; exact hi.1, hr5.on, by rw [k6]; omega, by rw [hr5.xml]; rfl⟩, hent]
      refine ⟨{ t.ns with nsBuffer3 := fill 6 ((decls c.xmlDoc (vals q)).map (ent c.xmlDoc)) }, ?_, ?_, rfl⟩
      · simp only [onNs3, M.zoom_apply, hns5]
        rw [hT.b3.eq, append_fill, hdv, List.map_append]
        simp only [Res.zoom, hns5]
        rfl
      · have hsz : t.ns.nsBuffer1.size = 0 := Decidable.byContradiction fun hh => by have := hdp hh; omega
        refine ⟨b1_any hT.b1 hsz, ?_, ⟨rfl, hC.few, ?_, hT.b3.small⟩⟩
        · obtain ⟨ys, y1, y2⟩ := hT.b2
          refine ⟨ys, y1, ?_⟩
          rw [hdv, hpend, List.length_append]
          simp only [List.length_singleton]
          omega
        · intro d hd
          rw [hdv] at hd
          rcases List.mem_append.mp hd with hd | hd
          · exact hT.b3.fit d hd
          · rw [List.mem_singleton.mp hd]
            exact ⟨⟨by rw [hca]; omega, by rw [f3]; omega, by rw [f3, f4]; omega⟩, hdw.2⟩
    · have hpend : pend q.at_ = 0 := by rw [pend, i6, i7, if_neg hi]
      have hl0 : s1.at_.isNs = true → lastColon 0 0 N = 0 := by
        intro h1
        cases hh : s1.at_.defaultNs with
        | true => exact hdef h1 hh
        | false => exact absurd ⟨h1, hh⟩ hi
      rw [if_neg (by rintro ⟨k1, -, k2, -⟩; rw [k5] at k1; have := hl0 k1; omega)]
      refine ⟨t5.ns, rfl, ?_, by rw [hns5]⟩
      rw [hpend, hns5]
      refine hT.to ?_
      rw [hv7, decls_append]
      have : decls c.xmlDoc [w] = [] := by
        refine List.filter_cons_of_neg ?_
        intro hh
        obtain ⟨k1, k2⟩ := of_decide_eq_true hh
        rw [f1] at k1
        rw [hca] at k2
        cases hh : s1.at_.isNs with
        | true => exact k2 (hl0 hh)
        | false => rw [hh] at k1; exact absurd k1 (by decide)
      rw [this, List.append_nil]
  obtain ⟨n', g6, hT6, hb6'⟩ := key
  rw [g6, Res.andThen_ok]
  have hr6 : RR f s5 { t5 with ns := n' } := hr5.ns ⟨n', t5.at_.currentElementRecord, t5.at_.prefixedAttCount, t5.at_.prefixedAttrNameSlice, t5.at_.prefixUrlSlice, rfl⟩
  obtain ⟨t7, g7, hr7, n7, -, c7, -⟩ := sim_ok' (fun x => writeAttrName2_sim (x := x)) hr6 h6
  obtain ⟨t8, g8, hr8, n8, -, c8, -⟩ := sim_ok' (fun x => attrNameEnd_sim (rx_nice (x := x))) hr7 hm
  rw [g7, Res.andThen_ok, g8]
  have hac : q.at_.attrCount = s5.at_.attrCount := by
    rw [hs7]; show s6.at_.attrCount = _; rw [hs6]; exact hf6.count
  have hqd : q.depth = s.depth := by
    rw [hs7]; show s6.depth = _; rw [hs6]; show q6.depth = _; rw [hf6.depth, d4, e4]
  refine ⟨t8, rfl, hr8, by rw [n8, n7]; exact hT6, ?_, ?_, rfl, ?_, fun _ => hmark⟩
  · rw [n8, n7, hqd]
    show n'.nsBuffer1.size ≠ 0 → _
    rw [hb6']; exact hdp
  · rw [c8, c7, hac]; exact c5'
  · intro hi
    rw [i6] at hi
    refine ⟨rfl, vals s, w, hv7, by rw [f1, if_pos hi], ?_⟩
    rw [i7, hqn]
    exact hcm hi

end Rooted
end Parser
end GoVtd
