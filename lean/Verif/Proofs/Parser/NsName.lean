import Verif.Proofs.Parser.NsVal

/-!
# The invariant of the prefixes at the name of an attribute
-/

namespace GoVtd
namespace Parser
namespace Sound
open Paged Grammar Two Ev Plain

variable {c : ParserCfg} {p p' : Parser} {D : List UInt8} {A B V V' xs : List (BitVec 64)} {w w0 : BitVec 64} {i : Nat}
  {st st' : PState} {o0 : ParserOut} {es : List Mark} {stk : List (Nat × Nat)} {recs : List Rec}

theorem attrNsTest_kind {y : UInt8} (hb : Base c p) (ho : p.offset = p.rd.offset) (hl : p.offset = p.lastOffset + 1)
    (hl0 : 0 ≤ p.lastOffset) (hy : c.xmlDoc[p.lastOffset.toNat]? = some y) (hcur : p.currentChar = y.toNat)
    (hi : p.at_.isNs = false) :
    Post (attrNsTest p) fun _ p' => p'.at_.isNs = true → p'.offset = p.lastOffset + 6 ∧
      str% "xmlns" <+: c.xmlDoc.drop p.lastOffset.toNat ∧
      (p'.at_.defaultNs = true ∧ isNameChar p'.currentChar = false ∨ p'.at_.defaultNs = false ∧ p'.currentChar = ch% ':') := by
  have no : ∀ {s : Parser} {P : Prop}, s.at_.isNs = false → s.at_.isNs = true → P := fun h1 h2 => by rw [h1] at h2; cases h2
  refine Post.get (Post.ite (fun hx => ?_) fun _ => no hi)
  have hx : y = 0x78 := toNat_eq_char (hcur ▸ hx)
  subst hx
  obtain ⟨hyl, hyd⟩ := List.getElem?_eq_some_iff.mp hy
  refine Post.bind (skipSeq_post [0x6D, 0x6C, 0x6E, 0x73] (by decide) hb) ?_
  rintro s p' ⟨j, hj, rfl, hb', hd, hs⟩
  simp only [List.length_cons, List.length_nil] at hj hs
  refine Post.ite (fun hst => ?_) fun hst => no hi
  obtain rfl := hs hst
  refine Post.bind (nextChar_byte hb') ?_
  rintro _ p' ⟨b, rfl, hb2, hlt, hbd⟩
  have hpre : str% "xmlns" <+: c.xmlDoc.drop p.lastOffset.toNat := by
    rw [List.drop_eq_getElem_cons hyl, hyd, show p.lastOffset.toNat + 1 = p.rd.offset.toNat by omega, hd]
    exact ⟨_, rfl⟩
  have hoff : p.rd.offset + (4 : Nat) + 1 = p.lastOffset + 6 := by omega
  refine Post.get (Post.ite (fun hc => ?_) fun _ => Post.ite (fun hc => ?_) fun _ => no hi)
  · refine fun _ => ⟨hoff, hpre, .inl ⟨rfl, ?_⟩⟩
    show isNameChar b.toNat = false
    have hc : b.toNat = ch% '=' ∨ isSpaceChar b.toNat = true := hc
    rcases hc with hc | hc
    · rw [hc]; decide
    · simp only [isSpaceChar, spaceChars, List.contains_cons, Bool.or_eq_true, beq_iff_eq, List.contains_nil, Bool.false_eq_true, or_false] at hc
      rcases hc with hc | hc | hc | hc <;> rw [hc] <;> decide
  · exact fun _ => ⟨hoff, hpre, .inr ⟨rfl, hc⟩⟩

/-- What the tests of a declaration establish. -/
theorem attrNsDecl_val {u : Unit} {N : List UInt8} {x : UInt8} {r : List UInt8} (hb : Base c p) (hns : c.nsAware = true)
    {l2 : Nat} (h2 : p.length2 = l2) (h1 : p.length1 = N.length) (h0 : 0 ≤ p.lastOffset)
    (hN : c.xmlDoc.drop p.lastOffset.toNat = N ++ x :: r) (h : attrNsDecl p = .ok u p') :
    ∃ x, p' = { p with at_ := { p.at_ with isXml := x } } ∧
      (p.at_.isNs = true → p.at_.defaultNs = false → l2 < N.length → N.drop (l2 + 1) ≠ str% "xmlns" ∧ (N.drop (l2 + 1) = str% "xml" → x = true)) := by
  have hinc : p.enc.increment = 1 := hb.inc
  unfold attrNsDecl at h
  rw [M.bind_apply, M.get_apply, Res.andThen_ok, M.ite_apply] at h
  by_cases hd : p.at_.isNs = true ∧ p.cfg.nsAware = true ∧ (!p.at_.defaultNs) = true
  · rw [if_pos hd] at h
    rw [hinc] at h
    have hbo : (0 : Int) ≤ p.lastOffset + p.length2 + 1 := by omega
    have hdrop : l2 < N.length → c.xmlDoc.drop (p.lastOffset + p.length2 + 1).toNat = N.drop (l2 + 1) ++ x :: r := by
      intro hl
      rw [show (p.lastOffset + p.length2 + 1).toNat = p.lastOffset.toNat + (l2 + 1) by omega, ← List.drop_drop, hN,
        List.drop_append_of_le_length (by omega)]
    have tail : ∀ {s : Parser}, s = p → (if (1 : Int) = 1 ∧ p.length1 - p.length2 = 4 ∨ (1 : Int) = 2 ∧ p.length1 - p.length2 = 8 then do
          let x ← checkXmlPrefix (p.lastOffset + p.length2 + 1) (-1) false
          M.modify fun p => { p with at_ := { p.at_ with isXml := x } }
        else pure () : M Parser Unit) s = .ok u p' → ∃ x, p' = { p with at_ := { p.at_ with isXml := x } } ∧
          (l2 < N.length → N.drop (l2 + 1) = str% "xml" → x = true) := by
      rintro s rfl hs
      rw [M.ite_apply] at hs
      by_cases h4 : p'.length1 = p'.length1 ∧ ((1 : Int) = 1 ∧ s.length1 - s.length2 = 4 ∨ (1 : Int) = 2 ∧ s.length1 - s.length2 = 8)
      · rw [if_pos h4.2] at hs
        obtain ⟨b, s1, x1, y1⟩ := bind_ok (m := checkXmlPrefix _ _ _) hs
        obtain ⟨e1, hb1⟩ := checkXml_ok hb hbo x1
        cases y1
        refine ⟨b, by rw [e1], fun hl hx => ?_⟩
        rw [hb1, hdrop hl, hx]
        exact ⟨⟨_, rfl⟩, by simp⟩
      · rw [if_neg (fun hh => h4 ⟨rfl, hh⟩)] at hs
        cases hs
        refine ⟨_, rfl, fun hl hx => ?_⟩
        have := congrArg List.length hx
        simp only [List.length_drop, List.length_cons, List.length_nil] at this
        exact absurd ⟨rfl, .inl ⟨rfl, by omega⟩⟩ h4
    rw [M.ite_apply] at h
    by_cases h6 : (1 : Int) = 1 ∧ p.length1 - p.length2 = 6 ∨ (1 : Int) = 2 ∧ p.length1 - p.length2 = 12
    · rw [if_pos h6] at h
      obtain ⟨b, s1, x1, y1⟩ := bind_ok (m := checkXmlnsPrefix _ _ _) h
      obtain ⟨e1, hb1⟩ := checkXmlns_ok hb hbo x1
      rw [M.ite_apply] at y1
      split at y1
      · rename_i hbt
        obtain ⟨b2, s2, x2, y2⟩ := bind_ok (m := parseErrAt _ _) y1
        exact (Two.parseErrAt_ok x2).elim
      · rename_i hbt
        obtain ⟨x, e2, hx⟩ := tail e1 y1
        refine ⟨x, e2, fun _ _ hl => ⟨fun hh => ?_, hx hl⟩⟩
        apply hbt
        rw [hb1, hdrop hl, hh]
        exact ⟨_, rfl⟩
    · rw [if_neg h6] at h
      obtain ⟨x, e2, hx⟩ := tail rfl h
      refine ⟨x, e2, fun _ _ hl => ⟨fun hh => ?_, hx hl⟩⟩
      have := congrArg List.length hh
      simp only [List.length_drop, List.length_cons, List.length_nil] at this
      exact absurd (.inl ⟨rfl, by omega⟩) h6
  · rw [if_neg hd] at h
    cases h
    exact ⟨_, rfl, fun h1 h2 => absurd ⟨h1, by rw [hb.cfg]; exact hns, by rw [h2]; rfl⟩ hd⟩

/-- What is remembered of a name. -/
theorem checkAttrUniqueness_val {u : Unit} (hb : Base c p) (hns : c.nsAware = true) (h0 : 0 ≤ p.lastOffset)
    (h : checkAttrUniqueness p = .ok u p') :
    ∃ l k sl n, p' = { p with at_ := { p.at_ with attrNameSlice := l, attrCount := k, prefixedAttrNameSlice := sl, prefixedAttCount := n } } ∧
      (p.at_.isNs = false ∧ p.length2 ≠ 0 ∧ ¬ (p.length2 = 3 ∧ str% "xml" <+: c.xmlDoc.drop p.lastOffset.toNat) ∧
          n = p.at_.prefixedAttCount + 1 ∧
          setAt p.at_.prefixedAttrNameSlice p.at_.prefixedAttCount (attWord p.lastOffset p.length2 p.length1) = some sl ∨
        ¬ (p.at_.isNs = false ∧ p.length2 ≠ 0 ∧ ¬ (p.length2 = 3 ∧ str% "xml" <+: c.xmlDoc.drop p.lastOffset.toNat)) ∧
          n = p.at_.prefixedAttCount ∧ sl = p.at_.prefixedAttrNameSlice) := by
  have hinc : p.enc.increment = 1 := hb.inc
  unfold checkAttrUniqueness at h
  rw [M.bind_apply, M.get_apply, Res.andThen_ok] at h
  obtain ⟨b, s1, x1, y1⟩ := bind_ok (m := uniqueLoop _ _ _) h
  obtain rfl : s1 = p := (eq_post (uniqueLoop_fr eq_pre _ _ _)).eq x1
  rw [M.ite_apply] at y1
  split at y1
  · exact (Two.parseErr_ok y1).elim
  generalize setAt s1.at_.attrNameSlice _ _ = o at y1
  cases o with
  | none => cases y1
  | some l =>
    simp only at y1
    rw [M.bind_apply, M.modify_apply, Res.andThen_ok] at y1
    unfold pushPrefixedAttr at y1
    rw [M.bind_apply, M.get_apply, Res.andThen_ok, M.ite_apply] at y1
    simp only at y1
    by_cases hc : s1.cfg.nsAware = true ∧ (!s1.at_.isNs) = true ∧ s1.length2 ≠ 0
    · rw [if_pos hc] at y1
      obtain ⟨b2, s2, x2, y2⟩ := bind_ok (m := checkXmlPrefix _ _ _) y1
      obtain ⟨e2, hb2⟩ := checkXml_ok (c := c) (by exact hb) h0 x2
      have hi : s1.at_.isNs = false := by have := hc.2.1; simpa using this
      rw [hinc] at y2
      rw [M.ite_apply] at y2
      have hb2 : b2 = true ↔ str% "xml" <+: c.xmlDoc.drop s1.lastOffset.toNat := by rw [hb2]; simp
      split at y2
      · rename_i hx
        cases y2
        refine ⟨l, s1.at_.attrCount + 1, s1.at_.prefixedAttrNameSlice, s1.at_.prefixedAttCount, e2, .inr ⟨?_, rfl, rfl⟩⟩
        rintro ⟨-, -, h3⟩
        rcases hx with ⟨-, h4, h5⟩ | ⟨h4, -⟩
        · exact h3 ⟨h4, hb2.mp h5⟩
        · cases h4
      · rename_i hx
        generalize hs : setAt s1.at_.prefixedAttrNameSlice _ _ = r at y2
        cases r with
        | none => cases y2
        | some sl =>
          cases y2
          refine ⟨l, s1.at_.attrCount + 1, sl, s1.at_.prefixedAttCount + 1, by rw [e2], .inl ⟨hi, hc.2.2, ?_, rfl, hs⟩⟩
          rintro ⟨h3, h4⟩
          exact hx (.inl ⟨rfl, h3, hb2.mpr h4⟩)
    · rw [if_neg hc] at y1
      cases y1
      refine ⟨l, s1.at_.attrCount + 1, s1.at_.prefixedAttrNameSlice, s1.at_.prefixedAttCount, rfl, .inr ⟨?_, rfl, rfl⟩⟩
      rintro ⟨h1, h2, -⟩
      exact hc ⟨by rw [hb.cfg]; exact hns, by rw [h1]; rfl, h2⟩

theorem writeAttrName_val {u : Unit} (hb : Base c p) (h : writeAttrName p = .ok u p') :
    p'.at_ = p.at_ ∧ p'.ns.nsBuffer2 = p.ns.nsBuffer2 ∧
      ∀ e, Held p'.ns.nsBuffer3 e → Held p.ns.nsBuffer3 e ∨
        (p.at_.isNs = true ∧ p.length2 ≠ 0 ∧ e = nsRecord p.length2 p.length1 p.lastOffset) := by
  have rest : ∀ {s : Parser}, Base c s → (if p.enc.singleByteEncoding then
      if p.length2 > maxPrefixLength ∨ p.length1 > maxQnameLength then
        parseErr (if p.at_.isNs then AttrNsPrefixQnameTooLong else AttrNamePrefixQnameTooLong)
      else writeVtd (if p.at_.isNs then Token.attrNs else Token.attrName) p.lastOffset (shlOr p.length2 11 p.length1) p.depth
    else
      if p.length2 > maxPrefixLength * 2 ∨ p.length1 > maxQnameLength * 2 then
        parseErr (if p.at_.isNs then AttrNsPrefixQnameTooLong else AttrNamePrefixQnameTooLong)
      else writeVtd (if p.at_.isNs then Token.attrNs else Token.attrName) (p.lastOffset / 2) (shlOr p.length2 10 (p.length1 / 2)) p.depth : M Parser Unit) s
      = .ok u p' → p'.at_ = s.at_ ∧ p'.ns = s.ns := by
    intro s hs hm
    rw [hb.single, if_pos rfl, M.ite_apply] at hm
    split at hm
    · exact (Two.parseErr_ok hm).elim
    · rw [writeVtd_go hs.out] at hm
      cases hm
      exact ⟨rfl, rfl⟩
  unfold writeAttrName at h
  rw [M.bind_apply, M.get_apply, Res.andThen_ok, M.ite_apply] at h
  split at h
  · rename_i hc
    obtain ⟨u2, s2, x2, y2⟩ := bind_ok (m := onNs3 _) h
    obtain ⟨b2, hb2, e2⟩ := onNs3_val x2
    obtain ⟨h1, h2⟩ := rest (by rw [e2]; exact hb) y2
    refine ⟨by rw [h1, e2], by rw [h2, e2], fun e he => ?_⟩
    rw [h2, e2] at he
    rcases append_held hb2 he with rfl | he
    · exact .inr ⟨hc.1, hc.2.2.1, rfl⟩
    · exact .inl he
  · obtain ⟨h1, h2⟩ := rest hb h
    exact ⟨h1, by rw [h2], fun e he => .inl (by rw [h2] at he; exact he)⟩

theorem run_nil {ch : Nat} {o : Nat} {y' : UInt8} {u run rest : List UInt8} (hall : D.drop o = (u ++ run) ++ rest)
    (hy' : D[o + u.length]? = some y') (hsh : Shows ch y') (hrun : ∀ z ∈ run, NameByte z) (hnc : isNameChar ch = false) :
    run = [] := by
  cases run with
  | nil => rfl
  | cons z run =>
    exfalso
    have h3 : (D.drop o)[u.length]? = some y' := by rw [List.getElem?_drop]; exact hy'
    rw [hall, List.getElem?_append_left (by simp), List.getElem?_append_right (Nat.le_refl _), Nat.sub_self] at h3
    simp only [List.getElem?_cons_zero, Option.some.injEq] at h3
    have h4 : NameByte y' := h3 ▸ hrun z (by simp)
    rw [hsh.1.mpr h4] at hnc
    cases hnc

theorem run_colon {ch : Nat} {o : Nat} {x y' : UInt8} {u run rest : List UInt8} (hall : D.drop o = (u ++ run) ++ x :: rest)
    (hy' : D[o + u.length]? = some y') (hsh : Shows ch y') (hnx : ¬ NameByte x) (hch : ch = ch% ':') (h5 : u.length = 5)
    (hpr : str% "xmlns" <+: D.drop o) : str% "xmlns:" <+: u ++ run := by
  have hy2 := hsh.2.mp hch
  have hnm := hsh.1.mp (by rw [hch]; decide)
  have h3 : (D.drop o)[u.length]? = some y' := by rw [List.getElem?_drop]; exact hy'
  rw [hall, List.append_assoc, List.getElem?_append_right (Nat.le_refl _), Nat.sub_self] at h3
  rw [hall, List.append_assoc] at hpr
  obtain ⟨t, ht⟩ := hpr
  have hu5 : u = str% "xmlns" := (List.append_inj_left ht (by rw [h5]; rfl)).symm
  cases run with
  | nil =>
    simp only [List.nil_append, List.getElem?_cons_zero, Option.some.injEq] at h3
    exact absurd (h3 ▸ hnm) hnx
  | cons z run =>
    simp only [List.cons_append, List.getElem?_cons_zero, Option.some.injEq] at h3
    rw [hu5, h3, hy2]
    exact ⟨run, rfl⟩

set_option maxHeartbeats 1000000 in
theorem step_name (h : G c o0 .attrName p es stk recs) (hI : InTag c p) (hns : c.nsAware = true)
    (hm : processAttrName p = .ok st p') : NsInv c st p' := by
  have hs := h.inv.slots
  have h0 := h.inv.start (by simp)
  obtain ⟨hn0, hn1, hn2⟩ := h.inv.name (by simp)
  have hsy := h.inv.sync (by simp)
  have hd := h.inv.deep (by decide)
  have hk := h.k
  simp only [reduceCtorEq, if_false] at hk
  have hlen2 := hk.len2
  have hB := h.inv.base
  obtain ⟨hl1, y, hy, hys, hyc⟩ := h.attrS rfl
  rw [processAttrName_eq] at hm
  obtain ⟨u0, s1, h1, hm⟩ := bind_ok (m := attrNsTest) hm
  have hkind := (attrNsTest_kind hB hsy hl1 hn0 hy hyc hI.isNs).eq h1
  obtain ⟨a, b, ch, u, y', hs1, hb, hu, hu0, hud, hy', hsh, hc⟩ := (attrNsTest_post hB hsy hl1 hn0 (by omega) hy hyc).eq h1
  rw [M.bind_apply, M.get_apply, Res.andThen_ok] at hm
  obtain ⟨u1, s2, h2, hm⟩ := bind_ok (m := attrNameLoop _) hm
  obtain ⟨l2, r2, ch2, x, run, hs2, hb2, hl2, he, hx, hnx, hrun, hdrop, hlc⟩ :=
    (attrNameLoop_post (q := p.lastOffset + u.length) hb (by rw [hs1]; rfl) (by rw [hs1]; rfl) (by omega)
    (by rw [← hy']; congr 1; omega) (by rw [hs1]; exact hsh) (by rw [hs1]; exact hc)).eq h2
  rw [M.bind_apply, getPrevOffset_eq hb2, Res.andThen_ok, M.bind_apply, M.modify_apply, Res.andThen_ok] at hm
  have hlc := hlc u.length 0 (by rw [hs1]; simpa using hlen2) (by rw [hs1]; rfl)
  have hq2 : s2.offset = r2 + 1 := by rw [hs2]; rfl
  generalize hq3 : ({ s2 with length1 := s2.offset - 1 - s2.lastOffset } : Parser) = s3 at hm
  have e1 : s3.length1 = r2 - p.lastOffset := by
    rw [← hq3]
    show s2.offset - 1 - s2.lastOffset = _
    rw [hq2, hs2, hs1]
    show r2 + 1 - 1 - p.lastOffset = _
    omega
  have e2 : s3.length2 = l2 := by rw [← hq3, hs2]; rfl
  have e3 : s3.lastOffset = p.lastOffset := by rw [← hq3, hs2, hs1]; rfl
  have e4 : s3.depth = p.depth := by rw [← hq3, hs2, hs1]; rfl
  have e5 : s3.at_ = s1.at_ := by rw [← hq3, hs2]; rfl
  have e6 : s1.at_ = { p.at_ with isNs := a, defaultNs := b } := by rw [hs1]; rfl
  have e7 : s3.ns = p.ns := by rw [← hq3, hs2, hs1]; rfl
  have e8 : s3.out = p.out := by rw [← hq3, hs2, hs1]; rfl
  have hb3 : Base c s3 := by rw [← hq3]; exact hb2
  have hall : c.xmlDoc.drop p.lastOffset.toNat = (u ++ run) ++ c.xmlDoc.drop r2.toNat := by
    rw [hud, List.append_assoc, ← hdrop]
    congr 2; omega
  obtain ⟨hxl, hxd⟩ := List.getElem?_eq_some_iff.mp hx
  have he1 := hb.end1
  have he2 := hb.end2
  have hlen : (u ++ run).length = r2.toNat - p.lastOffset.toNat := by
    have := congrArg List.length hall
    simp only [List.length_append, List.length_drop] at this ⊢
    omega
  generalize hNd : u ++ run = N at hall hlen
  have hallx : c.xmlDoc.drop p.lastOffset.toNat = N ++ x :: c.xmlDoc.drop (r2.toNat + 1) := by
    rw [hall, List.drop_eq_getElem_cons hxl, hxd]
  have hcol : l2 = lastColon 0 0 N := by
    rw [← hNd, lastColon_append, hu0, Nat.zero_add]; exact hlc
  -- the rest of the step
  unfold nameRest at hm
  obtain ⟨v0, s4, h4, hm⟩ := bind_ok (m := attrNsDecl) hm
  obtain ⟨isx, hs4, hdecl⟩ := attrNsDecl_val (N := N) hb3 hns (by rw [e2]; exact hcol) (by rw [e1]; omega) (by omega) (by rw [e3]; exact hallx) h4
  have hb4 : Base c s4 := by rw [hs4]; exact hb3
  obtain ⟨v1, s5, h5, hm⟩ := bind_ok (m := checkAttrUniqueness) hm
  obtain ⟨l, k, sl, n, hs5, hcase⟩ := checkAttrUniqueness_val hb4 hns (by rw [hs4]; show 0 ≤ s3.lastOffset; omega) h5
  have hb5 : Base c s5 := by rw [hs5]; exact hb4
  obtain ⟨v2, s6, h6, hm⟩ := bind_ok (m := writeAttrName) hm
  obtain ⟨hw2, hw1, q6, hf6, hs6, hb6⟩ := (writeAttrName_post hb5).eq h6
  obtain ⟨a6, n62, n63⟩ := writeAttrName_val hb5 h6
  obtain ⟨rfl, r7, ch7, hs7, hb7, -⟩ := (attrNameEnd_post hb6).eq hm
  obtain ⟨-, hmark, -⟩ := (attrNameEnd_mark hb6).eq hm
  have d1 : s5.length1 = s3.length1 := by rw [hs5, hs4]
  have d2 : s5.length2 = s3.length2 := by rw [hs5, hs4]
  have d3 : s5.lastOffset = s3.lastOffset := by rw [hs5, hs4]
  have d4 : s5.depth = s3.depth := by rw [hs5, hs4]
  have d5 : s5.out = s3.out := by rw [hs5, hs4]
  have d6 : s5.ns = s3.ns := by rw [hs5, hs4]
  have d7 : s5.at_.isNs = s1.at_.isNs := by rw [hs5, hs4, ← e5]
  have c1 : s4.length1 = s3.length1 := by rw [hs4]
  have c2 : s4.length2 = s3.length2 := by rw [hs4]
  have c3 : s4.lastOffset = s3.lastOffset := by rw [hs4]
  have c4 : s4.at_ = { s1.at_ with isXml := isx } := by rw [hs4, ← e5]
  have ha7 : p'.at_ = s5.at_ := by rw [hs7]; show s6.at_ = _; rw [a6]
  have hn7 : p'.ns = s6.ns := by rw [hs7]; rfl
  have ho7 : p'.out = s6.out := by rw [hs7]; rfl
  generalize hwd : (Ev.attrRec s5).word = w
  have hv7 : vals p' = vals p ++ [w] := by
    rw [vals, ho7, hs6]
    show (Parser.emit c.shallowDepth s5.out [Ev.attrRec s5]).vtdBuffer.values = _
    rw [emit_values hb5.out, d5, e8, ← hwd]
    rfl
  have hrng := shlOr_range (a := s5.length2) (b := s5.length1) (k := 11) (by omega) hw2 (by omega) hw1 (by omega)
  have hsm : Small (Ev.attrRec s5) := fun _ =>
    ⟨by show 0 ≤ s5.lastOffset; omega, by show s5.lastOffset < 2 ^ 31; omega, hrng.1, hrng.2,
      by show 0 ≤ s5.depth; omega, by show s5.depth ≤ 254; omega⟩
  have htk : (Ev.attrRec s5).tok = (if s1.at_.isNs then Token.attrNs else Token.attrName) := by
    show (if s5.at_.isNs then Token.attrNs else Token.attrName) = _
    rw [d7]
  obtain ⟨f1, -, f3, f4⟩ := small_fields hsm (by rw [htk]; split <;> decide)
  rw [hwd] at f1 f3 f4
  rw [htk] at f1
  have f3 : tokenOffset w = p.lastOffset.toNat := by rw [f3]; show s5.lastOffset.toNat = _; omega
  have f4 : qnameLength w = N.length := by
    have hnat := Parser.shlOr_nat (a := s5.length2.toNat) (b := s5.length1.toNat) (k := 11) (by omega) (by omega) (by omega)
    rw [Int.toNat_of_nonneg (by omega), Int.toNat_of_nonneg (by omega)] at hnat
    have e : (Ev.attrRec s5).len = shlOr s5.length2 11 s5.length1 := rfl
    rw [f4, e, hnat, Int.toNat_natCast, or_low _ _ (by omega)]
    omega
  have hqn : qname c.xmlDoc w = N := by
    rw [qname, f3, f4, hall, List.take_left']; rfl
  have hca : colonAt c.xmlDoc w = lastColon 0 0 N := by rw [colonAt, hqn]
  have hnst : ¬ IsStart w := fun hh => by
    have hh : tokenType w = Token.startingTag.code := hh
    rw [f1] at hh
    revert hh
    split <;> decide
  have hNx : str% "xml" <+: c.xmlDoc.drop p.lastOffset.toNat → 3 ≤ N.length → str% "xml" <+: N := by
    intro h1 h2
    rw [hallx] at h1
    exact List.prefix_of_prefix_length_le h1 (List.prefix_append N _) h2
  have hpfx : Pfx c.xmlDoc w ↔ (s1.at_.isNs = false ∧ lastColon 0 0 N ≠ 0 ∧ ¬ (lastColon 0 0 N = 3 ∧ str% "xml" <+: c.xmlDoc.drop p.lastOffset.toNat)) := by
    unfold Pfx
    rw [hca, hqn, f1]
    refine and_congr ?_ (and_congr_right fun hne => not_congr (and_congr_right fun h3 => ?_))
    · cases s1.at_.isNs <;> decide
    · have := (colon_splits hne).2
      refine ⟨fun h => ?_, fun h => hNx h (by omega)⟩
      rw [hallx]; exact h.trans (List.prefix_append N _)
  have hfit : Pfx c.xmlDoc w → Fit c.xmlDoc w := fun _ => ⟨by rw [hca]; omega, by rw [f3]; omega, by rw [f3, f4]; omega⟩
  -- a declaration with a prefix
  have hdef : s1.at_.isNs = true → s1.at_.defaultNs = true → lastColon 0 0 N = 0 := by
    intro hi hdf
    obtain ⟨hof, hpr, ⟨-, hnc⟩ | ⟨hdf', -⟩⟩ := hkind hi
    · have h6 : s1.currentChar = ch := by rw [hs1]; rfl
      rw [h6] at hnc
      rw [← hNd, run_nil (rest := c.xmlDoc.drop r2.toNat) (by rw [hNd]; exact hall) hy' hsh hrun hnc, List.append_nil]
      exact hu0
    · rw [hdf] at hdf'; cases hdf'
  have hnd : s1.at_.isNs = true → s1.at_.defaultNs = false → str% "xmlns:" <+: N := by
    intro hi hdf
    obtain ⟨hof, hpr, ⟨hdf', -⟩ | ⟨-, hch⟩⟩ := hkind hi
    · rw [hdf] at hdf'; cases hdf'
    · have h5 : u.length = 5 := by
        have : s1.offset = p.lastOffset + u.length + 1 := by rw [hs1]; rfl
        omega
      have h6 : s1.currentChar = ch := by rw [hs1]; rfl
      rw [h6] at hch
      rw [← hNd]
      exact run_colon (by rw [hNd]; exact hallx) hy' hsh hnx hch h5 hpr
  have hdcl : ∀ q, Declares c.xmlDoc w q → s1.at_.isNs = true ∧ s1.at_.defaultNs = false ∧ q = N.drop (lastColon 0 0 N + 1) ∧ lastColon 0 0 N < N.length := by
    intro q hq
    have hty := hq.type
    rw [f1] at hty
    have hi : s1.at_.isNs = true := by
      cases hh : s1.at_.isNs with
      | true => rfl
      | false => rw [hh] at hty; exact absurd hty (by decide)
    obtain ⟨k1, k2⟩ := declares_colon hq
    rw [hca] at k1
    refine ⟨hi, ?_, by rw [k2, localOf, hqn, hca], (colon_splits k1).2⟩
    cases hh : s1.at_.defaultNs with
    | false => rfl
    | true => exact absurd (hdef hi hh) k1
  rw [NsInv, if_neg (by simp), if_pos rfl]
  obtain ⟨A, B, w0, hO⟩ := hI.opn
  have hA5 : s5.at_ = { s4.at_ with attrNameSlice := l, attrCount := k, prefixedAttrNameSlice := sl, prefixedAttCount := n } := by rw [hs5]
  have g1 : s4.at_.prefixedAttCount = p.at_.prefixedAttCount := by rw [c4, e6]
  have g2 : s4.at_.prefixedAttrNameSlice = p.at_.prefixedAttrNameSlice := by rw [c4, e6]
  have g3 : s4.at_.isNs = s1.at_.isNs := by rw [c4]
  have g4 : s4.length2 = (lastColon 0 0 N : Nat) := by rw [c2, e2]; exact hcol
  rw [g1, g2, g3, g4, c3, e3, c1, e1] at hcase
  have hz : ((lastColon 0 0 N : Nat) : Int) ≠ 0 ↔ lastColon 0 0 N ≠ 0 := by omega
  have hz3 : ((lastColon 0 0 N : Nat) : Int) = 3 ↔ lastColon 0 0 N = 3 := by omega
  rw [hz, hz3] at hcase
  have hlz : (p.lastOffset.toNat : Int) = p.lastOffset := Int.toNat_of_nonneg hn0
  have hnz : (N.length : Int) = r2 - p.lastOffset := by omega
  have hslen : sl.length = p.at_.prefixedAttrNameSlice.length := by
    rcases hcase with ⟨-, -, -, -, hset⟩ | ⟨-, -, hsl⟩
    · exact setAt_length hset
    · rw [hsl]
  refine ⟨⟨?_, ?_, ?_⟩, ⟨A, B ++ [w], w0, ?_⟩, ⟨vals p, w, hv7, hI.decls, ?_⟩, hmark⟩
  · refine ⟨?_, ?_⟩
    · rw [ha7, hA5]; dsimp only; rw [hslen]; exact hI.com.lists.1
    · rw [ha7, hA5]
      have : s4.at_.prefixUrlSlice = p.at_.prefixUrlSlice := by rw [c4, e6]
      dsimp only
      rw [this]
      exact hI.com.lists.2
  · intro e he
    rw [hn7, n62, d6, e7] at he
    exact hI.com.urls e he
  · intro e he
    rw [hn7] at he
    rcases n63 e he with he | ⟨h1, h2, he⟩
    · rw [d6, e7] at he
      exact (hI.com.entries e he).mono fun w hw => by rw [hv7]; exact List.mem_append_left _ hw
    · rw [d7] at h1
      rw [d2, e2, hcol] at h2
      have h2 : lastColon 0 0 N ≠ 0 := by omega
      have hlt := (colon_splits h2).2
      have hdf : s1.at_.defaultNs = false := by
        cases hh : s1.at_.defaultNs with
        | false => rfl
        | true => exact absurd (hdef h1 hh) h2
      have hD : Declares c.xmlDoc w (localOf c.xmlDoc w) := declares_of (by rw [f1, if_pos h1]) (by rw [hqn]; exact hnd h1 hdf)
      refine ⟨w, by rw [hv7]; simp, lastColon 0 0 N, N.length, p.lastOffset.toNat, hlt, by omega, by omega, by omega, by omega, ?_, ?_⟩
      · rw [he, d2, e2, hcol, d1, e1, d3, e3, hlz, hnz]
      · have : sub c.xmlDoc (p.lastOffset.toNat + lastColon 0 0 N + 1) (N.length - lastColon 0 0 N - 1) = localOf c.xmlDoc w := by
          rw [localOf, hqn, hca, sub, Nat.add_assoc, ← List.drop_drop, hall, List.drop_append_of_le_length (by omega),
            List.take_left']
          rw [List.length_drop]; omega
        rw [this]
        exact hD
  · rw [hv7]
    have hcr : p'.at_.currentElementRecord = p.at_.currentElementRecord := by rw [ha7, hA5, c4, e6]
    rcases hcase with ⟨q1, q2, q3, q4, hset⟩ | ⟨q1, q2, hsl⟩
    · have hp := hpfx.mpr ⟨q1, q2, q3⟩
      refine hO.push hnst hp (hfit hp) (by rw [ha7, hA5]; exact q4) ?_ hcr
      have hae : attEntry c.xmlDoc w = attWord p.lastOffset (lastColon 0 0 N : Nat) (r2 - p.lastOffset) := by
        unfold attEntry
        rw [hca, f3, f4, hlz, hnz]
      rw [hae, ha7, hA5]
      exact hset
    · exact hO.add hnst (fun hp => q1 (hpfx.mp hp)) (by rw [ha7, hA5]; exact q2) (by rw [ha7, hA5]; exact hsl) hcr
  · intro q hq
    obtain ⟨k1, k2, k3, k4⟩ := hdcl q hq
    obtain ⟨m1, m2⟩ := hdecl (by rw [e5]; exact k1) (by rw [e5]; exact k2) k4
    refine ⟨by rw [ha7, d7]; exact k1, by rw [ha7, hA5, c4]; exact k2, by rw [k3]; exact m1, fun hq => ?_⟩
    rw [ha7, hA5, c4]
    exact m2 (k3 ▸ hq)

end Sound
end Parser
end GoVtd
