import Verif.Proofs.Parser.PlainTag

/-!
# An attribute of a document without prefixes, with and without namespace awareness
-/

namespace GoVtd
namespace Parser
namespace Plain
open Paged Grammar Two Ev

variable {f : Nat} {n n' : ParserNs} {s t : Parser} {c : ParserCfg}

/-! ## The name -/

theorem post_af {α : Type} {m : M Parser α} (h : Fr AF m) (h1 : OutOk s.out) (h2 : s.enc = stdEnc) (h3 : s.ws = false) :
    Post (m s) fun _ s' => AFrame s s' := Post.of fun _ _ hm => af_ok h hm h1 h2 h3

theorem attrNsTest_decl (h1 : OutOk s.out) (h2 : s.enc = stdEnc) (h3 : s.ws = false) (h : s.at_.isNs = false) :
    Post (attrNsTest s) fun _ s' => s'.at_.isNs = true → s'.at_.defaultNs = true ∨ s'.currentChar = ch% ':' := by
  refine Post.get (Post.ite (fun _ => ?_) fun _ => fun h' => by rw [h] at h'; cases h')
  refine Post.bind (post_af (AF.quiet (skipCharSeq_qf _)) h1 h2 h3) ?_
  intro b s' h'
  have hi := h'.isNs.trans h
  refine Post.ite (fun _ => ?_) fun _ => fun h'' => by rw [hi] at h''; cases h''
  refine Post.bind (post_af (AF.quiet nextChar_qf) h'.ok h'.enc h'.ws) ?_
  intro _ s2 h2
  have hi := h2.isNs.trans hi
  refine Post.get (Post.ite (fun _ => ?_) fun _ => Post.ite (fun hc => ?_) fun _ => fun h'' => by rw [hi] at h''; cases h'')
  · exact fun _ => .inl rfl
  · exact fun _ => .inr hc

theorem attrNsDecl_left (hr : s.cfg.nsAware = false) : attrNsDecl s = .ok () s := by
  simp only [attrNsDecl, M.bind_apply, M.get_apply, Res.andThen_ok, M.ite_apply]
  rw [if_neg]
  · rfl
  · rintro ⟨_, h1, h2⟩
    rw [hr] at h1; cases h1

theorem attrNsDecl_right (h : s.at_.isNs = true → s.at_.defaultNs = true) : attrNsDecl s = .ok () s := by
  simp only [attrNsDecl, M.bind_apply, M.get_apply, Res.andThen_ok, M.ite_apply]
  rw [if_neg]
  · rfl
  · rintro ⟨h1, _, h2⟩
    rw [h h1] at h2; cases h2

theorem pushPrefixedAttr_plain (h : s.length2 = 0) : pushPrefixedAttr s = .ok () s := by
  simp only [pushPrefixedAttr, M.bind_apply, M.get_apply, Res.andThen_ok, M.ite_apply]
  rw [if_neg (fun h' => h'.2.2 h)]
  rfl

theorem uniqueLoop_fr {F : Parser → Parser → Prop} (hF : Pre F) (k : Nat) (i : Int) (b : Bool) : Fr F (uniqueLoop k i b) := by
  induction k generalizing i b with
  | zero => exact Fr.pure hF _
  | succ k ih =>
    unfold uniqueLoop
    refine Fr.bind hF (Fr.get hF) fun p => Fr.bind hF (Fr.index hF _ _) fun e => Fr.ite ?_ (ih _ _)
    exact Fr.bind hF (sameBytes_fr hF _ _ _) fun _ => ih _ _

theorem checkAttrUniqueness_pr (hr : PR f n s t) (hl : s.length2 = 0) {q : Parser} {u : Unit} (hm : checkAttrUniqueness s = .ok u q) :
    ∃ t', checkAttrUniqueness t = .ok u t' ∧ PR f n q t' ∧ q.length2 = 0 := by
  have hs := pr_nice.same hr
  simp only [checkAttrUniqueness] at hm ⊢
  rw [M.bind_apply, M.get_apply, Res.andThen_ok] at hm ⊢
  obtain ⟨b, s1, h1, hm⟩ := bind_ok (m := uniqueLoop _ _ _) hm
  obtain ⟨t1, h2, hr1⟩ := sim_ok' (uniqueLoop_sim pr_nice _ _ _) hr h1
  rw [hs.attrCount, hs.attrNameSlice, hs.lastOffset, hs.length1]
  rw [M.bind_apply, h2, Res.andThen_ok]
  obtain rfl : s1 = s := (eq_post (uniqueLoop_fr eq_pre _ _ _)).eq h1
  rw [M.ite_apply] at hm ⊢
  by_cases hc : b = false ∧ s1.at_.attrCount ≠ 0
  · rw [if_pos hc] at hm
    exact ((post_err (p := s1) (Q := fun _ _ => False) AttrNotUnique).eq hm).elim
  rw [if_neg hc] at hm ⊢
  cases hsl : setAt s1.at_.attrNameSlice s1.at_.attrCount
      ((BitVec.ofInt 64 s1.lastOffset <<< 32) ||| BitVec.ofInt 64 s1.length1) with
  | none => rw [hsl] at hm; cases hm
  | some l =>
    rw [hsl] at hm
    simp only [M.bind_apply, M.modify_apply, Res.andThen_ok] at hm ⊢
    rw [pushPrefixedAttr_plain (by exact hl)] at hm
    rw [pushPrefixedAttr_plain (by rw [← (pr_nice.same hr1).length2] at hl; exact hl)]
    cases hm
    refine ⟨_, rfl, ?_, hl⟩
    obtain ⟨rfl, a1, a2, a3, a4, a5⟩ := hr1
    exact ⟨rfl, a1, a2, a3, a4, a5⟩

theorem checkAttrUniqueness_left (hoff : s.cfg.nsAware = false) : Post (checkAttrUniqueness s) fun _ s' =>
    ∃ l k, s' = { s with at_ := { s.at_ with attrNameSlice := l, attrCount := k } } := by
  refine Post.get (Post.bind (eq_post (uniqueLoop_fr eq_pre _ _ _)) ?_)
  rintro b _ rfl
  refine Post.ite (fun _ => post_err _) fun _ => ?_
  generalize setAt _ _ _ = o
  cases o with
  | some l =>
    refine Post.modify (Post.of fun _ q hm => ?_)
    simp only [pushPrefixedAttr, M.bind_apply, M.get_apply, Res.andThen_ok, M.ite_apply, hoff] at hm
    rw [if_neg (fun h => by cases h.1)] at hm
    cases hm
    exact ⟨_, _, rfl⟩
  | none => trivial

/-- `writeAttrName` of a name without a prefix. -/
def writeAttrName2 : M Parser Unit := do
  let p ← M.get
  let tokenType := if p.at_.isNs then Token.attrNs else Token.attrName
  let errMsg := if p.at_.isNs then AttrNsPrefixQnameTooLong else AttrNamePrefixQnameTooLong
  if p.enc.singleByteEncoding then
    if p.length2 > maxPrefixLength ∨ p.length1 > maxQnameLength then parseErr errMsg
    else writeVtd tokenType p.lastOffset (shlOr p.length2 11 p.length1) p.depth
  else
    if p.length2 > maxPrefixLength * 2 ∨ p.length1 > maxQnameLength * 2 then parseErr errMsg
    else writeVtd tokenType (p.lastOffset / 2) (shlOr p.length2 10 (p.length1 / 2)) p.depth

theorem writeAttrName_plain (h : s.length2 = 0) : writeAttrName s = writeAttrName2 s := by
  simp only [writeAttrName, writeAttrName2, M.bind_apply, M.get_apply, Res.andThen_ok, M.ite_apply]
  rw [if_neg (fun h' => h'.2.2.1 h)]

theorem writeAttrName2_sim : Sim (PR f n) False False writeAttrName2 writeAttrName2 := by
  have hR := pr_nice (f := f) (n := n)
  unfold writeAttrName2
  sim hR

/-- `processAttrName` after the name. -/
def nameRest : M Parser PState := do
  attrNsDecl
  checkAttrUniqueness
  writeAttrName
  attrNameEnd

theorem nameRest_pr (hr : PR f n s t) (hl : s.length2 = 0) (hd : s.at_.isNs = true → s.at_.defaultNs = true) {st : PState}
    {q : Parser} (hm : nameRest s = .ok st q) : ∃ t', nameRest t = .ok st t' ∧ PR f n q t' := by
  have hs := pr_nice.same hr
  simp only [nameRest] at hm ⊢
  rw [M.bind_apply, attrNsDecl_left hr.off, Res.andThen_ok] at hm
  rw [M.bind_apply, attrNsDecl_right (by rw [hs.isNs, hs.defaultNs]; exact hd), Res.andThen_ok]
  obtain ⟨u, s1, h1, hm⟩ := bind_ok (m := checkAttrUniqueness) hm
  obtain ⟨t1, h2, hr1, hl1⟩ := checkAttrUniqueness_pr hr hl h1
  rw [M.bind_apply, h2, Res.andThen_ok]
  obtain ⟨u', s2, h3, hm⟩ := bind_ok (m := writeAttrName) hm
  rw [writeAttrName_plain hl1] at h3
  obtain ⟨t2, h4, hr2⟩ := sim_ok' writeAttrName2_sim hr1 h3
  rw [M.bind_apply, writeAttrName_plain (by rw [(pr_nice.same hr1).length2]; exact hl1), h4, Res.andThen_ok]
  exact sim_ok' (attrNameEnd_sim pr_nice) hr2 hm

theorem processAttrName_eq : processAttrName = (do
    attrNsTest
    let p ← M.get
    attrNameLoop p.loopFuel
    let offset ← getPrevOffset
    M.modify fun p => { p with length1 := offset - p.lastOffset }
    nameRest) := rfl

theorem attrNameEnd_mark (hb : Base c s) :
    Post (attrNameEnd s) fun st q => st = .attrVal ∧ (q.lastOffset = q.offset ∧ q.offset ≤ c.endOffset) ∧ q.out = s.out := by
  have tail : ∀ p : Parser, Base c p → Post ((do
      let p ← M.get
      if p.currentChar ≠ ch% '=' then parseErr InvalidChar
      else do
        nextCharAfterWs
        let p ← M.get
        if p.currentChar ≠ ch% '"' ∧ p.currentChar ≠ ch% '\'' then
          parseErr (InvalidChar ++ " should be ' or \" ")
        else do
          markOffset
          pure .attrVal : M Parser PState) p) fun st q => st = .attrVal ∧ (q.lastOffset = q.offset ∧ q.offset ≤ c.endOffset) ∧ q.out = p.out := by
    intro p hb
    refine Post.get (Post.ite (fun _ => post_err _) fun _ => Post.bind (nextCharAfterWs_byte (c := c) hb) ?_)
    rintro _ _ ⟨r2, y, w, rfl, -, -, hlt, -⟩
    exact Post.get (Post.ite (fun _ => post_err _) fun _ => ⟨rfl, ⟨rfl, by show r2 + 1 ≤ _; omega⟩, rfl⟩)
  refine Post.modify (Post.get (Post.ite (fun _ => ?_) fun _ => tail _ hb))
  refine Post.bind (nextCharAfterWs_byte (c := c) (by exact hb)) ?_
  rintro _ _ ⟨r2, y, w, rfl, hb4, -⟩
  exact tail _ hb4

/-- What is known of the state of the attributes: a declaration is being read only before its value, it is that of
the default namespace, and its name is the last record. -/
structure J (c : ParserCfg) (st : PState) (p : Parser) : Prop where
  isNs : p.at_.isNs = true → st = .attrVal ∧ p.at_.defaultNs = true ∧
    ∃ vs w, p.out.vtdBuffer.values = vs ++ [w] ∧ tokenType w = Token.attrNs.code
  mark : st = .attrVal → p.lastOffset = p.offset ∧ p.offset ≤ c.endOffset

theorem attrName_pr {o0 : ParserOut} {es : List Mark} {stk : List (Nat × Nat)} {recs : List Rec}
    (h : G c o0 .attrName s es stk recs) (hr : PR f n s t) (hJ : s.at_.isNs = false)
    {st : PState} {q : Parser} (hm : processAttrName s = .ok st q) (hC : Clean c q.out) :
    ∃ t', processAttrName t = .ok st t' ∧ PR f n q t' ∧ J c st q := by
  have hs := h.inv.slots
  have h0 := h.inv.start (by simp)
  obtain ⟨hn0, hn1, hn2⟩ := h.inv.name (by simp)
  have hsy := h.inv.sync (by simp)
  have hcur := h.inv.cur rfl
  have hd := h.inv.deep (by decide)
  have hk := h.k
  simp only [reduceCtorEq, if_false] at hk
  have hlen2 := hk.len2
  have hB := h.inv.base
  obtain ⟨hl1, y, hy, hys, hyc⟩ := h.attrS rfl
  rw [processAttrName_eq] at hm ⊢
  obtain ⟨u0, s1, h1, hm⟩ := bind_ok (m := attrNsTest) hm
  have hdecl := (attrNsTest_decl hB.out hB.enc hB.ws hJ).eq h1
  obtain ⟨a, b, ch, u, y', hs1, hb, hu, hu0, hud, hy', hsh, hc⟩ := (attrNsTest_post hB hsy hl1 hn0 (by omega) hy hyc).eq h1
  rw [M.bind_apply, M.get_apply, Res.andThen_ok] at hm
  obtain ⟨u1, s2, h2, hm⟩ := bind_ok (m := attrNameLoop _) hm
  obtain ⟨l2, r2, ch2, x, run, hs2, hb2, hl2, he, hx, hnx, hrun, hdrop, hlc⟩ :=
    (attrNameLoop_post (q := s.lastOffset + u.length) hb (by rw [hs1]; rfl) (by rw [hs1]; rfl) (by omega)
    (by rw [← hy']; congr 1; omega) (by rw [hs1]; exact hsh) (by rw [hs1]; exact hc)).eq h2
  rw [M.bind_apply, getPrevOffset_eq hb2, Res.andThen_ok, M.bind_apply, M.modify_apply, Res.andThen_ok] at hm
  have hlc := hlc u.length 0 (by rw [hs1]; simpa using hlen2) (by rw [hs1]; rfl)
  have hq2 : s2.offset = r2 + 1 := by rw [hs2]; rfl
  generalize hq3 : ({ s2 with length1 := s2.offset - 1 - s2.lastOffset } : Parser) = s3 at hm
  have e1 : s3.length1 = r2 - s.lastOffset := by
    rw [← hq3]
    show s2.offset - 1 - s2.lastOffset = _
    rw [hq2, hs2, hs1]
    show r2 + 1 - 1 - s.lastOffset = _
    omega
  have e2 : s3.length2 = l2 := by rw [← hq3, hs2]; rfl
  have e3 : s3.lastOffset = s.lastOffset := by rw [← hq3, hs2, hs1]; rfl
  have e4 : s3.depth = s.depth := by rw [← hq3, hs2, hs1]; rfl
  have e5 : s3.at_.isNs = s1.at_.isNs := by rw [← hq3, hs2]; rfl
  have e6 : s3.at_.defaultNs = s1.at_.defaultNs := by rw [← hq3, hs2]; rfl
  have e7 : s3.cfg = s.cfg := by rw [← hq3, hs2, hs1]; rfl
  have hb3 : Base c s3 := by rw [← hq3]; exact hb2
  have hall : c.xmlDoc.drop s.lastOffset.toNat = (u ++ run) ++ c.xmlDoc.drop r2.toNat := by
    rw [hud, List.append_assoc, ← hdrop]
    congr 2; omega
  obtain ⟨hxl, hxd⟩ := List.getElem?_eq_some_iff.mp hx
  have he1 := hb.end1
  have he2 := hb.end2
  have hlen : (u ++ run).length = r2.toNat - s.lastOffset.toNat := by
    have := congrArg List.length hall
    simp only [List.length_append, List.length_drop] at this ⊢
    omega
  -- no colon
  have hm' := hm
  simp only [nameRest] at hm'
  rw [M.bind_apply, attrNsDecl_left (by rw [e7]; exact hr.off), Res.andThen_ok] at hm'
  obtain ⟨v0, s4, h4, hm'⟩ := bind_ok (m := checkAttrUniqueness) hm'
  obtain ⟨l, k, hs4⟩ := (checkAttrUniqueness_left (by rw [e7]; exact hr.off)).eq h4
  obtain ⟨v1, s5, h5, hm'⟩ := bind_ok (m := writeAttrName) hm'
  have hb4 : Base c s4 := by rw [hs4]; exact hb3
  obtain ⟨hw2, hw1, q5, hf5, hs5, hb5⟩ := (writeAttrName_post hb4).eq h5
  have hAF := af_ok attrNameEnd_af hm' hb5.out hb5.enc hb5.ws
  have d1 : s4.length1 = s3.length1 := by rw [hs4]
  have d2 : s4.length2 = s3.length2 := by rw [hs4]
  have d3 : s4.lastOffset = s3.lastOffset := by rw [hs4]
  have d4 : s4.depth = s3.depth := by rw [hs4]
  have hmem : (Ev.attrRec s4).word ∈ q.out.vtdBuffer.values := by
    refine hAF.mem hb5.out ?_
    rw [hs5]
    show _ ∈ (Parser.emit c.shallowDepth s4.out [Ev.attrRec s4]).vtdBuffer.values
    rw [emit_values hb4.out]
    simp
  have hrng := shlOr_range (a := s4.length2) (b := s4.length1) (k := 11) (by omega) hw2 (by omega) hw1 (by omega)
  have hsm : Small (Ev.attrRec s4) := fun _ =>
    ⟨by show 0 ≤ s4.lastOffset; omega, by show s4.lastOffset < 2 ^ 31; omega, hrng.1, hrng.2,
      by show 0 ≤ s4.depth; omega, by show s4.depth ≤ 254; omega⟩
  have htok : (Ev.attrRec s4).tok = .attrName ∨ (Ev.attrRec s4).tok = .attrNs := by
    show (if s4.at_.isNs then Token.attrNs else Token.attrName) = _ ∨ (if s4.at_.isNs then Token.attrNs else Token.attrName) = _
    cases s4.at_.isNs
    · exact .inl rfl
    · exact .inr rfl
  have hcolon : ch% ':' ∉ u ++ run := by
    have hpl := hC.name _ hmem (.inr ((small_attr hsm).2 htok))
    obtain ⟨-, -, f3, f4⟩ := small_fields hsm (by rcases htok with h | h <;> rw [h] <;> decide)
    have hnat := Parser.shlOr_nat (a := s4.length2.toNat) (b := s4.length1.toNat) (k := 11) (by omega) (by omega) (by omega)
    rw [Int.toNat_of_nonneg (by omega), Int.toNat_of_nonneg (by omega)] at hnat
    have e : (Ev.attrRec s4).len = shlOr s4.length2 11 s4.length1 := rfl
    have eo : (Ev.attrRec s4).off = s4.lastOffset := rfl
    rw [qname, f3, f4, eo, e, hnat, Int.toNat_natCast, or_low _ _ (by omega), d3, e3, hall, d1, e1,
      show (r2 - s.lastOffset).toNat = (u ++ run).length by omega, List.take_left'] at hpl
    · exact hpl
    · rfl
  have hl0 : l2 = 0 := by
    rw [hlc, lastColon_none]
    · rfl
    · rintro z hz rfl
      exact hcolon (List.mem_append_right _ hz)
  have hdef : s3.at_.isNs = true → s3.at_.defaultNs = true := by
    intro hi
    rw [e5] at hi
    rw [e6]
    rcases hdecl hi with h' | h'
    · exact h'
    · exfalso
      have hch : ch = ch% ':' := by rw [hs1] at h'; exact h'
      have hy2 := hsh.2.mp hch
      have hnm := hsh.1.mp (by rw [hch]; decide)
      have hne : r2 ≠ s.lastOffset + u.length := by
        rintro rfl
        apply hnx
        rw [show (s.lastOffset + (u.length : Int)).toNat = s.lastOffset.toNat + u.length by omega, hy'] at hx
        cases hx
        exact hnm
      apply hcolon
      refine List.mem_iff_getElem?.mpr ⟨u.length, ?_⟩
      have h3 : (c.xmlDoc.drop s.lastOffset.toNat)[u.length]? = some y' := by rw [List.getElem?_drop]; exact hy'
      rw [hall, List.getElem?_append_left (by rw [hlen]; omega)] at h3
      rw [h3, hy2]
  -- the run with namespace awareness
  obtain ⟨t1, g1, hr1⟩ := sim_ok' (attrNsTest_sim pr_nice) hr h1
  rw [M.bind_apply, g1, Res.andThen_ok, M.bind_apply, M.get_apply, Res.andThen_ok]
  obtain ⟨t2, g2, hr2⟩ := sim_ok' (attrNameLoop_sim pr_nice (pr_nice.same hr1).fuel) hr1 h2
  rw [M.bind_apply, g2, Res.andThen_ok]
  obtain ⟨t3, g3, hr3⟩ := sim_ok' (getPrevOffset_sim pr_nice) hr2 (getPrevOffset_eq hb2)
  rw [M.bind_apply, g3, Res.andThen_ok, M.bind_apply, M.modify_apply, Res.andThen_ok]
  have hr4 : PR f n s3 { t3 with length1 := s2.offset - 1 - t3.lastOffset } := by
    rw [← hq3]
    obtain ⟨rfl, a1, a2, a3, a4, a5⟩ := hr3
    exact ⟨rfl, a1, a2, a3, a4, a5⟩
  obtain ⟨t', g4, hr5⟩ := nameRest_pr hr4 (by omega) hdef hm
  refine ⟨t', g4, hr5, ?_⟩
  have hAF := af_ok (by unfold nameRest; af) hm hb3.out hb3.enc hb3.ws
  obtain ⟨rfl, k1, k2⟩ := (attrNameEnd_mark hb5).eq hm'
  refine ⟨fun hi => ⟨rfl, ?_, ?_⟩, fun _ => k1⟩
  · rw [hAF.isNs] at hi
    rw [hAF.defaultNs]
    exact hdef hi
  · rw [hAF.isNs] at hi
    refine ⟨s4.out.vtdBuffer.values, (Ev.attrRec s4).word, ?_, ?_⟩
    · rw [k2, hs5]
      show (Parser.emit c.shallowDepth s4.out [Ev.attrRec s4]).vtdBuffer.values = _
      rw [emit_values hb4.out]
      rfl
    · obtain ⟨f1, -⟩ := small_fields hsm (by rcases htok with h | h <;> rw [h] <;> decide)
      rw [f1]
      show (if s4.at_.isNs then Token.attrNs else Token.attrName).code = _
      rw [if_pos (by rw [hs4]; exact hi)]

end Plain
end Parser
end GoVtd
