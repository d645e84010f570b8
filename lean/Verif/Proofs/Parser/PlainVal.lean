import Verif.Proofs.Parser.PlainAttr

/-!
# The value of an attribute of a document without prefixes, with and without namespace awareness
-/

namespace GoVtd
namespace Parser
namespace Plain
open Paged Grammar Two Ev

variable {f : Nat} {n n' : ParserNs} {s t : Parser} {c : ParserCfg}

theorem rec_fields {x : Rec} (h0 : 0 ≤ x.off) (h1 : x.off < 2 ^ 31) (h2 : 0 ≤ x.len) (h3 : x.len < 2 ^ 20) :
    tokenType x.word = x.tok.code ∧ tokenOffset x.word = x.off.toNat ∧ tokenLength x.word = x.len.toNat := by
  have ht := x.tok.code_lt
  have hw : x.word.toNat = x.tok.code * 2 ^ 60 + (x.depth % 256).toNat * 2 ^ 52 + x.len.toNat * 2 ^ 32 + x.off.toNat := by
    have := vtdRecord_toNat x.tok x.off.toNat x.len.toNat x.depth (by omega) (by omega)
    rw [← this, Int.toNat_of_nonneg h0, Int.toNat_of_nonneg h2]
    rfl
  simp only [tokenType, tokenOffset, tokenLength, hw]
  omega

/-! ## The name of the namespace -/

theorem getCharResolved_plain {o : Int} {b : UInt8} (hd : s.rd.xmlDoc = c.xmlDoc) (h0 : 0 ≤ o)
    (h1 : o + 1 < c.xmlDoc.length) (hb : c.xmlDoc[o.toNat]? = some b) (hne : b ≠ ch% '&') :
    ∃ v, getCharResolved o s = .ok v s ∧ 2 ^ 32 ≤ v.toNat := by
  obtain ⟨hl, hbd⟩ := List.getElem?_eq_some_iff.mp hb
  have hi : M.index s.rd.xmlDoc o s.rd = .ok b s.rd := by
    rw [hd, M.index_of_lt _ _ _ h0 hl, hbd]
  have hch : ∃ v, Reader.getLongCharAt o s.rd = .ok v s.rd ∧ 2 ^ 32 ≤ v.toNat ∧ v.setWidth 32 ≠ (ch% '&' : BitVec 32) := by
    simp only [Reader.getLongCharAt, M.bind_apply, M.get_apply, Res.andThen_ok, hi, M.ite_apply]
    have h256 : b.toNat < 256 := b.toNat_lt
    have hv : ((1#64 <<< 32) ||| BitVec.ofNat 64 b.toNat).toNat = 2 ^ 32 + b.toNat := by
      rw [BitVec.toNat_or, BitVec.toNat_ofNat, Nat.mod_eq_of_lt (by omega),
        show ((1#64 <<< 32 : BitVec 64).toNat) = 1 <<< 32 from rfl, ← Nat.shiftLeft_add_eq_or_of_lt (by omega), Nat.shiftLeft_eq]
    have hs1 : 2 ^ 32 ≤ ((1#64 <<< 32) ||| BitVec.ofNat 64 b.toNat).toNat ∧
        ((1#64 <<< 32) ||| BitVec.ofNat 64 b.toNat).setWidth 32 ≠ (ch% '&' : BitVec 32) := by
      refine ⟨by omega, fun h => hne ?_⟩
      have := congrArg BitVec.toNat h
      rw [BitVec.toNat_setWidth, hv, show ((ch% '&' : BitVec 32).toNat) = 38 from rfl] at this
      exact UInt8.toNat_inj.mp (by show b.toNat = 38; omega)
    by_cases hcr : b = ch% '\r'
    · have hi2 : M.index s.rd.xmlDoc (o + 1) s.rd = .ok (c.xmlDoc[(o + 1).toNat]'(by omega)) s.rd := by
        rw [hd, M.index_of_lt _ _ _ (by omega) (by omega)]
      rw [if_pos hcr, hi2]
      simp only [Res.andThen_ok, M.ite_apply]
      split
      · exact ⟨_, rfl, by decide, by decide⟩
      · exact ⟨_, rfl, hs1⟩
    · rw [if_neg hcr]
      exact ⟨_, rfl, hs1⟩
  obtain ⟨v, h2, h3, h4⟩ := hch
  refine ⟨v, ?_, h3⟩
  have h5 : onRd (Reader.getLongCharAt o) s = .ok v s := by
    simp only [onRd, M.zoom_apply, h2]
    rfl
  simp only [getCharResolved, M.bind_apply, M.get_apply, Res.andThen_ok, h5, M.ite_apply]
  rw [if_pos h4]
  rfl

theorem identifyNsUrl_plain (hd : s.rd.xmlDoc = c.xmlDoc) (hi : s.enc = stdEnc) (h0 : 0 ≤ s.lastOffset)
    (h1 : s.lastOffset + s.length1 ≤ c.xmlDoc.length)
    (hv : 29 ≤ s.length1 → c.xmlDoc[s.lastOffset.toNat]? ≠ some (ch% '&')) : identifyNsUrl s = .ok .default s := by
  have hinc : s.enc.increment = 1 := by rw [hi]; rfl
  simp only [identifyNsUrl, M.bind_apply, M.get_apply, Res.andThen_ok, M.ite_apply, hinc]
  by_cases hlt : s.length1 < 29
  · rw [if_pos (.inl hlt)]
    rfl
  rw [if_neg (by omega)]
  obtain ⟨b, hb⟩ : ∃ b, c.xmlDoc[s.lastOffset.toNat]? = some b := ⟨_, List.getElem?_eq_getElem (by omega)⟩
  obtain ⟨v, h2, h3⟩ := getCharResolved_plain (s := s) hd h0 (by omega) hb (fun e => hv (by omega) (by rw [hb, e]))
  have e : urlLoop (s.lastOffset + s.length1) (str% "http://www.w3.org/") s.lastOffset s = .ok none s := by
    show urlLoop (s.lastOffset + s.length1) ((ch% 'h') :: _) s.lastOffset s = .ok none s
    rw [urlLoop, if_pos (by omega), M.bind_apply, h2, Res.andThen_ok, M.ite_apply, if_pos]
    · rfl
    · rintro rfl
      revert h3
      decide
  rw [e]
  rfl

theorem attrValNs_left (h : s.cfg.nsAware = false) : attrValNs s = .ok () s := by
  simp only [attrValNs, M.bind_apply, M.get_apply, Res.andThen_ok, M.ite_apply, h]
  rw [if_neg (by simp)]
  rfl

theorem attrValNs_right (hd : s.rd.xmlDoc = c.xmlDoc) (hi : s.enc = stdEnc) (h0 : 0 ≤ s.lastOffset)
    (h1 : s.lastOffset + s.length1 ≤ c.xmlDoc.length) (hx : s.at_.isXml = false)
    (hv : s.at_.isNs = true → s.at_.defaultNs = true ∧ (29 ≤ s.length1 → c.xmlDoc[s.lastOffset.toNat]? ≠ some (ch% '&'))) :
    attrValNs s = .ok () s := by
  simp only [attrValNs, M.bind_apply, M.get_apply, Res.andThen_ok, M.ite_apply]
  by_cases hc : s.cfg.nsAware = true ∧ s.at_.isNs = true
  · obtain ⟨v1, v2⟩ := hv hc.2
    rw [if_pos hc, if_neg (by simp [v1]), identifyNsUrl_plain hd hi h0 h1 v2]
    simp [hx, v1]
  · rw [if_neg hc]; rfl

/-! ## The end of the tag -/

theorem attrValQualify_left (h : s.cfg.nsAware = false) : attrValQualify s = .ok () s := by
  simp only [attrValQualify, M.bind_apply, M.get_apply, Res.andThen_ok, M.ite_apply, h]
  rw [if_neg (by simp)]
  rfl

theorem attrValQualify_right (hr : PR f n s t) (hN : N n) : ∃ n', attrValQualify t = .ok () (aware f n' s) ∧ N n' := by
  obtain ⟨n', h1, h2, -⟩ := pushNs1_pr hr hN
  have e1 : t.cfg.nsAware = true := by rw [hr.eq]; rfl
  have e2 : t.at_.currentElementRecord = 0 := by rw [hr.eq]; exact hr.elem
  have e3 : t.at_.prefixedAttCount = 0 := by rw [hr.eq]; exact hr.count
  refine ⟨n', ?_, h2⟩
  simp only [attrValQualify, M.bind_apply, M.get_apply, Res.andThen_ok, M.ite_apply, e1, if_true, h1, e2, e3]
  rw [if_neg (by decide), if_neg (by simp)]
  have : ({ s.at_ with prefixedAttCount := 0 } : ParserAttr) = s.at_ := by rw [← hr.count]
  simp only [M.modify_apply, aware]
  rw [this]

/-- `attrValEnd` after the test for `/`. -/
def valClose : M Parser PState := do
  let p ← M.get
  if p.currentChar = ch% '>' then do
    attrValQualify
    M.modify fun p => { p with at_ := { p.at_ with attrCount := 0 } }
    processElementTail
  else parseErr InvalidChar

def valSlash : M Parser Unit := do
  M.modify fun p => { p with helper := true }
  let p ← M.get
  if p.currentChar = ch% '/' then do
    M.modify fun p => { p with depth := p.depth - 1, helper := false }
    nextChar
  else pure ()

theorem attrValEnd_eq : attrValEnd = (do valSlash; valClose) := by
  funext s
  simp only [attrValEnd, valSlash, valClose, M.bind_apply, M.modify_apply, M.get_apply, Res.andThen_ok, M.ite_apply]
  split
  · cases nextChar { s with helper := false, depth := s.depth - 1 } <;> rfl
  · simp only [M.pure_apply, Res.andThen_ok, M.bind_apply, M.get_apply, M.ite_apply]

theorem valSlash_sim : Sim (PR f n) False False valSlash valSlash := by
  have hR := pr_nice (f := f) (n := n)
  unfold valSlash
  sim hR

theorem valClose_pr (hr : PR f n s t) (hN : N n) {st : PState} {q : Parser} (hm : valClose s = .ok st q) :
    ∃ t' n', valClose t = .ok st t' ∧ PR f n' q t' ∧ N n' := by
  have e := (pr_nice.same hr).currentChar
  simp only [valClose, M.bind_apply, M.get_apply, Res.andThen_ok, M.ite_apply, e] at hm ⊢
  by_cases hc : s.currentChar = ch% '>'
  · rw [if_pos hc] at hm ⊢
    obtain ⟨n', h1, h2⟩ := attrValQualify_right hr hN
    rw [attrValQualify_left hr.off] at hm
    rw [h1]
    simp only [Res.andThen_ok, M.bind_apply, M.modify_apply] at hm ⊢
    obtain ⟨t', h3, h4⟩ := sim_ok' (f := f) (n := n') (processElementTail_sim pr_nice)
      (s := { s with at_ := { s.at_ with attrCount := 0 } })
      (t := { aware f n' s with at_ := { (aware f n' s).at_ with attrCount := 0 } })
      ⟨rfl, hr.off, hr.enc, hr.elem, hr.count, hr.xml⟩ hm
    exact ⟨t', n', h3, h4, h2⟩
  · rw [if_neg hc] at hm
    exact ((post_err (p := s) (Q := fun _ _ => False) InvalidChar).eq hm).elim

theorem attrValEnd_pr (hr : PR f n s t) (hN : N n) {st : PState} {q : Parser} (hm : attrValEnd s = .ok st q) :
    ∃ t' n', attrValEnd t = .ok st t' ∧ PR f n' q t' ∧ N n' := by
  rw [attrValEnd_eq] at hm ⊢
  obtain ⟨u, s', h1, h2⟩ := bind_ok hm
  obtain ⟨t', h3, h4⟩ := sim_ok' valSlash_sim hr h1
  obtain ⟨t'', n', h5, h6, h7⟩ := valClose_pr h4 hN h2
  refine ⟨t'', n', ?_, h6, h7⟩
  rw [M.bind_apply, h3, Res.andThen_ok, h5]

/-- `attrValRest` after the record is written. -/
def valNext : M Parser PState := do
  M.modify fun p => { p with at_ := { p.at_ with isXml := false, isNs := false } }
  nextChar
  let p ← M.get
  if isSpaceChar p.currentChar then do
    nextCharAfterWs
    let p ← M.get
    if isNameStartChar p.currentChar then do
      M.modify fun p => { p with lastOffset := p.offset - p.enc.increment }
      pure .attrName
    else attrValEnd
  else attrValEnd

theorem valNext_pr (hr : PR f n s t) (hN : N n) {st : PState} {q : Parser} (hm : valNext s = .ok st q) :
    ∃ t' n', valNext t = .ok st t' ∧ PR f n' q t' ∧ N n' := by
  simp only [valNext] at hm ⊢
  rw [M.bind_apply, M.modify_apply, Res.andThen_ok] at hm ⊢
  have hr0 : PR f n { s with at_ := { s.at_ with isXml := false, isNs := false } } { t with at_ := { t.at_ with isXml := false, isNs := false } } := by
    obtain ⟨rfl, a1, a2, a3, a4, a5⟩ := hr
    exact ⟨rfl, a1, a2, a3, a4, rfl⟩
  obtain ⟨u, s1, h1, hm⟩ := bind_ok (m := nextChar) hm
  obtain ⟨t1, g1, hr1⟩ := sim_ok' (nextChar_sim pr_nice) hr0 h1
  rw [M.bind_apply, g1, Res.andThen_ok]
  have e1 := (pr_nice.same hr1).currentChar
  simp only [M.bind_apply, M.get_apply, Res.andThen_ok, M.ite_apply, e1] at hm ⊢
  by_cases hc : isSpaceChar s1.currentChar = true
  · rw [if_pos hc] at hm ⊢
    obtain ⟨u, s2, h2, hm⟩ := bind_ok (m := nextCharAfterWs) hm
    obtain ⟨t2, g2, hr2⟩ := sim_ok' (nextCharAfterWs_sim pr_nice) hr1 h2
    rw [g2, Res.andThen_ok]
    have e2 := (pr_nice.same hr2).currentChar
    simp only [M.bind_apply, M.get_apply, Res.andThen_ok, M.ite_apply, e2] at hm ⊢
    by_cases hx : isNameStartChar s2.currentChar = true
    · rw [if_pos hx] at hm ⊢
      cases hm
      refine ⟨_, n, rfl, ?_, hN⟩
      obtain ⟨rfl, a1, a2, a3, a4, a5⟩ := hr2
      exact ⟨rfl, a1, a2, a3, a4, a5⟩
    · rw [if_neg hx] at hm ⊢
      exact attrValEnd_pr hr2 hN hm
  · rw [if_neg hc] at hm ⊢
    exact attrValEnd_pr hr1 hN hm

/-! ## Growth without namespace awareness -/

/-- `AF` for a parse without namespace awareness. -/
def AO (s s' : Parser) : Prop := s.cfg.nsAware = false → AF s s'

theorem ao_pre : Pre AO where
  refl s _ := af_pre.refl s
  trans := by
    intro a b c h h' hoff h1 h2 h3
    have hb := h hoff h1 h2 h3
    exact af_pre.trans (h hoff) (h' (by rw [hb.cfg]; exact hoff)) h1 h2 h3

theorem AO.of {α : Type} {m : M Parser α} (h : Fr AF m) : Fr AO m := Two.Fr.weaken h fun _ _ h _ => h

theorem AO.id {α : Type} {m : M Parser α} {a : α} (h : ∀ s : Parser, s.cfg.nsAware = false → m s = .ok a s) : Fr AO m := by
  intro s
  by_cases hoff : s.cfg.nsAware = false
  · rw [h s hoff]
    exact ao_pre.refl s
  · cases m s with
    | ok a s' => exact fun h => absurd h hoff
    | err e s' => exact fun h => absurd h hoff
    | panic => trivial
    | diverge => trivial

theorem attrValEnd_ao : Fr AO attrValEnd := by
  rw [attrValEnd_eq]
  refine Fr.bind ao_pre (AO.of (by unfold valSlash; af)) fun _ => ?_
  unfold valClose
  refine Fr.bind ao_pre (Fr.get ao_pre) fun p => Fr.ite ?_ (parseErr_fr ao_pre _)
  refine Fr.bind ao_pre (AO.id fun s h => attrValQualify_left h) fun _ => AO.of ?_
  af

/-- `valNext` after the marks are reset. -/
def valNext2 : M Parser PState := do
  nextChar
  let p ← M.get
  if isSpaceChar p.currentChar then do
    nextCharAfterWs
    let p ← M.get
    if isNameStartChar p.currentChar then do
      M.modify fun p => { p with lastOffset := p.offset - p.enc.increment }
      pure .attrName
    else attrValEnd
  else attrValEnd

theorem valNext2_ao : Fr AO valNext2 := by
  unfold valNext2
  refine Fr.bind ao_pre (AO.of (by af)) fun _ => Fr.bind ao_pre (Fr.get ao_pre) fun p => Fr.ite ?_ attrValEnd_ao
  refine Fr.bind ao_pre (AO.of (by af)) fun _ => Fr.bind ao_pre (Fr.get ao_pre) fun p => Fr.ite (AO.of ?_) attrValEnd_ao
  af

theorem attrVal_pr {o0 : ParserOut} {es : List Mark} {stk : List (Nat × Nat)} {recs : List Rec}
    (h : G c o0 .attrVal s es stk recs) (hr : PR f n s t) (hN : N n) (hJ : J c .attrVal s)
    {st : PState} {q : Parser} (hm : processAttrVal s = .ok st q) (hC : Clean c q.out) :
    ∃ t' n', processAttrVal t = .ok st t' ∧ PR f n' q t' ∧ N n' ∧ q.at_.isNs = false := by
  have hB := h.inv.base
  obtain ⟨hmark, hmark2⟩ := hJ.mark rfl
  have ho0 := hB.off0
  have he1 := hB.end1
  have he2 := hB.end2
  rw [processAttrVal_eq] at hm ⊢
  obtain ⟨u0, s1, h1, hm⟩ := bind_ok (m := attrValRead) hm
  obtain ⟨t1, g1, hr1⟩ := sim_ok' (attrValRead_sim pr_nice) hr h1
  rw [M.bind_apply, g1, Res.andThen_ok]
  rw [M.bind_apply, attrValNs_left hr1.off, Res.andThen_ok] at hm
  obtain ⟨r, ch, hs1, hb1, hl1⟩ : ∃ r ch, s1 = { s.mv r r ch with length1 := r - s.lastOffset - 1 } ∧ Base c s1 ∧ s.rd.offset < r := by
    have hP : Post (attrValRead s) fun _ s1 => ∃ r ch, s1 = { s.mv r r ch with length1 := r - s.lastOffset - 1 } ∧
        Base c s1 ∧ s.rd.offset < r := by
      refine Post.get (Post.bind (sat_post (attrValLoop_ok _ hB (Enough.loopFuel hB hB.cfg))) ?_)
      rintro _ p' ⟨r, ch, rfl, hb, hl⟩
      refine ⟨r, ch, ?_, hb, by omega⟩
      have : ({ s.mv r r ch with length1 := r - s.lastOffset - s.enc.increment } : Parser) =
          { s.mv r r ch with length1 := r - s.lastOffset - 1 } := by rw [hB.inc]
      exact this
    exact hP.eq h1
  have hoff1 := hb1.off1
  have hoff2 := hb1.off2
  have ho1 := hB.off1
  have e1 : s1.length1 = r - s.lastOffset - 1 := by rw [hs1]
  have e2 : s1.lastOffset = s.lastOffset := by rw [hs1]; rfl
  have e3 : s1.rd.offset = r := by rw [hs1]; rfl
  have e4 : s1.at_ = s.at_ := by rw [hs1]; rfl
  have e5 : s1.out = s.out := by rw [hs1]; rfl
  simp only [attrValRest] at hm
  obtain ⟨u2, s2, h2, hm⟩ := bind_ok (m := writeVtdWithLengthCheck _ _) hm
  have hw : Post (writeVtdWithLengthCheck .attrVal AttrValueTooLong s1) fun _ s2 => s1.length1 < 2 ^ 20 ∧
      s2 = { s1 with out := Parser.emit s1.cfg.shallowDepth s1.out [⟨.attrVal, s1.lastOffset, s1.length1, s1.depth⟩] } := by
    refine Post.get ?_
    rw [hb1.single, if_pos rfl]
    refine Post.ite (fun _ => post_err _) fun hlen => ?_
    rw [writeVtd_emit hb1.out s1.cfg.shallowDepth _ _ _ _ (by decide)]
    exact ⟨by simp [maxTokenLength] at hlen; omega, rfl⟩
  obtain ⟨hlen, hs2⟩ := hw.eq h2
  rw [M.bind_apply, M.modify_apply, Res.andThen_ok] at hm
  have hout2 : OutOk s2.out := by rw [hs2]; exact emit_ok hb1.out _ _
  have hAF : AFrame { s2 with at_ := { s2.at_ with isXml := false, isNs := false } } q := by
    have := valNext2_ao { s2 with at_ := { s2.at_ with isXml := false, isNs := false } }
    rw [show valNext2 _ = .ok st q from hm] at this
    refine this ?_ hout2 ?_ ?_
    · show s2.cfg.nsAware = false
      rw [hs2]; exact hr1.off
    · show s2.enc = stdEnc
      rw [hs2]; exact hb1.enc
    · show s2.ws = false
      rw [hs2]; exact hb1.ws
  have hvals : ∃ ys, q.out.vtdBuffer.values = s1.out.vtdBuffer.values ++
      ((⟨.attrVal, s1.lastOffset, s1.length1, s1.depth⟩ : Rec).word :: ys) := by
    obtain ⟨xs, hx⟩ := hAF.out
    rw [hx, emit_values hout2]
    refine ⟨xs.map Rec.word, ?_⟩
    show s2.out.vtdBuffer.values ++ _ = _
    rw [hs2]
    show (Parser.emit _ s1.out _).vtdBuffer.values ++ _ = _
    rw [emit_values hb1.out, List.append_assoc]
    rfl
  obtain ⟨ys, hys⟩ := hvals
  obtain ⟨f1, f2, f3⟩ := rec_fields (x := ⟨.attrVal, s1.lastOffset, s1.length1, s1.depth⟩) (by show 0 ≤ s1.lastOffset; omega)
    (by show s1.lastOffset < 2 ^ 31; omega) (by show 0 ≤ s1.length1; omega) hlen
  have hv : s1.at_.isNs = true → s1.at_.defaultNs = true ∧
      (29 ≤ s1.length1 → c.xmlDoc[s1.lastOffset.toNat]? ≠ some (ch% '&')) := by
    rw [e4]
    intro hi
    obtain ⟨-, hdn, vs, w, hvs, hwt⟩ := hJ.isNs hi
    refine ⟨hdn, fun h29 => ?_⟩
    rw [e5, hvs, List.append_assoc, List.singleton_append] at hys
    have := hC.value vs.length w _ (by rw [hys, List.getElem?_append_right (by omega), Nat.sub_self]; rfl)
      (by rw [hys, List.getElem?_append_right (by omega), Nat.add_sub_cancel_left]; rfl) hwt (by rw [f3]; show 29 ≤ s1.length1.toNat; omega)
    rw [f2] at this
    exact this
  have hsame := pr_nice.same hr1
  have hr1' := hr1
  obtain ⟨ht1, a1, a2, a3, a4, a5⟩ := hr1
  have hright : attrValNs t1 = .ok () t1 := by
    refine attrValNs_right (c := c) ?_ ?_ ?_ ?_ ?_ ?_
    · rw [ht1]; exact hb1.doc
    · rw [ht1]; exact hb1.enc
    · rw [hsame.lastOffset]; omega
    · rw [hsame.lastOffset, hsame.length1]; omega
    · rw [ht1]; exact a5
    · rw [hsame.isNs, hsame.defaultNs, hsame.length1, hsame.lastOffset]
      exact hv
  rw [M.bind_apply, hright, Res.andThen_ok]
  simp only [attrValRest]
  obtain ⟨t2, g2, hr2⟩ := sim_ok' (writeVtdWithLengthCheck_sim pr_nice _ _) hr1' h2
  rw [M.bind_apply, g2, Res.andThen_ok]
  obtain ⟨t', n', g3, hr3, hN3⟩ := valNext_pr (st := st) (q := q) hr2 hN hm
  exact ⟨t', n', g3, hr3, hN3, hAF.isNs⟩

end Plain
end Parser
end GoVtd
