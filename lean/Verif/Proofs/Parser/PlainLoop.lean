import Verif.Proofs.Parser.PlainVal

/-!
# A document without prefixes, with and without namespace awareness
-/

namespace GoVtd
namespace Parser
namespace Plain
open Paged Grammar Two Ev

variable {f : Nat} {n n' : ParserNs} {s t : Parser} {c : ParserCfg}

/-! ## A step adds records -/

structure GFrame (s s' : Parser) : Prop where
  ok : OutOk s'.out
  enc : s'.enc = stdEnc
  ws : s'.ws = false
  cfg : s'.cfg = s.cfg
  out : ∃ xs, s'.out = Parser.emit s.cfg.shallowDepth s.out xs

def GF (s s' : Parser) : Prop := s.cfg.nsAware = false → OutOk s.out → s.enc = stdEnc → s.ws = false → GFrame s s'

theorem gf_pre : Pre GF where
  refl s _ h1 h2 h3 := ⟨h1, h2, h3, rfl, [], rfl⟩
  trans := by
    intro a b c h h' h0 h1 h2 h3
    obtain ⟨x1, x2, x3, x4, xs, x5⟩ := h h0 h1 h2 h3
    obtain ⟨y1, y2, y3, y4, ys, y5⟩ := h' (by rw [x4]; exact h0) x1 x2 x3
    exact ⟨y1, y2, y3, y4.trans x4, xs ++ ys, by rw [y5, x4, x5, emit_append]⟩

theorem GF.of {α : Type} {m : M Parser α} (h : Fr AF m) : Fr GF m :=
  Two.Fr.weaken h fun _ _ h _ h1 h2 h3 => by
    obtain ⟨x1, x2, x3, x4, _, _, x5⟩ := h h1 h2 h3
    exact ⟨x1, x2, x3, x4, x5⟩

theorem GF.ofAO {α : Type} {m : M Parser α} (h : Fr AO m) : Fr GF m :=
  Two.Fr.weaken h fun _ _ h h0 h1 h2 h3 => by
    obtain ⟨x1, x2, x3, x4, _, _, x5⟩ := h h0 h1 h2 h3
    exact ⟨x1, x2, x3, x4, x5⟩

theorem modify_gf {g : Parser → Parser} (h : ∀ s, (g s).out = s.out ∧ (g s).enc = s.enc ∧ (g s).ws = s.ws ∧
    (g s).cfg = s.cfg) : Fr GF (M.modify g) :=
  Fr.modify fun s _ h1 h2 h3 => ⟨(h s).1 ▸ h1, (h s).2.1.trans h2, (h s).2.2.1.trans h3, (h s).2.2.2, [], (h s).1⟩

theorem attrNsTest_gf : Fr GF attrNsTest := by
  unfold attrNsTest
  refine Fr.bind gf_pre (Fr.get gf_pre) fun p => Fr.ite ?_ (Fr.pure gf_pre _)
  refine Fr.bind gf_pre (GF.of (by af)) fun b => Fr.ite ?_ (Fr.pure gf_pre _)
  refine Fr.bind gf_pre (GF.of (by af)) fun _ => Fr.bind gf_pre (Fr.get gf_pre) fun p => Fr.ite ?_ (Fr.ite ?_ (Fr.pure gf_pre _))
  · exact modify_gf fun _ => ⟨rfl, rfl, rfl, rfl⟩
  · exact modify_gf fun _ => ⟨rfl, rfl, rfl, rfl⟩

theorem processAttrName_gf : Fr GF processAttrName := by
  rw [processAttrName_eq]
  refine Fr.bind gf_pre attrNsTest_gf fun _ => GF.of ?_
  unfold nameRest
  af

theorem attrValLoop_af (q k : Nat) : Fr AF (attrValLoop q k) := by
  induction k with
  | zero => unfold attrValLoop; af
  | succ k ih => unfold attrValLoop; af

theorem processAttrVal_gf : Fr GF processAttrVal := by
  rw [processAttrVal_eq]
  refine Fr.bind gf_pre (GF.of (by have h := attrValLoop_af; unfold attrValRead; af; exact h _ _)) fun _ => ?_
  refine Fr.bind gf_pre (GF.ofAO (AO.id fun s h => attrValNs_left h)) fun _ => ?_
  show Fr GF (do
    writeVtdWithLengthCheck .attrVal AttrValueTooLong
    M.modify fun p => { p with at_ := { p.at_ with isXml := false, isNs := false } }
    valNext2)
  refine Fr.bind gf_pre (GF.of (by af)) fun _ => ?_
  exact Fr.bind gf_pre (modify_gf fun _ => ⟨rfl, rfl, rfl, rfl⟩) fun _ => GF.ofAO valNext2_ao

theorem step_af {st : PState} (h1 : st ≠ .attrName) (h2 : st ≠ .attrVal) : Fr AF (step st) := by
  cases st with
  | docType => exact AF.quiet processDocType_qf
  | docStart => exact AF.quiet processDocStart_qf
  | docEnd => exact AF.quiet processDocEnd_qf
  | ltSeen => exact processLtSeen_af
  | tagStart => exact processStartTag_af
  | tagEnd => exact processEndTag_af
  | attrName => exact absurd rfl h1
  | attrVal => exact absurd rfl h2
  | decAttrName => exact AF.quiet processDecAttrName_qf
  | text => exact AF.quiet processText_qf
  | piTag => exact AF.quiet processPiTag_qf
  | piVal => exact AF.quiet processPiVal_qf
  | piEnd => exact AF.quiet processPiEnd_qf
  | startComment => exact AF.quiet processStartComment_qf
  | endComment => exact AF.quiet processEndComment_qf
  | cdata => exact AF.quiet processCdata_qf
  | invalid => exact parseErr_fr af_pre _

theorem step_gf (st : PState) : Fr GF (step st) := by
  by_cases h1 : st = .attrName
  · subst h1; exact processAttrName_gf
  by_cases h2 : st = .attrVal
  · subst h2; exact processAttrVal_gf
  exact GF.of (step_af h1 h2)

theorem GFrame.mem {s' : Parser} (h : GFrame s s') (h1 : OutOk s.out) {w : BitVec 64} (hw : w ∈ s.out.vtdBuffer.values) :
    w ∈ s'.out.vtdBuffer.values := by
  obtain ⟨xs, hx⟩ := h.out
  rw [hx, emit_values h1]
  exact List.mem_append_left _ hw

/-! ## Only the name of an attribute leads to its value -/

def notVal : PState → Bool
  | .attrVal => false
  | _ => true

theorem synced_notVal {m : M Parser PState} (h : Ends synced m) : Ends notVal m := fun s st s' hm => by
  have := h s st s' hm
  cases st <;> first | rfl | cases this

theorem after_notVal {m : M Parser PState} (h : Ends Ev.after m) : Ends notVal m := fun s st s' hm => by
  have := h s st s' hm
  cases st <;> first | rfl | cases this

theorem tail_notVal : Ends notVal processElementTail := by
  have h := synced_notVal afterMarkup_ends
  have h' := fun c => synced_notVal (getNextProcessStateFromChar_ends c)
  unfold processElementTail
  repeat' (first
    | assumption
    | exact h' _
    | ((with_reducible refine ends_pure ?_); rfl)
    | with_reducible exact ends_raise _
    | with_reducible exact ends_parseErr _
    | with_reducible refine ends_bind fun _ => ?_
    | with_reducible refine ends_ite ?_ ?_)

theorem startTagEnd_notVal : Ends notVal startTagEnd := by
  have h := tail_notVal
  unfold startTagEnd; ends

theorem attrValEnd_notVal : Ends notVal attrValEnd := by
  have h := tail_notVal
  unfold attrValEnd; ends

theorem step_notVal {st : PState} (h : st ≠ .attrName) : Ends notVal (step st) := by
  have hT := tail_notVal
  have hS := startTagEnd_notVal
  have hV := attrValEnd_notVal
  have hQ : Ends notVal processQmSeen := fun s st s' hm => by
    have := processQmSeen_ends s st s' hm
    cases st <;> first | rfl | cases this
  have hX := synced_notVal processExSeen_ends
  cases st with
  | docType => exact synced_notVal processDocType_ends
  | docStart => unfold step processDocStart; ends
  | docEnd => exact after_notVal processDocEnd_ends
  | ltSeen => unfold step processLtSeen; ends
  | tagStart => unfold step processStartTag; ends
  | tagEnd => 
    have h := synced_notVal afterMarkup_ends
    have h' := fun c => synced_notVal (getNextProcessStateFromChar_ends c)
    unfold step processEndTag
    ends
  | attrName => exact absurd rfl h
  | attrVal => unfold step processAttrVal; ends
  | decAttrName => exact synced_notVal processDecAttrName_ends
  | text => exact synced_notVal processText_ends
  | piTag => exact synced_notVal processPiTag_ends
  | piVal => exact synced_notVal processPiVal_ends
  | piEnd => exact after_notVal processPiEnd_ends
  | startComment => exact synced_notVal processStartComment_ends
  | endComment => exact after_notVal processEndComment_ends
  | cdata => exact synced_notVal processCdata_ends
  | invalid => exact ends_parseErr _

/-! ## The step -/

/-- The first namespace buffer is empty until a start tag has been recorded. -/
def W (n : ParserNs) (s : Parser) : Prop := n.nsBuffer1.size ≠ 0 → ∃ w ∈ s.out.vtdBuffer.values, IsStart w

section
variable {o0 : ParserOut} {es : List Mark} {stk : List (Nat × Nat)} {recs : List Rec} {st : PState}

theorem recs_start (h : G c o0 st s es stk recs) (ho : OutOk o0) (h0 : ∀ w ∈ o0.vtdBuffer.values, ¬ IsStart w) :
    (∃ w ∈ s.out.vtdBuffer.values, IsStart w) ↔ es.filterMap Mark.startOf ≠ [] := by
  rw [← h.k.starts, h.k.out, emit_values ho]
  constructor
  · rintro ⟨w, hw, hs⟩ hn
    rcases List.mem_append.mp hw with hw | hw
    · exact h0 w hw hs
    · obtain ⟨x, hx, rfl⟩ := List.mem_map.mp hw
      have ht := (small_start (h.k.small x hx)).1 hs
      have : (x.off.toNat, x.depth.toNat) ∈ recs.filterMap recStart :=
        List.mem_filterMap.mpr ⟨x, hx, by simp [recStart, ht]⟩
      rw [hn] at this
      cases this
  · intro hn
    obtain ⟨y, hy⟩ := List.exists_mem_of_ne_nil _ hn
    obtain ⟨x, hx, hxy⟩ := List.mem_filterMap.mp hy
    refine ⟨x.word, List.mem_append_right _ (List.mem_map_of_mem hx), (small_start (h.k.small x hx)).2 ?_⟩
    simp only [recStart] at hxy
    split at hxy
    · assumption
    · cases hxy

theorem quiet_pr (h : G c o0 st s es stk recs) (h1 : st ≠ .attrName) (h2 : st ≠ .attrVal) 
    (hs : Sim (PR f n) False False (step st) (step st)) (hr : PR f n s t) (hN : N n) (hW : W n s) (hJ : J c st s)
    {st' : PState} {q : Parser} (hm : step st s = .ok st' q) :
    ∃ t' n', step st t = .ok st' t' ∧ PR f n' q t' ∧ N n' ∧ W n' q ∧ q.at_.isNs = false := by
  have hB := h.inv.base
  obtain ⟨t', k1, k2⟩ := sim_ok' hs hr hm
  have hA := af_ok (step_af h1 h2) hm hB.out hB.enc hB.ws
  refine ⟨t', n, k1, k2, hN, fun hn => ?_, ?_⟩
  · obtain ⟨w, hw, hs⟩ := hW hn
    exact ⟨w, hA.mem hB.out hw, hs⟩
  · rw [hA.isNs]
    cases hb : s.at_.isNs with
    | false => rfl
    | true => exact absurd (hJ.isNs hb).1 h2

theorem step_pr (h : G c o0 st s es stk recs) (ho : OutOk o0) (h0 : ∀ w ∈ o0.vtdBuffer.values, ¬ IsStart w)
    (hr : PR f n s t) (hN : N n) (hW : W n s) (hJ : J c st s)
    {st' : PState} {q : Parser} (hm : step st s = .ok st' q) (hC : Clean c q.out) :
    ∃ t' n', step st t = .ok st' t' ∧ PR f n' q t' ∧ N n' ∧ W n' q ∧ J c st' q := by
  have hB := h.inv.base
  have hG : GFrame s q := by
    have := step_gf st s
    rw [hm] at this
    exact this hr.off hB.out hB.enc hB.ws
  by_cases h1 : st = .attrName
  · subst h1
    have hns : s.at_.isNs = false := by
      cases hb : s.at_.isNs with
      | false => rfl
      | true => exact absurd (hJ.isNs hb).1 (by decide)
    obtain ⟨t', k1, k2, k3⟩ := attrName_pr h hr hns hm hC
    refine ⟨t', n, k1, k2, hN, fun hn => ?_, k3⟩
    obtain ⟨w, hw, hs⟩ := hW hn
    exact ⟨w, hG.mem hB.out hw, hs⟩
  suffices ∃ t' n', step st t = .ok st' t' ∧ PR f n' q t' ∧ N n' ∧ W n' q ∧ q.at_.isNs = false by
    obtain ⟨t', n', k1, k2, k3, k4, k5⟩ := this
    have hv := step_notVal h1 _ _ _ hm
    exact ⟨t', n', k1, k2, k3, k4, ⟨(fun hh => by rw [k5] at hh; cases hh), (fun hh => by rw [hh] at hv; cases hv)⟩⟩
  by_cases h2 : st = .attrVal
  · subst h2
    obtain ⟨t', n', k1, k2, k3, k4⟩ := attrVal_pr h hr hN hJ hm hC
    refine ⟨t', n', k1, k2, k3, fun _ => ?_, k4⟩
    obtain ⟨⟨o, len, stk', -, hl⟩, -⟩ := h.attr (.inr rfl)
    obtain ⟨w, hw, hs⟩ := (recs_start h ho h0).2 (by
      have := List.mem_of_getLast? hl
      intro hn
      have : (o, stk'.length) ∈ es.filterMap Mark.startOf := List.mem_filterMap.mpr ⟨_, this, rfl⟩
      rw [hn] at this
      cases this)
    exact ⟨w, hG.mem hB.out hw, hs⟩
  by_cases h3 : st = .tagStart
  · subst h3
    have hns : q.at_.isNs = false := by
      have hA := af_ok (step_af h1 h2) hm hB.out hB.enc hB.ws
      rw [hA.isNs]
      cases hb : s.at_.isNs with
      | false => rfl
      | true => exact absurd (hJ.isNs hb).1 h2
    obtain ⟨t', n', k1, k2, k3, k4⟩ := startTag_pr h hr hN (fun hn => by
      have hes := (recs_start h ho h0).1 (hW hn)
      have hstk : stk ≠ [] := by
        intro hn
        have := h.root.2 ⟨hn, fun he => hes (by rw [he]; rfl)⟩
        cases this
      have hd := h.k.depth
      simp only [if_true] at hd
      have : 0 < stk.length := List.length_pos_iff.mpr hstk
      omega) hm hC
    exact ⟨t', n', k1, k2, k3, fun _ => k4, hns⟩
  refine quiet_pr h h1 h2 ?_ hr hN hW hJ hm
  have hR : Nice (PR f n) False := pr_nice
  cases st with
  | docType => exact processDocType_sim hR
  | docStart => exact processDocStart_sim hR
  | docEnd => exact processDocEnd_sim hR
  | ltSeen => exact processLtSeen_sim hR
  | tagStart => exact absurd rfl h3
  | tagEnd => exact processEndTag_sim hR
  | attrName => exact absurd rfl h1
  | attrVal => exact absurd rfl h2
  | decAttrName => exact processDecAttrName_sim hR
  | text => exact processText_sim hR
  | piTag => exact processPiTag_sim hR
  | piVal => exact processPiVal_sim hR
  | piEnd => exact processPiEnd_sim hR
  | startComment => exact processStartComment_sim hR
  | endComment => exact processEndComment_sim hR
  | cdata => exact processCdata_sim hR
  | invalid => unfold step; sim hR

end

/-! ## The loop -/

theorem clean_prefix {doc : List UInt8} {vs xs : List (BitVec 64)} (h : NoPrefixes doc (vs ++ xs)) : NoPrefixes doc vs where
  name w hw := h.name w (List.mem_append_left _ hw)
  level w hw := h.level w (List.mem_append_left _ hw)
  value i w v hw hv := by
    refine h.value i w v ?_ ?_
    · rw [List.getElem?_append_left (List.getElem?_eq_some_iff.mp hw).1]; exact hw
    · rw [List.getElem?_append_left (List.getElem?_eq_some_iff.mp hv).1]; exact hv

theorem Clean.before {o o' : ParserOut} (h : Clean c o') (ho : OutOk o) {d : Bool} {xs : List Rec}
    (he : o'.vtdBuffer.values = (Parser.emit d o xs).vtdBuffer.values) : Clean c o := by
  unfold Clean at h ⊢
  rw [he, emit_values ho] at h
  exact clean_prefix h

theorem mainLoop_key (k : Nat) (st : PState) (s : Parser) : mainLoop (k + 1) st s =
    match step st s with
    | .ok st' s' => mainLoop k st' s'
    | .err e s' => if e.as .eof ∧ st = .docEnd then
        wrapInternal "failed to finish-up document parsing" finishUp s' else .err e s'
    | .panic => .panic
    | .diverge => .diverge := by
  simp only [mainLoop, M.bind_apply, M.catchErr_apply]
  cases step st s with
  | err e s' =>
    simp only [Res.andThen, Res.handle, onStepErr]
    by_cases hc : e.as .eof ∧ st = .docEnd
    · simp only [if_pos hc, M.bind_apply]
      cases wrapInternal "failed to finish-up document parsing" finishUp s' <;> rfl
    · simp only [if_neg hc]; rfl
  | _ => rfl

/-- The values of the records at the end of the loop extend those at its start. -/
theorem mainLoop_values {o0 : ParserOut} (k : Nat) {st : PState} {cl : List Nat} {s' : Parser} (h : Good c o0 cl st s)
    (hoff : s.cfg.nsAware = false) (hm : mainLoop k st s = .ok () s') :
    ∃ xs, s'.out.vtdBuffer.values = s.out.vtdBuffer.values ++ xs := by
  induction k generalizing st s cl with
  | zero => cases hm
  | succ k ih =>
    obtain ⟨es, stk, recs, rfl, h⟩ := h
    have hB := h.inv.base
    have hg := step_gf st s
    rw [mainLoop_key] at hm
    cases hr : step st s with
    | ok st' q =>
      rw [hr] at hm hg
      have hg : GFrame s q := hg hoff hB.out hB.enc hB.ws
      obtain ⟨xs, hx⟩ := hg.out
      obtain ⟨ys, hy⟩ := ih ((step_good h).eq hr) (by rw [hg.cfg]; exact hoff) hm
      exact ⟨_, by rw [hy, hx, emit_values hB.out, List.append_assoc]⟩
    | err e q =>
      rw [hr] at hm hg
      have hg : GFrame s q := hg hoff hB.out hB.enc hB.ws
      obtain ⟨xs, hx⟩ := hg.out
      simp only at hm
      split at hm
      · simp only [wrapInternal, M.bind_apply, M.catchErr_apply, finishUp_go hg.ok, Res.handle_ok, Res.andThen_ok,
          M.pure_apply] at hm
        cases hm
        exact ⟨_, by rw [finish_vtd, hx, emit_values hB.out]⟩
      · cases hm
    | panic => rw [hr] at hm; cases hm
    | diverge => rw [hr] at hm; cases hm

theorem mainLoop_pr {o0 : ParserOut} (ho : OutOk o0) (h0 : ∀ w ∈ o0.vtdBuffer.values, ¬ IsStart w) {k m : Nat} (hk : k ≤ m)
    {st : PState} {cl : List Nat} {s' : Parser} (h : Good c o0 cl st s)
    (hr : PR f n s t) (hN : N n) (hW : W n s) (hJ : J c st s)
    (hm : mainLoop k st s = .ok () s') (hC : Clean c s'.out) :
    ∃ t', mainLoop m st t = .ok () t' ∧ t'.out = s'.out := by
  induction k generalizing m st s t cl n with
  | zero => cases hm
  | succ k ih =>
    obtain ⟨m, rfl⟩ : ∃ j, m = j + 1 := ⟨m - 1, by omega⟩
    obtain ⟨es, stk, recs, rfl, h⟩ := h
    have hB := h.inv.base
    rw [mainLoop_key] at hm ⊢
    cases hs : step st s with
    | ok st' q =>
      rw [hs] at hm
      have hgood := (step_good h).eq hs
      have hoff : q.cfg.nsAware = false := by
        have hg := step_gf st s
        rw [hs] at hg
        rw [(hg hr.off hB.out hB.enc hB.ws).cfg]
        exact hr.off
      obtain ⟨xs, hx⟩ := mainLoop_values k hgood hoff hm
      have hCq : Clean c q.out := by
        unfold Clean at hC ⊢
        rw [hx] at hC
        exact clean_prefix hC
      obtain ⟨t1, n1, k1, k2, k3, k4, k5⟩ := step_pr h ho h0 hr hN hW hJ hs hCq
      rw [k1]
      exact ih (by omega) hgood k2 k3 k4 k5 hm
    | err e q =>
      rw [hs] at hm
      simp only at hm
      by_cases hd : e.as .eof ∧ st = .docEnd
      · rw [if_pos hd] at hm
        have hsim : RelRes (PR f n) False False (step st s) (step st t) := by
          rw [hd.2]
          exact processDocEnd_sim pr_nice s t hr
        rw [hs] at hsim
        obtain h | ⟨t1, k1, k2⟩ := hsim
        · exact h.elim
        rw [k1]
        simp only [if_pos hd]
        obtain ⟨t', g1, g2⟩ := sim_ok' (Sim.wrapInternal _ (finishUp_sim pr_nice)) k2 hm
        exact ⟨t', g1, by rw [g2.eq]; rfl⟩
      · rw [if_neg hd] at hm; cases hm
    | panic => rw [hs] at hm; cases hm
    | diverge => rw [hs] at hm; cases hm

end Plain
end Parser
end GoVtd
