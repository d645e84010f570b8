import Verif.Proofs.Parser.Longer
import Verif.Proofs.Parser.WritesLoop
import Verif.Proofs.Parser.WindowParse

/-!
# A whole parse and the parse of a longer document
-/

namespace GoVtd
namespace Parser
namespace Longer
open Paged

section
variable {α β : Type} {d : List UInt8}

theorem startTagLoop_long {n m : Nat} (hn : n ≤ m) : Sim d (startTagLoop n) (startTagLoop m) := by
  induction n generalizing m with
  | zero => simp only [startTagLoop]; exact Sim.diverge
  | succ n ih =>
    obtain ⟨m, rfl⟩ : ∃ k, m = k + 1 := ⟨m - 1, by omega⟩
    have ih := @ih m
    simp only [startTagLoop]; siml ih
macro_rules | `(tactic| siml_lemma) => `(tactic| (refine startTagLoop_long ?_ ; first | assumption | exact Nat.le_refl _))

theorem processStartTag_long : Sim d processStartTag processStartTag := by
  unfold processStartTag; siml

theorem checkAttrUniqueness_long : Sim d checkAttrUniqueness checkAttrUniqueness := by
  unfold checkAttrUniqueness; siml
macro_rules | `(tactic| siml_lemma) => `(tactic| apply checkAttrUniqueness_long)

theorem processAttrName_long : Sim d processAttrName processAttrName := by
  unfold processAttrName; siml

theorem attrValEnd_long : Sim d attrValEnd attrValEnd := by
  unfold attrValEnd; siml
macro_rules | `(tactic| siml_lemma) => `(tactic| apply attrValEnd_long)

theorem processAttrVal_long : Sim d processAttrVal processAttrVal := by
  unfold processAttrVal; siml

theorem processEndTag_long : Sim d processEndTag processEndTag := by
  unfold processEndTag
  refine Sim.bind markOffset_long fun _ => Sim.bind_get fun s o hf hx => Sim.bind (Sim.index_same _ _) fun _ =>
    Sim.bind (setOffset_long _) fun _ => Sim.bind_get fun s o hf hx => ?_
  by_cases h : s.offset ≥ s.cfg.endOffset
  · rw [if_pos h]; exact Sim.eof _
  · have h' : ¬ (long d o s).offset ≥ (long d o s).cfg.endOffset := by
      intro h'
      have h' : s.offset ≥ s.cfg.endOffset + d.length := h'
      omega
    rw [if_neg h, if_neg h', long_lastOffset]
    siml

theorem step_long {st : PState} (h : st ≠ .docStart) : Sim d (step st) (step st) := by
  cases st with
  | docStart => exact absurd rfl h
  | docType => exact processDocType_long
  | docEnd => exact processDocEnd_long
  | ltSeen => exact processLtSeen_long
  | tagStart => exact processStartTag_long
  | tagEnd => exact processEndTag_long
  | attrName => exact processAttrName_long
  | attrVal => exact processAttrVal_long
  | decAttrName => exact processDecAttrName_long
  | text => exact processText_long
  | piTag => exact processPiTag_long
  | piVal => exact processPiVal_long
  | piEnd => exact processPiEnd_long
  | startComment => exact processStartComment_long
  | endComment => exact processEndComment_long
  | cdata => exact processCdata_long
  | invalid => exact parseErr_long _

/-- Every state but the first one. -/
def later : PState → Bool
  | .docStart => false
  | _ => true

theorem later_of {S : PState → Bool} {m : M Parser PState} (h : Ev.Ends S m) (hS : S .docStart = false) :
    Ev.Ends later m := by
  intro s st s' hm
  have := h s st s' hm
  cases st <;> first | rfl | (rw [hS] at this; cases this)

/-- The first state does not come back. -/
theorem step_later (st : PState) : Ev.Ends later (step st) := by
  have hM := later_of Ev.afterMarkup_ends rfl
  have hN := fun c => later_of (Ev.getNextProcessStateFromChar_ends c) rfl
  have hQ := later_of Ev.processQmSeen_ends rfl
  have hX := later_of Ev.processExSeen_ends rfl
  have hT : Ev.Ends later processElementTail := by
    unfold processElementTail; open Ev in ends
  have hA : Ev.Ends later attrValEnd := by unfold attrValEnd; open Ev in ends
  have hS : Ev.Ends later startTagEnd := by unfold startTagEnd; open Ev in ends
  have hE : Ev.Ends later attrNameEnd := by unfold attrNameEnd; open Ev in ends
  cases st with
  | docType => exact later_of Ev.processDocType_ends rfl
  | docStart => unfold step processDocStart; open Ev in ends
  | docEnd => exact later_of Ev.processDocEnd_ends rfl
  | ltSeen => unfold step processLtSeen; open Ev in ends
  | tagStart => unfold step processStartTag; open Ev in ends
  | tagEnd => unfold step processEndTag; open Ev in ends
  | attrName => unfold step processAttrName; open Ev in ends
  | attrVal => unfold step processAttrVal; open Ev in ends
  | decAttrName => exact later_of Ev.processDecAttrName_ends rfl
  | text => exact later_of Ev.processText_ends rfl
  | piTag => exact later_of Ev.processPiTag_ends rfl
  | piVal => exact later_of Ev.processPiVal_ends rfl
  | piEnd => exact later_of Ev.processPiEnd_ends rfl
  | startComment => exact later_of Ev.processStartComment_ends rfl
  | endComment => exact later_of Ev.processEndComment_ends rfl
  | cdata => exact later_of Ev.processCdata_ends rfl
  | invalid => exact Ev.ends_parseErr _

/-- White space that is followed by something else is skipped without an error. -/
theorem ws_noErr {n : Nat} {p : Parser} (hk : p.rd.kind = .utf8) (h0 : 0 ≤ p.rd.offset)
    (h1 : p.rd.endOffset ≤ p.rd.xmlDoc.length) {i : Int} (hi : p.rd.offset ≤ i) (hi' : i < p.rd.endOffset) {b : UInt8}
    (hb : p.rd.xmlDoc[i.toNat]? = some b) (hs : isSpaceChar b.toNat = false) (e : GoErr) (q : Parser) :
    nextCharAfterWsLoop n p ≠ .err e q := by
  induction n generalizing p with
  | zero => exact nofun
  | succ n ih =>
    simp only [nextCharAfterWsLoop, M.bind_apply]
    rw [nextChar_rd hk h0 h1, dif_pos (by omega)]
    simp only [Res.andThen_ok, M.get_apply, M.bind_apply, M.ite_apply]
    split
    · rename_i hc
      refine ih (p := p.mv _ _ _) hk (by show 0 ≤ p.rd.offset + 1; omega) h1 ?_ hi' hb
      show p.rd.offset + 1 ≤ i
      by_cases hlt : p.rd.offset = i
      · exfalso
        subst hlt
        have h2 := (List.getElem?_eq_some_iff.mp hb).2
        have hc : isSpaceChar (p.rd.xmlDoc[p.rd.offset.toNat]'(by omega)).toNat = true := hc
        rw [h2, hs] at hc
        cases hc
      · omega
    · exact nofun

theorem Sim.run {α : Type} {m m' : M Parser α} (h : Sim d m m') {s t : Parser} (hr : Rel d s t) :
    RelRes d (m s) (m' t) := h s t hr

/-- The first step, when the document does not consist of white space. -/
theorem docStart_long {s t : Parser} (h : Rel d s t) (hk : s.rd.kind = .utf8) (h0 : 0 ≤ s.rd.offset)
    (h1 : s.rd.endOffset ≤ s.rd.xmlDoc.length) {i : Int} (hi : s.rd.offset ≤ i) (hi' : i < s.rd.endOffset) {b : UInt8}
    (hb : s.rd.xmlDoc[i.toNat]? = some b) (hs : isSpaceChar b.toNat = false) :
    RelRes d (processDocStart s) (processDocStart t) := by
  have hn := nextChar_long (d := d) s t h
  unfold processDocStart
  simp only [M.bind_apply (m := nextChar)]
  rw [nextChar_rd hk h0 h1, dif_pos (by omega)] at hn ⊢
  obtain ⟨t1, ht, hr⟩ := hn
  rw [ht]
  simp only [Res.andThen_ok]
  have hw : ∀ c : isSpaceChar (s.rd.xmlDoc[s.rd.offset.toNat]'(by omega)).toNat = true, ∀ e q,
      nextCharAfterWs (s.mv (s.rd.offset + 1) (s.rd.offset + 1) (s.rd.xmlDoc[s.rd.offset.toNat]'(by omega)).toNat) ≠
        .err e q := by
    intro hc e q
    refine ws_noErr (p := s.mv (s.rd.offset + 1) (s.rd.offset + 1) (s.rd.xmlDoc[s.rd.offset.toNat]'(by omega)).toNat) hk (by show 0 ≤ s.rd.offset + 1; omega) h1 ?_ hi' hb hs e q
    show s.rd.offset + 1 ≤ i
    by_cases hlt : s.rd.offset = i
    · exfalso
      subst hlt
      have h2 := (List.getElem?_eq_some_iff.mp hb).2
      rw [h2, hs] at hc
      cases hc
    · omega
  generalize hq : s.mv (s.rd.offset + 1) (s.rd.offset + 1) (s.rd.xmlDoc[s.rd.offset.toNat]'(by omega)).toNat = s1 at hr hw ⊢
  have hcc : (s.rd.xmlDoc[s.rd.offset.toNat]'(by omega)).toNat = s1.currentChar := by rw [← hq]; rfl
  rw [hcc] at hw
  clear hcc hq ht
  obtain ⟨o, rfl, ho⟩ := hr
  simp only [M.bind_apply (m := M.get), M.get_apply, Res.andThen_ok]
  dsimp +instances only [long_currentChar]
  simp only [M.ite_apply]
  have hr : Rel d s1 (long d o s1) := ⟨o, rfl, ho⟩
  by_cases hlt : s1.currentChar = ch% '<'
  · rw [if_pos hlt, if_pos hlt]
    refine Sim.run ?_ hr
    siml
  · rw [if_neg hlt, if_neg hlt]
    by_cases hc : s1.currentChar = ch% ' ' ∨ s1.currentChar = ch% '\t' ∨ s1.currentChar = ch% '\n' ∨
      s1.currentChar = ch% '\r'
    · rw [if_pos hc, if_pos hc]
      have hc : isSpaceChar s1.currentChar = true := by
        obtain hc | hc | hc | hc := hc <;> rw [hc] <;> rfl
      have hl := nextCharAfterWs_long (d := d) s1 _ hr
      simp only [M.bind_apply, M.catchErr_apply]
      cases hm : nextCharAfterWs s1 with
      | err e q => exact absurd hm (hw hc e q)
      | panic => trivial
      | diverge => trivial
      | ok u s2 =>
        rw [hm] at hl
        obtain ⟨t2, ht2, hr2⟩ := hl
        rw [ht2]
        obtain ⟨o2, rfl, ho2⟩ := hr2
        simp only [Res.andThen_ok, M.pure_apply, Res.handle]
        refine Sim.run ?_ ⟨o2, rfl, ho2⟩
        siml
    · rw [if_neg hc, if_neg hc]; exact ⟨_, rfl, hr⟩

/-- The right run ends in the same error as the left one, unless that is an end-of-file error. -/
def Fin (r r' : Res Parser Unit) : Prop := ∀ e q, r = .err e q → e.as .eof = true ∨ ∃ q', r' = .err e q'

theorem mainLoop_key (k : Nat) (st : PState) (s : Parser) : mainLoop (k + 1) st s =
    match step st s with
    | .ok st' s' => mainLoop k st' s'
    | .err e s' => if e.as .eof ∧ st = .docEnd then
        wrapInternal "failed to finish-up document parsing" finishUp s' else .err e s'
    | .panic => .panic
    | .diverge => .diverge := by
  simp only [mainLoop, M.bind_apply, M.catchErr_apply]
  cases step st s with
  | err e s' =>
    simp only [Res.andThen, Res.handle, onStepErr]
    by_cases hc : e.as .eof ∧ st = .docEnd
    · simp only [if_pos hc, M.bind_apply]
      cases wrapInternal "failed to finish-up document parsing" finishUp s' <;> rfl
    · simp only [if_neg hc]; rfl
  | _ => rfl

theorem finishUp_go {s : Parser} (h : OutOk s.out) : ∃ q, finishUp s = .ok () q := by
  simp only [finishUp, M.bind_apply, M.get_apply, Res.andThen_ok, M.ite_apply, M.pure_apply, flushLeaf_go h]
  repeat' split
  all_goals exact ⟨_, rfl⟩

theorem mainLoop_step_fin {n m : Nat} {st : PState} {s t : Parser} (hs : RelRes d (step st s) (step st t)) (ho : OutOk s.out)
    (ih : ∀ st' s' t', later st' = true → Rel d s' t' → Fin (mainLoop n st' s') (mainLoop m st' t')) :
    Fin (mainLoop (n + 1) st s) (mainLoop (m + 1) st t) := by
  rw [mainLoop_key, mainLoop_key]
  cases hm : step st s with
  | ok st' s' =>
    rw [hm] at hs
    obtain ⟨t', ht, hr⟩ := hs
    rw [ht]
    exact ih _ _ _ (step_later st s st' s' hm) hr
  | panic => intro e q he; simp only at he; cases he
  | diverge => intro e q he; simp only at he; cases he
  | err e s' =>
    rw [hm] at hs
    by_cases hd : e.as .eof ∧ st = .docEnd
    · simp only [if_pos hd]
      have hf := Wr.docEnd_out s
      obtain ⟨-, rfl⟩ := hd
      have hm' : processDocEnd s = .err e s' := hm
      rw [hm'] at hf
      have hf : s'.out = s.out := hf
      obtain ⟨q, hq⟩ := finishUp_go (s := s') (hf ▸ ho)
      intro e' q' he
      simp only [wrapInternal, M.catchErr_apply, hq] at he
      cases he
    · simp only [if_neg hd]
      intro e' q' he
      cases he
      obtain hs | ⟨t', ht, hr⟩ := hs
      · exact .inl hs
      · rw [ht]
        simp only [if_neg hd]
        exact .inr ⟨_, rfl⟩

theorem Rel.ok {s t : Parser} (h : Rel d s t) : OutOk s.out := h.choose_spec.2.1

theorem mainLoop_long {n m : Nat} (hn : n ≤ m) {st : PState} (hst : later st = true) {s t : Parser} (h : Rel d s t) :
    Fin (mainLoop n st s) (mainLoop m st t) := by
  induction n generalizing m st s t with
  | zero => intro e q he; simp only [mainLoop] at he; cases he
  | succ n ih =>
    obtain ⟨m, rfl⟩ : ∃ k, m = k + 1 := ⟨m - 1, by omega⟩
    exact mainLoop_step_fin (step_long (by rintro rfl; cases hst) s t h) h.ok
      fun st' s' t' hl hr => ih (by omega) hl hr

/-- `Rel` without the encoding. -/
def Rel0 (d : List UInt8) (s t : Parser) : Prop := ∃ o, t = long d o s ∧ OutOk s.out ∧ OutOk o

theorem docByte_long0 (i : Int) : Two.Sim (Rel0 d) False True (docByte i) (docByte i) := by
  rintro s _ ⟨o, rfl, h⟩
  simp only [docByte, M.bind_apply, M.get_apply, Res.andThen_ok]
  show Two.RelRes (Rel0 d) False True (M.index s.cfg.xmlDoc i s) (M.index (s.cfg.xmlDoc ++ d) i (long d o s))
  by_cases h' : 0 ≤ i ∧ i.toNat < s.cfg.xmlDoc.length
  · rw [M.index_of_lt _ i s h'.1 h'.2, M.index_of_lt _ i _ h'.1 (by simp; omega)]
    refine ⟨_, ?_, o, rfl, h⟩
    congr 1
    simp [List.getElem_append_left h'.2]
  · rw [M.index_panic _ i s (by omega)]
    exact .inl trivial

theorem docIs32_long0 (i v : Int) : Two.Sim (Rel0 d) False True (docIs32 i v) (docIs32 i v) :=
  Two.Sim.bind (docByte_long0 i) fun _ => Two.Sim.pure _

theorem detectEncoding_long0 : Two.Sim (Rel0 d) False True detectEncoding detectEncoding := by
  refine Two.Sim.bind_get fun s t h => ?_
  obtain ⟨o, rfl, h⟩ := h
  rw [long_offset]
  have hm : ∀ g : Parser → Parser, (∀ s o, g (long d o s) = long d o (g s) ∧ (g s).out = s.out) →
      Two.Sim (Rel0 d) False True (M.modify g) (M.modify g) := fun g hg => Two.Sim.modify fun s t h => by
    obtain ⟨o, rfl, h1, h2⟩ := h
    exact ⟨o, (hg s o).1, (hg s o).2 ▸ h1, h2⟩
  refine Two.Sim.bind (docByte_long0 _) fun b => Two.Sim.ite ?_ (Two.Sim.ite ?_ (Two.Sim.ite ?_ (Two.Sim.ite ?_
    (Two.Sim.ite ?_ (Two.Sim.pure _)))))
  · exact Two.Sim.bind (hm _ fun _ _ => ⟨rfl, rfl⟩) fun _ => Two.Sim.bind (docIs32_long0 _ _) fun t =>
      Two.Sim.ite (hm _ fun _ _ => ⟨rfl, rfl⟩) (Two.Sim.raise _)
  · exact Two.Sim.bind (hm _ fun _ _ => ⟨rfl, rfl⟩) fun _ => Two.Sim.bind (docIs32_long0 _ _) fun t =>
      Two.Sim.ite (hm _ fun _ _ => ⟨rfl, rfl⟩) (Two.Sim.raise _)
  · exact Two.Sim.bind (Two.Sim.and (docIs32_long0 _ _) (Two.Sim.and (docIs32_long0 _ _) (docIs32_long0 _ _))) fun t =>
      Two.Sim.ite (hm _ fun _ _ => ⟨rfl, rfl⟩) (Two.Sim.raise _)
  · exact Two.Sim.bind (Two.Sim.and (docIs32_long0 _ _) (docIs32_long0 _ _)) fun t =>
      Two.Sim.ite (hm _ fun _ _ => ⟨rfl, rfl⟩) (Two.Sim.raise _)
  · exact Two.Sim.bind (Two.Sim.and (docIs32_long0 _ _) (Two.Sim.and (docIs32_long0 _ _) (docIs32_long0 _ _))) fun t =>
      Two.Sim.ite (hm _ fun _ _ => ⟨rfl, rfl⟩) (Two.Sim.pure _)

theorem decideEncoding_long {p : Parser} (hf : Fresh p) {o : ParserOut} (ho : OutOk o)
    (hL : wrap64 (p.cfg.docOffset + p.cfg.docLength) < 2 ^ 30)
    (hL' : wrap64 (p.cfg.docOffset + (p.cfg.docLength + d.length)) < 2 ^ 30) :
    Two.RelRes (Rel0 d) False True (decideEncoding p) (decideEncoding (long d o p)) := by
  obtain ⟨f1, f2, f3, f4, f5, f6, f7, f8, f9⟩ := hf.fields
  have hd := detectEncoding_sat (c := p.cfg) rfl f3 hf.start
  have hs := detectEncoding_long0 (d := d) p (long d o p) ⟨o, rfl, f9, ho⟩
  simp only [decideEncoding, M.bind_apply]
  cases hq : detectEncoding p with
  | err e q =>
    rw [hq] at hs
    obtain h | ⟨t, h, hr⟩ := hs
    · exact h.elim
    · rw [h]; exact .inr ⟨_, rfl, hr⟩
  | panic => exact .inl trivial
  | diverge => trivial
  | ok a q =>
    rw [hq] at hs hd
    obtain ⟨t, ht, hr⟩ := hs
    rw [ht]
    have hc : q.offset = p.cfg.docOffset ∧ q.cfg = p.cfg := by
      obtain ⟨rfl, _⟩ | ⟨rfl, _⟩ | ⟨rfl, _⟩ := hd <;> exact ⟨f3, rfl⟩
    obtain ⟨o', rfl, h1, h2⟩ := hr
    simp only [Res.andThen_ok, M.bind_apply, M.get_apply, M.ite_apply, M.raise_apply, M.modify_apply, M.pure_apply]
    have e1 : (long d o' q).enc = q.enc := rfl
    have e2 : (long d o' q).offset = q.offset := rfl
    have e3 : (long d o' q).cfg.docLength = q.cfg.docLength + d.length := rfl
    have lim : ∀ (c : Prop) [Decidable c], (2 : Int) ^ 30 ≤ if c then 2 ^ 30 else 2 ^ 31 := by
      intro c _; split <;> omega
    rw [e1, e2, e3, hc.1, hc.2]
    have n1 : ¬ wrap64 (p.cfg.docOffset + p.cfg.docLength) ≥
        (if q.enc.encoding < FormatUtf16BE ∧ p.cfg.nsAware = true then 2 ^ 30 else 2 ^ 31) := by
      have := lim (q.enc.encoding < FormatUtf16BE ∧ p.cfg.nsAware = true); omega
    have n2 : ¬ wrap64 (p.cfg.docOffset + (p.cfg.docLength + d.length)) ≥
        (if q.enc.encoding < FormatUtf16BE ∧ (long d o' q).cfg.nsAware = true then 2 ^ 30 else 2 ^ 31) := by
      have := lim (q.enc.encoding < FormatUtf16BE ∧ (long d o' q).cfg.nsAware = true); omega
    rw [if_neg n1, if_neg n2]
    by_cases hb : q.enc.encoding ≥ FormatUtf16BE
    · rw [if_pos hb, if_pos hb]
      exact ⟨_, rfl, o', by simp only [long, hc.2], h1, h2⟩
    · rw [if_neg hb, if_neg hb]
      exact ⟨_, rfl, o', rfl, h1, h2⟩

/-- A parse over a longer document ends in the same error, unless that is an end-of-file error. -/
theorem parse_long {p : Parser} (hf : Fresh p) {o : ParserOut} (ho : OutOk o)
    (hL : wrap64 (p.cfg.docOffset + p.cfg.docLength) < 2 ^ 30)
    (hL' : wrap64 (p.cfg.docOffset + (p.cfg.docLength + d.length)) < 2 ^ 30)
    (hE : p.cfg.endOffset + d.length ≤ (p.cfg.xmlDoc ++ d).length) {i : Int}
    (hi : p.cfg.docOffset ≤ i) (hi' : i < p.cfg.endOffset) {b : UInt8} (hb : p.cfg.xmlDoc[i.toNat]? = some b)
    (hsp : isSpaceChar b.toNat = false) : Fin (parse p) (parse (long d o p)) := by
  obtain ⟨f1, f2, f3, f4, f5, f6, f7, f8, f9⟩ := hf.fields
  have hd := decideEncoding_sat hf
  have hs := decideEncoding_long hf ho hL hL'
  simp only [parse, M.bind_apply]
  cases hq : decideEncoding p with
  | err e q =>
    rw [hq] at hs
    obtain h | ⟨t, h, -⟩ := hs
    · exact h.elim
    · rw [h]
      intro e' q' he
      cases he
      exact .inr ⟨_, rfl⟩
  | panic => intro e q he; cases he
  | diverge => intro e q he; cases he
  | ok a q =>
    rw [hq] at hs hd
    obtain ⟨t, ht, o', rfl, h1, h2⟩ := hs
    rw [ht]
    simp only [Res.andThen_ok, M.bind_apply, M.get_apply]
    have hq' : q.rd = p.rd ∧ q.cfg = p.cfg := by
      obtain ⟨rfl, _⟩ | ⟨e, rfl, _⟩ := hd <;> exact ⟨rfl, rfl⟩
    have hw : ∀ q' : Parser, OutOk q'.out → ∃ v, writeVtd .document 0 0 q'.depth q' =
        .ok () { q' with out := { q'.out with vtdBuffer := v } } := by
      intro q' hq
      obtain ⟨v, h1, -⟩ := appendFill hq.vtd (vtdRecord .document 0 0 q'.depth)
      refine ⟨v, ?_⟩
      simp only [writeVtd, onVtd, M.zoom_apply, h1]
      rfl
    obtain ⟨v, hv⟩ := hw q h1
    by_cases hx : encodingFixed q = true
    · have hr := writeVtd_long (d := d) .document 0 0 q.depth q (long d o' q) ⟨o', rfl, h1, h2, hx⟩
      rw [hv] at hr
      obtain ⟨t1, ht1, hr1⟩ := hr
      rw [hv, show (long d o' q).depth = q.depth from rfl, ht1]
      simp only [Res.andThen_ok]
      have l1 : ∀ p : Parser, p.loopFuel = p.loopFuel - 1 + 1 := by intro p; simp only [loopFuel]; omega
      rw [l1 q, l1 (long d o' q)]
      refine mainLoop_step_fin (docStart_long hr1 (i := i) (b := b) ?_ ?_ ?_ ?_ ?_ ?_ hsp) hr1.ok
        fun st' s' t' hl hr => mainLoop_long ?_ hl hr
      · show q.rd.kind = _; rw [hq'.1, f2]
      · show 0 ≤ q.rd.offset; rw [hq'.1, f2]; exact hf.start
      · show q.rd.endOffset ≤ q.rd.xmlDoc.length; rw [hq'.1, f2]; exact hf.end1
      · show q.rd.offset ≤ i; rw [hq'.1, f2]; exact hi
      · show i < q.rd.endOffset; rw [hq'.1, f2]; exact hi'
      · show q.rd.xmlDoc[i.toNat]? = _; rw [hq'.1, f2]; exact hb
      · simp only [loopFuel, long, List.length_append]; omega
    · obtain ⟨v', hv'⟩ := hw (long d o' q) h2
      rw [hv, hv']
      simp only [Res.andThen_ok]
      obtain ⟨rfl, _⟩ | ⟨e, rfl, ⟨hu, he⟩ | ⟨hu, he⟩⟩ := hd
      · exact absurd (by rw [encodingFixed, f1]; rfl) hx
      · have hz := hu.1
        have hlt : p.cfg.docOffset.toNat < p.cfg.xmlDoc.length := (List.getElem?_eq_some_iff.mp hz).1
        obtain ⟨q1, e1⟩ := Two.utf16be_eq (c := p.cfg) (p := { p with enc := e, out := { p.out with vtdBuffer := v } })
          (m := p.loopFuel - 2) he hf.start rfl f2 hf.end1 hz
        obtain ⟨q2, e2⟩ := Two.utf16be_eq (c := (long d o' p).cfg)
          (p := { long d o' p with enc := e, out := { o' with vtdBuffer := v' } })
          (m := (long d o' p).loopFuel - 2) he hf.start rfl (by simp only [long, f2])
          hE (by simp only [long]; rw [List.getElem?_append_left hlt]; exact hz)
        have l1 : p.loopFuel = p.loopFuel - 2 + 1 + 1 := by simp only [loopFuel]; omega
        have l2 : (long d o' p).loopFuel = (long d o' p).loopFuel - 2 + 1 + 1 := by simp only [loopFuel]; omega
        have g1 : p.cfg.docOffset < p.cfg.endOffset := by omega
        have g2 : (long d o' p).cfg.docOffset < (long d o' p).cfg.endOffset := by
          show p.cfg.docOffset < p.cfg.endOffset + d.length; omega
        rw [if_pos g1] at e1
        rw [if_pos g2] at e2
        intro e' q' he'
        change mainLoop p.loopFuel _ _ = _ at he'
        rw [l1] at he'
        have := he'.symm.trans e1
        cases this
        refine .inr ⟨q2, ?_⟩
        show mainLoop (long d o' p).loopFuel _ _ = _
        rw [l2]
        exact e2
      · exact absurd (by simp only [encodingFixed, he]; rfl) hx

end
end Longer
end Parser
end GoVtd
