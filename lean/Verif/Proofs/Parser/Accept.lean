import Verif.Proofs.Parser.Goal
import Verif.Proofs.Total

/-!
# Accepting runs of the main loop

`Acc st p o`: the main loop started in state `st` ends without an error, with output `o`.
-/

namespace GoVtd
namespace Parser

open Grammar Spec

section
variable {c : ParserCfg} {p : Parser} {o : ParserOut} {r : List UInt8} {st : List (List UInt8)}

def Acc (sta : PState) (p : Parser) (o : ParserOut) : Prop := ∃ n pf, mainLoop n sta p = .ok () pf ∧ pf.out = o

theorem mainLoop_panic {fuel : Nat} {sta : PState} (h : step sta p = .panic) : mainLoop (fuel + 1) sta p = .panic := by
  simp only [mainLoop, M.bind_apply, M.catchErr_apply, h, Res.andThen_panic, Res.handle_panic]

theorem mainLoop_diverge {fuel : Nat} {sta : PState} (h : step sta p = .diverge) :
    mainLoop (fuel + 1) sta p = .diverge := by
  simp only [mainLoop, M.bind_apply, M.catchErr_apply, h, Res.andThen_diverge, Res.handle_diverge]

theorem acc_step {sta : PState} (hst : sta ≠ .docEnd) :
    Acc sta p o ↔ Leads (step sta p) (fun s q => Acc s q o) := by
  constructor
  · rintro ⟨n, pf, h, ho⟩
    cases n with
    | zero => cases h
    | succ n =>
      cases hs : step sta p with
      | ok s q => rw [mainLoop_step hs] at h; exact (leads_ok _ _).2 ⟨n, pf, h, ho⟩
      | err e q => rw [mainLoop_err hs hst] at h; cases h
      | panic => rw [mainLoop_panic hs] at h; cases h
      | diverge => rw [mainLoop_diverge hs] at h; cases h
  · rintro ⟨s, q, hs, n, pf, h, ho⟩
    exact ⟨n + 1, pf, (mainLoop_step hs).trans h, ho⟩

theorem acc_docEnd (h : Rd c p r) : Acc .docEnd p o ↔ (AllWs r ∧ o = finish c.shallowDepth p.out) ∨
    Leads (processDocEnd p) (fun s q => Acc s q o) := by
  constructor
  · rintro ⟨n, pf, hm, ho⟩
    cases n with
    | zero => cases hm
    | succ n =>
      cases hs : step .docEnd p with
      | ok s q =>
        rw [mainLoop_step hs] at hm
        exact Or.inr ⟨s, q, hs, n, pf, hm, ho⟩
      | err e q =>
        simp only [mainLoop, M.bind_apply, M.catchErr_apply, hs, Res.andThen_err, Res.handle_err, onStepErr,
          M.ite_apply, M.raise_apply, and_true] at hm
        split at hm
        · rename_i he
          have hw := docEnd_err h hs he
          obtain ⟨p', h1, h2, h3⟩ := docEnd_eof h hw
          have : step .docEnd p = processDocEnd p := rfl
          rw [this, h1] at hs
          cases hs
          simp only [M.bind_apply, wrapInternal, M.catchErr_apply, finishUp_go h2.toBase.out, Res.handle_ok,
            Res.andThen_ok, M.pure_apply] at hm
          cases hm
          refine Or.inl ⟨hw, ?_⟩
          rw [← ho, h2.cfg, h3]
        · cases hm
      | panic => rw [mainLoop_panic hs] at hm; cases hm
      | diverge => rw [mainLoop_diverge hs] at hm; cases hm
  · rintro (⟨hw, rfl⟩ | ⟨s, q, hs, n, pf, hm, ho⟩)
    · obtain ⟨p', h1, h2, h3⟩ := docEnd_eof h hw
      refine ⟨1, { p' with out := finish p'.cfg.shallowDepth p'.out }, ?_, by rw [h2.cfg, h3]⟩
      have hs : step .docEnd p = .err (newEOFError XmlIncomplete) p' := h1
      simp only [mainLoop, M.bind_apply, M.catchErr_apply, hs, Res.andThen_err, Res.handle_err, onStepErr,
          M.ite_apply, M.raise_apply, and_true]
      rw [if_pos (show GoErr.as ErrType.eof (newEOFError XmlIncomplete) = true from rfl)]
      simp only [M.bind_apply, wrapInternal, M.catchErr_apply, finishUp_go h2.toBase.out, Res.handle_ok,
            Res.andThen_ok, M.pure_apply]
    · exact ⟨n + 1, pf, (mainLoop_step (st := .docEnd) hs).trans hm, ho⟩

theorem skipChar_cur (n : Nat) : M.Keeps (·.currentChar) (skipChar n) :=
  M.Keeps.bind (by unfold onRd; refine M.Keeps.zoom ?_ _; exact fun _ _ => rfl) fun _ =>
    M.Keeps.bind (M.Keeps.modify fun _ => rfl) fun _ => M.Keeps.pure _

theorem commentLoop_cur {fuel : Nat} {u : Unit} {q : Parser} (h : commentLoop fuel p = .ok u q) :
    q.currentChar = ch% '-' := by
  induction fuel generalizing p with
  | zero => cases h
  | succ fuel ih =>
    have h' : Leads (commentLoop (fuel + 1) p) (fun _ s => s = q) := ⟨_, _, h, rfl⟩
    simp only [commentLoop, leads_bind] at h'
    obtain ⟨_, s1, _, h1⟩ := h'
    rw [M.get_apply, leads_ok, leads_ite] at h1
    rcases h1 with ⟨_, h1⟩ | ⟨_, h1⟩
    rotate_left
    · simp at h1
    rw [leads_bind, leads_and, M.pure_apply, leads_ok] at h1
    by_cases hc : s1.currentChar = ch% '-'
    · simp only [hc, decide_true, if_true] at h1
      obtain ⟨e, s2, h2, h3⟩ := h1
      have e2 := (skipChar_cur _).ok h2
      cases e with
      | false =>
        obtain ⟨_, _, h4, rfl⟩ := h3
        exact ih h4
      | true =>
        rw [leads_ite] at h3
        rcases h3 with ⟨_, h3⟩ | ⟨hf, _⟩
        · rw [M.modify_apply, leads_ok] at h3
          rw [← h3]; exact e2.trans hc
        · exact absurd rfl hf
    · simp only [hc, decide_false] at h1
      simp only [Bool.false_eq_true, if_false] at h1
      obtain ⟨_, _, h4, rfl⟩ := h1
      exact ih h4

/-- A comment after the root element is never accepted. -/
theorem not_endComment {K : PState → Parser → Prop} : ¬ Leads (processEndComment p) K := by
  simp only [processEndComment, leads_bind]
  rw [M.get_apply, leads_ok]
  rintro ⟨u, q, h3, h4⟩
  have := commentLoop_cur h3
  rw [M.get_apply, leads_ok, leads_if_pos (by rw [this]; decide), leads_parseErr] at h4
  exact h4

theorem not_acc_endComment : ¬ Acc .endComment p o := by
  rw [acc_step (by decide)]
  exact not_endComment

/-! ## The claims -/

/-- What the states accept, for rests of the document shorter than `n`. -/
structure Claims (c : ParserCfg) (o : ParserOut) (n : Nat) : Prop where
  lt : ∀ {p : Parser} {r pre : List UInt8} {st : List (List UInt8)}, r.length < n → Rd c p r →
    p.offset = pos c (pre ++ r) → pre ++ r <:+ c.xmlDoc → Ctx c p st [] →
    (Acc .ltSeen p o ↔ Goal c (.lt pre st) r p.out o)
  close : ∀ {p : Parser} {r : List UInt8} {st : List (List UInt8)}, r.length < n → Rd c p r →
    p.offset = pos c r → Ctx c p st [] → (Acc .tagEnd p o ↔ Goal c (.close st) r p.out o)
  epilog : ∀ {p : Parser} {r : List UInt8}, r.length < n → Rd c p r → Ctx c p [] [] →
    (Acc .docEnd p o ↔ Goal c .epilog r p.out o)
  attr : ∀ {p : Parser} {b : UInt8} {r name : List UInt8} {st seen : List (List UInt8)}, r.length < n → Rd c p r →
    p.currentChar = b.toNat → StartByte b → p.offset = pos c r → p.lastOffset = pos c (b :: r) →
    b :: r <:+ c.xmlDoc → Ctx c p (name :: st) seen →
    (Acc .attrName p o ↔ ∃ recs e r', AttrTag c.xmlDoc.length st.length seen b r recs e r' ∧
      Goal c (if e then next .other st else .content .start (name :: st)) r' (emit c.shallowDepth p.out recs) o)

theorem Ctx.empty_iff {seen : List (List UInt8)} (hc : Ctx c p st seen) : p.depth = -1 ↔ st = [] := by
  have h : p.depth = st.length - 1 := hc.depth
  rw [h, ← List.length_eq_zero_iff]; omega

theorem Ctx.some_iff {seen : List (List UInt8)} (hc : Ctx c p st seen) : 0 ≤ p.depth ↔ st ≠ [] := by
  have h : p.depth = st.length - 1 := hc.depth
  rw [h, ne_eq, ← List.length_eq_zero_iff]; omega

theorem _root_.GoVtd.Grammar.TextBody.lt {r' : List UInt8} (h : TextBody r r') : r'.length < r.length := by
  induction h with
  | stop => simp
  | char _ _ ih => simp; omega
  | item h _ ih => have := h.lt; omega

theorem acc_text {n : Nat} (H : Claims c o n) (h : Rd c p r) (hn : r.length ≤ n) (hc : Ctx c p st []) :
    Acc .text p o ↔ st ≠ [] ∧ ∃ r1, TextBody r r1 ∧ Goal c (.lt [] st) r1 (emit c.shallowDepth p.out
      (textRecs .characterData p.lastOffset (pos c r1 - 1 - p.lastOffset) (st.length - 1))) o := by
  rw [acc_step (by decide)]
  refine (leads_text h).trans (and_congr hc.some_iff ?_)
  refine exists_congr fun r1 => and_congr_right fun hb => ?_
  have h1 := h.go hb.suffix (ch% '<')
  have hd : p.depth = st.length - 1 := hc.depth
  rw [← hd]
  refine H.lt (pre := []) (by have := hb.lt; omega) ?_ rfl (by exact h1.suf) hc
  exact Rd.of_eq (Rd.emit h1 _) rfl rfl rfl rfl rfl rfl

theorem text_cases {n : Nat} (H : Claims c o n) {b : UInt8} (h : Rd c p r) {s : List UInt8} (hs : b :: s <:+ r)
    (hb : b ≠ ch% '<') (hn : s.length ≤ n) (hc : Ctx c p st []) (L : Int) :
    ((ContentByte b ∧ Acc .text (go c { p with lastOffset := L } s b.toNat) o) ∨
      ∃ r1, Item (b :: s) r1 ∧ Acc .text (go c { p with lastOffset := L } r1 b.toNat) o) ↔
    st ≠ [] ∧ ∃ r1, TextBody (b :: s) r1 ∧ Goal c (.lt [] st) r1 (emit c.shallowDepth p.out
      (textRecs .characterData L (pos c r1 - 1 - L) (st.length - 1))) o := by
  have h0 : Rd c { p with lastOffset := L } r := h.of_eq rfl rfl rfl rfl rfl rfl
  have h1 := h0.go ((List.suffix_cons b s).trans hs) b.toNat
  have e1 := acc_text H h1 hn hc
  have e2 : ∀ r1, Item (b :: s) r1 → _ := fun r1 hi =>
    acc_text H (h0.go (hi.suffix.trans hs) b.toNat) (by have := hi.lt; simp at this; omega) hc
  constructor
  · rintro (⟨hcb, ha⟩ | ⟨r1, hi, ha⟩)
    · obtain ⟨h2, r2, h3, h4⟩ := e1.1 ha
      exact ⟨h2, r2, textBody_cons.2 (Or.inr (Or.inl ⟨hcb, h3⟩)), h4⟩
    · obtain ⟨h2, r2, h3, h4⟩ := (e2 r1 hi).1 ha
      exact ⟨h2, r2, textBody_cons.2 (Or.inr (Or.inr ⟨r1, hi, h3⟩)), h4⟩
  · rintro ⟨h2, r2, h3, h4⟩
    rcases textBody_cons.1 h3 with ⟨rfl, _⟩ | ⟨hcb, h3⟩ | ⟨r1, hi, h3⟩
    · exact absurd rfl hb
    · exact Or.inl ⟨hcb, e1.2 ⟨h2, r2, h3, h4⟩⟩
    · exact Or.inr ⟨r1, hi, (e2 r1 hi).2 ⟨h2, r2, h3, h4⟩⟩

theorem pos_text {r r1 : List UInt8} : pos c r1 - 1 - pos c r = r.length - (r1.length + 1) := by
  simp only [pos, Grammar.offset]; omega

/-- After a comment, a CDATA section or a processing instruction. -/
theorem acc_afterMarkup {n : Nat} (H : Claims c o n) (h : Rd c p r) (ho : p.offset = pos c r) (hn : r.length ≤ n)
    (hc : Ctx c p st []) :
    Leads (afterMarkup p) (fun s q => Acc s q o) ↔ Goal c (.content .other st) r p.out o := by
  rw [leads_afterMarkup h ho, goal_content]
  refine exists_congr fun w => exists_congr fun b => exists_congr fun s => and_congr_right fun hr =>
    and_congr_right fun hw => and_congr_right fun hb => ?_
  have hs : b :: s <:+ r := ⟨w, hr.symm⟩
  have hlt : s.length < r.length := by rw [hr]; simp; omega
  have h0 : Rd c { p with lastOffset := pos c r } r := h.of_eq rfl rfl rfl rfl rfl rfl
  have h1 := h0.go ((List.suffix_cons b s).trans hs) b.toNat
  rw [H.lt (pre := []) (by omega) h1 rfl (by exact h1.suf) hc]
  by_cases hb' : b = ch% '<'
  · simp [hb']
  · rw [text_cases H h hs hb' (by omega) hc]
    simp only [pos_text]
    simp [hb']

/-- After an end tag. -/
theorem acc_afterEnd {n : Nat} (H : Claims c o n) (h : Rd c p r) (ho : p.offset = pos c r) (hn : r.length ≤ n)
    (hc : Ctx c p st []) (hst : st ≠ []) :
    Leads (afterEnd p) (fun s q => Acc s q o) ↔ Goal c (.content .end st) r p.out o := by
  rw [leads_afterEnd h ho, goal_content]
  refine exists_congr fun w => exists_congr fun b => exists_congr fun s => and_congr_right fun hr =>
    and_congr_right fun hw => and_congr_right fun hb => ?_
  have hs : b :: s <:+ r := ⟨w, hr.symm⟩
  have hlt : s.length < r.length := by rw [hr]; simp; omega
  have h0 : Rd c { p with lastOffset := pos c r } r := h.of_eq rfl rfl rfl rfl rfl rfl
  have h1 := h0.go ((List.suffix_cons b s).trans hs) b.toNat
  rw [H.lt (pre := []) (by omega) h1 rfl (by exact h1.suf) hc]
  have e2 : (∃ r1, Item (b :: s) r1 ∧ Acc .ltSeen (go c { p with lastOffset := pos c r } r1 b.toNat) o) ↔
      ∃ r1, Item (b :: s) r1 ∧ Goal c (.lt [] st) r1 p.out o := by
    refine exists_congr fun r1 => and_congr_right fun hi => ?_
    have h2 := h0.go (hi.suffix.trans hs) b.toNat
    exact H.lt (pre := []) (by have := hi.lt; simp at this; omega) h2 rfl (by exact h2.suf) hc
  rw [e2, acc_text H h1 (by omega) hc]
  by_cases hb' : b = ch% '<'
  · have : ¬ ∃ r1, Item (b :: s) r1 ∧ Goal c (.lt [] st) r1 p.out o := by
      rintro ⟨r1, hi, _⟩
      obtain ⟨_, _, h3, _, h4, _⟩ := item_cons hi
      cases h3; exact h4 hb'
    rw [hb'] at this
    simp [hb', this]
  · simp only [hb', false_and, false_or, ne_eq, not_false_iff, true_and, hst, go_lastOffset, pos_text, true_imp_iff, go_out]
    refine or_congr_left (and_congr_right fun hcb => exists_congr fun r1 => and_congr_left fun _ => ?_)
    rw [textBody_cons]
    constructor
    · exact fun hh => Or.inr (Or.inl ⟨hcb, hh⟩)
    · rintro (⟨h3, _⟩ | ⟨_, hh⟩ | ⟨_, hi, _⟩)
      · exact absurd h3 hb'
      · exact hh
      · obtain ⟨_, _, h3, _, _, h4⟩ := item_cons hi
        cases h3; exact absurd hcb h4

theorem goal_lt_nil {pre : List UInt8} {o0 : ParserOut} : ¬ Goal c (.lt pre st) [] o0 o := by
  rw [goal_lt]; rintro ⟨_, _, h, _⟩; cases h

theorem slash_start : ¬ StartByte (ch% '/') := fun h => absurd ((isNameStartChar_iff _).2 h) (by decide)

theorem goal_lt_slash {pre s : List UInt8} {o0 : ParserOut} :
    Goal c (.lt pre st) (ch% '/' :: s) o0 o ↔ Goal c (.close st) s o0 o := by
  rw [goal_lt]
  constructor
  · rintro ⟨b, t, h, h1 | h1 | h1 | h1⟩ <;> cases h
    · exact absurd h1.1 slash_start
    · exact h1.2
    · exact absurd h1.1 (by decide)
    · exact absurd h1.1 (by decide)
  · exact fun h => ⟨_, _, rfl, Or.inr (Or.inl ⟨rfl, h⟩)⟩

/-- After a start tag. -/
theorem acc_tailStart {n : Nat} (H : Claims c o n) (h : Rd c p r) (ho : p.offset = pos c r) (hn : r.length ≤ n)
    (hc : Ctx c p st []) (hst : st ≠ []) (hh : p.helper = true) :
    Leads (processElementTail p) (fun s q => Acc s q o) ↔ Goal c (.content .start st) r p.out o := by
  rw [leads_elementTail h ho, goal_content]
  simp only [ne_eq, hc.empty_iff, hst, false_and, false_or, not_false_iff, true_and]
  refine exists_congr fun w => exists_congr fun b => exists_congr fun s => and_congr_right fun hr =>
    and_congr_right fun hw => and_congr_right fun hb => ?_
  have hs : b :: s <:+ r := ⟨w, hr.symm⟩
  have hlt : s.length < r.length := by rw [hr]; simp; omega
  have h0 : Rd c { p with lastOffset := pos c r } r := h.of_eq rfl rfl rfl rfl rfl rfl
  have h1 := h0.go ((List.suffix_cons b s).trans hs) b.toNat
  by_cases hb' : b = ch% '<'
  rotate_left
  · rw [text_cases H h hs hb' (by omega) hc]
    simp only [pos_text]
    simp [hb', hst]
  simp only [hb', true_and, not_true_eq_false, false_and, or_false, reduceCtorEq, true_imp_iff]
  rw [← hb', H.lt (pre := []) (by omega) h1 rfl (by exact h1.suf) hc]
  cases s with
  | nil => simp [goal_lt_nil]
  | cons y s =>
    by_cases hy : y = ch% '/'
    · subst hy
      have h2 : Rd c { p with
          lastOffset := pos c r, length1 := w.length,
          out := emit c.shallowDepth p.out (textRecs .characterData (pos c r) w.length p.depth) } r :=
        Rd.of_eq (Rd.emit h0 _) rfl rfl rfl rfl rfl rfl
      have h3 := h2.go (r' := s) ((List.suffix_append [b, ch% '/'] s).trans hs) b.toNat
      have e := H.close (by simp at hlt; omega) h3 rfl hc
      have hd : p.depth = st.length - 1 := hc.depth
      constructor
      · rintro ⟨y', s', h4, ⟨h5, _⟩ | ⟨_, h7, _⟩ | ⟨_, _, h6⟩⟩
        · cases h4; exact absurd rfl h5
        · rw [hh] at h7; cases h7
        · cases h4
          rw [← hd]
          exact Or.inr ⟨s, rfl, e.1 h6⟩
      · rintro (⟨h4, _⟩ | ⟨s', h4, h5⟩)
        · exact absurd rfl h4
        · cases h4
          rw [← hd] at h5
          exact ⟨_, _, rfl, Or.inr (Or.inr ⟨rfl, hh, e.2 h5⟩)⟩
    · constructor
      · rintro ⟨y', s', h4, ⟨_, h6⟩ | ⟨h5, _⟩ | ⟨h5, _⟩⟩
        · exact Or.inl ⟨by simpa using hy, h6⟩
        · cases h4; exact absurd h5 hy
        · cases h4; exact absurd h5 hy
      · rintro (⟨_, h5⟩ | ⟨s', h4, _⟩)
        · exact ⟨_, _, rfl, Or.inl ⟨hy, h5⟩⟩
        · cases h4; exact absurd rfl hy

/-- After an empty element. -/
theorem acc_tailOther {n : Nat} (H : Claims c o n) (h : Rd c p r) (ho : p.offset = pos c r) (hn : r.length < n)
    (hc : Ctx c p st []) (hh : p.helper = false) :
    Leads (processElementTail p) (fun s q => Acc s q o) ↔ Goal c (next .other st) r p.out o := by
  rw [leads_elementTail h ho]
  simp only [ne_eq, hc.empty_iff]
  cases hst : st with
  | nil =>
    subst hst
    simp only [true_and, not_true_eq_false, false_and, or_false, next]
    exact H.epilog hn h hc
  | cons name st' =>
  simp only [next]
  rw [← hst, goal_content]
  have hst' : st ≠ [] := by rw [hst]; simp
  simp only [hst', false_and, false_or, ne_eq, not_false_iff, true_and]
  refine exists_congr fun w => exists_congr fun b => exists_congr fun s => and_congr_right fun hr =>
    and_congr_right fun hw => and_congr_right fun hb => ?_
  have hs : b :: s <:+ r := ⟨w, hr.symm⟩
  have hlt : s.length < r.length := by rw [hr]; simp; omega
  have h0 : Rd c { p with lastOffset := pos c r } r := h.of_eq rfl rfl rfl rfl rfl rfl
  have h1 := h0.go ((List.suffix_cons b s).trans hs) b.toNat
  by_cases hb' : b = ch% '<'
  rotate_left
  · rw [text_cases H h hs hb' (by omega) hc]
    simp only [pos_text]
    simp [hb', hst']
  simp only [hb', true_and, not_true_eq_false, false_and, or_false, reduceCtorEq, false_imp_iff]
  rw [← hb', H.lt (pre := []) (by omega) h1 rfl (by exact h1.suf) hc]
  cases s with
  | nil => simp [goal_lt_nil]
  | cons y s =>
    by_cases hy : y = ch% '/'
    · subst hy
      have h3 := h0.go (r' := s) ((List.suffix_append [b, ch% '/'] s).trans hs) b.toNat
      have e := H.close (by simp at hlt; omega) h3 rfl hc
      constructor
      · rintro ⟨y', s', h4, ⟨h5, _⟩ | ⟨_, _, h6⟩ | ⟨_, h7, _⟩⟩
        · cases h4; exact absurd rfl h5
        · cases h4; exact goal_lt_slash.2 (e.1 h6)
        · rw [hh] at h7; cases h7
      · exact fun h5 => ⟨_, _, rfl, Or.inr (Or.inl ⟨rfl, hh, e.2 (goal_lt_slash.1 h5)⟩)⟩
    · constructor
      · rintro ⟨y', s', h4, ⟨_, h6⟩ | ⟨h5, _⟩ | ⟨h5, _⟩⟩
        · exact h6
        · cases h4; exact absurd h5 hy
        · cases h4; exact absurd h5 hy
      · exact fun h5 => ⟨_, _, rfl, Or.inl ⟨hy, h5⟩⟩

/-! ### Tags -/

/-- What comes after a start tag `name`, or an empty element if `e`. -/
def afterTag (e : Bool) (name : List UInt8) (st : List (List UInt8)) : NT :=
  if e then next .other st else .content .start (name :: st)

theorem close_gt {s r' : List UInt8} {e : Bool} : Close (ch% '>' :: s) e r' ↔ e = false ∧ r' = s := by
  constructor
  · intro h; cases h; exact ⟨rfl, rfl⟩
  · rintro ⟨rfl, rfl⟩; exact .start

theorem close_slash {s r' : List UInt8} {e : Bool} : Close (ch% '/' :: s) e r' ↔ e = true ∧ s = ch% '>' :: r' := by
  constructor
  · intro h; cases h; exact ⟨rfl, rfl⟩
  · rintro ⟨rfl, rfl⟩; exact .empty

theorem close_iff {y : UInt8} {s : List UInt8} {Q : Bool → List UInt8 → Prop} :
    (∃ e r', Close (y :: s) e r' ∧ Q e r') ↔
      (y = ch% '>' ∧ Q false s) ∨ (y = ch% '/' ∧ ∃ r', s = ch% '>' :: r' ∧ Q true r') := by
  constructor
  · rintro ⟨e, r', h, hq⟩
    cases h with
    | start => exact Or.inl ⟨rfl, hq⟩
    | empty => exact Or.inr ⟨rfl, _, rfl, hq⟩
  · rintro (⟨rfl, hq⟩ | ⟨rfl, r', rfl, hq⟩)
    · exact ⟨_, _, .start, hq⟩
    · exact ⟨_, _, .empty, hq⟩

theorem acc_startTagEnd {n : Nat} (H : Claims c o n) (h : Rd c p r) (hns : c.nsAware = false) {y : UInt8}
    (hy : p.currentChar = y.toNat) (ho : p.offset = pos c r) (hn : r.length ≤ n) {name : List UInt8}
    (hc : Ctx c p (name :: st) []) :
    Leads (startTagEnd p) (fun s q => Acc s q o) ↔
      ∃ e r', Close (y :: r) e r' ∧ Goal c (afterTag e name st) r' p.out o := by
  rw [leads_startTagEnd h hns hy ho, close_iff]
  refine or_congr (and_congr_right fun _ => ?_) (and_congr_right fun _ => exists_congr fun r' => and_congr_right fun hr => ?_)
  · have h1 : Rd c { p with helper := true } r := h.of_eq rfl rfl rfl rfl rfl rfl
    exact acc_tailStart H h1 ho hn hc (by simp) rfl
  · have h1 : Rd c { p with depth := p.depth - 1, helper := false } r := h.of_eq rfl rfl rfl rfl rfl rfl
    have hcc : CtxCore c p.tagStack p.at_ p.depth p.length2 (name :: st) [] := hc
    have h2 := h1.go (r' := r') (by rw [hr]; exact List.suffix_cons _ _) (ch% '>')
    refine acc_tailOther H h2 rfl (by rw [hr] at hn; simp at hn; omega) ?_ rfl
    exact { hcc with
      depth := by have := hcc.depth; simp at this; simp [this]
      tags := hcc.tags.2
      small := by have := hcc.small; simp at this; omega }

theorem acc_attrValEnd {n : Nat} (H : Claims c o n) (h : Rd c p r) (hns : c.nsAware = false) {y : UInt8}
    (hy : p.currentChar = y.toNat) (ho : p.offset = pos c r) (hn : r.length ≤ n) {name : List UInt8}
    {seen : List (List UInt8)} (hc : Ctx c p (name :: st) seen) :
    Leads (attrValEnd p) (fun s q => Acc s q o) ↔
      ∃ e r', Close (y :: r) e r' ∧ Goal c (afterTag e name st) r' p.out o := by
  rw [leads_attrValEnd h hns hy ho, close_iff]
  have hcc : CtxCore c p.tagStack p.at_ p.depth p.length2 (name :: st) seen := hc
  refine or_congr (and_congr_right fun _ => ?_) (and_congr_right fun _ => exists_congr fun r' => and_congr_right fun hr => ?_)
  · have h1 : Rd c { p with helper := true, at_ := { p.at_ with attrCount := 0 } } r :=
      h.of_eq rfl rfl rfl rfl rfl rfl
    refine acc_tailStart H h1 ho hn ?_ (by simp) rfl
    exact { hcc with count := rfl, atts := trivial }
  · have h1 : Rd c { p with depth := p.depth - 1, helper := false, at_ := { p.at_ with attrCount := 0 } } r :=
      h.of_eq rfl rfl rfl rfl rfl rfl
    have h2 := h1.go (r' := r') (by rw [hr]; exact List.suffix_cons _ _) (ch% '>')
    refine acc_tailOther H h2 rfl (by rw [hr] at hn; simp at hn; omega) ?_ rfl
    exact { hcc with
      depth := by have := hcc.depth; simp at this; simp [this]
      tags := hcc.tags.2
      small := by have := hcc.small; simp at this; omega
      count := rfl
      atts := trivial }

/-- The end of a start tag, or another attribute. -/
theorem acc_tagTail {n : Nat} (H : Claims c o n) (h : Rd c p r) {x : UInt8}
    (hx : p.currentChar = x.toNat) (ho : p.offset = pos c r) (hn : r.length ≤ n) {name : List UInt8}
    {seen : List (List UInt8)} (hc : Ctx c p (name :: st) seen) {A E : M Parser PState}
    (hA : ∀ q s, Rd c q s → (Leads (A q) (fun s q => Acc s q o) ↔ Acc .attrName { q with lastOffset := q.offset - 1 } o))
    (hE : ∀ q s y, Rd c q s → q.currentChar = y.toNat → q.offset = pos c s → s.length ≤ n →
      Ctx c q (name :: st) seen → (Leads (E q) (fun s q => Acc s q o) ↔
        ∃ e r', Close (y :: s) e r' ∧ Goal c (afterTag e name st) r' q.out o)) :
    Leads (tagTail A E p) (fun s q => Acc s q o) ↔
      ∃ recs e r', TagRest c.xmlDoc.length st.length seen (x :: r) recs e r' ∧
        Goal c (afterTag e name st) r' (emit c.shallowDepth p.out recs) o := by
  rw [leads_tagTail h hx hA]
  by_cases hw : Ws x
  · simp only [hw, not_true_eq_false, false_and, true_and, false_or]
    rcases span Ws r with hr | ⟨w, y, s, hr, hw', hy⟩
    · constructor
      · rintro ⟨w, y, s, rfl, _, hy, _⟩
        exact absurd (hr y (by simp)) hy
      · rintro ⟨recs, e, r', ht, _⟩
        exact absurd ht (tagRest_allWs (by
          intro b hb; exact (List.mem_cons.1 hb).elim (fun hb => hb ▸ hw) (hr b)))
    have hlt : s.length < r.length := by rw [hr]; simp; omega
    have e1 : ∀ recs e r', TagRest c.xmlDoc.length st.length seen (x :: r) recs e r' ↔
        (recs = [] ∧ Close (y :: s) e r') ∨
          (StartByte y ∧ AttrTag c.xmlDoc.length st.length seen y s recs e r') := by
      intro recs e r'
      rw [hr, ← List.cons_append, tagRest_iff (w := x :: w) (by
        intro b hb; exact (List.mem_cons.1 hb).elim (fun hb => hb ▸ hw) (hw' b)) hy]
      simp
    have hs : y :: s <:+ r := ⟨w, hr.symm⟩
    have hs' := (List.suffix_cons y s).trans hs
    have h1 : Rd c { p with lastOffset := pos c (y :: s) } r := h.of_eq rfl rfl rfl rfl rfl rfl
    have e2 := H.attr (b := y) (r := s) (name := name) (st := st) (seen := seen) (by omega) (h1.go hs' y.toNat)
      rfl
    have e3 := hE _ s y (h.go hs' y.toNat) rfl rfl (by omega) hc
    have e4 : (∃ w y r', r = w ++ y :: r' ∧ AllWs w ∧ ¬ Ws y ∧
        ((StartByte y ∧ Acc .attrName (go c { p with lastOffset := pos c (y :: r') } r' y.toNat) o) ∨
         (¬ StartByte y ∧ Leads (E (go c p r' y.toNat)) (fun s q => Acc s q o)))) ↔
        ((StartByte y ∧ Acc .attrName (go c { p with lastOffset := pos c (y :: s) } s y.toNat) o) ∨
         (¬ StartByte y ∧ Leads (E (go c p s y.toNat)) (fun s q => Acc s q o))) := by
      constructor
      · rintro ⟨w2, y2, s2, h2, h3, h4, h5⟩
        obtain ⟨rfl, rfl, rfl⟩ := span_unique (P := Ws) (hr.symm.trans h2) hw' hy h3 h4
        exact h5
      · exact fun hh => ⟨w, y, s, hr, hw', hy, hh⟩
    rw [e4]
    simp only [e1]
    by_cases hsb : StartByte y
    · have e5 := e2 hsb rfl rfl (hs.trans h.suf) hc
      have nc : ∀ e r', ¬ Close (y :: s) e r' := by
        intro e r' hh; obtain ⟨_, _, h2, _, h3⟩ := close_cons hh; cases h2; exact h3 hsb
      simp only [hsb, true_and, not_true_eq_false, false_and, or_false, nc, and_false, false_or]
      exact e5
    · simp only [hsb, false_and, not_false_iff, true_and, or_false, false_or]
      rw [e3]
      constructor
      · rintro ⟨e, r', h2, h3⟩; exact ⟨[], e, r', ⟨rfl, h2⟩, h3⟩
      · rintro ⟨recs, e, r', ⟨rfl, h2⟩, h3⟩; exact ⟨e, r', h2, h3⟩
  · simp only [hw, not_false_iff, true_and, false_and, or_false]
    rw [hE p r x h hx ho hn hc]
    have e1 : ∀ recs e r', TagRest c.xmlDoc.length st.length seen (x :: r) recs e r' ↔
        (recs = [] ∧ Close (x :: r) e r') := by
      intro recs e r'
      rw [← List.nil_append (x :: r), tagRest_iff (w := []) (by intro b hb; cases hb) hw]
      simp
    simp only [e1]
    constructor
    · rintro ⟨e, r', h2, h3⟩; exact ⟨[], e, r', ⟨rfl, h2⟩, h3⟩
    · rintro ⟨recs, e, r', ⟨rfl, h2⟩, h3⟩; exact ⟨e, r', h2, h3⟩

/-! ### The claims, one step further -/

theorem _root_.GoVtd.Grammar.PiBody.two {r' : List UInt8} (h : PiBody r r') : r'.length + 2 ≤ r.length := by
  induction h with
  | stop => simp
  | char _ _ _ ih => simp; omega

theorem claim_attr {n : Nat} (H : Claims c o n) (hns : c.nsAware = false) {b : UInt8} {name : List UInt8}
    {seen : List (List UInt8)} (hn : r.length < n + 1) (h : Rd c p r) (hb : p.currentChar = b.toNat)
    (hs : StartByte b) (ho : p.offset = pos c r) (hl : p.lastOffset = pos c (b :: r)) (hsuf : b :: r <:+ c.xmlDoc)
    (hc : Ctx c p (name :: st) seen) :
    Acc .attrName p o ↔ ∃ recs e r', AttrTag c.xmlDoc.length st.length seen b r recs e r' ∧
      Goal c (afterTag e name st) r' (emit c.shallowDepth p.out recs) o := by
  have hcc : CtxCore c p.tagStack p.at_ p.depth p.length2 (name :: st) seen := hc
  have hd : p.depth = st.length := by have := hcc.depth; simp at this; omega
  rw [acc_step (by decide)]
  refine (leads_attrName h hns hb hs ho hl hsuf hc).trans ?_
  have key : ∀ run w1 w2 q r2, r = run ++ w1 ++ ch% '=' :: w2 ++ q :: r2 →
      (q = ch% '"' ∨ q = ch% '\'') → seen.length < 256 →
      (Acc .attrVal (go c { p with
        length1 := ((run.length + 1 : Nat) : Int), length2 := 0, lastOffset := pos c r2,
        at_ := { nsSet p.at_ (b :: run) with
          attrNameSlice := p.at_.attrNameSlice.set seen.length (attWord c (b :: run) (w1 ++ ch% '=' :: w2 ++ q :: r2)),
          attrCount := seen.length + 1 },
        out := emit c.shallowDepth p.out [attrRec c.xmlDoc.length p.depth (b :: r) (b :: run)] } r2 q.toNat) o ↔
      ∃ r1, AttrBody q r2 r1 ∧ r2.length - (r1.length + 1) ≤ maxLen ∧
        ∃ recs e r', TagRest c.xmlDoc.length st.length ((b :: run) :: seen) r1 recs e r' ∧
          Goal c (afterTag e name st) r' (emit c.shallowDepth p.out
            (attrRec c.xmlDoc.length st.length (b :: r) (b :: run) ::
              ⟨.attrVal, pos c r2, r2.length - (r1.length + 1), st.length⟩ :: recs)) o) := by
    intro run w1 w2 q r2 hr hq h256
    rw [acc_step (by decide)]
    have hs2 : r2 <:+ r := ⟨run ++ w1 ++ ch% '=' :: w2 ++ [q], by rw [hr]; simp⟩
    have h1 := Rd.go (Rd.of_eq (Rd.emit h [attrRec c.xmlDoc.length p.depth (b :: r) (b :: run)]) rfl rfl rfl rfl rfl rfl
      : Rd c { p with
        length1 := ((run.length + 1 : Nat) : Int), length2 := 0, lastOffset := pos c r2,
        at_ := { nsSet p.at_ (b :: run) with
          attrNameSlice := p.at_.attrNameSlice.set seen.length (attWord c (b :: run) (w1 ++ ch% '=' :: w2 ++ q :: r2)),
          attrCount := seen.length + 1 },
        out := emit c.shallowDepth p.out [attrRec c.xmlDoc.length p.depth (b :: r) (b :: run)] } r) hs2 q.toNat
    refine (leads_attrVal h1 hns hq rfl rfl).trans ?_
    refine exists_congr fun r1 => and_congr_right fun hB => and_congr_right fun hM => ?_
    have hlt := hB.lt
    have hlen : ((r2.length - (r1.length + 1) : Nat) : Int) = (r2.length : Int) - (r1.length + 1) := by omega
    cases r1 with
    | nil =>
      constructor
      · rintro ⟨_, _, h2, _⟩; cases h2
      · rintro ⟨_, _, _, h2, _⟩; exact absurd h2 (tagRest_allWs (by intro b hb; cases hb))
    | cons x r3 =>
      have hs3 : r3 <:+ r2 := (List.suffix_cons x r3).trans hB.suffix
      have h3 := h1.go hs3 x.toNat
      have h4 := acc_tagTail (p := go c { go c { p with
            length1 := ((run.length + 1 : Nat) : Int), length2 := 0, lastOffset := pos c r2,
            at_ := { nsSet p.at_ (b :: run) with
              attrNameSlice := p.at_.attrNameSlice.set seen.length (attWord c (b :: run) (w1 ++ ch% '=' :: w2 ++ q :: r2)),
              attrCount := seen.length + 1 },
            out := emit c.shallowDepth p.out [attrRec c.xmlDoc.length p.depth (b :: r) (b :: run)] } r2 q.toNat with
          length1 := ((r2.length - ((x :: r3).length + 1) : Nat) : Int),
          at_ := { nsSet p.at_ (b :: run) with
            attrNameSlice := p.at_.attrNameSlice.set seen.length (attWord c (b :: run) (w1 ++ ch% '=' :: w2 ++ q :: r2)),
            attrCount := seen.length + 1, isXml := false, isNs := false },
          out := emit c.shallowDepth (emit c.shallowDepth p.out [attrRec c.xmlDoc.length p.depth (b :: r) (b :: run)])
            [⟨.attrVal, pos c r2, ((r2.length - ((x :: r3).length + 1) : Nat) : Int), p.depth⟩] } r3 x.toNat)
        (r := r3) (A := nextAttr) (E := attrValEnd) (seen := (b :: run) :: seen) (name := name) (st := st) (x := x)
        H ?_ rfl rfl ?_ ?_ (fun q s hq => leads_nextAttr hq)
        (fun q s y hq h5 h6 h7 h8 => acc_attrValEnd H hq hns h5 h6 h7 h8)
      · constructor
        · rintro ⟨x', r3', h5, h6⟩
          cases h5
          obtain ⟨recs, e, r', h7, h8⟩ := h4.1 h6
          refine ⟨recs, e, r', h7, ?_⟩
          have := h8
          simp only [go_out, emit_cons, emit_nil, hd, hlen] at this
          simpa only [emit_cons] using this
        · rintro ⟨recs, e, r', h7, h8⟩
          refine ⟨x, r3, rfl, h4.2 ⟨recs, e, r', h7, ?_⟩⟩
          simp only [go_out, emit_cons, emit_nil, hd, hlen]
          simpa only [emit_cons] using h8
      · exact Rd.of_eq (Rd.emit h3 _) rfl rfl rfl rfl rfl rfl
      · have := congrArg List.length hr; simp at this hlt; omega
      · have hset : Slots (AttAt c) (p.at_.attrNameSlice.set seen.length
            (attWord c (b :: run) (w1 ++ ch% '=' :: w2 ++ q :: r2))) ((b :: run) :: seen) :=
          hcc.atts.push (by rw [hcc.attLen]; omega) (attAt_pack h.len (by
            have : b :: run ++ (w1 ++ ch% '=' :: w2 ++ q :: r2) = b :: r := by rw [hr]; simp
            rw [this]; exact hsuf))
        exact { hcc with
          count := by simp
          atts := hset
          attLen := by simp [hcc.attLen]
          noNs := rfl
          len2 := rfl }
  constructor
  · rintro ⟨run, w1, w2, q, r2, hr, h1, h2, h3, h4, h5, h6, h7, h8, h9⟩
    obtain ⟨r1, h10, h11, recs, e, r', h12, h13⟩ := (key run w1 w2 q r2 hr h8 h3).1 h9
    exact ⟨_, e, r', ⟨run, w1, w2, q, r2, r1, recs, hr, h1, h2, h3, h4, h5, h6, h7, h8, h10, h11, h12, rfl⟩, h13⟩
  · rintro ⟨_, e, r', ⟨run, w1, w2, q, r2, r1, recs, hr, h1, h2, h3, h4, h5, h6, h7, h8, h10, h11, h12, rfl⟩, h13⟩
    exact ⟨run, w1, w2, q, r2, hr, h1, h2, h3, h4, h5, h6, h7, h8,
      (key run w1 w2 q r2 hr h8 h3).2 ⟨r1, h10, h11, recs, e, r', h12, h13⟩⟩

theorem claim_close {n : Nat} (H : Claims c o n) (hn : r.length < n + 1) (h : Rd c p r)
    (ho : p.offset = pos c r) (hc : Ctx c p st []) : Acc .tagEnd p o ↔ Goal c (.close st) r p.out o := by
  rw [acc_step (by decide)]
  cases st with
  | nil => exact iff_of_false (leads_endTag_nil hc) goal_close_nil
  | cons name st =>
    have hcc : CtxCore c p.tagStack p.at_ p.depth p.length2 (name :: st) [] := hc
    refine (leads_endTag h ho hc).trans ?_
    rw [goal_close]
    refine exists_congr fun w => exists_congr fun r1 => and_congr_right fun hr => and_congr_right fun _ => ?_
    have h0 : Rd c { p with lastOffset := pos c r, depth := p.depth - 1 } r := h.of_eq rfl rfl rfl rfl rfl rfl
    have hs : r1 <:+ r := ⟨name ++ w ++ [ch% '>'], by rw [hr]; simp⟩
    have hlt : r1.length < r.length := by rw [hr]; simp; omega
    have h1 := h0.go hs (ch% '>')
    have hc' : CtxCore c p.tagStack p.at_ (p.depth - 1) p.length2 st [] := { hcc with
      depth := by have := hcc.depth; simp at this; simp [this]
      tags := hcc.tags.2
      small := by have := hcc.small; simp at this; omega }
    cases st with
    | nil =>
      simp only [true_and, ne_eq, not_true_eq_false, false_and, or_false, next]
      exact H.epilog (by omega) h1 hc'
    | cons a st =>
      simp only [reduceCtorEq, false_and, false_or, ne_eq, not_false_iff, true_and, next]
      exact acc_afterEnd H h1 rfl (by omega) hc' (by simp)

theorem _root_.GoVtd.Grammar.PiEndTarget.suffix {x : UInt8} {r1 : List UInt8} (h : PiEndTarget r x r1) :
    x :: r1 <:+ r := by
  cases h with
  | mk => rename_i b run _ _ _ _; exact ⟨b :: run, by simp⟩

theorem claim_epilog {n : Nat} (H : Claims c o n) (hn : r.length < n + 1) (h : Rd c p r) (hc : Ctx c p [] []) :
    Acc .docEnd p o ↔ Goal c .epilog r p.out o := by
  have hd : p.depth = -1 := hc.depth
  rw [acc_docEnd h, goal_epilog]
  refine or_congr Iff.rfl ?_
  rw [leads_docEnd h (fun q => not_acc_endComment)]
  refine exists_congr fun w => exists_congr fun r0 => and_congr_right fun hr => and_congr_right fun _ => ?_
  rw [acc_step (by decide)]
  have hs0 : r0 <:+ r := ⟨w ++ [ch% '<', ch% '?'], by rw [hr]; simp⟩
  have h1 := (h.go hs0 (ch% '<')).mark (pos c r0)
  refine (leads_piEnd h1).trans ?_
  have hl0 := hs0.length_le
  refine exists_congr fun x => exists_congr fun r1 => and_congr_right fun hT => ?_
  have hsx := hT.suffix
  have hs1 := (List.suffix_cons x r1).trans hsx
  have hl1 := hsx.length_le
  simp only [List.length_cons] at hl1
  have hr2 : r.length ≥ r0.length + 2 := by rw [hr]; simp
  have e1 : pos c r1 - pos c r0 - 1 = (r0.length : Int) - (r1.length + 1) := by
    simp only [pos, Grammar.offset]; omega
  refine and_congr (by show pos c r1 - pos c r0 - 1 ≤ _ ↔ _; rw [e1]; omega) (or_congr (and_congr_right fun _ =>
    exists_congr fun r2 => and_congr_right fun hB => ?_) (and_congr_right fun _ => exists_congr fun y =>
    exists_congr fun r2 => and_congr_right fun hr1 => and_congr_right fun _ => ?_))
  · have hl2 := hB.suffix.length_le
    have hl3 : r2.length + 2 ≤ r1.length := hB.two
    have e2 : pos c r2 - pos c r1 - 2 = (r1.length : Int) - (r2.length + 2) := by
      simp only [pos, Grammar.offset]; omega
    refine and_congr (by rw [e2]; omega) ?_
    refine (H.epilog (r := r2) (by omega) ?_ ?_).trans ?_
    · exact Rd.of_eq (Rd.emit (h1.go (hB.suffix.trans hs1) (ch% '?')) _) rfl rfl rfl rfl rfl rfl
    · exact hc
    · show Goal c .epilog r2 (emit _ _ [⟨.piName, pos c r0, pos c r1 - pos c r0 - 1, p.depth⟩,
        ⟨.piVal, pos c r1, pos c r2 - pos c r1 - 2, p.depth⟩]) o ↔ _
      rw [e1, e2, hd]; rfl
  · refine (H.epilog (r := r1) (by omega) ?_ ?_).trans ?_
    · exact Rd.of_eq (Rd.emit (h1.go hs1 (ch% '?')) _) rfl rfl rfl rfl rfl rfl
    · exact hc
    · show Goal c .epilog r1 (emit _ _ [⟨.piName, pos c r0, pos c r1 - pos c r0 - 1, p.depth⟩,
        ⟨.piVal, pos c r1, 0, p.depth⟩]) o ↔ _
      rw [e1, hd]; rfl

theorem exists_and_left_iff {α : Sort _} {P : Prop} {Q : α → Prop} : (P ∧ ∃ a, Q a) ↔ ∃ a, P ∧ Q a := by
  constructor
  · rintro ⟨h, a, q⟩; exact ⟨a, h, q⟩
  · rintro ⟨a, h, q⟩; exact ⟨h, a, q⟩

theorem qmSeen_ne {s : PState} {q : Parser} (h : processQmSeen p = .ok s q) : s ≠ .docEnd := by
  have : Leads (processQmSeen p) (fun s _ => s ≠ .docEnd) := by
    have h1 : Leads (processQmSeen p) (fun _ _ => True) := ⟨s, q, h, trivial⟩
    simp only [processQmSeen, leads_bind, markOffset, M.modify_apply, leads_ok, leads_ite, leads_parseErr, and_false,
      or_false, M.pure_apply] at h1 ⊢
    revert h1
    refine fun ⟨a, t, e, h1⟩ => ⟨a, t, e, ?_⟩
    refine ⟨h1.1, ?_⟩
    obtain ⟨a, t, e, h1⟩ := h1.2
    refine ⟨a, t, e, ?_⟩
    rcases h1 with ⟨h2, a, t, e, h1⟩ | h1
    · refine Or.inl ⟨h2, a, t, e, ?_⟩
      rcases h1 with h1 | ⟨h4, a, t, e, _⟩
      · exact h1.elim
      · exact Or.inr ⟨h4, a, t, e, PState.noConfusion⟩
    · exact Or.inr ⟨h1.1, by decide⟩
  obtain ⟨s', q', e, h1⟩ := this
  rw [h] at e; cases e; exact h1

theorem _root_.GoVtd.Grammar.PiTarget.suffix {x : UInt8} {r1 : List UInt8} (h : PiTarget r x r1) :
    x :: r1 <:+ r := by
  cases h with
  | plain => rename_i b run _ _ _ _; exact ⟨b :: run, by simp⟩
  | xml => rename_i a b c y run _ _ _ _ _; exact ⟨a :: b :: c :: y :: run, by simp⟩

theorem _root_.GoVtd.Grammar.CommentBody.two {r' : List UInt8} (h : CommentBody r r') :
    r'.length + 2 ≤ r.length := by
  induction h with
  | stop => simp
  | char _ _ _ ih => simp; omega

theorem _root_.GoVtd.Grammar.CdataBody.lt {r' : List UInt8} (h : CdataBody r r') : r'.length < r.length := by
  cases h with
  | stop => simp; omega
  | char _ _ h => have := h.suffix.length_le; simp; omega
  | brackets _ _ h => have := h.suffix.length_le; simp at this ⊢; omega

theorem _root_.GoVtd.Grammar.DtdBody.lt {z : Nat} {r' : List UInt8} (h : DtdBody z r r') : r'.length < r.length := by
  induction h with
  | stop => simp
  | close _ ih => simp; omega
  | opening _ ih => simp; omega
  | char _ _ _ _ ih => simp; omega

theorem pos_sub (a b : List UInt8) (k : Int) : pos c b - pos c a - k = (a.length : Int) - (b.length + k) := by
  simp only [pos, Grammar.offset]; omega

theorem acc_comment {n : Nat} (H : Claims c o n) (hn : r.length ≤ n) (h : Rd c p r) (hl : p.lastOffset = pos c r)
    (hc : Ctx c p st []) : Acc .startComment p o ↔ ∃ r1, CommentBody r (ch% '>' :: r1) ∧
      Goal c (.content .other st) r1 (emit c.shallowDepth p.out
        (textRecs .comment (pos c r) (r.length - (r1.length + 3)) (st.length - 1))) o := by
  have hd : p.depth = st.length - 1 := hc.depth
  rw [acc_step (by decide)]
  refine (leads_comment h).trans (exists_congr fun r1 => and_congr_right fun hB => ?_)
  have h2 := hB.two
  simp only [List.length_cons] at h2
  have h7 := h.go ((List.suffix_cons _ _).trans hB.suffix) (ch% '>')
  have e' : pos c (ch% '>' :: r1) - pos c r - 2 = (r.length : Int) - (r1.length + 3) := by
    rw [pos_sub]; simp; omega
  rw [hl, e', hd]
  refine (acc_afterMarkup (c := c) (r := r1) (st := st) H ?_ rfl (by omega) ?_).trans ?_
  · exact Rd.of_eq (Rd.emit h7 _) rfl rfl rfl rfl rfl rfl
  · exact hc
  · exact Iff.rfl

theorem acc_cdata {n : Nat} (H : Claims c o n) (hn : r.length ≤ n) (h : Rd c p r) (hl : p.lastOffset = pos c r)
    (hc : Ctx c p st []) : Acc .cdata p o ↔ ∃ r1, CdataBody r r1 ∧
      Goal c (.content .other st) r1 (emit c.shallowDepth p.out
        (textRecs .cdataVal (pos c r) (r.length - (r1.length + 3)) (st.length - 1))) o := by
  have hd : p.depth = st.length - 1 := hc.depth
  rw [acc_step (by decide)]
  refine (leads_cdata h).trans (exists_congr fun r1 => and_congr_right fun hB => ?_)
  have h2 := hB.lt
  have h7 := h.go hB.suffix (ch% ']')
  have e' : pos c r1 - pos c r - 2 - 1 = (r.length : Int) - (r1.length + 3) := by
    rw [pos_sub]; omega
  rw [hl, e', hd]
  refine (acc_afterMarkup (c := c) (r := r1) (st := st) H ?_ rfl (by omega) ?_).trans ?_
  · exact Rd.of_eq (Rd.emit h7 _) rfl rfl rfl rfl rfl rfl
  · exact hc
  · exact Iff.rfl

theorem acc_docType {n : Nat} (H : Claims c o n) (hn : r.length ≤ n) (h : Rd c p r) (hl : p.lastOffset = pos c r)
    (hc : Ctx c p st []) : Acc .docType p o ↔ ∃ r1, DtdBody 1 r r1 ∧ r.length - (r1.length + 1) ≤ maxLen ∧
      ∃ w r2, r1 = w ++ ch% '<' :: r2 ∧ AllWs w ∧ Goal c (.lt [] st) r2 (emit c.shallowDepth p.out
        [⟨.dtdVal, pos c r, r.length - (r1.length + 1), st.length - 1⟩]) o := by
  have hd : p.depth = st.length - 1 := hc.depth
  rw [acc_step (by decide)]
  refine (leads_docType h).trans (exists_congr fun r1 => and_congr_right fun hB => ?_)
  have h2 := hB.lt
  rw [hl, pos_sub, hd]
  refine and_congr (by omega) (exists_congr fun w => exists_congr fun r2 => and_congr_right fun hr1 =>
    and_congr_right fun _ => ?_)
  have hs4 : r2 <:+ r1 := by rw [hr1]; exact suffix_append_cons _ _ _
  have h7 := h.go (hs4.trans hB.suffix) (ch% '<')
  refine (H.lt (r := r2) (pre := []) (st := st) (by have := hs4.length_le; omega) ?_ rfl (by exact h7.suf) ?_).trans ?_
  · exact Rd.of_eq (Rd.emit h7 _) rfl rfl rfl rfl rfl rfl
  · exact hc
  · exact Iff.rfl

theorem acc_piVal {n : Nat} (H : Claims c o n) (hn : r.length ≤ n) (h : Rd c p r) (ho : p.offset = pos c r)
    {x : UInt8} (hx : p.currentChar = x.toNat) (hc : Ctx c p st []) : Acc .piVal p o ↔ Ws x ∧
      ∃ r1, PiBody r r1 ∧ r.length - (r1.length + 2) ≤ maxLen ∧
        Goal c (.content .other st) r1 (emit c.shallowDepth p.out
          [⟨.piVal, pos c r, r.length - (r1.length + 2), st.length - 1⟩]) o := by
  have hd : p.depth = st.length - 1 := hc.depth
  rw [acc_step (by decide)]
  refine (leads_piVal h ho hx).trans (and_congr_right fun _ => exists_congr fun r1 => and_congr_right fun hB => ?_)
  have h2 := hB.two
  rw [pos_sub, hd]
  refine and_congr (by omega) ?_
  have h7 := h.go hB.suffix (ch% '?')
  refine (acc_afterMarkup (c := c) (r := r1) (st := st) H ?_ rfl (by omega) ?_).trans ?_
  · exact Rd.of_eq (Rd.emit h7 _) rfl rfl rfl rfl rfl rfl
  · exact hc
  · exact Iff.rfl

theorem pi_iff {n : Nat} {d : Int} {Q : List Rec → List UInt8 → Prop} : (∃ recs r1, Pi n d r recs r1 ∧ Q recs r1) ↔
    ∃ x r1, PiTarget r x r1 ∧ r.length - (r1.length + 1) ≤ maxLen ∧
      ((x = ch% '?' ∧ ∃ r2, r1 = ch% '>' :: r2 ∧ Q [⟨.piName, Grammar.offset n r, r.length - (r1.length + 1), d⟩,
          ⟨.piVal, Grammar.offset n r, 0, d⟩] r2) ∨
       (x ≠ ch% '?' ∧ Ws x ∧ ∃ r2, PiBody r1 r2 ∧ r1.length - (r2.length + 2) ≤ maxLen ∧
          Q [⟨.piName, Grammar.offset n r, r.length - (r1.length + 1), d⟩,
            ⟨.piVal, Grammar.offset n r1, r1.length - (r2.length + 2), d⟩] r2)) := by
  constructor
  · rintro ⟨recs, r1, h, hq⟩
    cases h with
    | bare h1 h2 =>
      refine ⟨_, _, h1, by simpa using h2, Or.inl ⟨rfl, _, rfl, ?_⟩⟩
      rw [show (r.length : Int) - ((ch% '>' :: r1).length + 1) = r.length - (r1.length + 2) by simp; omega]
      exact hq
    | value h1 h2 h3 h4 h5 =>
      exact ⟨_, _, h1, h3, Or.inr ⟨fun hx => absurd (hx ▸ h2) (by simp [Spec.S]), h2, _, h4, h5, hq⟩⟩
  · rintro ⟨x, r1, h1, h2, ⟨rfl, r2, rfl, hq⟩ | ⟨_, hw, r2, h4, h5, hq⟩⟩
    · refine ⟨_, _, .bare h1 (by simpa using h2), ?_⟩
      rw [show (r.length : Int) - ((ch% '>' :: r2).length + 1) = r.length - (r2.length + 2) by simp; omega] at hq
      exact hq
    · exact ⟨_, _, .value h1 hw h2 h4 h5, hq⟩

theorem acc_pi {n : Nat} (H : Claims c o n) (hn : r.length ≤ n) (h : Rd c p r) (ho : p.offset = pos c r)
    (hc : Ctx c p st []) : Leads (processQmSeen p) (fun s q => Acc s q o) ↔
      ∃ recs r1, Pi c.xmlDoc.length (st.length - 1) r recs r1 ∧
        Goal c (.content .other st) r1 (emit c.shallowDepth p.out recs) o := by
  have hd : p.depth = st.length - 1 := hc.depth
  rw [leads_congr (fun s q hq => acc_step (qmSeen_ne hq)), leads_pi h ho, pi_iff]
  refine exists_congr fun x => exists_congr fun r1 => and_congr_right fun hT => ?_
  have hs := hT.suffix
  have hl := hs.length_le
  simp only [List.length_cons] at hl
  have h2 := h.go (r' := r1) ((List.suffix_cons _ _).trans hs) x.toNat
  rw [pos_sub, hd]
  refine and_congr (by omega) (or_congr (and_congr_right fun hx => exists_congr fun r2 => and_congr_right fun hr1 => ?_)
    (and_congr_right fun _ => ?_))
  · have h3 := h.go (r' := r2) ((List.suffix_cons (ch% '>') _).trans (hr1 ▸ (List.suffix_cons _ _).trans hs)) (ch% '?')
    refine (acc_afterMarkup (c := c) (r := r2) (st := st) H ?_ rfl (by rw [hr1] at hl; simp at hl; omega) ?_).trans ?_
    · exact Rd.of_eq (Rd.emit h3 _) rfl rfl rfl rfl rfl rfl
    · exact hc
    · exact Iff.rfl
  · refine (acc_piVal (c := c) (r := r1) (st := st) (x := x) H (by omega) ?_ rfl rfl ?_).trans ?_
    · exact Rd.of_eq (Rd.emit h2 _) rfl rfl rfl rfl rfl rfl
    · exact hc
    · simp only [emit_cons, emit_nil]; exact Iff.rfl

theorem claim_lt {n : Nat} (H : Claims c o n) (hns : c.nsAware = false) {pre : List UInt8} (hn : r.length < n + 1)
    (h : Rd c p r) (ho : p.offset = pos c (pre ++ r)) (hpre : pre ++ r <:+ c.xmlDoc) (hc : Ctx c p st []) :
    Acc .ltSeen p o ↔ Goal c (.lt pre st) r p.out o := by
  have hcc : CtxCore c p.tagStack p.at_ p.depth p.length2 st [] := hc
  have hd : p.depth = st.length - 1 := hc.depth
  rw [acc_step (by decide), goal_lt]
  refine (leads_lt h).trans ?_
  refine exists_congr fun b => exists_congr fun s => and_congr_right fun hr => ?_
  have hs : s <:+ r := by rw [hr]; exact List.suffix_cons _ _
  have hlt : s.length < r.length := by rw [hr]; simp
  have h1 := h.go hs b.toNat
  have h2 : Rd c { go c p s b.toNat with lastOffset := p.offset } s := h1.of_eq rfl rfl rfl rfl rfl rfl
  have hc2 : Ctx c { go c p s b.toNat with lastOffset := p.offset } st [] := hc
  have hposE : ∀ (a b : List UInt8) (k : Int), pos c b - pos c a - k = (a.length : Int) - (b.length + k) := by
    intro a b k; simp only [pos, Grammar.offset]; omega
  refine or_congr (and_congr_right fun hsb => ?_) (or_congr (and_congr_right fun _ => ?_)
    (or_congr (and_congr_right fun _ => ?_) (and_congr_right fun _ => ?_)))
  · rw [acc_step (by decide)]
    have h3 : Rd c { go c p s b.toNat with lastOffset := p.offset, depth := p.depth + 1 } s :=
      h1.of_eq rfl rfl rfl rfl rfl rfl
    refine (leads_startTag (pre := pre) (d := st.length) (b := b) h3 hns (by rw [← hr]; exact hpre)
      (by show p.offset = _; rw [ho, hr]) hcc.len2 (by show p.depth + 1 = _; omega) hcc.tagLen).trans ?_
    refine exists_congr fun run => exists_congr fun x => exists_congr fun r1 => and_congr_right fun hs2 =>
      and_congr_right fun _ => and_congr_right fun _ => and_congr_right fun hd2 => and_congr_right fun _ =>
      and_congr_right fun _ => ?_
    have hs1 : r1 <:+ s := by rw [hs2]; exact suffix_append_cons _ _ _
    refine (acc_tagTail (r := r1) (x := x) (seen := []) (name := pre ++ b :: run) (st := st) H ?_ rfl rfl ?_ ?_
      (fun q s hq => leads_firstAttr hq) (fun q s y hq h5 h6 h7 h8 => acc_startTagEnd H hq hns h5 h6 h7 h8)).trans ?_
    · exact Rd.of_eq (Rd.go (Rd.emit h3 _) hs1 x.toNat) rfl rfl rfl rfl rfl rfl
    · have := hs1.length_le; omega
    · have hset : Slots (TagAt c) (p.tagStack.set st.length (tagWord c (pre ++ b :: run) (x :: r1)))
          ((pre ++ b :: run) :: st) :=
        hcc.tags.push (by rw [hcc.tagLen]; omega) (tagAt_pack h.len (by
          have : pre ++ b :: run ++ x :: r1 = pre ++ r := by rw [hr, hs2]; simp
          rw [this]; exact hpre))
      exact { hcc with
        depth := by show p.depth + 1 = _; simp; omega
        tags := hset
        tagLen := by simp [hcc.tagLen]
        small := by simp; omega
        len2 := rfl }
    · exact Iff.rfl
  · exact H.close (by omega) h2 rfl hc2
  · refine (leads_exSeen h2).trans ?_
    have key : ∀ r0 t, s = t ++ r0 → r0.length ≤ n ∧
        Rd c { go c { go c p s b.toNat with lastOffset := p.offset } r0 b.toNat with lastOffset := pos c r0 } r0 := by
      intro r0 t hs3
      have hs0 : r0 <:+ s := ⟨_, hs3.symm⟩
      have := hs0.length_le
      exact ⟨by omega, (h2.go hs0 b.toNat).of_eq rfl rfl rfl rfl rfl rfl⟩
    refine or_congr ?_ (or_congr ?_ ?_)
    · refine exists_congr fun r0 => ?_
      rw [← exists_and_left_iff]
      refine and_congr_right fun hs3 => ?_
      obtain ⟨hl, h5⟩ := key _ _ hs3
      exact acc_comment H hl h5 rfl hc
    · refine and_congr hc2.some_iff (exists_congr fun r0 => ?_)
      rw [← exists_and_left_iff]
      refine and_congr_right fun hs3 => ?_
      obtain ⟨hl, h5⟩ := key _ _ hs3
      exact acc_cdata H hl h5 rfl hc
    · refine and_congr hc2.some_iff (exists_congr fun r0 => ?_)
      rw [← exists_and_left_iff]
      refine and_congr_right fun hs3 => ?_
      obtain ⟨hl, h5⟩ := key _ _ hs3
      exact acc_docType H hl h5 rfl hc
  · exact acc_pi H (by omega) h2 rfl hc2

theorem claims (hns : c.nsAware = false) (n : Nat) : Claims c o n := by
  induction n with
  | zero => exact ⟨fun h => absurd h (by omega), fun h => absurd h (by omega), fun h => absurd h (by omega),
      fun h => absurd h (by omega)⟩
  | succ n ih =>
    exact ⟨fun h1 h2 h3 h4 h5 => claim_lt ih hns h1 h2 h3 h4 h5, fun h1 h2 h3 h4 => claim_close ih h1 h2 h3 h4,
      fun h1 h2 h3 => claim_epilog ih h1 h2 h3,
      fun h1 h2 h3 h4 h5 h6 h7 h8 => claim_attr ih hns h1 h2 h3 h4 h5 h6 h7 h8⟩

/-- From `<` on, the main loop accepts exactly the grammar. -/
theorem acc_lt (hns : c.nsAware = false) {pre : List UInt8} (h : Rd c p r) (ho : p.offset = pos c (pre ++ r))
    (hpre : pre ++ r <:+ c.xmlDoc) (hc : Ctx c p st []) :
    Acc .ltSeen p o ↔ Goal c (.lt pre st) r p.out o :=
  (claims hns (r.length + 1)).lt (by omega) h ho hpre hc

end
end Parser
end GoVtd
