import Verif.Proofs.Parser.Procs

/-!
# Accepting runs after `<` and after the root element
-/

namespace GoVtd
namespace Parser
open Paged Grammar

section
variable {c : ParserCfg} {p p' : Parser} {r r' : List UInt8} {b : UInt8} {ch : Nat}

theorem Rd.mark (h : Rd c p r) (o : Int) : Rd c { p with lastOffset := o } r := h.of_eq rfl rfl rfl rfl rfl rfl

theorem ws_char (h : Ws b) : CharByte b ∧ b ≠ ch% '?' := by
  have key : ∀ n < 256, isSpaceChar n = true → isValidChar n = true ∧ n ≠ ch% '?' := by decide +kernel
  have := key _ b.toNat_lt ((isSpaceChar_iff _).2 h)
  exact ⟨(isValidChar_iff _).1 this.1, fun e => this.2 (eq_nat (ch% '?') e)⟩

theorem piBody_ws {w : List UInt8} (hw : AllWs w) {s s' : List UInt8} : PiBody (w ++ s) s' ↔ PiBody s s' := by
  induction w with
  | nil => rfl
  | cons b w ih =>
    have hb := ws_char (hw b (by simp))
    rw [List.cons_append, piBody_cons, ih fun x hx => hw x (by simp [hx])]
    simp [hb.1, hb.2]

theorem piBody_exists_ws {s' : List UInt8} (h : PiBody r s') : ∃ w b r', r = w ++ b :: r' ∧ AllWs w ∧ ¬ Ws b := by
  rcases span Ws r with hr | hr
  · rw [← List.append_nil r, piBody_ws hr, piBody_nil] at h
    exact h.elim
  · exact hr

theorem leads_piEndVal (h : Rd c p r) {fuel : Nat} (hf : r.length < fuel) {K : PState → Parser → Prop} :
    Leads ((do
      nextCharAfterWs
      piEndValLoop fuel
      M.modify fun p => { p with length1 := p.offset - p.lastOffset - p.enc.increment * 2 }
      writeVtdWithLengthCheck .piVal "PI value too long (>0xFFFF)"
      pure PState.docEnd : M Parser PState) p) K ↔
      ∃ r2, PiBody r r2 ∧ pos c r2 - p.lastOffset - 2 ≤ maxLen ∧
        K .docEnd { go c p r2 (ch% '?') with
          length1 := pos c r2 - p.lastOffset - 2,
          out := emit c.shallowDepth p.out [⟨.piVal, p.lastOffset, pos c r2 - p.lastOffset - 2, p.depth⟩] } := by
  rw [leads_bind, leads_nextWs h]
  constructor
  · rintro ⟨w, y, t, rfl, hw, hy, hk⟩
    have h5 := h.go (suffix_append_cons w y t) y.toNat
    simp at hf
    rw [leads_bind] at hk
    obtain ⟨r2, h6, hk⟩ := (leads_of_iff (fun u p' => piEndValLoop_iff (b := y) h5 rfl (by omega))).1 hk
    have h6' := (piBody_ws hw).2 h6
    have h7 := h.go h6'.suffix (ch% '?')
    rw [leads_bind, M.modify_apply, leads_ok, leads_bind] at hk
    have hk := (leads_writeCheck (c := c) (by exact h7.toBase) .piVal (by decide) _).1 hk
    simp only [go_offset, go_enc, go_lastOffset, h.inc, Int.one_mul] at hk
    exact ⟨r2, h6', hk.1, (leads_ok _ _).1 hk.2⟩
  · rintro ⟨r2, h6', hl2, hk⟩
    obtain ⟨w, y, t, rfl, hw, hy⟩ := piBody_exists_ws h6'
    have h6 := (piBody_ws hw).1 h6'
    have h5 := h.go (suffix_append_cons w y t) y.toNat
    simp at hf
    have h7 := h.go h6'.suffix (ch% '?')
    refine ⟨w, y, t, rfl, hw, hy, ?_⟩
    rw [leads_bind]
    refine (leads_of_iff (fun u p' => piEndValLoop_iff (b := y) h5 rfl (by omega))).2 ⟨r2, h6, ?_⟩
    rw [leads_bind, M.modify_apply, leads_ok, leads_bind]
    refine (leads_writeCheck (c := c) (by exact h7.toBase) .piVal (by decide) _).2 ?_
    simp only [go_offset, go_enc, go_lastOffset, h.inc, Int.one_mul]
    exact ⟨hl2, (leads_ok _ _).2 hk⟩

theorem leads_piEndCut (h : Rd c p r) {x : UInt8} {K : PState → Parser → Prop} :
    Leads ((do
      writeAt .piVal 0
      let bad ← (pure (x.toNat ≠ ch% '?') ||! skipChar (ch% '>'))
      if bad then parseErr "invalid termination sequence" else pure PState.docEnd : M Parser PState) p) K ↔
      x = ch% '?' ∧ ∃ y r2, r = y :: r2 ∧ y ≠ ch% '>' ∧
        K .docEnd { go c p r p.currentChar with
          out := emit c.shallowDepth p.out [⟨.piVal, p.lastOffset, 0, p.depth⟩] } := by
  rw [leads_bind]
  refine (leads_writeAt (c := c) h.toBase .piVal (by decide) _).trans ?_
  have h5 := h.emit [⟨.piVal, p.lastOffset, 0, p.depth⟩]
  rw [leads_bind, leads_or, M.pure_apply, leads_ok]
  by_cases hx : x = ch% '?'
  · subst hx
    simp only [true_and]
    refine (leads_skipChar (c := c) (r := r) ?_ (ch% '>')).trans ?_
    · exact h5
    refine exists_congr fun y => exists_congr fun r2 => and_congr_right fun _ => ?_
    constructor
    · rintro (⟨_, hk⟩ | ⟨hy, hk⟩)
      · simp at hk
      · exact ⟨hy, (leads_ok _ _).1 hk⟩
    · rintro ⟨hy, hk⟩
      exact Or.inr ⟨hy, (leads_ok _ _).2 hk⟩
  · have hx' := ne_nat (ch% '?') hx
    simp [hx, hx']

theorem leads_piEnd (h : Rd c p r) {K : PState → Parser → Prop} :
    Leads (processPiEnd p) K ↔ ∃ x r1, PiEndTarget r x r1 ∧ pos c r1 - p.lastOffset - 1 ≤ maxLen ∧
      ((Ws x ∧ ∃ r2, PiBody r1 r2 ∧ pos c r2 - pos c r1 - 2 ≤ maxLen ∧
        K .docEnd { go c p r2 (ch% '?') with
          lastOffset := pos c r1,
          length1 := pos c r2 - pos c r1 - 2,
          out := emit c.shallowDepth p.out
            [⟨.piName, p.lastOffset, pos c r1 - p.lastOffset - 1, p.depth⟩,
             ⟨.piVal, pos c r1, pos c r2 - pos c r1 - 2, p.depth⟩] }) ∨
       (x = ch% '?' ∧ ∃ y r2, r1 = y :: r2 ∧ y ≠ ch% '>' ∧
        K .docEnd { go c p r1 (ch% '?') with
          lastOffset := pos c r1,
          length1 := pos c r1 - p.lastOffset - 1,
          out := emit c.shallowDepth p.out
            [⟨.piName, p.lastOffset, pos c r1 - p.lastOffset - 1, p.depth⟩, ⟨.piVal, pos c r1, 0, p.depth⟩] })) := by
  simp only [processPiEnd, leads_bind, M.get_apply, leads_ok]
  rw [leads_nextChar h]
  have key : ∀ {b : UInt8} {s : List UInt8}, r = b :: s → ∀ {x : UInt8} {r1 : List UInt8}, r1 <:+ r →
      (Leads ((do
        M.modify (fun p => { p with length1 := p.offset - p.lastOffset - p.enc.increment })
        writeVtdWithLengthCheck .piName "PI name too long (>0xFFFF)"
        markOffset
        let p ← M.get
        if isSpaceChar p.currentChar then do
          nextCharAfterWs
          piEndValLoop p.loopFuel
          M.modify fun p => { p with length1 := p.offset - p.lastOffset - p.enc.increment * 2 }
          writeVtdWithLengthCheck .piVal "PI value too long (>0xFFFF)"
          pure PState.docEnd
        else do
          writeAt .piVal 0
          let bad ← (pure (p.currentChar ≠ ch% '?') ||! skipChar (ch% '>'))
          if bad then parseErr "invalid termination sequence" else pure PState.docEnd : M Parser PState)
        (go c p r1 x.toNat)) K ↔
      pos c r1 - p.lastOffset - 1 ≤ maxLen ∧
      ((Ws x ∧ ∃ r2, PiBody r1 r2 ∧ pos c r2 - pos c r1 - 2 ≤ maxLen ∧
        K .docEnd { go c p r2 (ch% '?') with
          lastOffset := pos c r1,
          length1 := pos c r2 - pos c r1 - 2,
          out := emit c.shallowDepth p.out
            [⟨.piName, p.lastOffset, pos c r1 - p.lastOffset - 1, p.depth⟩,
             ⟨.piVal, pos c r1, pos c r2 - pos c r1 - 2, p.depth⟩] }) ∨
       (x = ch% '?' ∧ ∃ y r2, r1 = y :: r2 ∧ y ≠ ch% '>' ∧
        K .docEnd { go c p r1 (ch% '?') with
          lastOffset := pos c r1,
          length1 := pos c r1 - p.lastOffset - 1,
          out := emit c.shallowDepth p.out
            [⟨.piName, p.lastOffset, pos c r1 - p.lastOffset - 1, p.depth⟩, ⟨.piVal, pos c r1, 0, p.depth⟩] }))) := by
    intro b s hr x r1 hr1
    have h2 := h.go hr1 x.toNat
    rw [leads_bind, M.modify_apply, leads_ok, leads_bind]
    simp only [go_offset, go_enc, go_lastOffset, h.inc]
    refine (leads_writeCheck (c := c) ?_ .piName (by decide) _).trans ?_
    · exact h2.toBase
    refine and_congr_right fun _ => ?_
    have h3 := h2.emit [⟨.piName, p.lastOffset, pos c r1 - p.lastOffset - 1, p.depth⟩]
    have h4 : Rd c { go c p r1 x.toNat with
        lastOffset := pos c r1,
        length1 := pos c r1 - p.lastOffset - 1,
        out := emit c.shallowDepth p.out [⟨.piName, p.lastOffset, pos c r1 - p.lastOffset - 1, p.depth⟩] } r1 :=
      h3.of_eq rfl rfl rfl rfl rfl rfl
    simp only [leads_bind, markOffset, M.modify_apply, leads_ok, M.get_apply]
    rw [leads_ite]
    refine or_congr (and_congr (isSpaceChar_iff _) ?_) ?_
    · refine (leads_piEndVal (c := c) (r := r1) ?_ ?_).trans ?_
      · exact h4
      · exact h4.fuel (q := go c p r1 x.toNat) h.cfg
      · simp only [emit_cons, emit_nil]
        exact Iff.rfl
    · have e1 := leads_piEndCut (c := c) (x := x) h4 (K := K)
      constructor
      · rintro ⟨_, hk⟩
        obtain ⟨rfl, hk⟩ := e1.1 hk
        simp only [emit_cons, emit_nil] at hk ⊢
        exact ⟨trivial, hk⟩
      · rintro ⟨rfl, hk⟩
        refine ⟨by simp only [go_cur]; decide, e1.2 ⟨rfl, ?_⟩⟩
        simp only [emit_cons, emit_nil] at hk ⊢
        exact hk
  constructor
  · rintro ⟨b, s, rfl, hk⟩
    have h1 := h.tail b.toNat
    have hl := h1.suf.length_le
    have hl' := h.suf.length_le
    rw [leads_ite] at hk
    rcases hk with ⟨hs, hk⟩ | ⟨_, hk⟩
    rotate_left
    · simp at hk
    have hs' : StartByte b := (isNameStartChar_iff _).1 hs
    rw [leads_bind] at hk
    have hk := (leads_congr (fun a s _ => leads_bind)).1 hk
    obtain ⟨run, x, r1, rfl, hn, hx, h3, hk⟩ := (leads_piEndName h1 rfl rfl hs'
      (by simp only [loopFuel, go_cfg, h.cfg]; simp at hl'; simp; omega)).1 hk
    have hk := (key rfl (by exact ⟨b :: run ++ [x], by simp⟩)).1 hk
    refine ⟨x, r1, .mk hs' (fun e => ?_) hn hx, hk⟩
    rcases h3 e with h3 | h3
    · exact h3
    · rcases hk.2 with ⟨h4, _⟩ | ⟨h4, _⟩
      · exact absurd h4 h3.1
      · exact absurd h4 h3.2
  · rintro ⟨x, r1, ht, hk⟩
    cases ht with
    | @mk b run _ _ hs h3 hn hx =>
      have h1 := h.tail b.toNat
      have hl' := h.suf.length_le
      refine ⟨b, _, rfl, ?_⟩
      rw [leads_ite]
      refine Or.inl ⟨(isNameStartChar_iff _).2 hs, ?_⟩
      rw [leads_bind]
      refine (leads_congr (fun a s _ => leads_bind)).2 ?_
      refine (leads_piEndName h1 rfl rfl hs
        (by simp only [loopFuel, go_cfg, h.cfg]; simp at hl'; simp; omega)).2
        ⟨run, x, r1, rfl, hn, hx, fun e => Or.inl (h3 e), ?_⟩
      exact (key rfl (by exact ⟨b :: run ++ [x], by simp⟩)).2 hk

/-! ## After `<` -/

theorem leads_validateSeqLoop {name : String} {seq : List Nat} (s : List UInt8) (hs : s.map UInt8.toNat = seq)
    (h : Rd c p r) (ho : p.offset = pos c r) {K : Unit → Parser → Prop} :
    Leads (validateSeqLoop name seq p) K ↔ ∃ r', r = s ++ r' ∧ K () (go c p r' p.currentChar) := by
  induction s generalizing seq p r with
  | nil =>
    subst hs
    simp only [List.map_nil, validateSeqLoop, M.pure_apply, leads_ok, List.nil_append]
    constructor
    · intro hk; exact ⟨r, rfl, by rw [go_self h ho]; exact hk⟩
    · rintro ⟨_, rfl, hk⟩; rw [go_self h ho] at hk; exact hk
  | cons u s ih =>
    subst hs
    simp only [List.map_cons, validateSeqLoop, leads_bind]
    rw [leads_getChar h]
    constructor
    · rintro ⟨b, t, rfl, hk⟩
      rw [leads_ite] at hk
      rcases hk with ⟨_, hk⟩ | ⟨hb, hk⟩
      · simp at hk
      have hb' : b = u := UInt8.toNat_inj.1 (Decidable.not_not.1 hb)
      subst hb'
      obtain ⟨r', rfl, hk⟩ := (ih rfl (h.tail _) rfl).1 hk
      exact ⟨r', rfl, hk⟩
    · rintro ⟨r', rfl, hk⟩
      refine ⟨u, _, rfl, ?_⟩
      rw [leads_ite]
      exact Or.inr ⟨fun h => h rfl, (ih rfl (h.tail _) rfl).2 ⟨r', rfl, hk⟩⟩

theorem leads_validateSeq {name : String} {seq : List Nat} (s : List UInt8) (hs : s.map UInt8.toNat = seq)
    (h : Rd c p r) (ho : p.offset = pos c r) {K : Unit → Parser → Prop} :
    Leads (validateSeq name seq p) K ↔ 0 ≤ p.depth ∧ ∃ r', r = s ++ r' ∧ K () (go c p r' p.currentChar) := by
  simp only [validateSeq, leads_bind, M.get_apply, leads_ok]
  rw [leads_validateSeqLoop s hs h ho]
  constructor
  · rintro ⟨r', h1, hk⟩
    rw [leads_ite] at hk
    rcases hk with ⟨_, hk⟩ | ⟨hd, hk⟩
    · simp at hk
    · exact ⟨Int.not_lt.1 hd, r', h1, (leads_ok _ _).1 hk⟩
  · rintro ⟨h2, r', h1, h3⟩
    refine ⟨r', h1, ?_⟩
    rw [leads_ite]
    exact Or.inr ⟨Int.not_lt.2 h2, (leads_ok _ _).2 h3⟩

theorem leads_exSeen (h : Rd c p r) {K : PState → Parser → Prop} :
    Leads (processExSeen p) K ↔
      (∃ r1, r = str% "--" ++ r1 ∧ K .startComment { go c p r1 p.currentChar with lastOffset := pos c r1 }) ∨
      (0 ≤ p.depth ∧ ∃ r1, r = str% "[CDATA[" ++ r1 ∧
        K .cdata { go c p r1 p.currentChar with lastOffset := pos c r1 }) ∨
      (0 ≤ p.depth ∧ ∃ r1, r = str% "DDOCTYPE" ++ r1 ∧
        K .docType { go c p r1 p.currentChar with lastOffset := pos c r1 }) := by
  simp only [processExSeen, leads_bind, leads_wrap]
  rw [leads_getChar h]
  constructor
  · rintro ⟨b, s, rfl, hk⟩
    have h1 := h.tail p.currentChar
    rw [leads_ite] at hk
    rcases hk with ⟨hb, hk⟩ | ⟨_, hk⟩
    · have hb' : b = ch% '-' := UInt8.toNat_inj.1 hb
      subst hb'
      rw [leads_bind, leads_skipChar h1 (ch% '-')] at hk
      obtain ⟨b, r1, rfl, ⟨rfl, hk⟩ | ⟨_, hk⟩⟩ := hk
      · exact Or.inl ⟨r1, rfl, (leads_ok _ _).1 hk⟩
      · simp at hk
    rw [leads_ite] at hk
    rcases hk with ⟨hb, hk⟩ | ⟨_, hk⟩
    · have hb' : b = ch% '[' := UInt8.toNat_inj.1 hb
      subst hb'
      rw [leads_bind] at hk
      obtain ⟨hd, r1, rfl, hk⟩ := (leads_validateSeq (str% "CDATA[") rfl h1 rfl).1 hk
      exact Or.inr (Or.inl ⟨hd, r1, rfl, (leads_ok _ _).1 hk⟩)
    rw [leads_ite] at hk
    rcases hk with ⟨hb, hk⟩ | ⟨_, hk⟩
    · have hb' : b = ch% 'D' := UInt8.toNat_inj.1 hb
      subst hb'
      rw [leads_bind] at hk
      obtain ⟨hd, r1, rfl, hk⟩ := (leads_validateSeq (str% "DOCTYPE") rfl h1 rfl).1 hk
      exact Or.inr (Or.inr ⟨hd, r1, rfl, (leads_ok _ _).1 hk⟩)
    · simp at hk
  · rintro (⟨r1, rfl, hk⟩ | ⟨hd, r1, rfl, hk⟩ | ⟨hd, r1, rfl, hk⟩)
    · refine ⟨_, _, rfl, (leads_if_pos rfl).2 ?_⟩
      rw [leads_bind]
      refine (leads_skipChar (h.tail _) (ch% '-')).2 ⟨_, r1, rfl, Or.inl ⟨rfl, ?_⟩⟩
      exact (leads_ok _ _).2 hk
    · refine ⟨_, _, rfl, (leads_if_neg (by decide)).2 ((leads_if_pos rfl).2 ?_)⟩
      rw [leads_bind]
      refine (leads_validateSeq (str% "CDATA[") rfl (h.tail _) rfl).2 ⟨hd, r1, rfl, ?_⟩
      exact (leads_ok _ _).2 hk
    · refine ⟨_, _, rfl, (leads_if_neg (by decide)).2 ((leads_if_neg (by decide)).2 ((leads_if_pos rfl).2 ?_))⟩
      rw [leads_bind]
      refine (leads_validateSeq (str% "DOCTYPE") rfl (h.tail _) rfl).2 ⟨hd, r1, rfl, ?_⟩
      exact (leads_ok _ _).2 hk

theorem start_ne {v : UInt8} (h : StartByte b) (hv : isNameStartChar v.toNat = false := by decide) : b ≠ v := by
  rintro rfl
  rw [StartByte, ← isNameStartChar_iff, hv] at h
  cases h

theorem leads_lt (h : Rd c p r) {K : PState → Parser → Prop} :
    Leads (processLtSeen p) K ↔ ∃ b s, r = b :: s ∧
      ((StartByte b ∧ K .tagStart { go c p s b.toNat with lastOffset := p.offset, depth := p.depth + 1 }) ∨
       (b = ch% '/' ∧ K .tagEnd { go c p s b.toNat with lastOffset := p.offset }) ∨
       (b = ch% '!' ∧ Leads (processExSeen { go c p s b.toNat with lastOffset := p.offset }) K) ∨
       (b = ch% '?' ∧ Leads (processQmSeen { go c p s b.toNat with lastOffset := p.offset }) K)) := by
  simp only [processLtSeen, leads_bind, leads_wrap, markOffset, M.modify_apply, leads_ok, M.get_apply]
  rw [leads_nextChar (h.mark p.offset)]
  refine exists_congr fun b => exists_congr fun s => and_congr_right fun hr => ?_
  by_cases hs : StartByte b
  · have e1 := start_ne (v := ch% '/') hs
    have e2 := start_ne (v := ch% '!') hs
    have e3 := start_ne (v := ch% '?') hs
    simp only [hs, e1, e2, e3, true_and, false_and, or_false]
    refine (leads_if_pos ((isNameStartChar_iff _).2 hs)).trans ?_
    exact leads_ok _ _
  refine (leads_if_neg (mt (isNameStartChar_iff _).1 hs)).trans ?_
  simp only [hs, false_and, false_or]
  by_cases e1 : b = ch% '/'
  · subst e1
    refine (leads_if_pos rfl).trans ((leads_ok _ _).trans ?_)
    simp
    rfl
  refine (leads_if_neg (ne_nat (ch% '/') e1)).trans ?_
  simp only [e1, false_and, false_or]
  by_cases e2 : b = ch% '!'
  · subst e2
    refine (leads_if_pos rfl).trans ?_
    simp
    rfl
  refine (leads_if_neg (ne_nat (ch% '!') e2)).trans ?_
  simp only [e2, false_and, false_or]
  by_cases e3 : b = ch% '?'
  · subst e3
    refine (leads_if_pos rfl).trans ?_
    simp
    rfl
  refine (leads_if_neg (ne_nat (ch% '?') e3)).trans ?_
  simp [e3]

end
end Parser
end GoVtd
