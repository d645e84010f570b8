import Verif.Proofs.Parser.Wp

/-!
# Accepting runs of the process functions outside tags
-/

namespace GoVtd
namespace Parser
open Paged Grammar

section
variable {c : ParserCfg} {p p' : Parser} {r r' : List UInt8} {b : UInt8} {ch : Nat}

theorem leads_if_pos {σ α : Type} {K : α → σ → Prop} {c : Prop} [Decidable c] {a b : M σ α} {s : σ} (h : c) :
    Leads ((if c then a else b) s) K ↔ Leads (a s) K := by rw [if_pos h]

theorem leads_if_neg {σ α : Type} {K : α → σ → Prop} {c : Prop} [Decidable c] {a b : M σ α} {s : σ} (h : ¬ c) :
    Leads ((if c then a else b) s) K ↔ Leads (b s) K := by rw [if_neg h]

theorem Rd.single (h : Rd c p r) : p.enc.singleByteEncoding = true := h.toBase.single
theorem Rd.inc (h : Rd c p r) : p.enc.increment = 1 := h.toBase.inc

/-- Change the fields that `Rd` does not depend on. -/
theorem Rd.of_eq (h : Rd c p r) (h1 : p'.cfg = p.cfg) (h2 : p'.enc = p.enc) (h3 : p'.rd = p.rd)
    (h4 : p'.offset = p.offset) (h5 : p'.ws = p.ws) (h6 : p'.out = p.out) : Rd c p' r := by
  simp only [Rd, h1, h2, h3, h4, h5, h6]
  exact h

theorem leads_writeText (hb : Base c p) (t : Token) (ht : t ≠ .startingTag) {K : Unit → Parser → Prop} :
    Leads (writeText t p) K ↔ K () { p with
      out := emit c.shallowDepth p.out (textRecs t p.lastOffset p.length1 p.depth) } := by
  rw [writeText_go hb t ht, leads_ok]

theorem leads_writeAt (hb : Base c p) (t : Token) (ht : t ≠ .startingTag) (l : Int) {K : Unit → Parser → Prop} :
    Leads (writeAt t l p) K ↔ K () { p with
      out := emit c.shallowDepth p.out [⟨t, p.lastOffset, l, p.depth⟩] } := by
  rw [writeAt_go hb t ht, leads_ok]

/-! ## Texts -/

theorem leads_text (h : Rd c p r) {K : PState → Parser → Prop} :
    Leads (processText p) K ↔ 0 ≤ p.depth ∧ ∃ r1, TextBody r r1 ∧
      K .ltSeen { go c p r1 (ch% '<') with
        length1 := pos c r1 - 1 - p.lastOffset,
        out := emit c.shallowDepth p.out
          (textRecs .characterData p.lastOffset (pos c r1 - 1 - p.lastOffset) p.depth) } := by
  simp only [processText, leads_bind, M.get_apply, leads_ok, leads_ite, leads_parseErr, and_false, false_or,
    Int.not_lt]
  refine and_congr_right fun _ => ?_
  rw [leads_of_iff (fun u p' => textLoop_iff h (h.fuel h.cfg))]
  refine exists_congr fun r1 => and_congr_right fun h1 => ?_
  have h2 := h.go h1.suffix (ch% '<')
  simp only [M.modify_apply, leads_ok, go_offset, go_enc, go_lastOffset, h.inc]
  refine (leads_writeText (c := c) ?_ .characterData (by decide)).trans ?_
  · exact h2.toBase
  simp only [leads_ok, M.pure_apply]
  rfl

theorem leads_fromChar (h : Rd c p r) {K : PState → Parser → Prop} :
    Leads (getNextProcessStateFromChar b.toNat p) K ↔
      (b = ch% '<' ∧ K .ltSeen p) ∨ (b ≠ ch% '<' ∧ ((ContentByte b ∧ K .text p) ∨
        ∃ r1, Item (b :: r) r1 ∧ K .text (go c p r1 p.currentChar))) := by
  simp only [getNextProcessStateFromChar, M.ite_apply]
  by_cases hl : b = ch% '<'
  · simp only [eq_nat (ch% '<') hl, if_true, leads_bind, recordWsIfSet_eq h.toBase, leads_ok, M.pure_apply]
    simp [hl]
  simp only [ne_nat (ch% '<') hl, if_false, hl, false_and, false_or, ne_eq, not_false_iff, true_and]
  by_cases ha : b = ch% '&'
  · subst ha
    have : ¬ ContentByte (ch% '&') := by simp [Spec.ContentChar]
    simp only [this, false_and, false_or, item_amp]
    rw [if_pos (by decide), leads_bind]
    constructor
    · rintro ⟨v, q, h1, h2⟩
      obtain ⟨r', h3, rfl⟩ := (entityIdentifier_iff h).1 h1
      simp only [M.ite_apply, (isValidChar_iff _).2 h3.char11, if_true, M.pure_apply, leads_ok] at h2
      exact ⟨r', ⟨v, h3⟩, h2⟩
    · rintro ⟨r', ⟨v, h3⟩, h2⟩
      refine ⟨v, _, (entityIdentifier_iff h).2 ⟨r', h3, rfl⟩, ?_⟩
      simp only [M.ite_apply, (isValidChar_iff _).2 h3.char11, if_true, M.pure_apply, leads_ok]
      exact h2
  simp only [ne_nat (ch% '&') ha, if_false]
  by_cases hb : b = ch% ']'
  · subst hb
    have : ¬ ContentByte (ch% ']') := by simp [Spec.ContentChar]
    simp only [this, false_and, false_or, item_bracket]
    rw [if_pos (by decide), leads_bind]
    constructor
    · rintro ⟨v, q, h1, h2⟩
      obtain ⟨k, x, r', h3, h4, h5, rfl⟩ := (bracketText_iff h).1 h1
      exact ⟨_, ⟨k, x, r', h3, h4, h5, rfl⟩, (leads_ok _ _).1 h2⟩
    · rintro ⟨_, ⟨k, x, r', h3, h4, h5, rfl⟩, h2⟩
      exact ⟨(), _, (bracketText_iff h).2 ⟨k, x, r', h3, h4, h5, rfl⟩, (leads_ok _ _).2 h2⟩
  simp only [ne_nat (ch% ']') hb, if_false]
  have hi : ∀ r1, ¬ Item (b :: r) r1 := fun r1 h => by
    rcases item_head h with h | h
    · exact ha h
    · exact hb h
  simp only [hi, false_and, exists_false, or_false]
  by_cases hc : ContentByte b
  · simp only [(isContentChar_iff _).2 hc, if_true, M.pure_apply, leads_ok, hc, true_and]
  · simp only [mt (isContentChar_iff _).1 hc, if_false, leads_parseErr, hc, false_and, Bool.false_eq_true]

/-- What comes after a comment, a processing instruction or a CDATA section. -/
theorem leads_afterMarkup (h : Rd c p r) (ho : p.offset = pos c r) {K : PState → Parser → Prop} :
    Leads (afterMarkup p) K ↔ ∃ w b r', r = w ++ b :: r' ∧ AllWs w ∧ ¬ Ws b ∧
      ((b = ch% '<' ∧ K .ltSeen (go c { p with lastOffset := pos c r } r' b.toNat)) ∨
       (b ≠ ch% '<' ∧ ((ContentByte b ∧ K .text (go c { p with lastOffset := pos c r } r' b.toNat)) ∨
        ∃ r1, Item (b :: r') r1 ∧ K .text (go c { p with lastOffset := pos c r } r1 b.toNat)))) := by
  have h0 : Rd c { p with lastOffset := p.offset } r := h.of_eq rfl rfl rfl rfl rfl rfl
  simp only [afterMarkup, leads_bind, M.get_apply, leads_ok, markOffset, M.modify_apply]
  rw [leads_nextWs h0]
  refine exists_congr fun w => exists_congr fun b => exists_congr fun r' => and_congr_right fun hr =>
    and_congr_right fun _ => and_congr_right fun _ => ?_
  have h1 : Rd c (go c { p with lastOffset := p.offset } r' b.toNat) r' :=
    h0.go (by rw [hr]; exact suffix_append_cons _ _ _) _
  rw [← ho]
  generalize hq : go c { p with lastOffset := p.offset } r' b.toNat = q at h1
  have hq' : q.currentChar = b.toNat := by rw [← hq]; rfl
  simp only [leads_ok, hq']
  rw [leads_fromChar h1, hq', ← hq]
  rfl

/-! ## CDATA sections, comments, processing instructions -/

theorem leads_cdata (h : Rd c p r) {K : PState → Parser → Prop} :
    Leads (processCdata p) K ↔ ∃ r1, CdataBody r r1 ∧
      Leads (afterMarkup { go c p r1 (ch% ']') with
        length1 := pos c r1 - p.lastOffset - 2 - 1,
        out := emit c.shallowDepth p.out
          (textRecs .cdataVal p.lastOffset (pos c r1 - p.lastOffset - 2 - 1) p.depth) }) K := by
  simp only [processCdata, leads_bind, M.get_apply, leads_ok]
  rw [leads_of_iff (fun u p' => cdataLoop_iff h (h.fuel h.cfg))]
  refine exists_congr fun r1 => and_congr_right fun h1 => ?_
  have h2 := h.go h1.suffix (ch% ']')
  simp only [M.modify_apply, leads_ok, go_offset, go_enc, go_lastOffset, h.inc, Int.one_mul]
  refine (leads_writeText (c := c) ?_ .cdataVal (by decide)).trans ?_
  · exact h2.toBase
  · rfl

theorem leads_comment (h : Rd c p r) {K : PState → Parser → Prop} :
    Leads (processStartComment p) K ↔ ∃ r1, CommentBody r (ch% '>' :: r1) ∧
      Leads (afterMarkup { go c p r1 (ch% '>') with
        length1 := pos c (ch% '>' :: r1) - p.lastOffset - 2,
        out := emit c.shallowDepth p.out
          (textRecs .comment p.lastOffset (pos c (ch% '>' :: r1) - p.lastOffset - 2) p.depth) }) K := by
  simp only [processStartComment, leads_bind, M.get_apply, leads_ok]
  rw [leads_of_iff (fun u p' => commentLoop_iff h (h.fuel h.cfg))]
  constructor
  · rintro ⟨r', h1, h2⟩
    have h3 := h.go h1.suffix (ch% '-')
    rw [leads_nextChar (c := c) (r := r') (by exact h3)] at h2
    obtain ⟨b, r1, rfl, h4⟩ := h2
    have h5 := h3.tail b.toNat
    rw [leads_ite] at h4
    rcases h4 with ⟨_, h4⟩ | ⟨hb, h4⟩
    · simp at h4
    · have hb' : b = ch% '>' := by
        by_cases hb' : b = ch% '>'
        · exact hb'
        · exact absurd (ne_nat (ch% '>') hb') hb
      subst hb'
      refine ⟨r1, h1, ?_⟩
      exact (leads_writeText (c := c) (by exact h5.toBase) .comment (by decide)).1 (leads_bind.1 h4)
  · rintro ⟨r1, h1, h2⟩
    refine ⟨_, h1, ?_⟩
    have h3 := h.go h1.suffix (ch% '-')
    have h5 := h3.tail (ch% '>')
    rw [leads_nextChar (c := c) (r := _) (by exact h3)]
    refine ⟨_, r1, rfl, ?_⟩
    rw [leads_ite]
    refine Or.inr ⟨fun h => h rfl, leads_bind.2 ?_⟩
    exact (leads_writeText (c := c) (by exact h5.toBase) .comment (by decide)).2 h2

theorem leads_nameLoop {fuel : Nat} (h : Rd c p r) (hf : r.length < fuel) {K : Unit → Parser → Prop} :
    Leads (nameLoop fuel p) K ↔
      ∃ w b r', r = w ++ b :: r' ∧ AllName w ∧ ¬ NameByte b ∧ K () (go c p r' b.toNat) := by
  constructor
  · rintro ⟨_, s, h1, h2⟩
    obtain ⟨w, b, r', h3, h4, h5, rfl⟩ := (nameLoop_iff h hf).1 h1
    exact ⟨w, b, r', h3, h4, h5, h2⟩
  · rintro ⟨w, b, r', h3, h4, h5, h2⟩
    exact ⟨(), _, (nameLoop_iff h hf).2 ⟨w, b, r', h3, h4, h5, rfl⟩, h2⟩

/-- `skipChar` for a byte that has to come. -/
theorem leads_expect (h : Rd c p r) {n : Nat} (v : UInt8) (hv : v.toNat = n := by rfl)
    {K : Parser → Prop} {α : Type} {L : α → Parser → Prop} {f : Bool → M Parser α}
    (ht : ∀ q, Leads (f true q) L ↔ K q) (hf : ∀ q, ¬ Leads (f false q) L) :
    Leads (skipChar n p) (fun a s => Leads (f a s) L) ↔ ∃ r', r = v :: r' ∧ K (go c p r' p.currentChar) := by
  rw [leads_skipChar h v hv]
  constructor
  · rintro ⟨b, r', rfl, ⟨rfl, h1⟩ | ⟨_, h1⟩⟩
    · exact ⟨r', rfl, (ht _).1 h1⟩
    · exact absurd h1 (hf _)
  · rintro ⟨r', rfl, h1⟩
    exact ⟨v, r', rfl, Or.inl ⟨rfl, (ht _).2 h1⟩⟩

theorem leads_piTag (h : Rd c p r) {K : PState → Parser → Prop} :
    Leads (processPiTag p) K ↔ ∃ run x r1, r = run ++ x :: r1 ∧ AllName run ∧ ¬ NameByte x ∧
      pos c r1 - p.lastOffset - 1 ≤ maxLen ∧
      ((x = ch% '?' ∧ ∃ r2, r1 = ch% '>' :: r2 ∧
        Leads (afterMarkup { go c p r2 (ch% '?') with
          length1 := pos c r1 - p.lastOffset - 1,
          out := emit c.shallowDepth p.out
            [⟨.piName, p.lastOffset, pos c r1 - p.lastOffset - 1, p.depth⟩, ⟨.piVal, p.lastOffset, 0, p.depth⟩] }) K) ∨
       (x ≠ ch% '?' ∧ K .piVal { go c p r1 x.toNat with
          length1 := pos c r1 - p.lastOffset - 1,
          out := emit c.shallowDepth p.out
            [⟨.piName, p.lastOffset, pos c r1 - p.lastOffset - 1, p.depth⟩] })) := by
  simp only [processPiTag, leads_bind, M.get_apply, leads_ok]
  rw [leads_nameLoop h (h.fuel h.cfg)]
  refine exists_congr fun run => exists_congr fun x => exists_congr fun r1 => and_congr_right fun hr =>
    and_congr_right fun _ => and_congr_right fun _ => ?_
  have h2 : Rd c (go c p r1 x.toNat) r1 := h.go (by rw [hr]; exact suffix_append_cons _ _ _) _
  simp only [M.modify_apply, leads_ok, go_offset, go_enc, go_lastOffset, h.inc]
  refine (leads_writeCheck (c := c) ?_ .piName (by decide) _).trans ?_
  · exact h2.toBase
  refine and_congr_right fun _ => ?_
  have h3 := h2.emit [⟨.piName, p.lastOffset, pos c r1 - p.lastOffset - 1, p.depth⟩]
  by_cases hx : x = ch% '?'
  · simp only [hx, true_and, not_true_eq_false, false_and, or_false, ne_eq]
    refine (leads_if_pos rfl).trans ?_
    rw [leads_bind]
    refine (leads_writeAt (c := c) ?_ .piVal (by decide) _).trans ?_
    · exact h3.toBase
    have h4 := h3.emit [⟨.piVal, p.lastOffset, 0, p.depth⟩]
    rw [leads_bind]
    refine (leads_expect (c := c) (r := r1) ?_ (ch% '>') rfl
      (K := fun q => Leads (afterMarkup q) K) ?_ ?_).trans ?_
    · exact h4
    · intro q; rw [leads_ite]; simp
    · intro q; rw [leads_ite]; simp
    · rfl
  · simp only [hx, false_and, not_false_iff, true_and, false_or, ne_eq]
    refine (leads_if_neg (ne_nat (ch% '?') hx)).trans ?_
    exact leads_ok _ _

theorem leads_piVal (h : Rd c p r) (ho : p.offset = pos c r) {x : UInt8} (hx : p.currentChar = x.toNat)
    {K : PState → Parser → Prop} :
    Leads (processPiVal p) K ↔ Ws x ∧ ∃ r1, PiBody r r1 ∧ pos c r1 - pos c r - 2 ≤ maxLen ∧
      Leads (afterMarkup { go c p r1 (ch% '?') with
        lastOffset := pos c r
        length1 := pos c r1 - pos c r - 2,
        out := emit c.shallowDepth p.out
          [⟨.piVal, pos c r, pos c r1 - pos c r - 2, p.depth⟩] }) K := by
  simp only [processPiVal, leads_bind, M.get_apply, leads_ok, leads_ite, leads_parseErr, and_false, or_false,
    markOffset, M.modify_apply]
  refine and_congr (by rw [hx]; exact isSpaceChar_iff _) ?_
  have h0 : Rd c { p with lastOffset := p.offset } r := h.of_eq rfl rfl rfl rfl rfl rfl
  refine (leads_of_iff (fun u p' => piValLoop_iff h0 (h.fuel h.cfg))).trans ?_
  refine exists_congr fun r1 => and_congr_right fun h1 => ?_
  have h2 := h0.go h1.suffix (ch% '?')
  simp only [go_offset, go_enc, go_lastOffset, h.inc, Int.one_mul, ho]
  refine (leads_writeCheck (c := c) ?_ .piVal (by decide) _).trans ?_
  · exact h2.toBase
  refine and_congr_right fun _ => ?_
  exact Iff.rfl

theorem leads_docType (h : Rd c p r) {K : PState → Parser → Prop} :
    Leads (processDocType p) K ↔ ∃ r1, DtdBody 1 r r1 ∧ pos c r1 - p.lastOffset - 1 ≤ maxLen ∧
      ∃ w r2, r1 = w ++ ch% '<' :: r2 ∧ AllWs w ∧ K .ltSeen { go c p r2 (ch% '<') with
        length1 := pos c r1 - p.lastOffset - 1,
        out := emit c.shallowDepth p.out
          [⟨.dtdVal, p.lastOffset, pos c r1 - p.lastOffset - 1, p.depth⟩] } := by
  simp only [processDocType, leads_bind, M.get_apply, leads_ok]
  refine (leads_of_iff (fun u p' => docTypeLoop_iff (z := 0) h (h.fuel h.cfg))).trans ?_
  refine exists_congr fun r1 => and_congr_right fun h1 => ?_
  have h2 := h.go h1.suffix p.currentChar
  simp only [M.modify_apply, leads_ok, go_offset, go_enc, go_lastOffset, h.inc]
  refine (leads_writeCheck (c := c) ?_ .dtdVal (by decide) _).trans ?_
  · exact h2.toBase
  refine and_congr_right fun _ => ?_
  have h3 := h2.emit [⟨.dtdVal, p.lastOffset, pos c r1 - p.lastOffset - 1, p.depth⟩]
  refine (leads_nextWs (c := c) (r := r1) ?_).trans ?_
  · exact h3
  constructor
  · rintro ⟨w, b, r', rfl, hw, _, hk⟩
    rw [leads_ite] at hk
    rcases hk with ⟨_, hk⟩ | ⟨hb, hk⟩
    · simp at hk
    · have hb' : b = ch% '<' := by
        by_cases hb' : b = ch% '<'
        · exact hb'
        · exact absurd (ne_nat (ch% '<') hb') hb
      subst hb'
      exact ⟨w, r', rfl, hw, (leads_ok _ _).1 hk⟩
  · rintro ⟨w, r', rfl, hw, hk⟩
    refine ⟨w, _, r', rfl, hw, by simp [Spec.S], ?_⟩
    rw [leads_ite]
    exact Or.inr ⟨fun h => h rfl, (leads_ok _ _).2 hk⟩

/-! ## After the root element -/

theorem leads_docEnd (h : Rd c p r) {K : PState → Parser → Prop} (hK : ∀ q, ¬ K .endComment q) :
    Leads (processDocEnd p) K ↔ ∃ w r1, r = w ++ ch% '<' :: ch% '?' :: r1 ∧ AllWs w ∧
      K .piEnd { go c p r1 (ch% '<') with lastOffset := pos c r1 } := by
  simp only [processDocEnd, leads_bind]
  rw [leads_nextWs h]
  constructor
  · rintro ⟨w, b, r', rfl, hw, hb, hk⟩
    have h1 := h.go (suffix_append_cons w b r') b.toNat
    rw [M.get_apply, leads_ok, leads_ite] at hk
    rcases hk with ⟨hl, hk⟩ | ⟨hl, hk⟩
    · have hl' : b = ch% '<' := UInt8.toNat_inj.1 hl
      subst hl'
      rw [leads_bind, leads_skipChar h1 (ch% '?')] at hk
      obtain ⟨x, r1, rfl, ⟨rfl, hk⟩ | ⟨hx, hk⟩⟩ := hk
      · refine ⟨w, r1, rfl, hw, ?_⟩
        exact (leads_ok _ _).1 hk
      · simp only [Bool.false_eq_true] at hk
        rw [leads_if_neg id, leads_bind] at hk
        obtain ⟨a, s, _, hk⟩ := hk
        rw [leads_ite] at hk
        rcases hk with ⟨_, hk⟩ | ⟨_, hk⟩
        · exact absurd ((leads_ok _ _).1 hk) (hK _)
        · simp at hk
    · simp at hk
  · rintro ⟨w, r1, rfl, hw, hk⟩
    refine ⟨w, _, _, rfl, hw, by simp [Spec.S], ?_⟩
    have h1 := h.go (suffix_append_cons w (ch% '<') (ch% '?' :: r1)) (ch% '<')
    rw [M.get_apply, leads_ok]
    refine (leads_if_pos rfl).2 ?_
    rw [leads_bind]
    refine (leads_skipChar h1 (ch% '?')).2 ?_
    exact ⟨_, r1, rfl, Or.inl ⟨rfl, (leads_ok _ _).2 hk⟩⟩

theorem parseErr_not_eof {α : Type} (hb : Base c p) (m : String) {e : GoErr}
    (h : (parseErr m : M Parser α) p = .err e p') : e.as .eof = false := by
  simp only [parseErr, M.bind_apply, fmtLine_eq hb, Res.andThen_ok, M.raise_apply, Res.err.injEq] at h
  rw [← h.1]
  rfl

theorem docEnd_eof (h : Rd c p r) (hr : AllWs r) :
    ∃ p', processDocEnd p = .err (newEOFError XmlIncomplete) p' ∧ Rd c p' [] ∧ p'.out = p.out := by
  obtain ⟨p', h1, h2, h3⟩ := nextCharAfterWs_eof h hr
  exact ⟨p', by simp only [processDocEnd, M.bind_apply, h1, Res.andThen_err], h2, h3⟩

theorem docEnd_err (h : Rd c p r) {e : GoErr} (he : processDocEnd p = .err e p') (heof : e.as .eof = true) :
    AllWs r := by
  rcases span Ws r with hr | ⟨w, b, r', rfl, hw, hb⟩
  · exact hr
  exfalso
  have h1 := h.go (suffix_append_cons w b r') b.toNat
  simp only [processDocEnd, M.bind_apply, nextCharAfterWs_eq h hw hb, Res.andThen_ok, M.get_apply, M.ite_apply] at he
  split at he
  · cases r' with
    | nil => rw [skipChar_nil h1] at he; simp at he
    | cons x r' =>
      rw [skipChar_cons h1] at he
      split at he
      · simp [markOffset] at he
      · rw [Res.andThen_ok] at he
        have h2 := skipCharSeq_ok (str% "!--") (by simp) (h1.go (List.suffix_refl _) (b.toNat)).toBase
        simp only [Bool.false_eq_true, if_false, M.bind_apply, go_cur] at he
        cases hs : skipCharSeq (str% "!--") (go c (go c p (x :: r') b.toNat) (x :: r') b.toNat) with
        | ok a s =>
          rw [hs] at h2
          rw [hs, Res.andThen_ok] at he
          cases a with
          | true => simp [markOffset] at he
          | false =>
            obtain ⟨_, _, _, hb2, _⟩ := h2
            rw [parseErr_not_eof hb2 _ he] at heof
            cases heof
        | err e s => exact absurd hs (skipCharSeq_noErr _ _ _ _)
        | panic =>
          rw [hs] at he
          simp at he
        | diverge =>
          rw [hs] at he
          simp at he
  · rw [parseErr_not_eof h1.toBase _ he] at heof
    cases heof

/-! ## Targets of processing instructions -/

theorem leads_skip2 (h : Rd c p r) {m n : Nat} (u v : UInt8) (hu : u.toNat = m := by rfl)
    (hv : v.toNat = n := by rfl) {K : Bool → Parser → Prop} :
    Leads ((skipChar m ||! skipChar n) p) K ↔ ∃ b r', r = b :: r' ∧
      (((b = u ∨ b = v) ∧ K true (go c p r' p.currentChar)) ∨
       (b ≠ u ∧ b ≠ v ∧ K false (go c p r p.currentChar))) := by
  rw [leads_or, leads_skipChar h u hu]
  refine exists_congr fun b => exists_congr fun r' => and_congr_right fun hr => ?_
  subst hr
  by_cases hb : b = u
  · simp [hb]
  · have h1 := h.go (List.suffix_refl _) p.currentChar
    simp only [hb, false_and, false_or, ne_eq, not_false_iff, true_and, Bool.false_eq_true, if_false]
    rw [leads_skipChar h1 v hv]
    constructor
    · rintro ⟨_, _, h0, h2⟩
      cases h0
      exact h2
    · intro h2
      exact ⟨b, r', rfl, h2⟩

theorem leads_xmlTest (h : Rd c p r) (ho : p.offset = pos c r) {P : Prop} [Decidable P]
    {K : Bool → Parser → Prop} :
    Leads ((pure (decide P) &&! (skipChar (ch% 'm') ||! skipChar (ch% 'M')) &&!
      (skipChar (ch% 'l') ||! skipChar (ch% 'L')) : M Parser Bool) p) K ↔
    (¬ P ∧ K false p) ∨ (P ∧ ∃ m s, r = m :: s ∧ ((m ≠ ch% 'm' ∧ m ≠ ch% 'M' ∧ K false p) ∨
      ((m = ch% 'm' ∨ m = ch% 'M') ∧ ∃ l t, s = l :: t ∧
        ((l ≠ ch% 'l' ∧ l ≠ ch% 'L' ∧ K false (go c p s p.currentChar)) ∨
         ((l = ch% 'l' ∨ l = ch% 'L') ∧ K true (go c p t p.currentChar)))))) := by
  rw [leads_and, M.pure_apply, leads_ok]
  by_cases hP : P
  · simp only [hP, decide_true, if_true, not_true_eq_false, false_and, false_or, true_and]
    rw [leads_and, leads_skip2 h (ch% 'm') (ch% 'M')]
    refine exists_congr fun m => exists_congr fun s => and_congr_right fun hr => ?_
    subst hr
    rw [go_self h ho]
    have h1 := h.tail p.currentChar
    have e : (if True then Leads ((skipChar (ch% 'l') ||! skipChar (ch% 'L')) (go c p s p.currentChar)) K else
        K false (go c p s p.currentChar)) ↔ ∃ l t, s = l :: t ∧
        ((l ≠ ch% 'l' ∧ l ≠ ch% 'L' ∧ K false (go c p s p.currentChar)) ∨
         ((l = ch% 'l' ∨ l = ch% 'L') ∧ K true (go c p t p.currentChar))) := by
      rw [if_pos trivial, leads_skip2 h1 (ch% 'l') (ch% 'L')]
      refine exists_congr fun l => exists_congr fun t => and_congr_right fun _ => ?_
      rw [or_comm]
      rfl
    constructor
    · rintro (⟨h2, h3⟩ | ⟨h2, h3, h4⟩)
      · exact Or.inr ⟨h2, e.1 h3⟩
      · exact Or.inl ⟨h2, h3, h4⟩
    · rintro (⟨h2, h3, h4⟩ | ⟨h2, h3⟩)
      · exact Or.inr ⟨h2, h3, h4⟩
      · exact Or.inl ⟨h2, e.2 h3⟩
  · simp [hP]

theorem start_name (h : StartByte b) : NameByte b := Or.inl h

theorem name_not_ws (h : NameByte b) : ¬ Ws b := by
  have key : ∀ n < 256, isNameChar n = true → ¬ isSpaceChar n = true := by decide +kernel
  exact fun hw => key _ b.toNat_lt ((isNameChar_iff _).2 h) ((isSpaceChar_iff _).2 hw)

theorem name_not_qm (h : NameByte b) : b ≠ ch% '?' := by
  rintro rfl
  exact absurd ((isNameChar_iff _).2 h) (by decide)

theorem xmlPrefix_iff {a : UInt8} : XmlPrefix (a :: r) ↔ (a = ch% 'x' ∨ a = ch% 'X') ∧
    ∃ m l s, r = m :: l :: s ∧ (m = ch% 'm' ∨ m = ch% 'M') ∧ (l = ch% 'l' ∨ l = ch% 'L') := by
  constructor
  · rintro ⟨x, m, l, s, h0, h1, h2, h3⟩
    cases h0
    exact ⟨h1, m, l, s, rfl, h2, h3⟩
  · rintro ⟨h1, m, l, s, rfl, h2, h3⟩
    exact ⟨a, m, l, s, rfl, h1, h2, h3⟩

theorem name_of (h : isNameChar b.toNat = true) : NameByte b := (isNameChar_iff _).1 h

theorem not_name_ne {x v : UInt8} (hx : ¬ NameByte x) (hv : isNameChar v.toNat = true := by decide) : x ≠ v :=
  fun e => hx (e ▸ name_of hv)

/-- The name of a processing instruction, after its first byte `b`. -/
theorem leads_pi (h : Rd c p r) (ho : p.offset = pos c r) {K : PState → Parser → Prop} :
    Leads (processQmSeen p) (fun s q => Leads (step s q) K) ↔
      ∃ x r1, PiTarget r x r1 ∧ pos c r1 - pos c r - 1 ≤ maxLen ∧
      ((x = ch% '?' ∧ ∃ r2, r1 = ch% '>' :: r2 ∧
        Leads (afterMarkup { go c p r2 (ch% '?') with
          lastOffset := pos c r
          length1 := pos c r1 - pos c r - 1,
          out := emit c.shallowDepth p.out
            [⟨.piName, pos c r, pos c r1 - pos c r - 1, p.depth⟩, ⟨.piVal, pos c r, 0, p.depth⟩] }) K) ∨
       (x ≠ ch% '?' ∧ K .piVal { go c p r1 x.toNat with
          lastOffset := pos c r
          length1 := pos c r1 - pos c r - 1,
          out := emit c.shallowDepth p.out
            [⟨.piName, pos c r, pos c r1 - pos c r - 1, p.depth⟩] })) := by
  have h0 : Rd c { p with lastOffset := p.offset } r := h.of_eq rfl rfl rfl rfl rfl rfl
  generalize hQ : (fun (x : UInt8) (r1 : List UInt8) => pos c r1 - pos c r - 1 ≤ maxLen ∧
      ((x = ch% '?' ∧ ∃ r2, r1 = ch% '>' :: r2 ∧
        Leads (afterMarkup { go c p r2 (ch% '?') with
          lastOffset := pos c r
          length1 := pos c r1 - pos c r - 1,
          out := emit c.shallowDepth p.out
            [⟨.piName, pos c r, pos c r1 - pos c r - 1, p.depth⟩, ⟨.piVal, pos c r, 0, p.depth⟩] }) K) ∨
       (x ≠ ch% '?' ∧ K .piVal { go c p r1 x.toNat with
          lastOffset := pos c r
          length1 := pos c r1 - pos c r - 1,
          out := emit c.shallowDepth p.out
            [⟨.piName, pos c r, pos c r1 - pos c r - 1, p.depth⟩] }))) = Q
  have hQ' : ∀ x r1, (pos c r1 - pos c r - 1 ≤ maxLen ∧
      ((x = ch% '?' ∧ ∃ r2, r1 = ch% '>' :: r2 ∧
        Leads (afterMarkup { go c p r2 (ch% '?') with
          lastOffset := pos c r
          length1 := pos c r1 - pos c r - 1,
          out := emit c.shallowDepth p.out
            [⟨.piName, pos c r, pos c r1 - pos c r - 1, p.depth⟩, ⟨.piVal, pos c r, 0, p.depth⟩] }) K) ∨
       (x ≠ ch% '?' ∧ K .piVal { go c p r1 x.toNat with
          lastOffset := pos c r
          length1 := pos c r1 - pos c r - 1,
          out := emit c.shallowDepth p.out
            [⟨.piName, pos c r, pos c r1 - pos c r - 1, p.depth⟩] }))) ↔ Q x r1 := by
    intro x r1; rw [← hQ]
  simp only [hQ']
  have hpi : ∀ {s : List UInt8} {o : Int} {ch : Nat}, s <:+ r → 0 ≤ o → o ≤ pos c s →
      (Leads (processPiTag { go c { p with lastOffset := p.offset } s ch with offset := o }) K ↔
        ∃ run x r1, s = run ++ x :: r1 ∧ AllName run ∧ ¬ NameByte x ∧ Q x r1) := by
    intro s o ch hs h1 h2
    have h3 := h0.go hs ch
    have h4 : Rd c { go c { p with lastOffset := p.offset } s ch with offset := o } s :=
      { h3 with base := { h3.base with off0 := h1, off1 := h2 } }
    rw [leads_piTag h4]
    refine exists_congr fun run => exists_congr fun x => exists_congr fun r1 => ?_
    rw [← hQ', ← ho]
    rfl
  simp only [processQmSeen, leads_bind, markOffset, M.modify_apply, leads_ok, leads_wrap]
  rw [leads_getChar h0]
  constructor
  · rintro ⟨b, r', hr, hk⟩
    have h1 := h0.go (show r' <:+ r from hr ▸ List.suffix_cons b r') p.currentChar
    rw [leads_ite] at hk
    rcases hk with ⟨hs, hk⟩ | ⟨_, hk⟩
    rotate_left
    · simp at hk
    rw [isNameStartChar_iff] at hs
    rw [leads_bind] at hk
    have hk := (leads_xmlTest (c := c) (r := r') h1 rfl).1 hk
    rcases hk with ⟨hx, hk⟩ | ⟨hx, m, s, hr', hk⟩
    · simp only [Bool.false_eq_true, M.pure_apply, M.ite_apply, if_false, leads_ok] at hk
      obtain ⟨run, x, r1, h2, h3, h4, h5⟩ := (hpi (s := r') (hr ▸ List.suffix_cons b r') h1.base.off0 h1.base.off1).1 hk
      refine ⟨x, r1, ?_, h5⟩
      rw [hr, h2]
      refine .plain hs ?_ h3 h4
      rw [xmlPrefix_iff]
      rintro ⟨h6, _⟩
      exact hx (h6.imp (fun h => eq_nat (ch% 'x') h) (fun h => eq_nat (ch% 'X') h))
    · rcases hk with ⟨hm, hm', hk⟩ | ⟨hm, l, t, hs', hk⟩
      · simp only [Bool.false_eq_true, M.pure_apply, M.ite_apply, if_false, leads_ok] at hk
        obtain ⟨run, x, r1, h2, h3, h4, h5⟩ := (hpi (s := r') (hr ▸ List.suffix_cons b r') h1.base.off0 h1.base.off1).1 hk
        refine ⟨x, r1, ?_, h5⟩
        rw [hr, h2]
        refine .plain hs ?_ h3 h4
        rw [xmlPrefix_iff, ← h2, hr']
        rintro ⟨_, _, _, _, h6, h7, _⟩
        cases h6
        exact h7.elim hm hm'
      · have hmn : NameByte m := by
          rw [NameByte, ← isNameChar_iff]
          rcases hm with rfl | rfl <;> decide
        have hln : (l = ch% 'l' ∨ l = ch% 'L') → NameByte l := by
          rw [NameByte, ← isNameChar_iff]
          rintro (rfl | rfl) <;> decide
        have hss : s <:+ r := by rw [hr, hr']; exact ⟨[b, m], rfl⟩
        have h2 := h0.go hss p.currentChar
        rcases hk with ⟨hl, hl', hk⟩ | ⟨hl, hk⟩
        · simp only [Bool.false_eq_true, M.pure_apply, M.ite_apply, if_false, leads_ok] at hk
          obtain ⟨run, x, r1, h3, h4, h5, h6⟩ := (hpi (s := s) hss h2.base.off0 h2.base.off1).1 hk
          refine ⟨x, r1, ?_, h6⟩
          rw [hr, hr', h3]
          refine .plain (run := m :: run) hs ?_ (by simpa [AllName, hmn] using h4) h5
          rw [xmlPrefix_iff]
          rintro ⟨_, _, _, _, h7, _, h8⟩
          have : s = run ++ x :: r1 := h3
          rw [hs'] at this
          rw [List.cons_append, ← this] at h7
          cases h7
          exact h8.elim hl hl'
        · simp only [if_true] at hk
          rw [leads_bind] at hk
          have hts : t <:+ r := by rw [hr, hr', hs']; exact ⟨[b, m, l], rfl⟩
          have h3 := h0.go hts p.currentChar
          have hk := (leads_getChar (c := c) (r := t) h3).1 hk
          obtain ⟨y, t', ht, hk⟩ := hk
          have hts' : t' <:+ r := by rw [hr, hr', hs', ht]; exact ⟨[b, m, l, y], rfl⟩
          have h4 := h0.go hts' p.currentChar
          rw [leads_ite] at hk
          rcases hk with ⟨_, hk⟩ | ⟨hy, hk⟩
          · simp at hk
          rw [leads_bind, getPrevOffset_eq (c := c) (by exact h4.toBase), leads_ok] at hk
          have hk := (leads_ok _ _).1 (leads_bind.1 hk)
          have hk := (leads_ok _ _).1 hk
          have h5 : 0 ≤ pos c t' - 1 := by
            have := h3.base.off0
            rw [ht] at this
            have e := pos_cons (c := c) (b := y) (r := t')
            simp only [go_offset] at this
            omega
          obtain ⟨run, x, r1, h6, h7, h8, h9⟩ := (hpi (s := t') hts' h5 (by omega)).1 hk
          refine ⟨x, r1, ?_, h9⟩
          rw [hr, hr', hs', ht, h6]
          rw [not_or] at hy
          refine .xml ?_ (fun e => hy.1 (e ▸ rfl)) (fun e => hy.2 ((isSpaceChar_iff _).2 e)) h7 h8
          rw [xmlPrefix_iff]
          exact ⟨hx.imp (UInt8.toNat_inj (b := ch% 'x')).1 (UInt8.toNat_inj (b := ch% 'X')).1, m, l, [], rfl, hm, hl⟩
  · rintro ⟨x, r1, ht, hq⟩
    cases ht with
    | @plain b run _ _ hs hx hn hx' =>
      refine ⟨b, _, rfl, ?_⟩
      have hss : (run ++ x :: r1) <:+ b :: (run ++ x :: r1) := List.suffix_cons _ _
      have h1 := h0.go hss p.currentChar
      rw [leads_ite]
      refine Or.inl ⟨(isNameStartChar_iff _).2 hs, leads_bind.2 ((leads_xmlTest (c := c) (by exact h1) rfl).2 ?_)⟩
      by_cases hb : b.toNat = ch% 'x' ∨ b.toNat = ch% 'X'
      · refine Or.inr ⟨hb, ?_⟩
        have hb' := hb.imp (UInt8.toNat_inj (b := ch% 'x')).1 (UInt8.toNat_inj (b := ch% 'X')).1
        cases run with
        | nil =>
          refine ⟨x, r1, rfl, Or.inl ⟨not_name_ne hx', not_name_ne hx', ?_⟩⟩
          simp only [Bool.false_eq_true, M.pure_apply, M.ite_apply, if_false, leads_ok]
          exact (hpi hss h1.base.off0 h1.base.off1).2 ⟨[], x, r1, rfl, hn, hx', hq⟩
        | cons m run =>
          refine ⟨m, _, rfl, ?_⟩
          by_cases hm : m = ch% 'm' ∨ m = ch% 'M'
          · refine Or.inr ⟨hm, ?_⟩
            have hss2 : (run ++ x :: r1) <:+ b :: (m :: run ++ x :: r1) := ⟨[b, m], rfl⟩
            have h2 := h0.go hss2 p.currentChar
            cases run with
            | nil =>
              refine ⟨x, r1, rfl, Or.inl ⟨not_name_ne hx', not_name_ne hx', ?_⟩⟩
              simp only [Bool.false_eq_true, M.pure_apply, M.ite_apply, if_false, leads_ok]
              exact (hpi hss2 h2.base.off0 h2.base.off1).2 ⟨[], x, r1, rfl, by simp [AllName], hx', hq⟩
            | cons l run =>
              refine ⟨l, _, rfl, Or.inl ⟨?_, ?_, ?_⟩⟩
              · rintro rfl
                exact hx (xmlPrefix_iff.2 ⟨hb', _, _, _, rfl, hm, Or.inl rfl⟩)
              · rintro rfl
                exact hx (xmlPrefix_iff.2 ⟨hb', _, _, _, rfl, hm, Or.inr rfl⟩)
              · simp only [Bool.false_eq_true, M.pure_apply, M.ite_apply, if_false, leads_ok]
                exact (hpi hss2 h2.base.off0 h2.base.off1).2
                  ⟨l :: run, x, r1, rfl, fun z hz => hn z (List.mem_cons_of_mem _ hz), hx', hq⟩
          · rw [not_or] at hm
            refine Or.inl ⟨hm.1, hm.2, ?_⟩
            simp only [Bool.false_eq_true, M.pure_apply, M.ite_apply, if_false, leads_ok]
            exact (hpi hss h1.base.off0 h1.base.off1).2 ⟨m :: run, x, r1, rfl, hn, hx', hq⟩
      · refine Or.inl ⟨hb, ?_⟩
        simp only [Bool.false_eq_true, M.pure_apply, M.ite_apply, if_false, leads_ok]
        exact (hpi hss h1.base.off0 h1.base.off1).2 ⟨run, x, r1, rfl, hn, hx', hq⟩
    | @xml a m l y run _ _ hx hy hy' hn hx' =>
      refine ⟨a, _, rfl, ?_⟩
      rw [xmlPrefix_iff] at hx
      obtain ⟨ha, m, l, s, hml, hm, hl⟩ := hx
      cases hml
      have h1 := h0.go (show (m :: l :: y :: (run ++ x :: r1)) <:+ a :: m :: l :: y :: (run ++ x :: r1) from
        List.suffix_cons _ _) p.currentChar
      have hst : isNameStartChar a.toNat = true := by rcases ha with rfl | rfl <;> decide
      rw [leads_ite]
      refine Or.inl ⟨hst, leads_bind.2 ((leads_xmlTest (c := c) (by exact h1) rfl).2 ?_)⟩
      refine Or.inr ⟨ha.imp (fun h => eq_nat (ch% 'x') h) (fun h => eq_nat (ch% 'X') h), m, _, rfl, Or.inr ⟨hm, l, _, rfl, Or.inr ⟨hl, ?_⟩⟩⟩
      simp only [if_true]
      rw [leads_bind]
      have h3 := h0.go (show (y :: (run ++ x :: r1)) <:+ a :: m :: l :: y :: (run ++ x :: r1) from
        ⟨[a, m, l], rfl⟩) p.currentChar
      refine (leads_getChar (c := c) h3).2 ⟨y, _, rfl, ?_⟩
      have h4 := h3.tail p.currentChar
      rw [leads_ite]
      refine Or.inr ⟨?_, ?_⟩
      · rintro (h | h)
        · exact hy (UInt8.toNat_inj.1 h)
        · exact hy' ((isSpaceChar_iff _).1 h)
      rw [leads_bind, getPrevOffset_eq (c := c) (by exact h4.toBase), leads_ok]
      refine leads_bind.2 ((leads_ok _ _).2 ((leads_ok _ _).2 ?_))
      have h5 : 0 ≤ pos c (run ++ x :: r1) - 1 := by
        have := h3.base.off0
        have e := pos_cons (c := c) (b := y) (r := run ++ x :: r1)
        simp only [go_offset] at this
        omega
      exact (hpi (s := run ++ x :: r1) ⟨[a, m, l, y], rfl⟩ h5 (by omega)).2 ⟨run, x, r1, rfl, hn, hx', hq⟩

/-! ## A processing instruction after the root element -/

/-- The target of a processing instruction, after its first byte `b`. -/
theorem leads_piEndName {fuel : Nat} (h : Rd c p r) (ho : p.offset = pos c r) (hb : p.currentChar = b.toNat)
    (hs : StartByte b) (hf : r.length + 1 < fuel) {K : Unit → Parser → Prop} :
    Leads (piEndTarget p) (fun _ s => Leads (piEndNameLoop fuel s) K) ↔
      ∃ run x r1, r = run ++ x :: r1 ∧ AllName run ∧ ¬ NameByte x ∧
        (XmlPrefix (b :: r) → 3 ≤ run.length ∨ (¬ Ws x ∧ x ≠ ch% '?')) ∧ K () (go c p r1 x.toNat) := by
  have loop : ∀ {s : List UInt8} {ch : UInt8}, s <:+ r →
      (Leads (piEndNameLoop fuel (go c p s ch.toNat)) K ↔ ∃ w x r1, ch :: s = w ++ x :: r1 ∧ AllName w ∧
        ¬ NameByte x ∧ K () (go c p r1 x.toNat)) := by
    intro s ch hsuf
    have hl := hsuf.length_le
    constructor
    · rintro ⟨u, q, h1, h2⟩
      obtain ⟨w, x, r1, h3, h4, h5, rfl⟩ := (piEndNameLoop_iff (h.go hsuf _) rfl (by omega) rfl).1 h1
      exact ⟨w, x, r1, h3, h4, h5, h2⟩
    · rintro ⟨w, x, r1, h3, h4, h5, h2⟩
      exact ⟨(), _, (piEndNameLoop_iff (h.go hsuf _) rfl (by omega) rfl).2 ⟨w, x, r1, h3, h4, h5, rfl⟩, h2⟩
  have hp : p = go c p r b.toNat := by rw [← hb, go_self h ho]
  simp only [piEndTarget, leads_bind, M.get_apply, leads_ok]
  rw [leads_xmlTest h ho]
  have e1 : (p.currentChar = ch% 'x' ∨ p.currentChar = ch% 'X') ↔ (b = ch% 'x' ∨ b = ch% 'X') := by
    rw [hb]
    exact or_congr (UInt8.toNat_inj (b := ch% 'x')) (UInt8.toNat_inj (b := ch% 'X'))
  rw [e1]
  have plain : ¬ XmlPrefix (b :: r) → ((∃ run x r1, r = run ++ x :: r1 ∧ AllName run ∧ ¬ NameByte x ∧
      (XmlPrefix (b :: r) → 3 ≤ run.length ∨ (¬ Ws x ∧ x ≠ ch% '?')) ∧ K () (go c p r1 x.toNat)) ↔
      ∃ run x r1, r = run ++ x :: r1 ∧ AllName run ∧ ¬ NameByte x ∧ K () (go c p r1 x.toNat)) := by
    intro hx
    simp only [hx, false_implies, true_and]
  have first : ∀ {s : List UInt8}, (∃ w x r1, b :: s = w ++ x :: r1 ∧ AllName w ∧ ¬ NameByte x ∧
      K () (go c p r1 x.toNat)) ↔ ∃ w x r1, s = w ++ x :: r1 ∧ AllName w ∧ ¬ NameByte x ∧
      K () (go c p r1 x.toNat) :=
    fun {s} => exists_span_pos (Q := fun _ x r1 => K () (go c p r1 x.toNat)) (start_name hs)
  by_cases hx : b = ch% 'x' ∨ b = ch% 'X'
  · simp only [hx, not_true_eq_false, false_and, false_or, true_and]
    cases r with
    | nil => simp
    | cons m s =>
      by_cases hm : m = ch% 'm' ∨ m = ch% 'M'
      · have hmn : NameByte m := name_of (by rcases hm with rfl | rfl <;> decide)
        have e2 : ∀ Q : UInt8 → List UInt8 → Prop, (∃ m' s', m :: s = m' :: s' ∧
            ((m' ≠ ch% 'm' ∧ m' ≠ ch% 'M' ∧ Q m' s') ∨ ((m' = ch% 'm' ∨ m' = ch% 'M') ∧ Q m' s'))) ↔ Q m s := by
          intro Q
          constructor
          · rintro ⟨_, _, h0, ⟨_, _, hk⟩ | ⟨_, hk⟩⟩ <;> cases h0 <;> exact hk
          · intro hk; exact ⟨m, s, rfl, Or.inr ⟨hm, hk⟩⟩
        have e3 : ∀ (A : Prop) (Q : UInt8 → List UInt8 → Prop), (∃ m' s', m :: s = m' :: s' ∧
            ((m' ≠ ch% 'm' ∧ m' ≠ ch% 'M' ∧ A) ∨ ((m' = ch% 'm' ∨ m' = ch% 'M') ∧ Q m' s'))) ↔ Q m s := by
          intro A Q
          constructor
          · rintro ⟨_, _, h0, ⟨h1, h2, hk⟩ | ⟨_, hk⟩⟩ <;> cases h0
            · exact absurd hm (not_or.2 ⟨h1, h2⟩)
            · exact hk
          · intro hk; exact ⟨m, s, rfl, Or.inr ⟨hm, hk⟩⟩
        refine (e3 _ (fun _ s => ∃ l t, s = l :: t ∧ ((l ≠ ch% 'l' ∧ l ≠ ch% 'L' ∧ _) ∨
          ((l = ch% 'l' ∨ l = ch% 'L') ∧ _)))).trans ?_
        cases s with
        | nil =>
          constructor
          · rintro ⟨_, _, h0, _⟩; cases h0
          · rintro ⟨run, x, r1, h1, h2, h3, _⟩
            cases run with
            | nil => cases h1; exact absurd hmn h3
            | cons _ run => cases run <;> simp at h1
        | cons l t =>
          by_cases hl : l = ch% 'l' ∨ l = ch% 'L'
          · have hln : NameByte l := name_of (by rcases hl with rfl | rfl <;> decide)
            have hxp : XmlPrefix (b :: m :: l :: t) := xmlPrefix_iff.2 ⟨hx, m, l, t, rfl, hm, hl⟩
            have hts : t <:+ m :: l :: t := ⟨[m, l], rfl⟩
            have h1 := h.go hts p.currentChar
            have e4 : (∃ run x r1, m :: l :: t = run ++ x :: r1 ∧ AllName run ∧ ¬ NameByte x ∧
                (XmlPrefix (b :: m :: l :: t) → 3 ≤ run.length ∨ (¬ Ws x ∧ x ≠ ch% '?')) ∧ K () (go c p r1 x.toNat)) ↔
                ∃ run x r1, t = run ++ x :: r1 ∧ AllName run ∧ ¬ NameByte x ∧
                  (1 ≤ run.length ∨ (¬ Ws x ∧ x ≠ ch% '?')) ∧ K () (go c p r1 x.toNat) := by
              simp only [hxp, forall_const]
              refine (exists_span_pos (Q := fun run x r1 => (3 ≤ run.length ∨ (¬ Ws x ∧ x ≠ ch% '?')) ∧
                K () (go c p r1 x.toNat)) hmn).trans ?_
              refine (exists_span_pos (Q := fun run x r1 => (3 ≤ (m :: run).length ∨ (¬ Ws x ∧ x ≠ ch% '?')) ∧
                K () (go c p r1 x.toNat)) hln).trans ?_
              simp only [List.length_cons, Nat.reduceLeDiff, AllName]
            rw [e4]
            constructor
            · rintro ⟨_, _, h0, ⟨h2, h3, _⟩ | ⟨_, hk⟩⟩ <;> cases h0
              · exact absurd hl (not_or.2 ⟨h2, h3⟩)
              simp only [if_true] at hk
              rw [leads_bind] at hk
              obtain ⟨y, t', rfl, hk⟩ := (leads_nextChar h1).1 hk
              rw [leads_bind, M.get_apply, leads_ok, leads_ite] at hk
              rcases hk with ⟨_, hk⟩ | ⟨hy, hk⟩
              · simp at hk
              rw [not_or] at hy
              have hk := (leads_ok _ _).1 hk
              obtain ⟨w, x, r1, h2, h3, h4, h5⟩ := (loop (s := t') ⟨[m, l, y], rfl⟩).1 hk
              refine ⟨w, x, r1, h2, h3, h4, ?_, h5⟩
              cases w with
              | nil =>
                cases h2
                exact Or.inr ⟨fun e => hy.1 ((isSpaceChar_iff _).2 e), fun e => hy.2 (eq_nat (ch% '?') e)⟩
              | cons _ _ => exact Or.inl (by simp)
            · rintro ⟨w, x, r1, rfl, h3, h4, h5, h6⟩
              refine ⟨l, _, rfl, Or.inr ⟨hl, ?_⟩⟩
              simp only [if_true]
              rw [leads_bind]
              obtain ⟨y, t', ht⟩ : ∃ y t', w ++ x :: r1 = y :: t' := by
                cases w with
                | nil => exact ⟨_, _, rfl⟩
                | cons y w => exact ⟨_, _, rfl⟩
              rw [leads_nextChar h1]
              refine ⟨y, t', ht, ?_⟩
              rw [leads_bind, M.get_apply, leads_ok, leads_ite]
              refine Or.inr ⟨?_, (leads_ok _ _).2 ((loop (s := t') ?_).2 ⟨w, x, r1, ht.symm, h3, h4, h6⟩)⟩
              · have : ¬ Ws y ∧ y ≠ ch% '?' := by
                  cases w with
                  | nil =>
                    cases ht
                    rcases h5 with h5 | h5
                    · simp at h5
                    · exact h5
                  | cons y w =>
                    cases ht
                    have := h3 y (by simp)
                    exact ⟨name_not_ws this, name_not_qm this⟩
                rintro (e | e)
                · exact this.1 ((isSpaceChar_iff _).1 e)
                · exact this.2 ((UInt8.toNat_inj (b := ch% '?')).1 e)
              · rw [ht]; exact ⟨[m, l, y], rfl⟩
          · have hxp : ¬ XmlPrefix (b :: m :: l :: t) := by
              rw [xmlPrefix_iff]
              rintro ⟨_, _, _, _, h6, _, h7⟩
              cases h6
              exact hl h7
            have hts : (l :: t) <:+ m :: l :: t := ⟨[m], rfl⟩
            have h1 := h.go hts p.currentChar
            rw [plain hxp]
            refine Iff.trans ?_ (exists_span_pos (Q := fun _ x r1 => K () (go c p r1 x.toNat)) hmn).symm
            refine Iff.trans ?_ first
            rw [← loop hts, ← hb]
            rw [not_or] at hl
            constructor
            · rintro ⟨_, _, h0, ⟨_, _, hk⟩ | ⟨hl', _⟩⟩
              · cases h0
                simpa using hk
              · cases h0
                exact absurd hl' (not_or.2 hl)
            · intro hk
              exact ⟨l, t, rfl, Or.inl ⟨hl.1, hl.2, by simpa using hk⟩⟩
      · have hxp : ¬ XmlPrefix (b :: m :: s) := by
          rw [xmlPrefix_iff]
          rintro ⟨_, _, _, _, h6, h7, _⟩
          cases h6
          exact hm h7
        rw [plain hxp, ← first, ← loop (List.suffix_refl _), ← hp]
        rw [not_or] at hm
        constructor
        · rintro ⟨m, s, h0, ⟨_, _, hk⟩ | ⟨hm', _⟩⟩
          · cases h0
            simpa using hk
          · cases h0
            exact absurd hm' (not_or.2 hm)
        · intro hk
          exact ⟨m, s, rfl, Or.inl ⟨hm.1, hm.2, by simpa using hk⟩⟩
  · have hxp : ¬ XmlPrefix (b :: r) := fun h => hx (xmlPrefix_iff.1 h).1
    simp only [hx, not_false_iff, true_and, false_and, or_false]
    rw [plain hxp, ← first, ← loop (List.suffix_refl _), ← hp]
    simp

end
end Parser
end GoVtd
