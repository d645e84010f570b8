import Verif.Proofs.Parser.At

/-!
# References, text, attribute values, comments, CDATA sections, processing instructions
-/

namespace GoVtd
namespace Parser
open Paged Grammar

section
variable {c : ParserCfg} {p p' : Parser} {r r' : List UInt8} {b : UInt8} {ch : Nat}

/-! ## References -/

theorem hexDigit_eq (b : UInt8) : hexDigit b.toNat = hexVal b := by
  simp only [hexDigit, hexVal, UInt8.le_iff_toNat_le]
  rfl

theorem hexDigits_nil {v v' : Nat} : HexDigits v [] v' r' ↔ False := by
  constructor
  · intro h; cases h
  · exact False.elim

theorem hexDigits_cons {v v' : Nat} : HexDigits v (b :: r) v' r' ↔
    match hexVal b with
    | some d => HexDigits ((v * 16 + d) % 2 ^ 32) r v' r'
    | none => b = ch% ';' ∧ v' = v ∧ r' = r := by
  constructor
  · intro h
    cases h with
    | stop => exact ⟨rfl, rfl, rfl⟩
    | digit h1 h2 => rw [h1]; exact h2
  · intro h
    cases hd : hexVal b with
    | some d => rw [hd] at h; exact .digit hd h
    | none => rw [hd] at h; obtain ⟨rfl, rfl, rfl⟩ := h; exact .stop

theorem entityHexLoop_iff {fuel v v' : Nat} (h : Rd c p r) (hf : r.length < fuel) :
    entityHexLoop fuel v p = .ok v' p' ↔ ∃ r', HexDigits v r v' r' ∧ p' = go c p r' p.currentChar := by
  induction fuel generalizing p r v with
  | zero => omega
  | succ fuel ih =>
    simp only [entityHexLoop, M.bind_apply]
    cases r with
    | nil => rw [getChar_nil h]; simp [hexDigits_nil]
    | cons b r =>
      rw [getChar_cons h]
      simp only [Res.andThen_ok, hexDigit_eq, hexDigits_cons]
      cases hexVal b with
      | some d => exact ih (h.tail _) (by simpa using hf)
      | none =>
        simp only [M.ite_apply, M.pure_apply, M.raise_apply]
        by_cases hb : b = ch% ';'
        · rw [if_pos (eq_nat (ch% ';') hb)]
          simp only [Res.ok.injEq, hb, true_and]
          constructor
          · rintro ⟨rfl, rfl⟩; exact ⟨_, ⟨rfl, rfl⟩, rfl⟩
          · rintro ⟨_, ⟨rfl, rfl⟩, rfl⟩; exact ⟨rfl, rfl⟩
        · rw [if_neg (ne_nat (ch% ';') hb)]
          simp [hb]

theorem decDigits_nil {v v' : Nat} : DecDigits v [] v' r' ↔ False := by
  constructor
  · intro h; cases h
  · exact False.elim

theorem decDigits_cons {v v' : Nat} : DecDigits v (b :: r) v' r' ↔
    if ch% '0' ≤ b ∧ b ≤ ch% '9' then DecDigits ((v * 10 + (b.toNat - ch% '0')) % 2 ^ 32) r v' r'
    else b = ch% ';' ∧ v' = v ∧ r' = r := by
  constructor
  · intro h
    cases h with
    | stop => exact ⟨rfl, rfl, rfl⟩
    | digit h1 h2 h3 => rw [if_pos ⟨h1, h2⟩]; exact h3
  · intro h
    split at h
    · rename_i hd; exact .digit hd.1 hd.2 h
    · obtain ⟨rfl, rfl, rfl⟩ := h; exact .stop

theorem entityDecLoop_iff {fuel v v' : Nat} (h : Rd c p r) (ho : p.offset = pos c r)
    (hf : r.length + 1 < fuel) :
    entityDecLoop fuel b.toNat v p = .ok v' p' ↔
      ∃ r', DecDigits v (b :: r) v' r' ∧ p' = go c p r' p.currentChar := by
  induction fuel generalizing p r v b with
  | zero => omega
  | succ fuel ih =>
    have hc : (b.toNat ≥ ch% '0' ∧ b.toNat ≤ ch% '9') ↔ (ch% '0' ≤ b ∧ b ≤ ch% '9') := by
      simp only [UInt8.le_iff_toNat_le]; exact Iff.rfl
    simp only [entityDecLoop, decDigits_cons, M.ite_apply, hc]
    by_cases hd : ch% '0' ≤ b ∧ b ≤ ch% '9'
    · simp only [hd, if_true, and_self, M.bind_apply]
      cases r with
      | nil => rw [getChar_nil h]; simp [decDigits_nil]
      | cons x r =>
        rw [getChar_cons h]
        simp only [Res.andThen_ok]
        exact ih (h.tail _) rfl (by simpa using hf)
    · simp only [hd, if_false, M.pure_apply, M.raise_apply]
      by_cases hb : b = ch% ';'
      · rw [if_pos (eq_nat (ch% ';') hb)]
        have hg := go_self h ho
        simp only [Res.ok.injEq, hb, true_and]
        constructor
        · rintro ⟨rfl, rfl⟩; exact ⟨_, ⟨rfl, rfl⟩, hg.symm⟩
        · rintro ⟨_, ⟨rfl, rfl⟩, rfl⟩; exact ⟨rfl, hg.symm⟩
      · rw [if_neg (ne_nat (ch% ';') hb)]
        simp [hb]

theorem entitySeq_iff {seq : List UInt8} (h : Rd c p r) (ho : p.offset = pos c r) {u : Unit} :
    entitySeq (seq.map UInt8.toNat) p = .ok u p' ↔
      ∃ r', r = seq ++ r' ∧ p' = go c p r' p.currentChar := by
  induction seq generalizing p r with
  | nil => simp [entitySeq, go_self h ho, eq_comm]
  | cons x seq ih =>
    simp only [entitySeq, List.map_cons, M.bind_apply]
    cases r with
    | nil => rw [getChar_nil h]; simp
    | cons b r =>
      rw [getChar_cons h]
      simp only [Res.andThen_ok, M.ite_apply, M.raise_apply, List.cons_append, List.cons.injEq]
      by_cases hb : b = x
      · subst hb
        simp only [ne_eq, not_true_eq_false, if_false, true_and]
        exact ih (h.tail _) rfl
      · simp only [hb, false_and, exists_false]
        rw [if_pos (ne_nat _ hb)]
        simp

theorem entitySeq_pure {seq : List Nat} (s : List UInt8) (hs : seq = s.map UInt8.toNat) {v v' : Nat}
    (h : Rd c p r) (ho : p.offset = pos c r) :
    (entitySeq seq p).andThen (fun _ => pure v) = .ok v' p' ↔
      ∃ r', r = s ++ r' ∧ v' = v ∧ p' = go c p r' p.currentChar := by
  subst hs
  rw [Res.andThen_eq_ok]
  constructor
  · rintro ⟨_, q, h1, h2⟩
    obtain ⟨r', h3, rfl⟩ := (entitySeq_iff h ho).1 h1
    simp only [M.pure_apply, Res.ok.injEq] at h2
    exact ⟨r', h3, h2.1.symm, h2.2.symm⟩
  · rintro ⟨r', h3, rfl, rfl⟩
    exact ⟨(), _, (entitySeq_iff h ho).2 ⟨r', h3, rfl⟩, rfl⟩

/-- What a reference can start with. -/
theorem ref_iff {v : Nat} : Ref r v r' ↔
    (∃ s, r = ch% '#' :: ch% 'x' :: s ∧ HexDigits 0 s v r' ∧ Spec.Char11 v) ∨
    (∃ s, r = ch% '#' :: s ∧ DecDigits 0 s v r' ∧ Spec.Char11 v) ∨
    (r = str% "amp;" ++ r' ∧ v = ch% '&') ∨ (r = str% "apos;" ++ r' ∧ v = ch% '\'') ∨
    (r = str% "quot;" ++ r' ∧ v = ch% '"') ∨ (r = str% "gt;" ++ r' ∧ v = ch% '>') ∨
    (r = str% "lt;" ++ r' ∧ v = ch% '<') := by
  constructor
  · intro h
    cases h with
    | hex h1 h2 => exact Or.inl ⟨_, rfl, h1, h2⟩
    | dec h1 h2 => exact Or.inr (Or.inl ⟨_, rfl, h1, h2⟩)
    | amp => simp
    | apos => simp
    | quot => simp
    | gt => simp
    | lt => simp
  · rintro (⟨s, rfl, h1, h2⟩ | ⟨s, rfl, h1, h2⟩ | ⟨rfl, rfl⟩ | ⟨rfl, rfl⟩ | ⟨rfl, rfl⟩ | ⟨rfl, rfl⟩ | ⟨rfl, rfl⟩)
    · exact .hex h1 h2
    · exact .dec h1 h2
    · exact .amp
    · exact .apos
    · exact .quot
    · exact .gt
    · exact .lt

theorem _root_.GoVtd.Grammar.Ref.char11 {v : Nat} (h : Ref r v r') : Spec.Char11 v := by
  cases h <;> first | assumption | (simp [Spec.Char11])

theorem checked_iff {m : M Parser Nat} {v : Nat} {e : GoErr} :
    (m p).andThen (fun x => if isValidChar x then pure x else M.raise e) = .ok v p' ↔
      m p = .ok v p' ∧ Spec.Char11 v := by
  rw [Res.andThen_eq_ok]
  constructor
  · rintro ⟨x, s, h1, h2⟩
    by_cases hx : isValidChar x = true
    · simp only [hx, if_true, M.pure_apply, Res.ok.injEq] at h2
      obtain ⟨rfl, rfl⟩ := h2
      exact ⟨h1, (isValidChar_iff _).1 hx⟩
    · simp [hx] at h2
  · rintro ⟨h1, h2⟩
    exact ⟨v, p', h1, by simp [(isValidChar_iff _).2 h2]⟩

theorem entityIdentifier_iff {v : Nat} (h : Rd c p r) :
    entityIdentifier p = .ok v p' ↔ ∃ r', Ref r v r' ∧ p' = go c p r' p.currentChar := by
  simp only [entityIdentifier, M.bind_apply, ref_iff]
  cases r with
  | nil => rw [getChar_nil h]; simp
  | cons b r =>
    rw [getChar_cons h]
    have h' := h.tail p.currentChar
    simp only [Res.andThen_ok, M.ite_apply]
    by_cases hs : b = ch% '#'
    · rw [if_pos (eq_nat (ch% '#') hs)]
      subst hs
      simp only [M.bind_apply]
      cases r with
      | nil => rw [getChar_nil h']; simp [decDigits_nil]
      | cons x r =>
        rw [getChar_cons h']
        have h'' := h'.tail p.currentChar
        simp only [Res.andThen_ok, M.bind_apply, M.get_apply, M.ite_apply]
        by_cases hx : x = ch% 'x'
        · rw [if_pos (eq_nat (ch% 'x') hx)]
          subst hx
          refine checked_iff.trans ?_
          refine (and_congr_left' (entityHexLoop_iff h'' (h''.fuel h.cfg))).trans ?_
          have hdec : ∀ v r', DecDigits 0 (ch% 'x' :: r) v r' ↔ False := by
            intro v r'; rw [decDigits_cons, if_neg (by decide)]; simp
          simp [hdec, and_assoc, and_left_comm, and_comm]
          exact ⟨fun ⟨a, r, b, c⟩ => ⟨r, b, c, a⟩, fun ⟨r, b, c, a⟩ => ⟨a, r, b, c⟩⟩
        · rw [if_neg (ne_nat (ch% 'x') hx)]
          refine checked_iff.trans ?_
          refine (and_congr_left' (entityDecLoop_iff h'' rfl (by
            have := h'.fuel (q := go c p r p.currentChar) h.cfg; simpa using this))).trans ?_
          simp [hx, and_assoc, and_left_comm, and_comm]
          exact ⟨fun ⟨a, r, b, c⟩ => ⟨r, b, c, a⟩, fun ⟨r, b, c, a⟩ => ⟨a, r, b, c⟩⟩
    · rw [if_neg (ne_nat (ch% '#') hs)]
      simp only [List.cons.injEq, hs, false_and, exists_false, false_or]
      by_cases ha : b = ch% 'a'
      · rw [if_pos (eq_nat (ch% 'a') ha)]
        subst ha
        simp only [M.bind_apply]
        cases r with
        | nil => rw [getChar_nil h']; simp
        | cons x r =>
          rw [getChar_cons h']
          have h'' := h'.tail p.currentChar
          simp only [Res.andThen_ok, M.ite_apply]
          by_cases hx : x = ch% 'm'
          · rw [if_pos (eq_nat (ch% 'm') hx), M.bind_apply]
            refine (entitySeq_pure (str% "p;") rfl h'' rfl).trans ?_
            simp [hx, and_assoc]
          · rw [if_neg (ne_nat (ch% 'm') hx)]
            by_cases hx' : x = ch% 'p'
            · rw [if_pos (eq_nat (ch% 'p') hx'), M.bind_apply]
              refine (entitySeq_pure (str% "os;") rfl h'' rfl).trans ?_
              simp [hx', and_assoc]
            · rw [if_neg (ne_nat (ch% 'p') hx')]
              simp [*]
      · rw [if_neg (ne_nat (ch% 'a') ha)]
        by_cases hq : b = ch% 'q'
        · rw [if_pos (eq_nat (ch% 'q') hq), M.bind_apply]
          refine (entitySeq_pure (str% "uot;") rfl h' rfl).trans ?_
          simp [hq, and_assoc]
        · rw [if_neg (ne_nat (ch% 'q') hq)]
          by_cases hg : b = ch% 'g'
          · rw [if_pos (Or.inl (eq_nat (ch% 'g') hg)), M.bind_apply]
            simp only [eq_nat (ch% 'g') hg, if_true]
            refine (entitySeq_pure (str% "t;") rfl h' rfl).trans ?_
            simp [hg, and_assoc]
          · by_cases hl : b = ch% 'l'
            · rw [if_pos (Or.inr (eq_nat (ch% 'l') hl)), M.bind_apply]
              simp only [ne_nat (ch% 'g') hg, if_false]
              refine (entitySeq_pure (str% "t;") rfl h' rfl).trans ?_
              simp [hl, and_assoc]
            · rw [if_neg (not_or.2 ⟨ne_nat (ch% 'g') hg, ne_nat (ch% 'l') hl⟩)]
              simp [*]


/-! ## Suffixes -/

theorem _root_.GoVtd.Grammar.HexDigits.suffix {v v' : Nat} (h : HexDigits v r v' r') : r' <:+ r := by
  induction h with
  | stop => exact List.suffix_cons _ _
  | digit _ _ ih => exact ih.trans (List.suffix_cons _ _)

theorem _root_.GoVtd.Grammar.DecDigits.suffix {v v' : Nat} (h : DecDigits v r v' r') : r' <:+ r := by
  induction h with
  | stop => exact List.suffix_cons _ _
  | digit _ _ _ ih => exact ih.trans (List.suffix_cons _ _)

theorem _root_.GoVtd.Grammar.Ref.suffix {v : Nat} (h : Ref r v r') : r' <:+ r := by
  cases h with
  | hex h _ => exact h.suffix.trans ⟨[_, _], rfl⟩
  | dec h _ => exact h.suffix.trans ⟨[_], rfl⟩
  | _ => exact List.suffix_append _ _

theorem _root_.GoVtd.Grammar.Item.suffix (h : Item r r') : r' <:+ r := by
  cases h with
  | ref h => exact h.suffix.trans (List.suffix_cons _ _)
  | @brackets k b r => exact ⟨ch% ']' :: List.replicate k (ch% ']'), by simp⟩

theorem _root_.GoVtd.Grammar.TextBody.suffix (h : TextBody r r') : r' <:+ r := by
  induction h with
  | stop => exact List.suffix_cons _ _
  | char _ _ ih => exact ih.trans (List.suffix_cons _ _)
  | item h _ ih => exact ih.trans h.suffix

theorem _root_.GoVtd.Grammar.AttrBody.suffix {q : UInt8} (h : AttrBody q r r') : r' <:+ r := by
  induction h with
  | stop => exact List.suffix_cons _ _
  | char _ _ _ _ _ ih => exact ih.trans (List.suffix_cons _ _)
  | ref h _ ih => exact ih.trans (h.suffix.trans (List.suffix_cons _ _))

theorem _root_.GoVtd.Grammar.CommentBody.suffix (h : CommentBody r r') : r' <:+ r := by
  induction h with
  | stop => exact ⟨[_, _], rfl⟩
  | char _ _ _ ih => exact ih.trans (List.suffix_cons _ _)

theorem _root_.GoVtd.Grammar.CdataBody.suffix (h : CdataBody r r') : r' <:+ r := by
  induction h with
  | @stop k r => exact ⟨ch% ']' :: List.replicate k (ch% ']') ++ [ch% '>'], by simp⟩
  | char _ _ _ ih => exact ih.trans (List.suffix_cons _ _)
  | @brackets k b r r' _ _ _ ih => exact ih.trans ⟨ch% ']' :: List.replicate k (ch% ']'), by simp⟩

theorem _root_.GoVtd.Grammar.PiBody.suffix (h : PiBody r r') : r' <:+ r := by
  induction h with
  | stop => exact ⟨[_, _], rfl⟩
  | char _ _ _ ih => exact ih.trans (List.suffix_cons _ _)

theorem _root_.GoVtd.Grammar.DtdBody.suffix {z : Nat} (h : DtdBody z r r') : r' <:+ r := by
  induction h with
  | stop => exact List.suffix_cons _ _
  | close _ ih => exact ih.trans (List.suffix_cons _ _)
  | opening _ ih => exact ih.trans (List.suffix_cons _ _)
  | char _ _ _ _ ih => exact ih.trans (List.suffix_cons _ _)

/-! ## Brackets and items -/

theorem brackets_split (r : List UInt8) : (∃ k, r = List.replicate k (ch% ']')) ∨
    ∃ k b r', r = List.replicate k (ch% ']') ++ b :: r' ∧ b ≠ ch% ']' := by
  rcases span (· = ch% ']') r with h | ⟨w, b, r', rfl, h1, h2⟩
  · exact Or.inl ⟨r.length, List.eq_replicate_iff.2 ⟨rfl, h⟩⟩
  · exact Or.inr ⟨w.length, b, r', by rw [← List.eq_replicate_iff.2 ⟨rfl, h1⟩], h2⟩

theorem skipBrackets_iff {fuel : Nat} (h : Rd c p r) (hf : r.length < fuel) {u : Unit} :
    skipBrackets fuel p = .ok u p' ↔
      ∃ k b r', r = List.replicate k (ch% ']') ++ b :: r' ∧ b ≠ ch% ']' ∧
        p' = go c p (b :: r') p.currentChar := by
  induction fuel generalizing p r with
  | zero => omega
  | succ fuel ih =>
    simp only [skipBrackets, M.bind_apply]
    cases r with
    | nil => rw [skipChar_nil h]; simp
    | cons b r =>
      by_cases hb : b = ch% ']'
      · rw [skipChar_true h (eq_nat (ch% ']') hb).symm]
        simp only [Res.andThen_ok, if_true]
        rw [ih (h.tail _) (by simpa using hf)]
        subst hb
        constructor
        · rintro ⟨k, b, r', rfl, h1, h2⟩
          exact ⟨k + 1, b, r', rfl, h1, h2⟩
        · rintro ⟨k, b, r', h0, h1, h2⟩
          cases k with
          | zero =>
            simp only [List.replicate, List.nil_append, List.cons.injEq] at h0
            exact absurd h0.1.symm h1
          | succ k =>
            simp only [List.replicate, List.cons_append, List.cons.injEq, true_and] at h0
            exact ⟨k, b, r', h0, h1, h2⟩
      · rw [skipChar_false h (Ne.symm (ne_nat (ch% ']') hb))]
        simp only [Res.andThen_ok, Bool.false_eq_true, if_false, M.pure_apply]
        constructor
        · intro h'
          cases h'
          exact ⟨0, b, r, rfl, hb, rfl⟩
        · rintro ⟨k, b', r', h0, h1, rfl⟩
          cases k with
          | zero =>
            simp only [List.replicate, List.nil_append, List.cons.injEq] at h0
            obtain ⟨rfl, rfl⟩ := h0
            rfl
          | succ k =>
            simp only [List.replicate, List.cons_append, List.cons.injEq] at h0
            exact absurd h0.1 hb

theorem suffix_brackets {k : Nat} : b :: r <:+ List.replicate k (ch% ']') ++ b :: r :=
  List.suffix_append _ _

theorem bracketText_iff (h : Rd c p r) {u : Unit} :
    bracketText p = .ok u p' ↔
      ∃ k b r', r = List.replicate k (ch% ']') ++ b :: r' ∧ b ≠ ch% ']' ∧ b ≠ ch% '>' ∧
        p' = go c p (b :: r') p.currentChar := by
  simp only [bracketText, M.bind_apply, M.get_apply, Res.andThen_ok]
  rw [Res.andThen_eq_ok]
  constructor
  · rintro ⟨_, q, h1, h2⟩
    obtain ⟨k, b, r', rfl, hb, rfl⟩ := (skipBrackets_iff h (h.fuel h.cfg)).1 h1
    have h' := h.go (suffix_brackets (k := k) (b := b) (r := r')) p.currentChar
    rw [M.bind_apply, skipChar_cons h'] at h2
    by_cases hx : b = ch% '>'
    · rw [if_pos (eq_nat (ch% '>') hx).symm] at h2
      simp at h2
    · rw [if_neg (Ne.symm (ne_nat (ch% '>') hx))] at h2
      simp only [Res.andThen_ok, Bool.false_eq_true, if_false, M.pure_apply, Res.ok.injEq, true_and,
        M.ite_apply] at h2
      exact ⟨k, b, r', rfl, hb, hx, h2.symm⟩
  · rintro ⟨k, b, r', rfl, hb, hx, rfl⟩
    have h' := h.go (suffix_brackets (k := k) (b := b) (r := r')) p.currentChar
    refine ⟨(), _, (skipBrackets_iff h (h.fuel h.cfg)).2 ⟨k, b, r', rfl, hb, rfl⟩, ?_⟩
    rw [M.bind_apply, skipChar_false h' (Ne.symm (ne_nat (ch% '>') hx))]
    rfl

theorem item_amp : Item (ch% '&' :: r) r' ↔ ∃ v, Ref r v r' := by
  constructor
  · intro h
    generalize hs : (ch% '&' :: r : List UInt8) = s at h
    cases h with
    | ref h => cases hs; exact ⟨_, h⟩
    | brackets => cases hs
  · rintro ⟨v, h⟩; exact .ref h

theorem item_bracket : Item (ch% ']' :: r) r' ↔
    ∃ k b s, r = List.replicate k (ch% ']') ++ b :: s ∧ b ≠ ch% ']' ∧ b ≠ ch% '>' ∧ r' = b :: s := by
  constructor
  · intro h
    generalize hs : (ch% ']' :: r : List UInt8) = s at h
    cases h with
    | ref h => cases hs
    | brackets h1 h2 => cases hs; exact ⟨_, _, _, rfl, h1, h2, rfl⟩
  · rintro ⟨k, b, s, rfl, h1, h2, rfl⟩; exact .brackets h1 h2

theorem item_head (h : Item (b :: r) r') : b = ch% '&' ∨ b = ch% ']' := by
  generalize hs : (b :: r : List UInt8) = s at h
  cases h with
  | ref h => cases hs; exact Or.inl rfl
  | brackets => cases hs; exact Or.inr rfl

theorem handleOtherTextChar_iff (h : Rd c p r) {u : Unit} :
    handleOtherTextChar b.toNat p = .ok u p' ↔
      ∃ r', Item (b :: r) r' ∧ p' = go c p r' p.currentChar := by
  simp only [handleOtherTextChar, M.ite_apply]
  by_cases ha : b = ch% '&'
  · rw [if_pos (eq_nat (ch% '&') ha), M.bind_apply, Res.andThen_eq_ok]
    subst ha
    constructor
    · rintro ⟨v, q, h1, h2⟩
      obtain ⟨r', hr, rfl⟩ := (entityIdentifier_iff h).1 h1
      simp only [(isValidChar_iff _).2 hr.char11, if_true, M.pure_apply, Res.ok.injEq, true_and] at h2
      exact ⟨r', .ref hr, h2.symm⟩
    · rintro ⟨r', hr, rfl⟩
      obtain ⟨v, hr⟩ := item_amp.1 hr
      refine ⟨v, _, (entityIdentifier_iff h).2 ⟨r', hr, rfl⟩, ?_⟩
      simp only [(isValidChar_iff _).2 hr.char11, if_true, M.pure_apply]
  · rw [if_neg (ne_nat (ch% '&') ha)]
    by_cases hb : b = ch% ']'
    · rw [if_pos (eq_nat (ch% ']') hb), bracketText_iff h]
      subst hb
      constructor
      · rintro ⟨k, b, s, h0, h1, h2, h3⟩
        exact ⟨_, item_bracket.2 ⟨k, b, s, h0, h1, h2, rfl⟩, h3⟩
      · rintro ⟨r', h0, h3⟩
        obtain ⟨k, b, s, h0', h1, h2, rfl⟩ := item_bracket.1 h0
        exact ⟨k, b, s, h0', h1, h2, h3⟩
    · rw [if_neg (ne_nat (ch% ']') hb)]
      simp only [parseErr_ne_ok, false_iff]
      rintro ⟨r', h0, _⟩
      exact (item_head h0).elim ha hb

/-! ## Text -/

theorem _root_.GoVtd.Grammar.Item.lt (h : Item r r') : r'.length < r.length := by
  cases h with
  | ref h => have := h.suffix.length_le; simp; omega
  | brackets => simp; omega

theorem textBody_nil : TextBody [] r' ↔ False := by
  constructor
  · intro h
    generalize hs : ([] : List UInt8) = s at h
    cases h with
    | item h => subst hs; have := h.lt; simp at this
    | _ => cases hs
  · exact False.elim

theorem textBody_cons : TextBody (b :: r) r' ↔
    (b = ch% '<' ∧ r' = r) ∨ (ContentByte b ∧ TextBody r r') ∨ ∃ r1, Item (b :: r) r1 ∧ TextBody r1 r' := by
  constructor
  · intro h
    generalize hs : (b :: r : List UInt8) = s at h
    cases h with
    | stop => cases hs; exact Or.inl ⟨rfl, rfl⟩
    | char h1 h2 => cases hs; exact Or.inr (Or.inl ⟨h1, h2⟩)
    | item h1 h2 => subst hs; exact Or.inr (Or.inr ⟨_, h1, h2⟩)
  · rintro (⟨rfl, rfl⟩ | ⟨h1, h2⟩ | ⟨r1, h1, h2⟩)
    · exact .stop
    · exact .char h1 h2
    · exact .item h1 h2

theorem contentByte_ne (h : ContentByte b) : b ≠ ch% '<' ∧ b ≠ ch% '&' ∧ b ≠ ch% ']' := by
  obtain ⟨_, h1, h2, h3⟩ := h
  refine ⟨?_, ?_, ?_⟩ <;> rintro rfl <;> first | exact h1 rfl | exact h2 rfl | exact h3 rfl

theorem textLoop_iff {fuel : Nat} (h : Rd c p r) (hf : r.length < fuel) {u : Unit} :
    textLoop fuel p = .ok u p' ↔ ∃ r', TextBody r r' ∧ p' = go c p r' (ch% '<') := by
  induction fuel generalizing p r with
  | zero => omega
  | succ fuel ih =>
    simp only [textLoop, M.bind_apply]
    cases r with
    | nil => rw [nextChar_nil h]; simp [textBody_nil]
    | cons b r =>
      rw [nextChar_cons h]
      have h' := h.tail b.toNat
      simp only [Res.andThen_ok, M.bind_apply, M.get_apply, M.ite_apply, M.pure_apply]
      simp only [go_cur, textBody_cons]
      by_cases hc : ContentByte b
      · simp only [(isContentChar_iff _).2 hc, if_true]
        rw [ih h' (by simpa using hf)]
        have hne := contentByte_ne hc
        have hi : ∀ r1, ¬ Item (b :: r) r1 := fun r1 hi => (item_head hi).elim hne.2.1 hne.2.2
        simp [hne.1, hi, hc]
      · simp only [mt (isContentChar_iff _).1 hc, Bool.false_eq_true, if_false]
        by_cases hl : b = ch% '<'
        · simp only [eq_nat (ch% '<') hl, if_true]
          have hi : ∀ r1, ¬ Item (b :: r) r1 := fun r1 hi => by
            rw [hl] at hi; exact (item_head hi).elim (by decide) (by decide)
          simp only [hi, hc, false_and, exists_false, or_false]
          simp [hl, eq_comm]
        · simp only [ne_nat (ch% '<') hl, if_false]
          rw [Res.andThen_eq_ok]
          simp only [hl, hc, false_and, false_or]
          constructor
          · rintro ⟨_, q, h1, h2⟩
            obtain ⟨r1, hi, rfl⟩ := (handleOtherTextChar_iff h').1 h1
            have h'' : Rd c (go c (go c p r b.toNat) r1 b.toNat) r1 := h.go hi.suffix b.toNat
            have := hi.lt
            obtain ⟨r', ht, rfl⟩ := (ih h'' (by simp only [List.length_cons] at this hf; omega)).1 h2
            exact ⟨r', ⟨r1, hi, ht⟩, rfl⟩
          · rintro ⟨r', ⟨r1, hi, ht⟩, rfl⟩
            have h'' : Rd c (go c (go c p r b.toNat) r1 b.toNat) r1 := h.go hi.suffix b.toNat
            have := hi.lt
            exact ⟨(), _, (handleOtherTextChar_iff h').2 ⟨r1, hi, rfl⟩,
              (ih h'' (by simp only [List.length_cons] at this hf; omega)).2 ⟨r', ht, rfl⟩⟩

/-! ## Attribute values -/

theorem attrBody_nil {q : UInt8} : AttrBody q [] r' ↔ False := by
  constructor
  · intro h; cases h
  · exact False.elim

theorem attrBody_cons {q : UInt8} (hq : q ≠ ch% '&') : AttrBody q (b :: r) r' ↔
    (b = q ∧ r' = r) ∨ (CharByte b ∧ b ≠ ch% '<' ∧ b ≠ ch% '&' ∧ b ≠ q ∧ AttrBody q r r') ∨
      (b = ch% '&' ∧ ∃ v r1, Ref r v r1 ∧ AttrBody q r1 r') := by
  constructor
  · intro h
    generalize hs : (b :: r : List UInt8) = s at h
    cases h with
    | stop => cases hs; exact Or.inl ⟨rfl, rfl⟩
    | char h1 h2 h3 h4 h5 => cases hs; exact Or.inr (Or.inl ⟨h1, h2, h3, h4, h5⟩)
    | ref h1 h2 => cases hs; exact Or.inr (Or.inr ⟨rfl, _, _, h1, h2⟩)
  · rintro (⟨rfl, rfl⟩ | ⟨h1, h2, h3, h4, h5⟩ | ⟨rfl, v, r1, h1, h2⟩)
    · exact .stop
    · exact .char h1 h2 h3 h4 h5
    · exact .ref h1 h2

theorem _root_.GoVtd.Grammar.Ref.less {v : Nat} (h : Ref r v r') : r'.length < r.length := by
  cases h with
  | hex h _ => have := h.suffix.length_le; simp; omega
  | dec h _ => have := h.suffix.length_le; simp; omega
  | _ => simp; omega

theorem attrValLoop_iff {fuel : Nat} {q : UInt8} (hq : q = ch% '"' ∨ q = ch% '\'') (h : Rd c p r)
    (hf : r.length < fuel) {u : Unit} :
    attrValLoop q.toNat fuel p = .ok u p' ↔ ∃ r', AttrBody q r r' ∧ p' = go c p r' q.toNat := by
  have hq1 : q ≠ ch% '&' := by rintro rfl; exact absurd hq (by decide)
  have hq2 : q ≠ ch% '<' := by rintro rfl; exact absurd hq (by decide)
  have hq3 : CharByte q := by rcases hq with rfl | rfl <;> (simp [Spec.Char11])
  induction fuel generalizing p r with
  | zero => omega
  | succ fuel ih =>
    simp only [attrValLoop, M.bind_apply]
    cases r with
    | nil => rw [nextChar_nil h]; simp [attrBody_nil]
    | cons b r =>
      rw [nextChar_cons h]
      have h' := h.tail b.toNat
      simp only [Res.andThen_ok, M.bind_apply, M.get_apply, M.ite_apply, M.pure_apply]
      simp only [go_cur, attrBody_cons hq1]
      by_cases hc : CharByte b ∧ b ≠ ch% '<'
      · simp only [(isValidChar_iff _).2 hc.1, ne_nat (ch% '<') hc.2, ne_eq, not_false_eq_true, and_self, if_true]
        by_cases hbq : b = q
        · subst hbq
          simp only [if_true]
          simp [hq1, eq_comm]
        · simp only [mt UInt8.toNat_inj.1 hbq, if_false]
          by_cases ha : b = ch% '&'
          · simp only [eq_nat (ch% '&') ha, if_true]
            rw [eq_nat (ch% '&') ha] at h'
            rw [Res.andThen_eq_ok]
            simp only [ha, hbq, ne_eq, not_true_eq_false, false_and, and_false, false_or, true_and]
            constructor
            · rintro ⟨v, s, h1, h2⟩
              obtain ⟨r1, hr, rfl⟩ := (entityIdentifier_iff h').1 h1
              simp only [(isValidChar_iff _).2 hr.char11, if_true] at h2
              have h'' : Rd c (go c (go c p r (ch% '&')) r1 (ch% '&')) r1 := h'.go hr.suffix (ch% '&')
              have := hr.less
              obtain ⟨r', ht, rfl⟩ := (ih h'' (by simp only [List.length_cons] at hf; omega)).1 h2
              exact ⟨r', Or.inr ⟨v, r1, hr, ht⟩, rfl⟩
            · rintro ⟨r', hh, rfl⟩
              rcases hh with ⟨hh, _⟩ | ⟨v, r1, hr, ht⟩
              · exact absurd (ha.trans hh) hbq
              have h'' : Rd c (go c (go c p r (ch% '&')) r1 (ch% '&')) r1 := h'.go hr.suffix (ch% '&')
              have := hr.less
              refine ⟨v, _, (entityIdentifier_iff h').2 ⟨r1, hr, rfl⟩, ?_⟩
              simp only [(isValidChar_iff _).2 hr.char11, if_true]
              exact (ih h'' (by simp only [List.length_cons] at hf; omega)).2 ⟨r', ht, rfl⟩
          · simp only [ne_nat (ch% '&') ha, if_false]
            refine (ih h' (by simpa using hf)).trans ?_
            simp [ha, hbq, hc.1, hc.2]
      · have hn : ¬ (isValidChar b.toNat = true ∧ b.toNat ≠ ch% '<') :=
          fun hh => hc ⟨(isValidChar_iff _).1 hh.1, fun hb => hh.2 (eq_nat (ch% '<') hb)⟩
        simp only [hn, if_false, parseErr_ne_ok, false_iff]
        rintro ⟨r', (⟨rfl, _⟩ | ⟨h1, h2, _⟩ | ⟨rfl, _⟩), _⟩
        · exact hc ⟨hq3, hq2⟩
        · exact hc ⟨h1, h2⟩
        · exact hc (by simp [Spec.Char11])

/-! ## Comments and processing instructions -/

theorem commentBody_nil : CommentBody [] r' ↔ False := by
  constructor
  · intro h; cases h
  · exact False.elim

theorem commentBody_cons : CommentBody (b :: r) r' ↔
    (b = ch% '-' ∧ r = ch% '-' :: r') ∨
      (CharByte b ∧ (b = ch% '-' → r.head? ≠ some (ch% '-')) ∧ CommentBody r r') := by
  constructor
  · intro h
    generalize hs : (b :: r : List UInt8) = s at h
    cases h with
    | stop => cases hs; exact Or.inl ⟨rfl, rfl⟩
    | char h1 h2 h3 => cases hs; exact Or.inr ⟨h1, h2, h3⟩
  · rintro (⟨rfl, rfl⟩ | ⟨h1, h2, h3⟩)
    · exact .stop
    · exact .char h1 h2 h3

theorem commentLoop_iff {fuel : Nat} (h : Rd c p r) (hf : r.length < fuel) {u : Unit} :
    commentLoop fuel p = .ok u p' ↔ ∃ r', CommentBody r r' ∧
      p' = { go c p r' (ch% '-') with length1 := pos c r' - p.lastOffset - 2 } := by
  induction fuel generalizing p r with
  | zero => omega
  | succ fuel ih =>
    simp only [commentLoop, M.bind_apply]
    cases r with
    | nil => rw [nextChar_nil h]; simp [commentBody_nil]
    | cons b r =>
      rw [nextChar_cons h]
      have h' := h.tail b.toNat
      simp only [Res.andThen_ok, M.bind_apply, M.get_apply, M.ite_apply, M.and_apply, M.pure_apply]
      simp only [go_cur, commentBody_cons]
      by_cases hc : CharByte b
      · simp only [(isValidChar_iff _).2 hc, if_true]
        by_cases hd : b = ch% '-'
        · simp only [eq_nat (ch% '-') hd, decide_true, if_true]
          cases r with
          | nil => rw [skipChar_nil (by rw [eq_nat (ch% '-') hd] at h'; exact h')]; simp [commentBody_nil]
          | cons x r =>
            rw [eq_nat (ch% '-') hd] at h'
            rw [skipChar_cons h']
            by_cases hx : x = ch% '-'
            · rw [if_pos (eq_nat (ch% '-') hx).symm]
              simp only [Res.andThen_ok, if_true, M.modify_apply, hd, hx, true_and, List.cons.injEq,
                List.head?_cons, ne_eq, not_true_eq_false, forall_const, false_and, and_false, or_false]
              constructor
              · intro hh
                refine ⟨r, rfl, ?_⟩
                cases hh
                have hi := h.toBase.inc
                simp only [go_enc, hi]
                rfl
              · rintro ⟨_, rfl, rfl⟩
                have hi := h.toBase.inc
                simp only [go_enc, hi]
                rfl
            · rw [if_neg (Ne.symm (ne_nat (ch% '-') hx))]
              simp only [Res.andThen_ok, Bool.false_eq_true, if_false]
              have h2 : Rd c (go c p (x :: r) (ch% '-')) (x :: r) := h'
              refine (ih h2 (by simpa using hf)).trans ?_
              simp [hd, hx, Spec.Char11]
        · simp only [ne_nat (ch% '-') hd, decide_false, Bool.false_eq_true, if_false, M.pure_apply,
            Res.andThen_ok]
          refine (ih h' (by simpa using hf)).trans ?_
          simp [hd, hc]
      · simp only [mt (isValidChar_iff _).1 hc, if_false, Bool.false_eq_true, parseErr_ne_ok, false_iff]
        rintro ⟨r', (⟨rfl, _⟩ | ⟨h1, _⟩), _⟩
        · exact hc (by simp [Spec.Char11])
        · exact hc h1

theorem piBody_nil : PiBody [] r' ↔ False := by
  constructor
  · intro h; cases h
  · exact False.elim

theorem piBody_cons : PiBody (b :: r) r' ↔
    (b = ch% '?' ∧ r = ch% '>' :: r') ∨
      (CharByte b ∧ (b = ch% '?' → r.head? ≠ some (ch% '>')) ∧ PiBody r r') := by
  constructor
  · intro h
    generalize hs : (b :: r : List UInt8) = s at h
    cases h with
    | stop => cases hs; exact Or.inl ⟨rfl, rfl⟩
    | char h1 h2 h3 => cases hs; exact Or.inr ⟨h1, h2, h3⟩
  · rintro (⟨rfl, rfl⟩ | ⟨h1, h2, h3⟩)
    · exact .stop
    · exact .char h1 h2 h3

theorem piValLoop_iff {fuel : Nat} (h : Rd c p r) (hf : r.length < fuel) {u : Unit} :
    piValLoop fuel p = .ok u p' ↔ ∃ r', PiBody r r' ∧ p' = go c p r' (ch% '?') := by
  induction fuel generalizing p r with
  | zero => omega
  | succ fuel ih =>
    simp only [piValLoop, M.bind_apply]
    cases r with
    | nil => rw [nextChar_nil h]; simp [piBody_nil]
    | cons b r =>
      rw [nextChar_cons h]
      have h' := h.tail b.toNat
      simp only [Res.andThen_ok, M.bind_apply, M.get_apply, M.ite_apply, M.and_apply, M.pure_apply]
      simp only [go_cur, piBody_cons]
      by_cases hc : CharByte b
      · simp only [(isValidChar_iff _).2 hc, if_true]
        by_cases hd : b = ch% '?'
        · simp only [eq_nat (ch% '?') hd, decide_true, if_true]
          rw [eq_nat (ch% '?') hd] at h'
          cases r with
          | nil => rw [skipChar_nil h']; simp [piBody_nil]
          | cons x r =>
            rw [skipChar_cons h']
            by_cases hx : x = ch% '>'
            · rw [if_pos (eq_nat (ch% '>') hx).symm]
              simp only [Res.andThen_ok, if_true, M.pure_apply, hd, hx, true_and, List.cons.injEq,
                List.head?_cons, ne_eq, not_true_eq_false, forall_const, false_and, and_false, or_false]
              constructor
              · intro hh
                cases hh
                exact ⟨r, rfl, rfl⟩
              · rintro ⟨_, rfl, rfl⟩
                rfl
            · rw [if_neg (Ne.symm (ne_nat (ch% '>') hx))]
              simp only [Res.andThen_ok, Bool.false_eq_true, if_false]
              refine (ih h' (by simpa using hf)).trans ?_
              simp [hd, hx, Spec.Char11]
        · simp only [ne_nat (ch% '?') hd, decide_false, Bool.false_eq_true, if_false, M.pure_apply,
            Res.andThen_ok]
          refine (ih h' (by simpa using hf)).trans ?_
          simp [hd, hc]
      · simp only [mt (isValidChar_iff _).1 hc, if_false, Bool.false_eq_true, parseErr_ne_ok, false_iff]
        rintro ⟨r', (⟨rfl, _⟩ | ⟨h1, _⟩), _⟩
        · exact hc (by simp [Spec.Char11])
        · exact hc h1

/-- The loop of `processPiEnd`, which starts with the current character. -/
theorem piEndValLoop_iff {fuel : Nat} (h : Rd c p r) (hb : p.currentChar = b.toNat)
    (hf : r.length + 1 < fuel) {u : Unit} :
    piEndValLoop fuel p = .ok u p' ↔ ∃ r', PiBody (b :: r) r' ∧ p' = go c p r' (ch% '?') := by
  induction fuel generalizing p r b with
  | zero => omega
  | succ fuel ih =>
    simp only [piEndValLoop, M.bind_apply, M.get_apply, Res.andThen_ok, M.ite_apply, M.and_apply, M.pure_apply, hb,
      piBody_cons]
    by_cases hc : CharByte b
    · simp only [(isValidChar_iff _).2 hc, if_true]
      by_cases hd : b = ch% '?'
      · simp only [eq_nat (ch% '?') hd, decide_true, if_true]
        rw [eq_nat (ch% '?') hd] at hb
        cases r with
        | nil => rw [skipChar_nil h]; simp [piBody_nil]
        | cons x r =>
          rw [skipChar_cons h, hb]
          by_cases hx : x = ch% '>'
          · rw [if_pos (eq_nat (ch% '>') hx).symm]
            simp only [Res.andThen_ok, if_true, M.pure_apply, hd, hx, true_and, List.cons.injEq,
              List.head?_cons, ne_eq, not_true_eq_false, forall_const, false_and, and_false, or_false]
            constructor
            · intro hh
              cases hh
              exact ⟨r, rfl, rfl⟩
            · rintro ⟨_, rfl, rfl⟩
              rfl
          · rw [if_neg (Ne.symm (ne_nat (ch% '>') hx))]
            simp only [Res.andThen_ok, Bool.false_eq_true, if_false, M.bind_apply]
            have h' : Rd c (go c p (x :: r) (ch% '?')) (x :: r) := h.go (List.suffix_refl _) _
            rw [nextChar_cons h', Res.andThen_ok]
            refine (ih (b := x) (h'.tail _) rfl (by simpa using hf)).trans ?_
            simp [hd, hx, Spec.Char11]
      · simp only [ne_nat (ch% '?') hd, decide_false, Bool.false_eq_true, if_false, M.pure_apply,
          Res.andThen_ok, M.bind_apply]
        rw [show (M.pure false p : Res Parser Bool) = .ok false p from rfl]
        simp only [Res.andThen_ok, Bool.false_eq_true, if_false, M.bind_apply]
        cases r with
        | nil => rw [nextChar_nil h]; simp [hd, piBody_nil]
        | cons x r =>
          rw [nextChar_cons h, Res.andThen_ok]
          refine (ih (b := x) (h.tail _) rfl (by simpa using hf)).trans ?_
          simp [hd, hc]
    · simp only [mt (isValidChar_iff _).1 hc, if_false, Bool.false_eq_true, parseErr_ne_ok, false_iff]
      rintro ⟨r', (⟨rfl, _⟩ | ⟨h1, _⟩), _⟩
      · exact hc (by simp [Spec.Char11])
      · exact hc h1

/-! ## CDATA sections and `DOCTYPE` -/

theorem cdataBody_nil : CdataBody [] r' ↔ False := by
  constructor
  · intro h; cases h
  · exact False.elim

theorem cdataBody_cons (hb : b ≠ ch% ']') : CdataBody (b :: r) r' ↔ CharByte b ∧ CdataBody r r' := by
  constructor
  · intro h
    generalize hs : (b :: r : List UInt8) = s at h
    cases h with
    | stop => cases hs; exact absurd rfl hb
    | char h1 h2 h3 => cases hs; exact ⟨h1, h3⟩
    | brackets => cases hs; exact absurd rfl hb
  · rintro ⟨h1, h2⟩
    exact .char h1 hb h2

theorem cdataBody_bracket {s : List UInt8} : CdataBody (ch% ']' :: s) r' ↔
    ∃ k b r, s = List.replicate k (ch% ']') ++ b :: r ∧ b ≠ ch% ']' ∧
      ((b = ch% '>' ∧ r' = r) ∨ (b ≠ ch% '>' ∧ CdataBody (b :: r) r')) := by
  constructor
  · intro h
    generalize hs : (ch% ']' :: s : List UInt8) = t at h
    cases h with
    | stop => cases hs; exact ⟨_, _, _, rfl, by decide, Or.inl ⟨rfl, rfl⟩⟩
    | char h1 h2 h3 => cases hs; exact absurd rfl h2
    | brackets h1 h2 h3 => cases hs; exact ⟨_, _, _, rfl, h1, Or.inr ⟨h2, h3⟩⟩
  · rintro ⟨k, b, r, rfl, h1, (⟨rfl, rfl⟩ | ⟨h2, h3⟩)⟩
    · exact .stop
    · exact .brackets h1 h2 h3

theorem cdataLoop_iff {fuel : Nat} (h : Rd c p r) (hf : r.length < fuel) {u : Unit} :
    cdataLoop fuel p = .ok u p' ↔ ∃ r', CdataBody r r' ∧ p' = go c p r' (ch% ']') := by
  induction fuel generalizing p r with
  | zero => omega
  | succ fuel ih =>
    simp only [cdataLoop, M.bind_apply]
    cases r with
    | nil => rw [nextChar_nil h]; simp [cdataBody_nil]
    | cons b r =>
      rw [nextChar_cons h]
      have h' := h.tail b.toNat
      simp only [Res.andThen_ok, M.bind_apply, M.get_apply, M.ite_apply, M.pure_apply]
      simp only [go_cur]
      by_cases hc : CharByte b
      · simp only [(isValidChar_iff _).2 hc, if_true]
        by_cases hd : b = ch% ']'
        · simp only [eq_nat (ch% ']') hd, if_true]
          rw [eq_nat (ch% ']') hd] at h'
          subst hd
          rw [Res.andThen_eq_ok]
          simp only [cdataBody_bracket]
          constructor
          · rintro ⟨_, q, h1, h2⟩
            obtain ⟨k, b, r', rfl, hb, rfl⟩ := (skipBrackets_iff h' (h'.fuel h.cfg)).1 h1
            have h3 := h'.go (suffix_brackets (k := k) (b := b) (r := r')) (ch% ']')
            rw [M.bind_apply] at h2
            erw [skipChar_cons h3] at h2
            by_cases hx : b = ch% '>'
            · rw [if_pos (eq_nat (ch% '>') hx).symm] at h2
              cases h2
              exact ⟨r', ⟨k, b, r', rfl, hb, Or.inl ⟨hx, rfl⟩⟩, rfl⟩
            · rw [if_neg (Ne.symm (ne_nat (ch% '>') hx))] at h2
              obtain ⟨r2, h4, h5⟩ := (ih h3 (by simp at hf ⊢; omega)).1 h2
              exact ⟨r2, ⟨k, b, r', rfl, hb, Or.inr ⟨hx, h4⟩⟩, h5⟩
          · rintro ⟨r', ⟨k, b, r, rfl, hb, hh⟩, rfl⟩
            have h3 := h'.go (suffix_brackets (k := k) (b := b) (r := r)) (ch% ']')
            refine ⟨(), _, (skipBrackets_iff h' (h'.fuel h.cfg)).2 ⟨k, b, r, rfl, hb, rfl⟩, ?_⟩
            rw [M.bind_apply]
            erw [skipChar_cons h3]
            rcases hh with ⟨hx, rfl⟩ | ⟨hx, h4⟩
            · rw [if_pos (eq_nat (ch% '>') hx).symm]
              rfl
            · rw [if_neg (Ne.symm (ne_nat (ch% '>') hx))]
              exact (ih h3 (by simp at hf ⊢; omega)).2 ⟨r', h4, rfl⟩
        · simp only [ne_nat (ch% ']') hd, if_false]
          refine (ih h' (by simpa using hf)).trans ?_
          simp [cdataBody_cons hd, hc]
      · simp only [mt (isValidChar_iff _).1 hc, if_false, Bool.false_eq_true, parseErr_ne_ok, false_iff]
        have hd : b ≠ ch% ']' := by rintro rfl; exact hc (by simp [Spec.Char11])
        rintro ⟨r', h1, _⟩
        exact hc ((cdataBody_cons hd).1 h1).1

theorem dtdBody_nil {z : Nat} : DtdBody z [] r' ↔ False := by
  constructor
  · intro h; cases h
  · exact False.elim

theorem dtdBody_cons {z : Nat} : DtdBody (z + 1) (b :: r) r' ↔
    (b = ch% '>' ∧ z = 0 ∧ r' = r) ∨ (b = ch% '>' ∧ 0 < z ∧ DtdBody z r r') ∨
    (b = ch% '<' ∧ DtdBody (z + 2) r r') ∨
    (CharByte b ∧ b ≠ ch% '<' ∧ b ≠ ch% '>' ∧ DtdBody (z + 1) r r') := by
  constructor
  · intro h
    generalize hs : (b :: r : List UInt8) = s at h
    generalize hz : z + 1 = y at h
    cases h with
    | stop => cases hs; exact Or.inl ⟨rfl, by omega, rfl⟩
    | @close z' _ _ h =>
      cases hs
      exact Or.inr (Or.inl ⟨rfl, by omega, by rw [show z = z' + 1 by omega]; exact h⟩)
    | opening h => cases hs; subst hz; exact Or.inr (Or.inr (Or.inl ⟨rfl, h⟩))
    | char h1 h2 h3 h4 => cases hs; subst hz; exact Or.inr (Or.inr (Or.inr ⟨h1, h2, h3, h4⟩))
  · rintro (⟨rfl, rfl, rfl⟩ | ⟨rfl, h1, h2⟩ | ⟨rfl, h1⟩ | ⟨h1, h2, h3, h4⟩)
    · exact .stop
    · obtain ⟨y, rfl⟩ : ∃ y, z = y + 1 := ⟨z - 1, by omega⟩
      exact .close h2
    · exact .opening h1
    · exact .char h1 h2 h3 h4

theorem docTypeLoop_iff {fuel z : Nat} (h : Rd c p r) (hf : r.length < fuel) {u : Unit} :
    docTypeLoop fuel (z + 1 : Nat) p = .ok u p' ↔
      ∃ r', DtdBody (z + 1) r r' ∧ p' = go c p r' p.currentChar := by
  induction fuel generalizing p r z with
  | zero => omega
  | succ fuel ih =>
    simp only [docTypeLoop, M.bind_apply]
    cases r with
    | nil => rw [getChar_nil h]; simp [dtdBody_nil]
    | cons b r =>
      rw [getChar_cons h]
      have h' := h.tail p.currentChar
      simp only [Res.andThen_ok, M.ite_apply]
      by_cases hc : CharByte b
      · simp only [(isValidChar_iff _).2 hc, if_true, dtdBody_cons]
        by_cases hg : b = ch% '>'
        · simp only [eq_nat (ch% '>') hg, if_true]
          by_cases hz : z = 0
          · rw [if_pos (by omega)]
            subst hz hg
            simp [eq_comm]
          · rw [if_neg (by omega)]
            obtain ⟨y, rfl⟩ : ∃ y, z = y + 1 := ⟨z - 1, by omega⟩
            rw [show (((y + 1 + 1 : Nat) : Int) - 1) = ((y + 1 : Nat) : Int) by omega]
            refine (ih h' (by simpa using hf)).trans ?_
            simp [hg]
        · simp only [ne_nat (ch% '>') hg, if_false]
          by_cases hl : b = ch% '<'
          · simp only [eq_nat (ch% '<') hl, if_true]
            rw [if_neg (by omega), show (((z + 1 : Nat) : Int) + 1) = ((z + 1 + 1 : Nat) : Int) by omega]
            refine (ih h' (by simpa using hf)).trans ?_
            simp [hl]
          · simp only [ne_nat (ch% '<') hl, if_false]
            rw [if_neg (by omega)]
            refine (ih h' (by simpa using hf)).trans ?_
            simp [hl, hg, hc]
      · simp only [mt (isValidChar_iff _).1 hc, if_false, Bool.false_eq_true, parseErr_ne_ok, false_iff]
        rintro ⟨r', hh, _⟩
        rcases dtdBody_cons.1 hh with ⟨rfl, _⟩ | ⟨rfl, _⟩ | ⟨rfl, _⟩ | ⟨h1, _⟩
        · exact hc (by simp [Spec.Char11])
        · exact hc (by simp [Spec.Char11])
        · exact hc (by simp [Spec.Char11])
        · exact hc h1

end
end Parser
end GoVtd
