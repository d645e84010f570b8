import Verif.Spec.Markup
import Verif.Proofs.Parser.Fits
import Verif.Proofs.Parser.Writes

/-!
# From the grammar to the texts that records point at
-/

namespace GoVtd.Markup
open Grammar
open Tree (HasPair pair_cons)

theorem hex_split {a v : Nat} {r r' : List UInt8} (h : HexDigits a r v r') : ∃ t, r = t ++ r' ∧ HexDigits a t v [] := by
  induction h with
  | @stop v r => exact ⟨[ch% ';'], rfl, .stop⟩
  | @digit v b d r v' r' h _ ih => obtain ⟨t, rfl, h'⟩ := ih; exact ⟨b :: t, rfl, .digit h h'⟩

theorem dec_split {a v : Nat} {r r' : List UInt8} (h : DecDigits a r v r') : ∃ t, r = t ++ r' ∧ DecDigits a t v [] := by
  induction h with
  | @stop v r => exact ⟨[ch% ';'], rfl, .stop⟩
  | @digit v b r v' r' h1 h2 _ ih => obtain ⟨t, rfl, h'⟩ := ih; exact ⟨b :: t, rfl, .digit h1 h2 h'⟩

theorem ref_split {v : Nat} {r r' : List UInt8} (h : Ref r v r') : ∃ t, r = t ++ r' ∧ Ref t v [] := by
  cases h with
  | hex h hc => obtain ⟨t, rfl, h'⟩ := hex_split h; exact ⟨_ :: _ :: t, rfl, .hex h' hc⟩
  | dec h hc => obtain ⟨t, rfl, h'⟩ := dec_split h; exact ⟨_ :: t, rfl, .dec h' hc⟩
  | amp => exact ⟨_, rfl, by simpa using Ref.amp (r := [])⟩
  | apos => exact ⟨_, rfl, by simpa using Ref.apos (r := [])⟩
  | quot => exact ⟨_, rfl, by simpa using Ref.quot (r := [])⟩
  | gt => exact ⟨_, rfl, by simpa using Ref.gt (r := [])⟩
  | lt => exact ⟨_, rfl, by simpa using Ref.lt (r := [])⟩

theorem value_of {q : UInt8} {s r : List UInt8} (h : AttrBody q s r) : ∃ t, s = t ++ q :: r ∧ Value q t := by
  induction h with
  | stop => exact ⟨[], rfl, .nil⟩
  | @char b s r h1 h2 h3 h4 _ ih => obtain ⟨t, rfl, h'⟩ := ih; exact ⟨b :: t, rfl, .char h1 h2 h3 h4 h'⟩
  | ref h _ ih =>
    obtain ⟨t, rfl, h'⟩ := ih
    obtain ⟨u, rfl, hu⟩ := ref_split h
    exact ⟨(ch% '&' :: u) ++ t, by simp, .ref ⟨u, _, rfl, hu⟩ h'⟩

theorem bracket_char : CharByte (ch% ']') := by
  simp only [Spec.Char11]; decide

theorem text_of {s r : List UInt8} (h : TextBody s r) : ∃ t, s = t ++ ch% '<' :: r ∧ Text t := by
  induction h with
  | stop => exact ⟨[], rfl, .nil⟩
  | @char b s r h1 _ ih =>
    obtain ⟨t, rfl, h'⟩ := ih
    obtain ⟨c1, c2, c3, c4⟩ : _ ∧ _ := h1
    exact ⟨b :: t, rfl, .char c1 (fun h => c2 (by rw [h]; rfl)) (fun h => c3 (by rw [h]; rfl))
      (fun h => absurd (by rw [h]; rfl) c4) h'⟩
  | item h _ ih =>
    obtain ⟨t, ht, h'⟩ := ih
    cases h with
    | ref h =>
      obtain ⟨u, rfl, hu⟩ := ref_split h
      exact ⟨(ch% '&' :: u) ++ t, by rw [ht]; simp, .ref ⟨u, _, rfl, hu⟩ h'⟩
    | @brackets k b r h1 h2 =>
      have hd : t.head? ≠ some (ch% '>') := by
        intro h
        cases t with
        | nil => cases h
        | cons x t => rw [List.cons_append] at ht; cases ht; exact h2 (Option.some.inj h)
      have : ∀ k, Text (List.replicate k (ch% ']') ++ t) ∧ (List.replicate k (ch% ']') ++ t).head? ≠ some (ch% '>') := by
        intro k
        induction k with
        | zero => exact ⟨h', hd⟩
        | succ k ih =>
          refine ⟨.char bracket_char (by decide) (by decide) (fun _ => ih.2) ih.1, ?_⟩
          simp [List.replicate_succ]
      exact ⟨List.replicate (k + 1) (ch% ']') ++ t, by rw [ht]; simp [List.replicate_succ], (this (k + 1)).1⟩

theorem comment_of {s r : List UInt8} (h : CommentBody s r) : ∃ t, s = t ++ (str% "--" ++ r) ∧ (∀ b ∈ t, CharByte b) ∧
    ¬ HasPair (ch% '-') (ch% '-') (t ++ [ch% '-']) := by
  induction h with
  | stop => exact ⟨[], rfl, by simp, fun h => absurd h.length_le (by simp)⟩
  | @char b s r h1 h2 _ ih =>
    obtain ⟨t, rfl, h3, h4⟩ := ih
    refine ⟨b :: t, rfl, ?_, ?_⟩
    · intro x hx
      rcases List.mem_cons.1 hx with rfl | hx
      · exact h1
      · exact h3 x hx
    · rw [List.cons_append, pair_cons]
      rintro (⟨e1, e2⟩ | e)
      · apply h2 e1
        cases t <;> simpa using e2
      · exact h4 e

theorem cdata_of {s r : List UInt8} (h : CdataBody s r) : ∃ t, s = t ++ (str% "]>" ++ r) ∧ (∀ b ∈ t, CharByte b) ∧
    ¬ HasPair (ch% ']') (ch% '>') (t ++ [ch% ']']) := by
  have brk : ∀ (k : Nat) (t : List UInt8), t.head? ≠ some (ch% '>') → (∀ b ∈ t, CharByte b) →
      ¬ HasPair (ch% ']') (ch% '>') (t ++ [ch% ']']) →
      (∀ b ∈ List.replicate k (ch% ']') ++ t, CharByte b) ∧
      ¬ HasPair (ch% ']') (ch% '>') (List.replicate k (ch% ']') ++ t ++ [ch% ']']) := by
    intro k t h0 h1 h2
    refine ⟨fun b hb => ?_, ?_⟩
    · rcases List.mem_append.1 hb with hb | hb
      · rw [(List.mem_replicate.1 hb).2]; exact bracket_char
      · exact h1 b hb
    · induction k with
      | zero => exact h2
      | succ k ih =>
        rw [List.replicate_succ, List.cons_append, List.cons_append, pair_cons]
        rintro (⟨-, e⟩ | e)
        · cases k with
          | zero =>
            cases t with
            | nil => simp at e
            | cons x t => exact h0 (by simpa using e)
          | succ k => simp [List.replicate_succ] at e
        · exact ih e
  induction h with
  | @stop k r =>
    obtain ⟨h1, h2⟩ := brk k [] (by simp) (by simp) (fun h => absurd h.length_le (by simp))
    refine ⟨List.replicate k (ch% ']'), ?_, by simpa using h1, by simpa using h2⟩
    rw [← List.cons_append, ← List.replicate_succ, List.replicate_succ']
    simp
  | @char b s r h1 h2 _ ih =>
    obtain ⟨t, rfl, h3, h4⟩ := ih
    refine ⟨b :: t, rfl, ?_, ?_⟩
    · intro x hx
      rcases List.mem_cons.1 hx with rfl | hx
      · exact h1
      · exact h3 x hx
    · rw [List.cons_append, pair_cons]
      rintro (⟨e1, -⟩ | e)
      · exact h2 e1
      · exact h4 e
  | @brackets k b s r h1 h2 _ ih =>
    obtain ⟨t, ht, h3, h4⟩ := ih
    have h0 : t.head? ≠ some (ch% '>') := by
      intro h
      cases t with
      | nil => cases h
      | cons x t => rw [List.cons_append] at ht; cases ht; exact h2 (Option.some.inj h)
    obtain ⟨e1, e2⟩ := brk (k + 1) t h0 h3 h4
    exact ⟨List.replicate (k + 1) (ch% ']') ++ t, by rw [ht]; simp [List.replicate_succ], e1, e2⟩

end GoVtd.Markup
