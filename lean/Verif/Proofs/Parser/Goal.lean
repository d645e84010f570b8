import Verif.Proofs.Parser.AttrWp

/-!
# Inversion of the grammar

What each nonterminal of the grammar derives, in the shape in which the parser steps read it.
-/

namespace GoVtd
namespace Parser

open Grammar Spec

section
variable {c : ParserCfg} {o0 o : ParserOut} {r : List UInt8} {st : List (List UInt8)}

/-- The rest `r` of the document is derived from `nt`, and the output after it is `o` if it was `o0` before. -/
def Goal (c : ParserCfg) (nt : NT) (r : List UInt8) (o0 o : ParserOut) : Prop :=
  ∃ recs, G c.xmlDoc.length nt r recs ∧ o = finish c.shallowDepth (emit c.shallowDepth o0 recs)

theorem Goal.mk {nt : NT} {recs : List Rec} (h : G c.xmlDoc.length nt r recs)
    (ho : o = finish c.shallowDepth (emit c.shallowDepth o0 recs)) : Goal c nt r o0 o := ⟨recs, h, ho⟩

/-! ### After `<` -/

theorem goal_lt {pre : List UInt8} : Goal c (.lt pre st) r o0 o ↔ ∃ b s, r = b :: s ∧
    ((StartByte b ∧ ∃ run x r1, s = run ++ x :: r1 ∧ AllName run ∧ ¬ NameByte x ∧ st.length ≤ 254 ∧
        lastColon (pre.length + 1) 0 run ≤ 511 ∧ (pre ++ b :: run).length ≤ 2047 ∧
        ∃ recs e r', TagRest c.xmlDoc.length st.length [] (x :: r1) recs e r' ∧
          Goal c (if e then next .other st else .content .start ((pre ++ b :: run) :: st)) r'
            (emit c.shallowDepth (emit c.shallowDepth o0 [⟨.startingTag, pos c (pre ++ b :: s),
              ((lastColon (pre.length + 1) 0 run <<< 1 ||| (pre ++ b :: run).length : Nat) : Int), st.length⟩]) recs) o) ∨
     (b = ch% '/' ∧ Goal c (.close st) s o0 o) ∨
     (b = ch% '!' ∧ ((∃ r0 r1, s = str% "--" ++ r0 ∧ CommentBody r0 (ch% '>' :: r1) ∧
          Goal c (.content .other st) r1 (emit c.shallowDepth o0
            (textRecs .comment (pos c r0) (r0.length - (r1.length + 3)) (st.length - 1))) o) ∨
        (st ≠ [] ∧ ∃ r0 r1, s = str% "[CDATA[" ++ r0 ∧ CdataBody r0 r1 ∧
          Goal c (.content .other st) r1 (emit c.shallowDepth o0
            (textRecs .cdataVal (pos c r0) (r0.length - (r1.length + 3)) (st.length - 1))) o) ∨
        (st ≠ [] ∧ ∃ r0 r1, s = str% "DDOCTYPE" ++ r0 ∧ DtdBody 1 r0 r1 ∧ r0.length - (r1.length + 1) ≤ maxLen ∧
          ∃ w r2, r1 = w ++ ch% '<' :: r2 ∧ AllWs w ∧
          Goal c (.lt [] st) r2 (emit c.shallowDepth o0
            [⟨.dtdVal, pos c r0, r0.length - (r1.length + 1), st.length - 1⟩]) o))) ∨
     (b = ch% '?' ∧ ∃ recs r1, Pi c.xmlDoc.length (st.length - 1) s recs r1 ∧
        Goal c (.content .other st) r1 (emit c.shallowDepth o0 recs) o)) := by
  constructor
  · rintro ⟨recs, h, rfl⟩
    cases h with
    | start h1 h2 h3 h4 h5 h6 h7 h8 =>
      exact ⟨_, _, rfl, Or.inl ⟨h1, _, _, _, rfl, h2, h3, h4, h5, h6, _, _, _, h7, .mk h8 (by
        simp only [emit_cons, emit_append, emit_nil]; rfl)⟩⟩
    | endTag h => exact ⟨_, _, rfl, Or.inr (Or.inl ⟨rfl, .mk h rfl⟩)⟩
    | comment h1 h2 =>
      exact ⟨_, _, rfl, Or.inr (Or.inr (Or.inl ⟨rfl, Or.inl ⟨_, _, rfl, h1, .mk h2 (by rw [emit_append]; rfl)⟩⟩))⟩
    | cdata h0 h1 h2 =>
      exact ⟨_, _, rfl, Or.inr (Or.inr (Or.inl ⟨rfl, Or.inr (Or.inl ⟨h0, _, _, rfl, h1,
        .mk h2 (by rw [emit_append]; rfl)⟩)⟩))⟩
    | doctype h0 h1 h2 h3 h4 h5 =>
      exact ⟨_, _, rfl, Or.inr (Or.inr (Or.inl ⟨rfl, Or.inr (Or.inr ⟨h0, _, _, rfl, h1, h2, _, _, h4, h3,
        .mk h5 rfl⟩)⟩))⟩
    | pi h1 h2 =>
      exact ⟨_, _, rfl, Or.inr (Or.inr (Or.inr ⟨rfl, _, _, h1, .mk h2 (by rw [emit_append])⟩))⟩
  · rintro ⟨b, s, rfl, ⟨h1, run, x, r1, rfl, h2, h3, h4, h5, h6, recs, e, r', h7, recs', h8, rfl⟩ |
      ⟨rfl, recs, h, rfl⟩ | ⟨rfl, ⟨r0, r1, rfl, h1, recs, h2, rfl⟩ | ⟨h0, r0, r1, rfl, h1, recs, h2, rfl⟩ |
        ⟨h0, r0, r1, rfl, h1, h2, w, r2, h4, h3, recs, h5, rfl⟩⟩ | ⟨rfl, recs, r1, h1, recs', h2, rfl⟩⟩
    · exact .mk (.start h1 h2 h3 h4 h5 h6 h7 h8) (by simp only [emit_cons, emit_append, emit_nil]; rfl)
    · exact .mk (.endTag h) rfl
    · exact .mk (.comment h1 h2) (by rw [emit_append]; rfl)
    · exact .mk (.cdata h0 h1 h2) (by rw [emit_append]; rfl)
    · exact .mk (.doctype h0 h1 h2 h3 h4 h5) rfl
    · exact .mk (.pi h1 h2) (by rw [emit_append])

/-! ### After `</` -/

theorem goal_close_nil : ¬ Goal c (.close []) r o0 o := by
  rintro ⟨recs, h, _⟩; cases h

theorem goal_close {name : List UInt8} : Goal c (.close (name :: st)) r o0 o ↔
    ∃ w r1, r = name ++ w ++ ch% '>' :: r1 ∧ AllWs w ∧ Goal c (next .end st) r1 o0 o := by
  constructor
  · rintro ⟨recs, h, rfl⟩
    cases h with
    | close h1 h2 => exact ⟨_, _, rfl, h1, .mk h2 rfl⟩
  · rintro ⟨w, r1, rfl, h1, recs, h2, rfl⟩
    exact .mk (.close h1 h2) rfl

/-! ### After markup -/

theorem item_cons {r' : List UInt8} (h : Item r r') : ∃ b s, r = b :: s ∧ ¬ Ws b ∧ b ≠ ch% '<' ∧ ¬ ContentByte b := by
  obtain ⟨b, s, rfl⟩ : ∃ b s, r = b :: s := by
    cases h with
    | ref h => exact ⟨_, _, rfl⟩
    | brackets => exact ⟨_, _, rfl⟩
  refine ⟨b, s, rfl, ?_⟩
  rcases item_head h with rfl | rfl
  · refine ⟨by simp [Spec.S], by decide, fun hc => absurd ((isContentChar_iff _).2 hc) (by decide)⟩
  · refine ⟨by simp [Spec.S], by decide, fun hc => absurd ((isContentChar_iff _).2 hc) (by decide)⟩

theorem goal_content {prev : Prev} : Goal c (.content prev st) r o0 o ↔
    ∃ w b r', r = w ++ b :: r' ∧ AllWs w ∧ ¬ Ws b ∧
    ((b = ch% '<' ∧ (prev = .start → r'.head? ≠ some (ch% '/')) ∧ Goal c (.lt [] st) r' o0 o) ∨
     (b = ch% '<' ∧ prev = .start ∧ ∃ s, r' = ch% '/' :: s ∧ Goal c (.close st) s (emit c.shallowDepth o0
        (textRecs .characterData (pos c r) w.length (st.length - 1))) o) ∨
     (b ≠ ch% '<' ∧ st ≠ [] ∧ (prev = .end → ContentByte b) ∧ ∃ r1, TextBody (b :: r') r1 ∧
        Goal c (.lt [] st) r1 (emit c.shallowDepth o0
          (textRecs .characterData (pos c r) (r.length - (r1.length + 1)) (st.length - 1))) o) ∨
     (prev = .end ∧ ∃ r1, Item (b :: r') r1 ∧ Goal c (.lt [] st) r1 o0 o)) := by
  constructor
  · rintro ⟨recs, h, rfl⟩
    generalize hnt : NT.content prev st = nt at h
    cases h with
    | start => cases hnt
    | endTag => cases hnt
    | close => cases hnt
    | comment => cases hnt
    | cdata => cases hnt
    | doctype => cases hnt
    | pi => cases hnt
    | done => cases hnt
    | piEnd => cases hnt
    | piCut => cases hnt
    | markup h1 h2 h3 =>
      cases hnt
      exact ⟨_, _, _, rfl, h1, by simp [Spec.S], Or.inl ⟨rfl, h2, .mk h3 rfl⟩⟩
    | gap h1 h2 =>
      cases hnt
      exact ⟨_, _, _, rfl, h1, by simp [Spec.S], Or.inr (Or.inl ⟨rfl, rfl, _, rfl, .mk h2 (by rw [emit_append]; rfl)⟩)⟩
    | text h0 h1 h2 h3 h4 h5 h6 =>
      cases hnt
      exact ⟨_, _, _, rfl, h1, h2, Or.inr (Or.inr (Or.inl ⟨h3, h0, h4, _, h5, .mk h6 (by rw [emit_append]; rfl)⟩))⟩
    | lost h1 h2 h3 =>
      cases hnt
      obtain ⟨b, s, rfl, h4, h5, h6⟩ := item_cons h2
      exact ⟨_, _, _, rfl, h1, h4, Or.inr (Or.inr (Or.inr ⟨rfl, _, h2, .mk h3 rfl⟩))⟩
  · rintro ⟨w, b, r', rfl, h1, h2, ⟨rfl, h3, recs, h4, rfl⟩ | ⟨rfl, rfl, s, rfl, recs, h4, rfl⟩ |
      ⟨h3, h0, h4, r1, h5, recs, h6, rfl⟩ | ⟨rfl, r1, h3, recs, h4, rfl⟩⟩
    · exact .mk (.markup h1 h3 h4) rfl
    · exact .mk (.gap h1 h4) (by rw [emit_append]; rfl)
    · exact .mk (.text h0 h1 h2 h3 h4 h5 h6) (by rw [emit_append]; rfl)
    · exact .mk (.lost h1 h3 h4) rfl

/-! ### After the root element -/

theorem goal_epilog : Goal c .epilog r o0 o ↔ (AllWs r ∧ o = finish c.shallowDepth o0) ∨
    ∃ w r0, r = w ++ ch% '<' :: ch% '?' :: r0 ∧ AllWs w ∧ ∃ x r1, PiEndTarget r0 x r1 ∧
      r0.length - (r1.length + 1) ≤ maxLen ∧
      ((Ws x ∧ ∃ r2, PiBody r1 r2 ∧ r1.length - (r2.length + 2) ≤ maxLen ∧
        Goal c .epilog r2 (emit c.shallowDepth o0 [⟨.piName, pos c r0, r0.length - (r1.length + 1), -1⟩,
          ⟨.piVal, pos c r1, r1.length - (r2.length + 2), -1⟩]) o) ∨
       (x = ch% '?' ∧ ∃ y r2, r1 = y :: r2 ∧ y ≠ ch% '>' ∧
        Goal c .epilog r1 (emit c.shallowDepth o0 [⟨.piName, pos c r0, r0.length - (r1.length + 1), -1⟩,
          ⟨.piVal, pos c r1, 0, -1⟩]) o)) := by
  constructor
  · rintro ⟨recs, h, rfl⟩
    cases h with
    | done h => exact Or.inl ⟨h, rfl⟩
    | piEnd h1 h2 h3 h4 h5 h6 h7 =>
      rename_i w r0 x r1 r2 recs
      exact Or.inr ⟨w, r0, rfl, h1, x, r1, h2, h4, Or.inl ⟨h3, r2, h5, h6, .mk h7 (by simp only [emit_cons, emit_nil, pos])⟩⟩
    | piCut h1 h2 h3 h4 h5 h6 =>
      rename_i w r0 r1 recs
      refine Or.inr ⟨w, r0, rfl, h1, ch% '?', r1, h2, h5, Or.inr ⟨rfl, ?_⟩⟩
      cases r1 with
      | nil => exact absurd rfl h3
      | cons y r2 => exact ⟨y, r2, rfl, by simpa using h4, .mk h6 (by simp only [emit_cons, emit_nil, pos])⟩
  · rintro (⟨h, rfl⟩ | ⟨w, r0, rfl, h1, x, r1, h2, h3, ⟨h4, r2, h5, h6, recs, h7, rfl⟩ |
      ⟨rfl, y, r2, rfl, h5, recs, h7, rfl⟩⟩)
    · exact .mk (.done h) rfl
    · exact .mk (.piEnd h1 h2 h4 h3 h5 h6 h7) (by simp only [emit_cons, emit_nil, pos])
    · exact .mk (.piCut h1 h2 (by simp) (by simpa using h5) h3 h7) (by simp only [emit_cons, emit_nil, pos])

/-! ### The rest of a start tag -/

/-- An attribute whose name starts with `b`, and the rest of the tag. -/
def AttrTag (n : Nat) (depth : Int) (seen : List (List UInt8)) (b : UInt8) (s : List UInt8) (recs : List Rec)
    (e : Bool) (r' : List UInt8) : Prop :=
  ∃ run w1 w2 q r r1 recs', s = run ++ w1 ++ ch% '=' :: w2 ++ q :: r ∧ AllName run ∧
    (b :: run) ∉ seen ∧ seen.length < 256 ∧ lastColon 0 0 (b :: run) ≤ 511 ∧ run.length + 1 ≤ 2047 ∧
    AllWs w1 ∧ AllWs w2 ∧ (q = ch% '"' ∨ q = ch% '\'') ∧ AttrBody q r r1 ∧
    r.length - (r1.length + 1) ≤ maxLen ∧ TagRest n depth ((b :: run) :: seen) r1 recs' e r' ∧
    recs = attrRec n depth (b :: s) (b :: run) :: ⟨.attrVal, Grammar.offset n r, r.length - (r1.length + 1), depth⟩ :: recs'

theorem close_cons {e : Bool} {r' : List UInt8} (h : Close r e r') :
    ∃ b s, r = b :: s ∧ ¬ Ws b ∧ ¬ StartByte b := by
  cases h with
  | start => exact ⟨_, _, rfl, by simp [Spec.S], fun h => absurd ((isNameStartChar_iff _).2 h) (by decide)⟩
  | empty => exact ⟨_, _, rfl, by simp [Spec.S], fun h => absurd ((isNameStartChar_iff _).2 h) (by decide)⟩

theorem tagRest_iff {n : Nat} {d : Int} {seen : List (List UInt8)} {w : List UInt8} {y : UInt8} {s : List UInt8}
    {recs : List Rec} {e : Bool} {r' : List UInt8} (hw : AllWs w) (hy : ¬ Ws y) :
    TagRest n d seen (w ++ y :: s) recs e r' ↔ (recs = [] ∧ Close (y :: s) e r') ∨
      (w ≠ [] ∧ StartByte y ∧ AttrTag n d seen y s recs e r') := by
  constructor
  · intro h
    generalize hr : w ++ y :: s = r at h
    cases h with
    | close h1 h2 =>
      obtain ⟨b, t, rfl, h3, _⟩ := close_cons h2
      obtain ⟨rfl, rfl, rfl⟩ := span_unique (P := Ws) hr hw hy h1 h3
      exact Or.inl ⟨rfl, h2⟩
    | attr h1 h2 h3 h4 h5 h6 h7 h8 h9 h10 h11 h12 h13 h14 =>
      rename_i w' b run w1 w2 q r1 r2 recs'
      obtain ⟨rfl, rfl, rfl⟩ := span_unique (P := Ws) (w' := w') (b' := b)
        (r' := run ++ w1 ++ ch% '=' :: w2 ++ q :: r1) (hr.trans (by simp)) hw hy h2 (name_not_ws (start_name h3))
      exact Or.inr ⟨h1, h3, _, _, _, _, _, _, _, rfl, h4, h5, h6, h7, h8, h9, h10, h11, h12, h13, h14, by simp⟩
  · rintro (⟨rfl, h⟩ | ⟨h1, h3, run, w1, w2, q, r, r1, recs', rfl, h4, h5, h6, h7, h8, h9, h10, h11, h12, h13, h14, rfl⟩)
    · exact .close hw h
    · have := TagRest.attr (n := n) (depth := d) h1 hw h3 h4 h5 h6 h7 h8 h9 h10 h11 h12 h13 h14
      simpa using this

theorem tagRest_allWs {n : Nat} {d : Int} {seen : List (List UInt8)} {w : List UInt8}
    {recs : List Rec} {e : Bool} {r' : List UInt8} (hw : AllWs w) : ¬ TagRest n d seen w recs e r' := by
  intro h
  cases h with
  | close h1 h2 =>
    obtain ⟨b, t, rfl, h3, _⟩ := close_cons h2
    exact h3 (hw b (by simp))
  | attr h1 h2 h3 => exact name_not_ws (start_name h3) (hw _ (by simp))

end
end Parser
end GoVtd
