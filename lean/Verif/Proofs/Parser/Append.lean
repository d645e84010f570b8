import Verif.Proofs.Parser.Extend

/-!
# What can follow an accepted document

Bytes `z` after a document of `Verif/Spec/Nested.lean` give such a document exactly when they are white space
and processing instructions.
-/

namespace GoVtd
namespace Grammar

open Tree

section
variable {z : List UInt8}

theorem piEndTarget_extend {x : UInt8} {s r : List UInt8} (h : PiEndTarget s x r) : PiEndTarget (s ++ z) x (r ++ z) := by
  cases h with
  | @mk b run x r h1 h2 h3 h4 =>
    have := PiEndTarget.mk (b := b) (run := run) (x := x) (r := r ++ z) h1
      (fun h => h2 ((xmlPrefix_extend h4).1 (by simpa using h))) h3 h4
    simpa using this

theorem epilog_extend {n : Nat} {w : List UInt8} {recs recs' : List Rec} (h : Epilog n w recs)
    (hz : Epilog (n + z.length) z recs') : Epilog (n + z.length) (w ++ z) (recs ++ recs') := by
  induction h with
  | @done w hw =>
    cases hz with
    | done h => exact .done (fun b hb => (List.mem_append.1 hb).elim (hw b) (h b))
    | @pi w' r x r1 r2 recs h1 h2 h3 h4 h5 h6 h7 =>
      rw [← List.append_assoc]
      exact .pi (fun b hb => (List.mem_append.1 hb).elim (hw b) (h1 b)) h2 h3 h4 h5 h6 h7
    | @piCut w' r r1 recs h1 h2 h3 h4 h5 h6 =>
      rw [← List.append_assoc]
      exact .piCut (fun b hb => (List.mem_append.1 hb).elim (hw b) (h1 b)) h2 h3 h4 h5 h6
  | @pi w r x r1 r2 recs h1 h2 h3 h4 h5 h6 _ ih =>
    have := Epilog.pi (n := n + z.length) h1 (piEndTarget_extend (z := z) h2) h3 (by rw [length_extend]; exact h4)
      (piBody_extend h5) (by rw [length_extend]; exact h6) ih
    rw [offset_extend, offset_extend, int_extend, int_extend] at this
    simpa using this
  | @piCut w r r1 recs h1 h2 h3 h4 h5 _ ih =>
    have := Epilog.piCut (n := n + z.length) h1 (piEndTarget_extend (z := z) h2) (by simp [h3])
      (by rw [head_extend h3]; exact h4) (by rw [length_extend]; exact h5) ih
    rw [offset_extend, offset_extend, int_extend] at this
    simpa using this

theorem epilog_drop {n : Nat} {w s : List UInt8} {recs : List Rec} (hw : AllWs w) (h : Epilog n (w ++ s) recs) :
    Epilog n s recs := by
  have key : ∀ {w' r : List UInt8}, AllWs w' → w ++ s = w' ++ ch% '<' :: r → ∃ v, AllWs v ∧ s = v ++ ch% '<' :: r := by
    intro w' r h1 e
    rcases List.append_eq_append_iff.1 e with ⟨a, rfl, rfl⟩ | ⟨a, rfl, e2⟩
    · exact ⟨a, fun b hb => h1 b (by simp [hb]), rfl⟩
    · cases a with
      | nil => exact ⟨[], nofun, by simpa using e2.symm⟩
      | cons b a =>
        simp only [List.cons_append, List.cons.injEq] at e2
        exact absurd (hw (ch% '<') (by rw [e2.1]; simp)) lt_not_ws.1
  generalize hs : w ++ s = y at h
  cases h with
  | done h => exact .done (fun b hb => h b (by rw [← hs]; simp [hb]))
  | pi h1 h2 h3 h4 h5 h6 h7 =>
    obtain ⟨v, g1, rfl⟩ := key h1 hs
    exact .pi g1 h2 h3 h4 h5 h6 h7
  | piCut h1 h2 h3 h4 h5 h6 =>
    obtain ⟨v, g1, rfl⟩ := key h1 hs
    exact .piCut g1 h2 h3 h4 h5 h6

theorem epilog_split {n n' : Nat} {w : List UInt8} {recs recs' : List Rec} (h : Epilog n w recs)
    (hz : Epilog n' (w ++ z) recs') : ∃ recs, Epilog n' z recs := by
  have hl : ∀ r : List UInt8, ∃ b t, (ch% '<' :: r : List UInt8) = b :: t ∧ ¬ Ws b := fun r => ⟨_, _, rfl, lt_not_ws.1⟩
  have hq : ¬ Ws (ch% '?') := by simp only [Spec.S]; decide
  induction h generalizing recs' with
  | done hw => exact ⟨_, epilog_drop hw hz⟩
  | @pi w r x r1 r2 recs h1 h2 h3 h4 h5 h6 _ ih =>
    have h2' := piEndTarget_extend (z := z) h2
    have h5' := piBody_extend (z := z) h5
    rw [show w ++ ch% '<' :: ch% '?' :: r ++ z = w ++ ch% '<' :: ch% '?' :: (r ++ z) by simp] at hz
    generalize hs : w ++ ch% '<' :: ch% '?' :: (r ++ z) = y at hz
    cases hz with
    | done g => exact absurd (g (ch% '<') (by rw [← hs]; simp)) lt_not_ws.1
    | pi g1 g2 g3 g4 g5 g6 g7 =>
      obtain ⟨-, e⟩ := ws_cons hs h1 g1 (hl _) (hl _)
      simp only [List.cons.injEq, true_and] at e
      subst e
      obtain ⟨rfl, e⟩ := piEndTarget_unique h2' g2
      rw [e] at h5'
      rw [← piBody_unique h5' g5] at g7
      exact ih g7
    | piCut g1 g2 =>
      obtain ⟨-, e⟩ := ws_cons hs h1 g1 (hl _) (hl _)
      simp only [List.cons.injEq, true_and] at e
      subst e
      obtain ⟨rfl, e⟩ := piEndTarget_unique h2' g2
      exact absurd h3 hq
  | @piCut w r r1 recs h1 h2 h3 h4 h5 _ ih =>
    have h2' := piEndTarget_extend (z := z) h2
    rw [show w ++ ch% '<' :: ch% '?' :: r ++ z = w ++ ch% '<' :: ch% '?' :: (r ++ z) by simp] at hz
    generalize hs : w ++ ch% '<' :: ch% '?' :: (r ++ z) = y at hz
    cases hz with
    | done g => exact absurd (g (ch% '<') (by rw [← hs]; simp)) lt_not_ws.1
    | pi g1 g2 g3 =>
      obtain ⟨-, e⟩ := ws_cons hs h1 g1 (hl _) (hl _)
      simp only [List.cons.injEq, true_and] at e
      subst e
      obtain ⟨rfl, e⟩ := piEndTarget_unique h2' g2
      exact absurd g3 hq
    | piCut g1 g2 g3 g4 g5 g6 =>
      obtain ⟨-, e⟩ := ws_cons hs h1 g1 (hl _) (hl _)
      simp only [List.cons.injEq, true_and] at e
      subst e
      obtain ⟨-, e⟩ := piEndTarget_unique h2' g2
      rw [← e] at g6
      exact ih g6

theorem root_extend {n : Nat} {pre s : List UInt8} {recs recs' : List Rec} (h : Root n pre s recs)
    (hz : Epilog (n + z.length) z recs') : Root (n + z.length) pre (s ++ z) (recs ++ recs') := by
  induction h with
  | empty h1 h2 =>
    rw [List.append_assoc]
    exact .empty (tag_extend h1) (epilog_extend h2 hz)
  | @element pre name s recs r1 recs1 w r2 recs2 h1 h2 h3 h4 =>
    rw [List.append_assoc]
    refine .element (w := w) (r2 := r2 ++ z) (tag_extend h1) ?_ h3 (epilog_extend h4 hz)
    have := inside_extend (z := z) h2
    simpa using this
  | @comment pre r r1 w r2 recs h1 h2 h3 _ ih =>
    have := Root.comment (n := n + z.length) (pre := pre) (r1 := r1 ++ z) (r2 := r2 ++ z) (commentBody_extend (z := z) h1) h2 (by rw [h3]; simp) ih
    rw [offset_extend, int_extend] at this
    rw [List.append_assoc, List.append_assoc]
    exact this
  | @pi pre r recs w r2 recs' h1 h2 _ ih =>
    have := pi_extend (z := z) h1
    rw [show w ++ ch% '<' :: r2 ++ z = w ++ ch% '<' :: (r2 ++ z) by simp] at this
    rw [List.append_assoc]
    exact .pi this h2 ih

theorem root_split {n n' : Nat} {pre s : List UInt8} {recs recs' : List Rec} (h : Root n pre s recs)
    (hz : Root n' pre (s ++ z) recs') : ∃ recs, Epilog n' z recs := by
  have hl : ∀ r : List UInt8, ∃ b t, (ch% '<' :: r : List UInt8) = b :: t ∧ ¬ Ws b := fun r => ⟨_, _, rfl, lt_not_ws.1⟩
  have hg : ∀ r : List UInt8, ∃ b t, (ch% '>' :: r : List UInt8) = b :: t ∧ ¬ Ws b := fun r => ⟨_, _, rfl, gt_not_ws⟩
  induction h generalizing recs' with
  | @empty pre name s recs r1 recs1 h1 h2 =>
    have h1' := tag_extend (z := z) h1
    generalize hs : s ++ z = y at hz h1'
    cases hz with
    | empty g1 g2 =>
      obtain ⟨-, -, e⟩ := tag_unique h1' g1
      exact epilog_split h2 (e ▸ g2)
    | element g1 => exact absurd (tag_unique h1' g1).2.1 (by decide)
    | comment => obtain ⟨b, t, e, k⟩ := tag_head h1'; simp only [List.cons_append, List.cons.injEq] at e; exact absurd e.1.symm k.2.1
    | pi => obtain ⟨b, t, e, k⟩ := tag_head h1'; simp only [List.cons.injEq] at e; exact absurd e.1.symm k.2.2
  | @element pre name s recs r1 recs1 w r2 recs2 h1 h2 h3 h4 =>
    have h1' := tag_extend (z := z) h1
    have h2' := inside_extend (z := z) h2
    generalize hs : s ++ z = y at hz h1'
    cases hz with
    | empty g1 => exact absurd (tag_unique h1' g1).2.1 (by decide)
    | element g1 g2 g3 g4 =>
      obtain ⟨rfl, -, rfl⟩ := tag_unique h1' g1
      have e := inside_unique h2' g2
      simp only [List.append_assoc, List.append_cancel_left_eq, List.cons_append] at e
      obtain ⟨-, e2⟩ := ws_cons e h3 g3 (hg _) (hg _)
      simp only [List.cons.injEq, true_and] at e2
      exact epilog_split h4 (e2 ▸ g4)
    | comment => obtain ⟨b, t, e, k⟩ := tag_head h1'; simp only [List.cons_append, List.cons.injEq] at e; exact absurd e.1.symm k.2.1
    | pi => obtain ⟨b, t, e, k⟩ := tag_head h1'; simp only [List.cons.injEq] at e; exact absurd e.1.symm k.2.2
  | @comment pre r r1 w r2 recs h1 h2 h3 _ ih =>
    have h1' := commentBody_extend (z := z) h1
    rw [List.append_assoc] at hz
    generalize hs : str% "!--" ++ (r ++ z) = y at hz
    cases hz with
    | empty g1 => obtain ⟨b, t, e, k⟩ := tag_head g1; rw [← hs] at e; simp only [List.cons_append, List.cons.injEq] at e; exact absurd e.1.symm k.2.1
    | element g1 => obtain ⟨b, t, e, k⟩ := tag_head g1; rw [← hs] at e; simp only [List.cons_append, List.cons.injEq] at e; exact absurd e.1.symm k.2.1
    | comment g1 g2 g3 g4 =>
      simp only [List.append_cancel_left_eq] at hs
      subst hs
      have e := commentBody_unique h1' g1
      simp only [List.cons_append, List.cons.injEq, true_and] at e
      rw [g3, h3, show w ++ ch% '<' :: r2 ++ z = w ++ ch% '<' :: (r2 ++ z) by simp] at e
      obtain ⟨-, e2⟩ := ws_cons e h2 g2 (hl _) (hl _)
      simp only [List.cons.injEq, true_and] at e2
      exact ih (e2 ▸ g4)
    | pi => simp at hs
  | @pi pre r recs w r2 recs' h1 h2 _ ih =>
    have h1' := pi_extend (z := z) h1
    rw [List.cons_append] at hz
    generalize hs : ch% '?' :: (r ++ z) = y at hz
    cases hz with
    | empty g1 => obtain ⟨b, t, e, k⟩ := tag_head g1; rw [← hs] at e; simp only [List.cons.injEq] at e; exact absurd e.1.symm k.2.2
    | element g1 => obtain ⟨b, t, e, k⟩ := tag_head g1; rw [← hs] at e; simp only [List.cons.injEq] at e; exact absurd e.1.symm k.2.2
    | comment => simp at hs
    | pi g1 g2 g3 =>
      simp only [List.cons.injEq, true_and] at hs
      subst hs
      have e := pi_unique h1' g1
      rw [show w ++ ch% '<' :: r2 ++ z = w ++ ch% '<' :: (r2 ++ z) by simp] at e
      obtain ⟨-, e2⟩ := ws_cons e h2 g2 (hl _) (hl _)
      simp only [List.cons.injEq, true_and] at e2
      exact ih (e2 ▸ g3)

theorem version_extend {n : Nat} {s r : List UInt8} {recs : List Rec} (h : Version n s recs r) :
    Version (n + z.length) (s ++ z) recs (r ++ z) := by
  cases h with
  | @mk w w' q d r h1 h2 h3 h4 =>
    have := Version.mk (n := n + z.length) (r := r ++ z) h1 h2 h3 h4
    have e : (str% "version" ++ w ++ ch% '=' :: w' ++ q :: str% "1." ++ d :: q :: (r ++ z) : List UInt8) =
      (str% "version" ++ w ++ ch% '=' :: w' ++ q :: str% "1." ++ d :: q :: r) ++ z := by simp
    have e2 : (str% "1." ++ d :: q :: (r ++ z) : List UInt8) = (str% "1." ++ d :: q :: r) ++ z := by simp
    rw [e, e2, offset_extend, offset_extend] at this
    exact this

theorem encoding_extend {n : Nat} {s r : List UInt8} {recs : List Rec} (h : Encoding n s recs r) (hr : r ≠ []) :
    Encoding (n + z.length) (s ++ z) recs (r ++ z) := by
  cases h with
  | @mk w w' q e l q' w2 r h1 h2 h3 h4 h5 h6 h7 =>
    have := Encoding.mk (n := n + z.length) (r := r ++ z) h1 h2 h3 h4 h5 h6 (by rw [head_extend hr]; exact h7)
    simp only [← List.append_assoc] at this
    have e2 : (e ++ q' :: w2 ++ r ++ z : List UInt8) = (e ++ q' :: w2 ++ r) ++ z := by simp
    rw [e2, offset_extend, offset_extend] at this
    exact this

theorem standalone_extend {n : Nat} {s r : List UInt8} {recs : List Rec} (h : Standalone n s recs r) (hr : r ≠ []) :
    Standalone (n + z.length) (s ++ z) recs (r ++ z) := by
  cases h with
  | @mk w w' q e l q' w2 r h1 h2 h3 h4 h5 h6 h7 =>
    have := Standalone.mk (n := n + z.length) (r := r ++ z) h1 h2 h3 h4 h5 h6 (by rw [head_extend hr]; exact h7)
    simp only [← List.append_assoc] at this
    have e2 : (e ++ q' :: w2 ++ r ++ z : List UInt8) = (e ++ q' :: w2 ++ r) ++ z := by simp
    rw [e2, offset_extend, offset_extend] at this
    exact this

theorem declRest_extend {n : Nat} {s r : List UInt8} {recs : List Rec} (h : DeclRest n s recs r) (hr : r ≠ []) :
    DeclRest (n + z.length) (s ++ z) recs (r ++ z) := by
  cases h with
  | none => exact .none
  | ws h1 h2 => rw [List.append_assoc]; exact .ws h1 h2
  | enc h1 h2 h3 => rw [List.append_assoc]; exact .enc h1 h2 (encoding_extend h3 hr)
  | alone h1 h2 h3 => rw [List.append_assoc]; exact .alone h1 h2 (standalone_extend h3 hr)
  | both h1 h2 h3 h4 =>
    rw [List.append_assoc]
    exact .both h1 h2 (encoding_extend h3 (by obtain ⟨t, e⟩ := standalone_head h4; rw [e]; simp)) (standalone_extend h4 hr)

theorem noDecl_extend {pre r : List UInt8} (h : NoDecl pre r) : NoDecl pre (r ++ z) := by
  cases h with
  | none h => exact .none h
  | q h1 h2 => exact .q h1 h2
  | x h1 h2 h3 => exact .x h1 h2 h3
  | m h1 h2 h3 h4 => exact .m h1 h2 h3 h4
  | l h1 h2 h3 h4 h5 => exact .l h1 h2 h3 h4 h5

/-- What the search for `<?xml` takes is determined. -/
theorem noDecl_unique {pre pre' r r' : List UInt8} (h : NoDecl pre r) (h' : NoDecl pre' r') (e : pre ++ r = pre' ++ r') :
    pre = pre' := by
  cases h <;> cases h' <;> simp_all

/-- It finds no declaration where there is one. -/
theorem noDecl_decl {pre r t : List UInt8} {x m l s : UInt8} (h : NoDecl pre r) (hx : XmlPrefix [x, m, l]) (hs : Ws s) :
    pre ++ r ≠ ch% '?' :: x :: m :: l :: s :: t := by
  obtain ⟨a, b, c, r', e, k1, k2, k3⟩ := hx
  simp only [List.cons.injEq] at e
  obtain ⟨rfl, rfl, rfl, -⟩ := e
  intro e
  cases h with
  | none h => simp only [List.nil_append, List.cons.injEq] at e; exact h e.1
  | q h1 h2 =>
    simp only [List.cons_append, List.nil_append, List.cons.injEq] at e
    rw [e.2.1] at h1 h2
    exact k1.elim h1 h2
  | x h h1 h2 =>
    simp only [List.cons_append, List.nil_append, List.cons.injEq] at e
    rw [e.2.2.1] at h1 h2
    exact k2.elim h1 h2
  | m h h' h1 h2 =>
    simp only [List.cons_append, List.nil_append, List.cons.injEq] at e
    rw [e.2.2.2.1] at h1 h2
    exact k3.elim h1 h2
  | l h h' h'' h1 h2 =>
    simp only [List.cons_append, List.nil_append, List.cons.injEq] at e
    rw [e.2.2.2.2.1] at h1
    exact h1 hs

/-- White space and processing instructions can follow a document, and leave its records as they are. -/
theorem document_extend {n : Nat} {s : List UInt8} {recs recs' : List Rec} (h : Document n s recs)
    (hz : Epilog (n + z.length) z recs') : Document (n + z.length) (s ++ z) (recs ++ recs') := by
  cases h with
  | @decl x m l s w r recs r1 recs1 w' r2 recs2 h1 h2 h3 h4 h5 h6 h7 =>
    have g5 := declRest_extend (z := z) h5 (by simp)
    rw [show (str% "?>" ++ w' ++ ch% '<' :: r2 ++ z : List UInt8) = str% "?>" ++ w' ++ ch% '<' :: (r2 ++ z) by simp] at g5
    have := Document.decl h1 h2 h3 (version_extend (z := z) h4) g5 h6 (root_extend h7 hz)
    simpa using this
  | plain h1 h2 =>
    have := Document.plain (noDecl_extend (z := z) h1) (root_extend h2 hz)
    simpa using this
  | space h1 h2 h3 =>
    have := Document.space h1 h2 (root_extend h3 hz)
    simpa using this

/-- Nothing else can. -/
theorem document_split {n : Nat} {s : List UInt8} {recs recs' : List Rec} (h : Document n s recs)
    (hz : Document (n + z.length) (s ++ z) recs') : ∃ recs, Epilog (n + z.length) z recs := by
  have hl : ∀ r : List UInt8, ∃ b t, (ch% '<' :: r : List UInt8) = b :: t ∧ ¬ Ws b := fun r => ⟨_, _, rfl, lt_not_ws.1⟩
  generalize hs : s ++ z = y at hz
  cases h with
  | @decl x m l s w r recs r1 recs1 w' r2 recs2 h1 h2 h3 h4 h5 h6 h7 =>
    have g5 := declRest_extend (z := z) h5 (by simp)
    have g4 := version_extend (z := z) h4
    simp only [List.cons_append, List.append_assoc] at hs g5
    cases hz with
    | decl k1 k2 k3 k4 k5 k6 k7 =>
      simp only [List.cons.injEq, true_and] at hs
      obtain ⟨-, -, -, -, e⟩ := hs
      have hv : ∀ {n : Nat} {s r : List UInt8} {recs : List Rec}, Version n s recs r → ∃ b t, s = b :: t ∧ ¬ Ws b := by
        intro n s r recs h
        cases h with
        | mk => exact ⟨_, _, rfl, by simp only [Spec.S]; decide⟩
      obtain ⟨-, rfl⟩ := ws_cons e h3 k3 (hv g4) (hv k4)
      have e1 := version_unique g4 k4
      subst e1
      have e2 := declRest_unique g5 k5
      have e2 : w' ++ ch% '<' :: (r2 ++ z) = _ ++ ch% '<' :: _ := (List.cons.inj e2).2
      obtain ⟨-, e3⟩ := ws_cons e2 h6 k6 (hl _) (hl _)
      simp only [List.cons.injEq, true_and] at e3
      exact root_split h7 (e3 ▸ k7)
    | plain k1 k2 =>
      simp only [List.cons.injEq, true_and] at hs
      exact absurd hs.symm (noDecl_decl k1 h1 h2)
    | @space w _ _ k1 k2 k3 =>
      cases w with
      | nil => exact absurd rfl k1
      | cons b w =>
        simp only [List.cons_append, List.cons.injEq] at hs
        exact absurd (k2 (ch% '<') (by rw [hs.1]; simp)) lt_not_ws.1
  | plain h1 h2 =>
    have g1 := noDecl_extend (z := z) h1
    simp only [List.cons_append, List.append_assoc] at hs
    cases hz with
    | decl k1 k2 =>
      simp only [List.cons.injEq, true_and] at hs
      exact absurd hs (noDecl_decl g1 k1 k2)
    | plain k1 k2 =>
      simp only [List.cons.injEq, true_and] at hs
      have := noDecl_unique g1 k1 hs
      subst this
      simp only [List.append_cancel_left_eq] at hs
      exact root_split h2 (hs ▸ k2)
    | @space w _ _ k1 k2 k3 =>
      cases w with
      | nil => exact absurd rfl k1
      | cons b w =>
        simp only [List.cons_append, List.cons.injEq] at hs
        exact absurd (k2 (ch% '<') (by rw [hs.1]; simp)) lt_not_ws.1
  | @space w _ _ h1 h2 h3 =>
    cases w with
    | nil => exact absurd rfl h1
    | cons b w =>
      cases hz with
      | decl =>
        simp only [List.cons_append, List.cons.injEq] at hs
        exact absurd (h2 (ch% '<') (by rw [← hs.1]; simp)) lt_not_ws.1
      | plain =>
        simp only [List.cons_append, List.cons.injEq] at hs
        exact absurd (h2 (ch% '<') (by rw [← hs.1]; simp)) lt_not_ws.1
      | space k1 k2 k3 =>
        rw [List.append_assoc, List.cons_append] at hs
        obtain ⟨-, e⟩ := ws_cons hs h2 k2 (hl _) (hl _)
        simp only [List.cons.injEq, true_and] at e
        exact root_split h3 (e ▸ k3)

theorem piBody_end {s r : List UInt8} (h : PiBody s r) : ∃ c, s = c ++ str% "?>" ++ r := by
  induction h with
  | stop => exact ⟨[], rfl⟩
  | char _ _ _ ih =>
    obtain ⟨c, rfl⟩ := ih
    exact ⟨_ :: c, rfl⟩

theorem piEndTarget_end {s r : List UInt8} {x : UInt8} (h : PiEndTarget s x r) : ∃ c, s = c ++ x :: r := by
  cases h with
  | mk => exact ⟨_ :: _, rfl⟩

/-- The last byte that is not white space in what follows the root element ends a processing instruction. -/
theorem epilog_end {n : Nat} {s : List UInt8} {recs : List Rec} (h : Epilog n s recs) {v t : List UInt8} {b : UInt8}
    (ht : AllWs t) (hb : ¬ Ws b) (e : s = v ++ b :: t) : b = ch% '?' ∨ b = ch% '>' ∧ ∃ v', v = v' ++ [ch% '?'] := by
  have key : ∀ {v c r : List UInt8} {x : UInt8}, c ++ x :: r = v ++ b :: t → ¬ Ws x →
      (x = b ∧ c = v ∧ r = t) ∨ ∃ a, r = a ++ b :: t ∧ v = c ++ x :: a := by
    intro v c r x e hx
    rcases List.append_eq_append_iff.1 e with ⟨a, rfl, e2⟩ | ⟨a, rfl, e2⟩
    · cases a with
      | nil => simp only [List.nil_append, List.cons.injEq] at e2; exact .inl ⟨e2.1, by simp, e2.2⟩
      | cons y a =>
        simp only [List.cons_append, List.cons.injEq] at e2
        exact .inr ⟨a, e2.2, by rw [e2.1]⟩
    · cases a with
      | nil => simp only [List.nil_append, List.cons.injEq] at e2; exact .inl ⟨e2.1.symm, by simp, e2.2.symm⟩
      | cons y a =>
        simp only [List.cons_append, List.cons.injEq] at e2
        exact absurd (ht x (by rw [e2.2]; simp)) hx
  have hq : ¬ Ws (ch% '?') := by simp only [Spec.S]; decide
  induction h generalizing v with
  | done hw => exact absurd (hw b (by rw [e]; simp)) hb
  | @pi w r x r1 r2 recs h1 h2 h3 h4 h5 h6 _ ih =>
    obtain ⟨c, rfl⟩ := piEndTarget_end h2
    obtain ⟨d, rfl⟩ := piBody_end h5
    rcases key (c := w ++ ch% '<' :: ch% '?' :: (c ++ x :: (d ++ [ch% '?']))) (x := ch% '>') (r := r2)
      (by rw [← e]; simp) gt_not_ws with ⟨rfl, rfl, -⟩ | ⟨a, e2, rfl⟩
    · exact .inr ⟨rfl, w ++ ch% '<' :: ch% '?' :: (c ++ x :: d), by simp⟩
    · rcases ih e2 with h | ⟨h, v', rfl⟩
      · exact .inl h
      · exact .inr ⟨h, w ++ ch% '<' :: ch% '?' :: (c ++ x :: (d ++ [ch% '?'])) ++ ch% '>' :: v', by simp⟩
  | @piCut w r r1 recs h1 h2 h3 h4 h5 _ ih =>
    obtain ⟨c, rfl⟩ := piEndTarget_end h2
    rcases key (c := w ++ ch% '<' :: ch% '?' :: c) (x := ch% '?') (r := r1)
      (by rw [← e]; simp) hq with ⟨rfl, rfl, -⟩ | ⟨a, e2, rfl⟩
    · exact .inl rfl
    · rcases ih e2 with h | ⟨h, v', rfl⟩
      · exact .inl h
      · exact .inr ⟨h, w ++ ch% '<' :: ch% '?' :: c ++ ch% '?' :: v', by simp⟩

end
end Grammar
end GoVtd
