import Verif.Spec.Nested
import Verif.Proofs.Parser.Shape

/-!
# Both grammars give the same documents
-/

namespace GoVtd
namespace Grammar

section
variable {n : Nat}

theorem TagRest.less {d : Int} {seen s recs e r'} (h : TagRest n d seen s recs e r') :
    r'.length < s.length := by
  induction h with
  | @close seen w r e r' hw hc =>
    have := hc.lt.2
    simp only [List.length_append]; omega
  | @attr seen w b run w1 w2 q r r1 recs e r' h1 h2 h3 h4 h5 h6 h7 h8 h9 h10 h11 h12 h13 h14 ih =>
    have e2 := h12.lt
    simp only [List.length_append, List.length_cons]; omega

theorem Tag.less {d : Nat} {pre name s recs e r'} (h : Tag n d pre name s recs e r') : r'.length < s.length := by
  cases h with
  | mk h1 h2 h3 h4 h5 h6 h7 =>
    have := h7.less
    simp only [List.length_append, List.length_cons] at *; omega

theorem Pi.less {d : Int} {s recs r'} (h : Pi n d s recs r') : r'.length ≤ s.length := h.suffix.length_le

/-- What a nonterminal with open elements reads up to the end tag of the last one. -/
def NT.Reads (n : Nat) : NT → List UInt8 → List Rec → List UInt8 → Prop
  | .lt _ st, s, recs, r => Inside n st.length .markup s recs r
  | .content prev st, s, recs, r => Inside n st.length (.content prev) s recs r
  | .close _, s, recs, r => s = r ∧ recs = []
  | .epilog, _, _, _ => False

theorem G.split_aux (N : Nat) : ∀ {nt s recs name st}, G n nt s recs → s.length ≤ N → nt.stack = name :: st →
    nt.pre = [] → ∃ recs1 w r2 recs2, recs = recs1 ++ recs2 ∧ AllWs w ∧
      nt.Reads n s recs1 (name ++ w ++ ch% '>' :: r2) ∧ G n (next .end st) r2 recs2 ∧ r2.length < s.length := by
  induction N with
  | zero =>
    intro nt s recs name st h hl hs hp
    have : s = [] := List.eq_nil_of_length_eq_zero (by omega)
    subst this
    generalize hz : ([] : List UInt8) = z at h
    cases h <;> simp at hz
    · rename_i hi _; have := hi.lt; simp [hz.2] at this
    · simp [NT.stack] at hs
  | succ N ih =>
    intro nt s recs name st h hl hs hp
    cases h with
    | @start pre st0 b run x r recs e r' recs' h1 h2 h3 h4 h5 h6 h7 h8 =>
      simp only [NT.stack] at hs; simp only [NT.pre] at hp
      subst hs; subst hp
      have ht : Tag n (name :: st).length [] _ _ _ e r' := Tag.mk h1 h2 h3 h4 h5 h6 h7
      have hlt := ht.less
      cases e with
      | true =>
        obtain ⟨recs1, w, r2, recs2, e1, e2, e3, e4, e5⟩ := ih (nt := .content .other (name :: st)) h8 (by omega) rfl rfl
        refine ⟨_, w, r2, recs2, ?_, e2, Inside.empty ht e3, e4, by omega⟩
        rw [e1]; simp
      | false =>
        obtain ⟨recs1, w, r2, recs2, e1, e2, e3, e4, e5⟩ := ih (nt := .content .start _) h8 (by omega) rfl rfl
        obtain ⟨recs3, w3, r3, recs4, f1, f2, f3, f4, f5⟩ := ih (nt := .content .end (name :: st)) e4 (by omega) rfl rfl
        refine ⟨_, w3, r3, recs4, ?_, f2, Inside.element ht e3 e2 f3, f4, by omega⟩
        rw [e1, f1]; simp
    | @endTag pre st0 r _ h1 =>
      simp only [NT.stack] at hs; subst hs
      simp only [List.length_cons] at hl ⊢
      obtain ⟨recs1, w, r2, recs2, e1, e2, e3, e4, e5⟩ := ih (nt := .close (name :: st)) h1 (by omega) rfl rfl
      obtain ⟨rfl, rfl⟩ := e3
      exact ⟨[], w, r2, recs2, e1, e2, Inside.endTag, e4, by omega⟩
    | @close nm st0 w r _ h1 h2 =>
      simp only [NT.stack, List.cons.injEq] at hs
      obtain ⟨rfl, rfl⟩ := hs
      exact ⟨[], w, r, _, rfl, h1, ⟨rfl, rfl⟩, h2, by simp only [List.length_append, List.length_cons]; omega⟩
    | @comment pre st0 r r1 _ h1 h2 =>
      simp only [NT.stack] at hs; subst hs
      have := h1.two
      simp only [List.length_cons, List.length_append] at hl this ⊢
      obtain ⟨recs1, w, r2, recs2, e1, e2, e3, e4, e5⟩ := ih (nt := .content .other (name :: st)) h2 (by omega) rfl rfl
      refine ⟨_, w, r2, recs2, ?_, e2, Inside.comment h1 e3, e4, by omega⟩
      rw [e1]; simp
    | @cdata pre st0 r r1 _ h0 h1 h2 =>
      simp only [NT.stack] at hs; subst hs
      have := h1.lt
      simp only [List.length_cons, List.length_append] at hl ⊢
      obtain ⟨recs1, w, r2, recs2, e1, e2, e3, e4, e5⟩ := ih (nt := .content .other (name :: st)) h2 (by omega) rfl rfl
      refine ⟨_, w, r2, recs2, ?_, e2, Inside.cdata h1 e3, e4, by omega⟩
      rw [e1]; simp
    | @doctype pre st0 r r1 w0 r0 _ h0 h1 h2 h3 h4 h5 =>
      simp only [NT.stack] at hs; subst hs; subst h4
      have := h1.lt
      simp only [List.length_cons, List.length_append] at hl this ⊢
      obtain ⟨recs1, w, r2, recs2, e1, e2, e3, e4, e5⟩ := ih (nt := .lt [] (name :: st)) h5 (by omega) rfl rfl
      refine ⟨_, w, r2, recs2, ?_, e2, Inside.doctype h1 h2 h3 e3, e4, by omega⟩
      rw [e1]; simp
    | @pi pre st0 r recs r1 _ h1 h2 =>
      simp only [NT.stack] at hs; subst hs
      have := h1.less
      simp only [List.length_cons] at hl ⊢
      obtain ⟨recs1, w, r2, recs2, e1, e2, e3, e4, e5⟩ := ih (nt := .content .other (name :: st)) h2 (by omega) rfl rfl
      refine ⟨_, w, r2, recs2, ?_, e2, Inside.pi h1 e3, e4, by omega⟩
      rw [e1]; simp
    | @markup prev st0 w0 r _ h1 h2 h3 =>
      simp only [NT.stack] at hs; subst hs
      simp only [List.length_cons, List.length_append] at hl ⊢
      obtain ⟨recs1, w, r2, recs2, e1, e2, e3, e4, e5⟩ := ih (nt := .lt [] (name :: st)) h3 (by omega) rfl rfl
      exact ⟨_, w, r2, recs2, e1, e2, Inside.space h1 h2 e3, e4, by omega⟩
    | @gap st0 w0 r _ h1 h2 =>
      simp only [NT.stack] at hs; subst hs
      simp only [List.length_cons, List.length_append] at hl ⊢
      obtain ⟨recs1, w, r2, recs2, e1, e2, e3, e4, e5⟩ := ih (nt := .close (name :: st)) h2 (by omega) rfl rfl
      obtain ⟨rfl, rfl⟩ := e3
      refine ⟨_, w, r2, recs2, ?_, e2, Inside.gap h1, e4, by omega⟩
      rw [e1]; simp
    | @text prev st0 w0 b r r1 _ h0 h1 h2 h3 h4 h5 h6 =>
      simp only [NT.stack] at hs; subst hs
      have := h5.lt
      simp only [List.length_cons, List.length_append] at hl this ⊢
      obtain ⟨recs1, w, r2, recs2, e1, e2, e3, e4, e5⟩ := ih (nt := .lt [] (name :: st)) h6 (by omega) rfl rfl
      refine ⟨_, w, r2, recs2, ?_, e2, Inside.text h1 h2 h3 h4 h5 e3, e4, by omega⟩
      rw [e1]; simp
    | @lost st0 w0 r r1 _ h1 h2 h3 =>
      simp only [NT.stack] at hs; subst hs
      have := h2.lt
      simp only [List.length_append] at hl ⊢
      obtain ⟨recs1, w, r2, recs2, e1, e2, e3, e4, e5⟩ := ih (nt := .lt [] (name :: st)) h3 (by omega) rfl rfl
      exact ⟨_, w, r2, recs2, e1, e2, Inside.lost h1 h2 e3, e4, by omega⟩
    | done => simp [NT.stack] at hs
    | piEnd => simp [NT.stack] at hs
    | piCut => simp [NT.stack] at hs

theorem G.split {prev s recs name st} (h : G n (.content prev (name :: st)) s recs) :
    ∃ recs1 w r2 recs2, recs = recs1 ++ recs2 ∧ AllWs w ∧
      Inside n (st.length + 1) (.content prev) s recs1 (name ++ w ++ ch% '>' :: r2) ∧ G n (next .end st) r2 recs2 := by
  obtain ⟨recs1, w, r2, recs2, e1, e2, e3, e4, _⟩ := h.split_aux s.length (Nat.le_refl _) rfl rfl
  exact ⟨recs1, w, r2, recs2, e1, e2, e3, e4⟩

/-- The nonterminal of a part. -/
def Part.nt (st : List (List UInt8)) : Part → NT
  | .content prev => .content prev st
  | .markup => .lt [] st

theorem Inside.join {d part s recs r'} (h : Inside n d part s recs r') {name st w r2 recs2}
    (hd : d = (name :: st).length) (hr : r' = name ++ w ++ ch% '>' :: r2) (hw : AllWs w)
    (hg : G n (next .end st) r2 recs2) : G n (part.nt (name :: st)) s (recs ++ recs2) := by
  induction h generalizing name st w r2 recs2 with
  | endTag => subst hr; exact G.endTag (G.close hw hg)
  | empty ht _ ih =>
    subst hd
    cases ht with
    | mk h1 h2 h3 h4 h5 h6 h7 =>
      rw [List.append_assoc, List.cons_append]
      exact G.start h1 h2 h3 h4 h5 h6 h7 (ih rfl hr hw hg)
  | element ht hi hw' hj ih1 ih2 =>
    subst hd
    have h8 := ih1 (name := _) (st := name :: st) rfl rfl hw' (ih2 rfl hr hw hg)
    cases ht with
    | mk h1 h2 h3 h4 h5 h6 h7 =>
      rw [List.append_assoc, List.append_assoc, List.cons_append]
      exact G.start (e := false) h1 h2 h3 h4 h5 h6 h7 h8
  | comment h1 _ ih => subst hd; rw [List.append_assoc]; exact G.comment h1 (ih rfl hr hw hg)
  | cdata h1 _ ih => subst hd; rw [List.append_assoc]; exact G.cdata (by simp) h1 (ih rfl hr hw hg)
  | doctype h1 h2 h3 _ ih =>
    subst hd; rw [List.cons_append]; exact G.doctype (by simp) h1 h2 h3 rfl (ih rfl hr hw hg)
  | pi h1 _ ih => subst hd; rw [List.append_assoc]; exact G.pi h1 (ih rfl hr hw hg)
  | space h1 h2 _ ih => subst hd; exact G.markup h1 h2 (ih rfl hr hw hg)
  | gap h1 => subst hd; subst hr; exact G.gap h1 (G.close hw hg)
  | text h1 h2 h3 h4 h5 _ ih =>
    subst hd; rw [List.append_assoc]; exact G.text (by simp) h1 h2 h3 h4 h5 (ih rfl hr hw hg)
  | lost h1 h2 _ ih => subst hd; exact G.lost h1 h2 (ih rfl hr hw hg)

theorem epilog_iff {s recs} : G n .epilog s recs ↔ Epilog n s recs := by
  constructor
  · intro h
    generalize hx : NT.epilog = nt at h
    induction h with
    | done h1 => exact .done h1
    | piEnd h1 h2 h3 h4 h5 h6 _ ih => exact .pi h1 h2 h3 h4 h5 h6 (ih rfl)
    | piCut h1 h2 h3 h4 h5 _ ih => exact .piCut h1 h2 h3 h4 h5 (ih rfl)
    | _ => cases hx
  · intro h
    induction h with
    | done h1 => exact .done h1
    | pi h1 h2 h3 h4 h5 h6 _ ih => exact .piEnd h1 h2 h3 h4 h5 h6 ih
    | piCut h1 h2 h3 h4 h5 _ ih => exact .piCut h1 h2 h3 h4 h5 ih

theorem close_nil {s recs} (h : G n (.close []) s recs) : False := by cases h

theorem G.prolog {s recs} (h : G n (.content .other []) s recs) :
    ∃ w r, s = w ++ ch% '<' :: r ∧ AllWs w ∧ G n (.lt [] []) r recs := by
  cases h with
  | markup h1 h2 h3 => exact ⟨_, _, rfl, h1, h3⟩
  | text h0 => exact absurd rfl h0

theorem root_of (N : Nat) : ∀ {pre s recs}, G n (.lt pre []) s recs → s.length ≤ N → Root n pre s recs := by
  induction N with
  | zero =>
    intro pre s recs h hl
    have : s = [] := List.eq_nil_of_length_eq_zero (by omega)
    subst this
    generalize hz : ([] : List UInt8) = z at h
    cases h <;> simp at hz
  | succ N ih =>
    intro pre s recs h hl
    cases h with
    | @start _ _ b run x r recs e r' recs' h1 h2 h3 h4 h5 h6 h7 h8 =>
      have ht : Tag n 0 pre _ _ _ e r' := Tag.mk h1 h2 h3 (by omega) h5 h6 h7
      cases e with
      | true => exact Root.empty ht (epilog_iff.1 h8)
      | false =>
        obtain ⟨recs1, w, r2, recs2, e1, e2, e3, e4⟩ := G.split h8
        have := Root.element ht e3 e2 (epilog_iff.1 e4)
        rw [e1]
        simpa using this
    | endTag h => exact (close_nil h).elim
    | comment h1 h2 =>
      obtain ⟨w, r, rfl, hw, h3⟩ := h2.prolog
      have := h1.two
      simp only [List.length_cons, List.length_append] at hl this
      exact Root.comment h1 hw rfl (ih h3 (by omega))
    | cdata h => exact absurd rfl h
    | doctype h => exact absurd rfl h
    | pi h1 h2 =>
      obtain ⟨w, r, rfl, hw, h3⟩ := h2.prolog
      have := h1.less
      simp only [List.length_cons, List.length_append] at hl this
      exact Root.pi h1 hw (ih h3 (by omega))

theorem root_iff {pre s recs} : G n (.lt pre []) s recs ↔ Root n pre s recs := by
  refine ⟨fun h => root_of _ h (Nat.le_refl _), fun h => ?_⟩
  induction h with
  | empty ht h =>
    cases ht with
    | mk h1 h2 h3 h4 h5 h6 h7 => exact G.start (e := true) h1 h2 h3 (by simp) h5 h6 h7 (epilog_iff.2 h)
  | element ht hi hw h =>
    have h8 := hi.join (st := []) rfl rfl hw (epilog_iff.2 h)
    cases ht with
    | mk h1 h2 h3 h4 h5 h6 h7 =>
      rw [List.append_assoc, List.cons_append]
      exact G.start (e := false) h1 h2 h3 (by simp) h5 h6 h7 h8
  | comment h1 hw h2 _ ih =>
    subst h2; exact G.comment h1 (G.markup hw (by simp) ih)
  | pi h1 hw _ ih => exact G.pi h1 (G.markup hw (by simp) ih)

theorem document_iff {s recs} : Doc n s recs ↔ Document n s recs := by
  constructor
  · intro h
    cases h with
    | decl h1 h2 h3 h4 h5 h6 h7 => exact .decl h1 h2 h3 h4 h5 h6 (root_iff.1 h7)
    | plain h1 h2 => exact .plain h1 (root_iff.1 h2)
    | space h1 h2 h3 => exact .space h1 h2 (root_iff.1 h3)
  · intro h
    cases h with
    | decl h1 h2 h3 h4 h5 h6 h7 => exact .decl h1 h2 h3 h4 h5 h6 (root_iff.2 h7)
    | plain h1 h2 => exact .plain h1 (root_iff.2 h2)
    | space h1 h2 h3 => exact .space h1 h2 (root_iff.2 h3)

end

end Grammar
end GoVtd
