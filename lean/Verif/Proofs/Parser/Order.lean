import Verif.Proofs.Parser.Nested

/-!
# The order and the number of the records of the grammar
-/

namespace GoVtd
namespace Grammar

/-- A bound for the end of a record: of a start tag only the first byte of the name counts, of an attribute the
lower bits of the length. -/
def Rec.stop (x : Rec) : Int :=
  x.off + match x.tok with
    | .startingTag => 1
    | .attrName | .attrNs => x.len % 2048
    | _ => x.len

/-- `x` is before `y`, or `y` is the empty data of a processing instruction that has no data. -/
def Before (x y : Rec) : Prop :=
  x.stop ≤ y.off ∨ x.tok = .piName ∧ y.tok = .piVal ∧ y.len = 0 ∧ x.off = y.off

/-- The length of the record is not negative and not the largest. -/
def Short (x : Rec) : Prop := 0 ≤ x.len ∧ x.len < maxLen

/-- Records of the bytes from `a` to `b`, in order. -/
structure Seg (a b : Int) (xs : List Rec) : Prop where
  le : a ≤ b
  from_ : ∀ x ∈ xs, a ≤ x.off
  to_ : ∀ x ∈ xs, x.stop ≤ b
  order : xs.Pairwise Before

namespace Seg

theorem nil {a b : Int} (h : a ≤ b) : Seg a b [] := ⟨h, nofun, nofun, List.Pairwise.nil⟩

theorem one {a b : Int} {x : Rec} (h : a ≤ b) (h1 : a ≤ x.off) (h2 : x.stop ≤ b) : Seg a b [x] :=
  ⟨h, by simpa using h1, by simpa using h2, List.pairwise_singleton _ _⟩

theorem app {a m b : Int} {xs ys : List Rec} (h1 : Seg a m xs) (h2 : Seg m b ys) : Seg a b (xs ++ ys) where
  le := Int.le_trans h1.le h2.le
  from_ := mem_app h1.from_ fun x hx => Int.le_trans h1.le (h2.from_ x hx)
  to_ := mem_app (fun x hx => Int.le_trans (h1.to_ x hx) h2.le) h2.to_
  order := List.pairwise_append.2 ⟨h1.order, h2.order, fun x hx y hy =>
    Or.inl (Int.le_trans (h1.to_ x hx) (h2.from_ y hy))⟩

theorem cons {a m b : Int} {x : Rec} {ys : List Rec} (h0 : a ≤ m) (h1 : a ≤ x.off) (h2 : x.stop ≤ m) (h : Seg m b ys) :
    Seg a b (x :: ys) := app (one h0 h1 h2) h

theorem mono {a b a' b' : Int} {xs : List Rec} (h : Seg a b xs) (h1 : a' ≤ a) (h2 : b ≤ b') : Seg a' b' xs where
  le := by have := h.le; omega
  from_ := fun x hx => Int.le_trans h1 (h.from_ x hx)
  to_ := fun x hx => Int.le_trans (h.to_ x hx) h2
  order := h.order

end Seg

theorem lower_bits {k m : Nat} (h : m ≤ 2047) : (((k <<< 11 ||| m : Nat) : Int) % 2048) = m := by
  have e : k <<< 11 ||| m = 2 ^ 11 * k + m := by
    rw [Nat.shiftLeft_eq, Nat.mul_comm, ← Nat.two_pow_add_eq_or_of_lt (i := 11) (by omega)]
  rw [e]; omega

theorem attrRec_stop {n : Nat} {d : Int} {r name : List UInt8} (h : name.length ≤ 2047) :
    (attrRec n d r name).stop = offset n r + name.length := by
  simp only [Rec.stop, attrRec]
  by_cases hn : IsNs name
  · simp only [if_pos hn, lower_bits h]
  · simp only [if_neg hn, lower_bits h]

theorem textRecs_short {t : Token} {o l d : Int} (h : ∀ x ∈ textRecs t o l d, Short x) :
    textRecs t o l d = [⟨t, o, l, d⟩] := by
  simp only [textRecs] at h ⊢
  split
  · rename_i hl
    rw [if_pos hl] at h
    have hk : 1 ≤ (l.toNat - 1) / maxLen := by
      rw [Nat.le_div_iff_mul_le (by decide)]
      simp only [maxLen] at *
      omega
    generalize (l.toNat - 1) / maxLen = k at *
    have := (h ⟨t, (0 : Nat) * maxLen, maxLen, d⟩ (by
      simp only [List.mem_append, List.mem_map, List.mem_range]
      exact Or.inl ⟨0, by omega, rfl⟩)).2
    exact absurd this (Int.lt_irrefl _)
  · rfl

section
variable {n : Nat}

theorem TagRest.seg {d : Int} {seen s recs e r'} (h : TagRest n d seen s recs e r') :
    Seg (offset n s) (offset n r') recs := by
  induction h with
  | @close seen w r e r' hw hc =>
    have := hc.lt.2
    exact Seg.nil (by simp only [offset, List.length_append]; omega)
  | @attr seen w b run w1 w2 q r r1 recs e r' h1 h2 h3 h4 h5 h6 h7 h8 h9 h10 h11 h12 h13 h14 ih =>
    have e2 := h12.lt
    refine Seg.cons (m := offset n r) ?_ ?_ ?_ (Seg.cons (m := offset n r1) ?_ ?_ ?_ ih)
    · simp only [offset, List.length_append, List.length_cons]; omega
    · simp only [attrRec, offset, List.length_append, List.length_cons]; omega
    · rw [attrRec_stop (by simpa using h8)]
      simp only [offset, List.length_append, List.length_cons]; omega
    · simp only [offset]; omega
    · exact Int.le_refl _
    · simp only [Rec.stop, offset]; omega

theorem Pi.seg {d : Int} {s recs r'} (h : Pi n d s recs r') : Seg (offset n s) (offset n r') recs := by
  cases h with
  | bare h1 h2 =>
    have e2 := h1.suffix.length_le
    simp only [List.length_cons] at e2
    refine ⟨by simp only [offset]; omega, ?_, ?_, ?_⟩
    · intro x hx
      simp only [List.mem_cons, List.not_mem_nil, or_false] at hx
      obtain rfl | rfl := hx <;> exact Int.le_refl _
    · intro x hx
      simp only [List.mem_cons, List.not_mem_nil, or_false] at hx
      obtain rfl | rfl := hx <;> (simp only [Rec.stop, offset]; omega)
    · exact List.pairwise_pair.2 (Or.inr ⟨rfl, rfl, rfl, rfl⟩)
  | @value x r1 r2 h1 h2 h3 h4 h5 =>
    have e2 := h1.suffix.length_le
    simp only [List.length_cons] at e2
    have e4 := h4.two
    refine Seg.cons (m := offset n r1) ?_ (Int.le_refl _) ?_ (Seg.one ?_ (Int.le_refl _) ?_) <;>
      (simp only [Rec.stop, offset]; omega)

theorem G.seg {nt s recs} (h : G n nt s recs) (hx : ∀ x ∈ recs, Short x) : Seg (offset n (nt.pre ++ s)) n recs := by
  induction h with
  | @start pre st b run x r recs e r' recs' h1 h2 h3 h4 h5 h6 h7 h8 ih =>
    have e1 := h7.seg
    have i := ih fun y hy => hx y (by simp [hy])
    have e0 : offset n ((if e = true then next .other st else .content .start ((pre ++ b :: run) :: st)).pre ++ r') = offset n r' := by
      split
      · rw [(next_stack _ _).2]; rfl
      · rfl
    rw [e0] at i
    refine Seg.cons (m := offset n (x :: r)) ?_ (Int.le_refl _) ?_ (e1.app i)
    · simp only [NT.pre, offset, List.length_append, List.length_cons]; omega
    · simp only [Rec.stop, offset, List.length_append, List.length_cons]; omega
  | @endTag pre st r recs h1 ih =>
    exact (ih hx).mono (by simp only [NT.pre, offset, List.length_append, List.length_cons, List.nil_append]; omega) (Int.le_refl _)
  | @close name st w r recs h1 h2 ih =>
    have i := ih hx
    rw [(next_stack _ _).2] at i
    exact i.mono (by simp only [NT.pre, offset, List.length_append, List.length_cons, List.nil_append]; omega) (Int.le_refl _)
  | @comment pre st r r1 recs h1 h2 ih =>
    have e2 := h1.two
    simp only [List.length_cons] at e2
    have t := textRecs_short fun y hy => hx y (List.mem_append_left _ hy)
    rw [t] at hx ⊢
    refine Seg.cons (m := offset n r1) ?_ ?_ ?_ (ih fun y hy => hx y (by simp [hy]))
    · simp only [NT.pre, offset, List.length_append, List.length_cons]; omega
    · simp only [NT.pre, offset, List.length_append]; omega
    · simp only [Rec.stop, offset]; omega
  | @cdata pre st r r1 recs h0 h1 h2 ih =>
    have e2 := h1.two
    have t := textRecs_short fun y hy => hx y (List.mem_append_left _ hy)
    rw [t] at hx ⊢
    refine Seg.cons (m := offset n r1) ?_ ?_ ?_ (ih fun y hy => hx y (by simp [hy]))
    · simp only [NT.pre, offset, List.length_append, List.length_cons]; omega
    · simp only [NT.pre, offset, List.length_append]; omega
    · simp only [Rec.stop, offset]; omega
  | @doctype pre st r r1 w r2 recs h0 h1 h2 h3 h4 h5 ih =>
    have e2 := h1.lt
    have e3 : r2.length < r1.length := by rw [h4]; simp only [List.length_append, List.length_cons]; omega
    refine Seg.cons (m := offset n r2) ?_ ?_ ?_ (ih fun y hy => hx y (by simp [hy]))
    · simp only [NT.pre, offset, List.length_append]; omega
    · simp only [NT.pre, offset, List.length_append]; omega
    · simp only [Rec.stop, offset]; omega
  | @pi pre st r recs r1 recs' h1 h2 ih =>
    refine (h1.seg.app (ih fun y hy => hx y (by simp [hy]))).mono ?_ (Int.le_refl _)
    simp only [NT.pre, offset, List.length_append, List.length_cons]; omega
  | @markup prev st w r recs h1 h2 h3 ih =>
    exact (ih hx).mono (by simp only [NT.pre, offset, List.length_append, List.length_cons, List.nil_append]; omega) (Int.le_refl _)
  | @gap st w r recs h1 h2 ih =>
    have t := textRecs_short fun y hy => hx y (List.mem_append_left _ hy)
    rw [t] at hx ⊢
    refine Seg.cons (m := offset n r) ?_ (Int.le_refl _) ?_ (ih fun y hy => hx y (by simp [hy])) <;>
      (simp only [Rec.stop, NT.pre, offset, List.length_append, List.length_cons, List.nil_append]; omega)
  | @text prev st w b r r1 recs h0 h1 h2 h3 h4 h5 h6 ih =>
    have e2 := h5.lt
    have t := textRecs_short fun y hy => hx y (List.mem_append_left _ hy)
    rw [t] at hx ⊢
    refine Seg.cons (m := offset n r1) ?_ (Int.le_refl _) ?_ (ih fun y hy => hx y (by simp [hy])) <;>
      (simp only [Rec.stop, NT.pre, offset, List.length_append, List.length_cons, List.nil_append] at *; omega)
  | @lost st w r r1 recs h1 h2 h3 ih =>
    have := h2.suffix.length_le
    exact (ih hx).mono (by simp only [NT.pre, offset, List.length_append, List.nil_append]; omega) (Int.le_refl _)
  | done => exact Seg.nil (by simp only [offset]; omega)
  | @piEnd w r x r1 r2 recs h1 h2 h3 h4 h5 h6 h7 ih =>
    have e2 := h2.suffix.length_le
    simp only [List.length_cons] at e2
    have f2 := h5.two
    refine Seg.cons (m := offset n r1) ?_ ?_ ?_ (Seg.cons (m := offset n r2) ?_ (Int.le_refl _) ?_
      (ih fun y hy => hx y (by simp [hy]))) <;>
      (simp only [Rec.stop, NT.pre, offset, List.length_append, List.length_cons, List.nil_append] at *; omega)
  | @piCut w r r1 recs h1 h2 h3 h4 h5 h6 ih =>
    have e2 := h2.suffix.length_le
    simp only [List.length_cons] at e2
    refine Seg.cons (m := offset n r1) ?_ ?_ ?_ (Seg.cons (m := offset n r1) ?_ (Int.le_refl _) ?_
      (ih fun y hy => hx y (by simp [hy]))) <;>
      (simp only [Rec.stop, NT.pre, offset, List.length_append, List.length_cons, List.nil_append] at *; omega)

theorem Seg.two {a b : Int} {x y : Rec} (h0 : a ≤ y.off) (h1 : a ≤ x.off) (h2 : x.stop ≤ y.off) (h3 : y.stop ≤ b)
    (h4 : y.off ≤ b) : Seg a b [x, y] :=
  Seg.cons (m := y.off) h0 h1 h2 (Seg.one h4 (Int.le_refl _) h3)

theorem Version.seg {s recs r'} (h : Version n s recs r') : Seg (offset n s) (offset n r') recs := by
  cases h with
  | @mk w w' q d r h1 h2 h3 h4 =>
    refine Seg.two ?_ (Int.le_refl _) ?_ ?_ ?_ <;>
      (simp only [Rec.stop, offset, List.length_append, List.length_cons, List.length_nil]; omega)

theorem Encoding.seg {s recs r'} (h : Encoding n s recs r') : Seg (offset n s) (offset n r') recs := by
  cases h with
  | @mk w w' q e l q' w2 r h1 h2 h3 h4 h5 h6 h7 =>
    obtain ⟨l0, l1, l2⟩ := h4.len
    refine Seg.two ?_ (Int.le_refl _) ?_ ?_ ?_ <;>
      (simp only [Rec.stop, offset, List.length_append, List.length_cons, List.length_nil]; omega)

theorem Standalone.seg {s recs r'} (h : Standalone n s recs r') : Seg (offset n s) (offset n r') recs := by
  cases h with
  | @mk w w' q e l q' w2 r h1 h2 h3 h4 h5 h6 h7 =>
    have hl : 0 ≤ l ∧ l ≤ 12 ∧ l ≤ e.length := by
      obtain ⟨rfl, rfl⟩ | ⟨rfl | rfl | rfl, rfl⟩ := h4 <;> simp
    obtain ⟨l0, l1, l2⟩ := hl
    refine Seg.two ?_ (Int.le_refl _) ?_ ?_ ?_ <;>
      (simp only [Rec.stop, offset, List.length_append, List.length_cons, List.length_nil]; omega)

theorem DeclRest.seg {s recs r'} (h : DeclRest n s recs r') : Seg (offset n s) (offset n r') recs := by
  cases h with
  | none => exact Seg.nil (Int.le_refl _)
  | ws => exact Seg.nil (by simp only [offset, List.length_append]; omega)
  | enc _ _ h => exact h.seg.mono (by simp only [offset, List.length_append]; omega) (Int.le_refl _)
  | alone _ _ h => exact h.seg.mono (by simp only [offset, List.length_append]; omega) (Int.le_refl _)
  | both _ _ h h' =>
    exact (h.seg.app h'.seg).mono (by simp only [offset, List.length_append]; omega) (Int.le_refl _)

theorem Doc.seg {s recs} (h : Doc n s recs) (hx : ∀ x ∈ recs, Short x) : Seg (offset n s) n recs := by
  cases h with
  | @decl x m l s w r recs r1 recs1 w' r2 recs2 h1 h2 h3 h4 h5 h6 h7 =>
    have i := h7.seg fun y hy => hx y (by simp [hy])
    refine ((h4.seg.app h5.seg).app (i.mono ?_ (Int.le_refl _))).mono ?_ (Int.le_refl _) <;>
      (simp only [NT.pre, offset, List.length_append, List.length_cons, List.nil_append]; omega)
  | plain h1 h2 =>
    exact (h2.seg hx).mono (by simp only [NT.pre, offset, List.length_append, List.length_cons]; omega) (Int.le_refl _)
  | space _ _ h =>
    exact (h.seg hx).mono (by simp only [NT.pre, offset, List.length_append, List.length_cons, List.nil_append]; omega) (Int.le_refl _)

/-! ## How many there are -/

theorem textRecs_count (t : Token) (o l d : Int) :
    (textRecs t o l d).length ≤ 1 + l.toNat / 4 := by
  simp only [textRecs]
  split
  · simp only [List.length_append, List.length_map, List.length_range, List.length_singleton, maxLen]; omega
  · simp

theorem TagRest.count {d : Int} {seen s recs e r'} (h : TagRest n d seen s recs e r') :
    2 * recs.length + 1 + r'.length ≤ s.length := by
  induction h with
  | @close seen w r e r' hw hc =>
    have := hc.lt.2
    simp only [List.length_append, List.length_nil]; omega
  | @attr seen w b run w1 w2 q r r1 recs e r' h1 h2 h3 h4 h5 h6 h7 h8 h9 h10 h11 h12 h13 h14 ih =>
    have e2 := h12.lt
    have := List.length_pos_iff.mpr h1
    simp only [List.length_append, List.length_cons]; omega

theorem TextBody.two_of {b r r1} (h : TextBody (b :: r) r1) (hb : b ≠ ch% '<') : r1.length + 2 ≤ (b :: r).length := by
  cases h with
  | stop => exact absurd rfl hb
  | char _ h => have := h.lt; simp only [List.length_cons]; omega
  | item h1 h2 => have := h1.lt; have := h2.lt; simp only [List.length_cons] at *; omega

theorem PiTarget.count {r x r1} (h : PiTarget r x r1) : r1.length + 2 ≤ r.length := by
  cases h <;> (simp only [List.length_append, List.length_cons]; omega)

theorem PiEndTarget.count {r x r1} (h : PiEndTarget r x r1) : r1.length + 2 ≤ r.length := by
  cases h; simp only [List.length_append, List.length_cons]; omega

theorem Pi.count {d : Int} {s recs r'} (h : Pi n d s recs r') : 2 * recs.length + r'.length ≤ s.length + 1 := by
  cases h with
  | bare h1 h2 =>
    have := h1.count
    simp only [List.length_cons, List.length_nil] at *; omega
  | value h1 h2 h3 h4 h5 =>
    have := h1.count
    have := h4.two
    simp only [List.length_cons, List.length_nil] at *; omega

theorem G.count {nt s recs} (h : G n nt s recs) : 2 * recs.length ≤ s.length := by
  induction h with
  | @start pre st b run x r recs e r' recs' h1 h2 h3 h4 h5 h6 h7 h8 ih =>
    have := h7.count
    simp only [List.length_append, List.length_cons] at *; omega
  | endTag h1 ih => simp only [List.length_cons] at *; omega
  | close h1 h2 ih => simp only [List.length_append, List.length_cons] at *; omega
  | @comment pre st r r1 recs h1 h2 ih =>
    have e2 := h1.two
    have := textRecs_count .comment (offset n r) (r.length - (r1.length + 3)) (st.length - 1)
    simp only [List.length_append, List.length_cons, List.length_nil] at *; omega
  | @cdata pre st r r1 recs h0 h1 h2 ih =>
    have e2 := h1.two
    have := textRecs_count .cdataVal (offset n r) (r.length - (r1.length + 3)) (st.length - 1)
    simp only [List.length_append, List.length_cons, List.length_nil] at *; omega
  | @doctype pre st r r1 w r2 recs h0 h1 h2 h3 h4 h5 ih =>
    have e2 := h1.lt
    have e3 : r2.length < r1.length := by rw [h4]; simp only [List.length_append, List.length_cons]; omega
    simp only [List.length_append, List.length_cons, List.length_nil] at *; omega
  | pi h1 h2 ih =>
    have := h1.count
    simp only [List.length_append, List.length_cons] at *; omega
  | markup h1 h2 h3 ih => simp only [List.length_append, List.length_cons] at *; omega
  | @gap st w r recs h1 h2 ih =>
    have := textRecs_count .characterData (offset n (w ++ ch% '<' :: ch% '/' :: r)) w.length (st.length - 1)
    simp only [List.length_append, List.length_cons] at *; omega
  | @text prev st w b r r1 recs h0 h1 h2 h3 h4 h5 h6 ih =>
    have e2 := h5.two_of h3
    have := textRecs_count .characterData (offset n (w ++ b :: r)) ((w ++ b :: r).length - (r1.length + 1)) (st.length - 1)
    simp only [List.length_append, List.length_cons] at *; omega
  | lost h1 h2 h3 ih =>
    have := h2.lt
    simp only [List.length_append] at *; omega
  | done => simp
  | piEnd h1 h2 h3 h4 h5 h6 h7 ih =>
    have := h2.count
    have := h5.two
    simp only [List.length_append, List.length_cons] at *; omega
  | piCut h1 h2 h3 h4 h5 h6 ih =>
    have := h2.count
    simp only [List.length_append, List.length_cons] at *; omega

theorem Version.count {s recs r'} (h : Version n s recs r') : 2 * recs.length + r'.length ≤ s.length := by
  cases h; simp only [List.length_append, List.length_cons, List.length_nil]; omega

theorem Encoding.count {s recs r'} (h : Encoding n s recs r') : 2 * recs.length + r'.length ≤ s.length := by
  cases h; simp only [List.length_append, List.length_cons, List.length_nil]; omega

theorem Standalone.count {s recs r'} (h : Standalone n s recs r') : 2 * recs.length + r'.length ≤ s.length := by
  cases h; simp only [List.length_append, List.length_cons, List.length_nil]; omega

theorem DeclRest.count {s recs r'} (h : DeclRest n s recs r') : 2 * recs.length + r'.length ≤ s.length := by
  cases h with
  | none => simp
  | ws => simp
  | enc _ _ h => have := h.count; simp only [List.length_append]; omega
  | alone _ _ h => have := h.count; simp only [List.length_append]; omega
  | both _ _ h h' => have := h.count; have := h'.count; simp only [List.length_append]; omega

theorem Doc.count {s recs} (h : Doc n s recs) : 2 * recs.length + 1 ≤ s.length := by
  cases h with
  | @decl x m l s w r recs r1 recs1 w' r2 recs2 h1 h2 h3 h4 h5 h6 h7 =>
    have := h7.count
    have := h4.count
    have := h5.count
    simp only [List.length_append, List.length_cons, List.length_nil] at *; omega
  | plain h1 h2 => have := h2.count; simp only [List.length_append, List.length_cons]; omega
  | space _ _ h => have := h.count; simp only [List.length_append, List.length_cons]; omega

end
end Grammar
end GoVtd
