import Verif.Proofs.Parser.Elements

/-!
# Accepting runs of attributes
-/

namespace GoVtd
namespace Parser
open Paged Grammar

section
variable {c : ParserCfg} {p p' : Parser} {r r' : List UInt8} {b : UInt8} {ch : Nat}

theorem exists_span_append {P : UInt8 → Prop} {Q : List UInt8 → UInt8 → List UInt8 → Prop} {u s : List UInt8}
    (hu : ∀ b ∈ u, P b) :
    (∃ w x r', u ++ s = w ++ x :: r' ∧ (∀ b ∈ w, P b) ∧ ¬ P x ∧ Q w x r') ↔
      ∃ w x r', s = w ++ x :: r' ∧ (∀ b ∈ w, P b) ∧ ¬ P x ∧ Q (u ++ w) x r' := by
  induction u generalizing Q with
  | nil => rfl
  | cons b u ih =>
    refine (exists_span_pos (Q := Q) (hu b (by simp))).trans ?_
    exact ih (Q := fun w x r' => Q (b :: w) x r') (fun x hx => hu x (by simp [hx]))

theorem leads_skipCharSeq {seq : List Nat} (s : List UInt8) (hs : s.map UInt8.toNat = seq)
    (h : Rd c p r) {K : Bool → Parser → Prop} :
    Leads (skipCharSeq seq p) K ↔ (∃ r', r = s ++ r' ∧ K true (go c p r' p.currentChar)) ∨
      (∃ u y v x r', s = u ++ y :: v ∧ r = u ++ x :: r' ∧ x ≠ y ∧ K false (go c p (x :: r') p.currentChar)) := by
  induction s generalizing seq p r with
  | nil =>
    subst hs
    rw [List.map_nil, skipCharSeq_nil, leads_ok, h.off]
    simp only [List.nil_append, exists_eq_left']
    constructor
    · intro hk; exact Or.inl hk
    · rintro (hk | ⟨u, y, v, x, r', h1, _⟩)
      · exact hk
      · simp at h1
  | cons z s ih =>
    subst hs
    rw [List.map_cons, skipCharSeq_cons, leads_andThen, leads_skipChar h z]
    constructor
    · rintro ⟨x, t, rfl, ⟨rfl, hk⟩ | ⟨hx, hk⟩⟩
      · rw [leads_if_pos (by rfl), ih rfl (h.tail _)] at hk
        rcases hk with ⟨r', rfl, hk⟩ | ⟨u, y, v, x', r', rfl, rfl, h3, hk⟩
        · exact Or.inl ⟨r', rfl, hk⟩
        · exact Or.inr ⟨x :: u, y, v, x', r', rfl, rfl, h3, hk⟩
      · rw [leads_if_neg (by simp), M.pure_apply, leads_ok] at hk
        exact Or.inr ⟨[], z, s, x, t, rfl, rfl, hx, hk⟩
    · rintro (⟨r', rfl, hk⟩ | ⟨u, y, v, x, r', h1, rfl, h3, hk⟩)
      · refine ⟨z, s ++ r', rfl, Or.inl ⟨rfl, ?_⟩⟩
        rw [leads_if_pos (by rfl)]
        exact (ih rfl (h.tail _)).2 (Or.inl ⟨r', rfl, hk⟩)
      · cases u with
        | nil =>
          simp only [List.nil_append, List.cons.injEq] at h1
          obtain ⟨rfl, rfl⟩ := h1
          refine ⟨x, r', rfl, Or.inr ⟨h3, ?_⟩⟩
          rw [leads_if_neg (by simp), M.pure_apply, leads_ok]
          exact hk
        | cons a u =>
          simp only [List.cons_append, List.cons.injEq] at h1
          obtain ⟨rfl, rfl⟩ := h1
          refine ⟨z, u ++ x :: r', rfl, Or.inl ⟨rfl, ?_⟩⟩
          rw [leads_if_pos (by rfl)]
          exact (ih rfl (h.tail _)).2 (Or.inr ⟨u, y, v, x, r', rfl, rfl, h3, hk⟩)

theorem leads_attrNameLoop {fuel : Nat} {x0 : UInt8} (h : Rd c p r) (hcur : p.currentChar = x0.toNat)
    (ho : p.offset = pos c r) (hf : r.length + 1 < fuel) {i acc : Nat} (hi : pos c r = p.lastOffset + (i + 1))
    (ha : p.length2 = acc) {K : Unit → Parser → Prop} :
    Leads (attrNameLoop fuel p) K ↔ ∃ w x r1, x0 :: r = w ++ x :: r1 ∧ AllName w ∧ ¬ NameByte x ∧
      K () { go c p r1 x.toNat with length2 := (lastColon i acc w : Nat) } := by
  induction fuel generalizing p r i acc x0 with
  | zero => omega
  | succ fuel ih =>
    simp only [attrNameLoop, leads_bind, M.get_apply, leads_ok]
    by_cases hb : NameByte x0
    rotate_left
    · refine (leads_if_neg (by rw [hcur]; simpa using mt (isNameChar_iff _).1 hb)).trans ?_
      refine Iff.trans ?_ (exists_span_neg (Q := fun w x r1 =>
          K () { go c p r1 x.toNat with length2 := (lastColon i acc w : Nat) }) hb).symm
      rw [M.pure_apply, leads_ok, ← hcur, go_self h ho]
      simp only [lastColon]
      rw [← ha]
    refine (leads_if_pos (by rw [hcur]; exact (isNameChar_iff _).2 hb)).trans ?_
    refine Iff.trans ?_ (exists_span_pos (Q := fun w x r1 =>
          K () { go c p r1 x.toNat with length2 := (lastColon i acc w : Nat) }) hb).symm
    have key : ∀ acc', (if x0 = ch% ':' then i else acc) = acc' →
        (Leads (nextChar { p with length2 := (acc' : Int) }) (fun _ s => Leads (attrNameLoop fuel s) K) ↔
        ∃ w x r1, r = w ++ x :: r1 ∧ AllName w ∧ ¬ NameByte x ∧
          K () { go c p r1 x.toNat with length2 := (lastColon i acc (x0 :: w) : Nat) }) := by
      intro acc' hacc
      rw [leads_nextChar (c := c) (r := r) (by exact h.of_eq rfl rfl rfl rfl rfl rfl)]
      simp only [lastColon, hacc]
      cases r with
      | nil => simp
      | cons y s =>
        have hf' : s.length + 1 < fuel := by simp only [List.length_cons] at hf; omega
        have hi' : pos c s = p.lastOffset + ((i + 1 : Nat) + 1) := by rw [← pos_cons (b := y)]; omega
        have h1 : Rd c (go c { p with length2 := (acc' : Int) } s y.toNat) s :=
          (h.tail y.toNat).of_eq rfl rfl rfl rfl rfl rfl
        have := ih (x0 := y) (i := i + 1) (acc := acc') h1 rfl rfl hf' hi' rfl
        constructor
        · rintro ⟨_, _, h2, h3⟩
          cases h2
          exact this.1 h3
        · intro h3
          exact ⟨_, _, rfl, this.2 h3⟩
    by_cases hc : x0 = ch% ':'
    · refine (leads_if_pos (by exact hcur.trans (eq_nat _ hc))).trans ?_
      simp only [leads_bind, M.modify_apply, leads_ok]
      refine Iff.trans ?_ (key i (by rw [if_pos hc]))
      have : p.offset - p.lastOffset - p.enc.increment = (i : Int) := by rw [ho, h.inc, hi]; omega
      rw [this]
    · refine (leads_if_neg (by rw [hcur]; exact ne_nat _ hc)).trans ?_
      simp only [leads_bind]
      refine Iff.trans ?_ (key acc (by rw [if_neg hc]))
      rw [← ha]

/-- The `xmlns` flags after a name, `x` being the byte after it. -/
def nsAttr (a : ParserAttr) (name : List UInt8) (x : UInt8) : ParserAttr :=
  if name = str% "xmlns" ∧ (x = ch% '=' ∨ isSpaceChar x.toNat) then { a with defaultNs := true, isNs := true }
  else if str% "xmlns:" <+: name then { a with defaultNs := false, isNs := true }
  else a

theorem nsAttr_none {a : ParserAttr} {name : List UInt8} {x : UInt8} (h : ¬ (str% "xmlns" : List UInt8) <+: name) :
    nsAttr a name x = a := by
  rw [nsAttr, if_neg, if_neg]
  · exact fun h' => h (List.IsPrefix.trans ⟨[ch% ':'], rfl⟩ h')
  · rintro ⟨rfl, _⟩; exact h ⟨[], rfl⟩

/-- A list starts with another, or they differ at some place, or it is too short. -/
theorem compare_prefix (s r : List UInt8) : (∃ r', r = s ++ r') ∨
    (∃ u y v x r', s = u ++ y :: v ∧ r = u ++ x :: r' ∧ x ≠ y) ∨ ∃ y v, s = r ++ y :: v := by
  induction s generalizing r with
  | nil => exact Or.inl ⟨r, rfl⟩
  | cons y s ih =>
    cases r with
    | nil => exact Or.inr (Or.inr ⟨y, s, rfl⟩)
    | cons x r =>
      by_cases h : x = y
      · subst h
        rcases ih r with ⟨r', rfl⟩ | ⟨u, y, v, z, r', rfl, rfl, h⟩ | ⟨y, v, rfl⟩
        · exact Or.inl ⟨r', rfl⟩
        · exact Or.inr (Or.inl ⟨x :: u, y, v, z, r', rfl, rfl, h⟩)
        · exact Or.inr (Or.inr ⟨y, v, rfl⟩)
      · exact Or.inr (Or.inl ⟨[], y, s, x, r, rfl, rfl, h⟩)

theorem skipCharSeq_true {seq : List Nat} (s : List UInt8) (hs : s.map UInt8.toNat = seq)
    (h : Rd c p (s ++ r)) : skipCharSeq seq p = .ok true (go c p r p.currentChar) := by
  obtain ⟨a, q, h1, rfl, rfl⟩ := (leads_skipCharSeq (K := fun a q => a = true ∧ q = go c p r p.currentChar)
    s hs h).2 (Or.inl ⟨r, rfl, rfl, rfl⟩)
  exact h1

theorem skipCharSeq_false {seq : List Nat} {u v : List UInt8} {x y : UInt8}
    (hs : (u ++ y :: v).map UInt8.toNat = seq) (h : Rd c p (u ++ x :: r)) (hxy : x ≠ y) :
    skipCharSeq seq p = .ok false (go c p (x :: r) p.currentChar) := by
  obtain ⟨a, q, h1, rfl, rfl⟩ := (leads_skipCharSeq (K := fun a q => a = false ∧ q = go c p (x :: r) p.currentChar)
    _ hs h).2 (Or.inr ⟨u, y, v, x, r, rfl, rfl, hxy, rfl, rfl⟩)
  exact h1

theorem skipCharSeq_short {seq : List Nat} {v : List UInt8} {y : UInt8}
    (hs : (r ++ y :: v).map UInt8.toNat = seq) (h : Rd c p r) {K : Bool → Parser → Prop} :
    ¬ Leads (skipCharSeq seq p) K := by
  rw [leads_skipCharSeq _ hs h]
  rintro (⟨r', h1, _⟩ | ⟨u, y', v', x, r', h1, rfl, h3, _⟩)
  · have := congrArg List.length h1; simp at this
  · rw [List.append_assoc, List.append_cancel_left_eq, List.cons_append, List.cons.injEq] at h1
    exact h3 h1.1

theorem eq_space_iff {y : UInt8} : (y.toNat = ch% '=' ∨ isSpaceChar y.toNat) ↔ (y = ch% '=' ∨ isSpaceChar y.toNat) :=
  or_congr_left (UInt8.toNat_inj (b := ch% '='))

theorem lastColon_none {i acc : Nat} {u : List UInt8} (h : ∀ b ∈ u, b ≠ ch% ':') : lastColon i acc u = acc := by
  induction u generalizing i acc with
  | nil => rfl
  | cons b u ih =>
    simp only [lastColon, h b (by simp), if_false]
    exact ih fun x hx => h x (by simp [hx])

theorem leads_attrFullName {fuel : Nat} (h : Rd c p r) (hcur : p.currentChar = b.toNat) (hs : StartByte b)
    (ho : p.offset = pos c r) (hl : p.lastOffset = pos c (b :: r)) (h2 : p.length2 = 0)
    (hf : r.length + 1 < fuel) {K : Unit → Parser → Prop} :
    Leads (attrNsTest p) (fun _ s => Leads (attrNameLoop fuel s) K) ↔
      ∃ run x r1, r = run ++ x :: r1 ∧ AllName run ∧ ¬ NameByte x ∧
        K () { go c p r1 x.toNat with
          length2 := (lastColon 0 0 (b :: run) : Nat), at_ := nsAttr p.at_ (b :: run) x } := by
  have hpos : pos c r = p.lastOffset + ((0 : Nat) + 1) := by rw [hl, ← pos_cons (b := b) (r := r)]; omega
  simp only [attrNsTest, leads_bind, M.get_apply, leads_ok]
  by_cases hx : b = ch% 'x'
  rotate_left
  · rw [leads_if_neg (by rw [hcur]; exact ne_nat _ hx), M.pure_apply, leads_ok,
      leads_attrNameLoop h hcur ho hf hpos h2]
    refine (exists_span_pos (Q := fun w x r1 =>
          K () { go c p r1 x.toNat with length2 := (lastColon 0 0 w : Nat) }) (start_name hs)).trans ?_
    have hn : ∀ run x, nsAttr p.at_ (b :: run) x = p.at_ := by
      intro run x
      refine nsAttr_none ?_
      rintro ⟨t, ht⟩
      simp only [List.cons_append, List.cons.injEq] at ht
      exact hx ht.1.symm
    simp only [hn]
    rfl
  subst hx
  rw [leads_if_pos (by exact hcur.trans rfl)]
  simp only [leads_bind]
  have name4 : ∀ z ∈ (str% "mlns" : List UInt8), NameByte z := by
    intro z hz
    simp only [List.mem_cons, List.not_mem_nil, or_false] at hz
    rcases hz with rfl | rfl | rfl | rfl <;> exact name_of (by decide)
  rcases compare_prefix (str% "mlns") r with ⟨r', rfl⟩ | ⟨u, y, v, x, r', hu, rfl, hxy⟩ | ⟨y, v, hv⟩
  · rw [show (str% "mlns" : List Nat) = (str% "mlns" : List UInt8).map UInt8.toNat from rfl,
      skipCharSeq_true _ rfl h, leads_ok]
    simp only [if_true, leads_bind]
    have h1 := h.go (List.suffix_append (str% "mlns") r') p.currentChar
    refine Iff.trans ?_ (exists_span_append (P := NameByte) (Q := fun run x r1 => K () { go c p r1 x.toNat with
      length2 := (lastColon 0 0 (ch% 'x' :: run) : Nat), at_ := nsAttr p.at_ (ch% 'x' :: run) x }) name4).symm
    rw [leads_nextChar h1]
    cases r' with
    | nil => simp
    | cons y r' =>
      have hpos' : pos c r' = p.lastOffset + ((5 : Nat) + 1) := by
        rw [pos_append] at hpos
        rw [← pos_cons (b := y)]
        simp only [List.length_cons, List.length_nil] at hpos
        omega
      have h3 := h1.tail y.toNat
      have e0 : ∀ Q : UInt8 → List UInt8 → Prop, (∃ y' s', y :: r' = y' :: s' ∧ Q y' s') ↔ Q y r' := by
        intro Q
        constructor
        · rintro ⟨_, _, h0, hk⟩; cases h0; exact hk
        · intro hk; exact ⟨_, _, rfl, hk⟩
      rw [e0 (fun y r' => _)]
      simp only [M.get_apply, leads_ok]
      have hf' : r'.length + 1 < fuel := by simp at hf; omega
      by_cases hy : y = ch% '=' ∨ isSpaceChar y.toNat
      · have hyn : ¬ NameByte y := by
          rcases hy with rfl | hy
          · simp [Spec.NameChar, Spec.NameStartChar]
          · exact fun hn => name_not_ws hn ((isSpaceChar_iff _).1 hy)
        rw [leads_if_pos (by exact eq_space_iff.2 hy), M.modify_apply, leads_ok]
        refine (leads_attrNameLoop (c := c) (r := r') (x0 := y) (i := 5) (acc := 0) ?_ ?_ ?_ hf' ?_ ?_).trans ?_
        · exact h3.of_eq rfl rfl rfl rfl rfl rfl
        · rfl
        · rfl
        · exact hpos'
        · exact h2
        refine (exists_span_neg (Q := fun w x r1 => K () { go c { go c p r' y.toNat with
          at_ := { p.at_ with defaultNs := true, isNs := true } } r1 x.toNat with
          length2 := (lastColon 5 0 w : Nat) }) hyn).trans ?_
        refine Iff.trans ?_ (exists_span_neg (Q := fun w x r1 => K () { go c p r1 x.toNat with
          length2 := (lastColon 0 0 (ch% 'x' :: (str% "mlns" ++ w)) : Nat),
          at_ := nsAttr p.at_ (ch% 'x' :: (str% "mlns" ++ w)) x }) hyn).symm
        rw [nsAttr, if_pos ⟨rfl, hy⟩]
        rfl
      rw [leads_if_neg (by exact fun h' => hy (eq_space_iff.1 h'))]
      by_cases hc : y = ch% ':'
      · have hyn : NameByte y := by rw [hc]; exact name_of (by decide)
        rw [leads_if_pos (by exact eq_nat _ hc), M.modify_apply, leads_ok]
        refine (leads_attrNameLoop (c := c) (r := r') (x0 := y) (i := 5) (acc := 0) ?_ ?_ ?_ hf' ?_ ?_).trans ?_
        · exact h3.of_eq rfl rfl rfl rfl rfl rfl
        · rfl
        · rfl
        · exact hpos'
        · exact h2
        refine (exists_span_pos (Q := fun w x r1 => K () { go c { go c p r' y.toNat with
          at_ := { p.at_ with defaultNs := false, isNs := true } } r1 x.toNat with
          length2 := (lastColon 5 0 w : Nat) }) hyn).trans ?_
        refine Iff.trans ?_ (exists_span_pos (Q := fun w x r1 => K () { go c p r1 x.toNat with
          length2 := (lastColon 0 0 (ch% 'x' :: (str% "mlns" ++ w)) : Nat),
          at_ := nsAttr p.at_ (ch% 'x' :: (str% "mlns" ++ w)) x }) hyn).symm
        refine exists_congr fun w => exists_congr fun x => exists_congr fun r1 => and_congr_right fun hr =>
          and_congr_right fun _ => and_congr_right fun _ => ?_
        rw [nsAttr, if_neg (by simp), if_pos ⟨w, by simp [hc]⟩]
        simp only [List.cons_append, List.nil_append, lastColon]
        rfl
      · rw [leads_if_neg (by exact ne_nat _ hc), M.pure_apply, leads_ok]
        refine (leads_attrNameLoop (c := c) (r := r') (x0 := y) (i := 5) (acc := 0) h3 rfl rfl hf' hpos' h2).trans ?_
        refine exists_congr fun w => exists_congr fun x => exists_congr fun r1 => and_congr_right fun hr =>
          and_congr_right fun _ => and_congr_right fun _ => ?_
        have e1 : nsAttr p.at_ (ch% 'x' :: (str% "mlns" ++ w)) x = p.at_ := by
          rw [nsAttr, if_neg, if_neg]
          · rintro ⟨t, ht⟩
            simp only [List.cons_append, List.nil_append, List.cons.injEq, true_and] at ht
            rw [← ht, List.cons_append, List.cons.injEq] at hr
            exact hc hr.1
          · rintro ⟨ht, hx⟩
            simp only [List.cons_append, List.nil_append, List.cons.injEq, true_and] at ht
            rw [ht, List.nil_append, List.cons.injEq] at hr
            exact hy (hr.1 ▸ hx)
        rw [e1]
        simp only [List.cons_append, List.nil_append, lastColon]
        rfl
  · rw [show (str% "mlns" : List Nat) = (str% "mlns" : List UInt8).map UInt8.toNat from rfl,
      skipCharSeq_false (by rw [hu]) h hxy, leads_ok, leads_if_neg (by simp), M.pure_apply, leads_ok]
    have h1 := h.go (List.suffix_append u (x :: r')) p.currentChar
    have hu1 : ∀ z ∈ u, NameByte z := fun z hz => name4 z (by rw [hu]; simp [hz])
    refine Iff.trans ?_ (exists_span_append (P := NameByte) (Q := fun run x r1 => K () { go c p r1 x.toNat with
      length2 := (lastColon 0 0 (ch% 'x' :: run) : Nat), at_ := nsAttr p.at_ (ch% 'x' :: run) x }) hu1).symm
    rw [leads_attrNameLoop (i := u.length) (acc := 0) h1 hcur rfl (by simp at hf ⊢; omega)
      (by rw [pos_append] at hpos; rw [go_lastOffset]; omega) h2]
    refine (exists_span_pos (Q := fun w x r1 => K () { go c (go c p (x :: r') p.currentChar) r1 x.toNat with
      length2 := (lastColon u.length 0 w : Nat) }) (start_name hs)).trans ?_
    refine exists_congr fun w => exists_congr fun z => exists_congr fun r1 => and_congr_right fun hr =>
      and_congr_right fun _ => and_congr_right fun _ => ?_
    have e1 : nsAttr p.at_ (ch% 'x' :: (u ++ w)) z = p.at_ := by
      refine nsAttr_none ?_
      rintro ⟨t, ht⟩
      have ht' : (str% "mlns" : List UInt8) ++ t = u ++ w := (List.cons.inj ht).2
      rw [hu, List.append_assoc, List.append_cancel_left_eq] at ht'
      rw [← ht', List.cons_append, List.cons_append, List.cons.injEq] at hr
      exact hxy hr.1
    have e2 : lastColon 0 0 (ch% 'x' :: (u ++ w)) = lastColon u.length 0 (ch% 'x' :: w) := by
      have hu2 : ∀ z ∈ u, z ≠ ch% ':' := by
        intro z hz
        have : z ∈ (str% "mlns" : List UInt8) := by rw [hu]; simp [hz]
        revert this
        simp only [List.mem_cons, List.not_mem_nil, or_false]
        rintro (rfl | rfl | rfl | rfl) <;> decide
      simp only [lastColon]
      rw [lastColon_append, lastColon_none hu2, Nat.add_comm]
      rfl
    rw [e1, e2]
    rfl
  · rw [show (str% "mlns" : List Nat) = (str% "mlns" : List UInt8).map UInt8.toNat from rfl]
    constructor
    · exact fun hk => (skipCharSeq_short (y := y) (v := v) (by rw [hv]) h hk).elim
    · rintro ⟨run, x, r1, rfl, _, hx, _⟩
      exact (hx (name4 x (by rw [hv]; simp))).elim

/-! ## Uniqueness -/

theorem Slots.get {R : BitVec 64 → List UInt8 → Prop} {ts : List (BitVec 64)} {st : List (List UInt8)}
    (h : Slots R ts st) {k : Nat} {name : List UInt8} (hk : st.reverse[k]? = some name) :
    ∃ e, ts[k]? = some e ∧ R e name := by
  induction st with
  | nil => simp at hk
  | cons n st ih =>
    rw [List.reverse_cons] at hk
    by_cases hl : k < st.length
    · rw [List.getElem?_append_left (by simpa using hl)] at hk
      exact ih h.2 hk
    · have : k < (st.reverse ++ [n]).length := by
        rcases Nat.lt_or_ge k (st.reverse ++ [n]).length with h' | h'
        · exact h'
        · rw [List.getElem?_eq_none h'] at hk; simp at hk
      have hk' : k = st.length := by simp at this; omega
      subst hk'
      rw [List.getElem?_append_right (by simp)] at hk
      simp at hk
      subst hk
      exact h.1

theorem uniqueLoop_at (hp : p.cfg = c) {seen : List (List UInt8)} (hs : Slots (AttAt c) p.at_.attrNameSlice seen)
    {name s : List UInt8} (hn : name ++ s <:+ c.xmlDoc) (hl : p.length1 = name.length)
    (ho : p.lastOffset = pos c (name ++ s)) (n i : Nat) (hi : i + n = seen.length) (u : Bool) :
    uniqueLoop n i u p = .ok (u && decide (name ∉ seen.reverse.drop i)) p := by
  induction n generalizing i u with
  | zero =>
    have : seen.reverse.drop i = [] := List.drop_eq_nil_of_le (by simp; omega)
    simp [uniqueLoop, this]
  | succ n ih =>
    have hlt : i < seen.reverse.length := by simp; omega
    obtain ⟨e, he, s', hs', h2, h3⟩ := hs.get (List.getElem?_eq_getElem hlt)
    generalize hnm : seen.reverse[i] = nm at *
    have hd : seen.reverse.drop i = nm :: seen.reverse.drop (i + 1) := by
      rw [List.drop_eq_getElem_cons hlt, hnm]
    have hlt2 : i < p.at_.attrNameSlice.length := by
      rcases Nat.lt_or_ge i p.at_.attrNameSlice.length with h' | h'
      · exact h'
      · rw [List.getElem?_eq_none h'] at he; simp at he
    rw [List.getElem?_eq_getElem hlt2] at he
    simp only [uniqueLoop, M.bind_apply, M.get_apply, Res.andThen_ok]
    rw [M.index_of_lt _ _ _ (by omega) (by simpa using hlt2)]
    simp only [Res.andThen_ok, M.ite_apply, M.bind_apply, Int.toNat_natCast, Option.some.inj he, h2, h3, hl, ho]
    have hcast : (i : Int) + 1 = ((i + 1 : Nat) : Int) := by omega
    rw [hd, hcast]
    by_cases hle : name.length = nm.length
    · rw [if_pos (by rw [hle])]
      rw [sameBytes_at hp nm s' (name ++ s) hs' hn (by simp; omega), Res.andThen_ok, ih (i + 1) (by omega)]
      have e1 : (nm <+: name ++ s) ↔ nm = name := by
        constructor
        · rintro ⟨t, ht⟩
          exact (List.append_inj ht hle.symm).1
        · rintro rfl; exact List.prefix_append _ _
      congr 1
      simp only [e1, List.mem_cons]
      by_cases hnn : nm = name
      · simp [hnn]
      · have : ¬ name = nm := fun h => hnn h.symm
        simp [hnn, this]
    · rw [if_neg (by omega), ih (i + 1) (by omega)]
      have : ¬ name = nm := fun h => hle (by rw [h])
      congr 1
      simp [this]

/-- The word for `name` in the list of attributes. -/
def attWord (c : ParserCfg) (name s : List UInt8) : BitVec 64 :=
  (BitVec.ofInt 64 (pos c (name ++ s)) <<< 32) ||| BitVec.ofInt 64 (name.length : Int)

theorem leads_checkUnique (hp : p.cfg = c) (hns : c.nsAware = false) {seen : List (List UInt8)}
    (hs : Slots (AttAt c) p.at_.attrNameSlice seen) (hc : p.at_.attrCount = seen.length)
    (hal : p.at_.attrNameSlice.length = 256)
    {name s : List UInt8} (hn : name ++ s <:+ c.xmlDoc) (hl : p.length1 = name.length)
    (ho : p.lastOffset = pos c (name ++ s)) {K : Unit → Parser → Prop} :
    Leads (checkAttrUniqueness p) K ↔ name ∉ seen ∧ seen.length < 256 ∧ K () { p with
      at_ := { p.at_ with
        attrNameSlice := p.at_.attrNameSlice.set seen.length (attWord c name s), attrCount := seen.length + 1 } } := by
  simp only [checkAttrUniqueness, leads_bind, M.get_apply, leads_ok]
  rw [hc, Int.toNat_natCast, show (0 : Int) = ((0 : Nat) : Int) from rfl,
    uniqueLoop_at hp hs hn hl ho seen.length 0 (by omega), leads_ok]
  simp only [List.drop_zero, List.mem_reverse, Bool.true_and, decide_eq_false_iff_not, Decidable.not_not]
  by_cases hm : name ∈ seen
  · have : seen.length ≠ 0 := by
      intro h0; rw [List.length_eq_zero_iff.1 h0] at hm; simp at hm
    rw [leads_if_pos ⟨hm, by omega⟩]
    simp [hm]
  · rw [leads_if_neg (by simp [hm])]
    simp only [hm, not_false_iff, true_and]
    by_cases hlt : seen.length < 256
    · have e := setAt_nat (v := (BitVec.ofInt 64 p.lastOffset <<< 32) ||| BitVec.ofInt 64 p.length1)
        (xs := p.at_.attrNameSlice) (n := seen.length) (by rw [hal]; exact hlt)
      rw [e]
      simp only [hlt, true_and, leads_bind, M.modify_apply, leads_ok]
      rw [pushPrefixedAttr_eq (by rw [hp]; exact hns), leads_ok, hl, ho, hc]
      rfl
    · have e : setAt p.at_.attrNameSlice (seen.length : Int)
          ((BitVec.ofInt 64 p.lastOffset <<< 32) ||| BitVec.ofInt 64 p.length1) = none := by
        rw [setAt, if_pos (by rw [hal]; omega)]
      rw [e]
      simp only [hlt, false_and]
      exact leads_panic

theorem leads_writeAttrName (h : Rd c p r) (hns : c.nsAware = false) {l2 l1 : Nat} (h2 : p.length2 = l2)
    (h1 : p.length1 = l1) {K : Unit → Parser → Prop} :
    Leads (writeAttrName p) K ↔ l2 ≤ 511 ∧ l1 ≤ 2047 ∧ K () { p with
      out := emit c.shallowDepth p.out
        [⟨if p.at_.isNs then .attrNs else .attrName, p.lastOffset, ((l2 <<< 11 ||| l1 : Nat) : Int), p.depth⟩] } := by
  have hn : p.cfg.nsAware = false := by rw [h.cfg]; exact hns
  simp only [writeAttrName, leads_bind, M.get_apply, leads_ok, hn, Bool.false_eq_true, false_and, and_false, if_false,
    h.single, if_true, M.pure_apply]
  have e1 : (maxPrefixLength : Int) = 511 := rfl
  have e2 : (maxQnameLength : Int) = 2047 := rfl
  by_cases hc : l2 ≤ 511 ∧ l1 ≤ 2047
  · refine (leads_if_neg (by rw [h1, h2, e1, e2]; omega)).trans ?_
    simp only [hc.1, hc.2, true_and]
    have e3 : shlOr p.length2 11 p.length1 = ((l2 <<< 11 ||| l1 : Nat) : Int) := by
      rw [h1, h2]; exact shlOr_nat hc.1 hc.2 (by omega)
    rw [e3, writeVtd_emit h.toBase.out c.shallowDepth _ _ _ _ (by split <;> decide), leads_ok]
  · refine (leads_if_pos (by rw [h1, h2, e1, e2]; omega)).trans ?_
    simp only [leads_parseErr]
    constructor
    · exact False.elim
    · rintro ⟨h3, h4, _⟩; exact hc ⟨h3, h4⟩

theorem eq_ws_false {x : UInt8} (hx : x = ch% '=') : ¬ Ws x := by rw [hx]; simp [Spec.S]

/-- The part of `attrNameEnd` from the equals sign. -/
theorem leads_attrEq (h : Rd c p r) {x : UInt8} (hcur : p.currentChar = x.toNat) {K : PState → Parser → Prop} :
    Leads ((do
      let p ← M.get
      if p.currentChar ≠ ch% '=' then parseErr InvalidChar
      else do
        nextCharAfterWs
        let p ← M.get
        if p.currentChar ≠ ch% '"' ∧ p.currentChar ≠ ch% '\'' then
          parseErr (InvalidChar ++ " should be ' or \" ")
        else do
          markOffset
          pure .attrVal : M Parser PState) p) K ↔ x = ch% '=' ∧ ∃ w2 q r2, r = w2 ++ q :: r2 ∧ AllWs w2 ∧
      (q = ch% '"' ∨ q = ch% '\'') ∧ K .attrVal (go c { p with lastOffset := pos c r2 } r2 q.toNat) := by
  simp only [leads_bind, M.get_apply, leads_ok]
  by_cases hx : x = ch% '='
  rotate_left
  · rw [leads_if_pos (by rw [hcur]; exact ne_nat _ hx), leads_parseErr]
    simp [hx]
  rw [leads_if_neg (by simpa using hcur.trans (eq_nat _ hx)), leads_bind, leads_nextWs h]
  simp only [hx, true_and]
  constructor
  · rintro ⟨w, q, r2, rfl, hw, hq, hk⟩
    simp only [leads_bind, M.get_apply, leads_ok] at hk
    by_cases hqq : q = ch% '"' ∨ q = ch% '\''
    · rw [leads_if_neg ?_] at hk
      · simp only [leads_bind, markOffset, M.modify_apply, leads_ok, M.pure_apply] at hk
        exact ⟨w, q, r2, rfl, hw, hqq, hk⟩
      · rintro ⟨h1, h2⟩
        rcases hqq with rfl | rfl
        · exact h1 rfl
        · exact h2 rfl
    · rw [leads_if_pos ?_, leads_parseErr] at hk
      · exact hk.elim
      · exact ⟨ne_nat _ fun h' => hqq (Or.inl h'), ne_nat _ fun h' => hqq (Or.inr h')⟩
  · rintro ⟨w, q, r2, rfl, hw, hqq, hk⟩
    refine ⟨w, q, r2, rfl, hw, by rcases hqq with rfl | rfl <;> simp [Spec.S], ?_⟩
    simp only [leads_bind, M.get_apply, leads_ok]
    rw [leads_if_neg ?_]
    · simp only [leads_bind, markOffset, M.modify_apply, leads_ok, M.pure_apply]
      exact hk
    · rintro ⟨h1, h2⟩
      rcases hqq with rfl | rfl
      · exact h1 rfl
      · exact h2 rfl

theorem leads_attrNameEnd (h : Rd c p r) {x : UInt8} (hcur : p.currentChar = x.toNat)
    {K : PState → Parser → Prop} :
    Leads (attrNameEnd p) K ↔ ∃ w1 w2 q r2, x :: r = w1 ++ ch% '=' :: w2 ++ q :: r2 ∧ AllWs w1 ∧ AllWs w2 ∧
      (q = ch% '"' ∨ q = ch% '\'') ∧
      K .attrVal (go c { p with length2 := 0, lastOffset := pos c r2 } r2 q.toNat) := by
  have h0 : Rd c { p with length2 := 0 } r := h.of_eq rfl rfl rfl rfl rfl rfl
  have e : (∃ w1 w2 q r2, x :: r = w1 ++ ch% '=' :: w2 ++ q :: r2 ∧ AllWs w1 ∧ AllWs w2 ∧
      (q = ch% '"' ∨ q = ch% '\'') ∧
      K .attrVal (go c { p with length2 := 0, lastOffset := pos c r2 } r2 q.toNat)) ↔
      ∃ w1 y s, x :: r = w1 ++ y :: s ∧ (∀ b ∈ w1, Ws b) ∧ ¬ Ws y ∧ (y = ch% '=' ∧
        ∃ w2 q r2, s = w2 ++ q :: r2 ∧ AllWs w2 ∧ (q = ch% '"' ∨ q = ch% '\'') ∧
        K .attrVal (go c { p with length2 := 0, lastOffset := pos c r2 } r2 q.toNat)) := by
    constructor
    · rintro ⟨w1, w2, q, r2, h1, h2, h3, h4, h5⟩
      exact ⟨w1, ch% '=', w2 ++ q :: r2, by rw [h1]; simp, h2, eq_ws_false rfl, rfl, w2, q, r2, rfl, h3, h4, h5⟩
    · rintro ⟨w1, y, s, h1, h2, _, rfl, w2, q, r2, rfl, h3, h4, h5⟩
      exact ⟨w1, w2, q, r2, by rw [h1]; simp, h2, h3, h4, h5⟩
  rw [e]
  simp only [attrNameEnd, leads_bind, M.modify_apply, M.get_apply, leads_ok]
  by_cases hw : Ws x
  · rw [leads_if_pos (by rw [show _ = p.currentChar from rfl, hcur]; exact (isSpaceChar_iff _).2 hw)]
    rw [exists_span_pos (P := Ws) (Q := fun _ y s => y = ch% '=' ∧
        ∃ w2 q r2, s = w2 ++ q :: r2 ∧ AllWs w2 ∧ (q = ch% '"' ∨ q = ch% '\'') ∧
        K .attrVal (go c { p with length2 := 0, lastOffset := pos c r2 } r2 q.toNat)) hw]
    simp only [leads_bind]
    rw [leads_nextWs h0]
    refine exists_congr fun w => exists_congr fun y => exists_congr fun s => and_congr_right fun hr =>
      and_congr_right fun _ => and_congr_right fun _ => ?_
    have h1 := h0.go (r' := s) (by rw [hr]; exact suffix_append_cons _ _ _) y.toNat
    exact leads_bind.symm.trans (leads_attrEq h1 rfl)
  · rw [leads_if_neg (by rw [show _ = p.currentChar from rfl, hcur]; simpa using mt (isSpaceChar_iff _).1 hw)]
    rw [exists_span_neg (P := Ws) (Q := fun _ y s => y = ch% '=' ∧
        ∃ w2 q r2, s = w2 ++ q :: r2 ∧ AllWs w2 ∧ (q = ch% '"' ∨ q = ch% '\'') ∧
        K .attrVal (go c { p with length2 := 0, lastOffset := pos c r2 } r2 q.toNat)) hw]
    exact leads_attrEq h0 hcur

/-- The `xmlns` flags after a name. -/
def nsSet (a : ParserAttr) (name : List UInt8) : ParserAttr :=
  if name = str% "xmlns" then { a with defaultNs := true, isNs := true }
  else if str% "xmlns:" <+: name then { a with defaultNs := false, isNs := true }
  else a

theorem nsAttr_eq {a : ParserAttr} {name : List UInt8} {x : UInt8} (hx : x = ch% '=' ∨ Ws x) :
    nsAttr a name x = nsSet a name := by
  have : x = ch% '=' ∨ isSpaceChar x.toNat := hx.imp_right (isSpaceChar_iff _).2
  simp only [nsAttr, nsSet, this, and_true]

theorem nsSet_isNs {a : ParserAttr} {name : List UInt8} (h : a.isNs = false) : (nsSet a name).isNs = true ↔ IsNs name := by
  unfold nsSet IsNs
  split
  · simp [*]
  · split <;> simp [*]

theorem nsSet_slice {a : ParserAttr} {name : List UInt8} : (nsSet a name).attrNameSlice = a.attrNameSlice := by
  unfold nsSet; split; · rfl
  split <;> rfl

theorem nsSet_count {a : ParserAttr} {name : List UInt8} : (nsSet a name).attrCount = a.attrCount := by
  unfold nsSet; split; · rfl
  split <;> rfl

theorem nsAttr_slice {a : ParserAttr} {name : List UInt8} {x} : (nsAttr a name x).attrNameSlice = a.attrNameSlice := by
  unfold nsAttr; split; · rfl
  split <;> rfl

theorem nsAttr_count {a : ParserAttr} {name : List UInt8} {x} : (nsAttr a name x).attrCount = a.attrCount := by
  unfold nsAttr; split; · rfl
  split <;> rfl

theorem eq_or_ws {x : UInt8} {r w s : List UInt8} (hw : AllWs w) (h : x :: r = w ++ ch% '=' :: s) :
    x = ch% '=' ∨ Ws x := by
  cases w with
  | nil => simp at h; exact Or.inl h.1
  | cons a w => simp at h; rw [h.1]; exact Or.inr (hw a (by simp))

theorem attrRec_eq {a : ParserAttr} {name : List UInt8} (h : a.isNs = false) {n : Nat} {d : Int} {s : List UInt8} :
    (⟨if (nsSet a name).isNs then .attrNs else .attrName, Grammar.offset n s,
      ((lastColon 0 0 name <<< 11 ||| name.length : Nat) : Int), d⟩ : Rec) = attrRec n d s name := by
  unfold attrRec
  by_cases hh : IsNs name
  · rw [if_pos hh, if_pos ((nsSet_isNs h).2 hh)]
  · rw [if_neg hh, if_neg (mt (nsSet_isNs h).1 hh)]

theorem leads_attrFull (h : Rd c p r) (hcur : p.currentChar = b.toNat) (hs : StartByte b)
    (ho : p.offset = pos c r) (hl : p.lastOffset = pos c (b :: r)) (h2 : p.length2 = 0)
    (hf : r.length + 1 < p.loopFuel) {K : Unit → Parser → Prop} :
    Leads (attrNsTest p) (fun _ s => Leads (M.get s) fun a s => Leads (attrNameLoop a.loopFuel s) K) ↔
      ∃ run x r1, r = run ++ x :: r1 ∧ AllName run ∧ ¬ NameByte x ∧
        K () { go c p r1 x.toNat with
          length2 := (lastColon 0 0 (b :: run) : Nat), at_ := nsAttr p.at_ (b :: run) x } := by
  have hrd : p.offset = p.rd.offset := by rw [ho, h.off]
  have hcfg : ∀ u s, attrNsTest p = .ok u s → s.cfg = c := by
    intro u s hh
    have := attrNsTest_ok h.toBase hrd (by rw [hcur]; exact (isNameChar_iff _).2 (start_name hs))
    rw [hh] at this
    obtain ⟨_, _, _, _, _, hb, _⟩ := this
    exact hb.cfg
  refine (leads_congr (K' := fun _ s => Leads (attrNameLoop p.loopFuel s) K) fun u s hh => ?_).trans ?_
  · rw [M.get_apply, leads_ok, Parser.loopFuel, Parser.loopFuel, hcfg u s hh, h.cfg]
  exact leads_attrFullName h hcur hs ho hl h2 hf

theorem leads_attrName (h : Rd c p r) (hns : c.nsAware = false) (hcur : p.currentChar = b.toNat) (hs : StartByte b)
    (ho : p.offset = pos c r) (hl : p.lastOffset = pos c (b :: r)) (hsuf : b :: r <:+ c.xmlDoc)
    {st seen : List (List UInt8)} (hc : Ctx c p st seen) {K : PState → Parser → Prop} :
    Leads (processAttrName p) K ↔ ∃ run w1 w2 q r2, r = run ++ w1 ++ ch% '=' :: w2 ++ q :: r2 ∧ AllName run ∧
      (b :: run) ∉ seen ∧ seen.length < 256 ∧ lastColon 0 0 (b :: run) ≤ 511 ∧ run.length + 1 ≤ 2047 ∧
      AllWs w1 ∧ AllWs w2 ∧ (q = ch% '"' ∨ q = ch% '\'') ∧
      K .attrVal (go c { p with
        length1 := ((run.length + 1 : Nat) : Int), length2 := 0, lastOffset := pos c r2,
        at_ := { nsSet p.at_ (b :: run) with
          attrNameSlice := p.at_.attrNameSlice.set seen.length
            (attWord c (b :: run) (w1 ++ ch% '=' :: w2 ++ q :: r2)),
          attrCount := seen.length + 1 },
        out := emit c.shallowDepth p.out [attrRec c.xmlDoc.length p.depth (b :: r) (b :: run)] } r2 q.toNat) := by
  have hn : p.cfg.nsAware = false := by rw [h.cfg]; exact hns
  have hcc : CtxCore c p.tagStack p.at_ p.depth p.length2 st seen := hc
  have hfuel : r.length + 1 < p.loopFuel := by
    have := hsuf.length_le
    simp only [Parser.loopFuel, h.cfg, List.length_cons] at *; omega
  simp only [processAttrName, leads_bind]
  rw [leads_attrFull h hcur hs ho hl hcc.len2 hfuel]
  have step : ∀ run x r1, r = run ++ x :: r1 → (Leads (getPrevOffset { go c p r1 x.toNat with
          length2 := (lastColon 0 0 (b :: run) : Nat), at_ := nsAttr p.at_ (b :: run) x }) (fun a s =>
        Leads (M.modify (fun p => { p with length1 := a - p.lastOffset }) s) fun _ s =>
        Leads (attrNsDecl s) fun _ s => Leads (checkAttrUniqueness s) fun _ s => Leads (writeAttrName s) fun _ s =>
        Leads (attrNameEnd s) K) ↔ ((b :: run) ∉ seen ∧ seen.length < 256 ∧ lastColon 0 0 (b :: run) ≤ 511 ∧
          run.length + 1 ≤ 2047 ∧ ∃ w1 w2 q r2, x :: r1 = w1 ++ ch% '=' :: w2 ++ q :: r2 ∧ AllWs w1 ∧ AllWs w2 ∧
      (q = ch% '"' ∨ q = ch% '\'') ∧ K .attrVal (go c { p with
        length1 := ((run.length + 1 : Nat) : Int), length2 := 0, lastOffset := pos c r2,
        at_ := { nsSet p.at_ (b :: run) with
          attrNameSlice := p.at_.attrNameSlice.set seen.length (attWord c (b :: run) (x :: r1)),
          attrCount := seen.length + 1 },
        out := emit c.shallowDepth p.out [attrRec c.xmlDoc.length p.depth (b :: r) (b :: run)] } r2 q.toNat))) := by
    intro run x r1 hr
    have h1 : Rd c (go c p r1 x.toNat) r1 := h.go (by rw [hr]; exact suffix_append_cons _ _ _) _
    have h2 : Rd c { go c p r1 x.toNat with
          length2 := (lastColon 0 0 (b :: run) : Nat), at_ := nsAttr p.at_ (b :: run) x } r1 :=
      h1.of_eq rfl rfl rfl rfl rfl rfl
    have el : pos c r1 - 1 - p.lastOffset = ((run.length + 1 : Nat) : Int) := by
      rw [hl, hr, ← List.cons_append, pos_append, ← pos_cons (b := x)]; simp; omega
    rw [getPrevOffset_eq h2.toBase]
    simp only [leads_ok, M.modify_apply]
    rw [attrNsDecl_eq (by exact hn), leads_ok]
    refine (leads_checkUnique (c := c) (seen := seen) (name := b :: run) (s := x :: r1) ?_ hns ?_ ?_ ?_ ?_ ?_ ?_).trans ?_
    · exact h2.cfg
    · simp only [nsAttr_slice]; exact hcc.atts
    · simp only [nsAttr_count]; exact hcc.count
    · simp only [nsAttr_slice]; exact hcc.attLen
    · rw [hr] at hsuf; exact hsuf
    · exact el
    · exact hl.trans (by rw [hr]; rfl)
    refine and_congr_right fun _ => and_congr_right fun _ => ?_
    refine (leads_writeAttrName (c := c) (r := r1) (l2 := lastColon 0 0 (b :: run)) (l1 := run.length + 1)
      ?_ hns rfl el).trans ?_
    · exact h2.of_eq rfl rfl rfl rfl rfl rfl
    refine and_congr_right fun _ => and_congr_right fun _ => ?_
    refine (leads_attrNameEnd (c := c) (r := r1) (x := x) ?_ rfl).trans ?_
    · refine Rd.emit (c := c) ?_ _
      exact h2.of_eq rfl rfl rfl rfl rfl rfl
    refine exists_congr fun w1 => exists_congr fun w2 => exists_congr fun q => exists_congr fun r2 =>
      and_congr_right fun hx => and_congr_right fun hw1 => and_congr_right fun _ => and_congr_right fun _ => ?_
    have hxx := eq_or_ws (s := w2 ++ q :: r2) hw1 (by rw [hx]; simp)
    rw [← attrRec_eq hcc.noNs (name := b :: run), ← el]
    simp only [nsAttr_eq hxx, nsSet_slice]
    simp only [go, mv, hl]
    rfl
  constructor
  · rintro ⟨run, x, r1, hr, hrun, hx, hk⟩
    obtain ⟨h1, h2, h3, h4, w1, w2, q, r2, h5, h6, h7, h8, h9⟩ := (step run x r1 hr).1 hk
    rw [h5] at h9
    exact ⟨run, w1, w2, q, r2, by rw [hr, h5]; simp, hrun, h1, h2, h3, h4, h6, h7, h8, h9⟩
  · rintro ⟨run, w1, w2, q, r2, hr, hrun, h1, h2, h3, h4, h6, h7, h8, h9⟩
    obtain ⟨x, r1, h5⟩ : ∃ x r1, w1 ++ ch% '=' :: w2 ++ q :: r2 = x :: r1 := by
      cases w1 with
      | nil => exact ⟨_, _, rfl⟩
      | cons a w => exact ⟨_, _, rfl⟩
    have hr' : r = run ++ x :: r1 := by rw [hr, ← h5]; simp
    refine ⟨run, x, r1, hr', hrun, ?_, (step run x r1 hr').2 ⟨h1, h2, h3, h4, w1, w2, q, r2, h5.symm, h6, h7, h8, ?_⟩⟩
    · rcases eq_or_ws (s := w2 ++ q :: r2) h6 (by rw [← h5]; simp) with rfl | hw
      · exact fun hh => absurd ((isNameChar_iff _).2 hh) (by decide)
      · exact fun hh => name_not_ws hh hw
    · rw [← h5]; exact h9

/-- Another attribute after a value. -/
def nextAttr : M Parser PState := do
  M.modify fun p => { p with lastOffset := p.offset - p.enc.increment }
  pure .attrName

theorem leads_nextAttr (h : Rd c p r) {K : PState → Parser → Prop} :
    Leads (nextAttr p) K ↔ K .attrName { p with lastOffset := p.offset - 1 } := by
  simp only [nextAttr, leads_bind, M.modify_apply, leads_ok, M.pure_apply, h.inc]

theorem _root_.GoVtd.Grammar.AttrBody.lt {q : UInt8} {r' : List UInt8} (h : AttrBody q r r') :
    r'.length < r.length := by
  cases h with
  | stop => simp
  | char _ _ _ _ h => have := h.suffix.length_le; simp; omega
  | ref h1 h2 => have := h1.suffix.length_le; have := h2.suffix.length_le; simp; omega

theorem leads_attrVal (h : Rd c p r) (hns : c.nsAware = false) {q : UInt8} (hq : q = ch% '"' ∨ q = ch% '\'')
    (hcur : p.currentChar = q.toNat) (hl : p.lastOffset = pos c r) {K : PState → Parser → Prop} :
    Leads (processAttrVal p) K ↔ ∃ r1, AttrBody q r r1 ∧ r.length - (r1.length + 1) ≤ maxLen ∧
      ∃ x r2, r1 = x :: r2 ∧ Leads (tagTail nextAttr attrValEnd (go c { p with
        length1 := ((r.length - (r1.length + 1) : Nat) : Int),
        at_ := { p.at_ with isXml := false, isNs := false },
        out := emit c.shallowDepth p.out
          [⟨.attrVal, pos c r, ((r.length - (r1.length + 1) : Nat) : Int), p.depth⟩] } r2 x.toNat)) K := by
  have hn : p.cfg.nsAware = false := by rw [h.cfg]; exact hns
  simp only [processAttrVal, leads_bind]
  refine (leads_ok _ _).trans ?_
  rw [show attrValLoop p.currentChar = attrValLoop q.toNat by rw [hcur]]
  refine (leads_of_iff (fun _ _ => attrValLoop_iff hq h (h.fuel h.cfg))).trans ?_
  refine exists_congr fun r1 => and_congr_right fun hb => ?_
  have h1 : Rd c (go c p r1 q.toNat) r1 := h.go hb.suffix _
  have hlt := hb.lt
  have el : pos c r1 - p.lastOffset - 1 = ((r.length - (r1.length + 1) : Nat) : Int) := by
    rw [hl]; simp only [pos, Grammar.offset]; omega
  refine (leads_ok _ _).trans ?_
  rw [attrValNs_eq (by exact hn)]
  refine (leads_ok _ _).trans ?_
  simp only [go_offset, h1.inc]
  refine (leads_writeCheck (c := c) ?_ _ (by decide) _).trans ?_
  · exact h1.base
  refine and_congr (by show pos c r1 - p.lastOffset - 1 ≤ (maxLen : Int) ↔ _; rw [el]; exact Int.ofNat_le) ?_
  refine (leads_ok _ _).trans ?_
  refine (leads_nextChar (c := c) (r := r1) ?_).trans ?_
  · exact Rd.of_eq (Rd.emit h1 _) rfl rfl rfl rfl rfl rfl
  refine exists_congr fun x => exists_congr fun r2 => and_congr_right fun hr2 => ?_
  rw [← el, ← hl]
  exact leads_bind.symm

end
end Parser
end GoVtd
