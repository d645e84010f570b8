import Verif.Proofs.Parser.NsPost

/-!
# What the checks of a start tag say of the records so far
-/

namespace GoVtd
namespace Parser
namespace Sound
open Paged Grammar Two Ev

variable {D : List UInt8} {A B V xs : List (BitVec 64)} {w w0 : BitVec 64} {i : Nat}

/-- The offset of the last colon of the name of a record, or 0. -/
def colonAt (D : List UInt8) (w : BitVec 64) : Nat := lastColon 0 0 (qname D w)
/-- The bytes before and after it. -/
def prefixOf (D : List UInt8) (w : BitVec 64) : List UInt8 := (qname D w).take (colonAt D w)
@[inherit_doc prefixOf]
def localOf (D : List UInt8) (w : BitVec 64) : List UInt8 := (qname D w).drop (colonAt D w + 1)

/-- The record of an attribute name with a prefix other than `xml`. -/
def Pfx (D : List UInt8) (w : BitVec 64) : Prop :=
  tokenType w = Token.attrName.code ∧ colonAt D w ≠ 0 ∧ ¬ (colonAt D w = 3 ∧ str% "xml" <+: qname D w)

instance : Decidable (Pfx D w) := by unfold Pfx; infer_instance

/-- A document in which the comparison of two namespace names that are equal never ends. -/
def Calm (D : List UInt8) : Prop := Two.Quiet D ∧ D.length < 2 ^ 31

/-- The records of finished start tags: every prefix is declared, and the local names of the attributes with a prefix
are different. -/
structure Done (D : List UInt8) (V : List (BitVec 64)) : Prop where
  attr : ∀ (i : Nat) w, V[i]? = some w → Pfx D w → Declared D V i (prefixOf D w)
  elem : ∀ (i : Nat) w n, V[i]? = some w → IsStart w → ElementName D w n → lastColon 0 0 n ≠ 0 →
    Declared D V i (n.take (lastColon 0 0 n)) ∨ str% "xml" <+: n ∧ (lastColon 0 0 n = 3 ∨ lastColon 0 0 n = 7)
  uniq : Calm D → ∀ (i k : Nat) w z, V[i]? = some w → V[k]? = some z → i < k → Pfx D w → Pfx D z →
    (∀ (m : Nat) y, i < m → m ≤ k → V[m]? = some y → ¬ IsStart y) → localOf D w ≠ localOf D z

theorem lt_of_some {V : List (BitVec 64)} (h : V[i]? = some w) : i < V.length := (List.getElem?_eq_some_iff.mp h).1

theorem declared_append {p : List UInt8} (h : Declared D V i p) : Declared D (V ++ xs) i p := by
  obtain ⟨j, w, h1, h2, h3⟩ := h
  have hj := lt_of_some h1
  refine ⟨j, w, by rw [List.getElem?_append_left hj]; exact h1, h2, fun k z hk hkj hz => ?_⟩
  rw [List.getElem?_append_left (by omega)] at hz
  exact h3 k z hk hkj hz

theorem append_cases {i : Nat} (h : (V ++ xs)[i]? = some w) : V[i]? = some w ∨ V.length ≤ i ∧ xs[i - V.length]? = some w := by
  rcases Nat.lt_or_ge i V.length with hi | hi
  · rw [List.getElem?_append_left hi] at h; exact .inl h
  · rw [List.getElem?_append_right hi] at h; exact .inr ⟨hi, h⟩

theorem done_nil : Done D [] := by
  refine ⟨?_, ?_, ?_⟩
  · intro i w h; simp at h
  · intro i w n h; simp at h
  · intro _ i k w z h; simp at h

/-- Records that are neither start tags nor attribute names. -/
theorem Done.append (h : Done D V) (hx : ∀ w ∈ xs, ¬ IsStart w ∧ tokenType w ≠ Token.attrName.code) : Done D (V ++ xs) := by
  refine ⟨?_, ?_, ?_⟩
  · intro i w hi hp
    rcases append_cases hi with hi | ⟨-, hi⟩
    · exact declared_append (h.attr i w hi hp)
    · exact absurd hp.1 (hx w (List.mem_of_getElem? hi)).2
  · intro i w n hi hs hn hc
    rcases append_cases hi with hi | ⟨-, hi⟩
    · exact (h.elem i w n hi hs hn hc).imp declared_append id
    · exact absurd hs (hx w (List.mem_of_getElem? hi)).1
  · intro hq i k w z hi hk hik hw hz hs
    rcases append_cases hk with hk | ⟨-, hk⟩
    · rcases append_cases hi with hi | ⟨hi, -⟩
      · refine h.uniq hq i k w z hi hk hik hw hz fun m y h1 h2 h3 => hs m y h1 h2 ?_
        rw [List.getElem?_append_left (lt_of_some h3)]; exact h3
      · have := lt_of_some hk; omega
    · exact absurd hz.1 (hx z (List.mem_of_getElem? hk)).2

/-- A start tag is finished. -/
theorem Done.close (h : Done D A) (h0 : IsStart w0) (hB : ∀ w ∈ B, ¬ IsStart w)
    (ha : ∀ w ∈ B, Pfx D w → ∃ d ∈ A ++ w0 :: B, Declares D d (prefixOf D w))
    (he : ∀ n, ElementName D w0 n → lastColon 0 0 n ≠ 0 → (∃ d ∈ A ++ w0 :: B, Declares D d (n.take (lastColon 0 0 n))) ∨
      str% "xml" <+: n ∧ (lastColon 0 0 n = 3 ∨ lastColon 0 0 n = 7))
    (hu : Calm D → (B.filter fun w => Pfx D w).Pairwise fun w z => localOf D w ≠ localOf D z) :
    Done D (A ++ w0 :: B) := by
  have n0 : tokenType w0 ≠ Token.attrName.code := fun e => by
    rcases h0 with h0
    simp only [IsStart] at h0
    rw [e] at h0
    revert h0
    decide
  have key : ∀ i p, A.length ≤ i → (∃ d ∈ A ++ w0 :: B, Declares D d p) → Declared D (A ++ w0 :: B) i p := by
    rintro i p hi ⟨d, hd, hp⟩
    obtain ⟨j, hj⟩ := List.mem_iff_getElem?.mp hd
    refine ⟨j, d, hj, hp, fun k z h1 h2 h3 => ?_⟩
    rcases append_cases h3 with h3 | ⟨-, h3⟩
    · have := lt_of_some h3; omega
    · rw [show k - A.length = (k - A.length - 1) + 1 by omega, List.getElem?_cons_succ] at h3
      exact hB z (List.mem_of_getElem? h3)
  have inB : ∀ {k z}, A.length ≤ k → (w0 :: B)[k - A.length]? = some z → Pfx D z →
      A.length < k ∧ B[k - A.length - 1]? = some z := by
    intro k z hk hz hp
    rcases Nat.lt_or_ge A.length k with hl | hl
    · refine ⟨hl, ?_⟩
      rw [show k - A.length = (k - A.length - 1) + 1 by omega, List.getElem?_cons_succ] at hz
      exact hz
    · rw [show k - A.length = 0 by omega] at hz
      cases hz
      exact absurd hp.1 n0
  refine ⟨?_, ?_, ?_⟩
  · intro i w hi hp
    rcases append_cases hi with hi | ⟨hl, hi⟩
    · exact declared_append (h.attr i w hi hp)
    · exact key i _ hl (ha w (List.mem_of_getElem? (inB hl hi hp).2) hp)
  · intro i w n hi hs hn hc
    rcases append_cases hi with hi | ⟨hl, hi⟩
    · exact (h.elem i w n hi hs hn hc).imp declared_append id
    · have e : w = w0 := by
        rcases Nat.lt_or_ge A.length i with hl' | hl'
        · rw [show i - A.length = (i - A.length - 1) + 1 by omega, List.getElem?_cons_succ] at hi
          exact absurd hs (hB w (List.mem_of_getElem? hi))
        · rw [show i - A.length = 0 by omega] at hi
          cases hi; rfl
      subst e
      exact (he n hn hc).imp (key i _ hl) id
  · intro hq i k w z hi hk hik hw hz hs
    rcases append_cases hk with hk | ⟨hlk, hk⟩
    · rcases append_cases hi with hi | ⟨hi, -⟩
      · refine h.uniq hq i k w z hi hk hik hw hz fun m y h1 h2 h3 => hs m y h1 h2 ?_
        rw [List.getElem?_append_left (lt_of_some h3)]; exact h3
      · have := lt_of_some hk; omega
    · rcases append_cases hi with hi | ⟨hli, hi⟩
      · have hil := lt_of_some hi
        exact absurd h0 (hs A.length w0 hil hlk (by rw [List.getElem?_append_right (Nat.le_refl _), Nat.sub_self]; rfl))
      · obtain ⟨ki, hi⟩ := inB hli hi hw
        obtain ⟨kk, hk⟩ := inB hlk hk hz
        have := List.pairwise_filter.mp (hu hq)
        rw [List.pairwise_iff_getElem] at this
        obtain ⟨a1, a2⟩ := List.getElem?_eq_some_iff.mp hi
        obtain ⟨b1, b2⟩ := List.getElem?_eq_some_iff.mp hk
        have := this _ _ a1 b1 (by omega)
        rw [a2, b2] at this
        exact this (decide_eq_true hw) (decide_eq_true hz)

/-! ## The declarations -/

/-- No declaration redefines `xml` or `xmlns`, and the value of each is not empty. -/
def Decls (D : List UInt8) (V : List (BitVec 64)) : Prop := ∀ (i : Nat) w q, V[i]? = some w → Declares D w q →
  q ≠ str% "xml" ∧ q ≠ str% "xmlns" ∧ ∃ v, V[i + 1]? = some v ∧ tokenType v = Token.attrVal.code ∧ 0 < tokenLength v

theorem decls_nil : Decls D [] := by intro i w q h; simp at h

theorem Decls.append (h : Decls D V) (hx : ∀ w ∈ xs, ∀ q, ¬ Declares D w q) : Decls D (V ++ xs) := by
  intro i w q hi hq
  rcases append_cases hi with hi | ⟨-, hi⟩
  · obtain ⟨h1, h2, v, h3, h4⟩ := h i w q hi hq
    exact ⟨h1, h2, v, by rw [List.getElem?_append_left (lt_of_some h3)]; exact h3, h4⟩
  · exact absurd hq (hx w (List.mem_of_getElem? hi) q)

/-- A declaration and its value. -/
theorem Decls.pair {v : BitVec 64} (h : Decls D V) (hv : tokenType v = Token.attrVal.code)
    (hw : ∀ q, Declares D w q → q ≠ str% "xml" ∧ q ≠ str% "xmlns" ∧ 0 < tokenLength v) : Decls D (V ++ [w] ++ [v]) := by
  intro i w' q hi hq
  rcases append_cases hi with hi | ⟨hl, hi⟩
  · rcases append_cases hi with hi | ⟨hl, hi⟩
    · obtain ⟨h1, h2, v, h3, h4⟩ := h i w' q hi hq
      exact ⟨h1, h2, v, by rw [List.append_assoc, List.getElem?_append_left (lt_of_some h3)]; exact h3, h4⟩
    · have e : i = V.length := by have := lt_of_some hi; simp at this; omega
      subst e
      rw [Nat.sub_self] at hi
      cases hi
      obtain ⟨h1, h2, h3⟩ := hw q hq
      refine ⟨h1, h2, v, ?_, hv, h3⟩
      rw [List.getElem?_append_right (by simp)]
      simp
  · have e : i - (V ++ [w]).length = 0 := by have := lt_of_some hi; simp at this ⊢; omega
    rw [e] at hi
    cases hi
    have := hq.type
    rw [hv] at this
    exact absurd this (by decide)

theorem declares_colon {q : List UInt8} (h : Declares D w q) : colonAt D w ≠ 0 ∧ q = localOf D w := by
  have key : ∀ u, u ≠ [] → qname D w = u ++ ch% ':' :: q → colonAt D w ≠ 0 ∧ q = localOf D w := by
    intro u hu e
    have hs : Splits (qname D w) u q := ⟨e, h.colon, hu⟩
    have hc : colonAt D w = u.length := splits_colon hs
    have h0 : colonAt D w ≠ 0 := by rw [hc]; exact fun e => hu (List.eq_nil_of_length_eq_zero e)
    exact ⟨h0, (splits_unique hs (colon_splits h0).1).2⟩
  rcases h.name with e | ⟨u, e⟩
  · exact key (str% "xmlns") (by decide) (by rw [e]; rfl)
  · exact key (str% "xmlns:" ++ u) (by simp) e

/-- The name of a declaration. -/
theorem declares_of (ht : tokenType w = Token.attrNs.code) (hn : str% "xmlns:" <+: qname D w) : Declares D w (localOf D w) := by
  obtain ⟨r, hr⟩ := hn
  obtain ⟨q, hq⟩ : ∃ q, Declares D w q := by
    obtain ⟨h1, -⟩ | ⟨a, b, h1, h2, -⟩ := lastColon_cases 0 0 r
    · exact ⟨r, ht, .inl hr.symm, h1⟩
    · exact ⟨b, ht, .inr ⟨a, by rw [← hr, h1, List.append_assoc]⟩, h2⟩
  rw [← (declares_colon hq).2]
  exact hq

end Sound
end Parser
end GoVtd
