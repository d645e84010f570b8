import Verif.Spec.Order
import Verif.Props.Split
import Verif.Props.NsOnly
import Verif.Proofs.Parser.Order

/-!
# Property C61: the order of the tokens

`Verif/Props/Written.lean` has what is true.
-/

namespace GoVtd
open Parser Grammar

theorem docRec_seg {o n : Int} {recs : List Rec} (ho : 0 ≤ o) (h : Seg o n recs) : Seg 0 n (docRec :: recs) :=
  Seg.cons (m := o) ho (Int.le_refl _) ho h

/-- The length field of the record of an empty CDATA section closed by one bracket is full. -/
theorem Rec.bad_length {doc : List UInt8} {x : Rec} (h : RecOk doc x) (hl : doc.length < 2 ^ 31) (hb : x.Bad) :
    tokenLength x.word = 2 ^ 20 - 1 := by
  have hlt := x.word.isLt
  have : 0xFFFFFFFF00000000 ≤ x.word.toNat := by
    simp only [Rec.word, vtdRecord, hb.2]
    have e : BitVec.ofInt 64 (-1) = BitVec.allOnes 64 := by decide
    rw [e, BitVec.or_allOnes, BitVec.toNat_or]
    exact Nat.le_trans (by decide) Nat.left_le_or
  simp only [tokenLength]
  omega

theorem Rec.short {doc : List UInt8} {x : Rec} (h : RecOk doc x) (hl : doc.length < 2 ^ 31)
    (hs : tokenLength x.word < 2 ^ 20 - 1) : ¬ x.Bad ∧ Short x := by
  by_cases hb : x.Bad
  · rw [Rec.bad_length h hl hb] at hs; exact absurd hs (Nat.lt_irrefl _)
  · have h1 := (Rec.fields h hl hb).2.2.1
    have h2 := (RecOk.bounds h hb).1
    refine ⟨hb, h2, ?_⟩
    simp only [maxLen]; omega

theorem Rec.stop_word {doc : List UInt8} {x : Rec} (h : RecOk doc x) (hl : doc.length < 2 ^ 31) (hb : ¬ x.Bad) :
    (tokenEnd x.word : Int) = x.stop := by
  obtain ⟨_, _, e3, e4, e5⟩ := Rec.fields h hl hb
  have h0 := h.off
  have h1 := (RecOk.bounds h hb).1
  simp only [tokenEnd, e3, e4, e5, isStart_iff h hl, isAttr_iff h hl]
  by_cases c1 : x.tok = .startingTag
  · rw [if_pos c1]
    simp only [Rec.stop, c1]; omega
  · rw [if_neg c1]
    by_cases c2 : x.tok = .attrName ∨ x.tok = .attrNs
    · rw [if_pos c2]
      rcases c2 with c | c <;> (simp only [Rec.stop, c]; omega)
    · rw [if_neg c2]
      simp only [not_or] at c2
      have : x.stop = x.off + x.len := by
        simp only [Rec.stop]
        split <;> simp_all
      omega

/-- Records in order are words in order. -/
theorem words_order {doc : List UInt8} {recs : List Rec} (hok : ∀ x ∈ recs, RecOk doc x) (hl : doc.length < 2 ^ 31)
    (hs : ∀ w ∈ recs.map Rec.word, tokenLength w < 2 ^ 20 - 1) (h : recs.Pairwise Before) :
    (recs.map Rec.word).Pairwise fun v w => tokenEnd v ≤ tokenOffset w ∨
      NoData v w ∧ tokenOffset v = tokenOffset w := by
  rw [List.pairwise_map]
  refine List.Pairwise.imp_of_mem ?_ h
  intro x y hx hy hb
  obtain ⟨bx, sx⟩ := Rec.short (hok x hx) hl (hs _ (List.mem_map_of_mem hx))
  obtain ⟨by', sy⟩ := Rec.short (hok y hy) hl (hs _ (List.mem_map_of_mem hy))
  have f1 := Rec.fields (hok x hx) hl bx
  have f2 := Rec.fields (hok y hy) hl by'
  have f3 := Rec.stop_word (hok x hx) hl bx
  have h0 := (hok y hy).off
  rcases hb with hb | ⟨h1, h2, h3, h4⟩
  · exact Or.inl (by omega)
  · refine Or.inr ⟨⟨?_, ?_, ?_⟩, ?_⟩
    · rw [f1.1, h1]
    · rw [f2.1, h2]
    · rw [f2.2.2.1, h3]; rfl
    · rw [f1.2.2.2.1, f2.2.2.2.1, h4]

/-- C61 is false for every text of more than 2^20-1 bytes: `<a>` and `</a>` around `k` letters. -/
theorem C61_refuted (fuel k : Nat) (h1 : maxLen < k) (h2 : k < 2 ^ 30) :
    ∃ ws, parsedTokens fuel [.xmlDoc (some (Tree.wrap (Tree.tag "a") (xs k).bytes))] = some ws ∧
      ¬ ws.Pairwise fun v w => tokenOffset v ≤ tokenOffset w := by
  have hl : (Tree.wrap (Tree.tag "a") (xs k).bytes).length < 2 ^ 31 := by
    rw [Tree.wrap, xs_bytes]
    simp only [List.length_append, List.length_cons, List.length_replicate]
    have h1 : (Tree.tag "a").bytes.length = 2 := rfl
    have h2 : (Tree.tag "a").name.length = 1 := rfl
    simp only [h1, h2, List.length_nil]; omega
  obtain ⟨rs, e1, _, e3⟩ := C47_exact fuel _ _ 0 (select_whole _ hl) hl (Tree.tag "a") (by decide +kernel)
    (by decide +kernel) (xs k) (xs_ok k).1 (xs_ok k).2 rfl
  refine ⟨_, e1, fun hp => ?_⟩
  have hk : (xs k).bytes.length = k := by rw [xs_bytes]; simp
  rw [hk, if_neg (by omega)] at e3
  cases rs with
  | nil => simp only [Covers] at e3; omega
  | cons w rs =>
    obtain ⟨e4, _⟩ := e3
    have := (List.pairwise_append.1 hp).2.2 (Rec.word ⟨.startingTag, 1, 1, 0⟩) (by decide +kernel) w (by simp)
    rw [e4] at this
    exact absurd this (by decide)

/-- Non-vacuity of C61_refuted. -/
example : maxLen < 2 ^ 20 ∧ 2 ^ 20 < 2 ^ 30 := by decide

end GoVtd
