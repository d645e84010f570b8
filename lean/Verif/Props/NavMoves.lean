import Verif.Props.NavFail

/-!
# Properties C26 and C27: moves below the cached levels
-/

namespace GoVtd
open Paged VtdNav

/-- The navigator holds the tokens `ts` on one page. -/
structure OnePage (exps : List Int) (ts : List Tok) (n : VtdNav) : Prop where
  over : NavOver exps (packAll ts) n
  fits : ∀ t ∈ ts, t.Fits
  page : ts.length ≤ 2 ^ pageExp exps

/-- The cursor is on level `c` at token `i`. -/
structure CursorAt (n : VtdNav) (c i : Nat) : Prop where
  notTerminal : n.atTerminal = false
  level : n.context[0]? = some (c : Int)
  entry : n.context[c]? = some (i : Int)

namespace VtdNav

theorem OnePage.size {exps ts n} (h : OnePage exps ts n) : n.vtdBuffer.getSize = ts.length := by
  rw [h.over.fill]; simp [getSize, Paged.fill, packAll]

theorem OnePage.type {exps ts n} (h : OnePage exps ts n) {k : Nat} {t : Tok}
    (hk : ts[k]? = some t) : getTokenType k n = .ok (t.type.code : Int) n ∧
      getTokenDepth k n = .ok t.depth n := by
  obtain ⟨hlt, hget⟩ := List.getElem?_eq_some_iff.mp hk
  have hp := h.page
  have := C18_read exps (packAll ts) n h.over k
    ⟨by omega, by rw [show (2 : Int) ^ pageExp exps = ((2 ^ pageExp exps : Nat) : Int) by simp]; omega⟩
    t (h.fits t (List.mem_of_getElem? hk)) (by simp [packAll, hk])
  exact ⟨this.1, this.2.2.1⟩

theorem code_start (t : Token) : (t.code : Int) = (Token.startingTag.code : Int) ↔
    t = .startingTag := by
  cases t <;> simp [Token.code]

theorem firstChildLoop_eq {exps ts n} (h : OnePage exps ts n) {c i : Nat}
    (hc : n.context[0]? = some (c : Int)) (hroom : c + 1 < n.context.length)
    (fuel k : Nat) (hk : i < k) (hf : ts.length < k + fuel) (hf0 : 0 < fuel)
    (hinv : ∀ k', i < k' → k' < k → ∀ d', StartAt ts k' d' → (c : Int) + 1 < d') :
    (∃ j : Nat, IsFirstChild ts i c j ∧ firstChildLoop fuel k n = .ok true
      { n with context := (n.context.set 0 ((c : Int) + 1)).set (c + 1) (j : Int) }) ∨
    ((¬∃ j, IsChild ts i c j) ∧ firstChildLoop fuel k n = .ok false n) := by
  induction fuel generalizing k with
  | zero => omega
  | succ fuel ih =>
    have hl : 0 < n.context.length := by omega
    simp only [firstChildLoop, M.bind_apply, M.get_apply, Res.andThen_ok, M.ite_apply, OnePage.size h]
    by_cases hlt : k < ts.length
    · rw [if_pos (by omega)]
      have hget : ts[k]? = some ts[k] := by simp [hlt]
      obtain ⟨ht, hd⟩ := OnePage.type h hget
      simp only [M.catchErr_apply, M.bind_apply, ht, Res.andThen_ok, M.pure_apply, Res.handle_ok]
      rw [hd]
      simp only [Res.andThen_ok]
      rw [M.bind_apply, ctx_of (Int.le_refl 0) hc]
      simp only [Res.andThen_ok, M.ite_apply, code_start]
      have hnext : (∀ d', StartAt ts k d' → (c : Int) + 1 < d') →
          ∀ k', i < k' → k' < k + 1 → ∀ d', StartAt ts k' d' → (c : Int) + 1 < d' := by
        intro hk0 k' h1 h2 d' hd'
        by_cases hkk : k' = k
        · exact hk0 d' (hkk ▸ hd')
        · exact hinv k' h1 (by omega) d' hd'
      by_cases hs : ts[k].type = .startingTag
      · rw [if_pos hs]
        have hst : StartAt ts k ts[k].depth := ⟨_, hget, hs, rfl⟩
        by_cases h1 : ts[k].depth ≤ (c : Int)
        · rw [if_pos h1]
          right
          refine ⟨?_, rfl⟩
          rintro ⟨j, hj1, hj2, hj3⟩
          rcases Nat.lt_trichotomy j k with hjk | hjk | hjk
          · have := hinv j hj1 hjk _ hj2; omega
          · subst hjk
            obtain ⟨t, ht, -, hdt⟩ := hj2
            rw [hget] at ht; cases ht; omega
          · have := hj3 k hk hjk _ hst; omega
        · rw [if_neg h1]
          by_cases h2 : ts[k].depth = (c : Int) + 1
          · rw [if_pos h2]
            left
            refine ⟨k, ⟨⟨hk, h2 ▸ hst, ?_⟩, ?_⟩, ?_⟩
            · intro k' h1 h2 d' hd'; have := hinv k' h1 h2 d' hd'; omega
            · intro j' ⟨hj1, hj2, hj3⟩
              apply Nat.not_lt.mp
              intro hjk
              have := hinv j' hj1 hjk _ hj2; omega
            · rw [M.bind_apply, setCtx_of (Int.le_refl 0) hl]
              simp only [Res.andThen_ok]
              rw [M.bind_apply, setCtx_of (by omega) (by simp; omega)]
              rfl
          · rw [if_neg h2]
            refine ih (k + 1) (by omega) (by omega) (by omega) (hnext ?_)
            rintro d' ⟨t, ht, -, hdt⟩
            rw [hget] at ht; cases ht; omega
      · rw [if_neg hs]
        refine ih (k + 1) (by omega) (by omega) (by omega) (hnext ?_)
        rintro d' ⟨t, ht, hst, -⟩
        rw [hget] at ht; cases ht; exact absurd hst hs
    · rw [if_neg (by omega)]
      right
      refine ⟨?_, rfl⟩
      rintro ⟨j, hj1, hj2, -⟩
      obtain ⟨t, ht, -, hdt⟩ := id hj2
      have := (List.getElem?_eq_some_iff.mp ht).1
      have := hinv j hj1 (by omega) _ hj2; omega

theorem lastChildLoop_eq {exps ts n} (h : OnePage exps ts n) {c i : Nat}
    (hc : n.context[0]? = some (c : Int))
    (fuel k : Nat) (last : Option Nat) (hk : i < k) (hf : ts.length < k + fuel) (hf0 : 0 < fuel)
    (hinv : ∀ k', i < k' → k' < k → ∀ d', StartAt ts k' d' → (c : Int) < d')
    (hnone : last = none → ∀ j, j < k → ¬IsChild ts i c j)
    (hsome : ∀ l, last = some l → IsChild ts i c l ∧ ∀ j, j < k → IsChild ts i c j → j ≤ l) :
    (∃ j : Nat, IsLastChild ts i c j ∧
      lastChildLoop fuel k ((last.map Int.ofNat).getD (-1)) n = .ok (some (j : Int)) n) ∨
    ((¬∃ j, IsChild ts i c j) ∧
      lastChildLoop fuel k ((last.map Int.ofNat).getD (-1)) n = .ok (some (-1)) n) := by
  induction fuel generalizing k last with
  | zero => omega
  | succ fuel ih =>
    -- no child at or after `k`
    have done : (∀ j, IsChild ts i c j → j < k) →
        (∃ j : Nat, IsLastChild ts i c j ∧
          (.ok (some ((last.map Int.ofNat).getD (-1))) n : Res VtdNav (Option Int)) =
            .ok (some (j : Int)) n) ∨
        ((¬∃ j, IsChild ts i c j) ∧
          (.ok (some ((last.map Int.ofNat).getD (-1))) n : Res VtdNav (Option Int)) =
            .ok (some (-1)) n) := by
      intro hall
      cases last with
      | none => exact .inr ⟨fun ⟨j, hj⟩ => hnone rfl j (hall j hj) hj, rfl⟩
      | some l =>
        obtain ⟨h1, h2⟩ := hsome l rfl
        exact .inl ⟨l, ⟨h1, fun j hj => h2 j (hall j hj) hj⟩, rfl⟩
    simp only [lastChildLoop, M.bind_apply, M.get_apply, Res.andThen_ok, M.ite_apply, OnePage.size h]
    by_cases hlt : k < ts.length
    · rw [if_pos (by omega)]
      have hget : ts[k]? = some ts[k] := by simp [hlt]
      obtain ⟨ht, hd⟩ := OnePage.type h hget
      simp only [M.catchErr_apply, M.bind_apply, ht, Res.andThen_ok, M.pure_apply, Res.handle_ok]
      rw [hd]
      simp only [Res.andThen_ok]
      rw [M.bind_apply, ctx_of (Int.le_refl 0) hc]
      simp only [Res.andThen_ok, M.ite_apply, code_start]
      have hnext : (∀ d', StartAt ts k d' → (c : Int) < d') →
          ∀ k', i < k' → k' < k + 1 → ∀ d', StartAt ts k' d' → (c : Int) < d' := by
        intro hk0 k' h1 h2 d' hd'
        by_cases hkk : k' = k
        · exact hk0 d' (hkk ▸ hd')
        · exact hinv k' h1 (by omega) d' hd'
      -- token `k` is not a child: the invariant for `last` carries over
      have skip : ¬IsChild ts i c k → (last = none → ∀ j, j < k + 1 → ¬IsChild ts i c j) ∧
          (∀ l, last = some l → IsChild ts i c l ∧ ∀ j, j < k + 1 → IsChild ts i c j → j ≤ l) := by
        intro hnk
        refine ⟨fun hl j hj hch => ?_, fun l hl => ⟨(hsome l hl).1, fun j hj hch => ?_⟩⟩
        · by_cases hjk : j = k
          · exact hnk (hjk ▸ hch)
          · exact hnone hl j (by omega) hch
        · by_cases hjk : j = k
          · exact absurd (hjk ▸ hch) hnk
          · exact (hsome l hl).2 j (by omega) hch
      by_cases hs : ts[k].type = .startingTag
      · rw [if_pos hs]
        have hst : StartAt ts k ts[k].depth := ⟨_, hget, hs, rfl⟩
        by_cases h1 : ts[k].depth ≤ (c : Int)
        · rw [if_pos h1]
          apply done
          rintro j ⟨hj1, hj2, hj3⟩
          rcases Nat.lt_trichotomy j k with hjk | hjk | hjk
          · exact hjk
          · subst hjk
            obtain ⟨t, ht, -, hdt⟩ := hj2
            rw [hget] at ht; cases ht; omega
          · have := hj3 k hk hjk _ hst; omega
        · rw [if_neg h1]
          by_cases h2 : ts[k].depth = (c : Int) + 1
          · rw [if_pos h2]
            have hch : IsChild ts i c k := ⟨hk, h2 ▸ hst, hinv⟩
            have := ih (k + 1) (some k) (by omega) (by omega) (by omega) (hnext ?_) (by simp) ?_
            · exact this
            · rintro d' ⟨t, ht, -, hdt⟩
              rw [hget] at ht; cases ht; omega
            · intro l hl
              cases hl
              exact ⟨hch, fun j hj _ => by omega⟩
          · rw [if_neg h2]
            obtain ⟨s1, s2⟩ := skip (by
              rintro ⟨-, ⟨t, ht, -, hdt⟩, -⟩
              rw [hget] at ht; cases ht; omega)
            refine ih (k + 1) last (by omega) (by omega) (by omega) (hnext ?_) s1 s2
            rintro d' ⟨t, ht, -, hdt⟩
            rw [hget] at ht; cases ht; omega
      · rw [if_neg hs]
        have hns : ∀ d', ¬StartAt ts k d' := by
          rintro d' ⟨t, ht, hst, -⟩
          rw [hget] at ht; cases ht; exact hs hst
        obtain ⟨s1, s2⟩ := skip (fun hch => hns _ hch.2.1)
        exact ih (k + 1) last (by omega) (by omega) (by omega)
          (hnext fun d' hd' => absurd hd' (hns d')) s1 s2
    · rw [if_neg (by omega)]
      apply done
      rintro j ⟨hj1, ⟨t, ht, -, -⟩, -⟩
      have := (List.getElem?_eq_some_iff.mp ht).1
      omega

theorem prevSiblingLoop_eq {exps ts n} (h : OnePage exps ts n) {c i par : Nat}
    (hc : n.context[0]? = some (c : Int)) (hc0 : 0 < c) (hlen : c < n.context.length)
    (hpar : n.context[c - 1]? = some (par : Int)) (hi : i ≤ ts.length)
    (fuel : Nat) (k : Int) (hk : k < i) (hf : k - par < fuel) (hf0 : 0 < fuel)
    (hinv : ∀ k' : Nat, k < k' → k' < i → ¬StartAt ts k' c) :
    (∃ j : Nat, IsPrevSibling ts par i c j ∧ prevSiblingLoop fuel k n = .ok true
      { n with context := n.context.set c (j : Int) }) ∨
    ((¬∃ j, IsPrevSibling ts par i c j) ∧ prevSiblingLoop fuel k n = .ok false n) := by
  induction fuel generalizing k with
  | zero => omega
  | succ fuel ih =>
    simp only [prevSiblingLoop, M.bind_apply]
    rw [ctx_of (Int.le_refl 0) hc]
    simp only [Res.andThen_ok]
    rw [M.bind_apply, ctx_of (v := (par : Int)) (by omega)
      (by rw [show ((c : Int) - 1).toNat = c - 1 by omega]; exact hpar)]
    simp only [Res.andThen_ok, M.ite_apply, gt_iff_lt]
    by_cases hlt : (par : Int) < k
    · rw [if_pos hlt]
      obtain ⟨m, rfl⟩ : ∃ m : Nat, k = m := ⟨k.toNat, by omega⟩
      have hml : m < ts.length := by omega
      have hget : ts[m]? = some ts[m] := by simp [hml]
      obtain ⟨ht, hd⟩ := OnePage.type h hget
      simp only [M.catchErr_apply, M.bind_apply, ht, Res.andThen_ok, M.pure_apply, Res.handle_ok]
      rw [hd]
      simp only [Res.andThen_ok, M.ite_apply, code_start]
      have hnext : ¬StartAt ts m c → ∀ k' : Nat, (m : Int) - 1 < k' → k' < i → ¬StartAt ts k' c := by
        intro hm k' h1 h2
        by_cases hkm : k' = m
        · rw [hkm]; exact hm
        · exact hinv k' (by omega) h2
      by_cases hs : ts[m].type = .startingTag
      · rw [if_pos hs]
        have hst : StartAt ts m ts[m].depth := ⟨_, hget, hs, rfl⟩
        by_cases h1 : ts[m].depth = (c : Int)
        · rw [if_pos h1]
          left
          refine ⟨m, ⟨by omega, by omega, h1 ▸ hst, fun k' hk1 hk2 => hinv k' (by omega) hk2⟩, ?_⟩
          rw [M.bind_apply, setCtx_of (by omega) (by simp; omega)]
          rfl
        · rw [if_neg h1]
          refine ih _ (by omega) (by omega) (by omega) (hnext ?_)
          rintro ⟨t, ht, -, hdt⟩
          rw [hget] at ht; cases ht; omega
      · rw [if_neg hs]
        refine ih _ (by omega) (by omega) (by omega) (hnext ?_)
        rintro ⟨t, ht, hst, -⟩
        rw [hget] at ht; cases ht; exact hs hst
    · rw [if_neg hlt]
      right
      refine ⟨?_, rfl⟩
      rintro ⟨j, h1, h2, h3, -⟩
      exact hinv j (by omega) h2 h3

end VtdNav

/-- The current index after a child move to token `j`. -/
theorem getCurrentIndex_moved {n : VtdNav} {c i : Nat} (h : CursorAt n c i)
    (hroom : c + 1 < n.context.length) (j : Nat) :
    (getCurrentIndex { n with
      context := (n.context.set 0 ((c : Int) + 1)).set (c + 1) (j : Int) }).outcome =
      .value (j : Int) := by
  have hl : 0 < n.context.length := by omega
  have h0 : ({ n with context := (n.context.set 0 ((c : Int) + 1)).set (c + 1) (j : Int) } :
      VtdNav).context[0]? = some ((c : Int) + 1) := by
    show ((n.context.set 0 ((c : Int) + 1)).set (c + 1) (j : Int))[0]? = _
    rw [List.getElem?_set_ne (by omega)]; simp [hl]
  rw [getCurrentIndex_level (by exact h.notTerminal) h0 (by omega), if_neg (by omega)]
  rw [show ((c : Int) + 1).toNat = c + 1 by omega]
  simp [hroom]

/-! ## C26 -/

/-- The state after the move. -/
theorem toFirst_eq (exps : List Int) (ts : List Tok) (n : VtdNav) (h : OnePage exps ts n)
    (c i : Nat) (hc : 3 ≤ c) (hcur : CursorAt n c i) (hroom : c + 1 < n.context.length) :
    (∃ j : Nat, IsFirstChild ts i c j ∧ n.toElement Direction.firstChild = .ok true
      { n with context := (n.context.set 0 ((c : Int) + 1)).set (c + 1) (j : Int) }) ∨
    ((¬∃ j, IsChild ts i c j) ∧ n.toElement Direction.firstChild = .ok false n) := by
  have hunf : n.toElement Direction.firstChild =
      firstChildLoop ((n.vtdBuffer.getSize - ((i : Int) + 1)).toNat + 1) ((i : Int) + 1) n := by
    show toChildElement Direction.firstChild n = _
    simp only [toChildElement, M.bind_apply, M.get_apply, Res.andThen_ok]
    rw [if_neg (by simp [hcur.notTerminal]), M.bind_apply, ctx_of (Int.le_refl 0) hcur.level]
    simp only [Res.andThen_ok, if_true]
    rw [if_neg (by omega), if_neg (by omega), if_neg (by omega), if_neg (by omega)]
    simp only [toFirstChild, M.bind_apply]
    rw [ctx_of (Int.le_refl 0) hcur.level]
    simp only [Res.andThen_ok]
    rw [M.bind_apply, ctx_of (by omega) (by simpa using hcur.entry)]
    rfl
  rw [hunf, VtdNav.OnePage.size h]
  have := firstChildLoop_eq h (i := i) hcur.level hroom
    (((ts.length : Int) - ((i : Int) + 1)).toNat + 1) (i + 1) (by omega) (by omega) (by omega)
    (by omega)
  rcases this with ⟨j, h1, h2⟩ | ⟨h1, h2⟩
  · exact .inl ⟨j, h1, h2⟩
  · exact .inr ⟨h1, h2⟩

/-- `ToElement(FirstChild)` below the cached levels. Missing from C26: token buffers longer
than one page (`C26_refuted`). The cursor stack must have room for the new level, which it
has when `NewVtdNav` was given the depth of the document. -/
theorem C26_first_partial (exps : List Int) (ts : List Tok) (n : VtdNav) (h : OnePage exps ts n)
    (c i : Nat) (hc : 3 ≤ c) (hcur : CursorAt n c i) (hroom : c + 1 < n.context.length) :
    (∃ j : Nat, IsFirstChild ts i c j ∧ ∃ n', n.toElement Direction.firstChild = .ok true n' ∧
      (n'.getCurrentIndex).outcome = .value (j : Int)) ∨
    ((¬∃ j, IsChild ts i c j) ∧ n.toElement Direction.firstChild = .ok false n) := by
  rcases toFirst_eq exps ts n h c i hc hcur hroom with ⟨j, h1, h2⟩ | h1
  · exact .inl ⟨j, h1, _, h2, getCurrentIndex_moved hcur hroom j⟩
  · exact .inr h1

/-- The state after the move. -/
theorem toLast_eq (exps : List Int) (ts : List Tok) (n : VtdNav) (h : OnePage exps ts n)
    (c i : Nat) (hc : 3 ≤ c) (hcur : CursorAt n c i) (hroom : c + 1 < n.context.length) :
    (∃ j : Nat, IsLastChild ts i c j ∧ n.toElement Direction.lastChild = .ok true
      { n with context := (n.context.set 0 ((c : Int) + 1)).set (c + 1) (j : Int) }) ∨
    ((¬∃ j, IsChild ts i c j) ∧ n.toElement Direction.lastChild = .ok false n) := by
  have hunf : n.toElement Direction.lastChild = toLastChild n := by
    show toChildElement Direction.lastChild n = _
    simp only [toChildElement, M.bind_apply, M.get_apply, Res.andThen_ok]
    rw [if_neg (by simp [hcur.notTerminal]), M.bind_apply, ctx_of (Int.le_refl 0) hcur.level]
    simp only [Res.andThen_ok]
    rw [if_neg (by omega), if_neg (by omega), if_neg (by omega), if_neg (by omega),
      if_neg (by decide)]
  rw [hunf]
  simp only [toLastChild, M.bind_apply]
  rw [ctx_of (Int.le_refl 0) hcur.level]
  simp only [Res.andThen_ok]
  rw [M.bind_apply, ctx_of (by omega) (by simpa using hcur.entry)]
  simp only [Res.andThen_ok, M.bind_apply, M.get_apply, VtdNav.OnePage.size h]
  have := lastChildLoop_eq h (i := i) hcur.level
    (((ts.length : Int) - ((i : Int) + 1)).toNat + 1) (i + 1) none (by omega) (by omega) (by omega)
    (by omega) (fun _ j hj hch => by have := hch.1; omega) (by simp)
  simp only [Option.map_none, Option.getD_none] at this
  rcases this with ⟨j, h1, h2⟩ | ⟨h1, h2⟩
  · left
    refine ⟨j, h1, ?_⟩
    rw [show ((i + 1 : Nat) : Int) = (i : Int) + 1 by omega] at h2
    rw [h2]
    simp only [Res.andThen_ok, M.ite_apply]
    rw [if_neg (by omega), M.bind_apply, ctx_of (Int.le_refl 0) hcur.level]
    simp only [Res.andThen_ok]
    rw [M.bind_apply, setCtx_of (Int.le_refl 0) (by simp; omega)]
    simp only [Res.andThen_ok]
    rw [M.bind_apply, setCtx_of (by omega) (by simp; omega)]
    rfl
  · right
    refine ⟨h1, ?_⟩
    rw [show ((i + 1 : Nat) : Int) = (i : Int) + 1 by omega] at h2
    rw [h2]
    rfl

/-- `ToElement(LastChild)` below the cached levels; same provisos. -/
theorem C26_last_partial (exps : List Int) (ts : List Tok) (n : VtdNav) (h : OnePage exps ts n)
    (c i : Nat) (hc : 3 ≤ c) (hcur : CursorAt n c i) (hroom : c + 1 < n.context.length) :
    (∃ j : Nat, IsLastChild ts i c j ∧ ∃ n', n.toElement Direction.lastChild = .ok true n' ∧
      (n'.getCurrentIndex).outcome = .value (j : Int)) ∨
    ((¬∃ j, IsChild ts i c j) ∧ n.toElement Direction.lastChild = .ok false n) := by
  rcases toLast_eq exps ts n h c i hc hcur hroom with ⟨j, h1, h2⟩ | h1
  · exact .inl ⟨j, h1, _, h2, getCurrentIndex_moved hcur hroom j⟩
  · exact .inr h1

/-- C26 is false for longer buffers: with pages of four entries, the child of token 3 is
token 4 on the second page, and `ToElement(FirstChild)` returns false. -/
theorem C26_refuted : ∃ (ts : List Tok) (n : VtdNav), NavOver [2] (packAll ts) n ∧
    (∀ t ∈ ts, t.Fits) ∧ CursorAt n 3 3 ∧ 4 < n.context.length ∧ IsFirstChild ts 3 3 4 ∧
    n.toElement Direction.firstChild = .ok false n := by
  let ts : List Tok := [⟨.startingTag, 0, 1, 1⟩, ⟨.startingTag, 1, 4, 1⟩, ⟨.startingTag, 2, 7, 1⟩,
    ⟨.startingTag, 3, 10, 1⟩, ⟨.startingTag, 4, 13, 1⟩]
  refine ⟨ts, { navOf [] with
      vtdBuffer := Paged.fill 2 (packAll ts), context := [3, 1, 2, 3, -1] },
    ⟨by simp [SmallExps], (LongBufferWith.iff_fill (by simp [SmallExps])).mpr rfl⟩,
    by simp [ts, Tok.Fits], ⟨rfl, rfl, rfl⟩, by simp, ⟨⟨by omega, ⟨_, rfl, rfl, rfl⟩, by omega⟩, ?_⟩, ?_⟩
  · intro j hj
    exact hj.1
  · decide +kernel

/-- Non-vacuity: a cursor with children. -/
theorem treeNav_onePage : OnePage [] [⟨.document, -1, 0, 0⟩, ⟨.startingTag, 0, 1, 1⟩,
    ⟨.startingTag, 1, 4, 1⟩, ⟨.startingTag, 2, 7, 1⟩, ⟨.startingTag, 3, 10, 1⟩,
    ⟨.startingTag, 4, 13, 1⟩, ⟨.startingTag, 4, 17, 1⟩]
    { treeNav with context := [3, 2, 3, 4, -1, -1] } :=
  ⟨⟨by simp [SmallExps], (LongBufferWith.iff_fill (by simp [SmallExps])).mpr rfl⟩,
    by simp [Tok.Fits], by simp [pageExp]⟩
example : CursorAt { treeNav with context := [3, 2, 3, 4, -1, -1] } 3 4 := ⟨rfl, rfl, rfl⟩

/-! ## C27 -/

/-- The state after the move. -/
theorem toPrev_eq (exps : List Int) (ts : List Tok) (n : VtdNav) (h : OnePage exps ts n)
    (c i par : Nat) (hc : 4 ≤ c) (hcur : CursorAt n c i) (hi : i < ts.length)
    (hpar : n.context[c - 1]? = some (par : Int)) :
    (∃ j : Nat, IsPrevSibling ts par i c j ∧ n.toElement Direction.prevSibling = .ok true
      { n with context := n.context.set c (j : Int) }) ∨
    ((¬∃ j, IsPrevSibling ts par i c j) ∧ n.toElement Direction.prevSibling = .ok false n) := by
  have hlen : c < n.context.length := (List.getElem?_eq_some_iff.mp hcur.entry).1
  have hunf : n.toElement Direction.prevSibling =
      prevSiblingLoop (((i : Int) - par).toNat + 1) ((i : Int) - 1) n := by
    show toSiblingElement Direction.prevSibling n = _
    simp only [toSiblingElement, M.bind_apply, M.get_apply, Res.andThen_ok]
    rw [if_neg (by simp [hcur.notTerminal]), M.bind_apply, ctx_of (Int.le_refl 0) hcur.level]
    simp only [Res.andThen_ok]
    rw [if_neg (by omega), if_neg (by omega), if_neg (by omega), if_neg (by omega),
      if_neg (by decide)]
    simp only [toPrevSibling, M.bind_apply]
    rw [ctx_of (Int.le_refl 0) hcur.level]
    simp only [Res.andThen_ok]
    rw [M.bind_apply, ctx_of (by omega) (by simpa using hcur.entry)]
    simp only [Res.andThen_ok]
    rw [M.bind_apply, ctx_of (v := (par : Int)) (by omega)
      (by rw [show ((c : Int) - 1).toNat = c - 1 by omega]; exact hpar)]
    rfl
  rw [hunf]
  rcases prevSiblingLoop_eq h (i := i) hcur.level (by omega) hlen hpar (by omega)
    (((i : Int) - par).toNat + 1) ((i : Int) - 1) (by omega) (by omega) (by omega) (by omega) with
    ⟨j, h1, h2⟩ | ⟨h1, h2⟩
  · exact .inl ⟨j, h1, h2⟩
  · exact .inr ⟨h1, h2⟩

/-- `ToElement(PrevSibling)` below the cached levels; `par` is the token of the parent, as
the cursor has it. Missing from C27: longer buffers, and `NextSibling`. -/
theorem C27_prev_partial (exps : List Int) (ts : List Tok) (n : VtdNav) (h : OnePage exps ts n)
    (c i par : Nat) (hc : 4 ≤ c) (hcur : CursorAt n c i) (hi : i < ts.length)
    (hpar : n.context[c - 1]? = some (par : Int)) :
    (∃ j : Nat, IsPrevSibling ts par i c j ∧ ∃ n', n.toElement Direction.prevSibling = .ok true n' ∧
      (n'.getCurrentIndex).outcome = .value (j : Int)) ∨
    ((¬∃ j, IsPrevSibling ts par i c j) ∧ n.toElement Direction.prevSibling = .ok false n) := by
  have hlen : c < n.context.length := (List.getElem?_eq_some_iff.mp hcur.entry).1
  rcases toPrev_eq exps ts n h c i par hc hcur hi hpar with ⟨j, h1, h2⟩ | ⟨h1, h2⟩
  · refine .inl ⟨j, h1, _, h2, ?_⟩
    have h0 : ({ n with context := n.context.set c (j : Int) } : VtdNav).context[0]? =
        some (c : Int) := by
      show (n.context.set c (j : Int))[0]? = _
      rw [List.getElem?_set_ne (by omega)]; exact hcur.level
    rw [getCurrentIndex_level (by exact hcur.notTerminal) h0 (by omega), if_neg (by omega)]
    simp [hlen]
  · exact .inr ⟨h1, h2⟩

/-- `ToElement(NextSibling)` below the cached levels never succeeds, for any navigator. -/
theorem C27_next_exact (n : VtdNav) (c : Nat) (hc : 4 ≤ c) (hlevel : n.context[0]? = some (c : Int))
    (b : Bool) (n' : VtdNav) (h : n.toElement Direction.nextSibling = .ok b n') :
    b = false ∧ n' = n := by
  have h : toSiblingElement Direction.nextSibling n = .ok b n' := h
  simp only [toSiblingElement, M.bind_apply, M.get_apply, Res.andThen_ok, M.ite_apply] at h
  split at h
  · cases h; exact ⟨rfl, rfl⟩
  rw [ctx_of (Int.le_refl 0) hlevel] at h
  simp only [Res.andThen_ok] at h
  rw [if_neg (by omega), if_neg (by omega), if_neg (by omega), if_neg (by omega)] at h
  simp only [toNextSibling, if_true] at h
  andthen h with ⟨_, _, h2, h⟩
  cases (ctx_reads _).ok h2
  andthen h with ⟨_, _, h2, h⟩
  cases (ctx_reads _).ok h2
  exact nextSiblingLoop_false h

/-- C27 is false: the element at token 5 has the next sibling token 6, and
`ToElement(NextSibling)` returns false. -/
theorem C27_refuted : ∃ (ts : List Tok) (n : VtdNav), OnePage [] ts n ∧ CursorAt n 4 5 ∧
    IsNextSibling ts 5 4 6 ∧ n.toElement Direction.nextSibling = .ok false n :=
  ⟨_, { treeNav with context := [4, 2, 3, 4, 5, -1] },
    ⟨treeNav_onePage.over, treeNav_onePage.fits, treeNav_onePage.page⟩, ⟨rfl, rfl, rfl⟩,
    ⟨by omega, ⟨_, rfl, rfl, rfl⟩, by omega⟩, rfl⟩

/-- Non-vacuity of `C27_prev_partial`: token 6 has the previous sibling token 5. -/
example : CursorAt { treeNav with context := [4, 2, 3, 4, 6, -1] } 4 6 := ⟨rfl, rfl, rfl⟩
example : toElement Direction.prevSibling { treeNav with context := [4, 2, 3, 4, 6, -1] } =
    .ok true { treeNav with context := [4, 2, 3, 4, 5, -1] } := rfl

end GoVtd
