import Verif.Props.NavMoves

/-!
# Property C28: the cached levels
-/

namespace GoVtd
open Paged VtdNav

namespace CacheOver
variable {exps : List Int} {es : List CacheEntry} {b : FastLongBuffer}

theorem size (h : CacheOver exps es b) : b.getSize = es.length := by
  rw [(LongBufferWith.iff_fill h.small).mp h.holds]; simp [getSize, Paged.fill]

theorem longAt (h : CacheOver exps es b) {k : Nat} {e : CacheEntry} (hk : es[k]? = some e) :
    Paged.longAt k b = .ok e.packed b := by
  obtain ⟨hlt, hget⟩ := List.getElem?_eq_some_iff.mp hk
  have hp := h.page
  rw [C02_longAt_partial exps h.small _ b h.holds k (by simpa using hlt) (by omega)]
  simp [hget]

theorem packed_toNat {e : CacheEntry} (h : e.Fits) :
    e.packed.toNat = e.token * 2 ^ 32 + e.child.getD (2 ^ 32 - 1) := by
  obtain ⟨h1, h2⟩ := h
  rw [CacheEntry.packed, BitVec.toNat_ofNat]
  have : e.child.getD (2 ^ 32 - 1) < 2 ^ 32 := by
    cases hc : e.child with
    | none => simp
    | some c => have := h2 c hc; simp; omega
  omega

theorem upper (h : CacheOver exps es b) {k : Nat} {e : CacheEntry} (hk : es[k]? = some e) :
    ∃ v, upper32At k b = .ok v b ∧ v.toInt = e.token := by
  have hf := h.fits e (List.mem_of_getElem? hk)
  have hl := h.longAt hk
  have h1 := C07_upper_exact b k e.packed (by rw [hl]; rfl)
  have hr := upper32At_reads (k : Int) b
  cases hu : upper32At k b with
  | ok v b' =>
    rw [hu] at h1 hr
    simp only [id] at hr
    subst hr
    refine ⟨v, rfl, ?_⟩
    simp only [Res.outcome, Outcome.value.injEq] at h1
    have hn : v.toNat = e.token := by
      rw [h1, BitVec.toNat_and, BitVec.extractLsb'_toNat, packed_toNat hf]
      have hc : e.child.getD (2 ^ 32 - 1) < 2 ^ 32 := by
        cases hc : e.child with
        | none => simp
        | some c => have := hf.2 c hc; simp; omega
      have h2 : (e.token * 2 ^ 32 + e.child.getD (2 ^ 32 - 1)) >>> 32 % 2 ^ 32 = e.token := by
        rw [Nat.shiftRight_eq_div_pow]; have := hf.1; omega
      rw [h2, show (0x0FFFFFFF#32).toNat = 2 ^ 28 - 1 by decide, Nat.and_two_pow_sub_one_eq_mod,
        Nat.mod_eq_of_lt hf.1]
    rw [BitVec.toInt_eq_toNat_of_lt (by have := hf.1; omega), hn]
  | err e' b' => rw [hu] at h1; simp [Res.outcome] at h1
  | panic => rw [hu] at h1; simp [Res.outcome] at h1
  | diverge => rw [hu] at h1; simp [Res.outcome] at h1

theorem lower (h : CacheOver exps es b) {k : Nat} {e : CacheEntry} (hk : es[k]? = some e) :
    ∃ v, lower32At k b = .ok v b ∧ v.toNat = e.child.getD (2 ^ 32 - 1) := by
  have hf := h.fits e (List.mem_of_getElem? hk)
  refine ⟨e.packed.setWidth 32, ?_, ?_⟩
  · simp only [lower32At, M.bind_apply, M.catchErr_apply, h.longAt hk, Res.handle_ok,
      Res.andThen_ok, M.pure_apply]
  · rw [BitVec.toNat_setWidth, packed_toNat hf]
    cases hc : e.child with
    | none => simp
    | some c => have := hf.2 c hc; simp; omega

end CacheOver

/-- What the lower half says about the child. -/
theorem child_toInt {v : BitVec 32} {e : CacheEntry} (hf : e.Fits)
    (hv : v.toNat = e.child.getD (2 ^ 32 - 1)) :
    v.toInt = (match e.child with
      | some a => (a : Int)
      | none => -1) ∧ (v = 0xffffffff#32 ↔ e.child = none) := by
  cases hc : e.child with
  | none =>
    rw [hc] at hv
    have : v = 0xffffffff#32 := BitVec.eq_of_toNat_eq (by rw [hv]; rfl)
    rw [this]; exact ⟨by decide, by simp⟩
  | some a =>
    rw [hc] at hv
    simp only [Option.getD_some] at hv
    have ha := hf.2 a hc
    refine ⟨by rw [BitVec.toInt_eq_toNat_of_lt (by omega), hv], ?_⟩
    simp only [reduceCtorEq, iff_false]
    intro h
    rw [h] at hv
    simp at hv
    omega

theorem onL1_ok {α : Type} {m : M FastLongBuffer α} {n : VtdNav} {a : α}
    (h : m n.l1Buffer = .ok a n.l1Buffer) : onL1 m n = .ok a n := by
  simp only [onL1, M.zoom_apply, h, Res.zoom_ok]

theorem onL2_ok {α : Type} {m : M FastLongBuffer α} {n : VtdNav} {a : α}
    (h : m n.l2Buffer = .ok a n.l2Buffer) : onL2 m n = .ok a n := by
  simp only [onL2, M.zoom_apply, h, Res.zoom_ok]

theorem upperLoop_eq {exps es} {Q : VtdNav → Prop} {rd : Int → M VtdNav (BitVec 32)}
    {b : FastLongBuffer} (h : CacheOver exps es b)
    (hrd : ∀ n, Q n → ∀ (i : Nat) v, lower32At i b = .ok v b → rd i n = .ok v n)
    (k fuel i : Nat) (hi : k < i) (hf : es.length < i + fuel) (hf0 : 0 < fuel)
    (hinv : ∀ j, k < j → j < i → ∀ e, es[j]? = some e → e.child = none) :
    (∃ (j a : Nat) (e : CacheEntry), k < j ∧ es[j]? = some e ∧ e.child = some a ∧
      (∀ j', k < j' → j' < j → ∀ e', es[j']? = some e' → e'.child = none) ∧
      ∀ n, Q n → upperLoop rd es.length fuel i n = .ok (some ((a : Int) - 1)) n) ∨
    ((∀ j, k < j → ∀ e, es[j]? = some e → e.child = none) ∧
      ∀ n, Q n → upperLoop rd es.length fuel i n = .ok none n) := by
  induction fuel generalizing i with
  | zero => omega
  | succ fuel ih =>
    by_cases hlt : i < es.length
    · have hget : es[i]? = some es[i] := by simp [hlt]
      obtain ⟨v, hv, hvn⟩ := h.lower hget
      have hfit := h.fits _ (List.mem_of_getElem? hget)
      obtain ⟨hint, hone⟩ := child_toInt hfit hvn
      have hstep : ∀ n, Q n → upperLoop rd es.length (fuel + 1) i n =
          if v ≠ 0xffffffff#32 then .ok (some (wrap32 (v.toInt - 1))) n
          else upperLoop rd es.length fuel ((i + 1 : Nat) : Int) n := by
        intro n hn
        simp only [upperLoop, M.ite_apply]
        rw [if_pos (by omega), M.bind_apply, hrd n hn i v hv]
        simp only [Res.andThen_ok, M.ite_apply]
        rfl
      cases hc : es[i].child with
      | some a =>
        refine .inl ⟨i, a, es[i], hi, hget, hc, hinv, fun n hn => ?_⟩
        rw [hstep n hn, if_pos (by rw [ne_eq, hone, hc]; simp)]
        have ha := hfit.2 a hc
        rw [hint, hc, wrap32_of_range (by simp only; omega) (by simp only; omega)]
      | none =>
        have hgo : ∀ n, Q n → upperLoop rd es.length (fuel + 1) i n =
            upperLoop rd es.length fuel ((i + 1 : Nat) : Int) n := by
          intro n hn
          rw [hstep n hn, if_neg (by rw [ne_eq, hone, hc]; simp)]
        have := ih (i + 1) (by omega) (by omega) (by omega) ?_
        · rcases this with ⟨j, a, e, h1, h2, h3, h4, h5⟩ | ⟨h1, h2⟩
          · exact .inl ⟨j, a, e, h1, h2, h3, h4, fun n hn => (hgo n hn).trans (h5 n hn)⟩
          · exact .inr ⟨h1, fun n hn => (hgo n hn).trans (h2 n hn)⟩
        intro j h1 h2 e he
        by_cases hji : j = i
        · subst hji; rw [hget] at he; cases he; exact hc
        · exact hinv j h1 (by omega) e he
    · refine .inr ⟨?_, fun n _ => ?_⟩
      rotate_left
      · simp only [upperLoop, M.ite_apply]
        rw [if_neg (by omega)]; rfl
      intro j h1 e he
      have := (List.getElem?_eq_some_iff.mp he).1
      exact hinv j h1 (by omega) e he

theorem toChild_level (n : VtdNav) (dir : Direction) (c : Nat)
    (hdir : dir = Direction.firstChild ∨ dir = Direction.lastChild)
    (hat : n.atTerminal = false) (hc : n.context[0]? = some (c : Int)) :
    n.toElement dir = if c = 0 then toChildLevel0 dir n else if c = 1 then toChildLevel1 dir n
      else if c = 2 then toChildLevel2 dir n
      else if dir = Direction.firstChild then toFirstChild n else toLastChild n := by
  have hd : toElement dir = toChildElement dir := by
    rcases hdir with rfl | rfl <;> rfl
  rw [hd]
  simp only [toChildElement, M.bind_apply, M.get_apply, Res.andThen_ok]
  rw [if_neg (by simp [hat]), M.bind_apply, ctx_of (Int.le_refl 0) hc]
  simp only [Res.andThen_ok]
  rw [if_neg (by omega)]
  by_cases h0 : c = 0
  · rw [if_pos (by omega), if_pos h0]
  rw [if_neg (by omega), if_neg h0]
  by_cases h1 : c = 1
  · rw [if_pos (by omega), if_pos h1]
  rw [if_neg (by omega), if_neg h1]
  by_cases h2 : c = 2
  · rw [if_pos (by omega), if_pos h2]
  rw [if_neg (by omega), if_neg h2, M.ite_apply]

/-- The current index of a navigator at level `c` whose level entry is `v`. -/
theorem index_at {n : VtdNav} {c : Nat} {v : Int} (hat : n.atTerminal = false)
    (h0 : n.context[0]? = some (c : Int)) (hc : 0 < c) (hv : n.context[c]? = some v) :
    (n.getCurrentIndex).outcome = .value v := by
  rw [getCurrentIndex_level hat h0 (by omega), if_neg (by omega)]
  simp [hv]

theorem index_set {n : VtdNav} {l : List Int} {c : Nat} {v : Int} (hat : n.atTerminal = false)
    (hl : l[0]? = some (c : Int)) (hc : 0 < c) (hlen : c < l.length) (hn : n.context = l.set c v) :
    (n.getCurrentIndex).outcome = .value v := by
  refine index_at hat ?_ hc ?_
  · rw [hn, List.getElem?_set_ne (by omega), hl]
  · simp [hn, hlen]

theorem index_set2 {n : VtdNav} {l : List Int} {c : Nat} {v : Int} (hat : n.atTerminal = false)
    (hc : 0 < c) (hlen : c < l.length) (hn : n.context = (l.set 0 (c : Int)).set c v) :
    (n.getCurrentIndex).outcome = .value v := by
  refine index_set hat ?_ hc (by simpa using hlen) hn
  rw [List.getElem?_set_self (by omega)]

/-! ## C28: what is right -/

/-- From the root, `FirstChild` and `LastChild` go to the first and last entry of the first
cache, and fail exactly when it is empty. -/
theorem C28_root_partial (exps es) (n : VtdNav) (h : CacheOver exps es n.l1Buffer)
    (hat : n.atTerminal = false) (hc : n.context[0]? = some 0) (hroom : 1 < n.context.length)
    (dir : Direction) (hdir : dir = Direction.firstChild ∨ dir = Direction.lastChild) :
    (es = [] → n.toElement dir = .ok false n) ∧
    (∀ e, (if dir = Direction.firstChild then es.head? else es.getLast?) = some e →
      ∃ n', n.toElement dir = .ok true n' ∧
        (n'.getCurrentIndex).outcome = .value (e.token : Int)) := by
  rw [toChild_level n dir 0 hdir hat hc, if_pos rfl]
  simp only [toChildLevel0, M.bind_apply, M.get_apply, Res.andThen_ok, h.size, M.ite_apply]
  constructor
  · rintro rfl
    simp
  · intro e hke
    obtain ⟨k, hk, hidx⟩ : ∃ (k : Nat), es[k]? = some e ∧
        (if dir = Direction.firstChild then (0 : Int) else (es.length : Int) - 1) = k := by
      by_cases hd : dir = Direction.firstChild
      · rw [if_pos hd] at hke
        exact ⟨0, by rw [← List.head?_eq_getElem?]; exact hke, by simp [hd]⟩
      · rw [if_neg hd, List.getLast?_eq_getElem?] at hke
        have := (List.getElem?_eq_some_iff.mp hke).1
        exact ⟨es.length - 1, hke, by rw [if_neg hd]; omega⟩
    have hlen := (List.getElem?_eq_some_iff.mp hk).1
    rw [if_neg (by omega)]
    obtain ⟨v, hv, hvi⟩ := h.upper hk
    have hl0 : (0 : Int).toNat < n.context.length := by simp; omega
    rw [setCtx_of (Int.le_refl 0) hl0]
    simp only [Res.andThen_ok, M.bind_apply, M.modify_apply, hidx]
    rw [onL1_ok (by exact hv)]
    simp only [Res.andThen_ok]
    rw [M.bind_apply, setCtx_of (by omega) (by simp; omega)]
    refine ⟨_, rfl, ?_⟩
    rw [← hvi]
    exact index_set2 (c := 1) hat (by omega) hroom rfl

/-- At level 1, `NextSibling` and `PrevSibling` go to the next and previous entry of the
first cache. -/
theorem C28_level1_sibling_partial (exps es) (n : VtdNav) (h : CacheOver exps es n.l1Buffer)
    (hat : n.atTerminal = false) (hc : n.context[0]? = some 1) (hroom : 1 < n.context.length)
    (k : Nat) (hk : n.l1index = k) :
    (es[k + 1]? = none → n.toElement Direction.nextSibling = .ok false n) ∧
    (∀ e, es[k + 1]? = some e →
      ∃ n', n.toElement Direction.nextSibling = .ok true n' ∧ n'.l1index = k + 1 ∧
        (n'.getCurrentIndex).outcome = .value (e.token : Int)) ∧
    (k = 0 → n.toElement Direction.prevSibling = .ok false n) ∧
    (∀ j e, k = j + 1 → es[j]? = some e →
      ∃ n', n.toElement Direction.prevSibling = .ok true n' ∧ n'.l1index = j ∧
        (n'.getCurrentIndex).outcome = .value (e.token : Int)) := by
  rw [← and_assoc]
  constructor
  · have hunf : n.toElement Direction.nextSibling = (if n.l1index + 1 ≥ n.l1Buffer.getSize then
        pure false
        else do
          M.modify fun n => { n with l1index := n.l1index + 1 }
          let upper ← onL1 (Paged.upper32At (n.l1index + 1))
          setCtx 1 upper.toInt
          pure true : M VtdNav Bool) n := by
      show toSiblingElement _ n = _
      simp only [toSiblingElement, M.bind_apply, M.get_apply, Res.andThen_ok]
      rw [if_neg (by simp [hat]), M.bind_apply, ctx_of (Int.le_refl 0) hc]
      simp only [Res.andThen_ok]
      simp only [if_true]
      rw [if_neg (by omega)]
    rw [hunf, h.size, hk, M.ite_apply]
    constructor
    · intro he
      have := List.getElem?_eq_none_iff.mp he
      rw [if_pos (by omega)]; rfl
    · intro e he
      have := (List.getElem?_eq_some_iff.mp he).1
      obtain ⟨v, hv, hvi⟩ := h.upper he
      rw [if_neg (by omega)]
      simp only [M.bind_apply, M.modify_apply, Res.andThen_ok]
      rw [show (k : Int) + 1 = ((k + 1 : Nat) : Int) by omega, onL1_ok (by exact hv)]
      simp only [Res.andThen_ok]
      rw [M.bind_apply, setCtx_of (by omega) (by simp; omega)]
      refine ⟨_, rfl, by simp [hk], ?_⟩
      rw [← hvi]
      exact index_set (c := 1) hat hc (by omega) hroom rfl
  · have hunf : n.toElement Direction.prevSibling = (if n.l1index - 1 < 0 then pure false
        else do
          M.modify fun n => { n with l1index := n.l1index - 1 }
          let upper ← onL1 (Paged.upper32At (n.l1index - 1))
          setCtx 1 upper.toInt
          pure true : M VtdNav Bool) n := by
      show toSiblingElement _ n = _
      simp only [toSiblingElement, M.bind_apply, M.get_apply, Res.andThen_ok]
      rw [if_neg (by simp [hat]), M.bind_apply, ctx_of (Int.le_refl 0) hc]
      simp only [Res.andThen_ok]
      simp only [if_true]
      rw [if_neg (by omega), if_neg (by decide)]
    rw [hunf, hk, M.ite_apply]
    constructor
    · rintro rfl; rfl
    · rintro j e rfl hget
      obtain ⟨v, hv, hvi⟩ := h.upper hget
      rw [if_neg (by omega)]
      simp only [M.bind_apply, M.modify_apply, Res.andThen_ok]
      rw [show ((j + 1 : Nat) : Int) - 1 = (j : Int) by omega, onL1_ok (by exact hv)]
      simp only [Res.andThen_ok]
      rw [M.bind_apply, setCtx_of (by omega) (by simp; omega)]
      refine ⟨_, rfl, by simp [hk], ?_⟩
      rw [← hvi]
      exact index_set (c := 1) hat hc (by omega) hroom rfl

/-- From level 1, `FirstChild` and `LastChild` go to the first and last of the entries of the
second cache that belong to the current entry. -/
theorem C28_level1_child_partial (exps1 es1 exps2 es2) (n : VtdNav)
    (h1 : CacheOver exps1 es1 n.l1Buffer) (h2 : CacheOver exps2 es2 n.l2Buffer)
    (hat : n.atTerminal = false) (hc : n.context[0]? = some 1) (hroom : 2 < n.context.length)
    (k : Nat) (hk : n.l1index = k) (e : CacheEntry) (hke : es1[k]? = some e) :
    match e.child with
    | none => ∀ dir, dir = Direction.firstChild ∨ dir = Direction.lastChild →
        (n.toElement dir).outcome = .value false
    | some a =>
      (∀ e2, es2[a]? = some e2 → ∃ n', n.toElement Direction.firstChild = .ok true n' ∧
        (n'.getCurrentIndex).outcome = .value (e2.token : Int)) ∧
      (∀ u e2, IsLastPos es1 es2.length k u → es2[u]? = some e2 →
        ∃ n', n.toElement Direction.lastChild = .ok true n' ∧
        (n'.getCurrentIndex).outcome = .value (e2.token : Int)) := by
  obtain ⟨v, hv, hvn⟩ := h1.lower hke
  have hfit := h1.fits _ (List.mem_of_getElem? hke)
  obtain ⟨hint, -⟩ := child_toInt hfit hvn
  have hstart : ∀ dir, dir = Direction.firstChild ∨ dir = Direction.lastChild →
      n.toElement dir = toChildLevel1 dir n := by
    intro dir hdir
    rw [toChild_level n dir 1 hdir hat hc, if_neg (by omega), if_pos rfl]
  cases hch : e.child with
  | none =>
    intro dir hdir
    rw [hstart dir hdir]
    simp only [toChildLevel1, M.bind_apply, M.get_apply, Res.andThen_ok, hk]
    rw [onL1_ok hv]
    rw [hch] at hint
    simp only at hint
    simp only [Res.andThen_ok, M.bind_apply, M.modify_apply, hint, if_true, M.pure_apply, Res.outcome]
  | some a =>
    rw [hch] at hint
    simp only at hint
    have ha := hfit.2 a hch
    -- the run up to the read of the second cache
    have key : ∀ dir, dir = Direction.firstChild ∨ dir = Direction.lastChild →
        ∀ (t : Nat) (e2 : CacheEntry), es2[t]? = some e2 →
        (dir = Direction.firstChild → t = a) →
        (dir = Direction.lastChild → IsLastPos es1 es2.length k t) →
        ∃ n', n.toElement dir = .ok true n' ∧
          (n'.getCurrentIndex).outcome = .value (e2.token : Int) := by
      intro dir hdir t e2 he2 hfst hlst
      rw [hstart dir hdir]
      simp only [toChildLevel1, M.bind_apply, M.get_apply, Res.andThen_ok, hk]
      rw [onL1_ok hv]
      simp only [Res.andThen_ok, M.bind_apply, M.modify_apply, hint]
      rw [if_neg (by omega)]
      rw [M.bind_apply, setCtx_of (Int.le_refl 0) (by simp; omega)]
      simp only [Res.andThen_ok, M.bind_apply, M.modify_apply, h1.size]
      obtain ⟨w, hw, hwi⟩ := h2.upper he2
      -- the search for the upper bound
      have hloop := upperLoop_eq (Q := fun m => m.l1Buffer = n.l1Buffer)
        (rd := fun i => onL1 (Paged.lower32At i)) h1
        (fun m hm i v hv => onL1_ok (by rw [hm]; exact hv)) k
        (((es1.length : Int) - (k : Int)).toNat + 1) (k + 1) (by omega) (by omega) (by omega)
        (by omega)
      have fin : ∀ (m : VtdNav), m.l2Buffer = n.l2Buffer → m.context = n.context.set 0 2 →
          m.atTerminal = n.atTerminal → ∃ n', (do
            let upper ← M.catchErr (do let u ← onL2 (Paged.upper32At (t : Int)); pure (some u))
              (fun _ => pure none)
            match upper with
            | none => pure false
            | some upper => do
              setCtx 2 upper.toInt
              pure true : M VtdNav Bool) m = .ok true n' ∧
          (n'.getCurrentIndex).outcome = .value (e2.token : Int) := by
        intro m hb hcx hta
        simp only [M.bind_apply, M.catchErr_apply]
        rw [onL2_ok (by rw [hb]; exact hw)]
        simp only [Res.andThen_ok, M.pure_apply, Res.handle_ok]
        rw [M.bind_apply, setCtx_of (by omega) (by simp [hcx]; omega)]
        refine ⟨_, rfl, ?_⟩
        rw [← hwi]
        exact index_set2 (c := 2) (hta.trans hat) (by omega) hroom (by rw [hcx]; rfl)
      rw [show (k : Int) + 1 = ((k + 1 : Nat) : Int) by omega]
      rcases hloop with ⟨j, b, e', hj, hje, hjb, hjn, hrun⟩ | ⟨hnone, hrun⟩
      · rw [hrun]
        rotate_left
        · rfl
        simp only [Res.andThen_ok, M.bind_apply, M.modify_apply, M.get_apply]
        have hpos : (if dir = Direction.firstChild then (a : Int) else (b : Int) - 1) = t := by
          by_cases hd : dir = Direction.firstChild
          · rw [if_pos hd, hfst hd]
          · rw [if_neg hd]
            rcases hlst (hdir.resolve_left hd) with
              ⟨j2, e3, g1, g2, g3, g4⟩ | ⟨g1, g2⟩
            · have hjj : j2 = j := by
                rcases Nat.lt_trichotomy j2 j with hlt | heq | hgt
                · have := hjn j2 g1 hlt e3 g2; rw [this] at g3; cases g3
                · exact heq
                · have := g4 j hj hgt e' hje; rw [this] at hjb; cases hjb
              subst hjj
              rw [hje] at g2; cases g2
              rw [hjb] at g3; cases g3
              omega
            · have := g1 j hj e' hje; rw [this] at hjb; cases hjb
        rw [hpos]
        exact fin _ rfl rfl rfl
      · rw [hrun]
        rotate_left
        · rfl
        simp only [Res.andThen_ok, M.bind_apply, M.modify_apply, M.get_apply, h2.size]
        have hpos : (if dir = Direction.firstChild then (a : Int) else (es2.length : Int) - 1) = t := by
          by_cases hd : dir = Direction.firstChild
          · rw [if_pos hd, hfst hd]
          · rw [if_neg hd]
            rcases hlst (hdir.resolve_left hd) with
              ⟨j2, e3, g1, g2, g3, g4⟩ | ⟨g1, g2⟩
            · have := hnone j2 g1 e3 g2; rw [this] at g3; cases g3
            · omega
        rw [hpos]
        exact fin _ rfl rfl rfl
    simp only
    exact ⟨fun e2 he2 => key _ (.inl rfl) a e2 he2 (fun _ => rfl) (fun h => absurd h (by decide)),
      fun u e2 hu he2 => key _ (.inr rfl) u e2 he2 (fun h => absurd h (by decide)) (fun _ => hu)⟩

/-! ## C28: what is wrong -/

/-- A navigator for `<a><b><c><d/><e/></c><f/></b><g/></a>`: tokens 1 (`a`), 2 (`b`),
3 (`c`), 4 (`d`), 5 (`e`), 6 (`f`), 7 (`g`) and the caches of the three levels. -/
def cacheNav (context : List Int) : VtdNav :=
  { navOf [] with
    context := context,
    l1Buffer := Paged.fill 10 (([⟨2, some 0⟩, ⟨7, none⟩] : List CacheEntry).map CacheEntry.packed),
    l2Buffer := Paged.fill 10 (([⟨3, some 0⟩, ⟨6, none⟩] : List CacheEntry).map CacheEntry.packed),
    l3Buffer := Paged.fill 10 (([⟨4, none⟩, ⟨5, none⟩] : List CacheEntry).map CacheEntry.packed),
    l2upper := 1 }

theorem cacheNav_l1 (context : List Int) :
    CacheOver [] [⟨2, some 0⟩, ⟨7, none⟩] (cacheNav context).l1Buffer :=
  ⟨by simp [SmallExps], (LongBufferWith.iff_fill (by simp [SmallExps])).mpr rfl,
    by simp [CacheEntry.Fits], by simp [pageExp]⟩
theorem cacheNav_l2 (context : List Int) :
    CacheOver [] [⟨3, some 0⟩, ⟨6, none⟩] (cacheNav context).l2Buffer :=
  ⟨by simp [SmallExps], (LongBufferWith.iff_fill (by simp [SmallExps])).mpr rfl,
    by simp [CacheEntry.Fits], by simp [pageExp]⟩
theorem cacheNav_l3 (context : List Int) :
    CacheOver [] [⟨4, none⟩, ⟨5, none⟩] (cacheNav context).l3Buffer :=
  ⟨by simp [SmallExps], (LongBufferWith.iff_fill (by simp [SmallExps])).mpr rfl,
    by simp [CacheEntry.Fits], by simp [pageExp]⟩

/-- C28 is false for children at level 3: from token 3 (`c`) the move to the first child
succeeds and the current index is still 3; the third cache says 4. -/
theorem C28_refuted : ∃ n', (cacheNav [2, 2, 3, -1]).toElement Direction.firstChild = .ok true n' ∧
    (n'.getCurrentIndex).outcome = .value 3 := ⟨_, rfl, rfl⟩

/-- and for siblings at level 2: from token 3 (`c`) the move to the next sibling succeeds and
the current index is 2, the parent; the second cache says 6. -/
theorem C28_refuted_sibling : ∃ n',
    (cacheNav [2, 2, 3, -1]).toElement Direction.nextSibling = .ok true n' ∧
    (n'.getCurrentIndex).outcome = .value 2 := ⟨_, rfl, rfl⟩

/-- In general a child move from level 2 that succeeds stays on the token of the current
entry of the second cache, whatever the third cache holds. -/
theorem C28_level2_child_exact (exps2 es2) (n n' : VtdNav) (h2 : CacheOver exps2 es2 n.l2Buffer)
    (hat : n.atTerminal = false) (hc : n.context[0]? = some 2) (k : Nat) (hk : n.l2index = k)
    (e : CacheEntry) (hke : es2[k]? = some e) (dir : Direction)
    (hdir : dir = Direction.firstChild ∨ dir = Direction.lastChild)
    (h : n.toElement dir = .ok true n') :
    (n'.getCurrentIndex).outcome = .value (e.token : Int) := by
  rw [toChild_level n dir 2 hdir hat hc, if_neg (by omega), if_neg (by omega), if_pos rfl] at h
  obtain ⟨v, hv, hvn⟩ := h2.lower hke
  obtain ⟨u, hu, hui⟩ := h2.upper hke
  simp only [toChildLevel2, M.bind_apply, M.get_apply, Res.andThen_ok, hk] at h
  rw [onL2_ok hv] at h
  simp only [Res.andThen_ok, M.bind_apply, M.modify_apply, M.ite_apply] at h
  split at h
  · cases h
  andthen h with ⟨_, n2, g2, h⟩
  obtain ⟨-, -, rfl⟩ := setCtx_ok g2
  simp only [M.bind_apply, M.modify_apply, Res.andThen_ok] at h
  andthen h with ⟨r, n3, g3, h⟩
  cases (upperLoop_reads (fun i => onL2_reads (lower32At_reads i)) _ _ _).ok g3
  have key : ∀ (m : VtdNav) (i : Int), i = k → m.l2Buffer = n.l2Buffer →
      m.atTerminal = n.atTerminal → m.context = n.context.set 0 3 → (do
        let upper ← M.catchErr (do let u ← onL2 (Paged.upper32At i); pure (some u))
          (fun _ => pure none)
        match upper with
        | none => pure false
        | some upper => do
          setCtx 3 upper.toInt
          pure true : M VtdNav Bool) m = .ok true n' →
      (n'.getCurrentIndex).outcome = .value (e.token : Int) := by
    intro m i hi hb hta hcx h
    subst hi
    simp only [M.bind_apply, M.catchErr_apply] at h
    rw [onL2_ok (by rw [hb]; exact hu)] at h
    simp only [Res.andThen_ok, M.pure_apply, Res.handle_ok] at h
    andthen h with ⟨_, n5, h5, h⟩
    obtain ⟨-, hr, rfl⟩ := setCtx_ok h5
    cases h
    rw [← hui]
    exact index_set2 (l := n.context) (c := 3) (by exact hta.trans hat) (by omega)
      (by rw [hcx, List.length_set] at hr; exact hr)
      (by show m.context.set _ _ = _; rw [hcx]; rfl)
  cases r <;>
  · simp only [M.bind_apply, M.modify_apply, M.get_apply, Res.andThen_ok] at h
    refine key _ _ ?_ ?_ ?_ ?_ h <;> first | exact hk | rfl

/-- Non-vacuity: the moves that are right, on the same document. -/
example : (do
    let a ← toElement Direction.lastChild
    let i ← getCurrentIndex
    let b ← toElement Direction.prevSibling
    let j ← getCurrentIndex
    let c ← toElement Direction.lastChild
    let k ← getCurrentIndex
    pure (a, i, b, j, c, k) : M VtdNav _) (cacheNav [0, -1, -1, -1]) =
    .ok (true, 7, true, 2, true, 6)
      { cacheNav [2, 2, 6, -1] with l2index := 1, l2upper := 1 } := rfl
example : IsLastPos [⟨2, some 0⟩, ⟨7, none⟩] 2 0 1 := by
  right
  refine ⟨fun j hj e he => ?_, rfl⟩
  match j, hj with
  | 1, _ => simp at he; simp [← he]
  | j + 2, _ => simp at he

end GoVtd
