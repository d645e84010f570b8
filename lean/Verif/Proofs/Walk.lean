import Verif.Spec.Reach
import Verif.Props.NavCache

/-!
# Walking with a navigator over caches whose entries all have a child position
-/

namespace GoVtd
namespace Walk
open Paged VtdNav

/-- The cursor is at level `c`. -/
structure At (b1 b2 : FastLongBuffer) (root c : Int) (n : VtdNav) : Prop where
  l1 : n.l1Buffer = b1
  l2 : n.l2Buffer = b2
  root : n.rootIndex = root
  notTerminal : n.atTerminal = false
  room : 4 ≤ n.context.length
  level : n.context[0]? = some c

variable {b1 b2 : FastLongBuffer} {root : Int} {exps1 exps2 : List Int} {es1 es2 : List CacheEntry} {n : VtdNav}

theorem get_set {l : List Int} {k : Nat} {v w : Int} (h : k < l.length) (e : v = w) : (l.set k v)[k]? = some w := by
  simp [h, e]

theorem get_set0 {l : List Int} {k : Nat} {v w c : Int} (h : 0 < l.length) (hk : k ≠ 0) (e : v = w) :
    ((l.set 0 v).set k c)[0]? = some w := by
  rw [List.getElem?_set_ne hk]
  exact get_set h e

theorem At.toRoot {c : Int} (h : At b1 b2 root c n) : ∃ n', n.toElement Direction.root = .ok true n' ∧ At b1 b2 root 0 n' := by
  show ∃ n', toRootElement n = _ ∧ _
  have hr := h.room
  simp only [toRootElement, M.bind_apply, ctx_of (Int.le_refl 0) h.level, Res.andThen_ok, M.ite_apply]
  split
  · rw [setCtx_of (Int.le_refl 0) (by simp; omega)]
    exact ⟨_, rfl, { h with notTerminal := rfl, room := by simp; omega, level := get_set (by simp; omega) rfl }⟩
  · rename_i hc
    have : c = 0 := by simpa using hc
    exact ⟨_, rfl, { h with notTerminal := rfl, level := by rw [h.level, this] }⟩

theorem At.first (h : At b1 b2 root 0 n) (hc : CacheOver exps1 es1 b1) {e : CacheEntry} (he : es1[0]? = some e) :
    ∃ n', n.toElement Direction.firstChild = .ok true n' ∧ At b1 b2 root 1 n' ∧ n'.l1index = (0 : Nat) ∧
      n'.context[1]? = some (e.token : Int) := by
  have hr := h.room
  have hc : CacheOver exps1 es1 n.l1Buffer := h.l1 ▸ hc
  rw [toChild_level n _ 0 (.inl rfl) h.notTerminal h.level, if_pos rfl]
  simp only [toChildLevel0, M.bind_apply, M.get_apply, Res.andThen_ok, hc.size, M.ite_apply]
  have hl := (List.getElem?_eq_some_iff.1 he).1
  rw [if_neg (by omega), setCtx_of (Int.le_refl 0) (by simp; omega)]
  obtain ⟨v, hv, hvi⟩ := hc.upper he
  simp only [Res.andThen_ok, M.bind_apply, M.modify_apply, if_true]
  rw [onL1_ok (by exact hv)]
  simp only [Res.andThen_ok]
  rw [M.bind_apply, setCtx_of (by omega) (by simp; omega)]
  refine ⟨_, rfl, { h with room := by simp; omega, level := ?_ }, rfl, ?_⟩
  · exact get_set0 (by omega) (by decide) rfl
  · exact get_set (k := 1) (by simp; omega) hvi

theorem At.next1 (h : At b1 b2 root 1 n) (hc : CacheOver exps1 es1 b1) {k : Nat} (hk : n.l1index = k) {e : CacheEntry}
    (he : es1[k + 1]? = some e) :
    ∃ n', n.toElement Direction.nextSibling = .ok true n' ∧ At b1 b2 root 1 n' ∧ n'.l1index = (k + 1 : Nat) ∧
      n'.context[1]? = some (e.token : Int) := by
  have hr := h.room
  have hc : CacheOver exps1 es1 n.l1Buffer := h.l1 ▸ hc
  show ∃ n', toSiblingElement _ n = _ ∧ _
  simp only [toSiblingElement, M.bind_apply, M.get_apply, Res.andThen_ok]
  rw [if_neg (by simp [h.notTerminal]), M.bind_apply, ctx_of (Int.le_refl 0) h.level]
  simp only [Res.andThen_ok]
  have hl := (List.getElem?_eq_some_iff.1 he).1
  simp only [if_true]
  rw [if_neg (by omega), hk, hc.size, if_neg (by omega)]
  obtain ⟨v, hv, hvi⟩ := hc.upper he
  simp only [M.bind_apply, M.modify_apply, Res.andThen_ok]
  rw [show (k : Int) + 1 = ((k + 1 : Nat) : Int) by omega, onL1_ok (by exact hv)]
  simp only [Res.andThen_ok]
  rw [M.bind_apply, setCtx_of (by omega) (by simp; omega)]
  refine ⟨_, rfl, { h with room := by simp; omega, level := ?_ }, by simp [hk], ?_⟩
  · rw [List.getElem?_set_ne (by simp)]; exact h.level
  · exact get_set (k := 1) (by simp; omega) hvi

theorem At.end1 (h : At b1 b2 root 1 n) (hc : CacheOver exps1 es1 b1) {k : Nat} (hk : n.l1index = k)
    (he : es1.length ≤ k + 1) : n.toElement Direction.nextSibling = .ok false n := by
  have hc : CacheOver exps1 es1 n.l1Buffer := h.l1 ▸ hc
  show toSiblingElement _ n = _
  simp only [toSiblingElement, M.bind_apply, M.get_apply, Res.andThen_ok]
  rw [if_neg (by simp [h.notTerminal]), M.bind_apply, ctx_of (Int.le_refl 0) h.level]
  simp only [Res.andThen_ok, if_true]
  rw [if_neg (by omega), hk, hc.size, if_pos (by omega)]
  rfl

/-- The search for the upper bound stops at the next entry, if there is one. -/
theorem upper_next {exps es} {Q : VtdNav → Prop} {rd : Int → M VtdNav (BitVec 32)}
    {b : FastLongBuffer} (h : CacheOver exps es b) (hall : ∀ e ∈ es, e.child ≠ none)
    (hrd : ∀ n, Q n → ∀ (i : Nat) v, lower32At i b = .ok v b → rd i n = .ok v n)
    (k fuel : Nat) (hf : es.length < k + 1 + fuel) (hf0 : 0 < fuel) (hq : Q n) :
    upperLoop rd es.length fuel ((k : Int) + 1) n =
      .ok ((es[k + 1]?.bind CacheEntry.child).map fun (a : Nat) => (a : Int) - 1) n := by
  rw [show (k : Int) + 1 = ((k + 1 : Nat) : Int) by omega]
  rcases upperLoop_eq (Q := Q) (rd := rd) h hrd k fuel (k + 1) (by omega) (by omega) hf0 (by omega) with
    ⟨j, b, e', hj, hje, hjb, hjn, hrun⟩ | ⟨hnone, hrun⟩
  · have hjk : j = k + 1 := by
      apply Classical.byContradiction
      intro hne
      have hlt := (List.getElem?_eq_some_iff.1 hje).1
      have hg : es[k + 1]? = some (es[k + 1]'(by omega)) := by simp
      exact hall _ (List.mem_of_getElem? hg) (hjn (k + 1) (by omega) (by omega) _ hg)
    subst hjk
    rw [hrun n hq, hje]
    simp [hjb]
  · rw [hrun n hq]
    cases hg : es[k + 1]? with
    | none => rfl
    | some e => exact absurd (hnone (k + 1) (by omega) e hg) (hall e (List.mem_of_getElem? hg))

theorem At.down1 (h : At b1 b2 root 1 n) (hc : CacheOver exps1 es1 b1) (hall : ∀ e ∈ es1, e.child ≠ none)
    (hc2 : CacheOver exps2 es2 b2) {k : Nat} (hk : n.l1index = k)
    {e : CacheEntry} (he : es1[k]? = some e) {a : Nat} (ha : e.child = some a) {f : CacheEntry} (hf : es2[a]? = some f) :
    ∃ n', n.toElement Direction.firstChild = .ok true n' ∧ At b1 b2 root 2 n' ∧ n'.l1index = k ∧ n'.l2index = a ∧
      n'.l2upper = (((es1[k + 1]?.bind CacheEntry.child).map fun (a : Nat) => (a : Int) - 1).getD (es2.length - 1)) ∧
      n'.context[2]? = some (f.token : Int) := by
  have hr := h.room
  have hc : CacheOver exps1 es1 n.l1Buffer := h.l1 ▸ hc
  have hc2 : CacheOver exps2 es2 n.l2Buffer := h.l2 ▸ hc2
  rw [toChild_level n _ 1 (.inl rfl) h.notTerminal h.level, if_neg (by omega), if_pos rfl]
  obtain ⟨v, hv, hvn⟩ := hc.lower he
  obtain ⟨hint, -⟩ := child_toInt (hc.fits _ (List.mem_of_getElem? he)) hvn
  rw [ha] at hint
  simp only at hint
  obtain ⟨w, hw, hwi⟩ := hc2.upper hf
  simp only [toChildLevel1, M.bind_apply, M.get_apply, Res.andThen_ok, hk]
  rw [onL1_ok hv]
  simp only [Res.andThen_ok, M.bind_apply, M.modify_apply, hint]
  rw [if_neg (by omega)]
  rw [M.bind_apply, setCtx_of (Int.le_refl 0) (by simp; omega)]
  simp only [Res.andThen_ok, M.bind_apply, M.modify_apply, hc.size, hc2.size]
  rw [upper_next (Q := fun m => m.l1Buffer = n.l1Buffer) hc hall (fun m hm i v hv => onL1_ok (by rw [hm]; exact hv)) k _ (by omega) (by omega) (by rfl)]
  cases hu : es1[k + 1]?.bind CacheEntry.child with
  | none =>
    simp only [Option.map_none, Res.andThen_ok, M.bind_apply, M.modify_apply, M.get_apply, if_true, M.catchErr_apply]
    rw [onL2_ok (by exact hw)]
    simp only [Res.andThen_ok, M.pure_apply, Res.handle_ok]
    rw [M.bind_apply, setCtx_of (by omega) (by simp; omega)]
    refine ⟨_, rfl, { h with room := by simp; omega, level := ?_ }, hk, rfl, ?_, ?_⟩
    · exact get_set0 (by omega) (by decide) rfl
    · simp
    · exact get_set (k := 2) (by simp; omega) hwi
  | some u =>
    simp only [Option.map_some, Res.andThen_ok, M.bind_apply, M.modify_apply, M.get_apply, if_true, M.catchErr_apply]
    rw [onL2_ok (by exact hw)]
    simp only [Res.andThen_ok, M.pure_apply, Res.handle_ok]
    rw [M.bind_apply, setCtx_of (by omega) (by simp; omega)]
    refine ⟨_, rfl, { h with room := by simp; omega, level := ?_ }, hk, rfl, ?_, ?_⟩
    · exact get_set0 (by omega) (by decide) rfl
    · simp
    · exact get_set (k := 2) (by simp; omega) hwi

theorem At.next2 (h : At b1 b2 root 2 n) (hc : CacheOver exps1 es1 b1) {k i : Nat} (hk : n.l1index = k) {e : CacheEntry}
    (he : es1[k]? = some e) (hi : n.l2index = i) (hu : (i : Int) + 1 ≤ n.l2upper) :
    ∃ n', n.toElement Direction.nextSibling = .ok true n' ∧ At b1 b2 root 2 n' ∧ n'.l1index = k ∧ n'.l2index = (i + 1 : Nat) ∧
      n'.l2upper = n.l2upper := by
  have hr := h.room
  have hc : CacheOver exps1 es1 n.l1Buffer := h.l1 ▸ hc
  show ∃ n', toSiblingElement _ n = _ ∧ _
  simp only [toSiblingElement, M.bind_apply, M.get_apply, Res.andThen_ok]
  rw [if_neg (by simp [h.notTerminal]), M.bind_apply, ctx_of (Int.le_refl 0) h.level]
  simp only [Res.andThen_ok, if_true]
  rw [if_neg (by omega), if_neg (by omega), hi, if_neg (by omega)]
  obtain ⟨v, hv, hvi⟩ := hc.upper he
  simp only [M.bind_apply, M.modify_apply, Res.andThen_ok, hk]
  rw [onL1_ok (by exact hv)]
  simp only [Res.andThen_ok]
  rw [M.bind_apply, setCtx_of (by omega) (by simp; omega)]
  refine ⟨_, rfl, { h with room := by simp; omega, level := ?_ }, rfl, by simp [hi], rfl⟩
  rw [List.getElem?_set_ne (by simp)]; exact h.level

theorem At.down2 (h : At b1 b2 root 2 n) (hc2 : CacheOver exps2 es2 b2) (hall : ∀ e ∈ es2, e.child ≠ none) {i : Nat}
    (hi : n.l2index = i) {f : CacheEntry} (hf : es2[i]? = some f) :
    ∃ n', n.toElement Direction.firstChild = .ok true n' ∧ At b1 b2 root 3 n' ∧ n'.context[3]? = some (f.token : Int) := by
  have hr := h.room
  have hc2 : CacheOver exps2 es2 n.l2Buffer := h.l2 ▸ hc2
  rw [toChild_level n _ 2 (.inl rfl) h.notTerminal h.level, if_neg (by omega), if_neg (by omega), if_pos rfl]
  obtain ⟨v, hv, hvn⟩ := hc2.lower hf
  obtain ⟨hint, -⟩ := child_toInt (hc2.fits _ (List.mem_of_getElem? hf)) hvn
  obtain ⟨a, ha⟩ : ∃ a, f.child = some a := Option.ne_none_iff_exists'.1 (hall f (List.mem_of_getElem? hf))
  rw [ha] at hint
  simp only at hint
  obtain ⟨w, hw, hwi⟩ := hc2.upper hf
  simp only [toChildLevel2, M.bind_apply, M.get_apply, Res.andThen_ok, hi]
  rw [onL2_ok hv]
  simp only [Res.andThen_ok, M.bind_apply, M.modify_apply, hint]
  rw [if_neg (by omega)]
  rw [M.bind_apply, setCtx_of (Int.le_refl 0) (by simp; omega)]
  simp only [Res.andThen_ok, M.bind_apply, M.modify_apply, hc2.size]
  rw [upper_next (Q := fun m => m.l2Buffer = n.l2Buffer) hc2 hall (fun m hm i v hv => onL2_ok (by rw [hm]; exact hv)) i _ (by omega) (by omega) (by rfl)]
  cases es2[i + 1]?.bind CacheEntry.child with
  | none =>
    simp only [Option.map_none, Res.andThen_ok, M.bind_apply, M.modify_apply, M.get_apply, if_true, M.catchErr_apply, hi]
    rw [onL2_ok (by exact hw)]
    simp only [Res.andThen_ok, M.pure_apply, Res.handle_ok]
    rw [M.bind_apply, setCtx_of (by omega) (by simp; omega)]
    refine ⟨_, rfl, { h with room := by simp; omega, level := ?_ }, ?_⟩
    · exact get_set0 (by omega) (by decide) rfl
    · exact get_set (k := 3) (by simp; omega) hwi
  | some u =>
    simp only [Option.map_some, Res.andThen_ok, M.bind_apply, M.modify_apply, M.get_apply, if_true, M.catchErr_apply, hi]
    rw [onL2_ok (by exact hw)]
    simp only [Res.andThen_ok, M.pure_apply, Res.handle_ok]
    rw [M.bind_apply, setCtx_of (by omega) (by simp; omega)]
    refine ⟨_, rfl, { h with room := by simp; omega, level := ?_ }, ?_⟩
    · exact get_set0 (by omega) (by decide) rfl
    · exact get_set (k := 3) (by simp; omega) hwi

/-! ## Ways -/

theorem At.index {c : Nat} (h : At b1 b2 root c n) (hc : 0 < c) {v : Int} (hv : n.context[c]? = some v) :
    (n.getCurrentIndex).outcome = .value v := index_at h.notTerminal h.level hc hv

theorem At.index0 (h : At b1 b2 root 0 n) : (n.getCurrentIndex).outcome = .value root := by
  simp only [getCurrentIndex, M.bind_apply, M.get_apply, Res.andThen_ok]
  rw [if_neg (by simp [h.notTerminal]), M.bind_apply, ctx_of (Int.le_refl 0) h.level]
  simp only [Res.andThen_ok]
  rw [if_neg (by omega), if_pos trivial, ← h.root]
  rfl

/-- From the root to the entry `k` of the first cache: `FirstChild`, then `k` times `NextSibling`. -/
theorem At.along (h : At b1 b2 root 0 n) (hc : CacheOver exps1 es1 b1) (k : Nat) {e : CacheEntry} (he : es1[k]? = some e) :
    ∃ n', Reaches n n' ∧ At b1 b2 root 1 n' ∧ n'.l1index = k ∧ n'.context[1]? = some (e.token : Int) := by
  induction k generalizing e with
  | zero =>
    obtain ⟨n', h1, h2, h3, h4⟩ := h.first hc he
    exact ⟨n', .move .here h1, h2, h3, h4⟩
  | succ k ih =>
    have hl := (List.getElem?_eq_some_iff.1 he).1
    obtain ⟨n1, r1, a1, i1, -⟩ := ih (e := es1[k]'(by omega)) (by simp)
    obtain ⟨n', h1, h2, h3, h4⟩ := a1.next1 hc i1 he
    exact ⟨n', .move r1 h1, h2, h3, h4⟩

/-- At level 2, `NextSibling` moves the position in the second cache. -/
theorem At.along2 (h : At b1 b2 root 2 n) (hc : CacheOver exps1 es1 b1) {k a : Nat} (hk : n.l1index = k) {e : CacheEntry}
    (he : es1[k]? = some e) (hi : n.l2index = a) (m : Nat) (hu : (a : Int) + m ≤ n.l2upper) :
    ∃ n', Reaches n n' ∧ At b1 b2 root 2 n' ∧ n'.l1index = k ∧ n'.l2index = (a + m : Nat) ∧ n'.l2upper = n.l2upper := by
  induction m with
  | zero => exact ⟨n, .here, h, hk, hi, rfl⟩
  | succ m ih =>
    obtain ⟨n1, r1, a1, i1, j1, u1⟩ := ih (by omega)
    obtain ⟨n', h1, h2, h3, h4, h5⟩ := a1.next2 hc i1 he j1 (by omega)
    exact ⟨n', .move r1 h1, h2, h3, h4, h5.trans u1⟩

theorem Reaches.trans {n n' n'' : VtdNav} (h : Reaches n n') (h' : Reaches n' n'') : Reaches n n'' := by
  induction h' with
  | here => exact h
  | move _ hm ih => exact .move ih hm
  | fail _ hm ih => exact .fail ih hm

end Walk
end GoVtd
