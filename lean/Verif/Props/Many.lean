import Verif.Props.ReachTree

/-!
# C71 for the children of the root, however many they are

The walk `Root`, `FirstChild`, `NextSibling`, ... over the children of the root, without a bound on their number.
-/

namespace GoVtd

open Parser Grammar Paged VtdNav

namespace Walk

variable {b1 b2 : FastLongBuffer} {root : Int} {n : VtdNav} {P : Nat} {ts : List Nat}

/-- The entries of a buffer are about the tokens `ts`; only the first `P` entries can be read. -/
structure Shows (P : Nat) (ts : List Nat) (b : FastLongBuffer) : Prop where
  size : b.getSize = ts.length
  upper : ∀ (k t : Nat), ts[k]? = some t → k < P → ∃ v, upper32At k b = .ok v b ∧ v.toInt = (t : Int)
  far : ∀ k : Nat, P ≤ k → k < ts.length → upper32At k b = .err (indexErr (some (indexErr Option.none))) b

theorem shows_fill {e : Nat} {ws : List (BitVec 64)} (h : ∀ w ∈ ws, w.toNat / 2 ^ 32 < 2 ^ 28) :
    Shows (2 ^ e) (ws.map fun w => w.toNat / 2 ^ 32) (fill e ws) := by
  have hc2 : (2 : Int) ^ e = ((2 ^ e : Nat) : Int) := by simp
  refine ⟨by simp [getSize, fill], fun k t hk hp => ?_, fun k hp hk => ?_⟩
  · rw [List.getElem?_map, Option.map_eq_some_iff] at hk
    obtain ⟨w, hw, rfl⟩ := hk
    obtain ⟨hl, hg⟩ := List.getElem?_eq_some_iff.1 hw
    obtain ⟨h1, -, -⟩ := atWith_fill (fun _ => indexErr none) e ws (k : Int)
    obtain ⟨hl', hr⟩ := h1 ⟨by omega, by omega, by omega⟩
    have hu := C07_upper_exact (fill e ws) k w (by rw [longAt, hr]; simp [hg, Res.outcome])
    cases hv : upper32At k (fill e ws) with
    | ok v s =>
      have hs : s = fill e ws := by
        simp only [upper32At, longAt, M.bind_apply, M.catchErr_apply, hr, Res.handle_ok, Res.andThen_ok, M.pure_apply] at hv
        cases hv; rfl
      subst hs
      refine ⟨v, rfl, ?_⟩
      rw [hv] at hu
      simp only [Res.outcome, Outcome.value.injEq] at hu
      have hb := h w (List.mem_of_getElem? hw)
      have hn : v.toNat = w.toNat / 2 ^ 32 := by
        rw [hu, BitVec.toNat_and, BitVec.extractLsb'_toNat, show (0x0FFFFFFF#32).toNat = 2 ^ 28 - 1 by decide,
          Nat.and_two_pow_sub_one_eq_mod, Nat.shiftRight_eq_div_pow]
        omega
      rw [BitVec.toInt_eq_toNat_of_lt (by omega), hn]
    | err _ _ => rw [hv] at hu; cases hu
    | panic => rw [hv] at hu; cases hu
    | diverge => rw [hv] at hu; cases hu
  · rw [List.length_map] at hk
    obtain ⟨-, -, h3⟩ := atWith_fill (fun _ => indexErr none) e ws (k : Int)
    have hnp : ¬ panics e ws.length (k : Int) := by
      rintro ⟨-, q1, -⟩
      have := Int.ediv_mul_le (k : Int) (b := (2 : Int) ^ e) (by rw [hc2]; have := Nat.two_pow_pos e; omega)
      omega
    rcases h3 (by rintro ⟨-, -, h⟩; omega) hnp with h3 | h3 <;>
    · simp only [upper32At, longAt, M.bind_apply, M.catchErr_apply, h3]
      rfl

theorem At.first_of (h : At b1 b2 root 0 n) (hc : Shows P ts b1) (hP : 0 < P) {t : Nat} (ht : ts[0]? = some t) :
    ∃ n', n.toElement Direction.firstChild = .ok true n' ∧ At b1 b2 root 1 n' ∧ n'.l1index = (0 : Nat) ∧
      n'.context[1]? = some (t : Int) := by
  have hr := h.room
  have hc : Shows P ts n.l1Buffer := h.l1 ▸ hc
  rw [toChild_level n _ 0 (.inl rfl) h.notTerminal h.level, if_pos rfl]
  simp only [toChildLevel0, M.bind_apply, M.get_apply, Res.andThen_ok, hc.size, M.ite_apply]
  have hl := (List.getElem?_eq_some_iff.1 ht).1
  rw [if_neg (by omega), setCtx_of (Int.le_refl 0) (by simp; omega)]
  obtain ⟨v, hv, hvi⟩ := hc.upper 0 t ht hP
  simp only [Res.andThen_ok, M.bind_apply, M.modify_apply, if_true]
  rw [onL1_ok (by exact hv)]
  simp only [Res.andThen_ok]
  rw [M.bind_apply, setCtx_of (by omega) (by simp; omega)]
  refine ⟨_, rfl, { h with room := by simp; omega, level := ?_ }, rfl, ?_⟩
  · exact get_set0 (by omega) (by decide) rfl
  · exact get_set (k := 1) (by simp; omega) hvi

theorem At.none_of (h : At b1 b2 root 0 n) (hc : Shows P [] b1) : n.toElement Direction.firstChild = .ok false n := by
  have hc : Shows P [] n.l1Buffer := h.l1 ▸ hc
  rw [toChild_level n _ 0 (.inl rfl) h.notTerminal h.level, if_pos rfl]
  simp only [toChildLevel0, M.bind_apply, M.get_apply, Res.andThen_ok, hc.size]
  rw [if_pos (by simp)]
  rfl

theorem At.next_of (h : At b1 b2 root 1 n) (hc : Shows P ts b1) {k : Nat} (hk : n.l1index = k) (hP : k + 1 < P) {t : Nat}
    (ht : ts[k + 1]? = some t) :
    ∃ n', n.toElement Direction.nextSibling = .ok true n' ∧ At b1 b2 root 1 n' ∧ n'.l1index = (k + 1 : Nat) ∧
      n'.context[1]? = some (t : Int) := by
  have hr := h.room
  have hc : Shows P ts n.l1Buffer := h.l1 ▸ hc
  show ∃ n', toSiblingElement _ n = _ ∧ _
  simp only [toSiblingElement, M.bind_apply, M.get_apply, Res.andThen_ok]
  rw [if_neg (by simp [h.notTerminal]), M.bind_apply, ctx_of (Int.le_refl 0) h.level]
  simp only [Res.andThen_ok]
  have hl := (List.getElem?_eq_some_iff.1 ht).1
  simp only [if_true]
  rw [if_neg (by omega), hk, hc.size, if_neg (by omega)]
  obtain ⟨v, hv, hvi⟩ := hc.upper _ _ ht hP
  simp only [M.bind_apply, M.modify_apply, Res.andThen_ok]
  rw [show (k : Int) + 1 = ((k + 1 : Nat) : Int) by omega, onL1_ok (by exact hv)]
  simp only [Res.andThen_ok]
  rw [M.bind_apply, setCtx_of (by omega) (by simp; omega)]
  refine ⟨_, rfl, { h with room := by simp; omega, level := ?_ }, by simp [hk], ?_⟩
  · rw [List.getElem?_set_ne (by simp)]; exact h.level
  · exact get_set (k := 1) (by simp; omega) hvi

theorem At.end_of (h : At b1 b2 root 1 n) (hc : Shows P ts b1) {k : Nat} (hk : n.l1index = k)
    (he : ts.length ≤ k + 1) : n.toElement Direction.nextSibling = .ok false n := by
  have hc : Shows P ts n.l1Buffer := h.l1 ▸ hc
  show toSiblingElement _ n = _
  simp only [toSiblingElement, M.bind_apply, M.get_apply, Res.andThen_ok]
  rw [if_neg (by simp [h.notTerminal]), M.bind_apply, ctx_of (Int.le_refl 0) h.level]
  simp only [Res.andThen_ok, if_true]
  rw [if_neg (by omega), hk, hc.size, if_pos (by omega)]
  rfl

/-- The move that would leave the first page fails. -/
theorem At.stuck (h : At b1 b2 root 1 n) (hc : Shows P ts b1) {k : Nat} (hk : n.l1index = k) (hP : P ≤ k + 1)
    (he : k + 1 < ts.length) : ∃ n', n.toElement Direction.nextSibling = .err (indexErr (some (indexErr Option.none))) n' := by
  have hc : Shows P ts n.l1Buffer := h.l1 ▸ hc
  show ∃ n', toSiblingElement _ n = _
  simp only [toSiblingElement, M.bind_apply, M.get_apply, Res.andThen_ok]
  rw [if_neg (by simp [h.notTerminal]), M.bind_apply, ctx_of (Int.le_refl 0) h.level]
  simp only [Res.andThen_ok, if_true]
  rw [if_neg (by omega), hk, hc.size, if_neg (by omega)]
  simp only [M.bind_apply, M.modify_apply, Res.andThen_ok]
  have hf := hc.far (k + 1) hP he
  rw [show (k : Int) + 1 = ((k + 1 : Nat) : Int) by omega]
  simp only [VtdNav.onL1, M.zoom_apply, hf]
  exact ⟨_, rfl⟩

theorem At.walk_of (h : At b1 b2 root 0 n) (hc : Shows P ts b1) (k : Nat) (hP : k < P) {t : Nat} (ht : ts[k]? = some t) :
    ∃ n', VtdNav.walk (Direction.firstChild :: List.replicate k Direction.nextSibling) n = .ok true n' ∧ At b1 b2 root 1 n' ∧
      n'.l1index = k ∧ n'.context[1]? = some (t : Int) := by
  induction k generalizing t with
  | zero =>
    obtain ⟨n', h1, h2, h3, h4⟩ := h.first_of hc hP ht
    exact ⟨n', walk_one h1, h2, h3, h4⟩
  | succ k ih =>
    have hl := (List.getElem?_eq_some_iff.1 ht).1
    obtain ⟨n1, r1, a1, i1, -⟩ := ih (by omega) (t := ts[k]'(by omega)) (by simp)
    obtain ⟨n', h1, h2, h3, h4⟩ := a1.next_of hc i1 hP ht
    refine ⟨n', ?_, h2, h3, h4⟩
    rw [List.replicate_succ', ← List.cons_append, walk_append r1]
    exact walk_one h1

theorem At.along_of (h : At b1 b2 root 0 n) (hc : Shows P ts b1) (k : Nat) (hP : k < P) {t : Nat} (ht : ts[k]? = some t) :
    ∃ n', Reaches n n' ∧ At b1 b2 root 1 n' ∧ n'.l1index = k ∧ n'.context[1]? = some (t : Int) := by
  induction k generalizing t with
  | zero =>
    obtain ⟨n', h1, h2, h3, h4⟩ := h.first_of hc hP ht
    exact ⟨n', .move .here h1, h2, h3, h4⟩
  | succ k ih =>
    have hl := (List.getElem?_eq_some_iff.1 ht).1
    obtain ⟨n1, r1, a1, i1, -⟩ := ih (by omega) (t := ts[k]'(by omega)) (by simp)
    obtain ⟨n', h1, h2, h3, h4⟩ := a1.next_of hc i1 hP ht
    exact ⟨n', .move r1 h1, h2, h3, h4⟩

theorem walk_err {as bs : List Direction} {n n' : VtdNav} {e : GoErr} (h : VtdNav.walk as n = .err e n') :
    VtdNav.walk (as ++ bs) n = .err e n' := by
  induction as generalizing n with
  | nil => cases h
  | cons a as ih =>
    simp only [VtdNav.walk, List.cons_append, M.bind_apply] at h ⊢
    cases hr : VtdNav.toElement a n with
    | ok b n1 =>
      rw [hr] at h
      cases b
      · cases h
      · exact ih h
    | err _ _ => rw [hr] at h; exact h
    | panic => rw [hr] at h; cases h
    | diverge => rw [hr] at h; cases h

theorem walk_one_err {d : Direction} {n n' : VtdNav} {e : GoErr} (h : n.toElement d = .err e n') : VtdNav.walk [d] n = .err e n' := by
  simp only [VtdNav.walk, M.bind_apply]
  rw [h]
  rfl

/-- The walk over a cache of any size. -/
theorem At.walkTo_of {c : Int} (h : At b1 b2 root c n) (hc : Shows P ts b1) (hP : 0 < P) (k : Nat) :
    (VtdNav.walkTo (Direction.root :: Direction.firstChild :: List.replicate k Direction.nextSibling) n).outcome =
      if P ≤ k ∧ P < ts.length then .error (indexErr (some (indexErr Option.none))) else .value (ts[k]?.map fun (i : Nat) => (i : Int)) := by
  obtain ⟨n0, r0, a0⟩ := h.toRoot
  have hroot : ∀ ds, VtdNav.walk (Direction.root :: ds) n = VtdNav.walk ds n0 := fun ds => walk_append (as := [Direction.root]) (walk_one r0)
  simp only [VtdNav.walkTo, M.bind_apply, hroot]
  split
  · next hfar =>
    obtain ⟨n1, r1, a1, i1, -⟩ := a0.walk_of hc (P - 1) (by omega) (t := ts[P - 1]'(by omega)) (by simp)
    obtain ⟨n2, h2⟩ := a1.stuck hc i1 (by omega) (by omega)
    have hf : VtdNav.walk (Direction.firstChild :: List.replicate k Direction.nextSibling) n0 =
        .err (indexErr (some (indexErr Option.none))) n2 := by
      rw [show k = P - 1 + (1 + (k - P)) by omega, ← List.replicate_append_replicate, ← List.cons_append,
        walk_append r1, ← List.replicate_append_replicate]
      exact walk_err (walk_one_err h2)
    rw [hf]
    rfl
  next hnear =>
  cases he : ts[k]? with
  | some t =>
    have hl := (List.getElem?_eq_some_iff.1 he).1
    obtain ⟨n1, r1, a1, -, c1⟩ := a0.walk_of hc k (by omega) he
    have hi := a1.index (c := 1) (by omega) c1
    rw [r1]
    simp only [Res.andThen_ok, if_true, M.bind_apply]
    cases hg : n1.getCurrentIndex with
    | ok i n2 =>
      rw [hg] at hi
      cases hi
      simp [Res.outcome, Res.andThen, M.pure_apply]
    | err _ _ => rw [hg] at hi; cases hi
    | panic => rw [hg] at hi; cases hi
    | diverge => rw [hg] at hi; cases hi
  | none =>
    obtain ⟨n1, hf⟩ : ∃ n1, VtdNav.walk (Direction.firstChild :: List.replicate k Direction.nextSibling) n0 = .ok false n1 := by
      cases hl : ts.length with
      | zero =>
        obtain rfl := List.length_eq_zero_iff.1 hl
        exact ⟨n0, walk_stop (as := [Direction.firstChild]) (walk_one (a0.none_of hc))⟩
      | succ m =>
        have hk : m < k := by
          have := List.getElem?_eq_none_iff.1 he; omega
        obtain ⟨n1, r1, a1, i1, -⟩ := a0.walk_of hc m (by omega) (t := ts[m]'(by omega)) (by simp)
        refine ⟨n1, ?_⟩
        rw [show k = m + (1 + (k - m - 1)) by omega, ← List.replicate_append_replicate, ← List.cons_append,
          walk_append r1, ← List.replicate_append_replicate]
        exact walk_stop (walk_one (a1.end_of hc i1 (by omega)))
    rw [hf]
    simp [Res.outcome, M.pure_apply]

end Walk

/-- The first cache, however large it is. -/
theorem parsed_shows {fuel : Nat} {opts : List ParserOption} (hdeep : chosenDeep opts = true) {p : Parser}
    (hp : parsed fuel opts = some p) (hlen : p.out.vtdBuffer.values.length ≤ 2 ^ 28) :
    ∃ P : Nat, p.out.l1Buffer.pageSize = P ∧ 32 ≤ P ∧ P ≤ 256 ∧ Walk.Shows P
      (((level noChild 1 0 (startsFrom 0 p.out.vtdBuffer.values)).map entryOf).map (·.token)) p.out.l1Buffer := by
  obtain ⟨c1, -⟩ := C45_caches fuel opts hdeep p hp
  obtain ⟨e, s0, s1, f1⟩ := filled_small (parsed_small hp).l1
  have hs := startsFrom_length 0 p.out.vtdBuffer.values
  have h2 : p.out.l1Buffer.pageSize = 2 ^ e := by
    conv => lhs; rw [f1]
    rfl
  refine ⟨2 ^ e, by rw [h2]; simp, Nat.pow_le_pow_right (n := 2) (by decide) s0, Nat.pow_le_pow_right (n := 2) (by decide) s1, ?_⟩
  have key := Walk.shows_fill (e := e) (ws := p.out.l1Buffer.values) (c1 ▸ fun (w : BitVec 64) hw => by
    obtain ⟨j, a, g1, rfl, g3⟩ := mem_level hw
    obtain ⟨j', w, h4, h5, -⟩ := mem_startsFrom.1 g1
    have hl := (List.getElem?_eq_some_iff.1 h5).1
    have ha : a < 2 ^ 31 := by simp only [noChild] at g3; omega
    rw [entry_toNat (by omega) (by omega)]
    omega)
  rw [← f1, c1] at key
  rw [List.map_map]
  exact key

/-- C71 for the children of the root, exactly, without a bound on their number. A page of the first cache has `P` entries, from 32
to 256. `Root`, `FirstChild` and `k` times `NextSibling` bring the cursor to the `k`-th child element in document order, and one
of the moves returns false if there is no such child; but if the root has more than `P` children, the move to child number `P`
returns an error. -/
theorem C71_children_exact (fuel : Nat) (opts : List ParserOption) (hdeep : chosenDeep opts = true) (doc : List UInt8) (o l : Nat)
    (h : SelectWindow opts doc o l) (hlen : o + l < 2 ^ 31) (tree : Tree.Document) (hn : NsNeutral opts doc o tree)
    (hb : (doc.drop o).take l = tree.bytes) (hg : tree.Regular) (htok : tree.items.length ≤ 2 ^ 28)
    (p : Parser) (hp : parsed fuel opts = some p) (depth : Int) (hd : 4 ≤ depth) (n : VtdNav) (hv : NavOf p depth n) :
    ∃ P : Nat, p.out.l1Buffer.pageSize = P ∧ 32 ≤ P ∧ P ≤ 256 ∧ ∀ k,
      (VtdNav.walkTo (Direction.root :: Direction.firstChild :: List.replicate k Direction.nextSibling) n).outcome =
        if P ≤ k ∧ P < tree.rootElem.children.length then .error (indexErr (some (indexErr Option.none)))
        else .value (tree.rootElem.children[k]?.map fun c => (c.token : Int)) := by
  have hi := parsed_shown h hlen hn hb hg hp
  rw [← hi.length, List.length_map] at htok
  have ht := children_tokens hp hg.syn.epilog hi htok
  obtain ⟨P, hP, h1, h2, hsh⟩ := parsed_shows hdeep hp htok
  refine ⟨P, hP, h1, h2, fun k => ?_⟩
  rw [ht] at hsh
  rw [(newVtdNav_at hv hd).walkTo_of hsh (by omega) k, List.length_map, List.getElem?_map, Option.map_map]
  rfl

/-- C71 is false of the children of a root that has more than 256 child elements: the walk over them ends with an error. -/
theorem C71_many_refuted (fuel : Nat) (opts : List ParserOption) (hdeep : chosenDeep opts = true) (doc : List UInt8) (o l : Nat)
    (h : SelectWindow opts doc o l) (hlen : o + l < 2 ^ 31) (tree : Tree.Document) (hn : NsNeutral opts doc o tree)
    (hb : (doc.drop o).take l = tree.bytes) (hg : tree.Regular) (htok : tree.items.length ≤ 2 ^ 28)
    (hc : 256 < tree.rootElem.children.length)
    (p : Parser) (hp : parsed fuel opts = some p) (depth : Int) (hd : 4 ≤ depth) (n : VtdNav) (hv : NavOf p depth n) :
    (VtdNav.walkTo (Direction.root :: Direction.firstChild :: List.replicate 256 Direction.nextSibling) n).outcome =
      .error (indexErr (some (indexErr Option.none))) := by
  obtain ⟨P, -, -, h2, key⟩ := C71_children_exact fuel opts hdeep doc o l h hlen tree hn hb hg htok p hp depth hd n hv
  rw [key, if_pos (by omega)]

/-! ## What no moves can reach -/

/-- The numbers of the start tags with `d` elements around them, in document order. -/
def startsOf (d : Nat) (ws : List (BitVec 64)) : List Nat := ((startsFrom 0 ws).filter (·.2 = d)).map (·.1)

theorem mem_startsOf {d j : Nat} {ws : List (BitVec 64)} :
    j ∈ startsOf d ws ↔ ∃ w, ws[j]? = some w ∧ IsStart w ∧ tokenDepth w = d := by
  simp only [startsOf, List.mem_map, List.mem_filter, decide_eq_true_eq]
  constructor
  · rintro ⟨⟨i, k⟩, ⟨h1, rfl⟩, rfl⟩
    obtain ⟨k', w, h2, h3⟩ := mem_startsFrom.1 h1
    obtain rfl : i = k' := by omega
    exact ⟨w, h3⟩
  · rintro ⟨w, h⟩
    exact ⟨(j, d), ⟨mem_startsFrom.2 ⟨j, w, by omega, h⟩, rfl⟩, rfl⟩

/-- Only entries of the first page are read. -/
theorem upper_page {e : Nat} {xs : List (BitVec 64)} {i : Int} {v : BitVec 32} {s : FastLongBuffer}
    (h : upper32At i (fill e xs) = .ok v s) :
    ∃ (k : Nat) (x : BitVec 64), k < 2 ^ e ∧ xs[k]? = some x ∧ v.toInt = ((x.toNat / 2 ^ 32 % 2 ^ 28 : Nat) : Int) := by
  have hc2 : (2 : Int) ^ e = ((2 ^ e : Nat) : Int) := by simp
  obtain ⟨h1, h2, h3⟩ := atWith_fill (fun _ => indexErr none) e xs i
  by_cases hc : 0 ≤ i ∧ i < xs.length ∧ i < 2 ^ e
  · obtain ⟨hl, hr⟩ := h1 hc
    have hu := C07_upper_exact (fill e xs) i xs[i.toNat] (by rw [longAt, hr]; rfl)
    rw [h] at hu
    simp only [Res.outcome, Outcome.value.injEq] at hu
    refine ⟨i.toNat, xs[i.toNat], by omega, by simp, ?_⟩
    have hn : v.toNat = xs[i.toNat].toNat / 2 ^ 32 % 2 ^ 28 := by
      rw [hu, BitVec.toNat_and, BitVec.extractLsb'_toNat, show (0x0FFFFFFF#32).toNat = 2 ^ 28 - 1 by decide,
        Nat.and_two_pow_sub_one_eq_mod, Nat.shiftRight_eq_div_pow]
      omega
    rw [BitVec.toInt_eq_toNat_of_lt (by omega), hn]
  · exfalso
    by_cases hp : panics e xs.length i
    · simp [upper32At, longAt, h2 hp] at h
    · rcases h3 hc hp with h3 | h3 <;> simp [upper32At, longAt, h3] at h

/-- Where a cursor can be: at the document, at the root, or at a value the invariant allows. -/
theorem reach_cases {fuel : Nat} {opts : List ParserOption} {p : Parser} (hp : parsed fuel opts = some p) {depth : Int} {n : VtdNav}
    (hn : NavOf p depth n) {Low : Int → Prop} (henv : Reach.Env p.out.l1Buffer p.out.l2Buffer Low p.out.vtdBuffer.values)
    {j : Int} (hr : Reachable n j) : j = 0 ∨ j = p.out.rootIndex ∨ Low j := by
  obtain ⟨n', hr, hj⟩ := hr
  obtain ⟨e, he⟩ := filled (parsed_out_ok hp).vtd
  have hinv := newVtdNav_inv hn henv.fresh
  have hinv := Reach.Inv.reaches henv { hinv with vtd := hinv.vtd.trans he } hr
  simp only [getCurrentIndex, M.bind_apply, M.get_apply, Res.andThen_ok] at hj
  rw [if_neg (by simp [hinv.notTerminal])] at hj
  simp only [M.bind_apply] at hj
  cases hc : ctx 0 n' with
  | ok c0 s =>
    obtain ⟨rfl, -, hc0⟩ := ctx_ok hc
    rw [hc] at hj
    simp only [Res.andThen_ok, M.ite_apply] at hj
    split at hj
    · simp only [M.pure_apply, Res.outcome, Outcome.value.injEq] at hj
      exact .inl hj.symm
    split at hj
    · simp only [M.pure_apply, Res.outcome, Outcome.value.injEq] at hj
      exact .inr (.inl (by rw [← hinv.root, hj]))
    split at hj
    · cases hj
    · cases hcc : ctx c0 s with
      | ok v s' =>
        rw [hcc] at hj
        simp only [Res.outcome, Outcome.value.injEq] at hj
        obtain ⟨rfl, g1, g2⟩ := ctx_ok hcc
        rw [← hj]
        exact .inr (.inr (hinv.entries c0.toNat v (by omega) g2))
      | err _ _ => rw [hcc] at hj; cases hj
      | panic => rw [hcc] at hj; cases hj
      | diverge => rw [hcc] at hj; cases hj
  | err _ _ => rw [hc] at hj; cases hj
  | panic => rw [hc] at hj; cases hj
  | diverge => rw [hc] at hj; cases hj

/-- C71 is false of the elements whose entries are not on the first page of their cache: no calls of `ToElement` bring the cursor of a
new navigator to an element with one (two) elements around it unless it is among the first of these, as many as the first (second)
cache has on a page. For every document, with `WithLcDepth(5)` and any other options. -/
theorem C71_page_refuted (fuel : Nat) (opts : List ParserOption) (hdeep : chosenDeep opts = true) (p : Parser)
    (hp : parsed fuel opts = some p) (hlen : p.out.vtdBuffer.values.length ≤ 2 ^ 28) (depth : Int) (n : VtdNav) (hn : NavOf p depth n)
    (j : Nat) (hr : Reachable n j) (w : BitVec 64) (hw : p.out.vtdBuffer.values[j]? = some w) (hs : IsStart w) :
    (tokenDepth w = 1 → j ∈ (startsOf 1 p.out.vtdBuffer.values).take p.out.l1Buffer.pageSize.toNat) ∧
    (tokenDepth w = 2 → j ∈ (startsOf 2 p.out.vtdBuffer.values).take p.out.l2Buffer.pageSize.toNat) := by
  obtain ⟨h1, h2, h3, h4, h5, i, rest, h6, h7⟩ := C45_caches fuel opts hdeep p hp
  have hst := parsed_starts hp
  have hls := startsFrom_length 0 p.out.vtdBuffer.values
  have hall : ∀ x ∈ startsFrom 0 p.out.vtdBuffer.values, x.1 < 2 ^ 28 := fun x hx => by
    obtain ⟨j, w, g1, g2, -⟩ := mem_startsFrom.1 (show (x.1, x.2) ∈ _ from hx)
    have := (List.getElem?_eq_some_iff.1 g2).1
    omega
  have key : ∀ (d : Nat) (b : FastLongBuffer), d ≤ 2 → b.values = level noChild d 0 (startsFrom 0 p.out.vtdBuffer.values) →
      (∃ e, b = fill e b.values) → ∀ i v s, upper32At i b = .ok v s → LowToken p.out.vtdBuffer.values v.toInt ∧
        ∃ j : Nat, v.toInt = j ∧ j ∈ (startsOf d p.out.vtdBuffer.values).take b.pageSize.toNat := by
    rintro d b hd hb ⟨e, hf⟩ i v s h
    have h2 : b.pageSize = 2 ^ e := by
      conv => lhs; rw [hf]
      rfl
    have hc2 : (2 : Int) ^ e = ((2 ^ e : Nat) : Int) := by simp
    rw [hf] at h
    obtain ⟨k, x, hk, hx, hv⟩ := upper_page h
    rw [hb] at hx
    refine ⟨hv ▸ level_low hlen hd (List.mem_of_getElem? hx), x.toNat / 2 ^ 32 % 2 ^ 28, hv, ?_⟩
    have ht := level_tokens (k := d) hall (c := 0) (by omega)
    have hx' : (startsOf d p.out.vtdBuffer.values)[k]? = some (x.toNat / 2 ^ 32) := by
      rw [startsOf, ← ht, List.getElem?_map, List.getElem?_map, hx]
      rfl
    obtain ⟨w, g1, -⟩ := mem_startsOf.1 (List.mem_of_getElem? hx')
    have := (List.getElem?_eq_some_iff.1 g1).1
    rw [Nat.mod_eq_of_lt (by omega)]
    refine List.mem_of_getElem? (i := k) ?_
    rw [List.getElem?_take, if_pos (by rw [h2, hc2]; omega)]
    exact hx'
  have hok := parsed_out_ok hp
  have henv : Reach.Env p.out.l1Buffer p.out.l2Buffer (fun v => LowToken p.out.vtdBuffer.values v ∧ (v = -1 ∨ ∃ j : Nat, v = j ∧
      (j ∈ (startsOf 1 p.out.vtdBuffer.values).take p.out.l1Buffer.pageSize.toNat ∨
        j ∈ (startsOf 2 p.out.vtdBuffer.values).take p.out.l2Buffer.pageSize.toNat))) p.out.vtdBuffer.values := by
    refine ⟨fun i v s h => ?_, fun i v s h => ?_, ⟨.inl rfl, .inl rfl⟩, fun v hv => hv.1.calm hst⟩
    · obtain ⟨q1, j, q2, q3⟩ := key 1 _ (by omega) h1 (filled hok.l1) i v s h
      exact ⟨q1, .inr ⟨j, q2, .inl q3⟩⟩
    · obtain ⟨q1, j, q2, q3⟩ := key 2 _ (by omega) h2 (filled hok.l2) i v s h
      exact ⟨q1, .inr ⟨j, q2, .inr q3⟩⟩
  have hroot : (i, 0) ∈ startsFrom 0 p.out.vtdBuffer.values := by rw [h6]; exact List.mem_cons_self
  obtain ⟨i', u, q1, q2, q3, q4⟩ := mem_startsFrom.1 hroot
  obtain rfl : i = i' := by omega
  have hdep : ∀ (d : Nat) P, j ∈ (startsOf d p.out.vtdBuffer.values).take P → tokenDepth w = d := by
    intro d P hj
    obtain ⟨w', g1, -, g3⟩ := mem_startsOf.1 (List.mem_of_mem_take hj)
    rw [hw] at g1
    cases g1
    exact g3
  rcases reach_cases hp hn henv hr with h0 | h0 | ⟨-, h0 | ⟨j', h0, hcase⟩⟩
  · -- token 0 is the document
    have h0 : j = 0 := by omega
    subst h0
    obtain ⟨doc, o, l, hd⟩ := parsed_doc hp
    obtain ⟨es, recs, n, ho, hvs, -⟩ := parsed_tags hp hd
    rw [hvs] at hw
    simp only [List.map_cons, List.getElem?_cons_zero, Option.some.injEq] at hw
    subst hw
    exact absurd hs (by decide)
  · rw [h7] at h0
    have : j = i := by omega
    subst this
    rw [q2] at hw
    cases hw
    omega
  · omega
  · obtain rfl : j = j' := by omega
    rcases hcase with hc | hc
    · have := hdep 1 _ hc
      exact ⟨fun _ => hc, fun _ => by omega⟩
    · have := hdep 2 _ hc
      exact ⟨fun _ => by omega, fun _ => hc⟩

/-- Which children of the root can be reached, exactly: those that come before child number `P`, where `P` is the number of entries
on a page of the first cache. -/
theorem C71_child_exact (fuel : Nat) (opts : List ParserOption) (hdeep : chosenDeep opts = true) (doc : List UInt8) (o l : Nat)
    (h : SelectWindow opts doc o l) (hlen : o + l < 2 ^ 31) (tree : Tree.Document) (hn : NsNeutral opts doc o tree)
    (hb : (doc.drop o).take l = tree.bytes) (hg : tree.Regular) (htok : tree.items.length ≤ 2 ^ 28)
    (p : Parser) (hp : parsed fuel opts = some p) (depth : Int) (hd : 4 ≤ depth) (n : VtdNav) (hv : NavOf p depth n)
    (k : Nat) (c : Tree.Elem) (hc : tree.rootElem.children[k]? = some c) :
    Reachable n c.token ↔ k < p.out.l1Buffer.pageSize := by
  have hi := parsed_shown h hlen hn hb hg hp
  rw [← hi.length, List.length_map] at htok
  have ht := children_tokens hp hg.syn.epilog hi htok
  obtain ⟨P, hP, h1, h2, hsh⟩ := parsed_shows hdeep hp htok
  have hls := startsFrom_length 0 p.out.vtdBuffer.values
  have hall : ∀ x ∈ startsFrom 0 p.out.vtdBuffer.values, x.1 < 2 ^ 28 := fun x hx => by
    obtain ⟨j, w, g1, g2, -⟩ := mem_startsFrom.1 (show (x.1, x.2) ∈ _ from hx)
    have := (List.getElem?_eq_some_iff.1 g2).1
    omega
  have hst : startsOf 1 p.out.vtdBuffer.values = tree.rootElem.children.map (·.token) := by
    rw [← ht, startsOf, level_tokens hall (by omega)]
  have hck : (startsOf 1 p.out.vtdBuffer.values)[k]? = some c.token := by rw [hst, List.getElem?_map, hc]; rfl
  rw [hP]
  constructor
  · intro hr
    obtain ⟨w, g1, g2, g3⟩ := mem_startsOf.1 (List.mem_of_getElem? hck)
    have hmem := (C71_page_refuted fuel opts hdeep p hp htok depth n hv c.token hr w g1 g2).1 g3
    rw [hP, Int.toNat_natCast] at hmem
    obtain ⟨i, hi'⟩ := List.getElem?_of_mem hmem
    rw [List.getElem?_take] at hi'
    split at hi'
    · rename_i hip
      have hpw : (startsOf 1 p.out.vtdBuffer.values).Pairwise (· < ·) := by
        rw [hst]; exact List.pairwise_map.2 (Tree.Elem.sorted _)
      obtain ⟨l1, e1⟩ := List.getElem?_eq_some_iff.1 hck
      obtain ⟨l2, e2⟩ := List.getElem?_eq_some_iff.1 hi'
      have : ¬ i < k := fun hlt => by
        have := List.pairwise_iff_getElem.1 hpw i k l2 l1 hlt; omega
      have : ¬ k < i := fun hlt => by
        have := List.pairwise_iff_getElem.1 hpw k i l1 l2 hlt; omega
      omega
    · cases hi'
  · intro hk
    rw [ht, ← hst] at hsh
    obtain ⟨n0, r0, a0⟩ := (newVtdNav_at hv hd).toRoot
    obtain ⟨n1, r1, a1, -, c1⟩ := a0.along_of hsh k (by omega) hck
    exact ⟨n1, Walk.Reaches.trans (.move .here r0) r1, a1.index (c := 1) (by omega) c1⟩

/-! ## A document with many children -/

theorem nav_witness {opts : List ParserOption} {P : Parser → VtdNav → Prop} [∀ p n, Decidable (P p n)]
    (h : (match parsed 0 opts with
      | some p => match navOver p 4 with
        | some n => decide (P p n)
        | none => false
      | none => false) = true) : ∃ p n, parsed 0 opts = some p ∧ NavOf p 4 n ∧ P p n := by
  split at h
  · next p hp =>
    split at h
    · next n hn => exact ⟨p, n, hp, navOver_of hn, of_decide_eq_true h⟩
    · cases h
  · cases h

open Tree in
/-- The content `<b/>`, `m` times. -/
def Tree.manyContent : Nat → Content
  | 0 => .text []
  | m + 1 => .atom [] (.empty (tag "b")) (manyContent m)

open Tree in
/-- `<a>`, `m` times `<b/>`, `</a>`. -/
def manyDoc (m : Nat) : Tree.Document := only (.element (tag "a") (manyContent m) [])

def manyOpts : List ParserOption := [.xmlDoc (some (manyDoc 33).bytes), .lcDepth 5]

/-- Non-vacuity of `C71_children_exact`, and C71 is false of the root with 33 children: child number 31 can be reached by
`FirstChild` and `NextSibling`, the move to child number 32 returns an error, and no other
moves reach it. -/
theorem C71_many_witness_refuted : (manyDoc 33).rootElem.children.length = 33 ∧ ∃ p n, parsed 0 manyOpts = some p ∧ NavOf p 4 n ∧
    (VtdNav.walkTo (Direction.root :: Direction.firstChild :: List.replicate 31 Direction.nextSibling) n).outcome = .value (some 33) ∧
    (VtdNav.walkTo (Direction.root :: Direction.firstChild :: List.replicate 32 Direction.nextSibling) n).outcome =
      .error (indexErr (some (indexErr none))) ∧ Reachable n 33 ∧ ¬ Reachable n 34 := by
  have hex : ∃ p n, parsed 0 manyOpts = some p ∧ NavOf p 4 n ∧ p.out.l1Buffer.pageSize = 32 := nav_witness (by decide +kernel)
  obtain ⟨p, n, hp, hv, h32⟩ := hex
  have hl : (manyDoc 33).bytes.length = 139 := by decide +kernel
  have hsel : SelectWindow manyOpts (manyDoc 33).bytes 0 139 := ⟨by rw [← hl]; exact rfl, by omega, by omega, by omega⟩
  have hb : ((manyDoc 33).bytes.drop 0).take 139 = (manyDoc 33).bytes := by rw [← hl]; simp
  have hw : (manyDoc 33).WellFormed := by decide +kernel
  have hs : (manyDoc 33).Supported := by decide +kernel
  have ht : (manyDoc 33).items.length ≤ 2 ^ 28 := by decide +kernel
  obtain ⟨P, hP, -, -, key⟩ := C71_children_exact 0 manyOpts rfl _ 0 139 hsel (by decide) (manyDoc 33) (.inl rfl) hb (Tree.Document.Supported.regular hw hs) ht
    p hp 4 (by decide) n hv
  have reach := C71_child_exact 0 manyOpts rfl _ 0 139 hsel (by decide) (manyDoc 33) (.inl rfl) hb (Tree.Document.Supported.regular hw hs) ht p hp 4 (by decide) n hv
  obtain rfl : P = 32 := by omega
  have hc : (manyDoc 33).rootElem.children.length = 33 := by decide +kernel
  have h31 : ((manyDoc 33).rootElem.children[31]?.map fun c => (c.token : Int)) = some 33 := by decide +kernel
  have h32' : ((manyDoc 33).rootElem.children[32]?.map fun c => (c.token : Int)) = some 34 := by decide +kernel
  obtain ⟨c31, q1, q2⟩ := Option.map_eq_some_iff.1 h31
  obtain ⟨c32, q3, q4⟩ := Option.map_eq_some_iff.1 h32'
  refine ⟨hc, p, n, hp, hv, ?_, ?_, ?_, fun hr => ?_⟩
  · rw [key, if_neg (by omega), h31]
  · rw [key, if_pos ⟨by decide, by omega⟩]
  · rw [← q2]; exact (reach 31 c31 q1).2 (by omega)
  · rw [← q4] at hr
    have := (reach 32 c32 q3).1 hr
    omega

end GoVtd
