import Verif.Proofs.Parser.EventLoop
import Verif.Props.Caches
import Verif.Props.NsOnly

/-!
# C31, C32, C33, C45: the tags of an accepted document

For every option list: with and without namespace awareness, for every window and every slice.
-/

namespace GoVtd

open Parser Grammar Paged

/-! ## Reading the records -/

theorem code_bits {x : Rec} : ∃ r, x.word.toNat = x.tok.code * 2 ^ 60 ||| r := by
  have h1 := x.tok.code_lt
  have : (BitVec.ofNat 64 x.tok.code <<< 28 <<< 32).toNat = x.tok.code * 2 ^ 60 := by
    rw [BitVec.toNat_shiftLeft, BitVec.toNat_shiftLeft, BitVec.toNat_ofNat, Nat.shiftLeft_eq, Nat.shiftLeft_eq]; omega
  simp only [Rec.word, vtdRecord, BitVec.shiftLeft_or_distrib, BitVec.toNat_or, Nat.or_assoc, this]
  exact ⟨_, rfl⟩

/-- The type of a record that is not that of a tag or of an attribute name, whatever its other fields. -/
theorem quiet_type {x : Rec} (h : 4 ≤ x.tok.code) : 4 ≤ tokenType x.word := by
  obtain ⟨r, hr⟩ := code_bits (x := x)
  have : x.tok.code * 2 ^ 60 ≤ x.word.toNat := by rw [hr]; exact Nat.left_le_or
  simp only [tokenType]
  omega

theorem small_fields {x : Rec} (h : Ev.Small x) (hc : x.tok.code < 4) :
    tokenType x.word = x.tok.code ∧ tokenDepth x.word = x.depth.toNat ∧ tokenOffset x.word = x.off.toNat ∧
    qnameLength x.word = x.len.toNat % 2048 := by
  obtain ⟨h1, h2, h3, h4, h5, h6⟩ := h hc
  have hw : x.word.toNat = x.tok.code * 2 ^ 60 + (x.depth % 256).toNat * 2 ^ 52 + x.len.toNat * 2 ^ 32 + x.off.toNat := by
    have := vtdRecord_toNat x.tok x.off.toNat x.len.toNat x.depth (by omega) (by omega)
    rw [← this, Int.toNat_of_nonneg h1, Int.toNat_of_nonneg h3]
    rfl
  simp only [tokenType, tokenDepth, tokenOffset, qnameLength, hw]
  omega

theorem small_start {x : Rec} (h : Ev.Small x) : IsStart x.word ↔ x.tok = .startingTag := by
  by_cases hc : x.tok.code < 4
  · rw [IsStart, (small_fields h hc).1, code_inj]
  · have := quiet_type (x := x) (by omega)
    rw [IsStart, ← code_inj]
    simp only [show Token.startingTag.code = 0 from rfl]
    omega

theorem small_attr {x : Rec} (h : Ev.Small x) : IsAttr x.word ↔ x.tok = .attrName ∨ x.tok = .attrNs := by
  by_cases hc : x.tok.code < 4
  · rw [IsAttr, (small_fields h hc).1, code_attr]
  · have := quiet_type (x := x) (by omega)
    rw [IsAttr, ← code_attr]
    simp only [show Token.attrName.code = 2 from rfl, show Token.attrNs.code = 3 from rfl]
    omega

theorem small_name {doc : List UInt8} {x : Rec} (h : Ev.Small x) (hx : x.tok = .attrName ∨ x.tok = .attrNs) :
    qname doc x.word = x.name doc := by
  obtain ⟨_, _, h4, h5⟩ := small_fields h (by rcases hx with e | e <;> rw [e] <;> decide)
  rw [qname, h4, h5]; rfl

theorem starts_read {recs : List Rec} (h : ∀ x ∈ recs, Ev.Small x) :
    ((recs.map Rec.word).filter IsStart).map (fun w => (tokenOffset w, tokenDepth w)) = recs.filterMap Ev.recStart := by
  induction recs with
  | nil => rfl
  | cons x xs ih =>
    have hx := h x (by simp)
    have i := ih fun y hy => h y (by simp [hy])
    simp only [List.map_cons, List.filter_cons, decide_eq_true_eq, small_start hx, List.filterMap_cons, Ev.recStart] at i ⊢
    split
    · rename_i ht
      obtain ⟨_, h2, h3, _⟩ := small_fields hx (by rw [ht]; decide)
      simp only [List.map_cons, i, h2, h3]
    · exact i

/-- What is known after a successful parse with any options. -/
theorem parsed_tags {fuel : Nat} {opts : List ParserOption} {p : Parser} (hp : parsed fuel opts = some p)
    {doc : List UInt8} {o l : Int} (hd : chosenDoc opts = some (doc, o, l)) :
    ∃ es recs n, p.out = finish (!chosenDeep opts) (Parser.emit (!chosenDeep opts) (initOut (!chosenDeep opts) n) (docRec :: recs)) ∧
      p.out.vtdBuffer.values = (docRec :: recs).map Rec.word ∧ Tags doc es [] ∧ es ≠ [] ∧
      (docRec :: recs).filterMap Ev.recStart = es.filterMap Mark.startOf ∧ (∀ x ∈ docRec :: recs, Ev.Small x) ∧
      Distinct doc [] (docRec :: recs) ∧ closes es = endTagsMet fuel opts ∧ (∀ x ∈ docRec :: recs, Ev.Named doc x) := by
  obtain ⟨p0, h1, h2⟩ := parsed_some.1 hp
  obtain ⟨es, recs, hr, hcl⟩ := Ev.parse_result (newVtdParser_fresh h1) h2
  have hx : p0.cfg.xmlDoc = doc := by
    have h := newVtdParser_doc h1
    rw [(args_chosen opts).1, hd] at h
    exact (Option.some.inj h).symm
  have hs : p0.cfg.shallowDepth = !chosenDeep opts ∧ ∃ n, p0.out = initOut (!chosenDeep opts) n := by
    have h4 := (args_chosen opts).2.2.2
    simp only [newVtdParser] at h1
    generalize opts.foldl ParserArgs.apply {} = a at h1 h4
    split at h1
    · cases h1
    split at h1
    · cases h1
    split at h1
    · cases h1
    split at h1
    · cases h1
    split at h1
    · cases h1
    · cases h1
      exact ⟨h4, a.length, congrArg (fun b => initOut b a.length) h4⟩
  obtain ⟨hs, n, hn⟩ := hs
  have ho := hr.out
  rw [hs, hn] at ho
  refine ⟨es, recs, n, ho, ?_, hx ▸ hr.tags, hr.nonempty, hr.starts, hr.small, hx ▸ hr.distinct, ?_, hx ▸ hr.names⟩
  · rw [ho, finish_vtd, emit_values (initOut_ok _ _), initOut_values]; rfl
  · rw [hcl, endTagsMet, h1]

theorem parsed_doc {fuel : Nat} {opts : List ParserOption} {p : Parser} (hp : parsed fuel opts = some p) :
    ∃ doc o l, chosenDoc opts = some (doc, o, l) := by
  obtain ⟨p0, h1, _⟩ := parsed_some.1 hp
  have h := newVtdParser_doc h1
  rw [(args_chosen opts).1] at h
  cases hc : chosenDoc opts with
  | none => rw [hc] at h; cases h
  | some w => exact ⟨w.1, w.2.1, w.2.2, rfl⟩

theorem tokens_parsed {fuel : Nat} {opts : List ParserOption} {ws : List (BitVec 64)} (hp : parsedTokens fuel opts = some ws) :
    ∃ p, parsed fuel opts = some p ∧ p.out.vtdBuffer.values = ws := Option.map_eq_some_iff.mp hp

/-! ## C31 -/

/-- The levels of the start tags are those of one tree. -/
theorem tags_levels {doc : List UInt8} {es : List Mark} {stk : List (Nat × Nat)} (h : Tags doc es stk) (hes : es ≠ []) :
    ∃ ds, (es.filterMap Mark.startOf).map (·.2) = 0 :: ds ∧ Pre' 0 ((0 :: ds).map fun d => (0, d)).tail ∧
      ∃ m, ((0 :: ds) : List Nat).getLast? = some m ∧ stk.length ≤ m + 1 := by
  induction h with
  | nil => exact absurd rfl hes
  | @start es stk q len k h1 h2 h3 h4 h5 h6 ih =>
    simp only [List.filterMap_append, List.map_append, List.filterMap_cons, Mark.startOf, List.filterMap_nil,
      List.map_cons, List.map_nil]
    by_cases he : es = []
    · subst he
      have := Ev.tags_nil h1
      subst this
      exact ⟨[], rfl, trivial, 0, rfl, by simp⟩
    · obtain ⟨ds, e1, e2, m, e3, e4⟩ := ih he
      have hs : stk ≠ [] := fun e => he (h3 e)
      have hl : 1 ≤ stk.length := by cases stk with
        | nil => exact absurd rfl hs
        | cons => simp
      refine ⟨ds ++ [stk.length], by rw [e1]; rfl, ?_, stk.length, by simp [List.getLast?_cons], by simp⟩
      have key : ∀ (ds : List Nat) (a m b : Nat), Pre' a (ds.map fun d => (0, d)) → (a :: ds).getLast? = some m → 1 ≤ b →
          b ≤ m + 1 → Pre' a ((ds ++ [b]).map fun d => (0, d)) := by
        intro ds
        induction ds with
        | nil =>
          intro a m b _ hm h1 h2
          simp at hm
          subst hm
          exact ⟨h1, h2, trivial⟩
        | cons d ds ih =>
          intro a m b hp hm h1 h2
          obtain ⟨p1, p2, p3⟩ := hp
          exact ⟨p1, p2, ih d m b p3 (by rw [List.getLast?_cons_cons] at hm; exact hm) h1 h2⟩
      exact key ds 0 m _ e2 e3 hl e4
  | @empty es stk o len q h1 h2 h3 h4 h5 ih =>
    have he : es ≠ [] := by rintro rfl; cases h2
    obtain ⟨ds, e1, e2, m, e3, e4⟩ := ih he
    refine ⟨ds, ?_, e2, m, e3, by simp at e4; omega⟩
    rw [List.filterMap_append, show List.filterMap Mark.startOf [Mark.empty q] = [] from rfl, List.append_nil]
    exact e1
  | @close es stk o len q h1 h2 h3 h4 h5 ih =>
    have he : es ≠ [] := by
      rintro rfl
      exact absurd (Ev.tags_nil h1) (by simp)
    obtain ⟨ds, e1, e2, m, e3, e4⟩ := ih he
    refine ⟨ds, ?_, e2, m, e3, by simp at e4; omega⟩
    rw [List.filterMap_append, show List.filterMap Mark.startOf [Mark.close q] = [] from rfl, List.append_nil]
    exact e1

theorem pre'_preorder {ds : List Nat} (h : Pre' 0 (ds.map fun d => (0, d))) : IsPreorder (0 :: ds) := by
  refine ⟨rfl, ?_⟩
  have key : ∀ (ds : List Nat) (m : Nat), Pre' m (ds.map fun d => (0, d)) → ∀ (i a b : Nat),
      (m :: ds)[i]? = some a → (m :: ds)[i + 1]? = some b → 1 ≤ b ∧ b ≤ a + 1 := by
    intro ds
    induction ds with
    | nil => intro m _ i a b h1 h2; simp at h2
    | cons d ds ih =>
      intro m hp i a b h1 h2
      obtain ⟨p1, p2, p3⟩ := hp
      cases i with
      | zero =>
        simp only [List.getElem?_cons_zero, List.getElem?_cons_succ, Option.some.injEq] at h1 h2
        subst h1 h2
        exact ⟨p1, p2⟩
      | succ i => exact ih d p3 i a b (by simpa using h1) (by simpa using h2)
  exact key ds 0 h

/-- C31: after a successful parse with any options the depths of the start tags are those of one tree, and none
is above 254. -/
theorem C31_nesting (fuel : Nat) (opts : List ParserOption) (ws : List (BitVec 64))
    (hp : parsedTokens fuel opts = some ws) :
    IsPreorder (startDepths ws) ∧ ∀ d ∈ startDepths ws, d ≤ 254 := by
  obtain ⟨p, hq, rfl⟩ := tokens_parsed hp
  clear hp
  obtain ⟨doc, o, l, hd⟩ := parsed_doc hq
  obtain ⟨es, recs, n, h1, h2, h3, h4, h5, h6, h7, h8, -⟩ := parsed_tags hq hd
  have hs := starts_read h6
  rw [h5] at hs
  have hds : startDepths ((docRec :: recs).map Rec.word) = (es.filterMap Mark.startOf).map (·.2) := by
    rw [← hs, startDepths, List.map_map]; rfl
  rw [h2, hds]
  obtain ⟨ds, e1, e2, -⟩ := tags_levels h3 h4
  refine ⟨by rw [e1]; exact pre'_preorder e2, ?_⟩
  rw [← h5]
  intro d hd
  obtain ⟨⟨a, d⟩, hm, rfl⟩ := List.mem_map.mp hd
  obtain ⟨x, hx, he⟩ := List.mem_filterMap.mp hm
  simp only [Ev.recStart] at he
  split at he
  · rename_i ht
    cases he
    have := h6 x hx (by rw [ht]; decide)
    simp only
    omega
  · cases he

/-! ## C32 -/

/-- C32: after a successful parse with any options there are tags in the document, one after the other, such that
the start tags are those of the token records (with their offsets and depths), the end tags are those that
`Parse` met, every end tag repeats the name of the innermost open start tag byte for byte and then has nothing
but white space before its `>`, and in the end no tag is open. -/
theorem C32_tags (fuel : Nat) (opts : List ParserOption) (doc : List UInt8) (o l : Int)
    (hd : chosenDoc opts = some (doc, o, l)) (ws : List (BitVec 64)) (hp : parsedTokens fuel opts = some ws) :
    ∃ es, Tags doc es [] ∧ es ≠ [] ∧
      es.filterMap Mark.startOf = (ws.filter IsStart).map (fun w => (tokenOffset w, tokenDepth w)) ∧
      closes es = endTagsMet fuel opts := by
  obtain ⟨p, hq, rfl⟩ := tokens_parsed hp
  clear hp
  obtain ⟨es, recs, n, h1, h2, h3, h4, h5, h6, h7, h8, -⟩ := parsed_tags hq hd
  exact ⟨es, h3, h4, by rw [h2, starts_read h6, h5], h8⟩

/-! ## C33 -/

/-- C33: after a successful parse with any options, two attribute names of one start tag, that is, with no start
tag between them, differ. -/
theorem C33_unique (fuel : Nat) (opts : List ParserOption) (doc : List UInt8) (o l : Int)
    (hd : chosenDoc opts = some (doc, o, l)) (ws : List (BitVec 64)) (hp : parsedTokens fuel opts = some ws)
    (i j : Nat) (x y : BitVec 64) (hij : i < j) (hx : ws[i]? = some x) (hy : ws[j]? = some y)
    (hxa : IsAttr x) (hya : IsAttr y)
    (hno : ∀ (k : Nat) (z : BitVec 64), i < k → k < j → ws[k]? = some z → ¬ IsStart z) :
    qname doc x ≠ qname doc y := by
  obtain ⟨p, hq, rfl⟩ := tokens_parsed hp
  clear hp
  obtain ⟨es, recs, n, h1, h2, h3, h4, h5, hok, hdist, h8, -⟩ := parsed_tags hq hd
  rw [h2] at hx hy hno
  rw [List.getElem?_map, Option.map_eq_some_iff] at hx hy
  obtain ⟨x, hx', rfl⟩ := hx
  obtain ⟨y, hy', rfl⟩ := hy
  have ox := hok x (List.mem_of_getElem? hx')
  have oy := hok y (List.mem_of_getElem? hy')
  have hxt := (small_attr ox).1 hxa
  have hyt := (small_attr oy).1 hya
  rw [small_name ox hxt, small_name oy hyt]
  refine (distinct_pairs hdist).2 i j x y hij hx' hy' hxt hyt fun k z h1 h2 h3 => ?_
  have oz := hok z (List.mem_of_getElem? h3)
  exact fun e => hno k z.word h1 h2 (by rw [List.getElem?_map, h3]; rfl) ((small_start oz).2 e)

/-! ## C45 -/

theorem startsFrom_small {recs : List Rec} (i : Nat) (h : ∀ x ∈ recs, Ev.Small x) :
    startsFrom i (recs.map Rec.word) = startsRec i recs := by
  induction recs generalizing i with
  | nil => rfl
  | cons x xs ih =>
    have hx := h x (by simp)
    have ih := ih (i + 1) fun y hy => h y (by simp [hy])
    simp only [List.map_cons, startsFrom, startsRec, small_start hx, ih]
    split
    · rename_i ht
      rw [(small_fields hx (by rw [ht]; decide)).2.1]
    · rfl

theorem startsRec_recStart (recs : List Rec) (i : Nat) :
    (startsRec i recs).map (·.2) = (recs.filterMap Ev.recStart).map (·.2) := by
  induction recs generalizing i with
  | nil => rfl
  | cons x xs ih =>
    simp only [startsRec, List.filterMap_cons, Ev.recStart]
    split
    · simp [ih]
    · exact ih _

theorem pre'_congr {l l' : List (Nat × Nat)} {m : Nat} (he : l.map (·.2) = l'.map (·.2)) (h : Pre' m l) : Pre' m l' := by
  induction l generalizing l' m with
  | nil =>
    obtain rfl : l' = [] := by simpa using he.symm
    trivial
  | cons d ds ih =>
    cases l' with
    | nil => simp at he
    | cons x l =>
      simp only [List.map_cons, List.cons.injEq] at he
      obtain ⟨h1, h2, h3⟩ := h
      exact ⟨by omega, by omega, by rw [← he.1]; exact ih he.2 h3⟩

/-- C45: after a successful parse with `WithLcDepth(5)` and any other options the caches of levels 1 to 4 list the
start tags of depth 1 to 4 in document order with the positions of their first children in the next cache or
the marker 0xFFFF, level 5 lists those of depth 5, and the root index is the index of the first start tag,
which has depth 0. -/
theorem C45_caches (fuel : Nat) (opts : List ParserOption) (hdeep : chosenDeep opts = true) (p : Parser)
    (hp : parsed fuel opts = some p) :
    p.out.l1Buffer.values = level noChild 1 0 (startsFrom 0 p.out.vtdBuffer.values) ∧
    p.out.l2Buffer.values = level noChild 2 0 (startsFrom 0 p.out.vtdBuffer.values) ∧
    p.out.l3Buffer.values = level noChild 3 0 (startsFrom 0 p.out.vtdBuffer.values) ∧
    p.out.l4Buffer.values = level noChild 4 0 (startsFrom 0 p.out.vtdBuffer.values) ∧
    p.out.l5Buffer.values = lastLevel 5 (startsFrom 0 p.out.vtdBuffer.values) ∧
    (∃ i rest, startsFrom 0 p.out.vtdBuffer.values = (i, 0) :: rest ∧ p.out.rootIndex = i) := by
  obtain ⟨doc, o, l, hd⟩ := parsed_doc hp
  obtain ⟨es, recs, n, ho, hw, h3, h4, h5, hok, h7, h8, -⟩ := parsed_tags hp hd
  rw [hdeep, Bool.not_true] at ho
  have hst : startsFrom 0 p.out.vtdBuffer.values = startsRec 0 (docRec :: recs) := by
    rw [hw]; exact startsFrom_small 0 hok
  have hv := (initOut_view n).emit (initOut_vtd _) (docRec :: recs) fun x hx ht => by
    have := hok x hx (by rw [ht]; decide)
    omega
  obtain ⟨ds, e1, e2, -⟩ := tags_levels h3 h4
  have hds := startsRec_recStart (docRec :: recs) 0
  rw [h5, e1] at hds
  rw [hst]
  rw [show ([] : List (BitVec 64)).length = 0 from rfl] at hv
  generalize startsRec 0 (docRec :: recs) = sts at hv hds
  cases sts with
  | nil => simp at hds
  | cons x rest =>
    obtain ⟨i, d⟩ := x
    simp only [List.map_cons, List.cons.injEq] at hds
    obtain ⟨rfl, hds⟩ := hds
    have hpre : Pre' 0 rest := pre'_congr (by rw [hds, List.map_cons, List.tail_cons, List.map_map]; exact List.map_id _) e2
    have hf := hv.flush
    have hfin : flush (Parser.emit false (initOut false n) (docRec :: recs)).lastDepth
      (Parser.emit false (initOut false n) (docRec :: recs)) = p.out := by rw [ho]; rfl
    rw [hfin] at hf
    have hr := run_level (c := ⟨[], [], [], [], [], 0, 0, 0, 0, 0, i⟩) (i := i) (d := 0) (rest := rest)
      ⟨rfl, by simp, by simp, by simp, by simp⟩ hpre
    obtain ⟨r1, r2, r3, r4, r5, r6⟩ := hr
    have e : (Lists.run ⟨[], [], [], [], [], 0, 0, 0, 0, 0, 0⟩ ((i, Int.toNat 0) :: rest)).flush =
      (Lists.run ⟨[], [], [], [], [], 0, 0, 0, 0, 0, i⟩ rest).flush := rfl
    rw [show (i, 0) :: rest = (i, Int.toNat 0) :: rest from rfl, e] at hf
    refine ⟨?_, ?_, ?_, ?_, ?_, i, rest, rfl, ?_⟩
    · rw [values_view hf.l1, r1]; rfl
    · rw [values_view hf.l2, r2]; rfl
    · rw [values_view hf.l3, r3]; rfl
    · rw [values_view hf.l4, r4]; rfl
    · rw [values_view hf.l5, r5]; rfl
    · rw [hf.root, r6]

/-! ## C48 -/

theorem lastColon_mono (i acc : Nat) (l : List UInt8) (h : acc ≤ i) : acc ≤ lastColon i acc l := by
  induction l generalizing i acc with
  | nil => exact Nat.le_refl _
  | cons b l ih =>
    rw [lastColon]
    split
    · exact Nat.le_trans h (ih (i + 1) i (by omega))
    · exact ih (i + 1) acc (by omega)

theorem lastColon_colon {i acc j : Nat} {l : List UInt8} (ha : acc ≤ i) (h : l[j]? = some 0x3A) : i + j ≤ lastColon i acc l := by
  induction l generalizing i acc j with
  | nil => cases h
  | cons b l ih =>
    rw [lastColon]
    cases j with
    | zero =>
      simp only [List.getElem?_cons_zero, Option.some.injEq] at h
      rw [if_pos h]
      exact lastColon_mono _ _ _ (by omega)
    | succ j =>
      have := ih (i := i + 1) (acc := if b = 0x3A then i else acc) (by split <;> omega) (by simpa using h)
      omega

theorem small_qlen {x : Rec} (h : Ev.Small x) (ht : x.tok = .attrName ∨ x.tok = .attrNs) {n l : Nat} (hn : n ≤ 2047)
    (hx : x.len = ((l <<< 11 ||| n : Nat) : Int)) (doc : List UInt8) : qname doc x.word = sub doc x.off.toNat n := by
  rw [small_name h ht, Rec.name, hx, Int.toNat_natCast, or_low _ _ (by omega)]
  rfl

/-- C48: after a successful parse with any options no element is deeper than 255 levels (the root has depth 0),
and at the offset of every start tag and of every attribute stands a name of at most 2047 bytes in which no
colon comes after the first 512 bytes, that is, whose prefix has at most 511 bytes. (`k`: up to four bytes of
`?xml`, the first of them the question mark, can stand before the root's name.) -/
theorem C48_limits (fuel : Nat) (opts : List ParserOption) (doc : List UInt8) (o l : Int)
    (hd : chosenDoc opts = some (doc, o, l)) (ws : List (BitVec 64)) (hp : parsedTokens fuel opts = some ws)
    (w : BitVec 64) (hw : w ∈ ws) :
    (IsStart w → tokenDepth w ≤ 254 ∧ ∃ len k, k ≤ 4 ∧ (tokenDepth w ≠ 0 → k = 0) ∧
      (k ≠ 0 → doc[tokenOffset w]? = some 0x3F) ∧ NameAt doc (tokenOffset w) len k ∧ len ≤ 2047 ∧ ∀ j : Nat, (sub doc (tokenOffset w) len)[j]? = some 0x3A → j ≤ 511) ∧
    (IsAttr w → ∃ len, NameAt doc (tokenOffset w) len 0 ∧ len ≤ 2047 ∧ qname doc w = sub doc (tokenOffset w) len ∧
      ∀ j : Nat, (qname doc w)[j]? = some 0x3A → j ≤ 511) := by
  obtain ⟨p, hq, hws⟩ := tokens_parsed hp
  obtain ⟨es, recs, n, h1, h2, h3, h4, h5, h6, h7, h8, h9⟩ := parsed_tags hq hd
  rw [← hws] at hw
  rw [h2] at hw
  obtain ⟨x, hx, rfl⟩ := List.mem_map.mp hw
  have hs := h6 x hx
  have hn := h9 x hx
  refine ⟨fun h => ?_, fun h => ?_⟩
  · have ht := (small_start hs).1 h
    obtain ⟨f1, f2, f3, -⟩ := small_fields hs (by rw [ht]; decide)
    obtain ⟨len, k, l, g1, g2, g0, g3, g4, g5, g6, g7⟩ := hn.start ht
    have hsm := hs (by rw [ht]; decide)
    rw [f2, f3]
    refine ⟨by omega, len, k, g1, fun h => g2 (by omega), g0, g3, g4, fun j hj => ?_⟩
    by_cases hjk : j ≤ k
    · omega
    · have := lastColon_colon (i := k + 1) (acc := 0) (j := j - (k + 1)) (by omega)
        (l := (sub doc x.off.toNat len).drop (k + 1)) (by rw [List.getElem?_drop, ← hj]; congr 1; omega)
      omega
  · have ht := (small_attr hs).1 h
    obtain ⟨len, l, g1, g2, g3, g4, g5⟩ := hn.attr ht
    have hq := small_qlen hs ht g2 g5 doc
    have hc : x.tok.code < 4 := by rcases ht with h | h <;> rw [h] <;> decide
    rw [(small_fields hs hc).2.2.1, hq]
    refine ⟨len, g1, g2, rfl, fun j hj => ?_⟩
    have := lastColon_colon (i := 0) (acc := 0) (Nat.le_refl _) hj
    omega

/-! ## Non-vacuity -/

/-- A window in the middle of a slice, parsed with namespace awareness. -/
def tagsDoc : List UInt8 := bytes "junk<a x='1' y='2'><p:b xmlns:p='u'><c/></p:b ><d></d></a>junk"
def tagsOpts : List ParserOption := [.xmlDocCustomOffset (some tagsDoc) 4 54, .nameSpaceAware true, .lcDepth 5]

example : chosenDoc tagsOpts = some (tagsDoc, 4, 54) ∧ chosenNs tagsOpts = true ∧ chosenDeep tagsOpts = true ∧
    (parsedTokens 5 tagsOpts).map startDepths = some [0, 1, 2, 1] ∧
    (parsedTokens 5 tagsOpts).map (fun ws => (ws.filter IsAttr).map (qname tagsDoc)) =
      some [bytes "x", bytes "y", bytes "xmlns:p"] ∧
    endTagsMet 5 tagsOpts = [42, 52, 56] := by
  decide +kernel

/-- Non-vacuity of C45_caches. -/
example : chosenDeep [.xmlDoc (some caches), .lcDepth 5] = true ∧
    (parsed 0 [.xmlDoc (some caches), .lcDepth 5]).map (fun p => (p.out.l1Buffer.values, p.out.l2Buffer.values,
      p.out.l3Buffer.values, p.out.l4Buffer.values, p.out.l5Buffer.values)) =
    some ([entry 2 0, entry 10 0xFFFF], [entry 3 0xFFFF, entry 4 0], [entry 5 0], [entry 6 0], [7, 9]) :=
  ⟨rfl, by decide +kernel⟩

end GoVtd
