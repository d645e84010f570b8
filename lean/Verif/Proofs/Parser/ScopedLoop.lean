import Verif.Proofs.Parser.ScopedVal

/-!
# Prefixes declared anywhere: the loop
-/

namespace GoVtd
namespace Parser
namespace Scoped
open Paged Grammar Two Ev Plain Sound
open Rooted (RR RX rx_nice sim_ok' ent NsOnly aw Led mainLoop_led startHead_vals tagRest2_vals pfx_splits goodName_of pend_zero nsInv_isNs)

variable {f : Nat} {x : Rooted.Ext} {s t p p' : Parser} {c : ParserCfg} {D : List UInt8} {V V' ws xs ds : List (BitVec 64)} {w : BitVec 64}
  {st st' : PState} {o0 : ParserOut} {es : List Mark} {stk : List (Nat × Nat)} {recs : List Rec}

/-! ## From the specification -/

/-- A start tag only sees more declarations as it is read. -/
theorem visible_mono (h : ∀ w ∈ ws, ¬ IsStart w) {d : BitVec 64} (hd : d ∈ visibleDecls D V) : d ∈ visibleDecls D (V ++ ws) := by
  have hle := (scope_le (D := D) (V := V)).2.2
  rw [visibleDecls] at hd ⊢
  rw [scopeOf_tag h, declsOf_append]
  obtain ⟨i, h1, h2⟩ := mem_take_get hd
  refine List.mem_of_getElem? (i := i) ?_
  rw [List.getElem?_take, if_pos (by show i < _ + _; omega), List.getElem?_append_left (by omega)]
  exact h2

theorem visible_in {i : Nat} {q : List UInt8} (hL : Led xs) (hi : i < V.length) (h : Visible D (V ++ xs) i q) :
    (∀ k z, i < k → V[k]? = some z → ¬ IsStart z) → ∃ d ∈ visibleDecls D V, Declares D d q := by
  intro hV
  obtain ⟨m, hm, hk, w, hw, hd⟩ := h
  refine ⟨w, ?_, hd⟩
  by_cases hml : m ≤ V.length
  · rw [List.take_append_of_le_length hml] at hw
    have := visible_mono (ws := V.drop m) (fun z hz => by
      obtain ⟨j, hj⟩ := List.mem_iff_getElem?.mp hz
      rw [List.getElem?_drop] at hj
      exact hV _ z (by omega) hj) hw
    rwa [List.take_append_drop] at this
  · have e : (V ++ xs).take m = V ++ xs.take (m - V.length) := by
      rw [List.take_append, List.take_of_length_le (by omega)]
    have hns : ∀ (j : Nat) z, j < m - V.length → xs[j]? = some z → ¬ IsStart z := by
      intro j z hj hz
      refine hk (V.length + j) z (by omega) (by omega) ?_
      rw [List.getElem?_append_right (by omega), Nat.add_sub_cancel_left]
      exact hz
    rw [e, visibleDecls_quiet] at hw
    · exact hw
    · intro z hz
      obtain ⟨j, h1, h2⟩ := mem_take_get hz
      refine ⟨hns j z h1 h2, fun ht => ?_⟩
      obtain ⟨k, y, k1, k2, k3⟩ := hL j z h2 ht
      exact hns k y (by omega) k2 k3

theorem ready_of (hP : VisiblePrefixes D (V ++ xs)) (hL : Led xs) : Ready D V := by
  rintro A w0 B hV h0 hB
  have hlen : V.length = A.length + 1 + B.length := by rw [hV]; simp; omega
  have hat : ∀ (i : Nat) w, B[i]? = some w → (V ++ xs)[A.length + 1 + i]? = some w := by
    intro i w hw
    have := lt_of_some hw
    rw [List.getElem?_append_left (by omega), hV, List.getElem?_append_right (by omega), show A.length + 1 + i - A.length = i + 1 by omega,
      List.getElem?_cons_succ]
    exact hw
  have hlast : ∀ k z, A.length < k → V[k]? = some z → ¬ IsStart z := by
    intro k z hk hz
    rw [hV, List.getElem?_append_right (by omega)] at hz
    obtain ⟨j, hj⟩ : ∃ j, k - A.length = j + 1 := ⟨k - A.length - 1, by omega⟩
    rw [hj, List.getElem?_cons_succ] at hz
    exact hB z (List.mem_of_getElem? hz)
  refine ⟨?_, ?_, ?_⟩
  · intro w hw hp
    obtain ⟨i, hi⟩ := List.mem_iff_getElem?.mp hw
    have := lt_of_some hi
    obtain ⟨k1, k2⟩ := pfx_splits hp
    rcases hP.attr _ w (hat i w hi) hp.1 _ _ k1 with h | h
    · exact absurd h k2
    · exact visible_in hL (by omega) h fun k z hk => hlast k z (by omega)
  · obtain ⟨n, h1, h2, -, h3⟩ := hP.elem A.length w0 (by rw [hV, List.append_assoc, List.getElem?_append_right (by omega), Nat.sub_self]; rfl) h0
    refine ⟨n, h1, h2, fun hc => ?_⟩
    exact (h3 _ _ (colon_splits hc).1).imp id fun h => visible_in hL (by omega) h hlast
  · rw [List.pairwise_filter, List.pairwise_iff_getElem]
    intro i k hi hk hik hp hz
    have hp := of_decide_eq_true hp
    have hz := of_decide_eq_true hz
    obtain ⟨k1, k2⟩ := pfx_splits hp
    obtain ⟨k3, k4⟩ := pfx_splits hz
    refine hP.locals _ _ _ _ (hat i _ (List.getElem?_eq_getElem hi)) (hat k _ (List.getElem?_eq_getElem hk)) (by omega) ?_ hp.1 hz.1
      _ _ _ _ k1 k3 k2 k4
    intro m y h1 h2 hy
    obtain ⟨m, rfl⟩ : ∃ j, m = A.length + 1 + j := ⟨m - A.length - 1, by omega⟩
    rw [hat m _ (List.getElem?_eq_getElem (by omega))] at hy
    cases hy
    exact hB _ (List.getElem_mem _)

theorem part_of (hP : VisiblePrefixes D V) (hN : ∀ A w B, V = A ++ w :: B → IsStart w →
    ((scopeOf D A).level = none → tokenDepth w = 0) ∧ ∀ e, (scopeOf D A).level = some e → 1 ≤ tokenDepth w ∧ tokenDepth w ≤ e + 1) : Part D V := by
  refine ⟨hP.level, ?_, hP.decl, hP.value, ?_, hN⟩
  · intro w hw hs
    obtain ⟨i, hi⟩ := List.mem_iff_getElem?.mp hw
    obtain ⟨n, h1, h2, -⟩ := hP.elem i w hi hs
    exact ⟨n, h1, h2⟩
  · rintro A B rfl
    have := hP.few A.length
    rwa [List.take_left' rfl] at this

theorem names_of (hP : VisiblePrefixes D V) : Names D V := by
  intro w hw hs
  obtain ⟨i, hi⟩ := List.mem_iff_getElem?.mp hw
  obtain ⟨n, h1, h2, h3, -⟩ := hP.elem i w hi hs
  exact ⟨n, h1, h2, h3⟩

theorem again_of (hP : VisiblePrefixes D V) : Again D V := by
  rintro A w B rfl hd h0
  have := hP.again A.length w (by rw [List.getElem?_append_right (by omega), Nat.sub_self]; rfl) hd
  rw [List.take_left' rfl] at this
  exact this h0

/-- The level of the last element. -/
theorem level_last : (scopeOf D V).level = (startDepths V).getLast? := by
  suffices h : ∀ R : List (BitVec 64), (scopeOf D R.reverse).level = (startDepths R.reverse).getLast? by
    have h := h V.reverse
    rwa [List.reverse_reverse] at h
  intro R
  induction R with
  | nil => rfl
  | cons w R ih =>
    rw [List.reverse_cons]
    generalize R.reverse = V at ih
    rw [startDepths, List.filter_append, List.map_append]
    by_cases hs : IsStart w
    · rw [scopeOf_start hs, show List.filter (fun w => decide (IsStart w)) [w] = [w] from List.filter_cons_of_pos (decide_eq_true hs)]
      simp
    · rw [show List.filter (fun w => decide (IsStart w)) [w] = [] from List.filter_cons_of_neg (by simpa using hs), List.map_nil, List.append_nil]
      rw [scopeOf_tag (ws := [w]) (fun z hz => by rw [List.mem_singleton.mp hz]; exact hs)]
      exact ih

theorem nest_of (h : IsPreorder (startDepths V)) : ∀ A w B, V = A ++ w :: B → IsStart w →
    ((scopeOf D A).level = none → tokenDepth w = 0) ∧ ∀ e, (scopeOf D A).level = some e → 1 ≤ tokenDepth w ∧ tokenDepth w ≤ e + 1 := by
  rintro A w B rfl hs
  have e : startDepths (A ++ w :: B) = startDepths A ++ tokenDepth w :: startDepths B := by
    rw [startDepths, List.filter_append, List.map_append, List.filter_cons_of_pos (by simpa using hs)]
    rfl
  rw [e] at h
  constructor
  · intro hn
    rw [level_last, List.getLast?_eq_none_iff] at hn
    have := h.first
    rw [hn] at this
    simpa using this
  · intro k hk
    rw [level_last, List.getLast?_eq_getElem?] at hk
    have hl : 0 < (startDepths A).length := by
      cases hA : startDepths A with
      | nil => rw [hA] at hk; cases hk
      | cons _ _ => simp
    refine h.later ((startDepths A).length - 1) k (tokenDepth w) ?_ ?_
    · rw [List.getElem?_append_left (by omega)]
      exact hk
    · rw [List.getElem?_append_right (by omega), show (startDepths A).length - 1 + 1 - (startDepths A).length = 0 by omega]
      rfl

/-! ## What has been checked -/

/-- The checks of the start tags before have succeeded, those of the last one too if `cl`; the names of attributes are
preceded by start tags. -/
structure Seen (D : List UInt8) (cl : Bool) (V : List (BitVec 64)) : Prop where
  ready : ∀ P R, V = P ++ R → (R = [] ∧ cl = true ∨ ∃ z R', R = z :: R' ∧ IsStart z) → Ready D P
  head : ∀ P w R, V = P ++ w :: R → tokenType w = Token.attrName.code → ∃ z ∈ P, IsStart z

theorem Seen.step {cl cl' : Bool} (h : Seen D cl V)
    (h1 : ∀ P z R, ws = P ++ z :: R → IsStart z → P = [] ∧ cl = true)
    (h2 : ∀ P z R, ws = P ++ z :: R → tokenType z = Token.attrName.code → (∃ y ∈ V, IsStart y) ∨ ∃ y ∈ P, IsStart y)
    (h3 : cl' = true → Ready D (V ++ ws)) : Seen D cl' (V ++ ws) := by
  constructor
  · rintro P R hV (⟨rfl, hc⟩ | ⟨z, R', rfl, hz⟩)
    · rw [List.append_nil] at hV
      rw [← hV]; exact h3 hc
    · rcases List.append_eq_append_iff.mp hV with ⟨as, k1, k2⟩ | ⟨as, k1, k2⟩
      · obtain ⟨rfl, hc⟩ := h1 as z R' k2 hz
        rw [List.append_nil] at k1
        exact h.ready P [] (by rw [List.append_nil]; exact k1.symm) (.inl ⟨rfl, hc⟩)
      · cases as with
        | nil =>
          rw [List.append_nil] at k1
          obtain ⟨-, hc⟩ := h1 [] z R' k2.symm hz
          exact h.ready P [] (by rw [List.append_nil]; exact k1) (.inl ⟨rfl, hc⟩)
        | cons a as =>
          simp only [List.cons_append, List.cons.injEq] at k2
          exact h.ready P (a :: as) k1 (.inr ⟨a, as, rfl, k2.1 ▸ hz⟩)
  · rintro P w R hV hw
    rcases List.append_eq_append_iff.mp hV with ⟨as, k1, k2⟩ | ⟨as, k1, k2⟩
    · rcases h2 as w R k2 hw with ⟨y, hy, hs⟩ | ⟨y, hy, hs⟩
      · exact ⟨y, by rw [k1]; exact List.mem_append_left _ hy, hs⟩
      · exact ⟨y, by rw [k1]; exact List.mem_append_right _ hy, hs⟩
    · cases as with
      | nil =>
        rw [List.append_nil] at k1
        rcases h2 [] w R k2.symm hw with ⟨y, hy, hs⟩ | ⟨y, hy, hs⟩
        · exact ⟨y, by rw [← k1]; exact hy, hs⟩
        · cases hy
      | cons a as =>
        simp only [List.cons_append, List.cons.injEq] at k2
        obtain ⟨rfl, -⟩ := k2
        exact h.head P w as k1 hw

theorem Seen.quiet (h : Seen D true V) (hq : ∀ w ∈ ws, ¬ IsStart w ∧ tokenType w ≠ Token.attrName.code ∧ tokenType w ≠ Token.attrNs.code) :
    Seen D true (V ++ ws) := by
  refine h.step (fun P z R e hz => absurd hz (hq z (by rw [e]; simp)).1) (fun P z R e hz => absurd hz (hq z (by rw [e]; simp)).2.1) fun _ => ?_
  exact (h.ready V [] (by rw [List.append_nil]) (.inl ⟨rfl, rfl⟩)).more hq

theorem Seen.start {cl' : Bool} {ys : List (BitVec 64)} (h : Seen D true V) (hw : IsStart w) (hy : ∀ z ∈ ys, ¬ IsStart z)
    (h3 : cl' = true → Ready D (V ++ w :: ys)) : Seen D cl' (V ++ w :: ys) := by
  refine h.step ?_ ?_ h3
  · intro P z R e hz
    cases P with
    | nil => exact ⟨rfl, rfl⟩
    | cons a P =>
      simp only [List.cons_append, List.cons.injEq] at e
      exact absurd hz (hy z (by rw [e.2]; simp))
  · intro P z R e hz
    cases P with
    | nil =>
      simp only [List.nil_append, List.cons.injEq] at e
      have h1 : tokenType w = Token.startingTag.code := hw
      rw [e.1, hz] at h1
      exact absurd h1 (by decide)
    | cons a P =>
      simp only [List.cons_append, List.cons.injEq] at e
      exact .inr ⟨a, by simp, e.1 ▸ hw⟩

theorem Seen.tag {cl cl' : Bool} {ys : List (BitVec 64)} (h : Seen D cl V) (hw : ∃ w ∈ V, IsStart w) (hy : ∀ z ∈ ys, ¬ IsStart z)
    (h3 : cl' = true → Ready D (V ++ ys)) : Seen D cl' (V ++ ys) :=
  h.step (fun P z R e hz => absurd hz (hy z (by rw [e]; simp))) (fun _ _ _ _ _ => .inl hw) h3

/-! ## The step -/

/-- The two parses before a step. -/
structure Both (f : Nat) (c : ParserCfg) (st : PState) (s t : Parser) : Prop where
  rr : RR f s t
  tab : Tab c.xmlDoc (vals s) (notAttr st) (Rooted.pend s.at_) t.ns
  att : notAttr st = false → t.at_.prefixedAttCount ≤ s.at_.attrCount
  k : Rooted.K c st s
  ns : NsInv (aw f c) st t
  seen : Seen c.xmlDoc (notAttr st) (vals s)
  again : Again c.xmlDoc (vals s)
  names : Names c.xmlDoc (vals s)

/-- After a step that is not that of an attribute name. -/
theorem both_of {q t' : Parser} (h1 : st ≠ .attrName) (hm : step st s = .ok st' q) (hr : RR f q t') (hT : Tab c.xmlDoc (vals q) (notAttr st') 0 t'.ns)
    (hN : NsInv (aw f c) st' t') (hS : Seen c.xmlDoc (notAttr st') (vals q)) (hA : Again c.xmlDoc (vals q)) (hM : Names c.xmlDoc (vals q))
    (ha : notAttr st' = false → t'.at_.prefixedAttCount ≤ q.at_.attrCount) : Both f c st' q t' := by
  have hv := step_notVal h1 _ _ _ hm
  have hne : st' ≠ .attrVal := by rintro rfl; cases hv
  have hns : q.at_.isNs = false := by rw [← hr.same.isNs]; exact nsInv_isNs hN hne
  exact ⟨hr, by rw [pend_zero hns]; exact hT, ha, ⟨(fun h => by rw [hns] at h; cases h), (fun h => absurd h hne)⟩, hN, hS, hA, hM⟩

theorem step_rr {o1 : ParserOut} {es' : List Mark} {stk' : List (Nat × Nat)} {recs' : List Rec}
    (h : G c o0 st s es stk recs) (ht : G (aw f c) o1 st t es' stk' recs') (hI : Both f c st s t) {q : Parser} (hm : step st s = .ok st' q)
    (hC : Part c.xmlDoc (vals q))
    (hR : st = .attrVal ∨ st = .tagStart → notAttr st' = true → Cond c.xmlDoc (vals q) (∃ a t', step st t = .ok a t'))
    (hA : st = .attrName → Again c.xmlDoc (vals q) ∨ ∃ a t', step st t = .ok a t')
    (hM : st = .tagStart → Names c.xmlDoc (vals q) ∨ ∃ a t', step st t = .ok a t') :
    ∃ t', step st t = .ok st' t' ∧ Both f c st' q t' := by
  have hB := h.inv.base
  have hoff := hI.rr.off
  have hgood := (step_good h).eq hm
  by_cases h1 : st = .attrName
  · subst h1
    have hns : s.at_.isNs = false := by rw [← hI.rr.same.isNs]; exact nsInv_isNs hI.ns (by simp)
    have a2 := hI.att rfl
    have hT := hI.tab
    rw [pend_zero hns] at hT
    have hV : InTag (aw f c) t := by simpa [NsInv] using hI.ns
    obtain ⟨t', k1, k2, k3, k5, rfl, k7, w, k8, k9, k10⟩ := attrName_rr h hI.rr hV hT a2 hm hC (hA rfl)
    have hN := step_ns (st := .attrName) ht hI.ns rfl k1
    refine ⟨t', k1, k2, k3, fun _ => k5, k7, hN, ?_, by rw [k8]; exact hI.again.add k10,
      by rw [k8]; exact hI.names.more fun z hz => by rw [List.mem_singleton.mp hz]; exact k9⟩
    rw [k8]
    refine hI.seen.tag ?_ (fun z hz => by rw [List.mem_singleton.mp hz]; exact k9) (fun hh => by cases hh)
    obtain ⟨A, B, w0, hO⟩ := hV.opn
    rw [hI.rr.vals] at hO
    exact ⟨w0, by rw [hO.eq]; simp, hO.start⟩
  by_cases h2 : st = .attrVal
  · subst h2
    have a2 := hI.att rfl
    have hV : InVal (aw f c) t := by simpa [NsInv] using hI.ns
    obtain ⟨t', k1, k2, k3, k4, ys, k5, k6⟩ := attrVal_rr h ht hI.rr hV hI.tab a2 hI.k hm hC (hR (.inl rfl))
    have hN := step_ns (st := .attrVal) ht hI.ns rfl k1
    refine ⟨t', k1, both_of h1 hm k2 k3 hN ?_ (by rw [k5]; exact hI.again.more fun w hw => (k6 w hw).2)
      (by rw [k5]; exact hI.names.more fun w hw => (k6 w hw).1) fun hn => ?_⟩
    · rw [k5] at k4 ⊢
      refine hI.seen.tag ?_ (fun z hz => (k6 z hz).1) fun hn => ?_
      · obtain ⟨A, B, w0, hO⟩ := hV.opn
        rw [hI.rr.vals] at hO
        exact ⟨w0, by rw [hO.eq]; simp, hO.start⟩
      · rcases k4 with k4 | ⟨k4, -⟩
        · exact k4.2
        · rw [k4] at hn; cases hn
    · rcases k4 with ⟨k4, -⟩ | ⟨-, k4⟩
      · rw [hn] at k4; cases k4
      · exact k4
  have hns : s.at_.isNs = false := by rw [← hI.rr.same.isNs]; exact nsInv_isNs hI.ns h2
  have hT := hI.tab
  rw [pend_zero hns] at hT
  by_cases h3 : st = .tagStart
  · subst h3
    have hm' : processStartTag s = .ok st' q := hm
    rw [processStartTag_head] at hm'
    obtain ⟨uu, s4, x1, x2⟩ := bind_ok hm'
    obtain ⟨⟨w, hw, hsw⟩, hb4⟩ := startHead_vals h hoff x1
    obtain ⟨ys, hy⟩ := tagRest2_vals hb4 x2
    have hC4 : Part c.xmlDoc (vals s4) := by rw [hy] at hC; exact hC.cut
    have hcl := closed_of hI.ns h1 h2
    obtain ⟨t4, g1, g2, g3, ⟨w', hw', -, hfree⟩, -, g5⟩ := startHead_rr h hI.rr hT x1 hC4 (by
      rcases hM rfl with hM | ⟨a, t', hok⟩
      · rw [hy] at hM; exact .inl hM.cut
      · have hok : processStartTag t = .ok a t' := hok
        rw [processStartTag_head] at hok
        obtain ⟨u, t2, y1, -⟩ := bind_ok hok
        exact .inr ⟨u, t2, y1⟩)
    obtain rfl : w = w' := by
      have := hw.symm.trans hw'
      simpa using this
    obtain ⟨hI4, hbt4, hc4⟩ := start_inTag ht hcl rfl g1
    obtain ⟨t', k1, k2, k3, k4, zs, k5, k6⟩ := tagRest2_rr g2 hb4 hI4 hc4 g3 x2 hC (fun hn => (hR (.inr rfl) hn).imp (by
      rintro ⟨a, t', h⟩
      have h : processStartTag t = .ok a t' := h
      rw [processStartTag_head, M.bind_apply, g1, Res.andThen_ok] at h
      exact ⟨a, t', h⟩))
    have hstep : step .tagStart t = .ok st' t' := by
      show processStartTag t = _
      rw [processStartTag_head, M.bind_apply, g1, Res.andThen_ok, k1]
    have hN := step_ns (st := .tagStart) ht hI.ns rfl hstep
    refine ⟨t', hstep, both_of h1 hm k2 k3 hN ?_ (by
      rw [k5, hw]
      refine (hI.again.more fun z hz => ?_).more fun z hz => (k6 z hz).2
      rw [List.mem_singleton.mp hz, show tokenType w = Token.startingTag.code from hsw]
      decide) (by
      rw [k5, hw]
      refine Names.more (fun z hz hs => ?_) fun z hz => (k6 z hz).1
      rcases List.mem_append.mp hz with hz | hz
      · exact hI.names z hz hs
      · rw [List.mem_singleton.mp hz]; exact hfree) fun hn => ?_⟩
    · rw [hw, List.append_assoc] at k5
      rw [k5] at k4 ⊢
      refine hI.seen.start hsw (fun z hz => (k6 z hz).1) fun hn => ?_
      rcases k4 with k4 | ⟨k4, -⟩
      · exact k4.2
      · rw [k4] at hn; cases hn
    rcases k4 with ⟨k4, -⟩ | ⟨-, j1, j2, j3⟩
    · rw [hn] at k4; cases k4
    · obtain ⟨es2, stk2, recs2, -, hG⟩ := hgood
      have := hG.inv.slots.cnt0
      rw [j2, hc4]
      exact this
  have hsim : ∀ x, Sim (RX f x) False False (step st) (step st) := by
    intro x
    have hX : Nice (RX f x) False := rx_nice
    cases st with
    | docType => exact processDocType_sim hX
    | docStart => exact processDocStart_sim hX
    | docEnd => exact processDocEnd_sim hX
    | ltSeen => exact processLtSeen_sim hX
    | tagStart => exact absurd rfl h3
    | tagEnd => exact processEndTag_sim hX
    | attrName => exact absurd rfl h1
    | attrVal => exact absurd rfl h2
    | decAttrName => exact processDecAttrName_sim hX
    | text => exact processText_sim hX
    | piTag => exact processPiTag_sim hX
    | piVal => exact processPiVal_sim hX
    | piEnd => exact processPiEnd_sim hX
    | startComment => exact processStartComment_sim hX
    | endComment => exact processEndComment_sim hX
    | cdata => exact processCdata_sim hX
    | invalid => unfold step; sim hX
  obtain ⟨t', k1, k2, k3, -⟩ := sim_ok' hsim hI.rr hm
  have hN := step_ns ht hI.ns rfl k1
  obtain ⟨ws, hv, hq⟩ := (lf_ok (step_lf h1 h2 h3) hm hB).vals hB.out
  have hcl : notAttr st = true := by
    cases st <;> first | rfl | exact absurd rfl h1 | exact absurd rfl h2
  refine ⟨t', k1, both_of h1 hm k2 ?_ hN ?_ (by rw [hv]; exact hI.again.more fun w hw => (hq w hw).2.2)
    (by rw [hv]; exact hI.names.more fun w hw => (hq w hw).1) fun hn => ?_⟩
  rotate_left
  · rw [hv, step_notAttr h1 h2 h3 _ _ _ hm]
    have hS := hI.seen
    rw [hcl] at hS
    exact hS.quiet hq
  rotate_left
  · rw [k3, hv, step_notAttr h1 h2 h3 _ _ _ hm]
    rw [hcl] at hT
    exact hT.quiet fun w hw => ⟨(hq w hw).1, (hq w hw).2.2⟩
  · rw [step_notAttr h1 h2 h3 _ _ _ hm] at hn; cases hn

/-! ## The loop -/

theorem mainLoop_step {k : Nat} {u : Unit} {t' : Parser} (hne : st ≠ .docEnd) (h : mainLoop (k + 1) st t = .ok u t') :
    ∃ a t', step st t = .ok a t' := by
  rw [mainLoop_key] at h
  cases hs : step st t with
  | ok a t' => exact ⟨a, t', rfl⟩
  | err e t1 =>
    rw [hs] at h
    simp only at h
    rw [if_neg fun hh => hne hh.2] at h
    cases h
  | panic => rw [hs] at h; cases h
  | diverge => rw [hs] at h; cases h

theorem mainLoop_rr {o1 : ParserOut} {k m : Nat} (hk : k ≤ m)
    {cl cl' : List Nat} {s' : Parser} (h : Good c o0 cl st s) (ht : Good (aw f c) o1 cl' st t)
    (hI : Both f c st s t) (hm : mainLoop k st s = .ok () s') (hC : Part c.xmlDoc (vals s'))
    (hR : ((∀ P R, vals s' = P ++ R → Led R → Ready c.xmlDoc P) ∧ Again c.xmlDoc (vals s') ∧ Names c.xmlDoc (vals s')) ∨
      Rest c.xmlDoc (vals s') ∧ ∃ a t', mainLoop m st t = .ok a t') :
    ∃ t', mainLoop m st t = .ok () t' ∧ t'.out = s'.out ∧ Seen c.xmlDoc true (vals s') ∧ Again c.xmlDoc (vals s') ∧
      Names c.xmlDoc (vals s') := by
  induction k generalizing m st s t cl cl' with
  | zero => cases hm
  | succ k ih =>
    obtain ⟨m, rfl⟩ : ∃ j, m = j + 1 := ⟨m - 1, by omega⟩
    obtain ⟨es, stk, recs, rfl, h⟩ := h
    obtain ⟨es', stk', recs', rfl, ht⟩ := ht
    have hB := h.inv.base
    have hR0 := hR
    rw [mainLoop_key] at hm hR ⊢
    cases hs : step st s with
    | ok st' q =>
      rw [hs] at hm
      have hgood := (step_good h).eq hs
      have hoff : q.cfg.nsAware = false := by
        have hg := step_gf st s
        rw [hs] at hg
        rw [(hg hI.rr.off hB.out hB.enc hB.ws).cfg]
        exact hI.rr.off
      obtain ⟨xs, hx⟩ := mainLoop_values k hgood hoff hm
      have hx : vals s' = vals q ++ xs := hx
      have hP : Part c.xmlDoc (vals q) := by rw [hx] at hC; exact hC.cut
      obtain ⟨t1, k1, k2⟩ := step_rr h ht hI hs hP (fun hst hn => by
        rcases hR0 with ⟨hR, -⟩ | ⟨hR, a, t', hok⟩
        · obtain ⟨ys, hy, hL⟩ := mainLoop_led k hgood hoff hn hm
          exact .inl (hR _ _ hy hL)
        · exact .inr ⟨by rw [hx] at hR; exact hR.cut, mainLoop_step (by rcases hst with rfl | rfl <;> simp) hok⟩) (by
        rintro rfl
        rcases hR0 with ⟨-, hR, -⟩ | ⟨-, a, t', hok⟩
        · rw [hx] at hR; exact .inl hR.cut
        · exact .inr (mainLoop_step (by simp) hok)) (by
        rintro rfl
        rcases hR0 with ⟨-, -, hR⟩ | ⟨-, a, t', hok⟩
        · rw [hx] at hR; exact .inl hR.cut
        · exact .inr (mainLoop_step (by simp) hok))
      rw [k1] at hR ⊢
      exact ih (by omega) hgood ((step_good ht).eq k1) k2 hm hR
    | err e q =>
      rw [hs] at hm
      simp only at hm
      by_cases hd : e.as .eof ∧ st = .docEnd
      · rw [if_pos hd] at hm
        obtain ⟨x, hr⟩ := hI.rr
        have hsim : RelRes (RX f x) False False (step st s) (step st t) := by
          rw [hd.2]
          exact processDocEnd_sim rx_nice s t hr
        rw [hs] at hsim
        obtain h | ⟨t1, k1, k2⟩ := hsim
        · exact h.elim
        rw [k1]
        simp only [if_pos hd]
        obtain ⟨t', g1, g2, -⟩ := sim_ok' (fun x => Sim.wrapInternal _ (finishUp_sim (rx_nice (x := x)))) ⟨x, k2⟩ hm
        refine ⟨t', g1, g2.out, ?_⟩
        obtain ⟨-, rfl⟩ := hd
        have hq := fr_err processDocEnd_qf hs hB.out hB.enc hB.ws
        have hL := fr_err (LF.quiet processDocEnd_qf) hs hB.out hB.enc hB.ws
        simp only [wrapInternal, M.catchErr_apply, finishUp_go hq.ok, Res.handle_ok] at hm
        cases hm
        obtain ⟨ws, hv, hq⟩ := hL.vals hB.out
        have := And.intro (hI.seen.quiet hq) (And.intro (hI.again.more fun w hw => (hq w hw).2.2) (hI.names.more fun w hw => (hq w hw).1))
        rw [← hv] at this
        rw [vals, finish_vtd]
        exact this
      · rw [if_neg hd] at hm; cases hm
    | panic => rw [hs] at hm; cases hm
    | diverge => rw [hs] at hm; cases hm

end Scoped
end Parser
end GoVtd
