import Verif.Proofs.Parser.RootedParse
import Verif.Spec.Scoped

/-!
# Prefixes declared anywhere: the tables of the parser

Like `Rooted`, but the declarations may stand on any element. A buffer of the namespaces has one page, to which values
are only appended; cutting the buffer changes its size, not the page.
-/

namespace GoVtd
namespace Parser
namespace Scoped
open Paged Grammar Two Ev Plain Sound
open Rooted (RR RX rx_nice sim_ok' ent ent_local qnameLength_le onNs3_read onNs2_read upper32_of uniqueQualInner_total checkXml_upto GoodName NsOnly aw startTagLoop_rr count_succ tagSlash startTagEnd_slash tagSlash_base startTagEnd_notAttr)

variable {f : Nat} {x : Rooted.Ext} {s t p p' : Parser} {c : ParserCfg} {D : List UInt8} {V V' ws ds : List (BitVec 64)} {w : BitVec 64}
  {st st' : PState} {o0 : ParserOut} {es : List Mark} {stk : List (Nat × Nat)} {recs : List Rec}

/-- A buffer whose only page is `xs`, of size `n`. -/
def plog {α : Type} (xs : List α) (n : Nat) : Paged α :=
  { buffer := if xs.isEmpty then [] else [xs], capacity := if xs.isEmpty then 0 else 64, size := n, exp := 6, r := 63, pageSize := 64 }

theorem plog_size {α : Type} {xs : List α} {n k : Nat} : (plog xs n).setSize (k : Int) = plog xs k := rfl

theorem append_plog {α : Type} {xs : List α} {n : Nat} (v : α) (h : n < 64) (h0 : n = 0 → xs = []) (hx : xs = [] → n = 0) :
    Paged.append v (plog xs n) = .ok () (plog (xs ++ [v]) (n + 1)) := by
  cases xs with
  | nil =>
    obtain rfl := hx rfl
    rfl
  | cons y ys =>
    have hn : 1 ≤ n := by
      rcases Nat.eq_zero_or_pos n with hh | hh
      · exact absurd (h0 hh) (by simp)
      · exact hh
    have e1 : (plog (y :: ys) n).pageNum (n : Int) = 0 := by
      show (n : Int) / 2 ^ 6 = 0
      omega
    have hg : Paged.get 0 (plog (y :: ys) n) = .ok (y :: ys) (plog (y :: ys) n) := by
      simp only [Paged.get, M.bind_apply, M.get_apply, Res.andThen_ok, M.ite_apply]
      rw [if_neg (by show ¬ ((0 : Int) < 0 ∨ (0 : Int) ≥ (n : Int)); omega)]
      rfl
    simp only [Paged.append, M.bind_apply, M.get_apply, Res.andThen_ok, M.ite_apply]
    rw [if_pos (by show (n : Int) < 64; omega)]
    have es : (plog (y :: ys) n).size = (n : Int) := rfl
    simp only [M.bind_apply, es, e1, hg, Res.andThen_ok, M.modify_apply]
    simp only [Paged.set, M.bind_apply, M.get_apply, Res.andThen_ok, M.ite_apply]
    rw [if_neg (by show ¬ ((0 : Int) < 0 ∨ (0 : Int) ≥ (n : Int) + 1); omega)]
    rfl

/-- An append to a buffer of size zero that has a page is an error. -/
theorem append_plog_zero {α : Type} {xs : List α} {v : α} {u : Unit} {b : Paged α} (h : Paged.append v (plog xs 0) = .ok u b) : xs = [] := by
  cases xs with
  | nil => rfl
  | cons y ys =>
    exfalso
    simp only [Paged.append, M.bind_apply, M.get_apply, Res.andThen_ok, M.ite_apply] at h
    rw [if_pos (by show (0 : Int) < 64; omega)] at h
    have e1 : (plog (y :: ys) 0).pageNum ((0 : Nat) : Int) = 0 := by
      show ((0 : Nat) : Int) / 2 ^ 6 = 0
      omega
    have es : (plog (y :: ys) 0).size = ((0 : Nat) : Int) := rfl
    simp only [M.bind_apply, es, e1] at h
    obtain ⟨u1, b1, h1, -⟩ := Res.andThen_eq_ok.mp h
    simp only [Paged.get, M.bind_apply, M.get_apply, Res.andThen_ok, M.ite_apply] at h1
    rw [if_pos (.inr (by show (0 : Int) ≥ 0; omega))] at h1
    cases h1

theorem atWith_plog {α : Type} (wr : GoErr → GoErr) {xs : List α} {n i : Nat} (h : i < xs.length) (hn : 1 ≤ n) (hi : i < 64) :
    Paged.atWith wr (i : Int) (plog xs n) = .ok xs[i] (plog xs n) := by
  cases xs with
  | nil => cases h
  | cons y ys =>
    have e1 : (plog (y :: ys) n).pageNum (i : Int) = 0 := by
      show (i : Int) / 2 ^ 6 = 0
      omega
    have e2 : (plog (y :: ys) n).pageOffset (i : Int) = (i : Int) := by
      simp only [pageOffset, plog]
      rw [show (63 : Int).toNat = 2 ^ 6 - 1 by decide, Nat.and_two_pow_sub_one_eq_mod]
      omega
    have hg : Paged.get 0 (plog (y :: ys) n) = .ok (y :: ys) (plog (y :: ys) n) := by
      simp only [Paged.get, M.bind_apply, M.get_apply, Res.andThen_ok, M.ite_apply]
      rw [if_neg (by show ¬ ((0 : Int) < 0 ∨ (0 : Int) ≥ (n : Int)); omega)]
      rfl
    simp only [atWith, M.bind_apply, M.get_apply, Res.andThen_ok, M.catchErr_apply, e1, hg, Res.handle, M.ite_apply, e2]
    rw [if_neg (by omega), M.index_of_lt _ _ _ (by omega) (by omega)]
    simp

/-- A table of declarations, of which the parser looks at the first `m`. -/
structure Table (D : List UInt8) (ds : List (BitVec 64)) (m : Nat) (b : FastLongBuffer) : Prop where
  eq : b = plog (ds.map (ent D)) m
  le : m ≤ ds.length
  few : m ≤ 64
  fit : ∀ w ∈ ds, Fit D w ∧ colonAt D w ≠ 0 ∧ Declares D w (localOf D w)
  small : D.length < 2 ^ 30

theorem Table.at {m : Nat} (h : Table D ds m p.ns.nsBuffer3) {i : Nat} (hi : i < m) (hl : i < ds.length) :
    Paged.longAt (i : Int) p.ns.nsBuffer3 = .ok (ent D ds[i]) p.ns.nsBuffer3 := by
  have := h.few
  rw [h.eq]
  have := atWith_plog (fun _ => indexErr none) (xs := ds.map (ent D)) (i := i) (n := m) (by simp; omega) (by omega) (by omega)
  rw [Paged.longAt, this, List.getElem_map]

theorem mem_take_get {α : Type} {l : List α} {m : Nat} {d : α} (h : d ∈ l.take m) : ∃ i : Nat, i < m ∧ l[i]? = some d := by
  obtain ⟨i, hi⟩ := List.mem_iff_getElem?.mp h
  rw [List.getElem?_take] at hi
  split at hi
  · exact ⟨i, by assumption, hi⟩
  · cases hi

theorem qualifyAttrLoop_total {m : Nat} {preLen preOs : Int} (hb : Base c p) (hT : Table c.xmlDoc ds m p.ns.nsBuffer3)
    (hin : InDoc c preOs preLen) (h0 : 0 ≤ preLen) (n : Nat) (hn : n ≤ m) :
    ∃ r, qualifyAttrLoop preLen preOs n p = .ok r p ∧
      ((∃ (i : Nat) (d : BitVec 64), i < n ∧ ds[i]? = some d ∧ localOf c.xmlDoc d = sub c.xmlDoc preOs.toNat preLen.toNat) ↔ r ≠ none) := by
  induction n with
  | zero => exact ⟨none, rfl, (fun ⟨i, d, h, _⟩ => by omega), fun h => absurd rfl h⟩
  | succ n ih =>
    obtain ⟨r, hr, hrn⟩ := ih (by omega)
    have hle0 := hT.le
    have hat := hT.at (p := p) (i := n) (by omega) (by omega)
    have hd : ds[n]? = some ds[n] := List.getElem?_eq_getElem (by omega)
    generalize ds[n] = d at hat hd
    obtain ⟨hf, hc, -⟩ := hT.fit d (List.mem_of_getElem? hd)
    have hlt := colon_lt hf hc
    have hle := qnameLength_le d
    have hsm := hT.small
    have hcol := hf.colon
    have hof := hf.off
    have hlen := hf.len
    obtain ⟨f1, f2, f3⟩ := nsRecord_fields (l2 := colonAt c.xmlDoc d) (l1 := qnameLength d) (o := tokenOffset d) (by omega) hle (by omega)
    have hinc : p.enc.increment = 1 := hb.inc
    have last : localOf c.xmlDoc d ≠ sub c.xmlDoc preOs.toNat preLen.toNat →
        ((∃ (i : Nat) (d : BitVec 64), i < n + 1 ∧ ds[i]? = some d ∧ localOf c.xmlDoc d = sub c.xmlDoc preOs.toNat preLen.toNat) ↔ r ≠ none) := by
      intro hne
      constructor
      · rintro ⟨i, d', hi, hd', he⟩
        refine hrn.mp ⟨i, d', ?_, hd', he⟩
        rcases Nat.lt_or_ge i n with hi' | hi'
        · exact hi'
        · obtain rfl : i = n := by omega
          rw [hd] at hd'
          cases hd'
          exact absurd he hne
      · intro h
        obtain ⟨i, d', hi, h'⟩ := hrn.mpr h
        exact ⟨i, d', by omega, h'⟩
    unfold qualifyAttrLoop
    rw [M.bind_apply, onNs3_read (upper32_of hat), Res.andThen_ok, M.bind_apply, M.get_apply, Res.andThen_ok]
    simp only [M.ite_apply, ent, ofNat32 f1 (by omega), ofNat32 f2 (by omega), hinc]
    by_cases hq : ((qnameLength d : Int) - (colonAt c.xmlDoc d : Int)) = preLen + 1
    · rw [if_pos hq, M.bind_apply, onNs3_read (lower32_of hat), Res.andThen_ok, M.bind_apply, ent, ofNat32 f3 (by omega)]
      obtain ⟨r', hr', hiff⟩ := sameBytes_iff (p := p) hb.cfg preLen.toNat (a := tokenOffset d + colonAt c.xmlDoc d + 1) (b := preOs)
        ⟨by omega, by omega, by omega⟩ ⟨hin.1, by omega, by have := hin.2.2; omega⟩
      rw [hr', Res.andThen_ok, M.ite_apply]
      split
      · rename_i hs
        refine ⟨some n, rfl, (fun _ h => by cases h), fun _ => ⟨n, d, by omega, hd, ?_⟩⟩
        have hs := hiff.mp hs
        rw [show ((tokenOffset d : Int) + colonAt c.xmlDoc d + 1).toNat = tokenOffset d + colonAt c.xmlDoc d + 1 by omega] at hs
        rw [← ent_local, show qnameLength d - colonAt c.xmlDoc d - 1 = preLen.toNat by omega]
        exact hs
      · rename_i hs
        refine ⟨r, hr, last fun he => hs (hiff.mpr ?_)⟩
        rw [← ent_local, show qnameLength d - colonAt c.xmlDoc d - 1 = preLen.toNat by omega] at he
        rw [show ((tokenOffset d : Int) + colonAt c.xmlDoc d + 1).toNat = tokenOffset d + colonAt c.xmlDoc d + 1 by omega]
        exact he
    · rw [if_neg hq]
      refine ⟨r, hr, last fun he => hq ?_⟩
      have := congrArg List.length he
      rw [← ent_local] at this
      have h3 := hin.2.2
      have h4 := hin.1
      simp only [sub, List.length_take, List.length_drop] at this
      omega

theorem qualifyAttrsLoop_total {m : Nat} (hT : Table c.xmlDoc ds m p.ns.nsBuffer3) (hb : Base c p) (k : Nat) {j : Int} (hj : 0 ≤ j)
    (hall : ∀ i : Nat, j.toNat ≤ i → i < j.toNat + k → ∃ e, p.at_.prefixedAttrNameSlice[i]? = some e ∧ InDoc c (high32 e) (attrPreLen e) ∧
      0 ≤ attrPreLen e ∧ ∃ d ∈ ds.take m, localOf c.xmlDoc d = sub c.xmlDoc (high32 e).toNat (attrPreLen e).toNat) :
    ∃ p', qualifyAttrsLoop m k j p = .ok () p' := by
  induction k generalizing p j with
  | zero => exact ⟨p, rfl⟩
  | succ k ih =>
    obtain ⟨e, he, h1, h2, d, hd, h3⟩ := hall j.toNat (by omega) (by omega)
    obtain ⟨hl, hl'⟩ := List.getElem?_eq_some_iff.mp he
    obtain ⟨r, hr, hrn⟩ := qualifyAttrLoop_total hb hT h1 h2 m (Nat.le_refl _)
    obtain ⟨i, hi, hi'⟩ := mem_take_get hd
    have := hrn.mp ⟨i, d, hi, hi', h3⟩
    unfold qualifyAttrsLoop
    rw [M.bind_apply, M.get_apply, Res.andThen_ok, M.bind_apply, M.index_of_lt _ _ _ hj (by omega), Res.andThen_ok, hl',
      M.bind_apply, hr, Res.andThen_ok]
    cases r with
    | none => exact absurd rfl this
    | some r =>
      dsimp only
      rw [M.bind_apply, M.modify_apply, Res.andThen_ok]
      refine ih (by exact hT) (by exact hb) (j := j + 1) (by omega) ?_
      intro i h1 h2
      exact hall i (by omega) (by omega)

/-- If all prefixes of a tag are found, they are declared by declarations that the parser looks at. -/
theorem qualifyAttrsLoop_seen {m : Nat} {u : Unit} (hT : Table c.xmlDoc ds m p.ns.nsBuffer3) (hb : Base c p) (k : Nat) {j : Int} (hj : 0 ≤ j)
    (hall : ∀ i : Nat, j.toNat ≤ i → i < j.toNat + k → ∃ e, p.at_.prefixedAttrNameSlice[i]? = some e ∧ InDoc c (high32 e) (attrPreLen e) ∧
      0 ≤ attrPreLen e) (hm : qualifyAttrsLoop m k j p = .ok u p') :
    ∀ (i : Nat) e, j.toNat ≤ i → i < j.toNat + k → p.at_.prefixedAttrNameSlice[i]? = some e →
      ∃ d ∈ ds.take m, localOf c.xmlDoc d = sub c.xmlDoc (high32 e).toNat (attrPreLen e).toNat := by
  induction k generalizing p j with
  | zero => intro i e h1 h2; omega
  | succ k ih =>
    obtain ⟨e, he, h1, h2⟩ := hall j.toNat (by omega) (by omega)
    obtain ⟨hl, hl'⟩ := List.getElem?_eq_some_iff.mp he
    obtain ⟨r, hr, hrn⟩ := qualifyAttrLoop_total hb hT h1 h2 m (Nat.le_refl _)
    unfold qualifyAttrsLoop at hm
    rw [M.bind_apply, M.get_apply, Res.andThen_ok, M.bind_apply, M.index_of_lt _ _ _ hj (by omega), Res.andThen_ok, hl',
      M.bind_apply, hr, Res.andThen_ok] at hm
    cases r with
    | none => exact (parseErrAt_ok hm).elim
    | some r =>
      dsimp only at hm
      rw [M.bind_apply, M.modify_apply, Res.andThen_ok] at hm
      intro i e' i1 i2 hi
      by_cases hij : i = j.toNat
      · subst hij
        rw [he] at hi
        cases hi
        obtain ⟨i, d, k1, k2, k3⟩ := hrn.mpr (by simp)
        exact ⟨d, List.mem_of_getElem? (by rw [List.getElem?_take, if_pos k1]; exact k2), k3⟩
      · refine ih (by exact hT) (by exact hb) (j := j + 1) (by omega) (fun i h1 h2 => ?_) hm i e' (by omega) (by omega) hi
        exact hall i (by omega) (by omega)

theorem uniqueQualOuter_total {n : Nat} {j : Int} (hb : Base c p) (hl : NsLists p) {ys : List (BitVec 64)}
    {m : Nat} (h2 : p.ns.nsBuffer2 = plog ys m) (hy : 1 ≤ m ∧ 1 ≤ ys.length) (hj : 0 ≤ j)
    (hin : ∀ i : Nat, i < j.toNat + n → ∃ e, p.at_.prefixedAttrNameSlice[i]? = some e ∧ Slot c e)
    (hne : ∀ (i k : Nat) e e', i < k → k < j.toNat + n → p.at_.prefixedAttrNameSlice[i]? = some e →
      p.at_.prefixedAttrNameSlice[k]? = some e' → slotLocal c.xmlDoc e ≠ slotLocal c.xmlDoc e') :
    uniqueQualOuter n j p = .ok () p := by
  induction n generalizing j with
  | zero => rfl
  | succ n ih =>
    obtain ⟨e, he, hse⟩ := hin j.toNat (by omega)
    obtain ⟨hlt, hl'⟩ := List.getElem?_eq_some_iff.mp he
    have hinc : p.enc.increment = 1 := hb.inc
    obtain ⟨hn, l, hu⟩ := hl
    have hu0 : M.index p.at_.prefixUrlSlice j p = .ok 0 p := by
      have hj2 : j.toNat < p.at_.prefixUrlSlice.length := by rw [hu, List.length_append, List.length_replicate]; omega
      rw [M.index_of_lt _ _ _ hj hj2]
      congr 1
      have h3 : p.at_.prefixUrlSlice[j.toNat]? = some 0 := by
        rw [hu, List.getElem?_append_left (by rw [List.length_replicate]; omega), List.getElem?_replicate, if_pos (by omega)]
      rw [List.getElem?_eq_getElem hj2] at h3
      exact Option.some.inj h3
    have hat : Paged.longAt 0 p.ns.nsBuffer2 = .ok ys[0] p.ns.nsBuffer2 := by
      rw [h2]; exact atWith_plog (fun _ => indexErr none) (i := 0) (by omega) hy.1 (by omega)
    unfold uniqueQualOuter
    rw [M.bind_apply, M.get_apply, Res.andThen_ok, M.bind_apply, M.index_of_lt _ _ _ hj (by omega), Res.andThen_ok, hl',
      M.bind_apply, hu0, Res.andThen_ok, M.bind_apply, onNs2_read (lower32_of hat), Res.andThen_ok,
      M.bind_apply, onNs2_read (upper32_of hat), Res.andThen_ok, M.bind_apply, hinc]
    rw [uniqueQualInner_total hb hse (j := j + 1) (by omega), Res.andThen_ok]
    · exact ih (j := j + 1) (by omega) (fun i hi => hin i (by omega)) fun i k e e' h1 h2 => hne i k e e' h1 (by omega)
    · intro i h1 h3
      obtain ⟨e', he', hse'⟩ := hin i (by omega)
      exact ⟨e', he', hse', hne j.toNat i e e' (by omega) (by omega) he he'⟩

theorem qualifyElementLoop_total {m : Nat} {l2 o : Nat} (hb : Base c p) (hT : Table c.xmlDoc ds m p.ns.nsBuffer3)
    (hin : o + l2 ≤ c.xmlDoc.length) (n : Nat) (hn : n ≤ m) :
    ∃ r, qualifyElementLoop ((l2 + 1 : Nat) : Int) o n p = .ok r p ∧
      ((∃ (i : Nat) (d : BitVec 64), i < n ∧ ds[i]? = some d ∧ localOf c.xmlDoc d = sub c.xmlDoc o l2) ↔ r = true) := by
  induction n with
  | zero => exact ⟨false, rfl, (fun ⟨i, d, h, _⟩ => by omega), fun h => by cases h⟩
  | succ n ih =>
    obtain ⟨r, hr, hrn⟩ := ih (by omega)
    have hle0 := hT.le
    have hat := hT.at (p := p) (i := n) (by omega) (by omega)
    have hd : ds[n]? = some ds[n] := List.getElem?_eq_getElem (by omega)
    generalize ds[n] = d at hat hd
    obtain ⟨hf, hc, -⟩ := hT.fit d (List.mem_of_getElem? hd)
    have hlt := colon_lt hf hc
    have hle := qnameLength_le d
    have hsm := hT.small
    have hcol := hf.colon
    have hof := hf.off
    have hlen := hf.len
    have hloc := ent_local c.xmlDoc d
    have last : localOf c.xmlDoc d ≠ sub c.xmlDoc o l2 →
        ((∃ (i : Nat) (d : BitVec 64), i < n + 1 ∧ ds[i]? = some d ∧ localOf c.xmlDoc d = sub c.xmlDoc o l2) ↔ r = true) := by
      intro hne
      constructor
      · rintro ⟨i, d', hi, hd', he⟩
        refine hrn.mp ⟨i, d', ?_, hd', he⟩
        rcases Nat.lt_or_ge i n with hi' | hi'
        · exact hi'
        · obtain rfl : i = n := by omega
          rw [hd] at hd'
          cases hd'
          exact absurd he hne
      · intro h
        obtain ⟨i, d', hi, h'⟩ := hrn.mpr h
        exact ⟨i, d', by omega, h'⟩
    simp only [ent] at hat
    generalize hm2 : colonAt c.xmlDoc d = m2 at *
    generalize hm1 : qnameLength d = m1 at *
    generalize hmq : tokenOffset d = q at *
    obtain ⟨f1, f2, f3⟩ := nsRecord_fields (l2 := m2) (l1 := m1) (o := q) (by omega) hle (by omega)
    have hinc : p.enc.increment = 1 := hb.inc
    have dd : ((upperOf (nsRecord m2 m1 q) &&& 0xFFFF#32) - (upperOf (nsRecord m2 m1 q)).sshiftRight 16).toInt = ((m1 - m2 : Nat) : Int) := by
      apply ofNat32
      · rw [BitVec.toNat_sub_of_le (by rw [BitVec.le_def, f1, f2]; omega), f1, f2]
      · omega
    have ss : ((nsRecord m2 m1 q).setWidth 32 + (upperOf (nsRecord m2 m1 q)).sshiftRight 16).toInt = ((q + m2 : Nat) : Int) := by
      apply ofNat32
      · rw [BitVec.toNat_add_of_lt (by rw [f2, f3]; omega), f2, f3]
      · omega
    unfold qualifyElementLoop
    rw [M.bind_apply, onNs3_read (upper32_of hat), Res.andThen_ok, M.bind_apply, M.get_apply, Res.andThen_ok]
    simp only [M.ite_apply, dd, hinc]
    by_cases hq : ((m1 - m2 : Nat) : Int) = ((l2 + 1 : Nat) : Int)
    · rw [if_pos hq, M.bind_apply, M.catchErr_apply]
      rw [show (do let l ← onNs3 (Paged.lower32At n); pure (some l) : M Parser (Option (BitVec 32))) p =
        .ok (some ((nsRecord m2 m1 q).setWidth 32)) p by rw [M.bind_apply, onNs3_read (lower32_of hat)]; rfl]
      simp only [Res.handle, Res.andThen_ok, M.ite_apply, ss]
      rw [if_neg (by omega), M.bind_apply]
      have hl : (((l2 + 1 : Nat) : Int) - 1).toNat = l2 := by omega
      rw [hl]
      obtain ⟨r', hr', hiff⟩ := sameBytes_iff (p := p) hb.cfg l2
        (a := ((q + m2 : Nat) : Int) + 1) (b := o) ⟨by omega, by omega, by omega⟩ ⟨by omega, by omega, by omega⟩
      rw [hr', Res.andThen_ok, M.ite_apply]
      split
      · rename_i hs
        refine ⟨true, rfl, (fun _ => rfl), fun _ => ⟨n, d, by omega, hd, ?_⟩⟩
        have hs := hiff.mp hs
        rw [show (((q + m2 : Nat) : Int) + 1).toNat = q + m2 + 1 by omega] at hs
        rw [← hloc, show m1 - m2 - 1 = l2 by omega]
        exact hs
      · rename_i hs
        refine ⟨r, hr, last fun he => hs (hiff.mpr ?_)⟩
        rw [← hloc, show m1 - m2 - 1 = l2 by omega] at he
        rw [show (((q + m2 : Nat) : Int) + 1).toNat = q + m2 + 1 by omega]
        exact he
    · rw [if_neg hq]
      refine ⟨r, hr, last fun he => hq ?_⟩
      have := congrArg List.length he
      rw [← hloc] at this
      simp only [sub, List.length_take, List.length_drop] at this
      omega

theorem qualifyElement_total {m : Nat} {l2 l1 o : Nat} (hb : Base c p) (hT : Table c.xmlDoc ds m p.ns.nsBuffer3)
    (hl2 : l2 ≤ 511) (hl1 : l1 ≤ 2047) (ho : o < 2 ^ 31) {a r : List UInt8} (hd : c.xmlDoc.drop o = a ++ ch% ':' :: r) (ha : a.length = l2)
    (hrec : p.at_.currentElementRecord = nsRecord ((l2 + 1 : Nat) : Int) l1 o)
    (hk : (∃ d ∈ ds.take m, localOf c.xmlDoc d = a) ∨ XmlLike a) : qualifyElement p = .ok () p := by
  unfold qualifyElement
  obtain ⟨f1, f2⟩ := elemRecord_fields (l2 := l2 + 1) (l1 := l1) (o := o) (by omega) hl1 ho
  have hsz : p.ns.nsBuffer3.getSize.toNat = m := by rw [hT.eq]; simp [getSize, plog]
  rw [M.bind_apply, M.get_apply, Res.andThen_ok]
  simp only [hrec, f1, f2, hsz]
  have hin : o + l2 ≤ c.xmlDoc.length := by
    have := congrArg List.length hd
    simp only [List.length_drop, List.length_append, List.length_cons] at this
    omega
  obtain ⟨b, hb', hbt⟩ := qualifyElementLoop_total hb hT hin m (Nat.le_refl _)
  rw [M.bind_apply, hb', Res.andThen_ok, M.ite_apply]
  split
  · rfl
  · rename_i hf
    rw [M.bind_apply, checkXml_upto hb (by omega) (a := a) (y := ch% ':') (r := r) (by rw [Int.toNat_natCast]; exact hd) (by decide), Res.andThen_ok]
    rcases hk with ⟨d, hd', he⟩ | rfl | ⟨hx, h7⟩
    · obtain ⟨i, hi, hi'⟩ := mem_take_get hd'
      exfalso
      refine hf (hbt.mp ⟨i, d, hi, hi', ?_⟩)
      rw [he, sub, hd, List.take_left' ha]
    · have h3 : l2 = 3 := by rw [← ha]; rfl
      subst h3
      rw [M.ite_apply, if_pos (by decide)]
      rfl
    · rw [M.ite_apply, if_pos (decide_eq_true ⟨hx, fun _ => .inr (by omega)⟩)]
      rfl

/-- If the prefix of an element is found, it is declared by a declaration that the parser looks at, or it is `xml` or seven
bytes that begin with `xml`. -/
theorem qualifyElement_seen {m : Nat} {l2 l1 o : Nat} {u : Unit} (hb : Base c p) (hT : Table c.xmlDoc ds m p.ns.nsBuffer3)
    (hl2 : l2 ≤ 511) (hl1 : l1 ≤ 2047) (ho : o < 2 ^ 31) {a r : List UInt8} (hd : c.xmlDoc.drop o = a ++ ch% ':' :: r) (ha : a.length = l2)
    (hrec : p.at_.currentElementRecord = nsRecord ((l2 + 1 : Nat) : Int) l1 o) (hm : qualifyElement p = .ok u p') :
    (∃ d ∈ ds.take m, localOf c.xmlDoc d = a) ∨ str% "xml" <+: a ∧ (a.length = 3 ∨ a.length = 7) := by
  unfold qualifyElement at hm
  obtain ⟨f1, f2⟩ := elemRecord_fields (l2 := l2 + 1) (l1 := l1) (o := o) (by omega) hl1 ho
  have hsz : p.ns.nsBuffer3.getSize.toNat = m := by rw [hT.eq]; simp [getSize, plog]
  rw [M.bind_apply, M.get_apply, Res.andThen_ok] at hm
  simp only [hrec, f1, f2, hsz] at hm
  have hin : o + l2 ≤ c.xmlDoc.length := by
    have := congrArg List.length hd
    simp only [List.length_drop, List.length_append, List.length_cons] at this
    omega
  obtain ⟨b, hb', hbt⟩ := qualifyElementLoop_total hb hT hin m (Nat.le_refl _)
  rw [M.bind_apply, hb', Res.andThen_ok, M.ite_apply] at hm
  split at hm
  · rename_i hf
    obtain ⟨i, d, k1, k2, k3⟩ := hbt.mpr hf
    refine .inl ⟨d, List.mem_of_getElem? (by rw [List.getElem?_take, if_pos k1]; exact k2), ?_⟩
    rw [k3, sub, hd, List.take_left' ha]
  · rw [M.bind_apply, checkXml_upto hb (by omega) (a := a) (y := ch% ':') (r := r) (by rw [Int.toNat_natCast]; exact hd) (by decide), Res.andThen_ok,
      M.ite_apply] at hm
    split at hm
    · rename_i hx
      obtain ⟨z1, z2⟩ := of_decide_eq_true hx
      have := z2 rfl
      exact .inr ⟨z1, by omega⟩
    · exact (parseErrAt_ok hm).elim

end Scoped
end Parser
end GoVtd
