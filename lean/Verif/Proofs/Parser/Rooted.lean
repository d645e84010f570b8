import Verif.Proofs.Parser.NsParse
import Verif.Spec.Rooted

/-!
# Prefixes declared at the root: the relation of the two parses, and the checks that succeed

`RR f s t`: `s` is a state of a parse without namespace awareness, `t` the same state of a namespace-aware parse.
-/

namespace GoVtd
namespace Parser
namespace Rooted
open Paged Grammar Two Ev Plain Sound

/-- What a namespace-aware parse has besides. -/
structure Ext where
  ns : ParserNs
  elem : BitVec 64
  count : Int
  slots : List (BitVec 64)
  urls : List Int

/-- The namespace-aware state for `s`. -/
def aware (f : Nat) (x : Ext) (s : Parser) : Parser :=
  { s with
    cfg := { s.cfg with nsAware := true, matchFuel := f }, ns := x.ns,
    at_ := { s.at_ with currentElementRecord := x.elem, prefixedAttCount := x.count,
                        prefixedAttrNameSlice := x.slots, prefixUrlSlice := x.urls } }

structure RX (f : Nat) (x : Ext) (s t : Parser) : Prop where
  eq : t = aware f x s
  off : s.cfg.nsAware = false
  enc : s.enc = stdEnc
  xml : s.at_.isXml = false

/-- The same with some such state. -/
def RR (f : Nat) (s t : Parser) : Prop := ∃ x, RX f x s t

variable {f : Nat} {x : Ext} {s t p p' : Parser} {c : ParserCfg} {D : List UInt8} {V V' ds : List (BitVec 64)} {w : BitVec 64}

theorem onRd_rx {α : Type} (m : M Reader α) : Sim (RX f x) False False (onRd m) (onRd m) := by
  rintro s t ⟨rfl, h1, h2, h3⟩
  simp only [onRd, M.zoom_apply]
  have e : (aware f x s).rd = s.rd := rfl
  rw [e]
  cases hr : m s.rd with
  | ok a r => exact ⟨_, rfl, ⟨rfl, h1, h2, h3⟩⟩
  | err e r => exact .inr ⟨_, rfl, ⟨rfl, h1, h2, h3⟩⟩
  | panic => exact .inr rfl
  | diverge => trivial

theorem rx_nice : Nice (RX f x) False where
  same := by
    rintro s t ⟨rfl, h1, h2, h3⟩
    constructor <;> first | rfl | exact Nat.le_refl _ | (simp only [encodingFixed, aware, h2]; rfl)
  put := by
    rintro s t ⟨rfl, h1, h2, h3⟩
    intros
    exact ⟨rfl, h1, h2, h3⟩
  seek := by
    rintro s t ⟨rfl, h1, h2, h3⟩ o
    exact ⟨rfl, h1, h2, h3⟩
  xml := by
    rintro s t ⟨rfl, h1, h2, h3⟩
    exact ⟨rfl, h1, h2, rfl⟩
  docByte i := by
    refine Sim.bind_get fun s t h => ?_
    obtain ⟨rfl, -⟩ := h
    exact Sim.index _ _
  getChar := onRd_rx _
  skipChar c := onRd_rx _
  skipCharSeq l := onRd_rx _

/-- A successful run on the left has one on the right with the same value; the namespace fields stay. -/
theorem sim_ok' {α : Type} {m m' : M Parser α} (h : ∀ x, Sim (RX f x) False False m m') {a : α} {s' : Parser} (hr : RR f s t)
    (hm : m s = .ok a s') : ∃ t', m' t = .ok a t' ∧ RR f s' t' ∧ t'.ns = t.ns ∧
      t'.at_.currentElementRecord = t.at_.currentElementRecord ∧ t'.at_.prefixedAttCount = t.at_.prefixedAttCount ∧
      t'.at_.prefixedAttrNameSlice = t.at_.prefixedAttrNameSlice ∧ t'.at_.prefixUrlSlice = t.at_.prefixUrlSlice := by
  obtain ⟨x, hr⟩ := hr
  have := h x s t hr
  rw [hm] at this
  obtain ⟨t', h1, h2⟩ := this
  refine ⟨t', h1, ⟨x, h2⟩, ?_⟩
  rw [h2.eq, hr.eq]
  exact ⟨rfl, rfl, rfl, rfl, rfl⟩

theorem RR.same (h : RR f s t) : Same s t := let ⟨_, h⟩ := h; rx_nice.same h
theorem RR.off (h : RR f s t) : s.cfg.nsAware = false := let ⟨_, h⟩ := h; h.off
theorem RR.on (h : RR f s t) : t.cfg.nsAware = true := by obtain ⟨x, h⟩ := h; rw [h.eq]; rfl
theorem RR.xml (h : RR f s t) : t.at_.isXml = false := by obtain ⟨x, h⟩ := h; rw [h.eq]; exact h.xml

/-! ## The checks that succeed -/

theorem longAt_fill {xs : List (BitVec 64)} {i : Nat} (h : i < xs.length) (h64 : xs.length ≤ 64) :
    Paged.longAt (i : Int) (fill 6 xs) = .ok xs[i] (fill 6 xs) := by
  obtain ⟨h', e⟩ := (atWith_fill (fun _ => indexErr none) 6 xs (i : Int)).1 ⟨by omega, by omega, by omega⟩
  exact e

theorem upper32_of {i : Int} {b : FastLongBuffer} {e : BitVec 64} (h : Paged.longAt i b = .ok e b) :
    Paged.upper32At i b = .ok (upperOf e) b := by
  simp only [Paged.upper32At, M.bind_apply, M.catchErr_apply, h]
  rfl

theorem onNs3_read {α : Type} {m : M FastLongBuffer α} {a : α} (h : m p.ns.nsBuffer3 = .ok a p.ns.nsBuffer3) : onNs3 m p = .ok a p := by
  simp only [onNs3, M.zoom_apply, h]
  rfl

theorem onNs2_read {α : Type} {m : M FastLongBuffer α} {a : α} (h : m p.ns.nsBuffer2 = .ok a p.ns.nsBuffer2) : onNs2 m p = .ok a p := by
  simp only [onNs2, M.zoom_apply, h]
  rfl

/-- The entry of a declaration. -/
def ent (D : List UInt8) (w : BitVec 64) : BitVec 64 := nsRecord (colonAt D w) (qnameLength w) (tokenOffset w)

theorem qnameLength_le (w : BitVec 64) : qnameLength w ≤ 2047 := by
  have := Nat.mod_lt (w.toNat / 2 ^ 32) (show 0 < 2 ^ 11 by decide); simp only [qnameLength]; omega

theorem ent_local (D : List UInt8) (w : BitVec 64) :
    sub D (tokenOffset w + colonAt D w + 1) (qnameLength w - colonAt D w - 1) = localOf D w := by
  rw [localOf, qname, List.drop_take, List.drop_drop, sub]
  congr 1

/-- A table of declarations. -/
structure Table (D : List UInt8) (ds : List (BitVec 64)) (b : FastLongBuffer) : Prop where
  eq : b = fill 6 (ds.map (ent D))
  few : ds.length ≤ 64
  fit : ∀ w ∈ ds, Fit D w ∧ colonAt D w ≠ 0
  small : D.length < 2 ^ 30

theorem Table.at (h : Table D ds p.ns.nsBuffer3) {i : Nat} (hi : i < ds.length) :
    Paged.longAt (i : Int) p.ns.nsBuffer3 = .ok (ent D ds[i]) p.ns.nsBuffer3 := by
  rw [h.eq]
  have := longAt_fill (xs := ds.map (ent D)) (i := i) (by simpa using hi) (by simpa using h.few)
  rw [this, List.getElem_map]

theorem qualifyAttrLoop_total {preLen preOs : Int} (hb : Base c p) (hT : Table c.xmlDoc ds p.ns.nsBuffer3)
    (hin : InDoc c preOs preLen) (h0 : 0 ≤ preLen) (n : Nat) (hn : n ≤ ds.length) :
    ∃ r, qualifyAttrLoop preLen preOs n p = .ok r p ∧
      ((∃ (i : Nat) (d : BitVec 64), i < n ∧ ds[i]? = some d ∧ localOf c.xmlDoc d = sub c.xmlDoc preOs.toNat preLen.toNat) → r ≠ none) := by
  induction n with
  | zero => exact ⟨none, rfl, fun ⟨i, d, h, _⟩ => by omega⟩
  | succ n ih =>
    obtain ⟨r, hr, hrn⟩ := ih (by omega)
    have hat := hT.at (p := p) (i := n) (by omega)
    have hd : ds[n]? = some ds[n] := List.getElem?_eq_getElem (by omega)
    generalize ds[n] = d at hat hd
    obtain ⟨hf, hc⟩ := hT.fit d (List.mem_of_getElem? hd)
    have hlt := colon_lt hf hc
    have hle := qnameLength_le d
    have hsm := hT.small
    have hcol := hf.colon
    have hof := hf.off
    have hlen := hf.len
    obtain ⟨f1, f2, f3⟩ := nsRecord_fields (l2 := colonAt c.xmlDoc d) (l1 := qnameLength d) (o := tokenOffset d) (by omega) hle (by omega)
    have hinc : p.enc.increment = 1 := hb.inc
    have last : localOf c.xmlDoc d ≠ sub c.xmlDoc preOs.toNat preLen.toNat →
        (∃ (i : Nat) (d : BitVec 64), i < n + 1 ∧ ds[i]? = some d ∧ localOf c.xmlDoc d = sub c.xmlDoc preOs.toNat preLen.toNat) → r ≠ none := by
      rintro hne ⟨i, d', hi, hd', he⟩
      refine hrn ⟨i, d', ?_, hd', he⟩
      rcases Nat.lt_or_ge i n with hi' | hi'
      · exact hi'
      · obtain rfl : i = n := by omega
        rw [hd] at hd'
        cases hd'
        exact absurd he hne
    unfold qualifyAttrLoop
    rw [M.bind_apply, onNs3_read (upper32_of hat), Res.andThen_ok, M.bind_apply, M.get_apply, Res.andThen_ok]
    simp only [M.ite_apply, ent, ofNat32 f1 (by omega), ofNat32 f2 (by omega), hinc]
    by_cases hq : ((qnameLength d : Int) - (colonAt c.xmlDoc d : Int)) = preLen + 1
    · rw [if_pos hq, M.bind_apply, onNs3_read (lower32_of hat), Res.andThen_ok, M.bind_apply, ent, ofNat32 f3 (by omega)]
      obtain ⟨r', hr', hiff⟩ := sameBytes_iff (p := p) hb.cfg preLen.toNat (a := tokenOffset d + colonAt c.xmlDoc d + 1) (b := preOs)
        ⟨by omega, by omega, by omega⟩ ⟨hin.1, by omega, by have := hin.2.2; omega⟩
      rw [hr', Res.andThen_ok, M.ite_apply]
      split
      · exact ⟨some n, rfl, fun _ h => by cases h⟩
      · rename_i hs
        refine ⟨r, hr, last fun he => hs (hiff.mpr ?_)⟩
        rw [← ent_local, show qnameLength d - colonAt c.xmlDoc d - 1 = preLen.toNat by omega] at he
        rw [show ((tokenOffset d : Int) + colonAt c.xmlDoc d + 1).toNat = tokenOffset d + colonAt c.xmlDoc d + 1 by omega]
        exact he
    · rw [if_neg hq]
      refine ⟨r, hr, last fun he => hq ?_⟩
      have := congrArg List.length he
      rw [← ent_local] at this
      have h3 := hin.2.2
      have h4 := hin.1
      simp only [sub, List.length_take, List.length_drop] at this
      omega

theorem qualifyAttrsLoop_total (hT : Table c.xmlDoc ds p.ns.nsBuffer3) (hb : Base c p) (k : Nat) {j : Int} (hj : 0 ≤ j)
    (hall : ∀ i : Nat, j.toNat ≤ i → i < j.toNat + k → ∃ e, p.at_.prefixedAttrNameSlice[i]? = some e ∧ InDoc c (high32 e) (attrPreLen e) ∧
      0 ≤ attrPreLen e ∧ ∃ d ∈ ds, localOf c.xmlDoc d = sub c.xmlDoc (high32 e).toNat (attrPreLen e).toNat) :
    ∃ p', qualifyAttrsLoop ds.length k j p = .ok () p' := by
  induction k generalizing p j with
  | zero => exact ⟨p, rfl⟩
  | succ k ih =>
    obtain ⟨e, he, h1, h2, d, hd, h3⟩ := hall j.toNat (by omega) (by omega)
    obtain ⟨hl, hl'⟩ := List.getElem?_eq_some_iff.mp he
    obtain ⟨r, hr, hrn⟩ := qualifyAttrLoop_total hb hT h1 h2 ds.length (Nat.le_refl _)
    obtain ⟨i, hi⟩ := List.mem_iff_getElem?.mp hd
    have := hrn ⟨i, d, lt_of_some hi, hi, h3⟩
    unfold qualifyAttrsLoop
    rw [M.bind_apply, M.get_apply, Res.andThen_ok, M.bind_apply, M.index_of_lt _ _ _ hj (by omega), Res.andThen_ok, hl',
      M.bind_apply, hr, Res.andThen_ok]
    cases r with
    | none => exact absurd rfl this
    | some r =>
      dsimp only
      rw [M.bind_apply, M.modify_apply, Res.andThen_ok]
      refine ih (by exact hT) (by exact hb) (j := j + 1) (by omega) ?_
      intro i h1 h2
      exact hall i (by omega) (by omega)

theorem uniqueQualInner_total {e0 : BitVec 64} {a b : Int} {n : Nat} {j : Int} (hb : Base c p) (he0 : Slot c e0) (hj : 0 ≤ j)
    (hin : ∀ i : Nat, j.toNat ≤ i → i < j.toNat + n → ∃ e, p.at_.prefixedAttrNameSlice[i]? = some e ∧ Slot c e ∧
      slotLocal c.xmlDoc e0 ≠ slotLocal c.xmlDoc e) :
    uniqueQualInner (attrFullLen e0 - attrPreLen e0 - 1) (high32 e0 + attrPreLen e0 + 1) a b n j p = .ok () p := by
  induction n generalizing j with
  | zero => rfl
  | succ n ih =>
    obtain ⟨e, he, hse, hne⟩ := hin j.toNat (by omega) (by omega)
    obtain ⟨hl, hl'⟩ := List.getElem?_eq_some_iff.mp he
    have hinc : p.enc.increment = 1 := hb.inc
    have ih := ih (j := j + 1) (by omega) fun i h1 h2 => hin i (by omega) (by omega)
    unfold uniqueQualInner
    rw [M.bind_apply, M.get_apply, Res.andThen_ok, M.bind_apply, M.index_of_lt _ _ _ hj (by omega), Res.andThen_ok, hl']
    have n0 : ¬ (attrFullLen e0 - attrPreLen e0 - 1 < 0) := by have := he0.lt; omega
    simp only [M.ite_apply, hinc, n0, if_false]
    split
    · rename_i hlen
      obtain ⟨r', hr', hiff⟩ := sameBytes_iff (p := p) hb.cfg (attrFullLen e0 - attrPreLen e0 - 1).toNat
        (a := high32 e0 + attrPreLen e0 + 1) (b := high32 e + attrPreLen e + 1)
        ⟨by have := he0.os; have := he0.pre; omega, by omega, by have := he0.fits; have := he0.lt; omega⟩
        ⟨by have := hse.os; have := hse.pre; omega, by omega, by have := hse.fits; have := hse.lt; omega⟩
      rw [M.bind_apply, hr', Res.andThen_ok, M.ite_apply]
      have eqv : slotLocal c.xmlDoc e0 = slotLocal c.xmlDoc e ↔ r' = true := by
        rw [hiff]
        have e1 : (high32 e0 + attrPreLen e0 + 1).toNat = (high32 e0).toNat + (attrPreLen e0).toNat + 1 := by
          have := he0.os; have := he0.pre; omega
        have e2 : (high32 e + attrPreLen e + 1).toNat = (high32 e).toNat + (attrPreLen e).toNat + 1 := by
          have := hse.os; have := hse.pre; omega
        have e3 : (attrFullLen e0 - attrPreLen e0 - 1).toNat = (attrFullLen e0).toNat - (attrPreLen e0).toNat - 1 := by
          have := he0.pre; omega
        have e4 : (attrFullLen e0).toNat - (attrPreLen e0).toNat - 1 = (attrFullLen e).toNat - (attrPreLen e).toNat - 1 := by
          have := he0.pre; have := hse.pre; omega
        rw [e1, e2, e3, slotLocal, slotLocal, sub, sub, ← e4]
      rw [if_neg (fun hh => hne (eqv.mpr hh))]
      exact ih
    · exact ih

theorem uniqueQualOuter_total {n : Nat} {j : Int} (hb : Base c p) (hl : NsLists p) {ys : List (BitVec 64)}
    (h2 : p.ns.nsBuffer2 = fill 6 ys) (hy : 1 ≤ ys.length ∧ ys.length ≤ 64) (hj : 0 ≤ j)
    (hin : ∀ i : Nat, i < j.toNat + n → ∃ e, p.at_.prefixedAttrNameSlice[i]? = some e ∧ Slot c e)
    (hne : ∀ (i k : Nat) e e', i < k → k < j.toNat + n → p.at_.prefixedAttrNameSlice[i]? = some e →
      p.at_.prefixedAttrNameSlice[k]? = some e' → slotLocal c.xmlDoc e ≠ slotLocal c.xmlDoc e') :
    uniqueQualOuter n j p = .ok () p := by
  induction n generalizing j with
  | zero => rfl
  | succ n ih =>
    obtain ⟨e, he, hse⟩ := hin j.toNat (by omega)
    obtain ⟨hlt, hl'⟩ := List.getElem?_eq_some_iff.mp he
    have hinc : p.enc.increment = 1 := hb.inc
    obtain ⟨hn, l, hu⟩ := hl
    have hu0 : M.index p.at_.prefixUrlSlice j p = .ok 0 p := by
      have hj2 : j.toNat < p.at_.prefixUrlSlice.length := by rw [hu, List.length_append, List.length_replicate]; omega
      rw [M.index_of_lt _ _ _ hj hj2]
      congr 1
      have h3 : p.at_.prefixUrlSlice[j.toNat]? = some 0 := by
        rw [hu, List.getElem?_append_left (by rw [List.length_replicate]; omega), List.getElem?_replicate, if_pos (by omega)]
      rw [List.getElem?_eq_getElem hj2] at h3
      exact Option.some.inj h3
    have hat : Paged.longAt 0 p.ns.nsBuffer2 = .ok ys[0] p.ns.nsBuffer2 := by
      rw [h2]; exact longAt_fill (i := 0) (by omega) hy.2
    unfold uniqueQualOuter
    rw [M.bind_apply, M.get_apply, Res.andThen_ok, M.bind_apply, M.index_of_lt _ _ _ hj (by omega), Res.andThen_ok, hl',
      M.bind_apply, hu0, Res.andThen_ok, M.bind_apply, onNs2_read (lower32_of hat), Res.andThen_ok,
      M.bind_apply, onNs2_read (upper32_of hat), Res.andThen_ok, M.bind_apply, hinc]
    rw [uniqueQualInner_total hb hse (j := j + 1) (by omega), Res.andThen_ok]
    · exact ih (j := j + 1) (by omega) (fun i hi => hin i (by omega)) fun i k e e' h1 h2 => hne i k e e' h1 (by omega)
    · intro i h1 h3
      obtain ⟨e', he', hse'⟩ := hin i (by omega)
      exact ⟨e', he', hse', hne j.toNat i e e' (by omega) (by omega) he he'⟩

theorem qualifyElementLoop_total {l2 o : Nat} (hb : Base c p) (hT : Table c.xmlDoc ds p.ns.nsBuffer3)
    (hin : o + l2 ≤ c.xmlDoc.length) (n : Nat) (hn : n ≤ ds.length) :
    ∃ r, qualifyElementLoop ((l2 + 1 : Nat) : Int) o n p = .ok r p ∧
      ((∃ (i : Nat) (d : BitVec 64), i < n ∧ ds[i]? = some d ∧ localOf c.xmlDoc d = sub c.xmlDoc o l2) → r = true) := by
  induction n with
  | zero => exact ⟨false, rfl, fun ⟨i, d, h, _⟩ => by omega⟩
  | succ n ih =>
    obtain ⟨r, hr, hrn⟩ := ih (by omega)
    have hat := hT.at (p := p) (i := n) (by omega)
    have hd : ds[n]? = some ds[n] := List.getElem?_eq_getElem (by omega)
    generalize ds[n] = d at hat hd
    obtain ⟨hf, hc⟩ := hT.fit d (List.mem_of_getElem? hd)
    have hlt := colon_lt hf hc
    have hle := qnameLength_le d
    have hsm := hT.small
    have hcol := hf.colon
    have hof := hf.off
    have hlen := hf.len
    have hloc := ent_local c.xmlDoc d
    have last : localOf c.xmlDoc d ≠ sub c.xmlDoc o l2 →
        (∃ (i : Nat) (d : BitVec 64), i < n + 1 ∧ ds[i]? = some d ∧ localOf c.xmlDoc d = sub c.xmlDoc o l2) → r = true := by
      rintro hne ⟨i, d', hi, hd', he⟩
      refine hrn ⟨i, d', ?_, hd', he⟩
      rcases Nat.lt_or_ge i n with hi' | hi'
      · exact hi'
      · obtain rfl : i = n := by omega
        rw [hd] at hd'
        cases hd'
        exact absurd he hne
    simp only [ent] at hat
    generalize hm2 : colonAt c.xmlDoc d = m2 at *
    generalize hm1 : qnameLength d = m1 at *
    generalize hmq : tokenOffset d = q at *
    obtain ⟨f1, f2, f3⟩ := nsRecord_fields (l2 := m2) (l1 := m1) (o := q) (by omega) hle (by omega)
    have hinc : p.enc.increment = 1 := hb.inc
    have dd : ((upperOf (nsRecord m2 m1 q) &&& 0xFFFF#32) - (upperOf (nsRecord m2 m1 q)).sshiftRight 16).toInt = ((m1 - m2 : Nat) : Int) := by
      apply ofNat32
      · rw [BitVec.toNat_sub_of_le (by rw [BitVec.le_def, f1, f2]; omega), f1, f2]
      · omega
    have ss : ((nsRecord m2 m1 q).setWidth 32 + (upperOf (nsRecord m2 m1 q)).sshiftRight 16).toInt = ((q + m2 : Nat) : Int) := by
      apply ofNat32
      · rw [BitVec.toNat_add_of_lt (by rw [f2, f3]; omega), f2, f3]
      · omega
    unfold qualifyElementLoop
    rw [M.bind_apply, onNs3_read (upper32_of hat), Res.andThen_ok, M.bind_apply, M.get_apply, Res.andThen_ok]
    simp only [M.ite_apply, dd, hinc]
    by_cases hq : ((m1 - m2 : Nat) : Int) = ((l2 + 1 : Nat) : Int)
    · rw [if_pos hq, M.bind_apply, M.catchErr_apply]
      rw [show (do let l ← onNs3 (Paged.lower32At n); pure (some l) : M Parser (Option (BitVec 32))) p =
        .ok (some ((nsRecord m2 m1 q).setWidth 32)) p by rw [M.bind_apply, onNs3_read (lower32_of hat)]; rfl]
      simp only [Res.handle, Res.andThen_ok, M.ite_apply, ss]
      rw [if_neg (by omega), M.bind_apply]
      have hl : (((l2 + 1 : Nat) : Int) - 1).toNat = l2 := by omega
      rw [hl]
      obtain ⟨r', hr', hiff⟩ := sameBytes_iff (p := p) hb.cfg l2
        (a := ((q + m2 : Nat) : Int) + 1) (b := o) ⟨by omega, by omega, by omega⟩ ⟨by omega, by omega, by omega⟩
      rw [hr', Res.andThen_ok, M.ite_apply]
      split
      · exact ⟨true, rfl, fun _ => rfl⟩
      · rename_i hs
        refine ⟨r, hr, last fun he => hs (hiff.mpr ?_)⟩
        rw [← hloc, show m1 - m2 - 1 = l2 by omega] at he
        rw [show (((q + m2 : Nat) : Int) + 1).toNat = q + m2 + 1 by omega]
        exact he
    · rw [if_neg hq]
      refine ⟨r, hr, last fun he => hq ?_⟩
      have := congrArg List.length he
      rw [← hloc] at this
      simp only [sub, List.length_take, List.length_drop] at this
      omega

/-- A comparison with bytes of the document that ends before the byte `y`. -/
theorem docMatches_upto {o : Int} {l a r : List UInt8} {y : UInt8} (hp : p.cfg = c) (ho : 0 ≤ o)
    (hd : c.xmlDoc.drop o.toNat = a ++ y :: r) (hy : y ∉ l) : docMatches o l p = .ok (decide (l <+: a)) p := by
  induction l generalizing o a with
  | nil => simp only [docMatches, List.nil_prefix, decide_true]; rfl
  | cons z l ih =>
    have hlt : o.toNat < c.xmlDoc.length := by
      have := congrArg List.length hd
      simp only [List.length_drop, List.length_append, List.length_cons] at this
      omega
    rw [List.drop_eq_getElem_cons hlt] at hd
    have hi : docByte o p = .ok c.xmlDoc[o.toNat] p := by
      simp only [docByte, M.bind_apply, M.get_apply, Res.andThen_ok, hp]
      rw [M.index_of_lt _ _ _ ho hlt]
    have e : docMatches o (z :: l) p = (if c.xmlDoc[o.toNat] = z then docMatches (o + 1) l p else .ok false p) := by
      show (do let b ← docIs o z; if b then docMatches (o + 1) l else pure false : M Parser Bool) p = _
      simp only [docIs, M.bind_apply, hi, Res.andThen_ok, M.pure_apply, M.ite_apply, beq_iff_eq]
    rw [e]
    cases a with
    | nil =>
      rw [List.nil_append] at hd
      injection hd with h1 h2
      rw [if_neg (by rw [h1]; rintro rfl; exact hy (by simp))]
      simp
    | cons b a =>
      rw [List.cons_append] at hd
      injection hd with h1 h2
      by_cases hz : c.xmlDoc[o.toNat] = z
      · rw [if_pos hz, ih (o := o + 1) (a := a) (by omega) (by rw [show (o + 1).toNat = o.toNat + 1 by omega]; exact h2) (fun hh => hy (by simp [hh]))]
        rw [h1] at hz
        simp [List.cons_prefix_cons, hz]
      · rw [if_neg hz]
        rw [h1] at hz
        simp [List.cons_prefix_cons, Ne.symm hz]

theorem checkXml_upto {o l : Int} {ck : Bool} {a r : List UInt8} {y : UInt8} (hb : Base c p) (ho : 0 ≤ o)
    (hd : c.xmlDoc.drop o.toNat = a ++ y :: r) (hy : y ∉ (str% "xml" : List UInt8)) :
    checkXmlPrefix o l ck p = .ok (decide (str% "xml" <+: a ∧ (ck = true → l = 4 ∨ l = 8))) p := by
  unfold checkXmlPrefix checkPrefix
  have he : p.enc.encoding < FormatUtf16BE := by rw [hb.enc]; decide
  simp only [M.bind_apply, M.get_apply, Res.andThen_ok, he, if_true]
  rw [docMatches_upto hb.cfg ho hd hy, Res.andThen_ok]
  cases ck <;> by_cases hx : str% "xml" <+: a <;> simp [hx] <;> rfl

theorem checkXmlns_upto {o l : Int} {ck : Bool} {a r : List UInt8} {y : UInt8} (hb : Base c p) (ho : 0 ≤ o)
    (hd : c.xmlDoc.drop o.toNat = a ++ y :: r) (hy : y ∉ (str% "xmlns" : List UInt8)) :
    checkXmlnsPrefix o l ck p = .ok (decide (str% "xmlns" <+: a ∧ (ck = true → l = 5 ∨ l = 10))) p := by
  unfold checkXmlnsPrefix checkPrefix
  have he : p.enc.encoding < FormatUtf16BE := by rw [hb.enc]; decide
  simp only [M.bind_apply, M.get_apply, Res.andThen_ok, he, if_true]
  rw [docMatches_upto hb.cfg ho hd hy, Res.andThen_ok]
  cases ck <;> by_cases hx : str% "xmlns" <+: a <;> simp [hx] <;> rfl

theorem qualifyElement_total {l2 l1 o : Nat} (hb : Base c p) (hT : Table c.xmlDoc ds p.ns.nsBuffer3)
    (hl2 : l2 ≤ 511) (hl1 : l1 ≤ 2047) (ho : o < 2 ^ 31) {a r : List UInt8} (hd : c.xmlDoc.drop o = a ++ ch% ':' :: r) (ha : a.length = l2)
    (hrec : p.at_.currentElementRecord = nsRecord ((l2 + 1 : Nat) : Int) l1 o)
    (hk : (∃ d ∈ ds, localOf c.xmlDoc d = a) ∨ a = str% "xml") : qualifyElement p = .ok () p := by
  unfold qualifyElement
  obtain ⟨f1, f2⟩ := elemRecord_fields (l2 := l2 + 1) (l1 := l1) (o := o) (by omega) hl1 ho
  have hsz : p.ns.nsBuffer3.getSize.toNat = ds.length := by rw [hT.eq]; simp [getSize, fill]
  rw [M.bind_apply, M.get_apply, Res.andThen_ok]
  simp only [hrec, f1, f2, hsz]
  have hin : o + l2 ≤ c.xmlDoc.length := by
    have := congrArg List.length hd
    simp only [List.length_drop, List.length_append, List.length_cons] at this
    omega
  obtain ⟨b, hb', hbt⟩ := qualifyElementLoop_total hb hT hin ds.length (Nat.le_refl _)
  rw [M.bind_apply, hb', Res.andThen_ok, M.ite_apply]
  split
  · rfl
  · rename_i hf
    rw [M.bind_apply, checkXml_upto hb (by omega) (a := a) (y := ch% ':') (r := r) (by rw [Int.toNat_natCast]; exact hd) (by decide), Res.andThen_ok]
    rcases hk with ⟨d, hd', he⟩ | rfl
    · obtain ⟨i, hi⟩ := List.mem_iff_getElem?.mp hd'
      exfalso
      refine hf (hbt ⟨i, d, lt_of_some hi, hi, ?_⟩)
      rw [he, sub, hd, List.take_left' ha]
    · have h3 : l2 = 3 := by rw [← ha]; rfl
      subst h3
      rw [M.ite_apply, if_pos (by decide)]
      rfl

end Rooted
end Parser
end GoVtd
