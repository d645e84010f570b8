import Verif.Proofs.Parser.NsBits
import Verif.Props.Tags

/-!
# What the checks of prefixes establish
-/

namespace GoVtd
namespace Parser
namespace Sound
open Paged Grammar Two Ev

variable {c : ParserCfg} {p p' : Parser} {V : List (BitVec 64)}

/-- An entry of the table of declarations: the name of a record of `V` that declares its last part. -/
def Entry (D : List UInt8) (V : List (BitVec 64)) (e : BitVec 64) : Prop :=
  ∃ w ∈ V, ∃ l2 l1 o : Nat, l2 < l1 ∧ l2 ≤ 511 ∧ l1 ≤ 2047 ∧ o + l1 ≤ D.length ∧ o + l1 < 2 ^ 31 ∧
    e = nsRecord l2 l1 o ∧ Declares D w (sub D (o + l2 + 1) (l1 - l2 - 1))

/-- Every value in the pages of the table of declarations is such an entry. -/
def Entries (D : List UInt8) (V : List (BitVec 64)) (b : FastLongBuffer) : Prop := ∀ e, Held b e → Entry D V e

/-- Some record of `V` declares the `n` bytes at `o`. -/
def Known (D : List UInt8) (V : List (BitVec 64)) (o n : Nat) : Prop := ∃ w ∈ V, Declares D w (sub D o n)

theorem ofNat32 {x : BitVec 32} {n : Nat} (h : x.toNat = n) (hn : n < 2 ^ 31) : x.toInt = n := by
  rw [toInt32_of_lt (by omega), h]

theorem qualifyAttrLoop_found {preLen preOs : Int} {n : Nat} {r : Option Int} (hb : Base c p)
    (hE : Entries c.xmlDoc V p.ns.nsBuffer3) (hin : InDoc c preOs preLen) (h : qualifyAttrLoop preLen preOs n p = .ok r p') :
    p' = p ∧ ∀ i, r = some i → Known c.xmlDoc V preOs.toNat preLen.toNat := by
  induction n generalizing p with
  | zero => cases h; exact ⟨rfl, fun i h => by cases h⟩
  | succ n ih =>
    unfold qualifyAttrLoop at h
    obtain ⟨up, t, x1, h⟩ := bind_ok h
    obtain ⟨b', x2, rfl⟩ := onNs3_val x1
    obtain ⟨rfl, e, he, rfl⟩ := upper32_val x2
    clear x1 x2
    obtain ⟨w, hw, l2, l1, o, g1, g2, g3, g4, g5, rfl, hD⟩ := hE e (longAt_held he)
    obtain ⟨f1, f2, f3⟩ := nsRecord_fields (l2 := l2) (l1 := l1) (o := o) (by omega) g3 (by omega)
    obtain ⟨q, t, h2, h⟩ := bind_ok h
    cases h2
    simp only [M.ite_apply, ofNat32 f1 (by omega), ofNat32 f2 (by omega)] at h
    rw [show p.enc.increment = 1 from hb.inc] at h
    split at h
    · rename_i hd
      obtain ⟨lo, t, x3, h⟩ := bind_ok h
      obtain ⟨b', x4, rfl⟩ := onNs3_val x3
      rw [lower32_of he] at x4
      cases x4
      obtain ⟨same, t, h3, h⟩ := bind_ok h
      rw [ofNat32 f3 (by omega)] at h3
      obtain ⟨r', hr', hiff⟩ := sameBytes_iff (p := p) hb.cfg preLen.toNat (a := o + l2 + 1) (b := preOs) ⟨by omega, by omega, by omega⟩ ⟨hin.1, by omega, by have := hin.2.2; omega⟩
      rw [show (sameBytes preLen.toNat (o + l2 + 1) preOs p) = _ from hr'] at h3
      cases h3
      rw [M.ite_apply] at h
      split at h
      · rename_i hs
        cases h
        refine ⟨rfl, fun i _ => ⟨w, hw, ?_⟩⟩
        have := hiff.mp hs
        rw [show ((o : Int) + l2 + 1).toNat = o + l2 + 1 by omega] at this
        rw [show l1 - l2 - 1 = preLen.toNat by omega, sub, this] at hD
        exact hD
      · exact ih hb hE h
    · exact ih hb hE h

/-- The parser with more indices of declarations. -/
theorem qualifyAttrsLoop_found {n k : Nat} {j : Int} {u : Unit} (hb : Base c p)
    (hE : Entries c.xmlDoc V p.ns.nsBuffer3) (hj : 0 ≤ j)
    (hin : ∀ (i : Nat) e, i < j.toNat + k → p.at_.prefixedAttrNameSlice[i]? = some e → InDoc c (high32 e) (attrPreLen e))
    (h : qualifyAttrsLoop n k j p = .ok u p') :
    (∃ l, p' = { p with at_ := { p.at_ with prefixUrlSlice := l } }) ∧
      ∀ (i : Nat) e, j.toNat ≤ i → i < j.toNat + k → p.at_.prefixedAttrNameSlice[i]? = some e →
        Known c.xmlDoc V (high32 e).toNat (attrPreLen e).toNat := by
  induction k generalizing p j with
  | zero => cases h; exact ⟨⟨_, rfl⟩, fun i e h1 h2 => by omega⟩
  | succ k ih =>
    unfold qualifyAttrsLoop at h
    obtain ⟨q, t, h1, y1⟩ := bind_ok h
    cases h1
    obtain ⟨e, t, x1, y2⟩ := bind_ok y1
    obtain ⟨-, he, e1⟩ := index_val x1
    subst e1
    obtain ⟨r, t', x2, y3⟩ := bind_ok y2
    obtain ⟨e2, hk⟩ := qualifyAttrLoop_found hb hE (hin _ _ (by omega) he) x2
    subst e2
    clear h y1 y2
    have h := y3
    cases r with
    | none => exact (Two.parseErr_ok h).elim
    | some i =>
      dsimp only at h
      rw [M.bind_apply, M.modify_apply, Res.andThen_ok] at h
      obtain ⟨⟨l, rfl⟩, hall⟩ := ih (j := j + 1) (by exact hb) (by exact hE) (by omega) (by exact fun i e hi he => hin i e (by omega) he) h
      refine ⟨⟨_, rfl⟩, fun i' e' h1 h2 h3 => ?_⟩
      by_cases hi : i' = j.toNat
      · subst hi
        rw [he] at h3
        cases h3
        exact hk _ rfl
      · exact hall i' e' (by omega) (by omega) h3

theorem docMatches_ok {o : Int} {l : List UInt8} {b : Bool} (hb : p.cfg = c) (ho : 0 ≤ o) (h : docMatches o l p = .ok b p') :
    p' = p ∧ (b = true ↔ l <+: c.xmlDoc.drop o.toNat) := by
  induction l generalizing o with
  | nil => cases h; simp
  | cons x l ih =>
    unfold docMatches at h
    have hd : ∃ z, c.xmlDoc[o.toNat]? = some z ∧ (if (z == x) = true then docMatches (o + 1) l else M.pure false) p = .ok b p' := by
      obtain ⟨y, t, x1, x2⟩ := bind_ok (m := docIs o x) h
      unfold docIs at x1
      obtain ⟨z, t', x3, x4⟩ := bind_ok x1
      cases x4
      unfold docByte at x3
      obtain ⟨q, t2, x5, x6⟩ := bind_ok x3
      cases x5
      obtain ⟨-, hz, e⟩ := index_val x6
      subst e
      rw [hb] at hz
      exact ⟨z, hz, x2⟩
    clear h
    obtain ⟨z, hz, h⟩ := hd
    obtain ⟨hlt, hz'⟩ := List.getElem?_eq_some_iff.mp hz
    rw [List.drop_eq_getElem_cons hlt, hz', List.cons_prefix_cons]
    by_cases hx : z = x
    · simp only [hx, if_true, beq_self_eq_true] at h
      obtain ⟨k1, k2⟩ := ih (by omega) h
      refine ⟨k1, ?_⟩
      rw [k2, show (o + 1).toNat = o.toNat + 1 by omega]
      simp [hx]
    · rw [show (z == x) = false by simpa using hx] at h
      cases h
      exact ⟨rfl, by simp [Ne.symm hx]⟩

theorem checkXml_ok {o l : Int} {ck b : Bool} (hb : Base c p) (ho : 0 ≤ o) (h : checkXmlPrefix o l ck p = .ok b p') :
    p' = p ∧ (b = true ↔ str% "xml" <+: c.xmlDoc.drop o.toNat ∧ (ck = true → l = 4 ∨ l = 8)) := by
  unfold checkXmlPrefix checkPrefix at h
  obtain ⟨q, t, h1, h⟩ := bind_ok h
  cases h1
  have he : p.enc.encoding < FormatUtf16BE := by rw [hb.enc]; decide
  simp only [he, if_true] at h
  obtain ⟨v, t, x1, x2⟩ := bind_ok (m := docMatches _ _) h
  clear h
  obtain ⟨e1, hv⟩ := docMatches_ok hb.cfg ho x1
  subst e1
  have h := x2
  rw [← hv]
  rw [M.ite_apply] at h
  split at h
  · rename_i hc
    cases h
    simp only [Bool.and_eq_true] at hc
    simp [hc, he]
  · rename_i hc
    cases h
    refine ⟨rfl, ?_⟩
    cases ck <;> simp_all

theorem checkXmlns_ok {o l : Int} {b : Bool} (hb : Base c p) (ho : 0 ≤ o) (h : checkXmlnsPrefix o l false p = .ok b p') :
    p' = p ∧ (b = true ↔ str% "xmlns" <+: c.xmlDoc.drop o.toNat) := by
  unfold checkXmlnsPrefix checkPrefix at h
  obtain ⟨q, t, h1, h⟩ := bind_ok h
  cases h1
  have he : p.enc.encoding < FormatUtf16BE := by rw [hb.enc]; decide
  simp only [he, if_true] at h
  obtain ⟨v, t, x1, x2⟩ := bind_ok (m := docMatches _ _) h
  clear h
  obtain ⟨e1, hv⟩ := docMatches_ok hb.cfg ho x1
  subst e1
  have h := x2
  rw [← hv]
  simp only [Bool.and_false, Bool.false_eq_true, if_false] at h
  cases h
  exact ⟨rfl, Iff.rfl⟩

/-- The local name of the attribute in a slot. -/
def slotLocal (D : List UInt8) (e : BitVec 64) : List UInt8 :=
  sub D ((high32 e).toNat + (attrPreLen e).toNat + 1) ((attrFullLen e).toNat - (attrPreLen e).toNat - 1)

/-- The slot of a name in the document. -/
structure Slot (c : ParserCfg) (e : BitVec 64) : Prop where
  os : 0 ≤ high32 e
  pre : 0 ≤ attrPreLen e
  lt : attrPreLen e < attrFullLen e
  fits : high32 e + attrFullLen e ≤ c.xmlDoc.length

theorem local_length {e : BitVec 64} (h : Slot c e) :
    (slotLocal c.xmlDoc e).length = (attrFullLen e).toNat - (attrPreLen e).toNat - 1 := by
  obtain ⟨h1, h2, h3, h4⟩ := h
  simp only [slotLocal, sub, List.length_take, List.length_drop]
  omega

theorem uniqueQualInner_found {e0 : BitVec 64} {ul uo : BitVec 32} {n : Nat} {j : Int} {x : Unit}
    (hs : Two.Base p) (hb : Base c p) (hl : NsLists p) (h1 : onNs2 (Paged.lower32At 0) p = .ok ul p)
    (h2 : onNs2 (Paged.upper32At 0) p = .ok uo p) (hul : 0 < ul.toInt) (he0 : Slot c e0) (hj : 0 ≤ j)
    (hin : ∀ (i : Nat) e, i < j.toNat + n → p.at_.prefixedAttrNameSlice[i]? = some e → Slot c e)
    (h : uniqueQualInner (attrFullLen e0 - attrPreLen e0 - 1) (high32 e0 + attrPreLen e0 + 1) uo.toInt ul.toInt n j p = .ok x p') :
    ∀ (i : Nat) e, j.toNat ≤ i → i < j.toNat + n → p.at_.prefixedAttrNameSlice[i]? = some e →
      slotLocal c.xmlDoc e0 ≠ slotLocal c.xmlDoc e := by
  induction n generalizing j with
  | zero => intro i e h3 h4; omega
  | succ n ih =>
    unfold uniqueQualInner at h
    obtain ⟨q, t, x1, y1⟩ := bind_ok h
    cases x1
    obtain ⟨e, t, x2, y2⟩ := bind_ok y1
    obtain ⟨-, he, e1⟩ := index_val x2
    subst e1
    have hse := hin _ _ (by omega) he
    have hinc : t.enc.increment = 1 := hb.inc
    have step : slotLocal c.xmlDoc e0 ≠ slotLocal c.xmlDoc e →
        uniqueQualInner (attrFullLen e0 - attrPreLen e0 - 1) (high32 e0 + attrPreLen e0 + 1) uo.toInt ul.toInt n (j + 1) t = .ok x p' →
        ∀ (i : Nat) e, j.toNat ≤ i → i < j.toNat + (n + 1) → t.at_.prefixedAttrNameSlice[i]? = some e →
          slotLocal c.xmlDoc e0 ≠ slotLocal c.xmlDoc e := by
      intro hne h i e' h3 h4 h5
      by_cases hi : i = j.toNat
      · subst hi
        rw [he] at h5
        cases h5
        exact hne
      · exact ih (by omega) (fun i e hi => hin i e (by omega)) h i e' (by omega) (by omega) h5
    have n0 : ¬ (attrFullLen e0 - attrPreLen e0 - 1 < 0) := by have := he0.lt; omega
    simp only [M.ite_apply, hinc, n0, if_false] at y2
    split at y2
    · rename_i hlen
      obtain ⟨b, t', x3, y3⟩ := bind_ok (m := sameBytes _ _ _) y2
      obtain ⟨r', hr', hiff⟩ := sameBytes_iff (p := t) hb.cfg (attrFullLen e0 - attrPreLen e0 - 1).toNat
        (a := high32 e0 + attrPreLen e0 + 1) (b := high32 e + attrPreLen e + 1)
        ⟨by have := he0.os; have := he0.pre; omega, by omega, by have := he0.fits; have := he0.lt; omega⟩
        ⟨by have := hse.os; have := hse.pre; omega, by omega, by have := hse.fits; have := hse.lt; omega⟩
      rw [hr'] at x3
      cases x3
      rw [M.ite_apply] at y3
      have eqv : slotLocal c.xmlDoc e0 = slotLocal c.xmlDoc e ↔ b = true := by
        rw [hiff]
        have e1 : (high32 e0 + attrPreLen e0 + 1).toNat = (high32 e0).toNat + (attrPreLen e0).toNat + 1 := by
          have := he0.os; have := he0.pre; omega
        have e2 : (high32 e + attrPreLen e + 1).toNat = (high32 e).toNat + (attrPreLen e).toNat + 1 := by
          have := hse.os; have := hse.pre; omega
        have e3 : (attrFullLen e0 - attrPreLen e0 - 1).toNat = (attrFullLen e0).toNat - (attrPreLen e0).toNat - 1 := by
          have := he0.pre; omega
        have e4 : (attrFullLen e0).toNat - (attrPreLen e0).toNat - 1 = (attrFullLen e).toNat - (attrPreLen e).toNat - 1 := by
          have := he0.pre; have := hse.pre; omega
        rw [e1, e2, e3, slotLocal, slotLocal, sub, sub, ← e4]
      split at y3
      · obtain ⟨u, t1, x4, y4⟩ := bind_ok y3
        have e0 := url_zero hl x2 x4
        have e1 := index_ok x4
        subst e0 e1
        obtain ⟨l2, t2, x5, y5⟩ := bind_ok y4
        have e1 := lower32At_read x5
        subst e1
        obtain ⟨o2, t3, x6, y6⟩ := bind_ok y5
        have e1 := upper32At_read x6
        subst e1
        obtain rfl : ul = l2 := by have := h1.symm.trans x5; cases this; rfl
        obtain rfl : uo = o2 := by have := h2.symm.trans x6; cases this; rfl
        obtain ⟨m, t4, x7, y7⟩ := bind_ok y6
        exfalso
        unfold matchUrl at x7
        obtain ⟨q, _, x8, x9⟩ := bind_ok x7
        cases x8
        rw [M.ite_apply, if_pos ⟨hul, hul⟩] at x9
        exact (matchUrlLoop_same hs x9).elim
      · rename_i hr
        exact step (fun h => hr (eqv.mp h)) y3
    · rename_i hlen
      refine step (fun h => hlen ?_) y2
      have := congrArg List.length h
      rw [local_length he0, local_length hse] at this
      have := he0.lt; have := hse.lt; have := he0.pre; have := hse.pre
      omega

theorem uniqueQualOuter_found {n : Nat} {j : Int} {x : Unit} (hs : Two.Base p) (hb : Base c p) (hl : NsLists p)
    (hul : ∀ e, Held p.ns.nsBuffer2 e → 0 < low32 e) (hj : 0 ≤ j)
    (hin : ∀ (i : Nat) e, i < j.toNat + n → p.at_.prefixedAttrNameSlice[i]? = some e → Slot c e)
    (h : uniqueQualOuter n j p = .ok x p') :
    ∀ (i k : Nat) e e', j.toNat ≤ i → i < k → k < j.toNat + n → p.at_.prefixedAttrNameSlice[i]? = some e →
      p.at_.prefixedAttrNameSlice[k]? = some e' → slotLocal c.xmlDoc e ≠ slotLocal c.xmlDoc e' := by
  induction n generalizing j with
  | zero => intro i k e e' h3 h4 h5; omega
  | succ n ih =>
    unfold uniqueQualOuter at h
    obtain ⟨q, t, x1, y1⟩ := bind_ok h
    cases x1
    obtain ⟨e, t, x2, y2⟩ := bind_ok y1
    obtain ⟨-, he, e1⟩ := index_val x2
    subst e1
    obtain ⟨u, t', x3, y3⟩ := bind_ok y2
    have e0 := url_zero hl x2 x3
    have e1 := index_ok x3
    subst e0 e1
    obtain ⟨l2, t2, x4, y4⟩ := bind_ok y3
    have e1 := lower32At_read x4
    subst e1
    obtain ⟨o2, t3, x5, y5⟩ := bind_ok y4
    have e1 := upper32At_read x5
    subst e1
    obtain ⟨_, t4, x6, y6⟩ := bind_ok y5
    have e1 := uniqueQualInner_ok hs hl x4 x5 x6
    subst e1
    rw [show t4.enc.increment = 1 from hb.inc] at x6
    have hpos : 0 < l2.toInt := by
      obtain ⟨b', z1, -⟩ := onNs2_val x4
      obtain ⟨-, v, z2, rfl⟩ := lower32_val z1
      exact hul v (longAt_held z2)
    have hin' := uniqueQualInner_found hs hb hl x4 x5 hpos (hin _ _ (by omega) he) (j := j + 1) (by omega)
      (fun i e hi => hin i e (by omega)) x6
    have ih' := ih (j := j + 1) (by omega) (fun i e hi => hin i e (by omega)) y6
    intro i k e1 e2 h3 h4 h5 h6 h7
    by_cases hi : i = j.toNat
    · subst hi
      rw [he] at h6
      cases h6
      exact hin' k e2 (by omega) (by omega) h7
    · exact ih' i k e1 e2 (by omega) h4 (by omega) h6 h7

theorem qualifyElementLoop_found {l2 o n : Nat} {r : Bool} (hb : Base c p) (hE : Entries c.xmlDoc V p.ns.nsBuffer3)
    (hin : o + l2 ≤ c.xmlDoc.length) (h : qualifyElementLoop ((l2 + 1 : Nat) : Int) o n p = .ok r p') :
    p' = p ∧ (r = true → Known c.xmlDoc V o l2) := by
  induction n generalizing p with
  | zero => cases h; exact ⟨rfl, fun h => by cases h⟩
  | succ n ih =>
    unfold qualifyElementLoop at h
    obtain ⟨up, t, x1, y1⟩ := bind_ok h
    obtain ⟨b', x2, rfl⟩ := onNs3_val x1
    obtain ⟨rfl, e, he, rfl⟩ := upper32_val x2
    obtain ⟨w, hw, m2, m1, q, g1, g2, g3, g4, g5, rfl, hD⟩ := hE e (longAt_held he)
    obtain ⟨f1, f2, f3⟩ := nsRecord_fields (l2 := m2) (l1 := m1) (o := q) (by omega) g3 (by omega)
    obtain ⟨q', t, x3, y2⟩ := bind_ok y1
    cases x3
    have d : ((upperOf (nsRecord m2 m1 q) &&& 0xFFFF#32) - (upperOf (nsRecord m2 m1 q)).sshiftRight 16).toInt = ((m1 - m2 : Nat) : Int) := by
      apply ofNat32
      · rw [BitVec.toNat_sub_of_le (by rw [BitVec.le_def, f1, f2]; omega), f1, f2]
      · omega
    have s : ((nsRecord m2 m1 q).setWidth 32 + (upperOf (nsRecord m2 m1 q)).sshiftRight 16).toInt = ((q + m2 : Nat) : Int) := by
      apply ofNat32
      · rw [BitVec.toNat_add_of_lt (by rw [f2, f3]; omega), f2, f3]
      · omega
    have hinc : p.enc.increment = 1 := hb.inc
    simp only [M.ite_apply, d, hinc] at y2
    split at y2
    · rename_i hd
      rw [M.bind_apply, M.catchErr_apply] at y2
      have hlow : onNs3 (Paged.lower32At n) p = .ok ((nsRecord m2 m1 q).setWidth 32) p := by
        simp only [onNs3, M.zoom_apply, lower32_of he]
        rfl
      rw [show (do let l ← onNs3 (Paged.lower32At n); pure (some l) : M Parser (Option (BitVec 32))) p =
        .ok (some ((nsRecord m2 m1 q).setWidth 32)) p by rw [M.bind_apply, hlow]; rfl] at y2
      simp only [Res.handle, Res.andThen_ok, M.ite_apply, s] at y2
      rw [if_neg (by omega)] at y2
      obtain ⟨b, t', x3, y3⟩ := bind_ok y2
      have hl : (((l2 + 1 : Nat) : Int) - 1).toNat = l2 := by omega
      rw [hl] at x3
      obtain ⟨r', hr', hiff⟩ := sameBytes_iff (p := p) hb.cfg l2
        (a := ((q + m2 : Nat) : Int) + 1) (b := o) ⟨by omega, by omega, by omega⟩ ⟨by omega, by omega, by omega⟩
      rw [hr'] at x3
      cases x3
      rw [M.ite_apply] at y3
      split at y3
      · rename_i hs
        cases y3
        refine ⟨rfl, fun _ => ⟨w, hw, ?_⟩⟩
        have := hiff.mp hs
        rw [show (((q + m2 : Nat) : Int) + 1).toNat = q + m2 + 1 by omega] at this
        rw [show m1 - m2 - 1 = l2 by omega, sub, this] at hD
        exact hD
      · exact ih hb hE y3
    · exact ih hb hE y2

theorem qualifyElement_found {l2 l1 o : Nat} {u : Unit} (hb : Base c p) (hE : Entries c.xmlDoc V p.ns.nsBuffer3)
    (hl2 : l2 ≤ 511) (hl1 : l1 ≤ 2047) (ho : o < 2 ^ 31) (hin : o + l2 ≤ c.xmlDoc.length)
    (hrec : p.at_.currentElementRecord = nsRecord ((l2 + 1 : Nat) : Int) l1 o) (h : qualifyElement p = .ok u p') :
    p' = p ∧ (Known c.xmlDoc V o l2 ∨ str% "xml" <+: c.xmlDoc.drop o ∧ (l2 = 3 ∨ l2 = 7)) := by
  unfold qualifyElement at h
  obtain ⟨q, t, x1, y1⟩ := bind_ok h
  cases x1
  obtain ⟨f1, f2⟩ := elemRecord_fields (l2 := l2 + 1) (l1 := l1) (o := o) (by omega) hl1 ho
  simp only [hrec, f1, f2] at y1
  obtain ⟨r, t, x2, y2⟩ := bind_ok y1
  obtain ⟨e1, hk⟩ := qualifyElementLoop_found hb hE hin x2
  subst e1
  rw [M.ite_apply] at y2
  split at y2
  · rename_i hr
    cases y2
    exact ⟨rfl, .inl (hk hr)⟩
  · obtain ⟨b, t', x3, y3⟩ := bind_ok y2
    obtain ⟨e1, hx⟩ := checkXml_ok hb (by omega) x3
    subst e1
    rw [M.ite_apply] at y3
    split at y3
    · rename_i hr
      cases y3
      obtain ⟨z1, z2⟩ := hx.mp hr
      refine ⟨rfl, .inr ⟨z1, ?_⟩⟩
      have := z2 rfl
      omega
    · exact (parseErrAt_ok y3).elim

end Sound
end Parser
end GoVtd
