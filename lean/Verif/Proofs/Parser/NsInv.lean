import Verif.Proofs.Parser.NsList

/-!
# The end of a start tag with namespace awareness
-/

namespace GoVtd
namespace Parser
namespace Sound
open Paged Grammar Two Ev

variable {c : ParserCfg} {p p' : Parser} {D : List UInt8} {A B V V' xs : List (BitVec 64)} {w w0 : BitVec 64} {i : Nat}

/-! ## Functions that only read -/

theorem eq_qf {α : Type} {m : M Parser α} (h : Fr EqF m) : Fr QF m :=
  Two.Fr.weaken h fun s s' (e : s' = s) => by rw [e]; exact qf_pre.refl s

theorem resolveUnit_qf (o ch i : Int) : Fr QF (resolveUnit o ch i) := by
  have h1 := fun o => eq_qf (getCharUnit_eq o)
  have h2 := fun a b d => eq_qf (unitSeq_eq a b d)
  have h3 := fun a b d e => eq_qf (resolveHexLoop_eq a b d e)
  have h4 := fun a b d e => eq_qf (resolveDecLoop_eq a b d e)
  unfold resolveUnit
  repeat' (first
    | with_reducible exact h1 _
    | with_reducible exact h2 _ _ _
    | with_reducible exact h3 _ _ _ _
    | with_reducible exact h4 _ _ _ _
    | with_reducible exact Fr.pure qf_pre _
    | with_reducible exact Fr.get qf_pre
    | with_reducible exact getChar_qf
    | with_reducible refine Fr.bind qf_pre ?_ fun _ => ?_
    | with_reducible refine Fr.ite ?_ ?_)

theorem getCharResolved_qf (o : Int) : Fr QF (getCharResolved o) := by
  have h1 := fun o => eq_qf (getCharUnit_eq o)
  unfold getCharResolved
  refine Fr.bind qf_pre (Fr.get qf_pre) fun p => Fr.bind qf_pre (onRd_qf _) fun x => Fr.ite (Fr.pure qf_pre _) ?_
  exact Fr.bind qf_pre (h1 _) fun ch => Fr.bind qf_pre (resolveUnit_qf _ _ _) fun x => Fr.pure qf_pre _

theorem urlLoop_qf (g : Int) (l : List Nat) (o : Int) : Fr QF (urlLoop g l o) := by
  induction l generalizing o with
  | nil => unfold urlLoop; exact Fr.pure qf_pre _
  | cons u l ih =>
    unfold urlLoop
    exact Fr.ite (Fr.bind qf_pre (getCharResolved_qf _) fun ch => Fr.ite (Fr.pure qf_pre _) (ih _)) (Fr.pure qf_pre _)
macro_rules | `(tactic| qf_lemma) => `(tactic| with_reducible exact urlLoop_qf _ _ _)

theorem identifyNsUrl_qf : Fr QF identifyNsUrl := by unfold identifyNsUrl; qf

theorem matchUrlLoop_qf (n : Nat) (a b : Int) : Fr QF (matchUrlLoop n a b) := by
  induction n generalizing a b with
  | zero => unfold matchUrlLoop; exact Fr.diverge
  | succ n ih =>
    unfold matchUrlLoop
    exact Fr.bind qf_pre (getCharResolved_qf _) fun _ => Fr.bind qf_pre (getCharResolved_qf _) fun _ =>
      Fr.ite (Fr.pure qf_pre _) (ih _ _)
macro_rules | `(tactic| qf_lemma) => `(tactic| with_reducible exact matchUrlLoop_qf _ _ _)
theorem matchUrl_qf (a b d e : Int) : Fr QF (matchUrl a b d e) := by unfold matchUrl; qf
macro_rules | `(tactic| qf_lemma) => `(tactic| with_reducible exact matchUrl_qf _ _ _ _)

/-- `QF` for a call that succeeds. -/
def Qk {α : Type} (m : M Parser α) : Prop := ∀ s a s', m s = .ok a s' → QF s s'

section
variable {α β : Type}
theorem Qk.of {m : M Parser α} (h : Fr QF m) : Qk m := fun _ _ _ hm => h.ok hm
theorem Qk.bind {m : M Parser α} {k : α → M Parser β} (hm : Qk m) (hk : ∀ a, Qk (k a)) : Qk (m >>= k) := by
  intro s b s' h
  obtain ⟨a, t, h1, h2⟩ := bind_ok h
  exact qf_pre.trans (hm _ _ _ h1) (hk _ _ _ _ h2)
theorem Qk.ite {q : Prop} [Decidable q] {a b : M Parser α} (ha : Qk a) (hb : Qk b) : Qk (if q then a else b) := by
  split
  · exact ha
  · exact hb
end

theorem lower_qk (i : Int) : Qk (onNs2 (Paged.lower32At i)) := fun s _ _ h => by
  rw [lower32At_read h]; exact qf_pre.refl s
theorem upper_qk (i : Int) : Qk (onNs2 (Paged.upper32At i)) := fun s _ _ h => by
  rw [upper32At_read h]; exact qf_pre.refl s

theorem uniqueQualInner_qk (a b d e : Int) (n : Nat) (j : Int) : Qk (uniqueQualInner a b d e n j) := by
  induction n generalizing j with
  | zero => unfold uniqueQualInner; exact .of (Fr.pure qf_pre _)
  | succ n ih =>
    unfold uniqueQualInner
    refine .bind (.of (Fr.get qf_pre)) fun p => .bind (.of (Fr.index qf_pre _ _)) fun e => .ite ?_ (ih _)
    have hs := fun n a b => eq_qf (sameBytes_fr eq_pre n a b)
    repeat' (first
      | exact ih _
      | with_reducible exact lower_qk _
      | with_reducible exact upper_qk _
      | with_reducible exact .of (matchUrl_qf _ _ _ _)
      | with_reducible exact .of (Fr.index qf_pre _ _)
      | with_reducible exact .of (parseErrAt_fr qf_pre _ _)
      | with_reducible exact .of (Fr.pure qf_pre _)
      | with_reducible exact .of (hs _ _ _)
      | with_reducible refine Qk.bind ?_ fun _ => ?_
      | with_reducible refine Qk.ite ?_ ?_)

theorem uniqueQualOuter_qk (n : Nat) (j : Int) : Qk (uniqueQualOuter n j) := by
  induction n generalizing j with
  | zero => unfold uniqueQualOuter; exact .of (Fr.pure qf_pre _)
  | succ n ih =>
    unfold uniqueQualOuter
    exact .bind (.of (Fr.get qf_pre)) fun p => .bind (.of (Fr.index qf_pre _ _)) fun e => .bind (.of (Fr.index qf_pre _ _)) fun u =>
      .bind (lower_qk _) fun _ => .bind (upper_qk _) fun _ => .bind (uniqueQualInner_qk _ _ _ _ _ _) fun _ => ih _

theorem checkQual_qk : Qk checkQualifiedAttributeUniqueness := by
  unfold checkQualifiedAttributeUniqueness
  exact .bind (.of (Fr.get qf_pre)) fun p => uniqueQualOuter_qk _ _

/-! ## The tables -/

/-- The slot of a prefixed attribute name. -/
def attEntry (D : List UInt8) (w : BitVec 64) : BitVec 64 := attWord (tokenOffset w) (colonAt D w) (qnameLength w)

/-- The name of the record fits. -/
structure Fit (D : List UInt8) (w : BitVec 64) : Prop where
  colon : colonAt D w ≤ 511
  off : tokenOffset w < 2 ^ 31
  len : tokenOffset w + qnameLength w ≤ D.length

theorem qname_length (h : Fit D w) : (qname D w).length = qnameLength w := by
  have := h.len
  simp only [qname, List.length_take, List.length_drop]
  omega

theorem colon_lt (h : Fit D w) (hc : colonAt D w ≠ 0) : colonAt D w < qnameLength w := by
  rw [← qname_length h]
  exact (colon_splits hc).2

theorem entry_fields (h : Fit D w) : attrPreLen (attEntry D w) = colonAt D w ∧
    attrFullLen (attEntry D w) = qnameLength w ∧ high32 (attEntry D w) = tokenOffset w :=
  attWord_fields h.colon (by have := Nat.mod_lt (w.toNat / 2 ^ 32) (show 0 < 2 ^ 11 by decide); simp only [qnameLength]; omega) h.off

theorem entry_slot (h : Fit c.xmlDoc w) (hc : colonAt c.xmlDoc w ≠ 0) : Slot c (attEntry c.xmlDoc w) := by
  obtain ⟨h1, h2, h3⟩ := entry_fields h
  have := colon_lt h hc
  have := h.len
  refine ⟨?_, ?_, ?_, ?_⟩ <;> simp only [h1, h2, h3] <;> omega

theorem entry_prefix (h : Fit D w) (hc : colonAt D w ≠ 0) :
    sub D (high32 (attEntry D w)).toNat (attrPreLen (attEntry D w)).toNat = prefixOf D w := by
  obtain ⟨h1, h2, h3⟩ := entry_fields h
  have := colon_lt h hc
  rw [h1, h3, prefixOf, qname, List.take_take, Nat.min_eq_left (by omega)]
  rfl

theorem entry_local (h : Fit D w) : slotLocal D (attEntry D w) = localOf D w := by
  obtain ⟨h1, h2, h3⟩ := entry_fields h
  rw [slotLocal, h1, h2, h3, localOf, qname, List.drop_take, List.drop_drop, sub]
  congr 1

/-- What holds of the tables at all times. -/
structure Common (D : List UInt8) (V : List (BitVec 64)) (p : Parser) : Prop where
  lists : NsLists p
  urls : ∀ e, Held p.ns.nsBuffer2 e → 0 < low32 e
  entries : Entries D V p.ns.nsBuffer3

theorem Entry.mono {e : BitVec 64} (h : Entry D V e) (hs : ∀ w ∈ V, w ∈ V') : Entry D V' e := by
  obtain ⟨w, hw, r⟩ := h
  exact ⟨w, hs w hw, r⟩

theorem Common.to (h : Common D V p) (hs : ∀ w ∈ V, w ∈ V') (h1 : p'.at_.prefixedAttrNameSlice = p.at_.prefixedAttrNameSlice)
    (h2 : p'.at_.prefixUrlSlice = p.at_.prefixUrlSlice)
    (h3 : p'.ns.nsBuffer2.buffer = p.ns.nsBuffer2.buffer) (h4 : p'.ns.nsBuffer3.buffer = p.ns.nsBuffer3.buffer) :
    Common D V' p' := by
  refine ⟨?_, fun e he => h.urls e ?_, fun e he => (h.entries e ?_).mono hs⟩
  · unfold NsLists; rw [h1, h2]; exact h.lists
  · unfold Held at he ⊢; rw [← h3]; exact he
  · unfold Held at he ⊢; rw [← h4]; exact he

/-- The record of the current element, for its name `n`. -/
structure ElemRec (r : BitVec 64) (w0 : BitVec 64) (n : List UInt8) : Prop where
  colon : lastColon 0 0 n ≤ 511
  len : n.length ≤ 2047
  off : tokenOffset w0 < 2 ^ 31
  eq : r = nsRecord ((lastColon 0 0 n + 1 : Nat) : Int) n.length (tokenOffset w0)

/-- A start tag is being read: its record is `w0`, those of its attributes are `B`. -/
structure OpenTag (D : List UInt8) (V : List (BitVec 64)) (a : ParserAttr) (A B : List (BitVec 64)) (w0 : BitVec 64) : Prop where
  eq : V = A ++ w0 :: B
  done : Done D A
  start : IsStart w0
  none : ∀ w ∈ B, ¬ IsStart w
  count : a.prefixedAttCount = (B.filter fun w => Pfx D w).length
  slots : ∀ (j : Nat) w, (B.filter fun w => Pfx D w)[j]? = some w → a.prefixedAttrNameSlice[j]? = some (attEntry D w)
  fit : ∀ w ∈ B, Pfx D w → Fit D w
  elem : ∀ n, ElementName D w0 n → lastColon 0 0 n ≠ 0 → ElemRec a.currentElementRecord w0 n
  shape : a.currentElementRecord ≠ 0 → ∃ l2 l1 o : Nat, l2 ≤ 511 ∧ l1 ≤ 2047 ∧ o < 2 ^ 31 ∧ o + l2 ≤ D.length ∧
    a.currentElementRecord = nsRecord ((l2 + 1 : Nat) : Int) l1 o
  plain : ∀ n, n ≠ [] → ElementName D w0 n → a.currentElementRecord ≠ 0 → lastColon 0 0 n ≠ 0

theorem OpenTag.slot {a : ParserAttr} (h : OpenTag c.xmlDoc V a A B w0) {j : Nat} {e : BitVec 64}
    (hj : j < a.prefixedAttCount.toNat) (he : a.prefixedAttrNameSlice[j]? = some e) :
    ∃ w, (B.filter fun w => Pfx c.xmlDoc w)[j]? = some w ∧ e = attEntry c.xmlDoc w ∧ Fit c.xmlDoc w ∧ Pfx c.xmlDoc w := by
  rw [h.count, Int.toNat_natCast] at hj
  obtain ⟨w, hw⟩ : ∃ w, (B.filter fun w => Pfx c.xmlDoc w)[j]? = some w := ⟨_, List.getElem?_eq_getElem hj⟩
  have := h.slots j w hw
  rw [he] at this
  obtain ⟨m1, m2⟩ := List.mem_filter.mp (List.mem_of_getElem? hw)
  have m2 := of_decide_eq_true m2
  exact ⟨w, hw, Option.some.inj this, h.fit w m1 m2, m2⟩

/-- The checks have succeeded. -/
theorem OpenTag.close {a : ParserAttr} (h : OpenTag c.xmlDoc V a A B w0)
    (ha : ∀ (j : Nat) e, j < a.prefixedAttCount.toNat → a.prefixedAttrNameSlice[j]? = some e →
      Known c.xmlDoc V (high32 e).toNat (attrPreLen e).toNat)
    (he : ∀ n, ElementName c.xmlDoc w0 n → lastColon 0 0 n ≠ 0 → Known c.xmlDoc V (tokenOffset w0) (lastColon 0 0 n) ∨
      str% "xml" <+: c.xmlDoc.drop (tokenOffset w0) ∧ (lastColon 0 0 n = 3 ∨ lastColon 0 0 n = 7))
    (hu : Calm c.xmlDoc → ∀ (i k : Nat) e e', i < k → k < a.prefixedAttCount.toNat → a.prefixedAttrNameSlice[i]? = some e →
      a.prefixedAttrNameSlice[k]? = some e' → slotLocal c.xmlDoc e ≠ slotLocal c.xmlDoc e') : Done c.xmlDoc V := by
  have hV := h.eq
  rw [hV]
  refine h.done.close h.start h.none ?_ ?_ ?_
  · intro w hw hp
    obtain ⟨j, hj⟩ := List.mem_iff_getElem?.mp
      (List.mem_filter (p := fun w => decide (Pfx c.xmlDoc w)) |>.mpr ⟨hw, decide_eq_true hp⟩)
    have hjl := lt_of_some hj
    have := ha j _ (by rw [h.count, Int.toNat_natCast]; exact hjl) (h.slots j w hj)
    rw [Known, entry_prefix (h.fit w hw hp) hp.2.1, hV] at this
    exact this
  · intro n hn hc
    obtain ⟨-, b, r, hr, -⟩ := id hn
    have hlt := (colon_splits hc).2
    refine (he n hn hc).imp ?_ ?_
    · rw [Known, sub, hr, List.take_append_of_le_length (by omega), hV]
      exact id
    · rintro ⟨h1, h2⟩
      refine ⟨?_, h2⟩
      rw [hr] at h1
      exact List.prefix_of_prefix_length_le h1 (List.prefix_append n _) (by show 3 ≤ n.length; omega)
  · intro hq
    rw [List.pairwise_iff_getElem]
    intro i k hi hk hik
    have e1 := List.getElem?_eq_getElem hi
    have e2 := List.getElem?_eq_getElem hk
    obtain ⟨m1, m2⟩ := List.mem_filter.mp (List.mem_of_getElem? e1)
    obtain ⟨m3, m4⟩ := List.mem_filter.mp (List.mem_of_getElem? e2)
    have := hu hq i k _ _ hik (by rw [h.count, Int.toNat_natCast]; exact hk) (h.slots _ _ e1) (h.slots _ _ e2)
    rwa [entry_local (h.fit _ m1 (of_decide_eq_true m2)), entry_local (h.fit _ m3 (of_decide_eq_true m4))] at this

/-! ## The checks -/

theorem onNs1_val {α : Type} {m : M FastIntBuffer α} {s s' : Parser} {a : α} (h : onNs1 m s = .ok a s') :
    ∃ b', m s.ns.nsBuffer1 = .ok a b' ∧ s' = { s with ns := { s.ns with nsBuffer1 := b' } } := by
  simp only [onNs1, M.zoom_apply] at h
  cases hr : m s.ns.nsBuffer1 with
  | ok a r => rw [hr] at h; cases h; exact ⟨r, rfl, rfl⟩
  | err e r => rw [hr] at h; cases h
  | panic => rw [hr] at h; cases h
  | diverge => rw [hr] at h; cases h

theorem pushNs1_val {u : Unit} (h : pushNs1 p = .ok u p') : ∃ b', p' = { p with ns := { p.ns with nsBuffer1 := b' } } := by
  unfold pushNs1 at h
  obtain ⟨q, t, h1, h2⟩ := bind_ok h
  cases h1
  obtain ⟨b', -, e⟩ := onNs1_val h2
  exact ⟨b', e⟩

theorem elem_found {u : Unit} (hb : Base c p) (hC : Common c.xmlDoc V p) (ho : OpenTag c.xmlDoc V p.at_ A B w0)
    (h : (if p.at_.currentElementRecord ≠ 0 then qualifyElement else pure ()) p = .ok u p') :
    p' = p ∧ ∀ n, ElementName c.xmlDoc w0 n → lastColon 0 0 n ≠ 0 → Known c.xmlDoc V (tokenOffset w0) (lastColon 0 0 n) ∨
      str% "xml" <+: c.xmlDoc.drop (tokenOffset w0) ∧ (lastColon 0 0 n = 3 ∨ lastColon 0 0 n = 7) := by
  by_cases h0 : p.at_.currentElementRecord ≠ 0
  · rw [if_pos h0] at h
    obtain ⟨l2, l1, o, r1, r2, r3, r4, r5⟩ := ho.shape h0
    refine ⟨(qualifyElement_found hb hC.entries r1 r2 r3 r4 r5 h).1, fun n hn hc => ?_⟩
    obtain ⟨e1, e2, e3, e4⟩ := ho.elem n hn hc
    have hlt := (colon_splits hc).2
    obtain ⟨-, b, r, hr, -⟩ := hn
    have hlen := congrArg List.length hr
    simp only [List.length_drop, List.length_append, List.length_cons] at hlen
    exact (qualifyElement_found hb hC.entries e1 e2 e3 (by omega) e4 h).2
  · rw [if_neg h0] at h
    cases h
    refine ⟨rfl, fun n hn hc => ?_⟩
    obtain ⟨e1, e2, e3, e4⟩ := ho.elem n hn hc
    exact absurd e4 (by rw [Decidable.not_not.mp h0]; exact (nsRecord_ne (by omega) (by omega) e2 e3).symm)

theorem Common.base2 (hb : Base c p) (hq : Calm c.xmlDoc) : Two.Base p :=
  ⟨hb.enc, by rw [hb.cfg]; exact hb.doc, by rw [hb.cfg]; exact hq.1, by rw [hb.cfg]; exact hq.2⟩

/-- The checks at the end of a start tag with attributes. -/
theorem attrValQualify_found {u : Unit} (hb : Base c p) (hns : c.nsAware = true) (hC : Common c.xmlDoc V p)
    (ho : OpenTag c.xmlDoc V p.at_ A B w0) (h : attrValQualify p = .ok u p') :
    Done c.xmlDoc V ∧ Common c.xmlDoc V p' ∧ p'.out = p.out ∧ Base c p' ∧
      ∃ l, p'.at_ = { p.at_ with prefixUrlSlice := l, prefixedAttCount := 0 } := by
  have hN := attrValQualify_nf _ _ _ h
  suffices hs : Done c.xmlDoc V ∧ Common c.xmlDoc V p' ∧ ∃ l, p'.at_ = { p.at_ with prefixUrlSlice := l, prefixedAttCount := 0 } from
    ⟨hs.1, hs.2.1, hN.out, hN.base hb, hs.2.2⟩
  unfold attrValQualify at h
  obtain ⟨q, t, x1, y1⟩ := bind_ok h
  cases x1
  rw [M.ite_apply, if_pos (by rw [hb.cfg]; exact hns)] at y1
  obtain ⟨u1, s1, x2, y2⟩ := bind_ok y1
  obtain ⟨b1, rfl⟩ := pushNs1_val x2
  have hb1 : Base c { p with ns := { p.ns with nsBuffer1 := b1 } } := hb
  have hC1 : Common c.xmlDoc V { p with ns := { p.ns with nsBuffer1 := b1 } } := hC.to (fun _ h => h) rfl rfl rfl rfl
  have hslot : ∀ (i : Nat) e, i < p.at_.prefixedAttCount.toNat → p.at_.prefixedAttrNameSlice[i]? = some e → Slot c e := by
    intro i e hi he
    obtain ⟨w, -, rfl, hf, hp⟩ := ho.slot hi he
    exact entry_slot hf hp.2.1
  generalize hs1 : ({ p with ns := { p.ns with nsBuffer1 := b1 } } : Parser) = s1 at *
  have ha1 : s1.at_ = p.at_ := by rw [← hs1]
  have hr1 : p.at_.currentElementRecord = s1.at_.currentElementRecord := by rw [ha1]
  have fin : ∀ s2, (∃ l, s2.at_ = { p.at_ with prefixUrlSlice := l }) → s2.ns = s1.ns → NsLists s2 → Base c s2 →
      (∀ (j : Nat) e, j < p.at_.prefixedAttCount.toNat → p.at_.prefixedAttrNameSlice[j]? = some e →
        Known c.xmlDoc V (high32 e).toNat (attrPreLen e).toNat) →
      (Calm c.xmlDoc → ∀ (i k : Nat) e e', i < k → k < p.at_.prefixedAttCount.toNat → p.at_.prefixedAttrNameSlice[i]? = some e →
        p.at_.prefixedAttrNameSlice[k]? = some e' → slotLocal c.xmlDoc e ≠ slotLocal c.xmlDoc e') →
      (if p.at_.currentElementRecord ≠ 0 then do
        qualifyElement
        M.modify fun p => { p with at_ := { p.at_ with prefixedAttCount := 0 } }
      else M.modify fun p => { p with at_ := { p.at_ with prefixedAttCount := 0 } } : M Parser Unit) s2 = .ok u p' →
      Done c.xmlDoc V ∧ Common c.xmlDoc V p' ∧ ∃ l, p'.at_ = { p.at_ with prefixUrlSlice := l, prefixedAttCount := 0 } := by
    rintro s2 ⟨l, hl⟩ hns2 hls hb2 hk hu hm
    have hC2 : Common c.xmlDoc V s2 := ⟨hls, by rw [hns2]; exact hC1.urls, by rw [hns2]; exact hC1.entries⟩
    have hr2 : s2.at_.currentElementRecord = p.at_.currentElementRecord := by rw [hl]
    have ho2 : OpenTag c.xmlDoc V s2.at_ A B w0 := by
      rw [hl]
      exact ⟨ho.eq, ho.done, ho.start, ho.none, ho.count, ho.slots, ho.fit, ho.elem, ho.shape, ho.plain⟩
    obtain ⟨u2, s3, x3, y3⟩ := bind_ok (m := (if s2.at_.currentElementRecord ≠ 0 then qualifyElement else pure ()))
      (k := fun _ => M.modify fun p => { p with at_ := { p.at_ with prefixedAttCount := 0 } }) (b := u) (s := s2) (s' := p') (by
        rw [← hm, hr2, M.bind_apply, M.ite_apply, M.ite_apply]
        split <;> rfl)
    obtain ⟨rfl, he⟩ := elem_found hb2 hC2 ho2 x3
    cases y3
    exact ⟨ho.close hk he hu, hC2.to (fun _ h => h) rfl rfl rfl rfl, l, by dsimp only; rw [hl]⟩
  rw [M.ite_apply] at y2
  by_cases hcnt : p.at_.prefixedAttCount > 0
  · rw [if_pos hcnt] at y2
    obtain ⟨u2, s2, x3, y3⟩ := bind_ok (m := qualifyAttributes) y2
    have hls := (qualifyAttributes_fr.ok x3).2 hC1.lists
    unfold qualifyAttributes at x3
    obtain ⟨q, t, x4, x5⟩ := bind_ok x3
    cases x4
    obtain ⟨⟨l, hs2⟩, hk⟩ := qualifyAttrsLoop_found hb1 hC1.entries (Int.le_refl 0) (fun i e hi he => by
      rw [ha1] at hi he
      have := hslot i e (by omega) he
      obtain ⟨z1, z2, z3, z4⟩ := this
      exact ⟨z1, z2, by omega⟩) x5
    obtain ⟨u3, s3, x6, y4⟩ := bind_ok (m := checkQualifiedAttributeUniqueness) y3
    have hb2 : Base c s2 := by rw [hs2]; exact hb1
    have hQ := checkQual_qk _ _ _ x6 hb2.out hb2.enc hb2.ws
    have hb3 : Base c s3 := (checkQual_nf _ _ _ x6).base hb2
    refine fin s3 ⟨l, ?_⟩ ?_ ?_ hb3 ?_ ?_ y4
    · rw [hQ.at_, hs2]; simp only [ha1]
    · rw [hQ.ns, hs2]
    · unfold NsLists; rw [hQ.at_]; exact hls
    · intro j e hj he
      rw [ha1] at hk
      exact hk j e (by simp) (by simpa using hj) he
    · intro hq i k e e' hik hkc he he'
      unfold checkQualifiedAttributeUniqueness at x6
      obtain ⟨q, t, x7, x8⟩ := bind_ok x6
      cases x7
      have ha2 : s2.at_.prefixedAttrNameSlice = p.at_.prefixedAttrNameSlice := by rw [hs2]; simp only [ha1]
      have hc2 : s2.at_.prefixedAttCount = p.at_.prefixedAttCount := by rw [hs2]; simp only [ha1]
      refine uniqueQualOuter_found (Common.base2 hb2 hq) hb2 hls ?_ (Int.le_refl 0) ?_ x8 i k e e' (by simp) hik (by rw [hc2]; simpa using hkc)
        (by rw [ha2]; exact he) (by rw [ha2]; exact he')
      · rw [hs2]; exact hC1.urls
      · intro i e hi he
        rw [ha2] at he
        exact hslot i e (by rw [hc2] at hi; simpa using hi) he
  · rw [if_neg hcnt] at y2
    have h0 : p.at_.prefixedAttCount.toNat = 0 := by omega
    refine fin s1 ⟨p.at_.prefixUrlSlice, by rw [ha1]⟩ rfl hC1.lists hb1 ?_ ?_ y2
    · intro j e hj; omega
    · intro _ i k e e' _ hk; omega

end Sound
end Parser
end GoVtd
