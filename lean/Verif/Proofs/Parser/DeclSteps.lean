import Verif.Proofs.Parser.Attrs

/-!
# The step over the XML declaration
-/

namespace GoVtd
namespace Parser
open Paged
variable {c : ParserCfg} {p : Parser}

/-- Read on, wrote records, moved the mark. -/
def DMoved (c : ParserCfg) (p p' : Parser) : Prop :=
  ∃ o l r ch, p' = ({ p with out := o, lastOffset := l } : Parser).mv r r ch ∧ Base c p' ∧ p.rd.offset ≤ r

abbrev OkD (c : ParserCfg) (p : Parser) {α : Type} (r : Res Parser α) : Prop :=
  r.Sat (fun _ p' => DMoved c p p') (Er c) (Pn c) False

theorem OkD.pure {α : Type} (hb : Base c p) (h : p.offset = p.rd.offset) (a : α) :
    OkD c p ((Pure.pure a : M Parser α) p) :=
  ⟨p.out, p.lastOffset, p.rd.offset, p.currentChar, by
    show p = p.mv p.rd.offset p.rd.offset p.currentChar
    conv => lhs; rw [← mv_self p, h], hb, Int.le_refl _⟩

theorem OkD.of_ok {α : Type} {r : Res Parser α} (h : Ok c p r) : OkD c p r :=
  h.mono (fun _ _ ⟨r, ch, h1, h2, h3⟩ => ⟨p.out, p.lastOffset, r, ch, h1, h2, h3⟩) (fun _ _ h => h) id id

theorem OkD.of_ok1 {α : Type} {r : Res Parser α} (h : Ok1 c p r) : OkD c p r := OkD.of_ok (Ok.of_ok1 h)

theorem OkD.of_okW {α : Type} {r : Res Parser α} (h : OkW c p r) (ho : p.offset = p.rd.offset) :
    OkD c p r :=
  h.mono (fun _ p' ⟨o, h1, h2⟩ => ⟨o, p.lastOffset, p.rd.offset, p.currentChar, by
    rw [h1]
    show ({ p with out := o } : Parser) = ({ p with out := o } : Parser).mv p.rd.offset p.rd.offset p.currentChar
    conv => lhs; rw [← mv_self { p with out := o }]
    simp only [ho], h2, Int.le_refl _⟩) (fun _ _ h => h) id id

theorem OkD.bind {α β : Type} {m : M Parser α} {k : α → M Parser β} (h : OkD c p (m p))
    (hk : ∀ a p', Base c p' → p'.offset = p'.rd.offset → OkD c p' (k a p')) : OkD c p ((m >>= k) p) := by
  refine Res.Sat.bind h fun a p' hm => ?_
  obtain ⟨o, l, r, ch, rfl, hb, h1⟩ := hm
  refine (hk a _ hb rfl).mono (fun _ _ h' => ?_) (fun _ _ h => h) id id
  obtain ⟨o', l', r', ch', rfl, hb', h1'⟩ := h'
  exact ⟨o', l', r', ch', rfl, hb', Int.le_trans h1 h1'⟩

theorem OkD.ite {α : Type} {q : Prop} [Decidable q] {a b : M Parser α} (ha : q → OkD c p (a p))
    (hb : ¬ q → OkD c p (b p)) : OkD c p ((if q then a else b) p) := ite_sat ha hb

theorem OkD.get {β : Type} {k : Parser → M Parser β} (h : OkD c p (k p p)) : OkD c p ((M.get >>= k) p) := h

theorem OkD.setLast (hb : Base c p) (h : p.offset = p.rd.offset) (f : Parser → Int) :
    OkD c p (M.modify (fun p => { p with lastOffset := f p }) p) :=
  ⟨p.out, f p, p.rd.offset, p.currentChar, by
    show ({ p with lastOffset := f p } : Parser) =
      ({ p with lastOffset := f p } : Parser).mv p.rd.offset p.rd.offset p.currentChar
    conv => lhs; rw [← mv_self { p with lastOffset := f p }]
    simp only [h], hb, Int.le_refl _⟩

theorem OkD.mark (hb : Base c p) (h : p.offset = p.rd.offset) : OkD c p (markOffset p) :=
  OkD.setLast hb h (fun p => p.offset)

theorem OkD.parseErr {α : Type} (hb : Base c p) (msg : String) :
    OkD c p (parseErr msg p : Res Parser α) := parseErr_sat hb msg

theorem skipSeqOrUpper_ok (seq : List Nat) (h : ∀ x ∈ seq, x ≠ 0) (hb : Base c p) :
    OkD c p (skipSeqOrUpper seq p) := by
  refine OkD.of_ok (or_ok (skipCharSeq_ok _ h hb) fun _ hb' _ => skipCharSeq_ok _ ?_ hb')
  intro x hx
  obtain ⟨y, hy, rfl⟩ := List.mem_map.mp hx
  have := h y hy
  simp only [toUpperChar]; split <;> omega

theorem encodingFixed_eq (hb : Base c p) : encodingFixed p = true := by
  simp only [encodingFixed, hb.enc]
  decide

theorem checkAsciiEncoding_ok (hb : Base c p) : OkD c p (checkAsciiEncoding p) := by
  refine OkD.bind (skipSeqOrUpper_ok _ (by decide) hb) fun b p hb ho => ?_
  refine OkD.ite (fun _ => OkD.get ?_) fun _ => OkD.parseErr hb _
  rw [encodingFixed_eq hb, if_pos rfl]
  exact OkD.parseErr hb _

theorem checkUsAsciiEncoding_ok (hb : Base c p) : OkD c p (checkUsAsciiEncoding p) := by
  refine OkD.bind (skipSeqOrUpper_ok _ (by decide) hb) fun b p hb ho => ?_
  refine OkD.ite (fun _ => OkD.get ?_) fun _ => OkD.parseErr hb _
  rw [encodingFixed_eq hb, if_pos rfl]
  exact OkD.parseErr hb _

theorem checkIsoEncoding_ok (hb : Base c p) : OkD c p (checkIsoEncoding p) := by
  refine OkD.bind (skipSeqOrUpper_ok _ (by decide) hb) fun b p hb ho => ?_
  refine OkD.ite (fun _ => OkD.get ?_) fun _ => OkD.parseErr hb _
  rw [encodingFixed_eq hb, if_pos rfl]
  exact OkD.parseErr hb _

theorem checkCpEncoding_ok (hb : Base c p) : OkD c p (checkCpEncoding p) := by
  refine OkD.bind (skipSeqOrUpper_ok _ (by decide) hb) fun b p hb ho => ?_
  refine OkD.ite (fun _ => OkD.get (OkD.ite (fun _ => OkD.parseErr hb _) fun _ => ?_)) fun _ =>
    OkD.parseErr hb _
  exact OkD.of_okW (writeVtd_ok hb _ _ _ _) ho

theorem checkWindowsEncoding_ok (hb : Base c p) : OkD c p (checkWindowsEncoding p) := by
  refine OkD.bind (skipSeqOrUpper_ok _ (by decide) hb) fun b p hb ho => ?_
  refine OkD.ite (fun _ => OkD.get (OkD.ite (fun _ => OkD.parseErr hb _) fun _ => ?_)) fun _ =>
    OkD.parseErr hb _
  exact OkD.of_okW (writeVtd_ok hb _ _ _ _) ho

theorem checkUtfEncoding_ok (hb : Base c p) (ho : p.offset = p.rd.offset) :
    OkD c p (checkUtfEncoding p) := by
  refine OkD.bind (OkD.of_ok (skipCharSeqIgnoreCase_ok _ (by decide) hb ho)) fun b p hb _ => ?_
  refine OkD.ite (fun _ => ?_) fun _ => OkD.parseErr hb _
  refine OkD.bind (OkD.of_ok (skipChar_ok hb (by decide))) fun b p hb ho => OkD.ite (fun _ => OkD.get ?_) fun _ => ?_
  · exact OkD.ite (fun _ => OkD.of_okW (writeVtd_ok hb _ _ _ _) ho) fun _ => OkD.parseErr hb _
  refine OkD.bind (OkD.of_ok (skipCharSeqIgnoreCase_ok _ (by decide) hb ho)) fun b p hb ho => ?_
  refine OkD.ite (fun _ => ?_) fun _ => OkD.parseErr hb _
  refine OkD.bind (OkD.of_ok (skipCharSeqIgnoreCase_ok _ (by decide) hb ho)) fun b p hb ho => ?_
  refine OkD.ite (fun _ => OkD.get ?_) fun _ => ?_
  · exact OkD.ite (fun _ => OkD.of_okW (writeVtd_ok hb _ _ _ _) ho) fun _ => OkD.parseErr hb _
  refine OkD.bind (OkD.of_ok (skipCharSeqIgnoreCase_ok _ (by decide) hb ho)) fun b p hb ho => OkD.get ?_
  refine OkD.ite (fun _ => OkD.ite (fun _ => OkD.of_okW (writeVtd_ok hb _ _ _ _) ho) fun _ =>
    OkD.parseErr hb _) fun _ => OkD.ite (fun _ => OkD.ite (fun _ => OkD.parseErr hb _) fun _ =>
    OkD.of_okW (writeVtd_ok hb _ _ _ _) ho) fun _ => OkD.parseErr hb _

theorem checkEncodingName_ok (hb : Base c p) (ho : p.offset = p.rd.offset) :
    OkD c p (checkEncodingName p) := by
  refine OkD.get (OkD.ite (fun _ => checkAsciiEncoding_ok hb) fun _ => OkD.ite (fun _ => checkCpEncoding_ok hb)
    fun _ => OkD.ite (fun _ => checkIsoEncoding_ok hb) fun _ => OkD.ite (fun _ => ?_) fun _ =>
    OkD.ite (fun _ => checkWindowsEncoding_ok hb) fun _ => OkD.parseErr hb _)
  refine OkD.bind (OkD.of_ok (skipChar_ok hb (by decide))) fun b p hb ho => ?_
  exact OkD.ite (fun _ => checkUsAsciiEncoding_ok hb) fun _ => checkUtfEncoding_ok hb ho

theorem expectQuote_ok (hb : Base c p) (ho : p.offset = p.rd.offset) : OkD c p (expectQuote p) :=
  OkD.get (OkD.ite (fun _ => OkD.parseErr hb _) fun _ => OkD.pure hb ho _)

theorem expectEq_ok (hb : Base c p) : OkD c p (expectEq p) :=
  OkD.bind (OkD.of_ok1 (nextCharAfterWs_ok hb)) fun _ _ hb ho =>
    OkD.get (OkD.ite (fun _ => OkD.parseErr hb _) fun _ => OkD.pure hb ho _)

theorem processDecEncodingAttr_ok (hb : Base c p) : OkD c p (processDecEncodingAttr p) := by
  refine OkD.bind (expectEq_ok hb) fun _ p hb ho => ?_
  refine OkD.bind (OkD.of_okW (writeAt_ok hb _ _) ho) fun _ p hb ho => ?_
  refine OkD.bind (OkD.of_ok1 (nextCharAfterWs_ok hb)) fun _ p hb ho => ?_
  refine OkD.bind (expectQuote_ok hb ho) fun _ p hb ho => ?_
  refine OkD.bind (OkD.mark hb ho) fun _ p hb ho => ?_
  refine OkD.bind (OkD.of_ok1 (nextChar_ok hb)) fun _ p hb ho => ?_
  refine OkD.bind (checkEncodingName_ok hb ho) fun _ p hb ho => ?_
  refine OkD.bind (OkD.of_ok1 (nextChar_ok hb)) fun _ p hb ho => ?_
  refine OkD.bind (expectQuote_ok hb ho) fun _ p hb ho => ?_
  refine OkD.bind (OkD.of_ok1 (nextCharAfterWs_ok hb)) fun _ p hb ho => ?_
  exact OkD.setLast hb ho (fun p => p.offset - p.enc.increment)

theorem processDecStandaloneAttr_ok (hb : Base c p) : OkD c p (processDecStandaloneAttr p) := by
  refine OkD.bind (expectEq_ok hb) fun _ p hb ho => ?_
  refine OkD.bind (OkD.of_okW (writeAt_ok hb _ _) ho) fun _ p hb ho => ?_
  refine OkD.bind (OkD.of_ok1 (nextCharAfterWs_ok hb)) fun _ p hb ho => ?_
  refine OkD.bind (OkD.mark hb ho) fun _ p hb ho => ?_
  refine OkD.bind (expectQuote_ok hb ho) fun _ p hb ho => ?_
  have tail : ∀ p, Base c p → p.offset = p.rd.offset → OkD c p ((do
      nextChar; expectQuote; nextCharAfterWs : M Parser Unit) p) := by
    intro p hb ho
    refine OkD.bind (OkD.of_ok1 (nextChar_ok hb)) fun _ p hb ho => ?_
    refine OkD.bind (expectQuote_ok hb ho) fun _ p hb ho => ?_
    exact OkD.of_ok1 (nextCharAfterWs_ok hb)
  refine OkD.bind (OkD.of_ok (skipCharSeq_ok _ (by decide) hb)) fun b p hb ho => ?_
  refine OkD.ite (fun _ => ?_) fun _ => ?_
  · exact OkD.bind (OkD.of_okW (writeAt_ok hb _ _) ho) fun _ p hb ho => tail p hb ho
  refine OkD.bind (OkD.of_ok (skipCharSeq_ok _ (by decide) hb)) fun b p hb ho => ?_
  refine OkD.ite (fun _ => ?_) fun _ => ?_
  · exact OkD.bind (OkD.of_okW (writeAt_ok hb _ _) ho) fun _ p hb ho => tail p hb ho
  · exact OkD.bind (OkD.parseErr hb _) fun _ p hb ho => tail p hb ho

theorem OkD.bindK {α β : Type} {m : M Parser α} {k : α → M Parser β} (h : OkD c p (m p))
    (hm : M.Keeps (·.currentChar) m)
    (hk : ∀ a p', Base c p' → p'.offset = p'.rd.offset → p'.currentChar = p.currentChar →
      OkD c p' (k a p')) : OkD c p ((m >>= k) p) := by
  have hm' := hm p
  simp only [M.bind_apply]
  cases hr : m p with
  | ok a p' =>
    rw [hr] at h hm'
    obtain ⟨o, l, r, ch, rfl, hb, h1⟩ := h
    refine (hk a _ hb rfl hm').mono (fun _ _ h' => ?_) (fun _ _ h => h) id id
    obtain ⟨o', l', r', ch', rfl, hb', h1'⟩ := h'
    exact ⟨o', l', r', ch', rfl, hb', Int.le_trans h1 h1'⟩
  | err e p' => rw [hr] at h; exact h
  | panic => rw [hr] at h; exact h
  | diverge => rw [hr] at h; exact h

theorem skipChar_keeps (ch : Nat) : M.Keeps (·.currentChar) (skipChar ch) := by
  unfold skipChar onRd; keeps
theorem skipCharSeq_keeps (s : List Nat) : M.Keeps (·.currentChar) (skipCharSeq s) := by
  unfold skipCharSeq onRd; keeps
theorem writeVtd_keeps (t : Token) (a b d : Int) : M.Keeps (·.currentChar) (writeVtd t a b d) := by
  unfold writeVtd onVtd; keeps

theorem decVersion_ok (hb : Base c p) (ho : p.offset = p.rd.offset) : OkD c p (decVersion p) := by
  refine OkD.get (OkD.bind (OkD.of_ok (and_ok (pure_ok_bool hb ho _) fun _ h1 _ =>
    skipCharSeq_ok _ (by decide) h1)) fun b p hb ho => ?_)
  refine OkD.ite (fun _ => ?_) fun _ => OkD.parseErr hb _
  refine OkD.bind (expectEq_ok hb) fun _ p hb ho => OkD.get ?_
  have rest2 : ∀ p, Base c p → p.offset = p.rd.offset → p.currentChar ≠ 0 → OkD c p ((do
      let p ← M.get
      let q ← skipChar p.currentChar
      if q then nextChar else Parser.parseErr "version not terminated properly" : M Parser Unit) p) := by
    intro p hb ho hc
    refine OkD.get (OkD.bind (OkD.of_ok (skipChar_ok hb hc)) fun b p hb ho => ?_)
    exact OkD.ite (fun _ => OkD.of_ok1 (nextChar_ok hb)) fun _ => OkD.parseErr hb _
  have rest : ∀ p, Base c p → p.offset = p.rd.offset → OkD c p ((do
      nextCharAfterWs
      expectQuote
      markOffset
      let one ← (skipCharSeq (str% "1.") &&! (skipChar (ch% '0') ||! skipChar (ch% '1')))
      if one then writeAt .decAttrVal 3
      else Parser.parseErr "invalid version detected (supported 1.0 or 1.1)"
      let p ← M.get
      let q ← skipChar p.currentChar
      if q then nextChar else Parser.parseErr "version not terminated properly" : M Parser Unit) p) := by
    intro p hb ho
    refine OkD.bind (OkD.of_ok1 (nextCharAfterWs_ok hb)) fun _ p hb ho => ?_
    simp only [expectQuote, M.bind_apply, M.get_apply, Res.andThen_ok, M.ite_apply]
    by_cases hq : p.currentChar ≠ ch% '\'' ∧ p.currentChar ≠ ch% '"'
    · rw [if_pos hq]
      exact Res.Sat.andThen (parseErr_sat hb _)
    · rw [if_neg hq]
      have hc : p.currentChar ≠ 0 := by omega
      refine OkD.bindK (OkD.mark hb ho) (by unfold markOffset; keeps) fun _ p hb ho hc1 => ?_
      refine OkD.bindK (OkD.of_ok (and_ok (skipCharSeq_ok _ (by decide) hb) fun _ h1 _ =>
        or_ok (skipChar_ok h1 (by decide)) fun _ h1 _ => skipChar_ok h1 (by decide)))
        (by keeps [skipChar_keeps _, skipCharSeq_keeps _]) fun b p hb ho hc2 => ?_
      refine OkD.ite (fun _ => ?_) fun _ => Res.Sat.andThen (parseErr_sat hb _)
      · exact OkD.bindK (OkD.of_okW (writeAt_ok hb _ _) ho)
          (by unfold writeAt; keeps [writeVtd_keeps _ _ _ _]) fun _ p hb ho hc3 =>
            rest2 p hb ho (by rw [hc3, hc2, hc1]; exact hc)
  refine OkD.ite (fun _ => ?_) (fun _ => ?_)
  all_goals exact OkD.bind (OkD.of_okW (writeVtd_ok hb _ _ _ _) ho) fun _ p hb ho => rest p hb ho

theorem decOptional_ok (hb : Base c p) (ho : p.offset = p.rd.offset) : OkD c p (decOptional p) := by
  refine OkD.get (OkD.ite (fun _ => ?_) fun _ => OkD.pure hb ho _)
  refine OkD.bind (OkD.of_ok1 (nextCharAfterWs_ok hb)) fun _ p hb ho => ?_
  refine OkD.bind (OkD.setLast hb ho (fun p => p.offset - p.enc.increment)) fun _ p hb ho => OkD.get ?_
  have tail : ∀ p, Base c p → p.offset = p.rd.offset → OkD c p ((do
      let p ← M.get
      if p.currentChar = ch% 's' then do
        let s ← skipCharSeq (str% "tandalone")
        if s then processDecStandaloneAttr else Parser.parseErr "declaration should be standalone"
      else pure () : M Parser Unit) p) := by
    intro p hb ho
    refine OkD.get (OkD.ite (fun _ => ?_) fun _ => OkD.pure hb ho _)
    refine OkD.bind (OkD.of_ok (skipCharSeq_ok _ (by decide) hb)) fun b p hb ho => ?_
    exact OkD.ite (fun _ => processDecStandaloneAttr_ok hb) fun _ => OkD.parseErr hb _
  refine OkD.ite (fun _ => ?_) fun _ => tail p hb ho
  refine OkD.bind (OkD.of_ok (skipCharSeq_ok _ (by decide) hb)) fun b p hb ho => ?_
  refine OkD.ite (fun _ => ?_) fun _ => Res.Sat.andThen (parseErr_sat hb _)
  exact OkD.bind (processDecEncodingAttr_ok hb) fun _ p hb ho => tail p hb ho

theorem processDecAttrName_ok (h : Inv c .decAttrName p) :
    StepOk c p.rd.offset (processDecAttrName p) := by
  have hd := h.deep (by decide)
  have hs := h.slots
  refine Res.Sat.bind (decVersion_ok h.base (h.sync (by simp))) fun _ p1 ⟨o1, l1, r1, ch1, e1, hb1, hl1⟩ => ?_
  subst e1
  refine Res.Sat.bind (decOptional_ok hb1 rfl) fun _ p1 ⟨o2, l2, r2, ch2, e2, hb2, hl2⟩ => ?_
  subst e2
  simp only [mv_rdOffset] at hl2
  refine bind_get (Res.Sat.bindMoved (lo := r2) (and_ok (pure_ok_bool hb2 rfl _) fun _ h1 _ =>
    skipChar_ok h1 (by decide)) fun b r3 ch3 hb3 hl3 => ?_)
  refine ite_sat (fun _ => markOffset_bind ?_) fun _ => parseErr_sat hb3 _
  refine Res.Sat.bindMoved (nextCharAfterWs_ok (by exact hb3)) fun _ r4 ch4 hb4 hl4 => ?_
  simp only [mv_rdOffset] at hl4
  refine bind_get (ite_sat (fun _ => ?_) fun _ => parseErr_sat hb4 _)
  exact ⟨Inv.plain hb4 (by exact hs) (by exact hd) (by decide), by simp at hl4 ⊢; omega⟩

end Parser
end GoVtd
