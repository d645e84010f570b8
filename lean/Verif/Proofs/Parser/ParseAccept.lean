import Verif.Proofs.Parser.DocStart

/-!
# `Parse` accepts exactly the grammar
-/

namespace GoVtd
namespace Parser

open Grammar

section
variable {c : ParserCfg} {p : Parser} {o : ParserOut} {r : List UInt8}

theorem mainLoop_more {n : Nat} {sta : PState} (h : mainLoop n sta p ≠ .diverge) :
    mainLoop (n + 1) sta p = mainLoop n sta p := by
  induction n generalizing sta p with
  | zero => exact absurd rfl h
  | succ n ih =>
    rw [mainLoop] at h ⊢
    simp only [M.bind_apply] at h ⊢
    conv => rhs; rw [mainLoop]
    simp only [M.bind_apply]
    cases hr : M.catchErr (do let st' ← step sta; pure (some st')) (onStepErr sta) p with
    | ok a q =>
      rw [hr] at h
      simp only [Res.andThen_ok] at h ⊢
      cases a with
      | none => rfl
      | some st' => exact ih h
    | err e q => rfl
    | panic => rfl
    | diverge => rfl

theorem mainLoop_mono {n m : Nat} {sta : PState} (h : mainLoop n sta p ≠ .diverge) (hm : n ≤ m) :
    mainLoop m sta p = mainLoop n sta p := by
  induction hm with
  | refl => rfl
  | @step m _ ih => rw [mainLoop_more (by rw [ih]; exact h), ih]

theorem acc_fuel {n : Nat} {sta : PState} (h : mainLoop n sta p ≠ .diverge) :
    Acc sta p o ↔ ∃ pf, mainLoop n sta p = .ok () pf ∧ pf.out = o := by
  constructor
  · rintro ⟨m, pf, h1, h2⟩
    refine ⟨pf, ?_, h2⟩
    rcases Nat.le_total n m with hm | hm
    · rw [← mainLoop_mono h hm]; exact h1
    · rw [mainLoop_mono (by rw [h1]; simp) hm]; exact h1
  · rintro ⟨pf, h1, h2⟩
    exact ⟨n, pf, h1, h2⟩

theorem g_lt_head {n : Nat} {s recs nt} (h : G n nt s recs) (hn : nt = .lt [] []) :
    ∃ b t, s = b :: t ∧ b ≠ 0 := by
  cases h with
  | start h =>
    refine ⟨_, _, rfl, ?_⟩
    rintro rfl
    exact absurd ((isNameStartChar_iff _).2 h) (by decide)
  | endTag => exact ⟨_, _, rfl, by decide⟩
  | comment => exact ⟨_, _, rfl, by decide⟩
  | cdata => exact ⟨_, _, rfl, by decide⟩
  | doctype => exact ⟨_, _, rfl, by decide⟩
  | pi => exact ⟨_, _, rfl, by decide⟩
  | _ => exact absurd hn (by simp)

theorem doc_head {n : Nat} {s recs} (h : Doc n s recs) :
    ∃ b t, s = b :: t ∧ b ≠ 0 ∧ (b = 0x3c → ∃ b' t', t = b' :: t' ∧ b' ≠ 0) := by
  cases h with
  | decl => exact ⟨_, _, rfl, by decide, fun _ => ⟨_, _, rfl, by decide⟩⟩
  | plain h1 h2 =>
    refine ⟨_, _, rfl, by decide, fun _ => ?_⟩
    cases h1 with
    | none => exact g_lt_head h2 rfl
    | q => exact ⟨_, _, rfl, by decide⟩
    | x => exact ⟨_, _, rfl, by decide⟩
    | m => exact ⟨_, _, rfl, by decide⟩
    | l => exact ⟨_, _, rfl, by decide⟩
  | @space w r _ hw hw' h =>
    cases w with
    | nil => exact absurd rfl hw
    | cons b w =>
      have hb : Ws b := hw' b (by simp)
      refine ⟨b, _, rfl, ?_, ?_⟩
      · rintro rfl; revert hb; simp [Spec.S]
      · rintro rfl; revert hb; simp [Spec.S]

theorem docByte_idx {b : UInt8} (hp : p.cfg = c) {i : Int} (h0 : 0 ≤ i) (h : c.xmlDoc[i.toNat]? = some b) :
    docByte i p = .ok b p := by
  obtain ⟨h1, _⟩ := List.getElem?_eq_some_iff.mp h
  obtain ⟨b', h2, h3⟩ := docByte_eq hp h0 (by omega)
  rw [h3]; rw [h] at h2; rw [Option.some.inj h2]

theorem decideEncoding_plain (h : Fresh p) (hns : p.cfg.nsAware = false) (hw : p.cfg.endOffset = p.cfg.xmlDoc.length)
    (h2 : p.cfg.xmlDoc.length < 2 ^ 31) {b : UInt8} {t : List UInt8}
    (hd : p.cfg.xmlDoc.drop p.cfg.docOffset.toNat = b :: t) (hb : b ≠ 0)
    (hb' : b = 0x3c → ∃ b' t', t = b' :: t' ∧ b' ≠ 0) : decideEncoding p = .ok () p := by
  obtain ⟨f1, f2, f3, f4, f5, f6, f7, f8, f9⟩ := h.fields
  have h0 := h.start
  have hi : ∀ k, p.cfg.xmlDoc[p.cfg.docOffset.toNat + k]? = (b :: t)[k]? := by
    intro k; rw [← hd, List.getElem?_drop]
  have e0 : docByte p.offset p = .ok b p := by
    rw [f3]; exact docByte_idx rfl h0 (hi 0)
  have hdet : detectEncoding p = .ok () p := by
    simp only [detectEncoding, M.bind_apply, M.get_apply, Res.andThen_ok, e0, byteIs32_neg b (v := -2) (by decide),
      byteIs32_neg b (v := -1) (by decide), byteIs32_neg b (v := -17) (by decide), Bool.false_eq_true, if_false]
    have : byteIs32 b 0 = false := by
      rw [Bool.eq_false_iff]; exact mt (byteIs32_iff b 0).1 hb
    simp only [this, Bool.false_eq_true, if_false]
    by_cases hlt : b = 0x3c
    · obtain ⟨b', t', rfl, hn⟩ := hb' hlt
      rw [if_pos (show byteIs32 b 0x3c = true from (byteIs32_iff b 0x3c).2 hlt)]
      have e1 : docByte (p.offset + 1) p = .ok b' p := by
        rw [f3]; refine docByte_idx rfl (by omega) ?_
        have := hi 1
        rw [show (p.cfg.docOffset + 1).toNat = p.cfg.docOffset.toNat + 1 by omega]; exact this
      have : byteIs32 b' 0 = false := by
        rw [Bool.eq_false_iff]; exact mt (byteIs32_iff b' 0).1 hn
      have e2 : docIs32 (p.offset + 1) 0 p = .ok false p := by
        simp only [docIs32, M.bind_apply, e1, Res.andThen_ok, M.pure_apply, this]
      have e3 : ∀ m, (docIs32 (p.offset + 1) 0 &&! m) p = .ok false p := by
        intro m
        simp only [M.and, M.bind, e2, Res.andThen_ok, Bool.false_eq_true, if_false]
        rfl
      simp only [M.bind_apply, e3, Res.andThen_ok, Bool.false_eq_true, if_false, M.pure_apply]
    · rw [if_neg (show ¬ byteIs32 b 0x3c = true from mt (byteIs32_iff b 0x3c).1 hlt)]
      rfl
  simp only [decideEncoding, M.bind_apply, hdet, Res.andThen_ok, M.get_apply, M.ite_apply, M.pure_apply]
  have he : ¬ (p.enc.encoding ≥ FormatUtf16BE) := by rw [f1]; decide
  rw [if_neg, if_neg he]
  rw [f3, ← h.sum, hns]
  simp only [Bool.false_eq_true, and_false, if_false]
  omega

theorem fresh_rd (h : Fresh p) (hw : p.cfg.endOffset = p.cfg.xmlDoc.length) (h2 : p.cfg.xmlDoc.length < 2 ^ 31)
    (hwin : p.cfg.docOffset ≤ p.cfg.endOffset) (ho : OutOk o) :
    Rd p.cfg { p with out := o } (p.cfg.xmlDoc.drop p.cfg.docOffset.toNat) := by
  have hb := (h.base hwin (by omega)).ofOut ho
  obtain ⟨f1, f2, _⟩ := h.fields
  have := h.start
  refine ⟨hb, hw, List.drop_suffix _ _, ?_⟩
  show p.rd.offset = _
  rw [f2]
  simp only [pos, Grammar.offset, List.length_drop]
  omega

theorem fresh_ctx (h : Fresh p) (hc : p.cfg = c) : Ctx c { p with out := o } [] [] := by
  obtain ⟨fuel, a, hp⟩ := h.init
  subst hc
  rw [hp]
  exact {
    depth := rfl
    tags := trivial
    tagLen := List.length_replicate ..
    small := by decide
    count := rfl
    atts := trivial
    attLen := List.length_replicate ..
    noNs := rfl
    len2 := rfl }

theorem parse_accept (h : Fresh p) (hns : p.cfg.nsAware = false) (hw : p.cfg.endOffset = p.cfg.xmlDoc.length) :
    (∃ pf, parse p = .ok () pf ∧ pf.out = o) ↔
      p.cfg.xmlDoc.length < 2 ^ 31 ∧
      ∃ recs, Doc p.cfg.xmlDoc.length (p.cfg.xmlDoc.drop p.cfg.docOffset.toNat) recs ∧
        o = finish p.cfg.shallowDepth (Parser.emit p.cfg.shallowDepth p.out (⟨.document, 0, 0, -1⟩ :: recs)) := by
  obtain ⟨f1, f2, f3, f4, f5, f6, f7, f8, f9⟩ := h.fields
  have hm : ∀ o', OutOk o' → p.cfg.docOffset ≤ p.cfg.endOffset → p.cfg.xmlDoc.length < 2 ^ 31 →
      ((∃ pf, mainLoop (loopFuel { p with out := o' }) .docStart { p with out := o' } = .ok () pf ∧ pf.out = o) ↔
        DocGoal p.cfg (p.cfg.xmlDoc.drop p.cfg.docOffset.toNat) o' o) := by
    intro o' ho hwin h2
    have hi : Inv p.cfg .docStart { p with out := o' } := by
      have := h.inv hwin (by omega)
      exact { this with base := this.base.ofOut ho }
    have hs := mainLoop_ok (loopFuel { p with out := o' }) hi hns (by
      have := hi.base.off0; have := hi.base.off1
      simp only [loopFuel] at *; omega)
    refine Iff.trans ?_ (acc_docStart hns (fresh_rd h hw h2 hwin ho) (fresh_ctx h rfl))
    refine (acc_fuel ?_).symm
    intro hd
    rw [hd] at hs
    exact hs
  have hwr : writeVtd .document 0 0 p.depth p = .ok () { p with out := Parser.emit p.cfg.shallowDepth p.out [⟨.document, 0, 0, -1⟩] } := by
    have := writeVtd_emit f9 p.cfg.shallowDepth .document 0 0 p.depth (by decide)
    rw [this, ← f4]
  have hout : OutOk (Parser.emit p.cfg.shallowDepth p.out [⟨.document, 0, 0, -1⟩]) :=
    emit_ok f9 _ _
  have hgoal : DocGoal p.cfg (p.cfg.xmlDoc.drop p.cfg.docOffset.toNat)
        (Parser.emit p.cfg.shallowDepth p.out [⟨.document, 0, 0, -1⟩]) o ↔
      ∃ recs, Doc p.cfg.xmlDoc.length (p.cfg.xmlDoc.drop p.cfg.docOffset.toNat) recs ∧
        o = finish p.cfg.shallowDepth (Parser.emit p.cfg.shallowDepth p.out (⟨.document, 0, 0, -1⟩ :: recs)) := by
    simp only [DocGoal, emit_cons, emit_nil]
  rw [← hgoal]
  constructor
  · rintro ⟨pf, hp, hpo⟩
    have hd := decideEncoding_sat h
    rw [parse_eq] at hp
    simp only [M.bind_apply, begin_] at hp
    cases hr : decideEncoding p with
    | err e q => rw [hr] at hp; exact absurd hp (by simp)
    | panic => rw [hr] at hp; exact absurd hp (by simp)
    | diverge => rw [hr] at hp; exact absurd hp (by simp)
    | ok a q =>
      rw [hr] at hd hp
      obtain ⟨rfl, n1, n2, he⟩ | ⟨e, rfl, hu⟩ := hd
      · have h2 : q.cfg.xmlDoc.length < 2 ^ 31 := by omega
        refine ⟨h2, ?_⟩
        by_cases hwin : q.cfg.docOffset ≤ q.cfg.endOffset
        · refine (hm _ hout hwin h2).1 ⟨pf, ?_, hpo⟩
          simpa only [Res.andThen_ok, M.bind_apply, M.get_apply, hwr] using hp
        · have : nextChar { q with out := Parser.emit q.cfg.shallowDepth q.out [⟨.document, 0, 0, -1⟩] } =
              .err (newEOFError XmlIncomplete)
                { q with out := Parser.emit q.cfg.shallowDepth q.out [⟨.document, 0, 0, -1⟩] } := by
            simp only [nextChar, getChar, onRd, M.bind_apply, M.zoom_apply]
            rw [rdGetChar_eq _ (by rw [f2]) (by rw [f2]; exact h.start) (by rw [f2]; exact h.end1), dif_neg]
            · rfl
            · rw [f2]; show ¬ (q.cfg.docOffset < q.cfg.endOffset); omega
          simp only [Res.andThen_ok, M.bind_apply, M.get_apply, hwr, loopFuel, mainLoop, M.catchErr_apply, step,
            processDocStart, this, Res.andThen_err, Res.handle_err, onStepErr] at hp
          exact absurd hp (by simp)
      · have hw' : writeVtd .document 0 0 p.depth { p with enc := e } = .ok () { p with
            enc := e, out := Parser.emit p.cfg.shallowDepth p.out [⟨.document, 0, 0, -1⟩] } := by
          have := writeVtd_emit (p := { p with enc := e }) f9 p.cfg.shallowDepth .document 0 0 p.depth (by decide)
          rw [this, ← f4]
        obtain ⟨e', p', h1, h2⟩ := utf16_err (c := p.cfg)
          (p := { p with enc := e, out := Parser.emit p.cfg.shallowDepth p.out [⟨.document, 0, 0, -1⟩] })
          (p.cfg.xmlDoc.length + 2) (by omega) rfl f2 h.start h.end1 (by exact hu)
        simp only [Res.andThen_ok, M.bind_apply, M.get_apply, hw', loopFuel, h1] at hp
        exact absurd hp (by simp)
  · rintro ⟨h2, hg⟩
    obtain ⟨recs, hdoc, ho⟩ := id hg
    obtain ⟨b, t, hbt, hb0, hb1⟩ := doc_head hdoc
    have hwin : p.cfg.docOffset ≤ p.cfg.endOffset := by
      have := congrArg List.length hbt
      simp only [List.length_drop, List.length_cons] at this
      omega
    obtain ⟨pf, h3, h4⟩ := (hm _ hout hwin h2).2 hg
    refine ⟨pf, ?_, h4⟩
    rw [parse_eq]
    simp only [begin_, M.bind_apply, M.get_apply, Res.andThen_ok, decideEncoding_plain h hns hw h2 hbt hb0 hb1, hwr]
    exact h3

end
end Parser
end GoVtd
