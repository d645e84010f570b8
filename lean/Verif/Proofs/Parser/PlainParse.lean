import Verif.Proofs.Parser.PlainLoop

/-!
# `Parse` of a document without prefixes, with and without namespace awareness
-/

namespace GoVtd
namespace Parser
namespace Plain
open Paged Grammar Two Ev

variable {f : Nat}

/-- The parser with namespace awareness switched on. -/
def Aw (f : Nat) (s t : Parser) : Prop := t = aware f s.ns s

theorem docByte_aw (i : Int) : Sim (Aw f) False False (docByte i) (docByte i) := by
  rintro s _ rfl
  simp only [docByte, M.bind_apply, M.get_apply, Res.andThen_ok]
  exact Sim.index (R := Aw f) _ _ _ _ rfl

theorem docIs32_aw (i v : Int) : Sim (Aw f) False False (docIs32 i v) (docIs32 i v) :=
  Sim.bind (docByte_aw i) fun _ => Sim.pure _

theorem detectEncoding_aw : Sim (Aw f) False False detectEncoding detectEncoding := by
  refine Sim.bind_get fun s t h => ?_
  rw [show t.offset = s.offset by rw [h]; rfl]
  refine Sim.bind (docByte_aw _) fun b =>
    Sim.ite ?_ (Sim.ite ?_ (Sim.ite ?_ (Sim.ite ?_ (Sim.ite ?_ (Sim.pure _)))))
  · exact Sim.bind (Sim.modify fun s t h => by obtain rfl := h; rfl) fun _ => Sim.bind (docIs32_aw _ _) fun t =>
      Sim.ite (Sim.modify fun s t h => by obtain rfl := h; rfl) (Sim.raise _)
  · exact Sim.bind (Sim.modify fun s t h => by obtain rfl := h; rfl) fun _ => Sim.bind (docIs32_aw _ _) fun t =>
      Sim.ite (Sim.modify fun s t h => by obtain rfl := h; rfl) (Sim.raise _)
  · exact Sim.bind (Sim.and (docIs32_aw _ _) (Sim.and (docIs32_aw _ _) (docIs32_aw _ _))) fun t =>
      Sim.ite (Sim.modify fun s t h => by obtain rfl := h; rfl) (Sim.raise _)
  · exact Sim.bind (Sim.and (docIs32_aw _ _) (docIs32_aw _ _)) fun t =>
      Sim.ite (Sim.modify fun s t h => by obtain rfl := h; rfl) (Sim.raise _)
  · exact Sim.bind (Sim.and (docIs32_aw _ _) (Sim.and (docIs32_aw _ _) (docIs32_aw _ _))) fun t =>
      Sim.ite (Sim.modify fun s t h => by obtain rfl := h; rfl) (Sim.pure _)

theorem decideEncoding_aw {p q : Parser} {u : Unit} (h : decideEncoding p = .ok u q) (ho : q.offset = p.offset) 
    (hc : q.cfg = p.cfg) (hl : wrap64 (p.offset + p.cfg.docLength) < 2 ^ 30) :
    decideEncoding (aware f p.ns p) = .ok u (aware f q.ns q) := by
  unfold decideEncoding at h ⊢
  obtain ⟨a, s, h1, h⟩ := bind_ok h
  have hd := detectEncoding_aw (f := f) p _ rfl
  rw [h1] at hd
  obtain ⟨t, h2, rfl⟩ := hd
  rw [M.bind_apply, h2, Res.andThen_ok]
  simp only [M.bind_apply, M.get_apply, Res.andThen_ok, M.ite_apply, M.raise_apply, M.modify_apply, M.pure_apply] at h ⊢
  have e1 : (aware f s.ns s).enc = s.enc := rfl
  have e2 : (aware f s.ns s).offset = s.offset := rfl
  have e4 : (aware f s.ns s).cfg.docLength = s.cfg.docLength := rfl
  rw [e1, e2, e4]
  by_cases hc1 : wrap64 (s.offset + s.cfg.docLength) ≥ (if s.enc.encoding < FormatUtf16BE ∧ s.cfg.nsAware = true then 2 ^ 30 else 2 ^ 31)
  · rw [if_pos hc1] at h; cases h
  rw [if_neg hc1] at h
  by_cases he : s.enc.encoding ≥ FormatUtf16BE
  · rw [if_pos he] at h
    cases h
    have ho : s.offset = p.offset := ho
    have hc : s.cfg = p.cfg := hc
    have hneg : ¬ wrap64 (s.offset + s.cfg.docLength) ≥
        (if s.enc.encoding < FormatUtf16BE ∧ (aware f s.ns s).cfg.nsAware = true then 2 ^ 30 else 2 ^ 31) := by
      rw [ho, hc]; split <;> omega
    rw [if_neg hneg, if_pos he]
    rfl
  · rw [if_neg he] at h
    cases h
    rw [ho, hc, if_neg (by split <;> omega), if_neg he]

/-- A parse without namespace awareness of a document without prefixes, repeated with namespace awareness. -/
theorem parse_aware {p p' : Parser} (h : Fresh p) (hoff : p.cfg.nsAware = false) (hl : p.cfg.endOffset < 2 ^ 30)
    (hp : parse p = .ok () p') (hC : NoPrefixes p.cfg.xmlDoc p'.out.vtdBuffer.values) :
    ∃ t', parse (aware f p.ns p) = .ok () t' ∧ t'.out = p'.out := by
  obtain ⟨f1, f2, f3, f4, f5, f6, f7, f8, f9⟩ := h.fields
  have hd := decideEncoding_sat h
  rw [parse_eq] at hp ⊢
  simp only [M.bind_apply, begin_] at hp ⊢
  cases hr : decideEncoding p with
  | err e q => rw [hr] at hp; cases hp
  | panic => rw [hr] at hp; cases hp
  | diverge => rw [hr] at hp; cases hp
  | ok a q =>
    rw [hr] at hp hd
    simp only [Res.andThen_ok, M.bind_apply, M.get_apply] at hp
    obtain ⟨rfl, n1, n2, n3⟩ | ⟨e, rfl, hu⟩ := hd
    · rw [decideEncoding_aw hr rfl rfl (by rw [f3, ← h.sum]; exact hl)]
      simp only [Res.andThen_ok, M.bind_apply, M.get_apply]
      have e1 : (aware f q.ns q).depth = q.depth := rfl
      rw [e1]
      rw [f4] at hp ⊢
      rw [writeVtd_emit f9 q.cfg.shallowDepth _ _ _ _ (by decide)] at hp
      rw [writeVtd_emit (p := aware f q.ns q) f9 q.cfg.shallowDepth _ _ _ _ (by decide)]
      simp only [Res.andThen_ok, M.bind_apply, M.get_apply] at hp ⊢
      by_cases hwin : q.cfg.docOffset ≤ q.cfg.endOffset
      · have hi : Inv q.cfg .docStart { q with out := Parser.emit q.cfg.shallowDepth q.out [⟨.document, 0, 0, -1⟩] } := by
          have := h.inv hwin n3
          exact { this with base := this.base.ofOut (emit_ok f9 _ _) }
        have hg : Good q.cfg (Parser.emit q.cfg.shallowDepth q.out [⟨.document, 0, 0, -1⟩]) [] .docStart
            { q with out := Parser.emit q.cfg.shallowDepth q.out [⟨.document, 0, 0, -1⟩] } := by
          refine ⟨[], [], [], rfl, hi, ?_, ?_, ?_, ?_, ?_, ?_, ?_, ?_, ?_⟩
          · simp only [reduceCtorEq, if_false]
            refine ⟨rfl, ?_, .nil, by simp, by simp [f4], trivial, rfl, by simp, trivial, by simp⟩
            obtain ⟨fuel, a, hini⟩ := h.init
            rw [hini]
            rfl
          all_goals simp [Ev.after, mid]
        obtain ⟨fl, a, hini⟩ := h.init
        have hv0 : q.out.vtdBuffer.values = [] := by rw [hini]; exact initOut_values _ _
        have hn0 : q.ns.nsBuffer1.size = 0 := by rw [hini]; rfl
        refine mainLoop_pr (f := f) (emit_ok f9 _ _) ?_ (Nat.le_refl _) hg (n := q.ns) ?_ ?_ (fun hn => absurd hn0 hn) ?_ hp hC
        · intro w hw
          rw [emit_values f9, hv0] at hw
          obtain rfl := List.mem_singleton.mp hw
          decide
        · refine ⟨rfl, hoff, f1, ?_, ?_, ?_⟩ <;> (rw [hini]; rfl)
        · refine ⟨?_, ?_, ?_⟩
          · rw [hini]
            exact ⟨rfl, rfl, rfl, rfl, Int.le_refl _, Int.le_refl _, fun _ => rfl, (fun _ h => by cases h),
              (fun _ _ h => by cases h)⟩
          · rw [hini]; rfl
          · rw [hini]; rfl
        · refine ⟨fun hh => ?_, fun hh => by cases hh⟩
          rw [hini] at hh
          cases hh
      · have : nextChar { q with out := Parser.emit q.cfg.shallowDepth q.out [⟨.document, 0, 0, -1⟩] } = .err (newEOFError XmlIncomplete)
            { q with out := Parser.emit q.cfg.shallowDepth q.out [⟨.document, 0, 0, -1⟩] } := by
          simp only [nextChar, getChar, onRd, M.bind_apply, M.zoom_apply]
          rw [rdGetChar_eq _ (by rw [f2]) (by rw [f2]; exact h.start) (by rw [f2]; exact h.end1), dif_neg]
          · rfl
          · rw [f2]; show ¬ (q.cfg.docOffset < q.cfg.endOffset); omega
        simp only [loopFuel] at hp
        rw [mainLoop_err (st := .docStart) (e := newEOFError XmlIncomplete)
          (p' := { q with out := Parser.emit q.cfg.shallowDepth q.out [⟨.document, 0, 0, -1⟩] }) ?_ (by decide)] at hp
        · cases hp
        · simp only [step, processDocStart, M.bind_apply, this]; rfl
    · rw [writeVtd_emit (p := { p with enc := e }) f9 p.cfg.shallowDepth _ _ _ _ (by decide)] at hp
      simp only [Res.andThen_ok, M.bind_apply, M.get_apply] at hp
      obtain ⟨e', p', h1, h2⟩ := utf16_err (c := p.cfg)
        (p := { p with enc := e, out := Parser.emit p.cfg.shallowDepth p.out [⟨.document, 0, 0, p.depth⟩] })
        (p.cfg.xmlDoc.length + 2) (by omega) rfl f2 h.start h.end1 (by exact hu)
      simp only [loopFuel] at hp
      rw [h1] at hp
      cases hp

end Plain
end Parser
end GoVtd
