import Verif.Proofs.Parser.NsName

/-!
# The invariant of the prefixes over a parse
-/

namespace GoVtd
namespace Parser
namespace Sound
open Paged Grammar Two Ev Plain

variable {c : ParserCfg} {p p' : Parser} {st st' : PState} {o0 : ParserOut} {es : List Mark} {stk : List (Nat × Nat)}
  {recs : List Rec}

theorem closed_of (h : NsInv c st p) (h1 : st ≠ .attrName) (h2 : st ≠ .attrVal) : Closed c p := by
  rw [NsInv, if_neg h1, if_neg h2] at h; exact h

theorem step_ns (h : G c o0 st p es stk recs) (hI : NsInv c st p) (hns : c.nsAware = true)
    (hm : step st p = .ok st' p') : NsInv c st' p' := by
  by_cases h1 : st = .attrName
  · subst h1
    exact step_name h (by simpa [NsInv] using hI) hns hm
  by_cases h2 : st = .attrVal
  · subst h2
    exact step_val h (by simpa [NsInv] using hI) hns hm
  have hC := closed_of hI h1 h2
  by_cases h3 : st = .tagStart
  · subst h3
    exact step_start h hC hns hm
  obtain ⟨n1, n2⟩ := notAttr_ne (step_notAttr h1 h2 h3 _ _ _ hm)
  rw [NsInv, if_neg n1, if_neg n2]
  exact hC.quiet h.inv.base (lf_ok (step_lf h1 h2 h3) hm h.inv.base)

theorem mainLoop_ns (fuel : Nat) {cl : List Nat} (h : Good c o0 cl st p) (hI : NsInv c st p) (hns : c.nsAware = true)
    (hm : mainLoop fuel st p = .ok () p') : Done c.xmlDoc (vals p') ∧ Decls c.xmlDoc (vals p') := by
  induction fuel generalizing st p cl with
  | zero => cases hm
  | succ fuel ih =>
    obtain ⟨es, stk, recs, rfl, h⟩ := h
    cases hr : step st p with
    | ok st' q =>
      rw [mainLoop_step hr] at hm
      exact ih ((step_good h).eq hr) (step_ns h hI hns hr) hm
    | err e q =>
      simp only [mainLoop, M.bind_apply, M.catchErr_apply, hr, Res.andThen_err, Res.handle_err, onStepErr, M.ite_apply,
        M.raise_apply] at hm
      by_cases he : e.as .eof ∧ st = .docEnd
      · rw [if_pos he] at hm
        obtain ⟨_, rfl⟩ := he
        have hb := h.inv.base
        have hq := fr_err processDocEnd_qf hr hb.out hb.enc hb.ws
        have hL := fr_err (LF.quiet processDocEnd_qf) hr hb.out hb.enc hb.ws
        simp only [wrapInternal, M.bind_apply, M.catchErr_apply, finishUp_go hq.ok, Res.handle_ok, Res.andThen_ok,
          M.pure_apply] at hm
        cases hm
        have hC := (closed_of hI (by simp) (by simp)).quiet hb hL
        simp only [vals, finish_vtd]
        exact ⟨hC.done, hC.decls⟩
      · rw [if_neg he] at hm; cases hm
    | panic => simp only [mainLoop, M.bind_apply, M.catchErr_apply, hr] at hm; cases hm
    | diverge => simp only [mainLoop, M.bind_apply, M.catchErr_apply, hr] at hm; cases hm

/-- What a successful parse with namespace awareness says of the prefixes. -/
theorem parse_ns (h : Fresh p) (hns : p.cfg.nsAware = true) (hp : parse p = .ok () p') :
    Done p.cfg.xmlDoc (vals p') ∧ Decls p.cfg.xmlDoc (vals p') := by
  obtain ⟨f1, f2, f3, f4, f5, f6, f7, f8, f9⟩ := h.fields
  have hd := decideEncoding_sat h
  rw [parse_eq] at hp
  simp only [M.bind_apply, begin_] at hp
  cases hr : decideEncoding p with
  | err e q => rw [hr] at hp; cases hp
  | panic => rw [hr] at hp; cases hp
  | diverge => rw [hr] at hp; cases hp
  | ok a q =>
    rw [hr] at hp hd
    simp only [Res.andThen_ok, M.bind_apply, M.get_apply] at hp
    obtain ⟨rfl, n1, n2, n3⟩ | ⟨e, rfl, hu⟩ := hd
    · rw [f4, writeVtd_emit f9 q.cfg.shallowDepth _ _ _ _ (by decide)] at hp
      simp only [Res.andThen_ok, M.bind_apply, M.get_apply] at hp
      by_cases hwin : q.cfg.docOffset ≤ q.cfg.endOffset
      · have hi : Inv q.cfg .docStart { q with out := Parser.emit q.cfg.shallowDepth q.out [⟨.document, 0, 0, -1⟩] } := by
          have := h.inv hwin n3
          exact { this with base := this.base.ofOut (emit_ok f9 _ _) }
        have hg : Good q.cfg (Parser.emit q.cfg.shallowDepth q.out [⟨.document, 0, 0, -1⟩]) [] .docStart
            { q with out := Parser.emit q.cfg.shallowDepth q.out [⟨.document, 0, 0, -1⟩] } := by
          refine ⟨[], [], [], rfl, hi, ?_, ?_, ?_, ?_, ?_, ?_, ?_, ?_, ?_⟩
          · simp only [reduceCtorEq, if_false]
            refine ⟨rfl, ?_, .nil, by simp, by simp [f4], trivial, rfl, by simp, trivial, by simp⟩
            obtain ⟨fuel, a, hini⟩ := h.init
            rw [hini]
            rfl
          all_goals simp [Ev.after, mid]
        refine mainLoop_ns _ hg ?_ hns hp
        obtain ⟨fl, a, hini⟩ := h.init
        have hv0 : q.out.vtdBuffer.values = [] := by rw [hini]; exact initOut_values _ _
        rw [NsInv, if_neg (by simp), if_neg (by simp)]
        have hv : vals { q with out := Parser.emit q.cfg.shallowDepth q.out [⟨.document, 0, 0, -1⟩] } =
            [] ++ [(⟨.document, 0, 0, -1⟩ : Rec).word] := by
          simp only [vals]
          rw [emit_values f9, hv0]; rfl
        have hw := quiet_word (x := ⟨.document, 0, 0, -1⟩) (by decide)
        refine ⟨⟨?_, ?_, ?_⟩, ?_, ?_, ?_, ?_, ?_⟩
        · rw [hini]; exact ⟨List.length_replicate, [], (List.append_nil _).symm⟩
        · rw [hini]
          rintro e ⟨pg, hpg, -⟩
          cases hpg
        · rw [hini]
          rintro e ⟨pg, hpg, -⟩
          cases hpg
        · rw [hv]
          refine done_nil.append fun w hm => ?_
          obtain rfl := List.mem_singleton.mp hm
          exact ⟨hw.1, hw.2.1⟩
        · rw [hv]
          refine decls_nil.append fun w hm q hd => ?_
          obtain rfl := List.mem_singleton.mp hm
          exact hw.2.2 hd.type
        · rw [hini]; rfl
        · rw [hini]; rfl
        · rw [hini]; rfl
      · have : nextChar { q with out := Parser.emit q.cfg.shallowDepth q.out [⟨.document, 0, 0, -1⟩] } = .err (newEOFError XmlIncomplete)
            { q with out := Parser.emit q.cfg.shallowDepth q.out [⟨.document, 0, 0, -1⟩] } := by
          simp only [nextChar, getChar, onRd, M.bind_apply, M.zoom_apply]
          rw [rdGetChar_eq _ (by rw [f2]) (by rw [f2]; exact h.start) (by rw [f2]; exact h.end1), dif_neg]
          · rfl
          · rw [f2]; show ¬ (q.cfg.docOffset < q.cfg.endOffset); omega
        simp only [loopFuel] at hp
        rw [mainLoop_err (st := .docStart) (e := newEOFError XmlIncomplete)
          (p' := { q with out := Parser.emit q.cfg.shallowDepth q.out [⟨.document, 0, 0, -1⟩] }) ?_ (by decide)] at hp
        · cases hp
        · simp only [step, processDocStart, M.bind_apply, this]; rfl
    · rw [writeVtd_emit (p := { p with enc := e }) f9 p.cfg.shallowDepth _ _ _ _ (by decide)] at hp
      simp only [Res.andThen_ok, M.bind_apply, M.get_apply] at hp
      obtain ⟨e', p', h1, h2⟩ := utf16_err (c := p.cfg)
        (p := { p with enc := e, out := Parser.emit p.cfg.shallowDepth p.out [⟨.document, 0, 0, p.depth⟩] })
        (p.cfg.xmlDoc.length + 2) (by omega) rfl f2 h.start h.end1 (by exact hu)
      simp only [loopFuel] at hp
      rw [h1] at hp
      cases hp

end Sound
end Parser
end GoVtd
