import Verif.Proofs.Parser.EventAttr
import Verif.Spec.Trace

/-!
# The tags of a parsed document
-/

namespace GoVtd
namespace Parser
namespace Ev
open Paged Grammar Two
variable {c : ParserCfg} {p : Parser} {o0 : ParserOut} {es : List Mark} {stk : List (Nat × Nat)} {recs : List Rec}

theorem fr_err {F : Parser → Parser → Prop} {α : Type} {m : M Parser α} (h : Fr F m) {s e s'} (hm : m s = .err e s') : F s s' := by
  have := h s; rw [hm] at this; exact this

theorem step_good {st : PState} (h : G c o0 st p es stk recs) : 
    Post (step st p) (Good c o0 (if st = .tagEnd then closes es ++ [p.offset.toNat] else closes es)) := by
  cases st with
  | docType =>
    exact h.quiet (by decide) rfl (processDocType_ok h.inv) processDocType_qf processDocType_ends
      fun _ _ hr => processDocType_hold _ _ _ hr (h.sync rfl)
  | docStart => exact docStart_good h
  | docEnd => exact h.after rfl (processDocEnd_ok h.inv) processDocEnd_qf processDocEnd_ends
  | ltSeen => exact ltSeen_good h
  | tagStart => exact startTag_good h
  | tagEnd => exact endTag_good h
  | attrName => exact attrName_good h
  | attrVal => exact attrVal_good h
  | decAttrName =>
    exact h.quiet (by decide) rfl (processDecAttrName_ok h.inv) processDecAttrName_qf processDecAttrName_ends
      fun _ _ hr => processDecAttrName_hold _ _ _ hr (h.inv.sync (by simp))
  | text =>
    exact h.quiet (by decide) rfl (processText_ok h.inv) processText_qf processText_ends
      fun _ _ hr => processText_hold _ _ _ hr (h.sync rfl)
  | piTag =>
    exact h.quiet (by decide) rfl (processPiTag_ok h.inv) processPiTag_qf processPiTag_ends
      fun _ _ hr => processPiTag_sync hr
  | piVal =>
    exact h.quiet (by decide) rfl (processPiVal_ok h.inv) processPiVal_qf processPiVal_ends
      fun _ _ hr => processPiVal_hold _ _ _ hr (h.sync rfl)
  | piEnd => exact h.after rfl (processPiEnd_ok h.inv) processPiEnd_qf processPiEnd_ends
  | startComment =>
    exact h.quiet (by decide) rfl (processStartComment_ok h.inv) processStartComment_qf processStartComment_ends
      fun _ _ hr => processStartComment_hold _ _ _ hr (h.sync rfl)
  | endComment => exact h.after rfl (processEndComment_ok h.inv) processEndComment_qf processEndComment_ends
  | cdata =>
    exact h.quiet (by decide) rfl (processCdata_ok h.inv) processCdata_qf processCdata_ends
      fun _ _ hr => processCdata_hold _ _ _ hr (h.sync rfl)
  | invalid => exact post_err _

/-- What is known of the result of a parse. -/
structure Result (c : ParserCfg) (o0 out : ParserOut) (es : List Mark) (recs : List Rec) : Prop where
  out : out = finish c.shallowDepth (Parser.emit c.shallowDepth o0 recs)
  tags : Tags c.xmlDoc es []
  nonempty : es ≠ []
  starts : recs.filterMap recStart = es.filterMap Mark.startOf
  small : ∀ x ∈ recs, Small x
  distinct : Distinct c.xmlDoc [] recs
  names : ∀ x ∈ recs, Named c.xmlDoc x

theorem mainLoop_good (fuel : Nat) {st : PState} {p p' : Parser} {cl : List Nat} (h : Good c o0 cl st p)
    (hm : mainLoop fuel st p = .ok () p') :
    ∃ es recs, Result c o0 p'.out es recs ∧ closes es = cl ++ endTags (visited fuel st p) := by
  induction fuel generalizing st p cl with
  | zero => cases hm
  | succ fuel ih =>
    obtain ⟨es, stk, recs, rfl, h⟩ := h
    cases hr : step st p with
    | ok st' q =>
      rw [mainLoop_step hr] at hm
      obtain ⟨es', recs', h1, h2⟩ := ih ((step_good h).eq hr) hm
      refine ⟨es', recs', h1, ?_⟩
      rw [h2]
      simp only [visited, hr, endTags, List.filterMap_cons]
      split
      · simp
      · rfl
    | err e q =>
      simp only [mainLoop, M.bind_apply, M.catchErr_apply, hr, Res.andThen_err, Res.handle_err, onStepErr, M.ite_apply,
        M.raise_apply] at hm
      by_cases he : e.as .eof ∧ st = .docEnd
      · rw [if_pos he] at hm
        obtain ⟨_, rfl⟩ := he
        have hb := h.inv.base
        have hk := h.k
        simp only [reduceCtorEq, if_false] at hk
        obtain ⟨xs, hx, hk'⟩ := hk.frame (b' := p.rd.offset) (fr_err processDocEnd_qf hr hb.out hb.enc hb.ws) hb.cfg (Int.le_refl _)
        obtain ⟨rfl, hes⟩ := h.root.mp rfl
        have hq := fr_err processDocEnd_qf hr hb.out hb.enc hb.ws
        simp only [wrapInternal, M.bind_apply, M.catchErr_apply, finishUp_go hq.ok, Res.handle_ok, Res.andThen_ok,
          M.pure_apply] at hm
        cases hm
        exact ⟨es, recs ++ xs, ⟨by rw [hk'.out, hq.cfg, hb.cfg], hk'.tags, hes, hk'.starts, hk'.small, hk'.distinct, hk'.names⟩, by
          simp [visited, hr, endTags]⟩
      · rw [if_neg he] at hm; cases hm
    | panic => simp only [mainLoop, M.bind_apply, M.catchErr_apply, hr] at hm; cases hm
    | diverge => simp only [mainLoop, M.bind_apply, M.catchErr_apply, hr] at hm; cases hm

/-- The result of `Parse` on a new parser. -/
theorem parse_result {p p' : Parser} (h : Fresh p) (hp : parse p = .ok () p') :
    ∃ es recs, Result p.cfg p.out p'.out es (⟨.document, 0, 0, -1⟩ :: recs) ∧ closes es = endTags (trace p) := by
  obtain ⟨f1, f2, f3, f4, f5, f6, f7, f8, f9⟩ := h.fields
  have hd := decideEncoding_sat h
  rw [parse_eq] at hp
  simp only [M.bind_apply, begin_] at hp
  cases hr : decideEncoding p with
  | err e q => rw [hr] at hp; cases hp
  | panic => rw [hr] at hp; cases hp
  | diverge => rw [hr] at hp; cases hp
  | ok a q =>
    rw [hr] at hp hd
    simp only [Res.andThen_ok, M.bind_apply, M.get_apply] at hp
    obtain ⟨rfl, n1, n2, n3⟩ | ⟨e, rfl, hu⟩ := hd
    · rw [f4, writeVtd_emit f9 q.cfg.shallowDepth _ _ _ _ (by decide)] at hp
      simp only [Res.andThen_ok, M.bind_apply, M.get_apply] at hp
      by_cases hwin : q.cfg.docOffset ≤ q.cfg.endOffset
      · have hi : Inv q.cfg .docStart { q with out := Parser.emit q.cfg.shallowDepth q.out [⟨.document, 0, 0, -1⟩] } := by
          have := h.inv hwin n3
          exact { this with base := this.base.ofOut (emit_ok f9 _ _) }
        have hg : Good q.cfg (Parser.emit q.cfg.shallowDepth q.out [⟨.document, 0, 0, -1⟩]) [] .docStart
            { q with out := Parser.emit q.cfg.shallowDepth q.out [⟨.document, 0, 0, -1⟩] } := by
          refine ⟨[], [], [], rfl, hi, ?_, ?_, ?_, ?_, ?_, ?_, ?_, ?_, ?_⟩
          · simp only [reduceCtorEq, if_false]
            refine ⟨rfl, ?_, .nil, by simp, by simp [f4], trivial, rfl, by simp, trivial, by simp⟩
            obtain ⟨fuel, a, hini⟩ := h.init
            rw [hini]
            rfl
          all_goals simp [Ev.after, mid]
        obtain ⟨es, recs, hres, hcl⟩ := mainLoop_good _ hg hp
        refine ⟨es, recs, ⟨?_, hres.tags, hres.nonempty, ?_, ?_, ?_, ?_⟩, ?_⟩
        · rw [hres.out, ← emit_append]; rfl
        · rw [List.filterMap_cons]; exact hres.starts
        · intro x hx
          rcases List.mem_cons.mp hx with rfl | hx
          · intro hc; exact absurd hc (by decide)
          · exact hres.small x hx
        · simp only [Distinct, reduceCtorEq, if_false, or_self]
          exact hres.distinct
        · intro x hx
          rcases List.mem_cons.mp hx with rfl | hx
          · exact ⟨fun h => (by cases h), fun h => (by rcases h with h | h <;> cases h)⟩
          · exact hres.names x hx
        · rw [hcl, List.nil_append, trace]
          simp only [M.bind_apply, hr, Res.andThen_ok, M.get_apply]
          have hd : writeVtd .document 0 0 q.depth = writeVtd .document 0 0 (-1) := by rw [f4]
          rw [hd, writeVtd_emit f9 q.cfg.shallowDepth _ _ _ _ (by decide)]
      · have : nextChar { q with out := Parser.emit q.cfg.shallowDepth q.out [⟨.document, 0, 0, -1⟩] } = .err (newEOFError XmlIncomplete)
            { q with out := Parser.emit q.cfg.shallowDepth q.out [⟨.document, 0, 0, -1⟩] } := by
          simp only [nextChar, getChar, onRd, M.bind_apply, M.zoom_apply]
          rw [rdGetChar_eq _ (by rw [f2]) (by rw [f2]; exact h.start) (by rw [f2]; exact h.end1), dif_neg]
          · rfl
          · rw [f2]; show ¬ (q.cfg.docOffset < q.cfg.endOffset); omega
        simp only [loopFuel] at hp
        rw [mainLoop_err (st := .docStart) (e := newEOFError XmlIncomplete)
          (p' := { q with out := Parser.emit q.cfg.shallowDepth q.out [⟨.document, 0, 0, -1⟩] }) ?_ (by decide)] at hp
        · cases hp
        · simp only [step, processDocStart, M.bind_apply, this]; rfl
    · rw [writeVtd_emit (p := { p with enc := e }) f9 p.cfg.shallowDepth _ _ _ _ (by decide)] at hp
      simp only [Res.andThen_ok, M.bind_apply, M.get_apply] at hp
      obtain ⟨e', p', h1, h2⟩ := utf16_err (c := p.cfg)
        (p := { p with enc := e, out := Parser.emit p.cfg.shallowDepth p.out [⟨.document, 0, 0, p.depth⟩] })
        (p.cfg.xmlDoc.length + 2) (by omega) rfl f2 h.start h.end1 (by exact hu)
      simp only [loopFuel] at hp
      rw [h1] at hp
      cases hp

end Ev
end Parser
end GoVtd
