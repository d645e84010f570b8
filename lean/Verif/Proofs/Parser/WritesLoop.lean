import Verif.Proofs.Parser.WritesDecl

/-!
# The records of a parsed document, with every option
-/

namespace GoVtd
namespace Parser
namespace Wr
open Paged Grammar Two Ev
variable {c : ParserCfg} {p : Parser} {o0 out : ParserOut} {xs : List Rec} {pos cnt : Int}
  {es : List Mark} {stk : List (Nat × Nat)} {recs : List Rec}

theorem step_w {st : PState} (h : G c o0 st p es stk recs) (w : W c o0 st p xs) : Post (step st p) (Next c o0) := by
  cases st with
  | docType => exact docType_w h w
  | docStart => exact docStart_w h.inv w
  | docEnd => exact docEnd_w h.inv w
  | ltSeen => exact ltSeen_w h.inv w
  | tagStart => exact startTag_w h w
  | tagEnd => exact endTag_w h w
  | attrName => exact attrName_w h w
  | attrVal => exact attrVal_w h w
  | decAttrName => exact decl_w h w
  | text => exact text_w h w
  | piTag => exact piTag_w h w
  | piVal => exact piVal_w h w
  | piEnd => exact piEnd_w h w
  | startComment => exact comment_w h w
  | endComment => exact endComment_w h
  | cdata => exact cdata_w h w
  | invalid => exact post_err _

/-! ## The end of the document -/

theorem out_pre : Pre fun s s' : Parser => s'.out = s.out := ⟨fun _ => rfl, fun h h' => h'.trans h⟩

theorem out_zoom {α : Type} (m : M Reader α) : Fr (fun s s' : Parser => s'.out = s.out) (onRd m) := by
  intro s
  simp only [onRd, M.zoom_apply]
  cases m s.rd <;> first | rfl | trivial

theorem out_read {α : Type} (m : M Reader α) {k : α → M Parser β} (hk : ∀ a, Fr (fun s s' : Parser => s'.out = s.out) (k a)) :
    Fr (fun s s' : Parser => s'.out = s.out) (onRd m >>= k) := Fr.bind out_pre (out_zoom m) hk

theorem getChar_out : Fr (fun s s' : Parser => s'.out = s.out) getChar :=
  out_read _ fun _ => Fr.bind out_pre (Fr.modify fun _ => rfl) fun _ => Fr.pure out_pre _

theorem nextChar_out : Fr (fun s s' : Parser => s'.out = s.out) nextChar :=
  Fr.bind out_pre getChar_out fun _ => Fr.modify fun _ => rfl

theorem nextCharAfterWsLoop_out (n : Nat) : Fr (fun s s' : Parser => s'.out = s.out) (nextCharAfterWsLoop n) := by
  induction n with
  | zero => exact Fr.diverge
  | succ n ih => exact Fr.bind out_pre nextChar_out fun _ => Fr.bind out_pre (Fr.get out_pre) fun _ => Fr.ite ih (Fr.pure out_pre _)

theorem docEnd_out : Fr (fun s s' : Parser => s'.out = s.out) processDocEnd := by
  refine Fr.bind out_pre (Fr.bind out_pre (Fr.get out_pre) fun _ => nextCharAfterWsLoop_out _) fun _ => Fr.bind out_pre (Fr.get out_pre) fun _ =>
    Fr.ite ?_ (parseErr_fr out_pre _)
  refine Fr.bind out_pre (out_read _ fun _ => Fr.bind out_pre (Fr.modify fun _ => rfl) fun _ => Fr.pure out_pre _) fun _ => Fr.ite ?_ ?_
  · exact Fr.bind out_pre (Fr.modify fun _ => rfl) fun _ => Fr.pure out_pre _
  · refine Fr.bind out_pre (out_read _ fun _ => Fr.bind out_pre (Fr.modify fun _ => rfl) fun _ => Fr.pure out_pre _) fun _ =>
      Fr.ite ?_ (parseErr_fr out_pre _)
    exact Fr.bind out_pre (Fr.modify fun _ => rfl) fun _ => Fr.pure out_pre _

/-! ## The document -/

/-- The records of a document, without the first one. -/
structure Written (c : ParserCfg) (xs : List Rec) : Prop where
  start : 0 ≤ c.docOffset
  seg : (∀ x ∈ xs, Short x) → ∃ n, Seg c.docOffset n xs
  ok : ∀ x ∈ xs, RecOk (win c) x
  count : 2 * (xs.length : Int) ≤ c.endOffset - 1 - c.docOffset
  linked : Linked c.xmlDoc docRec xs
  last : valueTok (lastRec xs).tok = none
  size : (win c).length < 2 ^ 31

theorem mainLoop_w (fuel : Nat) {st : PState} {p p' : Parser} {cl : List Nat} (h : Good c o0 cl st p) (w : Next c o0 st p)
    (hm : mainLoop fuel st p = .ok () p') :
    ∃ xs, p'.out = finish c.shallowDepth (Parser.emit c.shallowDepth o0 xs) ∧ Written c xs := by
  induction fuel generalizing st p cl with
  | zero => cases hm
  | succ fuel ih =>
    obtain ⟨es, stk, recs, rfl, h⟩ := h
    obtain ⟨xs, w⟩ := w
    cases hr : step st p with
    | ok st' q =>
      rw [mainLoop_step hr] at hm
      exact ih ((step_good h).eq hr) ((step_w h w).eq hr) hm
    | err e q =>
      simp only [mainLoop, M.bind_apply, M.catchErr_apply, hr, Res.andThen_err, Res.handle_err, onStepErr, M.ite_apply,
        M.raise_apply] at hm
      by_cases he : e.as .eof ∧ st = .docEnd
      · rw [if_pos he] at hm
        obtain ⟨_, rfl⟩ := he
        have hb := h.inv.base
        have hq := fr_err processDocEnd_qf hr hb.out hb.enc hb.ws
        have ho := fr_err docEnd_out hr
        simp only [wrapInternal, M.bind_apply, M.catchErr_apply, finishUp_go hq.ok, Res.handle_ok, Res.andThen_ok,
          M.pure_apply] at hm
        cases hm
        have hw : Wrote c o0 p.out xs p.offset (min p.rd.offset c.endOffset - 1) := w.wr
        have hl := win_length hb.end0 hb.end1
        have he := hb.end2
        refine ⟨xs, ?_, hb.start, fun hs => ⟨_, hw.seg hs⟩, hw.ok, ?_, hw.linked, w.last.1, by omega⟩
        · rw [hq.cfg, hb.cfg, ho, hw.out]
        · have := hw.count; omega
      · rw [if_neg he] at hm; cases hm
    | panic => simp only [mainLoop, M.bind_apply, M.catchErr_apply, hr] at hm; cases hm
    | diverge => simp only [mainLoop, M.bind_apply, M.catchErr_apply, hr] at hm; cases hm

/-- The records of `Parse` on a new parser. -/
theorem parse_w {p p' : Parser} (h : Fresh p) (hp : parse p = .ok () p') :
    ∃ xs, p'.out = finish p.cfg.shallowDepth (Parser.emit p.cfg.shallowDepth p.out (docRec :: xs)) ∧ Written p.cfg xs := by
  obtain ⟨f1, f2, f3, f4, f5, f6, f7, f8, f9⟩ := h.fields
  have hd := decideEncoding_sat h
  rw [parse_eq] at hp
  simp only [M.bind_apply, begin_] at hp
  cases hr : decideEncoding p with
  | err e q => rw [hr] at hp; cases hp
  | panic => rw [hr] at hp; cases hp
  | diverge => rw [hr] at hp; cases hp
  | ok a q =>
    rw [hr] at hp hd
    simp only [Res.andThen_ok, M.bind_apply, M.get_apply] at hp
    obtain ⟨rfl, n1, n2, n3⟩ | ⟨e, rfl, hu⟩ := hd
    · rw [f4, writeVtd_emit f9 q.cfg.shallowDepth _ _ _ _ (by decide)] at hp
      simp only [Res.andThen_ok, M.bind_apply, M.get_apply] at hp
      by_cases hwin : q.cfg.docOffset ≤ q.cfg.endOffset
      · have hi : Inv q.cfg .docStart { q with out := Parser.emit q.cfg.shallowDepth q.out [⟨.document, 0, 0, -1⟩] } := by
          have := h.inv hwin n3
          exact { this with base := this.base.ofOut (emit_ok f9 _ _) }
        have hg : Good q.cfg (Parser.emit q.cfg.shallowDepth q.out [⟨.document, 0, 0, -1⟩]) [] .docStart
            { q with out := Parser.emit q.cfg.shallowDepth q.out [⟨.document, 0, 0, -1⟩] } := by
          refine ⟨[], [], [], rfl, hi, ?_, ?_, ?_, ?_, ?_, ?_, ?_, ?_, ?_⟩
          · simp only [reduceCtorEq, if_false]
            refine ⟨rfl, ?_, .nil, by simp, by simp [f4], trivial, rfl, by simp, trivial, by simp⟩
            obtain ⟨fuel, a, hini⟩ := h.init
            rw [hini]
            rfl
          all_goals simp [Ev.after, mid]
        have hw : Next q.cfg (Parser.emit q.cfg.shallowDepth q.out [⟨.document, 0, 0, -1⟩]) .docStart
            { q with out := Parser.emit q.cfg.shallowDepth q.out [⟨.document, 0, 0, -1⟩] } := by
          have hb := hi.base
          refine ⟨[], ⟨rfl, ?_, fun _ => Seg.nil ?_, by simp, ?_, trivial⟩, ⟨rfl, ?_⟩, trivial⟩
          · show q.cfg.docOffset ≤ q.offset
            rw [f3]; exact Int.le_refl _
          · show q.cfg.docOffset ≤ q.offset
            rw [f3]; exact Int.le_refl _
          · show 2 * ((0 : Nat) : Int) ≤ q.rd.offset - q.cfg.docOffset
            rw [f2]; simp
          · show q.depth ≤ -1
            rw [f4]; exact Int.le_refl _
        obtain ⟨xs, hres, hx⟩ := mainLoop_w _ hg hw hp
        refine ⟨xs, ?_, hx⟩
        rw [hres, ← emit_append]; rfl
      · have : nextChar { q with out := Parser.emit q.cfg.shallowDepth q.out [⟨.document, 0, 0, -1⟩] } = .err (newEOFError XmlIncomplete)
            { q with out := Parser.emit q.cfg.shallowDepth q.out [⟨.document, 0, 0, -1⟩] } := by
          simp only [nextChar, getChar, onRd, M.bind_apply, M.zoom_apply]
          rw [rdGetChar_eq _ (by rw [f2]) (by rw [f2]; exact h.start) (by rw [f2]; exact h.end1), dif_neg]
          · rfl
          · rw [f2]; show ¬ (q.cfg.docOffset < q.cfg.endOffset); omega
        simp only [loopFuel] at hp
        rw [mainLoop_err (st := .docStart) (e := newEOFError XmlIncomplete)
          (p' := { q with out := Parser.emit q.cfg.shallowDepth q.out [⟨.document, 0, 0, -1⟩] }) ?_ (by decide)] at hp
        · cases hp
        · simp only [step, processDocStart, M.bind_apply, this]; rfl
    · rw [writeVtd_emit (p := { p with enc := e }) f9 p.cfg.shallowDepth _ _ _ _ (by decide)] at hp
      simp only [Res.andThen_ok, M.bind_apply, M.get_apply] at hp
      obtain ⟨e', p', h1, h2⟩ := utf16_err (c := p.cfg)
        (p := { p with enc := e, out := Parser.emit p.cfg.shallowDepth p.out [⟨.document, 0, 0, p.depth⟩] })
        (p.cfg.xmlDoc.length + 2) (by omega) rfl f2 h.start h.end1 (by exact hu)
      simp only [loopFuel] at hp
      rw [h1] at hp
      cases hp

end Wr
end Parser
end GoVtd
