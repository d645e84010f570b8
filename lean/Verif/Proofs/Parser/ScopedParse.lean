import Verif.Proofs.Parser.ScopedSeen
import Verif.Proofs.Parser.PlainParse

/-!
# `Parse` with and without namespace awareness, for prefixes declared anywhere
-/

namespace GoVtd
namespace Parser
namespace Scoped
open Paged Grammar Two Ev Plain Sound
open Rooted (RR RX aw pend_zero)

variable {f : Nat}

theorem Seen.nil {D : List UInt8} : Seen D true [] := by
  constructor
  · intro P R h _ A w0 B hV
    have := (List.append_eq_nil_iff.mp h.symm).1
    rw [this] at hV
    exact absurd hV.symm (by simp)
  · intro P w R h
    exact absurd h.symm (by simp)

/-- A parse without namespace awareness, repeated with namespace awareness. Either the parser would see every prefix, or
the second parse succeeds. -/
theorem parse_both {p p' : Parser} (h : Fresh p) (hoff : p.cfg.nsAware = false) (hl : p.cfg.endOffset < 2 ^ 30)
    (hd30 : p.cfg.xmlDoc.length < 2 ^ 30)
    (hp : parse p = .ok () p') (hC : Part p.cfg.xmlDoc p'.out.vtdBuffer.values)
    (hR : ((∀ P R, p'.out.vtdBuffer.values = P ++ R → Rooted.Led R → Ready p.cfg.xmlDoc P) ∧
        Again p.cfg.xmlDoc p'.out.vtdBuffer.values ∧ Names p.cfg.xmlDoc p'.out.vtdBuffer.values) ∨
      Rest p.cfg.xmlDoc p'.out.vtdBuffer.values ∧ ∃ a t', parse (Plain.aware f p.ns p) = .ok a t') :
    ∃ t', parse (Plain.aware f p.ns p) = .ok () t' ∧ t'.out = p'.out ∧ Seen p.cfg.xmlDoc true p'.out.vtdBuffer.values ∧
      Again p.cfg.xmlDoc p'.out.vtdBuffer.values ∧ Names p.cfg.xmlDoc p'.out.vtdBuffer.values := by
  obtain ⟨f1, f2, f3, f4, f5, f6, f7, f8, f9⟩ := h.fields
  have hd := decideEncoding_sat h
  rw [parse_eq] at hp hR ⊢
  simp only [M.bind_apply, begin_] at hp hR ⊢
  cases hr : decideEncoding p with
  | err e q => rw [hr] at hp; cases hp
  | panic => rw [hr] at hp; cases hp
  | diverge => rw [hr] at hp; cases hp
  | ok a q =>
    rw [hr] at hp hd
    simp only [Res.andThen_ok, M.bind_apply, M.get_apply] at hp
    obtain ⟨rfl, n1, n2, n3⟩ | ⟨e, rfl, hu⟩ := hd
    · rw [decideEncoding_aw hr rfl rfl (by rw [f3, ← h.sum]; exact hl)] at hR ⊢
      simp only [Res.andThen_ok, M.bind_apply, M.get_apply] at hR ⊢
      have e1 : (Plain.aware f q.ns q).depth = q.depth := rfl
      rw [e1] at hR ⊢
      rw [f4] at hp hR ⊢
      rw [writeVtd_emit f9 q.cfg.shallowDepth _ _ _ _ (by decide)] at hp
      rw [writeVtd_emit (p := Plain.aware f q.ns q) f9 q.cfg.shallowDepth _ _ _ _ (by decide)] at hR ⊢
      simp only [Res.andThen_ok, M.bind_apply, M.get_apply] at hp hR ⊢
      by_cases hwin : q.cfg.docOffset ≤ q.cfg.endOffset
      · have hi : Inv q.cfg .docStart { q with out := Parser.emit q.cfg.shallowDepth q.out [⟨.document, 0, 0, -1⟩] } := by
          have := h.inv hwin n3
          exact { this with base := this.base.ofOut (emit_ok f9 _ _) }
        have hg : Good q.cfg (Parser.emit q.cfg.shallowDepth q.out [⟨.document, 0, 0, -1⟩]) [] .docStart
            { q with out := Parser.emit q.cfg.shallowDepth q.out [⟨.document, 0, 0, -1⟩] } := by
          refine ⟨[], [], [], rfl, hi, ?_, ?_, ?_, ?_, ?_, ?_, ?_, ?_, ?_⟩
          · simp only [reduceCtorEq, if_false]
            refine ⟨rfl, ?_, .nil, by simp, by simp [f4], trivial, rfl, by simp, trivial, by simp⟩
            obtain ⟨fuel, a, hini⟩ := h.init
            rw [hini]
            rfl
          all_goals simp [Ev.after, mid]
        obtain ⟨fl, a, hini⟩ := h.init
        have hv0 : q.out.vtdBuffer.values = [] := by rw [hini]; exact initOut_values _ _
        have hrr : RR f { q with out := Parser.emit q.cfg.shallowDepth q.out [⟨.document, 0, 0, -1⟩] }
            { Plain.aware f q.ns q with out := Parser.emit q.cfg.shallowDepth q.out [⟨.document, 0, 0, -1⟩] } := by
          refine ⟨⟨q.ns, q.at_.currentElementRecord, q.at_.prefixedAttCount, q.at_.prefixedAttrNameSlice, q.at_.prefixUrlSlice⟩,
            rfl, hoff, f1, ?_⟩
          rw [hini]; rfl
        have hbt := hrr.base hi.base
        have hit : Inv (aw f q.cfg) .docStart
            { Plain.aware f q.ns q with out := Parser.emit q.cfg.shallowDepth q.out [⟨.document, 0, 0, -1⟩] } :=
          { hi with base := hbt, slots := { hi.slots with } }
        have hgt : Good (aw f q.cfg) (Parser.emit q.cfg.shallowDepth q.out [⟨.document, 0, 0, -1⟩]) [] .docStart
            { Plain.aware f q.ns q with out := Parser.emit q.cfg.shallowDepth q.out [⟨.document, 0, 0, -1⟩] } := by
          refine ⟨[], [], [], rfl, hit, ?_, ?_, ?_, ?_, ?_, ?_, ?_, ?_, ?_⟩
          · simp only [reduceCtorEq, if_false]
            refine ⟨rfl, ?_, .nil, by simp, by simp [Plain.aware, f4], trivial, rfl, by simp, trivial, by simp⟩
            rw [hini]
            rfl
          all_goals simp [Ev.after, mid]
        have hv : vals { q with out := Parser.emit q.cfg.shallowDepth q.out [⟨.document, 0, 0, -1⟩] } =
            [] ++ [(⟨.document, 0, 0, -1⟩ : Rec).word] := by
          simp only [vals]
          rw [emit_values f9, hv0]; rfl
        have hw := quiet_word (x := ⟨.document, 0, 0, -1⟩) (by decide)
        have hQ : Quiet [(⟨.document, 0, 0, -1⟩ : Rec).word] := fun w hm => by
          obtain rfl := List.mem_singleton.mp hm
          exact ⟨hw.1, hw.2.2⟩
        have hde : declsOf q.cfg.xmlDoc (vals { q with out := Parser.emit q.cfg.shallowDepth q.out [⟨.document, 0, 0, -1⟩] }) = [] := by
          rw [hv, declsOf_quiet hQ]; rfl
        have hsc : scopeOf q.cfg.xmlDoc (vals { q with out := Parser.emit q.cfg.shallowDepth q.out [⟨.document, 0, 0, -1⟩] }) = ⟨[], 0, none⟩ := by
          rw [hv, scopeOf_quiet hQ]; rfl
        refine mainLoop_rr (f := f) (Nat.le_refl _) hg hgt ⟨hrr, ?_, (fun hn => by cases hn), ?_, ?_, ?_, ?_, ?_⟩ hp hC hR
        · have hp0 : Rooted.pend q.at_ = 0 := pend_zero (a := q.at_) (by rw [hini]; rfl)
          show Tab _ _ true (Rooted.pend q.at_) q.ns
          rw [hp0]
          constructor
          · rw [hsc, hini]; rfl
          · intro h; cases h
          · rw [hsc]; rintro e he; cases he
          · rw [hsc, hde]
            exact ⟨[], by rw [hini]; rfl, rfl, Nat.zero_le _⟩
          · intro h; cases h
          · rw [hsc, hde]
            exact ⟨by rw [hini]; rfl, Nat.zero_le _, Nat.zero_le _, (fun w hw => by cases hw), hd30⟩
        · refine ⟨fun hh => ?_, fun hh => by cases hh⟩
          rw [hini] at hh
          cases hh
        · rw [NsInv, if_neg (by simp), if_neg (by simp)]
          have hv' : vals { Plain.aware f q.ns q with out := Parser.emit q.cfg.shallowDepth q.out [⟨.document, 0, 0, -1⟩] } =
            [] ++ [(⟨.document, 0, 0, -1⟩ : Rec).word] := hv
          refine ⟨⟨?_, ?_, ?_⟩, ?_, ?_, ?_, ?_, ?_⟩
          · rw [hini]; exact ⟨List.length_replicate, [], (List.append_nil _).symm⟩
          · rw [hini]
            rintro e ⟨pg, hpg, -⟩
            cases hpg
          · rw [hini]
            rintro e ⟨pg, hpg, -⟩
            cases hpg
          · refine hv'.symm ▸ ?_
            refine done_nil.append fun w hm => ?_
            obtain rfl := List.mem_singleton.mp hm
            exact ⟨hw.1, hw.2.1⟩
          · refine hv'.symm ▸ ?_
            refine Sound.decls_nil.append fun w hm q hd => ?_
            obtain rfl := List.mem_singleton.mp hm
            exact hw.2.2 hd.type
          · rw [hini]; rfl
          · rw [hini]; rfl
          · rw [hini]; rfl
        · rw [hv]
          refine Seen.nil.quiet fun w hm => ?_
          obtain rfl := List.mem_singleton.mp hm
          exact hw
        · rw [hv]
          exact Again.nil.more fun w hm => (hQ w hm).2
        · rw [hv]
          exact Names.more (fun w hm => by cases hm) fun w hm => (hQ w hm).1
      · have : nextChar { q with out := Parser.emit q.cfg.shallowDepth q.out [⟨.document, 0, 0, -1⟩] } = .err (newEOFError XmlIncomplete)
            { q with out := Parser.emit q.cfg.shallowDepth q.out [⟨.document, 0, 0, -1⟩] } := by
          simp only [nextChar, getChar, onRd, M.bind_apply, M.zoom_apply]
          rw [rdGetChar_eq _ (by rw [f2]) (by rw [f2]; exact h.start) (by rw [f2]; exact h.end1), dif_neg]
          · rfl
          · rw [f2]; show ¬ (q.cfg.docOffset < q.cfg.endOffset); omega
        simp only [loopFuel] at hp
        rw [mainLoop_err (st := .docStart) (e := newEOFError XmlIncomplete)
          (p' := { q with out := Parser.emit q.cfg.shallowDepth q.out [⟨.document, 0, 0, -1⟩] }) ?_ (by decide)] at hp
        · cases hp
        · simp only [step, processDocStart, M.bind_apply, this]; rfl
    · rw [writeVtd_emit (p := { p with enc := e }) f9 p.cfg.shallowDepth _ _ _ _ (by decide)] at hp
      simp only [Res.andThen_ok, M.bind_apply, M.get_apply] at hp
      obtain ⟨e', p', h1, h2⟩ := utf16_err (c := p.cfg)
        (p := { p with enc := e, out := Parser.emit p.cfg.shallowDepth p.out [⟨.document, 0, 0, p.depth⟩] })
        (p.cfg.xmlDoc.length + 2) (by omega) rfl f2 h.start h.end1 (by exact hu)
      simp only [loopFuel] at hp
      rw [h1] at hp
      cases hp

/-- A parse without namespace awareness in which the parser would see every prefix, repeated with namespace
awareness. -/
theorem parse_scoped {p p' : Parser} (h : Fresh p) (hoff : p.cfg.nsAware = false) (hl : p.cfg.endOffset < 2 ^ 30)
    (hd30 : p.cfg.xmlDoc.length < 2 ^ 30)
    (hp : parse p = .ok () p') (hC : VisiblePrefixes p.cfg.xmlDoc p'.out.vtdBuffer.values)
    (hN : IsPreorder (startDepths p'.out.vtdBuffer.values)) :
    ∃ t', parse (Plain.aware f p.ns p) = .ok () t' ∧ t'.out = p'.out := by
  obtain ⟨t', h1, h2, -⟩ := parse_both (f := f) h hoff hl hd30 hp (part_of hC (nest_of hN))
    (.inl ⟨fun P R e hL => ready_of (xs := R) (e ▸ hC) hL, again_of hC, names_of hC⟩)
  exact ⟨t', h1, h2⟩

end Scoped
end Parser
end GoVtd
