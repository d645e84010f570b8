import Verif.Proofs.Parser.Window
import Verif.Proofs.Total
import Verif.Spec.Window

/-!
# A whole parse over a longer slice
-/

namespace GoVtd
namespace Parser
namespace Two
open Paged

section
variable {E : Prop} {α β : Type} {d : List UInt8}

/-- `Ext` without the encoding. -/
def Ext0 (d : List UInt8) (s t : Parser) : Prop := t = ext d s

theorem docByte_ext0 (i : Int) : Sim (Ext0 d) False True (docByte i) (docByte i) := by
  rintro s _ rfl
  simp only [docByte, M.bind_apply, M.get_apply, Res.andThen_ok]
  show RelRes (Ext0 d) False True (M.index s.cfg.xmlDoc i s) (M.index (s.cfg.xmlDoc ++ d) i (ext d s))
  by_cases h' : 0 ≤ i ∧ i.toNat < s.cfg.xmlDoc.length
  · rw [M.index_of_lt _ i s h'.1 h'.2, M.index_of_lt _ i _ h'.1 (by simp; omega)]
    refine ⟨_, ?_, rfl⟩
    congr 1
    simp [List.getElem_append_left h'.2]
  · rw [M.index_panic _ i s (by omega)]
    exact .inl trivial

theorem docIs32_ext0 (i v : Int) : Sim (Ext0 d) False True (docIs32 i v) (docIs32 i v) :=
  Sim.bind (docByte_ext0 i) fun _ => Sim.pure _

theorem get_ext0 {k : Parser → M Parser β} (hk : ∀ s, Sim (Ext0 d) E True (k s) (k (ext d s))) :
    Sim (Ext0 d) E True (M.get >>= k) (M.get >>= k) :=
  Sim.bind_get fun s t h => by obtain rfl := h; exact hk s

theorem detectEncoding_ext0 : Sim (Ext0 d) False True detectEncoding detectEncoding := by
  refine get_ext0 fun s => ?_
  rw [ext_offset]
  refine Sim.bind (docByte_ext0 _) fun b =>
    Sim.ite ?_ (Sim.ite ?_ (Sim.ite ?_ (Sim.ite ?_ (Sim.ite ?_ (Sim.pure _)))))
  · exact Sim.bind (Sim.modify fun s t h => by obtain rfl := h; rfl) fun _ => Sim.bind (docIs32_ext0 _ _) fun t =>
      Sim.ite (Sim.modify fun s t h => by obtain rfl := h; rfl) (Sim.raise _)
  · exact Sim.bind (Sim.modify fun s t h => by obtain rfl := h; rfl) fun _ => Sim.bind (docIs32_ext0 _ _) fun t =>
      Sim.ite (Sim.modify fun s t h => by obtain rfl := h; rfl) (Sim.raise _)
  · exact Sim.bind (Sim.and (docIs32_ext0 _ _) (Sim.and (docIs32_ext0 _ _) (docIs32_ext0 _ _))) fun t =>
      Sim.ite (Sim.modify fun s t h => by obtain rfl := h; rfl) (Sim.raise _)
  · exact Sim.bind (Sim.and (docIs32_ext0 _ _) (docIs32_ext0 _ _)) fun t =>
      Sim.ite (Sim.modify fun s t h => by obtain rfl := h; rfl) (Sim.raise _)
  · exact Sim.bind (Sim.and (docIs32_ext0 _ _) (Sim.and (docIs32_ext0 _ _) (docIs32_ext0 _ _))) fun t =>
      Sim.ite (Sim.modify fun s t h => by obtain rfl := h; rfl) (Sim.pure _)

theorem decideEncoding_ext0 : Sim (Ext0 d) False True decideEncoding decideEncoding := by
  refine Sim.bind detectEncoding_ext0 fun _ => get_ext0 fun s => ?_
  have e1 : (ext d s).enc = s.enc := rfl
  have e2 : (ext d s).offset = s.offset := rfl
  have e3 : (ext d s).cfg.nsAware = s.cfg.nsAware := rfl
  have e4 : (ext d s).cfg.docLength = s.cfg.docLength := rfl
  show Sim (Ext0 d) False True _ _
  simp only [e1, e2, e3, e4]
  exact Sim.ite (Sim.raise _) (Sim.ite (Sim.modify fun s t h => by obtain rfl := h; rfl) (Sim.pure _))

/-- In UTF-16BE the error does not depend on what follows the first byte. -/
theorem utf16be_eq {c : ParserCfg} {p : Parser} {m : Nat} (hb : p.enc.encoding = FormatUtf16BE) (h0 : 0 ≤ c.docOffset)
    (hp : p.cfg = c) (hr : p.rd = Reader.mk .utf8 c.xmlDoc c.docOffset c.endOffset)
    (h1 : c.endOffset ≤ c.xmlDoc.length) (hz : c.xmlDoc[c.docOffset.toNat]? = some 0) :
    ∃ q, mainLoop (m + 1 + 1) .docStart p = .err (if c.docOffset < c.endOffset then
      newParseError "invalid parser state" (some (0 + 1, (c.docOffset + 1 - 0) / 2 + 1)) none else newEOFError XmlIncomplete) q := by
  have hn := nextChar_rd (p := p) (by rw [hr]) (by rw [hr]; exact h0) (by rw [hr]; exact h1)
  simp only [hr] at hn
  by_cases hlt : c.docOffset < c.endOffset
  · rw [dif_pos hlt] at hn
    have h2 : (c.xmlDoc[c.docOffset.toNat]'(by omega)) = 0 := (List.getElem?_eq_some_iff.mp hz).2
    rw [h2] at hn
    have hstep : step .docStart p = .ok .invalid (p.mv (c.docOffset + 1) (c.docOffset + 1) 0) := by
      simp only [step, processDocStart, M.bind_apply, hn, Res.andThen_ok, M.get_apply, M.ite_apply]
      rw [if_neg (by simp), if_neg (by simp)]
      rfl
    rw [mainLoop_step hstep, if_pos hlt]
    refine ⟨(p.mv (c.docOffset + 1) (c.docOffset + 1) 0), mainLoop_err ?_ (by decide)⟩
    simp only [step, parseErr, fmtLine, fmtCustomLine, M.bind_apply, M.get_apply, Res.andThen_ok,
          M.ite_apply, mv_enc, hb, mv_offset, mv_cfg, hp]
    rw [if_neg (by decide), if_pos trivial,
          show ((c.docOffset + 1 - c.docOffset) / 2).toNat = 0 by omega]
    rfl
  · rw [dif_neg hlt] at hn
    have hstep : step .docStart p = .err (newEOFError XmlIncomplete) p := by
      simp only [step, processDocStart, M.bind_apply, hn]
      rfl
    rw [if_neg hlt]
    exact ⟨p, mainLoop_err hstep (by decide)⟩

/-- The value and the records, or the error. -/
def result : Res Parser Unit → Outcome ParserOut
  | .ok _ p => .value p.out
  | .err e _ => .error e
  | .panic => .panic
  | .diverge => .noReturn

theorem RelRes.result {R : Parser → Parser → Prop} (hR : ∀ s t, R s t → t.out = s.out) {r r' : Res Parser Unit}
    (h : RelRes R False True r r') (hr : (result r).Returns) : result r' = result r := by
  cases r with
  | ok a s => obtain ⟨t, rfl, h⟩ := h; simp only [Two.result, hR _ _ h]
  | err e s =>
    obtain h | ⟨t, rfl, h⟩ := h
    · exact h.elim
    · rfl
  | panic => exact hr.elim
  | diverge => exact hr.elim

/-- A parse over a longer slice. -/
theorem parse_ext {p : Parser} (hf : Fresh p) (d : List UInt8) (hr : (result (parse p)).Returns) :
    result (parse (ext d p)) = result (parse p) := by
  obtain ⟨f1, f2, f3, f4, f5, f6, f7, f8, f9⟩ := hf.fields
  have hd := decideEncoding_sat hf
  have hs := decideEncoding_ext0 (d := d) p (ext d p) rfl
  revert hr
  simp only [parse, M.bind_apply]
  cases hq : decideEncoding p with
  | err e q =>
    rw [hq] at hs
    obtain h | ⟨t, h, -⟩ := hs
    · exact h.elim
    · rw [h]; exact fun _ => rfl
  | panic => exact fun h => h.elim
  | diverge => exact fun h => h.elim
  | ok a q =>
    rw [hq] at hs hd
    obtain ⟨t, ht, rfl⟩ := hs
    rw [ht]
    simp only [Res.andThen_ok, M.bind_apply, M.get_apply]
    have hout : q.out = p.out := by
      obtain ⟨rfl, _⟩ | ⟨e, rfl, _⟩ := hd <;> rfl
    obtain ⟨b, h1, h2⟩ := appendFill (hout ▸ f9.vtd) (vtdRecord .document 0 0 q.depth)
    have hw : ∀ q' : Parser, q'.out = q.out → q'.depth = q.depth →
        writeVtd .document 0 0 q'.depth q' = .ok () { q' with out := { q.out with vtdBuffer := b } } := by
      intro q' e1 e2
      cases q'
      simp only at e1 e2
      subst e1 e2
      simp only [writeVtd, onVtd, M.zoom_apply, h1]
      rfl
    rw [hw q rfl rfl, hw (ext d q) rfl rfl]
    simp only [Res.andThen_ok]
    by_cases hx : encodingFixed q = true
    · intro hr
      refine RelRes.result (R := Ext d) (fun s t h => by rw [h.1]; rfl) ?_ hr
      refine mainLoop_ext ?_ _ _ _ ⟨rfl, hx⟩
      simp only [loopFuel, ext, List.length_append]
      omega
    · intro _
      obtain ⟨rfl, _⟩ | ⟨e, rfl, ⟨hu, he⟩ | ⟨hu, he⟩⟩ := hd
      · exact absurd (by rw [encodingFixed, f1]; rfl) hx
      · have hz := hu.1
        have hlt : p.cfg.docOffset.toNat < p.cfg.xmlDoc.length := (List.getElem?_eq_some_iff.mp hz).1
        obtain ⟨q1, e1⟩ := utf16be_eq (c := p.cfg) (p := { p with enc := e, out := { p.out with vtdBuffer := b } })
          (m := p.loopFuel - 2) he hf.start rfl f2 hf.end1 hz
        obtain ⟨q2, e2⟩ := utf16be_eq (c := (ext d p).cfg) (p := { ext d p with enc := e, out := { p.out with vtdBuffer := b } })
          (m := (ext d p).loopFuel - 2) he hf.start rfl (by simp only [ext, f2])
          (by have := hf.end1; simp only [ext, List.length_append]; omega)
          (by simp only [ext]; rw [List.getElem?_append_left hlt]; exact hz)
        have l1 : p.loopFuel = p.loopFuel - 2 + 1 + 1 := by simp only [loopFuel]; omega
        have l2 : (ext d p).loopFuel = (ext d p).loopFuel - 2 + 1 + 1 := by simp only [loopFuel]; omega
        show result (mainLoop (ext d p).loopFuel _ _) = result (mainLoop p.loopFuel _ _)
        rw [l1, l2]
        exact (congrArg result e2).trans (congrArg result e1).symm
      · exact absurd (by simp only [encodingFixed, he]; rfl) hx
end
end Two
end Parser
end GoVtd
