import Verif.Proofs.Total
import Verif.Proofs.Parser.Wp

/-!
# Proofs: a document of white space

The parse ends with the error for an invalid state.
-/

namespace GoVtd
namespace Parser
namespace Blank
variable {c : ParserCfg}

/-- White space up to the end of the window. -/
def BlankFrom (c : ParserCfg) (r : Int) : Prop :=
  ∀ i, r ≤ i → i < c.endOffset → ∃ b, c.xmlDoc[i.toNat]? = some b ∧ isSpaceChar b.toNat = true

/-- White space up to the end of the window is skipped, and then the window ends. -/
theorem afterWs {n : Nat} {p : Parser} (hb : Base c p) (hs : BlankFrom c p.rd.offset) (hn : (c.endOffset - p.rd.offset).toNat < n) :
    ∃ q, nextCharAfterWsLoop n p = .err (newEOFError XmlIncomplete) q ∧ Base c q := by
  induction n generalizing p with
  | zero => omega
  | succ n ih =>
    simp only [nextCharAfterWsLoop, M.bind_apply]
    have hm := nextChar_ok hb
    rw [nextChar_eq hb] at hm ⊢
    split
    · rename_i h
      rw [dif_pos h] at hm
      obtain ⟨r, ch, he, hb', h1⟩ := hm
      simp only [Res.andThen_ok, M.bind_apply, M.get_apply, M.ite_apply]
      obtain ⟨b, hb1, hb2⟩ := hs _ (Int.le_refl _) h
      have hc : (c.xmlDoc[p.rd.offset.toNat]'(List.getElem?_eq_some_iff.mp hb1).1) = b := (List.getElem?_eq_some_iff.mp hb1).2
      rw [if_pos (by show isSpaceChar (c.xmlDoc[p.rd.offset.toNat]'_).toNat = true; rw [hc]; exact hb2)]
      refine ih hb' (fun i hi => hs i ?_) ?_
      · have hi : p.rd.offset + 1 ≤ i := hi
        omega
      · show (c.endOffset - (p.rd.offset + 1)).toNat < _
        omega
    · exact ⟨p, rfl, hb⟩

/-- The main loop on a document of white space. -/
theorem mainLoop_blank {p : Parser} (hb : Base c p) (ho : p.rd.offset < c.endOffset) (hs : BlankFrom c p.rd.offset) (m : Nat) :
    ∃ l q, mainLoop (m + 1 + 1) .docStart p = .err (newParseError "invalid parser state" (some l) none) q := by
  have hm := nextChar_ok hb
  have hn := nextChar_eq hb
  rw [dif_pos ho] at hn
  rw [hn] at hm
  obtain ⟨r, ch, he, hb', h1⟩ := hm
  obtain ⟨b, hb1, hb2⟩ := hs _ (Int.le_refl _) ho
  have hc : (c.xmlDoc[p.rd.offset.toNat]'(List.getElem?_eq_some_iff.mp hb1).1) = b := (List.getElem?_eq_some_iff.mp hb1).2
  rw [hc] at hn hb'
  generalize hq : p.mv (p.rd.offset + 1) (p.rd.offset + 1) b.toNat = q at hn hb'
  obtain ⟨q', e1, hb2'⟩ := afterWs (n := q.loopFuel) hb' (fun i hi => hs i (by
    rw [← hq] at hi
    have hi : p.rd.offset + 1 ≤ i := hi
    omega)) (by
    have h1 := hb'.end1; have h2 := hb'.off0; have h3 := hb'.off1
    simp only [loopFuel, hb'.cfg]
    omega)
  have hcur : q.currentChar = b.toNat := by rw [← hq]; rfl
  have hsp : b.toNat = ch% ' ' ∨ b.toNat = ch% '\t' ∨ b.toNat = ch% '\n' ∨ b.toNat = ch% '\r' := by
    have := (isSpaceChar_iff _).1 hb2
    simp only [Spec.S] at this
    omega
  have hstep : step .docStart p = .ok .invalid q' := by
    simp only [step, processDocStart, M.bind_apply, hn, Res.andThen_ok, M.get_apply, M.ite_apply]
    rw [hcur, if_neg (by omega), if_pos hsp]
    simp only [M.catchErr_apply, M.bind_apply, nextCharAfterWs, M.get_apply, Res.andThen_ok, e1]
    rfl
  rw [mainLoop_step hstep]
  have hl := fmtLine_eq hb2'
  generalize (_, _) = l at hl
  refine ⟨l, q', mainLoop_err ?_ (by decide)⟩
  simp only [step, parseErr, M.bind_apply, hl, Res.andThen_ok, M.raise_apply]

/-- A parse of a document of white space. -/
theorem parse_blank {p : Parser} (hf : Fresh p) (ho : p.cfg.docOffset < p.cfg.endOffset) (h2 : p.cfg.endOffset < 2 ^ 30)
    (hs : BlankFrom p.cfg p.cfg.docOffset) :
    ∃ l q, parse p = .err (newParseError "invalid parser state" (some l) none) q := by
  obtain ⟨f1, f2, f3, f4, f5, f6, f7, f8, f9⟩ := hf.fields
  obtain ⟨b, hb1, hb2⟩ := hs _ (Int.le_refl _) ho
  have hb := hf.base (by omega) (by omega)
  have hsp := (isSpaceChar_iff _).1 hb2
  simp only [Spec.S] at hsp
  have hlt := (List.getElem?_eq_some_iff.mp hb1).1
  have hdet : detectEncoding p = .ok () p := by
    simp only [detectEncoding, M.bind_apply, M.get_apply, Res.andThen_ok, docByte, f3]
    rw [M.index_of_lt _ _ _ hf.start hlt]
    simp only [Res.andThen_ok, M.ite_apply]
    rw [(List.getElem?_eq_some_iff.mp hb1).2]
    have k : ∀ v : Int, v < 0 ∨ v = 0 ∨ v = 0x3c → byteIs32 b v = false := by
      intro v hv
      simp only [byteIs32, beq_eq_false_iff_ne, ne_eq]
      omega
    simp only [k (-2) (by omega), k (-1) (by omega), k 0 (by omega), k (-17) (by omega), k 0x3c (by omega), Bool.false_eq_true,
      if_false, M.pure_apply]
  have hdec : decideEncoding p = .ok () p := by
    simp only [decideEncoding, M.bind_apply, hdet, Res.andThen_ok, M.get_apply, M.ite_apply, M.pure_apply]
    rw [f3, ← hf.sum, if_neg (by split <;> omega), f1, if_neg (by decide)]
  simp only [parse, M.bind_apply, hdec, Res.andThen_ok, M.get_apply, writeVtd_go f9]
  have l1 : p.loopFuel = p.loopFuel - 2 + 1 + 1 := by simp only [loopFuel]; omega
  rw [l1]
  refine mainLoop_blank (c := p.cfg) (p := { p with out := push p.out (vtdRecord .document 0 0 p.depth) })
    { hb with out := push_ok f9 _ } ?_ ?_ _
  · show p.rd.offset < _; rw [f2]; exact ho
  · show BlankFrom p.cfg p.rd.offset; rw [f2]; exact hs

end Blank
end Parser
end GoVtd
