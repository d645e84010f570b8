import Verif.Proofs.Parser.Base

/-!
# Line numbers of errors
-/

namespace GoVtd

theorem newlines_of_le (doc : List UInt8) {start o : Nat} (h : o ≤ start) :
    newlines doc start o = 0 := by
  simp only [newlines]
  rw [List.drop_eq_nil_of_le (by simp; omega)]
  rfl

theorem newlines_succ (doc : List UInt8) {start o : Nat} (h : start ≤ o) (h2 : o < doc.length) :
    newlines doc start (o + 1) = newlines doc start o + if doc[o] = 0x0A then 1 else 0 := by
  simp only [newlines, List.take_add_one, List.getElem?_eq_getElem h2, Option.toList]
  rw [List.drop_append_of_le_length (by simp; omega), List.count_append]
  congr 1
  simp only [List.count_cons, List.count_nil, Nat.zero_add]
  split <;> split <;> simp_all

theorem lastNewline_of_le (doc : List UInt8) {start o : Nat} (h : o ≤ start) :
    lastNewline doc start o = 0 := by
  simp only [lastNewline]
  rw [List.filter_eq_nil_iff.mpr]
  · rfl
  · intro a ha
    have := List.mem_range.mp ha
    simp only [Bool.and_eq_true, decide_eq_true_eq, not_and]
    omega

theorem lastNewline_succ (doc : List UInt8) {start o : Nat} (h : start ≤ o) (h2 : o < doc.length) :
    lastNewline doc start (o + 1) = if doc[o] = 0x0A then o else lastNewline doc start o := by
  simp only [lastNewline, List.range_succ, List.filter_append, List.filter_cons, List.filter_nil,
    h, decide_true, Bool.true_and, List.getElem?_eq_getElem h2]
  split
  · rename_i h3
    have h3 : doc[o] = 0x0A := by simpa using h3
    simp [h3]
  · rename_i h3
    have h3 : ¬ doc[o] = 0x0A := by simpa using h3
    simp [h3]

namespace Parser
variable {c : ParserCfg} {p : Parser}

theorem lineLoop_eq (hp : p.cfg = c) (start : Nat) (n : Nat) (so : Nat) (hs : start ≤ so)
    (hn : so + n ≤ c.xmlDoc.length) :
    lineLoop (fun so => docIs so (ch% '\n')) 1 n so (newlines c.xmlDoc start so)
        (lastNewline c.xmlDoc start so) p =
      .ok ((newlines c.xmlDoc start (so + n) : Int), (lastNewline c.xmlDoc start (so + n) : Int)) p := by
  induction n generalizing so with
  | zero => rfl
  | succ n ih =>
    obtain ⟨b, hb1, hb2⟩ := docByte_eq (p := p) hp (i := so) (by omega) (by omega)
    have hlt : so < c.xmlDoc.length := by omega
    simp only [Int.toNat_natCast, List.getElem?_eq_getElem hlt, Option.some.injEq] at hb1
    simp only [lineLoop, M.bind_apply, docIs, hb2, Res.andThen_ok, M.pure_apply, M.ite_apply]
    have ih := ih (so + 1) (by omega) (by omega)
    rw [newlines_succ _ hs hlt, lastNewline_succ _ hs hlt, hb1] at ih
    rw [show so + (n + 1) = so + 1 + n by omega, show ((so : Int) + 1) = ((so + 1 : Nat) : Int) by simp]
    by_cases h : b = 0x0A
    · simp only [h, if_true] at ih
      simp only [h, BEq.rfl, if_true]
      exact ih
    · simp only [h, if_false] at ih
      rw [if_neg (by simpa using h)]
      exact ih

theorem fmtLine_eq (hb : Base c p) :
    fmtLine p = .ok ((newlines c.xmlDoc c.docOffset.toNat p.offset.toNat + 1 : Int),
      p.offset - lastNewline c.xmlDoc c.docOffset.toNat p.offset.toNat + 1) p := by
  have h0 := hb.off0; have h1 := hb.off1; have h2 := hb.off2; have h3 := hb.start
  have henc : p.enc.encoding = FormatAscii := by rw [hb.enc]; rfl
  simp only [fmtLine, fmtCustomLine, M.bind_apply, M.get_apply, Res.andThen_ok, henc]
  rw [if_pos (by decide)]
  have hcfg := hb.cfg
  have key : lineLoop (fun so => docIs so (ch% '\n')) 1 (p.offset - c.docOffset).toNat
      c.docOffset 0 0 p = .ok ((newlines c.xmlDoc c.docOffset.toNat p.offset.toNat : Int),
        (lastNewline c.xmlDoc c.docOffset.toNat p.offset.toNat : Int)) p := by
    by_cases h : p.offset ≤ c.docOffset
    · rw [show (p.offset - c.docOffset).toNat = 0 by omega, newlines_of_le _ (by omega),
        lastNewline_of_le _ (by omega)]
      rfl
    · have := lineLoop_eq hcfg c.docOffset.toNat (p.offset - c.docOffset).toNat c.docOffset.toNat
        (Nat.le_refl _) (by omega)
      rw [newlines_of_le _ (Nat.le_refl _), lastNewline_of_le _ (Nat.le_refl _)] at this
      rw [show c.docOffset.toNat + (p.offset - c.docOffset).toNat = p.offset.toNat by omega,
        show ((c.docOffset.toNat : Nat) : Int) = c.docOffset by omega] at this
      exact this
  rw [M.bind_apply, hcfg, key]
  rfl

theorem parseErr_eq {α : Type} (hb : Base c p) (msg : String) :
    ∃ e, (parseErr msg p : Res Parser α) = .err e p ∧ Er c e p := by
  simp only [parseErr, M.bind_apply, fmtLine_eq hb, Res.andThen_ok, M.raise_apply]
  exact ⟨_, rfl, hb.cfg, rfl⟩

theorem parseErr_sat {α : Type} {Q : α → Parser → Prop} {P D : Prop} (hb : Base c p) (msg : String) :
    (parseErr msg p).Sat Q (Er c) P D := by
  obtain ⟨e, h1, h2⟩ := parseErr_eq (α := α) hb msg
  rw [h1]; exact h2

end Parser
end GoVtd
