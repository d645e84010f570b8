import Verif.Spec.Parsed
import Verif.Proofs.Parser.ParseAccept
import Verif.Props.Total

/-!
# The language that `Parse` accepts, and the tokens it writes
-/

namespace GoVtd
open Parser Grammar

theorem Paged.values_fill {α : Type} (e : Nat) (xs : List α) : (Paged.fill e xs).values = xs := by
  have hk : 0 < 2 ^ e := Nat.pow_pos (by decide)
  have key : ∀ m, ((List.range m).map fun i => (xs.drop (i * 2 ^ e)).take (2 ^ e)).flatten = xs.take (m * 2 ^ e) := by
    intro m
    induction m with
    | zero => simp
    | succ m ih =>
      rw [List.range_succ, List.map_append, List.flatten_append, ih]
      simp only [List.map_cons, List.map_nil, List.flatten_cons, List.flatten_nil, List.append_nil]
      rw [Nat.succ_mul, List.take_add]
  simp only [values, Paged.fill, Paged.pages, key]
  rw [List.take_of_length_le (i := Paged.numPages (2 ^ e) xs.length * 2 ^ e)]
  · simp
  · exact (Paged.numPages_le hk).1 (Nat.le_refl _)

theorem flush_vtd (d : Int) (o : ParserOut) : (flush d o).vtdBuffer = o.vtdBuffer := by
  simp only [flush]; repeat' split
  all_goals rfl

theorem cache_vtd (d last : Int) (o : ParserOut) : (cache d last o).vtdBuffer = o.vtdBuffer := by
  simp only [cache]; repeat' split
  all_goals first | rfl | exact flush_vtd _ _

theorem finish_vtd (s : Bool) (o : ParserOut) : (finish s o).vtdBuffer = o.vtdBuffer := by
  simp only [finish]; repeat' split
  all_goals first | rfl | exact flush_vtd _ _

theorem emit_values {o : ParserOut} (h : OutOk o) (s : Bool) (xs : List Rec) :
    (Parser.emit s o xs).vtdBuffer.values = o.vtdBuffer.values ++ xs.map Rec.word := by
  induction xs generalizing o with
  | nil => simp
  | cons x xs ih =>
    rw [emit_cons, ih (emit1_ok h s x)]
    have : (emit1 s o x).vtdBuffer.values = o.vtdBuffer.values ++ [x.word] := by
      obtain ⟨e, ys, hy⟩ := h.vtd
      have hp : (push o (Parser.word x)).vtdBuffer.values = o.vtdBuffer.values ++ [x.word] := by
        simp only [push, hy, bpush_fill, Paged.values_fill]
        rfl
      simp only [emit1]
      split
      · rw [pushL5, ← hp, cache_vtd]
      · exact hp
    rw [this]
    simp

theorem SelectRest.args {opts : List ParserOption} {doc : List UInt8} {o : Nat} (h : SelectRest opts doc o) :
    GoArgs opts := by
  obtain ⟨l, h1, h2⟩ := h.window
  have := h.size
  intro d o' l' hc
  rw [h1] at hc
  cases hc
  simp only [IsInt]
  omega

/-- What the options make of a parser. -/
theorem SelectRest.parser {fuel : Nat} {opts : List ParserOption} {doc : List UInt8} {o : Nat}
    (h : SelectRest opts doc o) {p : Parser} (hp : newVtdParser fuel opts = .ok p) :
    p.cfg.xmlDoc = doc ∧ p.cfg.docOffset = o ∧ p.cfg.endOffset = doc.length ∧ p.cfg.nsAware = false ∧
      p.out = initOut (!chosenDeep opts) (doc.length - o) ∧ p.cfg.shallowDepth = !chosenDeep opts := by
  obtain ⟨l, h1, h2⟩ := h.window
  obtain ⟨c1, c2, c3, c4, _⟩ := C54_config h.args hp
  rw [h1] at c1
  simp only [Option.some.injEq, Prod.mk.injEq] at c1
  obtain ⟨e1, e2, e3⟩ := c1
  refine ⟨e1.symm, e2.symm, by omega, c3.trans h.ns, ?_, c4⟩
  obtain ⟨_, a, hi⟩ := (newVtdParser_fresh hp).init
  rw [hi] at c4 e3 ⊢
  have e3' : a.length = l := e3.symm
  have c4' : a.shallowDepth = !chosenDeep opts := c4
  show initOut a.shallowDepth a.length = _
  rw [c4', e3']
  congr 1
  omega

theorem initOut_values (s : Bool) (n : Int) : (initOut s n).vtdBuffer.values = [] := by
  have key : ∀ k : Nat, (freshBuffer (BitVec 64) k).values = [] := by
    intro k
    simp only [freshBuffer, Paged.values]
    rfl
  cases s <;> exact key _

theorem SelectRest.makes {fuel : Nat} {opts : List ParserOption} {doc : List UInt8} {o : Nat}
    (h : SelectRest opts doc o) (ho : o < doc.length) : ∃ p, newVtdParser fuel opts = .ok p := by
  obtain ⟨l, h1, h2⟩ := h.window
  refine (C54_exact fuel opts h.args).2 ⟨doc, o, l, h1, ?_, by omega, by omega, by omega, by omega⟩
  rintro rfl
  simp at ho

theorem parsed_some {fuel : Nat} {opts : List ParserOption} {p : Parser} :
    parsed fuel opts = some p ↔ ∃ p0, newVtdParser fuel opts = .ok p0 ∧ Parser.parse p0 = .ok () p := by
  simp only [parsed]
  cases newVtdParser fuel opts with
  | error e => simp
  | ok p0 =>
    simp only [Except.ok.injEq, exists_eq_left']
    cases Parser.parse p0 <;> simp

/-- The complete result of a parse: for which documents it succeeds, and with which buffers. -/
theorem parsed_iff {fuel : Nat} {opts : List ParserOption} {doc : List UInt8} {o : Nat}
    (h : SelectRest opts doc o) {out : ParserOut} :
    (∃ p, parsed fuel opts = some p ∧ p.out = out) ↔
      doc.length < 2 ^ 31 ∧ ∃ recs, Doc doc.length (doc.drop o) recs ∧
        out = finish (!chosenDeep opts) (Parser.emit (!chosenDeep opts)
          (initOut (!chosenDeep opts) (doc.length - o)) (docRec :: recs)) := by
  have key : ∀ p0, newVtdParser fuel opts = .ok p0 → ((∃ p, Parser.parse p0 = .ok () p ∧ p.out = out) ↔
      doc.length < 2 ^ 31 ∧ ∃ recs, Doc doc.length (doc.drop o) recs ∧
        out = finish (!chosenDeep opts) (Parser.emit (!chosenDeep opts)
          (initOut (!chosenDeep opts) (doc.length - o)) (docRec :: recs))) := by
    intro p0 hp
    obtain ⟨e1, e2, e3, e4, e5, e6⟩ := h.parser hp
    rw [parse_accept (newVtdParser_fresh hp) e4 (by rw [e3, e1]), e1, e2, e5, e6]
    rfl
  constructor
  · rintro ⟨p, hp, ho⟩
    obtain ⟨p0, h1, h2⟩ := parsed_some.1 hp
    exact (key p0 h1).1 ⟨p, h2, ho⟩
  · rintro hd
    have : o < doc.length := by
      obtain ⟨b, t, hbt, _⟩ := doc_head hd.2.choose_spec.1
      have := congrArg List.length hbt
      simp only [List.length_drop, List.length_cons] at this
      omega
    obtain ⟨p0, h1⟩ := h.makes (fuel := fuel) this
    obtain ⟨p, h2, h3⟩ := (key p0 h1).2 hd
    exact ⟨p, parsed_some.2 ⟨p0, h1, h2⟩, h3⟩

/-- C34, the general form: `Parse` succeeds exactly on the documents of the grammar, and the token records it
writes are exactly the ones the grammar gives. -/
theorem C34_exact (fuel : Nat) (opts : List ParserOption) (doc : List UInt8) (o : Nat)
    (h : SelectRest opts doc o) (ws : List (BitVec 64)) :
    parsedTokens fuel opts = some ws ↔
      doc.length < 2 ^ 31 ∧ ∃ recs, Doc doc.length (doc.drop o) recs ∧ ws = (docRec :: recs).map Rec.word := by
  have hv : ∀ recs, (finish (!chosenDeep opts) (Parser.emit (!chosenDeep opts)
      (initOut (!chosenDeep opts) (doc.length - o)) (docRec :: recs))).vtdBuffer.values =
      (docRec :: recs).map Rec.word := by
    intro recs
    rw [finish_vtd, emit_values (initOut_ok _ _), initOut_values, List.nil_append]
  simp only [parsedTokens, Option.map_eq_some_iff]
  constructor
  · rintro ⟨p, hp, rfl⟩
    obtain ⟨h1, recs, h2, h3⟩ := (parsed_iff h).1 ⟨p, hp, rfl⟩
    exact ⟨h1, recs, h2, by rw [h3]; exact hv recs⟩
  · rintro ⟨h1, recs, h2, rfl⟩
    obtain ⟨p, hp, ho⟩ := (parsed_iff h).2 ⟨h1, recs, h2, rfl⟩
    exact ⟨p, hp, by rw [ho]; exact hv recs⟩

end GoVtd
