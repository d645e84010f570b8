import Verif.Proofs.Total
import Verif.Spec.Parse

/-!
# Properties C29, C30, C36, C39, C54: construction, termination, panics, first bytes, lines
-/

namespace GoVtd
open Parser

/-! ## C54: the constructor -/

/-- The fields written by the options are the ones selected. -/
theorem args_chosen (opts : List ParserOption) :
    let a := opts.foldl ParserArgs.apply {}
    a.doc = (chosenDoc opts).map (·.1) ∧
    (∀ doc o l, chosenDoc opts = some (doc, o, l) → a.offset = o ∧ (a.length = l ∨ a.length = wrap64 l)) ∧
    a.nsAware = chosenNs opts ∧ a.shallowDepth = !chosenDeep opts := by
  simp only [chosenDoc, chosenNs, chosenDeep]
  have key : ∀ (opts : List ParserOption) (a : ParserArgs) (w : Option (List UInt8 × Int × Int)) (b d : Bool),
      (a.doc = w.map (·.1) ∧
      (∀ doc o l, w = some (doc, o, l) → a.offset = o ∧ (a.length = l ∨ a.length = wrap64 l)) ∧
      a.nsAware = b ∧ a.shallowDepth = !d) →
      let a := opts.foldl ParserArgs.apply a
      let w := opts.foldl (fun w o => match o with
        | .xmlDoc d => d.map fun doc => (doc, 0, (doc.length : Int))
        | .xmlDocCustomOffset d o l => d.map fun doc => (doc, o, l)
        | _ => w) w
      a.doc = w.map (·.1) ∧
      (∀ doc o l, w = some (doc, o, l) → a.offset = o ∧ (a.length = l ∨ a.length = wrap64 l)) ∧
      a.nsAware = opts.foldl (fun b o => match o with
        | .nameSpaceAware b' => b'
        | _ => b) b ∧
      a.shallowDepth = !opts.foldl (fun b o => match o with
        | .lcDepth d => if d = 3 then false else if d = 5 then true else b
        | _ => b) d := by
    intro opts
    induction opts with
    | nil => intro a w b d h; exact h
    | cons o os ih =>
      intro a w b d h
      obtain ⟨h1, h2, h3, h4⟩ := h
      simp only [List.foldl_cons]
      refine ih _ _ _ _ ?_
      cases o with
      | xmlDoc x =>
        cases x with
        | none => exact ⟨rfl, nofun, h3, h4⟩
        | some doc => exact ⟨rfl, fun _ _ _ h => (by cases h; exact ⟨rfl, Or.inr rfl⟩), h3, h4⟩
      | xmlDocCustomOffset x o l =>
        cases x with
        | none => exact ⟨rfl, nofun, h3, h4⟩
        | some doc => exact ⟨rfl, fun _ _ _ h => (by cases h; exact ⟨rfl, Or.inl rfl⟩), h3, h4⟩
      | nameSpaceAware x => exact ⟨h1, h2, rfl, h4⟩
      | bufferReuse x => exact ⟨h1, h2, h3, h4⟩
      | lcDepth x =>
        simp only [ParserArgs.apply]
        split
        · exact ⟨h1, h2, h3, rfl⟩
        · split
          · exact ⟨h1, h2, h3, rfl⟩
          · exact ⟨h1, h2, h3, h4⟩
  exact key opts {} none false false ⟨rfl, nofun, rfl, rfl⟩

/-- A Go `int`. -/
def IsInt (x : Int) : Prop := -2 ^ 63 ≤ x ∧ x < 2 ^ 63

theorem wrap64_id {x : Int} (h : IsInt x) : wrap64 x = x := wrap64_of_range h.1 h.2

/-- The selected document, offset and length are Go values. -/
def GoArgs (opts : List ParserOption) : Prop :=
  ∀ doc o l, chosenDoc opts = some (doc, o, l) → IsInt doc.length ∧ IsInt o ∧ IsInt l

/-- C54: for which options `NewVtdParser` succeeds. -/
theorem C54_exact (fuel : Nat) (opts : List ParserOption) (hg : GoArgs opts) :
    (∃ p, newVtdParser fuel opts = .ok p) ↔
      ∃ doc o l, chosenDoc opts = some (doc, o, l) ∧ doc ≠ [] ∧ 0 ≤ o ∧ l ≠ 0 ∧
        0 ≤ o + l ∧ o + l ≤ doc.length := by
  obtain ⟨c1, c2, c3, c4⟩ := args_chosen opts
  have cs := args_sum opts {} rfl
  simp only [newVtdParser]
  generalize opts.foldl ParserArgs.apply {} = a at c1 c2 c3 c4 cs
  rw [c1]
  cases hc : chosenDoc opts with
  | none => simp
  | some w =>
    obtain ⟨doc, o, l⟩ := w
    obtain ⟨rfl, e2⟩ := c2 _ _ _ hc
    obtain ⟨g1, g2, g3⟩ := hg _ _ _ hc
    have e2 : a.length = l := by
      rcases e2 with e2 | e2
      · exact e2
      · rw [e2, wrap64_id g3]
    simp only [Option.map_some]
    constructor
    · rintro ⟨p, h⟩
      split at h
      · cases h
      split at h
      · cases h
      split at h
      · cases h
      rename_i h1 h2 h3
      simp only [Reader.newUtf8] at h
      rw [if_neg h2] at h
      by_cases h4 : a.endOffset < 0 ∨ a.endOffset > doc.length
      · rw [if_pos h4] at h; cases h
      · simp only [IsInt] at g1 g2 g3
        have hr : a.offset + l < 2 ^ 63 := by
          apply Decidable.byContradiction
          intro hr
          have : wrap64 (a.offset + l) = a.offset + l - 2 ^ 64 := by
            simp only [wrap64, BitVec.toInt_ofInt, Int.bmod_def]
            omega
          rw [e2, this] at cs
          omega
        have hw : wrap64 (a.offset + l) = a.offset + l := wrap64_id ⟨by omega, hr⟩
        rw [e2, hw] at cs
        exact ⟨doc, a.offset, l, rfl, by intro h; apply h1; rw [h]; rfl, by omega,
          by intro h; apply h3; left; rw [e2]; exact h, by omega, by omega⟩
    · rintro ⟨doc', o', l', h0, h1, h2, h3, h4, h5⟩
      cases h0
      simp only [IsInt] at g1 g2 g3
      have hw : wrap64 (a.offset + l) = a.offset + l := wrap64_id ⟨by omega, by omega⟩
      rw [e2, hw] at cs
      rw [if_neg (by rw [List.length_eq_zero_iff]; exact h1), if_neg (by omega),
        if_neg (by rw [e2, hw]; omega)]
      simp only [Reader.newUtf8]
      rw [if_neg (by omega), if_neg (by omega)]
      exact ⟨_, rfl⟩

/-- C54: the parser made keeps what the options selected. -/
theorem C54_config {fuel : Nat} {opts : List ParserOption} (hg : GoArgs opts) {p : Parser}
    (h : newVtdParser fuel opts = .ok p) :
    chosenDoc opts = some (p.cfg.xmlDoc, p.cfg.docOffset, p.cfg.length) ∧
    p.cfg.endOffset = p.cfg.docOffset + p.cfg.length ∧
    p.cfg.nsAware = chosenNs opts ∧ p.cfg.shallowDepth = !chosenDeep opts ∧ p.cfg.matchFuel = fuel := by
  have hx := (C54_exact fuel opts hg).mp ⟨p, h⟩
  obtain ⟨doc, o, l, hc, -, h2, h3, h4, h5⟩ := hx
  obtain ⟨c1, c2, c3, c4⟩ := args_chosen opts
  have cs := args_sum opts {} rfl
  simp only [newVtdParser] at h
  generalize opts.foldl ParserArgs.apply {} = a at c1 c2 c3 c4 cs h
  obtain ⟨rfl, e2⟩ := c2 _ _ _ hc
  obtain ⟨g1, g2, g3⟩ := hg _ _ _ hc
  have e2 : a.length = l := by
    rcases e2 with e2 | e2
    · exact e2
    · rw [e2, wrap64_id g3]
  rw [hc] at c1
  simp only [IsInt] at g1 g2 g3
  have hw : wrap64 (a.offset + l) = a.offset + l := wrap64_id ⟨by omega, by omega⟩
  rw [e2, hw] at cs
  rw [c1] at h
  simp only [Option.map_some] at h
  split at h
  · cases h
  split at h
  · cases h
  split at h
  · cases h
  rename_i h1 h2 h3
  simp only [Reader.newUtf8] at h
  rw [if_neg h2, if_neg (by omega)] at h
  cases h
  refine ⟨by rw [hc, ← e2]; rfl, by show a.endOffset = a.offset + a.length; omega, c3, c4, rfl⟩

/-- C54 as stated holds for lengths that are not negative. -/
theorem C54_partial (fuel : Nat) (opts : List ParserOption) (hg : GoArgs opts)
    (hl : ∀ doc o l, chosenDoc opts = some (doc, o, l) → 0 ≤ l) :
    (∃ p, newVtdParser fuel opts = .ok p) ↔
      ∃ doc o l, chosenDoc opts = some (doc, o, l) ∧ doc ≠ [] ∧ 0 ≤ o ∧ 0 < l ∧ o + l ≤ doc.length := by
  rw [C54_exact fuel opts hg]
  constructor
  · rintro ⟨doc, o, l, h1, h2, h3, h4, h5, h6⟩
    have := hl _ _ _ h1
    exact ⟨doc, o, l, h1, h2, h3, by omega, h6⟩
  · rintro ⟨doc, o, l, h1, h2, h3, h4, h5⟩
    exact ⟨doc, o, l, h1, h2, h3, by omega, by omega, h5⟩

/-- C54 as stated is false: a negative length is accepted. -/
theorem C54_refuted : ∃ opts doc o l, chosenDoc opts = some (doc, o, l) ∧ GoArgs opts ∧ l < 0 ∧
    ∃ p, newVtdParser 0 opts = .ok p := by
  refine ⟨[.xmlDocCustomOffset (some (bytes "<a/>")) 3 (-2)], _, _, _, rfl, ?_, by decide, _, rfl⟩
  intro doc o l h
  cases h
  simp only [IsInt]
  decide

example : GoArgs [.xmlDoc none, .nameSpaceAware true, .xmlDocCustomOffset (some (bytes "  <a/> ")) 2 4] ∧
    chosenDoc [.xmlDoc none, .nameSpaceAware true, .xmlDocCustomOffset (some (bytes "  <a/> ")) 2 4] =
      some (bytes "  <a/> ", 2, 4) := by
  refine ⟨?_, rfl⟩
  intro doc o l h
  cases h
  simp only [IsInt]
  decide

theorem prefix4 (doc : List UInt8) (n : Nat) (a b c d : UInt8) :
    (doc[n]? = some a ∧ doc[n + 1]? = some b ∧ doc[n + 2]? = some c ∧ doc[n + 3]? = some d) ↔
      [a, b, c, d] <+: doc.drop n := by
  have e : ∀ k, doc[n + k]? = (doc.drop n)[k]? := fun k => by rw [List.getElem?_drop]
  rw [e 1, e 2, e 3, show doc[n]? = (doc.drop n)[0]? from e 0]
  generalize doc.drop n = l
  rcases l with _ | ⟨x0, _ | ⟨x1, _ | ⟨x2, _ | ⟨x3, l⟩⟩⟩⟩ 
  all_goals simp [List.cons_prefix_cons]
  constructor <;> (rintro ⟨rfl, rfl, rfl, rfl⟩; simp)

theorem utf16BE_iff {c : ParserCfg} :
    Utf16BE c ↔ [0x00, 0x3c, 0x00, 0x3f] <+: c.xmlDoc.drop c.docOffset.toNat := prefix4 _ _ _ _ _ _

theorem utf16LE_iff {c : ParserCfg} :
    Utf16LE c ↔ [0x3c, 0x00, 0x3f, 0x00] <+: c.xmlDoc.drop c.docOffset.toNat := prefix4 _ _ _ _ _ _

/-! ## C29: termination -/

/-- C29 without namespace awareness: `Parse` comes back, with at most two state transitions more
than the document has bytes (the number the model grants to the main loop). -/
theorem C29_partial {fuel : Nat} {opts : List ParserOption} {p : Parser}
    (h : newVtdParser fuel opts = .ok p) (hns : p.cfg.nsAware = false) :
    (parse p).outcome ≠ .noReturn := by
  have hs := parse_sat (newVtdParser_fresh h) hns
  cases hr : parse p with
  | ok a s => simp [Res.outcome]
  | err e s => simp [Res.outcome]
  | panic => simp [Res.outcome]
  | diverge => rw [hr] at hs; exact hs.elim

/-! ## C30: panics -/

/-- C30 is false: a document that ends after `<`. -/
theorem C30_refuted_truncated : parseDoc (bytes "<") = .panic := by decide +kernel

/-- C30 is false: a document that ends after the `<` of a later tag. -/
theorem C30_refuted_truncated_content : parseDoc (bytes "<a><") = .panic := by decide +kernel

/-- C30 is false: an end tag before any start tag. -/
theorem C30_refuted_end_tag : parseDoc (bytes "</a>") = .panic := by decide +kernel

/-- C30 is false: a document that ends in the middle of a processing instruction after the root
element. -/
theorem C30_refuted_pi : parseDoc (bytes "<a/><?b?") = .panic := by decide +kernel

/-- C30: without namespace awareness these are the only causes of a panic: no NUL byte follows the
window (so that looking ahead can leave the slice), the window ends within the first bytes, an end
tag is met while no element is open, or a start tag has a 257th attribute. -/
theorem C30_partial {fuel : Nat} {opts : List ParserOption} {p : Parser}
    (h : newVtdParser fuel opts = .ok p) (hns : p.cfg.nsAware = false)
    (hp : (parse p).outcome = .panic) :
    p.cfg.xmlDoc[p.cfg.endOffset.toNat]? ≠ some 0 ∨ p.cfg.xmlDoc.length ≤ p.cfg.docOffset.toNat + 3 ∨
    ∃ p1 st q, begin_ p = .ok () p1 ∧ Reach (.docStart, p1) (st, q) ∧
      ((st = .tagEnd ∧ q.depth = -1) ∨ (st = .attrName ∧ q.at_.attrCount = 256)) := by
  have hs := parse_sat (newVtdParser_fresh h) hns
  cases hr : parse p with
  | ok a s => rw [hr] at hp; cases hp
  | err e s => rw [hr] at hp; cases hp
  | panic =>
    rw [hr] at hs
    obtain h1 | h1 | ⟨p1, ⟨st, q⟩, h1, h2, h3⟩ := hs
    · exact Or.inl h1
    · exact Or.inr (Or.inl h1.1)
    · exact Or.inr (Or.inr ⟨p1, st, q, h1, h2, h3⟩)
  | diverge => rw [hr] at hp; cases hp

/-! ## C36: the first bytes -/

/-- C36: a document that `Parse` accepts starts, in its window, with `<` or white space, and does not
look like UTF-16. In particular it has no byte order mark. -/
theorem C36_first_bytes {fuel : Nat} {opts : List ParserOption} {p p' : Parser}
    (h : newVtdParser fuel opts = .ok p) (hp : parse p = .ok () p') :
    ∃ b rest, p.cfg.xmlDoc.drop p.cfg.docOffset.toNat = b :: rest ∧
      (b = 0x3c ∨ b = 0x20 ∨ b = 0x09 ∨ b = 0x0A ∨ b = 0x0D) ∧ ¬ LooksUtf16 (b :: rest) := by
  have hf := newVtdParser_fresh h
  obtain ⟨f1, f2, f3, f4, f5, f6, f7, f8, f9⟩ := hf.fields
  have hd := decideEncoding_sat hf
  rw [parse_eq] at hp
  simp only [M.bind_apply, begin_] at hp
  cases hr : decideEncoding p with
  | err e q => rw [hr] at hp; cases hp
  | panic => rw [hr] at hp; cases hp
  | diverge => rw [hr] at hp; cases hp
  | ok a q =>
    rw [hr] at hp hd
    simp only [Res.andThen_ok, M.bind_apply, M.get_apply] at hp
    have hw : ∃ o, writeVtd .document 0 0 q.depth q = .ok () { q with out := o } := by
      have : q.out = p.out := by
        obtain ⟨rfl, _⟩ | ⟨e, rfl, _⟩ := hd <;> rfl
      obtain ⟨b, h1, h2⟩ := appendFill (this ▸ f9.vtd) (vtdRecord .document 0 0 q.depth)
      simp only [writeVtd, onVtd, M.zoom_apply, h1]
      exact ⟨_, rfl⟩
    obtain ⟨o, hw⟩ := hw
    rw [hw] at hp
    simp only [Res.andThen_ok, M.bind_apply, M.get_apply] at hp
    obtain ⟨rfl, n1, n2, n3⟩ | ⟨e, rfl, hu⟩ := hd
    · have hn := nextChar_rd (p := { q with out := o }) (by rw [f2]) (by rw [f2]; exact hf.start)
        (by rw [f2]; exact hf.end1)
      have hlt : q.cfg.docOffset < q.cfg.endOffset := by
        apply Decidable.byContradiction
        intro hlt
        rw [dif_neg (by rw [f2]; exact hlt)] at hn
        have : ∃ e p', step .docStart { q with out := o } = .err e p' := by
          simp only [step, processDocStart, M.bind_apply, hn]
          exact ⟨_, _, rfl⟩
        obtain ⟨e, p2, hstep⟩ := this
        simp only [loopFuel] at hp
        rw [mainLoop_err hstep (by decide)] at hp
        cases hp
      have hst := hf.start; have hle := hf.end1
      have hn : nextChar { q with out := o } = .ok () (({ q with out := o } : Parser).mv (q.cfg.docOffset + 1)
          (q.cfg.docOffset + 1) (q.cfg.xmlDoc[q.cfg.docOffset.toNat]'(by omega)).toNat) := by
        have hb : Base q.cfg { q with out := q.out } := hf.base (by omega) n3
        rw [hn, dif_pos (by rw [f2]; exact hlt)]
        simp only [f2]
      refine ⟨q.cfg.xmlDoc[q.cfg.docOffset.toNat]'(by omega), q.cfg.xmlDoc.drop (q.cfg.docOffset.toNat + 1),
        (List.drop_eq_getElem_cons (by omega)), ?_, ?_⟩
      · apply Decidable.byContradiction
        intro hne
        generalize (q.cfg.xmlDoc[q.cfg.docOffset.toNat]'(by omega)) = b at hn hne
        have hb : ¬ (b.toNat = 60) ∧ ¬ (b.toNat = 32 ∨ b.toNat = 9 ∨ b.toNat = 10 ∨ b.toNat = 13) := by
          have e : ∀ k : UInt8, b.toNat = k.toNat → b = k := fun k hk => UInt8.toNat_inj.mp hk
          constructor
          · intro hk; exact hne (Or.inl (e 60 hk))
          · rintro (hk | hk | hk | hk)
            · exact hne (Or.inr (Or.inl (e 32 hk)))
            · exact hne (Or.inr (Or.inr (Or.inl (e 9 hk))))
            · exact hne (Or.inr (Or.inr (Or.inr (Or.inl (e 10 hk)))))
            · exact hne (Or.inr (Or.inr (Or.inr (Or.inr (e 13 hk)))))
        have hstep : ∃ p2, step .docStart { q with out := o } = .ok .invalid p2 := by
          simp only [step, processDocStart, M.bind_apply, hn, Res.andThen_ok, M.get_apply, M.ite_apply]
          rw [if_neg, if_neg]
          · exact ⟨_, rfl⟩
          · exact hb.2
          · exact hb.1
        obtain ⟨p2, hstep⟩ := hstep
        simp only [loopFuel] at hp
        rw [mainLoop_step hstep] at hp
        simp only [mainLoop, step, M.bind_apply, M.catchErr_apply, parseErr] at hp
        cases hl : fmtLine p2 with
        | ok a s =>
          rw [hl] at hp
          simp only [Res.andThen_ok, M.raise_apply, Res.andThen_err, Res.handle_err, onStepErr, M.ite_apply] at hp
          rw [if_neg (fun h => absurd h.2 (by decide))] at hp
          cases hp
        | err e s =>
          rw [hl] at hp
          simp only [Res.andThen_err, Res.handle_err, onStepErr, M.ite_apply] at hp
          rw [if_neg (fun h => absurd h.2 (by decide))] at hp
          cases hp
        | panic => rw [hl] at hp; cases hp
        | diverge => rw [hl] at hp; cases hp
      · rw [← List.drop_eq_getElem_cons (by omega)]
        rintro (hx | hx)
        · exact n1 (utf16BE_iff.mpr hx)
        · exact n2 (utf16LE_iff.mpr hx)
    · obtain ⟨e', p2, h1, h2⟩ := utf16_err (c := p.cfg) (p := { p with enc := e, out := o })
        (p.cfg.xmlDoc.length + 2) (by omega) rfl f2 hf.start hf.end1 (by exact hu)
      simp only [loopFuel] at hp
      rw [h1] at hp
      cases hp

/-! ## C39: line and column in errors -/

/-- C39 without namespace awareness, for documents that do not look like UTF-16: every `ParseError`
that carries a line text reports the line and column of the offset at which `Parse` stopped. -/
theorem C39_partial {fuel : Nat} {opts : List ParserOption} {p p' : Parser} {e : GoErr}
    (h : newVtdParser fuel opts = .ok p) (hns : p.cfg.nsAware = false)
    (hu : ¬ LooksUtf16 (p.cfg.xmlDoc.drop p.cfg.docOffset.toNat)) (hp : parse p = .err e p') :
    e.LineIs (newlines p.cfg.xmlDoc p.cfg.docOffset.toNat p'.offset.toNat + 1)
      (p'.offset - lastNewline p.cfg.xmlDoc p.cfg.docOffset.toNat p'.offset.toNat + 1) := by
  have hs := parse_sat (newVtdParser_fresh h) hns
  rw [hp] at hs
  refine (hs.2 (fun hx => hu ?_) (fun hx => hu ?_)).2
  · exact Or.inl (utf16BE_iff.mp hx)
  · exact Or.inr (utf16LE_iff.mp hx)

/-- A parser for one document, for the examples. -/
def exampleParser (doc : List UInt8) : Except GoErr Parser := newVtdParser 0 [.xmlDoc (some doc)]

/-- The error of a parse and the offset at which it stopped, for the examples. -/
def errorAt (doc : List UInt8) : Option (GoErr × Int) :=
  match exampleParser doc with
  | .error _ => none
  | .ok p => match parse p with
    | .err e p' => some (e, p'.offset)
    | _ => none

/-- The start tag at line 2 has a bad character at offset 8. -/
example : errorAt (bytes "<a>\n<b #/></a>") =
    some (newParseError "invalid char in starting tag" (some (2, 6)) none, 8) := by decide +kernel

example : newlines (bytes "<a>\n<b #/></a>") 0 8 + 1 = 2 ∧
    8 - lastNewline (bytes "<a>\n<b #/></a>") 0 8 + 1 = 6 := by decide

example : parseDoc (bytes "<a b='1'>x</a>") = .value () := by decide +kernel

example : ¬ LooksUtf16 (bytes "<a b='1'>x</a>") := by
  rintro (h | h) <;> exact absurd h (by decide)

/-- C39: the column is not the same function of the position in the line on the first and on later
lines: the same tag at the start of line 1 and of line 2. -/
theorem C39_refuted_column :
    errorAt (bytes "<#>") = some (newParseError "invalid character after <" (some (1, 3)) none, 2) ∧
    errorAt (bytes "<a>\n<#>") = some (newParseError "invalid character after <" (some (2, 4)) none, 6) := by
  decide +kernel

end GoVtd
