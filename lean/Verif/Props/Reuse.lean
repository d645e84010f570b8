import Verif.Proofs.Parser.Resp
import Verif.Proofs.Total
import Verif.Props.Total

/-!
# Properties C46, C49, C50: default location cache, reuse of a parser, `GetNav`
-/

namespace GoVtd
open Parser Paged

/-! ## C46 -/

/-- The location caches of a parser are what they are in `o`, in shallow mode. -/
def SameCaches (o : ParserOut) (p : Parser) : Prop :=
  p.cfg.shallowDepth = true ∧ p.out.lastDepth = 0 ∧ ∃ b, p.out = { o with vtdBuffer := b }

theorem nice_caches (o : ParserOut) : Nice (fun s t => s = t ∧ SameCaches o s) where
  eq := by rintro s t ⟨rfl, -⟩; exact ⟨⟨s.cfg.matchFuel, s.cfg.shallowDepth, s.out⟩, rfl⟩
  put := by
    rintro s t ⟨rfl, h1, h2, b, h3⟩
    intro enc rd a1 a2 a3 a4 a5 a6 a7 a8 a9 a10 a11 vtd ns
    refine ⟨rfl, h1, h2, vtd, ?_⟩
    simp only [Parser.put, h3]

theorem resp_of_eq {R : Parser → Parser → Prop} {D : Prop} {α : Type} {m : M Parser α}
    (h : ∀ s, R s s → RelRes R D (m s) (m s)) (he : ∀ s t, R s t → s = t) : Resp R D m := by
  intro s t hst
  cases he s t hst
  exact h s hst

theorem parse_caches (o : ParserOut) :
    Resp (fun s t => s = t ∧ SameCaches o s) False parse := by
  have hR := nice_caches o
  have he : ∀ s t, (s = t ∧ SameCaches o s) → s = t := fun _ _ h => h.1
  refine parse_resp hR ?_ ?_ ?_
  · refine resp_of_eq (fun s h => ?_) he
    have hw : ∀ t a b d, RelRes (fun s t => s = t ∧ SameCaches o s) False (writeVtd t a b d s)
        (writeVtd t a b d s) := fun t a b d => writeVtd_resp hR t a b d s s h
    have hp : ∀ m, RelRes (fun s t => s = t ∧ SameCaches o s) False (parseErr (α := Unit) m s)
        (parseErr m s) := fun m => parseErr_resp hR m s s h
    simp only [writeStartTag, M.bind_apply, M.get_apply, Res.andThen_ok, M.ite_apply, h.2.1, if_true]
    split <;> split
    · exact hp _
    · exact hw _ _ _ _
    · exact hp _
    · exact hw _ _ _ _
  · intro a b c d
    refine resp_of_eq (fun s h => ?_) he
    simp only [matchUrl, M.bind_apply, M.get_apply, Res.andThen_ok, M.ite_apply]
    split
    · exact matchUrlLoop_resp hR _ _ _ s s h
    · exact ⟨rfl, h⟩
  · refine resp_of_eq (fun s h => ?_) he
    simp only [finishUp, M.bind_apply, M.get_apply, Res.andThen_ok, M.ite_apply]
    rw [if_pos h.2.1, if_neg (by rw [h.2.2.1]; decide)]
    exact ⟨rfl, h⟩

/-- A successful parse in the default mode leaves the location caches as they were. -/
theorem parse_keeps_caches {p p' : Parser} (hs : p.cfg.shallowDepth = true) (hl : p.out.lastDepth = 0)
    (hp : parse p = .ok () p') : ∃ b, p'.out = { p.out with vtdBuffer := b } := by
  have h := parse_caches p.out p p ⟨rfl, hs, hl, p.out.vtdBuffer, rfl⟩
  rw [hp] at h
  exact h.2.2.2.2

theorem fill_small {e : Nat} (he : e ≤ 62) : ∃ e', e' ≤ 62 ∧ freshBuffer (BitVec 64) e = fill e' [] :=
  ⟨e, he, withPageSize_small e he⟩

theorem shallow_caches (n : Int) :
    (∃ e, e ≤ 62 ∧ (initOut true n).l1Buffer = fill e []) ∧ (∃ e, e ≤ 62 ∧ (initOut true n).l2Buffer = fill e []) ∧
    (∃ e, e ≤ 62 ∧ (initOut true n).l3Buffer = fill e []) := by
  have h : (shallowSizes n).2.1 ≤ 62 ∧ (shallowSizes n).2.2.1 ≤ 62 ∧ (shallowSizes n).2.2.2 ≤ 62 := by
    unfold shallowSizes
    repeat' split
    all_goals decide
  exact ⟨fill_small h.1, fill_small h.2.1, fill_small h.2.2⟩

/-- C46 is false: unless the options ask for depth 5, the three location caches are empty after
every successful `Parse`, whatever elements the document has. -/
theorem C46_exact {fuel : Nat} {opts : List ParserOption} (hg : GoArgs opts) {p p' : Parser}
    (h : newVtdParser fuel opts = .ok p) (hs : chosenDeep opts = false) (hp : parse p = .ok () p') :
    (toArray p'.out.l1Buffer).outcome = .value [] ∧ (toArray p'.out.l2Buffer).outcome = .value [] ∧
    (toArray p'.out.l3Buffer).outcome = .value [] := by
  have hsh : p.cfg.shallowDepth = true := by rw [(C54_config hg h).2.2.2.1, hs]; rfl
  obtain ⟨f, a, hi⟩ := (newVtdParser_fresh h).init
  have hsa : a.shallowDepth = true := by rw [hi] at hsh; exact hsh
  have ho : p.out = initOut true a.length := by rw [hi, ← hsa]; rfl
  obtain ⟨b, hb⟩ := parse_keeps_caches hsh (by rw [ho]; rfl) hp
  obtain ⟨⟨e1, l1, h1⟩, ⟨e2, l2, h2⟩, ⟨e3, l3, h3⟩⟩ := shallow_caches a.length
  rw [hb, ho]
  simp only [h1, h2, h3]
  rw [toArray_fill _ l1 _ (by decide), toArray_fill _ l2 _ (by decide), toArray_fill _ l3 _ (by decide)]
  exact ⟨rfl, rfl, rfl⟩

/-- What a successful parse of a document leaves in the token buffer and in the first cache. -/
def parsedWith (opts : List ParserOption) : Option (List (BitVec 64) × List (BitVec 64)) :=
  match newVtdParser 0 opts with
  | .error _ => none
  | .ok p => match parse p with
    | .ok () p' => match toArray p'.out.vtdBuffer, toArray p'.out.l1Buffer with
      | .ok xs _, .ok ys _ => some (xs, ys)
      | _, _ => none
    | _ => none

/-- C46 is false: `<a><b/></a>` has an element of depth 1, its record is the third one, and the
first cache is empty. -/
theorem C46_refuted : parsedWith [.xmlDoc (some (bytes "<a><b/></a>"))] =
    some ([vtdRecord .document 0 0 (-1), vtdRecord .startingTag 1 1 0, vtdRecord .startingTag 4 1 1], []) := by
  decide +kernel

/-! ## C49 -/

/-- An end-of-file error leaves the reader at the end of its window. -/
def EofEnd {α : Type} (r : Res Parser α) : Prop :=
  r.Sat (fun _ _ => True) (fun e q => e.as .eof = true → q.rd.endOffset ≤ q.rd.offset) True True

theorem EofEnd.bind {α β : Type} {m : M Parser α} {k : α → M Parser β} {p : Parser} (h : EofEnd (m p))
    (hk : ∀ a q, EofEnd (k a q)) : EofEnd ((m >>= k) p) :=
  Res.Sat.bind h fun a q _ => hk a q

theorem EofEnd.ite {α : Type} {c : Prop} [Decidable c] {a b : M Parser α} {p : Parser} (h : EofEnd (a p))
    (hb : EofEnd (b p)) : EofEnd ((if c then a else b) p) := by
  split
  · exact h
  · exact hb

theorem EofEnd.noErr {α : Type} {r : Res Parser α} (h : ∀ e q, r ≠ .err e q) : EofEnd r := by
  cases r with
  | ok a s => trivial
  | err e q => exact absurd rfl (h e q)
  | panic => trivial
  | diverge => trivial

theorem index_noErr {σ α : Type} (xs : List α) (i : Int) (s : σ) : ∀ e t, (M.index xs i : M σ α) s ≠ .err e t := by
  intro e t
  by_cases h' : 0 ≤ i ∧ i.toNat < xs.length
  · rw [M.index_of_lt xs i s h'.1 h'.2]; nofun
  · rw [M.index_panic xs i s (by omega)]; nofun

theorem getChar_eofEnd (p : Parser) : EofEnd (getChar p) := by
  refine EofEnd.bind ?_ fun a q => trivial
  simp only [onRd, M.zoom_apply, Reader.getChar, M.bind_apply, M.get_apply, Res.andThen_ok, M.ite_apply]
  split
  · rename_i h; exact fun _ => h
  · have hn := index_noErr p.rd.xmlDoc p.rd.offset p.rd
    cases hi : M.index p.rd.xmlDoc p.rd.offset p.rd with
    | ok a s =>
      simp only [Res.andThen_ok, M.bind_apply, M.modify_apply, M.ite_apply]
      split
      · trivial
      · exact fun h => absurd h (by simp [newParseError, mkErr, GoErr.as, ErrKind.type])
    | err e s => exact absurd hi (hn e s)
    | panic => trivial
    | diverge => trivial

theorem nextCharAfterWsLoop_eofEnd (fuel : Nat) (p : Parser) : EofEnd (nextCharAfterWsLoop fuel p) := by
  induction fuel generalizing p with
  | zero => trivial
  | succ n ih =>
    refine EofEnd.bind (EofEnd.bind (getChar_eofEnd p) fun _ _ => trivial) fun _ q => ?_
    exact EofEnd.bind (m := M.get) trivial fun _ q => EofEnd.ite (ih q) trivial

theorem docIs_noErr (i : Int) (v : UInt8) (p : Parser) : EofEnd (docIs i v p) := by
  refine EofEnd.bind (EofEnd.bind (m := M.get) trivial fun q q' => ?_) fun _ _ => trivial
  exact EofEnd.noErr (index_noErr _ _ _)

theorem lineLoop_eofEnd {isNl : Int → M Parser Bool} (h : ∀ i p, EofEnd (isNl i p)) (step : Int) (n : Nat)
    (so a b : Int) (p : Parser) : EofEnd (lineLoop isNl step n so a b p) := by
  induction n generalizing so a b p with
  | zero => trivial
  | succ n ih => exact EofEnd.bind (h _ _) fun _ _ => EofEnd.ite (ih _ _ _ _) (ih _ _ _ _)

theorem parseErr_eofEnd {α : Type} (msg : String) (p : Parser) : EofEnd (parseErr msg p : Res Parser α) := by
  refine EofEnd.bind (EofEnd.bind (m := M.get) trivial fun q q' => ?_) fun a q h => ?_
  · refine EofEnd.bind (m := M.get) trivial fun q q' => ?_
    have h2 : ∀ i j v w, ∀ p, EofEnd ((docIs i v &&! docIs j w) p) := fun i j v w p =>
      EofEnd.bind (docIs_noErr _ _ _) fun _ _ => EofEnd.ite (docIs_noErr _ _ _) trivial
    refine EofEnd.ite ?_ (EofEnd.ite ?_ ?_)
    · exact EofEnd.bind (lineLoop_eofEnd (fun i p => docIs_noErr _ _ _) _ _ _ _ _ _) fun _ _ => trivial
    · exact EofEnd.bind (lineLoop_eofEnd (fun i p => h2 _ _ _ _ _) _ _ _ _ _ _) fun _ _ => trivial
    · exact EofEnd.bind (lineLoop_eofEnd (fun i p => h2 _ _ _ _ _) _ _ _ _ _ _) fun _ _ => trivial
  · exact absurd h (by simp [newParseError, mkErr, GoErr.as, ErrKind.type])

theorem processDocEnd_eofEnd (p : Parser) : EofEnd (processDocEnd p) := by
  refine EofEnd.bind (EofEnd.bind (m := M.get) trivial fun _ _ => nextCharAfterWsLoop_eofEnd _ _) fun _ q => ?_
  refine EofEnd.bind (m := M.get) trivial fun _ q => EofEnd.ite ?_ (parseErr_eofEnd _ _)
  refine EofEnd.bind (EofEnd.noErr fun e q => skipChar_noErr _ _ _ _) fun _ q => EofEnd.ite trivial ?_
  exact EofEnd.bind (EofEnd.noErr fun e q => skipCharSeq_noErr _ _ _ _) fun _ q => EofEnd.ite trivial
    (parseErr_eofEnd _ _)

/-- The main loop returns without error only after an end-of-file error in the state after the root. -/
theorem mainLoop_eof {fuel : Nat} {st : PState} {p p' : Parser} (h : mainLoop fuel st p = .ok () p') :
    ∃ q e q', step .docEnd q = .err e q' ∧ e.as .eof = true ∧ finishUp q' = .ok () p' := by
  induction fuel generalizing st p with
  | zero => cases h
  | succ n ih =>
    simp only [mainLoop, M.bind_apply, M.catchErr_apply] at h
    cases hs : step st p with
    | ok st' q => rw [hs] at h; exact ih h
    | err e q =>
      rw [hs] at h
      simp only [Res.andThen_err, Res.handle_err, onStepErr, M.ite_apply] at h
      split at h
      · rename_i hc
        obtain ⟨h1, rfl⟩ := hc
        refine ⟨p, e, q, hs, h1, ?_⟩
        simp only [wrapInternal, M.bind_apply, M.catchErr_apply] at h
        cases hf : finishUp q with
        | ok a t => rw [hf] at h; exact h
        | err e t => rw [hf] at h; cases h
        | panic => rw [hf] at h; cases h
        | diverge => rw [hf] at h; cases h
      · cases h
    | panic => rw [hs] at h; cases h
    | diverge => rw [hs] at h; cases h

theorem flushLeaf_keeps (d : Int) : M.Keeps (fun p : Parser => p.rd) (flushLeaf d) := by
  unfold flushLeaf onL1 onL2 onL3 onL4
  keeps []

theorem finishUp_keeps : M.Keeps (fun p : Parser => p.rd) finishUp := by
  unfold finishUp
  keeps [flushLeaf_keeps]

theorem decideEncoding_keeps : M.Keeps (fun p : Parser => p.rd) decideEncoding := by
  unfold decideEncoding detectEncoding docIs32 docByte
  keeps []

/-- C49 is false: whatever the document and the options, `Parse` never succeeds a second time. -/
theorem C49_exact {p p' : Parser} (h : parse p = .ok () p') :
    (parse p').outcome ≠ .value () := by
  intro h2
  have he : p'.rd.endOffset ≤ p'.rd.offset := by
    simp only [parse, M.bind_apply] at h
    obtain ⟨_, q, h1, h⟩ := Res.andThen_eq_ok.mp h
    simp only [M.bind_apply, M.get_apply, Res.andThen_ok] at h
    obtain ⟨_, q, h1, h⟩ := Res.andThen_eq_ok.mp h
    obtain ⟨q, e, q', h3, h4, h5⟩ := mainLoop_eof h
    have := (processDocEnd_eofEnd q).err h3 h4
    rw [finishUp_keeps.ok h5]
    exact this
  simp only [parse, M.bind_apply] at h2
  cases hd : decideEncoding p' with
  | ok a q =>
    have hr := decideEncoding_keeps.ok hd
    rw [hd] at h2
    simp only [M.bind_apply, M.get_apply, Res.andThen_ok] at h2
    cases hw : writeVtd .document 0 0 q.depth q with
    | ok a q1 =>
      have hr1 : q1.rd = q.rd := by
        have : M.Keeps (fun p : Parser => p.rd) (writeVtd .document 0 0 q.depth) := by
          unfold writeVtd onVtd
          keeps []
        exact this.ok hw
      rw [hw] at h2
      have hstep : step .docStart q1 = .err (newEOFError XmlIncomplete) q1 := by
        have hl : q1.rd.endOffset ≤ q1.rd.offset := by rw [hr1, hr]; exact he
        simp only [step, processDocStart, nextChar, Parser.getChar, onRd, M.bind_apply, M.zoom_apply, Reader.getChar,
          M.get_apply, Res.andThen_ok, M.ite_apply]
        rw [if_pos hl]
        rfl
      simp only [Res.andThen_ok, M.bind_apply, M.get_apply, loopFuel] at h2
      rw [mainLoop_err hstep (by decide)] at h2
      cases h2
    | err e q => rw [hw] at h2; cases h2
    | panic => rw [hw] at h2; cases h2
    | diverge => rw [hw] at h2; cases h2
  | err e q => rw [hd] at h2; cases h2
  | panic => rw [hd] at h2; cases h2
  | diverge => rw [hd] at h2; cases h2

/-- What the second of two calls of `Parse` does, when the first one succeeds. -/
def parseTwice (opts : List ParserOption) : Option (Outcome Unit) :=
  match newVtdParser 0 opts with
  | .error _ => none
  | .ok p => match parse p with
    | .ok () p' => some (parse p').outcome
    | _ => none

/-- C49 is false: the second call panics. -/
theorem C49_refuted : parseTwice [.xmlDoc (some (bytes "<a b='1'>x</a>"))] = some .panic := by decide +kernel

/-- With a window the second call returns an error. -/
theorem C49_refuted_window :
    parseTwice [.xmlDocCustomOffset (some (bytes "<a/>xy")) 0 4] =
      some (.error (newEOFError "XML document incomplete")) := by decide +kernel

/-! ## C50 -/

/-- C50 is false: `GetNav` returns a nil navigator and no error, for every parser, so also after a
successful `Parse`. -/
theorem C50_refuted (p : Parser) : (getNav p).outcome = .value none := rfl

/-- C50: `GetNav` and `Clear` leave the parser as it is. -/
theorem C50_partial (p : Parser) : getNav p = .ok none p ∧ clear p = .ok () p := ⟨rfl, rfl⟩

end GoVtd
