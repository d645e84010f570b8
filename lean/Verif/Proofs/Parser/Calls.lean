import Verif.Proofs.Parser.Line

/-!
# Specifications of the helper functions of the parser
-/

namespace GoVtd
namespace Parser
open Paged
variable {c : ParserCfg} {p : Parser}

theorem Moved.refl (hb : Base c p) (h : p.offset = p.rd.offset) : Moved c p p.rd.offset p :=
  ⟨p.rd.offset, p.currentChar, by rw [← mv_self p, mv_mv, ← h]; rfl, hb, Int.le_refl _⟩

theorem Moved.trans {p' p'' : Parser} {lo lo' : Int} (h : Moved c p lo p') (h' : Moved c p' lo' p'') :
    Moved c p lo' p'' := by
  obtain ⟨r, ch, rfl, hb, h1⟩ := h
  obtain ⟨r', ch', rfl, hb', h1'⟩ := h'
  exact ⟨r', ch', rfl, hb', h1'⟩

theorem Moved.le {p' : Parser} {lo lo' : Int} (h : Moved c p lo p') (hl : lo' ≤ lo) :
    Moved c p lo' p' := by
  obtain ⟨r, ch, rfl, hb, h1⟩ := h
  exact ⟨r, ch, rfl, hb, by omega⟩

theorem Moved.base {p' : Parser} {lo : Int} (h : Moved c p lo p') : Base c p' := by
  obtain ⟨r, ch, rfl, hb, h1⟩ := h
  exact hb

/-- A character was read. -/
theorem getChar_moved (hb : Base c p) :
    (getChar p).Sat (fun _ p' => Moved c p (p.rd.offset + 1) p') (Er c) (Pn c) False :=
  (getChar_sat hb).mono (fun _ _ h => ⟨_, _, h.1, h.2.1, Int.le_refl _⟩) (fun _ _ h => h) id id

theorem nextChar_moved (hb : Base c p) :
    (nextChar p).Sat (fun _ p' => Moved c p (p.rd.offset + 1) p' ∧ p'.rd.offset ≤ c.endOffset)
      (Er c) (Pn c) False :=
  (nextChar_sat hb).mono (fun _ _ ⟨ch, h, h', h''⟩ => ⟨⟨_, ch, h, h', Int.le_refl _⟩, by
    subst h; simp; omega⟩) (fun _ _ h => h) id id

/-- A character was skipped or not. -/
theorem skipChar_moved (hb : Base c p) {ch : Nat} (hch : ch ≠ 0) :
    (skipChar ch p).Sat (fun b p' => Moved c p (p.rd.offset + b.toNat) p') (Er c) (Pn c) False :=
  (skipChar_sat hb hch).mono (fun _ _ h => ⟨_, _, h.1, h.2, by omega⟩) (fun _ _ h => h) id id

/-- The outcome is a move that loses no ground. -/
abbrev Ok (c : ParserCfg) (p : Parser) {α : Type} (r : Res Parser α) : Prop :=
  r.Sat (fun _ p' => Moved c p p.rd.offset p') (Er c) (Pn c) False

/-- The outcome is a move that gains ground. -/
abbrev Ok1 (c : ParserCfg) (p : Parser) {α : Type} (r : Res Parser α) : Prop :=
  r.Sat (fun _ p' => Moved c p (p.rd.offset + 1) p') (Er c) (Pn c) False

theorem Ok.of_ok1 {α : Type} {r : Res Parser α} (h : Ok1 c p r) : Ok c p r :=
  h.mono (fun _ _ h => h.le (by omega)) (fun _ _ h => h) id id

theorem Ok.pure {α : Type} (hb : Base c p) (h : p.offset = p.rd.offset) (a : α) :
    Ok c p ((Pure.pure a : M Parser α) p) := Moved.refl hb h

theorem Ok.get {β : Type} {k : Parser → M Parser β} (h : Ok c p (k p p)) : Ok c p ((M.get >>= k) p) := h

theorem Ok1.get {β : Type} {k : Parser → M Parser β} (h : Ok1 c p (k p p)) :
    Ok1 c p ((M.get >>= k) p) := h

theorem Ok.bind {α β : Type} {m : M Parser α} {k : α → M Parser β} (h : Ok c p (m p))
    (hk : ∀ a p', Base c p' → p'.offset = p'.rd.offset → p.rd.offset ≤ p'.rd.offset →
      Ok c p' (k a p')) : Ok c p ((m >>= k) p) := by
  refine Res.Sat.bind h fun a p' hm => ?_
  obtain ⟨r, ch, rfl, hb, h1⟩ := hm
  refine (hk a _ hb rfl h1).mono (fun _ _ h' => ?_) (fun _ _ h => h) id id
  obtain ⟨r', ch', rfl, hb', h1'⟩ := h'
  exact ⟨r', ch', rfl, hb', Int.le_trans h1 h1'⟩

theorem Ok1.bind {α β : Type} {m : M Parser α} {k : α → M Parser β} (h : Ok1 c p (m p))
    (hk : ∀ a p', Base c p' → p'.offset = p'.rd.offset → p.rd.offset + 1 ≤ p'.rd.offset →
      Ok c p' (k a p')) : Ok1 c p ((m >>= k) p) := by
  refine Res.Sat.bind h fun a p' hm => ?_
  obtain ⟨r, ch, rfl, hb, h1⟩ := hm
  refine (hk a _ hb rfl h1).mono (fun _ _ h' => ?_) (fun _ _ h => h) id id
  obtain ⟨r', ch', rfl, hb', h1'⟩ := h'
  exact ⟨r', ch', rfl, hb', Int.le_trans h1 h1'⟩

theorem getChar_ok (hb : Base c p) : Ok1 c p (getChar p) := getChar_moved hb

theorem nextChar_ok (hb : Base c p) : Ok1 c p (nextChar p) :=
  (nextChar_moved hb).mono (fun _ _ h => h.1) (fun _ _ h => h) id id

theorem skipChar_ok (hb : Base c p) {ch : Nat} (hch : ch ≠ 0) : Ok c p (skipChar ch p) :=
  (skipChar_moved hb hch).mono (fun _ _ h => h.le (by omega)) (fun _ _ h => h) id id

theorem parseErr_ok {α : Type} (hb : Base c p) (msg : String) : Ok c p (parseErr msg p : Res Parser α) :=
  parseErr_sat hb msg

theorem and_ok {a b : M Parser Bool} (ha : Ok c p (a p))
    (hb : ∀ p', Base c p' → p'.offset = p'.rd.offset → Ok c p' (b p')) : Ok c p ((a &&! b) p) :=
  Ok.bind ha fun x p' h1 h2 _ => by
    cases x
    · exact Ok.pure h1 h2 false
    · exact hb p' h1 h2

theorem or_ok {a b : M Parser Bool} (ha : Ok c p (a p))
    (hb : ∀ p', Base c p' → p'.offset = p'.rd.offset → Ok c p' (b p')) : Ok c p ((a ||! b) p) :=
  Ok.bind ha fun x p' h1 h2 _ => by
    cases x
    · exact hb p' h1 h2
    · exact Ok.pure h1 h2 true

theorem ite_ok {α : Type} {q : Prop} [Decidable q] {a b : M Parser α} (ha : q → Ok c p (a p))
    (hb : ¬ q → Ok c p (b p)) : Ok c p ((if q then a else b) p) := by
  split
  · exact ha (by assumption)
  · exact hb (by assumption)

theorem ite_ok1 {α : Type} {q : Prop} [Decidable q] {a b : M Parser α} (ha : q → Ok1 c p (a p))
    (hb : ¬ q → Ok1 c p (b p)) : Ok1 c p ((if q then a else b) p) := by
  split
  · exact ha (by assumption)
  · exact hb (by assumption)

theorem rdSkipChar_noErr (ch : Nat) (r r' : Reader) (e : GoErr) :
    Reader.skipChar ch r ≠ .err e r' := by
  simp only [Reader.skipChar, M.bind_apply, M.get_apply, Res.andThen_ok, M.index_apply]
  split
  · simp
  · split
    · simp only [Res.andThen_ok, M.ite_apply, M.bind_apply, M.modify_apply, M.pure_apply]
      split <;> simp
    · simp

theorem rdSkipCharSeq_noErr (seq : List Nat) (r r' : Reader) (e : GoErr) :
    Reader.skipCharSeq seq r ≠ .err e r' := by
  induction seq generalizing r with
  | nil => simp [Reader.skipCharSeq]
  | cons ch seq ih =>
    simp only [Reader.skipCharSeq, M.bind_apply]
    cases h : Reader.skipChar ch r with
    | ok b r2 =>
      cases b
      · simp
      · simpa using ih r2
    | err e r => exact absurd h (rdSkipChar_noErr _ _ _ _)
    | panic => simp
    | diverge => simp

/-- `skipCharSeq` as repeated `skipChar`. -/
theorem skipCharSeq_nil : skipCharSeq [] p = .ok true (p.mv p.rd.offset p.rd.offset p.currentChar) := rfl

theorem skipCharSeq_cons (ch : Nat) (seq : List Nat) :
    skipCharSeq (ch :: seq) p =
      (skipChar ch p).andThen fun b => if b then skipCharSeq seq else pure false := by
  simp only [skipCharSeq, skipChar, onRd, M.bind_apply, M.zoom_apply, Reader.skipCharSeq]
  cases h : Reader.skipChar ch p.rd with
  | ok b r =>
    cases b
    · rfl
    · simp only [Res.andThen_ok, if_true, Res.zoom_ok, M.pure_apply,
        M.bind_apply, M.modify_apply, M.zoom_apply]
      cases h' : Reader.skipCharSeq seq r with
      | err e r2 => exact absurd h' (rdSkipCharSeq_noErr _ _ _ _)
      | _ => rfl
  | err e r => rfl
  | panic => rfl
  | diverge => rfl

theorem skipCharSeq_ok (seq : List Nat) (hseq : ∀ x ∈ seq, x ≠ 0) {p : Parser} (hb : Base c p) :
    Ok c p (skipCharSeq seq p) := by
  induction seq generalizing p with
  | nil =>
    rw [skipCharSeq_nil]
    exact ⟨_, _, rfl, hb.mv _ (Int.le_trans hb.off0 hb.off1) (Int.le_refl _) hb.off2 hb.sent,
      Int.le_refl _⟩
  | cons ch seq ih =>
    rw [skipCharSeq_cons]
    refine Ok.bind (skipChar_ok hb (hseq ch (by simp))) fun b p' hb' ho _ => ?_
    cases b
    · exact Ok.pure hb' ho false
    · exact ih (fun x hx => hseq x (by simp [hx])) hb'

theorem skipCharSeqIgnoreCase_ok (seq : List Nat) (hseq : ∀ x ∈ seq, x ≠ 0) {p : Parser}
    (hb : Base c p) (ho : p.offset = p.rd.offset) : Ok c p (skipCharSeqIgnoreCase seq p) := by
  induction seq generalizing p with
  | nil => exact Ok.pure hb ho true
  | cons ch seq ih =>
    have hch : ch ≠ 0 := hseq ch (by simp)
    have hup : toUpperChar ch ≠ 0 := by simp only [toUpperChar]; split <;> omega
    refine Ok.bind (or_ok (skipChar_ok hb hch) fun p' h1 _ => skipChar_ok h1 hup)
      fun b p' hb' ho _ => ?_
    cases b
    · exact Ok.pure hb' ho false
    · exact ih (fun x hx => hseq x (by simp [hx])) hb' ho

/-- Fuel that a loop over the document cannot exhaust. -/
def Enough (c : ParserCfg) (p : Parser) (fuel : Nat) : Prop :=
  (c.xmlDoc.length : Int) - p.rd.offset < fuel

theorem Enough.pos {fuel : Nat} (hb : Base c p) (h : Enough c p fuel) : ∃ n, fuel = n + 1 := by
  have := hb.off2
  simp only [Enough] at h
  exact ⟨fuel - 1, by omega⟩

theorem Enough.loopFuel (hb : Base c p) {q : Parser} (hq : q.cfg = c) : Enough c p q.loopFuel := by
  have := hb.off0; have := hb.off1
  simp only [Enough, Parser.loopFuel, hq]
  omega

theorem Enough.step {fuel : Nat} {p' : Parser} (h : Enough c p (fuel + 1))
    (hm : p.rd.offset + 1 ≤ p'.rd.offset) : Enough c p' fuel := by
  simp only [Enough] at *
  omega

theorem nextCharAfterWsLoop_ok {fuel : Nat} {p : Parser} (hb : Base c p) (hf : Enough c p fuel) :
    Ok1 c p (nextCharAfterWsLoop fuel p) := by
  induction fuel generalizing p with
  | zero => obtain ⟨n, hn⟩ := hf.pos hb; omega
  | succ fuel ih =>
    refine Ok1.bind (nextChar_ok hb) fun _ p' hb' ho hlt => ?_
    refine Ok.get (ite_ok (fun _ => ?_) fun _ => Ok.pure hb' ho ())
    exact Ok.of_ok1 (ih hb' (hf.step hlt))


theorem nextCharAfterWs_ok (hb : Base c p) : Ok1 c p (nextCharAfterWs p) :=
  Ok1.get (nextCharAfterWsLoop_ok hb (Enough.loopFuel hb hb.cfg))

/-- The same, with the position of the character read. -/
theorem nextCharAfterWsLoop_in {fuel : Nat} {p : Parser} (hb : Base c p) (hf : Enough c p fuel) :
    (nextCharAfterWsLoop fuel p).Sat (fun _ p' => p'.rd.offset ≤ c.endOffset)
      (fun _ _ => True) True True := by
  induction fuel generalizing p with
  | zero => trivial
  | succ fuel ih =>
    refine Res.Sat.bind ((nextChar_moved hb).mono (fun _ _ h => h) (fun _ _ _ => trivial)
      (fun _ => trivial) (fun _ => trivial)) fun _ p' ⟨hm, hle⟩ => ?_
    obtain ⟨r, ch, rfl, hb', h1⟩ := hm
    simp only [M.bind_apply, M.get_apply, Res.andThen_ok, M.ite_apply]
    split
    · exact ih hb' (hf.step h1)
    · exact hle

theorem nextCharAfterWs_moved (hb : Base c p) :
    (nextCharAfterWs p).Sat
      (fun _ p' => Moved c p (p.rd.offset + 1) p' ∧ p'.rd.offset ≤ c.endOffset)
      (Er c) (Pn c) False :=
  ((nextCharAfterWs_ok hb).and
    (nextCharAfterWsLoop_in hb (Enough.loopFuel hb hb.cfg))).mono (fun _ _ h => h)
      (fun _ _ h => h.1) (fun h => h.1) (fun h => h.1)

/-! ## References -/

theorem raise_ok {α : Type} (hb : Base c p) {e : GoErr} (h : e.LineIs
    (newlines c.xmlDoc c.docOffset.toNat p.offset.toNat + 1)
    (p.offset - lastNewline c.xmlDoc c.docOffset.toNat p.offset.toNat + 1)) :
    Ok c p (M.raise e p : Res Parser α) := ⟨hb.cfg, h⟩

theorem entitySeq_ok (seq : List Nat) {p : Parser} (hb : Base c p) (ho : p.offset = p.rd.offset) :
    Ok c p (entitySeq seq p) := by
  induction seq generalizing p with
  | nil => exact Ok.pure hb ho ()
  | cons ch seq ih =>
    refine Ok.bind (Ok.of_ok1 (getChar_ok hb)) fun _ p' hb' ho' _ => ?_
    exact ite_ok (fun _ => raise_ok hb' trivial) fun _ => ih hb' ho'

theorem entityHexLoop_ok {fuel : Nat} {p : Parser} (hb : Base c p) (hf : Enough c p fuel) (v : Nat) :
    Ok c p (entityHexLoop fuel v p) := by
  induction fuel generalizing p v with
  | zero => obtain ⟨n, hn⟩ := hf.pos hb; omega
  | succ fuel ih =>
    refine Ok.of_ok1 (Ok1.bind (getChar_ok hb) fun ch p' hb' ho hlt => ?_)
    cases hexDigit ch with
    | some d => exact ih hb' (hf.step hlt) _
    | none => exact ite_ok (fun _ => Ok.pure hb' ho _) fun _ => raise_ok hb' trivial

theorem entityDecLoop_ok {fuel : Nat} {p : Parser} (hb : Base c p) (ho : p.offset = p.rd.offset)
    (hf : Enough c p fuel) (ch v : Nat) : Ok c p (entityDecLoop fuel ch v p) := by
  induction fuel generalizing p v ch with
  | zero => obtain ⟨n, hn⟩ := hf.pos hb; omega
  | succ fuel ih =>
    simp only [entityDecLoop]
    refine ite_ok (fun _ => ?_) fun _ => ite_ok (fun _ => Ok.pure hb ho _) fun _ =>
      raise_ok hb trivial
    exact Ok.of_ok1 (Ok1.bind (getChar_ok hb) fun ch' p' hb' ho' hlt => ih hb' ho' (hf.step hlt) _ _)

theorem entityIdentifier_ok (hb : Base c p) : Ok c p (entityIdentifier p) := by
  refine Ok.bind (Ok.of_ok1 (getChar_ok hb)) fun ch p hb ho _ => ?_
  refine ite_ok (fun _ => ?_) fun _ => ite_ok (fun _ => ?_) fun _ => ite_ok (fun _ => ?_) fun _ =>
    ite_ok (fun _ => ?_) fun _ => raise_ok hb trivial
  · refine Ok.bind (Ok.of_ok1 (getChar_ok hb)) fun ch p hb ho _ => Ok.get ?_
    refine ite_ok (fun _ => Ok.bind (entityHexLoop_ok hb (Enough.loopFuel hb hb.cfg) _) ?_)
        fun _ => Ok.bind (entityDecLoop_ok hb ho (Enough.loopFuel hb hb.cfg) _ _) ?_
    · exact fun v p hb ho _ => ite_ok (fun _ => Ok.pure hb ho _) fun _ => raise_ok hb trivial
    · exact fun v p hb ho _ => ite_ok (fun _ => Ok.pure hb ho _) fun _ => raise_ok hb trivial
  · refine Ok.bind (Ok.of_ok1 (getChar_ok hb)) fun ch p hb ho _ => ?_
    refine ite_ok (fun _ => ?_) fun _ => ite_ok (fun _ => ?_) fun _ => raise_ok hb trivial
    · exact Ok.bind (entitySeq_ok _ hb ho) fun _ p hb ho _ => Ok.pure hb ho _
    · exact Ok.bind (entitySeq_ok _ hb ho) fun _ p hb ho _ => Ok.pure hb ho _
  · exact Ok.bind (entitySeq_ok _ hb ho) fun _ p hb ho _ => Ok.pure hb ho _
  · refine Ok.bind (entitySeq_ok _ hb ho) fun _ p hb ho _ => ?_
    exact ite_ok (fun _ => Ok.pure hb ho _) fun _ => Ok.pure hb ho _

/-! ## Text -/

theorem skipBrackets_ok {fuel : Nat} {p : Parser} (hb : Base c p) (hf : Enough c p fuel) :
    Ok c p (skipBrackets fuel p) := by
  induction fuel generalizing p with
  | zero => obtain ⟨n, hn⟩ := hf.pos hb; omega
  | succ fuel ih =>
    refine Res.Sat.bind (skipChar_moved hb (by decide)) fun b p' hm => ?_
    obtain ⟨r, ch, rfl, hb', h1⟩ := hm
    cases b with
    | false => exact ⟨_, _, rfl, hb', by simpa using h1⟩
    | true =>
      have h1 : p.rd.offset + 1 ≤ r := by simpa using h1
      refine (ih hb' (hf.step h1)).mono (fun _ _ h' => ?_) (fun _ _ h => h) id id
      obtain ⟨r', ch', rfl, hb', h1'⟩ := h'
      exact ⟨_, _, rfl, hb', by simp only [mv_rdOffset] at h1'; omega⟩

theorem bracketText_ok (hb : Base c p) : Ok c p (bracketText p) := by
  refine Ok.get (Ok.bind (skipBrackets_ok hb (Enough.loopFuel hb hb.cfg)) fun _ p hb ho _ => ?_)
  refine Ok.bind (skipChar_ok hb (by decide)) fun b p hb ho _ => ?_
  exact ite_ok (fun _ => parseErr_ok hb _) fun _ => Ok.pure hb ho _

theorem handleOtherTextChar_ok (hb : Base c p) (ch : Nat) : Ok c p (handleOtherTextChar ch p) := by
  refine ite_ok (fun _ => ?_) fun _ => ite_ok (fun _ => bracketText_ok hb) fun _ => parseErr_ok hb _
  refine Ok.bind (entityIdentifier_ok hb) fun v p hb ho _ => ?_
  exact ite_ok (fun _ => Ok.pure hb ho _) fun _ => parseErr_ok hb _

theorem recordWsIfSet_eq (hb : Base c p) : recordWsIfSet p = .ok () p := by
  simp only [recordWsIfSet, M.bind_apply, M.get_apply, Res.andThen_ok]
  rw [show p.ws = false from hb.ws]
  rfl

/-! ## Records -/

theorem OutOk.append {o : ParserOut} (h : OutOk o) (v : BitVec 64) :
    ∃ b, Paged.append v o.vtdBuffer = .ok () b ∧ OutOk { o with vtdBuffer := b } := by
  obtain ⟨e, xs, hx⟩ := h.vtd
  rw [hx, append_fill]
  exact ⟨_, rfl, { h with vtd := ⟨_, _, rfl⟩ }⟩

/-- The result buffers were changed, nothing else. -/
def Wrote (c : ParserCfg) (p p' : Parser) : Prop := ∃ o, p' = { p with out := o } ∧ Base c p'

theorem Wrote.trans {p' p'' : Parser} (h : Wrote c p p') (h' : Wrote c p' p'') : Wrote c p p'' := by
  obtain ⟨o, rfl, _⟩ := h
  obtain ⟨o', rfl, hb⟩ := h'
  exact ⟨o', rfl, hb⟩

theorem Wrote.refl (hb : Base c p) : Wrote c p p := ⟨p.out, rfl, hb⟩

theorem writeVtd_eq (hb : Base c p) (t : Token) (o l d : Int) :
    ∃ p', writeVtd t o l d p = .ok () p' ∧ Wrote c p p' := by
  obtain ⟨b, h1, h2⟩ := hb.out.append (vtdRecord t o l d)
  simp only [writeVtd, onVtd, M.zoom_apply, h1]
  exact ⟨_, rfl, _, rfl, hb.ofOut h2⟩

/-- The call writes records and cannot fail except by a parse error. -/
abbrev OkW (c : ParserCfg) (p : Parser) {α : Type} (r : Res Parser α) : Prop :=
  r.Sat (fun _ p' => Wrote c p p') (Er c) (Pn c) False

theorem writeVtd_ok (hb : Base c p) (t : Token) (o l d : Int) : OkW c p (writeVtd t o l d p) := by
  obtain ⟨p', h1, h2⟩ := writeVtd_eq hb t o l d
  rw [h1]; exact h2

theorem writeVtdTextLoop_ok (fuel : Nat) {p : Parser} (hb : Base c p) (t : Token) (o j d : Int)
    (hj : j < fuel) (hf : 0 < fuel) : OkW c p (writeVtdTextLoop fuel t o j d p) := by
  induction fuel generalizing p o j with
  | zero => omega
  | succ fuel ih =>
    simp only [writeVtdTextLoop, M.ite_apply]
    split
    · rename_i h
      obtain ⟨p', h1, h2⟩ := writeVtd_eq hb t o maxTokenLength d
      simp only [M.bind_apply, h1, Res.andThen_ok]
      have hm : maxTokenLength = 0xFFFFF := rfl
      obtain ⟨q, rfl, hb'⟩ := h2
      refine (ih hb' _ (j - maxTokenLength) (by omega) (by omega)).mono (fun _ _ h => ?_)
        (fun _ _ h => h) id id
      exact Wrote.trans ⟨q, rfl, hb'⟩ h
    · exact writeVtd_ok hb _ _ _ _

theorem writeVtdText_ok (hb : Base c p) (t : Token) (o l d : Int) :
    OkW c p (writeVtdText t o l d p) := by
  simp only [writeVtdText, M.ite_apply]
  split
  · exact writeVtdTextLoop_ok _ hb _ _ _ _ (by omega) (by omega)
  · exact writeVtd_ok hb _ _ _ _

theorem Base.single (hb : Base c p) : p.enc.singleByteEncoding = true := by rw [hb.enc]; rfl
theorem Base.inc (hb : Base c p) : p.enc.increment = 1 := by rw [hb.enc]; rfl
theorem Base.encoding (hb : Base c p) : p.enc.encoding = FormatAscii := by rw [hb.enc]; rfl

theorem writeText_ok (hb : Base c p) (t : Token) : OkW c p (writeText t p) := by
  simp only [writeText, M.bind_apply, M.get_apply, Res.andThen_ok, hb.single, if_true]
  exact writeVtdText_ok hb _ _ _ _

theorem writeAt_ok (hb : Base c p) (t : Token) (l : Int) : OkW c p (writeAt t l p) := by
  simp only [writeAt, M.bind_apply, M.get_apply, Res.andThen_ok, hb.single, if_true]
  exact writeVtd_ok hb _ _ _ _

theorem writeVtdWithLengthCheck_ok (hb : Base c p) (t : Token) (msg : String) :
    OkW c p (writeVtdWithLengthCheck t msg p) := by
  simp only [writeVtdWithLengthCheck, M.bind_apply, M.get_apply, Res.andThen_ok, hb.single, if_true,
    M.ite_apply]
  split
  · exact parseErr_sat hb _
  · exact writeVtd_ok hb _ _ _ _

theorem getPrevOffset_eq (hb : Base c p) : getPrevOffset p = .ok (p.offset - 1) p := by
  simp only [getPrevOffset, M.bind_apply, M.get_apply, Res.andThen_ok, hb.encoding]
  rw [if_neg (by decide), if_pos (by decide)]
  rfl

end Parser
end GoVtd
