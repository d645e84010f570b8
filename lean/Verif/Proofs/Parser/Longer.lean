import Verif.Proofs.Parser.Wp

/-!
# A parse and the parse of a longer document

`Sim d m m'`: `m'` runs on the same parser with the bytes `d` after the end of its document. A run of `m`
that succeeds is matched by a run of `m'` with the same value, and a run of `m` that ends in an error other
than an end-of-file error is matched by the same error. Nothing is said of the other runs. The records of
the two runs may be stored in pages of different sizes.
-/

namespace GoVtd
namespace Parser
namespace Longer
open Paged

/-- The same parser over a document that goes on with `d`, with other output buffers. -/
def long (d : List UInt8) (o : ParserOut) (s : Parser) : Parser :=
  { s with cfg := { s.cfg with xmlDoc := s.cfg.xmlDoc ++ d, endOffset := s.cfg.endOffset + d.length,
                               length := s.cfg.length + d.length, docLength := s.cfg.docLength + d.length },
           rd := { s.rd with xmlDoc := s.rd.xmlDoc ++ d, endOffset := s.rd.endOffset + d.length },
           out := o }

/-- The relation between a run and the run over the longer document. -/
def Rel (d : List UInt8) (s t : Parser) : Prop :=
  ∃ o, t = long d o s ∧ OutOk s.out ∧ OutOk o ∧ encodingFixed s = true

/-- The right outcome matches the left one. -/
def RelRes (d : List UInt8) {α : Type} : Res Parser α → Res Parser α → Prop
  | .ok a s, r => ∃ t, r = .ok a t ∧ Rel d s t
  | .err e s, r => e.as .eof = true ∨ ∃ t, r = .err e t ∧ Rel d s t
  | .panic, _ => True
  | .diverge, _ => True

/-- `m'` matches `m`. -/
def Sim (d : List UInt8) {α : Type} (m m' : M Parser α) : Prop := ∀ s t, Rel d s t → RelRes d (m s) (m' t)

section
variable {α β : Type} {d : List UInt8}

theorem Sim.pure (a : α) : Sim d (Pure.pure a : M Parser α) (Pure.pure a) := fun _ _ h => ⟨_, rfl, h⟩
theorem Sim.pure_decide {c : Prop} (i1 i2 : Decidable c) :
    Sim d (Pure.pure (@decide c i1) : M Parser Bool) (Pure.pure (@decide c i2)) := by
  rw [Subsingleton.elim i1 i2]; exact Sim.pure _
theorem Sim.raise (e : GoErr) : Sim d (M.raise e : M Parser α) (M.raise e) := fun _ _ h => .inr ⟨_, rfl, h⟩
theorem Sim.eof {m : M Parser α} (x : String) : Sim d (M.raise (newEOFError x) : M Parser α) m := fun _ _ _ => .inl rfl
theorem Sim.panic {m : M Parser α} : Sim d (M.panic : M Parser α) m := fun _ _ _ => trivial
theorem Sim.diverge {m : M Parser α} : Sim d (M.diverge : M Parser α) m := fun _ _ _ => trivial

theorem Sim.index (xs ys : List α) (i : Int) : Sim d (M.index xs i : M Parser α) (M.index (xs ++ ys) i) := by
  intro s t h
  by_cases h' : 0 ≤ i ∧ i.toNat < xs.length
  · rw [M.index_of_lt xs i s h'.1 h'.2, M.index_of_lt (xs ++ ys) i t h'.1 (by simp; omega)]
    refine ⟨_, ?_, h⟩
    congr 1
    simp [List.getElem_append_left h'.2]
  · rw [M.index_panic xs i s (by omega)]
    trivial

theorem Sim.index_same (xs : List α) (i : Int) : Sim d (M.index xs i : M Parser α) (M.index xs i) := by
  have := Sim.index (d := d) xs [] i
  rwa [List.append_nil] at this

theorem RelRes.andThen {r r' : Res Parser α} {k k' : α → M Parser β} (h : RelRes d r r')
    (hk : ∀ a s t, Rel d s t → RelRes d (k a s) (k' a t)) : RelRes d (r.andThen k) (r'.andThen k') := by
  cases r
  · obtain ⟨t, rfl, h⟩ := h; exact hk _ _ _ h
  · obtain h | ⟨t, rfl, h⟩ := h
    · exact .inl h
    · exact .inr ⟨_, rfl, h⟩
  · trivial
  · trivial

theorem Sim.bind {m m' : M Parser α} {k k' : α → M Parser β} (hm : Sim d m m')
    (hk : ∀ a, Sim d (k a) (k' a)) : Sim d (m >>= k) (m' >>= k') :=
  fun s t h => RelRes.andThen (hm s t h) fun a s t h => hk a s t h

theorem Sim.ite {c : Prop} {i1 i2 : Decidable c} {a b a' b' : M Parser α} (ha : Sim d a a')
    (hb : Sim d b b') : Sim d (@_root_.ite _ c i1 a b) (@_root_.ite _ c i2 a' b') := by
  by_cases h : c
  · rw [if_pos h, if_pos h]; exact ha
  · rw [if_neg h, if_neg h]; exact hb

theorem Sim.and {a b a' b' : M Parser Bool} (ha : Sim d a a') (hb : Sim d b b') :
    Sim d (M.and a b) (M.and a' b') :=
  Sim.bind ha fun _ => Sim.ite hb (Sim.pure _)

theorem Sim.or {a b a' b' : M Parser Bool} (ha : Sim d a a') (hb : Sim d b b') :
    Sim d (M.or a b) (M.or a' b') :=
  Sim.bind ha fun _ => Sim.ite (Sim.pure _) hb

theorem Sim.wrapInternal {m m' : M Parser α} (msg : String) (hm : Sim d m m') :
    Sim d (Parser.wrapInternal msg m) (Parser.wrapInternal msg m') := by
  intro s t h
  have := hm s t h
  simp only [Parser.wrapInternal, M.catchErr_apply]
  revert this
  cases m s <;> intro this
  · obtain ⟨t, ht, h⟩ := this; rw [ht]; exact ⟨_, rfl, h⟩
  · obtain h | ⟨t, ht, h⟩ := this
    · refine .inl ?_
      simp only [newInternalError, mkErr, GoErr.as, h, Bool.or_true]
    · rw [ht]; exact .inr ⟨_, rfl, h⟩
  · trivial
  · trivial

/-- A computation that reads the fields of the state, other than the output. -/
theorem Sim.bind_get {k k' : Parser → M Parser β} (hk : ∀ s o, s.loopFuel ≤ (long d o s).loopFuel →
    encodingFixed s = true → Sim d (k s) (k' (long d o s))) :
    Sim d (M.get >>= k) (M.get >>= k') := by
  intro s t h
  obtain ⟨o, rfl, h1, h2, h3⟩ := h
  exact hk s o (by simp [loopFuel, long]) h3 s _ ⟨o, rfl, h1, h2, h3⟩

theorem Sim.modify {g : Parser → Parser} (h : ∀ s o, g (long d o s) = long d o (g s) ∧ (g s).out = s.out ∧
    encodingFixed (g s) = encodingFixed s) : Sim d (M.modify g) (M.modify g) := by
  intro s t hr
  obtain ⟨o, rfl, h1, h2, h3⟩ := hr
  obtain ⟨e1, e2, e3⟩ := h s o
  exact ⟨_, rfl, o, e1, e2 ▸ h1, h2, e3 ▸ h3⟩

theorem Sim.zoom {τ : Type} {g : Parser → τ} {u : τ → Parser → Parser} (m : M τ α)
    (h : ∀ s o x, g (long d o s) = g s ∧ u x (long d o s) = long d o (u x s) ∧ (u x s).out = s.out ∧
      encodingFixed (u x s) = encodingFixed s) : Sim d (M.zoom g u m) (M.zoom g u m) := by
  intro s t hr
  obtain ⟨o, rfl, h1, h2, h3⟩ := hr
  have key : ∀ x, Rel d (u x s) (u x (long d o s)) := fun x => by
    obtain ⟨-, e1, e2, e3⟩ := h s o x
    exact ⟨o, e1, e2 ▸ h1, h2, e3 ▸ h3⟩
  simp only [M.zoom_apply]
  cases hm : m (g s) with
  | ok a x => rw [(h s o x).1, hm]; exact ⟨_, rfl, key x⟩
  | err e x => rw [(h s o x).1, hm]; exact .inr ⟨_, rfl, key x⟩
  | panic => trivial
  | diverge => trivial

theorem onNs1_long (m : M FastIntBuffer α) : Sim d (onNs1 m) (onNs1 m) := Sim.zoom m fun _ _ _ => ⟨rfl, rfl, rfl, rfl⟩
theorem onNs2_long (m : M FastLongBuffer α) : Sim d (onNs2 m) (onNs2 m) := Sim.zoom m fun _ _ _ => ⟨rfl, rfl, rfl, rfl⟩
theorem onNs3_long (m : M FastLongBuffer α) : Sim d (onNs3 m) (onNs3 m) := Sim.zoom m fun _ _ _ => ⟨rfl, rfl, rfl, rfl⟩

theorem onNs3_catch (m : M FastLongBuffer α) : Sim d
    (M.catchErr (onNs3 m >>= fun l => Pure.pure (some l)) (fun _ => Pure.pure none))
    (M.catchErr (onNs3 m >>= fun l => Pure.pure (some l)) (fun _ => Pure.pure none)) := by
  intro s t h
  obtain ⟨o, rfl, h1, h2, h3⟩ := h
  simp only [M.catchErr_apply, M.bind_apply, onNs3, M.zoom_apply]
  have e : (long d o s).ns.nsBuffer3 = s.ns.nsBuffer3 := rfl
  rw [e]
  cases m s.ns.nsBuffer3 with
  | ok a x => exact ⟨_, rfl, o, rfl, h1, h2, h3⟩
  | err e x => exact ⟨_, rfl, o, rfl, h1, h2, h3⟩
  | panic => trivial
  | diverge => trivial

theorem docByte_long (i : Int) : Sim d (docByte i) (docByte i) :=
  Sim.bind_get fun s _ _ _ => Sim.index s.cfg.xmlDoc d i

/-- The reader over the longer document. -/
def longRd (d : List UInt8) (r : Reader) : Reader :=
  { r with xmlDoc := r.xmlDoc ++ d, endOffset := r.endOffset + d.length }

/-- What `Sim` says of a computation on the reader. -/
def RdRel (d : List UInt8) : Res Reader α → Res Reader α → Prop
  | .ok a r, x => x = .ok a (longRd d r)
  | .err e r, x => e.as .eof = true ∨ x = .err e (longRd d r)
  | .panic, _ => True
  | .diverge, _ => True

theorem onRd_long {m : M Reader α} (h : ∀ r, RdRel d (m r) (m (longRd d r))) : Sim d (onRd m) (onRd m) := by
  intro s t hst
  obtain ⟨o, rfl, h1, h2, h3⟩ := hst
  have := h s.rd
  simp only [onRd, M.zoom_apply]
  have e : (long d o s).rd = longRd d s.rd := rfl
  rw [e]
  revert this
  cases m s.rd <;> intro this
  · rw [this]; exact ⟨_, rfl, o, rfl, h1, h2, h3⟩
  · obtain this | this := this
    · exact .inl this
    · rw [this]; exact .inr ⟨_, rfl, o, rfl, h1, h2, h3⟩
  · trivial
  · trivial

theorem RdRel.andThen {r r' : Res Reader α} {k k' : α → M Reader β} (h : RdRel d r r')
    (hk : ∀ a s, RdRel d (k a s) (k' a (longRd d s))) : RdRel d (r.andThen k) (r'.andThen k') := by
  cases r
  · cases h; exact hk _ _
  · obtain h | h := h
    · exact .inl h
    · cases h; exact .inr rfl
  · trivial
  · trivial

theorem index_longRd (xs : List α) (ys : List α) (s : Reader) (i : Int) :
    RdRel d (M.index xs i s) (M.index (xs ++ ys) i (longRd d s)) := by
  by_cases h' : 0 ≤ i ∧ i.toNat < xs.length
  · rw [M.index_of_lt _ i _ h'.1 h'.2, M.index_of_lt _ i _ h'.1 (by simp; omega)]
    show _ = _
    congr 1
    simp [List.getElem_append_left h'.2]
  · rw [M.index_panic _ i _ (by omega)]
    trivial

theorem rdGetChar_long (r : Reader) : RdRel d (Reader.getChar r) (Reader.getChar (longRd d r)) := by
  unfold Reader.getChar
  simp only [M.bind_apply, M.get_apply, Res.andThen_ok, M.ite_apply]
  by_cases h : r.offset ≥ r.endOffset
  · rw [if_pos h]; exact .inl rfl
  · by_cases h' : (longRd d r).offset ≥ (longRd d r).endOffset
    · have h' : r.offset ≥ r.endOffset + d.length := h'
      omega
    rw [if_neg h, if_neg h']
    refine RdRel.andThen (index_longRd r.xmlDoc d r _) fun a s => ?_
    simp only [M.bind_apply, M.modify_apply, Res.andThen_ok, M.ite_apply]
    show RdRel d (if Reader.accepts r.kind a then _ else _) (if Reader.accepts r.kind a then _ else _)
    split
    · rfl
    · exact .inr rfl

theorem rdSkipChar_long (c : Nat) (r : Reader) : RdRel d (Reader.skipChar c r) (Reader.skipChar c (longRd d r)) := by
  unfold Reader.skipChar
  simp only [M.bind_apply, M.get_apply, Res.andThen_ok]
  refine RdRel.andThen (index_longRd r.xmlDoc d r _) fun a s => ?_
  simp only [M.ite_apply]
  split <;> rfl

theorem rdSkipCharSeq_long (l : List Nat) (r : Reader) :
    RdRel d (Reader.skipCharSeq l r) (Reader.skipCharSeq l (longRd d r)) := by
  induction l generalizing r with
  | nil => rfl
  | cons c l ih =>
    unfold Reader.skipCharSeq
    simp only [M.bind_apply]
    refine RdRel.andThen (rdSkipChar_long c r) fun a s => ?_
    simp only [M.ite_apply]
    split
    · exact ih s
    · rfl

theorem rdGetCharAt_long (o : Int) (r : Reader) :
    RdRel d (Reader.getCharAt o r) (Reader.getCharAt o (longRd d r)) := by
  unfold Reader.getCharAt
  simp only [M.bind_apply, M.get_apply, Res.andThen_ok]
  exact RdRel.andThen (index_longRd r.xmlDoc d r _) fun a s => rfl

theorem rdGetLongCharAt_long (o : Int) (r : Reader) :
    RdRel d (Reader.getLongCharAt o r) (Reader.getLongCharAt o (longRd d r)) := by
  unfold Reader.getLongCharAt
  simp only [M.bind_apply, M.get_apply, Res.andThen_ok]
  refine RdRel.andThen (index_longRd r.xmlDoc d r _) fun a s => ?_
  simp only [M.ite_apply]
  split
  · refine RdRel.andThen (index_longRd r.xmlDoc d s _) fun a s => ?_
    simp only [M.ite_apply]
    split <;> rfl
  · rfl

theorem writeVtd_long (t : Token) (o l k : Int) : Sim d (writeVtd t o l k) (writeVtd t o l k) := by
  intro s t' h
  obtain ⟨o', rfl, h1, h2, h3⟩ := h
  rw [writeVtd_go h1, writeVtd_go (p := long d o' s) h2]
  exact ⟨_, rfl, _, rfl, push_ok h1 _, push_ok h2 _, h3⟩

theorem writeVtdL5_long (t : Token) (o l k : Int) : Sim d (writeVtdL5 t o l k) (writeVtdL5 t o l k) := by
  intro s t' h
  obtain ⟨o', rfl, h1, h2, h3⟩ := h
  rw [writeVtdL5_go h1, writeVtdL5_go (p := long d o' s) h2]
  exact ⟨_, rfl, _, rfl, cache_ok (push_ok h1 _) _ _, cache_ok (push_ok h2 _) _ _, h3⟩

theorem long_enc (o : ParserOut) (s : Parser) : (long d o s).enc = s.enc := rfl
theorem long_at (o : ParserOut) (s : Parser) : (long d o s).at_ = s.at_ := rfl
theorem long_ns (o : ParserOut) (s : Parser) : (long d o s).ns = s.ns := rfl
theorem long_offset (o : ParserOut) (s : Parser) : (long d o s).offset = s.offset := rfl
theorem long_lastOffset (o : ParserOut) (s : Parser) : (long d o s).lastOffset = s.lastOffset := rfl
theorem long_length1 (o : ParserOut) (s : Parser) : (long d o s).length1 = s.length1 := rfl
theorem long_length2 (o : ParserOut) (s : Parser) : (long d o s).length2 = s.length2 := rfl
theorem long_depth (o : ParserOut) (s : Parser) : (long d o s).depth = s.depth := rfl
theorem long_vtdDepth (o : ParserOut) (s : Parser) : (long d o s).vtdDepth = s.vtdDepth := rfl
theorem long_currentChar (o : ParserOut) (s : Parser) : (long d o s).currentChar = s.currentChar := rfl
theorem long_helper (o : ParserOut) (s : Parser) : (long d o s).helper = s.helper := rfl
theorem long_ws (o : ParserOut) (s : Parser) : (long d o s).ws = s.ws := rfl
theorem long_tagStack (o : ParserOut) (s : Parser) : (long d o s).tagStack = s.tagStack := rfl
theorem long_cfg_nsAware (o : ParserOut) (s : Parser) : (long d o s).cfg.nsAware = s.cfg.nsAware := rfl
theorem long_cfg_matchFuel (o : ParserOut) (s : Parser) : (long d o s).cfg.matchFuel = s.cfg.matchFuel := rfl
theorem long_cfg_docOffset (o : ParserOut) (s : Parser) : (long d o s).cfg.docOffset = s.cfg.docOffset := rfl
theorem long_cfg_shallowDepth (o : ParserOut) (s : Parser) : (long d o s).cfg.shallowDepth = s.cfg.shallowDepth := rfl
theorem long_rd_offset (o : ParserOut) (s : Parser) : (long d o s).rd.offset = s.rd.offset := rfl
theorem long_rd_kind (o : ParserOut) (s : Parser) : (long d o s).rd.kind = s.rd.kind := rfl
theorem long_fixed (o : ParserOut) (s : Parser) : encodingFixed (long d o s) = encodingFixed s := rfl

/-- Apply the lemma for the function at the head of the computation. -/
syntax "siml_lemma" : tactic
macro_rules | `(tactic| siml_lemma) => `(tactic| with_reducible first
  | exact docByte_long _ | exact writeVtd_long _ _ _ _ | exact writeVtdL5_long _ _ _ _
  | exact onNs3_catch _ | exact onNs1_long _ | exact onNs2_long _ | exact onNs3_long _
  | exact onRd_long rdGetChar_long | exact onRd_long (rdSkipChar_long _) | exact onRd_long (rdSkipCharSeq_long _)
  | exact onRd_long (rdGetCharAt_long _) | exact onRd_long (rdGetLongCharAt_long _))

/-- Follow the structure of a computation. -/
syntax "siml" (ident)? : tactic
macro_rules
  | `(tactic| siml) => `(tactic| repeat' (first
      | with_reducible first
        | exact Sim.pure _  | exact Sim.raise _ | exact Sim.panic | exact Sim.diverge
        | exact Sim.index_same _ _
      | ((with_reducible refine Sim.modify (fun _ _ => ?_)); exact ⟨rfl, rfl, rfl⟩)
      | ((with_reducible refine Sim.bind_get (fun _ _ hf hx => ?_))
         try dsimp +instances only [long_enc, long_at, long_ns, long_offset, long_lastOffset, long_length1, long_length2, long_depth, long_vtdDepth, long_currentChar, long_helper, long_ws, long_tagStack, long_cfg_nsAware, long_cfg_matchFuel, long_cfg_docOffset, long_cfg_shallowDepth, long_rd_offset, long_rd_kind, long_fixed, Reader.getOffset]
         try simp only [hx, if_true])
      | with_reducible first
        | siml_lemma
        | refine Sim.bind ?_ (fun _ => ?_) | refine Sim.ite ?_ ?_
        | refine Sim.wrapInternal _ ?_
        | refine Sim.and ?_ ?_ | refine Sim.or ?_ ?_
        | assumption
      | exact Sim.pure_decide _ _
      | refine Sim.ite ?_ ?_
      | (split <;> (try simp only [*]))))
  | `(tactic| siml $ih) => `(tactic| repeat' (first
      | with_reducible first
        | exact Sim.pure _  | exact Sim.raise _ | exact Sim.panic | exact Sim.diverge
        | exact Sim.index_same _ _
        | (apply $ih <;> first | exact Nat.le_of_succ_le_succ (by assumption) | skip)
      | ((with_reducible refine Sim.modify (fun _ _ => ?_)); exact ⟨rfl, rfl, rfl⟩)
      | ((with_reducible refine Sim.bind_get (fun _ _ hf hx => ?_))
         try dsimp +instances only [long_enc, long_at, long_ns, long_offset, long_lastOffset, long_length1, long_length2, long_depth, long_vtdDepth, long_currentChar, long_helper, long_ws, long_tagStack, long_cfg_nsAware, long_cfg_matchFuel, long_cfg_docOffset, long_cfg_shallowDepth, long_rd_offset, long_rd_kind, long_fixed, Reader.getOffset]
         try simp only [hx, if_true])
      | with_reducible first
        | siml_lemma
        | refine Sim.bind ?_ (fun _ => ?_) | refine Sim.ite ?_ ?_
        | refine Sim.wrapInternal _ ?_
        | refine Sim.and ?_ ?_ | refine Sim.or ?_ ?_
        | assumption
      | exact Sim.pure_decide _ _
      | refine Sim.ite ?_ ?_
      | (split <;> (try simp only [*]))))

theorem lineLoop_long {f : Int → M Parser Bool} (hf : ∀ i, Sim d (f i) (f i)) (step : Int)
    (n : Nat) (a b c : Int) : Sim d (lineLoop f step n a b c) (lineLoop f step n a b c) := by
  induction n generalizing a b c with
  | zero => exact Sim.pure _
  | succ n ih => simp only [lineLoop]; exact Sim.bind (hf _) fun _ => Sim.ite (ih _ _ _) (ih _ _ _)
macro_rules | `(tactic| siml_lemma) => `(tactic| refine lineLoop_long (fun _ => ?_) _ _ _ _ _)

theorem setOffset_long (o : Int) : Sim d (setOffset o) (setOffset o) := by
  unfold setOffset; siml
macro_rules | `(tactic| siml_lemma) => `(tactic| apply setOffset_long)

theorem getChar_long : Sim d getChar getChar := by
  unfold getChar; siml
macro_rules | `(tactic| siml_lemma) => `(tactic| apply getChar_long)

theorem skipChar_long (ch : Nat) : Sim d (skipChar ch) (skipChar ch) := by
  unfold skipChar; siml
macro_rules | `(tactic| siml_lemma) => `(tactic| apply skipChar_long)

theorem skipCharSeq_long (seq : List Nat) : Sim d (skipCharSeq seq) (skipCharSeq seq) := by
  unfold skipCharSeq; siml
macro_rules | `(tactic| siml_lemma) => `(tactic| apply skipCharSeq_long)

theorem docIs_long (i : Int) (c : UInt8) : Sim d (docIs i c) (docIs i c) := by
  unfold docIs; siml
macro_rules | `(tactic| siml_lemma) => `(tactic| apply docIs_long)

theorem skipCharSeqIgnoreCase_long (x0 : List Nat) : Sim d (skipCharSeqIgnoreCase x0) (skipCharSeqIgnoreCase x0) := by
  induction x0 with
  | nil => simp only [skipCharSeqIgnoreCase]; siml
  | cons k l ih => simp only [skipCharSeqIgnoreCase]; siml ih
macro_rules | `(tactic| siml_lemma) => `(tactic| apply skipCharSeqIgnoreCase_long)

theorem nextChar_long  : Sim d (nextChar) (nextChar) := by
  unfold nextChar; siml
macro_rules | `(tactic| siml_lemma) => `(tactic| apply nextChar_long)

theorem nextCharAfterWsLoop_long {n m : Nat} (hn : n ≤ m) :
    Sim d (nextCharAfterWsLoop n) (nextCharAfterWsLoop m) := by
  induction n generalizing m  with
  | zero => simp only [nextCharAfterWsLoop]; exact Sim.diverge
  | succ n ih =>
    obtain ⟨m, rfl⟩ : ∃ k, m = k + 1 := ⟨m - 1, by omega⟩
    have ih := @ih m
    simp only [nextCharAfterWsLoop]; siml ih
macro_rules | `(tactic| siml_lemma) => `(tactic| (refine nextCharAfterWsLoop_long ?_ ; first | assumption | exact Nat.le_refl _))

theorem nextCharAfterWs_long  : Sim d (nextCharAfterWs) (nextCharAfterWs) := by
  unfold nextCharAfterWs; siml
macro_rules | `(tactic| siml_lemma) => `(tactic| apply nextCharAfterWs_long)

theorem writeVtdTextLoop_long {n m : Nat} (hn : n ≤ m) (x1 : Token) (x2 : Int) (x3 : Int) (x4 : Int) :
    Sim d (writeVtdTextLoop n x1 x2 x3 x4) (writeVtdTextLoop m x1 x2 x3 x4) := by
  induction n generalizing m x1 x2 x3 x4 with
  | zero => simp only [writeVtdTextLoop]; exact Sim.diverge
  | succ n ih =>
    obtain ⟨m, rfl⟩ : ∃ k, m = k + 1 := ⟨m - 1, by omega⟩
    have ih := @ih m
    simp only [writeVtdTextLoop]; siml ih
macro_rules | `(tactic| siml_lemma) => `(tactic| (refine writeVtdTextLoop_long ?_ _ _ _ _ ; first | assumption | exact Nat.le_refl _))

theorem writeVtdText_long (tokenType : Token) (offset length depth : Int) : Sim d (writeVtdText tokenType offset length depth) (writeVtdText tokenType offset length depth) := by
  unfold writeVtdText; siml
macro_rules | `(tactic| siml_lemma) => `(tactic| apply writeVtdText_long)

theorem fmtCustomLine_long (offset : Int) : Sim d (fmtCustomLine offset) (fmtCustomLine offset) := by
  unfold fmtCustomLine; siml
macro_rules | `(tactic| siml_lemma) => `(tactic| apply fmtCustomLine_long)

theorem fmtLine_long  : Sim d (fmtLine) (fmtLine) := by
  unfold fmtLine; siml
macro_rules | `(tactic| siml_lemma) => `(tactic| apply fmtLine_long)

theorem parseErr_long (msg : String) : Sim d (parseErr msg : M Parser α) (parseErr msg : M Parser α) := by
  unfold parseErr; siml
macro_rules | `(tactic| siml_lemma) => `(tactic| apply parseErr_long)

theorem parseErrAt_long (msg : String) (offset : Int) : Sim d (parseErrAt msg offset : M Parser α) (parseErrAt msg offset : M Parser α) := by
  unfold parseErrAt; siml
macro_rules | `(tactic| siml_lemma) => `(tactic| apply parseErrAt_long)

theorem writeVtdWithLengthCheck_long (tokenType : Token) (errMsg : String) : Sim d (writeVtdWithLengthCheck tokenType errMsg) (writeVtdWithLengthCheck tokenType errMsg) := by
  unfold writeVtdWithLengthCheck; siml
macro_rules | `(tactic| siml_lemma) => `(tactic| apply writeVtdWithLengthCheck_long)

theorem prevOffsetLoop_long {n m : Nat} (hn : n ≤ m) (x1 : Int) :
    Sim d (prevOffsetLoop n x1) (prevOffsetLoop m x1) := by
  induction n generalizing m x1 with
  | zero => simp only [prevOffsetLoop]; exact Sim.diverge
  | succ n ih =>
    obtain ⟨m, rfl⟩ : ∃ k, m = k + 1 := ⟨m - 1, by omega⟩
    have ih := @ih m
    simp only [prevOffsetLoop]; siml ih
macro_rules | `(tactic| siml_lemma) => `(tactic| (refine prevOffsetLoop_long ?_ _ ; first | assumption | exact Nat.le_refl _))

theorem getPrevOffset_long  : Sim d (getPrevOffset) (getPrevOffset) := by
  unfold getPrevOffset; siml
macro_rules | `(tactic| siml_lemma) => `(tactic| apply getPrevOffset_long)

theorem docMatches_long (x0 : Int) (x1 : List UInt8) : Sim d (docMatches x0 x1) (docMatches x0 x1) := by
  induction x1 generalizing x0 with
  | nil => simp only [docMatches]; siml
  | cons k l ih => simp only [docMatches]; siml ih
macro_rules | `(tactic| siml_lemma) => `(tactic| apply docMatches_long)

theorem checkPrefix_long (name : List UInt8) (len1 len2 : Int) (offset length : Int) (checkLength : Bool) : Sim d (checkPrefix name len1 len2 offset length checkLength) (checkPrefix name len1 len2 offset length checkLength) := by
  unfold checkPrefix; siml
macro_rules | `(tactic| siml_lemma) => `(tactic| apply checkPrefix_long)

theorem checkXmlPrefix_long (offset length : Int) (checkLength : Bool) : Sim d (checkXmlPrefix offset length checkLength) (checkXmlPrefix offset length checkLength) := by
  unfold checkXmlPrefix; siml
macro_rules | `(tactic| siml_lemma) => `(tactic| apply checkXmlPrefix_long)

theorem checkXmlnsPrefix_long (offset length : Int) (checkLength : Bool) : Sim d (checkXmlnsPrefix offset length checkLength) (checkXmlnsPrefix offset length checkLength) := by
  unfold checkXmlnsPrefix; siml
macro_rules | `(tactic| siml_lemma) => `(tactic| apply checkXmlnsPrefix_long)

theorem sameBytes_long (x0 : Nat) (x1 : Int) (x2 : Int) : Sim d (sameBytes x0 x1 x2) (sameBytes x0 x1 x2) := by
  induction x0 generalizing x1 x2 with
  | zero => simp only [sameBytes]; siml
  | succ k ih => simp only [sameBytes]; siml ih
macro_rules | `(tactic| siml_lemma) => `(tactic| apply sameBytes_long)

theorem writeText_long (tokenType : Token) : Sim d (writeText tokenType) (writeText tokenType) := by
  unfold writeText; siml
macro_rules | `(tactic| siml_lemma) => `(tactic| apply writeText_long)

theorem writeAt_long (tokenType : Token) (length : Int) : Sim d (writeAt tokenType length) (writeAt tokenType length) := by
  unfold writeAt; siml
macro_rules | `(tactic| siml_lemma) => `(tactic| apply writeAt_long)

theorem recordWhiteSpace_long  : Sim d (recordWhiteSpace) (recordWhiteSpace) := by
  unfold recordWhiteSpace; siml
macro_rules | `(tactic| siml_lemma) => `(tactic| apply recordWhiteSpace_long)

theorem recordWsIfSet_long  : Sim d (recordWsIfSet) (recordWsIfSet) := by
  unfold recordWsIfSet; siml
macro_rules | `(tactic| siml_lemma) => `(tactic| apply recordWsIfSet_long)

theorem entitySeq_long (x0 : List Nat) : Sim d (entitySeq x0) (entitySeq x0) := by
  induction x0 with
  | nil => simp only [entitySeq]; siml
  | cons k l ih => simp only [entitySeq]; siml ih
macro_rules | `(tactic| siml_lemma) => `(tactic| apply entitySeq_long)

theorem entityHexLoop_long {n m : Nat} (hn : n ≤ m) (x1 : Nat) :
    Sim d (entityHexLoop n x1) (entityHexLoop m x1) := by
  induction n generalizing m x1 with
  | zero => simp only [entityHexLoop]; exact Sim.diverge
  | succ n ih =>
    obtain ⟨m, rfl⟩ : ∃ k, m = k + 1 := ⟨m - 1, by omega⟩
    have ih := @ih m
    simp only [entityHexLoop]; siml ih
macro_rules | `(tactic| siml_lemma) => `(tactic| (refine entityHexLoop_long ?_ _ ; first | assumption | exact Nat.le_refl _))

theorem entityDecLoop_long {n m : Nat} (hn : n ≤ m) (x1 : Nat) (x2 : Nat) :
    Sim d (entityDecLoop n x1 x2) (entityDecLoop m x1 x2) := by
  induction n generalizing m x1 x2 with
  | zero => simp only [entityDecLoop]; exact Sim.diverge
  | succ n ih =>
    obtain ⟨m, rfl⟩ : ∃ k, m = k + 1 := ⟨m - 1, by omega⟩
    have ih := @ih m
    simp only [entityDecLoop]; siml ih
macro_rules | `(tactic| siml_lemma) => `(tactic| (refine entityDecLoop_long ?_ _ _ ; first | assumption | exact Nat.le_refl _))

theorem entityIdentifier_long  : Sim d (entityIdentifier) (entityIdentifier) := by
  unfold entityIdentifier; siml
macro_rules | `(tactic| siml_lemma) => `(tactic| apply entityIdentifier_long)

theorem skipBrackets_long {n m : Nat} (hn : n ≤ m) :
    Sim d (skipBrackets n) (skipBrackets m) := by
  induction n generalizing m  with
  | zero => simp only [skipBrackets]; exact Sim.diverge
  | succ n ih =>
    obtain ⟨m, rfl⟩ : ∃ k, m = k + 1 := ⟨m - 1, by omega⟩
    have ih := @ih m
    simp only [skipBrackets]; siml ih
macro_rules | `(tactic| siml_lemma) => `(tactic| (refine skipBrackets_long ?_ ; first | assumption | exact Nat.le_refl _))

theorem bracketText_long  : Sim d (bracketText) (bracketText) := by
  unfold bracketText; siml
macro_rules | `(tactic| siml_lemma) => `(tactic| apply bracketText_long)

theorem handleOtherTextChar_long (ch : Nat) : Sim d (handleOtherTextChar ch) (handleOtherTextChar ch) := by
  unfold handleOtherTextChar; siml
macro_rules | `(tactic| siml_lemma) => `(tactic| apply handleOtherTextChar_long)

theorem markOffset_long  : Sim d (markOffset) (markOffset) := by
  unfold markOffset; siml
macro_rules | `(tactic| siml_lemma) => `(tactic| apply markOffset_long)

theorem validateSeqLoop_long (name : String)  (x0 : List Nat) : Sim d (validateSeqLoop name x0) (validateSeqLoop name x0) := by
  induction x0 with
  | nil => simp only [validateSeqLoop]; siml
  | cons k l ih => simp only [validateSeqLoop]; siml ih
macro_rules | `(tactic| siml_lemma) => `(tactic| apply validateSeqLoop_long)

theorem validateSeq_long (name : String) (seq : List Nat) : Sim d (validateSeq name seq) (validateSeq name seq) := by
  unfold validateSeq; siml
macro_rules | `(tactic| siml_lemma) => `(tactic| apply validateSeq_long)

theorem getNextProcessStateFromChar_long (ch : Nat) : Sim d (getNextProcessStateFromChar ch) (getNextProcessStateFromChar ch) := by
  unfold getNextProcessStateFromChar; siml
macro_rules | `(tactic| siml_lemma) => `(tactic| apply getNextProcessStateFromChar_long)

theorem processDocEnd_long  : Sim d (processDocEnd) (processDocEnd) := by
  unfold processDocEnd; siml
macro_rules | `(tactic| siml_lemma) => `(tactic| apply processDocEnd_long)

theorem docTypeLoop_long {n m : Nat} (hn : n ≤ m) (x1 : Int) :
    Sim d (docTypeLoop n x1) (docTypeLoop m x1) := by
  induction n generalizing m x1 with
  | zero => simp only [docTypeLoop]; exact Sim.diverge
  | succ n ih =>
    obtain ⟨m, rfl⟩ : ∃ k, m = k + 1 := ⟨m - 1, by omega⟩
    have ih := @ih m
    simp only [docTypeLoop]; siml ih
macro_rules | `(tactic| siml_lemma) => `(tactic| (refine docTypeLoop_long ?_ _ ; first | assumption | exact Nat.le_refl _))

theorem processDocType_long  : Sim d (processDocType) (processDocType) := by
  unfold processDocType; siml
macro_rules | `(tactic| siml_lemma) => `(tactic| apply processDocType_long)

theorem processExSeen_long  : Sim d (processExSeen) (processExSeen) := by
  unfold processExSeen; siml
macro_rules | `(tactic| siml_lemma) => `(tactic| apply processExSeen_long)

theorem processQmSeen_long  : Sim d (processQmSeen) (processQmSeen) := by
  unfold processQmSeen; siml
macro_rules | `(tactic| siml_lemma) => `(tactic| apply processQmSeen_long)

theorem processLtSeen_long  : Sim d (processLtSeen) (processLtSeen) := by
  unfold processLtSeen; siml
macro_rules | `(tactic| siml_lemma) => `(tactic| apply processLtSeen_long)

theorem processElementTail_long  : Sim d (processElementTail) (processElementTail) := by
  unfold processElementTail; siml
macro_rules | `(tactic| siml_lemma) => `(tactic| apply processElementTail_long)

theorem pushTag_long  : Sim d (pushTag) (pushTag) := by
  unfold pushTag; siml
macro_rules | `(tactic| siml_lemma) => `(tactic| apply pushTag_long)

theorem textLoop_long {n m : Nat} (hn : n ≤ m) :
    Sim d (textLoop n) (textLoop m) := by
  induction n generalizing m  with
  | zero => simp only [textLoop]; exact Sim.diverge
  | succ n ih =>
    obtain ⟨m, rfl⟩ : ∃ k, m = k + 1 := ⟨m - 1, by omega⟩
    have ih := @ih m
    simp only [textLoop]; siml ih
macro_rules | `(tactic| siml_lemma) => `(tactic| (refine textLoop_long ?_ ; first | assumption | exact Nat.le_refl _))

theorem processText_long  : Sim d (processText) (processText) := by
  unfold processText; siml
macro_rules | `(tactic| siml_lemma) => `(tactic| apply processText_long)

theorem afterMarkup_long  : Sim d (afterMarkup) (afterMarkup) := by
  unfold afterMarkup; siml
macro_rules | `(tactic| siml_lemma) => `(tactic| apply afterMarkup_long)

theorem cdataLoop_long {n m : Nat} (hn : n ≤ m) :
    Sim d (cdataLoop n) (cdataLoop m) := by
  induction n generalizing m  with
  | zero => simp only [cdataLoop]; exact Sim.diverge
  | succ n ih =>
    obtain ⟨m, rfl⟩ : ∃ k, m = k + 1 := ⟨m - 1, by omega⟩
    have ih := @ih m
    simp only [cdataLoop]; siml ih
macro_rules | `(tactic| siml_lemma) => `(tactic| (refine cdataLoop_long ?_ ; first | assumption | exact Nat.le_refl _))

theorem processCdata_long  : Sim d (processCdata) (processCdata) := by
  unfold processCdata; siml
macro_rules | `(tactic| siml_lemma) => `(tactic| apply processCdata_long)

theorem commentLoop_long {n m : Nat} (hn : n ≤ m) :
    Sim d (commentLoop n) (commentLoop m) := by
  induction n generalizing m  with
  | zero => simp only [commentLoop]; exact Sim.diverge
  | succ n ih =>
    obtain ⟨m, rfl⟩ : ∃ k, m = k + 1 := ⟨m - 1, by omega⟩
    have ih := @ih m
    simp only [commentLoop]; siml ih
macro_rules | `(tactic| siml_lemma) => `(tactic| (refine commentLoop_long ?_ ; first | assumption | exact Nat.le_refl _))

theorem processStartComment_long  : Sim d (processStartComment) (processStartComment) := by
  unfold processStartComment; siml
macro_rules | `(tactic| siml_lemma) => `(tactic| apply processStartComment_long)

theorem processEndComment_long  : Sim d (processEndComment) (processEndComment) := by
  unfold processEndComment; siml
macro_rules | `(tactic| siml_lemma) => `(tactic| apply processEndComment_long)

theorem nameLoop_long {n m : Nat} (hn : n ≤ m) :
    Sim d (nameLoop n) (nameLoop m) := by
  induction n generalizing m  with
  | zero => simp only [nameLoop]; exact Sim.diverge
  | succ n ih =>
    obtain ⟨m, rfl⟩ : ∃ k, m = k + 1 := ⟨m - 1, by omega⟩
    have ih := @ih m
    simp only [nameLoop]; siml ih
macro_rules | `(tactic| siml_lemma) => `(tactic| (refine nameLoop_long ?_ ; first | assumption | exact Nat.le_refl _))

theorem processPiTag_long  : Sim d (processPiTag) (processPiTag) := by
  unfold processPiTag; siml
macro_rules | `(tactic| siml_lemma) => `(tactic| apply processPiTag_long)

theorem piValLoop_long {n m : Nat} (hn : n ≤ m) :
    Sim d (piValLoop n) (piValLoop m) := by
  induction n generalizing m  with
  | zero => simp only [piValLoop]; exact Sim.diverge
  | succ n ih =>
    obtain ⟨m, rfl⟩ : ∃ k, m = k + 1 := ⟨m - 1, by omega⟩
    have ih := @ih m
    simp only [piValLoop]; siml ih
macro_rules | `(tactic| siml_lemma) => `(tactic| (refine piValLoop_long ?_ ; first | assumption | exact Nat.le_refl _))

theorem processPiVal_long  : Sim d (processPiVal) (processPiVal) := by
  unfold processPiVal; siml
macro_rules | `(tactic| siml_lemma) => `(tactic| apply processPiVal_long)

theorem piEndNameLoop_long {n m : Nat} (hn : n ≤ m) :
    Sim d (piEndNameLoop n) (piEndNameLoop m) := by
  induction n generalizing m  with
  | zero => simp only [piEndNameLoop]; exact Sim.diverge
  | succ n ih =>
    obtain ⟨m, rfl⟩ : ∃ k, m = k + 1 := ⟨m - 1, by omega⟩
    have ih := @ih m
    simp only [piEndNameLoop]; siml ih
macro_rules | `(tactic| siml_lemma) => `(tactic| (refine piEndNameLoop_long ?_ ; first | assumption | exact Nat.le_refl _))

theorem piEndValLoop_long {n m : Nat} (hn : n ≤ m) :
    Sim d (piEndValLoop n) (piEndValLoop m) := by
  induction n generalizing m  with
  | zero => simp only [piEndValLoop]; exact Sim.diverge
  | succ n ih =>
    obtain ⟨m, rfl⟩ : ∃ k, m = k + 1 := ⟨m - 1, by omega⟩
    have ih := @ih m
    simp only [piEndValLoop]; siml ih
macro_rules | `(tactic| siml_lemma) => `(tactic| (refine piEndValLoop_long ?_ ; first | assumption | exact Nat.le_refl _))

theorem piEndTarget_long  : Sim d (piEndTarget) (piEndTarget) := by
  unfold piEndTarget; siml
macro_rules | `(tactic| siml_lemma) => `(tactic| apply piEndTarget_long)

theorem processPiEnd_long  : Sim d (processPiEnd) (processPiEnd) := by
  unfold processPiEnd; siml
macro_rules | `(tactic| siml_lemma) => `(tactic| apply processPiEnd_long)

theorem attrNsTest_long  : Sim d (attrNsTest) (attrNsTest) := by
  unfold attrNsTest; siml
macro_rules | `(tactic| siml_lemma) => `(tactic| apply attrNsTest_long)

theorem attrNameLoop_long {n m : Nat} (hn : n ≤ m) :
    Sim d (attrNameLoop n) (attrNameLoop m) := by
  induction n generalizing m  with
  | zero => simp only [attrNameLoop]; exact Sim.diverge
  | succ n ih =>
    obtain ⟨m, rfl⟩ : ∃ k, m = k + 1 := ⟨m - 1, by omega⟩
    have ih := @ih m
    simp only [attrNameLoop]; siml ih
macro_rules | `(tactic| siml_lemma) => `(tactic| (refine attrNameLoop_long ?_ ; first | assumption | exact Nat.le_refl _))

theorem uniqueLoop_long (x0 : Nat) (x1 : Int) (x2 : Bool) : Sim d (uniqueLoop x0 x1 x2) (uniqueLoop x0 x1 x2) := by
  induction x0 generalizing x1 x2 with
  | zero => simp only [uniqueLoop]; siml
  | succ k ih => simp only [uniqueLoop]; siml ih
macro_rules | `(tactic| siml_lemma) => `(tactic| apply uniqueLoop_long)

theorem attrValLoop_long (quote : Nat) {n m : Nat} (hn : n ≤ m) :
    Sim d (attrValLoop quote n) (attrValLoop quote m) := by
  induction n generalizing m  with
  | zero => simp only [attrValLoop]; exact Sim.diverge
  | succ n ih =>
    obtain ⟨m, rfl⟩ : ∃ k, m = k + 1 := ⟨m - 1, by omega⟩
    have ih := @ih m
    simp only [attrValLoop]; siml ih
macro_rules | `(tactic| siml_lemma) => `(tactic| (refine attrValLoop_long _ ?_ ; first | assumption | exact Nat.le_refl _))

theorem skipSeqOrUpper_long (seq : List Nat) : Sim d (skipSeqOrUpper seq) (skipSeqOrUpper seq) := by
  unfold skipSeqOrUpper; siml
macro_rules | `(tactic| siml_lemma) => `(tactic| apply skipSeqOrUpper_long)

theorem checkAsciiEncoding_long  : Sim d (checkAsciiEncoding) (checkAsciiEncoding) := by
  unfold checkAsciiEncoding; siml
macro_rules | `(tactic| siml_lemma) => `(tactic| apply checkAsciiEncoding_long)

theorem checkUsAsciiEncoding_long  : Sim d (checkUsAsciiEncoding) (checkUsAsciiEncoding) := by
  unfold checkUsAsciiEncoding; siml
macro_rules | `(tactic| siml_lemma) => `(tactic| apply checkUsAsciiEncoding_long)

theorem setIsoEncoding_long  : Sim d (setIsoEncoding) (setIsoEncoding) := by
  unfold setIsoEncoding; siml
macro_rules | `(tactic| siml_lemma) => `(tactic| apply setIsoEncoding_long)

theorem setWinEncoding_long  : Sim d (setWinEncoding) (setWinEncoding) := by
  unfold setWinEncoding; siml
macro_rules | `(tactic| siml_lemma) => `(tactic| apply setWinEncoding_long)

theorem checkIsoEncoding_long  : Sim d (checkIsoEncoding) (checkIsoEncoding) := by
  unfold checkIsoEncoding; siml
macro_rules | `(tactic| siml_lemma) => `(tactic| apply checkIsoEncoding_long)

theorem checkUtfEncoding_long  : Sim d (checkUtfEncoding) (checkUtfEncoding) := by
  unfold checkUtfEncoding; siml
macro_rules | `(tactic| siml_lemma) => `(tactic| apply checkUtfEncoding_long)

theorem checkCpEncoding_long  : Sim d (checkCpEncoding) (checkCpEncoding) := by
  unfold checkCpEncoding; siml
macro_rules | `(tactic| siml_lemma) => `(tactic| apply checkCpEncoding_long)

theorem checkWindowsEncoding_long  : Sim d (checkWindowsEncoding) (checkWindowsEncoding) := by
  unfold checkWindowsEncoding; siml
macro_rules | `(tactic| siml_lemma) => `(tactic| apply checkWindowsEncoding_long)

theorem checkEncodingName_long  : Sim d (checkEncodingName) (checkEncodingName) := by
  unfold checkEncodingName; siml
macro_rules | `(tactic| siml_lemma) => `(tactic| apply checkEncodingName_long)

theorem expectQuote_long  : Sim d (expectQuote) (expectQuote) := by
  unfold expectQuote; siml
macro_rules | `(tactic| siml_lemma) => `(tactic| apply expectQuote_long)

theorem expectEq_long  : Sim d (expectEq) (expectEq) := by
  unfold expectEq; siml
macro_rules | `(tactic| siml_lemma) => `(tactic| apply expectEq_long)

theorem processDecEncodingAttr_long  : Sim d (processDecEncodingAttr) (processDecEncodingAttr) := by
  unfold processDecEncodingAttr; siml
macro_rules | `(tactic| siml_lemma) => `(tactic| apply processDecEncodingAttr_long)

theorem processDecStandaloneAttr_long  : Sim d (processDecStandaloneAttr) (processDecStandaloneAttr) := by
  unfold processDecStandaloneAttr; siml
macro_rules | `(tactic| siml_lemma) => `(tactic| apply processDecStandaloneAttr_long)

theorem decVersion_long  : Sim d (decVersion) (decVersion) := by
  unfold decVersion; siml
macro_rules | `(tactic| siml_lemma) => `(tactic| apply decVersion_long)

theorem decOptional_long  : Sim d (decOptional) (decOptional) := by
  unfold decOptional; siml
macro_rules | `(tactic| siml_lemma) => `(tactic| apply decOptional_long)

theorem writeStartTag_long : Sim d writeStartTag writeStartTag := by
  unfold writeStartTag; siml
macro_rules | `(tactic| siml_lemma) => `(tactic| apply writeStartTag_long)

theorem attrNameEnd_long : Sim d attrNameEnd attrNameEnd := by
  unfold attrNameEnd; siml
macro_rules | `(tactic| siml_lemma) => `(tactic| apply attrNameEnd_long)

theorem processDecAttrName_long : Sim d processDecAttrName processDecAttrName := by
  unfold processDecAttrName; siml
macro_rules | `(tactic| siml_lemma) => `(tactic| apply processDecAttrName_long)

theorem pushNs1_long  : Sim d (pushNs1) (pushNs1) := by
  unfold pushNs1; siml
macro_rules | `(tactic| siml_lemma) => `(tactic| apply pushNs1_long)

theorem qualifyElementLoop_long (preLen preOs : Int)  (x0 : Nat) : Sim d (qualifyElementLoop preLen preOs x0) (qualifyElementLoop preLen preOs x0) := by
  induction x0 with
  | zero => simp only [qualifyElementLoop]; siml
  | succ k ih => simp only [qualifyElementLoop]; siml ih
macro_rules | `(tactic| siml_lemma) => `(tactic| apply qualifyElementLoop_long)

theorem qualifyElement_long  : Sim d (qualifyElement) (qualifyElement) := by
  unfold qualifyElement; siml
macro_rules | `(tactic| siml_lemma) => `(tactic| apply qualifyElement_long)

theorem startTagNs_long  : Sim d (startTagNs) (startTagNs) := by
  unfold startTagNs; siml
macro_rules | `(tactic| siml_lemma) => `(tactic| apply startTagNs_long)

theorem startTagEnd_long  : Sim d (startTagEnd) (startTagEnd) := by
  unfold startTagEnd; siml
macro_rules | `(tactic| siml_lemma) => `(tactic| apply startTagEnd_long)

theorem attrNsDecl_long  : Sim d (attrNsDecl) (attrNsDecl) := by
  unfold attrNsDecl; siml
macro_rules | `(tactic| siml_lemma) => `(tactic| apply attrNsDecl_long)

theorem pushPrefixedAttr_long  : Sim d (pushPrefixedAttr) (pushPrefixedAttr) := by
  unfold pushPrefixedAttr; siml
macro_rules | `(tactic| siml_lemma) => `(tactic| apply pushPrefixedAttr_long)

theorem writeAttrName_long  : Sim d (writeAttrName) (writeAttrName) := by
  unfold writeAttrName; siml
macro_rules | `(tactic| siml_lemma) => `(tactic| apply writeAttrName_long)

theorem getCharUnit_long (offset : Int) : Sim d (getCharUnit offset) (getCharUnit offset) := by
  unfold getCharUnit; siml
macro_rules | `(tactic| siml_lemma) => `(tactic| apply getCharUnit_long)

theorem unitSeq_long (inc : Int)  (x0 : List Int) (x1 : Int) : Sim d (unitSeq inc x0 x1) (unitSeq inc x0 x1) := by
  induction x0 generalizing x1 with
  | nil => simp only [unitSeq]; siml
  | cons k l ih => simp only [unitSeq]; siml ih
macro_rules | `(tactic| siml_lemma) => `(tactic| apply unitSeq_long)

theorem resolveHexLoop_long {n m : Nat} (hn : n ≤ m) (x1 : Int) (x2 : Int) (x3 : Int) :
    Sim d (resolveHexLoop n x1 x2 x3) (resolveHexLoop m x1 x2 x3) := by
  induction n generalizing m x1 x2 x3 with
  | zero => simp only [resolveHexLoop]; exact Sim.diverge
  | succ n ih =>
    obtain ⟨m, rfl⟩ : ∃ k, m = k + 1 := ⟨m - 1, by omega⟩
    have ih := @ih m
    simp only [resolveHexLoop]; siml ih
macro_rules | `(tactic| siml_lemma) => `(tactic| (refine resolveHexLoop_long ?_ _ _ _ ; first | assumption | exact Nat.le_refl _))

theorem resolveDecLoop_long {n m : Nat} (hn : n ≤ m) (x1 : Int) (x2 : Int) (x3 : Int) :
    Sim d (resolveDecLoop n x1 x2 x3) (resolveDecLoop m x1 x2 x3) := by
  induction n generalizing m x1 x2 x3 with
  | zero => simp only [resolveDecLoop]; exact Sim.diverge
  | succ n ih =>
    obtain ⟨m, rfl⟩ : ∃ k, m = k + 1 := ⟨m - 1, by omega⟩
    have ih := @ih m
    simp only [resolveDecLoop]; siml ih
macro_rules | `(tactic| siml_lemma) => `(tactic| (refine resolveDecLoop_long ?_ _ _ _ ; first | assumption | exact Nat.le_refl _))

theorem resolveUnit_long (offset : Int) (ch : Int) (inc : Int) : Sim d (resolveUnit offset ch inc) (resolveUnit offset ch inc) := by
  unfold resolveUnit; siml
macro_rules | `(tactic| siml_lemma) => `(tactic| apply resolveUnit_long)

theorem getCharResolved_long (offset : Int) : Sim d (getCharResolved offset) (getCharResolved offset) := by
  unfold getCharResolved; siml
macro_rules | `(tactic| siml_lemma) => `(tactic| apply getCharResolved_long)

theorem urlLoop_long (g : Int)  (x0 : List Nat) (x1 : Int) : Sim d (urlLoop g x0 x1) (urlLoop g x0 x1) := by
  induction x0 generalizing x1 with
  | nil => simp only [urlLoop]; siml
  | cons k l ih => simp only [urlLoop]; siml ih
macro_rules | `(tactic| siml_lemma) => `(tactic| apply urlLoop_long)

theorem identifyNsUrl_long  : Sim d (identifyNsUrl) (identifyNsUrl) := by
  unfold identifyNsUrl; siml
macro_rules | `(tactic| siml_lemma) => `(tactic| apply identifyNsUrl_long)

theorem qualifyAttrLoop_long (preLen preOs : Int)  (x0 : Nat) : Sim d (qualifyAttrLoop preLen preOs x0) (qualifyAttrLoop preLen preOs x0) := by
  induction x0 with
  | zero => simp only [qualifyAttrLoop]; siml
  | succ k ih => simp only [qualifyAttrLoop]; siml ih
macro_rules | `(tactic| siml_lemma) => `(tactic| apply qualifyAttrLoop_long)

theorem qualifyAttrsLoop_long (nsCount : Nat)  (x0 : Nat) (x1 : Int) : Sim d (qualifyAttrsLoop nsCount x0 x1) (qualifyAttrsLoop nsCount x0 x1) := by
  induction x0 generalizing x1 with
  | zero => simp only [qualifyAttrsLoop]; siml
  | succ k ih => simp only [qualifyAttrsLoop]; siml ih
macro_rules | `(tactic| siml_lemma) => `(tactic| apply qualifyAttrsLoop_long)

theorem qualifyAttributes_long  : Sim d (qualifyAttributes) (qualifyAttributes) := by
  unfold qualifyAttributes; siml
macro_rules | `(tactic| siml_lemma) => `(tactic| apply qualifyAttributes_long)

theorem matchUrlLoop_long (x0 : Nat) (x1 x2 : Int) : Sim d (matchUrlLoop x0 x1 x2) (matchUrlLoop x0 x1 x2) := by
  induction x0 generalizing x1 x2 with
  | zero => simp only [matchUrlLoop]; siml
  | succ k ih => simp only [matchUrlLoop]; siml ih
macro_rules | `(tactic| siml_lemma) => `(tactic| apply matchUrlLoop_long)

theorem matchUrl_long (aOffset aLength bOffset bLength : Int) : Sim d (matchUrl aOffset aLength bOffset bLength) (matchUrl aOffset aLength bOffset bLength) := by
  unfold matchUrl; siml
macro_rules | `(tactic| siml_lemma) => `(tactic| apply matchUrl_long)

theorem uniqueQualInner_long (postLen offset urlOffset urlLen : Int) (x0 : Nat) (x1 : Int) : Sim d (uniqueQualInner postLen offset urlOffset urlLen x0 x1) (uniqueQualInner postLen offset urlOffset urlLen x0 x1) := by
  induction x0 generalizing x1 with
  | zero => simp only [uniqueQualInner]; siml
  | succ k ih => simp only [uniqueQualInner]; siml ih
macro_rules | `(tactic| siml_lemma) => `(tactic| apply uniqueQualInner_long)

theorem uniqueQualOuter_long (x0 : Nat) (x1 : Int) : Sim d (uniqueQualOuter x0 x1) (uniqueQualOuter x0 x1) := by
  induction x0 generalizing x1 with
  | zero => simp only [uniqueQualOuter]; siml
  | succ k ih => simp only [uniqueQualOuter]; siml ih
macro_rules | `(tactic| siml_lemma) => `(tactic| apply uniqueQualOuter_long)

theorem checkQualifiedAttributeUniqueness_long  : Sim d (checkQualifiedAttributeUniqueness) (checkQualifiedAttributeUniqueness) := by
  unfold checkQualifiedAttributeUniqueness; siml
macro_rules | `(tactic| siml_lemma) => `(tactic| apply checkQualifiedAttributeUniqueness_long)

theorem attrValNs_long  : Sim d (attrValNs) (attrValNs) := by
  unfold attrValNs; siml
macro_rules | `(tactic| siml_lemma) => `(tactic| apply attrValNs_long)

theorem attrValQualify_long  : Sim d (attrValQualify) (attrValQualify) := by
  unfold attrValQualify; siml
macro_rules | `(tactic| siml_lemma) => `(tactic| apply attrValQualify_long)

end
end Longer
end Parser
end GoVtd
