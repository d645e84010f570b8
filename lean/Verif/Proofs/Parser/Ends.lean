import Verif.Proofs.Parser.Quiet

/-!
# Offsets and next states of the steps

`Hold m`: if `m` succeeds, the offset is afterwards the position of the reader if it was before. `Ends S m`:
the states that `m` returns are in `S`.
-/

namespace GoVtd
namespace Parser
namespace Ev
open Paged Grammar Two

/-- `m` keeps the offset at the position of the reader. -/
def Hold {α : Type} (m : M Parser α) : Prop :=
  ∀ s a s', m s = .ok a s' → s.offset = s.rd.offset → s'.offset = s'.rd.offset

section
variable {α β : Type}

theorem hold_pure (a : α) : Hold (Pure.pure a : M Parser α) := fun _ _ _ h e => by cases h; exact e
theorem hold_raise (e : GoErr) : Hold (M.raise e : M Parser α) := fun _ _ _ h => by cases h
theorem hold_panic : Hold (M.panic : M Parser α) := fun _ _ _ h => by cases h
theorem hold_diverge : Hold (M.diverge : M Parser α) := fun _ _ _ h => by cases h
theorem hold_get : Hold M.get := fun _ _ _ h e => by cases h; exact e
theorem hold_modify {f : Parser → Parser} (h : ∀ s, (f s).offset = s.offset ∧ (f s).rd = s.rd) : Hold (M.modify f) := by
  intro s a s' he e
  cases he
  rw [(h s).1, (h s).2]; exact e
theorem hold_index (xs : List α) (i : Int) : Hold (M.index xs i : M Parser α) := by
  intro s a s' he e
  by_cases h' : 0 ≤ i ∧ i.toNat < xs.length
  · rw [M.index_of_lt xs i s h'.1 h'.2] at he; cases he; exact e
  · rw [M.index_panic xs i s (by omega)] at he; cases he
theorem hold_bind {m : M Parser α} {k : α → M Parser β} (hm : Hold m) (hk : ∀ a, Hold (k a)) : Hold (m >>= k) := by
  intro s b s' he e
  rw [M.bind_apply] at he
  cases hr : m s with
  | ok a t => rw [hr] at he; exact hk a t b s' he (hm s a t hr e)
  | err e t => rw [hr] at he; cases he
  | panic => rw [hr] at he; cases he
  | diverge => rw [hr] at he; cases he
theorem hold_ite {c : Prop} [Decidable c] {a b : M Parser α} (ha : Hold a) (hb : Hold b) : Hold (if c then a else b) := by
  split
  · exact ha
  · exact hb
theorem hold_and {a b : M Parser Bool} (ha : Hold a) (hb : Hold b) : Hold (M.and a b) :=
  hold_bind ha fun _ => hold_ite hb (hold_pure _)
theorem hold_or {a b : M Parser Bool} (ha : Hold a) (hb : Hold b) : Hold (M.or a b) :=
  hold_bind ha fun _ => hold_ite (hold_pure _) hb
theorem hold_zoom {τ : Type} {g : Parser → τ} {u : τ → Parser → Parser} {m : M τ α}
    (h : ∀ s t, (u t s).offset = s.offset ∧ (u t s).rd = s.rd) : Hold (M.zoom g u m) := by
  intro s a s' he e
  rw [M.zoom_apply] at he
  cases hr : m (g s) with
  | ok b t => rw [hr] at he; cases he; rw [(h s t).1, (h s t).2]; exact e
  | err e t => rw [hr] at he; cases he
  | panic => rw [hr] at he; cases he
  | diverge => rw [hr] at he; cases he
theorem hold_docByte (i : Int) : Hold (docByte i) := hold_bind hold_get fun _ => hold_index _ _
theorem hold_parseErr (msg : String) : Hold (parseErr msg : M Parser α) := by
  intro s a s' he
  have : Leads (parseErr msg s : Res Parser α) (fun _ _ => True) := ⟨a, s', he, trivial⟩
  simp at this
theorem hold_parseErrAt (msg : String) (o : Int) : Hold (parseErrAt msg o : M Parser α) := by
  intro s a s' he
  have : Leads (parseErrAt msg o s : Res Parser α) (fun _ _ => True) := ⟨a, s', he, trivial⟩
  simp at this
theorem hold_wrap (msg : String) {m : M Parser α} (h : Hold m) : Hold (wrapInternal msg m) := by
  intro s a s' he e
  simp only [wrapInternal, M.catchErr_apply] at he
  cases hr : m s with
  | ok b t => rw [hr] at he; cases he; exact h s _ _ hr e
  | err e t => rw [hr] at he; cases he
  | panic => rw [hr] at he; cases he
  | diverge => rw [hr] at he; cases he

/-- A call on the reader that is followed by setting the offset. -/
theorem read_sync (m : M Reader α) {s a s'}
    (h : (do let x ← onRd m; M.modify fun p => { p with offset := p.rd.getOffset }; pure x) s = .ok a s') :
    s'.offset = s'.rd.offset := by
  simp only [M.bind_apply, onRd, M.zoom_apply] at h
  cases hr : m s.rd with
  | ok b t => rw [hr] at h; cases h; rfl
  | err e t => rw [hr] at h; cases h
  | panic => rw [hr] at h; cases h
  | diverge => rw [hr] at h; cases h
end

/-- Lemmas for the tactic `hold`. -/
syntax "hold_lemma" : tactic
/-- Prove `Hold m` along the text of `m`. -/
syntax "hold" : tactic
macro_rules
  | `(tactic| hold) => `(tactic| repeat' (first
      | assumption
      | with_reducible exact hold_pure _
      | with_reducible exact hold_raise _
      | with_reducible exact hold_panic
      | with_reducible exact hold_diverge
      | with_reducible exact hold_get
      | with_reducible exact hold_index _ _
      | with_reducible exact hold_parseErr _
      | with_reducible exact hold_parseErrAt _ _
      | with_reducible exact hold_docByte _
      | with_reducible refine hold_wrap _ ?_
      | with_reducible refine hold_bind ?_ fun _ => ?_
      | with_reducible refine hold_and ?_ ?_
      | with_reducible refine hold_or ?_ ?_
      | with_reducible refine hold_ite ?_ ?_
      | with_reducible exact hold_modify fun _ => ⟨rfl, rfl⟩
      | with_reducible exact hold_zoom fun _ _ => ⟨rfl, rfl⟩
      | hold_lemma
      | split))

theorem getChar_sync {s a s'} (h : getChar s = .ok a s') : s'.offset = s'.rd.offset := read_sync _ h
theorem getChar_hold : Hold getChar := fun _ _ _ h _ => getChar_sync h
macro_rules | `(tactic| hold_lemma) => `(tactic| with_reducible exact getChar_hold)
theorem skipChar_hold (ch : Nat) : Hold (skipChar ch) := fun _ _ _ h _ => read_sync _ h
macro_rules | `(tactic| hold_lemma) => `(tactic| with_reducible exact skipChar_hold _)
theorem skipCharSeq_hold (l : List Nat) : Hold (skipCharSeq l) := fun _ _ _ h _ => read_sync _ h
macro_rules | `(tactic| hold_lemma) => `(tactic| with_reducible exact skipCharSeq_hold _)
theorem nextChar_sync {s a s'} (h : nextChar s = .ok a s') : s'.offset = s'.rd.offset := by
  rw [nextChar, M.bind_apply] at h
  cases hr : getChar s with
  | ok b t => rw [hr] at h; have := getChar_sync hr; cases h; exact this
  | err e t => rw [hr] at h; cases h
  | panic => rw [hr] at h; cases h
  | diverge => rw [hr] at h; cases h
theorem nextChar_hold : Hold nextChar := fun _ _ _ h _ => nextChar_sync h
macro_rules | `(tactic| hold_lemma) => `(tactic| with_reducible exact nextChar_hold)
theorem onVtd_hold {α : Type} (m : M FastLongBuffer α) : Hold (onVtd m) := hold_zoom fun _ _ => ⟨rfl, rfl⟩
macro_rules | `(tactic| hold_lemma) => `(tactic| with_reducible exact onVtd_hold _)
theorem markOffset_hold : Hold markOffset := by unfold markOffset; hold
macro_rules | `(tactic| hold_lemma) => `(tactic| with_reducible exact markOffset_hold)
theorem skipCharSeqIgnoreCase_hold (l : List Nat) : Hold (skipCharSeqIgnoreCase l) := by
  induction l with
  | nil => unfold skipCharSeqIgnoreCase; hold
  | cons c l ih => unfold skipCharSeqIgnoreCase; hold
macro_rules | `(tactic| hold_lemma) => `(tactic| with_reducible exact skipCharSeqIgnoreCase_hold _)
theorem nextCharAfterWsLoop_hold (n : Nat) : Hold (nextCharAfterWsLoop n) := by
  induction n with
  | zero => unfold nextCharAfterWsLoop; hold
  | succ n ih => unfold nextCharAfterWsLoop; hold
macro_rules | `(tactic| hold_lemma) => `(tactic| with_reducible exact nextCharAfterWsLoop_hold _)
theorem nextCharAfterWs_hold : Hold nextCharAfterWs := by unfold nextCharAfterWs; hold
macro_rules | `(tactic| hold_lemma) => `(tactic| with_reducible exact nextCharAfterWs_hold)
theorem entitySeq_hold (l : List Nat) : Hold (entitySeq l) := by
  induction l with
  | nil => unfold entitySeq; hold
  | cons c l ih => unfold entitySeq; hold
macro_rules | `(tactic| hold_lemma) => `(tactic| with_reducible exact entitySeq_hold _)
theorem entityHexLoop_hold (n v : Nat) : Hold (entityHexLoop n v) := by
  induction n generalizing v with
  | zero => unfold entityHexLoop; hold
  | succ n ih =>
    unfold entityHexLoop
    refine hold_bind getChar_hold fun ch => ?_
    split
    · exact ih _
    · hold
macro_rules | `(tactic| hold_lemma) => `(tactic| with_reducible exact entityHexLoop_hold _ _)
theorem entityDecLoop_hold (n c v : Nat) : Hold (entityDecLoop n c v) := by
  induction n generalizing c v with
  | zero => unfold entityDecLoop; hold
  | succ n ih =>
    unfold entityDecLoop
    exact hold_ite (hold_bind getChar_hold fun _ => ih _ _) (by hold)
macro_rules | `(tactic| hold_lemma) => `(tactic| with_reducible exact entityDecLoop_hold _ _ _)
theorem entityIdentifier_hold : Hold entityIdentifier := by unfold entityIdentifier; hold
macro_rules | `(tactic| hold_lemma) => `(tactic| with_reducible exact entityIdentifier_hold)
theorem skipBrackets_hold (n : Nat) : Hold (skipBrackets n) := by
  induction n with
  | zero => unfold skipBrackets; hold
  | succ n ih => unfold skipBrackets; hold
macro_rules | `(tactic| hold_lemma) => `(tactic| with_reducible exact skipBrackets_hold _)
theorem bracketText_hold : Hold bracketText := by unfold bracketText; hold
macro_rules | `(tactic| hold_lemma) => `(tactic| with_reducible exact bracketText_hold)
theorem handleOtherTextChar_hold (ch : Nat) : Hold (handleOtherTextChar ch) := by unfold handleOtherTextChar; hold
macro_rules | `(tactic| hold_lemma) => `(tactic| with_reducible exact handleOtherTextChar_hold _)
theorem writeVtd_hold (t : Token) (o l d : Int) : Hold (writeVtd t o l d) := by unfold writeVtd; hold
macro_rules | `(tactic| hold_lemma) => `(tactic| with_reducible exact writeVtd_hold _ _ _ _)
theorem writeVtdTextLoop_hold (n : Nat) (t : Token) (o j d : Int) : Hold (writeVtdTextLoop n t o j d) := by
  induction n generalizing o j with
  | zero => unfold writeVtdTextLoop; hold
  | succ n ih =>
    unfold writeVtdTextLoop
    have := ih (o + maxTokenLength) (j - maxTokenLength)
    hold
macro_rules | `(tactic| hold_lemma) => `(tactic| with_reducible exact writeVtdTextLoop_hold _ _ _ _ _)
theorem writeVtdText_hold (t : Token) (o j d : Int) : Hold (writeVtdText t o j d) := by unfold writeVtdText; hold
macro_rules | `(tactic| hold_lemma) => `(tactic| with_reducible exact writeVtdText_hold _ _ _ _)
theorem writeText_hold (t : Token) : Hold (writeText t) := by unfold writeText; hold
macro_rules | `(tactic| hold_lemma) => `(tactic| with_reducible exact writeText_hold _)
theorem writeAt_hold (t : Token) (l : Int) : Hold (writeAt t l) := by unfold writeAt; hold
macro_rules | `(tactic| hold_lemma) => `(tactic| with_reducible exact writeAt_hold _ _)
theorem writeCheck_hold (t : Token) (msg : String) : Hold (writeVtdWithLengthCheck t msg) := by
  unfold writeVtdWithLengthCheck; hold
macro_rules | `(tactic| hold_lemma) => `(tactic| with_reducible exact writeCheck_hold _ _)
theorem recordWsIfSet_hold : Hold recordWsIfSet := by unfold recordWsIfSet recordWhiteSpace; hold
macro_rules | `(tactic| hold_lemma) => `(tactic| with_reducible exact recordWsIfSet_hold)

theorem getNextProcessStateFromChar_hold (c : Nat) : Hold (getNextProcessStateFromChar c) := by
  unfold getNextProcessStateFromChar; hold
macro_rules | `(tactic| hold_lemma) => `(tactic| with_reducible exact getNextProcessStateFromChar_hold _)
theorem afterMarkup_hold : Hold afterMarkup := by unfold afterMarkup; hold
macro_rules | `(tactic| hold_lemma) => `(tactic| with_reducible exact afterMarkup_hold)
theorem validateSeqLoop_hold (n : String) (l : List Nat) : Hold (validateSeqLoop n l) := by
  induction l with
  | nil => unfold validateSeqLoop; hold
  | cons c l ih => unfold validateSeqLoop; hold
macro_rules | `(tactic| hold_lemma) => `(tactic| with_reducible exact validateSeqLoop_hold _ _)
theorem validateSeq_hold (n : String) (l : List Nat) : Hold (validateSeq n l) := by unfold validateSeq; hold
macro_rules | `(tactic| hold_lemma) => `(tactic| with_reducible exact validateSeq_hold _ _)
theorem docTypeLoop_hold (n : Nat) (z : Int) : Hold (docTypeLoop n z) := by
  induction n generalizing z with
  | zero => unfold docTypeLoop; hold
  | succ n ih =>
    unfold docTypeLoop
    refine hold_bind getChar_hold fun ch => hold_ite (hold_ite (hold_pure _) (ih _)) (hold_parseErr _)
macro_rules | `(tactic| hold_lemma) => `(tactic| with_reducible exact docTypeLoop_hold _ _)
theorem processDocType_hold : Hold processDocType := by unfold processDocType; hold
theorem processExSeen_hold : Hold processExSeen := by unfold processExSeen; hold
theorem processElementTail_hold : Hold processElementTail := by unfold processElementTail; hold
theorem textLoop_hold (n : Nat) : Hold (textLoop n) := by
  induction n with
  | zero => unfold textLoop; hold
  | succ n ih => unfold textLoop; hold
macro_rules | `(tactic| hold_lemma) => `(tactic| with_reducible exact textLoop_hold _)
theorem processText_hold : Hold processText := by unfold processText; hold
theorem cdataLoop_hold (n : Nat) : Hold (cdataLoop n) := by
  induction n with
  | zero => unfold cdataLoop; hold
  | succ n ih => unfold cdataLoop; hold
macro_rules | `(tactic| hold_lemma) => `(tactic| with_reducible exact cdataLoop_hold _)
theorem processCdata_hold : Hold processCdata := by unfold processCdata; hold
theorem commentLoop_hold (n : Nat) : Hold (commentLoop n) := by
  induction n with
  | zero => unfold commentLoop; hold
  | succ n ih => unfold commentLoop; hold
macro_rules | `(tactic| hold_lemma) => `(tactic| with_reducible exact commentLoop_hold _)
theorem processStartComment_hold : Hold processStartComment := by unfold processStartComment; hold
theorem piValLoop_hold (n : Nat) : Hold (piValLoop n) := by
  induction n with
  | zero => unfold piValLoop; hold
  | succ n ih => unfold piValLoop; hold
macro_rules | `(tactic| hold_lemma) => `(tactic| with_reducible exact piValLoop_hold _)
theorem processPiVal_hold : Hold processPiVal := by unfold processPiVal; hold

/-- The offset is the position of the reader after a name, whatever it was before. -/
theorem nameLoop_sync {n : Nat} {s a s'} (h : nameLoop n s = .ok a s') : s'.offset = s'.rd.offset := by
  cases n with
  | zero => cases h
  | succ n =>
    have hh : ∀ n, Hold (nameLoop n) := by
      intro n
      induction n with
      | zero => unfold nameLoop; hold
      | succ n ih => unfold nameLoop; hold
    rw [nameLoop, M.bind_apply] at h
    cases hr : nextChar s with
    | ok b t =>
      rw [hr] at h
      have : Hold (do let p ← M.get; if isNameChar p.currentChar then nameLoop n else pure ()) := by
        have := hh n; hold
      exact this _ _ _ h (nextChar_sync hr)
    | err e t => rw [hr] at h; cases h
    | panic => rw [hr] at h; cases h
    | diverge => rw [hr] at h; cases h
theorem processPiTag_sync {s a s'} (h : processPiTag s = .ok a s') : s'.offset = s'.rd.offset := by
  rw [processPiTag, M.bind_apply, M.get_apply, Res.andThen_ok, M.bind_apply] at h
  cases hr : nameLoop s.loopFuel s with
  | ok b t =>
    rw [hr] at h
    rw [Res.andThen_ok] at h
    refine (?_ : Hold _) _ _ _ h (nameLoop_sync hr)
    hold
  | err e t => rw [hr] at h; cases h
  | panic => rw [hr] at h; cases h
  | diverge => rw [hr] at h; cases h

theorem skipSeqOrUpper_hold (l : List Nat) : Hold (skipSeqOrUpper l) := by unfold skipSeqOrUpper; hold
macro_rules | `(tactic| hold_lemma) => `(tactic| with_reducible exact skipSeqOrUpper_hold _)
theorem switchToAscii_hold : Hold switchToAscii := by
  intro s a s' he e
  simp only [switchToAscii, M.bind_apply, M.modify_apply, Res.andThen_ok, M.get_apply] at he
  generalize hr : Reader.newAscii (some s.cfg.xmlDoc) s.offset s.cfg.endOffset = x at he
  cases x with
  | error e => cases he
  | ok r =>
    cases he
    simp only [Reader.newAscii] at hr
    split at hr
    · cases hr
    · split at hr
      · cases hr
      · cases hr; rfl
macro_rules | `(tactic| hold_lemma) => `(tactic| with_reducible exact switchToAscii_hold)
theorem checkEncodingName_hold : Hold checkEncodingName := by
  unfold checkEncodingName checkAsciiEncoding checkUsAsciiEncoding checkIsoEncoding checkUtfEncoding checkCpEncoding
    checkWindowsEncoding setWinEncoding setIsoEncoding
  hold
macro_rules | `(tactic| hold_lemma) => `(tactic| with_reducible exact checkEncodingName_hold)
theorem expectQuote_hold : Hold expectQuote := by unfold expectQuote; hold
macro_rules | `(tactic| hold_lemma) => `(tactic| with_reducible exact expectQuote_hold)
theorem expectEq_hold : Hold expectEq := by unfold expectEq; hold
macro_rules | `(tactic| hold_lemma) => `(tactic| with_reducible exact expectEq_hold)
theorem processDecEncodingAttr_hold : Hold processDecEncodingAttr := by unfold processDecEncodingAttr; hold
macro_rules | `(tactic| hold_lemma) => `(tactic| with_reducible exact processDecEncodingAttr_hold)
theorem processDecStandaloneAttr_hold : Hold processDecStandaloneAttr := by unfold processDecStandaloneAttr; hold
macro_rules | `(tactic| hold_lemma) => `(tactic| with_reducible exact processDecStandaloneAttr_hold)
theorem decVersion_hold : Hold decVersion := by unfold decVersion; hold
macro_rules | `(tactic| hold_lemma) => `(tactic| with_reducible exact decVersion_hold)
theorem decOptional_hold : Hold decOptional := by unfold decOptional; hold
macro_rules | `(tactic| hold_lemma) => `(tactic| with_reducible exact decOptional_hold)
theorem processDecAttrName_hold : Hold processDecAttrName := by unfold processDecAttrName; hold

/-! ## Next states -/

/-- Every state that `m` returns is in `S`. -/
def Ends (S : PState → Bool) (m : M Parser PState) : Prop := ∀ s st s', m s = .ok st s' → S st = true

section
variable {S : PState → Bool}
theorem ends_pure {st : PState} (h : S st = true) : Ends S (Pure.pure st) := fun _ _ _ he => by cases he; exact h
theorem ends_raise (e : GoErr) : Ends S (M.raise e) := fun _ _ _ h => by cases h
theorem ends_bind {α : Type} {m : M Parser α} {k : α → M Parser PState} (h : ∀ a, Ends S (k a)) : Ends S (m >>= k) := by
  intro s st s' he
  rw [M.bind_apply] at he
  cases hm : m s with
  | ok a t => rw [hm] at he; exact h a t st s' he
  | err e t => rw [hm] at he; cases he
  | panic => rw [hm] at he; cases he
  | diverge => rw [hm] at he; cases he
theorem ends_ite {c : Prop} [Decidable c] {a b : M Parser PState} (ha : Ends S a) (hb : Ends S b) :
    Ends S (if c then a else b) := by
  split
  · exact ha
  · exact hb
theorem ends_parseErr (msg : String) : Ends S (parseErr msg) := ends_bind fun _ => ends_raise _
end

/-- Lemmas for the tactic `ends`. -/
syntax "ends_lemma" : tactic
/-- Prove `Ends S m` along the text of `m`. -/
syntax "ends" : tactic
macro_rules
  | `(tactic| ends) => `(tactic| repeat' (first
      | assumption
      | ((with_reducible refine ends_pure ?_); rfl)
      | with_reducible exact ends_raise _
      | with_reducible exact ends_parseErr _
      | with_reducible ends_lemma
      | with_reducible refine ends_bind fun _ => ?_
      | with_reducible refine ends_ite ?_ ?_
      | split))

/-- States between the tags. -/
def between : PState → Bool
  | .ltSeen | .text | .piTag | .piVal | .decAttrName | .startComment | .cdata | .docType | .invalid => true
  | _ => false

/-- `between` without the state in which the offset is behind the reader. -/
def synced : PState → Bool
  | .ltSeen | .text | .piVal | .decAttrName | .startComment | .cdata | .docType | .invalid => true
  | _ => false

/-- States after the root element. -/
def after : PState → Bool
  | .docEnd | .piEnd | .endComment => true
  | _ => false

theorem getNextProcessStateFromChar_ends (c : Nat) : Ends synced (getNextProcessStateFromChar c) := by
  unfold getNextProcessStateFromChar; ends
macro_rules | `(tactic| ends_lemma) => `(tactic| exact getNextProcessStateFromChar_ends _)
theorem afterMarkup_ends : Ends synced afterMarkup := by unfold afterMarkup; ends
macro_rules | `(tactic| ends_lemma) => `(tactic| exact afterMarkup_ends)
theorem processExSeen_ends : Ends synced processExSeen := by unfold processExSeen; ends
theorem processDocType_ends : Ends synced processDocType := by unfold processDocType; ends
theorem processText_ends : Ends synced processText := by unfold processText; ends
theorem processCdata_ends : Ends synced processCdata := by unfold processCdata; ends
theorem processStartComment_ends : Ends synced processStartComment := by unfold processStartComment; ends
theorem processPiTag_ends : Ends synced processPiTag := by unfold processPiTag; ends
theorem processPiVal_ends : Ends synced processPiVal := by unfold processPiVal; ends
theorem processDecAttrName_ends : Ends synced processDecAttrName := by unfold processDecAttrName; ends
theorem processDocEnd_ends : Ends after processDocEnd := by unfold processDocEnd; ends
theorem processPiEnd_ends : Ends after processPiEnd := by unfold processPiEnd; ends
theorem processEndComment_ends : Ends after processEndComment := by unfold processEndComment; ends

/-- After `<?` comes a processing instruction. -/
theorem processQmSeen_ends : Ends (fun st => st == .piTag) processQmSeen := by unfold processQmSeen; ends

end Ev
end Parser
end GoVtd
