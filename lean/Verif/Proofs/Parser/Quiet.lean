import Verif.Proofs.Parser.Frame
import Verif.Proofs.Parser.Wp

/-!
# Steps that leave the open tags alone

Most functions of the parser neither open nor close an element and write no record of a start tag or of an
attribute. `Fr QF` says this of a function, whatever the mode, the window and the state. `Ofr SF` says that
afterwards the offset is the position of the reader if it was before, and `Ends S` which states the function
returns.
-/

namespace GoVtd
namespace Parser
namespace Ev
open Paged Grammar Two

/-- No record of `xs` is the record of a start tag or of an attribute name. -/
def Quiet (xs : List Rec) : Prop := ∀ x ∈ xs, 4 ≤ x.tok.code

/-- From the state `s` to the state `s'` the open tags and the attributes stay, and only quiet records are
written. -/
structure QFrame (s s' : Parser) : Prop where
  ok : OutOk s'.out
  enc : s'.enc = stdEnc
  ws : s'.ws = false
  cfg : s'.cfg = s.cfg
  depth : s'.depth = s.depth
  tagStack : s'.tagStack = s.tagStack
  at_ : s'.at_ = s.at_
  length2 : s'.length2 = s.length2
  ns : s'.ns = s.ns
  out : ∃ xs, s'.out = Parser.emit s.cfg.shallowDepth s.out xs ∧ Quiet xs

/-- `QFrame`, if the state is as it is in a parse of bytes. -/
def QF (s s' : Parser) : Prop := OutOk s.out → s.enc = stdEnc → s.ws = false → QFrame s s'

theorem qf_pre : Pre QF where
  refl s h1 h2 h3 := ⟨h1, h2, h3, rfl, rfl, rfl, rfl, rfl, rfl, [], rfl, fun _ h => by cases h⟩
  trans := by
    intro a b c h h' h1 h2 h3
    obtain ⟨x1, x2, x3, x4, x5, x6, x7, x8, x0, xs, x9, x10⟩ := h h1 h2 h3
    obtain ⟨y1, y2, y3, y4, y5, y6, y7, y8, y0, ys, y9, y10⟩ := h' x1 x2 x3
    refine ⟨y1, y2, y3, y4.trans x4, y5.trans x5, y6.trans x6, y7.trans x7, y8.trans x8, y0.trans x0, xs ++ ys, ?_, ?_⟩
    · rw [emit_append, ← x9, ← x4]; exact y9
    · intro x hx
      rcases List.mem_append.mp hx with hx | hx
      · exact x10 x hx
      · exact y10 x hx

/-- A change of other fields. -/
theorem QF.of {s s' : Parser} (h1 : s'.out = s.out) (h2 : s'.enc = s.enc) (h3 : s'.ws = s.ws) (h4 : s'.cfg = s.cfg)
    (h5 : s'.depth = s.depth) (h6 : s'.tagStack = s.tagStack) (h7 : s'.at_ = s.at_) (h8 : s'.length2 = s.length2)
    (h9 : s'.ns = s.ns) :
    QF s s' := fun a b d =>
  ⟨h1 ▸ a, h2.trans b, h3.trans d, h4, h5, h6, h7, h8, h9, [], h1, fun _ h => by cases h⟩

/-- Enough to look at the states of a parse of bytes. -/
theorem fr_std {α : Type} {m : M Parser α} (h : ∀ s, s.enc = stdEnc → match m s with
    | .ok _ s' => QF s s'
    | .err _ s' => QF s s'
    | _ => True) : Fr QF m := by
  intro s
  by_cases he : s.enc = stdEnc
  · exact h s he
  · cases m s with
    | ok a s' => exact fun _ h _ => absurd h he
    | err e s' => exact fun _ h _ => absurd h he
    | panic => trivial
    | diverge => trivial

/-- Lemmas for the tactic `qf`. -/
syntax "qf_lemma" : tactic
/-- Prove `Fr QF m` along the text of `m`. -/
syntax "qf" : tactic
macro_rules
  | `(tactic| qf) => `(tactic| repeat' (first
      | assumption
      | with_reducible exact Fr.pure qf_pre _
      | with_reducible exact Fr.raise qf_pre _
      | with_reducible exact Fr.panic
      | with_reducible exact Fr.diverge
      | with_reducible exact Fr.get qf_pre
      | with_reducible exact Fr.index qf_pre _ _
      | with_reducible refine Fr.bind qf_pre ?_ fun _ => ?_
      | with_reducible refine Fr.catchErr qf_pre ?_ fun _ => ?_
      | with_reducible refine Fr.and qf_pre ?_ ?_
      | with_reducible refine Fr.or qf_pre ?_ ?_
      | with_reducible refine Fr.ite ?_ ?_
      | with_reducible exact parseErr_fr qf_pre _
      | with_reducible exact parseErrAt_fr qf_pre _ _
      | with_reducible exact Fr.docByte qf_pre _
      | with_reducible exact docIs_fr qf_pre _ _
      | with_reducible exact docMatches_fr qf_pre _ _
      | qf_lemma
      | split))

theorem writeVtd_qf {t : Token} (ht : 4 ≤ t.code) (o l d : Int) : Fr QF (writeVtd t o l d) := by
  intro s
  have hz : Fr (fun s s' => OutOk s.out → s' = { s with out := push s.out (vtdRecord t o l d) }) (writeVtd t o l d) := by
    intro s
    by_cases h : OutOk s.out
    · rw [writeVtd_go h]; exact fun _ => rfl
    · cases writeVtd t o l d s with
      | ok a s' => exact fun h' => absurd h' h
      | err e s' => exact fun h' => absurd h' h
      | panic => trivial
      | diverge => trivial
  have key : ∀ s', (OutOk s.out → s' = { s with out := push s.out (vtdRecord t o l d) }) → QF s s' := by
    intro s' h h1 h2 h3
    rw [h h1]
    refine ⟨push_ok h1 _, h2, h3, rfl, rfl, rfl, rfl, rfl, rfl, [⟨t, o, l, d⟩], ?_, ?_⟩
    · rw [emit_cons, emit_nil, emit1_other (by rintro rfl; exact absurd ht (by decide))]
      rfl
    · intro x hx
      rw [List.mem_singleton.mp hx]
      exact ht
  have := hz s
  cases hr : writeVtd t o l d s with
  | ok a s' => rw [hr] at this; exact key s' this
  | err e s' => rw [hr] at this; exact key s' this
  | panic => trivial
  | diverge => trivial
macro_rules | `(tactic| qf_lemma) => `(tactic| with_reducible exact writeVtd_qf (by first | assumption | decide) _ _ _)

theorem writeVtdTextLoop_qf {t : Token} (ht : 4 ≤ t.code) (n : Nat) (o j d : Int) :
    Fr QF (writeVtdTextLoop n t o j d) := by
  induction n generalizing o j with
  | zero => unfold writeVtdTextLoop; qf
  | succ n ih =>
    unfold writeVtdTextLoop
    have := ih (o + maxTokenLength) (j - maxTokenLength)
    qf
macro_rules | `(tactic| qf_lemma) => `(tactic| with_reducible exact writeVtdTextLoop_qf (by first | assumption | decide) _ _ _ _)
theorem writeVtdText_qf {t : Token} (ht : 4 ≤ t.code) (o j d : Int) : Fr QF (writeVtdText t o j d) := by
  unfold writeVtdText; qf
macro_rules | `(tactic| qf_lemma) => `(tactic| with_reducible exact writeVtdText_qf (by first | assumption | decide) _ _ _)
theorem writeText_qf {t : Token} (ht : 4 ≤ t.code) : Fr QF (writeText t) := by
  unfold writeText; qf
macro_rules | `(tactic| qf_lemma) => `(tactic| with_reducible exact writeText_qf (by first | assumption | decide))
theorem writeAt_qf {t : Token} (ht : 4 ≤ t.code) (l : Int) : Fr QF (writeAt t l) := by
  unfold writeAt; qf
macro_rules | `(tactic| qf_lemma) => `(tactic| with_reducible exact writeAt_qf (by first | assumption | decide) _)
theorem writeCheck_qf {t : Token} (ht : 4 ≤ t.code) (msg : String) : Fr QF (writeVtdWithLengthCheck t msg) := by
  unfold writeVtdWithLengthCheck; qf
macro_rules | `(tactic| qf_lemma) => `(tactic| with_reducible exact writeCheck_qf (by first | assumption | decide) _)

/-! ## Reading -/

theorem onRd_qf {α : Type} (m : M Reader α) : Fr QF (onRd m) :=
  Fr.zoom fun _ _ => QF.of rfl rfl rfl rfl rfl rfl rfl rfl rfl
macro_rules | `(tactic| qf_lemma) => `(tactic| with_reducible exact onRd_qf _)
theorem modify_qf {f : Parser → Parser} (h : ∀ s, (f s).out = s.out ∧ (f s).enc = s.enc ∧ (f s).ws = s.ws ∧
    (f s).cfg = s.cfg ∧ (f s).depth = s.depth ∧ (f s).tagStack = s.tagStack ∧ (f s).at_ = s.at_ ∧
    (f s).length2 = s.length2 ∧ (f s).ns = s.ns) : Fr QF (M.modify f) :=
  Fr.modify fun s => QF.of (h s).1 (h s).2.1 (h s).2.2.1 (h s).2.2.2.1 (h s).2.2.2.2.1 (h s).2.2.2.2.2.1
    (h s).2.2.2.2.2.2.1 (h s).2.2.2.2.2.2.2.1 (h s).2.2.2.2.2.2.2.2
macro_rules | `(tactic| qf_lemma) => `(tactic| with_reducible exact modify_qf fun _ => ⟨rfl, rfl, rfl, rfl, rfl, rfl, rfl, rfl, rfl⟩)

theorem getChar_qf : Fr QF getChar := by unfold getChar; qf
macro_rules | `(tactic| qf_lemma) => `(tactic| with_reducible exact getChar_qf)
theorem nextChar_qf : Fr QF nextChar := by unfold nextChar; qf
macro_rules | `(tactic| qf_lemma) => `(tactic| with_reducible exact nextChar_qf)
theorem skipChar_qf (ch : Nat) : Fr QF (skipChar ch) := by unfold skipChar; qf
macro_rules | `(tactic| qf_lemma) => `(tactic| with_reducible exact skipChar_qf _)
theorem skipCharSeq_qf (l : List Nat) : Fr QF (skipCharSeq l) := by unfold skipCharSeq; qf
macro_rules | `(tactic| qf_lemma) => `(tactic| with_reducible exact skipCharSeq_qf _)
theorem skipCharSeqIgnoreCase_qf (l : List Nat) : Fr QF (skipCharSeqIgnoreCase l) := by
  induction l with
  | nil => unfold skipCharSeqIgnoreCase; qf
  | cons c l ih => unfold skipCharSeqIgnoreCase; qf
macro_rules | `(tactic| qf_lemma) => `(tactic| with_reducible exact skipCharSeqIgnoreCase_qf _)
theorem nextCharAfterWsLoop_qf (n : Nat) : Fr QF (nextCharAfterWsLoop n) := by
  induction n with
  | zero => unfold nextCharAfterWsLoop; qf
  | succ n ih => unfold nextCharAfterWsLoop; qf
macro_rules | `(tactic| qf_lemma) => `(tactic| with_reducible exact nextCharAfterWsLoop_qf _)
theorem nextCharAfterWs_qf : Fr QF nextCharAfterWs := by unfold nextCharAfterWs; qf
macro_rules | `(tactic| qf_lemma) => `(tactic| with_reducible exact nextCharAfterWs_qf)
theorem markOffset_qf : Fr QF markOffset := by unfold markOffset; qf
macro_rules | `(tactic| qf_lemma) => `(tactic| with_reducible exact markOffset_qf)

theorem entitySeq_qf (l : List Nat) : Fr QF (entitySeq l) := by
  induction l with
  | nil => unfold entitySeq; qf
  | cons c l ih => unfold entitySeq; qf
macro_rules | `(tactic| qf_lemma) => `(tactic| with_reducible exact entitySeq_qf _)
theorem entityHexLoop_qf (n v : Nat) : Fr QF (entityHexLoop n v) := by
  induction n generalizing v with
  | zero => unfold entityHexLoop; qf
  | succ n ih =>
    unfold entityHexLoop
    refine Fr.bind qf_pre getChar_qf fun ch => ?_
    split
    · exact ih _
    · qf
macro_rules | `(tactic| qf_lemma) => `(tactic| with_reducible exact entityHexLoop_qf _ _)
theorem entityDecLoop_qf (n c v : Nat) : Fr QF (entityDecLoop n c v) := by
  induction n generalizing c v with
  | zero => unfold entityDecLoop; qf
  | succ n ih =>
    unfold entityDecLoop
    exact Fr.ite (Fr.bind qf_pre getChar_qf fun _ => ih _ _) (by qf)
macro_rules | `(tactic| qf_lemma) => `(tactic| with_reducible exact entityDecLoop_qf _ _ _)
theorem entityIdentifier_qf : Fr QF entityIdentifier := by unfold entityIdentifier; qf
macro_rules | `(tactic| qf_lemma) => `(tactic| with_reducible exact entityIdentifier_qf)
theorem skipBrackets_qf (n : Nat) : Fr QF (skipBrackets n) := by
  induction n with
  | zero => unfold skipBrackets; qf
  | succ n ih => unfold skipBrackets; qf
macro_rules | `(tactic| qf_lemma) => `(tactic| with_reducible exact skipBrackets_qf _)
theorem bracketText_qf : Fr QF bracketText := by unfold bracketText; qf
macro_rules | `(tactic| qf_lemma) => `(tactic| with_reducible exact bracketText_qf)
theorem handleOtherTextChar_qf (ch : Nat) : Fr QF (handleOtherTextChar ch) := by
  unfold handleOtherTextChar; qf
macro_rules | `(tactic| qf_lemma) => `(tactic| with_reducible exact handleOtherTextChar_qf _)
theorem recordWsIfSet_qf : Fr QF recordWsIfSet := by unfold recordWsIfSet recordWhiteSpace; qf
macro_rules | `(tactic| qf_lemma) => `(tactic| with_reducible exact recordWsIfSet_qf)

/-! ## Steps -/

theorem wrapInternal_qf {α : Type} (msg : String) {m : M Parser α} (h : Fr QF m) : Fr QF (wrapInternal msg m) := by
  unfold wrapInternal; qf
macro_rules | `(tactic| qf_lemma) => `(tactic| with_reducible refine wrapInternal_qf _ ?_)
theorem getNextProcessStateFromChar_qf (c : Nat) : Fr QF (getNextProcessStateFromChar c) := by
  unfold getNextProcessStateFromChar; qf
macro_rules | `(tactic| qf_lemma) => `(tactic| with_reducible exact getNextProcessStateFromChar_qf _)
theorem afterMarkup_qf : Fr QF afterMarkup := by unfold afterMarkup; qf
macro_rules | `(tactic| qf_lemma) => `(tactic| with_reducible exact afterMarkup_qf)
theorem validateSeqLoop_qf (n : String) (l : List Nat) : Fr QF (validateSeqLoop n l) := by
  induction l with
  | nil => unfold validateSeqLoop; qf
  | cons c l ih => unfold validateSeqLoop; qf
macro_rules | `(tactic| qf_lemma) => `(tactic| with_reducible exact validateSeqLoop_qf _ _)
theorem validateSeq_qf (n : String) (l : List Nat) : Fr QF (validateSeq n l) := by unfold validateSeq; qf
macro_rules | `(tactic| qf_lemma) => `(tactic| with_reducible exact validateSeq_qf _ _)

theorem processDocStart_qf : Fr QF processDocStart := by unfold processDocStart; qf
theorem processDocEnd_qf : Fr QF processDocEnd := by unfold processDocEnd; qf
theorem docTypeLoop_qf (n : Nat) (z : Int) : Fr QF (docTypeLoop n z) := by
  induction n generalizing z with
  | zero => unfold docTypeLoop; qf
  | succ n ih =>
    unfold docTypeLoop
    refine Fr.bind qf_pre getChar_qf fun ch => Fr.ite (Fr.ite (Fr.pure qf_pre _) (ih _)) (parseErr_fr qf_pre _)
macro_rules | `(tactic| qf_lemma) => `(tactic| with_reducible exact docTypeLoop_qf _ _)
theorem processDocType_qf : Fr QF processDocType := by unfold processDocType; qf
theorem processExSeen_qf : Fr QF processExSeen := by unfold processExSeen; qf
macro_rules | `(tactic| qf_lemma) => `(tactic| with_reducible exact processExSeen_qf)
theorem prevOffsetLoop_qf (n : Nat) (o : Int) : Fr QF (prevOffsetLoop n o) := by
  induction n generalizing o with
  | zero => unfold prevOffsetLoop; qf
  | succ n ih => unfold prevOffsetLoop; have := ih (o - 1); qf
macro_rules | `(tactic| qf_lemma) => `(tactic| with_reducible exact prevOffsetLoop_qf _ _)
theorem getPrevOffset_qf : Fr QF getPrevOffset := by unfold getPrevOffset; qf
macro_rules | `(tactic| qf_lemma) => `(tactic| with_reducible exact getPrevOffset_qf)
theorem processQmSeen_qf : Fr QF processQmSeen := by unfold processQmSeen; qf
macro_rules | `(tactic| qf_lemma) => `(tactic| with_reducible exact processQmSeen_qf)
theorem processElementTail_qf : Fr QF processElementTail := by unfold processElementTail; qf
macro_rules | `(tactic| qf_lemma) => `(tactic| with_reducible exact processElementTail_qf)
theorem textLoop_qf (n : Nat) : Fr QF (textLoop n) := by
  induction n with
  | zero => unfold textLoop; qf
  | succ n ih => unfold textLoop; qf
macro_rules | `(tactic| qf_lemma) => `(tactic| with_reducible exact textLoop_qf _)
theorem processText_qf : Fr QF processText := by unfold processText; qf
theorem cdataLoop_qf (n : Nat) : Fr QF (cdataLoop n) := by
  induction n with
  | zero => unfold cdataLoop; qf
  | succ n ih => unfold cdataLoop; qf
macro_rules | `(tactic| qf_lemma) => `(tactic| with_reducible exact cdataLoop_qf _)
theorem processCdata_qf : Fr QF processCdata := by unfold processCdata; qf
theorem commentLoop_qf (n : Nat) : Fr QF (commentLoop n) := by
  induction n with
  | zero => unfold commentLoop; qf
  | succ n ih => unfold commentLoop; qf
macro_rules | `(tactic| qf_lemma) => `(tactic| with_reducible exact commentLoop_qf _)
theorem processStartComment_qf : Fr QF processStartComment := by unfold processStartComment; qf
theorem processEndComment_qf : Fr QF processEndComment := by unfold processEndComment; qf
theorem nameLoop_qf (n : Nat) : Fr QF (nameLoop n) := by
  induction n with
  | zero => unfold nameLoop; qf
  | succ n ih => unfold nameLoop; qf
macro_rules | `(tactic| qf_lemma) => `(tactic| with_reducible exact nameLoop_qf _)
theorem processPiTag_qf : Fr QF processPiTag := by unfold processPiTag; qf
theorem piValLoop_qf (n : Nat) : Fr QF (piValLoop n) := by
  induction n with
  | zero => unfold piValLoop; qf
  | succ n ih => unfold piValLoop; qf
macro_rules | `(tactic| qf_lemma) => `(tactic| with_reducible exact piValLoop_qf _)
theorem processPiVal_qf : Fr QF processPiVal := by unfold processPiVal; qf
theorem piEndNameLoop_qf (n : Nat) : Fr QF (piEndNameLoop n) := by
  induction n with
  | zero => unfold piEndNameLoop; qf
  | succ n ih => unfold piEndNameLoop; qf
macro_rules | `(tactic| qf_lemma) => `(tactic| with_reducible exact piEndNameLoop_qf _)
theorem piEndValLoop_qf (n : Nat) : Fr QF (piEndValLoop n) := by
  induction n with
  | zero => unfold piEndValLoop; qf
  | succ n ih => unfold piEndValLoop; qf
macro_rules | `(tactic| qf_lemma) => `(tactic| with_reducible exact piEndValLoop_qf _)
theorem piEndTarget_qf : Fr QF piEndTarget := by unfold piEndTarget; qf
macro_rules | `(tactic| qf_lemma) => `(tactic| with_reducible exact piEndTarget_qf)
theorem processPiEnd_qf : Fr QF processPiEnd := by unfold processPiEnd; qf

/-! ### The declaration -/

theorem skipSeqOrUpper_qf (l : List Nat) : Fr QF (skipSeqOrUpper l) := by unfold skipSeqOrUpper; qf
macro_rules | `(tactic| qf_lemma) => `(tactic| with_reducible exact skipSeqOrUpper_qf _)

/-- A parser of bytes refuses to change the encoding. -/
theorem fixed_qf (msg : String) (k : Parser → M Parser Unit) :
    Fr QF (do let p ← M.get; if encodingFixed p then parseErr msg else k p) := by
  refine fr_std fun s hs => ?_
  simp only [M.bind_apply, M.get_apply, Res.andThen_ok, M.ite_apply]
  rw [if_pos (by rw [encodingFixed, hs]; decide)]
  exact parseErr_fr qf_pre msg s

theorem checkAsciiEncoding_qf : Fr QF checkAsciiEncoding := by
  unfold checkAsciiEncoding
  exact Fr.bind qf_pre (skipSeqOrUpper_qf _) fun _ => Fr.ite (fixed_qf _ _) (parseErr_fr qf_pre _)
macro_rules | `(tactic| qf_lemma) => `(tactic| with_reducible exact checkAsciiEncoding_qf)
theorem checkUsAsciiEncoding_qf : Fr QF checkUsAsciiEncoding := by
  unfold checkUsAsciiEncoding
  exact Fr.bind qf_pre (skipSeqOrUpper_qf _) fun _ => Fr.ite (fixed_qf _ _) (parseErr_fr qf_pre _)
macro_rules | `(tactic| qf_lemma) => `(tactic| with_reducible exact checkUsAsciiEncoding_qf)
theorem checkIsoEncoding_qf : Fr QF checkIsoEncoding := by
  unfold checkIsoEncoding
  exact Fr.bind qf_pre (skipSeqOrUpper_qf _) fun _ => Fr.ite (fixed_qf _ _) (parseErr_fr qf_pre _)
macro_rules | `(tactic| qf_lemma) => `(tactic| with_reducible exact checkIsoEncoding_qf)
theorem checkUtfEncoding_qf : Fr QF checkUtfEncoding := by unfold checkUtfEncoding; qf
macro_rules | `(tactic| qf_lemma) => `(tactic| with_reducible exact checkUtfEncoding_qf)
theorem checkCpEncoding_qf : Fr QF checkCpEncoding := by unfold checkCpEncoding setWinEncoding; qf
macro_rules | `(tactic| qf_lemma) => `(tactic| with_reducible exact checkCpEncoding_qf)
theorem checkWindowsEncoding_qf : Fr QF checkWindowsEncoding := by
  unfold checkWindowsEncoding setWinEncoding; qf
macro_rules | `(tactic| qf_lemma) => `(tactic| with_reducible exact checkWindowsEncoding_qf)
theorem checkEncodingName_qf : Fr QF checkEncodingName := by unfold checkEncodingName; qf
macro_rules | `(tactic| qf_lemma) => `(tactic| with_reducible exact checkEncodingName_qf)
theorem expectQuote_qf : Fr QF expectQuote := by unfold expectQuote; qf
macro_rules | `(tactic| qf_lemma) => `(tactic| with_reducible exact expectQuote_qf)
theorem expectEq_qf : Fr QF expectEq := by unfold expectEq; qf
macro_rules | `(tactic| qf_lemma) => `(tactic| with_reducible exact expectEq_qf)
theorem processDecEncodingAttr_qf : Fr QF processDecEncodingAttr := by unfold processDecEncodingAttr; qf
macro_rules | `(tactic| qf_lemma) => `(tactic| with_reducible exact processDecEncodingAttr_qf)
theorem processDecStandaloneAttr_qf : Fr QF processDecStandaloneAttr := by
  unfold processDecStandaloneAttr; qf
macro_rules | `(tactic| qf_lemma) => `(tactic| with_reducible exact processDecStandaloneAttr_qf)
theorem decVersion_qf : Fr QF decVersion := by unfold decVersion; qf
macro_rules | `(tactic| qf_lemma) => `(tactic| with_reducible exact decVersion_qf)
theorem decOptional_qf : Fr QF decOptional := by unfold decOptional; qf
macro_rules | `(tactic| qf_lemma) => `(tactic| with_reducible exact decOptional_qf)
theorem processDecAttrName_qf : Fr QF processDecAttrName := by unfold processDecAttrName; qf

end Ev
end Parser
end GoVtd
