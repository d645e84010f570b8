import Verif.Model.Parser.Parse
import Verif.Proofs.Basic

/-!
# What the parser does not look at

`Resp R m`: on two states related by `R` the computation `m` has the same outcome, up to `R`.
A relation is `Nice` when related states differ at most in the fuel of `matchUrl`, the kind of location cache and its contents, and when it is
kept by equal writes to every field outside the location caches and the configuration. Every
function of the parser respects every nice relation, except the ones that read the fuel or write
the location caches.
-/

namespace GoVtd
namespace Parser
open Paged

/-- Replace the fuel of `matchUrl`. -/
def setFuel (n : Nat) (p : Parser) : Parser := { p with cfg := { p.cfg with matchFuel := n } }

/-- What related states can differ in: the fuel of `matchUrl`, the kind of location cache, the caches. -/
structure Vary where
  fuel : Nat
  shallow : Bool
  out : ParserOut

/-- Replace it. -/
def vary (v : Vary) (p : Parser) : Parser :=
  { p with cfg := { p.cfg with matchFuel := v.fuel, shallowDepth := v.shallow }, out := { v.out with vtdBuffer := p.out.vtdBuffer } }

theorem setFuel_vary (n : Nat) (p : Parser) : setFuel n p = vary ⟨n, p.cfg.shallowDepth, p.out⟩ p := rfl

/-- The same outcome, with related states; when `D` holds, a computation that runs out of fuel on
the left is related to everything. -/
def RelRes (R : Parser → Parser → Prop) (D : Prop) {α : Type} : Res Parser α → Res Parser α → Prop
  | .ok a s, .ok b t => a = b ∧ R s t
  | .err e s, .err e' t => e = e' ∧ R s t
  | .panic, .panic => True
  | .diverge, .diverge => True
  | .diverge, _ => D
  | _, _ => False

/-- The computation respects the relation. -/
def Resp (R : Parser → Parser → Prop) (D : Prop) {α : Type} (m : M Parser α) : Prop :=
  ∀ s t, R s t → RelRes R D (m s) (m t)

/-- Overwrite every field outside the configuration and the location caches. -/
def put (p : Parser) (enc : ParserEnc) (rd : Reader) (offset lastOffset length1 length2 depth vtdDepth : Int)
    (currentChar : Nat) (helper ws : Bool) (tagStack : List (BitVec 64)) (at_ : ParserAttr)
    (vtd : FastLongBuffer) (ns : ParserNs) : Parser :=
  { cfg := p.cfg, enc := enc, rd := rd, offset := offset, lastOffset := lastOffset, length1 := length1,
    length2 := length2, depth := depth, vtdDepth := vtdDepth, currentChar := currentChar,
    helper := helper, ws := ws, tagStack := tagStack, at_ := at_,
    out := { p.out with vtdBuffer := vtd }, ns := ns }

structure Nice (R : Parser → Parser → Prop) : Prop where
  eq : ∀ {s t}, R s t → ∃ n, t = vary n s
  put : ∀ {s t}, R s t → ∀ enc rd offset lastOffset length1 length2 depth vtdDepth currentChar helper
    ws tagStack at_ vtd ns,
    R (s.put enc rd offset lastOffset length1 length2 depth vtdDepth currentChar helper ws tagStack at_ vtd ns)
      (t.put enc rd offset lastOffset length1 length2 depth vtdDepth currentChar helper ws tagStack at_ vtd ns)

section
variable {R : Parser → Parser → Prop} {D : Prop} {α β : Type}

theorem RelRes.left (h : D) (r : Res Parser α) : RelRes R D .diverge r := by
  cases r <;> first | exact h | trivial

theorem Resp.pure (a : α) : Resp R D (Pure.pure a : M Parser α) := fun _ _ h => ⟨rfl, h⟩
theorem Resp.raise (e : GoErr) : Resp R D (M.raise e : M Parser α) := fun _ _ h => ⟨rfl, h⟩
theorem Resp.panic : Resp R D (M.panic : M Parser α) := fun _ _ _ => trivial
theorem Resp.diverge : Resp R D (M.diverge : M Parser α) := fun _ _ _ => trivial

theorem Resp.index (xs : List α) (i : Int) : Resp R D (M.index xs i : M Parser α) := by
  intro s t h
  by_cases h' : 0 ≤ i ∧ i.toNat < xs.length
  · rw [M.index_of_lt xs i s h'.1 h'.2, M.index_of_lt xs i t h'.1 h'.2]
    exact ⟨rfl, h⟩
  · rw [M.index_panic xs i s (by omega), M.index_panic xs i t (by omega)]
    trivial

theorem Resp.modify (hR : Nice R) {g : Parser → Parser}
    (hg : ∀ s n, R s (vary n s) → R (g s) (g (vary n s))) : Resp R D (M.modify g) := by
  intro s t h
  obtain ⟨n, rfl⟩ := hR.eq h
  exact ⟨rfl, hg s n h⟩

theorem RelRes.andThen {r r' : Res Parser α} {k k' : α → M Parser β} (h : RelRes R D r r')
    (hk : ∀ a s t, R s t → RelRes R D (k a s) (k' a t)) : RelRes R D (r.andThen k) (r'.andThen k') := by
  cases r <;> cases r' <;> try exact False.elim h
  · obtain ⟨rfl, h⟩ := h; exact hk _ _ _ h
  · exact h
  · trivial
  · exact RelRes.left h _
  · exact RelRes.left h _
  · exact h
  · trivial

theorem Resp.bind {m : M Parser α} {k : α → M Parser β} (hm : Resp R D m) (hk : ∀ a, Resp R D (k a)) :
    Resp R D (m >>= k) :=
  fun s t h => RelRes.andThen (hm s t h) fun a s t h => hk a s t h

theorem Resp.bind_get (hR : Nice R) {k : Parser → M Parser β} (h1 : ∀ s n, k (vary n s) = k s)
    (hk : ∀ s, Resp R D (k s)) : Resp R D (M.get >>= k) := by
  intro s t h
  obtain ⟨n, rfl⟩ := hR.eq h
  show RelRes R D (k s s) (k (vary n s) (vary n s))
  rw [h1]
  exact hk s _ _ h

theorem Resp.ite {c : Prop} [Decidable c] {a b : M Parser α} (ha : Resp R D a) (hb : Resp R D b) :
    Resp R D (if c then a else b) := by split <;> assumption

theorem Resp.catchErr {m : M Parser α} {k : GoErr → M Parser α} (hm : Resp R D m)
    (hk : ∀ e, Resp R D (k e)) : Resp R D (M.catchErr m k) := by
  intro s t h
  have := hm s t h
  simp only [M.catchErr_apply]
  revert this
  cases m s <;> cases m t <;> intro this <;> try exact False.elim this
  · exact this
  · obtain ⟨rfl, h⟩ := this; exact hk _ _ _ h
  · trivial
  · exact this
  · exact RelRes.left this _
  · exact this
  · trivial

theorem Resp.and {a b : M Parser Bool} (ha : Resp R D a) (hb : Resp R D b) : Resp R D (M.and a b) :=
  Resp.bind ha fun _ => Resp.ite hb (Resp.pure _)

theorem Resp.or {a b : M Parser Bool} (ha : Resp R D a) (hb : Resp R D b) : Resp R D (M.or a b) :=
  Resp.bind ha fun _ => Resp.ite (Resp.pure _) hb

theorem Resp.wrapInternal {m : M Parser α} (msg : String) (hm : Resp R D m) :
    Resp R D (Parser.wrapInternal msg m) := Resp.catchErr hm fun _ => Resp.raise _

theorem Resp.zoom (hR : Nice R) {τ : Type} {g : Parser → τ} {u : τ → Parser → Parser} (m : M τ α)
    (hg : ∀ s n, g (vary n s) = g s)
    (hu : ∀ x s n, R s (vary n s) → R (u x s) (u x (vary n s))) : Resp R D (M.zoom g u m) := by
  intro s t h
  obtain ⟨n, rfl⟩ := hR.eq h
  simp only [M.zoom_apply, hg]
  cases m (g s)
  · exact ⟨rfl, hu _ _ _ h⟩
  · exact ⟨rfl, hu _ _ _ h⟩
  · trivial
  · trivial

theorem onRd_resp (hR : Nice R) (m : M Reader α) : Resp R D (onRd m) :=
  Resp.zoom hR m (fun _ _ => rfl) fun _ _ _ h => by
    exact hR.put h _ _ _ _ _ _ _ _ _ _ _ _ _ _ _
theorem onVtd_resp (hR : Nice R) (m : M FastLongBuffer α) : Resp R D (onVtd m) :=
  Resp.zoom hR m (fun _ _ => rfl) fun _ _ _ h => by
    exact hR.put h _ _ _ _ _ _ _ _ _ _ _ _ _ _ _
theorem onNs1_resp (hR : Nice R) (m : M FastIntBuffer α) : Resp R D (onNs1 m) :=
  Resp.zoom hR m (fun _ _ => rfl) fun _ _ _ h => by
    exact hR.put h _ _ _ _ _ _ _ _ _ _ _ _ _ _ _
theorem onNs2_resp (hR : Nice R) (m : M FastLongBuffer α) : Resp R D (onNs2 m) :=
  Resp.zoom hR m (fun _ _ => rfl) fun _ _ _ h => by
    exact hR.put h _ _ _ _ _ _ _ _ _ _ _ _ _ _ _
theorem onNs3_resp (hR : Nice R) (m : M FastLongBuffer α) : Resp R D (onNs3 m) :=
  Resp.zoom hR m (fun _ _ => rfl) fun _ _ _ h => by
    exact hR.put h _ _ _ _ _ _ _ _ _ _ _ _ _ _ _

/-- Apply the lemma for the function at the head of the computation. -/
syntax "resp_lemma" ident : tactic
macro_rules | `(tactic| resp_lemma $h) => `(tactic| with_reducible first
  | exact onRd_resp $h _ | exact onVtd_resp $h _ | exact onNs1_resp $h _ | exact onNs2_resp $h _
  | exact onNs3_resp $h _)

/-- Follow the structure of a computation. -/
syntax "resp" ident (", " ident)? : tactic
macro_rules
  | `(tactic| resp $h) => `(tactic| repeat' (first
      | with_reducible first
        | exact Resp.pure _ | exact Resp.raise _ | exact Resp.panic | exact Resp.diverge
        | exact Resp.index _ _
      | ((with_reducible refine Resp.modify $h ?_); intro _ _ hr; exact Nice.put $h hr _ _ _ _ _ _ _ _ _ _ _ _ _ _ _)
      | ((with_reducible refine Resp.bind_get $h ?_ (fun _ => ?_)); (intro _ _; rfl))
      | with_reducible first
        | refine Resp.bind ?_ (fun _ => ?_) | refine Resp.ite ?_ ?_
        | refine Resp.catchErr ?_ (fun _ => ?_) | refine Resp.wrapInternal _ ?_
        | refine Resp.and ?_ ?_ | refine Resp.or ?_ ?_
        | resp_lemma $h | assumption
      | split))
  | `(tactic| resp $h, $ih) => `(tactic| repeat' (first
      | with_reducible first
        | exact Resp.pure _ | exact Resp.raise _ | exact Resp.panic | exact Resp.diverge
        | exact Resp.index _ _ | apply $ih
      | ((with_reducible refine Resp.modify $h ?_); intro _ _ hr; exact Nice.put $h hr _ _ _ _ _ _ _ _ _ _ _ _ _ _ _)
      | ((with_reducible refine Resp.bind_get $h ?_ (fun _ => ?_)); (intro _ _; rfl))
      | with_reducible first
        | refine Resp.bind ?_ (fun _ => ?_) | refine Resp.ite ?_ ?_
        | refine Resp.catchErr ?_ (fun _ => ?_) | refine Resp.wrapInternal _ ?_
        | refine Resp.and ?_ ?_ | refine Resp.or ?_ ?_
        | resp_lemma $h | assumption
      | split))

theorem lineLoop_resp (hR : Nice R) {f : Int → M Parser Bool} (hf : ∀ i, Resp R D (f i)) (step : Int)
    (n : Nat) (a b c : Int) : Resp R D (lineLoop f step n a b c) := by
  induction n generalizing a b c with
  | zero => exact Resp.pure _
  | succ n ih => simp only [lineLoop]; exact Resp.bind (hf _) fun _ => Resp.ite (ih _ _ _) (ih _ _ _)
macro_rules | `(tactic| resp_lemma $h) => `(tactic| refine lineLoop_resp $h (fun _ => ?_) _ _ _ _ _)

theorem docByte_resp (hR : Nice R) (i : Int)  : Resp R D (docByte i) := by
  unfold docByte; resp hR
macro_rules | `(tactic| resp_lemma $h) => `(tactic| apply docByte_resp $h)

theorem docIs_resp (hR : Nice R) (i : Int) (c : UInt8)  : Resp R D (docIs i c) := by
  unfold docIs; resp hR
macro_rules | `(tactic| resp_lemma $h) => `(tactic| apply docIs_resp $h)

theorem setOffset_resp (hR : Nice R) (offset : Int)  : Resp R D (setOffset offset) := by
  unfold setOffset; resp hR
macro_rules | `(tactic| resp_lemma $h) => `(tactic| apply setOffset_resp $h)

theorem getChar_resp (hR : Nice R)   : Resp R D (getChar) := by
  unfold getChar; resp hR
macro_rules | `(tactic| resp_lemma $h) => `(tactic| apply getChar_resp $h)

theorem skipChar_resp (hR : Nice R) (ch : Nat)  : Resp R D (skipChar ch) := by
  unfold skipChar; resp hR
macro_rules | `(tactic| resp_lemma $h) => `(tactic| apply skipChar_resp $h)

theorem skipCharSeq_resp (hR : Nice R) (seq : List Nat)  : Resp R D (skipCharSeq seq) := by
  unfold skipCharSeq; resp hR
macro_rules | `(tactic| resp_lemma $h) => `(tactic| apply skipCharSeq_resp $h)

theorem skipCharSeqIgnoreCase_resp (hR : Nice R)   (x0 : List Nat) : Resp R D (skipCharSeqIgnoreCase x0) := by
  induction x0 with
  | nil => simp only [skipCharSeqIgnoreCase]; resp hR
  | cons k l ih => simp only [skipCharSeqIgnoreCase]; resp hR, ih
macro_rules | `(tactic| resp_lemma $h) => `(tactic| apply skipCharSeqIgnoreCase_resp $h)

theorem nextChar_resp (hR : Nice R)   : Resp R D (nextChar) := by
  unfold nextChar; resp hR
macro_rules | `(tactic| resp_lemma $h) => `(tactic| apply nextChar_resp $h)

theorem nextCharAfterWsLoop_resp (hR : Nice R)   (x0 : Nat) : Resp R D (nextCharAfterWsLoop x0) := by
  induction x0 with
  | zero => simp only [nextCharAfterWsLoop]; resp hR
  | succ k ih => simp only [nextCharAfterWsLoop]; resp hR, ih
macro_rules | `(tactic| resp_lemma $h) => `(tactic| apply nextCharAfterWsLoop_resp $h)

theorem nextCharAfterWs_resp (hR : Nice R)   : Resp R D (nextCharAfterWs) := by
  unfold nextCharAfterWs; resp hR
macro_rules | `(tactic| resp_lemma $h) => `(tactic| apply nextCharAfterWs_resp $h)

theorem writeVtd_resp (hR : Nice R) (tokenType : Token) (offset length depth : Int)  : Resp R D (writeVtd tokenType offset length depth) := by
  unfold writeVtd; resp hR
macro_rules | `(tactic| resp_lemma $h) => `(tactic| apply writeVtd_resp $h)

theorem writeVtdTextLoop_resp (hR : Nice R)   (x0 : Nat) (x1 : Token) (x2 : Int) (x3 : Int) (x4 : Int) : Resp R D (writeVtdTextLoop x0 x1 x2 x3 x4) := by
  induction x0 generalizing x1 x2 x3 x4 with
  | zero => simp only [writeVtdTextLoop]; resp hR
  | succ k ih => simp only [writeVtdTextLoop]; resp hR, ih
macro_rules | `(tactic| resp_lemma $h) => `(tactic| apply writeVtdTextLoop_resp $h)

theorem writeVtdText_resp (hR : Nice R) (tokenType : Token) (offset length depth : Int)  : Resp R D (writeVtdText tokenType offset length depth) := by
  unfold writeVtdText; resp hR
macro_rules | `(tactic| resp_lemma $h) => `(tactic| apply writeVtdText_resp $h)

theorem fmtCustomLine_resp (hR : Nice R) (offset : Int)  : Resp R D (fmtCustomLine offset) := by
  unfold fmtCustomLine; resp hR
macro_rules | `(tactic| resp_lemma $h) => `(tactic| apply fmtCustomLine_resp $h)

theorem fmtLine_resp (hR : Nice R)   : Resp R D (fmtLine) := by
  unfold fmtLine; resp hR
macro_rules | `(tactic| resp_lemma $h) => `(tactic| apply fmtLine_resp $h)

theorem parseErr_resp (hR : Nice R) (msg : String) : Resp R D (parseErr msg : M Parser α) := by
  unfold parseErr; resp hR
macro_rules | `(tactic| resp_lemma $h) => `(tactic| apply parseErr_resp $h)

theorem parseErrAt_resp (hR : Nice R) (msg : String) (offset : Int) : Resp R D (parseErrAt msg offset : M Parser α) := by
  unfold parseErrAt; resp hR
macro_rules | `(tactic| resp_lemma $h) => `(tactic| apply parseErrAt_resp $h)

theorem writeVtdWithLengthCheck_resp (hR : Nice R) (tokenType : Token) (errMsg : String)  : Resp R D (writeVtdWithLengthCheck tokenType errMsg) := by
  unfold writeVtdWithLengthCheck; resp hR
macro_rules | `(tactic| resp_lemma $h) => `(tactic| apply writeVtdWithLengthCheck_resp $h)

theorem prevOffsetLoop_resp (hR : Nice R)   (x0 : Nat) (x1 : Int) : Resp R D (prevOffsetLoop x0 x1) := by
  induction x0 generalizing x1 with
  | zero => simp only [prevOffsetLoop]; resp hR
  | succ k ih => simp only [prevOffsetLoop]; resp hR, ih
macro_rules | `(tactic| resp_lemma $h) => `(tactic| apply prevOffsetLoop_resp $h)

theorem getPrevOffset_resp (hR : Nice R)   : Resp R D (getPrevOffset) := by
  unfold getPrevOffset; resp hR
macro_rules | `(tactic| resp_lemma $h) => `(tactic| apply getPrevOffset_resp $h)

theorem docIs32_resp (hR : Nice R) (i : Int) (v : Int)  : Resp R D (docIs32 i v) := by
  unfold docIs32; resp hR
macro_rules | `(tactic| resp_lemma $h) => `(tactic| apply docIs32_resp $h)

theorem detectEncoding_resp (hR : Nice R)   : Resp R D (detectEncoding) := by
  unfold detectEncoding; resp hR
macro_rules | `(tactic| resp_lemma $h) => `(tactic| apply detectEncoding_resp $h)

theorem decideEncoding_resp (hR : Nice R)   : Resp R D (decideEncoding) := by
  unfold decideEncoding; resp hR
macro_rules | `(tactic| resp_lemma $h) => `(tactic| apply decideEncoding_resp $h)

theorem docMatches_resp (hR : Nice R)   (x0 : Int) (x1 : List UInt8) : Resp R D (docMatches x0 x1) := by
  induction x1 generalizing x0 with
  | nil => simp only [docMatches]; resp hR
  | cons k l ih => simp only [docMatches]; resp hR, ih
macro_rules | `(tactic| resp_lemma $h) => `(tactic| apply docMatches_resp $h)

theorem checkPrefix_resp (hR : Nice R) (name : List UInt8) (len1 len2 : Int) (offset length : Int) (checkLength : Bool)  : Resp R D (checkPrefix name len1 len2 offset length checkLength) := by
  unfold checkPrefix; resp hR
macro_rules | `(tactic| resp_lemma $h) => `(tactic| apply checkPrefix_resp $h)

theorem checkXmlPrefix_resp (hR : Nice R) (offset length : Int) (checkLength : Bool)  : Resp R D (checkXmlPrefix offset length checkLength) := by
  unfold checkXmlPrefix; resp hR
macro_rules | `(tactic| resp_lemma $h) => `(tactic| apply checkXmlPrefix_resp $h)

theorem checkXmlnsPrefix_resp (hR : Nice R) (offset length : Int) (checkLength : Bool)  : Resp R D (checkXmlnsPrefix offset length checkLength) := by
  unfold checkXmlnsPrefix; resp hR
macro_rules | `(tactic| resp_lemma $h) => `(tactic| apply checkXmlnsPrefix_resp $h)

theorem sameBytes_resp (hR : Nice R)   (x0 : Nat) (x1 : Int) (x2 : Int) : Resp R D (sameBytes x0 x1 x2) := by
  induction x0 generalizing x1 x2 with
  | zero => simp only [sameBytes]; resp hR
  | succ k ih => simp only [sameBytes]; resp hR, ih
macro_rules | `(tactic| resp_lemma $h) => `(tactic| apply sameBytes_resp $h)

theorem qualifyElementLoop_resp (hR : Nice R) (preLen preOs : Int)  (x0 : Nat) : Resp R D (qualifyElementLoop preLen preOs x0) := by
  induction x0 with
  | zero => simp only [qualifyElementLoop]; resp hR
  | succ k ih => simp only [qualifyElementLoop]; resp hR, ih
macro_rules | `(tactic| resp_lemma $h) => `(tactic| apply qualifyElementLoop_resp $h)

theorem qualifyElement_resp (hR : Nice R)   : Resp R D (qualifyElement) := by
  unfold qualifyElement; resp hR
macro_rules | `(tactic| resp_lemma $h) => `(tactic| apply qualifyElement_resp $h)

theorem writeText_resp (hR : Nice R) (tokenType : Token)  : Resp R D (writeText tokenType) := by
  unfold writeText; resp hR
macro_rules | `(tactic| resp_lemma $h) => `(tactic| apply writeText_resp $h)

theorem writeAt_resp (hR : Nice R) (tokenType : Token) (length : Int)  : Resp R D (writeAt tokenType length) := by
  unfold writeAt; resp hR
macro_rules | `(tactic| resp_lemma $h) => `(tactic| apply writeAt_resp $h)

theorem recordWhiteSpace_resp (hR : Nice R)   : Resp R D (recordWhiteSpace) := by
  unfold recordWhiteSpace; resp hR
macro_rules | `(tactic| resp_lemma $h) => `(tactic| apply recordWhiteSpace_resp $h)

theorem recordWsIfSet_resp (hR : Nice R)   : Resp R D (recordWsIfSet) := by
  unfold recordWsIfSet; resp hR
macro_rules | `(tactic| resp_lemma $h) => `(tactic| apply recordWsIfSet_resp $h)

theorem entitySeq_resp (hR : Nice R)   (x0 : List Nat) : Resp R D (entitySeq x0) := by
  induction x0 with
  | nil => simp only [entitySeq]; resp hR
  | cons k l ih => simp only [entitySeq]; resp hR, ih
macro_rules | `(tactic| resp_lemma $h) => `(tactic| apply entitySeq_resp $h)

theorem entityHexLoop_resp (hR : Nice R)   (x0 : Nat) (x1 : Nat) : Resp R D (entityHexLoop x0 x1) := by
  induction x0 generalizing x1 with
  | zero => simp only [entityHexLoop]; resp hR
  | succ k ih => simp only [entityHexLoop]; resp hR, ih
macro_rules | `(tactic| resp_lemma $h) => `(tactic| apply entityHexLoop_resp $h)

theorem entityDecLoop_resp (hR : Nice R)   (x0 : Nat) (x1 : Nat) (x2 : Nat) : Resp R D (entityDecLoop x0 x1 x2) := by
  induction x0 generalizing x1 x2 with
  | zero => simp only [entityDecLoop]; resp hR
  | succ k ih => simp only [entityDecLoop]; resp hR, ih
macro_rules | `(tactic| resp_lemma $h) => `(tactic| apply entityDecLoop_resp $h)

theorem entityIdentifier_resp (hR : Nice R)   : Resp R D (entityIdentifier) := by
  unfold entityIdentifier; resp hR
macro_rules | `(tactic| resp_lemma $h) => `(tactic| apply entityIdentifier_resp $h)

theorem skipBrackets_resp (hR : Nice R)   (x0 : Nat) : Resp R D (skipBrackets x0) := by
  induction x0 with
  | zero => simp only [skipBrackets]; resp hR
  | succ k ih => simp only [skipBrackets]; resp hR, ih
macro_rules | `(tactic| resp_lemma $h) => `(tactic| apply skipBrackets_resp $h)

theorem bracketText_resp (hR : Nice R)   : Resp R D (bracketText) := by
  unfold bracketText; resp hR
macro_rules | `(tactic| resp_lemma $h) => `(tactic| apply bracketText_resp $h)

theorem handleOtherTextChar_resp (hR : Nice R) (ch : Nat)  : Resp R D (handleOtherTextChar ch) := by
  unfold handleOtherTextChar; resp hR
macro_rules | `(tactic| resp_lemma $h) => `(tactic| apply handleOtherTextChar_resp $h)

theorem markOffset_resp (hR : Nice R)   : Resp R D (markOffset) := by
  unfold markOffset; resp hR
macro_rules | `(tactic| resp_lemma $h) => `(tactic| apply markOffset_resp $h)

theorem validateSeqLoop_resp (hR : Nice R) (name : String)  (x0 : List Nat) : Resp R D (validateSeqLoop name x0) := by
  induction x0 with
  | nil => simp only [validateSeqLoop]; resp hR
  | cons k l ih => simp only [validateSeqLoop]; resp hR, ih
macro_rules | `(tactic| resp_lemma $h) => `(tactic| apply validateSeqLoop_resp $h)

theorem validateSeq_resp (hR : Nice R) (name : String) (seq : List Nat)  : Resp R D (validateSeq name seq) := by
  unfold validateSeq; resp hR
macro_rules | `(tactic| resp_lemma $h) => `(tactic| apply validateSeq_resp $h)

theorem getNextProcessStateFromChar_resp (hR : Nice R) (ch : Nat)  : Resp R D (getNextProcessStateFromChar ch) := by
  unfold getNextProcessStateFromChar; resp hR
macro_rules | `(tactic| resp_lemma $h) => `(tactic| apply getNextProcessStateFromChar_resp $h)

theorem processDocStart_resp (hR : Nice R)   : Resp R D (processDocStart) := by
  unfold processDocStart; resp hR
macro_rules | `(tactic| resp_lemma $h) => `(tactic| apply processDocStart_resp $h)

theorem processDocEnd_resp (hR : Nice R)   : Resp R D (processDocEnd) := by
  unfold processDocEnd; resp hR
macro_rules | `(tactic| resp_lemma $h) => `(tactic| apply processDocEnd_resp $h)

theorem docTypeLoop_resp (hR : Nice R)   (x0 : Nat) (x1 : Int) : Resp R D (docTypeLoop x0 x1) := by
  induction x0 generalizing x1 with
  | zero => simp only [docTypeLoop]; resp hR
  | succ k ih => simp only [docTypeLoop]; resp hR, ih
macro_rules | `(tactic| resp_lemma $h) => `(tactic| apply docTypeLoop_resp $h)

theorem processDocType_resp (hR : Nice R)   : Resp R D (processDocType) := by
  unfold processDocType; resp hR
macro_rules | `(tactic| resp_lemma $h) => `(tactic| apply processDocType_resp $h)

theorem processExSeen_resp (hR : Nice R)   : Resp R D (processExSeen) := by
  unfold processExSeen; resp hR
macro_rules | `(tactic| resp_lemma $h) => `(tactic| apply processExSeen_resp $h)

theorem processQmSeen_resp (hR : Nice R)   : Resp R D (processQmSeen) := by
  unfold processQmSeen; resp hR
macro_rules | `(tactic| resp_lemma $h) => `(tactic| apply processQmSeen_resp $h)

theorem processLtSeen_resp (hR : Nice R)   : Resp R D (processLtSeen) := by
  unfold processLtSeen; resp hR
macro_rules | `(tactic| resp_lemma $h) => `(tactic| apply processLtSeen_resp $h)

theorem processElementTail_resp (hR : Nice R)   : Resp R D (processElementTail) := by
  unfold processElementTail; resp hR
macro_rules | `(tactic| resp_lemma $h) => `(tactic| apply processElementTail_resp $h)

theorem startTagLoop_resp (hR : Nice R)   (x0 : Nat) : Resp R D (startTagLoop x0) := by
  induction x0 with
  | zero => simp only [startTagLoop]; resp hR
  | succ k ih => simp only [startTagLoop]; resp hR, ih
macro_rules | `(tactic| resp_lemma $h) => `(tactic| apply startTagLoop_resp $h)

theorem pushTag_resp (hR : Nice R)   : Resp R D (pushTag) := by
  unfold pushTag; resp hR
macro_rules | `(tactic| resp_lemma $h) => `(tactic| apply pushTag_resp $h)

theorem startTagNs_resp (hR : Nice R)   : Resp R D (startTagNs) := by
  unfold startTagNs; resp hR
macro_rules | `(tactic| resp_lemma $h) => `(tactic| apply startTagNs_resp $h)

theorem pushNs1_resp (hR : Nice R)   : Resp R D (pushNs1) := by
  unfold pushNs1; resp hR
macro_rules | `(tactic| resp_lemma $h) => `(tactic| apply pushNs1_resp $h)

theorem startTagEnd_resp (hR : Nice R)   : Resp R D (startTagEnd) := by
  unfold startTagEnd; resp hR
macro_rules | `(tactic| resp_lemma $h) => `(tactic| apply startTagEnd_resp $h)

theorem processStartTag_resp (hR : Nice R)  (hS : Resp R D writeStartTag) : Resp R D (processStartTag) := by
  unfold processStartTag; resp hR
macro_rules | `(tactic| resp_lemma $h) => `(tactic| apply processStartTag_resp $h <;> assumption)

theorem processEndTag_resp (hR : Nice R)   : Resp R D (processEndTag) := by
  unfold processEndTag; resp hR
macro_rules | `(tactic| resp_lemma $h) => `(tactic| apply processEndTag_resp $h)

theorem textLoop_resp (hR : Nice R)   (x0 : Nat) : Resp R D (textLoop x0) := by
  induction x0 with
  | zero => simp only [textLoop]; resp hR
  | succ k ih => simp only [textLoop]; resp hR, ih
macro_rules | `(tactic| resp_lemma $h) => `(tactic| apply textLoop_resp $h)

theorem processText_resp (hR : Nice R)   : Resp R D (processText) := by
  unfold processText; resp hR
macro_rules | `(tactic| resp_lemma $h) => `(tactic| apply processText_resp $h)

theorem afterMarkup_resp (hR : Nice R)   : Resp R D (afterMarkup) := by
  unfold afterMarkup; resp hR
macro_rules | `(tactic| resp_lemma $h) => `(tactic| apply afterMarkup_resp $h)

theorem cdataLoop_resp (hR : Nice R)   (x0 : Nat) : Resp R D (cdataLoop x0) := by
  induction x0 with
  | zero => simp only [cdataLoop]; resp hR
  | succ k ih => simp only [cdataLoop]; resp hR, ih
macro_rules | `(tactic| resp_lemma $h) => `(tactic| apply cdataLoop_resp $h)

theorem processCdata_resp (hR : Nice R)   : Resp R D (processCdata) := by
  unfold processCdata; resp hR
macro_rules | `(tactic| resp_lemma $h) => `(tactic| apply processCdata_resp $h)

theorem commentLoop_resp (hR : Nice R)   (x0 : Nat) : Resp R D (commentLoop x0) := by
  induction x0 with
  | zero => simp only [commentLoop]; resp hR
  | succ k ih => simp only [commentLoop]; resp hR, ih
macro_rules | `(tactic| resp_lemma $h) => `(tactic| apply commentLoop_resp $h)

theorem processStartComment_resp (hR : Nice R)   : Resp R D (processStartComment) := by
  unfold processStartComment; resp hR
macro_rules | `(tactic| resp_lemma $h) => `(tactic| apply processStartComment_resp $h)

theorem processEndComment_resp (hR : Nice R)   : Resp R D (processEndComment) := by
  unfold processEndComment; resp hR
macro_rules | `(tactic| resp_lemma $h) => `(tactic| apply processEndComment_resp $h)

theorem nameLoop_resp (hR : Nice R)   (x0 : Nat) : Resp R D (nameLoop x0) := by
  induction x0 with
  | zero => simp only [nameLoop]; resp hR
  | succ k ih => simp only [nameLoop]; resp hR, ih
macro_rules | `(tactic| resp_lemma $h) => `(tactic| apply nameLoop_resp $h)

theorem processPiTag_resp (hR : Nice R)   : Resp R D (processPiTag) := by
  unfold processPiTag; resp hR
macro_rules | `(tactic| resp_lemma $h) => `(tactic| apply processPiTag_resp $h)

theorem piValLoop_resp (hR : Nice R)   (x0 : Nat) : Resp R D (piValLoop x0) := by
  induction x0 with
  | zero => simp only [piValLoop]; resp hR
  | succ k ih => simp only [piValLoop]; resp hR, ih
macro_rules | `(tactic| resp_lemma $h) => `(tactic| apply piValLoop_resp $h)

theorem processPiVal_resp (hR : Nice R)   : Resp R D (processPiVal) := by
  unfold processPiVal; resp hR
macro_rules | `(tactic| resp_lemma $h) => `(tactic| apply processPiVal_resp $h)

theorem piEndNameLoop_resp (hR : Nice R)   (x0 : Nat) : Resp R D (piEndNameLoop x0) := by
  induction x0 with
  | zero => simp only [piEndNameLoop]; resp hR
  | succ k ih => simp only [piEndNameLoop]; resp hR, ih
macro_rules | `(tactic| resp_lemma $h) => `(tactic| apply piEndNameLoop_resp $h)

theorem piEndValLoop_resp (hR : Nice R)   (x0 : Nat) : Resp R D (piEndValLoop x0) := by
  induction x0 with
  | zero => simp only [piEndValLoop]; resp hR
  | succ k ih => simp only [piEndValLoop]; resp hR, ih
macro_rules | `(tactic| resp_lemma $h) => `(tactic| apply piEndValLoop_resp $h)

theorem piEndTarget_resp (hR : Nice R)   : Resp R D (piEndTarget) := by
  unfold piEndTarget; resp hR
macro_rules | `(tactic| resp_lemma $h) => `(tactic| apply piEndTarget_resp $h)

theorem processPiEnd_resp (hR : Nice R)   : Resp R D (processPiEnd) := by
  unfold processPiEnd; resp hR
macro_rules | `(tactic| resp_lemma $h) => `(tactic| apply processPiEnd_resp $h)

theorem attrNsTest_resp (hR : Nice R)   : Resp R D (attrNsTest) := by
  unfold attrNsTest; resp hR
macro_rules | `(tactic| resp_lemma $h) => `(tactic| apply attrNsTest_resp $h)

theorem attrNameLoop_resp (hR : Nice R)   (x0 : Nat) : Resp R D (attrNameLoop x0) := by
  induction x0 with
  | zero => simp only [attrNameLoop]; resp hR
  | succ k ih => simp only [attrNameLoop]; resp hR, ih
macro_rules | `(tactic| resp_lemma $h) => `(tactic| apply attrNameLoop_resp $h)

theorem attrNsDecl_resp (hR : Nice R)   : Resp R D (attrNsDecl) := by
  unfold attrNsDecl; resp hR
macro_rules | `(tactic| resp_lemma $h) => `(tactic| apply attrNsDecl_resp $h)

theorem uniqueLoop_resp (hR : Nice R)   (x0 : Nat) (x1 : Int) (x2 : Bool) : Resp R D (uniqueLoop x0 x1 x2) := by
  induction x0 generalizing x1 x2 with
  | zero => simp only [uniqueLoop]; resp hR
  | succ k ih => simp only [uniqueLoop]; resp hR, ih
macro_rules | `(tactic| resp_lemma $h) => `(tactic| apply uniqueLoop_resp $h)

theorem pushPrefixedAttr_resp (hR : Nice R)   : Resp R D (pushPrefixedAttr) := by
  unfold pushPrefixedAttr; resp hR
macro_rules | `(tactic| resp_lemma $h) => `(tactic| apply pushPrefixedAttr_resp $h)

theorem checkAttrUniqueness_resp (hR : Nice R)   : Resp R D (checkAttrUniqueness) := by
  unfold checkAttrUniqueness; resp hR
macro_rules | `(tactic| resp_lemma $h) => `(tactic| apply checkAttrUniqueness_resp $h)

theorem writeAttrName_resp (hR : Nice R)   : Resp R D (writeAttrName) := by
  unfold writeAttrName; resp hR
macro_rules | `(tactic| resp_lemma $h) => `(tactic| apply writeAttrName_resp $h)

theorem attrNameEnd_resp (hR : Nice R)   : Resp R D (attrNameEnd) := by
  unfold attrNameEnd; resp hR
macro_rules | `(tactic| resp_lemma $h) => `(tactic| apply attrNameEnd_resp $h)

theorem processAttrName_resp (hR : Nice R)   : Resp R D (processAttrName) := by
  unfold processAttrName; resp hR
macro_rules | `(tactic| resp_lemma $h) => `(tactic| apply processAttrName_resp $h)

theorem attrValLoop_resp (hR : Nice R) (quote : Nat)  (x0 : Nat) : Resp R D (attrValLoop quote x0) := by
  induction x0 with
  | zero => simp only [attrValLoop]; resp hR
  | succ k ih => simp only [attrValLoop]; resp hR, ih
macro_rules | `(tactic| resp_lemma $h) => `(tactic| apply attrValLoop_resp $h)

theorem getCharUnit_resp (hR : Nice R) (offset : Int)  : Resp R D (getCharUnit offset) := by
  unfold getCharUnit; resp hR
macro_rules | `(tactic| resp_lemma $h) => `(tactic| apply getCharUnit_resp $h)

theorem unitSeq_resp (hR : Nice R) (inc : Int)  (x0 : List Int) (x1 : Int) : Resp R D (unitSeq inc x0 x1) := by
  induction x0 generalizing x1 with
  | nil => simp only [unitSeq]; resp hR
  | cons k l ih => simp only [unitSeq]; resp hR, ih
macro_rules | `(tactic| resp_lemma $h) => `(tactic| apply unitSeq_resp $h)

theorem resolveHexLoop_resp (hR : Nice R)   (x0 : Nat) (x1 : Int) (x2 : Int) (x3 : Int) : Resp R D (resolveHexLoop x0 x1 x2 x3) := by
  induction x0 generalizing x1 x2 x3 with
  | zero => simp only [resolveHexLoop]; resp hR
  | succ k ih => simp only [resolveHexLoop]; resp hR, ih
macro_rules | `(tactic| resp_lemma $h) => `(tactic| apply resolveHexLoop_resp $h)

theorem resolveDecLoop_resp (hR : Nice R)   (x0 : Nat) (x1 : Int) (x2 : Int) (x3 : Int) : Resp R D (resolveDecLoop x0 x1 x2 x3) := by
  induction x0 generalizing x1 x2 x3 with
  | zero => simp only [resolveDecLoop]; resp hR
  | succ k ih => simp only [resolveDecLoop]; resp hR, ih
macro_rules | `(tactic| resp_lemma $h) => `(tactic| apply resolveDecLoop_resp $h)

theorem resolveUnit_resp (hR : Nice R) (offset : Int) (ch : Int) (inc : Int)  : Resp R D (resolveUnit offset ch inc) := by
  unfold resolveUnit; resp hR
macro_rules | `(tactic| resp_lemma $h) => `(tactic| apply resolveUnit_resp $h)

theorem getCharResolved_resp (hR : Nice R) (offset : Int)  : Resp R D (getCharResolved offset) := by
  unfold getCharResolved; resp hR
macro_rules | `(tactic| resp_lemma $h) => `(tactic| apply getCharResolved_resp $h)

theorem urlLoop_resp (hR : Nice R) (g : Int)  (x0 : List Nat) (x1 : Int) : Resp R D (urlLoop g x0 x1) := by
  induction x0 generalizing x1 with
  | nil => simp only [urlLoop]; resp hR
  | cons k l ih => simp only [urlLoop]; resp hR, ih
macro_rules | `(tactic| resp_lemma $h) => `(tactic| apply urlLoop_resp $h)

theorem identifyNsUrl_resp (hR : Nice R)   : Resp R D (identifyNsUrl) := by
  unfold identifyNsUrl; resp hR
macro_rules | `(tactic| resp_lemma $h) => `(tactic| apply identifyNsUrl_resp $h)

theorem qualifyAttrLoop_resp (hR : Nice R) (preLen preOs : Int)  (x0 : Nat) : Resp R D (qualifyAttrLoop preLen preOs x0) := by
  induction x0 with
  | zero => simp only [qualifyAttrLoop]; resp hR
  | succ k ih => simp only [qualifyAttrLoop]; resp hR, ih
macro_rules | `(tactic| resp_lemma $h) => `(tactic| apply qualifyAttrLoop_resp $h)

theorem qualifyAttrsLoop_resp (hR : Nice R) (nsCount : Nat)  (x0 : Nat) (x1 : Int) : Resp R D (qualifyAttrsLoop nsCount x0 x1) := by
  induction x0 generalizing x1 with
  | zero => simp only [qualifyAttrsLoop]; resp hR
  | succ k ih => simp only [qualifyAttrsLoop]; resp hR, ih
macro_rules | `(tactic| resp_lemma $h) => `(tactic| apply qualifyAttrsLoop_resp $h)

theorem qualifyAttributes_resp (hR : Nice R)   : Resp R D (qualifyAttributes) := by
  unfold qualifyAttributes; resp hR
macro_rules | `(tactic| resp_lemma $h) => `(tactic| apply qualifyAttributes_resp $h)

theorem matchUrlLoop_resp (hR : Nice R) (x0 : Nat) (x1 x2 : Int) : Resp R D (matchUrlLoop x0 x1 x2) := by
  induction x0 generalizing x1 x2 with
  | zero => simp only [matchUrlLoop]; resp hR
  | succ k ih => simp only [matchUrlLoop]; resp hR, ih

theorem uniqueQualInner_resp (hR : Nice R) (postLen offset urlOffset urlLen : Int) (hM : ∀ a b c d, Resp R D (matchUrl a b c d)) (x0 : Nat) (x1 : Int) : Resp R D (uniqueQualInner postLen offset urlOffset urlLen x0 x1) := by
  induction x0 generalizing x1 with
  | zero => simp only [uniqueQualInner]; resp hR
  | succ k ih => simp only [uniqueQualInner]; resp hR, ih
                 all_goals exact hM _ _ _ _
macro_rules | `(tactic| resp_lemma $h) => `(tactic| apply uniqueQualInner_resp $h <;> assumption)

theorem uniqueQualOuter_resp (hR : Nice R)  (hM : ∀ a b c d, Resp R D (matchUrl a b c d)) (x0 : Nat) (x1 : Int) : Resp R D (uniqueQualOuter x0 x1) := by
  induction x0 generalizing x1 with
  | zero => simp only [uniqueQualOuter]; resp hR
  | succ k ih => simp only [uniqueQualOuter]; resp hR, ih
macro_rules | `(tactic| resp_lemma $h) => `(tactic| apply uniqueQualOuter_resp $h <;> assumption)

theorem checkQualifiedAttributeUniqueness_resp (hR : Nice R)  (hM : ∀ a b c d, Resp R D (matchUrl a b c d)) : Resp R D (checkQualifiedAttributeUniqueness) := by
  unfold checkQualifiedAttributeUniqueness; resp hR
macro_rules | `(tactic| resp_lemma $h) => `(tactic| apply checkQualifiedAttributeUniqueness_resp $h <;> assumption)

theorem attrValNs_resp (hR : Nice R)   : Resp R D (attrValNs) := by
  unfold attrValNs; resp hR
macro_rules | `(tactic| resp_lemma $h) => `(tactic| apply attrValNs_resp $h)

theorem attrValQualify_resp (hR : Nice R)  (hM : ∀ a b c d, Resp R D (matchUrl a b c d)) : Resp R D (attrValQualify) := by
  unfold attrValQualify; resp hR
macro_rules | `(tactic| resp_lemma $h) => `(tactic| apply attrValQualify_resp $h <;> assumption)

theorem attrValEnd_resp (hR : Nice R)  (hM : ∀ a b c d, Resp R D (matchUrl a b c d)) : Resp R D (attrValEnd) := by
  unfold attrValEnd; resp hR
macro_rules | `(tactic| resp_lemma $h) => `(tactic| apply attrValEnd_resp $h <;> assumption)

theorem processAttrVal_resp (hR : Nice R)  (hM : ∀ a b c d, Resp R D (matchUrl a b c d)) : Resp R D (processAttrVal) := by
  unfold processAttrVal; resp hR
macro_rules | `(tactic| resp_lemma $h) => `(tactic| apply processAttrVal_resp $h <;> assumption)

theorem skipSeqOrUpper_resp (hR : Nice R) (seq : List Nat)  : Resp R D (skipSeqOrUpper seq) := by
  unfold skipSeqOrUpper; resp hR
macro_rules | `(tactic| resp_lemma $h) => `(tactic| apply skipSeqOrUpper_resp $h)

theorem switchToAscii_resp (hR : Nice R)   : Resp R D (switchToAscii) := by
  unfold switchToAscii; resp hR
macro_rules | `(tactic| resp_lemma $h) => `(tactic| apply switchToAscii_resp $h)

theorem checkAsciiEncoding_resp (hR : Nice R)   : Resp R D (checkAsciiEncoding) := by
  unfold checkAsciiEncoding; resp hR
macro_rules | `(tactic| resp_lemma $h) => `(tactic| apply checkAsciiEncoding_resp $h)

theorem checkUsAsciiEncoding_resp (hR : Nice R)   : Resp R D (checkUsAsciiEncoding) := by
  unfold checkUsAsciiEncoding; resp hR
macro_rules | `(tactic| resp_lemma $h) => `(tactic| apply checkUsAsciiEncoding_resp $h)

theorem setIsoEncoding_resp (hR : Nice R)   : Resp R D (setIsoEncoding) := by
  unfold setIsoEncoding; resp hR
macro_rules | `(tactic| resp_lemma $h) => `(tactic| apply setIsoEncoding_resp $h)

theorem setWinEncoding_resp (hR : Nice R)   : Resp R D (setWinEncoding) := by
  unfold setWinEncoding; resp hR
macro_rules | `(tactic| resp_lemma $h) => `(tactic| apply setWinEncoding_resp $h)

theorem checkIsoEncoding_resp (hR : Nice R)   : Resp R D (checkIsoEncoding) := by
  unfold checkIsoEncoding; resp hR
macro_rules | `(tactic| resp_lemma $h) => `(tactic| apply checkIsoEncoding_resp $h)

theorem checkUtfEncoding_resp (hR : Nice R)   : Resp R D (checkUtfEncoding) := by
  unfold checkUtfEncoding; resp hR
macro_rules | `(tactic| resp_lemma $h) => `(tactic| apply checkUtfEncoding_resp $h)

theorem checkCpEncoding_resp (hR : Nice R)   : Resp R D (checkCpEncoding) := by
  unfold checkCpEncoding; resp hR
macro_rules | `(tactic| resp_lemma $h) => `(tactic| apply checkCpEncoding_resp $h)

theorem checkWindowsEncoding_resp (hR : Nice R)   : Resp R D (checkWindowsEncoding) := by
  unfold checkWindowsEncoding; resp hR
macro_rules | `(tactic| resp_lemma $h) => `(tactic| apply checkWindowsEncoding_resp $h)

theorem checkEncodingName_resp (hR : Nice R)   : Resp R D (checkEncodingName) := by
  unfold checkEncodingName; resp hR
macro_rules | `(tactic| resp_lemma $h) => `(tactic| apply checkEncodingName_resp $h)

theorem expectQuote_resp (hR : Nice R)   : Resp R D (expectQuote) := by
  unfold expectQuote; resp hR
macro_rules | `(tactic| resp_lemma $h) => `(tactic| apply expectQuote_resp $h)

theorem expectEq_resp (hR : Nice R)   : Resp R D (expectEq) := by
  unfold expectEq; resp hR
macro_rules | `(tactic| resp_lemma $h) => `(tactic| apply expectEq_resp $h)

theorem processDecEncodingAttr_resp (hR : Nice R)   : Resp R D (processDecEncodingAttr) := by
  unfold processDecEncodingAttr; resp hR
macro_rules | `(tactic| resp_lemma $h) => `(tactic| apply processDecEncodingAttr_resp $h)

theorem processDecStandaloneAttr_resp (hR : Nice R)   : Resp R D (processDecStandaloneAttr) := by
  unfold processDecStandaloneAttr; resp hR
macro_rules | `(tactic| resp_lemma $h) => `(tactic| apply processDecStandaloneAttr_resp $h)

theorem decVersion_resp (hR : Nice R)   : Resp R D (decVersion) := by
  unfold decVersion; resp hR
macro_rules | `(tactic| resp_lemma $h) => `(tactic| apply decVersion_resp $h)

theorem decOptional_resp (hR : Nice R)   : Resp R D (decOptional) := by
  unfold decOptional; resp hR
macro_rules | `(tactic| resp_lemma $h) => `(tactic| apply decOptional_resp $h)

theorem processDecAttrName_resp (hR : Nice R)   : Resp R D (processDecAttrName) := by
  unfold processDecAttrName; resp hR
macro_rules | `(tactic| resp_lemma $h) => `(tactic| apply processDecAttrName_resp $h)

theorem step_resp (hR : Nice R) (hS : Resp R D writeStartTag) (hM : ∀ a b c d, Resp R D (matchUrl a b c d))
    (st : PState) : Resp R D (step st) := by
  cases st <;> simp only [step]
  all_goals resp hR

theorem mainLoop_resp (hR : Nice R) (hS : Resp R D writeStartTag)
    (hM : ∀ a b c d, Resp R D (matchUrl a b c d)) (hF : Resp R D finishUp) (fuel : Nat) (st : PState) :
    Resp R D (mainLoop fuel st) := by
  induction fuel generalizing st with
  | zero => exact Resp.diverge
  | succ fuel ih =>
    simp only [mainLoop]
    refine Resp.bind (Resp.catchErr (Resp.bind (step_resp hR hS hM st) fun _ => Resp.pure _) fun e => ?_)
      fun r => ?_
    · unfold onStepErr
      exact Resp.ite (Resp.bind (Resp.wrapInternal _ hF) fun _ => Resp.pure _) (Resp.raise _)
    · cases r
      · exact Resp.pure _
      · exact ih _

theorem parse_resp (hR : Nice R) (hS : Resp R D writeStartTag)
    (hM : ∀ a b c d, Resp R D (matchUrl a b c d)) (hF : Resp R D finishUp) : Resp R D parse := by
  unfold parse
  refine Resp.bind (decideEncoding_resp hR) fun _ => Resp.bind_get hR (fun _ _ => rfl) fun _ => ?_
  exact Resp.bind (writeVtd_resp hR _ _ _ _) fun _ => mainLoop_resp hR hS hM hF _ _

end
end Parser
end GoVtd
