import Verif.Proofs.Parser.EventLoop
import Verif.Props.Grammar

/-!
# The records only grow

`Fr AF m`: in a parse of bytes `m` only appends records, and leaves the flags of a namespace declaration alone.
-/

namespace GoVtd
namespace Parser
namespace Ev
open Paged Grammar Two

/-- From `s` to `s'` records are appended, and the flags of the current attribute stay. -/
structure AFrame (s s' : Parser) : Prop where
  ok : OutOk s'.out
  enc : s'.enc = stdEnc
  ws : s'.ws = false
  cfg : s'.cfg = s.cfg
  isNs : s'.at_.isNs = s.at_.isNs
  defaultNs : s'.at_.defaultNs = s.at_.defaultNs
  out : ∃ xs, s'.out = Parser.emit s.cfg.shallowDepth s.out xs

/-- `AFrame`, if the state is as it is in a parse of bytes. -/
def AF (s s' : Parser) : Prop := OutOk s.out → s.enc = stdEnc → s.ws = false → AFrame s s'

theorem af_pre : Pre AF where
  refl s h1 h2 h3 := ⟨h1, h2, h3, rfl, rfl, rfl, [], rfl⟩
  trans := by
    intro a b c h h' h1 h2 h3
    obtain ⟨x1, x2, x3, x4, x5, x6, xs, x9⟩ := h h1 h2 h3
    obtain ⟨y1, y2, y3, y4, y5, y6, ys, y9⟩ := h' x1 x2 x3
    refine ⟨y1, y2, y3, y4.trans x4, y5.trans x5, y6.trans x6, xs ++ ys, ?_⟩
    rw [emit_append, ← x9, ← x4]; exact y9

theorem Two.Fr.weaken {F F' : Parser → Parser → Prop} {α : Type} {m : M Parser α} (h : Fr F m)
    (hF : ∀ s s', F s s' → F' s s') : Fr F' m := by
  intro s
  have := h s
  cases hm : m s with
  | ok a s' => rw [hm] at this; exact hF _ _ this
  | err e s' => rw [hm] at this; exact hF _ _ this
  | panic => trivial
  | diverge => trivial

theorem AF.quiet {α : Type} {m : M Parser α} (h : Fr QF m) : Fr AF m := by
  refine Two.Fr.weaken h fun s s' h h1 h2 h3 => ?_
  obtain ⟨y1, y2, y3, y4, y5, y6, y7, y8, y0, ys, y9, y10⟩ := h h1 h2 h3
  exact ⟨y1, y2, y3, y4, by rw [y7], by rw [y7], ys, y9⟩

theorem AF.ns {α : Type} {m : M Parser α} (h : Fr NsF m) : Fr AF m := by
  refine Two.Fr.weaken h fun s s' h h1 h2 h3 => ?_
  obtain ⟨⟨ns', v1, v2, v3, v4, v5, rfl⟩, hl⟩ := h
  exact ⟨h1, h2, h3, rfl, rfl, rfl, [], rfl⟩

theorem modify_af {f : Parser → Parser} (h : ∀ s, (f s).out = s.out ∧ (f s).enc = s.enc ∧ (f s).ws = s.ws ∧
    (f s).cfg = s.cfg ∧ (f s).at_.isNs = s.at_.isNs ∧ (f s).at_.defaultNs = s.at_.defaultNs) : Fr AF (M.modify f) :=
  Fr.modify fun s h1 h2 h3 => ⟨(h s).1 ▸ h1, (h s).2.1.trans h2, (h s).2.2.1.trans h3, (h s).2.2.2.1, (h s).2.2.2.2.1,
    (h s).2.2.2.2.2, [], (h s).1⟩

/-- Lemmas for the tactic `af`. -/
syntax "af_lemma" : tactic
/-- Prove `Fr AF m` along the text of `m`. -/
syntax "af" : tactic
macro_rules
  | `(tactic| af) => `(tactic| repeat' (first
      | assumption
      | with_reducible exact Fr.pure af_pre _
      | with_reducible exact Fr.raise af_pre _
      | with_reducible exact Fr.panic
      | with_reducible exact Fr.diverge
      | with_reducible exact Fr.get af_pre
      | with_reducible exact Fr.index af_pre _ _
      | with_reducible refine Fr.bind af_pre ?_ fun _ => ?_
      | with_reducible refine Fr.catchErr af_pre ?_ fun _ => ?_
      | with_reducible refine Fr.and af_pre ?_ ?_
      | with_reducible refine Fr.or af_pre ?_ ?_
      | with_reducible refine Fr.ite ?_ ?_
      | with_reducible exact parseErr_fr af_pre _
      | with_reducible exact parseErrAt_fr af_pre _ _
      | with_reducible exact Fr.docByte af_pre _
      | with_reducible exact docIs_fr af_pre _ _
      | with_reducible exact docMatches_fr af_pre _ _
      | with_reducible exact checkXmlPrefix_fr af_pre _ _ _
      | with_reducible exact checkXmlnsPrefix_fr af_pre _ _ _
      | with_reducible exact sameBytes_fr af_pre _ _ _
      | with_reducible exact modify_af fun _ => ⟨rfl, rfl, rfl, rfl, rfl, rfl⟩
      | with_reducible exact AF.quiet getChar_qf
      | with_reducible exact AF.quiet nextChar_qf
      | with_reducible exact AF.quiet nextCharAfterWs_qf
      | with_reducible exact AF.quiet getPrevOffset_qf
      | with_reducible exact AF.quiet markOffset_qf
      | with_reducible exact AF.quiet (skipCharSeq_qf _)
      | with_reducible exact AF.quiet recordWsIfSet_qf
      | with_reducible exact AF.quiet (handleOtherTextChar_qf _)
      | with_reducible exact AF.quiet processElementTail_qf
      | with_reducible exact AF.quiet (writeCheck_qf (by decide) _)
      | with_reducible exact AF.quiet entityIdentifier_qf
      | with_reducible exact AF.quiet processExSeen_qf
      | with_reducible exact AF.quiet processQmSeen_qf
      | with_reducible exact AF.quiet (wrapInternal_qf _ nextChar_qf)
      | with_reducible exact AF.ns (onNs1_fr _)
      | with_reducible exact AF.ns (onNs2_fr _)
      | with_reducible exact AF.ns (onNs3_fr _)
      | with_reducible exact AF.ns pushNs1_fr
      | with_reducible exact AF.ns qualifyElement_fr
      | with_reducible exact AF.ns attrNsDecl_fr
      | with_reducible exact AF.ns pushPrefixedAttr_fr
      | af_lemma
      | split))

/-- Enough to look at the states of a parse of bytes. -/
theorem af_std {α : Type} {m : M Parser α} (h : ∀ s, OutOk s.out → s.enc = stdEnc → match m s with
    | .ok _ s' => AF s s'
    | .err _ s' => AF s s'
    | _ => True) : Fr AF m := by
  intro s
  by_cases ho : OutOk s.out ∧ s.enc = stdEnc
  · exact h s ho.1 ho.2
  · cases m s with
    | ok a s' => exact fun h1 h2 _ => absurd ⟨h1, h2⟩ ho
    | err e s' => exact fun h1 h2 _ => absurd ⟨h1, h2⟩ ho
    | panic => trivial
    | diverge => trivial

theorem writeVtd_af {t : Token} (ht : t ≠ .startingTag) (o l d : Int) : Fr AF (writeVtd t o l d) := by
  refine af_std fun s h1 h2 => ?_
  rw [writeVtd_emit h1 s.cfg.shallowDepth _ _ _ _ ht]
  exact fun _ _ h3 => ⟨emit_ok h1 _ _, h2, h3, rfl, rfl, rfl, _, rfl⟩

theorem startTagLoop_af (n : Nat) : Fr AF (startTagLoop n) := by
  induction n with
  | zero => unfold startTagLoop; af
  | succ n ih => unfold startTagLoop; af
macro_rules | `(tactic| af_lemma) => `(tactic| with_reducible exact startTagLoop_af _)

theorem pushTag_af : Fr AF pushTag := by unfold pushTag; af
macro_rules | `(tactic| af_lemma) => `(tactic| with_reducible exact pushTag_af)

theorem writeStartTag_af : Fr AF writeStartTag := by
  refine af_std fun s h1 h2 => ?_
  have hs : s.enc.singleByteEncoding = true := by rw [h2]; rfl
  simp only [writeStartTag, M.bind_apply, M.get_apply, Res.andThen_ok, hs, if_true, M.ite_apply]
  have e := emit1_ok h1 s.cfg.shallowDepth (startRec s)
  by_cases hl : s.length2 > maxPrefixLength ∨ s.length1 > maxQnameLength
  · rw [if_pos hl]
    exact parseErr_fr af_pre _ s
  rw [if_neg hl]
  by_cases hsh : s.cfg.shallowDepth = true
  · rw [if_pos hsh, writeVtd_go h1]
    rw [emit1, if_neg (by simp [hsh])] at e
    exact fun _ _ h3 => ⟨e, h2, h3, rfl, rfl, rfl, [startRec s], by
      rw [emit_cons, emit_nil, emit1, if_neg (by simp [hsh])]; rfl⟩
  · rw [if_neg hsh, writeVtdL5_go h1]
    rw [emit1, if_pos (by simp [hsh, startRec])] at e
    exact fun _ _ h3 => ⟨e, h2, h3, rfl, rfl, rfl, [startRec s], by
      rw [emit_cons, emit_nil, emit1, if_pos (by simp [hsh, startRec])]; rfl⟩
macro_rules | `(tactic| af_lemma) => `(tactic| with_reducible exact writeStartTag_af)

theorem startTagNs_af : Fr AF startTagNs := by unfold startTagNs; af
macro_rules | `(tactic| af_lemma) => `(tactic| with_reducible exact startTagNs_af)
theorem startTagEnd_af : Fr AF startTagEnd := by unfold startTagEnd; af
macro_rules | `(tactic| af_lemma) => `(tactic| with_reducible exact startTagEnd_af)
theorem processStartTag_af : Fr AF processStartTag := by unfold processStartTag; af
theorem processEndTag_af : Fr AF processEndTag := by unfold processEndTag setOffset; af
theorem processLtSeen_af : Fr AF processLtSeen := by unfold processLtSeen; af

theorem attrNameLoop_af (n : Nat) : Fr AF (attrNameLoop n) := by
  induction n with
  | zero => unfold attrNameLoop; af
  | succ n ih => unfold attrNameLoop; af
macro_rules | `(tactic| af_lemma) => `(tactic| with_reducible exact attrNameLoop_af _)
theorem uniqueLoop_af (n : Nat) (i : Int) (b : Bool) : Fr AF (uniqueLoop n i b) := by
  induction n generalizing i b with
  | zero => unfold uniqueLoop; af
  | succ n ih =>
    unfold uniqueLoop
    have h1 := fun b => ih (i + 1) b
    af
    all_goals exact h1 _
macro_rules | `(tactic| af_lemma) => `(tactic| with_reducible exact uniqueLoop_af _ _ _)
theorem checkAttrUniqueness_af : Fr AF checkAttrUniqueness := by unfold checkAttrUniqueness; af
macro_rules | `(tactic| af_lemma) => `(tactic| with_reducible exact checkAttrUniqueness_af)
theorem writeAttrName_af : Fr AF writeAttrName := by
  have h : ∀ (p : Parser) (o l d : Int), Fr AF (writeVtd (if p.at_.isNs then Token.attrNs else Token.attrName) o l d) :=
    fun p o l d => writeVtd_af (by split <;> decide) o l d
  unfold writeAttrName
  refine Fr.bind af_pre (Fr.get af_pre) fun p => ?_
  refine Fr.ite (Fr.bind af_pre (AF.ns (onNs3_fr _)) fun _ => ?_) ?_ <;>
  exact Fr.ite (Fr.ite (parseErr_fr af_pre _) (h p _ _ _)) (Fr.ite (parseErr_fr af_pre _) (h p _ _ _))
macro_rules | `(tactic| af_lemma) => `(tactic| with_reducible exact writeAttrName_af)
theorem attrNameEnd_af : Fr AF attrNameEnd := by unfold attrNameEnd; af
macro_rules | `(tactic| af_lemma) => `(tactic| with_reducible exact attrNameEnd_af)

end Ev
end Parser
end GoVtd
