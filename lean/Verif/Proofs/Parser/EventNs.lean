import Verif.Proofs.Parser.EventTags
import Verif.Proofs.Parser.NsOnly

/-!
# Namespace bookkeeping and the open tags

The namespace functions change nothing that the tags depend on. Resolving `&a...` in a namespace name reads a
character from the reader; the reader never goes back.
-/

namespace GoVtd
namespace Parser
namespace Ev
open Paged Grammar Two
variable {c : ParserCfg} {p : Parser}

/-- From `s` to `s'` only the namespace bookkeeping changes, and the reader may have moved on. -/
structure NFrame (s s' : Parser) : Prop where
  out : s'.out = s.out
  cfg : s'.cfg = s.cfg
  depth : s'.depth = s.depth
  tagStack : s'.tagStack = s.tagStack
  lastOffset : s'.lastOffset = s.lastOffset
  length1 : s'.length1 = s.length1
  length2 : s'.length2 = s.length2
  cur : s'.currentChar = s.currentChar
  names : s'.at_.attrNameSlice = s.at_.attrNameSlice
  count : s'.at_.attrCount = s.at_.attrCount
  base : ∀ {c}, Base c s → Base c s'
  rd : ∀ {c}, Base c s → s.rd.offset ≤ s'.rd.offset
  sync : s.offset = s.rd.offset → s'.offset = s'.rd.offset

theorem NFrame.refl (s : Parser) : NFrame s s :=
  ⟨rfl, rfl, rfl, rfl, rfl, rfl, rfl, rfl, rfl, rfl, id, fun _ => Int.le_refl _, id⟩

theorem NFrame.trans {a b d : Parser} (h : NFrame a b) (h' : NFrame b d) : NFrame a d :=
  ⟨h'.out.trans h.out, h'.cfg.trans h.cfg, h'.depth.trans h.depth, h'.tagStack.trans h.tagStack,
    h'.lastOffset.trans h.lastOffset, h'.length1.trans h.length1, h'.length2.trans h.length2, h'.cur.trans h.cur,
    h'.names.trans h.names, h'.count.trans h.count, fun hb => h'.base (h.base hb),
    fun hb => Int.le_trans (h.rd hb) (h'.rd (h.base hb)), fun hs => h'.sync (h.sync hs)⟩

theorem NFrame.ns {s s' : Parser} (h : NsF s s') : NFrame s s' := by
  obtain ⟨⟨ns, v1, v2, v3, v4, v5, rfl⟩, -⟩ := h
  exact ⟨rfl, rfl, rfl, rfl, rfl, rfl, rfl, rfl, rfl, rfl, fun h => h, fun _ => Int.le_refl _, id⟩

theorem NFrame.slots {s s' : Parser} (h : NFrame s s') (hs : SlotsCore c s.tagStack s.at_ s.depth) :
    SlotsCore c s'.tagStack s'.at_ s'.depth := by
  obtain ⟨h1, h2, h3, h4, h5, h6, h7, h8⟩ := hs
  refine ⟨?_, ?_, ?_, ?_, ?_, ?_, ?_, ?_⟩ <;> simp only [h.depth, h.tagStack, h.names, h.count] <;> assumption

/-- When `m` succeeds only the namespace bookkeeping has changed. -/
def Nf {α : Type} (m : M Parser α) : Prop := ∀ s a s', m s = .ok a s' → NFrame s s'

section
variable {α β : Type}
theorem Nf.pure (a : α) : Nf (Pure.pure a : M Parser α) := by intro s b s' h; cases h; exact NFrame.refl _
theorem Nf.raise (e : GoErr) : Nf (M.raise e : M Parser α) := by intro s b s' h; cases h
theorem Nf.panic : Nf (M.panic : M Parser α) := by intro s b s' h; cases h
theorem Nf.diverge : Nf (M.diverge : M Parser α) := by intro s b s' h; cases h
theorem Nf.get : Nf M.get := by intro s b s' h; cases h; exact NFrame.refl _
theorem Nf.eq {m : M Parser α} (h : Fr EqF m) : Nf m := by
  intro s a s' hm
  obtain rfl := h.ok hm
  exact NFrame.refl _
theorem Nf.of {m : M Parser α} (h : Fr NsF m) : Nf m := fun _ _ _ hm => .ns (h.ok hm)
theorem Nf.bind {m : M Parser α} {k : α → M Parser β} (hm : Nf m) (hk : ∀ a, Nf (k a)) : Nf (m >>= k) := by
  intro s b s' h
  obtain ⟨a, t, h1, h2⟩ := bind_ok h
  exact (hm _ _ _ h1).trans (hk _ _ _ _ h2)
theorem Nf.ite {q : Prop} [Decidable q] {a b : M Parser α} (ha : Nf a) (hb : Nf b) : Nf (if q then a else b) := by
  split
  · exact ha
  · exact hb
end

/-- Lemmas for the tactic `nf`. -/
syntax "nf_lemma" : tactic
/-- Prove `Nf m` along the text of `m`. -/
syntax "nf" : tactic
macro_rules
  | `(tactic| nf) => `(tactic| repeat' (first
      | assumption
      | with_reducible exact Nf.pure _
      | with_reducible exact Nf.raise _
      | with_reducible exact Nf.panic
      | with_reducible exact Nf.diverge
      | with_reducible exact Nf.get
      | with_reducible exact Nf.eq (Fr.index eq_pre _ _)
      | with_reducible refine Nf.bind ?_ fun _ => ?_
      | with_reducible refine Nf.ite ?_ ?_
      | with_reducible exact Nf.eq (parseErr_fr eq_pre _)
      | with_reducible exact Nf.eq (parseErrAt_fr eq_pre _ _)
      | with_reducible exact Nf.eq (Fr.docByte eq_pre _)
      | with_reducible exact Nf.eq (sameBytes_fr eq_pre _ _ _)
      | with_reducible exact Nf.of (onNs1_fr _)
      | with_reducible exact Nf.of (onNs2_fr _)
      | with_reducible exact Nf.of (onNs3_fr _)
      | nf_lemma
      | split))

theorem getChar_nf : Nf getChar := by
  intro s a s' h
  have hsy := getChar_sync h
  have hb : ∀ {c}, Base c s → Base c s' ∧ s.rd.offset ≤ s'.rd.offset := by
    intro c hb
    obtain ⟨b, -, h1, h2, -⟩ := (getChar_byte hb).eq h
    exact ⟨h2, by rw [h1]; simp; omega⟩
  have h' := h
  unfold getChar at h
  obtain ⟨x, t, h1, h2⟩ := bind_ok h
  simp only [onRd, M.zoom_apply] at h1
  cases hr : Reader.getChar s.rd with
  | ok y r =>
    rw [hr] at h1
    cases h1
    cases h2
    exact ⟨rfl, rfl, rfl, rfl, rfl, rfl, rfl, rfl, rfl, rfl, fun h => (hb h).1, fun h => (hb h).2, fun _ => hsy⟩
  | err e r => rw [hr] at h1; cases h1
  | panic => rw [hr] at h1; cases h1
  | diverge => rw [hr] at h1; cases h1
macro_rules | `(tactic| nf_lemma) => `(tactic| with_reducible exact getChar_nf)

theorem getLongCharAt_nf (o : Int) : Nf (onRd (Reader.getLongCharAt o)) := by
  intro s a s' h
  obtain ⟨rfl, -⟩ := getLongCharAt_ok h
  exact NFrame.refl _
macro_rules | `(tactic| nf_lemma) => `(tactic| with_reducible exact getLongCharAt_nf _)

theorem resolveUnit_nf (o ch i : Int) : Nf (resolveUnit o ch i) := by
  have h1 := fun o => Nf.eq (getCharUnit_eq o)
  have h2 := fun a b d => Nf.eq (unitSeq_eq a b d)
  have h3 := fun a b d e => Nf.eq (resolveHexLoop_eq a b d e)
  have h4 := fun a b d e => Nf.eq (resolveDecLoop_eq a b d e)
  unfold resolveUnit
  repeat' (first
    | with_reducible exact h1 _
    | with_reducible exact h2 _ _ _
    | with_reducible exact h3 _ _ _ _
    | with_reducible exact h4 _ _ _ _
    | with_reducible exact Nf.pure _
    | with_reducible exact Nf.get
    | with_reducible exact getChar_nf
    | with_reducible refine Nf.bind ?_ fun _ => ?_
    | with_reducible refine Nf.ite ?_ ?_)
macro_rules | `(tactic| nf_lemma) => `(tactic| with_reducible exact resolveUnit_nf _ _ _)

theorem getCharResolved_nf (o : Int) : Nf (getCharResolved o) := by
  have h1 := fun o => Nf.eq (getCharUnit_eq o)
  unfold getCharResolved
  refine Nf.bind Nf.get fun p => Nf.bind (getLongCharAt_nf _) fun x => Nf.ite (Nf.pure _) ?_
  exact Nf.bind (h1 _) fun ch => Nf.bind (resolveUnit_nf _ _ _) fun x => Nf.pure _
macro_rules | `(tactic| nf_lemma) => `(tactic| with_reducible exact getCharResolved_nf _)

theorem urlLoop_nf (g : Int) (l : List Nat) (o : Int) : Nf (urlLoop g l o) := by
  induction l generalizing o with
  | nil => unfold urlLoop; nf
  | cons u l ih =>
    unfold urlLoop
    exact Nf.ite (Nf.bind (getCharResolved_nf _) fun ch => Nf.ite (Nf.pure _) (ih _)) (Nf.pure _)
macro_rules | `(tactic| nf_lemma) => `(tactic| with_reducible exact urlLoop_nf _ _ _)

theorem identifyNsUrl_nf : Nf identifyNsUrl := by unfold identifyNsUrl; nf
macro_rules | `(tactic| nf_lemma) => `(tactic| with_reducible exact identifyNsUrl_nf)

theorem attrValNs_nf : Nf attrValNs := by unfold attrValNs; nf

theorem matchUrlLoop_nf (n : Nat) (a b : Int) : Nf (matchUrlLoop n a b) := by
  induction n generalizing a b with
  | zero => unfold matchUrlLoop; nf
  | succ n ih =>
    unfold matchUrlLoop
    exact Nf.bind (getCharResolved_nf _) fun _ => Nf.bind (getCharResolved_nf _) fun _ => Nf.ite (Nf.pure _) (ih _ _)
macro_rules | `(tactic| nf_lemma) => `(tactic| with_reducible exact matchUrlLoop_nf _ _ _)
theorem matchUrl_nf (a b d e : Int) : Nf (matchUrl a b d e) := by unfold matchUrl; nf
macro_rules | `(tactic| nf_lemma) => `(tactic| with_reducible exact matchUrl_nf _ _ _ _)

theorem uniqueQualInner_nf (a b d e : Int) (n : Nat) (j : Int) : Nf (uniqueQualInner a b d e n j) := by
  induction n generalizing j with
  | zero => unfold uniqueQualInner; nf
  | succ n ih =>
    unfold uniqueQualInner
    have := ih (j + 1)
    nf
macro_rules | `(tactic| nf_lemma) => `(tactic| with_reducible exact uniqueQualInner_nf _ _ _ _ _ _)
theorem uniqueQualOuter_nf (n : Nat) (j : Int) : Nf (uniqueQualOuter n j) := by
  induction n generalizing j with
  | zero => unfold uniqueQualOuter; nf
  | succ n ih =>
    unfold uniqueQualOuter
    have := ih (j + 1)
    nf
macro_rules | `(tactic| nf_lemma) => `(tactic| with_reducible exact uniqueQualOuter_nf _ _)
theorem checkQual_nf : Nf checkQualifiedAttributeUniqueness := by unfold checkQualifiedAttributeUniqueness; nf

theorem resetPrefixed_nf : Nf (M.modify fun p : Parser => { p with at_ := { p.at_ with prefixedAttCount := 0 } }) := by
  intro s a s' h
  cases h
  exact ⟨rfl, rfl, rfl, rfl, rfl, rfl, rfl, rfl, rfl, rfl, fun h => h, fun _ => Int.le_refl _, id⟩

theorem attrValQualify_nf : Nf attrValQualify := by
  have h1 := Nf.of pushNs1_fr
  have h2 := Nf.of qualifyAttributes_fr
  have h3 := Nf.of qualifyElement_fr
  have h4 := checkQual_nf
  have h5 := resetPrefixed_nf
  unfold attrValQualify
  nf

theorem nf_post {α : Type} {m : M Parser α} (h : Nf m) : Post (m p) fun _ p' => NFrame p p' :=
  Post.of fun a s hm => h _ _ _ hm
theorem eq_post {α : Type} {m : M Parser α} (h : Fr EqF m) : Post (m p) fun _ p' => p' = p :=
  Post.of fun a s hm => h.ok hm

end Ev
end Parser
end GoVtd
