import Verif.Proofs.Parser.TwoLoop

/-!
# Bytes after the end of the slice

`ext d s` is the state `s` with the bytes `d` after the end of its document. A run that does not
panic is not changed by them.
-/

namespace GoVtd
namespace Parser
namespace Two
open Paged

/-- The same parser over a document that goes on with `d`. -/
def ext (d : List UInt8) (s : Parser) : Parser :=
  { s with cfg := { s.cfg with xmlDoc := s.cfg.xmlDoc ++ d },
           rd := { s.rd with xmlDoc := s.rd.xmlDoc ++ d } }

/-- The relation between a run and the run over the longer document. -/
def Ext (d : List UInt8) (s t : Parser) : Prop := t = ext d s ∧ encodingFixed s = true

section
variable {E : Prop} {α β : Type} {d : List UInt8}

theorem ext_enc (s : Parser) : (ext d s).enc = s.enc := by cases s; rfl
theorem ext_at (s : Parser) : (ext d s).at_ = s.at_ := by cases s; rfl
theorem ext_ns (s : Parser) : (ext d s).ns = s.ns := by cases s; rfl
theorem ext_nsAware (s : Parser) : (ext d s).cfg.nsAware = s.cfg.nsAware := by cases s; rfl
theorem ext_matchFuel (s : Parser) : (ext d s).cfg.matchFuel = s.cfg.matchFuel := by cases s; rfl
theorem ext_offset (s : Parser) : (ext d s).offset = s.offset := by cases s; rfl
theorem ext_lastOffset (s : Parser) : (ext d s).lastOffset = s.lastOffset := by cases s; rfl
theorem ext_length1 (s : Parser) : (ext d s).length1 = s.length1 := by cases s; rfl
theorem ext_length2 (s : Parser) : (ext d s).length2 = s.length2 := by cases s; rfl
theorem ext_depth (s : Parser) : (ext d s).depth = s.depth := by cases s; rfl
theorem ext_currentChar (s : Parser) : (ext d s).currentChar = s.currentChar := by cases s; rfl

theorem index_ext (xs : List α) (ys : List α) (i : Int) {s t : Parser} (h : Ext d s t) :
    RelRes (Ext d) False True (M.index xs i s) (M.index (xs ++ ys) i t) := by
  by_cases h' : 0 ≤ i ∧ i.toNat < xs.length
  · rw [M.index_of_lt xs i s h'.1 h'.2, M.index_of_lt (xs ++ ys) i t h'.1 (by simp; omega)]
    refine ⟨_, ?_, h⟩
    congr 1
    simp [List.getElem_append_left h'.2]
  · rw [M.index_panic xs i s (by omega)]
    exact .inl trivial

theorem ext_docByte (i : Int) : Sim (Ext d) False True (docByte i) (docByte i) := by
  intro s t h
  obtain ⟨rfl, h2⟩ := h
  exact index_ext _ _ _ ⟨rfl, h2⟩

/-- The reader over the longer document. -/
def extRd (d : List UInt8) (r : Reader) : Reader := { r with xmlDoc := r.xmlDoc ++ d }

/-- What `Sim` says of a computation on the reader. -/
def RdRel (d : List UInt8) : Res Reader α → Res Reader α → Prop
  | .ok a r, x => x = .ok a (extRd d r)
  | .err e r, x => x = .err e (extRd d r)
  | .panic, _ => True
  | .diverge, _ => True

theorem onRd_ext {m : M Reader α} (h : ∀ r, RdRel d (m r) (m (extRd d r))) :
    Sim (Ext d) False True (onRd m) (onRd m) := by
  intro s t hst
  obtain ⟨rfl, h2⟩ := hst
  have := h s.rd
  simp only [onRd, M.zoom_apply]
  have e : (ext d s).rd = extRd d s.rd := rfl
  rw [e]
  revert this
  cases m s.rd <;> intro this
  · rw [this]; exact ⟨_, rfl, rfl, h2⟩
  · rw [this]; exact .inr ⟨_, rfl, rfl, h2⟩
  · exact .inl trivial
  · trivial

theorem RdRel.andThen {r r' : Res Reader α} {k k' : α → M Reader β} (h : RdRel d r r')
    (hk : ∀ a s, RdRel d (k a s) (k' a (extRd d s))) : RdRel d (r.andThen k) (r'.andThen k') := by
  cases r
  · cases h; exact hk _ _
  · cases h; rfl
  · trivial
  · trivial

theorem index_extRd (r : Reader) (i : Int) :
    RdRel d (M.index r.xmlDoc i r) (M.index (r.xmlDoc ++ d) i (extRd d r)) := by
  by_cases h' : 0 ≤ i ∧ i.toNat < r.xmlDoc.length
  · rw [M.index_of_lt _ i _ h'.1 h'.2, M.index_of_lt _ i _ h'.1 (by simp; omega)]
    show _ = _
    congr 1
    simp [List.getElem_append_left h'.2]
  · rw [M.index_panic _ i _ (by omega)]
    trivial

theorem getChar_ext (r : Reader) : RdRel d (Reader.getChar r) (Reader.getChar (extRd d r)) := by
  unfold Reader.getChar
  simp only [M.bind_apply, M.get_apply, Res.andThen_ok, M.ite_apply]
  show RdRel d (if r.offset ≥ r.endOffset then _ else _) (if r.offset ≥ r.endOffset then _ else _)
  split
  · rfl
  · refine RdRel.andThen (index_extRd r _) fun a s => ?_
    simp only [M.bind_apply, M.modify_apply, Res.andThen_ok, M.ite_apply]
    show RdRel d (if Reader.accepts r.kind a then _ else _) (if Reader.accepts r.kind a then _ else _)
    split <;> rfl

theorem skipChar_ext (c : Nat) (r : Reader) : RdRel d (Reader.skipChar c r) (Reader.skipChar c (extRd d r)) := by
  unfold Reader.skipChar
  simp only [M.bind_apply, M.get_apply, Res.andThen_ok]
  refine RdRel.andThen (index_extRd r _) fun a s => ?_
  simp only [M.ite_apply]
  split <;> rfl

theorem skipCharSeq_ext (l : List Nat) (r : Reader) :
    RdRel d (Reader.skipCharSeq l r) (Reader.skipCharSeq l (extRd d r)) := by
  induction l generalizing r with
  | nil => rfl
  | cons c l ih =>
    unfold Reader.skipCharSeq
    simp only [M.bind_apply]
    refine RdRel.andThen (skipChar_ext c r) fun a s => ?_
    simp only [M.ite_apply]
    split
    · exact ih s
    · rfl

theorem getCharAt_ext (o : Int) (r : Reader) :
    RdRel d (Reader.getCharAt o r) (Reader.getCharAt o (extRd d r)) := by
  unfold Reader.getCharAt
  simp only [M.bind_apply, M.get_apply, Res.andThen_ok]
  exact RdRel.andThen (index_extRd r _) fun a s => rfl

theorem getLongCharAt_ext (o : Int) (r : Reader) :
    RdRel d (Reader.getLongCharAt o r) (Reader.getLongCharAt o (extRd d r)) := by
  unfold Reader.getLongCharAt
  simp only [M.bind_apply, M.get_apply, Res.andThen_ok]
  have h' : ∀ i s, RdRel d (M.index r.xmlDoc i s) (M.index (r.xmlDoc ++ d) i (extRd d s)) := by
    intro i s
    by_cases h' : 0 ≤ i ∧ i.toNat < r.xmlDoc.length
    · rw [M.index_of_lt _ i _ h'.1 h'.2, M.index_of_lt _ i _ h'.1 (by simp; omega)]
      show _ = _
      congr 1
      simp [List.getElem_append_left h'.2]
    · rw [M.index_panic _ i _ (by omega)]
      trivial
  refine RdRel.andThen (h' _ _) fun a s => ?_
  simp only [M.ite_apply]
  split
  · refine RdRel.andThen (h' _ _) fun a s => ?_
    simp only [M.ite_apply]
    split <;> rfl
  · rfl

theorem ext_nice (d : List UInt8) : Nice (Ext d) True where
  same h := by
    obtain ⟨rfl, h⟩ := h
    exact { offset := rfl, lastOffset := rfl, length1 := rfl, length2 := rfl, depth := rfl,
            vtdDepth := rfl, currentChar := rfl, helper := rfl, ws := rfl, tagStack := rfl, enc := rfl,
            out := rfl, attrCount := rfl, attrNameSlice := rfl, isNs := rfl, defaultNs := rfl,
            docOffset := rfl, endOffset := rfl, shallowDepth := rfl, rdOffset := rfl,
            fuel := by simp [loopFuel, ext], fixedL := h, fixedR := h }
  put h := by
    obtain ⟨rfl, h⟩ := h
    intros
    exact ⟨rfl, h⟩
  seek h := by
    obtain ⟨rfl, h⟩ := h
    intros
    exact ⟨rfl, h⟩
  xml h := by
    obtain ⟨rfl, h⟩ := h
    exact ⟨rfl, h⟩
  docByte := ext_docByte
  getChar := onRd_ext getChar_ext
  skipChar c := onRd_ext (skipChar_ext c)
  skipCharSeq l := onRd_ext (skipCharSeq_ext l)

theorem Sim.bind_get_ext {k k' : Parser → M Parser β} (hk : ∀ s, s.loopFuel ≤ (ext d s).loopFuel →
    Sim (Ext d) E True (k s) (k' (ext d s))) :
    Sim (Ext d) E True (M.get >>= k) (M.get >>= k') := by
  intro s t h
  obtain ⟨rfl, h⟩ := h
  exact hk s (by simp [loopFuel, ext]) s _ ⟨rfl, h⟩

theorem Sim.modify_ext {g : Parser → Parser} (hg : ∀ s, Ext d s (ext d s) → Ext d (g s) (g (ext d s))) :
    Sim (Ext d) E True (M.modify g) (M.modify g) := by
  intro s t h
  obtain ⟨rfl, h⟩ := h
  exact ⟨_, rfl, hg s ⟨rfl, h⟩⟩

theorem onNs1_ext (m : M FastIntBuffer α) : Sim (Ext d) E True (onNs1 m) (onNs1 m) :=
  Sim.zoom m (fun s t h => by rw [h.1]; rfl) fun x s t h => by
    obtain ⟨rfl, h⟩ := h; exact ⟨rfl, h⟩
theorem onNs2_ext (m : M FastLongBuffer α) : Sim (Ext d) E True (onNs2 m) (onNs2 m) :=
  Sim.zoom m (fun s t h => by rw [h.1]; rfl) fun x s t h => by
    obtain ⟨rfl, h⟩ := h; exact ⟨rfl, h⟩
theorem onNs3_ext (m : M FastLongBuffer α) : Sim (Ext d) E True (onNs3 m) (onNs3 m) :=
  Sim.zoom m (fun s t h => by rw [h.1]; rfl) fun x s t h => by
    obtain ⟨rfl, h⟩ := h; exact ⟨rfl, h⟩

/-- Apply the lemma for the function at the head of the computation. -/
syntax "simw_lemma" : tactic
macro_rules | `(tactic| simw_lemma) => `(tactic| with_reducible first
  | exact onNs1_ext _ | exact onNs2_ext _ | exact onNs3_ext _
  | exact Sim.mono (onRd_ext (getCharAt_ext _)) | exact Sim.mono (onRd_ext (getLongCharAt_ext _)))

/-- Follow the structure of a computation. -/
syntax "simw" (ident)? : tactic
macro_rules
  | `(tactic| simw) => `(tactic| (have hN := ext_nice d; repeat' (first
      | with_reducible first
        | exact Sim.pure _ | exact Sim.raise _ | exact Sim.panic | exact Sim.diverge
        | exact Sim.index _ _
      | ((with_reducible refine Sim.modify_ext ?_); intro _ hr; exact ⟨rfl, hr.2⟩)
      | ((with_reducible refine Sim.bind_get_ext (fun _ hf => ?_))
         try simp only [ext_enc, ext_at, ext_ns, ext_nsAware, ext_matchFuel, ext_offset, ext_lastOffset,
           ext_length1, ext_length2, ext_depth, ext_currentChar])
      | with_reducible first
        | refine Sim.bind ?_ (fun _ => ?_) | refine Sim.ite ?_ ?_
        | refine Sim.catchErr ?_ (fun _ => ?_) | refine Sim.wrapInternal _ ?_
        | refine Sim.and ?_ ?_ | refine Sim.or ?_ ?_
        | simw_lemma | sim_lemma hN | assumption
      | refine Sim.ite ?_ ?_
      | (split <;> (try simp only [*])))))
  | `(tactic| simw $ih) => `(tactic| (have hN := ext_nice d; repeat' (first
      | with_reducible first
        | exact Sim.pure _ | exact Sim.raise _ | exact Sim.panic | exact Sim.diverge
        | exact Sim.index _ _
        | (apply $ih <;> first | exact Nat.le_of_succ_le_succ (by assumption) | skip)
      | ((with_reducible refine Sim.modify_ext ?_); intro _ hr; exact ⟨rfl, hr.2⟩)
      | ((with_reducible refine Sim.bind_get_ext (fun _ hf => ?_))
         try simp only [ext_enc, ext_at, ext_ns, ext_nsAware, ext_matchFuel, ext_offset, ext_lastOffset,
           ext_length1, ext_length2, ext_depth, ext_currentChar])
      | with_reducible first
        | refine Sim.bind ?_ (fun _ => ?_) | refine Sim.ite ?_ ?_
        | refine Sim.catchErr ?_ (fun _ => ?_) | refine Sim.wrapInternal _ ?_
        | refine Sim.and ?_ ?_ | refine Sim.or ?_ ?_
        | simw_lemma | sim_lemma hN | assumption
      | refine Sim.ite ?_ ?_
      | (split <;> (try simp only [*])))))

theorem pushNs1_ext  : Sim (Ext d) E True (pushNs1) (pushNs1) := by
  unfold pushNs1; simw
macro_rules | `(tactic| simw_lemma) => `(tactic| apply pushNs1_ext)

theorem qualifyElementLoop_ext (preLen preOs : Int)  (x0 : Nat) : Sim (Ext d) E True (qualifyElementLoop preLen preOs x0) (qualifyElementLoop preLen preOs x0) := by
  induction x0 with
  | zero => simp only [qualifyElementLoop]; simw
  | succ k ih => simp only [qualifyElementLoop]; simw ih
macro_rules | `(tactic| simw_lemma) => `(tactic| apply qualifyElementLoop_ext)

theorem qualifyElement_ext  : Sim (Ext d) E True (qualifyElement) (qualifyElement) := by
  unfold qualifyElement; simw
macro_rules | `(tactic| simw_lemma) => `(tactic| apply qualifyElement_ext)

theorem startTagNs_ext  : Sim (Ext d) E True (startTagNs) (startTagNs) := by
  unfold startTagNs; simw
macro_rules | `(tactic| simw_lemma) => `(tactic| apply startTagNs_ext)

theorem startTagEnd_ext  : Sim (Ext d) E True (startTagEnd) (startTagEnd) := by
  unfold startTagEnd; simw
macro_rules | `(tactic| simw_lemma) => `(tactic| apply startTagEnd_ext)

theorem attrNsDecl_ext  : Sim (Ext d) E True (attrNsDecl) (attrNsDecl) := by
  unfold attrNsDecl; simw
macro_rules | `(tactic| simw_lemma) => `(tactic| apply attrNsDecl_ext)

theorem pushPrefixedAttr_ext  : Sim (Ext d) E True (pushPrefixedAttr) (pushPrefixedAttr) := by
  unfold pushPrefixedAttr; simw
macro_rules | `(tactic| simw_lemma) => `(tactic| apply pushPrefixedAttr_ext)

theorem writeAttrName_ext  : Sim (Ext d) E True (writeAttrName) (writeAttrName) := by
  unfold writeAttrName; simw
macro_rules | `(tactic| simw_lemma) => `(tactic| apply writeAttrName_ext)

theorem getCharUnit_ext (offset : Int) : Sim (Ext d) E True (getCharUnit offset) (getCharUnit offset) := by
  unfold getCharUnit; simw
macro_rules | `(tactic| simw_lemma) => `(tactic| apply getCharUnit_ext)

theorem unitSeq_ext (inc : Int)  (x0 : List Int) (x1 : Int) : Sim (Ext d) E True (unitSeq inc x0 x1) (unitSeq inc x0 x1) := by
  induction x0 generalizing x1 with
  | nil => simp only [unitSeq]; simw
  | cons k l ih => simp only [unitSeq]; simw ih
macro_rules | `(tactic| simw_lemma) => `(tactic| apply unitSeq_ext)

theorem resolveHexLoop_ext {n m : Nat} (hn : n ≤ m) (x1 : Int) (x2 : Int) (x3 : Int) :
    Sim (Ext d) E True (resolveHexLoop n x1 x2 x3) (resolveHexLoop m x1 x2 x3) := by
  induction n generalizing m x1 x2 x3 with
  | zero => simp only [resolveHexLoop]; exact Sim.diverge
  | succ n ih =>
    obtain ⟨m, rfl⟩ : ∃ k, m = k + 1 := ⟨m - 1, by omega⟩
    have ih := @ih m
    simp only [resolveHexLoop]; simw ih
macro_rules | `(tactic| simw_lemma) => `(tactic| (refine resolveHexLoop_ext ?_ _ _ _ ; assumption))

theorem resolveDecLoop_ext {n m : Nat} (hn : n ≤ m) (x1 : Int) (x2 : Int) (x3 : Int) :
    Sim (Ext d) E True (resolveDecLoop n x1 x2 x3) (resolveDecLoop m x1 x2 x3) := by
  induction n generalizing m x1 x2 x3 with
  | zero => simp only [resolveDecLoop]; exact Sim.diverge
  | succ n ih =>
    obtain ⟨m, rfl⟩ : ∃ k, m = k + 1 := ⟨m - 1, by omega⟩
    have ih := @ih m
    simp only [resolveDecLoop]; simw ih
macro_rules | `(tactic| simw_lemma) => `(tactic| (refine resolveDecLoop_ext ?_ _ _ _ ; assumption))

theorem resolveUnit_ext (offset : Int) (ch : Int) (inc : Int) : Sim (Ext d) E True (resolveUnit offset ch inc) (resolveUnit offset ch inc) := by
  unfold resolveUnit; simw
macro_rules | `(tactic| simw_lemma) => `(tactic| apply resolveUnit_ext)

theorem getCharResolved_ext (offset : Int) : Sim (Ext d) E True (getCharResolved offset) (getCharResolved offset) := by
  unfold getCharResolved; simw
macro_rules | `(tactic| simw_lemma) => `(tactic| apply getCharResolved_ext)

theorem urlLoop_ext (g : Int)  (x0 : List Nat) (x1 : Int) : Sim (Ext d) E True (urlLoop g x0 x1) (urlLoop g x0 x1) := by
  induction x0 generalizing x1 with
  | nil => simp only [urlLoop]; simw
  | cons k l ih => simp only [urlLoop]; simw ih
macro_rules | `(tactic| simw_lemma) => `(tactic| apply urlLoop_ext)

theorem identifyNsUrl_ext  : Sim (Ext d) E True (identifyNsUrl) (identifyNsUrl) := by
  unfold identifyNsUrl; simw
macro_rules | `(tactic| simw_lemma) => `(tactic| apply identifyNsUrl_ext)

theorem qualifyAttrLoop_ext (preLen preOs : Int)  (x0 : Nat) : Sim (Ext d) E True (qualifyAttrLoop preLen preOs x0) (qualifyAttrLoop preLen preOs x0) := by
  induction x0 with
  | zero => simp only [qualifyAttrLoop]; simw
  | succ k ih => simp only [qualifyAttrLoop]; simw ih
macro_rules | `(tactic| simw_lemma) => `(tactic| apply qualifyAttrLoop_ext)

theorem qualifyAttrsLoop_ext (nsCount : Nat)  (x0 : Nat) (x1 : Int) : Sim (Ext d) E True (qualifyAttrsLoop nsCount x0 x1) (qualifyAttrsLoop nsCount x0 x1) := by
  induction x0 generalizing x1 with
  | zero => simp only [qualifyAttrsLoop]; simw
  | succ k ih => simp only [qualifyAttrsLoop]; simw ih
macro_rules | `(tactic| simw_lemma) => `(tactic| apply qualifyAttrsLoop_ext)

theorem qualifyAttributes_ext  : Sim (Ext d) E True (qualifyAttributes) (qualifyAttributes) := by
  unfold qualifyAttributes; simw
macro_rules | `(tactic| simw_lemma) => `(tactic| apply qualifyAttributes_ext)

theorem matchUrlLoop_ext (x0 : Nat) (x1 x2 : Int) : Sim (Ext d) E True (matchUrlLoop x0 x1 x2) (matchUrlLoop x0 x1 x2) := by
  induction x0 generalizing x1 x2 with
  | zero => simp only [matchUrlLoop]; simw
  | succ k ih => simp only [matchUrlLoop]; simw ih
macro_rules | `(tactic| simw_lemma) => `(tactic| apply matchUrlLoop_ext)

theorem matchUrl_ext (aOffset aLength bOffset bLength : Int) : Sim (Ext d) E True (matchUrl aOffset aLength bOffset bLength) (matchUrl aOffset aLength bOffset bLength) := by
  unfold matchUrl; simw
macro_rules | `(tactic| simw_lemma) => `(tactic| apply matchUrl_ext)

theorem uniqueQualInner_ext (postLen offset urlOffset urlLen : Int) (x0 : Nat) (x1 : Int) : Sim (Ext d) E True (uniqueQualInner postLen offset urlOffset urlLen x0 x1) (uniqueQualInner postLen offset urlOffset urlLen x0 x1) := by
  induction x0 generalizing x1 with
  | zero => simp only [uniqueQualInner]; simw
  | succ k ih => simp only [uniqueQualInner]; simw ih
macro_rules | `(tactic| simw_lemma) => `(tactic| apply uniqueQualInner_ext)

theorem uniqueQualOuter_ext (x0 : Nat) (x1 : Int) : Sim (Ext d) E True (uniqueQualOuter x0 x1) (uniqueQualOuter x0 x1) := by
  induction x0 generalizing x1 with
  | zero => simp only [uniqueQualOuter]; simw
  | succ k ih => simp only [uniqueQualOuter]; simw ih
macro_rules | `(tactic| simw_lemma) => `(tactic| apply uniqueQualOuter_ext)

theorem checkQualifiedAttributeUniqueness_ext  : Sim (Ext d) E True (checkQualifiedAttributeUniqueness) (checkQualifiedAttributeUniqueness) := by
  unfold checkQualifiedAttributeUniqueness; simw
macro_rules | `(tactic| simw_lemma) => `(tactic| apply checkQualifiedAttributeUniqueness_ext)

theorem attrValNs_ext  : Sim (Ext d) E True (attrValNs) (attrValNs) := by
  unfold attrValNs; simw
macro_rules | `(tactic| simw_lemma) => `(tactic| apply attrValNs_ext)

theorem attrValQualify_ext  : Sim (Ext d) E True (attrValQualify) (attrValQualify) := by
  unfold attrValQualify; simw
macro_rules | `(tactic| simw_lemma) => `(tactic| apply attrValQualify_ext)

theorem ext_nsNice (d : List UInt8) : NsNice (Ext d) E True where
  nice := ext_nice d
  tagCheck h a b msg := by
    intro k k' hk
    obtain ⟨rfl, h⟩ := h
    refine Sim.bind (Sim.and ?_ (checkXmlnsPrefix_sim (ext_nice d) _ _ _)) fun _ => Sim.ite (parseErr_sim (ext_nice d) _) hk
    exact Sim.pure _
  decl := attrNsDecl_ext
  push := pushPrefixedAttr_ext
  name := writeAttrName_ext
  tagNs hk := Sim.bind startTagNs_ext fun _ => Sim.bind (Sim.modify_ext fun _ h => ⟨rfl, h.2⟩) hk
  tagEnd := startTagEnd_ext
  qualify := attrValQualify_ext

theorem mainLoop_ext {n m : Nat} (hn : n ≤ m) (st : PState) :
    Sim (Ext d) False True (mainLoop n st) (mainLoop m st) := by
  intro s t h
  exact mainLoop_rel (ext_nsNice d) (I := fun _ _ => True) (fun _ _ s' _ _ _ t' h => attrValNs_ext s' t' h)
    (fun _ _ _ _ _ _ _ _ _ _ => trivial) hn st s t trivial h

end
end Two
end Parser
end GoVtd
