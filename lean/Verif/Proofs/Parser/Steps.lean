import Verif.Proofs.Parser.Calls
import Verif.Proofs.Token

/-!
# Every step of the state machine keeps the invariant, consumes input and ends

For parsers without namespace awareness.
-/

namespace GoVtd
namespace Parser
open Paged
variable {c : ParserCfg} {p : Parser}

/-- `(o, l)` denotes bytes of the document. -/
def InDoc (c : ParserCfg) (o l : Int) : Prop := 0 ≤ o ∧ 0 ≤ l ∧ o + l ≤ c.xmlDoc.length

/-- Stack of open tags and table of attribute names. -/
structure SlotsCore (c : ParserCfg) (tagStack : List (BitVec 64)) (a : ParserAttr) (depth : Int) :
    Prop where
  tagLen : tagStack.length = 256
  tags : ∀ t ∈ tagStack, InDoc c (low32 t) (high32 t)
  attLen : a.attrNameSlice.length = 256
  cnt0 : 0 ≤ a.attrCount
  cnt1 : a.attrCount ≤ 256
  atts : ∀ e ∈ a.attrNameSlice, InDoc c (high32 e) (low32 e)
  dep0 : -1 ≤ depth
  dep1 : depth ≤ 255

/-- The invariant of `Parse` at every state. -/
structure Inv (c : ParserCfg) (st : PState) (p : Parser) : Prop where
  base : Base c p
  slots : SlotsCore c p.tagStack p.at_ p.depth
  deep : st ≠ .tagStart → p.depth ≤ 254
  start : st = .tagStart ∨ st = .attrName ∨ st = .attrVal → 0 ≤ p.depth
  name : st = .tagStart ∨ st = .attrName → 0 ≤ p.lastOffset ∧ p.lastOffset < p.offset ∧
    p.rd.offset ≤ c.endOffset
  cur : st = .attrName → isNameChar p.currentChar = true
  sync : st = .tagStart ∨ st = .tagEnd ∨ st = .attrName ∨ st = .decAttrName → p.offset = p.rd.offset

/-- What a step achieves; `lo` is the position before it. -/
abbrev StepOk (c : ParserCfg) (lo : Int) (r : Res Parser PState) : Prop :=
  r.Sat (fun st' p' => Inv c st' p' ∧ lo < p'.rd.offset) (Er c) (Pn c) False

/-- Invariant for the states without special requirements. -/
theorem Inv.plain {st : PState} (hb : Base c p) (hs : SlotsCore c p.tagStack p.at_ p.depth)
    (hd : p.depth ≤ 254)
    (hst : st ≠ .tagStart ∧ st ≠ .attrName ∧ st ≠ .attrVal ∧ st ≠ .tagEnd ∧ st ≠ .decAttrName) : Inv c st p :=
  ⟨hb, hs, fun _ => hd, fun h => by simp_all, fun h => by simp_all, fun h => by simp_all,
    fun h => by simp_all⟩

theorem Res.Sat.bindMoved {α β : Type} {m : M Parser α} {k : α → M Parser β} {lo : Int}
    {Q : β → Parser → Prop}
    (h : (m p).Sat (fun _ p' => Moved c p lo p') (Er c) (Pn c) False)
    (hk : ∀ a r ch, Base c (p.mv r r ch) → lo ≤ r →
      (k a (p.mv r r ch)).Sat Q (Er c) (Pn c) False) :
    ((m >>= k) p).Sat Q (Er c) (Pn c) False :=
  Res.Sat.bind h fun a p' ⟨r, ch, hp, hb, hl⟩ => by subst hp; exact hk a r ch hb hl

theorem Res.Sat.bindWrote {α β : Type} {m : M Parser α} {k : α → M Parser β}
    {Q : β → Parser → Prop} (h : OkW c p (m p))
    (hk : ∀ a o, Base c { p with out := o } → (k a { p with out := o }).Sat Q (Er c) (Pn c) False) :
    ((m >>= k) p).Sat Q (Er c) (Pn c) False :=
  Res.Sat.bind h fun a p' ⟨o, hp, hb⟩ => by subst hp; exact hk a o hb

theorem bind_get {β : Type} {k : Parser → M Parser β} {Q : β → Parser → Prop}
    {E : GoErr → Parser → Prop} {P D : Prop} (h : (k p p).Sat Q E P D) :
    ((M.get >>= k) p).Sat Q E P D := h

theorem bind_modify {β : Type} {f : Parser → Parser} {k : Unit → M Parser β} {Q : β → Parser → Prop}
    {E : GoErr → Parser → Prop} {P D : Prop} (h : (k () (f p)).Sat Q E P D) :
    ((M.modify f >>= k) p).Sat Q E P D := h

theorem ite_sat {β : Type} {q : Prop} [Decidable q] {a b : M Parser β} {Q : β → Parser → Prop}
    {E : GoErr → Parser → Prop} {P D : Prop} (ha : q → (a p).Sat Q E P D)
    (hb : ¬ q → (b p).Sat Q E P D) : ((if q then a else b) p).Sat Q E P D := by
  split
  · exact ha (by assumption)
  · exact hb (by assumption)

theorem markOffset_bind {β : Type} {k : Unit → M Parser β} {Q : β → Parser → Prop}
    {E : GoErr → Parser → Prop} {P D : Prop} (h : (k () { p with lastOffset := p.offset }).Sat Q E P D) :
    ((markOffset >>= k) p).Sat Q E P D := h

/-! ## States around the document -/

theorem nextCharAfterWsLoop_err {fuel : Nat} {p : Parser} (hb : Base c p)
    (ho : p.offset = p.rd.offset) :
    (nextCharAfterWsLoop fuel p).Sat (fun _ _ => True) (fun _ p' => Moved c p p.rd.offset p')
      True True := by
  induction fuel generalizing p with
  | zero => trivial
  | succ fuel ih =>
    simp only [nextCharAfterWsLoop, M.bind_apply]
    rw [nextChar_eq hb]
    split
    · rename_i h
      have hm := nextChar_moved hb
      rw [nextChar_eq hb, dif_pos h] at hm
      obtain ⟨⟨r, ch, he, hb', h1⟩, hle⟩ := hm
      simp only [Res.andThen_ok, M.bind_apply, M.get_apply, M.ite_apply]
      split
      · refine (ih hb' rfl).mono (fun _ _ h => h) (fun _ _ h => ?_) id id
        exact Moved.trans ⟨_, _, rfl, hb', Int.le_refl _⟩ (h.le (by simp; omega))
      · trivial
    · exact Moved.refl hb ho

theorem nextCharAfterWs_err (hb : Base c p) (ho : p.offset = p.rd.offset) :
    (nextCharAfterWs p).Sat (fun _ p' => Moved c p (p.rd.offset + 1) p')
      (fun _ p' => Moved c p p.rd.offset p') (Pn c) False :=
  ((nextCharAfterWs_ok hb).and (nextCharAfterWsLoop_err (fuel := p.loopFuel) hb ho)).mono
    (fun _ _ h => h.1) (fun _ _ h => h.2) (fun h => h.1) (fun h => h.1)

theorem catch_sat {α : Type} {m : M Parser α} {k : GoErr → M Parser α} {Q : α → Parser → Prop}
    {E E' : GoErr → Parser → Prop} {P D : Prop} (h : (m p).Sat Q E' P D)
    (hk : ∀ e p', E' e p' → (k e p').Sat Q E P D) : (M.catchErr m k p).Sat Q E P D := by
  simp only [M.catchErr_apply]
  cases hm : m p with
  | ok a s => rw [hm] at h; exact h
  | err e s => rw [hm] at h; exact hk e s h
  | panic => rw [hm] at h; exact h
  | diverge => rw [hm] at h; exact h

theorem processDocStart_ok (h : Inv c .docStart p) : StepOk c p.rd.offset (processDocStart p) := by
  have hd := h.deep (by decide)
  have hs := h.slots
  refine Res.Sat.bindMoved (nextChar_ok h.base) fun _ r ch hb hl => ?_
  refine bind_get (ite_sat (fun _ => ?_) fun _ => ite_sat (fun _ => ?_) fun _ => ?_)
  · refine markOffset_bind ?_
    refine Res.Sat.bindMoved (lo := r) ?_ fun b r' ch' hb' hl' => ?_
    · refine and_ok (skipChar_ok (by exact hb) (by decide)) fun _ h1 h2 => ?_
      refine and_ok (or_ok (skipChar_ok h1 (by decide)) fun _ h1 _ => skipChar_ok h1 (by decide))
        fun _ h1 h2 => ?_
      refine and_ok (or_ok (skipChar_ok h1 (by decide)) fun _ h1 _ => skipChar_ok h1 (by decide))
        fun _ h1 h2 => ?_
      exact or_ok (skipChar_ok h1 (by decide)) fun _ h1 _ => skipChar_ok h1 (by decide)
    · have h0 : 0 ≤ r := hb.off0
      refine ite_sat (fun _ => ?_) fun _ => ?_
      · refine Res.Sat.bindMoved (lo := r') ?_ fun b r2 ch2 hb2 hl2 => ?_
        · refine or_ok (skipChar_ok hb' (by decide)) fun _ h1 h2 => ?_
          refine or_ok (skipChar_ok h1 (by decide)) fun _ h1 h2 => ?_
          exact or_ok (skipChar_ok h1 (by decide)) fun _ h1 _ => skipChar_ok h1 (by decide)
        · refine ite_sat (fun _ => ?_) fun _ => ?_
          · refine Res.Sat.bindMoved (nextCharAfterWs_ok hb2) fun _ r3 ch3 hb3 hl3 => ?_
            refine markOffset_bind ?_
            simp only [mv_rdOffset] at hl3
            exact ⟨⟨by exact hb3, hs, fun _ => hd, fun h => by simp at h, fun h => by simp at h,
              fun h => by simp at h, fun _ => rfl⟩, by simp; omega⟩
          · refine Res.Sat.bindMoved (skipChar_ok hb2 (by decide)) fun _ r3 ch3 hb3 hl3 => ?_
            refine ite_sat (fun _ => parseErr_sat hb3 _) fun _ => bind_modify ?_
            simp only [mv_rdOffset] at hl3
            refine ⟨Inv.plain ?_ (by exact hs) (by exact hd) (by decide), by simp; omega⟩
            exact { hb3 with off0 := h0, off1 := by simp; omega }
      · refine bind_modify ?_
        refine ⟨Inv.plain ?_ (by exact hs) (by exact hd) (by decide), by simp; omega⟩
        exact { hb' with off0 := h0, off1 := by simp; omega }
  · refine Res.Sat.bindMoved (lo := r) ?_ fun b r' ch' hb' hl' => bind_get ?_
    · refine catch_sat (E' := fun _ p' => Moved c (p.mv r r ch) r p') ?_ ?_
      · refine Res.Sat.bind (nextCharAfterWs_err hb rfl) fun _ p' h' => ?_
        exact h'.le (by simp; omega)
      · exact fun _ _ h' => h'
    · refine ite_sat (fun _ => ?_) fun _ => ?_
      · exact ⟨Inv.plain hb' (by exact hs) (by exact hd) (by decide), by simp; omega⟩
      · exact ⟨Inv.plain hb' (by exact hs) (by exact hd) (by decide), by simp; omega⟩
  · exact ⟨Inv.plain hb (by exact hs) (by exact hd) (by decide), by simp; omega⟩

theorem processDocEnd_ok (h : Inv c .docEnd p) : StepOk c p.rd.offset (processDocEnd p) := by
  have hd := h.deep (by decide)
  have hs := h.slots
  refine Res.Sat.bindMoved (nextCharAfterWs_ok h.base) fun _ r ch hb hl => ?_
  refine bind_get (ite_sat (fun _ => ?_) fun _ => parseErr_sat hb _)
  refine Res.Sat.bindMoved (skipChar_ok hb (by decide)) fun b r' ch' hb' hl' => ?_
  simp only [mv_rdOffset] at hl'
  refine ite_sat (fun _ => markOffset_bind ?_) fun _ => ?_
  · exact ⟨Inv.plain (by exact hb') (by exact hs) (by exact hd) (by decide), by simp; omega⟩
  · refine Res.Sat.bindMoved (skipCharSeq_ok _ (by decide) hb') fun b r2 ch2 hb2 hl2 => ?_
    simp only [mv_rdOffset] at hl2
    refine ite_sat (fun _ => markOffset_bind ?_) fun _ => parseErr_sat hb2 _
    exact ⟨Inv.plain (by exact hb2) (by exact hs) (by exact hd) (by decide), by simp; omega⟩

theorem docTypeLoop_ok {fuel : Nat} {p : Parser} (hb : Base c p) (hf : Enough c p fuel) (z : Int) :
    Ok1 c p (docTypeLoop fuel z p) := by
  induction fuel generalizing p z with
  | zero => obtain ⟨n, hn⟩ := hf.pos hb; omega
  | succ fuel ih =>
    refine Ok1.bind (getChar_ok hb) fun ch p' hb' ho hlt => ?_
    refine ite_ok (fun _ => ?_) fun _ => parseErr_ok hb' _
    exact ite_ok (fun _ => Ok.pure hb' ho _) fun _ => Ok.of_ok1 (ih hb' (hf.step hlt) _)

theorem processDocType_ok (h : Inv c .docType p) : StepOk c p.rd.offset (processDocType p) := by
  have hd := h.deep (by decide)
  have hs := h.slots
  refine bind_get (Res.Sat.bindMoved (docTypeLoop_ok h.base (Enough.loopFuel h.base h.base.cfg) _)
    fun _ r ch hb hl => ?_)
  refine bind_modify (Res.Sat.bindWrote (writeVtdWithLengthCheck_ok (by exact hb) _ _)
    fun _ o hb => ?_)
  refine Res.Sat.bindMoved (nextCharAfterWs_ok hb) fun _ r' ch' hb' hl' => ?_
  simp only [mv_rdOffset] at hl'
  refine bind_get (ite_sat (fun _ => parseErr_sat hb' _) fun _ => ?_)
  exact ⟨Inv.plain hb' (by exact hs) (by exact hd) (by decide), by simp; omega⟩

/-! ## After `<` -/

theorem wrapInternal_sat {α : Type} {m : M Parser α} {Q : α → Parser → Prop} {P D : Prop}
    (msg : String) (h : (m p).Sat Q (Er c) P D) : (wrapInternal msg m p).Sat Q (Er c) P D :=
  catch_sat h fun _ _ h => ⟨h.1, h.2⟩

theorem validateSeqLoop_ok (name : String) (seq : List Nat) {p : Parser} (hb : Base c p)
    (ho : p.offset = p.rd.offset) : Ok c p (validateSeqLoop name seq p) := by
  induction seq generalizing p with
  | nil => exact Ok.pure hb ho ()
  | cons ch seq ih =>
    refine Ok.bind (Ok.of_ok1 (getChar_ok hb)) fun _ p' hb' ho' _ => ?_
    exact ite_ok (fun _ => parseErr_ok hb' _) fun _ => ih hb' ho'

theorem validateSeq_ok (name : String) (seq : List Nat) (hb : Base c p)
    (ho : p.offset = p.rd.offset) : Ok c p (validateSeq name seq p) := by
  refine Ok.bind (validateSeqLoop_ok _ _ hb ho) fun _ p' hb' ho' _ => ?_
  exact Ok.get (ite_ok (fun _ => parseErr_ok hb' _) fun _ => Ok.pure hb' ho' _)

theorem processExSeen_ok (hb : Base c p) (hs : SlotsCore c p.tagStack p.at_ p.depth)
    (hd : p.depth ≤ 254) {lo : Int} (hlo : lo < p.rd.offset) : StepOk c lo (processExSeen p) := by
  refine Res.Sat.bindMoved (wrapInternal_sat _ (getChar_ok hb)) fun _ r ch hb hl => ?_
  refine ite_sat (fun _ => ?_) fun _ => ite_sat (fun _ => ?_) fun _ => ite_sat (fun _ => ?_) fun _ =>
    parseErr_sat hb _
  · refine Res.Sat.bindMoved (skipChar_ok hb (by decide)) fun b r' ch' hb' hl' => ?_
    simp only [mv_rdOffset] at hl'
    refine ite_sat (fun _ => markOffset_bind ?_) fun _ => parseErr_sat hb' _
    exact ⟨Inv.plain (by exact hb') (by exact hs) (by exact hd) (by decide), by simp; omega⟩
  · refine Res.Sat.bindMoved (validateSeq_ok _ _ hb rfl) fun b r' ch' hb' hl' => ?_
    simp only [mv_rdOffset] at hl'
    refine markOffset_bind ?_
    exact ⟨Inv.plain (by exact hb') (by exact hs) (by exact hd) (by decide), by simp; omega⟩
  · refine Res.Sat.bindMoved (validateSeq_ok _ _ hb rfl) fun b r' ch' hb' hl' => ?_
    simp only [mv_rdOffset] at hl'
    refine markOffset_bind ?_
    exact ⟨Inv.plain (by exact hb') (by exact hs) (by exact hd) (by decide), by simp; omega⟩

theorem pure_ok_bool (hb : Base c p) (ho : p.offset = p.rd.offset) (b : Bool) :
    Ok c p ((Pure.pure b : M Parser Bool) p) := Ok.pure hb ho b

theorem processQmSeen_ok (hb : Base c p) (hs : SlotsCore c p.tagStack p.at_ p.depth)
    (hd : p.depth ≤ 254) {lo : Int} (hlo : lo < p.rd.offset) : StepOk c lo (processQmSeen p) := by
  refine markOffset_bind ?_
  refine Res.Sat.bindMoved (wrapInternal_sat _ (getChar_ok (by exact hb))) fun chr r ch hb hl => ?_
  simp only at hl
  refine ite_sat (fun _ => ?_) fun _ => parseErr_sat hb _
  refine Res.Sat.bindMoved (lo := r) ?_ fun b r' ch' hb' hl' => ?_
  · refine and_ok (pure_ok_bool hb rfl _) fun _ h1 h2 => ?_
    refine and_ok (or_ok (skipChar_ok h1 (by decide)) fun _ h1 _ => skipChar_ok h1 (by decide))
        fun _ h1 h2 => ?_
    exact or_ok (skipChar_ok h1 (by decide)) fun _ h1 _ => skipChar_ok h1 (by decide)
  refine ite_sat (fun _ => ?_) fun _ => ?_
  · refine Res.Sat.bindMoved (getChar_ok hb') fun chr r2 ch2 hb2 hl2 => ?_
    simp only [mv_rdOffset] at hl2
    refine ite_sat (fun _ => parseErr_sat hb2 _) fun _ => ?_
    simp only [M.bind_apply, getPrevOffset_eq hb2, Res.andThen_ok, M.modify_apply, M.pure_apply]
    have h0 := hb2.off0
    have h1 : 0 ≤ r' := hb'.off0
    refine ⟨Inv.plain ?_ (by exact hs) (by exact hd) (by decide), by simp; omega⟩
    exact { hb2 with off0 := by simp; omega, off1 := by simp; omega }
  · exact ⟨Inv.plain (by exact hb') (by exact hs) (by exact hd) (by decide), by simp; omega⟩

theorem processLtSeen_ok (h : Inv c .ltSeen p) : StepOk c p.rd.offset (processLtSeen p) := by
  have hd := h.deep (by decide)
  have hs := h.slots
  have hb0 := h.base
  have ho0 := hb0.off0
  have ho1 := hb0.off1
  refine markOffset_bind ?_
  refine Res.Sat.bind (wrapInternal_sat _ (nextChar_moved (by exact hb0))) fun _ p' ⟨hm, hle⟩ => ?_
  obtain ⟨r, ch, rfl, hb, hl⟩ := hm
  simp only [mv_rdOffset] at hl hle
  refine bind_get (ite_sat (fun _ => bind_modify ?_) fun _ => ite_sat (fun _ => ?_) fun _ =>
    ite_sat (fun _ => ?_) fun _ => ite_sat (fun _ => ?_) fun _ => parseErr_sat hb _)
  · have := hs.dep0
    exact ⟨⟨hb, { hs with dep0 := by simp; omega, dep1 := by simp; omega }, fun h => absurd rfl h,
      fun _ => by simp; omega, fun _ => ⟨by simpa using ho0, by simp; omega, hle⟩, by simp,
      fun _ => rfl⟩,
      by simp; omega⟩
  · exact ⟨⟨hb, hs, fun _ => hd, by simp, by simp, by simp, fun _ => rfl⟩, by simp; omega⟩
  · exact processExSeen_ok hb hs hd (by simp; omega)
  · exact processQmSeen_ok hb hs hd (by simp; omega)

/-! ## Ends of steps -/

theorem processElementTail_ok (hb : Base c p) (hs : SlotsCore c p.tagStack p.at_ p.depth)
    (hd : p.depth ≤ 254) {lo : Int} (hlo : lo < p.rd.offset) :
    StepOk c lo (processElementTail p) := by
  refine bind_get (ite_sat (fun _ => ?_) fun _ => ?_)
  · refine markOffset_bind (Res.Sat.bindMoved (nextCharAfterWs_ok (by exact hb))
      fun _ r ch hb hl => ?_)
    simp only at hl
    refine bind_get (ite_sat (fun _ => ?_) fun _ => ite_sat (fun _ => ?_) fun _ => ?_)
    · simp only [M.bind_apply, recordWsIfSet_eq hb, Res.andThen_ok]
      refine Res.Sat.bindMoved (skipChar_ok hb (by decide)) fun b r' ch' hb' hl' => ?_
      simp only [mv_rdOffset] at hl'
      refine ite_sat (fun _ => bind_get (ite_sat (fun _ => ?_) fun _ => ?_)) fun _ => ?_
      · refine bind_modify (Res.Sat.bindWrote (writeText_ok (by exact hb') _) fun _ o hb => ?_)
        exact ⟨⟨hb, hs, fun _ => hd, by simp, by simp, by simp, fun _ => rfl⟩, by simp; omega⟩
      · exact ⟨⟨hb', hs, fun _ => hd, by simp, by simp, by simp, fun _ => rfl⟩, by simp; omega⟩
      · exact ⟨Inv.plain (by exact hb') (by exact hs) (by exact hd) (by decide), by simp; omega⟩
    · exact ⟨Inv.plain (by exact hb) (by exact hs) (by exact hd) (by decide), by simp; omega⟩
    · refine Res.Sat.bindMoved (handleOtherTextChar_ok hb _) fun b r' ch' hb' hl' => ?_
      simp only [mv_rdOffset] at hl'
      exact ⟨Inv.plain (by exact hb') (by exact hs) (by exact hd) (by decide), by simp; omega⟩
  · exact ⟨Inv.plain hb hs hd (by decide), hlo⟩

theorem getNextProcessStateFromChar_ok (hb : Base c p) (hs : SlotsCore c p.tagStack p.at_ p.depth)
    (hd : p.depth ≤ 254) {lo : Int} (hlo : lo < p.rd.offset) (ch : Nat) :
    StepOk c lo (getNextProcessStateFromChar ch p) := by
  refine ite_sat (fun _ => ?_) fun _ => ite_sat (fun _ => ?_) fun _ => ite_sat (fun _ => ?_) fun _ =>
    ite_sat (fun _ => ?_) fun _ => parseErr_sat hb _
  · simp only [M.bind_apply, recordWsIfSet_eq hb, Res.andThen_ok]
    exact ⟨Inv.plain hb hs hd (by decide), hlo⟩
  · refine Res.Sat.bindMoved (entityIdentifier_ok hb) fun b r' ch' hb' hl' => ?_
    refine ite_sat (fun _ => ?_) fun _ => parseErr_sat hb' _
    exact ⟨Inv.plain (by exact hb') (by exact hs) (by exact hd) (by decide), by simp; omega⟩
  · refine Res.Sat.bindMoved (bracketText_ok hb) fun b r' ch' hb' hl' => ?_
    exact ⟨Inv.plain (by exact hb') (by exact hs) (by exact hd) (by decide), by simp; omega⟩
  · exact ⟨Inv.plain hb hs hd (by decide), hlo⟩

theorem afterMarkup_ok (hb : Base c p) (hs : SlotsCore c p.tagStack p.at_ p.depth)
    (hd : p.depth ≤ 254) {lo : Int} (hlo : lo < p.rd.offset) : StepOk c lo (afterMarkup p) := by
  refine markOffset_bind (Res.Sat.bindMoved (nextCharAfterWs_ok (by exact hb))
    fun _ r ch hb hl => ?_)
  simp only at hl
  exact bind_get (getNextProcessStateFromChar_ok hb (by exact hs) (by exact hd) (by simp; omega) _)

/-! ## Text, CDATA, comments, processing instructions -/

theorem textLoop_ok {fuel : Nat} {p : Parser} (hb : Base c p) (hf : Enough c p fuel) :
    Ok1 c p (textLoop fuel p) := by
  induction fuel generalizing p with
  | zero => obtain ⟨n, hn⟩ := hf.pos hb; omega
  | succ fuel ih =>
    refine Ok1.bind (nextChar_ok hb) fun ch p' hb' ho hlt => Ok.get ?_
    refine ite_ok (fun _ => Ok.of_ok1 (ih hb' (hf.step hlt))) fun _ =>
      ite_ok (fun _ => Ok.pure hb' ho _) fun _ => ?_
    refine Ok.bind (handleOtherTextChar_ok hb' _) fun _ p2 hb2 _ hle => ?_
    exact Ok.of_ok1 (ih hb2 (hf.step (by omega)))

theorem processText_ok (h : Inv c .text p) : StepOk c p.rd.offset (processText p) := by
  have hd := h.deep (by decide)
  have hs := h.slots
  refine bind_get (ite_sat (fun _ => parseErr_sat h.base _) fun _ => ?_)
  refine Res.Sat.bindMoved (textLoop_ok h.base (Enough.loopFuel h.base h.base.cfg))
    fun _ r ch hb hl => bind_modify ?_
  refine Res.Sat.bindWrote (writeText_ok (by exact hb) _) fun _ o hb => ?_
  exact ⟨Inv.plain (by exact hb) (by exact hs) (by exact hd) (by decide), by simp; omega⟩

theorem cdataLoop_ok {fuel : Nat} {p : Parser} (hb : Base c p) (hf : Enough c p fuel) :
    Ok1 c p (cdataLoop fuel p) := by
  induction fuel generalizing p with
  | zero => obtain ⟨n, hn⟩ := hf.pos hb; omega
  | succ fuel ih =>
    refine Ok1.bind (nextChar_ok hb) fun ch p' hb' ho hlt => Ok.get ?_
    refine ite_ok (fun _ => ite_ok (fun _ => ?_) fun _ => Ok.of_ok1 (ih hb' (hf.step hlt))) fun _ =>
      parseErr_ok hb' _
    refine Ok.bind (skipBrackets_ok hb' (Enough.loopFuel hb' hb'.cfg)) fun _ p2 hb2 _ hle => ?_
    refine Ok.bind (skipChar_ok hb2 (by decide)) fun _ p3 hb3 ho3 hle3 => ?_
    exact ite_ok (fun _ => Ok.pure hb3 ho3 _) fun _ => Ok.of_ok1 (ih hb3 (hf.step (by omega)))

theorem processCdata_ok (h : Inv c .cdata p) : StepOk c p.rd.offset (processCdata p) := by
  have hd := h.deep (by decide)
  have hs := h.slots
  refine bind_get (Res.Sat.bindMoved (cdataLoop_ok h.base (Enough.loopFuel h.base h.base.cfg))
    fun _ r ch hb hl => bind_modify ?_)
  refine Res.Sat.bindWrote (writeText_ok (by exact hb) _) fun _ o hb => ?_
  exact afterMarkup_ok hb hs hd (by simp; omega)

/-- `length1` changes, nothing else. -/
theorem commentLoop_ok {fuel : Nat} {p : Parser} (hb : Base c p) (hf : Enough c p fuel) :
    (commentLoop fuel p).Sat (fun _ p' => ∃ l r ch, p' = ({ p with length1 := l } : Parser).mv r r ch ∧
      Base c p' ∧ p.rd.offset < r) (Er c) (Pn c) False := by
  induction fuel generalizing p with
  | zero => obtain ⟨n, hn⟩ := hf.pos hb; omega
  | succ fuel ih =>
    refine Res.Sat.bindMoved (nextChar_ok hb) fun _ r ch hb' hl => bind_get ?_
    refine ite_sat (fun _ => ?_) fun _ => parseErr_sat hb' _
    refine Res.Sat.bindMoved (lo := r) ?_ fun b r2 ch2 hb2 hl2 => ?_
    · exact and_ok (pure_ok_bool hb' rfl _) fun _ h1 _ => skipChar_ok h1 (by decide)
    refine ite_sat (fun _ => ?_) fun _ => ?_
    · exact ⟨r2 - p.lastOffset - p.enc.increment * 2, r2, ch2, rfl, hb2, by omega⟩
    · refine (ih hb2 (hf.step (by simp; omega))).mono (fun _ _ h => ?_) (fun _ _ h => h) id id
      obtain ⟨l, r3, ch3, rfl, hb3, h3⟩ := h
      simp only [mv_rdOffset] at h3
      exact ⟨l, r3, ch3, rfl, hb3, by omega⟩

theorem processStartComment_ok (h : Inv c .startComment p) :
    StepOk c p.rd.offset (processStartComment p) := by
  have hd := h.deep (by decide)
  have hs := h.slots
  refine bind_get (Res.Sat.bind (commentLoop_ok h.base (Enough.loopFuel h.base h.base.cfg))
    fun _ p' hp => ?_)
  obtain ⟨l, r, ch, rfl, hb, hl⟩ := hp
  refine Res.Sat.bindMoved (nextChar_ok hb) fun _ r2 ch2 hb2 hl2 => bind_get ?_
  simp only [mv_rdOffset] at hl2
  refine ite_sat (fun _ => parseErr_sat hb2 _) fun _ => ?_
  refine Res.Sat.bindWrote (writeText_ok hb2 _) fun _ o hb => ?_
  exact afterMarkup_ok hb hs hd (by simp; omega)

theorem processEndComment_ok (h : Inv c .endComment p) :
    StepOk c p.rd.offset (processEndComment p) := by
  have hd := h.deep (by decide)
  have hs := h.slots
  refine bind_get (Res.Sat.bind (commentLoop_ok h.base (Enough.loopFuel h.base h.base.cfg))
    fun _ p' hp => ?_)
  obtain ⟨l, r, ch, rfl, hb, hl⟩ := hp
  refine bind_get (ite_sat (fun _ => parseErr_sat hb _) fun _ => ?_)
  rw [hb.single]
  refine Res.Sat.bindWrote (writeVtdText_ok hb _ _ _ _) fun _ o hb => ?_
  exact ⟨Inv.plain (by exact hb) (by exact hs) (by exact hd) (by decide), by simp; omega⟩

theorem nameLoop_ok {fuel : Nat} {p : Parser} (hb : Base c p) (hf : Enough c p fuel) :
    Ok1 c p (nameLoop fuel p) := by
  induction fuel generalizing p with
  | zero => obtain ⟨n, hn⟩ := hf.pos hb; omega
  | succ fuel ih =>
    refine Ok1.bind (nextChar_ok hb) fun ch p' hb' ho hlt => Ok.get ?_
    exact ite_ok (fun _ => Ok.of_ok1 (ih hb' (hf.step hlt))) fun _ => Ok.pure hb' ho _

theorem processPiTag_ok (h : Inv c .piTag p) : StepOk c p.rd.offset (processPiTag p) := by
  have hd := h.deep (by decide)
  have hs := h.slots
  refine bind_get (Res.Sat.bindMoved (nameLoop_ok h.base (Enough.loopFuel h.base h.base.cfg))
    fun _ r ch hb hl => bind_modify ?_)
  refine Res.Sat.bindWrote (writeVtdWithLengthCheck_ok (by exact hb) _ _) fun _ o hb => bind_get ?_
  refine ite_sat (fun _ => ?_) fun _ => ?_
  · refine Res.Sat.bindWrote (writeAt_ok hb _ _) fun _ o hb => ?_
    refine Res.Sat.bindMoved (skipChar_ok hb (by decide)) fun _ r2 ch2 hb2 hl2 => ?_
    simp only [mv_rdOffset] at hl2
    exact ite_sat (fun _ => afterMarkup_ok hb2 hs hd (by simp; omega)) fun _ => parseErr_sat hb2 _
  · exact ⟨Inv.plain (by exact hb) (by exact hs) (by exact hd) (by decide), by simp; omega⟩

theorem piValLoop_ok {fuel : Nat} {p : Parser} (hb : Base c p) (hf : Enough c p fuel) :
    Ok1 c p (piValLoop fuel p) := by
  induction fuel generalizing p with
  | zero => obtain ⟨n, hn⟩ := hf.pos hb; omega
  | succ fuel ih =>
    refine Ok1.bind (nextChar_ok hb) fun ch p' hb' ho hlt => Ok.get ?_
    refine ite_ok (fun _ => ?_) fun _ => parseErr_ok hb' _
    refine Ok.bind (and_ok (pure_ok_bool hb' ho _) fun _ h1 _ => skipChar_ok h1 (by decide))
      fun _ p2 hb2 ho2 hle => ?_
    exact ite_ok (fun _ => Ok.pure hb2 ho2 _) fun _ => Ok.of_ok1 (ih hb2 (hf.step (by omega)))

theorem processPiVal_ok (h : Inv c .piVal p) : StepOk c p.rd.offset (processPiVal p) := by
  have hd := h.deep (by decide)
  have hs := h.slots
  refine bind_get (ite_sat (fun _ => markOffset_bind ?_) fun _ => parseErr_sat h.base _)
  have hb : Base c { p with lastOffset := p.offset } := h.base
  refine Res.Sat.bindMoved (piValLoop_ok hb (Enough.loopFuel hb h.base.cfg))
    fun _ r ch hb hl => bind_modify ?_
  refine Res.Sat.bindWrote (writeVtdWithLengthCheck_ok (by exact hb) _ _) fun _ o hb => ?_
  simp only at hl
  exact afterMarkup_ok hb hs hd (by simp; omega)

theorem piEndNameLoop_ok {fuel : Nat} {p : Parser} (hb : Base c p) (ho : p.offset = p.rd.offset)
    (hf : Enough c p fuel) : Ok c p (piEndNameLoop fuel p) := by
  induction fuel generalizing p with
  | zero => obtain ⟨n, hn⟩ := hf.pos hb; omega
  | succ fuel ih =>
    refine Ok.get (ite_ok (fun _ => ?_) fun _ => Ok.pure hb ho _)
    exact Ok.of_ok1 (Ok1.bind (nextChar_ok hb) fun ch p' hb' ho hlt => ih hb' ho (hf.step hlt))

theorem piEndValLoop_ok {fuel : Nat} {p : Parser} (hb : Base c p) (ho : p.offset = p.rd.offset)
    (hf : Enough c p fuel) : Ok c p (piEndValLoop fuel p) := by
  induction fuel generalizing p with
  | zero => obtain ⟨n, hn⟩ := hf.pos hb; omega
  | succ fuel ih =>
    refine Ok.get (ite_ok (fun _ => ?_) fun _ => parseErr_ok hb _)
    refine Ok.bind (and_ok (pure_ok_bool hb ho _) fun _ h1 _ => skipChar_ok h1 (by decide))
      fun _ p2 hb2 ho2 hle => ?_
    refine ite_ok (fun _ => Ok.pure hb2 ho2 _) fun _ => ?_
    exact Ok.of_ok1 (Ok1.bind (nextChar_ok hb2) fun ch p' hb' ho hlt =>
      ih hb' ho (hf.step (by omega)))

theorem piEndTarget_ok (hb : Base c p) (ho : p.offset = p.rd.offset) : Ok c p (piEndTarget p) := by
  refine Ok.get (Ok.bind ?_ fun b p hb ho _ => ite_ok (fun _ => ?_) fun _ => Ok.pure hb ho _)
  · refine and_ok (pure_ok_bool hb ho _) fun _ h1 h2 => ?_
    refine and_ok (or_ok (skipChar_ok h1 (by decide)) fun _ h1 _ => skipChar_ok h1 (by decide))
        fun _ h1 h2 => ?_
    exact or_ok (skipChar_ok h1 (by decide)) fun _ h1 _ => skipChar_ok h1 (by decide)
  · refine Ok.bind (Ok.of_ok1 (nextChar_ok hb)) fun _ p hb ho _ => Ok.get ?_
    exact ite_ok (fun _ => parseErr_ok hb _) fun _ => Ok.pure hb ho _

theorem processPiEnd_ok (h : Inv c .piEnd p) : StepOk c p.rd.offset (processPiEnd p) := by
  have hd := h.deep (by decide)
  have hs := h.slots
  refine Res.Sat.bindMoved (nextChar_ok h.base) fun _ r ch hb hl => bind_get ?_
  refine ite_sat (fun _ => ?_) fun _ => parseErr_sat hb _
  refine Res.Sat.bindMoved (piEndTarget_ok hb rfl) fun _ r2 ch2 hb2 hl2 => ?_
  simp only [mv_rdOffset] at hl2
  refine Res.Sat.bindMoved (piEndNameLoop_ok hb2 rfl (Enough.loopFuel hb2 hb.cfg))
    fun _ r3 ch3 hb3 hl3 => bind_modify ?_
  simp only [mv_rdOffset] at hl3
  refine Res.Sat.bindWrote (writeVtdWithLengthCheck_ok (by exact hb3) _ _) fun _ o hb => ?_
  refine markOffset_bind (bind_get (ite_sat (fun _ => ?_) fun _ => ?_))
  · refine Res.Sat.bindMoved (nextCharAfterWs_ok (by exact hb)) fun _ r4 ch4 hb4 hl4 => ?_
    simp only [mv_rdOffset] at hl4
    refine Res.Sat.bindMoved (piEndValLoop_ok hb4 rfl (Enough.loopFuel hb4 hb.cfg))
      fun _ r5 ch5 hb5 hl5 => bind_modify ?_
    simp only [mv_rdOffset] at hl5
    refine Res.Sat.bindWrote (writeVtdWithLengthCheck_ok (by exact hb5) _ _) fun _ o hb => ?_
    exact ⟨Inv.plain (by exact hb) (by exact hs) (by exact hd) (by decide), by simp; omega⟩
  · refine Res.Sat.bindWrote (writeAt_ok (by exact hb) _ _) fun _ o hb => ?_
    refine Res.Sat.bindMoved (lo := r3) ?_ fun b r4 ch4 hb4 hl4 => ?_
    · exact or_ok (pure_ok_bool hb rfl _) fun _ h1 _ => skipChar_ok h1 (by decide)
    refine ite_sat (fun _ => parseErr_sat hb4 _) fun _ => ?_
    exact ⟨Inv.plain (by exact hb4) (by exact hs) (by exact hd) (by decide), by simp; omega⟩

end Parser
end GoVtd
