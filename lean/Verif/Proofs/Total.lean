import Verif.Proofs.Parser.DeclSteps

/-!
# `Parse` always ends (without namespace awareness)
-/

namespace GoVtd
namespace Parser
open Paged
variable {c : ParserCfg} {p : Parser}

/-- One iteration of the loop of `Parse`. -/
def Next (x y : PState × Parser) : Prop := step x.1 x.2 = .ok y.1 y.2

/-- Reachable by iterations of the loop of `Parse`. -/
inductive Reach (x : PState × Parser) : PState × Parser → Prop where
  | refl : Reach x x
  | tail {y z : PState × Parser} : Reach x y → Next y z → Reach x z

theorem Reach.head {x y z : PState × Parser} (h : Next x y) (h' : Reach y z) : Reach x z := by
  induction h' with
  | refl => exact .tail .refl h
  | tail _ h2 ih => exact .tail ih h2

/-- The situations in which the loop of `Parse` indexes outside a table: an end tag without
an open element, and the attribute after the 256th. -/
def OutOfTable (x : PState × Parser) : Prop :=
  (x.1 = .tagEnd ∧ x.2.depth = -1) ∨ (x.1 = .attrName ∧ x.2.at_.attrCount = 256)

theorem step_ok {st : PState} (h : Inv c st p) (hns : c.nsAware = false) :
    StepOk2 c (OutOfTable (st, p)) p.rd.offset (step st p) := by
  cases st with
  | docType => exact (processDocType_ok h).weaken
  | docStart => exact (processDocStart_ok h).weaken
  | docEnd => exact (processDocEnd_ok h).weaken
  | ltSeen => exact (processLtSeen_ok h).weaken
  | tagStart => exact (processStartTag_ok h hns).weaken
  | tagEnd =>
    by_cases h0 : 0 ≤ p.depth
    · exact (processEndTag_ok h h0).weaken
    · have h1 : p.depth = -1 := by have := h.slots.dep0; omega
      have h2 : processEndTag p = .panic := by
        simp only [processEndTag, markOffset, M.bind_apply, M.modify_apply, Res.andThen_ok, M.get_apply]
        rw [M.index_panic _ _ _ (Or.inl (by simp [h1]))]
        rfl
      show (processEndTag p).Sat _ _ _ _
      rw [h2]
      exact Or.inr (Or.inl ⟨rfl, h1⟩)
  | attrName =>
    exact (processAttrName_ok h hns).panicMono (fun h => h.imp id fun h => Or.inr ⟨rfl, h⟩)
  | attrVal => exact (processAttrVal_ok h hns).weaken
  | decAttrName => exact (processDecAttrName_ok h).weaken
  | text => exact (processText_ok h).weaken
  | piTag => exact (processPiTag_ok h).weaken
  | piVal => exact (processPiVal_ok h).weaken
  | piEnd => exact (processPiEnd_ok h).weaken
  | startComment => exact (processStartComment_ok h).weaken
  | endComment => exact (processEndComment_ok h).weaken
  | cdata => exact (processCdata_ok h).weaken
  | invalid => exact parseErr_sat h.base _

theorem Reach.inv {x y : PState × Parser} (h : Reach x y) (hi : Inv c x.1 x.2)
    (hns : c.nsAware = false) : Inv c y.1 y.2 := by
  induction h with
  | refl => exact hi
  | tail _ h2 ih => exact ((step_ok ih hns).ok h2).1

/-! The end-of-file error after the root element. -/

abbrev ErB (c : ParserCfg) (_ : GoErr) (p : Parser) : Prop := Base c p

theorem nextCharAfterWsLoop_errB {fuel : Nat} {p : Parser} (hb : Base c p) :
    (nextCharAfterWsLoop fuel p).Sat (fun _ p' => Base c p') (ErB c) True True := by
  induction fuel generalizing p with
  | zero => trivial
  | succ fuel ih =>
    simp only [nextCharAfterWsLoop, M.bind_apply]
    have hm := nextChar_ok hb
    rw [nextChar_eq hb] at hm ⊢
    split
    · rename_i h
      rw [dif_pos h] at hm
      obtain ⟨r, ch, he, hb', h1⟩ := hm
      simp only [Res.andThen_ok, M.bind_apply, M.get_apply, M.ite_apply]
      split
      · exact ih hb'
      · exact hb'
    · exact hb

theorem parseErr_errB {α : Type} {Q : α → Parser → Prop} {P D : Prop} (hb : Base c p) (msg : String) :
    (parseErr msg p).Sat Q (ErB c) P D := by
  obtain ⟨e, h1, h2⟩ := parseErr_eq (α := α) hb msg
  rw [h1]; exact hb

theorem skipCharSeq_noErr (seq : List Nat) (p p' : Parser) (e : GoErr) :
    skipCharSeq seq p ≠ .err e p' := by
  intro h
  simp only [skipCharSeq, onRd, M.bind_apply, M.zoom_apply] at h
  cases hr : Reader.skipCharSeq seq p.rd <;> rw [hr] at h
  · exact absurd h (by simp [M.bind_apply, M.modify_apply])
  · exact rdSkipCharSeq_noErr _ _ _ _ hr
  · exact absurd h (by simp)
  · exact absurd h (by simp)

theorem skipChar_noErr (ch : Nat) (p p' : Parser) (e : GoErr) :
    skipChar ch p ≠ .err e p' := by
  intro h
  simp only [skipChar, onRd, M.bind_apply, M.zoom_apply] at h
  cases hr : Reader.skipChar ch p.rd <;> rw [hr] at h
  · exact absurd h (by simp [M.bind_apply, M.modify_apply])
  · exact rdSkipChar_noErr _ _ _ _ hr
  · exact absurd h (by simp)
  · exact absurd h (by simp)

theorem Ok.errB {α : Type} {r : Res Parser α} (h : Ok c p r) (hn : ∀ e p', r ≠ .err e p') :
    r.Sat (fun _ p' => Base c p') (ErB c) True True := by
  cases r with
  | ok a s => exact h.base
  | err e s => exact absurd rfl (hn e s)
  | panic => trivial
  | diverge => trivial

theorem processDocEnd_errB (hb : Base c p) :
    (processDocEnd p).Sat (fun _ p' => Base c p') (ErB c) True True := by
  refine Res.Sat.bind (nextCharAfterWsLoop_errB (fuel := p.loopFuel) hb) fun _ p hb => bind_get ?_
  refine ite_sat (fun _ => ?_) fun _ => parseErr_errB hb _
  refine Res.Sat.bind (Ok.errB (skipChar_ok hb (by decide)) fun e p' => skipChar_noErr _ _ p' e)
    fun b p hb => ?_
  refine ite_sat (fun _ => markOffset_bind ?_) fun _ => ?_
  · exact hb
  · refine Res.Sat.bind (Ok.errB (skipCharSeq_ok _ (by decide) hb)
      fun e p' => skipCharSeq_noErr _ _ p' e) fun b p hb => ?_
    exact ite_sat (fun _ => markOffset_bind (by exact hb)) fun _ => parseErr_errB hb _

theorem flushLeaf_eq (hb : Base c p) (d : Int) : ∃ p', flushLeaf d p = .ok () p' ∧ Wrote c p p' := by
  simp only [flushLeaf, M.bind_apply, M.get_apply, Res.andThen_ok, M.ite_apply, M.pure_apply]
  split
  · exact onL1_eq hb _
  split
  · exact onL2_eq hb _
  split
  · exact onL3_eq hb _
  split
  · exact onL4_eq hb _
  · exact ⟨p, rfl, Wrote.refl hb⟩

theorem finishUp_noErr (hb : Base c p) : ∃ p', finishUp p = .ok () p' ∧ Wrote c p p' := by
  simp only [finishUp, M.bind_apply, M.get_apply, Res.andThen_ok, M.ite_apply, M.pure_apply]
  split
  · split
    · exact flushLeaf_eq hb _
    · exact ⟨p, rfl, Wrote.refl hb⟩
  · exact flushLeaf_eq hb _

theorem mainLoop_ok (fuel : Nat) {st : PState} {p : Parser} (h : Inv c st p)
    (hns : c.nsAware = false) (hf : (c.xmlDoc.length : Int) - p.rd.offset < fuel) :
    (mainLoop fuel st p).Sat (fun _ p' => Base c p') (Er c)
      (Pn c ∨ ∃ y, Reach (st, p) y ∧ OutOfTable y) False := by
  induction fuel generalizing st p with
  | zero => have := h.base.off2; omega
  | succ fuel ih =>
    have hs := step_ok h hns
    simp only [mainLoop, M.bind_apply, M.catchErr_apply]
    cases hr : step st p with
    | ok st' p' =>
      rw [hr] at hs
      obtain ⟨hi, hlt⟩ := hs
      simp only [Res.andThen_ok, M.pure_apply, Res.handle_ok]
      refine (ih hi (by omega)).panicMono ?_
      rintro (h1 | ⟨y, h1, h2⟩)
      · exact Or.inl h1
      · exact Or.inr ⟨y, Reach.head (y := (st', p')) hr h1, h2⟩
    | err e p' =>
      rw [hr] at hs
      simp only [Res.andThen_err, Res.handle_err, onStepErr, M.ite_apply, M.raise_apply]
      by_cases he : e.as .eof ∧ st = .docEnd
      · rw [if_pos he]
        obtain ⟨_, rfl⟩ := he
        have hb : Base c p' := (processDocEnd_errB h.base).err hr
        obtain ⟨p2, h1, o, rfl, h2⟩ := finishUp_noErr hb
        simp only [wrapInternal, M.bind_apply, M.catchErr_apply, h1, Res.handle_ok, Res.andThen_ok,
          M.pure_apply]
        exact h2
      · rw [if_neg he]
        exact hs
    | panic =>
      rw [hr] at hs
      exact hs.imp id fun h => ⟨_, .refl, h⟩
    | diverge => rw [hr] at hs; exact hs.elim

/-! ## From the constructor to the loop -/

/-- The parser as `NewVtdParser` returns it. -/
structure Fresh (p : Parser) : Prop where
  init : ∃ fuel a, p = initParser fuel p.cfg.xmlDoc a
    { kind := .utf8, xmlDoc := p.cfg.xmlDoc, offset := a.offset, endOffset := a.endOffset }
  start : 0 ≤ p.cfg.docOffset
  len : p.cfg.docLength ≠ 0
  end0 : 0 ≤ p.cfg.endOffset
  end1 : p.cfg.endOffset ≤ p.cfg.xmlDoc.length
  sum : p.cfg.endOffset = wrap64 (p.cfg.docOffset + p.cfg.docLength)

theorem wrap64_wrap64 (x y : Int) : wrap64 (x + wrap64 y) = wrap64 (x + y) := by
  simp only [wrap64, BitVec.toInt_ofInt]
  rw [Int.add_bmod_bmod]

theorem args_sum (opts : List ParserOption) (a : ParserArgs) (h : a.endOffset = wrap64 (a.offset + a.length)) :
    (opts.foldl ParserArgs.apply a).endOffset =
      wrap64 ((opts.foldl ParserArgs.apply a).offset + (opts.foldl ParserArgs.apply a).length) := by
  induction opts generalizing a with
  | nil => exact h
  | cons o os ih =>
    refine ih _ ?_
    cases o with
    | xmlDoc d =>
      have := wrap64_wrap64 0 (d.getD []).length
      simp only [Int.zero_add] at this
      simp only [ParserArgs.apply, Int.zero_add, this]
    | xmlDocCustomOffset d o l => rfl
    | nameSpaceAware b => exact h
    | bufferReuse b => exact h
    | lcDepth d =>
      simp only [ParserArgs.apply]
      split
      · exact h
      · split <;> exact h

theorem newVtdParser_fresh {fuel : Nat} {opts : List ParserOption}
    (h : newVtdParser fuel opts = .ok p) : Fresh p := by
  simp only [newVtdParser] at h
  have hs := args_sum opts {} rfl
  generalize opts.foldl ParserArgs.apply {} = a at h hs
  split at h
  · exact absurd h (by simp)
  · rename_i doc hd
    split at h
    · exact absurd h (by simp)
    split at h
    · exact absurd h (by simp)
    split at h
    · exact absurd h (by simp)
    rename_i h1 h2 h3
    simp only [Reader.newUtf8] at h
    rw [if_neg h2] at h
    by_cases h4 : a.endOffset < 0 ∨ a.endOffset > doc.length
    · rw [if_pos h4] at h; exact absurd h (by simp)
    rw [if_neg h4] at h
    simp only [Except.ok.injEq] at h
    subst h
    exact ⟨⟨fuel, a, rfl⟩, by show 0 ≤ a.offset; omega, by show ¬ a.length = 0; omega,
      by show 0 ≤ a.endOffset; omega, by show a.endOffset ≤ doc.length; omega, by exact hs⟩

/-- First bytes of the window that `decideEncoding` takes for UTF-16BE. -/
def Utf16BE (c : ParserCfg) : Prop :=
  c.xmlDoc[c.docOffset.toNat]? = some 0 ∧ c.xmlDoc[c.docOffset.toNat + 1]? = some 0x3c ∧
  c.xmlDoc[c.docOffset.toNat + 2]? = some 0 ∧ c.xmlDoc[c.docOffset.toNat + 3]? = some 0x3f

/-- First bytes of the window that `decideEncoding` takes for UTF-16LE. -/
def Utf16LE (c : ParserCfg) : Prop :=
  c.xmlDoc[c.docOffset.toNat]? = some 0x3c ∧ c.xmlDoc[c.docOffset.toNat + 1]? = some 0 ∧
  c.xmlDoc[c.docOffset.toNat + 2]? = some 0x3f ∧ c.xmlDoc[c.docOffset.toNat + 3]? = some 0

theorem byteIs32_neg (b : UInt8) {v : Int} (h : v < 0) : byteIs32 b v = false := by
  simp only [byteIs32, beq_eq_false_iff_ne, ne_eq]
  omega

theorem byteIs32_iff (b : UInt8) (v : UInt8) : byteIs32 b v.toNat = true ↔ b = v := by
  simp only [byteIs32, beq_iff_eq, Int.ofNat_inj]
  exact UInt8.toNat_inj

theorem docIs32_sat (i : Nat) (v : UInt8) {P : Prop} (E : GoErr → Parser → Prop) (hp : p.cfg = c)
    (hP : c.xmlDoc.length ≤ i → P) {q : Parser} (hq : p = q) :
    (docIs32 (i : Int) v.toNat p).Sat (fun t p' => p' = q ∧ (t = true ↔ c.xmlDoc[i]? = some v))
      E P False := by
  subst hq
  simp only [docIs32, docByte, M.bind_apply, M.get_apply, Res.andThen_ok, hp]
  by_cases h : i < c.xmlDoc.length
  · rw [M.index_of_lt _ _ _ (by omega) (by simpa using h)]
    simp only [Res.andThen_ok, M.pure_apply, Res.sat_ok, true_and]
    rw [byteIs32_iff]
    simp [h]
  · rw [M.index_panic _ _ _ (by omega)]
    exact hP (by omega)

/-- The test of the first bytes leaves the slice. -/
def ShortStart (c : ParserCfg) : Prop :=
  c.xmlDoc.length ≤ c.docOffset.toNat + 3 ∧
  (c.xmlDoc.length ≤ c.docOffset.toNat ∨ c.xmlDoc[c.docOffset.toNat]? = some 0 ∨
    (c.xmlDoc[c.docOffset.toNat]? = some 0x3c ∧
      (c.xmlDoc.length ≤ c.docOffset.toNat + 1 ∨ c.xmlDoc[c.docOffset.toNat + 1]? = some 0)))

/-- The outcomes of the test of the first bytes. -/
theorem detectEncoding_sat (hp : p.cfg = c) (ho : p.offset = c.docOffset) (h0 : 0 ≤ c.docOffset) :
    (detectEncoding p).Sat
      (fun _ p' => (p' = p ∧ ¬ Utf16BE c ∧ ¬ Utf16LE c) ∨
        (p' = { p with enc := { p.enc with encoding := FormatUtf16BE, increment := 2 } } ∧ Utf16BE c) ∨
        (p' = { p with enc := { p.enc with encoding := FormatUtf16LE, increment := 2 } } ∧ Utf16LE c))
      (fun e p' => p' = p ∧ ∃ m, e = newEncodingError m)
      (ShortStart c) False := by
  refine bind_get ?_
  rw [M.bind_apply, show docByte p.offset p = M.index c.xmlDoc c.docOffset p from by
    simp only [docByte, M.bind_apply, M.get_apply, Res.andThen_ok, hp, ho]]
  have hz1 : p.offset + 1 = ((c.docOffset.toNat + 1 : Nat) : Int) := by omega
  have hz2 : p.offset + 2 = ((c.docOffset.toNat + 2 : Nat) : Int) := by omega
  have hz3 : p.offset + 3 = ((c.docOffset.toNat + 3 : Nat) : Int) := by omega
  by_cases h : c.docOffset.toNat < c.xmlDoc.length
  · rw [M.index_of_lt _ _ _ h0 h]
    simp only [Res.andThen_ok]
    rw [byteIs32_neg _ (v := -2) (by decide), byteIs32_neg _ (v := -1) (by decide),
      byteIs32_neg _ (v := -17) (by decide)]
    simp only [Bool.false_eq_true, if_false]
    have hg : c.xmlDoc[c.docOffset.toNat]? = some c.xmlDoc[c.docOffset.toNat] := by simp [h]
    have d1 := fun (v : UInt8) (P : Prop) (E : GoErr → Parser → Prop) hP => docIs32_sat (P := P) (p := p) (c.docOffset.toNat + 1) v E hp hP rfl
    have d2 := fun (v : UInt8) (P : Prop) (E : GoErr → Parser → Prop) hP => docIs32_sat (P := P) (p := p) (c.docOffset.toNat + 2) v E hp hP rfl
    have d3 := fun (v : UInt8) (P : Prop) (E : GoErr → Parser → Prop) hP => docIs32_sat (P := P) (p := p) (c.docOffset.toNat + 3) v E hp hP rfl
    have three : ∀ (x y z : UInt8) (P : Prop) (E : GoErr → Parser → Prop), (c.xmlDoc.length ≤ c.docOffset.toNat + 1 → P) →
        (c.xmlDoc[c.docOffset.toNat + 1]? = some x → c.xmlDoc.length ≤ c.docOffset.toNat + 3 → P) →
        ((docIs32 (p.offset + 1) x.toNat &&! docIs32 (p.offset + 2) y.toNat &&!
          docIs32 (p.offset + 3) z.toNat) p).Sat (fun t p' => p' = p ∧
          (t = true ↔ c.xmlDoc[c.docOffset.toNat + 1]? = some x ∧
            c.xmlDoc[c.docOffset.toNat + 2]? = some y ∧ c.xmlDoc[c.docOffset.toNat + 3]? = some z))
          E P False := by
      intro x y z P E hP1 hP2
      rw [hz1, hz2, hz3]
      refine Res.Sat.bind (d1 x P E hP1) ?_
      rintro t _ ⟨rfl, ht⟩
      by_cases t1 : t = true
      · rw [if_pos t1]
        have e1 := ht.mp t1
        refine Res.Sat.bind (d2 y P E fun h => hP2 e1 (by omega)) ?_
        rintro t' _ ⟨rfl, ht'⟩
        by_cases t2 : t' = true
        · rw [if_pos t2]
          refine (d3 z P E fun h => hP2 e1 (by omega)).mono ?_ (fun _ _ h => h) id id
          rintro t'' _ ⟨rfl, ht''⟩
          exact ⟨rfl, by rw [ht'']; simp [e1, ht'.mp t2]⟩
        · rw [if_neg t2]
          refine ⟨rfl, ?_⟩
          simp only [Bool.false_eq_true, false_iff]
          intro ⟨_, h, _⟩
          exact t2 (ht'.mpr h)
      · rw [if_neg t1]
        refine ⟨rfl, ?_⟩
        simp only [Bool.false_eq_true, false_iff]
        intro ⟨h, _⟩
        exact t1 (ht.mpr h)
    by_cases hb0 : byteIs32 c.xmlDoc[c.docOffset.toNat] 0 = true
    · rw [if_pos hb0]
      have e0 := (byteIs32_iff _ 0).mp hb0
      refine Res.Sat.bind (three 0x3c 0 0x3f (ShortStart c) _ (fun h => ⟨by omega, Or.inr (Or.inl ?_)⟩)
        (fun _ h => ⟨by omega, Or.inr (Or.inl ?_)⟩)) ?_
      · rw [hg, e0]
      · rw [hg, e0]
      rintro t _ ⟨rfl, ht⟩
      refine ite_sat (fun h => ?_) fun h => ?_
      · exact Or.inr (Or.inl ⟨rfl, by rw [hg, e0], ht.mp h⟩)
      · exact ⟨rfl, _, rfl⟩
    · rw [if_neg hb0]
      have n0 : ¬ Utf16BE c := fun hu => hb0 ((byteIs32_iff _ 0).mpr (by
        have := hu.1; rw [hg] at this; simpa using this))
      by_cases hb1 : byteIs32 c.xmlDoc[c.docOffset.toNat] 0x3c = true
      · rw [if_pos hb1]
        have e1 := (byteIs32_iff _ 0x3c).mp hb1
        refine Res.Sat.bind (three 0 0x3f 0 (ShortStart c) _
          (fun h => ⟨by omega, Or.inr (Or.inr ⟨?_, Or.inl h⟩)⟩)
          (fun h1 h => ⟨by omega, Or.inr (Or.inr ⟨?_, Or.inr h1⟩)⟩)) ?_
        · rw [hg, e1]
        · rw [hg, e1]
        rintro t _ ⟨rfl, ht⟩
        refine ite_sat (fun h => ?_) fun h => ?_
        · exact Or.inr (Or.inr ⟨rfl, by rw [hg, e1], ht.mp h⟩)
        · exact Or.inl ⟨rfl, n0, fun hu => h (ht.mpr hu.2)⟩
      · rw [if_neg hb1]
        exact Or.inl ⟨rfl, n0, fun hu => hb1 ((byteIs32_iff _ 0x3c).mpr (by
          have := hu.1; rw [hg] at this; simpa using this))⟩
  · rw [M.index_panic _ _ _ (by omega)]
    exact ⟨by omega, Or.inl (by omega)⟩

theorem initOut_ok (s : Bool) (n : Int) : OutOk (initOut s n) := by
  have key : ∀ k : Nat, k ≤ 62 → ∃ e xs, freshBuffer (BitVec 64) k = fill e xs :=
    fun k hk => ⟨k, [], withPageSize_small k hk⟩
  have h1 : (shallowSizes n).1 ≤ 62 ∧ (shallowSizes n).2.1 ≤ 62 ∧ (shallowSizes n).2.2.1 ≤ 62 ∧
      (shallowSizes n).2.2.2 ≤ 62 := by
    simp only [shallowSizes]; repeat' split
    all_goals decide
  have h2 : (deepSizes n).1 ≤ 62 ∧ (deepSizes n).2.1 ≤ 62 ∧ (deepSizes n).2.2.1 ≤ 62 ∧
      (deepSizes n).2.2.2.1 ≤ 62 ∧ (deepSizes n).2.2.2.2.1 ≤ 62 ∧ (deepSizes n).2.2.2.2.2 ≤ 62 := by
    simp only [deepSizes]; repeat' split
    all_goals decide
  cases s
  · exact ⟨key _ h2.1, key _ h2.2.1, key _ h2.2.2.1, key _ h2.2.2.2.1, key _ h2.2.2.2.2.1,
      key _ h2.2.2.2.2.2⟩
  · exact ⟨key _ h1.1, key _ h1.2.1, key _ h1.2.2.1, key _ h1.2.2.2, key _ (by decide), key _ (by decide)⟩

theorem Fresh.fields (h : Fresh p) :
    p.enc = stdEnc ∧ p.rd = Reader.mk .utf8 p.cfg.xmlDoc p.cfg.docOffset p.cfg.endOffset ∧ p.offset = p.cfg.docOffset ∧ p.depth = -1 ∧ p.ws = false ∧
    p.tagStack = List.replicate 256 0 ∧ p.at_.attrNameSlice = List.replicate 256 0 ∧
    p.at_.attrCount = 0 ∧ OutOk p.out := by
  obtain ⟨fuel, a, hi⟩ := h.init
  rw [hi]
  exact ⟨rfl, rfl, rfl, rfl, rfl, rfl, rfl, rfl, initOut_ok _ _⟩

theorem Fresh.base (h : Fresh p) (hw : p.cfg.docOffset ≤ p.cfg.endOffset) (h2 : p.cfg.endOffset < 2 ^ 31) :
    Base p.cfg p := by
  obtain ⟨f1, f2, f3, f4, f5, f6, f7, f8, f9⟩ := h.fields
  have := h.start; have := h.end1
  exact { cfg := rfl, enc := f1, kind := by rw [f2], doc := by rw [f2], fin := by rw [f2], end0 := h.end0,
          end1 := h.end1, end2 := h2, start := h.start, off0 := by omega, off1 := by rw [f2, f3]; exact Int.le_refl _,
          off2 := by rw [f2]; show p.cfg.docOffset ≤ _; omega,
          sent := fun _ => by rw [f2]; exact hw, ws := f5, out := f9 }

theorem inDoc_zero : InDoc c (low32 0) (high32 0) := by
  have h1 : low32 0 = 0 := by decide
  have h2 : high32 0 = 0 := by decide
  rw [h1, h2]
  exact ⟨by omega, by omega, by omega⟩

theorem inDoc_zero' : InDoc c (high32 0) (low32 0) := by
  have h1 : low32 0 = 0 := by decide
  have h2 : high32 0 = 0 := by decide
  rw [h1, h2]
  exact ⟨by omega, by omega, by omega⟩

theorem Fresh.inv (h : Fresh p) (hw : p.cfg.docOffset ≤ p.cfg.endOffset) (h2 : p.cfg.endOffset < 2 ^ 31) :
    Inv p.cfg .docStart p := by
  obtain ⟨f1, f2, f3, f4, f5, f6, f7, f8, f9⟩ := h.fields
  refine Inv.plain (h.base hw h2) ⟨by rw [f6, List.length_replicate], ?_,
    by rw [f7, List.length_replicate], by omega, by omega, ?_, by omega,
    by omega⟩ (by omega) (by decide)
  · intro t ht
    rw [f6] at ht
    obtain ⟨_, rfl⟩ := List.mem_replicate.mp ht
    exact inDoc_zero
  · intro t ht
    rw [f7] at ht
    obtain ⟨_, rfl⟩ := List.mem_replicate.mp ht
    exact inDoc_zero'

/-- `Parse` up to its loop. -/
def begin_ : M Parser Unit := do
  decideEncoding
  let p ← M.get
  writeVtd .document 0 0 p.depth

theorem parse_eq : parse = (do begin_; let p ← M.get; mainLoop p.loopFuel .docStart) := by
  funext p
  simp only [parse, begin_, M.bind_apply]
  cases h1 : decideEncoding p with
  | ok a q =>
    simp only [Res.andThen_ok, M.bind_apply, M.get_apply]
    cases h2 : writeVtd .document 0 0 q.depth q with
    | ok a r =>
      simp only [Res.andThen_ok, M.bind_apply, M.get_apply]
      have : r.cfg = q.cfg := by
        have := (M.Keeps.ok (f := fun p : Parser => p.cfg) (by unfold writeVtd onVtd; keeps) h2)
        exact this
      rw [loopFuel, loopFuel, this]
    | err e r => rfl
    | panic => rfl
    | diverge => rfl
  | err e q => rfl
  | panic => rfl
  | diverge => rfl

theorem nextChar_rd (hk : p.rd.kind = .utf8) (h0 : 0 ≤ p.rd.offset)
    (h1 : p.rd.endOffset ≤ p.rd.xmlDoc.length) :
    nextChar p = if h : p.rd.offset < p.rd.endOffset then
      .ok () (p.mv (p.rd.offset + 1) (p.rd.offset + 1) (p.rd.xmlDoc[p.rd.offset.toNat]'(by omega)).toNat)
      else .err (newEOFError XmlIncomplete) p := by
  simp only [nextChar, getChar, onRd, M.bind_apply, M.zoom_apply]
  rw [rdGetChar_eq p.rd hk h0 h1]
  split <;> rfl

theorem mainLoop_step {fuel : Nat} {st st' : PState} {p' : Parser} (h : step st p = .ok st' p') :
    mainLoop (fuel + 1) st p = mainLoop fuel st' p' := by
  simp only [mainLoop, M.bind_apply, M.catchErr_apply, h, Res.andThen_ok, M.pure_apply, Res.handle_ok]

theorem mainLoop_err {fuel : Nat} {st : PState} {p' : Parser} {e : GoErr} (h : step st p = .err e p')
    (hst : st ≠ .docEnd) : mainLoop (fuel + 1) st p = .err e p' := by
  simp only [mainLoop, M.bind_apply, M.catchErr_apply, h, Res.andThen_err, Res.handle_err, onStepErr,
    M.ite_apply, M.raise_apply]
  rw [if_neg (fun h => hst h.2)]
  rfl

theorem nextChar_rdSat {b : UInt8} {r : Int} (hr : p.rd = Reader.mk .utf8 c.xmlDoc r c.endOffset) (h0 : 0 ≤ r)
    (h1 : c.endOffset ≤ c.xmlDoc.length) (hb : c.xmlDoc[r.toNat]? = some b) :
    (nextChar p).Sat (fun _ p' => p' = p.mv (r + 1) (r + 1) b.toNat) (fun _ p' => p' = p) False False := by
  have hn := nextChar_rd (p := p) (by rw [hr]) (by rw [hr]; exact h0) (by rw [hr]; exact h1)
  rw [hn]
  split
  · rename_i h
    have : p.rd.offset = r := by rw [hr]
    have h2 : p.rd.xmlDoc[p.rd.offset.toNat]'(by
        have : p.rd.endOffset ≤ p.rd.xmlDoc.length := by rw [hr]; exact h1
        omega) = b := by
      have : p.rd.xmlDoc[p.rd.offset.toNat]? = some b := by rw [hr]; exact hb
      exact (List.getElem?_eq_some_iff.mp this).2
    rw [h2, this]
    rfl
  · rfl

theorem step_fails {fuel : Nat} {st : PState} (hst : st ≠ .docEnd)
    (h : (step st p).Sat (fun _ _ => False) (fun _ p' => p'.cfg = c) False False) :
    ∃ e p', mainLoop (fuel + 1) st p = .err e p' ∧ p'.cfg = c := by
  cases hr : step st p with
  | ok a s => rw [hr] at h; exact h.elim
  | err e s => rw [hr] at h; exact ⟨e, s, mainLoop_err hr hst, h⟩
  | panic => rw [hr] at h; exact h.elim
  | diverge => rw [hr] at h; exact h.elim

theorem docIs_eq {b v : UInt8} (hp : p.cfg = c) {i : Nat} (h : c.xmlDoc[i]? = some b) :
    docIs (i : Int) v p = .ok (b == v) p := by
  obtain ⟨h1, h2⟩ := List.getElem?_eq_some_iff.mp h
  simp only [docIs, docByte, M.bind_apply, M.get_apply, Res.andThen_ok, hp]
  rw [M.index_of_lt _ _ _ (by omega) (by simpa using h1)]
  simp only [Int.toNat_natCast, h2, Res.andThen_ok, M.pure_apply]

/-- A document that looks like UTF-16 is refused. -/
theorem utf16_err (fuel : Nat) (hf : 2 ≤ fuel) (hp : p.cfg = c) (hr : p.rd = Reader.mk .utf8 c.xmlDoc c.docOffset c.endOffset)
    (h0 : 0 ≤ c.docOffset) (h1 : c.endOffset ≤ c.xmlDoc.length)
    (hu : (Utf16BE c ∧ p.enc.encoding = FormatUtf16BE) ∨ (Utf16LE c ∧ p.enc.encoding = FormatUtf16LE)) :
    ∃ e p', mainLoop fuel .docStart p = .err e p' ∧ p'.cfg = c := by
  obtain ⟨n, rfl⟩ : ∃ n, fuel = n + 1 + 1 := ⟨fuel - 2, by omega⟩
  have key : (step .docStart p).Sat (fun st' p' => st' ≠ .docEnd ∧
      (step st' p').Sat (fun _ _ => False) (fun _ p' => p'.cfg = c) False False)
      (fun _ p' => p'.cfg = c) False False := by
    obtain ⟨⟨u0, u1, u2, u3⟩, he⟩ | ⟨⟨u0, u1, u2, u3⟩, he⟩ := hu
    · refine Res.Sat.bind ((nextChar_rdSat hr h0 h1 u0).mono (fun _ _ h => h) (fun _ _ h => by rw [h]; exact hp)
        id id) ?_
      rintro _ _ rfl
      refine bind_get (ite_sat (fun h => absurd h (by simp)) fun _ => ite_sat (fun h => absurd h (by simp))
        fun _ => ?_)
      refine ⟨by decide, ?_⟩
      simp only [step, parseErr, fmtLine, fmtCustomLine, M.bind_apply, M.get_apply, Res.andThen_ok,
          M.ite_apply, mv_enc, he, mv_offset, mv_cfg, hp]
      rw [if_neg (by decide), if_pos trivial,
          show ((c.docOffset + 1 - c.docOffset) / 2).toNat = 0 by omega]
      exact hp
    · refine Res.Sat.bind ((nextChar_rdSat hr h0 h1 u0).mono (fun _ _ h => h) (fun _ _ h => by rw [h]; exact hp)
        id id) ?_
      rintro _ _ rfl
      refine bind_get (ite_sat (fun _ => ?_) fun h => absurd rfl h)
      refine markOffset_bind ?_
      have hsk : ∀ q : Parser, q.rd = Reader.mk .utf8 c.xmlDoc (c.docOffset + 1) c.endOffset →
          skipChar (ch% '?') q = .ok false { q with offset := c.docOffset + 1 } := by
        intro q hq
        have hlen1 : c.docOffset.toNat + 1 < c.xmlDoc.length := (List.getElem?_eq_some_iff.mp u1).1
        simp only [skipChar, onRd, M.bind_apply, M.zoom_apply, Reader.skipChar, M.get_apply, Res.andThen_ok, hq]
        rw [M.index_of_lt _ _ _ (by omega) (by omega)]
        have : c.xmlDoc[(c.docOffset + 1).toNat]'(by omega) = 0 := by
          have h3 : (c.docOffset + 1).toNat = c.docOffset.toNat + 1 := by omega
          simp only [h3]
          rw [List.getElem?_eq_getElem hlen1] at u1; simpa using u1
        simp only [Res.andThen_ok, M.ite_apply, this]
        rw [if_neg (by decide)]
        simp only [M.pure_apply, Res.andThen_ok, M.bind_apply, M.modify_apply, Reader.getOffset]
        rw [← hq]
        show Res.ok false { q with offset := q.rd.offset } = _
        rw [hq]
      simp only [M.bind_apply, M.and_apply]
      rw [hsk _ (by simp only [Parser.mv, hr])]
      refine ⟨by decide, ?_⟩
      refine markOffset_bind (Res.Sat.bind (Q' := fun _ p' => p'.cfg = c ∧ p'.enc.encoding = FormatUtf16LE ∧
        p'.currentChar = 0 ∧ p'.offset = c.docOffset + 1 + 1) ?_ ?_)
      · refine catch_sat ((nextChar_rdSat (b := 0) (r := c.docOffset + 1) (by simp only [Parser.mv, hr]) (by omega) h1
          (by rw [show (c.docOffset + 1).toNat = c.docOffset.toNat + 1 by omega]; exact u1)).mono
          ?_ (fun _ _ h => h) id id) ?_
        · rintro _ _ rfl
          exact ⟨hp, he, rfl, rfl⟩
        · rintro _ _ rfl
          exact hp
      · rintro _ q ⟨q1, q2, q3, q4⟩
        refine bind_get ?_
        rw [q3]
        refine ite_sat (fun h => absurd h (by decide)) fun _ => ite_sat (fun h => absurd h (by decide))
          fun _ => ite_sat (fun h => absurd h (by decide)) fun _ => ite_sat (fun h => absurd h (by decide))
          fun _ => ?_
        simp only [parseErr, fmtLine, fmtCustomLine, M.bind_apply, M.get_apply, Res.andThen_ok,
          M.ite_apply, q2, q4, q1]
        rw [if_neg (by decide), if_neg (by decide),
          show ((c.docOffset + 1 + 1 - c.docOffset) / 2).toNat = 1 by omega]
        have := docIs_eq (v := 10) q1 u0
        rw [show ((c.docOffset.toNat : Nat) : Int) = c.docOffset by omega] at this
        simp only [lineLoop, M.bind_apply, M.and_apply, this]
        exact q1
  cases hs : step .docStart p with
  | ok st' p' =>
    rw [hs] at key
    rw [mainLoop_step hs]
    exact step_fails key.1 key.2
  | err e s => rw [hs] at key; exact ⟨e, s, mainLoop_err hs (by decide), key⟩
  | panic => rw [hs] at key; exact key.elim
  | diverge => rw [hs] at key; exact key.elim

theorem _root_.GoVtd.Res.Sat.ite {σ α : Type} {q : Prop} [Decidable q] {a b : Res σ α} {Q : α → σ → Prop}
    {E : GoErr → σ → Prop} {P D : Prop} (ha : q → a.Sat Q E P D) (hb : ¬ q → b.Sat Q E P D) :
    (if q then a else b).Sat Q E P D := by
  split
  · exact ha (by assumption)
  · exact hb (by assumption)

theorem decideEncoding_sat (h : Fresh p) :
    (decideEncoding p).Sat
      (fun _ p' => (p' = p ∧ ¬ Utf16BE p.cfg ∧ ¬ Utf16LE p.cfg ∧ p.cfg.endOffset < 2 ^ 31) ∨
        (∃ e, p' = { p with enc := e } ∧ ((Utf16BE p.cfg ∧ e.encoding = FormatUtf16BE) ∨
          (Utf16LE p.cfg ∧ e.encoding = FormatUtf16LE))))
      (Er p.cfg) (ShortStart p.cfg) False := by
  obtain ⟨f1, f2, f3, f4, f5, f6, f7, f8, f9⟩ := h.fields
  have hd := detectEncoding_sat (c := p.cfg) rfl f3 h.start
  simp only [decideEncoding, M.bind_apply]
  cases hr : detectEncoding p with
  | err e q =>
    rw [hr] at hd
    obtain ⟨rfl, m, rfl⟩ := hd
    exact ⟨rfl, trivial⟩
  | panic => rw [hr] at hd; exact hd
  | diverge => rw [hr] at hd; exact hd
  | ok a q =>
    rw [hr] at hd
    simp only [Res.andThen_ok, M.bind_apply, M.get_apply, M.ite_apply, M.raise_apply, M.modify_apply,
      M.pure_apply]
    obtain ⟨rfl, n1, n2⟩ | ⟨rfl, n1⟩ | ⟨rfl, n1⟩ := hd
    · have he : ¬ (q.enc.encoding ≥ FormatUtf16BE) := by rw [f1]; decide
      refine Res.Sat.ite (fun _ => ⟨rfl, trivial⟩) fun hs => ?_
      · rw [if_neg he]
        refine Or.inl ⟨rfl, n1, n2, ?_⟩
        rw [f3, ← h.sum] at hs
        split at hs <;> omega
    · refine Res.Sat.ite (fun _ => ⟨rfl, trivial⟩) fun hs => ?_
      · rw [if_pos (show FormatUtf16BE ≥ FormatUtf16BE by decide)]
        exact Or.inr ⟨_, rfl, Or.inl ⟨n1, rfl⟩⟩
    · refine Res.Sat.ite (fun _ => ⟨rfl, trivial⟩) fun hs => ?_
      · rw [if_pos (show FormatUtf16LE ≥ FormatUtf16BE by decide)]
        exact Or.inr ⟨_, rfl, Or.inr ⟨n1, rfl⟩⟩

/-- Every outcome of `Parse` on a new parser without namespace awareness. -/
theorem parse_sat (h : Fresh p) (hns : p.cfg.nsAware = false) :
    (parse p).Sat (fun _ p' => Base p.cfg p')
      (fun e p' => p'.cfg = p.cfg ∧ (¬ Utf16BE p.cfg → ¬ Utf16LE p.cfg → Er p.cfg e p'))
      (Pn p.cfg ∨ ShortStart p.cfg ∨ ∃ p1 y, begin_ p = .ok () p1 ∧ Reach (.docStart, p1) y ∧ OutOfTable y)
      False := by
  obtain ⟨f1, f2, f3, f4, f5, f6, f7, f8, f9⟩ := h.fields
  rw [parse_eq]
  have hd := decideEncoding_sat h
  simp only [M.bind_apply, begin_]
  cases hr : decideEncoding p with
  | err e q => rw [hr] at hd; exact ⟨hd.1, fun _ _ => hd⟩
  | panic => rw [hr] at hd; exact Or.inr (Or.inl hd)
  | diverge => rw [hr] at hd; exact hd
  | ok a q =>
    rw [hr] at hd
    simp only [Res.andThen_ok, M.bind_apply, M.get_apply]
    have hw : ∃ o, writeVtd .document 0 0 q.depth q = .ok () { q with out := o } ∧ OutOk o := by
      have : q.out = p.out := by
        obtain ⟨rfl, _⟩ | ⟨e, rfl, _⟩ := hd <;> rfl
      obtain ⟨b, h1, h2⟩ := appendFill (this ▸ f9.vtd) (vtdRecord .document 0 0 q.depth)
      simp only [writeVtd, onVtd, M.zoom_apply, h1]
      exact ⟨_, rfl, { (this ▸ f9 : OutOk q.out) with vtd := h2 }⟩
    obtain ⟨o, hw1, hw2⟩ := hw
    rw [hw1, Res.andThen_ok]
    refine bind_get ?_
    obtain ⟨rfl, n1, n2, he⟩ | ⟨e, rfl, hu⟩ := hd
    · by_cases hwin : q.cfg.docOffset ≤ q.cfg.endOffset
      · have hi : Inv q.cfg .docStart { q with out := o } := by
          have := h.inv hwin he
          exact { this with base := this.base.ofOut hw2 }
        refine (mainLoop_ok _ hi hns ?_).mono (fun _ _ h => h) (fun _ _ h => ⟨h.1, fun _ _ => h⟩) ?_ id
        · have := hi.base.off0; have := hi.base.off1
          simp only [loopFuel] at *; omega
        · rintro (hp | ⟨y, h1, h2⟩)
          · exact Or.inl hp
          · exact Or.inr (Or.inr ⟨_, y, rfl, h1, h2⟩)
      · have : nextChar { q with out := o } = .err (newEOFError XmlIncomplete) { q with out := o } := by
          simp only [nextChar, getChar, onRd, M.bind_apply, M.zoom_apply]
          rw [rdGetChar_eq _ (by rw [f2]) (by rw [f2]; exact h.start) (by rw [f2]; exact h.end1), dif_neg]
          · rfl
          · rw [f2]; show ¬ (q.cfg.docOffset < q.cfg.endOffset); omega
        have hm : ∀ fuel, mainLoop (fuel + 1) .docStart { q with out := o } =
            .err (newEOFError XmlIncomplete) { q with out := o } := by
          intro fuel
          simp only [mainLoop, M.bind_apply, M.catchErr_apply, step, processDocStart, this, Res.andThen_err,
            Res.handle_err, onStepErr]
          rfl
        simp only [loopFuel]
        rw [hm]
        exact ⟨rfl, fun _ _ => Er.eof rfl _⟩
    · obtain ⟨e', p', h1, h2⟩ := utf16_err (c := p.cfg) (p := { p with enc := e, out := o })
        (p.cfg.xmlDoc.length + 2) (by omega) rfl f2 h.start h.end1 (by exact hu)
      simp only [loopFuel]
      rw [h1]
      refine ⟨h2, fun n1 n2 => ?_⟩
      obtain ⟨hu, _⟩ | ⟨hu, _⟩ := hu
      · exact absurd hu n1
      · exact absurd hu n2

end Parser
end GoVtd
