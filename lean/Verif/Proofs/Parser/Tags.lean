import Verif.Proofs.Parser.Steps
import Verif.Proofs.XmlChar

/-!
# Steps over tags and attributes
-/

namespace GoVtd

theorem isNameStartChar_nameChar {ch : Nat} (h : isNameStartChar ch = true) : isNameChar ch = true := by
  rw [isNameStartChar_iff] at h
  rw [isNameChar_iff]
  exact Or.inl h

theorem ofInt64_toNat {x : Int} (h0 : 0 ≤ x) (h1 : x < 2 ^ 63) : (BitVec.ofInt 64 x).toNat = x.toNat := by
  rw [BitVec.toNat_ofInt]; omega

/-- Two 31-bit numbers packed into one word. -/
theorem pack_toNat {a b : Int} (ha : 0 ≤ a) (ha' : a < 2 ^ 31) (hb : 0 ≤ b) (hb' : b < 2 ^ 32) :
    ((BitVec.ofInt 64 a <<< 32) + BitVec.ofInt 64 b).toNat = a.toNat * 2 ^ 32 + b.toNat := by
  rw [BitVec.toNat_add, BitVec.toNat_shiftLeft, ofInt64_toNat ha (by omega),
    ofInt64_toNat hb (by omega), Nat.shiftLeft_eq]
  omega

theorem packOr_toNat {a b : Int} (ha : 0 ≤ a) (ha' : a < 2 ^ 31) (hb : 0 ≤ b) (hb' : b < 2 ^ 32) :
    ((BitVec.ofInt 64 a <<< 32) ||| BitVec.ofInt 64 b).toNat = a.toNat * 2 ^ 32 + b.toNat := by
  rw [BitVec.toNat_or, BitVec.toNat_shiftLeft, ofInt64_toNat ha (by omega),
    ofInt64_toNat hb (by omega), Nat.shiftLeft_eq, Nat.mod_eq_of_lt (by omega),
    nat_or_add _ 32 _ (by omega)]

theorem low32_of {x : BitVec 64} {a b : Nat} (h : x.toNat = a * 2 ^ 32 + b) (hb : b < 2 ^ 31) :
    low32 x = b := by
  have : (x.setWidth 32).toNat = b := by rw [BitVec.toNat_setWidth, h]; omega
  rw [low32, toInt32_of_lt (by omega), this]

theorem high32_of {x : BitVec 64} {a b : Nat} (h : x.toNat = a * 2 ^ 32 + b) (ha : a < 2 ^ 31)
    (hb : b < 2 ^ 32) : high32 x = a := by
  have hmsb : x.msb = false := by
    rw [BitVec.msb_eq_false_iff_two_mul_lt]; omega
  have : ((x.sshiftRight 32).setWidth 32).toNat = a := by
    rw [BitVec.sshiftRight_eq_of_msb_false hmsb, BitVec.toNat_setWidth, BitVec.toNat_ushiftRight, h,
      Nat.shiftRight_eq_div_pow]
    omega
  rw [high32, toInt32_of_lt (by omega), this]

namespace Parser
open Paged
variable {c : ParserCfg} {p : Parser}

/-! ## Caches -/

theorem appendFill {b : FastLongBuffer} (h : ∃ e xs, b = fill e xs) (v : BitVec 64) :
    ∃ b', Paged.append v b = .ok () b' ∧ ∃ e xs, b' = fill e xs := by
  obtain ⟨e, xs, rfl⟩ := h
  exact ⟨_, append_fill _ _ _, _, _, rfl⟩

theorem onL1_eq (hb : Base c p) (v : BitVec 64) :
    ∃ p', onL1 (Paged.append v) p = .ok () p' ∧ Wrote c p p' := by
  obtain ⟨b, h1, h2⟩ := appendFill hb.out.l1 v
  simp only [onL1, M.zoom_apply, h1]
  exact ⟨_, rfl, _, rfl, hb.ofOut { hb.out with l1 := h2 }⟩

theorem onL2_eq (hb : Base c p) (v : BitVec 64) :
    ∃ p', onL2 (Paged.append v) p = .ok () p' ∧ Wrote c p p' := by
  obtain ⟨b, h1, h2⟩ := appendFill hb.out.l2 v
  simp only [onL2, M.zoom_apply, h1]
  exact ⟨_, rfl, _, rfl, hb.ofOut { hb.out with l2 := h2 }⟩

theorem onL3_eq (hb : Base c p) (v : BitVec 64) :
    ∃ p', onL3 (Paged.append v) p = .ok () p' ∧ Wrote c p p' := by
  obtain ⟨b, h1, h2⟩ := appendFill hb.out.l3 v
  simp only [onL3, M.zoom_apply, h1]
  exact ⟨_, rfl, _, rfl, hb.ofOut { hb.out with l3 := h2 }⟩

theorem onL4_eq (hb : Base c p) (v : BitVec 64) :
    ∃ p', onL4 (Paged.append v) p = .ok () p' ∧ Wrote c p p' := by
  obtain ⟨b, h1, h2⟩ := appendFill hb.out.l4 v
  simp only [onL4, M.zoom_apply, h1]
  exact ⟨_, rfl, _, rfl, hb.ofOut { hb.out with l4 := h2 }⟩

theorem onL5_eq (hb : Base c p) (v : BitVec 64) :
    ∃ p', onL5 (Paged.append v) p = .ok () p' ∧ Wrote c p p' := by
  obtain ⟨b, h1, h2⟩ := appendFill hb.out.l5 v
  simp only [onL5, M.zoom_apply, h1]
  exact ⟨_, rfl, _, rfl, hb.ofOut { hb.out with l5 := h2 }⟩

theorem okW_of_eq {m : M Parser Unit} (h : ∃ p', m p = .ok () p' ∧ Wrote c p p') : OkW c p (m p) := by
  obtain ⟨p', h1, h2⟩ := h
  rw [h1]; exact h2

theorem OkW.bind {α β : Type} {m : M Parser α} {k : α → M Parser β} (h : OkW c p (m p))
    (hk : ∀ a p', Base c p' → OkW c p' (k a p')) : OkW c p ((m >>= k) p) := by
  refine Res.Sat.bindWrote h fun a o hb => (hk a _ hb).mono (fun _ _ h => ?_) (fun _ _ h => h) id id
  exact Wrote.trans ⟨_, rfl, hb⟩ h

theorem OkW.pure (hb : Base c p) {α : Type} (a : α) : OkW c p ((Pure.pure a : M Parser α) p) :=
  Wrote.refl hb

theorem OkW.ite {α : Type} {q : Prop} [Decidable q] {a b : M Parser α} (ha : q → OkW c p (a p))
    (hb : ¬ q → OkW c p (b p)) : OkW c p ((if q then a else b) p) := ite_sat ha hb

theorem flushLeaf_ok (hb : Base c p) (d : Int) : OkW c p (flushLeaf d p) := by
  refine bind_get (OkW.ite (fun _ => ?_) fun _ => OkW.ite (fun _ => ?_) fun _ => OkW.ite (fun _ => ?_)
    fun _ => OkW.ite (fun _ => ?_) fun _ => OkW.pure hb _)
  · exact okW_of_eq (onL1_eq hb _)
  · exact okW_of_eq (onL2_eq hb _)
  · exact okW_of_eq (onL3_eq hb _)
  · exact okW_of_eq (onL4_eq hb _)

theorem writeVtdL5_ok (hb : Base c p) (t : Token) (o l d : Int) : OkW c p (writeVtdL5 t o l d p) := by
  refine OkW.bind (writeVtd_ok hb _ _ _ _) fun _ p hb => bind_get ?_
  refine OkW.ite (fun _ => ?_) fun _ => OkW.ite (fun _ => ?_) fun _ => OkW.ite (fun _ => ?_) fun _ =>
    OkW.ite (fun _ => ?_) fun _ => OkW.ite (fun _ => ?_) fun _ => OkW.ite (fun _ => ?_) fun _ =>
    OkW.pure hb _
  · exact ⟨_, rfl, hb.ofOut { hb.out with }⟩
  · refine OkW.bind (flushLeaf_ok hb _) fun _ p hb => ?_
    exact ⟨_, rfl, hb.ofOut { hb.out with }⟩
  · refine OkW.ite (fun _ => ?_) fun _ => ?_
    · refine OkW.bind (okW_of_eq (onL1_eq hb _)) fun _ p hb => ?_
      exact ⟨_, rfl, hb.ofOut { hb.out with }⟩
    · refine OkW.bind (flushLeaf_ok hb _) fun _ p hb => ?_
      exact ⟨_, rfl, hb.ofOut { hb.out with }⟩
  · refine OkW.ite (fun _ => ?_) fun _ => OkW.ite (fun _ => ?_) fun _ => ?_
    · refine OkW.bind (okW_of_eq (onL2_eq hb _)) fun _ p hb => ?_
      exact ⟨_, rfl, hb.ofOut { hb.out with }⟩
    · refine OkW.bind (flushLeaf_ok hb _) fun _ p hb => ?_
      exact ⟨_, rfl, hb.ofOut { hb.out with }⟩
    · exact ⟨_, rfl, hb.ofOut { hb.out with }⟩
  · refine OkW.ite (fun _ => ?_) fun _ => OkW.ite (fun _ => ?_) fun _ => ?_
    · refine OkW.bind (okW_of_eq (onL3_eq hb _)) fun _ p hb => ?_
      exact ⟨_, rfl, hb.ofOut { hb.out with }⟩
    · refine OkW.bind (flushLeaf_ok hb _) fun _ p hb => ?_
      exact ⟨_, rfl, hb.ofOut { hb.out with }⟩
    · exact ⟨_, rfl, hb.ofOut { hb.out with }⟩
  · refine OkW.bind (okW_of_eq (onL5_eq hb _)) fun _ p hb => bind_get (OkW.ite (fun _ => ?_) fun _ => ?_)
    · refine OkW.bind (okW_of_eq (onL4_eq hb _)) fun _ p hb => ?_
      exact ⟨_, rfl, hb.ofOut { hb.out with }⟩
    · exact ⟨_, rfl, hb.ofOut { hb.out with }⟩

theorem finishUp_ok (hb : Base c p) : OkW c p (finishUp p) := by
  refine bind_get (OkW.ite (fun _ => OkW.ite (fun _ => flushLeaf_ok hb _) fun _ => OkW.pure hb _)
    fun _ => flushLeaf_ok hb _)

/-! ## Start tags -/

/-- `length2` changes. -/
theorem startTagLoop_ok {fuel : Nat} {p : Parser} (hb : Base c p) (hns : c.nsAware = false)
    (hf : Enough c p fuel) :
    (startTagLoop fuel p).Sat (fun _ p' => ∃ l r ch, p' = ({ p with length2 := l } : Parser).mv r r ch ∧
      Base c p' ∧ p.rd.offset < r ∧ r ≤ c.endOffset) (Er c) (Pn c) False := by
  induction fuel generalizing p with
  | zero => obtain ⟨n, hn⟩ := hf.pos hb; omega
  | succ fuel ih =>
    refine Res.Sat.bind (nextChar_moved hb) fun _ p' ⟨hm, hle⟩ => bind_get ?_
    obtain ⟨r, ch, rfl, hb', hl⟩ := hm
    simp only [mv_rdOffset] at hle
    refine ite_sat (fun _ => ite_sat (fun _ => bind_modify (bind_get ?_)) fun _ => ?_) fun _ => ?_
    · have hn : p.cfg.nsAware = false := by rw [hb.cfg]; exact hns
      simp only [M.bind_apply, M.and_apply, M.pure_apply, Res.andThen_ok, mv_cfg, hn,
        Bool.false_eq_true, if_false]
      refine (ih (by exact hb') (hf.step (by simp; omega))).mono (fun _ _ h => ?_) (fun _ _ h => h) id id
      obtain ⟨l, r3, ch3, rfl, hb3, h3, h4⟩ := h
      simp only [mv_rdOffset] at h3
      exact ⟨l, r3, ch3, rfl, hb3, by omega, h4⟩
    · refine (ih hb' (hf.step (by simp; omega))).mono (fun _ _ h => ?_) (fun _ _ h => h) id id
      obtain ⟨l, r3, ch3, rfl, hb3, h3, h4⟩ := h
      simp only [mv_rdOffset] at h3
      exact ⟨l, r3, ch3, rfl, hb3, by omega, h4⟩
    · exact ⟨p.length2, r, ch, rfl, hb', by omega, hle⟩

theorem pushTag_sat (hs : SlotsCore c p.tagStack p.at_ p.depth) (h0 : 0 ≤ p.depth)
    (hl : 0 ≤ p.lastOffset) (hl1 : 0 ≤ p.length1) (he : p.lastOffset + p.length1 < c.endOffset)
    (he2 : c.endOffset < 2 ^ 31) (he3 : c.endOffset ≤ c.xmlDoc.length) :
    ∃ t, pushTag p = .ok () { p with tagStack := t } ∧ SlotsCore c t p.at_ p.depth := by
  have hd := hs.dep1
  simp only [pushTag, M.bind_apply, M.get_apply, Res.andThen_ok]
  simp only [setAt]
  rw [if_neg (by rw [hs.tagLen]; omega)]
  refine ⟨_, rfl, { hs with tagLen := by simp [hs.tagLen], tags := fun t ht => ?_ }⟩
  rcases List.mem_or_eq_of_mem_set ht with ht | rfl
  · exact hs.tags t ht
  · have hp := pack_toNat hl1 (by omega) hl (by omega : p.lastOffset < 2 ^ 32)
    rw [low32_of hp (by omega), high32_of hp (by omega) (by omega)]
    exact ⟨by omega, by omega, by omega⟩

theorem writeStartTag_ok (hb : Base c p) : OkW c p (writeStartTag p) := by
  refine bind_get ?_
  rw [hb.single, if_pos rfl]
  exact OkW.ite (fun _ => parseErr_sat hb _) fun _ => OkW.ite (fun _ => writeVtd_ok hb _ _ _ _)
    fun _ => writeVtdL5_ok hb _ _ _ _

theorem startTagNs_eq (hns : p.cfg.nsAware = false) : startTagNs p = .ok () p := by
  simp only [startTagNs, M.bind_apply, M.get_apply, Res.andThen_ok, hns, Bool.false_eq_true, if_false,
    M.pure_apply]

theorem startTagEnd_ok (hb : Base c p) (hns : c.nsAware = false)
    (hs : SlotsCore c p.tagStack p.at_ p.depth) (h0 : 0 ≤ p.depth) (hd : p.depth ≤ 254) {lo : Int}
    (hlo : lo < p.rd.offset) : StepOk c lo (startTagEnd p) := by
  have hn : p.cfg.nsAware = false := by rw [hb.cfg]; exact hns
  refine bind_modify (bind_get (ite_sat (fun _ => ?_) fun _ => ?_))
  · refine bind_modify (Res.Sat.bindMoved (getChar_ok (by exact hb)) fun ch r _ hb' hl => ?_)
    refine bind_modify (bind_get (ite_sat (fun _ => ?_) fun _ => parseErr_sat (by exact hb') _))
    simp only at hl
    simp only [mv_cfg, hn, Bool.false_eq_true, if_false]
    exact processElementTail_ok (by exact hb')
      (by exact { hs with dep0 := by simp; omega, dep1 := by simp; omega }) (by simp; omega)
      (by simp; omega)
  · refine bind_get (ite_sat (fun _ => ?_) fun _ => parseErr_sat (by exact hb) _)
    simp only [hn, Bool.false_eq_true, if_false]
    exact processElementTail_ok (by exact hb) (by exact hs) (by exact hd) (by exact hlo)

theorem processStartTag_ok (h : Inv c .tagStart p) (hns : c.nsAware = false) :
    StepOk c p.rd.offset (processStartTag p) := by
  have hs := h.slots
  have h0 := h.start (by simp)
  obtain ⟨hn0, hn1, hn2⟩ := h.name (by simp)
  have hsy := h.sync (by simp)
  refine bind_get (Res.Sat.bind (startTagLoop_ok h.base hns (Enough.loopFuel h.base h.base.cfg))
    fun _ p' hp => ?_)
  obtain ⟨l2, r, ch, rfl, hb, hl, hle⟩ := hp
  refine bind_modify (bind_get (ite_sat (fun _ => parseErr_sat (by exact hb) _) fun hd => ?_))
  have hd : p.depth ≤ 254 := by simpa [maxDepth] using hd
  have hinc : p.enc.increment = 1 := h.base.inc
  have he2 := hb.end2
  have he1 := hb.end1
  generalize hq : ({ (({ p with length2 := l2 } : Parser).mv r r ch) with
    length1 := (({ p with length2 := l2 } : Parser).mv r r ch).offset -
      (({ p with length2 := l2 } : Parser).mv r r ch).lastOffset -
      (({ p with length2 := l2 } : Parser).mv r r ch).enc.increment } : Parser) = q
  have hq1 : q.length1 = r - p.lastOffset - 1 := by subst hq; simp [hinc]
  have hqb : Base c q := by subst hq; exact hb
  have hql : q.lastOffset = p.lastOffset := by subst hq; rfl
  have hqd : q.depth = p.depth := by subst hq; rfl
  have hqs : SlotsCore c q.tagStack q.at_ q.depth := by subst hq; exact hs
  have hqr : q.rd.offset = r := by subst hq; rfl
  have hqo : q.offset = r := by subst hq; rfl
  clear hq
  obtain ⟨t, ht, hts⟩ := pushTag_sat hqs (by omega) (by omega) (by omega) (by omega) he2 he1
  rw [M.bind_apply, ht, Res.andThen_ok]
  refine bind_modify (Res.Sat.bindWrote (writeStartTag_ok (by exact hqb)) fun _ o hb => ?_)
  have hn : q.cfg.nsAware = false := by rw [hqb.cfg]; exact hns
  rw [M.bind_apply, startTagNs_eq (by exact hn), Res.andThen_ok]
  refine bind_modify (bind_get (ite_sat (fun _ => ?_) fun _ => ?_))
  · refine Res.Sat.bind (nextCharAfterWs_moved (by exact hb)) fun _ p' ⟨hm, hle⟩ => bind_get ?_
    obtain ⟨r2, ch2, rfl, hb2, hl2⟩ := hm
    simp only [mv_rdOffset] at hl2 hle
    refine ite_sat (fun hnm => ?_) fun _ => ?_
    · simp only [M.bind_apply, getPrevOffset_eq hb2, Res.andThen_ok, M.modify_apply, M.pure_apply]
      have := hb2.off0
      have hx := hqb.off0
      refine ⟨⟨hb2, by simpa using hts, fun _ => by simpa [hqd] using hd, fun _ => by simp [hqd, h0],
        fun _ => ⟨by simp; omega, by simp; omega, hle⟩, fun _ => isNameStartChar_nameChar hnm, fun _ => rfl⟩, ?_⟩
      simp; omega
    · exact startTagEnd_ok (by exact hb2) hns (by exact hts) (by simpa [hqd] using h0)
        (by simpa [hqd] using hd) (by simp; omega)
  · exact startTagEnd_ok (by exact hb) hns (by exact hts) (by simpa [hqd] using h0)
      (by simpa [hqd] using hd) (by simp; omega)

/-! ## End tags -/

theorem sameBytes_eq (hp : p.cfg = c) (n : Nat) {a b : Int} (ha : InDoc c a n) (hb : InDoc c b n) :
    ∃ r, sameBytes n a b p = .ok r p := by
  induction n generalizing a b with
  | zero => exact ⟨true, rfl⟩
  | succ n ih =>
    obtain ⟨ha0, _, ha1⟩ := ha
    obtain ⟨hb0, _, hb1⟩ := hb
    obtain ⟨x, _, hx⟩ := docByte_eq hp ha0 (by omega)
    obtain ⟨y, _, hy⟩ := docByte_eq hp hb0 (by omega)
    simp only [sameBytes, M.bind_apply, hx, hy, Res.andThen_ok, M.ite_apply, M.pure_apply]
    split
    · exact ih ⟨by omega, by omega, by omega⟩ ⟨by omega, by omega, by omega⟩
    · exact ⟨false, rfl⟩

theorem processEndTag_ok (h : Inv c .tagEnd p) (h0 : 0 ≤ p.depth) :
    StepOk c p.rd.offset (processEndTag p) := by
  have hs := h.slots
  have hd := h.deep (by decide)
  have hsy := h.sync (by simp)
  have ho0 := h.base.off0
  refine markOffset_bind (bind_get ?_)
  rw [M.bind_apply, M.index_of_lt _ _ _ (by exact h0) (by show _ < p.tagStack.length; rw [hs.tagLen]; show p.depth.toNat < 256; omega)]
  generalize hgt : (p.tagStack[p.depth.toNat]'(by rw [hs.tagLen]; omega)) = t
  have hti := hs.tags t (by rw [← hgt]; exact List.getElem_mem _)
  obtain ⟨t0, t1, t2⟩ := hti
  simp only [Res.andThen_ok]
  refine bind_modify (bind_get (ite_sat (fun _ => ⟨h.base.cfg, trivial⟩) fun hlt => ?_))
  simp only at hlt
  have hlt : p.offset + high32 t < c.endOffset := by rw [h.base.cfg] at hlt; omega
  have he1 := h.base.end1
  have ⟨same, hsame⟩ := sameBytes_eq (c := c) (p := { p with rd := p.rd.setOffset (p.offset + high32 t), lastOffset := p.offset, offset := p.offset + high32 t }) h.base.cfg (high32 t).toNat
    (a := low32 t) (b := p.offset) ⟨t0, by omega, by omega⟩ ⟨ho0, by omega, by omega⟩
  rw [M.bind_apply, hsame, Res.andThen_ok]
  have hb : Base c { p with rd := p.rd.setOffset (p.offset + high32 t), lastOffset := p.offset, offset := p.offset + high32 t } :=
    { h.base with
      off0 := by simp; omega, off1 := by simp [Reader.setOffset], off2 := by simp [Reader.setOffset]; omega
      sent := fun _ => by simp [Reader.setOffset]; omega }
  refine ite_sat (fun _ => ?_) fun _ => parseErr_sat hb _
  refine bind_modify (Res.Sat.bindMoved (nextCharAfterWs_ok (by exact hb)) fun _ r ch hb hl => bind_get ?_)
  simp only [Reader.setOffset] at hl
  refine ite_sat (fun _ => parseErr_sat hb _) fun _ => ite_sat (fun _ => ?_) fun _ => ?_
  · refine markOffset_bind (Res.Sat.bindMoved (nextCharAfterWs_ok (by exact hb)) fun _ r2 ch2 hb2 hl2 => bind_get ?_)
    simp only [mv_rdOffset] at hl2
    refine ite_sat (fun _ => ?_) fun _ => ite_sat (fun _ => ?_) fun _ => ?_
    · simp only [M.bind_apply, recordWsIfSet_eq hb2, Res.andThen_ok]
      exact ⟨Inv.plain hb2 { hs with dep0 := by simp; omega, dep1 := by simp; omega } (by simp; omega) (by decide), by simp; omega⟩
    · exact ⟨Inv.plain hb2 { hs with dep0 := by simp; omega, dep1 := by simp; omega } (by simp; omega) (by decide), by simp; omega⟩
    · refine Res.Sat.bindMoved (handleOtherTextChar_ok hb2 _) fun b r' ch' hb' hl' => ?_
      simp only [mv_rdOffset] at hl'
      exact ⟨Inv.plain hb' { hs with dep0 := by simp; omega, dep1 := by simp; omega } (by simp; omega) (by decide), by simp; omega⟩
  · exact ⟨Inv.plain hb { hs with dep0 := by simp; omega, dep1 := by simp; omega } (by simp; omega) (by decide), by simp; omega⟩

end Parser
end GoVtd
