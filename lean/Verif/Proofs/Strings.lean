import Verif.Spec.Strings
import Verif.Props.NavString
import Verif.Props.ReachTree

/-!
# Reading the string of a token record
-/

namespace GoVtd

open Parser Grammar Paged VtdNav

/-! ## Moves keep what strings are read from -/

theorem Keeps.of_id {σ α γ : Type} {f : σ → γ} {m : M σ α} (h : M.Keeps id m) : M.Keeps f m := by
  intro s
  have := h s
  cases hc : m s <;> rw [hc] at this <;> simp_all

/-- The tokens, the document and how it is read. -/
def sources (n : VtdNav) : FastLongBuffer × UniByteBuffer × Int × Bool := (n.vtdBuffer, n.xmlBuffer, n.encoding, n.nsAware)

section
variable {f : VtdNav → FastLongBuffer × UniByteBuffer × Int × Bool} (hf : f = sources)
include hf

theorem setCtx_sources (i v : Int) : M.Keeps f (setCtx i v) := by
  subst hf
  unfold setCtx
  keeps

theorem firstChild_sources (fuel : Nat) (i : Int) : M.Keeps f (firstChildLoop fuel i) := by
  subst hf
  induction fuel generalizing i with
  | zero => unfold firstChildLoop; keeps
  | succ fuel ih =>
    unfold firstChildLoop
    keeps [Keeps.of_id (typeOrNone_reads _), Keeps.of_id (getTokenDepth_reads _), Keeps.of_id (ctx_reads _), setCtx_sources rfl _ _, ih _]

theorem lastChild_sources (fuel : Nat) (i l : Int) : M.Keeps f (lastChildLoop fuel i l) := by
  subst hf
  induction fuel generalizing i l with
  | zero => unfold lastChildLoop; keeps
  | succ fuel ih =>
    unfold lastChildLoop
    keeps [Keeps.of_id (typeOrNone_reads _), Keeps.of_id (getTokenDepth_reads _), Keeps.of_id (ctx_reads _), setCtx_sources rfl _ _, ih _ _]

theorem nextSibling_sources (fuel : Nat) (i : Int) : M.Keeps f (nextSiblingLoop fuel i) := by
  subst hf
  induction fuel generalizing i with
  | zero => unfold nextSiblingLoop; keeps
  | succ fuel ih =>
    unfold nextSiblingLoop
    keeps [Keeps.of_id (typeOrNone_reads _), Keeps.of_id (getTokenDepth_reads _), Keeps.of_id (ctx_reads _), setCtx_sources rfl _ _, ih _]

theorem prevSibling_sources (fuel : Nat) (i : Int) : M.Keeps f (prevSiblingLoop fuel i) := by
  subst hf
  induction fuel generalizing i with
  | zero => unfold prevSiblingLoop; keeps
  | succ fuel ih =>
    unfold prevSiblingLoop
    keeps [Keeps.of_id (typeOrNone_reads _), Keeps.of_id (getTokenDepth_reads _), Keeps.of_id (ctx_reads _), setCtx_sources rfl _ _, ih _]

theorem toChildLevel_sources (dir : Direction) :
    M.Keeps f (toChildLevel0 dir) ∧ M.Keeps f (toChildLevel1 dir) ∧ M.Keeps f (toChildLevel2 dir) := by
  subst hf
  have a1 : ∀ i, M.Keeps sources (onL1 (upper32At i)) := fun i => Keeps.of_id (onL1_reads (upper32At_reads i))
  have a2 : ∀ i, M.Keeps sources (onL1 (lower32At i)) := fun i => Keeps.of_id (onL1_reads (lower32At_reads i))
  have a3 : ∀ i, M.Keeps sources (onL2 (upper32At i)) := fun i => Keeps.of_id (onL2_reads (upper32At_reads i))
  have a4 : ∀ i, M.Keeps sources (onL2 (lower32At i)) := fun i => Keeps.of_id (onL2_reads (lower32At_reads i))
  have u1 : ∀ s k i, M.Keeps sources (upperLoop (fun i => onL1 (Paged.lower32At i)) s k i) :=
    fun s k i => Keeps.of_id (upperLoop_reads (fun i => onL1_reads (lower32At_reads i)) s k i)
  have u2 : ∀ s k i, M.Keeps sources (upperLoop (fun i => onL2 (Paged.lower32At i)) s k i) :=
    fun s k i => Keeps.of_id (upperLoop_reads (fun i => onL2_reads (lower32At_reads i)) s k i)
  have c : ∀ i v, M.Keeps sources (setCtx i v) := setCtx_sources rfl
  refine ⟨?_, ?_, ?_⟩
  · unfold toChildLevel0
    repeat' (first
      | with_reducible exact a1 _ | with_reducible exact c _ _
      | exact M.Keeps.pure _ | exact M.Keeps.get | (refine M.Keeps.modify ?_; intro _; rfl) | refine M.Keeps.bind ?_ (fun _ => ?_)
      | refine M.Keeps.ite ?_ ?_ | refine M.Keeps.catchErr ?_ (fun _ => ?_) | split)
  · unfold toChildLevel1
    repeat' (first
      | with_reducible exact a2 _ | with_reducible exact a3 _ | with_reducible exact c _ _ | with_reducible exact u1 _ _ _
      | exact M.Keeps.pure _ | exact M.Keeps.get | (refine M.Keeps.modify ?_; intro _; rfl) | refine M.Keeps.bind ?_ (fun _ => ?_)
      | refine M.Keeps.ite ?_ ?_ | refine M.Keeps.catchErr ?_ (fun _ => ?_) | split)
  · unfold toChildLevel2
    repeat' (first
      | with_reducible exact a4 _ | with_reducible exact a3 _ | with_reducible exact c _ _ | with_reducible exact u2 _ _ _
      | exact M.Keeps.pure _ | exact M.Keeps.get | (refine M.Keeps.modify ?_; intro _; rfl) | refine M.Keeps.bind ?_ (fun _ => ?_)
      | refine M.Keeps.ite ?_ ?_ | refine M.Keeps.catchErr ?_ (fun _ => ?_) | split)

theorem toChild_sources (dir : Direction) : M.Keeps f (toChildElement dir) := by
  subst hf
  obtain ⟨h0, h1, h2⟩ := toChildLevel_sources rfl dir
  have h3 : M.Keeps sources toFirstChild := by
    unfold toFirstChild
    keeps [Keeps.of_id (ctx_reads _), firstChild_sources rfl _ _]
  have h4 : M.Keeps sources toLastChild := by
    unfold toLastChild
    keeps [Keeps.of_id (ctx_reads _), setCtx_sources rfl _ _, lastChild_sources rfl _ _ _]
  unfold toChildElement
  keeps [h0, h1, h2, h3, h4, Keeps.of_id (ctx_reads _), setCtx_sources rfl _ _]

theorem toSibling_sources (dir : Direction) : M.Keeps f (toSiblingElement dir) := by
  subst hf
  have h3 : M.Keeps sources toNextSibling := by
    unfold toNextSibling
    keeps [Keeps.of_id (ctx_reads _), nextSibling_sources rfl _ _]
  have h4 : M.Keeps sources toPrevSibling := by
    unfold toPrevSibling
    keeps [Keeps.of_id (ctx_reads _), prevSibling_sources rfl _ _]
  unfold toSiblingElement
  keeps [h3, h4, Keeps.of_id (ctx_reads _), setCtx_sources rfl _ _, Keeps.of_id (onL1_reads (upper32At_reads _))]

/-- `ToElement` does not touch the tokens or the document. -/
theorem toElement_sources (dir : Direction) : M.Keeps f (toElement dir) := by
  subst hf
  have h3 : M.Keeps sources toRootElement := by
    unfold toRootElement
    keeps [Keeps.of_id (ctx_reads _), setCtx_sources rfl _ _]
  have h4 : M.Keeps sources toParentElement := by
    unfold toParentElement
    keeps [Keeps.of_id (ctx_reads _), setCtx_sources rfl _ _]
  unfold toElement
  keeps [h3, h4, toChild_sources rfl _, toSibling_sources rfl _]

theorem walk_sources (dirs : List Direction) : M.Keeps f (VtdNav.walk dirs) := by
  subst hf
  induction dirs with
  | nil => unfold VtdNav.walk; keeps
  | cons d ds ih => unfold VtdNav.walk; keeps [toElement_sources rfl _, ih]

end

theorem getCurrentIndex_reads : M.Keeps id getCurrentIndex := by
  unfold getCurrentIndex
  keeps [ctx_reads _]

/-! ## The string of a record -/

/-- How many bytes of a token belong to it. -/
def readLength (w : BitVec 64) : Nat := if IsStart w ∨ IsAttr w then qnameLength w else tokenLength w

/-- The length `ToRawStringAtIndex` uses for token `j`. -/
def shownLength (ws : List (BitVec 64)) (j : Nat) (w : BitVec 64) : Nat :=
  if IsStart w ∨ IsAttr w then qnameLength w
  else if tokenType w = 5 ∨ tokenType w = 6 ∨ tokenType w = 11 then firstLength (ws.drop j) else tokenLength w

theorem nsLength (l : Nat) {q : Nat} (hq : q < 2 ^ 11) :
    (BitVec.ofInt 32 ((l * 2 ^ 16 + q : Nat) : Int) &&& 0xFFFF#32).toInt = q := by
  have h1 : (BitVec.ofInt 32 ((l * 2 ^ 16 + q : Nat) : Int) &&& 0xFFFF#32).toNat = q := by
    rw [BitVec.toNat_and, BitVec.ofInt_natCast, BitVec.toNat_ofNat, show (0xFFFF#32).toNat = 2 ^ 16 - 1 by decide,
      Nat.and_two_pow_sub_one_eq_mod]
    omega
  rw [BitVec.toInt_eq_toNat_of_lt (by rw [h1]; omega), h1]

/-- Reading a token as a string is reading a range: the lower thirty bits of its offset, and `shownLength`. -/
theorem raw_range {n : VtdNav} {e : Nat} {ws : List (BitVec 64)} (h : n.vtdBuffer = fill e ws)
    {j : Nat} {w : BitVec 64} (hw : ws[j]? = some w) (hp : j < 2 ^ e)
    (hpage : tokenType w = 5 ∨ tokenType w = 6 ∨ tokenType w = 11 → OnPage e ws j) :
    n.toRawStringAtIndex j = n.toRawStringAtRange ((tokenOffset w % 2 ^ 30 : Nat) : Int) ((shownLength ws j w : Nat) : Int) := by
  obtain ⟨hj, rfl⟩ := List.getElem?_eq_some_iff.1 hw
  have hc2 : (2 : Int) ^ e = ((2 ^ e : Nat) : Int) := by simp
  have hj' : (j : Int).toNat < ws.length := by simpa using hj
  have he : (j : Int) < 2 ^ e := by rw [hc2]; omega
  have ho : tokenOffset ws[j] % 2 ^ 30 = ws[j].toNat % 2 ^ 30 := by simp only [tokenOffset]; omega
  simp only [toRawStringAtIndex, M.bind_apply, getTokenType_eq h j (by omega) hj' he, Res.andThen_ok, Int.toNat_natCast]
  by_cases h0 : IsStart ws[j] ∨ IsAttr ws[j]
  · have ht : ws[j].toNat / 2 ^ 60 = 0 ∨ ws[j].toNat / 2 ^ 60 = 2 ∨ ws[j].toNat / 2 ^ 60 = 3 := by
      simpa only [IsStart, IsAttr, tokenType, Token.code] using h0
    rw [getTokenLength_name h j (by omega) hj' he (by simpa using ht)]
    simp only [Res.andThen_ok, M.bind_apply, getTokenOffset_eq h j (by omega) hj' he, Int.toNat_natCast]
    rw [if_pos (by simp only [Token.code]; omega), shownLength, if_pos h0, ho]
    congr 1
    split
    · exact nsLength _ (Nat.mod_lt _ (by decide))
    · have := nsLength 0 (q := ws[j].toNat / 2 ^ 32 % 2 ^ 11) (Nat.mod_lt _ (by decide))
      rw [Nat.zero_mul, Nat.zero_add] at this
      exact this
  · have ht : ¬ (ws[j].toNat / 2 ^ 60 = 0 ∨ ws[j].toNat / 2 ^ 60 = 2 ∨ ws[j].toNat / 2 ^ 60 = 3) := by
      simpa only [IsStart, IsAttr, tokenType, Token.code] using h0
    have hneg : ¬ (((ws[j].toNat / 2 ^ 60 : Nat) : Int) = Token.startingTag.code ∨ ((ws[j].toNat / 2 ^ 60 : Nat) : Int) = Token.attrName.code ∨
        ((ws[j].toNat / 2 ^ 60 : Nat) : Int) = Token.attrNs.code) := by simp only [Token.code]; omega
    rw [shownLength, if_neg h0, ho]
    by_cases h1 : tokenType ws[j] = 5 ∨ tokenType ws[j] = 6 ∨ tokenType ws[j] = 11
    · rw [if_pos h1, getTokenLength_text h j (hpage h1) hj h1]
      simp only [Res.andThen_ok, M.bind_apply, getTokenOffset_eq h j (by omega) hj' he, Int.toNat_natCast, if_neg hneg]
    · rw [if_neg h1, getTokenLength_plain h j (by omega) hj' he (by
        simp only [tokenType] at h1
        simp only [List.mem_cons, List.not_mem_nil, or_false, Int.toNat_natCast]
        omega)]
      simp only [Res.andThen_ok, M.bind_apply, getTokenOffset_eq h j (by omega) hj' he, Int.toNat_natCast, if_neg hneg]
      rfl

/-- `ToStringAtIndex` is `ToRawStringAtIndex` on these tokens. -/
theorem string_raw {n : VtdNav} {e : Nat} {ws : List (BitVec 64)} (h : n.vtdBuffer = fill e ws)
    {j : Nat} {w : BitVec 64} (hw : ws[j]? = some w) (hp : j < 2 ^ e) (fuel : Nat) : n.toStringAtIndex fuel j = n.toRawStringAtIndex j := by
  obtain ⟨hj, rfl⟩ := List.getElem?_eq_some_iff.1 hw
  have hc2 : (2 : Int) ^ e = ((2 ^ e : Nat) : Int) := by simp
  have hj' : (j : Int).toNat < ws.length := by simpa using hj
  have he : (j : Int) < 2 ^ e := by rw [hc2]; omega
  simp only [toStringAtIndex, M.bind_apply, getTokenType_eq h j (by omega) hj' he, Res.andThen_ok, Int.toNat_natCast, M.ite_apply]
  split
  · rfl
  · next hne =>
    simp only [toRawStringAtIndex, M.bind_apply, getTokenType_eq h j (by omega) hj' he, Res.andThen_ok, Int.toNat_natCast]
    have hneg : ¬ (((ws[j].toNat / 2 ^ 60 : Nat) : Int) = Token.startingTag.code ∨ ((ws[j].toNat / 2 ^ 60 : Nat) : Int) = Token.attrName.code ∨
        ((ws[j].toNat / 2 ^ 60 : Nat) : Int) = Token.attrNs.code) := by simp only [Token.code] at hne ⊢; omega
    simp only [if_neg hneg]
    cases hl : getTokenLength j n with
    | ok l n1 =>
      simp only [Res.andThen_ok, M.bind_apply]
      cases ho : getTokenOffset j n1 with
      | ok o n2 => exact C22_exact fuel n2 o l
      | _ => rfl
    | _ => rfl

/-- A record inside of the bytes that are read, and not an empty text: the string is its bytes. -/
theorem raw_text {n : VtdNav} {e : Nat} {ws : List (BitVec 64)} (h : n.vtdBuffer = fill e ws) (hb : n.ByteEncoded)
    (hsize : n.doc.length < 2 ^ 30) {j : Nat} {w : BitVec 64} (hw : ws[j]? = some w) (hp : j < 2 ^ e)
    (hin : readLength w ≠ 0 → tokenOffset w + readLength w ≤ n.doc.length)
    (hcr : readLength w ≠ 0 → tokenOffset w + readLength w < n.doc.length ∨ n.doc.getLast? ≠ some 13)
    (hne : tokenType w = 5 ∨ tokenType w = 6 ∨ tokenType w = 11 → tokenLength w ≠ 0) :
    n.toRawStringAtIndex j = .ok ((readToken n.doc w).text.map crToLf) n := by
  have hl : shownLength ws j w = readLength w := by
    simp only [shownLength, readLength]
    split
    · rfl
    split
    · next h1 =>
      obtain ⟨hj, rfl⟩ := List.getElem?_eq_some_iff.1 hw
      have := hne h1
      rw [List.drop_eq_getElem_cons hj, firstLength, if_neg (by simpa only [tokenLength] using this)]
      rfl
    · rfl
  have ht : (readToken n.doc w).text = (n.doc.drop (tokenOffset w)).take (readLength w) := rfl
  rw [raw_range h hw hp fun h1 => .inr ⟨j, w, Nat.le_refl _, hp, hw, hne h1⟩, hl, ht]
  by_cases h0 : readLength w = 0
  · rw [h0]
    have := (C21_exact n hb ((tokenOffset w % 2 ^ 30 : Nat) : Int) 0).1 (by
      rw [wrap32_of_range (by omega) (by omega)]; omega)
    simpa using this
  · have h1 := hin h0
    rw [Nat.mod_eq_of_lt (by omega)]
    exact C21_partial n hb _ _ h1 (by omega) (hcr h0)

end GoVtd
