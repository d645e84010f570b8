import Verif.Spec.Reader
import Verif.Proofs.Basic
import Verif.Model.Nav

/-!
# Properties C13 to C16: readers
-/

namespace GoVtd
open Reader

/-! ## C13: the window byte by byte, then EOF for ever -/

/-- What the reader of the given kind should return for a byte. -/
def byteOutcome : ReaderKind → UInt8 → Outcome Nat
  | .utf8, b => utf8Outcome b
  | .ascii, b => asciiOutcome b

theorem getChar_eof (r : Reader) (h : r.endOffset ≤ r.offset) :
    getChar r = .err (newEOFError XmlIncomplete) r := by
  simp [getChar, h]

theorem getChar_byte (r : Reader) (o : Nat) (ho : r.offset = o) (he : r.offset < r.endOffset)
    (hlen : o < r.xmlDoc.length) :
    getChar r = if accepts r.kind r.xmlDoc[o] then .ok r.xmlDoc[o].toNat { r with offset := o + 1 }
      else .err (newParseError (refusal r.kind) none none) { r with offset := o + 1 } := by
  simp only [getChar, M.bind_apply, M.get_apply, Res.andThen_ok, M.ite_apply]
  rw [if_neg (by omega), ho, M.index_nat _ _ _ hlen]
  simp [ho]

theorem byteOutcome_eq (k : ReaderKind) (b : UInt8) :
    byteOutcome k b = if accepts k b then .value b.toNat
      else .error (newParseError (refusal k) none none) := by
  cases k
  · have : b.toNat ≤ 0x10FFFF := by have := b.toNat_lt; omega
    simp [byteOutcome, utf8Outcome, accepts, this]
  · simp [byteOutcome, asciiOutcome, accepts, refusal]

theorem getChars_spec (k : Nat) (r : Reader) (o e : Nat) (ho : r.offset = o)
    (he : r.endOffset = e) (hlen : e ≤ r.xmlDoc.length) :
    getChars k r =
      (((window r.xmlDoc o e).take k).map (byteOutcome r.kind) ++
        List.replicate (k - (e - o)) eofOutcome,
       { r with offset := (o + min k (e - o) : Nat) }) := by
  induction k generalizing r o with
  | zero => simp [getChars, ← ho]
  | succ k ih =>
    by_cases h : o < e
    · have hg := getChar_byte r o ho (by omega) (by omega)
      have hw : window r.xmlDoc o e = r.xmlDoc[o] :: window r.xmlDoc (o + 1) e := by
        simp only [window]
        rw [List.drop_eq_getElem_cons (by simp; omega)]
        simp
      have ih' := ih { r with offset := ((o + 1 : Nat) : Int) } (o + 1) rfl he hlen
      simp only [hw, List.take_succ_cons, List.map_cons, byteOutcome_eq, List.cons_append]
      have hmin : o + 1 + min k (e - (o + 1)) = o + min (k + 1) (e - o) := by omega
      have hsub : k - (e - (o + 1)) = k + 1 - (e - o) := by omega
      rw [hmin, hsub] at ih'
      simp only [getChars, hg]
      rw [show ((o : Int) + 1) = ((o + 1 : Nat) : Int) by simp]
      split
      · rename_i h1; split at h1 <;> simp_all
      · rename_i h1; split at h1 <;> simp_all
      · rename_i h1; split at h1 <;> simp_all
      · rename_i h1; split at h1 <;> simp_all
    · have hg := getChar_eof r (by omega)
      have hw : window r.xmlDoc o e = [] := by
        simp only [window]; apply List.drop_eq_nil_of_le; simp; omega
      have hz : e - o = 0 := by omega
      have ih' := ih r o ho he hlen
      simp only [hw, hz, List.take_nil, List.map_nil, List.nil_append, Nat.sub_zero, Nat.min_zero,
        Nat.add_zero] at ih' ⊢
      simp only [getChars, hg, ih']
      simp [List.replicate_succ, eofOutcome, XmlIncomplete]

/-- `k` calls of `GetChar` on a UTF-8 reader return the bytes of the window in order, none
refused, then the EOF error for ever; the reader stops at the end of the window. -/
theorem C13_utf8 (doc : List UInt8) (o e : Nat) (r : Reader) (k : Nat)
    (hr : newUtf8 (some doc) o e = .ok r) :
    (getChars k r).1 = ((window doc o e).take k).map utf8Outcome ++
        List.replicate (k - (e - o)) eofOutcome ∧
    (getChars k r).2 = { r with offset := (o + min k (e - o) : Nat) } := by
  simp only [newUtf8] at hr
  split at hr; · cases hr
  split at hr; · cases hr
  cases hr
  rw [getChars_spec k _ o e rfl rfl (by simp; omega)]
  exact ⟨rfl, rfl⟩

/-- The ASCII reader does the same but refuses bytes above `0x7F` (and steps over them). -/
theorem C13_ascii (doc : List UInt8) (o e : Nat) (r : Reader) (k : Nat)
    (hr : newAscii (some doc) o e = .ok r) :
    (getChars k r).1 = ((window doc o e).take k).map asciiOutcome ++
        List.replicate (k - (e - o)) eofOutcome ∧
    (getChars k r).2 = { r with offset := (o + min k (e - o) : Nat) } := by
  simp only [newAscii] at hr
  split at hr; · cases hr
  split at hr; · cases hr
  cases hr
  rw [getChars_spec k _ o e rfl rfl (by simp; omega)]
  exact ⟨rfl, rfl⟩

example : ∃ r, newUtf8 (some [60, 200, 62, 0]) 1 3 = .ok r ∧
    (getChars 3 r).1 = [.value 200, .value 62, eofOutcome] := ⟨_, rfl, rfl⟩
example : ∃ r, newAscii (some [60, 200, 62, 0]) 0 3 = .ok r ∧
    (getChars 3 r).1 = [.value 60, asciiOutcome 200, .value 62] := ⟨_, rfl, rfl⟩

/-! ## C14: skipping -/

/-- `SkipChar` inside the document does what C14 says; at or behind its end it panics. The
end of the reader's window plays no part. -/
theorem C14_skipChar_exact (r : Reader) (o : Nat) (ho : r.offset = o) (c : Nat) :
    skipChar c r =
      if h : o < r.xmlDoc.length then
        if c = r.xmlDoc[o].toNat then .ok true { r with offset := o + 1 } else .ok false r
      else .panic := by
  simp only [skipChar, M.bind_apply, M.get_apply, Res.andThen_ok]
  split
  · rename_i h
    rw [ho, M.index_nat _ _ _ h]
    simp [ho]
  · rw [M.index_panic _ _ _ (by omega)]
    rfl

/-- `SkipCharSeq` consumes the characters that agree. It returns true when all do, false
when one differs, and panics when the document ends before that. -/
theorem C14_skipCharSeq_exact (r : Reader) (o : Nat) (ho : r.offset = o)
    (hlen : o ≤ r.xmlDoc.length) (cs : List Nat) :
    skipCharSeq cs r =
      if commonPrefix cs (r.xmlDoc.drop o) = cs.length then
        .ok true { r with offset := o + cs.length }
      else if commonPrefix cs (r.xmlDoc.drop o) = (r.xmlDoc.drop o).length then .panic
      else .ok false { r with offset := o + commonPrefix cs (r.xmlDoc.drop o) } := by
  induction cs generalizing r o with
  | nil => simp [skipCharSeq, commonPrefix, ← ho]
  | cons c cs ih =>
    simp only [skipCharSeq, M.bind_apply, C14_skipChar_exact r o ho c]
    by_cases h : o < r.xmlDoc.length
    · rw [dif_pos h, List.drop_eq_getElem_cons h]
      by_cases hc : c = r.xmlDoc[o].toNat
      · have hcp : commonPrefix (c :: cs) (r.xmlDoc[o] :: r.xmlDoc.drop (o + 1)) =
            commonPrefix cs (r.xmlDoc.drop (o + 1)) + 1 := by simp [commonPrefix, hc]
        rw [if_pos hc, hcp]
        simp only [Res.andThen_ok, if_true, List.length_cons]
        rw [ih { r with offset := (o : Int) + 1 } (o + 1) (by simp) (by simp; omega)]
        simp only [Nat.add_right_cancel_iff, Int.natCast_add, Int.natCast_one]
        split
        · simp; omega
        · split
          · rfl
          · simp; omega
      · have hcp : commonPrefix (c :: cs) (r.xmlDoc[o] :: r.xmlDoc.drop (o + 1)) = 0 := by
          simp [commonPrefix, hc]
        rw [if_neg hc, hcp]
        simp [ho.symm]; omega
    · rw [dif_neg h]
      have hd : r.xmlDoc.drop o = [] := List.drop_eq_nil_of_le (by omega)
      simp [hd, commonPrefix]

/-- C14 for single characters inside the document, in its own words. Missing: positions at
the end of the document and sequences that agree only in part, see `C14_refuted`. -/
theorem C14_skipChar_partial (r : Reader) (o : Nat) (ho : r.offset = o)
    (h : o < r.xmlDoc.length) (c : Nat) :
    (skipChar c r = .ok true { r with offset := o + 1 } ∧ r.xmlDoc[o].toNat = c) ∨
    (skipChar c r = .ok false r ∧ r.xmlDoc[o].toNat ≠ c) := by
  rw [C14_skipChar_exact r o ho, dif_pos h]
  by_cases hc : c = r.xmlDoc[o].toNat
  · simp [hc]
  · rw [if_neg hc]; exact .inr ⟨rfl, fun h => hc h.symm⟩

/-- C14 for sequences: true exactly when the document continues with the sequence, which
is then consumed. Missing: the reader after a failed call. -/
theorem C14_skipCharSeq_partial (r : Reader) (o : Nat) (ho : r.offset = o)
    (hlen : o ≤ r.xmlDoc.length) (cs : List Nat) :
    (∃ r', skipCharSeq cs r = .ok true r') ↔
      (r.xmlDoc.drop o).map UInt8.toNat = cs ++ (r.xmlDoc.drop (o + cs.length)).map UInt8.toNat := by
  have key : ∀ (cs : List Nat) (bs : List UInt8), commonPrefix cs bs = cs.length ↔
      bs.map UInt8.toNat = cs ++ (bs.drop cs.length).map UInt8.toNat := by
    intro cs
    induction cs with
    | nil => intro bs; simp [commonPrefix]
    | cons c cs ih =>
      intro bs
      cases bs with
      | nil => simp [commonPrefix]
      | cons b bs =>
        simp only [commonPrefix, List.length_cons]
        split
        · rename_i h; simp [ih bs, h]
        · rename_i h; simp; intro h2; exact absurd h2.symm h
  rw [C14_skipCharSeq_exact r o ho hlen cs, ← List.drop_drop, ← key]
  split
  · rename_i h; simp [h]
  · rename_i h
    simp only [h, iff_false]
    split <;> simp

/-- C14 is false: at the end of the document `SkipChar` panics, and `SkipCharSeq("<!")` on
`<a` returns false but has consumed the `<`. -/
theorem C14_refuted :
    (∃ r, newUtf8 (some [60]) 1 1 = .ok r ∧ skipChar 60 r = .panic) ∧
    (∃ r r', newUtf8 (some [60, 97]) 0 2 = .ok r ∧ skipCharSeq [60, 33] r = .ok false r' ∧
      r'.getOffset = 1) :=
  ⟨⟨_, rfl, rfl⟩, ⟨_, _, rfl, rfl, rfl⟩⟩

example : ∃ r r', newUtf8 (some [60, 33, 97]) 0 3 = .ok r ∧
    skipCharSeq [60, 33] r = .ok true r' ∧ r'.getOffset = 2 := ⟨_, _, rfl, rfl, rfl⟩

/-! ## C15: whole documents -/

/-- A UTF-8 reader can be made over every whole document. Missing from C15: the ASCII
reader, see `C15_refuted`. -/
theorem C15_utf8_partial (doc : List UInt8) :
    ∃ r, newUtf8 (some doc) 0 doc.length = .ok r ∧ r.offset = 0 ∧ r.endOffset = doc.length ∧
      r.xmlDoc = doc := by
  simp only [newUtf8]
  rw [if_neg (by omega), if_neg (by omega)]
  exact ⟨_, rfl, rfl, rfl, rfl⟩

/-- C15 is false for the ASCII reader: no document can be read to its end. -/
theorem C15_refuted (doc : List UInt8) :
    newAscii (some doc) 0 doc.length =
      .error (newInvalidArgumentError "endOffset" IndexOutOfRange none) := by
  simp only [newAscii]
  rw [if_neg (by omega), if_pos (by omega)]

/-- When the constructors succeed, exactly. -/
theorem C15_exact (doc : List UInt8) (o e : Int) :
    ((∃ r, newUtf8 (some doc) o e = .ok r) ↔ 0 ≤ o ∧ 0 ≤ e ∧ e ≤ doc.length) ∧
    ((∃ r, newAscii (some doc) o e = .ok r) ↔ 0 ≤ o ∧ 0 ≤ e ∧ e < doc.length) := by
  constructor
  · simp only [newUtf8]
    repeat' split
    · simp; omega
    · simp; omega
    · simp; omega
  · simp only [newAscii]
    repeat' split
    · simp; omega
    · simp; omega
    · simp; omega

example : ∃ r, newUtf8 (some [60, 97, 47, 62]) 0 4 = .ok r := ⟨_, rfl⟩

/-! ## C16: line ends -/

theorem pack_or (w c : Nat) (hw : w < 2 ^ 31) (hc : c < 2 ^ 32) :
    (BitVec.ofNat 64 w <<< 32) ||| BitVec.ofNat 64 c = packChar w c := by
  apply BitVec.eq_of_toNat_eq
  have h1 : w <<< 32 % 2 ^ 64 = w <<< 32 := by
    rw [Nat.shiftLeft_eq]; apply Nat.mod_eq_of_lt; omega
  simp only [packChar, BitVec.toNat_or, BitVec.toNat_shiftLeft, BitVec.toNat_ofNat]
  rw [Nat.mod_eq_of_lt (show w < 2 ^ 64 by omega), Nat.mod_eq_of_lt (show c < 2 ^ 64 by omega),
    h1, Nat.shiftLeft_eq, Nat.mod_eq_of_lt (show w * 2 ^ 32 + c < 2 ^ 64 by omega)]
  rw [← Nat.shiftLeft_eq, Nat.shiftLeft_add_eq_or_of_lt hc]

/-- What `GetLongCharAt` reports at an offset inside the document: CR LF as a newline of
width two, every other byte (also a bare CR) as itself with width one; a CR that is the
last byte panics. -/
theorem C16_exact (r : Reader) (o : Nat) (h : o < r.xmlDoc.length) :
    getLongCharAt o r =
      if r.xmlDoc[o] = 13 then
        if h1 : o + 1 < r.xmlDoc.length then
          if r.xmlDoc[o + 1] = 10 then .ok (packChar 2 10) r else .ok (packChar 1 13) r
        else .panic
      else .ok (packChar 1 r.xmlDoc[o].toNat) r := by
  have hb := r.xmlDoc[o].toNat_lt
  simp only [getLongCharAt, M.bind_apply, M.get_apply, Res.andThen_ok]
  rw [M.index_nat _ _ _ h]
  simp only [Res.andThen_ok, M.ite_apply]
  split
  · rename_i hcr
    split
    · rename_i h1
      simp only [M.bind_apply]
      rw [show (o : Int) + 1 = ((o + 1 : Nat) : Int) by simp, M.index_nat _ _ _ h1]
      simp only [Res.andThen_ok, M.ite_apply, M.pure_apply, hcr]
      split
      · rfl
      · rfl
    · simp only [M.bind_apply]
      rw [M.index_panic _ _ _ (by omega)]
      rfl
  · simp only [M.pure_apply]
    rw [show (1#64) = BitVec.ofNat 64 1 from rfl, pack_or 1 _ (by decide) (by omega)]

/-- C16 for every byte that is not a CR without a following LF, in its own words: the
character and its width, CR LF counting as one newline of width two. Missing: a bare or
last CR, see `C16_refuted`. -/
theorem C16_partial (r : Reader) (o : Nat) (h : o < r.xmlDoc.length)
    (hcr : r.xmlDoc[o] = 13 → r.xmlDoc[o + 1]? = some 10) :
    getLongCharAt o r =
      .ok (if r.xmlDoc[o] = 13 then packChar 2 10 else packChar 1 r.xmlDoc[o].toNat) r := by
  rw [C16_exact r o h]
  split
  · rename_i h13
    have h2 := hcr h13
    have hlt : o + 1 < r.xmlDoc.length := by
      apply Nat.lt_of_not_le; intro hle
      rw [List.getElem?_eq_none hle] at h2; cases h2
    rw [dif_pos hlt, if_pos]
    rw [List.getElem?_eq_getElem hlt] at h2
    exact Option.some.inj h2
  · rfl

/-- C16 is false: a CR that is the last byte panics, and a bare CR, which the navigator
reports as a newline, is reported as a CR. -/
theorem C16_refuted :
    (∃ r, newUtf8 (some [97, 13]) 0 2 = .ok r ∧ getLongCharAt 1 r = .panic) ∧
    (∃ r, newUtf8 (some [13, 97]) 0 2 = .ok r ∧ getLongCharAt 0 r = .ok (packChar 1 13) r) ∧
    (∃ n, newVtdNav 0 0 2 1 FormatUtf8 false (some [13, 97]) Paged.dflt Paged.dflt Paged.dflt
        Paged.dflt = .ok n () ∧ VtdNav.getChar 0 n = .ok (packChar 1 10) n) :=
  ⟨⟨_, rfl, rfl⟩, ⟨_, rfl, rfl⟩, ⟨_, rfl, rfl⟩⟩

example : ∃ r, newUtf8 (some [97, 13, 10]) 0 3 = .ok r ∧
    getLongCharAt 1 r = .ok (packChar 2 10) r ∧ getLongCharAt 0 r = .ok (packChar 1 97) r :=
  ⟨_, rfl, rfl, rfl⟩

end GoVtd
