import Verif.Proofs.Nav
import Verif.Props.Token
import Verif.Spec.NavString

/-!
# Properties C20 to C22: lengths of names, raw and resolved strings
-/

namespace GoVtd
open Paged
namespace VtdNav

theorem onXml_byteAt (n : VtdNav) (i : Int) :
    (∃ (_ : 0 ≤ i) (hi : i.toNat < n.doc.length), onXml (UniByteBuffer.byteAt i) n = .ok n.doc[i.toNat] n) ∨
    (¬(0 ≤ i ∧ i < n.doc.length) ∧ onXml (UniByteBuffer.byteAt i) n = .err (indexErr none) n) := by
  by_cases hc : 0 ≤ i ∧ i < n.doc.length
  · left
    refine ⟨hc.1, by omega, ?_⟩
    simp only [onXml, M.zoom_apply, UniByteBuffer.byteAt, M.bind_apply, M.get_apply,
      Res.andThen_ok, M.ite_apply]
    rw [if_neg (by simp only [doc] at hc; omega), M.index_of_lt _ _ _ hc.1 (by simp only [doc] at hc; omega)]
    rfl
  · right
    refine ⟨hc, ?_⟩
    simp only [onXml, M.zoom_apply, UniByteBuffer.byteAt, M.bind_apply, M.get_apply,
      Res.andThen_ok, M.ite_apply]
    rw [if_pos (by simp only [doc] at hc; omega)]
    rfl

/-- The byte the string functions write for offset `i`: a carriage return becomes a
newline, except as the last byte of the document, where it becomes a zero byte. -/
def shownByte (doc : List UInt8) (i : Nat) : UInt8 :=
  match doc[i]? with
  | some 13 => if i + 1 < doc.length then 10 else 0
  | some b => b
  | none => 0

theorem getChar_bytes (n : VtdNav) (hb : n.ByteEncoded) (i : Int) :
    (0 ≤ i ∧ i < n.doc.length → ∃ c, getChar i n = .ok c n ∧
      UInt8.ofNat c.toNat = shownByte n.doc i.toNat) ∧
    (¬(0 ≤ i ∧ i < n.doc.length) → getChar i n = .err (indexErr none) n) := by
  constructor
  · intro h
    rcases onXml_byteAt n i with ⟨h0, hi, hr⟩ | ⟨h', -⟩
    · simp only [getChar, M.bind_apply, hr, Res.andThen_ok, M.get_apply, M.ite_apply]
      rw [if_pos (show n.encoding = FormatAscii ∨ n.encoding = FormatIso88591 ∨
        n.encoding = FormatUtf8 from hb)]
      simp only [getCharByte, shownByte, List.getElem?_eq_getElem hi]
      by_cases hcr : n.doc[i.toNat] = 13
      · simp only [hcr, if_true, M.catchErr_apply, M.bind_apply]
        rcases onXml_byteAt n (i + 1) with ⟨h0', hi', hr'⟩ | ⟨h', hr'⟩
        · simp only [hr', Res.andThen_ok, M.ite_apply, M.pure_apply]
          rw [if_pos (by omega : i.toNat + 1 < n.doc.length)]
          by_cases hlf : n.doc[(i + 1).toNat] = 10
          · simp only [hlf, if_true]
            exact ⟨_, rfl, by decide⟩
          · simp only [hlf, if_false]
            exact ⟨_, rfl, by decide⟩
        · simp only [hr', Res.andThen_err, Res.handle_err, M.pure_apply]
          rw [if_neg (by omega : ¬ i.toNat + 1 < n.doc.length)]
          exact ⟨_, rfl, by decide⟩
      · simp only [hcr, if_false]
        refine ⟨_, rfl, ?_⟩
        have : ((BitVec.ofNat 64 n.doc[i.toNat].toNat ||| 1#64 <<< 32).toNat) =
            1 * 2 ^ 32 + n.doc[i.toNat].toNat := by
          have hlt := n.doc[i.toNat].toNat_lt
          rw [BitVec.toNat_or, BitVec.toNat_ofNat, Nat.mod_eq_of_lt (by omega),
            show (1#64 <<< 32).toNat = 1 * 2 ^ 32 by decide, Nat.or_comm,
            nat_or_add _ 32 _ (by omega)]
        rw [this]
        apply UInt8.toNat_inj.mp
        have hlt := n.doc[i.toNat].toNat_lt
        simp
    · exact absurd h h'
  · intro h
    rcases onXml_byteAt n i with ⟨h0, hi, hr⟩ | ⟨-, hr⟩
    · exact absurd ⟨h0, by omega⟩ h
    · simp only [getChar, M.bind_apply, hr, Res.andThen_err]

theorem writeBytes_ok (readByte : Int → M VtdNav UInt8) (n : VtdNav) (f : Nat → UInt8)
    (count i : Nat) (acc : List UInt8)
    (h : ∀ j, i ≤ j → j < i + count → readByte j n = .ok (f j) n) :
    writeBytes readByte count i acc n = .ok (acc ++ (List.range' i count).map f) n := by
  induction count generalizing i acc with
  | zero => simp [writeBytes]
  | succ count ih =>
    simp only [writeBytes, M.bind_apply, h i (Nat.le_refl i) (by omega), Res.andThen_ok]
    rw [show (i : Int) + 1 = ((i + 1 : Nat) : Int) by simp, ih (i + 1) _ fun j h1 h2 => h j (by omega) (by omega)]
    simp [List.range'_succ]

/-- If the first failing position comes before the end, the loop returns its error. -/
theorem writeBytes_err (readByte : Int → M VtdNav UInt8) (n : VtdNav) (e : GoErr)
    (f : Int → UInt8) (count : Nat) (i : Int) (k : Nat) (hk : k < count) (acc : List UInt8)
    (h1 : ∀ j, i ≤ j → j < i + k → readByte j n = .ok (f j) n) (h2 : readByte (i + k) n = .err e n) :
    writeBytes readByte count i acc n = .err e n := by
  induction count generalizing i acc k with
  | zero => omega
  | succ count ih =>
    simp only [writeBytes, M.bind_apply]
    cases k with
    | zero => simp at h2; simp [h2]
    | succ k =>
      rw [h1 i (by omega) (by omega)]
      simp only [Res.andThen_ok]
      exact ih (i + 1) k (by omega) _ (fun j h3 h4 => h1 j (by omega) (by omega))
        (by rw [← h2]; congr 1; omega)

theorem range'_map_get (doc : List UInt8) (i count : Nat) (h : i + count ≤ doc.length)
    (g : UInt8 → UInt8) (f : Nat → UInt8) (hf : ∀ j, i ≤ j → (hj : j < i + count) →
      f j = g (doc[j]'(by omega))) :
    (List.range' i count).map f = ((doc.drop i).take count).map g := by
  apply List.ext_getElem
  · simp; omega
  · intro k h1 h2
    simp only [List.length_map, List.length_range'] at h1
    simp [hf (i + k) (by omega) (by omega)]

end VtdNav

open VtdNav

/-! ## C21 -/

theorem raw_read (n : VtdNav) (hb : n.ByteEncoded) (j : Nat) (hj : j < n.doc.length) :
    (do let ch ← getChar (j : Int); pure (UInt8.ofNat ch.toNat) : M VtdNav UInt8) n =
      .ok (shownByte n.doc j) n := by
  obtain ⟨c, h1, h2⟩ := (getChar_bytes n hb j).1 ⟨by omega, by omega⟩
  simp only [M.bind_apply, h1, Res.andThen_ok, M.pure_apply, h2, Int.toNat_natCast]

/-- What `ToRawStringAtRange` does for every pair of 32-bit integers: the bounds are
`offset` and the wrapped sum `e`; an empty range gives the empty string wherever it is,
a range inside the document its bytes, any other range an error. -/
theorem C21_exact (n : VtdNav) (hb : n.ByteEncoded) (offset length : Int) :
    let e := wrap32 (offset + length)
    (e ≤ offset → n.toRawStringAtRange offset length = .ok [] n) ∧
    (offset < e → 0 ≤ offset → e ≤ n.doc.length → n.toRawStringAtRange offset length =
      .ok ((List.range' offset.toNat (e - offset).toNat).map (shownByte n.doc)) n) ∧
    (offset < e → ¬(0 ≤ offset ∧ e ≤ n.doc.length) →
      n.toRawStringAtRange offset length = .err (indexErr none) n) := by
  intro e
  refine ⟨?_, ?_, ?_⟩
  · intro h
    simp only [toRawStringAtRange]
    rw [show (wrap32 (offset + length) - offset).toNat = 0 by omega]
    rfl
  · intro h1 h2 h3
    simp only [toRawStringAtRange]
    obtain ⟨o, rfl⟩ := Int.eq_ofNat_of_zero_le h2
    rw [writeBytes_ok _ n (shownByte n.doc) _ o [] fun j hj1 hj2 => raw_read n hb j (by omega)]
    simp [e]
  · intro h1 h2
    simp only [toRawStringAtRange]
    by_cases ho : 0 ≤ offset
    · obtain ⟨o, rfl⟩ := Int.eq_ofNat_of_zero_le ho
      by_cases hin : o < n.doc.length
      · refine writeBytes_err _ n _ (fun j => shownByte n.doc j.toNat) _ _ (n.doc.length - o) (by omega) _ ?_ ?_
        · intro j h3 h4
          obtain ⟨j', rfl⟩ := Int.eq_ofNat_of_zero_le (by omega : 0 ≤ j)
          simpa using raw_read n hb j' (by omega)
        · simp only [M.bind_apply]
          rw [(getChar_bytes n hb _).2 (by omega)]; rfl
      · refine writeBytes_err _ n _ (fun j => 0) _ _ 0 (by omega) _ (by omega) ?_
        simp only [M.bind_apply]
        rw [(getChar_bytes n hb _).2 (by omega)]; rfl
    · refine writeBytes_err _ n _ (fun j => 0) _ _ 0 (by omega) _ (by omega) ?_
      simp only [M.bind_apply]
      rw [(getChar_bytes n hb _).2 (by omega)]; rfl

theorem shown_text (doc : List UInt8) (o l : Nat) (h : o + l ≤ doc.length)
    (hcr : o + l < doc.length ∨ doc.getLast? ≠ some 13) :
    (List.range' o l).map (shownByte doc) = rangeText doc o l := by
  refine range'_map_get doc o l h crToLf _ fun j h1 h2 => ?_
  have hj : j < doc.length := by omega
  simp only [shownByte, crToLf, List.getElem?_eq_getElem hj]
  by_cases h13 : doc[j] = 13
  · have : j + 1 < doc.length := by
      rcases hcr with hcr | hcr
      · omega
      · have : j ≠ doc.length - 1 := by
          intro he
          apply hcr
          rw [List.getLast?_eq_getElem?, ← he, List.getElem?_eq_getElem hj, h13]
        omega
    simp [h13, this]
  · rw [if_neg h13]
    split <;> simp_all

/-- A range inside a document below 2 GB: its bytes, carriage returns shown as newlines,
unless it ends with a carriage return that is the last byte of the document. -/
theorem C21_partial (n : VtdNav) (hb : n.ByteEncoded) (o l : Nat) (hin : o + l ≤ n.doc.length)
    (hsize : n.doc.length < 2 ^ 31) (hcr : o + l < n.doc.length ∨ n.doc.getLast? ≠ some 13) :
    n.toRawStringAtRange o l = .ok (rangeText n.doc o l) n := by
  have hw : wrap32 ((o : Int) + l) = o + l := wrap32_of_range (by omega) (by omega)
  by_cases h0 : l = 0
  · subst h0
    rw [(C21_exact n hb o (0 : Nat)).1 (by rw [hw]; simp)]
    simp [rangeText]
  · rw [(C21_exact n hb o l).2.1 (by rw [hw]; omega) (by omega) (by rw [hw]; omega), hw]
    rw [show ((o : Int) + l - o).toNat = l by omega, Int.toNat_natCast, shown_text n.doc o l hin hcr]

/-- A non-empty range that leaves the document, with an end that is a 32-bit integer, is
refused. -/
theorem C21_partial_error (n : VtdNav) (hb : n.ByteEncoded) (offset length : Int)
    (hl : 0 < length) (hend : Int32Range (offset + length))
    (hout : offset < 0 ∨ (n.doc.length : Int) < offset + length) :
    (n.toRawStringAtRange offset length).outcome.isErrorOf
      (.invalidArgument "index" IndexOutOfRange) := by
  have hw : wrap32 (offset + length) = offset + length := wrap32_of_range hend.1 hend.2
  rw [(C21_exact n hb offset length).2.2 (by rw [hw]; omega) (by rw [hw]; omega)]
  rfl

/-- It never panics and always returns. -/
theorem C21_no_panic (n : VtdNav) (hb : n.ByteEncoded) (offset length : Int) :
    n.toRawStringAtRange offset length ≠ .panic ∧
    n.toRawStringAtRange offset length ≠ .diverge := by
  obtain ⟨h1, h2, h3⟩ := C21_exact n hb offset length
  by_cases he : wrap32 (offset + length) ≤ offset
  · rw [h1 he]; simp
  · by_cases hi : 0 ≤ offset ∧ wrap32 (offset + length) ≤ n.doc.length
    · rw [h2 (by omega) hi.1 hi.2]; simp
    · rw [h3 (by omega) hi]; simp

/-- A navigator over a document. -/
def navDoc (doc : List UInt8) : VtdNav := { navOf [] with xmlBuffer := ⟨doc⟩ }

/-- As stated the property fails: a carriage return at the end of the document becomes a
zero byte, -/
theorem C21_refuted :
    ¬ ∀ (n : VtdNav), n.ByteEncoded → ∀ o l : Nat, o + l ≤ n.doc.length → n.doc.length < 2 ^ 31 →
      n.toRawStringAtRange o l = .ok (rangeText n.doc o l) n := by
  intro h
  have := h (navDoc [97, 13]) (by simp [ByteEncoded, navDoc, navOf, FormatAscii]) 0 2 (by decide)
    (by decide)
  have he := (C21_exact (navDoc [97, 13]) (by simp [ByteEncoded, navDoc, navOf, FormatAscii])
    (0 : Nat) (2 : Nat)).2.1 (by decide) (by decide) (by decide)
  rw [he] at this
  exact absurd this (by simp only [Res.ok.injEq, and_true]; decide)

/-- and a range whose end overflows 32 bits is answered with an empty string. -/
theorem C21_refuted_overflow (n : VtdNav) (hb : n.ByteEncoded) :
    n.toRawStringAtRange 1 (2 ^ 31 - 1) = .ok [] n :=
  (C21_exact n hb 1 (2 ^ 31 - 1)).1 (by decide)

example : (navDoc (str% "<a>b</a>")).toRawStringAtRange 3 1 =
    .ok (str% "b") (navDoc (str% "<a>b</a>")) :=
  C21_partial _ (by simp [ByteEncoded, navDoc, navOf, FormatAscii]) 3 1 (by decide) (by decide)
    (by decide)

/-! ## C22 -/

theorem getChar_ne_amp (n n' : VtdNav) (i : Int) (c : BitVec 64) (h : getChar i n = .ok c n') :
    c ≠ 38 := by
  have key : ∀ (b : UInt8), BitVec.ofNat 64 b.toNat ||| 1#64 <<< 32 ≠ 38 := by
    intro b hb
    have h2 := congrArg (fun v => v.getLsbD 32) hb
    simp only [BitVec.getLsbD_or] at h2
    rw [show (1#64 <<< 32).getLsbD 32 = true by decide, Bool.or_true] at h2
    exact absurd h2 (by decide)
  rcases onXml_byteAt n i with ⟨h0, hi, hr⟩ | ⟨-, hr⟩
  · simp only [getChar, M.bind_apply, hr, Res.andThen_ok, M.get_apply, M.ite_apply] at h
    split at h
    · simp only [getCharByte] at h
      by_cases hcr : n.doc[i.toNat] = 13
      · simp only [hcr, if_true, M.catchErr_apply, M.bind_apply] at h
        rcases onXml_byteAt n (i + 1) with ⟨h0', hi', hr'⟩ | ⟨h', hr'⟩
        · simp only [hr', Res.andThen_ok, M.ite_apply, M.pure_apply] at h
          by_cases hlf : n.doc[(i + 1).toNat] = 10
          · simp only [hlf, if_true, Res.handle_ok, Res.ok.injEq] at h
            rw [← h.1]; decide
          · simp only [hlf, if_false, Res.handle_ok, Res.ok.injEq] at h
            rw [← h.1]; decide
        · simp only [hr', Res.andThen_err, Res.handle_err, M.pure_apply, Res.ok.injEq] at h
          rw [← h.1]; decide
      · simp only [hcr, if_false, M.pure_apply, Res.ok.injEq] at h
        rw [← h.1]
        exact key _
    · split at h
      · simp only [M.pure_apply, Res.ok.injEq] at h
        rw [← h.1]; decide
      · split at h
        · simp at h
        · simp only [M.pure_apply, Res.ok.injEq] at h
          rw [← h.1]; decide
  · simp only [getChar, M.bind_apply, hr, Res.andThen_err] at h
    simp at h

theorem writeBytes_congr (f g : Int → M VtdNav UInt8) (h : ∀ i n, f i n = g i n) (count : Nat) (i : Int)
    (acc : List UInt8) (n : VtdNav) : writeBytes f count i acc n = writeBytes g count i acc n := by
  have : f = g := funext fun i => funext fun n => h i n
  rw [this]

/-- Resolved and raw strings are the same, for every navigator and range: no reference is
ever replaced. In particular the function always returns. -/
theorem C22_exact (fuel : Nat) (n : VtdNav) (offset length : Int) :
    n.toStringAtRange fuel offset length = n.toRawStringAtRange offset length := by
  simp only [toStringAtRange, toRawStringAtRange]
  refine writeBytes_congr _ _ (fun i n => ?_) _ _ _ _
  simp only [getCharResolved, M.bind_apply]
  cases hg : getChar i n with
  | ok c n' =>
    have := getChar_ne_amp n n' i c hg
    simp only [Res.andThen_ok, M.ite_apply]
    rw [if_pos this]
    simp only [M.pure_apply, Res.andThen_ok, Res.ok.injEq, and_true]
    apply UInt8.toNat_inj.mp
    simp [UInt8.toNat_ofNat', BitVec.toNat_setWidth]
  | err e n' => rfl
  | panic => rfl
  | diverge => rfl

/-- A range is returned as it is (carriage returns as newlines). For a range without
references this is the text the property asks for. -/
theorem C22_partial (fuel : Nat) (n : VtdNav) (hb : n.ByteEncoded) (o l : Nat)
    (hin : o + l ≤ n.doc.length) (hsize : n.doc.length < 2 ^ 31)
    (hcr : o + l < n.doc.length ∨ n.doc.getLast? ≠ some 13) :
    n.toStringAtRange fuel o l = .ok (rangeText n.doc o l) n := by
  rw [C22_exact, C21_partial n hb o l hin hsize hcr]

/-- No built-in entity is replaced, in any document, wherever it stands. -/
theorem C22_refuted (ent : List UInt8 × UInt8) (he : ent ∈ builtinEntities) (fuel : Nat)
    (n : VtdNav) (hb : n.ByteEncoded) (o : Nat) (hin : o + ent.1.length ≤ n.doc.length)
    (hent : (n.doc.drop o).take ent.1.length = ent.1) (hsize : n.doc.length < 2 ^ 31) :
    n.toStringAtRange fuel o ent.1.length ≠ .ok [ent.2] n ∧
    n.toStringAtRange fuel o ent.1.length = .ok ent.1 n := by
  have hlast : o + ent.1.length < n.doc.length ∨ n.doc.getLast? ≠ some 13 := by
    by_cases h : o + ent.1.length < n.doc.length
    · exact .inl h
    · right
      rw [List.take_of_length_le (by simp; omega)] at hent
      have hne : ent.1 ≠ [] ∧ ent.1.getLast? ≠ some 13 := by
        simp only [builtinEntities, List.mem_cons, List.not_mem_nil, or_false] at he
        rcases he with rfl | rfl | rfl | rfl | rfl <;> decide
      intro hl
      apply hne.2
      rw [← hent, List.getLast?_drop]
      have : 0 < ent.1.length := List.length_pos_iff.mpr hne.1
      rw [if_neg (by omega), hl]
  have h1 := C22_partial fuel n hb o ent.1.length hin hsize hlast
  have h2 : rangeText n.doc o ent.1.length = ent.1 := by
    rw [rangeText, hent]
    simp only [builtinEntities, List.mem_cons, List.not_mem_nil, or_false] at he
    rcases he with rfl | rfl | rfl | rfl | rfl <;> decide
  rw [h2] at h1
  refine ⟨?_, h1⟩
  rw [h1]
  simp only [builtinEntities, List.mem_cons, List.not_mem_nil, or_false] at he
  rcases he with rfl | rfl | rfl | rfl | rfl <;> simp

example : (navDoc (str% "<a>&lt;</a>")).toStringAtRange 5 3 4 =
    .ok (str% "&lt;") (navDoc (str% "<a>&lt;</a>")) :=
  (C22_refuted (str% "&lt;", ch% '<') (by decide) 5 _
    (by simp [ByteEncoded, navDoc, navOf, FormatAscii]) 3 (by decide) (by decide) (by decide)).2

end GoVtd
