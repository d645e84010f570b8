import Verif.Props.NavString
import Verif.Model.Parser.Parse

/-!
# Property C20: prefix and name length of name tokens
-/

namespace GoVtd
open Paged Parser VtdNav

theorem flushLeaf_keeps_vtd (d : Int) : M.Keeps (fun p : Parser => p.out.vtdBuffer) (flushLeaf d) := by
  simp only [flushLeaf, Parser.onL1, Parser.onL2, onL3, onL4]
  keeps

/-- Writing with the deep location cache appends the same record as without. -/
theorem writeVtdL5_vtd (t : Token) (o l d : Int) (p p' : Parser) (e : Nat) (xs : List (BitVec 64))
    (h : p.out.vtdBuffer = Paged.fill e xs) (hw : writeVtdL5 t o l d p = .ok () p') :
    p'.out.vtdBuffer = Paged.fill e (xs ++ [vtdRecord t o l d]) := by
  simp only [writeVtdL5, M.bind_apply, writeVtd_fill t o l d p e xs h, Res.andThen_ok] at hw
  refine (M.Keeps.ok (f := fun p : Parser => p.out.vtdBuffer) ?_ hw).trans rfl
  simp only [Parser.onL1, Parser.onL2, onL3, onL4, onL5]
  keeps [flushLeaf_keeps_vtd]

theorem parseErr_not_ok {α : Type} (msg : String) (p p' : Parser) (a : α) :
    (parseErr msg : M Parser α) p ≠ .ok a p' := by
  simp only [parseErr, M.bind_apply]
  cases fmtLine p <;> simp

/-- The record a start tag gets. -/
theorem writeStartTag_record (p p' : Parser) (e : Nat) (xs : List (BitVec 64))
    (hs : p.enc.singleByteEncoding = true) (h : p.out.vtdBuffer = Paged.fill e xs)
    (hw : writeStartTag p = .ok () p') :
    p.length2 ≤ 511 ∧ p.length1 ≤ 2047 ∧ p'.out.vtdBuffer = Paged.fill e (xs ++
      [vtdRecord .startingTag p.lastOffset (shlOr p.length2 1 p.length1) p.depth]) := by
  simp only [writeStartTag, M.bind_apply, M.get_apply, Res.andThen_ok, M.ite_apply, hs,
    if_true] at hw
  split at hw
  · exact absurd hw (parseErr_not_ok _ _ _ _)
  · rename_i hb
    simp only [maxPrefixLength, maxQnameLength] at hb
    refine ⟨by omega, by omega, ?_⟩
    split at hw
    · rw [writeVtd_fill _ _ _ _ p e xs h] at hw
      cases hw; rfl
    · exact writeVtdL5_vtd _ _ _ _ p p' e xs h hw

theorem onNs3_out {m : M FastLongBuffer Unit} {p p' : Parser} (h : onNs3 m p = .ok () p') :
    p' = { p with ns := p'.ns } := by
  simp only [onNs3, M.zoom_apply] at h
  cases hm : m p.ns.nsBuffer3 <;> rw [hm] at h <;> simp at h
  subst h; rfl

/-- The record an attribute name gets. -/
theorem writeAttrName_record (p p' : Parser) (e : Nat) (xs : List (BitVec 64))
    (hs : p.enc.singleByteEncoding = true) (h : p.out.vtdBuffer = Paged.fill e xs)
    (hw : writeAttrName p = .ok () p') :
    p.length2 ≤ 511 ∧ p.length1 ≤ 2047 ∧ p'.out.vtdBuffer = Paged.fill e (xs ++
      [vtdRecord (if p.at_.isNs then .attrNs else .attrName) p.lastOffset
        (shlOr p.length2 11 p.length1) p.depth]) := by
  simp only [writeAttrName, M.bind_apply, M.get_apply, Res.andThen_ok, M.ite_apply, hs,
    if_true] at hw
  have key : ∀ p1 : Parser, p1 = { p with ns := p1.ns } →
      (if p.length2 > maxPrefixLength ∨ p.length1 > maxQnameLength then
        parseErr (if p.at_.isNs = true then AttrNsPrefixQnameTooLong else AttrNamePrefixQnameTooLong)
      else
        writeVtd (if p.at_.isNs = true then Token.attrNs else Token.attrName) p.lastOffset
          (shlOr p.length2 11 p.length1) p.depth : M Parser Unit) p1 = .ok () p' →
      p.length2 ≤ 511 ∧ p.length1 ≤ 2047 ∧ p'.out.vtdBuffer = Paged.fill e (xs ++
      [vtdRecord (if p.at_.isNs then .attrNs else .attrName) p.lastOffset
        (shlOr p.length2 11 p.length1) p.depth]) := by
    intro p1 hp1 h2
    rw [M.ite_apply] at h2
    split at h2
    · exact absurd h2 (parseErr_not_ok _ _ _ _)
    · rename_i hb
      simp only [maxPrefixLength, maxQnameLength] at hb
      refine ⟨by omega, by omega, ?_⟩
      rw [writeVtd_fill _ _ _ _ p1 e xs (by rw [hp1]; exact h)] at h2
      cases h2; rfl
  split at hw
  · obtain ⟨u, p1, h1, h2⟩ := Res.andThen_eq_ok.mp hw
    exact key p1 (onNs3_out h1) h2
  · exact key p rfl (by rw [M.ite_apply]; exact hw)

/-- The length read back for a name token, from the packed length. -/
theorem name_length (exps : List Int) (xs : List (BitVec 64)) (n : VtdNav)
    (hn : NavOver exps xs n) (i : Nat) (hpage : FirstPage exps i) (t : Tok) (ht : t.Fits)
    (hty : t.type = .startingTag ∨ t.type = .attrName ∨ t.type = .attrNs)
    (hi : xs[i]? = some t.packed) :
    n.getTokenLength i = .ok (if n.nsAware then
      ((t.length / 2 ^ 11 * 2 ^ 16 + t.length % 2 ^ 11 : Nat) : Int)
      else ((t.length % 2 ^ 11 : Nat) : Int)) n := by
  obtain ⟨hlt, hget⟩ := List.getElem?_eq_some_iff.mp hi
  have hi' : (i : Int).toNat < xs.length := by simpa using hlt
  have hv : xs[(i : Int).toNat] = t.packed := by simpa using hget
  have hl := t.packed_toNat ht
  obtain ⟨h1, h2, h3, h4⟩ := ht
  rw [getTokenLength_name hn.fill i hpage.1 hi' hpage.2]
  · rw [hv, show t.packed.toNat / 2 ^ 43 % 2 ^ 9 = t.length / 2 ^ 11 by rw [hl]; omega,
      show t.packed.toNat / 2 ^ 32 % 2 ^ 11 = t.length % 2 ^ 11 by rw [hl]; omega]
  · rw [hv, Tok.type_field _ ⟨h1, h2, h3, h4⟩]
    rcases hty with h | h | h <;> simp [h, Token.code]

/-- The string read back for a name token. -/
theorem name_string (exps : List Int) (xs : List (BitVec 64)) (n : VtdNav)
    (hn : NavOver exps xs n) (i : Nat) (hpage : FirstPage exps i) (t : Tok) (ht : t.Fits)
    (hty : t.type = .startingTag ∨ t.type = .attrName ∨ t.type = .attrNs)
    (hi : xs[i]? = some t.packed) (hb : n.ByteEncoded)
    (hin : t.offset + t.length % 2 ^ 11 < n.doc.length) (hsize : n.doc.length < 2 ^ 31) :
    n.toRawStringAtIndex i = .ok (rangeText n.doc t.offset (t.length % 2 ^ 11)) n := by
  obtain ⟨r1, r2, -, -⟩ := C18_read exps xs n hn i hpage t ht hi
  have r3 := name_length exps xs n hn i hpage t ht hty hi
  have hlen := ht.2.2.1
  simp only [toRawStringAtIndex, M.bind_apply, r1, r2, r3, Res.andThen_ok]
  rw [if_pos (by
    rcases hty with h | h | h <;> simp [h, Token.code])]
  rw [← C21_partial n hb t.offset (t.length % 2 ^ 11) (by omega) hsize (.inl hin)]
  congr 1
  have : ∀ m : Nat, m < 2 ^ 31 → (BitVec.ofInt 32 (m : Int) &&& 0xFFFF#32).toInt = ((m % 2 ^ 16 : Nat) : Int) := by
    intro m hm
    have h32 : (BitVec.ofInt 32 (m : Int) &&& 0xFFFF#32).toNat = m % 2 ^ 16 := by
      rw [BitVec.toNat_and, show (0xFFFF#32).toNat = 2 ^ 16 - 1 by decide,
        Nat.and_two_pow_sub_one_eq_mod]
      simp only [BitVec.ofInt_natCast, BitVec.toNat_ofNat]; omega
    rw [toInt32_of_lt (by omega), h32]
  split
  · rw [this _ (by omega)]; omega
  · rw [this _ (by omega)]; omega

/-- A parser about to write a name token: single-byte encoding, `xs` written so far, name
of length `q` at offset `o` with a prefix of length `l` (0 for none), depth in range. -/
structure AtName (exps : List Int) (xs : List (BitVec 64)) (p : Parser) (o l q : Nat) : Prop where
  small : SmallExps exps
  buffer : LongBufferWith exps xs p.out.vtdBuffer
  single : p.enc.singleByteEncoding = true
  offset : p.lastOffset = o
  prefixLength : p.length2 = l
  nameLength : p.length1 = q
  offset_lt : o < 2 ^ 30
  depth : -1 ≤ p.depth ∧ p.depth ≤ 254

/-- Such a state, at the name of `<a:bc>`. -/
def nameWitness : Parser :=
  { initParser 0 (str% "<a:bc/>") { length := 7, endOffset := 7 } ⟨.utf8, [], 0, 0⟩ with
    lastOffset := 1, length1 := 4, length2 := 1, depth := 0 }

theorem nameWitness_at : AtName [6] [] nameWitness 1 1 4 := by
  have hs : SmallExps [6] := by simp [SmallExps]
  refine ⟨hs, ?_, rfl, rfl, rfl, rfl, by decide, by decide, by decide⟩
  rw [LongBufferWith.iff_fill hs]
  exact withPageSize_small 6 (by decide)

/-- Both writers succeed there. -/
theorem nameWitness_ok : (∃ p', writeStartTag nameWitness = .ok () p') ∧
    (∃ p', writeAttrName nameWitness = .ok () p') := ⟨⟨_, rfl⟩, ⟨_, rfl⟩⟩

/-- C20 for attribute names and namespace declarations. -/
theorem C20_attr (exps : List Int) (xs : List (BitVec 64)) (p p' : Parser) (o l q : Nat)
    (hp : AtName exps xs p o l q) (hpage : FirstPage exps xs.length)
    (hw : writeAttrName p = .ok () p') (n : VtdNav) (hn : n.vtdBuffer = p'.out.vtdBuffer) :
    n.getTokenLength xs.length = .ok (if n.nsAware then (l * 2 ^ 16 + q : Int) else q) n ∧
    (n.ByteEncoded → o + q < n.doc.length → n.doc.length < 2 ^ 31 →
      n.toRawStringAtIndex xs.length = .ok (rangeText n.doc o q) n) := by
  obtain ⟨h1, h2, h3⟩ := writeAttrName_record p p' _ xs hp.single
    ((LongBufferWith.iff_fill hp.small).mp hp.buffer) hw
  rw [hp.prefixLength] at h1
  rw [hp.nameLength] at h2
  rw [hp.prefixLength, hp.nameLength, hp.offset, shlOr_nat l 11 q (by omega) (by omega),
    nat_or_add l 11 q (by omega)] at h3
  let t : Tok := ⟨if p.at_.isNs then .attrNs else .attrName, p.depth, o, l * 2 ^ 11 + q⟩
  have ht : t.Fits := ⟨hp.depth.1, hp.depth.2, by simp only [t]; omega, hp.offset_lt⟩
  have hty : t.type = .startingTag ∨ t.type = .attrName ∨ t.type = .attrNs := by
    simp only [t]; split <;> simp
  have he := t.packed_eq ht
  simp only [t] at he
  have hov : NavOver exps (xs ++ [t.packed]) n :=
    ⟨hp.small, by rw [hn, h3, LongBufferWith.iff_fill hp.small, ← he]⟩
  have hget : (xs ++ [t.packed])[xs.length]? = some t.packed := by simp
  have e1 : t.length / 2 ^ 11 = l := by simp only [t]; omega
  have e2 : t.length % 2 ^ 11 = q := by simp only [t]; omega
  refine ⟨?_, fun hb hin hsize => ?_⟩
  · rw [name_length exps _ n hov _ hpage t ht hty hget, e1, e2]
    simp
  · rw [name_string exps _ n hov _ hpage t ht hty hget hb (by rw [e2]; exact hin) hsize, e2]

/-- What a start tag's length is read back as: the prefix length, shifted by one bit only,
is mixed into the name length. -/
theorem C20_start_exact (exps : List Int) (xs : List (BitVec 64)) (p p' : Parser) (o l q : Nat)
    (hp : AtName exps xs p o l q) (hpage : FirstPage exps xs.length)
    (hw : writeStartTag p = .ok () p') (n : VtdNav) (hn : n.vtdBuffer = p'.out.vtdBuffer) :
    n.getTokenLength xs.length = .ok ((l * 2 ||| q : Nat) : Int) n ∧
    (n.ByteEncoded → o + (l * 2 ||| q) < n.doc.length → n.doc.length < 2 ^ 31 →
      n.toRawStringAtIndex xs.length = .ok (rangeText n.doc o (l * 2 ||| q)) n) := by
  obtain ⟨h1, h2, h3⟩ := writeStartTag_record p p' _ xs hp.single
    ((LongBufferWith.iff_fill hp.small).mp hp.buffer) hw
  rw [hp.prefixLength] at h1
  rw [hp.nameLength] at h2
  rw [hp.prefixLength, hp.nameLength, hp.offset, shlOr_nat l 1 q (by omega) (by omega)] at h3
  have hlt : l * 2 ||| q < 2 ^ 11 := Nat.or_lt_two_pow (by omega) (by omega)
  let t : Tok := ⟨.startingTag, p.depth, o, l * 2 ||| q⟩
  have ht : t.Fits := ⟨hp.depth.1, hp.depth.2, by simp only [t]; omega, hp.offset_lt⟩
  have he := t.packed_eq ht
  simp only [t] at he
  have hov : NavOver exps (xs ++ [t.packed]) n :=
    ⟨hp.small, by rw [hn, h3, LongBufferWith.iff_fill hp.small, ← he]⟩
  have hget : (xs ++ [t.packed])[xs.length]? = some t.packed := by simp
  have e1 : t.length / 2 ^ 11 = 0 := by simp only [t]; omega
  have e2 : t.length % 2 ^ 11 = l * 2 ||| q := by simp only [t]; omega
  refine ⟨?_, fun hb hin hsize => ?_⟩
  · rw [name_length exps _ n hov _ hpage t ht (.inl rfl) hget, e1, e2]
    simp
  · rw [name_string exps _ n hov _ hpage t ht (.inl rfl) hget hb (by rw [e2]; exact hin) hsize, e2]

/-- C20 for start tags without prefix. -/
theorem C20_start_partial (exps : List Int) (xs : List (BitVec 64)) (p p' : Parser) (o q : Nat)
    (hp : AtName exps xs p o 0 q) (hpage : FirstPage exps xs.length)
    (hw : writeStartTag p = .ok () p') (n : VtdNav) (hn : n.vtdBuffer = p'.out.vtdBuffer) :
    n.getTokenLength xs.length = .ok (q : Int) n ∧
    (n.ByteEncoded → o + q < n.doc.length → n.doc.length < 2 ^ 31 →
      n.toRawStringAtIndex xs.length = .ok (rangeText n.doc o q) n) := by
  simpa using C20_start_exact exps xs p p' o 0 q hp hpage hw n hn

/-- For a start tag with a prefix the namespace-aware length is always wrong, -/
theorem C20_start_refuted_ns (exps : List Int) (xs : List (BitVec 64)) (p p' : Parser) (o l q : Nat)
    (hp : AtName exps xs p o l q) (hl : 0 < l) (hpage : FirstPage exps xs.length)
    (hw : writeStartTag p = .ok () p') (n : VtdNav) (hn : n.vtdBuffer = p'.out.vtdBuffer) :
    (n.getTokenLength xs.length).outcome ≠ .value ((l * 2 ^ 16 + q : Nat) : Int) := by
  obtain ⟨h1, h2, -⟩ := writeStartTag_record p p' _ xs hp.single
    ((LongBufferWith.iff_fill hp.small).mp hp.buffer) hw
  rw [hp.prefixLength] at h1
  rw [hp.nameLength] at h2
  have hlt : l * 2 ||| q < 2 ^ 11 := Nat.or_lt_two_pow (by omega) (by omega)
  rw [(C20_start_exact exps xs p p' o l q hp hpage hw n hn).1]
  simp only [Res.outcome, ne_eq, Outcome.value.injEq, Int.natCast_inj]
  omega

/-- and without namespace awareness it can be wrong too: the name `a:bc` of length 4 is
read back with length 6. -/
theorem C20_refuted : ∃ p', writeStartTag nameWitness = .ok () p' ∧ ∀ n : VtdNav,
    n.vtdBuffer = p'.out.vtdBuffer → (n.getTokenLength 0).outcome = .value 6 := by
  obtain ⟨p', h⟩ := nameWitness_ok.1
  refine ⟨p', h, fun n hn => ?_⟩
  have := C20_start_exact [6] [] nameWitness p' 1 1 4 nameWitness_at ⟨by decide, by decide⟩ h n hn
  have h2 := this.1
  simp only [List.length_nil, Int.natCast_zero] at h2
  rw [h2]; rfl

end GoVtd
