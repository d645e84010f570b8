import Verif.Proofs.Nav

/-!
# Properties C18 and C19: token records
-/

namespace GoVtd
open Paged

theorem Tok.packed_toNat (t : Tok) (h : t.Fits) :
    t.packed.toNat = t.type.code * 2 ^ 60 + (t.depth % 256).toNat * 2 ^ 52 + t.length * 2 ^ 32 +
      t.offset := by
  obtain ⟨h1, h2, h3, h4⟩ := h
  have := t.type.code_lt
  rw [Tok.packed, BitVec.toNat_ofNat]
  omega

theorem Tok.packed_eq (t : Tok) (h : t.Fits) :
    Parser.vtdRecord t.type t.offset t.length t.depth = t.packed := by
  apply BitVec.eq_of_toNat_eq
  rw [t.packed_toNat h, vtdRecord_toNat _ _ _ _ h.2.2.1 (by have := h.2.2.2; omega)]

theorem Tok.type_field (t : Tok) (h : t.Fits) : t.packed.toNat / 2 ^ 60 = t.type.code := by
  rw [t.packed_toNat h]; obtain ⟨h1, h2, h3, h4⟩ := h; omega

theorem Tok.offset_field (t : Tok) (h : t.Fits) : t.packed.toNat % 2 ^ 30 = t.offset := by
  rw [t.packed_toNat h]; obtain ⟨h1, h2, h3, h4⟩ := h; omega

theorem Tok.length_field (t : Tok) (h : t.Fits) : t.packed.toNat / 2 ^ 32 % 2 ^ 20 = t.length := by
  rw [t.packed_toNat h]; obtain ⟨h1, h2, h3, h4⟩ := h; omega

theorem Tok.depth_field (t : Tok) (h : t.Fits) :
    t.packed.toNat / 2 ^ 52 % 256 = (t.depth % 256).toNat := by
  rw [t.packed_toNat h]; obtain ⟨h1, h2, h3, h4⟩ := h; omega

theorem NavOver.fill {exps xs n} (h : NavOver exps xs n) :
    n.vtdBuffer = Paged.fill (pageExp exps) xs := (LongBufferWith.iff_fill h.1).mp h.2

theorem writeVtd_fill (t : Token) (o l d : Int) (p : Parser) (e : Nat) (xs : List (BitVec 64))
    (h : p.out.vtdBuffer = Paged.fill e xs) :
    Parser.writeVtd t o l d p = .ok () { p with out := { p.out with
      vtdBuffer := Paged.fill e (xs ++ [Parser.vtdRecord t o l d]) } } := by
  simp only [Parser.writeVtd, Parser.onVtd, M.zoom_apply, h, append_fill, Res.zoom_ok]

/-! ## C18 -/

/-- Writing a token whose fields fit never fails and appends its packed form. -/
theorem C18_write (exps : List Int) (hexps : SmallExps exps) (xs : List (BitVec 64)) (p : Parser)
    (hp : LongBufferWith exps xs p.out.vtdBuffer) (t : Tok) (ht : t.Fits) :
    ∃ p', Parser.writeVtd t.type t.offset t.length t.depth p = .ok () p' ∧
      LongBufferWith exps (xs ++ [t.packed]) p'.out.vtdBuffer := by
  refine ⟨_, writeVtd_fill _ _ _ _ p _ xs ((LongBufferWith.iff_fill hexps).mp hp), ?_⟩
  rw [LongBufferWith.iff_fill hexps, t.packed_eq ht]

/-- Reading a packed token gives back its fields; reading changes nothing. The length is
claimed for the types that have neither a prefix part nor the special text rule. -/
theorem C18_read (exps : List Int) (xs : List (BitVec 64)) (n : VtdNav) (hn : NavOver exps xs n)
    (i : Nat) (hpage : FirstPage exps i) (t : Tok) (ht : t.Fits) (hi : xs[i]? = some t.packed) :
    n.getTokenType i = .ok (t.type.code : Int) n ∧
    n.getTokenOffset i = .ok (t.offset : Int) n ∧
    n.getTokenDepth i = .ok t.depth n ∧
    (t.type ∉ [.startingTag, .attrName, .attrNs, .characterData, .cdataVal, .comment] →
      n.getTokenLength i = .ok (t.length : Int) n) := by
  obtain ⟨hlt, hget⟩ := List.getElem?_eq_some_iff.mp hi
  have h := hn.fill
  have hi' : (i : Int).toNat < xs.length := by simpa using hlt
  have hv : xs[(i : Int).toNat] = t.packed := by simpa using hget
  refine ⟨?_, ?_, ?_, ?_⟩
  · rw [VtdNav.getTokenType_eq h i hpage.1 hi' hpage.2, hv, t.type_field ht]
  · rw [VtdNav.getTokenOffset_eq h i hpage.1 hi' hpage.2, hv, t.offset_field ht]
  · rw [VtdNav.getTokenDepth_eq h i hpage.1 hi' hpage.2, hv, t.depth_field ht]
    obtain ⟨h1, h2, -, -⟩ := ht
    congr 1
    split <;> omega
  · intro hty
    rw [VtdNav.getTokenLength_plain h i hpage.1 hi' hpage.2, hv, t.length_field ht]
    rw [hv, t.type_field ht]
    cases htt : t.type <;> simp_all [Token.code]

/-- The round trip: a token written next is read back at the next index. -/
theorem C18_roundtrip (exps : List Int) (hexps : SmallExps exps) (xs : List (BitVec 64))
    (p p' : Parser) (hp : LongBufferWith exps xs p.out.vtdBuffer)
    (hpage : FirstPage exps xs.length) (t : Tok) (ht : t.Fits)
    (hw : Parser.writeVtd t.type t.offset t.length t.depth p = .ok () p')
    (n : VtdNav) (hn : n.vtdBuffer = p'.out.vtdBuffer) :
    (n.getTokenType xs.length).outcome = .value (t.type.code : Int) ∧
    (n.getTokenOffset xs.length).outcome = .value (t.offset : Int) ∧
    (n.getTokenDepth xs.length).outcome = .value t.depth ∧
    (t.type ∉ [.startingTag, .attrName, .attrNs, .characterData, .cdataVal, .comment] →
      (n.getTokenLength xs.length).outcome = .value (t.length : Int)) := by
  obtain ⟨p'', h1, h2⟩ := C18_write exps hexps xs p hp t ht
  rw [hw] at h1
  cases h1
  have := C18_read exps _ n ⟨hexps, hn ▸ h2⟩ xs.length hpage t ht (by simp)
  exact ⟨by rw [this.1]; rfl, by rw [this.2.1]; rfl, by rw [this.2.2.1]; rfl,
    fun h => by rw [this.2.2.2 h]; rfl⟩

/-- The bound on the offset is sharp: offsets from `2^30` on, which Parse admits in
documents of up to 2 GB, are read back modulo `2^30`. -/
theorem C18_offset_bound_sharp (exps : List Int) (hexps : SmallExps exps) (xs : List (BitVec 64))
    (p p' : Parser) (hp : LongBufferWith exps xs p.out.vtdBuffer)
    (hpage : FirstPage exps xs.length) (ty : Token) (o l : Nat) (d : Int) (hl : l < 2 ^ 20)
    (ho : o < 2 ^ 31) (hw : Parser.writeVtd ty o l d p = .ok () p')
    (n : VtdNav) (hn : n.vtdBuffer = p'.out.vtdBuffer) :
    (n.getTokenOffset xs.length).outcome = .value ((o % 2 ^ 30 : Nat) : Int) := by
  have hf := (LongBufferWith.iff_fill hexps).mp hp
  rw [writeVtd_fill _ _ _ _ p _ xs hf] at hw
  cases hw
  rw [VtdNav.getTokenOffset_eq hn xs.length hpage.1 (by simp) hpage.2]
  simp only [Int.toNat_natCast, List.getElem_append_right (Nat.le_refl _), Nat.sub_self,
    List.getElem_cons_zero, Res.outcome]
  rw [vtdRecord_toNat _ _ _ _ hl (by omega)]
  congr 2
  omega

/-! ## C19 -/

/-- The records `ts` as a token buffer. -/
def packAll (ts : List Tok) : List (BitVec 64) := ts.map Tok.packed

/-- The first non-zero length in a list of tokens. -/
def firstNonZero : List Tok → Nat
  | [] => 0
  | t :: ts => if t.length = 0 then firstNonZero ts else t.length

/-- Total length of the text starting at the head of `ts`: a record of maximal length is
continued by the next record if that has the same type and depth and starts where the
previous one ends. -/
def textLength : List Tok → Nat
  | [] => 0
  | [t] => t.length
  | t :: u :: ts =>
    if t.length = 2 ^ 20 - 1 ∧ u.type = t.type ∧ u.depth = t.depth ∧ u.offset = t.offset + t.length
    then t.length + textLength (u :: ts) else t.length

/-- A text token: character data, CDATA or comment. -/
def Tok.IsText (t : Tok) : Prop :=
  t.type = .characterData ∨ t.type = .cdataVal ∨ t.type = .comment

theorem firstLength_pack (ts : List Tok) (h : ∀ t ∈ ts, t.Fits) :
    VtdNav.firstLength (packAll ts) = firstNonZero ts := by
  induction ts with
  | nil => rfl
  | cons t ts ih =>
    have ht := t.length_field (h t (by simp))
    simp only [packAll, List.map, VtdNav.firstLength, firstNonZero, ht]
    split
    · exact ih fun u hu => h u (by simp [hu])
    · rfl

/-- What `GetTokenLength` returns for a text token: the first non-zero length found from
that token on, whatever kind of token it belongs to. -/
theorem C19_exact (exps : List Int) (ts : List Tok) (hts : ∀ t ∈ ts, t.Fits) (n : VtdNav)
    (hn : NavOver exps (packAll ts) n) (hpage : ts.length ≤ 2 ^ pageExp exps)
    (i : Nat) (hi : i < ts.length) (ht : ts[i].IsText) :
    n.getTokenLength i = .ok (firstNonZero (ts.drop i) : Int) n := by
  have hfit := hts ts[i] (List.getElem_mem _)
  have hlt : i < (packAll ts).length := by simpa [packAll] using hi
  have hv : (packAll ts)[i] = ts[i].packed := by simp [packAll]
  rw [VtdNav.getTokenLength_text hn.fill i (.inl (by simpa [packAll] using hpage)) hlt]
  · rw [← firstLength_pack _ fun t h => hts t (List.mem_of_mem_drop h)]
    simp [packAll, List.map_drop]
  · rw [hv, Tok.type_field _ hfit]
    rcases ht with h | h | h <;> simp [h, Token.code]

/-- The claim holds for a text of one non-empty record. -/
theorem C19_partial (exps : List Int) (ts : List Tok) (hts : ∀ t ∈ ts, t.Fits) (n : VtdNav)
    (hn : NavOver exps (packAll ts) n) (hpage : ts.length ≤ 2 ^ pageExp exps)
    (i : Nat) (hi : i < ts.length) (ht : ts[i].IsText)
    (h0 : 0 < ts[i].length) (h1 : ts[i].length < 2 ^ 20 - 1) :
    n.getTokenLength i = .ok (textLength (ts.drop i) : Int) n := by
  rw [C19_exact exps ts hts n hn hpage i hi ht, List.drop_eq_getElem_cons hi]
  have h2 : firstNonZero (ts[i] :: ts.drop (i + 1)) = ts[i].length := by
    simp only [firstNonZero]; rw [if_neg (by omega)]
  rw [h2]
  cases ts.drop (i + 1) with
  | nil => simp [textLength]
  | cons u us => simp only [textLength]; rw [if_neg (by omega)]

/-- A navigator over the given tokens, with default page size. -/
def navOf (ts : List Tok) : VtdNav :=
  { context := [-1], rootIndex := 1, offset := 0, length := 0, depth := 1, encoding := 0,
    nsAware := false, atTerminal := false, ln := 0, xmlBuffer := ⟨[]⟩,
    vtdBuffer := Paged.fill 10 (packAll ts), l1Buffer := Paged.fill 10 [],
    l2Buffer := Paged.fill 10 [], l3Buffer := Paged.fill 10 [], l1index := 0, l2index := 0,
    l3index := 0, l2lower := 0, l2upper := 0, l3lower := 0, l3upper := 0 }

theorem navOf_over (ts : List Tok) : NavOver [] (packAll ts) (navOf ts) := by
  have hs : SmallExps [] := fun _ h => absurd h (by simp)
  exact ⟨hs, (LongBufferWith.iff_fill hs).mpr rfl⟩

/-- As stated the property fails: an empty comment (`<!---->`) gets the length of the token
after it, and a split text only the length of its first piece. -/
theorem C19_refuted :
    ¬ ∀ (exps : List Int) (ts : List Tok) (n : VtdNav), (∀ t ∈ ts, t.Fits) →
      NavOver exps (packAll ts) n → ts.length ≤ 2 ^ pageExp exps →
      ∀ (i : Nat) (hi : i < ts.length), ts[i].IsText →
        n.getTokenLength i = .ok (textLength (ts.drop i) : Int) n := by
  intro h
  let ts : List Tok := [⟨.comment, 0, 7, 0⟩, ⟨.startingTag, 1, 15, 9⟩]
  have hf : ∀ t ∈ ts, t.Fits := by simp [ts, Tok.Fits]
  have h1 := h [] ts (navOf ts) hf (navOf_over ts) (by simp [pageExp, ts]) 0 (by simp [ts])
    (by simp [ts, Tok.IsText])
  rw [C19_exact [] ts hf (navOf ts) (navOf_over ts) (by simp [pageExp, ts]) 0 (by simp [ts])
    (by simp [ts, Tok.IsText])] at h1
  exact absurd h1 (by simp [ts, firstNonZero, textLength])

theorem C19_refuted_split :
    ¬ ∀ (exps : List Int) (ts : List Tok) (n : VtdNav), (∀ t ∈ ts, t.Fits) →
      NavOver exps (packAll ts) n → ts.length ≤ 2 ^ pageExp exps →
      ∀ (i : Nat) (hi : i < ts.length), ts[i].IsText → 0 < ts[i].length →
        n.getTokenLength i = .ok (textLength (ts.drop i) : Int) n := by
  intro h
  let ts : List Tok := [⟨.characterData, 0, 3, 1048575⟩, ⟨.characterData, 0, 1048578, 10⟩]
  have hf : ∀ t ∈ ts, t.Fits := by simp [ts, Tok.Fits]
  have h1 := h [] ts (navOf ts) hf (navOf_over ts) (by simp [pageExp, ts]) 0 (by simp [ts])
    (by simp [ts, Tok.IsText]) (by simp [ts])
  rw [C19_exact [] ts hf (navOf ts) (navOf_over ts) (by simp [pageExp, ts]) 0 (by simp [ts])
    (by simp [ts, Tok.IsText])] at h1
  exact absurd h1 (by simp [ts, firstNonZero, textLength])

/-- The hypotheses of `C19_partial` and `C18_read` are met by an ordinary token list. -/
example :
    let ts : List Tok := [⟨.document, -1, 0, 0⟩, ⟨.startingTag, 0, 1, 1⟩, ⟨.characterData, 0, 3, 5⟩]
    (∀ t ∈ ts, t.Fits) ∧ NavOver [] (packAll ts) (navOf ts) ∧ ts.length ≤ 2 ^ pageExp [] ∧
      FirstPage [] (2 : Nat) ∧ (packAll ts)[2]? = some (ts[2]'(by decide)).packed ∧
      (ts[2]'(by decide)).IsText ∧ (navOf ts).getTokenLength 2 = .ok 5 (navOf ts) := by
  refine ⟨by simp [Tok.Fits], navOf_over _, by simp [pageExp], by simp [FirstPage, pageExp],
    by simp [packAll], by simp [Tok.IsText], ?_⟩
  exact C19_partial [] _ (by simp [Tok.Fits]) _ (navOf_over _) (by simp [pageExp]) 2 (by decide)
    (by simp [Tok.IsText]) (by simp) (by simp)

end GoVtd
