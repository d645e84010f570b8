import Verif.Props.Grammar
import Verif.Proofs.Parser.Shape

/-!
# Properties C31, C33, C35: the records of a successful parse
-/

namespace GoVtd
open Parser Grammar

/-! ## The fields of a record -/

/-- The record of an empty CDATA section that ends with one bracket. -/
def Grammar.Rec.Bad (x : Rec) : Prop := x.tok = .cdataVal ∧ x.len = -1

theorem or_lt_pow {a b k : Nat} (ha : a < 2 ^ k) (hb : b < 2 ^ k) : a ||| b < 2 ^ k := Nat.or_lt_two_pow ha hb

theorem Grammar.BytesAt.le {doc name : List UInt8} {o : Int} (h : BytesAt doc o name) :
    0 ≤ o ∧ o + name.length ≤ doc.length ∧ (doc.drop o.toNat).take name.length = name := by
  obtain ⟨pre, post, rfl, rfl⟩ := h
  refine ⟨by omega, by simp only [List.length_append]; omega, ?_⟩
  rw [Int.toNat_natCast, List.drop_left, List.take_left]

theorem RecOk.bounds {doc : List UInt8} {x : Rec} (h : RecOk doc x) (hb : ¬ x.Bad) :
    0 ≤ x.len ∧ x.len < 2 ^ 20 ∧ x.off ≤ doc.length := by
  by_cases h1 : x.tok = .startingTag
  · obtain ⟨name, k, e1, e2, e3, e4, e5, _⟩ := h.start h1
    have := or_lt_pow (k := 20) (a := k <<< 1) (b := name.length) (by rw [Nat.shiftLeft_eq]; omega) (by omega)
    have := e1.le
    omega
  by_cases h2 : x.tok = .attrName ∨ x.tok = .attrNs
  · obtain ⟨name, k, e1, e2, e3, e4, e5⟩ := h.attr h2
    have := or_lt_pow (k := 20) (a := k <<< 11) (b := name.length) (by rw [Nat.shiftLeft_eq]; omega) (by omega)
    have := e1.le
    omega
  · simp only [not_or] at h2
    obtain ⟨a, b, c⟩ := h.other h1 h2.1 h2.2 (fun e e' => hb ⟨e, e'⟩)
    simp only [maxLen] at b
    omega

theorem Rec.fields {doc : List UInt8} {x : Rec} (h : RecOk doc x) (hl : doc.length < 2 ^ 31) (hb : ¬ x.Bad) :
    tokenType x.word = x.tok.code ∧ tokenDepth x.word = (x.depth % 256).toNat ∧
    tokenLength x.word = x.len.toNat ∧ tokenOffset x.word = x.off.toNat ∧
    qnameLength x.word = x.len.toNat % 2048 := by
  obtain ⟨b1, b2, b3⟩ := RecOk.bounds h hb
  have h0 := h.off
  have hw : x.word.toNat = x.tok.code * 2 ^ 60 + (x.depth % 256).toNat * 2 ^ 52 + x.len.toNat * 2 ^ 32 + x.off.toNat := by
    have := vtdRecord_toNat x.tok x.off.toNat x.len.toNat x.depth (by omega) (by omega)
    rw [← this, Int.toNat_of_nonneg h0, Int.toNat_of_nonneg b1]
    rfl
  have := x.tok.code_lt
  simp only [tokenType, tokenDepth, tokenLength, tokenOffset, qnameLength, hw]
  omega

theorem Rec.bad_type {doc : List UInt8} {x : Rec} (h : RecOk doc x) (hb : x.Bad) : tokenType x.word = 15 := by
  have hlt := x.word.isLt
  have : 0xFFFFFFFF00000000 ≤ x.word.toNat := by
    simp only [Rec.word, vtdRecord, hb.2]
    have e : BitVec.ofInt 64 (-1) = BitVec.allOnes 64 := by decide
    rw [e, BitVec.or_allOnes, BitVec.toNat_or]
    exact Nat.le_trans (by decide) Nat.left_le_or
  simp only [tokenType]
  omega

theorem code_inj {t : Token} : t.code = Token.startingTag.code ↔ t = .startingTag := by
  cases t <;> decide

theorem code_attr {t : Token} : (t.code = Token.attrName.code ∨ t.code = Token.attrNs.code) ↔
    (t = .attrName ∨ t = .attrNs) := by
  cases t <;> decide

theorem isStart_iff {doc : List UInt8} {x : Rec} (h : RecOk doc x) (hl : doc.length < 2 ^ 31) :
    IsStart x.word ↔ x.tok = .startingTag := by
  by_cases hb : x.Bad
  · rw [IsStart, Rec.bad_type h hb, hb.1]; decide
  · rw [IsStart, (Rec.fields h hl hb).1, code_inj]

theorem isAttr_iff {doc : List UInt8} {x : Rec} (h : RecOk doc x) (hl : doc.length < 2 ^ 31) :
    IsAttr x.word ↔ x.tok = .attrName ∨ x.tok = .attrNs := by
  by_cases hb : x.Bad
  · rw [IsAttr, Rec.bad_type h hb, hb.1]; decide
  · rw [IsAttr, (Rec.fields h hl hb).1, code_attr]

theorem not_bad {x : Rec} (h : x.tok ≠ .cdataVal) : ¬ x.Bad := fun hb => h hb.1

/-! ## What is known after a successful parse -/

theorem parsed_recs {fuel : Nat} {opts : List ParserOption} {doc : List UInt8} {o : Nat} (h : SelectRest opts doc o)
    {ws : List (BitVec 64)} (hp : parsedTokens fuel opts = some ws) :
    doc.length < 2 ^ 31 ∧ ∃ recs, ws = (docRec :: recs).map Rec.word ∧ (∀ x ∈ docRec :: recs, RecOk doc x) ∧
      Doc doc.length (doc.drop o) recs := by
  obtain ⟨h1, recs, h2, h3⟩ := (C34_exact fuel opts doc o h ws).1 hp
  refine ⟨h1, recs, h3, ?_, h2⟩
  intro x hx
  rcases List.mem_cons.1 hx with rfl | hx
  · exact RecOk.plain (by decide) (by decide) (by decide) (by decide) (by simp) (by decide) (by decide)
  · exact h2.ok (List.drop_suffix _ _) x hx

theorem startDepths_eq {doc : List UInt8} {recs : List Rec} (h : ∀ x ∈ recs, RecOk doc x) (hl : doc.length < 2 ^ 31) :
    startDepths (recs.map Rec.word) = (starts recs).map Int.toNat := by
  induction recs with
  | nil => rfl
  | cons x xs ih =>
    have hx := h x (by simp)
    have i := ih fun y hy => h y (by simp [hy])
    simp only [startDepths, List.map_cons, List.filter_cons, decide_eq_true_eq, isStart_iff hx hl, starts] at i ⊢
    split
    · rename_i ht
      have := (Rec.fields hx hl (not_bad (by rw [ht]; decide))).2.1
      have h1 := hx.depth1
      obtain ⟨_, _, _, _, _, _, _, h0, _⟩ := hx.start ht
      simp only [List.map_cons, i, List.cons.injEq, and_true, this]
      omega
    · exact i

theorem pre_preorder {ds : List Int} (h : Pre 1 ds) : IsPreorder ((0 :: ds).map Int.toNat) := by
  refine ⟨rfl, ?_⟩
  have key : ∀ (ds : List Int) (m : Int), 0 ≤ m → Pre (m + 1) ds → ∀ (i a b : Nat),
      ((m :: ds).map Int.toNat)[i]? = some a → ((m :: ds).map Int.toNat)[i + 1]? = some b → 1 ≤ b ∧ b ≤ a + 1 := by
    intro ds
    induction ds with
    | nil => intro m h0 _ i a b h1 h2; simp at h2
    | cons d ds ih =>
      intro m h0 hp i a b h1 h2
      obtain ⟨p1, p2, p3⟩ := hp
      cases i with
      | zero =>
        simp only [List.map_cons, List.getElem?_cons_zero, List.getElem?_cons_succ, Option.some.injEq] at h1 h2
        omega
      | succ i => exact ih d (by omega) p3 i a b (by simpa using h1) (by simpa using h2)
  exact key ds 0 (by decide) h

theorem distinct_pairs {doc : List UInt8} {recs : List Rec} {seen : List (List UInt8)} (h : Distinct doc seen recs) :
    (∀ (j : Nat) (y : Rec), recs[j]? = some y → y.tok = .attrName ∨ y.tok = .attrNs →
      (∀ (k : Nat) (z : Rec), k < j → recs[k]? = some z → z.tok ≠ .startingTag) → y.name doc ∉ seen) ∧
    (∀ (i j : Nat) (x y : Rec), i < j → recs[i]? = some x → recs[j]? = some y →
      x.tok = .attrName ∨ x.tok = .attrNs → y.tok = .attrName ∨ y.tok = .attrNs →
      (∀ (k : Nat) (z : Rec), i < k → k < j → recs[k]? = some z → z.tok ≠ .startingTag) → x.name doc ≠ y.name doc) := by
  induction recs generalizing seen with
  | nil => exact ⟨fun _ _ h => by simp at h, fun _ _ _ _ _ h => by simp at h⟩
  | cons a recs ih =>
    rw [Distinct] at h
    split at h
    · rename_i ha
      obtain ⟨i1, i2⟩ := ih h
      refine ⟨?_, ?_⟩
      · intro j y hy hyt hno
        cases j with
        | zero =>
          simp only [List.getElem?_cons_zero, Option.some.injEq] at hy
          subst hy
          rw [ha] at hyt; simp at hyt
        | succ j => exact absurd ha (hno 0 a (by omega) rfl)
      · intro i j x y hij hx hy hxt hyt hno
        cases i with
        | zero =>
          simp only [List.getElem?_cons_zero, Option.some.injEq] at hx
          subst hx
          rw [ha] at hxt; simp at hxt
        | succ i =>
          cases j with
          | zero => omega
          | succ j =>
            exact i2 i j x y (by omega) (by simpa using hx) (by simpa using hy) hxt hyt
              fun k z h1 h2 h3 => hno (k + 1) z (by omega) (by omega) (by simpa using h3)
    split at h
    · rename_i ha ha'
      obtain ⟨i1, i2⟩ := ih h.2
      refine ⟨?_, ?_⟩
      · intro j y hy hyt hno
        cases j with
        | zero =>
          simp only [List.getElem?_cons_zero, Option.some.injEq] at hy
          subst hy
          exact h.1
        | succ j =>
          have := i1 j y (by simpa using hy) hyt fun k z h1 h2 => hno (k + 1) z (by omega) (by simpa using h2)
          simp only [List.mem_cons, not_or] at this
          exact this.2
      · intro i j x y hij hx hy hxt hyt hno
        cases j with
        | zero => omega
        | succ j =>
          cases i with
          | zero =>
            simp only [List.getElem?_cons_zero, Option.some.injEq] at hx
            subst hx
            have := i1 j y (by simpa using hy) hyt fun k z h1 h2 => hno (k + 1) z (by omega) (by omega) (by simpa using h2)
            simp only [List.mem_cons, not_or] at this
            exact fun e => this.1 e.symm
          | succ i =>
            exact i2 i j x y (by omega) (by simpa using hx) (by simpa using hy) hxt hyt
              fun k z h1 h2 h3 => hno (k + 1) z (by omega) (by omega) (by simpa using h3)
    · rename_i ha ha'
      obtain ⟨i1, i2⟩ := ih h
      refine ⟨?_, ?_⟩
      · intro j y hy hyt hno
        cases j with
        | zero =>
          simp only [List.getElem?_cons_zero, Option.some.injEq] at hy
          subst hy
          exact absurd hyt ha'
        | succ j => exact i1 j y (by simpa using hy) hyt fun k z h1 h2 => hno (k + 1) z (by omega) (by simpa using h2)
      · intro i j x y hij hx hy hxt hyt hno
        cases j with
        | zero => omega
        | succ j =>
          cases i with
          | zero =>
            simp only [List.getElem?_cons_zero, Option.some.injEq] at hx
            subst hx
            exact absurd hxt ha'
          | succ i =>
            exact i2 i j x y (by omega) (by simpa using hx) (by simpa using hy) hxt hyt
              fun k z h1 h2 h3 => hno (k + 1) z (by omega) (by omega) (by simpa using h3)

/-- The name that a record denotes. -/
theorem qname_eq {doc : List UInt8} {x : Rec} (h : RecOk doc x) (hl : doc.length < 2 ^ 31) (hb : ¬ x.Bad) :
    qname doc x.word = x.name doc := by
  obtain ⟨_, _, _, h4, h5⟩ := Rec.fields h hl hb
  rw [qname, h4, h5]; rfl

/-- A document with nested elements, attributes and text. -/
def sample : List UInt8 := bytes "<?xml version='1.0'?><a b='c' d='e'>x<f><g h='i'/></f><j/>y</a>"

theorem sample_select : SelectRest [.xmlDoc (some sample)] sample 0 :=
  ⟨⟨sample.length, rfl, by simp⟩, by decide, rfl⟩

/-- The sample is parsed, and the names of the attributes are read. -/
example : (parsedTokens 0 [.xmlDoc (some sample)]).map startDepths = some [0, 1, 2, 1] ∧
    (parsedTokens 0 [.xmlDoc (some sample)]).map (fun ws => (ws.filter IsAttr).map (qname sample)) =
      some [bytes "b", bytes "d", bytes "h"] := by
  decide +kernel

/-! ## C35 -/

/-- Type, offset and length of each record of a parse with default options. -/
def rangesOf (doc : List UInt8) : Option (List (Nat × Nat × Nat)) :=
  (parsedTokens 0 [.xmlDoc (some doc)]).map fun ws => ws.map fun w => (tokenType w, tokenOffset w, tokenLength w)

/-- C35 is false. The record of an empty CDATA section that is closed with one bracket has length -1, which
turns it into a record of a token type that does not exist; and the length in the record of a start tag with
a prefix can reach over the end of the document. -/
theorem C35_refuted :
    rangesOf (bytes "<a><![CDATA[]></a>") = some [(13, 0, 0), (0, 1, 1), (15, 12, 2 ^ 20 - 1)] ∧
    rangesOf (bytes "<prefx:b/>") = some [(13, 0, 0), (0, 1, 15)] ∧ (bytes "<prefx:b/>").length < 1 + 15 := by
  decide +kernel

/-- Non-vacuity: all the records of the sample. -/
example : rangesOf sample = some [(13, 0, 0), (9, 6, 7), (10, 15, 3), (0, 22, 1), (2, 24, 1), (4, 27, 1), (2, 30, 1),
    (4, 33, 1), (5, 36, 1), (0, 38, 1), (0, 41, 1), (2, 43, 1), (4, 46, 1), (0, 55, 1), (5, 58, 1)] := by
  decide +kernel

end GoVtd
