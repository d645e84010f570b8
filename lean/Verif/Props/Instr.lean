import Verif.Spec.Instr
import Verif.Spec.Items
import Verif.Props.Standing
import Verif.Props.NsOnly

/-!
# Property C69: where the records of processing instructions and of the XML declaration point
-/

namespace GoVtd
open Parser Grammar Markup
open Tree (HasPair)

/-! ## Records in pairs -/

/-- What the record `x` and the one after it, `y`, say about the document. -/
structure Told (doc : List UInt8) (x y : Rec) : Prop where
  pi : x.tok = .piName → y.tok = .piVal ∧ 0 ≤ x.len ∧ 0 ≤ y.len ∧
    (InstructionAt doc x.off.toNat x.len.toNat y.off.toNat y.len.toNat ∨
      x.depth = -1 ∧ CutAt doc x.off.toNat x.len.toNat y.off.toNat y.len.toNat)
  decl : x.tok = .decAttrName → y.tok = .decAttrVal ∧ 0 ≤ x.len ∧ 0 ≤ y.len ∧
    DeclarationAt doc x.off.toNat x.len.toNat y.off.toNat y.len.toNat

/-- Every first record of a pair is followed by its second one. -/
def Pairs (doc : List UInt8) (recs : List Rec) : Prop :=
  ∀ i x, recs[i]? = some x → x.tok = .piName ∨ x.tok = .decAttrName → ∃ y, recs[i + 1]? = some y ∧ Told doc x y

section
variable {doc : List UInt8}

theorem Pairs.nil : Pairs doc [] := fun i x h => by simp at h

theorem Pairs.cons {x : Rec} {recs : List Rec} (hx : x.tok ≠ .piName ∧ x.tok ≠ .decAttrName) (h : Pairs doc recs) :
    Pairs doc (x :: recs) := by
  intro i y hy ht
  cases i with
  | zero =>
    simp only [List.getElem?_cons_zero, Option.some.injEq] at hy
    subst hy
    exact absurd ht (by simp [hx.1, hx.2])
  | succ i => simpa using h i y (by simpa using hy) ht

theorem Pairs.pair {x y : Rec} {recs : List Rec} (hx : Told doc x y) (hy : y.tok ≠ .piName ∧ y.tok ≠ .decAttrName)
    (h : Pairs doc recs) : Pairs doc (x :: y :: recs) := by
  intro i z hz ht
  cases i with
  | zero =>
    simp only [List.getElem?_cons_zero, Option.some.injEq] at hz
    subst hz
    exact ⟨y, by simp, hx⟩
  | succ i => simpa using (Pairs.cons hy h) i z (by simpa using hz) ht

theorem Pairs.append {as bs : List Rec} (ha : Pairs doc as) (hb : Pairs doc bs) : Pairs doc (as ++ bs) := by
  intro i x hx ht
  by_cases hi : i < as.length
  · rw [List.getElem?_append_left hi] at hx
    obtain ⟨y, hy, h⟩ := ha i x hx ht
    have := (List.getElem?_eq_some_iff.mp hy).1
    exact ⟨y, by rw [List.getElem?_append_left this]; exact hy, h⟩
  · rw [List.getElem?_append_right (by omega)] at hx
    obtain ⟨y, hy, h⟩ := hb _ x hx ht
    exact ⟨y, by rw [List.getElem?_append_right (by omega), ← hy]; congr 1; omega, h⟩

theorem Pairs.of_all {recs : List Rec} (h : ∀ x ∈ recs, x.tok ≠ .piName ∧ x.tok ≠ .decAttrName) : Pairs doc recs := by
  intro i x hx ht
  have := h x (List.mem_of_getElem? hx)
  exact absurd ht (by simp [this.1, this.2])

theorem pairs_text {t : Token} {o l d : Int} (ht : t ≠ .piName ∧ t ≠ .decAttrName) : Pairs doc (textRecs t o l d) := by
  refine Pairs.of_all fun x hx => ?_
  simp only [textRecs] at hx
  split at hx
  · simp only [List.mem_append, List.mem_map, List.mem_range, List.mem_singleton] at hx
    obtain ⟨i, _, rfl⟩ | rfl := hx <;> exact ht
  · simp only [List.mem_singleton] at hx
    subst hx; exact ht

theorem pairs_tag {d : Int} {seen s recs e r'} (h : TagRest doc.length d seen s recs e r') : Pairs doc recs := by
  induction h with
  | close => exact Pairs.nil
  | attr _ _ _ _ _ _ _ _ _ _ _ _ _ _ ih =>
    refine Pairs.cons ?_ (Pairs.cons (by simp) ih)
    simp only [Grammar.attrRec]; split <;> simp

/-! ## Processing instructions -/

theorem piTarget_at {s : List UInt8} {x : UInt8} {r : List UInt8} (h : PiTarget s x r) :
    ∃ t, s = t ++ x :: r ∧ Target t := by
  cases h with
  | @plain b run _ _ h1 h2 h3 h4 => exact ⟨b :: run, by simp, Or.inl ⟨b, run, rfl, h1, h3⟩⟩
  | @xml a b c y run _ _ h1 h2 h3 h4 h5 =>
    obtain ⟨a', b', c', r', e, ha, hb, hc⟩ := h1
    simp only [List.cons.injEq] at e
    obtain ⟨rfl, rfl, rfl, -⟩ := e
    exact ⟨a :: b :: c :: y :: run, by simp, Or.inr ⟨a, b, c, y, run, rfl, ha, hb, hc, h2, h3, h4⟩⟩

theorem piEndTarget_at {s : List UInt8} {x : UInt8} {r : List UInt8} (h : PiEndTarget s x r) :
    ∃ t, s = t ++ x :: r ∧ Grammar.IsName t := by
  cases h with
  | @mk b run _ _ h1 h2 h3 h4 => exact ⟨b :: run, by simp, b, run, rfl, h1, h3⟩

theorem hasPair_cons {a b c : UInt8} {s : List UInt8} (h : HasPair a b (c :: s)) :
    HasPair a b s ∨ (c = a ∧ s.head? = some b) := by
  obtain ⟨p, q, e⟩ := h
  cases p with
  | nil =>
    simp only [List.nil_append, List.cons_append, List.cons.injEq] at e
    exact Or.inr ⟨e.1.symm, by rw [← e.2]; rfl⟩
  | cons c' p =>
    simp only [List.cons_append, List.cons.injEq] at e
    exact Or.inl ⟨p, q, e.2⟩

theorem piBody_at {s r : List UInt8} (h : PiBody s r) :
    ∃ data, s = data ++ str% "?>" ++ r ∧ (∀ b ∈ data, CharByte b) ∧ ¬ HasPair (ch% '?') (ch% '>') data := by
  induction h with
  | @stop r =>
    refine ⟨[], by simp, nofun, ?_⟩
    rintro ⟨p, q, e⟩
    simp at e
  | @char b r r' h1 h2 _ ih =>
    obtain ⟨data, rfl, hc, hn⟩ := ih
    refine ⟨b :: data, by simp, ?_, ?_⟩
    · intro x hx
      rcases List.mem_cons.1 hx with rfl | hx
      · exact h1
      · exact hc x hx
    · intro hp
      rcases hasPair_cons hp with hp | ⟨e, hq⟩
      · exact hn hp
      · refine h2 e ?_
        cases data with
        | nil => simp at hq
        | cons d data => simpa using hq

theorem offset_toNat {pre s : List UInt8} (h : doc = pre ++ s) : (Grammar.offset doc.length s).toNat = pre.length := by
  simp only [Grammar.offset, h, List.length_append]; omega

theorem told_data {pre t : List UInt8} {s : UInt8} {r1 r2 : List UInt8} {d : Int}
    (hd : doc = pre ++ ch% '?' :: (t ++ s :: r1)) (ht : Target t) (hs : Ws s) (hb : PiBody r1 r2) :
    Told doc ⟨.piName, Grammar.offset doc.length (t ++ s :: r1), (t ++ s :: r1).length - (r1.length + 1), d⟩
      ⟨.piVal, Grammar.offset doc.length r1, r1.length - (r2.length + 2), d⟩ where
  decl := nofun
  pi _ := by
    obtain ⟨data, rfl, hc, hn⟩ := piBody_at hb
    simp only [List.length_append, List.length_cons, List.length_nil]
    refine ⟨trivial, by omega, by omega, Or.inl ?_⟩
    refine .data pre t s data r2 (by rw [hd]; simp) ht hs hc hn ?_ (by omega) ?_ (by omega)
    · rw [offset_toNat (pre := pre ++ [ch% '?']) (by rw [hd]; simp)]
    · rw [offset_toNat (pre := pre ++ [ch% '?'] ++ t ++ [s]) (by rw [hd]; simp)]

theorem pairs_pi {d : Int} {s recs r'} (h : Pi doc.length d s recs r') (hs : ch% '?' :: s <:+ doc) :
    Pairs doc recs ∧ r' <:+ s := by
  obtain ⟨pre, hd⟩ := hs
  cases h with
  | bare h1 h2 =>
    obtain ⟨t, rfl, ht⟩ := piTarget_at h1
    refine ⟨Pairs.pair ⟨fun _ => ?_, nofun⟩ (by simp) Pairs.nil, ⟨t ++ str% "?>", by simp⟩⟩
    simp only [List.length_append, List.length_cons]
    refine ⟨trivial, by omega, by omega, Or.inl ?_⟩
    refine .bare pre t r' (by rw [← hd]; simp) ht ?_ (by omega) rfl rfl
    rw [offset_toNat (pre := pre ++ [ch% '?']) (by rw [← hd]; simp)]
  | @value _ x r1 h1 h2 h3 h4 h5 =>
    obtain ⟨t, rfl, ht⟩ := piTarget_at h1
    refine ⟨Pairs.pair (told_data hd.symm ht h2 h4) (by simp) Pairs.nil, ?_⟩
    exact (h4.suffix).trans suffix_app_cons

theorem pairs_rest {nt : NT} {s : List UInt8} {recs : List Rec} (h : G doc.length nt s recs) (hs : s <:+ doc) :
    Pairs doc recs := by
  induction h with
  | @start pre st b run x r recs e r' recs' h1 h2 h3 h4 h5 h6 h7 h8 ih =>
    refine Pairs.cons (by simp) ((pairs_tag h7).append (ih ?_))
    have h : x :: r <:+ doc := ((List.suffix_append _ _).trans (List.suffix_cons _ _)).trans hs
    exact (TagRest.ok h7 h (by omega) (by omega)).2.1.trans h
  | endTag _ ih => exact ih ((List.suffix_cons _ _).trans hs)
  | close _ _ ih => exact ih (suffix_app_cons.trans hs)
  | @comment pre st r r1 recs h1 h2 ih =>
    refine (pairs_text (by simp)).append (ih ?_)
    exact (((List.suffix_cons _ _).trans h1.suffix).trans (List.suffix_append _ _)).trans hs
  | @cdata pre st r r1 recs h0 h1 h2 ih =>
    refine (pairs_text (by simp)).append (ih ?_)
    exact (h1.suffix.trans (List.suffix_append _ _)).trans hs
  | @doctype pre st r r1 w r2 recs h0 h1 h2 h3 h4 h5 ih =>
    refine Pairs.cons (by simp) (ih ?_)
    subst h4
    exact (suffix_app_cons.trans (h1.suffix.trans (List.suffix_append _ _))).trans hs
  | @pi pre st r recs r1 recs' h1 h2 ih =>
    obtain ⟨p1, p2⟩ := pairs_pi h1 hs
    exact p1.append (ih ((p2.trans (List.suffix_cons _ _)).trans hs))
  | markup _ _ _ ih => exact ih (suffix_app_cons.trans hs)
  | gap _ _ ih =>
    exact (pairs_text (by simp)).append (ih (((List.suffix_cons _ _).trans suffix_app_cons).trans hs))
  | @text prev st w b r r1 recs h0 h1 h2 h3 h4 h5 h6 ih =>
    exact (pairs_text (by simp)).append (ih ((h5.suffix.trans (List.suffix_append _ _)).trans hs))
  | @lost st w r r1 recs h1 h2 h3 ih => exact ih ((h2.suffix.trans (List.suffix_append _ _)).trans hs)
  | done => exact Pairs.nil
  | @piEnd w r x r1 r2 recs h1 h2 h3 h4 h5 h6 h7 ih =>
    obtain ⟨t, rfl, ht⟩ := piEndTarget_at h2
    obtain ⟨pre, hd⟩ := hs
    refine Pairs.pair (told_data (pre := pre ++ w ++ [ch% '<']) (by rw [← hd]; simp) (Or.inl ht) h3 h5) (by simp) (ih ?_)
    refine List.IsSuffix.trans h5.suffix ⟨pre ++ w ++ str% "<?" ++ t ++ [x], by rw [← hd]; simp⟩
  | @piCut w r r1 recs h1 h2 h3 h4 h5 h6 ih =>
    obtain ⟨t, rfl, ht⟩ := piEndTarget_at h2
    obtain ⟨pre, hd⟩ := hs
    refine Pairs.pair ⟨fun _ => ?_, nofun⟩ (by simp) (ih ⟨pre ++ w ++ str% "<?" ++ t ++ [ch% '?'], by rw [← hd]; simp⟩)
    simp only [List.length_append, List.length_cons]
    refine ⟨trivial, by omega, by omega, Or.inr ⟨trivial, pre ++ w, t, r1, by rw [← hd]; simp, ht, h4, ?_, by omega, ?_, rfl⟩⟩
    · rw [offset_toNat (pre := pre ++ w ++ str% "<?") (by rw [← hd]; simp)]
    · rw [offset_toNat (pre := pre ++ w ++ str% "<?" ++ t ++ [ch% '?']) (by rw [← hd]; simp)]

/-! ## The XML declaration -/

theorem pairs_decl {name w w' value : List UInt8} {q q' : UInt8} {r : List UInt8} {l m : Int}
    (hs : name ++ w ++ ch% '=' :: w' ++ q :: value ++ q' :: r <:+ doc) (hw : AllWs w) (hw' : AllWs w') (hq : Grammar.Quote q)
    (hq' : Grammar.Quote q') (h : DeclValue name value l.toNat) (hl : 0 ≤ l) (hm : m = name.length) :
    Pairs doc [⟨.decAttrName, Grammar.offset doc.length (name ++ w ++ ch% '=' :: w' ++ q :: value ++ q' :: r), m, -1⟩,
      ⟨.decAttrVal, Grammar.offset doc.length (value ++ q' :: r), l, -1⟩] := by
  obtain ⟨pre, hd⟩ := hs
  refine Pairs.pair ⟨nofun, fun _ => ⟨rfl, by simp only; omega, hl, ?_⟩⟩ (by simp) Pairs.nil
  refine ⟨pre, name, w, w', q, value, q', r, by rw [← hd]; simp, hw, hw', hq, hq', h, ?_, by simp only; omega, ?_⟩
  · exact (offset_toNat (by rw [← hd])).symm
  · exact (offset_toNat (by rw [← hd]; simp)).symm

theorem pairs_version {s recs r'} (h : Version doc.length s recs r') (hs : s <:+ doc) : Pairs doc recs := by
  cases h with
  | @mk w w' q d r h1 h2 h3 h4 =>
    have := pairs_decl (doc := doc) (name := str% "version") (w := w) (w' := w') (value := str% "1." ++ [d]) (q := q) (q' := q)
      (r := r') (l := 3) (m := 7) (by simpa using hs) h1 h2 h3 h3 (.version h4) (by decide) rfl
    simpa using this

theorem pairs_encoding {s recs r'} (h : Encoding doc.length s recs r') (hs : s <:+ doc) : Pairs doc recs := by
  cases h with
  | @mk w w' q e l q' w2 r h1 h2 h3 h4 h5 h6 h7 =>
    have := pairs_decl (doc := doc) (name := str% "encoding") (w := w) (w' := w') (value := e) (q := q) (q' := q')
      (r := w2 ++ r') (l := l) (m := 8) (by simpa using hs) h1 h2 h3 h5 (.encoding h4) h4.len.1 rfl
    simpa using this

theorem pairs_standalone {s recs r'} (h : Standalone doc.length s recs r') (hs : s <:+ doc) : Pairs doc recs := by
  cases h with
  | @mk w w' q e l q' w2 r h1 h2 h3 h4 h5 h6 h7 =>
    have hv : DeclValue (str% "standalone") e l.toNat ∧ 0 ≤ l := by
      obtain ⟨rfl, rfl⟩ | ⟨h, rfl⟩ := h4
      · exact ⟨.yes, by decide⟩
      · exact ⟨.no h, by decide⟩
    have := pairs_decl (doc := doc) (name := str% "standalone") (w := w) (w' := w') (value := e) (q := q) (q' := q')
      (r := w2 ++ r') (l := l) (m := 10) (by simpa using hs) h1 h2 h3 h5 hv.1 hv.2 rfl
    simpa using this

theorem pairs_declRest {s recs r'} (h : DeclRest doc.length s recs r') (hs : s <:+ doc) : Pairs doc recs := by
  cases h with
  | none => exact Pairs.nil
  | ws => exact Pairs.nil
  | enc _ _ h => exact pairs_encoding h ((List.suffix_append _ _).trans hs)
  | alone _ _ h => exact pairs_standalone h ((List.suffix_append _ _).trans hs)
  | both _ _ h h' =>
    have h1 := (List.suffix_append _ _).trans hs
    exact (pairs_encoding h h1).append (pairs_standalone h' ((h.ok h1).2.trans h1))

theorem pairs_doc {s recs} (h : Doc doc.length s recs) (hs : s <:+ doc) : Pairs doc recs := by
  cases h with
  | @decl x m l s w r recs r1 recs1 w' r2 recs2 h1 h2 h3 h4 h5 h6 h7 =>
    have e0 : r <:+ doc := List.IsSuffix.trans ⟨ch% '<' :: ch% '?' :: x :: m :: l :: s :: w, by simp⟩ hs
    have e1 := (h4.ok e0).2.trans e0
    exact ((pairs_version h4 e0).append (pairs_declRest h5 e1)).append
      (pairs_rest h7 ((suffix_app_cons.trans (h5.ok e1).2).trans e1))
  | plain h1 h2 => exact pairs_rest h2 (((List.suffix_append _ _).trans (List.suffix_cons _ _)).trans hs)
  | space _ _ h => exact pairs_rest h (suffix_app_cons.trans hs)

end

/-! ## C69 -/

theorem told_words {doc : List UInt8} {o : Nat} {recs : List Rec} (hl : doc.length < 2 ^ 31)
    (h : Doc doc.length (doc.drop o) recs) {i : Nat} {v : BitVec 64}
    (hv : ((docRec :: recs).map Rec.word)[i]? = some v) :
    (tokenType v = Token.piName.code → ∃ w, ((docRec :: recs).map Rec.word)[i + 1]? = some w ∧
      tokenType w = Token.piVal.code ∧ (InstructionAt doc (tokenOffset v) (tokenLength v) (tokenOffset w) (tokenLength w) ∨
        tokenDepth v = 255 ∧ CutAt doc (tokenOffset v) (tokenLength v) (tokenOffset w) (tokenLength w))) ∧
    (tokenType v = Token.decAttrName.code → ∃ w, ((docRec :: recs).map Rec.word)[i + 1]? = some w ∧
      tokenType w = Token.decAttrVal.code ∧ DeclarationAt doc (tokenOffset v) (tokenLength v) (tokenOffset w) (tokenLength w)) := by
  have hsuf := List.drop_suffix o doc
  have hok : ∀ x ∈ docRec :: recs, RecOk doc x := by
    intro x hx
    rcases List.mem_cons.1 hx with rfl | hx
    · exact docRec_ok doc
    · exact Doc.ok h hsuf x hx
  have hp : Pairs doc (docRec :: recs) := Pairs.cons (by decide) (pairs_doc h hsuf)
  rw [List.getElem?_map, Option.map_eq_some_iff] at hv
  obtain ⟨x, hx, rfl⟩ := hv
  have kx := hok x (List.mem_of_getElem? hx)
  constructor
  · intro ht
    have ht := (Rec.type_iff kx hl (by decide)).1 ht
    obtain ⟨y, hy, hT⟩ := hp i x hx (Or.inl ht)
    obtain ⟨a1, a2, a3, a4⟩ := hT.pi ht
    have ky := hok y (List.mem_of_getElem? hy)
    obtain ⟨-, d1, e1, e2, -⟩ := Rec.fields kx hl (not_bad (by rw [ht]; decide))
    obtain ⟨f0, -, f1, f2, -⟩ := Rec.fields ky hl (not_bad (by rw [a1]; decide))
    refine ⟨y.word, by rw [List.getElem?_map, hy]; rfl, by rw [f0, a1], ?_⟩
    rw [e1, e2, f1, f2, d1]
    rcases a4 with a | ⟨a, b⟩
    · exact Or.inl a
    · exact Or.inr ⟨by rw [a]; decide, b⟩
  · intro ht
    have ht := (Rec.type_iff kx hl (by decide)).1 ht
    obtain ⟨y, hy, hT⟩ := hp i x hx (Or.inr ht)
    obtain ⟨a1, a2, a3, a4⟩ := hT.decl ht
    have ky := hok y (List.mem_of_getElem? hy)
    obtain ⟨-, -, e1, e2, -⟩ := Rec.fields kx hl (not_bad (by rw [ht]; decide))
    obtain ⟨f0, -, f1, f2, -⟩ := Rec.fields ky hl (not_bad (by rw [a1]; decide))
    refine ⟨y.word, by rw [List.getElem?_map, hy]; rfl, by rw [f0, a1], ?_⟩
    rw [e1, e2, f1, f2]
    exact a4

/-- C69, without namespace awareness: a record of the target of a processing instruction is followed by one of its data, and a
processing instruction with this target and this data stands there; or, not XML, it comes after the root element and is cut off
after the target. -/
theorem C69_instructions_partial (fuel : Nat) (opts : List ParserOption) (doc : List UInt8) (o : Nat)
    (hs : SelectRest opts doc o) (ws : List (BitVec 64)) (hp : parsedTokens fuel opts = some ws) (i : Nat) (v : BitVec 64)
    (hv : ws[i]? = some v) (ht : tokenType v = Token.piName.code) :
    ∃ w, ws[i + 1]? = some w ∧ tokenType w = Token.piVal.code ∧
      (InstructionAt doc (tokenOffset v) (tokenLength v) (tokenOffset w) (tokenLength w) ∨
        tokenDepth v = 255 ∧ CutAt doc (tokenOffset v) (tokenLength v) (tokenOffset w) (tokenLength w)) := by
  obtain ⟨hl, recs, h1, rfl⟩ := (C34_exact fuel opts doc o hs ws).1 hp
  exact (told_words hl h1 hv).1 ht

/-- C69, without namespace awareness: a record of the name of an attribute of the XML declaration is followed by one of its
value, and they stand there. -/
theorem C69_declaration_partial (fuel : Nat) (opts : List ParserOption) (doc : List UInt8) (o : Nat)
    (hs : SelectRest opts doc o) (ws : List (BitVec 64)) (hp : parsedTokens fuel opts = some ws) (i : Nat) (v : BitVec 64)
    (hv : ws[i]? = some v) (ht : tokenType v = Token.decAttrName.code) :
    ∃ w, ws[i + 1]? = some w ∧ tokenType w = Token.decAttrVal.code ∧
      DeclarationAt doc (tokenOffset v) (tokenLength v) (tokenOffset w) (tokenLength w) := by
  obtain ⟨hl, recs, h1, rfl⟩ := (C34_exact fuel opts doc o hs ws).1 hp
  exact (told_words hl h1 hv).2 ht

/-- C69 with namespace awareness, for documents in which no reference to a predefined entity is cut short. -/
theorem C69_aware_partial (fuel : Nat) (opts : List ParserOption) (doc : List UInt8) (o : Nat) (ws : List (BitVec 64))
    (hs : SelectRest (opts ++ [.nameSpaceAware false]) doc o) (hl : doc.length < 2 ^ 31) (hn : NoEntityStart doc)
    (hp : parsedTokens fuel opts = some ws) (i : Nat) (v : BitVec 64) (hv : ws[i]? = some v) :
    (tokenType v = Token.piName.code → ∃ w, ws[i + 1]? = some w ∧ tokenType w = Token.piVal.code ∧
      (InstructionAt doc (tokenOffset v) (tokenLength v) (tokenOffset w) (tokenLength w) ∨
        tokenDepth v = 255 ∧ CutAt doc (tokenOffset v) (tokenLength v) (tokenOffset w) (tokenLength w))) ∧
    (tokenType v = Token.decAttrName.code → ∃ w, ws[i + 1]? = some w ∧ tokenType w = Token.decAttrVal.code ∧
      DeclarationAt doc (tokenOffset v) (tokenLength v) (tokenOffset w) (tokenLength w)) := by
  have hp := aware_tokens hs hl hn hp
  exact ⟨C69_instructions_partial fuel _ doc o hs ws hp i v hv, C69_declaration_partial fuel _ doc o hs ws hp i v hv⟩

/-- Non-vacuity: a declaration with two attributes, and processing instructions with and without data before, in and after the
root element. -/
def instrSample : List UInt8 :=
  bytes "<?xml version = '1.0' standalone='yes' ?><?p d?><a><?q?><?r a ? b?></a><?s  e?>"

theorem instrSample_select : SelectRest [.xmlDoc (some instrSample)] instrSample 0 where
  size := by decide +kernel
  window := ⟨instrSample.length, rfl, rfl⟩
  ns := rfl

example : SelectRest [.xmlDoc (some instrSample)] instrSample 0 ∧ NoEntityStart instrSample ∧ instrSample.length < 2 ^ 31 ∧
    (parsedTokens 0 [.xmlDoc (some instrSample), .nameSpaceAware true]).isSome ∧
    (parsedTokens 0 [.xmlDoc (some instrSample)]).map (List.map (readToken instrSample)) =
      some [⟨13, -1, []⟩, ⟨9, -1, bytes "version"⟩, ⟨10, -1, bytes "1.0"⟩, ⟨9, -1, bytes "standalone"⟩, ⟨10, -1, bytes "yes"⟩,
        ⟨7, -1, bytes "p"⟩, ⟨8, -1, bytes "d"⟩, ⟨0, 0, bytes "a"⟩, ⟨7, 0, bytes "q"⟩, ⟨8, 0, []⟩, ⟨7, 0, bytes "r"⟩,
        ⟨8, 0, bytes "a ? b"⟩, ⟨7, -1, bytes "s"⟩, ⟨8, -1, bytes " e"⟩] := by
  refine ⟨instrSample_select, ⟨?_, ?_, ?_, ?_⟩, ?_, ?_, ?_⟩ <;> decide +kernel

theorem instruction_before {doc : List UInt8} {o n v l : Nat} (h : InstructionAt doc o n v l) :
    v = o ∨ ∃ s, doc[v - 1]? = some s ∧ Ws s := by
  cases h with
  | bare pre target post hd ht ho hn hv hl => exact Or.inl hv
  | data pre target s data post hd ht hs hc hp ho hn hv hl =>
    refine Or.inr ⟨s, ?_, hs⟩
    have e : doc = (pre ++ [ch% '?'] ++ target) ++ s :: (data ++ str% "?>" ++ post) := by rw [hd]; simp
    rw [← hv, e, List.getElem?_append_right (by simp)]
    simp

/-- C69 is false. After the root element a processing instruction without data can lack its `>`: of `<a/><?p?<?q z?>` the
target `p` is recorded and no processing instruction with this target is there. Inside of the root element a target that
starts with `xml` can be something else than a name, as in `<?xml<b c?>`. The record of the encoding `cp125` includes the
quote after it. -/
theorem C69_refuted :
    (∃ ws v w, parsedTokens 0 [.xmlDoc (some (bytes "<a/><?p?<?q z?>"))] = some ws ∧ ws[2]? = some v ∧ ws[3]? = some w ∧
      readToken (bytes "<a/><?p?<?q z?>") v = ⟨7, -1, bytes "p"⟩ ∧
      ¬ InstructionAt (bytes "<a/><?p?<?q z?>") (tokenOffset v) (tokenLength v) (tokenOffset w) (tokenLength w)) ∧
    (parsedTokens 0 [.xmlDoc (some (bytes "<a><?xml<b c?></a>"))]).map (List.map (readToken (bytes "<a><?xml<b c?></a>"))) =
      some [⟨13, -1, []⟩, ⟨0, 0, bytes "a"⟩, ⟨7, 0, bytes "xml<b"⟩, ⟨8, 0, bytes "c"⟩] ∧
    (parsedTokens 0 [.xmlDoc (some (bytes "<?xml version='1.0' encoding='cp125'?><a/>"))]).map
        (List.map (readToken (bytes "<?xml version='1.0' encoding='cp125'?><a/>"))) =
      some [⟨13, -1, []⟩, ⟨9, -1, bytes "version"⟩, ⟨10, -1, bytes "1.0"⟩, ⟨9, -1, bytes "encoding"⟩, ⟨10, -1, bytes "cp125'"⟩,
        ⟨0, 0, bytes "a"⟩] := by
  refine ⟨?_, by decide +kernel, by decide +kernel⟩
  cases h : parsedTokens 0 [.xmlDoc (some (bytes "<a/><?p?<?q z?>"))] with
  | none =>
    have : (parsedTokens 0 [.xmlDoc (some (bytes "<a/><?p?<?q z?>"))]).isSome = true := by decide +kernel
    rw [h] at this; cases this
  | some ws =>
    have h1 : (parsedTokens 0 [.xmlDoc (some (bytes "<a/><?p?<?q z?>"))]).bind (fun ws => ws[2]?) =
        some (vtdRecord .piName 6 1 (-1)) := by decide +kernel
    have h2 : (parsedTokens 0 [.xmlDoc (some (bytes "<a/><?p?<?q z?>"))]).bind (fun ws => ws[3]?) =
        some (vtdRecord .piVal 8 0 (-1)) := by decide +kernel
    rw [h] at h1 h2
    refine ⟨ws, _, _, rfl, h1, h2, by decide +kernel, fun hi => ?_⟩
    rcases instruction_before hi with e | ⟨s, e, hs⟩
    · revert e; decide +kernel
    · have : (bytes "<a/><?p?<?q z?>")[tokenOffset (vtdRecord .piVal 8 0 (-1)) - 1]? = some (ch% '?') := by decide +kernel
      rw [this] at e
      obtain rfl := Option.some.inj e
      revert hs; decide +kernel

end GoVtd
