import Verif.Spec.Links
import Verif.Props.Order
import Verif.Props.Tags
import Verif.Proofs.Parser.WritesLoop

/-!
# Properties C35, C61, C62, C63 for every option list

With and without namespace awareness, for every window of every slice.
-/

namespace GoVtd
open Parser Grammar

theorem newVtdParser_window {fuel : Nat} {opts : List ParserOption} {p : Parser} (h : newVtdParser fuel opts = .ok p)
    {doc : List UInt8} {o l : Int} (hd : chosenDoc opts = some (doc, o, l)) :
    p.cfg.docOffset = o ∧ (p.cfg.docLength = l ∨ p.cfg.docLength = wrap64 l) := by
  have ha := (args_chosen opts).2.1 doc o l hd
  simp only [newVtdParser] at h
  generalize opts.foldl ParserArgs.apply {} = a at h ha
  split at h
  · cases h
  split at h
  · cases h
  split at h
  · cases h
  split at h
  · cases h
  split at h
  · cases h
  · cases h
    exact ha

/-- What is known after a successful parse with any options. -/
theorem parsed_written_doc {fuel : Nat} {opts : List ParserOption} {ws : List (BitVec 64)}
    (hp : parsedTokens fuel opts = some ws) {doc : List UInt8} {o l : Int} (hd : chosenDoc opts = some (doc, o, l))
    (hl : IsInt l) : 0 ≤ o ∧ 0 ≤ o + l ∧ o + l ≤ doc.length ∧
      ∃ c xs, ws = (docRec :: xs).map Rec.word ∧ Wr.Written c xs ∧ c.docOffset = o ∧ c.endOffset = o + l ∧
        Wr.win c = doc.take (o + l).toNat ∧ c.xmlDoc = doc := by
  simp only [parsedTokens, Option.map_eq_some_iff] at hp
  obtain ⟨p, hp, rfl⟩ := hp
  obtain ⟨es, recs, n, e1, e2, _⟩ := parsed_tags hp hd
  obtain ⟨p0, h1, h2⟩ := parsed_some.1 hp
  have hf := newVtdParser_fresh h1
  obtain ⟨xs, h3, h4⟩ := Wr.parse_w hf h2
  have hx : p0.cfg.xmlDoc = doc := by
    have h := newVtdParser_doc h1
    rw [(args_chosen opts).1, hd] at h
    exact (Option.some.inj h).symm
  obtain ⟨w1, w2⟩ := newVtdParser_window h1 hd
  have hsum := hf.sum
  have ho := hf.start
  have hcnt := h4.count
  have hend : p0.cfg.endOffset = wrap64 (o + l) := by
    rw [hsum, w1]
    rcases w2 with e | e
    · rw [e]
    · rw [e, wrap64_wrap64]
  have hin := hf.end1
  rw [hx] at hin
  rw [w1] at ho hcnt
  obtain ⟨l1, l2⟩ := hl
  have he : p0.cfg.endOffset = o + l := by
    have hw : wrap64 (o + l) = Int.bmod (o + l) (2 ^ 64) := by simp only [wrap64, BitVec.toInt_ofInt]
    rw [hw] at hend
    have hb : p0.cfg.endOffset < 2 ^ 63 := by
      rw [hend, Int.bmod_def]; omega
    rw [Int.bmod_def] at hend
    omega
  have hout : ∃ b n, p0.out = initOut b n := by
    obtain ⟨f, a, e⟩ := hf.init
    exact ⟨_, _, congrArg Parser.out e⟩
  obtain ⟨b, n', hn⟩ := hout
  refine ⟨ho, by omega, by omega, p0.cfg, xs, ?_, h4, w1, he, by rw [Wr.win, hx, he], hx⟩
  rw [h3, finish_vtd, hn, emit_values (initOut_ok _ _), initOut_values]; rfl

theorem parsed_written {fuel : Nat} {opts : List ParserOption} {ws : List (BitVec 64)}
    (hp : parsedTokens fuel opts = some ws) {doc : List UInt8} {o l : Int} (hd : chosenDoc opts = some (doc, o, l))
    (hl : IsInt l) : 0 ≤ o ∧ 0 ≤ o + l ∧ o + l ≤ doc.length ∧
      ∃ c xs, ws = (docRec :: xs).map Rec.word ∧ Wr.Written c xs ∧ c.docOffset = o ∧ c.endOffset = o + l ∧
        Wr.win c = doc.take (o + l).toNat := by
  obtain ⟨h1, h2, h3, c, xs, h4, h5, h6, h7, h8, -⟩ := parsed_written_doc hp hd hl
  exact ⟨h1, h2, h3, c, xs, h4, h5, h6, h7, h8⟩

theorem docRec_ok (doc : List UInt8) : RecOk doc docRec :=
  RecOk.plain (by decide) (by decide) (by decide) (by decide) (by simp [docRec]) (by decide) (by decide)

theorem written_all {c : ParserCfg} {xs : List Rec} (h : Wr.Written c xs) : ∀ x ∈ docRec :: xs, RecOk (Wr.win c) x := by
  intro x hx
  rcases List.mem_cons.1 hx with rfl | hx
  · exact docRec_ok _
  · exact h.ok x hx

/-- The end of a record, when its type is one of the token types. -/
theorem Rec.end_le {doc : List UInt8} {x : Rec} (h : RecOk doc x) (hl : doc.length < 2 ^ 31) (hb : ¬ x.Bad) :
    tokenEnd x.word ≤ doc.length := by
  have h1 := Rec.stop_word h hl hb
  have h0 := h.off
  suffices x.stop ≤ doc.length by omega
  by_cases c1 : x.tok = .startingTag
  · obtain ⟨name, k, e1, e2, _⟩ := h.start c1
    have := e1.le
    have := List.length_pos_iff.mpr e2
    simp only [Rec.stop, c1]; omega
  by_cases c2 : x.tok = .attrName ∨ x.tok = .attrNs
  · obtain ⟨name, k, e1, e2, e3, e4, e5⟩ := h.attr c2
    have := e1.le
    have e6 := lower_bits (k := k) e3
    rcases c2 with c | c <;> (simp only [Rec.stop, c, e5, e6]; omega)
  · simp only [not_or] at c2
    have := h.other c1 c2.1 c2.2 fun e e' => hb ⟨e, e'⟩
    have : x.stop = x.off + x.len := by
      simp only [Rec.stop]
      split <;> simp_all
    omega

/-! ## C62 -/

/-- C62, for every option list: every token but the first stands for at least two bytes of the window. -/
theorem C62_bound (fuel : Nat) (opts : List ParserOption) (doc : List UInt8) (o l : Int)
    (hd : chosenDoc opts = some (doc, o, l)) (hl : IsInt l) (ws : List (BitVec 64))
    (hp : parsedTokens fuel opts = some ws) : 2 * (ws.length : Int) ≤ l + 1 := by
  obtain ⟨h1, h2, h3, c, xs, rfl, hw, e1, e2, e3⟩ := parsed_written hp hd hl
  have := hw.count
  simp only [List.length_map, List.length_cons]
  omega

/-- Non-vacuity: with namespace awareness, a window inside a slice. -/
example : chosenDoc [.xmlDocCustomOffset (some (str% "...<p:a xmlns:p='u'>x</p:a>...")) 3 24, .nameSpaceAware true] =
      some (str% "...<p:a xmlns:p='u'>x</p:a>...", 3, 24) ∧
    (parsedTokens 100 [.xmlDocCustomOffset (some (str% "...<p:a xmlns:p='u'>x</p:a>...")) 3 24, .nameSpaceAware true]).map
      List.length = some 5 := by
  decide +kernel

/-- The bound is close: 12 tokens in 25 bytes. -/
example : (parsedTokens 100 [.xmlDoc (some (str% "<a/><?a?<?a?<?a?<?a?<?a? "))]).map List.length = some 12 ∧
    (str% "<a/><?a?<?a?<?a?<?a?<?a? " : List UInt8).length = 25 := by
  decide +kernel

/-! ## C61 -/

/-- C61 for every option list and every document without a token of the largest length, 2^20-1: every token ends before
the next one begins, except that the empty data of a processing instruction without data is put at the beginning of its
name; all but the first lie in the window. -/
theorem C61_partial (fuel : Nat) (opts : List ParserOption) (doc : List UInt8) (o l : Int)
    (hd : chosenDoc opts = some (doc, o, l)) (hl : IsInt l) (ws : List (BitVec 64))
    (hp : parsedTokens fuel opts = some ws) (hs : ∀ w ∈ ws, tokenLength w < 2 ^ 20 - 1) :
    ws.Pairwise (fun v w => tokenEnd v ≤ tokenOffset w ∨ NoData v w ∧ tokenOffset v = tokenOffset w) ∧
      (∀ w ∈ ws.tail, o ≤ tokenOffset w) ∧ ∀ w ∈ ws, (tokenEnd w : Int) ≤ o + l := by
  obtain ⟨h1, h2, h3, c, xs, rfl, hw, e1, e2, e3⟩ := parsed_written hp hd hl
  have hok := written_all hw
  have hsz := hw.size
  have hsh : ∀ x ∈ docRec :: xs, ¬ x.Bad ∧ Short x :=
    fun x hx => Rec.short (hok x hx) hsz (hs _ (List.mem_map_of_mem hx))
  obtain ⟨n, seg⟩ := hw.seg fun x hx => (hsh x (List.mem_cons_of_mem _ hx)).2
  have seg' := docRec_seg (by omega) seg
  refine ⟨words_order hok hsz hs seg'.order, ?_, ?_⟩
  · intro w hw
    simp only [List.map_cons, List.tail_cons] at hw
    obtain ⟨x, hx, rfl⟩ := List.mem_map.1 hw
    have hx' := List.mem_cons_of_mem docRec hx
    have := (Rec.fields (hok x hx') hsz (hsh x hx').1).2.2.2.1
    have := seg.from_ x hx
    omega
  · intro w hw
    obtain ⟨x, hx, rfl⟩ := List.mem_map.1 hw
    have := Rec.end_le (hok x hx) hsz (hsh x hx).1
    rw [e3, List.length_take] at this
    omega

/-- The same with the offsets alone: they never decrease. -/
theorem C61_offsets_partial (fuel : Nat) (opts : List ParserOption) (doc : List UInt8) (o l : Int)
    (hd : chosenDoc opts = some (doc, o, l)) (hl : IsInt l) (ws : List (BitVec 64))
    (hp : parsedTokens fuel opts = some ws) (hs : ∀ w ∈ ws, tokenLength w < 2 ^ 20 - 1) :
    ws.Pairwise fun v w => tokenOffset v ≤ tokenOffset w := by
  refine (C61_partial fuel opts doc o l hd hl ws hp hs).1.imp fun {v w} hvw => ?_
  rcases hvw with hvw | hvw
  · exact Nat.le_trans (Nat.le_add_right _ _) hvw
  · exact Nat.le_of_eq hvw.2

/-- Non-vacuity: a window inside a slice, with namespace awareness. -/
example : (parsedTokens 100 [.xmlDocCustomOffset (some (str% "...<a b='c'><?p?><!--x--> y<d/></a>...")) 3 32,
      .nameSpaceAware true]).map (fun ws => ws.map fun w => (tokenOffset w, tokenEnd w, tokenLength w)) =
    some [(0, 0, 0), (4, 5, 1), (6, 7, 1), (9, 10, 1), (14, 15, 1), (14, 14, 0), (21, 22, 1), (25, 27, 2), (28, 29, 1)] := by
  decide +kernel

/-! ## C35 -/

/-- C35 for every option list. Every record lies inside the window, except that of an empty CDATA section closed with one
bracket (its type reads as 15) and that of a start tag with a colon in the range it denotes; of such a start tag the first
byte lies inside. -/
theorem C35_partial (fuel : Nat) (opts : List ParserOption) (doc : List UInt8) (o l : Int)
    (hd : chosenDoc opts = some (doc, o, l)) (hl : IsInt l) (ws : List (BitVec 64))
    (hp : parsedTokens fuel opts = some ws) (w : BitVec 64) (hw : w ∈ ws) :
    tokenType w = 15 ∨
    ((IsAttr w → (tokenOffset w : Int) + qnameLength w ≤ o + l) ∧
      (¬ IsAttr w → ¬ IsStart w → (tokenOffset w : Int) + tokenLength w ≤ o + l) ∧
      (IsStart w → (tokenOffset w : Int) < o + l) ∧
      (IsStart w → ch% ':' ∉ (doc.drop (tokenOffset w)).take (tokenLength w) →
        (tokenOffset w : Int) + tokenLength w ≤ o + l)) := by
  obtain ⟨h1, h2, h3, c, xs, rfl, hwr, e1, e2, e3⟩ := parsed_written hp hd hl
  have hok := written_all hwr
  have hsz := hwr.size
  obtain ⟨x, hx, rfl⟩ := List.mem_map.1 hw
  have hx := hok x hx
  have hlen : ((Wr.win c).length : Int) = o + l := by rw [e3, List.length_take]; omega
  by_cases hb : x.Bad
  · exact Or.inl (Rec.bad_type hx hb)
  right
  have he := Rec.end_le hx hsz hb
  refine ⟨?_, ?_, ?_, ?_⟩
  · intro ht
    have hn : ¬ IsStart x.word := by
      rw [isAttr_iff hx hsz] at ht
      rw [isStart_iff hx hsz]
      rcases ht with e | e <;> (rw [e]; decide)
    rw [tokenEnd, if_neg hn, if_pos ht] at he
    omega
  · intro ht hn
    rw [tokenEnd, if_neg hn, if_neg ht] at he
    omega
  · intro ht
    rw [tokenEnd, if_pos ht] at he
    omega
  · intro ht hc
    obtain ⟨f1, f2, f3, f4, f5⟩ := Rec.fields hx hsz hb
    rw [f3, f4] at hc ⊢
    rw [isStart_iff hx hsz] at ht
    obtain ⟨name, k, e1, e2, e4, e5, e6, _, e7⟩ := hx.start ht
    obtain ⟨g1, g2, g3⟩ := e1.le
    have hk : k = 0 := by
      apply e7
      intro hm
      apply hc
      rw [← g3, e3, List.drop_take, List.take_take] at hm
      refine (List.take_subset_take_left _ ?_) hm
      rw [e6, Int.toNat_natCast]
      exact Nat.le_trans (Nat.min_le_left _ _) Nat.right_le_or
    subst hk
    rw [e6]
    simp only [Nat.zero_shiftLeft, Nat.zero_or, Int.toNat_natCast]
    omega

/-- Non-vacuity: the records of a window inside a slice, with namespace awareness. -/
example : (parsedTokens 100 [.xmlDocCustomOffset (some (str% "...<p:a xmlns:p='u'>x</p:a>...")) 3 24,
      .nameSpaceAware true]).map (fun ws => ws.map fun w => (tokenType w, tokenOffset w, tokenLength w, qnameLength w)) =
    some [(13, 0, 0, 0), (0, 4, 3, 3), (3, 8, 5 * 2 ^ 11 + 7, 7), (4, 17, 1, 1), (5, 20, 1, 1)] := by
  decide +kernel

/-! ## C63 -/

theorem Token.code_inj : ∀ {s t : Token}, s.code = t.code → s = t := by
  intro s t
  cases s <;> cases t <;> decide

theorem Rec.type_iff {doc : List UInt8} {x : Rec} (h : RecOk doc x) (hl : doc.length < 2 ^ 31) {t : Token}
    (ht : t ≠ .cdataVal) : tokenType x.word = t.code ↔ x.tok = t := by
  by_cases hb : x.Bad
  · rw [Rec.bad_type h hb, hb.1]
    have := t.code_lt
    constructor
    · intro e; cases t <;> simp_all [Token.code]
    · intro e; exact absurd e.symm ht
  · rw [(Rec.fields h hl hb).1]
    exact ⟨Token.code_inj, congrArg _⟩

theorem Rec.depth_eq {doc : List UInt8} {x y : Rec} (hx : RecOk doc x) (hy : RecOk doc y) (hl : doc.length < 2 ^ 31)
    (h1 : x.tok ≠ .cdataVal) (h2 : y.tok ≠ .cdataVal) (h : y.depth = x.depth) : tokenDepth y.word = tokenDepth x.word := by
  rw [(Rec.fields hx hl (not_bad h1)).2.1, (Rec.fields hy hl (not_bad h2)).2.1, h]

theorem link_follows {doc d : List UInt8} {x y : Rec} (hx : RecOk doc x) (hy : RecOk doc y) (hl : doc.length < 2 ^ 31)
    (h : Wr.Link d x y) : Follows x.word y.word where
  attr h' := by
    rw [isAttr_iff hx hl] at h'
    have hv : Wr.valueTok x.tok = some .attrVal := by rcases h' with e | e <;> rw [e] <;> rfl
    obtain ⟨e1, e2⟩ := h.name _ hv
    exact ⟨(Rec.type_iff hy hl (by decide)).2 e1, Rec.depth_eq hx hy hl (by rcases h' with e | e <;> rw [e] <;> decide)
      (by rw [e1]; decide) e2⟩
  pi h' := by
    rw [Rec.type_iff hx hl (by decide)] at h'
    obtain ⟨e1, e2⟩ := h.name .piVal (by rw [h']; rfl)
    exact ⟨(Rec.type_iff hy hl (by decide)).2 e1, Rec.depth_eq hx hy hl (by rw [h']; decide) (by rw [e1]; decide) e2⟩
  dec h' := by
    rw [Rec.type_iff hx hl (by decide)] at h'
    obtain ⟨e1, e2⟩ := h.name .decAttrVal (by rw [h']; rfl)
    exact ⟨(Rec.type_iff hy hl (by decide)).2 e1, Rec.depth_eq hx hy hl (by rw [h']; decide) (by rw [e1]; decide) e2⟩
  attrVal h' := by
    rw [Rec.type_iff hy hl (by decide)] at h'
    have := h.value (Or.inl h')
    rw [h'] at this
    rw [isAttr_iff hx hl]
    revert this
    cases x.tok <;> simp [Wr.valueTok]
  piVal h' := by
    rw [Rec.type_iff hy hl (by decide)] at h'
    have := h.value (Or.inr (Or.inl h'))
    rw [h'] at this
    rw [Rec.type_iff hx hl (by decide)]
    revert this
    cases x.tok <;> simp [Wr.valueTok]
  decVal h' := by
    rw [Rec.type_iff hy hl (by decide)] at h'
    have := h.value (Or.inr (Or.inr h'))
    rw [h'] at this
    rw [Rec.type_iff hx hl (by decide)]
    revert this
    cases x.tok <;> simp [Wr.valueTok]
  owner h' := by
    rw [isAttr_iff hy hl] at h'
    obtain ⟨e1, e2⟩ := h.attr h'
    refine ⟨e1.imp (isStart_iff hx hl).2 (Rec.type_iff hx hl (by decide)).2, Rec.depth_eq hx hy hl ?_ ?_ e2⟩
    · rcases e1 with e | e <;> rw [e] <;> decide
    · rcases h' with e | e <;> rw [e] <;> decide

theorem Wr.Linked.get {doc : List UInt8} {a x y : Rec} {xs : List Rec} (h : Wr.Linked doc a xs) {i : Nat} (h1 : (a :: xs)[i]? = some x)
    (h2 : (a :: xs)[i + 1]? = some y) : Wr.Link doc x y := by
  induction xs generalizing a i with
  | nil => simp at h2
  | cons b xs ih =>
    cases i with
    | zero =>
      simp only [List.getElem?_cons_zero, List.getElem?_cons_succ, Option.some.injEq] at h1 h2
      subst h1 h2
      exact h.1
    | succ i => exact ih h.2 (by simpa using h1) (by simpa using h2)

/-- C63: names come with their values, and attributes with their element; the last record is not that of a name. -/
theorem C63_values (fuel : Nat) (opts : List ParserOption) (doc : List UInt8) (o l : Int)
    (hd : chosenDoc opts = some (doc, o, l)) (hl : IsInt l) (ws : List (BitVec 64))
    (hp : parsedTokens fuel opts = some ws) :
    (∀ (i : Nat) (v w : BitVec 64), ws[i]? = some v → ws[i + 1]? = some w → Follows v w) ∧
      ∀ w, ws.getLast? = some w → ¬ IsName w := by
  obtain ⟨h1, h2, h3, c, xs, rfl, hw, e1, e2, e3⟩ := parsed_written hp hd hl
  have hok := written_all hw
  have hsz := hw.size
  refine ⟨?_, ?_⟩
  · intro i v w hv hw'
    rw [List.getElem?_map, Option.map_eq_some_iff] at hv hw'
    obtain ⟨x, hx, rfl⟩ := hv
    obtain ⟨y, hy, rfl⟩ := hw'
    exact link_follows (hok x (List.mem_of_getElem? hx)) (hok y (List.mem_of_getElem? hy)) hsz (Wr.Linked.get hw.linked hx hy)
  · intro w hw'
    rw [List.getLast?_map, List.getLast?_cons, Option.map_some, Option.some.injEq] at hw'
    subst hw'
    have hlast : (xs.getLast?.getD docRec) = Wr.lastRec xs := by
      rw [Wr.lastRec, List.getLastD_eq_getLast?]
    rw [hlast]
    have hm : Wr.lastRec xs ∈ docRec :: xs := by
      rw [← hlast]
      cases hx : xs.getLast? with
      | none => simp
      | some x => simpa using Or.inr (List.mem_of_getLast? hx)
    have hr := hok _ hm
    have hn := hw.last
    simp only [IsName, isAttr_iff hr hsz, Rec.type_iff hr hsz (t := .piName) (by decide),
      Rec.type_iff hr hsz (t := .decAttrName) (by decide)]
    revert hn
    cases (Wr.lastRec xs).tok <;> simp [Wr.valueTok]

/-- The level rises at start tags only, and by one at most (the record of an empty CDATA section closed with one bracket
has no level). -/
theorem C63_levels (fuel : Nat) (opts : List ParserOption) (doc : List UInt8) (o l : Int)
    (hd : chosenDoc opts = some (doc, o, l)) (hl : IsInt l) (ws : List (BitVec 64))
    (hp : parsedTokens fuel opts = some ws) (i : Nat) (v w : BitVec 64) (hv : ws[i]? = some v) (hw : ws[i + 1]? = some w)
    (h1 : tokenType v ≠ 15) (h2 : tokenType w ≠ 15) : tokenLevel w ≤ tokenLevel v + if IsStart w then 1 else 0 := by
  obtain ⟨_, _, _, c, xs, rfl, hwr, _, _, _⟩ := parsed_written hp hd hl
  have hok := written_all hwr
  have hsz := hwr.size
  rw [List.getElem?_map, Option.map_eq_some_iff] at hv hw
  obtain ⟨x, hx, rfl⟩ := hv
  obtain ⟨y, hy, rfl⟩ := hw
  have hx' := hok x (List.mem_of_getElem? hx)
  have hy' := hok y (List.mem_of_getElem? hy)
  have hlk := (Wr.Linked.get hwr.linked hx hy).depth
  simp only [tokenLevel, isStart_iff hy' hsz, (Rec.fields hx' hsz fun hb => h1 (Rec.bad_type hx' hb)).2.1,
    (Rec.fields hy' hsz fun hb => h2 (Rec.bad_type hy' hb)).2.1]
  have := hx'.depth0
  have := hx'.depth1
  have := hy'.depth0
  have := hy'.depth1
  by_cases hs : y.tok = .startingTag
  · rw [if_pos hs] at hlk ⊢; omega
  · rw [if_neg hs] at hlk ⊢; omega

/-- Non-vacuity: type and level of all the records, with namespace awareness. -/
example : (parsedTokens 100 [.xmlDoc (some (str% "<?xml version='1.0'?><p:a xmlns:p='u' p:b='c'><?d e?><f g='h'/></p:a>")),
      .nameSpaceAware true]).map (fun ws => ws.map fun w => (tokenType w, tokenLevel w)) =
    some [(13, 0), (9, 0), (10, 0), (0, 1), (3, 1), (4, 1), (2, 1), (4, 1), (7, 1), (8, 1), (0, 2), (2, 2), (4, 2)] := by
  decide +kernel

end GoVtd
