import Verif.Proofs.Parser.Markup

/-!
# Accepting runs of start tags and end tags
-/

namespace GoVtd
namespace Parser
open Paged Grammar

section
variable {c : ParserCfg} {p p' : Parser} {r r' : List UInt8} {b : UInt8} {ch : Nat}

/-! ## Names that are stored as offset and length -/

/-- `name` stands at offset `o` of the document and has length `l`. -/
def NameAt (c : ParserCfg) (o l : Int) (name : List UInt8) : Prop :=
  ∃ r', name ++ r' <:+ c.xmlDoc ∧ o = pos c (name ++ r') ∧ l = name.length

theorem docByte_at (hp : p.cfg = c) (hs : b :: r <:+ c.xmlDoc) : docByte (pos c (b :: r)) p = .ok b p := by
  obtain ⟨t, ht⟩ := hs
  have hl : c.xmlDoc.length = t.length + (r.length + 1) := by rw [← ht]; simp
  have h1 : pos c (b :: r) = t.length := by
    simp only [pos, Grammar.offset, List.length_cons, hl]; omega
  obtain ⟨x, h2, h3⟩ := docByte_eq hp (i := pos c (b :: r)) (by rw [h1]; omega) (by rw [h1, hl]; omega)
  rw [h3]
  have : c.xmlDoc[t.length]? = some b := by rw [← ht]; simp
  rw [h1, Int.toNat_natCast, this] at h2
  cases h2; rfl

theorem suffix_tail {x : UInt8} {l s : List UInt8} (h : x :: l <:+ s) : l <:+ s :=
  (List.suffix_cons x l).trans h

theorem sameBytes_at (hp : p.cfg = c) (u s t : List UInt8) (h1 : u ++ s <:+ c.xmlDoc) (h2 : t <:+ c.xmlDoc)
    (hl : u.length ≤ t.length) :
    sameBytes u.length (pos c (u ++ s)) (pos c t) p = .ok (decide (u <+: t)) p := by
  induction u generalizing t with
  | nil => simp [sameBytes]
  | cons x u ih =>
    cases t with
    | nil => simp at hl
    | cons y t =>
      simp only [List.cons_append] at h1
      simp only [List.length_cons, sameBytes, M.bind_apply, List.cons_append, docByte_at hp h1, docByte_at hp h2,
        Res.andThen_ok, M.ite_apply, M.pure_apply, pos_cons]
      by_cases hx : x = y
      · rw [if_pos hx, ih t (suffix_tail h1) (suffix_tail h2) (by simpa using hl)]
        simp [hx]
      · rw [if_neg hx]
        simp [hx]

/-- A stack of words that stand for names, the innermost last. -/
def Slots (R : BitVec 64 → List UInt8 → Prop) (ts : List (BitVec 64)) : List (List UInt8) → Prop
  | [] => True
  | name :: st => (∃ e, ts[st.length]? = some e ∧ R e name) ∧ Slots R ts st

theorem Slots.set {R : BitVec 64 → List UInt8 → Prop} {ts : List (BitVec 64)} {st : List (List UInt8)}
    (h : Slots R ts st) {i : Nat} (hi : st.length ≤ i) (v : BitVec 64) : Slots R (ts.set i v) st := by
  induction st with
  | nil => trivial
  | cons name st ih =>
    simp only [List.length_cons] at hi
    refine ⟨?_, ih h.2 (by omega)⟩
    obtain ⟨e, h1, h2⟩ := h.1
    exact ⟨e, by rw [List.getElem?_set_ne (by omega)]; exact h1, h2⟩

theorem Slots.push {R : BitVec 64 → List UInt8 → Prop} {ts : List (BitVec 64)} {st : List (List UInt8)}
    (h : Slots R ts st) (hl : st.length < ts.length) {v : BitVec 64} {name : List UInt8} (hv : R v name) :
    Slots R (ts.set st.length v) (name :: st) :=
  ⟨⟨v, by simp [hl], hv⟩, h.set (Nat.le_refl _) v⟩

/-- A word of the tag stack. -/
def TagAt (c : ParserCfg) (e : BitVec 64) (name : List UInt8) : Prop := NameAt c (low32 e) (high32 e) name
/-- A word of the attribute list. -/
def AttAt (c : ParserCfg) (e : BitVec 64) (name : List UInt8) : Prop := NameAt c (high32 e) (low32 e) name

/-- Open elements and attributes of the current start tag, on the fields they depend on. -/
structure CtxCore (c : ParserCfg) (tagStack : List (BitVec 64)) (at_ : ParserAttr) (depth length2 : Int)
    (st seen : List (List UInt8)) : Prop where
  depth : depth = st.length - 1
  tags : Slots (TagAt c) tagStack st
  tagLen : tagStack.length = 256
  small : st.length ≤ 255
  count : at_.attrCount = seen.length
  atts : Slots (AttAt c) at_.attrNameSlice seen
  attLen : at_.attrNameSlice.length = 256
  noNs : at_.isNs = false
  len2 : length2 = 0

/-- `st` are the names of the open elements, `seen` those of the attributes of the current tag. -/
def Ctx (c : ParserCfg) (p : Parser) (st seen : List (List UInt8)) : Prop :=
  CtxCore c p.tagStack p.at_ p.depth p.length2 st seen

theorem suffix_pos (h : r <:+ c.xmlDoc) : 0 ≤ pos c r := by
  have := h.length_le
  simp only [pos, Grammar.offset]; omega

theorem pos_le : pos c r ≤ c.xmlDoc.length := by simp only [pos, Grammar.offset]; omega

theorem Rd.len (h : Rd c p r) : (c.xmlDoc.length : Int) < 2 ^ 31 := by
  have := h.toBase.end2
  rw [h.whole] at this; exact this

theorem tagAt_pack {name : List UInt8} (hlen : (c.xmlDoc.length : Int) < 2 ^ 31) (hs : name ++ r <:+ c.xmlDoc) :
    TagAt c ((BitVec.ofInt 64 (name.length : Int) <<< 32) + BitVec.ofInt 64 (pos c (name ++ r))) name := by
  have h0 := suffix_pos hs
  have h1 := hs.length_le
  have h2 : pos c (name ++ r) ≤ c.xmlDoc.length := pos_le
  simp only [List.length_append] at h1
  have e := pack_toNat (a := name.length) (b := pos c (name ++ r)) (by omega) (by omega) h0 (by omega)
  refine ⟨r, hs, ?_, ?_⟩
  · rw [low32_of e (by omega)]; omega
  · rw [high32_of e (by omega) (by omega)]; omega

theorem attAt_pack {name : List UInt8} (hlen : (c.xmlDoc.length : Int) < 2 ^ 31) (hs : name ++ r <:+ c.xmlDoc) :
    AttAt c ((BitVec.ofInt 64 (pos c (name ++ r)) <<< 32) ||| BitVec.ofInt 64 (name.length : Int)) name := by
  have h0 := suffix_pos hs
  have h1 := hs.length_le
  have h2 : pos c (name ++ r) ≤ c.xmlDoc.length := pos_le
  simp only [List.length_append] at h1
  have e := packOr_toNat (b := name.length) (a := pos c (name ++ r)) h0 (by omega) (by omega) (by omega)
  refine ⟨r, hs, ?_, ?_⟩
  · rw [high32_of e (by omega) (by omega)]; omega
  · rw [low32_of e (by omega)]; omega

/-- `(a << k) | b` on small numbers. -/
theorem shlOr_nat {a b k : Nat} (ha : a ≤ 511) (hb : b ≤ 2047) (hk : k ≤ 11) :
    shlOr a k b = ((a <<< k ||| b : Nat) : Int) := by
  have h1 : a <<< k < 2 ^ 20 := by
    rw [Nat.shiftLeft_eq]
    calc a * 2 ^ k ≤ 511 * 2 ^ k := Nat.mul_le_mul_right _ ha
      _ ≤ 511 * 2 ^ 11 := Nat.mul_le_mul_left _ (Nat.pow_le_pow_right (by omega) hk)
      _ < 2 ^ 20 := by decide
  have h2 : a <<< k ||| b < 2 ^ 20 := Nat.or_lt_two_pow h1 (by omega)
  have h3 : ((BitVec.ofInt 64 (a : Int) <<< k) ||| BitVec.ofInt 64 (b : Int)).toNat = a <<< k ||| b := by
    rw [BitVec.toNat_or, BitVec.toNat_shiftLeft, ofInt64_toNat (by omega) (by omega),
      ofInt64_toNat (by omega) (by omega)]
    simp only [Int.toNat_natCast]
    rw [Nat.mod_eq_of_lt (by omega)]
  rw [shlOr, BitVec.toInt_eq_toNat_of_lt (by omega), h3]

/-! ## Start tags -/

theorem lastColon_append (i acc : Nat) (u v : List UInt8) :
    lastColon i acc (u ++ v) = lastColon (i + u.length) (lastColon i acc u) v := by
  induction u generalizing i acc with
  | nil => rfl
  | cons b u ih =>
    simp only [List.cons_append, lastColon, ih, List.length_cons]
    congr 1; omega

theorem name_fixed (x : UInt8) (h : NameByte x) : isNameChar x.toNat = true := (isNameChar_iff _).2 h

theorem leads_startTagLoop {fuel : Nat} (h : Rd c p r) (hns : c.nsAware = false) (hf : r.length < fuel)
    {i acc : Nat} (hi : pos c r = p.lastOffset + i) (ha : p.length2 = acc) {K : Unit → Parser → Prop} :
    Leads (startTagLoop fuel p) K ↔ ∃ run x r1, r = run ++ x :: r1 ∧ AllName run ∧ ¬ NameByte x ∧
      K () { go c p r1 x.toNat with length2 := (lastColon i acc run : Nat) } := by
  induction fuel generalizing p r i acc with
  | zero => omega
  | succ fuel ih =>
    have hn : p.cfg.nsAware = false := by rw [h.cfg]; exact hns
    simp only [startTagLoop, M.bind_apply]
    cases r with
    | nil => rw [nextChar_nil h]; simp
    | cons b r =>
      have h1 := h.tail b.toNat
      have hi' : pos c r = p.lastOffset + (i + 1 : Nat) := by rw [← pos_cons (b := b)]; omega
      have hf' : r.length < fuel := by simpa using hf
      rw [nextChar_cons h]
      simp only [Res.andThen_ok, M.bind_apply, M.get_apply, go_cur]
      by_cases hb : NameByte b
      · refine (leads_if_pos (name_fixed b hb)).trans ?_
        refine Iff.trans ?_ (exists_span_pos (Q := fun run x r1 =>
          K () { go c p r1 x.toNat with length2 := (lastColon i acc run : Nat) }) hb).symm
        by_cases hc : b = ch% ':'
        · refine (leads_if_pos (eq_nat _ hc)).trans ?_
          simp only [M.bind_apply, M.modify_apply, Res.andThen_ok, M.get_apply, M.and_apply, M.pure_apply]
          simp only [go_cfg, hn, Bool.false_eq_true, if_false]
          refine (ih (r := r) (i := i + 1) (acc := i) ?_ hf' ?_ ?_).trans ?_
          · exact h1.of_eq rfl rfl rfl rfl rfl rfl
          · exact hi'
          · simp only [go_offset, go_lastOffset, go_enc, h.inc]; rw [hi']; omega
          · simp only [lastColon, hc, if_true]
            rfl
        · refine (leads_if_neg (ne_nat _ hc)).trans ?_
          refine (ih h1 hf' (i := i + 1) (acc := acc) hi' ha).trans ?_
          simp only [lastColon, hc, if_false]
          rfl
      · refine (leads_if_neg (by simpa using mt (isNameChar_iff _).1 hb)).trans ?_
        refine Iff.trans ?_ (exists_span_neg (Q := fun run x r1 =>
          K () { go c p r1 x.toNat with length2 := (lastColon i acc run : Nat) }) hb).symm
        rw [M.pure_apply, leads_ok]
        simp only [lastColon]
        rw [← ha]
        rfl

/-- The word for `name` on the tag stack. -/
def tagWord (c : ParserCfg) (name s : List UInt8) : BitVec 64 :=
  (BitVec.ofInt 64 (name.length : Int) <<< 32) + BitVec.ofInt 64 (pos c (name ++ s))

theorem pushTag_at {name s : List UInt8} {d : Nat} (hd : p.depth = d) (hd' : d < p.tagStack.length)
    (hl : p.length1 = name.length) (ho : p.lastOffset = pos c (name ++ s)) :
    pushTag p = .ok () { p with tagStack := p.tagStack.set d (tagWord c name s) } := by
  simp only [pushTag, M.bind_apply, M.get_apply, Res.andThen_ok, hd, setAt_nat, hd', if_true, M.modify_apply, hl,
    ho, tagWord]

theorem leads_writeStartTag (h : Rd c p r) {l2 l1 : Nat} (h2 : p.length2 = l2) (h1 : p.length1 = l1)
    {K : Unit → Parser → Prop} :
    Leads (writeStartTag p) K ↔ l2 ≤ 511 ∧ l1 ≤ 2047 ∧ K () { p with
      out := emit c.shallowDepth p.out
        [⟨.startingTag, p.lastOffset, ((l2 <<< 1 ||| l1 : Nat) : Int), p.depth⟩] } := by
  simp only [writeStartTag, leads_bind, M.get_apply, leads_ok, h.single, if_true]
  have e1 : (maxPrefixLength : Int) = 511 := rfl
  have e2 : (maxQnameLength : Int) = 2047 := rfl
  by_cases hc : l2 ≤ 511 ∧ l1 ≤ 2047
  · refine (leads_if_neg (by rw [h1, h2, e1, e2]; omega)).trans ?_
    simp only [hc.1, hc.2, true_and]
    have e3 : shlOr p.length2 1 p.length1 = ((l2 <<< 1 ||| l1 : Nat) : Int) := by
      rw [h1, h2]; exact shlOr_nat hc.1 hc.2 (by omega)
    have e4 : p.cfg.shallowDepth = c.shallowDepth := by rw [h.cfg]
    rw [e3, M.ite_apply, emit_cons, emit_nil, emit1, e4]
    cases c.shallowDepth with
    | true =>
      rw [if_pos rfl, writeVtd_go h.toBase.out, leads_ok, if_neg (by simp)]
      rfl
    | false =>
      rw [if_neg (by simp), writeVtdL5_go h.toBase.out, leads_ok, if_pos ⟨rfl, rfl⟩]
      rfl
  · refine (leads_if_pos (by rw [h1, h2, e1, e2]; omega)).trans ?_
    simp only [leads_parseErr]
    constructor
    · exact False.elim
    · rintro ⟨h3, h4, _⟩; exact hc ⟨h3, h4⟩

/-! ## After a tag -/

theorem leads_elementTail (h : Rd c p r) (ho : p.offset = pos c r) {K : PState → Parser → Prop} :
    Leads (processElementTail p) K ↔ (p.depth = -1 ∧ K .docEnd p) ∨ (p.depth ≠ -1 ∧
      ∃ w b r', r = w ++ b :: r' ∧ AllWs w ∧ ¬ Ws b ∧
      ((b = ch% '<' ∧ ∃ y s, r' = y :: s ∧
        ((y ≠ ch% '/' ∧ K .ltSeen (go c { p with lastOffset := pos c r } r' b.toNat)) ∨
         (y = ch% '/' ∧ p.helper = false ∧ K .tagEnd (go c { p with lastOffset := pos c r } s b.toNat)) ∨
         (y = ch% '/' ∧ p.helper = true ∧ K .tagEnd (go c { p with
            lastOffset := pos c r, length1 := w.length,
            out := emit c.shallowDepth p.out (textRecs .characterData (pos c r) w.length p.depth) } s b.toNat)))) ∨
       (b ≠ ch% '<' ∧ ((ContentByte b ∧ K .text (go c { p with lastOffset := pos c r } r' b.toNat)) ∨
        ∃ r1, Item (b :: r') r1 ∧ K .text (go c { p with lastOffset := pos c r } r1 b.toNat))))) := by
  simp only [processElementTail, leads_bind, M.get_apply, leads_ok]
  by_cases hd : p.depth = -1
  · refine (leads_if_neg (by simp [hd])).trans ?_
    simp [hd]
  refine (leads_if_pos hd).trans ?_
  simp only [hd, false_and, false_or, ne_eq, not_false_iff, true_and]
  have h0 : Rd c { p with lastOffset := p.offset } r := h.of_eq rfl rfl rfl rfl rfl rfl
  simp only [leads_bind, markOffset, M.modify_apply, leads_ok]
  rw [leads_nextWs h0]
  refine exists_congr fun w => exists_congr fun b => exists_congr fun r' => and_congr_right fun hr =>
    and_congr_right fun _ => and_congr_right fun hbw => ?_
  have h1 : Rd c (go c { p with lastOffset := p.offset } r' b.toNat) r' :=
    h0.go (by rw [hr]; exact suffix_append_cons _ _ _) _
  rw [← ho]
  simp only [M.get_apply, leads_ok, go_cur]
  by_cases hl : b = ch% '<'
  · refine (leads_if_pos (eq_nat _ hl)).trans ?_
    simp only [hl, true_and, ne_eq, not_true_eq_false, false_and, or_false]
    rw [hl] at h1 hr
    simp only [leads_bind]
    rw [recordWsIfSet_eq h1.toBase, leads_ok, leads_skipChar h1 (ch% '/')]
    refine exists_congr fun y => exists_congr fun s => and_congr_right fun hs => ?_
    by_cases hy : y = ch% '/'
    · simp only [hy, true_and, ne_eq, not_true_eq_false, false_and, or_false, false_or]
      simp only [if_true, leads_bind, M.get_apply, leads_ok]
      have h2 := h1.go (r' := s) (by rw [hs]; exact List.suffix_cons _ _) (go c { p with lastOffset := p.offset } r' (ch% '<')).currentChar
      rcases Bool.eq_false_or_eq_true p.helper with hh | hh
      rotate_left
      · refine (leads_if_neg (by exact Bool.eq_false_iff.1 hh)).trans ?_
        simp only [M.pure_apply, leads_ok, true_and, hh, Bool.false_eq_true, false_and, or_false]
        rw [← hh]
        rfl
      · refine (leads_if_pos (by exact hh)).trans ?_
        simp only [leads_bind, M.modify_apply, leads_ok]
        refine (leads_writeText (c := c) ?_ .characterData (by decide)).trans ?_
        · exact h2.toBase
        have e : pos c s - p.offset - 1 * 2 = (w.length : Int) := by
          rw [ho, hr, hs, hy, pos_append, ← pos_cons (r := s) (b := ch% '/'), ← pos_cons (b := ch% '<')]
          omega
        simp only [M.pure_apply, leads_ok, go_offset, go_lastOffset, go_enc, h.inc, e, hh, Bool.true_eq_false, false_and, true_and, false_or]
        rw [← hh]
        rfl
    · simp only [hy, false_and, ne_eq, not_false_iff, true_and, or_false, false_or]
      refine (leads_if_neg (by simp)).trans ?_
      exact leads_ok _ _
  · refine (leads_if_neg (ne_nat _ hl)).trans ?_
    simp only [hl, false_and, ne_eq, not_false_iff, true_and, false_or]
    by_cases hc : ContentByte b
    · refine (leads_if_pos ((isContentChar_iff _).2 hc)).trans ?_
      have hi : ∀ r1, ¬ Item (b :: r') r1 := fun r1 h => by
        rcases item_head h with h | h <;> subst h <;> simp [Spec.ContentChar] at hc
      simp only [M.pure_apply, leads_ok, hc, true_and, hi, false_and, exists_false, or_false]
    · refine (leads_if_neg (by simpa using mt (isContentChar_iff _).1 hc)).trans ?_
      simp only [hc, false_and, false_or, leads_bind]
      rw [leads_item h1]
      exact exists_congr fun _ => and_congr_right fun _ => leads_ok _ _

theorem leads_startTagEnd (h : Rd c p r) (hns : c.nsAware = false) {x : UInt8} (hx : p.currentChar = x.toNat)
    (ho : p.offset = pos c r) {K : PState → Parser → Prop} :
    Leads (startTagEnd p) K ↔
      (x = ch% '>' ∧ Leads (processElementTail { p with helper := true }) K) ∨
      (x = ch% '/' ∧ ∃ r', r = ch% '>' :: r' ∧
        Leads (processElementTail (go c { p with depth := p.depth - 1, helper := false } r' (ch% '>'))) K) := by
  have hn : p.cfg.nsAware = false := by rw [h.cfg]; exact hns
  have h0 : Rd c { p with helper := true } r := h.of_eq rfl rfl rfl rfl rfl rfl
  have h1 : Rd c { p with depth := p.depth - 1, helper := false } r := h.of_eq rfl rfl rfl rfl rfl rfl
  simp only [startTagEnd, leads_bind, M.get_apply, leads_ok, M.modify_apply]
  by_cases hs : x = ch% '/'
  · have hg : ¬ x = ch% '>' := by rw [hs]; decide
    refine (leads_if_pos (by exact hx.trans (eq_nat _ hs))).trans ?_
    simp only [hg, false_and, false_or, leads_bind, M.modify_apply, leads_ok]
    simp only [hs, true_and]
    rw [leads_getChar h1]
    constructor
    · rintro ⟨y, s, rfl, h2⟩
      by_cases hy : y = ch% '>'
      · rw [M.get_apply, leads_ok, leads_if_pos (by exact eq_nat _ hy), leads_if_neg (by simpa using hn)] at h2
        subst hy
        exact ⟨s, rfl, h2⟩
      · rw [M.get_apply, leads_ok, leads_if_neg (by exact ne_nat _ hy), leads_parseErr] at h2
        exact h2.elim
    · rintro ⟨s, rfl, h2⟩
      refine ⟨_, s, rfl, ?_⟩
      rw [M.get_apply, leads_ok, leads_if_pos (by exact eq_nat _ rfl), leads_if_neg (by simpa using hn)]
      exact h2
  · refine (leads_if_neg (by rw [hx]; exact ne_nat _ hs)).trans ?_
    simp only [hs, false_and, or_false, leads_bind, M.get_apply, leads_ok]
    by_cases hg : x = ch% '>'
    · rw [leads_if_pos (by exact hx.trans (eq_nat _ hg)), leads_if_neg (by simpa using hn)]
      simp [hg]
    · rw [leads_if_neg (by intro hh; exact ne_nat (ch% '>') hg rfl (hx.symm.trans hh)), leads_parseErr]
      simp [hg]

theorem leads_attrValEnd (h : Rd c p r) (hns : c.nsAware = false) {x : UInt8} (hx : p.currentChar = x.toNat)
    (ho : p.offset = pos c r) {K : PState → Parser → Prop} :
    Leads (attrValEnd p) K ↔
      (x = ch% '>' ∧ Leads (processElementTail { p with
        helper := true, at_ := { p.at_ with attrCount := 0 } }) K) ∨
      (x = ch% '/' ∧ ∃ r', r = ch% '>' :: r' ∧
        Leads (processElementTail (go c { p with
          depth := p.depth - 1, helper := false, at_ := { p.at_ with attrCount := 0 } } r' (ch% '>'))) K) := by
  have hn : p.cfg.nsAware = false := by rw [h.cfg]; exact hns
  have h0 : Rd c { p with helper := true } r := h.of_eq rfl rfl rfl rfl rfl rfl
  have h1 : Rd c { p with depth := p.depth - 1, helper := false } r := h.of_eq rfl rfl rfl rfl rfl rfl
  simp only [attrValEnd, leads_bind, M.get_apply, leads_ok, M.modify_apply]
  by_cases hs : x = ch% '/'
  · have hg : ¬ x = ch% '>' := by rw [hs]; decide
    refine (leads_if_pos (by exact hx.trans (eq_nat _ hs))).trans ?_
    simp only [hg, false_and, false_or, leads_bind, M.modify_apply, leads_ok]
    simp only [hs, true_and]
    rw [leads_nextChar h1]
    constructor
    · rintro ⟨y, s, rfl, h2⟩
      by_cases hy : y = ch% '>'
      · rw [M.get_apply, leads_ok, leads_if_pos (by exact eq_nat _ hy), leads_bind, attrValQualify_eq (by exact hn), leads_ok,
          leads_bind, M.modify_apply, leads_ok] at h2
        subst hy
        exact ⟨s, rfl, h2⟩
      · rw [M.get_apply, leads_ok, leads_if_neg (by exact ne_nat _ hy), leads_parseErr] at h2
        exact h2.elim
    · rintro ⟨s, rfl, h2⟩
      refine ⟨_, s, rfl, ?_⟩
      rw [M.get_apply, leads_ok, leads_if_pos (by exact eq_nat _ rfl), leads_bind, attrValQualify_eq (by exact hn), leads_ok,
          leads_bind, M.modify_apply, leads_ok]
      exact h2
  · refine (leads_if_neg (by rw [hx]; exact ne_nat _ hs)).trans ?_
    simp only [hs, false_and, or_false, leads_bind, M.get_apply, leads_ok]
    by_cases hg : x = ch% '>'
    · rw [leads_if_pos (by exact hx.trans (eq_nat _ hg)), leads_bind, attrValQualify_eq (by exact hn), leads_ok,
          leads_bind, M.modify_apply, leads_ok]
      simp [hg]
    · rw [leads_if_neg (by intro hh; exact ne_nat (ch% '>') hg rfl (hx.symm.trans hh)), leads_parseErr]
      simp [hg]

/-- What comes after the name or after an attribute value: `A` starts an attribute, `E` ends the tag. -/
def tagTail (A E : M Parser PState) : M Parser PState := do
  let p ← M.get
  if isSpaceChar p.currentChar then do
    nextCharAfterWs
    let p ← M.get
    if isNameStartChar p.currentChar then A else E
  else E

theorem leads_tagTail (h : Rd c p r) {x : UInt8} (hx : p.currentChar = x.toNat) {A E : M Parser PState}
    {K : PState → Parser → Prop}
    (hA : ∀ q s, Rd c q s → (Leads (A q) K ↔ K .attrName { q with lastOffset := q.offset - 1 })) :
    Leads (tagTail A E p) K ↔ (¬ Ws x ∧ Leads (E p) K) ∨
      (Ws x ∧ ∃ w y r', r = w ++ y :: r' ∧ AllWs w ∧ ¬ Ws y ∧
        ((StartByte y ∧ K .attrName (go c { p with lastOffset := pos c (y :: r') } r' y.toNat)) ∨
         (¬ StartByte y ∧ Leads (E (go c p r' y.toNat)) K))) := by
  simp only [tagTail, leads_bind, M.get_apply, leads_ok]
  by_cases hw : Ws x
  · refine (leads_if_pos (by rw [hx]; exact (isSpaceChar_iff _).2 hw)).trans ?_
    simp only [hw, not_true_eq_false, false_and, false_or, true_and, leads_bind]
    rw [leads_nextWs h]
    refine exists_congr fun w => exists_congr fun y => exists_congr fun r' => and_congr_right fun hr =>
      and_congr_right fun _ => and_congr_right fun _ => ?_
    have h1 : Rd c (go c p r' y.toNat) r' := h.go (by rw [hr]; exact suffix_append_cons _ _ _) _
    rw [M.get_apply, leads_ok]
    by_cases hy : StartByte y
    · refine (leads_if_pos ((isNameStartChar_iff _).2 hy)).trans ?_
      simp only [hy, true_and, not_true_eq_false, false_and, or_false]
      rw [hA _ _ h1]
      have e : pos c r' - 1 = pos c (y :: r') := by rw [← pos_cons (b := y) (r := r')]; omega
      rw [← e]
      rfl
    · refine (leads_if_neg (by simpa using mt (isNameStartChar_iff _).1 hy)).trans ?_
      simp [hy]
  · refine (leads_if_neg (by rw [hx]; simpa using mt (isSpaceChar_iff _).1 hw)).trans ?_
    simp [hw]

/-- First attribute after the name. -/
def firstAttr : M Parser PState := do
  let offset ← getPrevOffset
  M.modify fun p => { p with lastOffset := offset }
  pure .attrName

theorem leads_firstAttr (h : Rd c p r) {K : PState → Parser → Prop} :
    Leads (firstAttr p) K ↔ K .attrName { p with lastOffset := p.offset - 1 } := by
  simp only [firstAttr, leads_bind]
  rw [getPrevOffset_eq h.toBase, leads_ok, M.modify_apply, leads_ok, M.pure_apply, leads_ok]

theorem leads_startTag {pre : List UInt8} {d : Nat} (h : Rd c p r) (hns : c.nsAware = false)
    (hpre : pre ++ b :: r <:+ c.xmlDoc) (hl : p.lastOffset = pos c (pre ++ b :: r)) (h2 : p.length2 = 0)
    (hd : p.depth = d) (hts : p.tagStack.length = 256) {K : PState → Parser → Prop} :
    Leads (processStartTag p) K ↔ ∃ run x r1, r = run ++ x :: r1 ∧ AllName run ∧ ¬ NameByte x ∧
      d ≤ 254 ∧ lastColon (pre.length + 1) 0 run ≤ 511 ∧ (pre ++ b :: run).length ≤ 2047 ∧
      Leads (tagTail firstAttr startTagEnd (go c { p with
        length1 := (pre ++ b :: run).length, length2 := 0,
        tagStack := p.tagStack.set d (tagWord c (pre ++ b :: run) (x :: r1)),
        vtdDepth := if p.depth > p.vtdDepth then p.depth else p.vtdDepth,
        out := emit c.shallowDepth p.out [⟨.startingTag, pos c (pre ++ b :: r),
          ((lastColon (pre.length + 1) 0 run <<< 1 ||| (pre ++ b :: run).length : Nat) : Int), d⟩] }
          r1 x.toNat)) K := by
  have hn : p.cfg.nsAware = false := by rw [h.cfg]; exact hns
  simp only [processStartTag, leads_bind, M.get_apply, leads_ok]
  rw [leads_startTagLoop h hns (h.fuel h.cfg) (i := pre.length + 1) (acc := 0) ?_ h2]
  rotate_left
  · rw [hl, pos_append, ← pos_cons (b := b) (r := r)]; omega
  refine exists_congr fun run => exists_congr fun x => exists_congr fun r1 => and_congr_right fun hr =>
    and_congr_right fun _ => and_congr_right fun _ => ?_
  have h1 : Rd c (go c p r1 x.toNat) r1 := h.go (by rw [hr]; exact suffix_append_cons _ _ _) _
  have e1 : pos c r1 - p.lastOffset - 1 = ((pre ++ b :: run).length : Nat) := by
    rw [hl, hr, pos_append, ← pos_cons (b := x) (r := r1)]
    rw [← List.cons_append, pos_append]
    simp only [List.length_append, List.length_cons]
    omega
  have e2 : pre ++ b :: r = (pre ++ b :: run) ++ x :: r1 := by rw [hr]; simp
  simp only [M.modify_apply, leads_ok, M.get_apply]
  have e3 : (maxDepth : Int) = 254 := rfl
  by_cases hdd : d ≤ 254
  rotate_left
  · refine (leads_if_pos (by rw [go_depth, hd, e3]; omega)).trans ?_
    simp [hdd]
  refine (leads_if_neg (by rw [go_depth, hd, e3]; omega)).trans ?_
  simp only [hdd, true_and, leads_bind]
  rw [pushTag_at (c := c) (name := pre ++ b :: run) (s := x :: r1) (d := d) (by exact hd)
    (by rw [go_tagStack, hts]; omega) (by simp only [go_offset, go_lastOffset, go_enc, h.inc]; exact e1)
    (by rw [go_lastOffset, hl, e2])]
  simp only [leads_ok, M.modify_apply]
  refine (leads_writeStartTag (c := c) (r := r1) (l2 := lastColon (pre.length + 1) 0 run)
    (l1 := (pre ++ b :: run).length) ?_ rfl ?_).trans ?_
  · exact h1.of_eq rfl rfl rfl rfl rfl rfl
  · simp only [go_offset, go_lastOffset, go_enc, h.inc]; exact e1
  refine and_congr_right fun _ => and_congr_right fun _ => ?_
  simp only [go_offset, go_lastOffset, go_enc, h.inc]
  rw [startTagNs_eq (by exact hn), leads_ok]
  rw [hl] at e1
  simp only [hl, e1, hd, go_depth, go_out]
  exact leads_bind.symm

/-! ## End tags -/

theorem leads_endTag_nil {seen : List (List UInt8)} (hc : Ctx c p [] seen) {K : PState → Parser → Prop} :
    ¬ Leads (processEndTag p) K := by
  have hd : p.depth = -1 := hc.depth
  simp only [processEndTag, leads_bind, markOffset, M.modify_apply, leads_ok, M.get_apply]
  rw [M.index_panic _ _ _ (by rw [hd]; omega)]
  simp

/-- After the `>` of an end tag. -/
def afterEnd : M Parser PState := do
  markOffset
  nextCharAfterWs
  let p ← M.get
  if p.currentChar = ch% '<' then do
    recordWsIfSet
    pure .ltSeen
  else if isContentChar p.currentChar then pure .text
  else do
    handleOtherTextChar p.currentChar
    pure .ltSeen

theorem leads_afterEnd (h : Rd c p r) (ho : p.offset = pos c r) {K : PState → Parser → Prop} :
    Leads (afterEnd p) K ↔ ∃ w b r', r = w ++ b :: r' ∧ AllWs w ∧ ¬ Ws b ∧
      ((b = ch% '<' ∧ K .ltSeen (go c { p with lastOffset := pos c r } r' b.toNat)) ∨
       (b ≠ ch% '<' ∧ ((ContentByte b ∧ K .text (go c { p with lastOffset := pos c r } r' b.toNat)) ∨
        ∃ r1, Item (b :: r') r1 ∧ K .ltSeen (go c { p with lastOffset := pos c r } r1 b.toNat)))) := by
  have h0 : Rd c { p with lastOffset := p.offset } r := h.of_eq rfl rfl rfl rfl rfl rfl
  simp only [afterEnd, leads_bind, M.get_apply, leads_ok, markOffset, M.modify_apply]
  rw [leads_nextWs h0]
  refine exists_congr fun w => exists_congr fun b => exists_congr fun r' => and_congr_right fun hr =>
    and_congr_right fun _ => and_congr_right fun _ => ?_
  have h1 : Rd c (go c { p with lastOffset := p.offset } r' b.toNat) r' :=
    h0.go (by rw [hr]; exact suffix_append_cons _ _ _) _
  rw [← ho]
  by_cases hl : b = ch% '<'
  · refine (leads_if_pos (eq_nat _ hl)).trans ?_
    simp only [hl, true_and, ne_eq, not_true_eq_false, false_and, or_false]
    rw [hl] at h1
    rw [leads_bind, recordWsIfSet_eq h1.toBase, leads_ok]
    exact leads_ok _ _
  · refine (leads_if_neg (ne_nat _ hl)).trans ?_
    simp only [hl, false_and, ne_eq, not_false_iff, true_and, false_or]
    by_cases hc : ContentByte b
    · refine (leads_if_pos ((isContentChar_iff _).2 hc)).trans ?_
      have hi : ∀ r1, ¬ Item (b :: r') r1 := fun r1 h => by
        rcases item_head h with h | h <;> subst h <;> simp [Spec.ContentChar] at hc
      simp only [M.pure_apply, leads_ok, hc, true_and, hi, false_and, exists_false, or_false]
    · refine (leads_if_neg (by simpa using mt (isContentChar_iff _).1 hc)).trans ?_
      simp only [hc, false_and, false_or, leads_bind, go_cur]
      rw [leads_item h1]
      exact exists_congr fun _ => and_congr_right fun _ => leads_ok _ _

theorem leads_endTag {name : List UInt8} {st seen : List (List UInt8)} (h : Rd c p r) (ho : p.offset = pos c r)
    (hc : Ctx c p (name :: st) seen) {K : PState → Parser → Prop} :
    Leads (processEndTag p) K ↔ ∃ w r1, r = name ++ w ++ ch% '>' :: r1 ∧ AllWs w ∧
      ((st = [] ∧ K .docEnd (go c { p with lastOffset := pos c r, depth := p.depth - 1 } r1 (ch% '>'))) ∨
       (st ≠ [] ∧ Leads (afterEnd (go c { p with
          lastOffset := pos c r, depth := p.depth - 1 } r1 (ch% '>'))) K)) := by
  have hd : p.depth = st.length := by have := hc.depth; simp only [List.length_cons] at this; omega
  obtain ⟨e, he, s, hs, h2, h3⟩ := hc.tags.1
  have hst : st.length < p.tagStack.length := by
    have := hc.small; rw [hc.tagLen]; simp only [List.length_cons] at this; omega
  have hidx : M.index p.tagStack p.depth { p with lastOffset := p.offset } = .ok e { p with lastOffset := p.offset } := by
    rw [hd, M.index_of_lt _ _ _ (by omega) (by simpa using hst)]
    congr 1
    rw [List.getElem?_eq_getElem hst] at he
    exact Option.some.inj he
  simp only [processEndTag, leads_bind, markOffset, M.modify_apply, leads_ok, M.get_apply]
  rw [hidx, leads_ok]
  simp only [setOffset, M.modify_apply, leads_ok, M.get_apply, h2, h3, Int.toNat_natCast]
  have hce : p.cfg.endOffset = c.xmlDoc.length := by rw [h.cfg, h.whole]
  by_cases hlen : r.length ≤ name.length
  · refine (leads_if_pos ?_).trans ?_
    · simp only [hce, ho, pos, Grammar.offset]; omega
    simp only [leads_raise, false_iff]
    rintro ⟨w, r1, rfl, _⟩
    simp at hlen; omega
  refine (leads_if_neg ?_).trans ?_
  · simp only [hce, ho, pos, Grammar.offset]; omega
  simp only [leads_bind]
  rw [ho, sameBytes_at (c := c) (by exact h.cfg) name s r hs h.suf (by omega), leads_ok]
  by_cases hp : name <+: r
  rotate_left
  · refine (leads_if_neg (by simpa using hp)).trans ?_
    simp only [leads_parseErr, false_iff]
    rintro ⟨w, r1, rfl, _⟩
    exact hp ⟨w ++ ch% '>' :: r1, by simp⟩
  refine (leads_if_pos (by simpa using hp)).trans ?_
  obtain ⟨t, rfl⟩ := hp
  simp only [leads_bind, M.modify_apply, leads_ok]
  have e1 : pos c (name ++ t) + name.length = pos c t := by rw [pos_append]; omega
  have h5 := h.go (r' := t) (List.suffix_append _ _) p.currentChar
  rw [leads_nextWs (c := c) (r := t) (by rw [e1]; exact h5.of_eq rfl rfl rfl rfl rfl rfl)]
  simp only [M.get_apply, leads_ok]
  have hdep : (p.depth - 1 ≠ -1) ↔ st ≠ [] := by
    rw [hd]
    cases st with
    | nil => simp
    | cons a st => simp
  constructor
  · rintro ⟨w, x, r1, rfl, hw, hx, h6⟩
    by_cases hg : x = ch% '>'
    · subst hg
      rw [leads_if_neg (by simp)] at h6
      refine ⟨w, r1, by simp, hw, ?_⟩
      by_cases hst : st = []
      · left
        rw [leads_if_neg (by exact fun h' => hdep.1 h' hst)] at h6
        exact ⟨hst, (leads_ok _ _).1 h6⟩
      · right
        rw [leads_if_pos (by exact hdep.2 hst)] at h6
        exact ⟨hst, h6⟩
    · rw [leads_if_pos (by exact ne_nat _ hg), leads_parseErr] at h6
      exact h6.elim
  · rintro ⟨w, r1, h6, hw, h7⟩
    rw [List.append_assoc, List.append_cancel_left_eq] at h6
    refine ⟨w, ch% '>', r1, h6, hw, by simp [Spec.S], ?_⟩
    rw [leads_if_neg (by simp)]
    rcases h7 with ⟨h8, h9⟩ | ⟨h8, h9⟩
    · rw [leads_if_neg (by exact fun h' => hdep.1 h' h8)]
      exact (leads_ok _ _).2 h9
    · rw [leads_if_pos (by exact hdep.2 h8)]
      exact h9

end
end Parser
end GoVtd
