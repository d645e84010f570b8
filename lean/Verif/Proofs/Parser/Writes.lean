import Verif.Proofs.Parser.Bodies
import Verif.Proofs.Parser.EventLoop
import Verif.Proofs.Parser.Order
import Verif.Proofs.Parser.Procs

/-!
# The records that are written, in every mode

`W` is an invariant of the state machine: the records written so far are in order, lie in the window, are linked
as names and values, and are at most half as many as the bytes that were read. It holds for every option list.
-/

namespace GoVtd
namespace Parser
namespace Wr
open Paged Grammar Two Ev
variable {c : ParserCfg} {p : Parser} {o0 out : ParserOut} {xs : List Rec} {pos pos' cnt cnt' d : Int}

/-- The type of the record that has to follow. -/
def valueTok : Token → Option Token
  | .attrName | .attrNs => some .attrVal
  | .piName => some .piVal
  | .decAttrName => some .decAttrVal
  | _ => none

/-- `k` bytes lie between the offset `o` and the rest. -/
def Ate (doc : List UInt8) (o : Int) (rest : List UInt8) (k : Int) : Prop := ((doc.drop o.toNat).length : Int) = rest.length + k

/-- The bytes `s` stand before the offset `o`. -/
def Pred (doc : List UInt8) (o : Int) (s : List UInt8) : Prop := ∃ pre, doc.take o.toNat = pre ++ s

/-- White space, the name of the record `x`, an equals sign and the quote `q`; `v` is the offset after it. -/
def Opened (doc : List UInt8) (x : Rec) (q : UInt8) (v : Int) : Prop :=
  (1 ≤ x.off ∧ ∃ s, doc[(x.off - 1).toNat]? = some s ∧ Ws s) ∧ ∃ name w1 w2, IsName name ∧ (name.length : Int) = x.stop - x.off ∧
    AllWs w1 ∧ AllWs w2 ∧ (q = ch% '"' ∨ q = ch% '\'') ∧
    doc.drop x.off.toNat = name ++ (w1 ++ ch% '=' :: (w2 ++ q :: doc.drop v.toNat))

/-- The record `y` after `x` is part of a text that was split. -/
def Part (x y : Rec) : Prop := y.len = maxLen ∨ (x.tok = y.tok ∧ x.len = maxLen)

/-- The bytes of the record `y`, which follows the record `x`. -/
def Shape (doc : List UInt8) (x y : Rec) : Prop :=
  match y.tok with
  | .attrVal => ∃ q rest, Opened doc x q y.off ∧ AttrBody q (doc.drop y.off.toNat) rest ∧ Ate doc y.off rest (y.len + 1)
  | .characterData => ¬ Part x y → ∃ rest, TextBody (doc.drop y.off.toNat) rest ∧ Ate doc y.off rest (y.len + 1)
  | .comment => ¬ Part x y → Pred doc y.off (str% "!--") ∧
      ∃ rest, CommentBody (doc.drop y.off.toNat) (ch% '>' :: rest) ∧ Ate doc y.off rest (y.len + 3)
  | .cdataVal => ¬ Part x y → Pred doc y.off (str% "![CDATA[") ∧
      ∃ rest, CdataBody (doc.drop y.off.toNat) rest ∧ Ate doc y.off rest (y.len + 3)
  | _ => True

/-- The record `y` may follow the record `x`. -/
structure Link (doc : List UInt8) (x y : Rec) : Prop where
  name : ∀ t, valueTok x.tok = some t → y.tok = t ∧ y.depth = x.depth
  value : y.tok = .attrVal ∨ y.tok = .piVal ∨ y.tok = .decAttrVal → valueTok x.tok = some y.tok
  attr : y.tok = .attrName ∨ y.tok = .attrNs → (x.tok = .startingTag ∨ x.tok = .attrVal) ∧ y.depth = x.depth
  depth : y.depth ≤ x.depth + if y.tok = .startingTag then 1 else 0
  shape : Shape doc x y

/-- Each record of the list may follow the one before it. -/
def Linked (doc : List UInt8) : Rec → List Rec → Prop
  | _, [] => True
  | x, y :: ys => Link doc x y ∧ Linked doc y ys

theorem linked_append {doc : List UInt8} {a : Rec} {xs ys : List Rec} :
    Linked doc a (xs ++ ys) ↔ Linked doc a xs ∧ Linked doc (xs.getLastD a) ys := by
  induction xs generalizing a with
  | nil => simp [Linked]
  | cons x xs ih => simp only [List.cons_append, Linked, ih, List.getLastD_cons, and_assoc]

theorem getLastD_append {a : Rec} {xs ys : List Rec} : (xs ++ ys).getLastD a = ys.getLastD (xs.getLastD a) := by
  induction xs generalizing a with
  | nil => rfl
  | cons x xs ih => simp only [List.cons_append, List.getLastD_cons, ih]

/-- The last record, or the one of the document. -/
abbrev lastRec (xs : List Rec) : Rec := xs.getLastD docRec

/-- The record is not waiting for a value, and its level is not below `d`. -/
def Rest (d : Int) (x : Rec) : Prop := valueTok x.tok = none ∧ d ≤ x.depth

/-- The bytes up to the end of the window. -/
def win (c : ParserCfg) : List UInt8 := c.xmlDoc.take c.endOffset.toNat

/-- The records written so far: they end at `pos`, and two times their number is at most the number of bytes from the
start of the window to `cnt`. -/
structure Wrote (c : ParserCfg) (o0 out : ParserOut) (xs : List Rec) (pos cnt : Int) : Prop where
  out : out = Parser.emit c.shallowDepth o0 xs
  le : c.docOffset ≤ pos
  seg : (∀ x ∈ xs, Short x) → Seg c.docOffset pos xs
  ok : ∀ x ∈ xs, RecOk (win c) x
  count : 2 * (xs.length : Int) ≤ cnt - c.docOffset
  linked : Linked c.xmlDoc docRec xs

namespace Wrote

theorem mono (h : Wrote c o0 out xs pos cnt) (h1 : pos ≤ pos') (h2 : cnt ≤ cnt') : Wrote c o0 out xs pos' cnt' :=
  { h with
    le := Int.le_trans h.le h1
    seg := fun hs => (h.seg hs).mono (Int.le_refl _) h1
    count := by have := h.count; omega }

theorem add (h : Wrote c o0 out xs pos cnt) {ys : List Rec} (h1 : (∀ y ∈ ys, Short y) → Seg pos pos' ys) (hp : pos ≤ pos')
    (h2 : ∀ y ∈ ys, RecOk (win c) y) (h3 : cnt + 2 * ys.length ≤ cnt') (h4 : Linked c.xmlDoc (lastRec xs) ys) :
    Wrote c o0 (Parser.emit c.shallowDepth out ys) (xs ++ ys) pos' cnt' where
  out := by rw [emit_append, ← h.out]
  le := Int.le_trans h.le hp
  seg hs := (h.seg fun x hx => hs x (List.mem_append_left _ hx)).app (h1 fun x hx => hs x (List.mem_append_right _ hx))
  ok := mem_app h.ok h2
  count := by have := h.count; rw [List.length_append]; omega
  linked := linked_append.mpr ⟨h.linked, h4⟩

theorem one (h : Wrote c o0 out xs pos cnt) {y : Rec} (h1 : pos ≤ y.off) (h1' : y.stop ≤ pos') (hp : pos ≤ pos')
    (h2 : RecOk (win c) y) (h3 : cnt + 2 ≤ cnt') (h4 : Link c.xmlDoc (lastRec xs) y) :
    Wrote c o0 (Parser.emit c.shallowDepth out [y]) (xs ++ [y]) pos' cnt' :=
  h.add (fun _ => Seg.one hp h1 h1') hp (by simpa using h2) (by simpa using h3) ⟨h4, trivial⟩

end Wrote

/-! ## Links -/

/-- The tokens of text. -/
def isText (t : Token) : Prop := t = .characterData ∨ t = .cdataVal ∨ t = .comment ∨ t = .dtdVal

theorem Link.text {doc : List UInt8} {x : Rec} {t : Token} {o l d : Int} (h : Rest d x) (ht : isText t) (hs : Shape doc x ⟨t, o, l, d⟩) :
    Link doc x ⟨t, o, l, d⟩ where
  name t' h' := by rw [h.1] at h'; cases h'
  value h' := by rcases ht with rfl | rfl | rfl | rfl <;> simp at h'
  attr h' := by rcases ht with rfl | rfl | rfl | rfl <;> simp at h'
  depth := by
    have := h.2
    rcases ht with rfl | rfl | rfl | rfl <;> (simp; omega)
  shape := hs

theorem rest_text {t : Token} {o l d : Int} (ht : isText t) : Rest d ⟨t, o, l, d⟩ := by
  rcases ht with rfl | rfl | rfl | rfl <;> exact ⟨rfl, Int.le_refl _⟩

theorem Part.shape {doc : List UInt8} {x y : Rec} (h : Part x y) (ht : isText y.tok) : Shape doc x y := by
  simp only [Shape]
  rcases ht with h1 | h1 | h1 | h1 <;> rw [h1] <;> first | exact fun h' => absurd h h' | trivial

theorem linked_full {doc : List UInt8} {t : Token} (ht : isText t) {ys : List Rec}
    (hy : ∀ y ∈ ys, y.tok = t ∧ y.depth = d ∧ y.len = maxLen) {x : Rec} (h : Rest d x) :
    Linked doc x ys ∧ Rest d (ys.getLastD x) := by
  induction ys generalizing x with
  | nil => exact ⟨trivial, h⟩
  | cons y ys ih =>
    obtain ⟨h1, h2, h0⟩ := hy y (by simp)
    obtain ⟨yt, yo, yl, yd⟩ := y
    simp only at h1 h2 h0
    subst h1 h2
    obtain ⟨h3, h4⟩ := ih (fun z hz => hy z (by simp [hz])) (x := ⟨yt, yo, yl, yd⟩) (rest_text ht)
    exact ⟨⟨Link.text h ht (Part.shape (.inl h0) ht), h3⟩, by rw [List.getLastD_cons]; exact h4⟩

theorem linked_text {doc : List UInt8} {t : Token} (ht : isText t) {o l : Int} {x : Rec} (h : Rest d x)
    (hs : ∀ x, Shape doc x ⟨t, o, l, d⟩) : Linked doc x (textRecs t o l d) ∧ Rest d ((textRecs t o l d).getLastD x) := by
  simp only [textRecs]
  split
  · rename_i hl
    have hall : ∀ y ∈ (List.range ((l.toNat - 1) / maxLen)).map (fun (i : Nat) => (⟨t, i * maxLen, maxLen, d⟩ : Rec)),
        y.tok = t ∧ y.depth = d ∧ y.len = maxLen := by
      intro y hy
      obtain ⟨i, -, rfl⟩ := List.mem_map.mp hy
      exact ⟨rfl, rfl, rfl⟩
    obtain ⟨h1, h2⟩ := linked_full (doc := doc) ht hall h
    refine ⟨linked_append.mpr ⟨h1, Link.text h2 ht (Part.shape (.inr ?_) ht), trivial⟩, by rw [getLastD_append]; exact rest_text ht⟩
    have hk : 1 ≤ (l.toNat - 1) / maxLen := by
      rw [Nat.le_div_iff_mul_le (by decide)]
      simp only [maxLen] at hl ⊢; omega
    obtain ⟨k, hk⟩ : ∃ k, (l.toNat - 1) / maxLen = k + 1 := ⟨(l.toNat - 1) / maxLen - 1, by omega⟩
    rw [hk, List.range_succ, List.map_append, getLastD_append]
    exact ⟨rfl, rfl⟩
  · exact ⟨⟨Link.text h ht (hs x), trivial⟩, rest_text ht⟩

theorem rest_texts {t : Token} (ht : isText t) {ys : List Rec} (hy : ∀ y ∈ ys, y.tok = t ∧ y.depth = d) {x : Rec}
    (h : Rest d x) : Rest d (ys.getLastD x) := by
  induction ys generalizing x with
  | nil => exact h
  | cons y ys ih =>
    obtain ⟨h1, h2⟩ := hy y (by simp)
    obtain ⟨yt, yo, yl, yd⟩ := y
    simp only at h1 h2
    subst h1 h2
    rw [List.getLastD_cons]
    exact ih (fun z hz => hy z (by simp [hz])) (x := ⟨yt, yo, yl, yd⟩) (rest_text ht)

theorem textRecs_same {t : Token} {o l d : Int} : ∀ y ∈ textRecs t o l d, y.tok = t ∧ y.depth = d := by
  intro y hy
  simp only [textRecs] at hy
  split at hy
  · simp only [List.mem_append, List.mem_map, List.mem_singleton] at hy
    obtain ⟨i, _, rfl⟩ | rfl := hy <;> exact ⟨rfl, rfl⟩
  · simp only [List.mem_singleton] at hy
    subst hy; exact ⟨rfl, rfl⟩

/-- Names. -/
theorem Link.piName {doc : List UInt8} {x : Rec} {o l d : Int} (h : Rest d x) : Link doc x ⟨.piName, o, l, d⟩ where
  name t' h' := by rw [h.1] at h'; cases h'
  value h' := by simp at h'
  attr h' := by simp at h'
  depth := by have := h.2; simp; omega
  shape := trivial

theorem Link.decName {doc : List UInt8} {x : Rec} {o l d : Int} (h : Rest d x) : Link doc x ⟨.decAttrName, o, l, d⟩ where
  name t' h' := by rw [h.1] at h'; cases h'
  value h' := by simp at h'
  attr h' := by simp at h'
  depth := by have := h.2; simp; omega
  shape := trivial

theorem Link.start {doc : List UInt8} {x : Rec} {o l d : Int} (h1 : valueTok x.tok = none) (h2 : d ≤ x.depth + 1) : Link doc x ⟨.startingTag, o, l, d⟩ where
  name t' h' := by rw [h1] at h'; cases h'
  value h' := by simp at h'
  attr h' := by simp at h'
  depth := by simpa using h2
  shape := trivial

theorem Link.attrName {doc : List UInt8} {x : Rec} {t : Token} {o l d : Int} (ht : t = .attrName ∨ t = .attrNs)
    (h1 : x.tok = .startingTag ∨ x.tok = .attrVal) (h2 : x.depth = d) : Link doc x ⟨t, o, l, d⟩ where
  name t' h' := by rcases h1 with h1 | h1 <;> (rw [h1] at h'; cases h')
  value h' := by rcases ht with rfl | rfl <;> simp at h'
  attr _ := ⟨h1, h2.symm⟩
  depth := by rcases ht with rfl | rfl <;> (simp; omega)
  shape := by rcases ht with rfl | rfl <;> trivial

/-- Values. -/
theorem Link.value_ {doc : List UInt8} {x : Rec} {t : Token} {o l d : Int} (ht : valueTok x.tok = some t) (hd : x.depth = d) (hs : Shape doc x ⟨t, o, l, d⟩) : Link doc x ⟨t, o, l, d⟩ where
  name t' h' := by rw [ht] at h'; cases h'; exact ⟨rfl, hd.symm⟩
  value _ := ht
  attr h' := by
    exfalso
    revert ht h'
    cases x.tok <;> simp [valueTok] <;> (rintro rfl; simp)
  depth := by simp only; split <;> omega
  shape := hs

theorem rest_value {x : Rec} {t : Token} {o l d : Int} (ht : valueTok x.tok = some t) : Rest d ⟨t, o, l, d⟩ := by
  refine ⟨?_, Int.le_refl _⟩
  revert ht
  cases x.tok <;> simp [valueTok] <;> (rintro rfl; rfl)

/-! ## Texts -/

theorem win_length (h0 : 0 ≤ c.endOffset) (h1 : c.endOffset ≤ c.xmlDoc.length) : ((win c).length : Int) = c.endOffset := by
  simp only [win, List.length_take]; omega

theorem Wrote.text (h : Wrote c o0 out xs pos cnt) {t : Token} {o l : Int} (hb : Base c p) (hl : Rest d (lastRec xs))
    (ht : isText t) (h1 : pos ≤ o) (h2 : 0 ≤ l ∨ (t = .cdataVal ∧ l = -1)) (h3 : o + l ≤ pos') (hp : pos ≤ pos') (h4 : o + l ≤ c.endOffset)
    (h5 : -1 ≤ d) (h6 : d ≤ 254) (h7 : cnt + 2 + 2 * (l.toNat / 4 : Nat) ≤ cnt')
    (hs : ∀ x, Shape c.xmlDoc x ⟨t, o, l, d⟩) :
    Wrote c o0 (Parser.emit c.shallowDepth out (textRecs t o l d)) (xs ++ textRecs t o l d) pos' cnt' ∧
      Rest d (lastRec (xs ++ textRecs t o l d)) := by
  obtain ⟨e1, e2⟩ := linked_text ht hl hs
  have e3 := textRecs_count t o l d
  have e4 := h.le
  have e5 := hb.start
  refine ⟨h.add (fun hs => ?_) hp (textRecs_ok ?_ (by omega) h2 ?_ h5 h6) (by omega) e1, by rw [lastRec, getLastD_append]; exact e2⟩
  · rw [textRecs_short hs]
    refine Seg.one hp h1 ?_
    rcases ht with rfl | rfl | rfl | rfl <;> exact h3
  · rcases ht with rfl | rfl | rfl | rfl <;> decide
  · rw [win_length hb.end0 hb.end1]; exact h4

/-- A record of another type than a name that has its range. -/
theorem ok_plain {t : Token} {o l : Int} (hb : Base c p) (ht : t ≠ .startingTag ∧ t ≠ .attrName ∧ t ≠ .attrNs)
    (h0 : 0 ≤ o) (h1 : 0 ≤ l) (h2 : l ≤ maxLen) (h3 : o + l ≤ c.endOffset) (d0 : -1 ≤ d) (d1 : d ≤ 254) :
    RecOk (win c) ⟨t, o, l, d⟩ :=
  RecOk.plain ht h0 h1 h2 (by rw [win_length hb.end0 hb.end1]; exact h3) d0 d1

/-! ## The invariant -/

/-- Where the records end. -/
def posn (st : PState) (p : Parser) : Int :=
  match st with
  | .text | .tagStart | .attrName | .attrVal | .piTag | .cdata | .docType | .startComment | .piEnd | .endComment => p.lastOffset
  | .decAttrName => p.lastOffset - 1
  | _ => p.offset

/-- The bytes that count for the records. -/
def budget (c : ParserCfg) (st : PState) (p : Parser) : Int :=
  match st with
  | .ltSeen => p.rd.offset - 1
  | .tagStart | .attrName | .attrVal | .piVal => p.rd.offset - 2
  | .text => p.lastOffset - 1
  | .cdata | .startComment | .docType => p.lastOffset - 3
  | .piTag | .piEnd => p.rd.offset - 3
  | .docEnd => min p.rd.offset c.endOffset - 1
  | _ => p.rd.offset

/-- The last record. -/
def LastOk (st : PState) (d : Int) (x : Rec) : Prop :=
  match st with
  | .tagStart => valueTok x.tok = none ∧ d ≤ x.depth + 1
  | .attrName => (x.tok = .startingTag ∨ x.tok = .attrVal) ∧ x.depth = d
  | .attrVal => (x.tok = .attrName ∨ x.tok = .attrNs) ∧ x.depth = d
  | .piVal => x.tok = .piName ∧ x.depth = d
  | _ => Rest d x

/-- The positions and the bytes before them. -/
def PosOk (c : ParserCfg) (st : PState) (p : Parser) (x : Rec) : Prop :=
  match st with
  | .text => p.lastOffset + 1 ≤ p.rd.offset ∧ ∀ rest, TextBody (from_ c p.rd.offset) rest → TextBody (from_ c p.lastOffset) rest
  | .piTag => p.lastOffset + 1 ≤ p.offset
  | .attrName => 1 ≤ p.lastOffset ∧ ∃ s, c.xmlDoc[(p.lastOffset - 1).toNat]? = some s ∧ Ws s
  | .attrVal => p.lastOffset = p.rd.offset ∧ ∃ q : UInt8, p.currentChar = q.toNat ∧ Opened c.xmlDoc x q p.rd.offset
  | .startComment => p.lastOffset = p.rd.offset ∧ Pred c.xmlDoc p.rd.offset (str% "!--")
  | .cdata => p.lastOffset = p.rd.offset ∧ Pred c.xmlDoc p.rd.offset (str% "![CDATA[")
  | .docType | .piEnd | .decAttrName => p.lastOffset = p.rd.offset
  | _ => True

/-- The invariant of `Parse`. -/
structure W (c : ParserCfg) (o0 : ParserOut) (st : PState) (p : Parser) (xs : List Rec) : Prop where
  wr : Wrote c o0 p.out xs (posn st p) (budget c st p)
  last : LastOk st p.depth (lastRec xs)
  pos : PosOk c st p (lastRec xs)

/-- The next invariant, with more records. -/
def Next (c : ParserCfg) (o0 : ParserOut) (st : PState) (p : Parser) : Prop := ∃ xs, W c o0 st p xs

end Wr
end Parser
end GoVtd
