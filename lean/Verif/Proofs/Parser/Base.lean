import Verif.Proofs.Sat
import Verif.Proofs.Buffer
import Verif.Spec.Lines
import Verif.Model.Parser.Parse

/-!
# The invariant of the parser and the specifications of its primitives
-/

namespace GoVtd
namespace Parser
open Paged

/-- The encoding fields of a parser that reads bytes. -/
def stdEnc : ParserEnc :=
  { encoding := FormatAscii, increment := 1, singleByteEncoding := true, bomDetected := false,
    mustUtf8 := false }

/-- The byte after the window exists and is a NUL byte: no skip can leave the window. -/
def Sentinel (c : ParserCfg) : Prop := c.xmlDoc[c.endOffset.toNat]? = some 0

/-- The result buffers have been filled by appends. -/
structure OutOk (o : ParserOut) : Prop where
  vtd : ∃ e xs, o.vtdBuffer = fill e xs
  l1 : ∃ e xs, o.l1Buffer = fill e xs
  l2 : ∃ e xs, o.l2Buffer = fill e xs
  l3 : ∃ e xs, o.l3Buffer = fill e xs
  l4 : ∃ e xs, o.l4Buffer = fill e xs
  l5 : ∃ e xs, o.l5Buffer = fill e xs

/-- The parts of the invariant about reading. -/
structure BaseCore (c cfg : ParserCfg) (enc : ParserEnc) (rd : Reader) (offset : Int) (ws : Bool)
    (out : ParserOut) : Prop where
  cfg : cfg = c
  enc : enc = stdEnc
  kind : rd.kind = .utf8
  doc : rd.xmlDoc = c.xmlDoc
  fin : rd.endOffset = c.endOffset
  end0 : 0 ≤ c.endOffset
  end1 : c.endOffset ≤ c.xmlDoc.length
  end2 : c.endOffset < 2 ^ 31
  start : 0 ≤ c.docOffset
  off0 : 0 ≤ offset
  off1 : offset ≤ rd.offset
  off2 : rd.offset ≤ c.xmlDoc.length
  sent : Sentinel c → rd.offset ≤ c.endOffset
  ws : ws = false
  out : OutOk out

/-- The invariant of every call. -/
def Base (c : ParserCfg) (p : Parser) : Prop :=
  BaseCore c p.cfg p.enc p.rd p.offset p.ws p.out

/-- Move the reader to `r`, the offset to `o`, the current character to `ch`. -/
def mv (p : Parser) (r o : Int) (ch : Nat) : Parser :=
  { p with rd := { p.rd with offset := r }, offset := o, currentChar := ch }

@[simp] theorem mv_cfg (p : Parser) (r o : Int) (ch : Nat) : (p.mv r o ch).cfg = p.cfg := rfl
@[simp] theorem mv_enc (p : Parser) (r o : Int) (ch : Nat) : (p.mv r o ch).enc = p.enc := rfl
@[simp] theorem mv_rdOffset (p : Parser) (r o : Int) (ch : Nat) : (p.mv r o ch).rd.offset = r := rfl
@[simp] theorem mv_offset (p : Parser) (r o : Int) (ch : Nat) : (p.mv r o ch).offset = o := rfl
@[simp] theorem mv_cur (p : Parser) (r o : Int) (ch : Nat) : (p.mv r o ch).currentChar = ch := rfl
@[simp] theorem mv_lastOffset (p : Parser) (r o : Int) (ch : Nat) :
    (p.mv r o ch).lastOffset = p.lastOffset := rfl
@[simp] theorem mv_length1 (p : Parser) (r o : Int) (ch : Nat) : (p.mv r o ch).length1 = p.length1 := rfl
@[simp] theorem mv_length2 (p : Parser) (r o : Int) (ch : Nat) : (p.mv r o ch).length2 = p.length2 := rfl
@[simp] theorem mv_depth (p : Parser) (r o : Int) (ch : Nat) : (p.mv r o ch).depth = p.depth := rfl
@[simp] theorem mv_helper (p : Parser) (r o : Int) (ch : Nat) : (p.mv r o ch).helper = p.helper := rfl
@[simp] theorem mv_tagStack (p : Parser) (r o : Int) (ch : Nat) :
    (p.mv r o ch).tagStack = p.tagStack := rfl
@[simp] theorem mv_at (p : Parser) (r o : Int) (ch : Nat) : (p.mv r o ch).at_ = p.at_ := rfl
@[simp] theorem mv_out (p : Parser) (r o : Int) (ch : Nat) : (p.mv r o ch).out = p.out := rfl
@[simp] theorem mv_ns (p : Parser) (r o : Int) (ch : Nat) : (p.mv r o ch).ns = p.ns := rfl
@[simp] theorem mv_mv (p : Parser) (r o r' o' : Int) (ch ch' : Nat) :
    (p.mv r o ch).mv r' o' ch' = p.mv r' o' ch' := rfl
theorem mv_self (p : Parser) : p.mv p.rd.offset p.offset p.currentChar = p := rfl

section
variable {c : ParserCfg} {p : Parser}

theorem Base.mv (h : Base c p) {r o : Int} (ch : Nat) (h0 : 0 ≤ o) (h1 : o ≤ r)
    (h2 : r ≤ c.xmlDoc.length) (h3 : Sentinel c → r ≤ c.endOffset) : Base c (p.mv r o ch) :=
  { h with off0 := h0, off1 := h1, off2 := h2, sent := h3 }

theorem Base.ofOut (h : Base c p) {o : ParserOut} (ho : OutOk o) : Base c { p with out := o } :=
  { h with out := ho }

/-- Errors: the configuration is kept, and a line text tells the line and column of the
offset at which the error was raised. -/
def Er (c : ParserCfg) (e : GoErr) (p : Parser) : Prop :=
  p.cfg = c ∧
  e.LineIs (newlines c.xmlDoc c.docOffset.toNat p.offset.toNat + 1)
    (p.offset - lastNewline c.xmlDoc c.docOffset.toNat p.offset.toNat + 1)

/-- Panics that a sentinel rules out. -/
abbrev Pn (c : ParserCfg) : Prop := ¬ Sentinel c

theorem docByte_eq (hp : p.cfg = c) {i : Int} (h0 : 0 ≤ i) (h1 : i < c.xmlDoc.length) :
    ∃ b, c.xmlDoc[i.toNat]? = some b ∧ docByte i p = .ok b p := by
  have : i.toNat < c.xmlDoc.length := by omega
  refine ⟨c.xmlDoc[i.toNat], by simp [this], ?_⟩
  simp only [docByte, M.bind_apply, M.get_apply, Res.andThen_ok, hp]
  rw [M.index_of_lt _ _ _ h0 this]

/-! ## Characters -/

theorem rdGetChar_eq (r : Reader) (hk : r.kind = .utf8) (h0 : 0 ≤ r.offset)
    (h1 : r.endOffset ≤ r.xmlDoc.length) :
    Reader.getChar r = if h : r.offset < r.endOffset then
      .ok (r.xmlDoc[r.offset.toNat]'(by omega)).toNat { r with offset := r.offset + 1 }
      else .err (newEOFError XmlIncomplete) r := by
  simp only [Reader.getChar, M.bind_apply, M.get_apply, Res.andThen_ok, M.ite_apply, M.raise_apply]
  by_cases h : r.offset < r.endOffset
  · rw [dif_pos h, if_neg (by omega), M.index_of_lt _ _ _ h0 (by omega)]
    simp only [Res.andThen_ok]
    rw [if_pos]
    · rfl
    · have := (r.xmlDoc[r.offset.toNat]'(by omega)).toNat_lt
      simp only [hk, Reader.accepts, decide_eq_true_eq]
      omega
  · rw [dif_neg h, if_pos (by omega)]

theorem getChar_eq (hb : Base c p) :
    getChar p = if h : p.rd.offset < c.endOffset then
      .ok (c.xmlDoc[p.rd.offset.toNat]'(by have := hb.end1; have := hb.off0; have := hb.off1; omega)).toNat
        (p.mv (p.rd.offset + 1) (p.rd.offset + 1) p.currentChar)
      else .err (newEOFError XmlIncomplete) p := by
  have h0 : 0 ≤ p.rd.offset := Int.le_trans hb.off0 hb.off1
  have hd := hb.doc
  simp only [getChar, onRd, M.bind_apply, M.zoom_apply]
  rw [rdGetChar_eq p.rd hb.kind h0 (by rw [hb.fin, hd]; exact hb.end1)]
  by_cases h : p.rd.offset < c.endOffset
  · rw [dif_pos h, dif_pos (by rw [hb.fin]; exact h)]
    have key : (c.xmlDoc[p.rd.offset.toNat]'(by
        have := hb.end1; omega)).toNat = (p.rd.xmlDoc[p.rd.offset.toNat]'(by
        have := hb.end1; rw [hd]; omega)).toNat := by simp only [hd]
    rw [key]
    rfl
  · rw [dif_neg h, dif_neg (by rw [hb.fin]; exact h)]
    rfl

/-- `p'` is `p` with the reader moved on to `r`, everything else but the current character
unchanged. -/
def Moved (c : ParserCfg) (p : Parser) (lo : Int) (p' : Parser) : Prop :=
  ∃ r ch, p' = p.mv r r ch ∧ Base c p' ∧ lo ≤ r

theorem Er.eof (hp : p.cfg = c) (m : String) : Er c (newEOFError m) p := ⟨hp, trivial⟩
theorem Er.entity (hp : p.cfg = c) (m : String) : Er c (newEntityError m) p := ⟨hp, trivial⟩

theorem getChar_sat (hb : Base c p) :
    (getChar p).Sat
      (fun _ p' => p' = p.mv (p.rd.offset + 1) (p.rd.offset + 1) p.currentChar ∧ Base c p' ∧
        p.rd.offset < c.endOffset)
      (Er c) (Pn c) False := by
  rw [getChar_eq hb]
  have h0 := hb.off0; have h1 := hb.off1; have h2 := hb.end1
  split
  · rename_i h
    exact ⟨rfl, hb.mv _ (by omega) (by omega) (by omega) (fun _ => by omega), h⟩
  · exact Er.eof hb.cfg _

theorem skipChar_eq (hb : Base c p) (ch : Nat) (h : p.rd.offset < c.xmlDoc.length) :
    skipChar ch p =
      if ch = (c.xmlDoc[p.rd.offset.toNat]'(by have := hb.off0; have := hb.off1; omega)).toNat then
        .ok true (p.mv (p.rd.offset + 1) (p.rd.offset + 1) p.currentChar)
      else .ok false (p.mv p.rd.offset p.rd.offset p.currentChar) := by
  have h0 : 0 ≤ p.rd.offset := Int.le_trans hb.off0 hb.off1
  have hd := hb.doc
  simp only [skipChar, onRd, M.bind_apply, M.zoom_apply, Reader.skipChar, M.get_apply,
    Res.andThen_ok]
  simp only [hd]
  rw [M.index_of_lt _ _ _ h0 (by omega)]
  simp only [Res.andThen_ok, M.ite_apply, M.bind_apply, M.modify_apply, M.pure_apply]
  split <;> rfl

theorem skipChar_panic (hb : Base c p) (ch : Nat) (h : (c.xmlDoc.length : Int) ≤ p.rd.offset) :
    skipChar ch p = .panic := by
  have hd := hb.doc
  simp only [skipChar, onRd, M.bind_apply, M.zoom_apply, Reader.skipChar, M.get_apply,
    Res.andThen_ok, hd]
  rw [M.index_panic _ _ _ (Or.inr h)]
  rfl

theorem Sentinel.lt (h : Sentinel c) (h0 : 0 ≤ c.endOffset) : c.endOffset < c.xmlDoc.length := by
  have := (List.getElem?_eq_some_iff.mp h).1
  omega

theorem skipChar_sat (hb : Base c p) {ch : Nat} (hch : ch ≠ 0) :
    (skipChar ch p).Sat
      (fun b p' => p' = p.mv (p.rd.offset + b.toNat) (p.rd.offset + b.toNat) p.currentChar ∧
        Base c p')
      (Er c) (Pn c) False := by
  have h0 := hb.off0; have h1 := hb.off1; have h2 := hb.end1; have h3 := hb.off2
  by_cases h : p.rd.offset < c.xmlDoc.length
  · rw [skipChar_eq hb ch h]
    split
    · rename_i heq
      refine ⟨rfl, hb.mv _ (by omega) (by omega) (by omega) (fun hs => ?_)⟩
      have h4 := hb.sent hs
      by_cases h5 : p.rd.offset = c.endOffset
      · exfalso
        have hs' := hs
        simp only [Sentinel] at hs'
        rw [← h5] at hs'
        obtain ⟨_, hs''⟩ := List.getElem?_eq_some_iff.mp hs'
        rw [hs''] at heq
        exact hch heq
      · omega
    · refine ⟨by simp, hb.mv _ (by omega) (by omega) (by omega) hb.sent⟩
  · rw [skipChar_panic hb ch (by omega)]
    intro hs
    have := hb.sent hs
    have := Sentinel.lt hs hb.end0
    omega

theorem nextChar_eq (hb : Base c p) :
    nextChar p = if h : p.rd.offset < c.endOffset then
      .ok () (p.mv (p.rd.offset + 1) (p.rd.offset + 1) (c.xmlDoc[p.rd.offset.toNat]'(by
        have := hb.end1; have := hb.off0; have := hb.off1; omega)).toNat)
      else .err (newEOFError XmlIncomplete) p := by
  simp only [nextChar, M.bind_apply]
  rw [getChar_eq hb]
  split <;> rfl

theorem nextChar_sat (hb : Base c p) :
    (nextChar p).Sat
      (fun _ p' => ∃ ch, p' = p.mv (p.rd.offset + 1) (p.rd.offset + 1) ch ∧ Base c p' ∧
        p.rd.offset < c.endOffset)
      (Er c) (Pn c) False := by
  rw [nextChar_eq hb]
  have h0 := hb.off0; have h1 := hb.off1; have h2 := hb.end1
  split
  · rename_i h
    exact ⟨_, rfl, hb.mv _ (by omega) (by omega) (by omega) (fun _ => by omega), h⟩
  · exact Er.eof hb.cfg _

end
end Parser
end GoVtd
