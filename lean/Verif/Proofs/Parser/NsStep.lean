import Verif.Proofs.Parser.NsInv
import Verif.Proofs.Parser.PlainParse

/-!
# The steps that leave the prefixes alone, and the ends of start tags
-/

namespace GoVtd
namespace Parser
namespace Sound
open Paged Grammar Two Ev Plain

variable {c : ParserCfg} {p p' : Parser} {D : List UInt8} {A B V V' xs : List (BitVec 64)} {w w0 : BitVec 64} {i : Nat}
  {st st' : PState}

/-- From `s` to `s'` the attributes and the tables stay, and only quiet records are written. -/
structure LFrame (s s' : Parser) : Prop where
  ok : OutOk s'.out
  enc : s'.enc = stdEnc
  ws : s'.ws = false
  cfg : s'.cfg = s.cfg
  at_ : s'.at_ = s.at_
  ns : s'.ns = s.ns
  out : ∃ xs, s'.out = Parser.emit s.cfg.shallowDepth s.out xs ∧ Ev.Quiet xs

/-- `LFrame`, if the state is as it is in a parse of bytes. -/
def LF (s s' : Parser) : Prop := OutOk s.out → s.enc = stdEnc → s.ws = false → LFrame s s'

theorem lf_pre : Pre LF where
  refl s h1 h2 h3 := ⟨h1, h2, h3, rfl, rfl, rfl, [], rfl, fun _ h => by cases h⟩
  trans := by
    intro a b c h h' h1 h2 h3
    obtain ⟨x1, x2, x3, x4, x5, x6, xs, x9, x10⟩ := h h1 h2 h3
    obtain ⟨y1, y2, y3, y4, y5, y6, ys, y9, y10⟩ := h' x1 x2 x3
    refine ⟨y1, y2, y3, y4.trans x4, y5.trans x5, y6.trans x6, xs ++ ys, ?_, ?_⟩
    · rw [emit_append, ← x9, ← x4]; exact y9
    · intro x hx
      rcases List.mem_append.mp hx with hx | hx
      · exact x10 x hx
      · exact y10 x hx

theorem LF.quiet {α : Type} {m : M Parser α} (h : Fr QF m) : Fr LF m := by
  refine Two.Fr.weaken h fun s s' h h1 h2 h3 => ?_
  obtain ⟨y1, y2, y3, y4, y5, y6, y7, y8, y0, ys, y9, y10⟩ := h h1 h2 h3
  exact ⟨y1, y2, y3, y4, y7, y0, ys, y9, y10⟩

theorem modify_lf {f : Parser → Parser} (h : ∀ s, (f s).out = s.out ∧ (f s).enc = s.enc ∧ (f s).ws = s.ws ∧
    (f s).cfg = s.cfg ∧ (f s).at_ = s.at_ ∧ (f s).ns = s.ns) : Fr LF (M.modify f) :=
  Fr.modify fun s h1 h2 h3 => by
    obtain ⟨g1, g2, g3, g4, g5, g6⟩ := h s
    exact ⟨g1 ▸ h1, g2.trans h2, g3.trans h3, g4, g5, g6, [], g1, fun _ h => by cases h⟩

theorem lf_ok {α : Type} {m : M Parser α} (h : Fr LF m) {a : α} {s s' : Parser} (hm : m s = .ok a s') (hb : Base c s) : LFrame s s' :=
  h.ok hm hb.out hb.enc hb.ws

/-- Prove `Fr LF m` along the text of `m`. -/
syntax "lf" : tactic
macro_rules
  | `(tactic| lf) => `(tactic| repeat' (first
      | (with_reducible refine LF.quiet ?_; qf; done)
      | with_reducible exact modify_lf fun _ => ⟨rfl, rfl, rfl, rfl, rfl, rfl⟩
      | with_reducible refine Fr.bind lf_pre ?_ fun _ => ?_
      | with_reducible refine Fr.ite ?_ ?_))

theorem processLtSeen_lf : Fr LF processLtSeen := by unfold processLtSeen; lf
theorem processEndTag_lf : Fr LF processEndTag := by
  have hs := fun n a b => eq_qf (sameBytes_fr eq_pre n a b)
  unfold processEndTag setOffset
  repeat' (first
      | exact LF.quiet (hs _ _ _)
      | (with_reducible refine LF.quiet ?_; qf; done)
      | with_reducible exact modify_lf fun _ => ⟨rfl, rfl, rfl, rfl, rfl, rfl⟩
      | with_reducible refine Fr.bind lf_pre ?_ fun _ => ?_
      | with_reducible refine Fr.ite ?_ ?_)
theorem valSlash_lf : Fr LF valSlash := by unfold valSlash; lf

/-! ## States -/

/-- The states outside the list of attributes. -/
def notAttr : PState → Bool
  | .attrVal => false
  | .attrName => false
  | _ => true

theorem notAttr_ne (h : notAttr st = true) : st ≠ .attrName ∧ st ≠ .attrVal := by
  constructor <;> rintro rfl <;> cases h

theorem synced_notAttr {m : M Parser PState} (h : Ends synced m) : Ends notAttr m := fun s st s' hm => by
  have := h s st s' hm
  cases st <;> first | rfl | cases this

theorem after_notAttr {m : M Parser PState} (h : Ends Ev.after m) : Ends notAttr m := fun s st s' hm => by
  have := h s st s' hm
  cases st <;> first | rfl | cases this

theorem tail_notAttr : Ends notAttr processElementTail := by
  have h := synced_notAttr afterMarkup_ends
  have h' := fun c => synced_notAttr (getNextProcessStateFromChar_ends c)
  unfold processElementTail
  repeat' (first
    | assumption
    | exact h' _
    | ((with_reducible refine ends_pure ?_); rfl)
    | with_reducible exact ends_raise _
    | with_reducible exact ends_parseErr _
    | with_reducible refine ends_bind fun _ => ?_
    | with_reducible refine ends_ite ?_ ?_)

theorem step_notAttr (h1 : st ≠ .attrName) (h2 : st ≠ .attrVal) (h3 : st ≠ .tagStart) : Ends notAttr (step st) := by
  have hT := tail_notAttr
  have hQ : Ends notAttr processQmSeen := fun s st s' hm => by
    have := processQmSeen_ends s st s' hm
    cases st <;> first | rfl | cases this
  have hX := synced_notAttr processExSeen_ends
  cases st with
  | docType => exact synced_notAttr processDocType_ends
  | docStart => unfold step processDocStart; ends
  | docEnd => exact after_notAttr processDocEnd_ends
  | ltSeen => unfold step processLtSeen; ends
  | tagStart => exact absurd rfl h3
  | tagEnd => 
    have h := synced_notAttr afterMarkup_ends
    have h' := fun c => synced_notAttr (getNextProcessStateFromChar_ends c)
    unfold step processEndTag
    ends
  | attrName => exact absurd rfl h1
  | attrVal => exact absurd rfl h2
  | decAttrName => exact synced_notAttr processDecAttrName_ends
  | text => exact synced_notAttr processText_ends
  | piTag => exact synced_notAttr processPiTag_ends
  | piVal => exact synced_notAttr processPiVal_ends
  | piEnd => exact after_notAttr processPiEnd_ends
  | startComment => exact synced_notAttr processStartComment_ends
  | endComment => exact after_notAttr processEndComment_ends
  | cdata => exact synced_notAttr processCdata_ends
  | invalid => exact ends_parseErr _

theorem step_lf (h1 : st ≠ .attrName) (h2 : st ≠ .attrVal) (h3 : st ≠ .tagStart) : Fr LF (step st) := by
  cases st with
  | docType => exact LF.quiet processDocType_qf
  | docStart => exact LF.quiet processDocStart_qf
  | docEnd => exact LF.quiet processDocEnd_qf
  | ltSeen => exact processLtSeen_lf
  | tagStart => exact absurd rfl h3
  | tagEnd => exact processEndTag_lf
  | attrName => exact absurd rfl h1
  | attrVal => exact absurd rfl h2
  | decAttrName => exact LF.quiet processDecAttrName_qf
  | text => exact LF.quiet processText_qf
  | piTag => exact LF.quiet processPiTag_qf
  | piVal => exact LF.quiet processPiVal_qf
  | piEnd => exact LF.quiet processPiEnd_qf
  | startComment => exact LF.quiet processStartComment_qf
  | endComment => exact LF.quiet processEndComment_qf
  | cdata => exact LF.quiet processCdata_qf
  | invalid => exact parseErr_fr lf_pre _

/-! ## The invariant -/

/-- The records so far. -/
abbrev vals (p : Parser) : List (BitVec 64) := p.out.vtdBuffer.values

/-- Outside a start tag. -/
structure Closed (c : ParserCfg) (p : Parser) : Prop where
  com : Common c.xmlDoc (vals p) p
  done : Done c.xmlDoc (vals p)
  decls : Decls c.xmlDoc (vals p)
  count : p.at_.prefixedAttCount = 0
  isNs : p.at_.isNs = false
  isXml : p.at_.isXml = false

/-- Before the name of an attribute. -/
structure InTag (c : ParserCfg) (p : Parser) : Prop where
  com : Common c.xmlDoc (vals p) p
  opn : ∃ A B w0, OpenTag c.xmlDoc (vals p) p.at_ A B w0
  decls : Decls c.xmlDoc (vals p)
  isNs : p.at_.isNs = false
  isXml : p.at_.isXml = false

/-- Before the value of an attribute. -/
structure InVal (c : ParserCfg) (p : Parser) : Prop where
  com : Common c.xmlDoc (vals p) p
  opn : ∃ A B w0, OpenTag c.xmlDoc (vals p) p.at_ A B w0
  last : ∃ V' w, vals p = V' ++ [w] ∧ Decls c.xmlDoc V' ∧ ∀ q, Declares c.xmlDoc w q →
    p.at_.isNs = true ∧ p.at_.defaultNs = false ∧ q ≠ str% "xmlns" ∧ (q = str% "xml" → p.at_.isXml = true)
  mark : p.lastOffset = p.offset ∧ p.offset ≤ c.endOffset

/-- What is known before the step of a state. -/
def NsInv (c : ParserCfg) (st : PState) (p : Parser) : Prop :=
  if st = .attrName then InTag c p else if st = .attrVal then InVal c p else Closed c p

theorem quiet_word {x : Rec} (h : 4 ≤ x.tok.code) : ¬ IsStart x.word ∧ tokenType x.word ≠ Token.attrName.code ∧
    tokenType x.word ≠ Token.attrNs.code := by
  have := quiet_type h
  have e1 : Token.startingTag.code < 4 := by decide
  have e2 : Token.attrName.code < 4 := by decide
  have e3 : Token.attrNs.code < 4 := by decide
  refine ⟨fun h => ?_, fun h => ?_, fun h => ?_⟩
  · have h : tokenType x.word = _ := h; omega
  · omega
  · omega

theorem LFrame.vals {s s' : Parser} (h : LFrame s s') (ho : OutOk s.out) : ∃ ws, vals s' = vals s ++ ws ∧
    ∀ w ∈ ws, ¬ IsStart w ∧ tokenType w ≠ Token.attrName.code ∧ tokenType w ≠ Token.attrNs.code := by
  obtain ⟨xs, hx, hq⟩ := h.out
  refine ⟨xs.map Rec.word, by rw [Sound.vals, hx, emit_values ho], fun w hw => ?_⟩
  obtain ⟨x, hx, rfl⟩ := List.mem_map.mp hw
  exact quiet_word (hq x hx)

theorem Closed.quiet (h : Closed c p) (hb : Base c p) (hL : LFrame p p') : Closed c p' := by
  obtain ⟨ws, hv, hq⟩ := hL.vals hb.out
  refine ⟨h.com.to ?_ (by rw [hL.at_]) (by rw [hL.at_]) (by rw [hL.ns]) (by rw [hL.ns]), ?_, ?_, ?_, ?_, ?_⟩
  · intro w hw; rw [hv]; exact List.mem_append_left _ hw
  · rw [hv]; exact h.done.append fun w hw => ⟨(hq w hw).1, (hq w hw).2.1⟩
  · rw [hv]; exact h.decls.append fun w hw q hd => (hq w hw).2.2 hd.type
  · rw [hL.at_]; exact h.count
  · rw [hL.at_]; exact h.isNs
  · rw [hL.at_]; exact h.isXml

theorem InTag.same (h : InTag c p) (ha : p'.at_ = p.at_) (hn : p'.ns = p.ns) (ho : p'.out = p.out) : InTag c p' := by
  obtain ⟨h1, ⟨A, B, w0, h2⟩, h3, h4, h5⟩ := h
  refine ⟨?_, ⟨A, B, w0, ?_⟩, ?_, ?_, ?_⟩
  · rw [vals, ho]; exact h1.to (fun _ h => h) (by rw [ha]) (by rw [ha]) (by rw [hn]) (by rw [hn])
  · rw [vals, ho, ha]; exact h2
  · rw [vals, ho]; exact h3
  · rw [ha]; exact h4
  · rw [ha]; exact h5

/-! ## The end of a start tag -/

theorem valSlash_base {s : Parser} (hb : Base c s) : Post (valSlash s) fun _ s' => Base c s' ∧ s'.at_ = s.at_ ∧ s'.ns = s.ns ∧ s'.out = s.out := by
  refine Post.modify (Post.get (Post.ite (fun _ => Post.modify ?_) fun _ => ⟨hb, rfl, rfl, rfl⟩))
  refine (nextChar_byte (c := c) (by exact hb)).mono ?_
  rintro _ _ ⟨b, rfl, hb', -⟩
  exact ⟨hb', rfl, rfl, rfl⟩

theorem closed_attrValEnd (h : InTag c p) (hb : Base c p) (hns : c.nsAware = true) (hm : attrValEnd p = .ok st p') :
    notAttr st = true ∧ Closed c p' := by
  rw [attrValEnd_eq] at hm
  obtain ⟨u, s1, x1, y1⟩ := bind_ok hm
  obtain ⟨hb1, a1, n1, o1⟩ := (valSlash_base hb).eq x1
  have h1 := h.same a1 n1 o1
  obtain ⟨hC, ⟨A, B, w0, hO⟩, hD, hi, hx⟩ := h1
  unfold valClose at y1
  obtain ⟨q, t, x2, y2⟩ := bind_ok y1
  cases x2
  rw [M.ite_apply] at y2
  split at y2
  · obtain ⟨u2, s2, x3, y3⟩ := bind_ok (m := attrValQualify) y2
    obtain ⟨k1, k2, k3, k4, l, k5⟩ := attrValQualify_found hb1 hns hC hO x3
    rw [M.bind_apply, M.modify_apply, Res.andThen_ok] at y3
    refine ⟨tail_notAttr _ _ _ y3, ?_⟩
    generalize hs3 : ({ s2 with at_ := { s2.at_ with attrCount := 0 } } : Parser) = s3 at y3
    have hb3 : Base c s3 := by rw [← hs3]; exact k4
    refine Closed.quiet (p := s3) ?_ hb3 (lf_ok (LF.quiet processElementTail_qf) y3 hb3)
    have hv : vals s3 = vals s1 := by rw [← hs3]; show s2.out.vtdBuffer.values = _; rw [k3]
    have ha : s3.at_ = { s1.at_ with prefixUrlSlice := l, prefixedAttCount := 0, attrCount := 0 } := by
      rw [← hs3]; dsimp only; rw [k5]
    refine ⟨?_, ?_, ?_, ?_, ?_, ?_⟩
    · rw [hv]; exact k2.to (fun _ h => h) (by rw [← hs3]) (by rw [← hs3]) (by rw [← hs3]) (by rw [← hs3])
    · rw [hv]; exact k1
    · rw [hv]; exact hD
    · rw [ha]
    · rw [ha]; exact hi
    · rw [ha]; exact hx
  · exact (Two.parseErr_ok y2).elim

theorem closed_startTagEnd (h : InTag c p) (hb : Base c p) (hns : c.nsAware = true) (h0 : p.at_.prefixedAttCount = 0)
    (hm : startTagEnd p = .ok st p') : notAttr st = true ∧ Closed c p' := by
  have close : ∀ {s1 : Parser}, Base c s1 → s1.at_ = p.at_ → s1.ns = p.ns → s1.out = p.out → startTagClose s1 = .ok st p' →
      notAttr st = true ∧ Closed c p' := by
    intro s1 hb1 a1 n1 o1 y1
    obtain ⟨hC, ⟨A, B, w0, hO⟩, hD, hi, hx⟩ := h.same a1 n1 o1
    unfold startTagClose at y1
    obtain ⟨q, t, x2, y2⟩ := bind_ok y1
    cases x2
    rw [M.ite_apply] at y2
    split at y2
    · rw [M.ite_apply, if_pos (by rw [hb1.cfg]; exact hns)] at y2
      obtain ⟨u2, s2, x3, y3⟩ := bind_ok (m := pushNs1) y2
      obtain ⟨b1, e2⟩ := pushNs1_val x3
      have hb2 : Base c s2 := by rw [e2]; exact hb1
      have ha2 : s2.at_ = s1.at_ := by rw [e2]
      have hv2 : vals s2 = vals s1 := by rw [e2]
      have hC2 : Common c.xmlDoc (vals s1) s2 := hC.to (fun _ h => h) (by rw [e2]) (by rw [e2]) (by rw [e2]) (by rw [e2])
      have hO2 : OpenTag c.xmlDoc (vals s1) s2.at_ A B w0 := by rw [ha2]; exact hO
      obtain ⟨u3, s3, x4, y4⟩ := bind_ok (m := (if s2.at_.currentElementRecord ≠ 0 then qualifyElement else pure ()))
        (k := fun _ => processElementTail) (b := st) (s := s2) (s' := p') (by
          rw [← y3, ha2, M.bind_apply, M.ite_apply, M.ite_apply]
          split <;> rfl)
      obtain ⟨rfl, he⟩ := elem_found hb2 hC2 hO2 x4
      have hdone : Done c.xmlDoc (vals s1) := by
        refine hO.close ?_ he ?_
        · intro j e hj; rw [a1, h0] at hj; simp at hj
        · intro _ i k e e' _ hk; rw [a1, h0] at hk; simp at hk
      refine ⟨tail_notAttr _ _ _ y4, ?_⟩
      refine Closed.quiet (p := s3) ?_ hb2 (lf_ok (LF.quiet processElementTail_qf) y4 hb2)
      refine ⟨?_, ?_, ?_, ?_, ?_, ?_⟩
      · rw [hv2]; exact hC2
      · rw [hv2]; exact hdone
      · rw [hv2]; exact hD
      · rw [ha2, a1]; exact h0
      · rw [ha2]; exact hi
      · rw [ha2]; exact hx
    · exact (Two.parseErr_ok y2).elim
  rw [startTagEnd_eq] at hm
  unfold startTagEnd' at hm
  rw [M.bind_apply, M.modify_apply, Res.andThen_ok, M.bind_apply, M.get_apply, Res.andThen_ok, M.ite_apply] at hm
  split at hm
  · rw [M.bind_apply, M.modify_apply, Res.andThen_ok] at hm
    obtain ⟨ch, s2, x3, y3⟩ := bind_ok (m := getChar) hm
    obtain ⟨b, -, e2, hb2, -⟩ := (getChar_byte (c := c) (by exact hb)).eq x3
    rw [M.bind_apply, M.modify_apply, Res.andThen_ok] at y3
    refine close (by exact hb2) ?_ ?_ ?_ y3 <;> rw [e2] <;> rfl
  · refine close ?_ ?_ ?_ ?_ hm
    · exact hb
    all_goals rfl

end Sound
end Parser
end GoVtd
