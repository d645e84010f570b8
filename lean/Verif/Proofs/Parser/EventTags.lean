import Verif.Proofs.Parser.Events
import Verif.Proofs.Parser.Attrs

/-!
# The steps over tags
-/

namespace GoVtd
namespace Parser
namespace Ev
open Paged Grammar Two
variable {c : ParserCfg} {p : Parser} {o0 : ParserOut} {es : List Mark} {stk : List (Nat × Nat)} {recs : List Rec}

/-! ## The start of the document -/

/-- A test that moves the reader over one byte if it succeeds. -/
def Step1 (c : ParserCfg) (m : M Parser Bool) : Prop := ∀ p, Base c p → Post (m p) fun x p' =>
  p' = p.mv (p.rd.offset + x.toNat) (p.rd.offset + x.toNat) p.currentChar ∧ Base c p'

/-- A test that moves the reader over at most `n` bytes. -/
def AtMost (c : ParserCfg) (n : Nat) (m : M Parser Bool) : Prop := ∀ p, Base c p → Post (m p) fun _ p' =>
  ∃ r, p' = p.mv r r p.currentChar ∧ Base c p' ∧ p.rd.offset ≤ r ∧ r ≤ p.rd.offset + n

theorem step1_skip {ch : Nat} (h : ch ≠ 0) : Step1 c (skipChar ch) := fun _ hb => sat_post (skipChar_sat hb h)

theorem step1_or {a b : M Parser Bool} (ha : Step1 c a) (hb : Step1 c b) : Step1 c (a ||! b) := by
  intro p hp
  refine Post.bind (ha p hp) fun x p' ⟨h1, h2⟩ => ?_
  subst h1
  cases x
  · refine (hb _ h2).mono fun x p' ⟨h3, h4⟩ => ?_
    subst h3
    simp only [mv_mv, mv_rdOffset, mv_cur] at h4 ⊢
    simpa using h4
  · exact ⟨rfl, h2⟩

theorem atMost_step1 {m : M Parser Bool} (h : Step1 c m) : AtMost c 1 m := by
  intro p hp
  refine (h p hp).mono fun x p' ⟨h1, h2⟩ => ⟨_, h1, h2, by omega, ?_⟩
  cases x <;> simp <;> omega

theorem atMost_and {n : Nat} {a b : M Parser Bool} (ha : Step1 c a) (hb : AtMost c n b) : AtMost c (n + 1) (a &&! b) := by
  intro p hp
  refine Post.bind (ha p hp) fun x p' ⟨h1, h2⟩ => ?_
  subst h1
  cases x
  · exact ⟨_, rfl, h2, by simp, by simp; omega⟩
  · refine (hb _ h2).mono fun x p' ⟨r, h3, h4, h5, h6⟩ => ?_
    subst h3
    simp only [mv_rdOffset, Bool.toNat_true] at h5 h6
    exact ⟨r, rfl, h4, by omega, by omega⟩

theorem lead_post {n : Nat} {b : M Parser Bool} {p : Parser} (hp : Base c p) (hb : AtMost c n b) :
    Post ((skipChar (ch% '?') &&! b) p) fun _ p' => ∃ r, p' = p.mv r r p.currentChar ∧ Base c p' ∧ p.rd.offset ≤ r ∧
      r ≤ p.rd.offset + (n + 1) ∧ (r ≠ p.rd.offset → c.xmlDoc[p.rd.offset.toNat]? = some 0x3F) := by
  refine Post.bind (skipChar_byte hp 0x3F (by decide)) fun x p' ⟨h1, h2, h0⟩ => ?_
  subst h1
  cases x
  · exact ⟨_, rfl, h2, by simp, by simp; omega, fun h => absurd (by simp) h⟩
  · refine (hb _ h2).mono fun x p' ⟨r, h3, h4, h5, h6⟩ => ?_
    subst h3
    simp only [mv_rdOffset, Bool.toNat_true] at h5 h6
    exact ⟨r, rfl, h4, by omega, by omega, fun _ => h0 rfl⟩

theorem docStart_lt (hb : Base c p) : Post (processDocStart p) fun st p' =>
    (st = .ltSeen ∨ st = .decAttrName ∨ st = .invalid) ∧ (p'.offset = p'.rd.offset ∨
      p'.rd.offset ≤ p'.offset + 4 ∧ c.xmlDoc[p'.offset.toNat]? = some 0x3F) := by
  refine Post.bind (nextChar_byte hb) fun _ p' ⟨b, h, hb, _, _⟩ => ?_
  have hsync : p'.offset = p'.rd.offset := by subst h; rfl
  clear h
  refine Post.get (Post.ite (fun _ => ?_) fun _ => Post.ite (fun _ => ?_) fun _ => ⟨by simp, .inl hsync⟩)
  · refine Post.modify ?_
    have hx : AtMost c 3 ((skipChar (ch% 'x') ||! skipChar (ch% 'X')) &&!
        (skipChar (ch% 'm') ||! skipChar (ch% 'M')) &&! (skipChar (ch% 'l') ||! skipChar (ch% 'L'))) := by
      refine atMost_and (step1_or (step1_skip (by decide)) (step1_skip (by decide)))
        (atMost_and (step1_or (step1_skip (by decide)) (step1_skip (by decide))) (atMost_step1
          (step1_or (step1_skip (by decide)) (step1_skip (by decide)))))
    refine Post.bind (lead_post (by exact hb) hx) fun x p2 ⟨r, h1, h2, h3, h4, hq⟩ => Post.ite (fun _ => ?_) fun _ => ?_
    · have hsp : Step1 c (skipChar (ch% ' ') ||! skipChar (ch% '\t') ||! skipChar (ch% '\n') ||! skipChar (ch% '\r')) :=
        step1_or (step1_skip (by decide)) (step1_or (step1_skip (by decide)) (step1_or (step1_skip (by decide))
          (step1_skip (by decide))))
      refine Post.bind (hsp _ h2) fun y p3 ⟨h5, h6⟩ => Post.ite (fun _ => ?_) fun hy => ?_
      · refine Post.bind (nextCharAfterWs_byte h6) fun _ p4 ⟨r, b, w, h7, _⟩ => Post.modify ?_
        subst h7
        exact ⟨by simp, .inl rfl⟩
      · obtain rfl : y = false := by simpa using hy
        refine Post.bind (step1_skip (by decide) _ h6) fun z p4 ⟨h7, h8⟩ => Post.ite (fun _ => post_err _) fun hz => ?_
        obtain rfl : z = false := by simpa using hz
        refine Post.modify ?_
        subst h7 h5 h1
        simp only at h3 h4 hq
        refine ⟨by simp, ?_⟩
        by_cases hr : r = p'.rd.offset
        · exact .inl (by simp [hsync, hr])
        · exact .inr ⟨by simp [hsync]; omega, by simp only [mv_lastOffset, hsync]; exact hq hr⟩
    · refine Post.modify ?_
      subst h1
      simp only at h3 h4 hq
      refine ⟨by simp, ?_⟩
      by_cases hr : r = p'.rd.offset
      · exact .inl (by simp [hsync, hr])
      · exact .inr ⟨by simp [hsync]; omega, by simp only [mv_lastOffset, hsync]; exact hq hr⟩
  · have : Post (M.catchErr (do nextCharAfterWs; pure true) (fun _ => pure false) p')
        fun _ p2 => p2.offset = p2.rd.offset := by
      refine sat_post (E := fun _ _ => True) (P := Pn c) (D := False)
        (catch_sat (E' := fun _ p2 => Moved c p' p'.rd.offset p2) ?_ ?_)
      · refine Res.Sat.bind (nextCharAfterWs_err hb hsync) fun _ p2 ⟨r, ch, h, _⟩ => ?_
        subst h; rfl
      · rintro _ p2 ⟨r, ch, h, _⟩
        subst h; rfl
    refine Post.bind this fun ok p2 h => Post.get (Post.ite (fun _ => ⟨by simp, .inl h⟩) fun _ => ⟨by simp, .inl h⟩)

theorem docStart_good (h : G c o0 .docStart p es stk recs) : Post (processDocStart p) (Good c o0 (closes es)) := by
  refine Post.of fun st' p' hr => ?_
  obtain ⟨hi, hlt⟩ := (processDocStart_ok h.inv).ok hr
  have hb := h.inv.base
  obtain ⟨xs, hx, hk'⟩ := K.frame (b' := p'.rd.offset) h.k (processDocStart_qf.ok hr hb.out hb.enc hb.ws) hb.cfg
    (by simp only [reduceCtorEq, if_false]; omega)
  obtain ⟨h1, h2⟩ := (docStart_lt hb).eq hr
  have he := h.doc rfl
  subst he
  have hs := tags_nil h.k.tags
  subst hs
  refine ⟨[], [], recs ++ xs, rfl, hi, ?_, ?_, ?_, ?_, ?_, ?_, ?_, ?_, by rintro rfl; simp at h1⟩
  · rcases h1 with rfl | rfl | rfl <;> exact hk'
  · rcases h1 with rfl | rfl | rfl <;> simp [after]
  · rcases h1 with rfl | rfl | rfl <;> simp [mid]
  · exact fun _ => h2.imp id fun h => ⟨rfl, h⟩
  · exact fun _ => rfl
  · rcases h1 with rfl | rfl | rfl <;> simp
  · rcases h1 with rfl | rfl | rfl <;> simp
  · rcases h1 with rfl | rfl | rfl <;> simp

/-! ## After `<` -/

theorem toNat_eq_char {b : UInt8} {k : UInt8} (h : b.toNat = k.toNat) : b = k := UInt8.toNat_inj.mp h

theorem ltSeen_good (h : G c o0 .ltSeen p es stk recs) : Post (processLtSeen p) (Good c o0 (closes es)) := by
  have hb0 := h.inv.base
  have h0 := hb0.off0
  have h1 := hb0.off1
  have hd := h.inv.deep (by decide)
  have hs := h.inv.slots
  have hk := h.k
  have hroot := h.notAfter rfl
  have hlt := h.lt rfl
  simp only [reduceCtorEq, if_false] at hk
  refine Post.of fun st' p2 hr => ?_
  have hinv := (processLtSeen_ok h.inv).ok hr
  refine Post.eq (Q := fun st p2 => Inv c st p2 → Good c o0 (closes es) st p2) ?_ hr hinv.1
  clear hinv hr p2 st'
  refine Post.modify (Post.bind (post_wrap (nextChar_byte (c := c) (by exact hb0))) fun _ p' ⟨b, hp, hb, hend, hbyte⟩ => ?_)
  subst hp
  simp only at hend hbyte
  refine Post.get (Post.ite (fun hn => Post.modify fun hi => ?_) fun _ => Post.ite (fun hsl hi => ?_) fun _ =>
    Post.ite (fun _ => ?_) fun _ => Post.ite (fun _ => ?_) fun _ => post_err _)
  · simp only [mv_cur] at hn
    refine ⟨es, stk, recs, rfl, hi, ?_, ?_, by simp [mid], by simp, by simp, ?_, by simp, by simp, by simp⟩
    · show K c o0 p.out p.tagStack p.length2 (p.depth + 1 - 1) p.offset es stk recs
      rw [Int.add_sub_cancel]
      refine { hk with pos := fun e he => ?_ }
      have := hk.pos e he
      rcases hlt with hlt | ⟨rfl, _⟩
      · omega
      · cases he
    · simp only [after, Bool.false_eq_true, false_iff]
      rintro ⟨h1, h2⟩; exact h2 (hroot h1)
    · intro _
      refine ⟨(p.rd.offset - p.offset).toNat, ?_, ?_, ?_, ?_, b, ?_, ?_⟩
      · rcases hlt with hlt | ⟨_, hlt, _⟩ <;> omega
      · rcases hlt with hlt | ⟨rfl, hlt⟩
        · intro _; omega
        · intro hne; exact absurd (tags_nil hk.tags) hne
      · rcases hlt with hlt | ⟨_, _, hlt⟩
        · intro h; omega
        · exact fun _ => hlt
      · simp; omega
      · rw [← hbyte]; simp only [mv_lastOffset]; congr 1; omega
      · exact (isNameStartChar_iff _).mp hn
  · simp only [mv_cur] at hsl
    have hsl : b = 0x2F := toNat_eq_char hsl
    refine ⟨es, stk, recs, rfl, hi, ?_, ?_, by simp [mid], by simp, by simp, by simp, ?_, by simp, by simp⟩
    · exact hk.bound (by simp; omega)
    · simp only [after, Bool.false_eq_true, false_iff]
      rintro ⟨h1, h2⟩; exact h2 (hroot h1)
    · intro _
      refine ⟨by simp; omega, ?_⟩
      rw [← hsl, ← hbyte]
      simp
  · refine (quiet_next (lo := p.rd.offset) (b := p.rd.offset) (m := processExSeen) (by exact hk) hroot hb
      (processExSeen_ok hb hs hd (by simp; omega)) (by omega) processExSeen_qf
      (synced_between processExSeen_ends) fun st' p' h _ => processExSeen_hold _ _ _ h rfl).mono fun _ _ h _ => h
  · refine (quiet_next (lo := p.rd.offset) (b := p.rd.offset) (m := processQmSeen) (by exact hk) hroot hb
      (processQmSeen_ok hb hs hd (by simp; omega)) (by omega) processQmSeen_qf ?_ ?_).mono fun _ _ h _ => h
    · intro s st s' h
      have := processQmSeen_ends _ _ _ h
      simp only [beq_iff_eq] at this
      subst this; rfl
    · intro st p' h hsy
      have := processQmSeen_ends _ _ _ h
      simp only [beq_iff_eq] at this
      subst this; cases hsy

/-! ## After a tag -/

/-- Only records were written. -/
theorem wrote_post {α : Type} {m : M Parser α} (hok : OkW c p (m p)) (hq : Fr QF m) (hb : Base c p) :
    Post (m p) fun _ p' => ∃ xs, Quiet xs ∧ p' = { p with out := Parser.emit c.shallowDepth p.out xs } ∧ Base c p' := by
  refine Post.of fun a p' h => ?_
  obtain ⟨o, h1, h2⟩ := hok.ok h
  obtain ⟨xs, h3, h4⟩ := (hq.ok h hb.out hb.enc hb.ws).out
  refine ⟨xs, h4, ?_, h2⟩
  rw [h1] at h3 ⊢
  simp only at h3
  rw [h3, hb.cfg]

theorem G.tagEnd (hi : Inv c .tagEnd p) (hk : K c o0 p.out p.tagStack p.length2 p.depth p.rd.offset es stk recs)
    (hroot : stk = [] → es = []) (h1 : 1 ≤ p.offset) (h2 : c.xmlDoc[(p.offset - 1).toNat]? = some 0x2F) :
    G c o0 .tagEnd p es stk recs := by
  refine ⟨hi, hk, ?_, by simp [mid], by simp, by simp, by simp, fun _ => ⟨h1, h2⟩, by simp, by simp⟩
  simp only [Ev.after, Bool.false_eq_true, false_iff]
  rintro ⟨h1, h2⟩; exact h2 (hroot h1)

theorem elementTail_good {b : Int} (hk : K c o0 p.out p.tagStack p.length2 p.depth b es stk recs) (hb0 : Base c p)
    (hs : SlotsCore c p.tagStack p.at_ p.depth) (hd : p.depth ≤ 254) (hbd : b ≤ p.rd.offset) (hes : es ≠ []) :
    Post (processElementTail p) (Good c o0 (closes es)) := by
  have hdep := hk.depth
  have ho0 := hb0.off0
  have ho1 := hb0.off1
  refine Post.of fun st' p2 hr => ?_
  have hinv := (processElementTail_ok (lo := p.rd.offset - 1) hb0 hs hd (by omega)).ok hr
  refine Post.eq (Q := fun st p2 => Inv c st p2 → Good c o0 (closes es) st p2) ?_ hr hinv.1
  clear hinv hr p2 st'
  refine Post.get (Post.ite (fun hne => ?_) fun he hi => ?_)
  · have hstk : stk ≠ [] := by rintro rfl; simp at hdep; exact hne hdep
    have hroot : stk = [] → es = [] := fun h => absurd h hstk
    have hnr : ∀ st, after st = false → (after st = true ↔ stk = [] ∧ es ≠ []) := by
      intro st hst; rw [hst]; simp [hstk]
    refine Post.modify (Post.bind (nextCharAfterWs_byte (c := c) (by exact hb0)) fun _ p' ⟨r, ch, w, hp, hb, hr, _⟩ => ?_)
    subst hp
    simp only at hr
    refine Post.get (Post.ite (fun _ => ?_) fun _ => Post.ite (fun _ hi => ?_) fun _ => ?_)
    · rw [M.bind_apply, recordWsIfSet_eq hb, Res.andThen_ok]
      refine Post.bind (skipChar_byte hb 0x2F (by decide)) fun x p' ⟨hp, hb', hx⟩ => ?_
      subst hp
      simp only [mv_rdOffset] at hx
      refine Post.ite (fun hxt => Post.get (Post.ite (fun _ => Post.modify ?_) fun _ hi => ?_)) fun _ hi => ?_
      · refine Post.bind (wrote_post (writeText_ok (by exact hb') _) (writeText_qf (by decide)) (by exact hb')) ?_
        rintro _ p' ⟨xs, hxs, hp, -⟩ hi
        subst hp hxt
        refine ⟨es, stk, recs ++ xs, rfl, G.tagEnd hi ((hk.write hxs).bound ?_) hroot ?_ ?_⟩
        · simp; omega
        · simp; omega
        · rw [← hx rfl]; simp
      · subst hxt
        refine ⟨es, stk, recs, rfl, G.tagEnd hi (hk.bound ?_) hroot ?_ ?_⟩
        · simp; omega
        · simp; omega
        · rw [← hx rfl]; simp
      · exact ⟨es, stk, recs, rfl, G.plain hi (hk.bound (by simp; omega)) (hnr _ rfl) rfl fun _ => rfl⟩
    · exact ⟨es, stk, recs, rfl, G.plain hi (hk.bound (by simp; omega)) (hnr _ rfl) rfl fun _ => rfl⟩
    · refine Post.bind (sat_post (handleOtherTextChar_ok hb _)) ?_
      rintro _ p' ⟨r', ch', hp, hb', hl⟩ hi
      subst hp
      simp only [mv_rdOffset] at hl
      exact ⟨es, stk, recs, rfl, G.plain hi (hk.bound (by simp; omega)) (hnr _ rfl) rfl fun _ => rfl⟩
  · have he : p.depth = -1 := Decidable.not_not.mp he
    have : stk = [] := by
      cases stk with
      | nil => rfl
      | cons => simp at hdep; omega
    exact ⟨es, stk, recs, rfl, G.plain hi (hk.bound hbd) (by simp [after, this, hes]) rfl (by intro h; cases h)⟩

/-! ## End tags -/

theorem sameBytes_iff (hp : p.cfg = c) (n : Nat) {a b : Int} (ha : InDoc c a n) (hb : InDoc c b n) :
    ∃ r, sameBytes n a b p = .ok r p ∧
      (r = true ↔ (c.xmlDoc.drop a.toNat).take n = (c.xmlDoc.drop b.toNat).take n) := by
  induction n generalizing a b with
  | zero => exact ⟨true, rfl, by simp⟩
  | succ n ih =>
    obtain ⟨ha0, _, ha1⟩ := ha
    obtain ⟨hb0, _, hb1⟩ := hb
    obtain ⟨x, hx', hx⟩ := docByte_eq hp ha0 (by omega)
    obtain ⟨y, hy', hy⟩ := docByte_eq hp hb0 (by omega)
    obtain ⟨hla, hx'⟩ := List.getElem?_eq_some_iff.mp hx'
    obtain ⟨hlb, hy'⟩ := List.getElem?_eq_some_iff.mp hy'
    obtain ⟨r, hr, hr'⟩ := ih (a := a + 1) (b := b + 1) ⟨by omega, by omega, by omega⟩ ⟨by omega, by omega, by omega⟩
    simp only [sameBytes, M.bind_apply, hx, hy, Res.andThen_ok, M.ite_apply, M.pure_apply]
    rw [List.drop_eq_getElem_cons hla, List.drop_eq_getElem_cons hlb, hx', hy', List.take_succ_cons, List.take_succ_cons]
    rw [show (a + 1).toNat = a.toNat + 1 by omega, show (b + 1).toNat = b.toNat + 1 by omega] at hr'
    split
    · rename_i he
      subst he
      exact ⟨r, hr, by rw [hr']; simp⟩
    · rename_i he
      exact ⟨false, rfl, by simp [he]⟩

theorem endTag_good (h : G c o0 .tagEnd p es stk recs) : 
    Post (processEndTag p) (Good c o0 (closes es ++ [p.offset.toNat])) := by
  rw [← show closes (es ++ [.close p.offset.toNat]) = closes es ++ [p.offset.toNat] from closes_close _ _]
  have hs := h.inv.slots
  have hd := h.inv.deep (by decide)
  have hsy := h.inv.sync (by simp)
  have ho0 := h.inv.base.off0
  have hk := h.k
  simp only [reduceCtorEq, if_false] at hk
  have hdep := hk.depth
  obtain ⟨hoff, hsl⟩ := h.tagE rfl
  cases stk with
  | nil =>
    have h1 : p.depth = -1 := by simpa using hdep
    have h2 : processEndTag p = .panic := by
      simp only [processEndTag, markOffset, M.bind_apply, M.modify_apply, Res.andThen_ok, M.get_apply]
      rw [M.index_panic _ _ _ (Or.inl (by simp [h1]))]
      rfl
    rw [h2]; trivial
  | cons x stk =>
    obtain ⟨o, len⟩ := x
    have h0 : p.depth = stk.length := by simp at hdep; omega
    obtain ⟨⟨t, ht, hlo, hhi⟩, hsl'⟩ := hk.slots
    refine Post.of fun st' p2 hr => ?_
    have hinv := (processEndTag_ok h.inv (by omega)).ok hr
    refine Post.eq (Q := fun st p2 => Inv c st p2 → Good c o0 (closes (es ++ [.close p.offset.toNat])) st p2) ?_ hr hinv.1
    clear hinv hr p2 st'
    refine Post.modify (Post.get ?_)
    obtain ⟨htl, ht'⟩ := List.getElem?_eq_some_iff.mp ht
    have hidx : M.index p.tagStack p.depth ({ p with lastOffset := p.offset } : Parser) = .ok t { p with lastOffset := p.offset } := by
      rw [M.index_of_lt _ _ _ (by omega) (by omega)]
      congr 1
      rw [← ht']; congr 1; omega
    rw [M.bind_apply]
    simp only
    rw [hidx, Res.andThen_ok]
    have hti := hs.tags t (List.mem_of_getElem? ht)
    obtain ⟨t0, t1, t2⟩ := hti
    rw [hlo, hhi] at *
    refine Post.modify (Post.get (Post.ite (fun _ => trivial) fun hlt => ?_))
    simp only [h.inv.base.cfg] at hlt
    have he1 := h.inv.base.end1
    have ⟨same, hsame, hiff⟩ := sameBytes_iff (c := c) (p := { p with rd := p.rd.setOffset (p.offset + len), lastOffset := p.offset, offset := p.offset + len }) h.inv.base.cfg len
      (a := o) (b := p.offset) ⟨t0, by omega, by omega⟩ ⟨ho0, by omega, by omega⟩
    rw [M.bind_apply]
    simp only [Int.toNat_natCast]
    rw [hsame, Res.andThen_ok]
    have hb : Base c { p with rd := p.rd.setOffset (p.offset + len), lastOffset := p.offset, offset := p.offset + len } :=
      { h.inv.base with
        off0 := by simp; omega, off1 := by simp [Reader.setOffset], off2 := by simp [Reader.setOffset]; omega
        sent := fun _ => by simp [Reader.setOffset]; omega }
    refine Post.ite (fun hst => ?_) fun _ => post_err _
    have hst := hiff.mp hst
    refine Post.modify (Post.bind (nextCharAfterWs_byte (c := c) (by exact hb)) fun _ p' ⟨r, ch, w, hp, hb', hr, hre, hch, hw, hdrop⟩ => ?_)
    subst hp
    simp only [Reader.setOffset] at hr hdrop
    refine Post.get (Post.ite (fun _ => post_err _) fun hgt => ?_)
    have hgt : ch = 0x3E := toNat_eq_char (Decidable.not_not.mp hgt)
    subst hgt
    -- the tag is closed
    have hclose : ClosesAt c.xmlDoc (p.offset.toNat + len) := by
      obtain ⟨hrl, hch⟩ := List.getElem?_eq_some_iff.mp hch
      refine ⟨w, c.xmlDoc.drop (r.toNat + 1), hw, ?_⟩
      rw [← hch, ← List.drop_eq_getElem_cons, ← hdrop]
      congr 1; omega
    have hpos : ∀ e ∈ es, e.pos < p.offset.toNat := fun e he => by have := hk.pos e he; omega
    have htags : Tags c.xmlDoc (es ++ [.close p.offset.toNat]) stk := by
      refine .close hk.tags hpos ?_ hst.symm hclose
      rw [← hsl]; congr 1; omega
    have hk2 : K c o0 p.out p.tagStack p.length2 (p.depth - 1) (r + 1) (es ++ [.close p.offset.toNat]) stk recs :=
      hk.pop rfl rfl (by simp [Mark.pos]; omega) (by omega) htags
    have hdep2 := hk2.depth
    refine Post.ite (fun hne => ?_) fun hne hi => ?_
    · have hstk : stk ≠ [] := by rintro rfl; simp at hdep2; simp at hne; omega
      have hnr : ∀ st, after st = false → (after st = true ↔ stk = [] ∧ es ++ [Mark.close p.offset.toNat] ≠ []) := by
        intro st hst; rw [hst]; simp [hstk]
      refine Post.modify (Post.bind (nextCharAfterWs_byte (c := c) (by exact hb')) fun _ p' ⟨r2, ch, w, hp, hb2, hr2, _⟩ => Post.get ?_)
      subst hp
      simp only [mv_rdOffset] at hr2
      refine Post.ite (fun _ => ?_) fun _ => Post.ite (fun _ hi => ?_) fun _ => ?_
      · rw [M.bind_apply, recordWsIfSet_eq hb2, Res.andThen_ok]
        intro hi
        exact ⟨_, stk, recs, rfl, G.plain hi (hk2.bound (by simp; omega)) (hnr _ rfl) rfl fun _ => rfl⟩
      · exact ⟨_, stk, recs, rfl, G.plain hi (hk2.bound (by simp; omega)) (hnr _ rfl) rfl fun _ => rfl⟩
      · refine Post.bind (sat_post (handleOtherTextChar_ok hb2 _)) ?_
        rintro _ p' ⟨r', ch', hp, hb', hl⟩ hi
        subst hp
        simp only [mv_rdOffset] at hl
        exact ⟨_, stk, recs, rfl, G.plain hi (hk2.bound (by simp; omega)) (hnr _ rfl) rfl fun _ => rfl⟩
    · have : stk = [] := by
        cases stk with
        | nil => rfl
        | cons => simp at hdep2 hne; omega
      exact ⟨_, stk, recs, rfl, G.plain hi (hk2.bound (by simp)) (by simp [after, this]) rfl (by intro h; cases h)⟩

end Ev
end Parser
end GoVtd
