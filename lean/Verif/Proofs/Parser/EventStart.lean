import Verif.Proofs.Parser.EventNs

/-!
# Start tags
-/

namespace GoVtd
namespace Parser
namespace Ev
open Paged Grammar Two
variable {c : ParserCfg} {p : Parser} {o0 : ParserOut} {es : List Mark} {stk : List (Nat × Nat)} {recs : List Rec}

theorem Post.and {α : Type} {r : Res Parser α} {Q Q' : α → Parser → Prop} (h : Post r Q) (h' : Post r Q') :
    Post r fun a s => Q a s ∧ Q' a s := Post.of fun _ _ hr => ⟨h.eq hr, h'.eq hr⟩

theorem drop_run {doc run : List UInt8} {a r : Nat} (hr : r < doc.length) (ha : a ≤ r)
    (h : doc.drop a = run ++ doc.drop r) : run.length = r - a := by
  have := congrArg List.length h
  simp only [List.length_drop, List.length_append] at this
  omega

theorem nameAt_of {doc run : List UInt8} {q k r : Nat} {b x : UInt8} (hb : doc[q + k]? = some b) (hsb : StartByte b)
    (hrun : AllName run) (hdrop : doc.drop (q + k + 1) = run ++ doc.drop r) (hr : doc[r]? = some x) (hx : ¬ NameByte x)
    (hle : q + k + 1 ≤ r) : Grammar.NameAt doc q (r - q) k := by
  obtain ⟨hl, hb⟩ := List.getElem?_eq_some_iff.mp hb
  obtain ⟨hl', -⟩ := List.getElem?_eq_some_iff.mp hr
  have hlen := drop_run hl' hle hdrop
  refine ⟨⟨b, run, ?_, hsb, hrun⟩, x, by rw [← hr]; congr 1; omega, hx⟩
  rw [sub, List.drop_take, List.drop_drop, List.drop_eq_getElem_cons hl, hb, hdrop,
    show r - q - k = run.length + 1 by omega, List.take_succ_cons, List.take_left]

theorem startTagLoop_post {fuel : Nat} {p : Parser} (hb : Base c p) :
    Post (startTagLoop fuel p) fun _ p' => ∃ (l r : Int) (b : UInt8) (run : List UInt8),
      p' = ({ p with length2 := l } : Parser).mv (r + 1) (r + 1) b.toNat ∧ Base c p' ∧ p.rd.offset ≤ r ∧
      r < c.endOffset ∧ c.xmlDoc[r.toNat]? = some b ∧ ¬ NameByte b ∧ AllName run ∧
      c.xmlDoc.drop p.rd.offset.toNat = run ++ c.xmlDoc.drop r.toNat ∧
      (∀ i a : Nat, p.length2 = a → p.rd.offset = p.lastOffset + i → l = lastColon i a run) := by
  induction fuel generalizing p with
  | zero => trivial
  | succ fuel ih =>
    have h0 := hb.off0; have h1 := hb.off1
    have hinc := hb.inc
    refine Post.bind (nextChar_byte hb) fun _ p' ⟨b, hp, hb', hlt, hd⟩ => Post.get ?_
    subst hp
    obtain ⟨hl, hd'⟩ := List.getElem?_eq_some_iff.mp hd
    have next : isNameChar b.toNat = true → ∀ {run : List UInt8} {r : Int}, AllName run → p.rd.offset + 1 ≤ r →
        c.xmlDoc.drop (p.rd.offset + 1).toNat = run ++ c.xmlDoc.drop r.toNat →
        AllName (b :: run) ∧ c.xmlDoc.drop p.rd.offset.toNat = (b :: run) ++ c.xmlDoc.drop r.toNat := by
      intro hn run r hrun hr hdrop
      refine ⟨?_, ?_⟩
      · intro x hx
        rcases List.mem_cons.mp hx with rfl | hx
        · exact (isNameChar_iff _).mp hn
        · exact hrun x hx
      · rw [List.drop_eq_getElem_cons hl, hd', List.cons_append, ← hdrop]
        congr 2; omega
    refine Post.ite (fun hn => Post.ite (fun hcol => Post.modify (Post.get ?_)) fun hcol => ?_) fun hn => ?_
    · refine Post.bind (eq_post (Fr.and eq_pre (Fr.pure eq_pre _) (checkXmlnsPrefix_fr eq_pre _ _ _))) ?_
      rintro bad p' rfl
      refine Post.ite (fun _ => post_err _) fun _ => ?_
      refine (ih (by exact hb')).mono ?_
      rintro _ p' ⟨l, r, x, run, hp, hb2, hr, hre, hx, hnx, hrun, hdrop, hl0⟩
      subst hp
      simp only [mv_rdOffset] at hr hdrop
      obtain ⟨ha, hd2⟩ := next hn hrun hr hdrop
      refine ⟨l, r, x, b :: run, rfl, hb2, by omega, hre, hx, hnx, ha, hd2, fun i a h h' => ?_⟩
      rw [hl0 (i + 1) i (by simp [hinc]; omega) (by simp; omega), lastColon, if_pos (toNat_eq_char (k := 0x3A) hcol)]
    · refine (ih (by exact hb')).mono ?_
      rintro _ p' ⟨l, r, x, run, hp, hb2, hr, hre, hx, hnx, hrun, hdrop, hl0⟩
      subst hp
      simp only [mv_rdOffset] at hr hdrop
      obtain ⟨ha, hd2⟩ := next hn hrun hr hdrop
      refine ⟨l, r, x, b :: run, rfl, hb2, by omega, hre, hx, hnx, ha, hd2, fun i a h h' => ?_⟩
      rw [hl0 (i + 1) a h (by simp; omega), lastColon, if_neg (by rintro rfl; exact hcol rfl)]
    · refine ⟨p.length2, p.rd.offset, b, [], rfl, hb', Int.le_refl _, hlt, hd, fun h => hn ((isNameChar_iff _).mpr h),
        (fun _ h => by cases h), rfl, fun i a h _ => h⟩

theorem pushTag_post (hs : SlotsCore c p.tagStack p.at_ p.depth) (h0 : 0 ≤ p.depth)
    (hl : 0 ≤ p.lastOffset) (hl1 : 0 ≤ p.length1) (he : p.lastOffset + p.length1 < c.endOffset)
    (he2 : c.endOffset < 2 ^ 31) (he3 : c.endOffset ≤ c.xmlDoc.length) :
    ∃ t, pushTag p = .ok () { p with tagStack := p.tagStack.set p.depth.toNat t } ∧ low32 t = p.lastOffset ∧
      high32 t = p.length1 ∧ SlotsCore c (p.tagStack.set p.depth.toNat t) p.at_ p.depth := by
  obtain ⟨t', h1, h2⟩ := pushTag_sat hs h0 hl hl1 he he2 he3
  have hd := hs.dep1
  have hp := pack_toNat hl1 (by omega) hl (by omega : p.lastOffset < 2 ^ 32)
  have e : pushTag p = .ok () ({ p with tagStack := p.tagStack.set p.depth.toNat ((BitVec.ofInt 64 p.length1 <<< 32) + BitVec.ofInt 64 p.lastOffset) } : Parser) := by
    simp only [pushTag, M.bind_apply, M.get_apply, Res.andThen_ok]
    simp only [setAt]
    rw [if_neg (by rw [hs.tagLen]; omega)]
    rfl
  refine ⟨_, e, ?_, ?_, ?_⟩
  · rw [low32_of hp (by omega)]; omega
  · rw [high32_of hp (by omega) (by omega)]; omega
  · rw [e] at h1
    injection h1 with _ h1
    have := congrArg Parser.tagStack h1
    simp only at this
    rw [this]; exact h2

/-- The record of the start tag that was just read. -/
def startRec (p : Parser) : Rec := ⟨.startingTag, p.lastOffset, shlOr p.length2 1 p.length1, p.depth⟩

theorem writeStartTag_post (hb : Base c p) : Post (writeStartTag p) fun _ p' => p.length2 ≤ 511 ∧ p.length1 ≤ 2047 ∧
    p' = { p with out := Parser.emit c.shallowDepth p.out [startRec p] } ∧ Base c p' := by
  refine Post.get ?_
  rw [hb.single, if_pos rfl]
  refine Post.ite (fun _ => post_err _) fun hlen => ?_
  simp only [maxPrefixLength, maxQnameLength, not_or, Int.not_lt] at hlen
  have e := emit1_ok hb.out c.shallowDepth (startRec p)
  refine Post.ite (fun hsh => ?_) fun hsh => ?_
  · rw [writeVtd_go hb.out]
    rw [hb.cfg] at hsh
    refine ⟨hlen.1, hlen.2, ?_, ?_⟩
    · rw [emit_cons, emit_nil, emit1, if_neg (by simp [hsh])]; rfl
    · rw [emit1, if_neg (by simp [hsh])] at e; exact hb.ofOut e
  · rw [writeVtdL5_go hb.out]
    rw [hb.cfg] at hsh
    refine ⟨hlen.1, hlen.2, ?_, ?_⟩
    · rw [emit_cons, emit_nil, emit1, if_pos (by simp [hsh, startRec])]; rfl
    · rw [emit1, if_pos (by simp [hsh, startRec])] at e; exact hb.ofOut e

theorem shlOr_range {a b : Int} {k : Nat} (ha : 0 ≤ a) (ha' : a ≤ 511) (hb : 0 ≤ b) (hb' : b ≤ 2047) (hk : k ≤ 11) :
    0 ≤ shlOr a k b ∧ shlOr a k b < 2 ^ 20 := by
  have h := Parser.shlOr_nat (a := a.toNat) (b := b.toNat) (k := k) (by omega) (by omega) hk
  rw [Int.toNat_of_nonneg ha, Int.toNat_of_nonneg hb] at h
  rw [h]
  have h1 : a.toNat <<< k < 2 ^ 20 := by
    rw [Nat.shiftLeft_eq]
    calc a.toNat * 2 ^ k ≤ 511 * 2 ^ k := Nat.mul_le_mul_right _ (by omega)
      _ ≤ 511 * 2 ^ 11 := Nat.mul_le_mul_left _ (Nat.pow_le_pow_right (by omega) hk)
      _ < 2 ^ 20 := by decide
  have h2 : a.toNat <<< k ||| b.toNat < 2 ^ 20 := Nat.or_lt_two_pow h1 (by omega)
  omega

theorem startTagEnd_good {o len : Nat} {b : Int} {x : UInt8}
    (hk : K c o0 p.out p.tagStack p.length2 p.depth b es ((o, len) :: stk) recs)
    (hlast : es.getLast? = some (.start o len stk.length)) (hb0 : Base c p)
    (hs : SlotsCore c p.tagStack p.at_ p.depth) (hd : p.depth ≤ 254) (hbd : b ≤ p.rd.offset)
    (hx : p.currentChar = x.toNat) (hx1 : 1 ≤ p.rd.offset) (hxd : c.xmlDoc[(p.rd.offset - 1).toNat]? = some x) :
    Post (startTagEnd p) (Good c o0 (closes es)) := by
  have hdep := hk.depth
  simp only [List.length_cons] at hdep
  have hes : es ≠ [] := by rintro rfl; cases hlast
  have ho0 := hb0.off0
  have ho1 := hb0.off1
  -- the namespace part changes nothing here
  have tail : ∀ {p : Parser} {es stk recs} {b : Int} {cl : List Nat}, closes es = cl → K c o0 p.out p.tagStack p.length2 p.depth b es stk recs → Base c p →
      SlotsCore c p.tagStack p.at_ p.depth → p.depth ≤ 254 → b ≤ p.rd.offset → es ≠ [] → Post ((do
        if p.cfg.nsAware then do
          pushNs1
          if p.at_.currentElementRecord ≠ 0 then qualifyElement else pure ()
        else pure ()
        processElementTail : M Parser PState) p) (Good c o0 cl) := by
    intro p es stk recs b cl hcl hk hb hs hd hbd hes
    have fin : ∀ {q : Parser}, NFrame p q → Post (processElementTail q) (Good c o0 cl) := by
      intro q hf
      have := hf.rd hb
      refine Post.cl hcl (elementTail_good (b := b) (stk := stk) (recs := recs) ?_ (hf.base hb) (hf.slots hs) (by rw [hf.depth]; exact hd) (by omega) hes)
      rw [hf.out, hf.tagStack, hf.length2, hf.depth]
      exact hk
    refine Post.ite (fun _ => ?_) fun _ => fin (NFrame.refl _)
    refine Post.bind (nf_post (Nf.of pushNs1_fr)) fun _ q hq => Post.ite (fun _ => ?_) fun _ => fin hq
    exact Post.bind (nf_post (Nf.of qualifyElement_fr)) fun _ q' hq' => fin (hq.trans hq')
  refine Post.modify (Post.get (Post.ite (fun hsl => ?_) fun _ => ?_))
  · simp only [hx] at hsl
    have hsl : x = 0x2F := toNat_eq_char hsl
    refine Post.modify (Post.bind (getChar_byte (c := c) (by exact hb0)) ?_)
    rintro ch p' ⟨y, rfl, hp, hb', hlt, hy⟩
    subst hp
    simp only at hlt hy
    refine Post.modify (Post.get (Post.ite (fun hgt => ?_) fun _ => post_err _))
    simp only at hgt
    have hgt : y = 0x3E := toNat_eq_char hgt
    subst hgt hsl
    have htags : Tags c.xmlDoc (es ++ [.empty p.rd.offset.toNat]) stk := by
      refine .empty hk.tags hlast (fun e he => ?_) ?_ hy
      · have := hk.pos e he; omega
      · rw [← hxd]; congr 1; omega
    have hk2 : K c o0 p.out p.tagStack p.length2 (p.depth - 1) (p.rd.offset + 1) (es ++ [.empty p.rd.offset.toNat]) stk recs :=
      hk.pop rfl rfl (by simp [Mark.pos]; omega) (by omega) htags
    have hd2 := hk2.depth
    exact (tail (es := es ++ [.empty p.rd.offset.toNat]) (stk := stk) (recs := recs) (b := p.rd.offset + 1) (closes_empty _ _) (by exact hk2) (by exact hb') (by exact { hs with dep0 := by simp; omega, dep1 := by simp; omega })
      (by simp; omega) (by simp) (by simp))
  · refine Post.get (Post.ite (fun _ => ?_) fun _ => post_err _)
    exact tail (b := b) rfl (by exact hk) (by exact hb0) (by exact hs) (by exact hd) (by exact hbd) hes

theorem startTagNs_post : Post (startTagNs p) fun _ p' =>
    NFrame { p with length2 := 0 } { p' with length2 := 0 } ∧ p'.rd = p.rd := by
  refine Post.of fun _ s h => ?_
  have h := startTagNs_fr.ok h
  refine ⟨.ns h, ?_⟩
  obtain ⟨⟨ns, v1, v2, v3, v4, v5, e⟩, -⟩ := h
  have := congrArg Parser.rd e
  exact this

/-- The state in which the name of an attribute begins. -/
theorem G.attrName {r : Int} (hb : Base c p) (hs : SlotsCore c p.tagStack p.at_ p.depth) (hd : p.depth ≤ 254) (h0 : 0 ≤ p.depth)
    (hr : p.rd.offset = r + 1) (ho : p.offset = r + 1) (hr0 : 0 ≤ r) (hre : r < c.endOffset) (hl : p.lastOffset = r)
    {y : UInt8} (hcur : isNameStartChar p.currentChar = true) (hy : c.xmlDoc[r.toNat]? = some y) (hy' : p.currentChar = y.toNat)
    (hk : K c o0 p.out p.tagStack p.length2 p.depth p.rd.offset es stk recs)
    (hlast : ∃ o len stk', stk = (o, len) :: stk' ∧ es.getLast? = some (.start o len stk'.length))
    (hat : Atts c.xmlDoc p.at_.attrNameSlice p.at_.attrCount (seenAfter c.xmlDoc [] recs)) :
    G c o0 .attrName p es stk recs := by
  refine ⟨⟨hb, hs, fun _ => hd, fun _ => h0, fun _ => ⟨by omega, by omega, by omega⟩,
    fun _ => isNameStartChar_nameChar hcur, fun _ => by omega⟩, hk, ?_, by simp [mid], by simp, by simp, by simp, by simp,
    fun _ => ⟨hlast, hat⟩, fun _ => ⟨by omega, y, by rw [hl]; exact hy, (isNameStartChar_iff _).mp (hy' ▸ hcur), hy'⟩⟩
  obtain ⟨o, len, stk', rfl, -⟩ := hlast
  simp [Ev.after]

/-- `processStartTag` from the end of the name. -/
theorem startTagRest_good {u : Parser} {r : Int} {x : UInt8} {o len : Nat} (hub : Base c u) (hus : SlotsCore c u.tagStack u.at_ u.depth)
    (hd : u.depth ≤ 254) (h0 : 0 ≤ u.depth) (hur : u.rd.offset = r + 1) (hr0 : 0 ≤ r) (huc : u.currentChar = x.toNat)
    (hx : c.xmlDoc[r.toNat]? = some x)
    (hk : K c o0 u.out u.tagStack u.length2 u.depth u.rd.offset es ((o, len) :: stk) recs)
    (hlast : es.getLast? = some (.start o len stk.length)) (hseen : seenAfter c.xmlDoc [] recs = []) :
    Post ((do
      let p ← M.get
      if isSpaceChar p.currentChar then do
        nextCharAfterWs
        let p ← M.get
        if isNameStartChar p.currentChar then do
          let offset ← getPrevOffset
          M.modify fun p => { p with lastOffset := offset }
          pure .attrName
        else startTagEnd
      else startTagEnd : M Parser PState) u) (Good c o0 (closes es)) := by
  have hat : ∀ names count, Atts c.xmlDoc names count (seenAfter c.xmlDoc [] recs) := by
    intro names count n hn
    rw [hseen] at hn; cases hn
  refine Post.get (Post.ite (fun _ => ?_) fun _ => ?_)
  · refine Post.bind (nextCharAfterWs_byte (c := c) hub) ?_
    rintro _ p' ⟨r2, y, w, hp, hb4, hr2, hr2e, hy, -⟩
    subst hp
    refine Post.get (Post.ite (fun hnm => ?_) fun _ => ?_)
    · simp only [M.bind_apply, getPrevOffset_eq hb4, Res.andThen_ok, M.modify_apply, M.pure_apply]
      exact ⟨es, _, _, rfl, G.attrName (r := r2) (by exact hb4) (by exact hus) (by exact hd) (by exact h0) rfl rfl (by omega) hr2e
        (by simp) hnm hy rfl (hk.bound (by simp; omega)) ⟨_, _, _, rfl, hlast⟩ (hat _ _)⟩
    · exact startTagEnd_good (x := y) (b := u.rd.offset) (by exact hk) hlast hb4 (by exact hus) (by exact hd) (by simp; omega) rfl
        (by simp; omega) (by rw [← hy]; simp)
  · exact startTagEnd_good (x := x) (b := u.rd.offset) (by exact hk) hlast hub (by exact hus) (by omega) (by omega) huc
        (by omega) (by rw [hur, ← hx]; congr 1; omega)

theorem startTag_good (h : G c o0 .tagStart p es stk recs) : Post (processStartTag p) (Good c o0 (closes es)) := by
  have hs := h.inv.slots
  have h0 := h.inv.start (by simp)
  obtain ⟨hn0, hn1, hn2⟩ := h.inv.name (by simp)
  have hsy := h.inv.sync (by simp)
  have hk := h.k
  rw [if_pos rfl, if_pos rfl] at hk
  obtain ⟨k, hk4, hk0, hkq, hko, b0, hb0, hsb⟩ := h.tagS rfl
  have hroot := h.notAfter rfl
  have hinc : p.enc.increment = 1 := h.inv.base.inc
  have he1 := h.inv.base.end1
  have he2 := h.inv.base.end2
  have hdep := hk.depth
  have hlen2 := hk.len2
  refine Post.get (Post.bind (startTagLoop_post h.inv.base) ?_)
  rintro _ p' ⟨l, r, x, run, hp, hb, hr, hre, hx, hnx, hrun, hdrop, hl0⟩
  subst hp
  have hcol := hl0 (k + 1) 0 (by rw [hlen2]; rfl) (by omega)
  have hl0 : 0 ≤ l := by omega
  have hname : Grammar.NameAt c.xmlDoc p.lastOffset.toNat (r.toNat - p.lastOffset.toNat) k := by
    refine nameAt_of (b := b0) (run := run) (x := x) ?_ hsb hrun ?_ hx hnx (by omega)
    · rw [← hb0]; congr 1; omega
    · rw [← hdrop]; congr 1; omega
  refine Post.modify (Post.get (Post.ite (fun _ => post_err _) fun hd => ?_))
  have hd : p.depth ≤ 254 := by simpa [maxDepth] using hd
  generalize hq : ({ (({ p with length2 := l } : Parser).mv (r + 1) (r + 1) x.toNat) with
    length1 := (({ p with length2 := l } : Parser).mv (r + 1) (r + 1) x.toNat).offset -
      (({ p with length2 := l } : Parser).mv (r + 1) (r + 1) x.toNat).lastOffset -
      (({ p with length2 := l } : Parser).mv (r + 1) (r + 1) x.toNat).enc.increment } : Parser) = q
  have hq1 : q.length1 = r - p.lastOffset := by subst hq; simp [hinc]; omega
  have hq2 : q.length2 = l := by subst hq; rfl
  have hqb : Base c q := by subst hq; exact hb
  have hql : q.lastOffset = p.lastOffset := by subst hq; rfl
  have hqd : q.depth = p.depth := by subst hq; rfl
  have hqs : SlotsCore c q.tagStack q.at_ q.depth := by subst hq; exact hs
  have hqr : q.rd.offset = r + 1 := by subst hq; rfl
  have hqo : q.offset = r + 1 := by subst hq; rfl
  have hqc : q.currentChar = x.toNat := by subst hq; rfl
  have hqt : q.tagStack = p.tagStack := by subst hq; rfl
  have hqout : q.out = p.out := by subst hq; rfl
  clear hq
  obtain ⟨t, ht, htlo, hthi, hts⟩ := pushTag_post hqs (by omega) (by omega) (by omega) (by omega) he2 he1
  rw [M.bind_apply, ht, Res.andThen_ok]
  refine Post.modify (Post.bind (writeStartTag_post (by exact hqb)) ?_)
  rintro _ p' ⟨hl2, hl1, hp, hb3⟩
  subst hp
  replace hl2 : q.length2 ≤ 511 := hl2
  replace hl1 : q.length1 ≤ 2047 := hl1
  refine Post.bind startTagNs_post fun _ q' ⟨hq', hrd⟩ => Post.modify ?_
  have hrng := shlOr_range (a := q.length2) (b := q.length1) (k := 1) (by omega) hl2 (by omega) hl1 (by omega)
  generalize he : ({ q' with length2 := 0 } : Parser) = u at hq'
  have hub : Base c u := hq'.base (by exact hb3)
  have hur : u.rd.offset = r + 1 := by rw [← he]; show q'.rd.offset = r + 1; rw [hrd]; exact hqr
  have hnamed : Named c.xmlDoc ⟨.startingTag, (p.lastOffset.toNat : Int), shlOr q.length2 1 q.length1, p.depth - 1 + 1⟩ := by
    refine ⟨fun _ => ⟨r.toNat - p.lastOffset.toNat, k, lastColon (k + 1) 0 run, hk4, ?_, hkq, hname, by omega, ?_, by omega, ?_⟩, by simp⟩
    · intro hne
      apply hk0
      rintro rfl
      simp only [List.length_nil] at hdep
      exact hne (by simp only; omega)
    · have hl' := (List.getElem?_eq_some_iff.mp hx).1
      have hlen := drop_run hl' (by omega) hdrop
      simp only [Int.toNat_natCast, sub, List.drop_take, List.drop_drop]
      rw [show p.lastOffset.toNat + (k + 1) = p.rd.offset.toNat by omega, hdrop,
        show r.toNat - p.lastOffset.toNat - (k + 1) = run.length by omega, List.take_left]
    · have h := Parser.shlOr_nat (a := q.length2.toNat) (b := q.length1.toNat) (k := 1) (by omega) (by omega) (by omega)
      rw [Int.toNat_of_nonneg (by omega), Int.toNat_of_nonneg (by omega)] at h
      simp only [h]
      rw [show q.length2.toNat = lastColon (k + 1) 0 run by omega, show q.length1.toNat = r.toNat - p.lastOffset.toNat by omega]
  have hk2 := hk.start (q := p.lastOffset.toNat) (len := r.toNat - p.lastOffset.toNat) (k := k) (l := shlOr q.length2 1 q.length1)
    (t := t) (b' := u.rd.offset) (by omega) hroot hk4 hk0 hname (by omega) (by omega)
    (by have := hqs.tagLen; rw [hqt] at this; have := hqs.dep1; omega) (by omega) (by omega) hrng.1 hrng.2 (by omega) hnamed
  have hrec : (⟨.startingTag, (p.lastOffset.toNat : Int), shlOr q.length2 1 q.length1, p.depth - 1 + 1⟩ : Rec) = startRec q := by
    simp only [startRec, hql, hqd]
    congr 1 <;> omega
  rw [hrec] at hk2
  generalize hes2 : es ++ [Mark.start p.lastOffset.toNat (r.toNat - p.lastOffset.toNat) stk.length] = es2 at hk2
  have hlast : es2.getLast? = some (.start p.lastOffset.toNat (r.toNat - p.lastOffset.toNat) stk.length) := by
    rw [← hes2]; simp
  have hk3 : K c o0 u.out u.tagStack u.length2 u.depth u.rd.offset es2 ((p.lastOffset.toNat, r.toNat - p.lastOffset.toNat) :: stk)
      (recs ++ [startRec q]) := by
    have e1 : u.out = Parser.emit c.shallowDepth p.out [startRec q] := by
      rw [hq'.out]; simp only [hqout, startRec]
    have e2 : u.tagStack = p.tagStack.set stk.length t := by
      rw [hq'.tagStack]; simp only [hqt, hqd]; rw [show p.depth.toNat = stk.length by omega]
    have e3 : u.length2 = 0 := hq'.length2
    have e4 : u.depth = p.depth - 1 + 1 := by rw [hq'.depth]; simp only [hqd]; omega
    rw [e1, e2, e3, e4]
    exact hk2
  have hseen : seenAfter c.xmlDoc [] (recs ++ [startRec q]) = [] := by
    rw [seenAfter_append]
    simp [seenAfter, startRec]
  have hus : SlotsCore c u.tagStack u.at_ u.depth := hq'.slots (by exact hts)
  have hud : u.depth = p.depth := hq'.depth.trans hqd
  have huc : u.currentChar = x.toNat := hq'.cur.trans hqc
  rw [← closes_start es p.lastOffset.toNat (r.toNat - p.lastOffset.toNat) stk.length, hes2]
  exact startTagRest_good hub hus (by omega) (by omega) hur (by omega) huc hx hk3 hlast hseen

end Ev
end Parser
end GoVtd
