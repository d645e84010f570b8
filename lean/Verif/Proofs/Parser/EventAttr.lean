import Verif.Proofs.Parser.EventStart

/-!
# Attributes
-/

namespace GoVtd
namespace Parser
namespace Ev
open Paged Grammar Two
variable {c : ParserCfg} {p : Parser} {o0 : ParserOut} {es : List Mark} {stk : List (Nat × Nat)} {recs : List Rec}

theorem skipSeq_post (s : List UInt8) (hs : ∀ x ∈ s, x ≠ 0) {p : Parser} (hb : Base c p) :
    Post (skipCharSeq (s.map UInt8.toNat) p) fun x p' => ∃ j : Nat, j ≤ s.length ∧
      p' = p.mv (p.rd.offset + j) (p.rd.offset + j) p.currentChar ∧ Base c p' ∧
      c.xmlDoc.drop p.rd.offset.toNat = s.take j ++ c.xmlDoc.drop (p.rd.offset.toNat + j) ∧ (x = true → j = s.length) := by
  induction s generalizing p with
  | nil =>
    rw [List.map_nil, skipCharSeq_nil]
    have h0 := hb.off0
    have h1 := hb.off1
    exact ⟨0, Nat.le_refl _, by simp, hb.mv _ (by omega) (Int.le_refl _) hb.off2 hb.sent, by simp, fun _ => rfl⟩
  | cons x s ih =>
    have h0 := hb.off0
    have h1 := hb.off1
    rw [List.map_cons, skipCharSeq_cons]
    refine Res.Sat.bind (skipChar_byte hb x (hs x (by simp))) ?_
    rintro y p' ⟨rfl, hb', hx⟩
    cases y with
    | false =>
      exact ⟨0, by omega, by simp, by exact hb', by simp, fun h => by cases h⟩
    | true =>
      obtain ⟨hl, hd⟩ := List.getElem?_eq_some_iff.mp (hx rfl)
      simp only [if_true]
      refine (ih (fun z hz => hs z (by simp [hz])) hb').mono ?_
      rintro z q ⟨j, hj, rfl, hb2, hd2, hz⟩
      simp only [mv_rdOffset, Bool.toNat_true] at hd2 ⊢
      refine ⟨j + 1, by simp; omega, ?_, hb2, ?_, fun h => by rw [hz h]; rfl⟩
      · simp only [mv_cur, mv_mv]
        congr 1 <;> omega
      · rw [List.drop_eq_getElem_cons hl, hd, List.take_succ_cons, List.cons_append,
          show p.rd.offset.toNat + 1 = (p.rd.offset + (1 : Nat)).toNat by omega, hd2]
        congr 3; omega

/-- The character the name loop looks at stands for the byte `y`. -/
def Shows (ch : Nat) (y : UInt8) : Prop := (isNameChar ch = true ↔ NameByte y) ∧ (ch = 58 ↔ y = 0x3A)

theorem shows_self (y : UInt8) : Shows y.toNat y :=
  ⟨isNameChar_iff _, ⟨fun h => toNat_eq_char (k := 0x3A) h, fun h => by rw [h]; rfl⟩⟩

theorem attrNsTest_post {y : UInt8} (hb : Base c p) (ho : p.offset = p.rd.offset) (hl : p.offset = p.lastOffset + 1)
    (hl0 : 0 ≤ p.lastOffset) (hle : p.lastOffset < c.endOffset)
    (hy : c.xmlDoc[p.lastOffset.toNat]? = some y) (hcur : p.currentChar = y.toNat) :
    Post (attrNsTest p) fun _ p' => ∃ a b ch u y', p' = ({ p with at_ := { p.at_ with isNs := a, defaultNs := b } } : Parser).mv
      (p.lastOffset + u.length + 1) (p.lastOffset + u.length + 1) ch ∧ Base c p' ∧ AllName u ∧ lastColon 0 0 u = 0 ∧
      c.xmlDoc.drop p.lastOffset.toNat = u ++ c.xmlDoc.drop (p.lastOffset.toNat + u.length) ∧
      c.xmlDoc[p.lastOffset.toNat + u.length]? = some y' ∧ Shows ch y' ∧
      (isNameChar ch = true ∨ p.lastOffset + u.length < c.endOffset) := by
  have none : ∃ a b ch u y', p = ({ p with at_ := { p.at_ with isNs := a, defaultNs := b } } : Parser).mv
      (p.lastOffset + (u : List UInt8).length + 1) (p.lastOffset + u.length + 1) ch ∧ Base c p ∧ AllName u ∧ lastColon 0 0 u = 0 ∧
      c.xmlDoc.drop p.lastOffset.toNat = u ++ c.xmlDoc.drop (p.lastOffset.toNat + u.length) ∧
      c.xmlDoc[p.lastOffset.toNat + u.length]? = some y' ∧ Shows ch y' ∧
      (isNameChar ch = true ∨ p.lastOffset + u.length < c.endOffset) := by
    refine ⟨p.at_.isNs, p.at_.defaultNs, p.currentChar, [], y, ?_, hb, (fun _ h => by cases h), rfl, rfl, hy, ?_, ?_⟩
    · show p = p.mv _ _ p.currentChar
      conv => lhs; rw [← mv_self p]
      rw [← ho, hl]; simp
    · rw [hcur]; exact shows_self y
    · right; simp; omega
  refine Post.get (Post.ite (fun hx => ?_) fun _ => none)
  have hx : y = 0x78 := toNat_eq_char (hcur ▸ hx)
  subst hx
  obtain ⟨hyl, hyd⟩ := List.getElem?_eq_some_iff.mp hy
  have hxm : ∀ j, j ≤ 4 → AllName (0x78 :: (([0x6D, 0x6C, 0x6E, 0x73] : List UInt8).take j)) ∧
      lastColon 0 0 (0x78 :: (([0x6D, 0x6C, 0x6E, 0x73] : List UInt8).take j)) = 0 := by
    intro j hj
    have : j = 0 ∨ j = 1 ∨ j = 2 ∨ j = 3 ∨ j = 4 := by omega
    rcases this with rfl | rfl | rfl | rfl | rfl <;> refine ⟨?_, rfl⟩ <;>
    · intro x hx
      refine (isNameChar_iff _).mp ?_
      revert x; decide
  refine Post.bind (skipSeq_post [0x6D, 0x6C, 0x6E, 0x73] (by decide) hb) ?_
  rintro s p' ⟨j, hj, rfl, hb', hd, hs⟩
  simp only [List.length_cons, List.length_nil] at hj hs
  obtain ⟨hn1, hn2⟩ := hxm j (by omega)
  have hlen : (0x78 :: (([0x6D, 0x6C, 0x6E, 0x73] : List UInt8).take j)).length = j + 1 := by
    simp only [List.length_cons, List.length_take, List.length_nil]; omega
  have hrd : p.rd.offset.toNat = p.lastOffset.toNat + 1 := by omega
  have hdrop : c.xmlDoc.drop p.lastOffset.toNat = (0x78 :: (([0x6D, 0x6C, 0x6E, 0x73] : List UInt8).take j)) ++
      c.xmlDoc.drop (p.lastOffset.toNat + (j + 1)) := by
    rw [List.drop_eq_getElem_cons hyl, hyd, ← hrd, hd, List.cons_append]
    congr 3; omega
  refine Post.ite (fun hst => ?_) fun hst => ?_
  · obtain rfl := hs hst
    refine Post.bind (nextChar_byte hb') ?_
    rintro _ p' ⟨b, rfl, hb2, hlt, hbd⟩
    simp only [mv_rdOffset] at hlt hbd
    have fin : ∀ a d, ∃ a' b' ch u y', ({ p with at_ := { p.at_ with isNs := a, defaultNs := d } } : Parser).mv (p.rd.offset + (4 : Nat) + 1) (p.rd.offset + (4 : Nat) + 1) b.toNat =
        ({ p with at_ := { p.at_ with isNs := a', defaultNs := b' } } : Parser).mv
      (p.lastOffset + (u : List UInt8).length + 1) (p.lastOffset + u.length + 1) ch ∧
      Base c (({ p with at_ := { p.at_ with isNs := a, defaultNs := d } } : Parser).mv (p.rd.offset + (4 : Nat) + 1) (p.rd.offset + (4 : Nat) + 1) b.toNat) ∧ AllName u ∧ lastColon 0 0 u = 0 ∧
      c.xmlDoc.drop p.lastOffset.toNat = u ++ c.xmlDoc.drop (p.lastOffset.toNat + u.length) ∧
      c.xmlDoc[p.lastOffset.toNat + u.length]? = some y' ∧ Shows ch y' ∧
      (isNameChar ch = true ∨ p.lastOffset + u.length < c.endOffset) := by
      intro a d
      refine ⟨a, d, b.toNat, _, b, ?_, by exact hb2, hn1, hn2, by rw [hlen]; exact hdrop, ?_, shows_self b, .inr ?_⟩
      · rw [hlen]; congr 1 <;> omega
      · rw [hlen, ← hbd]; congr 1; omega
      · rw [hlen]; omega
    refine Post.get (Post.ite (fun _ => ?_) fun _ => Post.ite (fun _ => ?_) fun _ => ?_)
    · exact fin true true
    · exact fin true false
    · exact fin p.at_.isNs p.at_.defaultNs
  · by_cases hj0 : j = 0
    · subst hj0
      have : p.mv (p.rd.offset + (0 : Nat)) (p.rd.offset + (0 : Nat)) p.currentChar = p := by
        conv => rhs; rw [← mv_self p]
        rw [ho]; simp
      rw [this]
      exact none
    · have hz := congrArg (fun l => l[j]?) hdrop
      rw [List.getElem?_append_left (by rw [hlen]; omega), List.getElem?_drop] at hz
      obtain ⟨k, rfl⟩ : ∃ k, j = k + 1 := ⟨j - 1, by omega⟩
      rw [List.getElem?_cons_succ, List.getElem?_take_of_lt (by omega)] at hz
      refine ⟨p.at_.isNs, p.at_.defaultNs, p.currentChar, 0x78 :: (([0x6D, 0x6C, 0x6E, 0x73] : List UInt8).take k),
        ([0x6D, 0x6C, 0x6E, 0x73] : List UInt8)[k], ?_, by exact hb', (hxm k (by omega)).1, (hxm k (by omega)).2, ?_, ?_, ?_, .inl ?_⟩
      all_goals
        have hkl : (0x78 :: (([0x6D, 0x6C, 0x6E, 0x73] : List UInt8).take k)).length = k + 1 := by
          simp only [List.length_cons, List.length_take, List.length_nil]; omega
      · rw [hkl]; show p.mv _ _ p.currentChar = p.mv _ _ p.currentChar
        congr 1 <;> omega
      · have h3 : c.xmlDoc[p.lastOffset.toNat + (k + 1)]? = some ([0x6D, 0x6C, 0x6E, 0x73] : List UInt8)[k] := by
          rw [hz]; exact List.getElem?_eq_getElem (by simp; omega)
        obtain ⟨hl3, hd3⟩ := List.getElem?_eq_some_iff.mp h3
        rw [hkl, List.drop_eq_getElem_cons hl3, hd3, hdrop, List.take_succ_eq_append_getElem (by simp; omega)]
        simp only [List.cons_append, List.append_assoc, List.nil_append]
        rfl
      · rw [hkl, ← Nat.add_assoc, Nat.add_assoc, hz]
        exact List.getElem?_eq_getElem (by simp; omega)
      · have : k = 0 ∨ k = 1 ∨ k = 2 ∨ k = 3 := by omega
        rw [hcur]
        rcases this with rfl | rfl | rfl | rfl
        · exact ⟨⟨fun _ => (isNameChar_iff 0x6D).mp (by decide), fun _ => by decide⟩, by simp⟩
        · exact ⟨⟨fun _ => (isNameChar_iff 0x6C).mp (by decide), fun _ => by decide⟩, by simp⟩
        · exact ⟨⟨fun _ => (isNameChar_iff 0x6E).mp (by decide), fun _ => by decide⟩, by simp⟩
        · exact ⟨⟨fun _ => (isNameChar_iff 0x73).mp (by decide), fun _ => by decide⟩, by simp⟩
      · rw [hcur]; decide

theorem attrNameLoop_post {fuel : Nat} {p : Parser} {y : UInt8} {q : Int} (hb : Base c p) (ho : p.offset = p.rd.offset)
    (hq : p.offset = q + 1) (hq0 : 0 ≤ q) (hy : c.xmlDoc[q.toNat]? = some y) (hsh : Shows p.currentChar y)
    (hend : isNameChar p.currentChar = true ∨ q < c.endOffset) :
    Post (attrNameLoop fuel p) fun _ p' => ∃ (l r : Int) (ch : Nat) (x : UInt8) (run : List UInt8),
      p' = ({ p with length2 := l } : Parser).mv (r + 1) (r + 1) ch ∧ Base c p' ∧ q ≤ r ∧
      r < c.endOffset ∧ c.xmlDoc[r.toNat]? = some x ∧ ¬ NameByte x ∧ AllName run ∧
      c.xmlDoc.drop q.toNat = run ++ c.xmlDoc.drop r.toNat ∧
      (∀ i a : Nat, p.length2 = a → q = p.lastOffset + i → l = lastColon i a run) := by
  induction fuel generalizing p y q with
  | zero => trivial
  | succ fuel ih =>
    have h0 := hb.off0; have h1 := hb.off1
    have hinc := hb.inc
    obtain ⟨hyl, hyd⟩ := List.getElem?_eq_some_iff.mp hy
    have next : isNameChar p.currentChar = true → ∀ {run : List UInt8} {r : Int}, AllName run → q + 1 ≤ r →
        c.xmlDoc.drop (q + 1).toNat = run ++ c.xmlDoc.drop r.toNat →
        AllName (y :: run) ∧ c.xmlDoc.drop q.toNat = (y :: run) ++ c.xmlDoc.drop r.toNat := by
      intro hn run r hrun hr hdrop
      refine ⟨?_, ?_⟩
      · intro x hx
        rcases List.mem_cons.mp hx with rfl | hx
        · exact hsh.1.mp hn
        · exact hrun x hx
      · rw [List.drop_eq_getElem_cons hyl, hyd, List.cons_append, ← hdrop]
        congr 2; omega
    refine Post.get (Post.ite (fun hn => Post.ite (fun hcol => Post.modify ?_) fun hcol => ?_) fun hn => ?_)
    · refine Post.bind (nextChar_byte (c := c) (by exact hb)) ?_
      rintro _ p' ⟨b, rfl, hb', hlt, hbd⟩
      simp only at hlt hbd
      refine (ih (y := b) (q := q + 1) (by exact hb') rfl (by simp; omega) (by omega) (by rw [← hbd]; congr 1; omega) (shows_self b)
        (.inr (by omega))).mono ?_
      rintro _ p' ⟨l, r, ch, x, run, rfl, hb2, hr, hre, hx, hnx, hrun, hdrop, hl0⟩
      obtain ⟨ha, hd2⟩ := next hn hrun hr hdrop
      refine ⟨l, r, ch, x, y :: run, rfl, hb2, by omega, hre, hx, hnx, ha, hd2, fun i a h h' => ?_⟩
      rw [hl0 (i + 1) i (by simp [hinc]; omega) (by simp; omega), lastColon, if_pos (hsh.2.mp hcol)]
    · refine Post.bind (nextChar_byte (c := c) (by exact hb)) ?_
      rintro _ p' ⟨b, rfl, hb', hlt, hbd⟩
      refine (ih (y := b) (q := q + 1) (by exact hb') rfl (by simp; omega) (by omega) (by rw [← hbd]; congr 1; omega) (shows_self b)
        (.inr (by omega))).mono ?_
      rintro _ p' ⟨l, r, ch, x, run, rfl, hb2, hr, hre, hx, hnx, hrun, hdrop, hl0⟩
      obtain ⟨ha, hd2⟩ := next hn hrun hr hdrop
      refine ⟨l, r, ch, x, y :: run, rfl, hb2, by omega, hre, hx, hnx, ha, hd2, fun i a h h' => ?_⟩
      rw [hl0 (i + 1) a h (by simp; omega), lastColon, if_neg (fun h => hcol (hsh.2.mpr h))]
    · refine ⟨p.length2, q, p.currentChar, y, [], ?_, hb, Int.le_refl _, ?_, hy, fun h => hn (hsh.1.mpr h), (fun _ h => by cases h), rfl, fun i a h _ => h⟩
      · show p = p.mv _ _ p.currentChar
        conv => lhs; rw [← mv_self p]
        rw [← ho, hq]
      · rcases hend with h | h
        · exact absurd h hn
        · exact h

theorem uniqueLoop_iff (hp : p.cfg = c) (hs : SlotsCore c p.tagStack p.at_ p.depth)
    (hin : InDoc c p.lastOffset p.length1) (n : Nat) {i : Nat} (h1 : i + n ≤ 256) (u : Bool) :
    ∃ b, uniqueLoop n i u p = .ok b p ∧ (b = true → u = true ∧ ∀ j e, i ≤ j → j < i + n → p.at_.attrNameSlice[j]? = some e →
      ¬ (low32 e = p.length1 ∧ (c.xmlDoc.drop (high32 e).toNat).take p.length1.toNat =
        (c.xmlDoc.drop p.lastOffset.toNat).take p.length1.toNat)) := by
  induction n generalizing i u with
  | zero => exact ⟨u, rfl, fun h => ⟨h, fun j e h1 h2 => by omega⟩⟩
  | succ n ih =>
    have hi : i < p.at_.attrNameSlice.length := by rw [hs.attLen]; omega
    simp only [uniqueLoop, M.bind_apply, M.get_apply, Res.andThen_ok]
    rw [M.index_of_lt _ _ _ (by omega) (by simpa using hi)]
    simp only [Res.andThen_ok, M.ite_apply, M.bind_apply, Int.toNat_natCast]
    have he := hs.atts _ (List.getElem_mem hi)
    obtain ⟨e0, e1, e2⟩ := he
    obtain ⟨l0, l1, l2⟩ := hin
    have step : ∀ {b : Bool} {v : Bool}, (b = true → v = true ∧ ∀ j e, i + 1 ≤ j → j < i + 1 + n → p.at_.attrNameSlice[j]? = some e →
        ¬ (low32 e = p.length1 ∧ (c.xmlDoc.drop (high32 e).toNat).take p.length1.toNat =
          (c.xmlDoc.drop p.lastOffset.toNat).take p.length1.toNat)) →
        (v = true → u = true ∧ ¬ (low32 p.at_.attrNameSlice[i] = p.length1 ∧
          (c.xmlDoc.drop (high32 p.at_.attrNameSlice[i]).toNat).take p.length1.toNat =
          (c.xmlDoc.drop p.lastOffset.toNat).take p.length1.toNat)) →
        (b = true → u = true ∧ ∀ j e, i ≤ j → j < i + (n + 1) → p.at_.attrNameSlice[j]? = some e →
        ¬ (low32 e = p.length1 ∧ (c.xmlDoc.drop (high32 e).toNat).take p.length1.toNat =
          (c.xmlDoc.drop p.lastOffset.toNat).take p.length1.toNat)) := by
      intro b v h1 h2 hb
      obtain ⟨h3, h4⟩ := h1 hb
      obtain ⟨h5, h6⟩ := h2 h3
      refine ⟨h5, fun j e hj hj' he => ?_⟩
      by_cases hji : j = i
      · subst hji
        rw [List.getElem?_eq_getElem hi] at he
        cases he
        exact h6
      · exact h4 j e (by omega) (by omega) he
    rw [show ((i : Int) + 1) = ((i + 1 : Nat) : Int) by omega]
    split
    · rename_i heq
      obtain ⟨b, hb, hb'⟩ := sameBytes_iff hp (low32 p.at_.attrNameSlice[i]).toNat
        (a := high32 p.at_.attrNameSlice[i]) (b := p.lastOffset) ⟨e0, by omega, by omega⟩
        ⟨l0, by omega, by omega⟩
      rw [hb, Res.andThen_ok]
      obtain ⟨b2, hb2, hb3⟩ := ih (i := i + 1) (by omega) (u && !b)
      refine ⟨b2, hb2, step hb3 fun hv => ?_⟩
      simp only [Bool.and_eq_true, Bool.not_eq_true'] at hv
      refine ⟨hv.1, fun ⟨_, h⟩ => ?_⟩
      rw [heq] at h
      rw [hb'.mpr h] at hv
      cases hv.2
    · rename_i hne
      obtain ⟨b2, hb2, hb3⟩ := ih (i := i + 1) (by omega) u
      exact ⟨b2, hb2, step hb3 fun hv => ⟨hv, fun h => hne h.1.symm⟩⟩

/-- The name that was just read. -/
def nameOf (c : ParserCfg) (p : Parser) : List UInt8 := (c.xmlDoc.drop p.lastOffset.toNat).take p.length1.toNat

theorem unique_post (hb : Base c p) (hs : SlotsCore c p.tagStack p.at_ p.depth)
    (hin : InDoc c p.lastOffset p.length1) (he : p.lastOffset + p.length1 < c.endOffset) {seen : List (List UInt8)}
    (hat : Atts c.xmlDoc p.at_.attrNameSlice p.at_.attrCount seen) :
    Post (checkAttrUniqueness p) fun _ p' => ∃ l n, NFrame { p with at_ := { p.at_ with attrNameSlice := l, attrCount := n } } p' ∧
      SlotsCore c p'.tagStack p'.at_ p'.depth ∧ nameOf c p ∉ seen ∧
      Atts c.xmlDoc p'.at_.attrNameSlice p'.at_.attrCount (nameOf c p :: seen) := by
  have h0 := hs.cnt0
  have h1 := hs.cnt1
  have he2 := hb.end2
  have he1 := hb.end1
  obtain ⟨l0, l1, l2⟩ := hin
  have hnl : (nameOf c p).length = p.length1.toNat := by
    simp only [nameOf, List.length_take, List.length_drop]; omega
  obtain ⟨u, hu, hu'⟩ := uniqueLoop_iff hb.cfg hs ⟨l0, l1, l2⟩ p.at_.attrCount.toNat (i := 0) (by omega) true
  refine Post.get ?_
  rw [M.bind_apply, show uniqueLoop p.at_.attrCount.toNat 0 true p = .ok u p from hu, Res.andThen_ok]
  refine Post.ite (fun _ => post_err _) fun hnot => ?_
  have hnew : nameOf c p ∉ seen := by
    intro hmem
    obtain ⟨i, e, hi, hie, hlo, hhi, hbytes⟩ := hat _ hmem
    have ht : u = true := by
      cases u with
      | true => rfl
      | false => exact absurd ⟨rfl, by omega⟩ hnot
    refine (hu' ht).2 i e (by omega) (by omega) hie ⟨by omega, ?_⟩
    rw [hnl] at hbytes
    exact hbytes
  simp only [setAt]
  by_cases hf : p.at_.attrCount = 256
  · rw [if_pos (by rw [hs.attLen]; omega)]
    trivial
  · rw [if_neg (by rw [hs.attLen]; omega)]
    have hp := packOr_toNat l0 (by omega) l1 (by omega : p.length1 < 2 ^ 32)
    generalize hw : (BitVec.ofInt 64 p.lastOffset <<< 32) ||| BitVec.ofInt 64 p.length1 = w at hp
    have hlo := low32_of hp (by omega)
    have hhi := high32_of hp (by omega) (by omega)
    have hslots : SlotsCore c p.tagStack { p.at_ with attrNameSlice := p.at_.attrNameSlice.set p.at_.attrCount.toNat w, attrCount := p.at_.attrCount + 1 } p.depth := by
      refine { hs with attLen := by simp [hs.attLen], cnt0 := by simp; omega, cnt1 := by simp; omega, atts := fun t ht => ?_ }
      rcases List.mem_or_eq_of_mem_set ht with ht | rfl
      · exact hs.atts t ht
      · rw [hlo, hhi]; exact ⟨by omega, by omega, by omega⟩
    have hatts : Atts c.xmlDoc (p.at_.attrNameSlice.set p.at_.attrCount.toNat w) (p.at_.attrCount + 1) (nameOf c p :: seen) := by
      intro n hn
      rcases List.mem_cons.mp hn with rfl | hn
      · refine ⟨p.at_.attrCount.toNat, w, by omega, List.getElem?_set_self (by rw [hs.attLen]; omega), by omega, by omega, ?_⟩
        rw [hnl, hhi]; rfl
      · obtain ⟨i, e, hi, hie, h3⟩ := hat n hn
        exact ⟨i, e, by omega, by rw [List.getElem?_set_ne (by omega)]; exact hie, h3⟩
    refine Post.modify ((nf_post (Nf.of pushPrefixedAttr_fr)).mono fun _ p' hf' => ⟨_, _, hf', hf'.slots (by exact hslots), hnew, ?_⟩)
    rw [hf'.names, hf'.count]
    exact hatts

/-- The record of the attribute name that was just read. -/
def attrRec (p : Parser) : Rec :=
  ⟨if p.at_.isNs then .attrNs else .attrName, p.lastOffset, shlOr p.length2 11 p.length1, p.depth⟩

theorem writeAttrName_post (hb : Base c p) : Post (writeAttrName p) fun _ p' => p.length2 ≤ 511 ∧ p.length1 ≤ 2047 ∧
    ∃ q, NFrame p q ∧ p' = { q with out := Parser.emit c.shallowDepth p.out [attrRec p] } ∧ Base c p' := by
  have fin : ∀ {q : Parser}, NFrame p q → Post ((if p.enc.singleByteEncoding then
      if p.length2 > maxPrefixLength ∨ p.length1 > maxQnameLength then
        parseErr (if p.at_.isNs then AttrNsPrefixQnameTooLong else AttrNamePrefixQnameTooLong)
      else writeVtd (if p.at_.isNs then Token.attrNs else Token.attrName) p.lastOffset (shlOr p.length2 11 p.length1) p.depth
    else
      if p.length2 > maxPrefixLength * 2 ∨ p.length1 > maxQnameLength * 2 then
        parseErr (if p.at_.isNs then AttrNsPrefixQnameTooLong else AttrNamePrefixQnameTooLong)
      else writeVtd (if p.at_.isNs then Token.attrNs else Token.attrName) (p.lastOffset / 2) (shlOr p.length2 10 (p.length1 / 2)) p.depth : M Parser Unit) q)
      fun _ p' => p.length2 ≤ 511 ∧ p.length1 ≤ 2047 ∧
      ∃ q, NFrame p q ∧ p' = { q with out := Parser.emit c.shallowDepth p.out [attrRec p] } ∧ Base c p' := by
    intro q hq
    rw [hb.single, if_pos rfl]
    refine Post.ite (fun _ => post_err _) fun hlen => ?_
    simp only [maxPrefixLength, maxQnameLength, not_or, Int.not_lt] at hlen
    have hts : (if p.at_.isNs then Token.attrNs else Token.attrName) ≠ .startingTag := by split <;> decide
    rw [writeVtd_emit (hq.base hb).out c.shallowDepth _ _ _ _ hts, hq.out]
    exact ⟨hlen.1, hlen.2, q, hq, rfl, (hq.base hb).ofOut (emit_ok hb.out _ _)⟩
  refine Post.get (Post.ite (fun _ => ?_) fun _ => fin (NFrame.refl p))
  exact Post.bind (nf_post (Nf.of (onNs3_fr _))) fun _ q hq => fin hq

theorem attrRec_name (hl2 : 0 ≤ p.length2) (hl2' : p.length2 ≤ 511) (hl1 : 0 ≤ p.length1) (hl1' : p.length1 ≤ 2047) :
    (attrRec p).name c.xmlDoc = nameOf c p := by
  have h := Parser.shlOr_nat (a := p.length2.toNat) (b := p.length1.toNat) (k := 11) (by omega) (by omega) (by omega)
  rw [Int.toNat_of_nonneg hl2, Int.toNat_of_nonneg hl1] at h
  simp only [Rec.name, attrRec, nameOf, h, Int.toNat_natCast]
  rw [or_low _ _ (by omega)]

theorem attrNameEnd_post (hb : Base c p) : Post (attrNameEnd p) fun st p' => st = .attrVal ∧ ∃ r ch,
    p' = { ({ p with length2 := 0 } : Parser).mv r r ch with lastOffset := r } ∧ Base c p' ∧ p.rd.offset + 1 ≤ r := by
  have fin : ∀ {q : Parser}, Base c q → Post ((do
        let p ← M.get
        if p.currentChar ≠ ch% '=' then parseErr InvalidChar
        else do
          nextCharAfterWs
          let p ← M.get
          if p.currentChar ≠ ch% '"' ∧ p.currentChar ≠ ch% '\'' then
            parseErr (InvalidChar ++ " should be ' or \" ")
          else do
            markOffset
            pure PState.attrVal : M Parser PState) q) fun st p' => st = .attrVal ∧ ∃ r ch,
              p' = { q.mv r r ch with lastOffset := r } ∧ Base c p' ∧ q.rd.offset + 1 ≤ r := by
    intro q hb
    refine Post.get (Post.ite (fun _ => post_err _) fun _ => ?_)
    refine Post.bind (nextCharAfterWs_byte (c := c) hb) ?_
    rintro _ p' ⟨r, b, w, rfl, hb', hr, -⟩
    refine Post.get (Post.ite (fun _ => post_err _) fun _ => ?_)
    exact ⟨rfl, r + 1, b.toNat, rfl, hb', by omega⟩
  refine Post.modify (Post.get (Post.ite (fun _ => ?_) fun _ => ?_))
  · refine Post.bind (nextCharAfterWs_byte (c := c) (by exact hb)) ?_
    rintro _ p' ⟨r, b, w, rfl, hb', hr, -⟩
    refine (fin hb').mono ?_
    rintro st p' ⟨rfl, r', ch, rfl, hb2, hr'⟩
    simp only [mv_rdOffset] at hr hr'
    exact ⟨rfl, r', ch, rfl, hb2, by omega⟩
  · exact fin (by exact hb)

theorem attrRest_good {q : Parser} {o len : Nat} {stk' : List (Nat × Nat)} (hqb : Base c q)
    (hqs : SlotsCore c q.tagStack q.at_ q.depth) (h0 : 0 ≤ q.depth) (hd : q.depth ≤ 254)
    (hl : 0 ≤ q.lastOffset) (hl1 : 0 ≤ q.length1) (hl2 : 0 ≤ q.length2) (he : q.lastOffset + q.length1 < c.endOffset)
    (hk : K c o0 q.out q.tagStack 0 q.depth q.rd.offset es stk recs) (hstk : stk = (o, len) :: stk')
    (hlast : es.getLast? = some (.start o len stk'.length))
    (hat : Atts c.xmlDoc q.at_.attrNameSlice q.at_.attrCount (seenAfter c.xmlDoc [] recs))
    (hna : Grammar.NameAt c.xmlDoc q.lastOffset.toNat q.length1.toNat 0)
    (hlc : q.length2 = lastColon 0 0 (Grammar.sub c.xmlDoc q.lastOffset.toNat q.length1.toNat)) :
    Post ((attrNsDecl >>= fun _ => checkAttrUniqueness >>= fun _ => writeAttrName >>= fun _ => attrNameEnd) q) (Good c o0 (closes es)) := by
  have he1 := hqb.end1
  have he2 := hqb.end2
  refine Post.bind (nf_post (Nf.of attrNsDecl_fr)) fun _ s1 h1 => ?_
  refine Post.bind (unique_post (h1.base hqb) (h1.slots hqs) ⟨by rw [h1.lastOffset]; omega, by rw [h1.length1]; omega,
    by rw [h1.lastOffset, h1.length1]; omega⟩ (by rw [h1.lastOffset, h1.length1]; omega)
    (by rw [h1.names, h1.count]; exact hat)) ?_
  rintro _ s2 ⟨l, n, h2, hs2, hnew, hat2⟩
  have hb2 : Base c s2 := h2.base (by exact h1.base hqb)
  refine Post.bind (writeAttrName_post hb2) ?_
  rintro _ s3 ⟨hm2, hm1, s3', h3, rfl, hb3⟩
  have e1 : s2.length1 = q.length1 := h2.length1.trans h1.length1
  have e2 : s2.length2 = q.length2 := h2.length2.trans h1.length2
  have e3 : s2.lastOffset = q.lastOffset := h2.lastOffset.trans h1.lastOffset
  have e4 : s2.depth = q.depth := h2.depth.trans h1.depth
  have e5 : s2.out = q.out := h2.out.trans h1.out
  have e6 : s2.tagStack = q.tagStack := h2.tagStack.trans h1.tagStack
  have hr1 := h1.rd hqb
  have hr2 : s1.rd.offset ≤ s2.rd.offset := h2.rd (by exact h1.base hqb)
  have hr3 := h3.rd hb2
  have hname : (attrRec s2).name c.xmlDoc = nameOf c s1 := by
    rw [attrRec_name (by omega) hm2 (by omega) hm1]
    simp only [nameOf, h2.lastOffset, h2.length1]
  have hrng := shlOr_range (a := s2.length2) (b := s2.length1) (k := 11) (by omega) hm2 (by omega) hm1 (by omega)
  have hk2 : K c o0 (Parser.emit c.shallowDepth s2.out [attrRec s2]) q.tagStack 0 q.depth q.rd.offset es stk (recs ++ [attrRec s2]) := by
    rw [e5]
    have hr : attrRec s2 = ⟨if s2.at_.isNs then .attrNs else .attrName, s2.lastOffset, shlOr s2.length2 11 s2.length1, q.depth⟩ := by
      rw [attrRec, e4]
    rw [hr] at hname ⊢
    refine hk.attr (by split <;> simp) (by omega) (by omega) hrng.1 hrng.2 hd h0 ?_ ?_
    · rw [hname]; exact hnew
    · refine ⟨fun h => absurd h (by dsimp only; split <;> decide), fun _ => ?_⟩
      have h := Parser.shlOr_nat (a := s2.length2.toNat) (b := s2.length1.toNat) (k := 11) (by omega) (by omega) (by omega)
      rw [Int.toNat_of_nonneg (by omega), Int.toNat_of_nonneg (by omega)] at h
      refine ⟨q.length1.toNat, q.length2.toNat, by rw [e3]; exact hna, by omega, ?_, by omega, ?_⟩
      · show q.length2.toNat = lastColon 0 0 (Grammar.sub c.xmlDoc s2.lastOffset.toNat _)
        rw [e3]; omega
      · show shlOr s2.length2 11 s2.length1 = _
        rw [h, e1, e2]
  have hat3 : Atts c.xmlDoc s2.at_.attrNameSlice s2.at_.attrCount (seenAfter c.xmlDoc [] (recs ++ [attrRec s2])) := by
    rw [seenAfter_append]
    have ht : (attrRec s2).tok ≠ .startingTag ∧ ((attrRec s2).tok = .attrName ∨ (attrRec s2).tok = .attrNs) := by
      simp only [attrRec]; split <;> simp
    simp only [seenAfter, ht.1, ht.2, if_false, if_true, hname]
    exact hat2
  refine (attrNameEnd_post hb3).mono ?_
  rintro st p' ⟨rfl, r, ch, rfl, hb4, hr⟩
  simp only at hr
  refine ⟨es, stk, recs ++ [attrRec s2], rfl, ?_⟩
  refine ⟨⟨hb4, h3.slots hs2, fun _ => ?_, fun _ => ?_, by simp, by simp, by simp⟩, ?_, ?_, fun _ => rfl, by simp, by simp, by simp, by simp,
    fun _ => ⟨⟨o, len, stk', hstk, hlast⟩, ?_⟩, by simp⟩
  · show s3'.depth ≤ 254
    rw [h3.depth]; omega
  · show 0 ≤ s3'.depth
    rw [h3.depth]; omega
  · simp only [reduceCtorEq, if_false]
    show K c o0 (Parser.emit c.shallowDepth s2.out [attrRec s2]) s3'.tagStack 0 s3'.depth r es stk _
    rw [h3.tagStack, e6, h3.depth, e4]
    exact hk2.bound (by omega)
  · subst hstk; simp [Ev.after]
  · show Atts c.xmlDoc s3'.at_.attrNameSlice s3'.at_.attrCount _
    rw [h3.names, h3.count]
    exact hat3

theorem attrName_good (h : G c o0 .attrName p es stk recs) : Post (processAttrName p) (Good c o0 (closes es)) := by
  have hs := h.inv.slots
  have h0 := h.inv.start (by simp)
  obtain ⟨hn0, hn1, hn2⟩ := h.inv.name (by simp)
  have hsy := h.inv.sync (by simp)
  have hcur := h.inv.cur rfl
  have hd := h.inv.deep (by decide)
  obtain ⟨⟨o, len, stk', hstk, hlast⟩, hat⟩ := h.attr (by simp)
  have hk := h.k
  simp only [reduceCtorEq, if_false] at hk
  have hlen2 := hk.len2
  rw [hlen2] at hk
  obtain ⟨hl1, y, hy, hys, hyc⟩ := h.attrS rfl
  refine Post.bind (attrNsTest_post h.inv.base hsy hl1 hn0 (by omega) hy hyc) ?_
  rintro _ p' ⟨a, b, ch, u, y', rfl, hb, hu, hu0, hud, hy', hsh, hc⟩
  refine Post.get (Post.bind (attrNameLoop_post (q := p.lastOffset + u.length) hb rfl rfl (by omega)
    (by rw [← hy']; congr 1; omega) hsh hc) ?_)
  rintro _ p' ⟨l2, r2, ch2, x, run, rfl, hb2, hl2, he, hx, hnx, hrun, hdrop, hlc⟩
  rw [M.bind_apply, getPrevOffset_eq hb2, Res.andThen_ok]
  refine Post.modify ?_
  have he1 := hb.end1
  have hlc := hlc u.length 0 (by simpa using hlen2) rfl
  obtain ⟨hxl, -⟩ := List.getElem?_eq_some_iff.mp hx
  have hall : c.xmlDoc.drop p.lastOffset.toNat = (u ++ run) ++ c.xmlDoc.drop r2.toNat := by
    rw [hud, List.append_assoc, ← hdrop]
    congr 2; omega
  have hfull : AllName (u ++ run) := by
    intro z hz
    rcases List.mem_append.mp hz with h | h
    · exact hu z h
    · exact hrun z h
  have hlen : (u ++ run).length = r2.toNat - p.lastOffset.toNat := by
    have := congrArg List.length hall
    simp only [List.length_append, List.length_drop] at this ⊢
    omega
  have hsub : Grammar.sub c.xmlDoc p.lastOffset.toNat (r2.toNat - p.lastOffset.toNat) = u ++ run := by
    rw [Grammar.sub, hall, ← hlen, List.take_left']
    rfl
  obtain ⟨hyl, hyd⟩ := List.getElem?_eq_some_iff.mp hy
  obtain ⟨rest, hrest⟩ : ∃ rest, u ++ run = y :: rest := by
    have h1 := hall
    rw [List.drop_eq_getElem_cons hyl, hyd] at h1
    cases hur : u ++ run with
    | nil =>
      rw [hur, List.nil_append] at h1
      rw [List.drop_eq_getElem_cons hxl] at h1
      obtain ⟨e, -⟩ := List.cons.inj h1
      obtain ⟨_, hxd⟩ := List.getElem?_eq_some_iff.mp hx
      rw [hxd] at e
      subst e
      exact absurd (Or.inl hys) hnx
    | cons z t =>
      rw [hur] at h1
      obtain ⟨rfl, -⟩ := List.cons.inj h1
      exact ⟨t, rfl⟩
  have hr2 : p.lastOffset.toNat + 1 ≤ r2.toNat := by
    rw [hrest, List.length_cons] at hlen; omega
  have hna : Grammar.NameAt c.xmlDoc p.lastOffset.toNat (r2.toNat - p.lastOffset.toNat) 0 := by
    refine nameAt_of (b := y) (run := rest) (x := x) hy hys (fun z hz => hfull z (by rw [hrest]; simp [hz])) ?_ hx hnx hr2
    have h1 := hall
    rw [hrest, List.drop_eq_getElem_cons hyl, hyd] at h1
    exact (List.cons.inj h1).2
  have e1 : (r2 + 1 - 1 - p.lastOffset).toNat = r2.toNat - p.lastOffset.toNat := by omega
  exact attrRest_good (es := es) (stk := stk) (recs := recs) (by exact hb2) (by exact { hs with }) (by exact h0) (by exact hd)
    (by exact hn0) (by show 0 ≤ r2 + 1 - 1 - p.lastOffset; omega) (by show 0 ≤ l2; omega)
    (by show p.lastOffset + (r2 + 1 - 1 - p.lastOffset) < _; omega) (by exact hk.bound (by simp; omega)) hstk hlast (by exact hat)
    (by show Grammar.NameAt _ _ (r2 + 1 - 1 - p.lastOffset).toNat 0; rw [e1]; exact hna)
    (by show l2 = lastColon 0 0 (Grammar.sub _ _ (r2 + 1 - 1 - p.lastOffset).toNat)
        rw [e1]
        show l2 = lastColon 0 0 (Grammar.sub c.xmlDoc p.lastOffset.toNat _)
        rw [hsub, lastColon_append, hu0, Nat.zero_add]; exact hlc)

theorem attrValEnd_good {o len : Nat} {b : Int} {x : UInt8}
    (hk : K c o0 p.out p.tagStack p.length2 p.depth b es ((o, len) :: stk) recs)
    (hlast : es.getLast? = some (.start o len stk.length)) (hb0 : Base c p)
    (hs : SlotsCore c p.tagStack p.at_ p.depth) (hd : p.depth ≤ 254) (hbd : b ≤ p.rd.offset)
    (hx : p.currentChar = x.toNat) (hx1 : 1 ≤ p.rd.offset) (hxd : c.xmlDoc[(p.rd.offset - 1).toNat]? = some x) :
    Post (attrValEnd p) (Good c o0 (closes es)) := by
  have hdep := hk.depth
  simp only [List.length_cons] at hdep
  have hes : es ≠ [] := by rintro rfl; cases hlast
  have ho0 := hb0.off0
  have ho1 := hb0.off1
  have tail : ∀ {p : Parser} {es stk recs} {b : Int} {cl : List Nat}, closes es = cl → K c o0 p.out p.tagStack p.length2 p.depth b es stk recs → Base c p →
      SlotsCore c p.tagStack p.at_ p.depth → p.depth ≤ 254 → b ≤ p.rd.offset → es ≠ [] → Post ((do
        attrValQualify
        M.modify fun p => { p with at_ := { p.at_ with attrCount := 0 } }
        processElementTail : M Parser PState) p) (Good c o0 cl) := by
    intro p es stk recs b cl hcl hk hb hs hd hbd hes
    refine Post.bind (nf_post attrValQualify_nf) fun _ q hf => Post.modify ?_
    have := hf.rd hb
    refine Post.cl hcl (elementTail_good (b := b) (stk := stk) (recs := recs) ?_ (by exact hf.base hb)
      (by exact { hf.slots hs with cnt0 := by simp, cnt1 := by simp }) (by show q.depth ≤ 254; rw [hf.depth]; exact hd)
      (by show b ≤ q.rd.offset; omega) hes)
    show K c o0 q.out q.tagStack q.length2 q.depth b es stk recs
    rw [hf.out, hf.tagStack, hf.length2, hf.depth]
    exact hk
  refine Post.modify (Post.get (Post.ite (fun hsl => ?_) fun _ => ?_))
  · simp only [hx] at hsl
    have hsl : x = 0x2F := toNat_eq_char hsl
    refine Post.modify (Post.bind (nextChar_byte (c := c) (by exact hb0)) ?_)
    rintro _ p' ⟨y, hp, hb', hlt, hy⟩
    subst hp
    simp only at hlt hy
    refine Post.get (Post.ite (fun hgt => ?_) fun _ => post_err _)
    simp only [mv_cur] at hgt
    have hgt : y = 0x3E := toNat_eq_char hgt
    subst hgt hsl
    have htags : Tags c.xmlDoc (es ++ [.empty p.rd.offset.toNat]) stk := by
      refine .empty hk.tags hlast (fun e he => ?_) ?_ hy
      · have := hk.pos e he; omega
      · rw [← hxd]; congr 1; omega
    have hk2 : K c o0 p.out p.tagStack p.length2 (p.depth - 1) (p.rd.offset + 1) (es ++ [.empty p.rd.offset.toNat]) stk recs :=
      hk.pop rfl rfl (by simp [Mark.pos]; omega) (by omega) htags
    have hd2 := hk2.depth
    exact (tail (es := es ++ [.empty p.rd.offset.toNat]) (stk := stk) (recs := recs) (b := p.rd.offset + 1) (closes_empty _ _) (by exact hk2) (by exact hb')
      (by exact { hs with dep0 := by simp; omega, dep1 := by simp; omega })
      (by simp; omega) (by simp) (by simp))
  · refine Post.get (Post.ite (fun _ => ?_) fun _ => post_err _)
    exact tail (b := b) rfl (by exact hk) (by exact hb0) (by exact hs) (by exact hd) (by exact hbd) hes

theorem attrVal_good (h : G c o0 .attrVal p es stk recs) : Post (processAttrVal p) (Good c o0 (closes es)) := by
  have hs := h.inv.slots
  have h0 := h.inv.start (by simp)
  have hd := h.inv.deep (by decide)
  obtain ⟨⟨o, len, stk', hstk, hlast⟩, hat⟩ := h.attr (by simp)
  subst hstk
  have hk := h.k
  simp only [reduceCtorEq, if_false] at hk
  refine Post.get (Post.bind (sat_post (attrValLoop_ok _ h.inv.base (Enough.loopFuel h.inv.base h.inv.base.cfg))) ?_)
  rintro _ p' ⟨r, ch, rfl, hb, hl⟩
  refine Post.modify (Post.bind (nf_post attrValNs_nf) fun _ q hq => ?_)
  have hqb : Base c q := hq.base (by exact hb)
  have hqr : r ≤ q.rd.offset := hq.rd (c := c) (by exact hb)
  refine Post.bind (wrote_post (writeVtdWithLengthCheck_ok hqb _ _) (writeCheck_qf (by decide) _) hqb) ?_
  rintro _ p' ⟨xs, hxs, rfl, hb2⟩
  refine Post.modify ?_
  have hk2 : K c o0 (Parser.emit c.shallowDepth q.out xs) q.tagStack q.length2 q.depth q.rd.offset es ((o, len) :: stk') (recs ++ xs) := by
    rw [hq.out, hq.tagStack, hq.length2, hq.depth]
    exact (hk.write hxs).bound (by omega)
  have hqs : SlotsCore c q.tagStack q.at_ q.depth := hq.slots (by exact hs)
  have hqd : q.depth = p.depth := hq.depth
  have hat2 : Atts c.xmlDoc q.at_.attrNameSlice q.at_.attrCount (seenAfter c.xmlDoc [] (recs ++ xs)) := by
    rw [seenAfter_append, seenAfter_quiet hxs, hq.names, hq.count]
    exact hat
  have ho1 := hqb.off1
  have ho0 := hqb.off0
  have hinc : q.enc.increment = 1 := hqb.inc
  refine Post.bind (nextChar_byte (c := c) (by exact hb2)) ?_
  rintro _ p' ⟨x, rfl, hb3, hlt, hx⟩
  simp only at hlt hx
  refine Post.get (Post.ite (fun _ => ?_) fun _ => ?_)
  · refine Post.bind (nextCharAfterWs_byte (c := c) hb3) ?_
    rintro _ p' ⟨r2, y, w, rfl, hb4, hr2, hr2e, hy, -⟩
    simp only [mv_rdOffset] at hr2
    refine Post.get (Post.ite (fun hnm => Post.modify ?_) fun _ => ?_)
    · exact ⟨es, _, _, rfl, G.attrName (r := r2) (by exact hb4) (by exact { hqs with }) (by show q.depth ≤ 254; omega) (by show 0 ≤ q.depth; omega)
        rfl rfl (by omega) hr2e (by show r2 + 1 - q.enc.increment = r2; omega) hnm hy rfl (hk2.bound (by simp; omega)) ⟨_, _, _, rfl, hlast⟩ (by exact hat2)⟩
    · exact attrValEnd_good (x := y) (b := q.rd.offset) (by exact hk2) hlast hb4 (by exact { hqs with }) (by show q.depth ≤ 254; omega)
        (by simp; omega) rfl (by simp; omega) (by rw [← hy]; simp)
  · exact attrValEnd_good (x := x) (b := q.rd.offset) (by exact hk2) hlast hb3 (by exact { hqs with }) (by show q.depth ≤ 254; omega)
        (by simp; omega) rfl (by simp; omega) (by rw [← hx]; simp)

end Ev
end Parser
end GoVtd
