import Verif.Proofs.Parser.DeclWp

/-!
# Accepting runs from the start of the document
-/

namespace GoVtd
namespace Parser

open Grammar

section
variable {c : ParserCfg} {p : Parser} {o : ParserOut} {r : List UInt8}

/-- A whole document with the output `o` that the parser has at its end. -/
def DocGoal (c : ParserCfg) (r : List UInt8) (o0 o : ParserOut) : Prop :=
  ∃ recs, Doc c.xmlDoc.length r recs ∧ o = finish c.shallowDepth (emit c.shallowDepth o0 recs)

theorem not_acc_invalid : ¬ Acc .invalid p o := by
  rw [acc_step (by decide)]
  simp [step]

theorem S.acc_decl {y : UInt8} {o0 : ParserOut} (hns : c.nsAware = false) (h : S c p y r (pos c r) o0) :
    Acc .decAttrName p o ↔ ∃ recs r1 recs1 w r2, Version c.xmlDoc.length (y :: r) recs r1 ∧
      DeclRest c.xmlDoc.length r1 recs1 (str% "?>" ++ w ++ ch% '<' :: r2) ∧ AllWs w ∧
      Goal c (.lt [] []) r2 (Parser.emit c.shallowDepth (Parser.emit c.shallowDepth o0 recs) recs1) o := by
  rw [acc_step (by decide)]
  refine h.declName (Q := fun r o' => Goal c (.lt [] []) r o' o) fun q s lo o' h => ?_
  rw [acc_lt hns (pre := []) h.rd h.off h.rd.suf h.ctx, h.out]

theorem ws_cur {b : UInt8} : (b.toNat = ch% ' ' ∨ b.toNat = ch% '\t' ∨ b.toNat = ch% '\n' ∨ b.toNat = ch% '\r') ↔ Ws b := by
  have : ∀ n < 256, Spec.S n ↔ n = 32 ∨ n = 9 ∨ n = 10 ∨ n = 13 := by
    intro n _
    simp only [Spec.S]; omega
  exact (this _ b.toNat_lt).symm

/-- The state of the parser when it goes back to the offset after `<`. -/
theorem acc_back (hns : c.nsAware = false) {pre : List UInt8} (h : Rd c p r) (hlo : p.lastOffset = pos c (pre ++ r))
    (hpre : pre ++ r <:+ c.xmlDoc) (hc : Ctx c p [] []) :
    Acc .ltSeen { p with offset := p.lastOffset } o ↔ Goal c (.lt pre []) r p.out o := by
  refine acc_lt (p := { p with offset := p.lastOffset }) hns ?_ hlo hpre hc
  have h1 := suffix_pos hpre
  have h2 := pos_append (c := c) (w := pre) (r := r)
  exact { h with base := { h.base with
    off0 := by show 0 ≤ p.lastOffset; omega
    off1 := by have := h.off; show p.lastOffset ≤ p.rd.offset; omega } }

/-- The parser after white space in the declaration. -/
theorem acc_mark (hns : c.nsAware = false) {y : UInt8} (h : Rd c p r) (hy : p.currentChar = y.toNat)
    (ho : p.offset = pos c r) (hc : Ctx c p [] []) :
    Acc .decAttrName { p with lastOffset := p.offset } o ↔ ∃ recs r1 recs1 w r2, Version c.xmlDoc.length (y :: r) recs r1 ∧
      DeclRest c.xmlDoc.length r1 recs1 (str% "?>" ++ w ++ ch% '<' :: r2) ∧ AllWs w ∧
      Goal c (.lt [] []) r2 (Parser.emit c.shallowDepth (Parser.emit c.shallowDepth p.out recs) recs1) o :=
  S.acc_decl hns ⟨Rd.of_eq h rfl rfl rfl rfl rfl rfl, hy, ho, hc, ho, rfl⟩

/-- What is accepted after `<?xml` as the rest of a declaration. -/
def DeclGoal (c : ParserCfg) (r : List UInt8) (o0 o : ParserOut) : Prop :=
  ∃ b s, r = b :: s ∧ Ws b ∧ ∃ w r', s = w ++ r' ∧ AllWs w ∧ ∃ recs r1 recs1 w' r2,
    Version c.xmlDoc.length r' recs r1 ∧
    DeclRest c.xmlDoc.length r1 recs1 (str% "?>" ++ w' ++ ch% '<' :: r2) ∧ AllWs w' ∧
    Goal c (.lt [] []) r2 (Parser.emit c.shallowDepth (Parser.emit c.shallowDepth o0 recs) recs1) o

theorem version_head {n : Nat} {x recs r1} (h : Version n x recs r1) : ∃ y s, x = y :: s ∧ ¬ Ws y := by
  obtain ⟨w, w', q, d, rfl, _⟩ := version_iff.1 h
  exact ⟨_, _, rfl, by simp [Spec.S]⟩

/-- `processDocStart` after `<?xml`. -/
theorem acc_afterXml (hns : c.nsAware = false) {x m l : UInt8} (h : Rd c p r)
    (hlo : p.lastOffset = pos c (ch% '?' :: x :: m :: l :: r))
    (hpre : ch% '?' :: x :: m :: l :: r <:+ c.xmlDoc) (hc : Ctx c p [] [])
    (hx : x = ch% 'x' ∨ x = ch% 'X') (hm : m = ch% 'm' ∨ m = ch% 'M') (hl : l = ch% 'l' ∨ l = ch% 'L') :
    Leads ((do
      let sp ← (skipChar (ch% ' ') ||! skipChar (ch% '\t') ||! skipChar (ch% '\n') ||!
        skipChar (ch% '\r'))
      if sp then do
        nextCharAfterWs
        markOffset
        pure .decAttrName
      else do
        let q ← skipChar (ch% '?')
        if q then parseErr "premature ending"
        else do
          M.modify fun p => { p with offset := p.lastOffset }
          pure .ltSeen : M Parser PState) p) (fun s q => Acc s q o) ↔
      DeclGoal c r p.out o ∨ (NoDecl [ch% '?', x, m, l] r ∧ Goal c (.lt [ch% '?', x, m, l] []) r p.out o) := by
  rw [leads_bind, leads_skipWs h]
  constructor
  · rintro ⟨b, s, rfl, ⟨hb, hk⟩ | ⟨hb, hk⟩⟩
    · refine Or.inl ⟨b, s, rfl, hb, ?_⟩
      rw [leads_if_pos rfl, leads_bind] at hk
      have h1 := h.tail p.currentChar
      rw [leads_nextWs h1] at hk
      obtain ⟨w, y, s', rfl, hw, hy, hk⟩ := hk
      have h2 := h1.go (suffix_app rfl) y.toNat
      rw [leads_bind] at hk
      simp only [markOffset, M.modify_apply, leads_ok, M.pure_apply] at hk
      refine ⟨w, y :: s', rfl, hw, ?_⟩
      exact (acc_mark (p := go c (go c p (w ++ y :: s') p.currentChar) s' y.toNat) hns h2 rfl rfl hc).1 hk
    · rw [leads_if_neg (by simp), leads_bind] at hk
      have h1 := h.go (List.suffix_refl _) p.currentChar
      rw [leads_skipChar h1 (ch% '?')] at hk
      obtain ⟨b', s', hr, ⟨_, hk⟩ | ⟨hq, hk⟩⟩ := hk
      · rw [leads_if_pos rfl] at hk; simp at hk
      · cases hr
        rw [leads_if_neg (by simp), leads_bind] at hk
        simp only [M.modify_apply, leads_ok, M.pure_apply] at hk
        refine Or.inr ⟨.l hx hm hl hb hq, ?_⟩
        exact (acc_back (p := go c (go c p (b :: s) p.currentChar) (b :: s) p.currentChar)
          (pre := [ch% '?', x, m, l]) hns (h1.go (List.suffix_refl _) _) hlo hpre hc).1 hk
  · rintro (⟨b, s, rfl, hb, w, r', rfl, hw, recs, r1, recs1, w', r2, h1, h2, h3, h4⟩ | ⟨h1, h2⟩)
    · refine ⟨b, _, rfl, Or.inl ⟨hb, ?_⟩⟩
      rw [leads_if_pos rfl, leads_bind]
      have h5 := h.tail p.currentChar
      rw [leads_nextWs h5]
      obtain ⟨y, s', rfl, hy⟩ := version_head h1
      refine ⟨w, y, s', rfl, hw, hy, ?_⟩
      have h6 := h5.go (suffix_app rfl) y.toNat
      rw [leads_bind]
      simp only [markOffset, M.modify_apply, leads_ok, M.pure_apply]
      exact (acc_mark (p := go c (go c p (w ++ y :: s') p.currentChar) s' y.toNat) hns h6 rfl rfl hc).2
        ⟨recs, r1, recs1, w', r2, h1, h2, h3, h4⟩
    · cases h1 with
      | @l _ _ _ b s _ _ _ hb hq =>
      refine ⟨b, s, rfl, Or.inr ⟨hb, ?_⟩⟩
      rw [leads_if_neg (by simp), leads_bind]
      have h1 := h.go (List.suffix_refl _) p.currentChar
      rw [leads_skipChar h1 (ch% '?')]
      refine ⟨b, s, rfl, Or.inr ⟨hq, ?_⟩⟩
      rw [leads_if_neg (by simp), leads_bind]
      simp only [M.modify_apply, leads_ok, M.pure_apply]
      exact (acc_back (p := go c (go c p (b :: s) p.currentChar) (b :: s) p.currentChar)
          (pre := [ch% '?', x, m, l]) hns (h1.go (List.suffix_refl _) _) hlo hpre hc).2 h2

/-- `processDocStart` after `<`. -/
theorem acc_afterLt (hns : c.nsAware = false) (h : Rd c p r) (hlo : p.lastOffset = pos c r) (hc : Ctx c p [] []) :
    Leads ((do
    let xml ← (skipChar (ch% '?') &&! (skipChar (ch% 'x') ||! skipChar (ch% 'X')) &&!
      (skipChar (ch% 'm') ||! skipChar (ch% 'M')) &&! (skipChar (ch% 'l') ||! skipChar (ch% 'L')))
    if xml then do
      let sp ← (skipChar (ch% ' ') ||! skipChar (ch% '\t') ||! skipChar (ch% '\n') ||!
        skipChar (ch% '\r'))
      if sp then do
        nextCharAfterWs
        markOffset
        pure .decAttrName
      else do
        let q ← skipChar (ch% '?')
        if q then parseErr "premature ending"
        else do
          M.modify fun p => { p with offset := p.lastOffset }
          pure .ltSeen
    else do
      M.modify fun p => { p with offset := p.lastOffset }
      pure .ltSeen : M Parser PState) p) (fun s q => Acc s q o) ↔
    (∃ x m l s, r = ch% '?' :: x :: m :: l :: s ∧ XmlPrefix [x, m, l] ∧ DeclGoal c s p.out o) ∨
      ∃ pre s, r = pre ++ s ∧ NoDecl pre s ∧ Goal c (.lt pre []) s p.out o := by
  rw [leads_bind, leads_xmlDecl h]
  have back : ∀ pre s, r = pre ++ s → (Leads (((do
      M.modify fun p => { p with offset := p.lastOffset }
      pure .ltSeen) : M Parser PState) (go c p s p.currentChar)) (fun s q => Acc s q o) ↔ Goal c (.lt pre []) s p.out o) := by
    intro pre s hr
    rw [leads_bind]
    simp only [M.modify_apply, leads_ok, M.pure_apply]
    exact acc_back (p := go c p s p.currentChar) (pre := pre) hns (h.go ⟨pre, hr.symm⟩ _) (by rw [← hr]; exact hlo)
      (by rw [← hr]; exact h.suf) hc
  have pfx : ∀ {x m l : UInt8}, (x = ch% 'x' ∨ x = ch% 'X') → (m = ch% 'm' ∨ m = ch% 'M') →
    (l = ch% 'l' ∨ l = ch% 'L') → XmlPrefix [x, m, l] := fun h1 h2 h3 => ⟨_, _, _, [], rfl, h1, h2, h3⟩
  constructor
  · rintro ⟨q, r1, rfl, ⟨rfl, x, r2, rfl, ⟨hx, m, r3, rfl, ⟨hm, l, r4, rfl, ⟨hl, hk⟩ | ⟨h1, h2, hk⟩⟩ | ⟨h1, h2, hk⟩⟩ |
      ⟨h1, h2, hk⟩⟩ | ⟨h1, hk⟩⟩
    · rw [leads_if_pos rfl] at hk
      rcases (acc_afterXml (p := go c p r4 p.currentChar) hns (h.go ⟨[ch% '?', x, m, l], rfl⟩ _) hlo h.suf hc hx hm hl).1
        hk with h1 | ⟨h1, h2⟩
      · exact Or.inl ⟨x, m, l, r4, rfl, pfx hx hm hl, h1⟩
      · exact Or.inr ⟨_, r4, rfl, h1, h2⟩
    · rw [leads_if_neg (by simp)] at hk
      exact Or.inr ⟨_, _, rfl, .m hx hm h1 h2, (back [ch% '?', x, m] _ rfl).1 hk⟩
    · rw [leads_if_neg (by simp)] at hk
      exact Or.inr ⟨_, _, rfl, .x hx h1 h2, (back [ch% '?', x] _ rfl).1 hk⟩
    · rw [leads_if_neg (by simp)] at hk
      exact Or.inr ⟨_, _, rfl, .q h1 h2, (back [ch% '?'] _ rfl).1 hk⟩
    · rw [leads_if_neg (by simp)] at hk
      exact Or.inr ⟨[], _, rfl, .none h1, (back [] _ rfl).1 hk⟩
  · rintro (⟨x, m, l, s, rfl, ⟨_, _, _, _, he, hx, hm, hl⟩, hk⟩ | ⟨pre, s, rfl, h1, hk⟩)
    · cases he
      refine ⟨_, _, rfl, Or.inl ⟨rfl, x, _, rfl, Or.inl ⟨hx, m, _, rfl, Or.inl ⟨hm, l, _, rfl, Or.inl ⟨hl, ?_⟩⟩⟩⟩⟩
      rw [leads_if_pos rfl]
      exact (acc_afterXml (p := go c p s p.currentChar) hns (h.go ⟨[ch% '?', x, m, l], rfl⟩ _) hlo h.suf hc hx hm hl).2
        (Or.inl hk)
    · have h0 := h1
      cases h1 with
      | none h1 =>
        refine ⟨_, _, rfl, Or.inr ⟨h1, ?_⟩⟩
        rw [leads_if_neg (by simp)]
        exact (back [] _ rfl).2 hk
      | q h1 h2 =>
        refine ⟨_, _, rfl, Or.inl ⟨rfl, _, _, rfl, Or.inr ⟨h1, h2, ?_⟩⟩⟩
        rw [leads_if_neg (by simp)]
        exact (back _ _ rfl).2 hk
      | x hx h1 h2 =>
        refine ⟨_, _, rfl, Or.inl ⟨rfl, _, _, rfl, Or.inl ⟨hx, _, _, rfl, Or.inr ⟨h1, h2, ?_⟩⟩⟩⟩
        rw [leads_if_neg (by simp)]
        exact (back _ _ rfl).2 hk
      | m hx hm h1 h2 =>
        refine ⟨_, _, rfl, Or.inl ⟨rfl, _, _, rfl, Or.inl ⟨hx, _, _, rfl, Or.inl ⟨hm, _, _, rfl, Or.inr ⟨h1, h2, ?_⟩⟩⟩⟩⟩
        rw [leads_if_neg (by simp)]
        exact (back _ _ rfl).2 hk
      | l hx hm hl h1 h2 =>
        rename_i x m l b s
        refine ⟨_, _, rfl, Or.inl ⟨rfl, x, _, rfl, Or.inl ⟨hx, m, _, rfl, Or.inl ⟨hm, l, _, rfl, Or.inl ⟨hl, ?_⟩⟩⟩⟩⟩
        rw [leads_if_pos rfl]
        exact (acc_afterXml (p := go c p (b :: s) p.currentChar) hns (h.go ⟨[ch% '?', x, m, l], rfl⟩ _) hlo h.suf hc hx
          hm hl).2 (Or.inr ⟨h0, hk⟩)

theorem leads_catchWs {K : Bool → Parser → Prop} (hK : ∀ q, ¬ K false q) :
    Leads (M.catchErr (do nextCharAfterWs; pure true) (fun _ => pure false) p) K ↔
      Leads (nextCharAfterWs p) (fun _ q => K true q) := by
  rw [M.catchErr_apply, M.bind_apply]
  cases nextCharAfterWs p with
  | ok a s => simp
  | err e s => simp [hK]
  | panic => simp
  | diverge => simp

theorem acc_space (hns : c.nsAware = false) (h : Rd c p r) (hc : Ctx c p [] []) :
    Leads ((do
      let ok ← M.catchErr (do nextCharAfterWs; pure true) (fun _ => pure false)
      let p ← M.get
      if ok ∧ p.currentChar = ch% '<' then pure .ltSeen else pure .invalid : M Parser PState) p) (fun s q => Acc s q o) ↔
      ∃ w s, r = w ++ ch% '<' :: s ∧ AllWs w ∧ Goal c (.lt [] []) s p.out o := by
  rw [leads_bind, leads_catchWs, leads_nextWs h]
  rotate_left
  · intro q hq
    rw [leads_get, leads_if_neg (by simp), M.pure_apply, leads_ok] at hq
    exact not_acc_invalid hq
  constructor
  · rintro ⟨w, b, s, rfl, hw, hb, hk⟩
    have h1 := h.go (suffix_app rfl) b.toNat
    rw [leads_get] at hk
    by_cases hb' : b = ch% '<'
    · subst hb'
      rw [leads_if_pos (by exact ⟨rfl, rfl⟩), M.pure_apply, leads_ok] at hk
      exact ⟨w, s, rfl, hw, (acc_lt hns (pre := []) h1 rfl h1.suf hc).1 hk⟩
    · rw [leads_if_neg (by exact fun h => (ne_nat (ch% '<') hb') h.2), M.pure_apply, leads_ok] at hk
      exact absurd hk not_acc_invalid
  · rintro ⟨w, s, rfl, hw, hk⟩
    refine ⟨w, _, s, rfl, hw, by simp [Spec.S], ?_⟩
    have h1 := h.go (suffix_app (r := w ++ ch% '<' :: s) rfl) (ch% '<')
    rw [leads_get, leads_if_pos (by exact ⟨rfl, rfl⟩), M.pure_apply, leads_ok]
    exact (acc_lt hns (pre := []) h1 rfl h1.suf hc).2 hk

/-- From the start of the document on, the main loop accepts exactly the grammar. -/
theorem acc_docStart (hns : c.nsAware = false) (h : Rd c p r) (hc : Ctx c p [] []) :
    Acc .docStart p o ↔ DocGoal c r p.out o := by
  rw [acc_step (by decide)]
  simp only [step, processDocStart]
  rw [leads_bind, leads_nextChar h]
  constructor
  · rintro ⟨b, s, rfl, hk⟩
    have h1 := h.tail b.toNat
    rw [leads_get] at hk
    by_cases hb : b = ch% '<'
    · subst hb
      rw [leads_if_pos (by rfl), leads_bind] at hk
      simp only [markOffset, M.modify_apply, leads_ok] at hk
      have h2 : Rd c { go c p s (ch% '<') with lastOffset := pos c s } s := Rd.of_eq h1 rfl rfl rfl rfl rfl rfl
      rcases (acc_afterLt (p := { go c p s (ch% '<') with lastOffset := pos c s }) hns h2 rfl hc).1 hk with
        ⟨x, m, l, _, rfl, hx, b, _, rfl, hb, w, r', rfl, hw, recs, r1, recs1, w', r2, h3, h4, h5, recs2, h6, h7⟩ |
        ⟨pre, s, rfl, h3, recs, h4, h5⟩
      · exact ⟨_, .decl hx hb hw h3 h4 h5 h6, by rw [h7]; simp only [emit_append]; rfl⟩
      · exact ⟨recs, .plain h3 h4, h5⟩
    · rw [leads_if_neg (by exact ne_nat (ch% '<') hb)] at hk
      by_cases hw : Ws b
      · rw [leads_if_pos (by exact ws_cur.2 hw), leads_bind] at hk
        obtain ⟨w, s', rfl, hw', recs, h2, h3⟩ := (acc_space (p := go c p s b.toNat) hns h1 hc).1 (leads_bind.2 hk)
        refine ⟨recs, .space (w := b :: w) (by simp) ?_ h2, h3⟩
        intro a ha
        rcases List.mem_cons.1 ha with rfl | ha
        · exact hw
        · exact hw' a ha
      · rw [leads_if_neg (by exact mt ws_cur.1 hw), M.pure_apply, leads_ok] at hk
        exact absurd hk not_acc_invalid
  · rintro ⟨recs, hd, rfl⟩
    have lt : ∀ s, r = ch% '<' :: s →
        ((∃ x m l s', s = ch% '?' :: x :: m :: l :: s' ∧ XmlPrefix [x, m, l] ∧
          DeclGoal c s' p.out (finish c.shallowDepth (emit c.shallowDepth p.out recs))) ∨
        ∃ pre s', s = pre ++ s' ∧ NoDecl pre s' ∧
          Goal c (.lt pre []) s' p.out (finish c.shallowDepth (emit c.shallowDepth p.out recs))) →
        ∃ b r', r = b :: r' ∧ Leads ((do
          let p ← M.get
          if p.currentChar = ch% '<' then do
            markOffset
            let xml ← (skipChar (ch% '?') &&! (skipChar (ch% 'x') ||! skipChar (ch% 'X')) &&!
              (skipChar (ch% 'm') ||! skipChar (ch% 'M')) &&! (skipChar (ch% 'l') ||! skipChar (ch% 'L')))
            if xml then do
              let sp ← (skipChar (ch% ' ') ||! skipChar (ch% '\t') ||! skipChar (ch% '\n') ||!
                skipChar (ch% '\r'))
              if sp then do
                nextCharAfterWs
                markOffset
                pure .decAttrName
              else do
                let q ← skipChar (ch% '?')
                if q then parseErr "premature ending"
                else do
                  M.modify fun p => { p with offset := p.lastOffset }
                  pure .ltSeen
            else do
              M.modify fun p => { p with offset := p.lastOffset }
              pure .ltSeen
          else if p.currentChar = ch% ' ' ∨ p.currentChar = ch% '\t' ∨ p.currentChar = ch% '\n' ∨
              p.currentChar = ch% '\r' then do
            let ok ← M.catchErr (do nextCharAfterWs; pure true) (fun _ => pure false)
            let p ← M.get
            if ok ∧ p.currentChar = ch% '<' then pure .ltSeen else pure .invalid
          else pure .invalid : M Parser PState) (go c p r' b.toNat))
          (fun s q => Acc s q (finish c.shallowDepth (emit c.shallowDepth p.out recs))) := by
      intro s hr hg
      subst hr
      have h1 := h.tail (ch% '<')
      have h2 : Rd c { go c p s (ch% '<') with lastOffset := pos c s } s := Rd.of_eq h1 rfl rfl rfl rfl rfl rfl
      refine ⟨_, s, rfl, ?_⟩
      rw [leads_get, leads_if_pos (by rfl), leads_bind]
      simp only [markOffset, M.modify_apply, leads_ok]
      exact (acc_afterLt (p := { go c p s (ch% '<') with lastOffset := pos c s }) hns h2 rfl hc).2 hg
    cases hd with
    | decl hx hb hw h3 h4 h5 h6 =>
      refine lt _ rfl (Or.inl ⟨_, _, _, _, rfl, hx, _, _, rfl, hb, _, _, rfl, hw, _, _, _, _, _, h3, h4, h5, _, h6, ?_⟩)
      simp only [emit_append]
    | plain h1 h2 => exact lt _ rfl (Or.inr ⟨_, _, rfl, h1, _, h2, rfl⟩)
    | @space w s recs hw hw' h2 =>
      cases w with
      | nil => exact absurd rfl hw
      | cons b w =>
        refine ⟨b, _, rfl, ?_⟩
        have hb : Ws b := hw' b (by simp)
        have h1 := h.tail b.toNat
        rw [leads_get, leads_if_neg (by rintro hh; exact absurd hb (by
          have : b = ch% '<' := UInt8.toNat_inj.1 hh
          rw [this]; simp [Spec.S])), leads_if_pos (by exact ws_cur.2 hb)]
        exact (acc_space (p := go c p (w ++ ch% '<' :: s) b.toNat) hns h1 hc).2
          ⟨w, s, rfl, fun a ha => hw' a (List.mem_cons_of_mem _ ha), _, h2, rfl⟩

end
end Parser
end GoVtd
