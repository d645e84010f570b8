import Verif.Proofs.Parser.Accept

/-!
# Accepting runs of the XML declaration
-/

namespace GoVtd
namespace Parser

open Grammar

section
variable {c : ParserCfg} {p : Parser} {o : ParserOut} {r : List UInt8}

theorem quote_not_ws {q : UInt8} (h : Quote q) : ¬ Ws q := by
  rcases h with rfl | rfl <;> simp [Spec.S]

theorem leads_expectEq (h : Rd c p r) {K : Unit → Parser → Prop} :
    Leads (expectEq p) K ↔ ∃ w r', r = w ++ ch% '=' :: r' ∧ AllWs w ∧ K () (go c p r' (ch% '=')) := by
  simp only [expectEq, leads_bind]
  rw [leads_nextWs h]
  simp only [M.get_apply, leads_ok]
  constructor
  · rintro ⟨w, b, r', rfl, hw, hb, hk⟩
    by_cases hb' : b = ch% '='
    · subst hb'
      rw [leads_if_neg (by simp), M.pure_apply, leads_ok] at hk
      exact ⟨w, r', rfl, hw, hk⟩
    · rw [leads_if_pos (by exact ne_nat _ hb')] at hk
      simp at hk
  · rintro ⟨w, r', rfl, hw, hk⟩
    refine ⟨w, _, r', rfl, hw, by simp [Spec.S], ?_⟩
    rw [leads_if_neg (by simp), M.pure_apply, leads_ok]
    exact hk

theorem leads_expectQuote {q : UInt8} (hq : p.currentChar = q.toNat) {K : Unit → Parser → Prop} :
    Leads (expectQuote p) K ↔ Quote q ∧ K () p := by
  simp only [expectQuote, leads_bind, M.get_apply, leads_ok]
  by_cases h : Quote q
  · have : ¬ (p.currentChar ≠ ch% '\'' ∧ p.currentChar ≠ ch% '"') := by
      rw [hq]; rcases h with rfl | rfl <;> simp
    rw [leads_if_neg this, M.pure_apply, leads_ok]
    simp [h]
  · have : p.currentChar ≠ ch% '\'' ∧ p.currentChar ≠ ch% '"' := by
      rw [hq]
      exact ⟨ne_nat (ch% '\'') fun e => h (Or.inr e), ne_nat (ch% '"') fun e => h (Or.inl e)⟩
    rw [leads_if_pos this]
    simp [h]

theorem leads_wsQuote (h : Rd c p r) {K : Unit → Parser → Prop} :
    Leads (nextCharAfterWs p) (fun _ s => Leads (expectQuote s) K) ↔
      ∃ w q r', r = w ++ q :: r' ∧ AllWs w ∧ Quote q ∧ K () (go c p r' q.toNat) := by
  rw [leads_nextWs h]
  refine exists_congr fun w => exists_congr fun q => exists_congr fun r' => and_congr_right fun _ =>
    and_congr_right fun _ => ?_
  rw [leads_expectQuote (q := q) rfl]
  constructor
  · exact fun h => h.2
  · exact fun h => ⟨quote_not_ws h.1, h⟩

theorem leads_charQuote (h : Rd c p r) {K : Unit → Parser → Prop} :
    Leads (nextChar p) (fun _ s => Leads (expectQuote s) K) ↔
      ∃ q r', r = q :: r' ∧ Quote q ∧ K () (go c p r' q.toNat) := by
  rw [leads_nextChar h]
  refine exists_congr fun q => exists_congr fun r' => and_congr_right fun _ => ?_
  exact leads_expectQuote (q := q) rfl

/-! ## The name of the encoding -/

theorem leads_seqUpper {seq : List Nat} (s : List UInt8) (u0 : UInt8) (us : List UInt8)
    (hs : s.map UInt8.toNat = seq) (hu : (u0 :: us).map UInt8.toNat = seq.map toUpperChar) (h0 : u0 ∉ s)
    (h : Rd c p r) {K : Bool → Parser → Prop} (hK : ∀ q, ¬ K false q) :
    Leads (skipSeqOrUpper seq p) K ↔ ∃ t r', r = t ++ r' ∧
      (t = s ∨ ∃ k, k < s.length ∧ t = s.take k ++ u0 :: us) ∧ K true (go c p r' p.currentChar) := by
  rw [skipSeqOrUpper, leads_or, leads_skipCharSeq s hs h]
  simp only [if_true, Bool.false_eq_true, if_false]
  constructor
  · rintro (⟨r', rfl, hk⟩ | ⟨u, y, v, x, r', rfl, rfl, h3, hk⟩)
    · exact ⟨s, r', rfl, Or.inl rfl, hk⟩
    · have h1 := h.go (r' := x :: r') ⟨u, rfl⟩ p.currentChar
      rw [leads_skipCharSeq (u0 :: us) hu h1] at hk
      rcases hk with ⟨r2, h4, hk⟩ | ⟨_, _, _, _, _, _, _, _, hk⟩
      · refine ⟨u ++ u0 :: us, r2, by rw [h4]; simp, Or.inr ⟨u.length, by simp, by simp⟩, hk⟩
      · exact absurd hk (hK _)
  · rintro ⟨t, r', rfl, rfl | ⟨k, hk', rfl⟩, hk⟩
    · exact Or.inl ⟨r', rfl, hk⟩
    · refine Or.inr ⟨s.take k, s[k], s.drop (k + 1), u0, us ++ r', ?_, by simp, ?_, ?_⟩
      · rw [← List.drop_eq_getElem_cons hk', List.take_append_drop]
      · exact fun e => h0 (e ▸ List.getElem_mem hk')
      · have h1 := h.go (r' := u0 :: (us ++ r')) ⟨s.take k, by simp⟩ p.currentChar
        exact (leads_skipCharSeq (u0 :: us) hu h1).2 (Or.inl ⟨r', by simp, hk⟩)

theorem leads_icNil {K : Bool → Parser → Prop} : Leads (skipCharSeqIgnoreCase [] p) K ↔ K true p := by
  simp only [skipCharSeqIgnoreCase, M.pure_apply, leads_ok]

theorem leads_icCons {n : Nat} {seq : List Nat} (h : Rd c p r) (u v : UInt8) (hu : u.toNat = n)
    (hv : v.toNat = toUpperChar n) {K : Bool → Parser → Prop} (hK : ∀ q, ¬ K false q) :
    Leads (skipCharSeqIgnoreCase (n :: seq) p) K ↔ ∃ b r', r = b :: r' ∧ (b = u ∨ b = v) ∧
      Leads (skipCharSeqIgnoreCase seq (go c p r' p.currentChar)) K := by
  simp only [skipCharSeqIgnoreCase, leads_bind]
  rw [leads_skip2 h u v hu hv]
  refine exists_congr fun b => exists_congr fun r' => and_congr_right fun _ => ?_
  simp [hK]

theorem Rd.encoding (h : Rd c p r) : p.enc = stdEnc := h.base.enc

theorem skipChar_enc (n : Nat) : M.Keeps (·.enc) (skipChar n) :=
  M.Keeps.bind (by unfold onRd; refine M.Keeps.zoom ?_ _; exact fun _ _ => rfl) fun _ =>
    M.Keeps.bind (M.Keeps.modify fun _ => rfl) fun _ => M.Keeps.pure _

theorem skipCharSeq_enc (s : List Nat) : M.Keeps (·.enc) (skipCharSeq s) :=
  M.Keeps.bind (by unfold onRd; refine M.Keeps.zoom ?_ _; exact fun _ _ => rfl) fun _ =>
    M.Keeps.bind (M.Keeps.modify fun _ => rfl) fun _ => M.Keeps.pure _

theorem ignoreCase_enc (s : List Nat) : M.Keeps (·.enc) (skipCharSeqIgnoreCase s) := by
  induction s with
  | nil => exact M.Keeps.pure _
  | cons a s ih =>
    exact M.Keeps.bind (M.Keeps.or (skipChar_enc _) (skipChar_enc _)) fun _ => M.Keeps.ite ih (M.Keeps.pure _)

/-- The encodings that are always refused. -/
theorem not_fixed {m : M Parser Bool} (hm : M.Keeps (·.enc) m) (he : p.enc = stdEnc) {A : Parser → M Parser Unit}
    {e1 e2 : String} {K : Unit → Parser → Prop} : ¬ Leads ((do
      let s ← m
      if s then do
        let p ← M.get
        if encodingFixed p then parseErr e1 else A p
      else parseErr e2 : M Parser Unit) p) K := by
  rw [leads_bind]
  rintro ⟨s, q, hq, hk⟩
  have e : q.enc = p.enc := hm.ok hq
  cases s with
  | false => rw [leads_if_neg (by simp)] at hk; simp at hk
  | true =>
    rw [leads_if_pos (by rfl), leads_bind, M.get_apply, leads_ok,
      leads_if_pos (by simp only [encodingFixed, e, he]; decide)] at hk
    simp at hk

theorem not_ascii (he : p.enc = stdEnc) {K : Unit → Parser → Prop} : ¬ Leads (checkAsciiEncoding p) K :=
  not_fixed (M.Keeps.or (skipCharSeq_enc _) (skipCharSeq_enc _)) he

theorem not_usAscii (he : p.enc = stdEnc) {K : Unit → Parser → Prop} : ¬ Leads (checkUsAsciiEncoding p) K :=
  not_fixed (M.Keeps.or (skipCharSeq_enc _) (skipCharSeq_enc _)) he

theorem not_iso (he : p.enc = stdEnc) {K : Unit → Parser → Prop} : ¬ Leads (checkIsoEncoding p) K :=
  not_fixed (M.Keeps.or (skipCharSeq_enc _) (skipCharSeq_enc _)) he

/-- UTF-16 is refused. -/
theorem not_utf16 (he : p.enc = stdEnc) {K : Unit → Parser → Prop} : ¬ Leads ((do
      let sixteen ← skipCharSeqIgnoreCase (str% "16")
      if sixteen then do
        let le ← skipCharSeqIgnoreCase (str% "le")
        if le then do
          let p ← M.get
          if p.enc.encoding = FormatUtf16LE then
            writeVtd .decAttrVal (p.lastOffset / 2) 8 p.depth
          else parseErr "cannot switch document encoding to UTF-16LE"
        else do
          let be ← skipCharSeqIgnoreCase (str% "be")
          let p ← M.get
          if be then
            if p.enc.encoding = FormatUtf16BE then
              writeVtd .decAttrVal (p.lastOffset / 2) 8 p.depth
            else parseErr "cannot switch document encoding to UTF-16BE"
          else if !p.enc.singleByteEncoding then
            if !p.enc.bomDetected then parseErr "BOM not detected for UTF-16"
            else writeVtd .decAttrVal (p.lastOffset / 2) 6 p.depth
          else parseErr "cannot switch document encoding to UTF-16"
      else parseErr "invalid document encoding" : M Parser Unit) p) K := by
  rw [leads_bind]
  rintro ⟨s, q, hq, hk⟩
  have e : q.enc = stdEnc := ((ignoreCase_enc _).ok hq).trans he
  cases s with
  | false => rw [leads_if_neg (by simp)] at hk; simp at hk
  | true =>
    rw [leads_if_pos (by rfl), leads_bind] at hk
    obtain ⟨s, q', hq', hk⟩ := hk
    have e' : q'.enc = stdEnc := ((ignoreCase_enc _).ok hq').trans e
    cases s with
    | true =>
      rw [leads_if_pos (by rfl), leads_bind, M.get_apply, leads_ok, leads_if_neg (by rw [e']; decide)] at hk
      simp at hk
    | false =>
      rw [leads_if_neg (by simp), leads_bind] at hk
      obtain ⟨s, q'', hq'', hk⟩ := hk
      have e'' : q''.enc = stdEnc := ((ignoreCase_enc _).ok hq'').trans e'
      rw [leads_bind, M.get_apply, leads_ok] at hk
      cases s with
      | true =>
        rw [leads_if_pos (by rfl), leads_if_neg (by rw [e'']; decide)] at hk
        simp at hk
      | false =>
        rw [leads_if_neg (by simp), leads_if_neg (by rw [e'']; decide)] at hk
        simp at hk

theorem leads_writeVtd (hb : Base c p) (t : Token) (ht : t ≠ .startingTag) (o l d : Int) {K : Unit → Parser → Prop} :
    Leads (writeVtd t o l d p) K ↔ K () { p with out := emit c.shallowDepth p.out [⟨t, o, l, d⟩] } := by
  rw [writeVtd_emit hb.out c.shallowDepth _ _ _ _ ht, leads_ok]

theorem leads_utf (h : Rd c p r) {K : Unit → Parser → Prop} :
    Leads (checkUtfEncoding p) K ↔ ∃ t f r', (t = ch% 't' ∨ t = ch% 'T') ∧ (f = ch% 'f' ∨ f = ch% 'F') ∧
      r = [t, f, ch% '-', ch% '8'] ++ r' ∧ K () { go c p r' p.currentChar with
        out := emit c.shallowDepth p.out [⟨.decAttrVal, p.lastOffset, 5, p.depth⟩] } := by
  simp only [checkUtfEncoding, leads_bind]
  constructor
  · intro hk
    rw [leads_icCons h (ch% 't') (ch% 'T') (n := ch% 't') rfl rfl (by
      intro q hq; rw [leads_if_neg (by simp)] at hq; simp at hq)] at hk
    obtain ⟨t, s, rfl, ht, hk⟩ := hk
    have h2 : Rd c (go c p s p.currentChar) s := h.tail p.currentChar
    rw [leads_icCons (r := s) h2 (ch% 'f') (ch% 'F') (n := ch% 'f') rfl rfl (by
      intro q hq; rw [leads_if_neg (by simp)] at hq; simp at hq)] at hk
    obtain ⟨f, s, rfl, hf, hk⟩ := hk
    have h3 : Rd c (go c p s p.currentChar) s := h2.tail p.currentChar
    change Leads (skipCharSeqIgnoreCase [ch% '-'] (go c p s p.currentChar)) _ at hk
    rw [leads_icCons (r := s) h3 (ch% '-') (ch% '-') (n := ch% '-') rfl rfl (by
      intro q hq; rw [leads_if_neg (by simp)] at hq; simp at hq)] at hk
    obtain ⟨m, s, rfl, hm, hk⟩ := hk
    have hm' : m = ch% '-' := by rcases hm with e | e <;> exact e
    subst hm'
    have h4 : Rd c (go c p s p.currentChar) s := h3.tail p.currentChar
    change Leads (skipCharSeqIgnoreCase [] (go c p s p.currentChar)) _ at hk
    rw [leads_icNil, leads_if_pos (by rfl), leads_bind, leads_skipChar (r := s) h4 (ch% '8')] at hk
    obtain ⟨d, s, rfl, ⟨rfl, hk⟩ | ⟨_, hk⟩⟩ := hk
    · have h5 : Rd c (go c p s p.currentChar) s := h4.tail p.currentChar
      rw [leads_if_pos (by rfl), leads_bind, M.get_apply, leads_ok, leads_if_pos (by exact h5.single)] at hk
      change Leads (writeVtd .decAttrVal p.lastOffset 5 p.depth (go c p s p.currentChar)) _ at hk
      rw [writeVtd_emit h5.base.out c.shallowDepth _ _ _ _ (by decide), leads_ok] at hk
      exact ⟨t, f, s, ht, hf, rfl, hk⟩
    · rw [leads_if_neg (by simp)] at hk
      exact absurd hk (not_utf16 (by exact h.encoding))
  · rintro ⟨t, f, r', ht, hf, rfl, hk⟩
    refine (leads_icCons h (ch% 't') (ch% 'T') (n := ch% 't') rfl rfl (by
      intro q hq; rw [leads_if_neg (by simp)] at hq; simp at hq)).2 ⟨t, _, rfl, ht, ?_⟩
    have h2 := h.tail p.currentChar
    refine (leads_icCons h2 (ch% 'f') (ch% 'F') (n := ch% 'f') rfl rfl (by
      intro q hq; rw [leads_if_neg (by simp)] at hq; simp at hq)).2 ⟨f, _, rfl, hf, ?_⟩
    have h3 := h2.tail p.currentChar
    refine (leads_icCons h3 (ch% '-') (ch% '-') (n := ch% '-') rfl rfl (by
      intro q hq; rw [leads_if_neg (by simp)] at hq; simp at hq)).2 ⟨_, _, rfl, Or.inl rfl, ?_⟩
    have h4 := h3.tail p.currentChar
    rw [leads_icNil, leads_if_pos (by rfl), leads_bind]
    refine (leads_skipChar h4 (ch% '8')).2 ⟨_, _, rfl, Or.inl ⟨rfl, ?_⟩⟩
    have h5 := h4.tail p.currentChar
    rw [leads_if_pos (by rfl), leads_bind, M.get_apply, leads_ok, leads_if_pos (by exact h5.single)]
    exact (leads_writeVtd h5.base .decAttrVal (by decide) _ _ _).2 hk

theorem leads_win {seq : List Nat} {s : List UInt8} {u0 : UInt8} {us : List UInt8} {l : Int} {m1 m2 : String}
    (hs : s.map UInt8.toNat = seq) (hu : (u0 :: us).map UInt8.toNat = seq.map toUpperChar) (h0 : u0 ∉ s)
    (h : Rd c p r) {K : Unit → Parser → Prop} : Leads ((do
      let s ← skipSeqOrUpper seq
      if s then do
        let p ← M.get
        if p.enc.encoding > FormatUtf16LE ∨ p.enc.mustUtf8 then parseErr m1
        else do
          setWinEncoding
          writeVtd .decAttrVal p.lastOffset l p.depth
      else parseErr m2 : M Parser Unit) p) K ↔ ∃ t r', r = t ++ r' ∧
        (t = s ∨ ∃ k, k < s.length ∧ t = s.take k ++ u0 :: us) ∧ K () { go c p r' p.currentChar with
          out := emit c.shallowDepth p.out [⟨.decAttrVal, p.lastOffset, l, p.depth⟩] } := by
  rw [leads_bind, leads_seqUpper s u0 us hs hu h0 h]
  rotate_left
  · intro q hq; rw [leads_if_neg (by simp)] at hq; simp at hq
  refine exists_congr fun t => exists_congr fun r' => and_congr_right fun hr => and_congr_right fun _ => ?_
  have h3 := h.go (r' := r') ⟨t, hr.symm⟩ p.currentChar
  refine (leads_if_pos rfl).trans ?_
  rw [leads_bind, M.get_apply, leads_ok]
  refine (leads_if_neg (by rw [h3.encoding]; decide)).trans ?_
  rw [leads_bind, setWinEncoding, M.pure_apply, leads_ok,
    writeVtd_emit h3.base.out c.shallowDepth _ _ _ _ (by decide), leads_ok]
  exact Iff.rfl

theorem leads_encName (h : Rd c p r) {a : UInt8} (ha : p.currentChar = a.toNat) {K : Unit → Parser → Prop} :
    Leads (checkEncodingName p) K ↔ ∃ e l r', r = e ++ r' ∧ EncName (a :: e) l ∧
      K () { go c p r' p.currentChar with
        out := emit c.shallowDepth p.out [⟨.decAttrVal, p.lastOffset, l, p.depth⟩] } := by
  have two : ∀ u v : UInt8, (p.currentChar = u.toNat ∨ p.currentChar = v.toNat) ↔ a = u ∨ a = v := by
    intro u v; rw [ha, UInt8.toNat_inj, UInt8.toNat_inj]
  have d := @UInt8.toNat_inj
  simp only [checkEncodingName, leads_bind, M.get_apply, leads_ok, leads_ite]
  have t1 := two (ch% 'a') (ch% 'A')
  have t2 := two (ch% 'c') (ch% 'C')
  have t3 := two (ch% 'i') (ch% 'I')
  have t4 := two (ch% 'u') (ch% 'U')
  have t5 := two (ch% 'w') (ch% 'W')
  have he := h.encoding
  constructor
  · rintro (⟨_, hk⟩ | ⟨_, ⟨h2, hk⟩ | ⟨_, ⟨_, hk⟩ | ⟨_, ⟨h4, hk⟩ | ⟨_, ⟨h5, hk⟩ | ⟨_, hk⟩⟩⟩⟩⟩)
    · exact absurd hk (not_ascii he)
    · obtain ⟨t, r', hr, ht, hk⟩ := (leads_win (s := str% "p125") (u0 := ch% 'P') (us := str% "125") rfl (by decide)
        (by decide) h).1 hk
      exact ⟨t, 6, r', hr, .cp (t2.1 h2) (by simpa using ht), hk⟩
    · exact absurd hk (not_iso he)
    · rw [leads_skipChar h (ch% 's')] at hk
      obtain ⟨b, s, rfl, ⟨_, ⟨_, hk⟩ | ⟨h6, _⟩⟩ | ⟨_, ⟨h6, _⟩ | ⟨_, hk⟩⟩⟩ := hk
      · exact absurd hk (not_usAscii (by exact he))
      · exact absurd rfl h6
      · exact absurd h6 (by simp)
      · obtain ⟨t, f, r', ht, hf, hr, hk⟩ := (leads_utf (h.go (List.suffix_refl _) _)).1 hk
        exact ⟨_, 5, r', hr, .utf8 (t4.1 h4) ht hf, hk⟩
    · obtain ⟨t, r', hr, ht, hk⟩ := (leads_win (s := str% "indows-125") (u0 := ch% 'I') (us := str% "NDOWS-125") rfl
        (by decide) (by decide) h).1 hk
      exact ⟨t, 12, r', hr, .win (t5.1 h5) (by simpa using ht), hk⟩
    · simp at hk
  · rintro ⟨e, l, r', hr, hE, hk⟩
    cases hE with
    | utf8 h1 ht hf =>
      have n1 : ¬ (a = ch% 'a' ∨ a = ch% 'A') := by rcases h1 with rfl | rfl <;> decide
      have n2 : ¬ (a = ch% 'c' ∨ a = ch% 'C') := by rcases h1 with rfl | rfl <;> decide
      have n3 : ¬ (a = ch% 'i' ∨ a = ch% 'I') := by rcases h1 with rfl | rfl <;> decide
      refine Or.inr ⟨mt t1.1 n1, Or.inr ⟨mt t2.1 n2, Or.inr ⟨mt t3.1 n3, Or.inl ⟨t4.2 h1, ?_⟩⟩⟩⟩
      rw [leads_skipChar h (ch% 's')]
      refine ⟨_, _, hr, Or.inr ⟨by rcases ht with rfl | rfl <;> decide, Or.inr ⟨by simp, ?_⟩⟩⟩
      exact (leads_utf (h.go (List.suffix_refl _) _)).2 ⟨_, _, r', ht, hf, hr, hk⟩
    | cp h1 ht =>
      have n1 : ¬ (a = ch% 'a' ∨ a = ch% 'A') := by rcases h1 with rfl | rfl <;> decide
      refine Or.inr ⟨mt t1.1 n1, Or.inl ⟨t2.2 h1, ?_⟩⟩
      exact (leads_win (s := str% "p125") (u0 := ch% 'P') (us := str% "125") rfl (by decide)
        (by decide) h).2 ⟨e, r', hr, by simpa using ht, hk⟩
    | win h1 ht =>
      have n1 : ¬ (a = ch% 'a' ∨ a = ch% 'A') := by rcases h1 with rfl | rfl <;> decide
      have n2 : ¬ (a = ch% 'c' ∨ a = ch% 'C') := by rcases h1 with rfl | rfl <;> decide
      have n3 : ¬ (a = ch% 'i' ∨ a = ch% 'I') := by rcases h1 with rfl | rfl <;> decide
      have n4 : ¬ (a = ch% 'u' ∨ a = ch% 'U') := by rcases h1 with rfl | rfl <;> decide
      refine Or.inr ⟨mt t1.1 n1, Or.inr ⟨mt t2.1 n2, Or.inr ⟨mt t3.1 n3, Or.inr ⟨mt t4.1 n4,
        Or.inl ⟨t5.2 h1, ?_⟩⟩⟩⟩⟩
      exact (leads_win (s := str% "indows-125") (u0 := ch% 'I') (us := str% "NDOWS-125") rfl (by decide)
        (by decide) h).2 ⟨e, r', hr, by simpa using ht, hk⟩

/-! ## The attributes -/

/-- Within the declaration: `y` is the current character, `s` are the bytes after it, `lo` is the offset that was
marked last, and `o` the output. -/
structure S (c : ParserCfg) (p : Parser) (y : UInt8) (s : List UInt8) (lo : Int) (o : ParserOut) : Prop where
  rd : Rd c p s
  cur : p.currentChar = y.toNat
  off : p.offset = pos c s
  ctx : Ctx c p [] []
  last : p.lastOffset = lo
  out : p.out = o

section
variable {y : UInt8} {lo : Int} {K : Unit → Parser → Prop}

theorem S.depth (h : S c p y r lo o) : p.depth = -1 := by simpa using h.ctx.depth

theorem S.go (h : S c p y r lo o) {r' : List UInt8} (hs : r' <:+ r) (b : UInt8) : S c (go c p r' b.toNat) b r' lo o :=
  ⟨h.rd.go hs _, rfl, rfl, h.ctx, h.last, h.out⟩

theorem S.go' (h : S c p y r lo o) {r' : List UInt8} (hs : r' <:+ r) : S c (Parser.go c p r' p.currentChar) y r' lo o :=
  ⟨h.rd.go hs _, h.cur, rfl, h.ctx, h.last, h.out⟩

theorem suffix_app {w s : List UInt8} {b : UInt8} (h : r = w ++ b :: s) : s <:+ r :=
  h ▸ (List.suffix_cons _ _).trans (List.suffix_append _ _)

theorem S.next (h : S c p y r lo o) {Q : UInt8 → List UInt8 → Prop}
    (hK : ∀ q b s, S c q b s lo o → (K () q ↔ Q b s)) :
    Leads (nextChar p) K ↔ ∃ b s, r = b :: s ∧ Q b s := by
  rw [leads_nextChar h.rd]
  exact exists_congr fun b => exists_congr fun s => and_congr_right fun hr =>
    hK _ _ _ (h.go (hr ▸ List.suffix_cons _ _) _)

theorem S.nextWs (h : S c p y r lo o) {Q : UInt8 → List UInt8 → Prop}
    (hK : ∀ q b s, S c q b s lo o → (K () q ↔ Q b s)) :
    Leads (nextCharAfterWs p) K ↔ ∃ w b s, r = w ++ b :: s ∧ AllWs w ∧ ¬ Ws b ∧ Q b s := by
  rw [leads_nextWs h.rd]
  exact exists_congr fun w => exists_congr fun b => exists_congr fun s => and_congr_right fun hr =>
    and_congr_right fun _ => and_congr_right fun _ => hK _ _ _ (h.go (suffix_app hr) _)

theorem S.quote (h : S c p y r lo o) {Q : Prop} (hK : K () p ↔ Q) : Leads (expectQuote p) K ↔ Quote y ∧ Q := by
  rw [leads_expectQuote h.cur, hK]

theorem S.eq (h : S c p y r lo o) {Q : List UInt8 → Prop}
    (hK : ∀ q s, S c q (ch% '=') s lo o → (K () q ↔ Q s)) :
    Leads (expectEq p) K ↔ ∃ w s, r = w ++ ch% '=' :: s ∧ AllWs w ∧ Q s := by
  rw [leads_expectEq h.rd]
  exact exists_congr fun w => exists_congr fun s => and_congr_right fun hr => and_congr_right fun _ =>
    hK _ _ (h.go (suffix_app hr) (ch% '='))

theorem S.mark (h : S c p y r lo o) {Q : Prop} (hK : ∀ q, S c q y r (pos c r) o → (K () q ↔ Q)) :
    Leads (markOffset p) K ↔ Q := by
  simp only [markOffset, M.modify_apply, leads_ok]
  exact hK _ ⟨Rd.of_eq h.rd rfl rfl rfl rfl rfl rfl, h.cur, h.off, h.ctx, h.off, h.out⟩

theorem S.markPrev (h : S c p y r lo o) {Q : Prop} (hK : ∀ q, S c q y r (pos c (y :: r)) o → (K () q ↔ Q)) :
    Leads (M.modify (fun p => { p with lastOffset := p.offset - p.enc.increment }) p) K ↔ Q := by
  simp only [M.modify_apply, leads_ok]
  refine hK _ ⟨Rd.of_eq h.rd rfl rfl rfl rfl rfl rfl, h.cur, h.off, h.ctx, ?_, h.out⟩
  have := pos_cons (c := c) (b := y) (r := r)
  simp only [h.rd.inc, h.off]
  omega

theorem S.emit (h : S c p y r lo o) (xs : List Rec) :
    S c { p with out := emit c.shallowDepth p.out xs } y r lo (Parser.emit c.shallowDepth o xs) :=
  ⟨h.rd.emit xs, h.cur, h.off, h.ctx, h.last, by rw [← h.out]⟩

theorem S.write (h : S c p y r lo o) (t : Token) (ht : t ≠ .startingTag) (l : Int) {Q : Prop}
    (hK : ∀ q, S c q y r lo (Parser.emit c.shallowDepth o [⟨t, lo, l, -1⟩]) → (K () q ↔ Q)) :
    Leads (writeAt t l p) K ↔ Q := by
  rw [leads_writeAt h.rd.base t ht]
  exact hK _ (by have := h.emit [⟨t, lo, l, -1⟩]; rw [← h.depth, ← h.last] at this ⊢; exact this)

theorem S.encName (h : S c p y r lo o) {Q : List UInt8 → Int → List UInt8 → Prop}
    (hK : ∀ q e l s, S c q y s lo (Parser.emit c.shallowDepth o [⟨.decAttrVal, lo, l, -1⟩]) → (K () q ↔ Q e l s)) :
    Leads (checkEncodingName p) K ↔ ∃ e l s, r = e ++ s ∧ EncName (y :: e) l ∧ Q e l s := by
  rw [leads_encName h.rd h.cur, h.last, h.depth]
  exact exists_congr fun e => exists_congr fun l => exists_congr fun s => and_congr_right fun hr =>
    and_congr_right fun _ => hK _ _ _ _ ((h.go' ⟨e, hr.symm⟩).emit _)

theorem S.skip (h : S c p y r lo o) {n : Nat} (v : UInt8) (hv : v.toNat = n) {K : Bool → Parser → Prop}
    {Q : List UInt8 → Prop} {Q' : Prop} (hK : ∀ q s, S c q y s lo o → (K true q ↔ Q s))
    (hK' : ∀ q, S c q y r lo o → (K false q ↔ Q')) :
    Leads (skipChar n p) K ↔ ∃ b s, r = b :: s ∧ ((b = v ∧ Q s) ∨ (b ≠ v ∧ Q')) := by
  rw [leads_skipChar h.rd v hv]
  exact exists_congr fun b => exists_congr fun s => and_congr_right fun hr =>
    or_congr (and_congr_right fun _ => hK _ _ (h.go' (hr ▸ List.suffix_cons _ _)))
      (and_congr_right fun _ => hK' _ (h.go' (List.suffix_refl _)))

theorem S.seq (h : S c p y r lo o) {n : List Nat} (v : List UInt8) (hv : v.map UInt8.toNat = n)
    {K : Bool → Parser → Prop} {Q Q' : List UInt8 → Prop} (hK : ∀ q s, S c q y s lo o → (K true q ↔ Q s))
    (hK' : ∀ q s, S c q y s lo o → (K false q ↔ Q' s)) :
    Leads (skipCharSeq n p) K ↔ (∃ s, r = v ++ s ∧ Q s) ∨
      ∃ u d v' x s, v = u ++ d :: v' ∧ r = u ++ x :: s ∧ x ≠ d ∧ Q' (x :: s) := by
  rw [leads_skipCharSeq v hv h.rd]
  refine or_congr (exists_congr fun s => and_congr_right fun hr => hK _ _ (h.go' ⟨v, hr.symm⟩)) ?_
  exact exists_congr fun u => exists_congr fun d => exists_congr fun v' => exists_congr fun x => exists_congr fun s =>
    and_congr_right fun _ => and_congr_right fun hr => and_congr_right fun _ =>
      hK' _ _ (h.go' ⟨u, hr.symm⟩)

theorem S.encAttr (h : S c p y r lo o) {Q : UInt8 → List UInt8 → ParserOut → Prop}
    (hK : ∀ q b s o, S c q b s (pos c (b :: s)) o → (K () q ↔ Q b s o)) :
    Leads (processDecEncodingAttr p) K ↔ ∃ w w' q e l q' w2 b s,
      r = w ++ ch% '=' :: (w' ++ q :: (e ++ q' :: (w2 ++ b :: s))) ∧ AllWs w ∧ AllWs w' ∧ Quote q ∧ EncName e l ∧
      Quote q' ∧ AllWs w2 ∧ ¬ Ws b ∧ Q b s (Parser.emit c.shallowDepth o [⟨.decAttrName, lo, 8, -1⟩,
        ⟨.decAttrVal, pos c (e ++ q' :: (w2 ++ b :: s)), l, -1⟩]) := by
  simp only [processDecEncodingAttr, leads_bind]
  refine (h.eq fun _ _ h => h.write .decAttrName (by decide) 8 fun _ h => h.nextWs fun _ _ _ h => h.quote (h.mark
    fun _ h => h.next fun _ _ _ h => h.encName fun _ _ _ _ h => h.next fun _ _ _ h => h.quote (h.nextWs
      fun _ _ _ h => h.markPrev fun _ h => hK _ _ _ _ h))).trans ?_
  constructor
  · rintro ⟨w, _, rfl, hw, w', q, _, rfl, hw', _, hq, a, _, rfl, e, l, _, rfl, he, q', _, rfl, hq', w2, b, s, rfl, hw2,
      hb, hQ⟩
    refine ⟨w, w', q, a :: e, l, q', w2, b, s, rfl, hw, hw', hq, he, hq', hw2, hb, ?_⟩
    simpa only [emit_cons, emit_nil, List.cons_append] using hQ
  · rintro ⟨w, w', q, e, l, q', w2, b, s, rfl, hw, hw', hq, he, hq', hw2, hb, hQ⟩
    obtain ⟨a, e, rfl⟩ : ∃ a e', e = a :: e' := by cases he <;> exact ⟨_, _, rfl⟩
    refine ⟨w, _, rfl, hw, w', q, _, rfl, hw', quote_not_ws hq, hq, a, _, rfl, e, l, _, rfl, he, q', _, rfl, hq', w2,
      b, s, rfl, hw2, hb, ?_⟩
    simpa only [emit_cons, emit_nil] using hQ

/-- Values of `standalone` and the length that is recorded for them. -/
def AloneVal (v : List UInt8) (l : Int) : Prop :=
  (v = str% "yes" ∧ l = 3) ∨ ((v = str% "no" ∨ v = str% "yno" ∨ v = str% "yeno") ∧ l = 2)

theorem S.aloneVal (h : S c p y r lo o) {Q : UInt8 → List UInt8 → ParserOut → Prop}
    (hK : ∀ q b s lo o, S c q b s lo o → (K () q ↔ Q b s o)) :
    Leads ((do
      let yes ← skipCharSeq (str% "yes")
      if yes then writeAt .decAttrVal 3
      else do
        let no ← skipCharSeq (str% "no")
        if no then writeAt .decAttrVal 2
        else parseErr "invalid value for attribute standalone (valid options are yes or no)"
      nextChar
      expectQuote
      nextCharAfterWs : M Parser Unit) p) K ↔ ∃ e l q w b s, r = e ++ q :: (w ++ b :: s) ∧ AloneVal e l ∧ Quote q ∧
        AllWs w ∧ ¬ Ws b ∧ Q b s (Parser.emit c.shallowDepth o [⟨.decAttrVal, lo, l, -1⟩]) := by
  have fin : ∀ {p y r lo o} (h : S c p y r lo o), Leads (nextChar p) (fun _ s => Leads (expectQuote s) fun _ s =>
      Leads (nextCharAfterWs s) K) ↔ ∃ q s, r = q :: s ∧ Quote q ∧ ∃ w b t, s = w ++ b :: t ∧ AllWs w ∧ ¬ Ws b ∧
        Q b t o := by
    intro p y r lo o h
    exact h.next fun _ _ _ h => h.quote (h.nextWs fun _ _ _ h => hK _ _ _ _ _ h)
  simp only [leads_bind]
  refine (h.seq (str% "yes") rfl (Q := fun r => ∃ q s, r = q :: s ∧ Quote q ∧ ∃ w b t, s = w ++ b :: t ∧ AllWs w ∧
      ¬ Ws b ∧ Q b t (Parser.emit c.shallowDepth o [⟨.decAttrVal, lo, 3, -1⟩])) (Q' := fun r => ∃ r', r = str% "no" ++ r' ∧
        ∃ q s, r' = q :: s ∧ Quote q ∧ ∃ w b t, s = w ++ b :: t ∧ AllWs w ∧
      ¬ Ws b ∧ Q b t (Parser.emit c.shallowDepth o [⟨.decAttrVal, lo, 2, -1⟩])) (fun _ _ h => ?_) (fun _ _ h => ?_)).trans ?_
  · refine (leads_if_pos rfl).trans (leads_bind.trans (h.write .decAttrVal (by decide) 3 fun _ h => ?_))
    simp only [leads_bind]
    exact fin h
  · refine (leads_if_neg (by simp)).trans ?_
    simp only [leads_bind]
    refine (h.seq (str% "no") rfl (Q := fun r => ∃ q s, r = q :: s ∧ Quote q ∧ ∃ w b t, s = w ++ b :: t ∧ AllWs w ∧
      ¬ Ws b ∧ Q b t (Parser.emit c.shallowDepth o [⟨.decAttrVal, lo, 2, -1⟩])) (Q' := fun _ => False)
      (fun _ _ h => ?_) (fun _ _ h => ?_)).trans (by simp)
    · refine (leads_if_pos rfl).trans ?_
      simp only [leads_bind]
      exact ((h.write .decAttrVal (by decide) 2 fun _ h => fin h))
    · refine (leads_if_neg (by simp)).trans ?_
      simp only [leads_bind, leads_parseErr]
  constructor
  · rintro (⟨_, rfl, q, _, rfl, hq, w, b, s, rfl, hw, hb, hQ⟩ | ⟨u, d, v, x, s, h1, rfl, h2, r', h3, q, _, rfl, hq, w, b, s,
      rfl, hw, hb, hQ⟩)
    · exact ⟨_, 3, q, w, b, s, rfl, Or.inl ⟨rfl, rfl⟩, hq, hw, hb, hQ⟩
    · rw [h3]
      refine ⟨u ++ str% "no", 2, q, w, b, s, by simp, Or.inr ⟨?_, rfl⟩, hq, hw, hb, hQ⟩
      match u, h1 with
      | [], _ => simp
      | [_], h1 => simp at h1; simp [h1.1]
      | [_, _], h1 => simp at h1; simp [h1.1, h1.2.1]
      | _ :: _ :: _ :: _, h1 => simp at h1
  · rintro ⟨e, l, q, w, b, s, rfl, ⟨rfl, rfl⟩ | ⟨he, rfl⟩, hq, hw, hb, hQ⟩
    · exact Or.inl ⟨_, rfl, q, _, rfl, hq, w, b, s, rfl, hw, hb, hQ⟩
    · refine Or.inr ?_
      rcases he with rfl | rfl | rfl
      · exact ⟨[], ch% 'y', str% "es", ch% 'n', _, rfl, rfl, by decide, _, rfl, q, _, rfl, hq, w, b, s, rfl, hw, hb, hQ⟩
      · exact ⟨[ch% 'y'], ch% 'e', str% "s", ch% 'n', _, rfl, rfl, by decide, _, rfl, q, _, rfl, hq, w, b, s, rfl, hw, hb,
          hQ⟩
      · exact ⟨[ch% 'y', ch% 'e'], ch% 's', [], ch% 'n', _, rfl, rfl, by decide, _, rfl, q, _, rfl, hq, w, b, s, rfl, hw, hb,
          hQ⟩

theorem S.aloneAttr (h : S c p y r lo o) {Q : UInt8 → List UInt8 → ParserOut → Prop}
    (hK : ∀ q b s lo o, S c q b s lo o → (K () q ↔ Q b s o)) :
    Leads (processDecStandaloneAttr p) K ↔ ∃ w w' q e l q' w2 b s,
      r = w ++ ch% '=' :: (w' ++ q :: (e ++ q' :: (w2 ++ b :: s))) ∧ AllWs w ∧ AllWs w' ∧ Quote q ∧ AloneVal e l ∧
      Quote q' ∧ AllWs w2 ∧ ¬ Ws b ∧ Q b s (Parser.emit c.shallowDepth o [⟨.decAttrName, lo, 10, -1⟩,
        ⟨.decAttrVal, pos c (e ++ q' :: (w2 ++ b :: s)), l, -1⟩]) := by
  unfold processDecStandaloneAttr
  refine (leads_bind.trans (h.eq fun _ _ h => leads_bind.trans (h.write .decAttrName (by decide) 10 fun _ h =>
    leads_bind.trans (h.nextWs fun _ _ _ h => leads_bind.trans (h.mark
    fun _ h => leads_bind.trans (h.quote (h.aloneVal hK))))))).trans ?_
  constructor
  · rintro ⟨w, _, rfl, hw, w', q, _, rfl, hw', _, hq, e, l, q', w2, b, s, rfl, he, hq', hw2, hb, hQ⟩
    refine ⟨w, w', q, e, l, q', w2, b, s, rfl, hw, hw', hq, he, hq', hw2, hb, ?_⟩
    simpa only [emit_cons, emit_nil] using hQ
  · rintro ⟨w, w', q, e, l, q', w2, b, s, rfl, hw, hw', hq, he, hq', hw2, hb, hQ⟩
    refine ⟨w, _, rfl, hw, w', q, _, rfl, hw', quote_not_ws hq, hq, e, l, q', w2,
      b, s, rfl, he, hq', hw2, hb, ?_⟩
    simpa only [emit_cons, emit_nil] using hQ

theorem S.skipOr (h : S c p y r lo o) {m n : Nat} (u v : UInt8) (hu : u.toNat = m) (hv : v.toNat = n)
    {K : Bool → Parser → Prop} {Q : List UInt8 → Prop} {Q' : Prop} (hK : ∀ q s, S c q y s lo o → (K true q ↔ Q s))
    (hK' : ∀ q, S c q y r lo o → (K false q ↔ Q')) :
    Leads ((skipChar m ||! skipChar n) p) K ↔
      ∃ b s, r = b :: s ∧ (((b = u ∨ b = v) ∧ Q s) ∨ (b ≠ u ∧ b ≠ v ∧ Q')) := by
  rw [leads_or]
  refine (h.skip u hu (Q := Q) (Q' := ∃ b s, r = b :: s ∧ ((b = v ∧ Q s) ∨ (b ≠ v ∧ Q'))) (fun _ _ h => ?_)
    (fun _ h => ?_)).trans ?_
  · rw [if_pos rfl]; exact hK _ _ h
  · rw [if_neg (by simp)]; exact h.skip v hv hK hK'
  constructor
  · rintro ⟨b, s, rfl, ⟨hb, hQ⟩ | ⟨hb, b', s', hr, h2⟩⟩
    · exact ⟨b, s, rfl, Or.inl ⟨Or.inl hb, hQ⟩⟩
    · injection hr with h1 h3
      subst h1; subst h3
      rcases h2 with ⟨h2, hQ⟩ | ⟨h2, hQ⟩
      · exact ⟨b, s, rfl, Or.inl ⟨Or.inr h2, hQ⟩⟩
      · exact ⟨b, s, rfl, Or.inr ⟨hb, h2, hQ⟩⟩
  · rintro ⟨b, s, rfl, ⟨hb, hQ⟩ | ⟨hb, hb', hQ⟩⟩
    · by_cases h1 : b = u
      · exact ⟨b, s, rfl, Or.inl ⟨h1, hQ⟩⟩
      · exact ⟨b, s, rfl, Or.inr ⟨h1, b, s, rfl, Or.inl ⟨hb.resolve_left h1, hQ⟩⟩⟩
    · exact ⟨b, s, rfl, Or.inr ⟨hb, b, s, rfl, Or.inr ⟨hb', hQ⟩⟩⟩

/-- The version number. -/
theorem S.versionNum (h : S c p y r lo o) {K : Bool → Parser → Prop} {Q : List UInt8 → Prop}
    (hK : ∀ q s, S c q y s lo o → (K true q ↔ Q s)) (hK' : ∀ q, ¬ K false q) :
    Leads ((skipCharSeq (str% "1.") &&! (skipChar (ch% '0') ||! skipChar (ch% '1'))) p) K ↔
      ∃ d s, r = str% "1." ++ d :: s ∧ (d = ch% '0' ∨ d = ch% '1') ∧ Q s := by
  rw [leads_and]
  refine (h.seq (str% "1.") rfl (Q := fun r => ∃ d s, r = d :: s ∧ (((d = ch% '0' ∨ d = ch% '1') ∧ Q s) ∨
      (d ≠ ch% '0' ∧ d ≠ ch% '1' ∧ False)))
    (Q' := fun _ => False) (fun _ r h => ?_) (fun _ _ h => by simpa using hK' _)).trans ?_
  · rw [if_pos rfl]
    exact h.skipOr (ch% '0') (ch% '1') rfl rfl hK (fun _ _ => by simpa using hK' _)
  · simp only [and_false, or_false, exists_false]
    constructor
    · rintro ⟨_, rfl, d, s, rfl, hd, hQ⟩
      exact ⟨d, s, rfl, hd, hQ⟩
    · rintro ⟨d, s, rfl, hd, hQ⟩
      exact ⟨_, rfl, d, s, rfl, hd, hQ⟩

theorem leads_get {α β : Type} {f : α → M α β} {p : α} {K : β → α → Prop} :
    Leads ((M.get >>= f) p) K ↔ Leads (f p p) K := by
  rw [leads_bind, M.get_apply, leads_ok]

theorem S.writeName (h : S c p y r lo o) {K : Unit → Parser → Prop} {Q : Prop}
    (hK : ∀ q, S c q y r lo (Parser.emit c.shallowDepth o [⟨.decAttrName, lo - 1, 7, -1⟩]) → (K () q ↔ Q)) :
    Leads (writeVtd .decAttrName (p.lastOffset - 1) 7 p.depth p) K ↔ Q := by
  refine (leads_writeVtd h.rd.base .decAttrName (by decide) _ _ _).trans ?_
  exact hK _ (by have := h.emit [⟨.decAttrName, lo - 1, 7, -1⟩]; rw [← h.depth, ← h.last] at this ⊢; exact this)

theorem S.versionEnd (h : S c p y r lo o) {Q : UInt8 → List UInt8 → ParserOut → Prop}
    (hK : ∀ q b s lo o, S c q b s lo o → (K () q ↔ Q b s o)) :
    Leads ((do
      let one ← (skipCharSeq (str% "1.") &&! (skipChar (ch% '0') ||! skipChar (ch% '1')))
      if one then writeAt .decAttrVal 3
      else parseErr "invalid version detected (supported 1.0 or 1.1)"
      let p ← M.get
      let q ← skipChar p.currentChar
      if q then nextChar else parseErr "version not terminated properly" : M Parser Unit) p) K ↔
      ∃ d b s, r = str% "1." ++ d :: y :: b :: s ∧ (d = ch% '0' ∨ d = ch% '1') ∧
        Q b s (Parser.emit c.shallowDepth o [⟨.decAttrVal, lo, 3, -1⟩]) := by
  rw [leads_bind]
  refine (h.versionNum (Q := fun r => ∃ d t, r = d :: t ∧ ((d = y ∧ ∃ b s, t = b :: s ∧
    Q b s (Parser.emit c.shallowDepth o [⟨.decAttrVal, lo, 3, -1⟩])) ∨ (d ≠ y ∧ False))) (fun _ _ h => ?_) (fun _ => ?_)).trans ?_
  · refine (leads_if_pos rfl).trans ?_
    simp only [leads_bind, M.get_apply, leads_ok]
    refine h.write .decAttrVal (by decide) 3 fun _ h => h.skip y h.cur.symm (fun _ _ h => ?_) (fun _ h => ?_)
    · refine (leads_if_pos rfl).trans (h.next fun _ _ _ h => hK _ _ _ _ _ h)
    · refine (leads_if_neg (by simp)).trans (by simp)
  · rw [leads_if_neg (by simp)]
    simp only [leads_bind, leads_parseErr, not_false_eq_true]
  · simp only [and_false, or_false]
    constructor
    · rintro ⟨d, _, rfl, hd, _, _, rfl, rfl, b, s, rfl, hQ⟩
      exact ⟨d, b, s, rfl, hd, hQ⟩
    · rintro ⟨d, b, s, rfl, hd, hQ⟩
      exact ⟨d, _, rfl, hd, _, _, rfl, rfl, b, s, rfl, hQ⟩

theorem S.version (h : S c p y r lo o) (hlo : lo = pos c r) {Q : UInt8 → List UInt8 → ParserOut → Prop}
    (hK : ∀ q b s lo o, S c q b s lo o → (K () q ↔ Q b s o)) :
    Leads (decVersion p) K ↔ ∃ w w' q d b s,
      y :: r = str% "version" ++ (w ++ ch% '=' :: (w' ++ q :: (str% "1." ++ d :: q :: b :: s))) ∧
      AllWs w ∧ AllWs w' ∧ Quote q ∧ (d = ch% '0' ∨ d = ch% '1') ∧
      Q b s (Parser.emit c.shallowDepth o [⟨.decAttrName, pos c (y :: r), 7, -1⟩,
        ⟨.decAttrVal, pos c (str% "1." ++ d :: q :: b :: s), 3, -1⟩]) := by
  have hlo' : pos c (y :: r) = lo - 1 := by
    have := pos_cons (c := c) (b := y) (r := r)
    omega
  unfold decVersion
  rw [leads_bind, M.get_apply, leads_ok, leads_bind, leads_and, M.pure_apply, leads_ok]
  by_cases hy : y = ch% 'v'
  · rw [if_pos (by rw [h.cur, hy]; rfl)]
    refine (h.seq (str% "ersion") rfl (Q := fun r => ∃ w s, r = w ++ ch% '=' :: s ∧ AllWs w ∧
      ∃ w' q s', s = w' ++ q :: s' ∧ AllWs w' ∧ ¬ Ws q ∧ Quote q ∧ ∃ d b t, s' = str% "1." ++ d :: q :: b :: t ∧
        (d = ch% '0' ∨ d = ch% '1') ∧ Q b t (Parser.emit c.shallowDepth (Parser.emit c.shallowDepth o
          [⟨.decAttrName, lo - 1, 7, -1⟩]) [⟨.decAttrVal, pos c s', 3, -1⟩])) (Q' := fun _ => False)
      (fun _ _ h => ?_) (fun _ _ h => ?_)).trans ?_
    · refine (leads_if_pos rfl).trans (leads_bind.trans (h.eq fun _ _ h => leads_get.trans
        ((leads_if_pos h.rd.single).trans (leads_bind.trans (h.writeName fun _ h =>
        leads_bind.trans (h.nextWs fun _ _ _ h => leads_bind.trans (h.quote (leads_bind.trans (h.mark fun _ h =>
          h.versionEnd hK)))))))))
    · refine (leads_if_neg (by simp)).trans (by simp)
    · simp only [and_false, or_false, exists_false]
      rw [hlo', hy]
      constructor
      · rintro ⟨_, rfl, w, _, rfl, hw, w', q, _, rfl, hw', _, hq, d, b, s, rfl, hd, hQ⟩
        refine ⟨w, w', q, d, b, s, rfl, hw, hw', hq, hd, ?_⟩
        simpa only [emit_cons, emit_nil] using hQ
      · rintro ⟨w, w', q, d, b, s, hr, hw, hw', hq, hd, hQ⟩
        injection hr with _ hr
        refine ⟨_, hr, w, _, rfl, hw, w', q, _, rfl, hw', quote_not_ws hq, hq, d, b, s, rfl, hd, ?_⟩
        simpa only [emit_cons, emit_nil] using hQ
  · rw [if_neg (by rw [h.cur]; simpa using ne_nat (ch% 'v') hy)]
    constructor
    · intro hk
      rw [leads_if_neg (by simp)] at hk
      simp at hk
    · rintro ⟨w, w', q, d, b, s, hr, _⟩
      injection hr with hr
      exact absurd hr hy

/-! ## The optional attributes -/

theorem head_cons {b : UInt8} {s : List UInt8} : (∀ a, (b :: s).head? = some a → ¬ Ws a) ↔ ¬ Ws b := by simp

theorem encoding_iff {n : Nat} {x : List UInt8} {recs : List Rec} {b : UInt8} {s : List UInt8} :
    Encoding n x recs (b :: s) ↔ ∃ w w' q e l q' w2,
      x = str% "encoding" ++ (w ++ ch% '=' :: (w' ++ q :: (e ++ q' :: (w2 ++ b :: s)))) ∧ AllWs w ∧ AllWs w' ∧ Quote q ∧
      EncName e l ∧ Quote q' ∧ AllWs w2 ∧ ¬ Ws b ∧ recs = [⟨.decAttrName, Grammar.offset n x, 8, -1⟩,
        ⟨.decAttrVal, Grammar.offset n (e ++ q' :: (w2 ++ b :: s)), l, -1⟩] := by
  constructor
  · intro h
    generalize hr : b :: s = r at h
    cases h
    subst hr
    rename_i w w' q e l q' w2 h1 h2 h3 h4 h5 h6 h7
    exact ⟨w, w', q, e, l, q', w2, by simp, h1, h2, h3, h4, h5, h6, head_cons.1 h7, by simp⟩
  · rintro ⟨w, w', q, e, l, q', w2, rfl, h1, h2, h3, h4, h5, h6, h7, rfl⟩
    have := Encoding.mk (n := n) h1 h2 h3 h4 h5 h6 (head_cons (s := s).2 h7)
    simpa only [List.append_assoc, List.cons_append] using this

theorem standalone_iff {n : Nat} {x : List UInt8} {recs : List Rec} {b : UInt8} {s : List UInt8} :
    Standalone n x recs (b :: s) ↔ ∃ w w' q e l q' w2,
      x = str% "standalone" ++ (w ++ ch% '=' :: (w' ++ q :: (e ++ q' :: (w2 ++ b :: s)))) ∧ AllWs w ∧ AllWs w' ∧ Quote q ∧
      AloneVal e l ∧ Quote q' ∧ AllWs w2 ∧ ¬ Ws b ∧ recs = [⟨.decAttrName, Grammar.offset n x, 10, -1⟩,
        ⟨.decAttrVal, Grammar.offset n (e ++ q' :: (w2 ++ b :: s)), l, -1⟩] := by
  constructor
  · intro h
    generalize hr : b :: s = r at h
    cases h
    subst hr
    rename_i w w' q e l q' w2 h1 h2 h3 h4 h5 h6 h7
    exact ⟨w, w', q, e, l, q', w2, by simp, h1, h2, h3, h4, h5, h6, head_cons.1 h7, by simp⟩
  · rintro ⟨w, w', q, e, l, q', w2, rfl, h1, h2, h3, h4, h5, h6, h7, rfl⟩
    have := Standalone.mk (n := n) h1 h2 h3 h4 h5 h6 (head_cons (s := s).2 h7)
    simpa only [List.append_assoc, List.cons_append] using this

theorem version_iff {n : Nat} {x : List UInt8} {recs : List Rec} {r : List UInt8} :
    Version n x recs r ↔ ∃ w w' q d,
      x = str% "version" ++ (w ++ ch% '=' :: (w' ++ q :: (str% "1." ++ d :: q :: r))) ∧ AllWs w ∧ AllWs w' ∧ Quote q ∧
      (d = ch% '0' ∨ d = ch% '1') ∧ recs = [⟨.decAttrName, Grammar.offset n x, 7, -1⟩,
        ⟨.decAttrVal, Grammar.offset n (str% "1." ++ d :: q :: r), 3, -1⟩] := by
  constructor
  · intro h
    cases h
    rename_i w w' q d h1 h2 h3 h4
    exact ⟨w, w', q, d, by simp, h1, h2, h3, h4, by simp⟩
  · rintro ⟨w, w', q, d, rfl, h1, h2, h3, h4, rfl⟩
    have := Version.mk (n := n) (r := r) h1 h2 h3 h4
    simpa only [List.append_assoc, List.cons_append] using this

/-- The test for `standalone`. -/
theorem S.optAlone (h : S c p y r (pos c (y :: r)) o) {Q : List UInt8 → ParserOut → Prop}
    (hK : ∀ q b s lo o, S c q b s lo o → (K () q ↔ b = ch% '?' ∧ Q s o)) :
    Leads ((do
      let p ← M.get
      if p.currentChar = ch% 's' then do
        let s ← skipCharSeq (str% "tandalone")
        if s then processDecStandaloneAttr else parseErr "declaration should be standalone"
      else pure () : M Parser Unit) p) K ↔ (y = ch% '?' ∧ Q r o) ∨
        ∃ recs s, Standalone c.xmlDoc.length (y :: r) recs (ch% '?' :: s) ∧ Q s (Parser.emit c.shallowDepth o recs) := by
  refine leads_get.trans ?_
  by_cases hy : y = ch% 's'
  · refine (leads_if_pos (by rw [h.cur, hy]; rfl)).trans (leads_bind.trans ?_)
    refine (h.seq (str% "tandalone") rfl (fun _ _ h => (leads_if_pos rfl).trans (h.aloneAttr hK)) (Q' := fun _ => False)
      (fun _ _ h => (leads_if_neg (by simp)).trans (by simp))).trans ?_
    simp only [and_false, or_false, exists_false]
    constructor
    · rintro ⟨_, rfl, w, w', q, e, l, q', w2, _, s, rfl, h1, h2, h3, h4, h5, h6, h7, rfl, hQ⟩
      exact Or.inr ⟨_, s, standalone_iff.2 ⟨w, w', q, e, l, q', w2, by rw [hy]; rfl, h1, h2, h3, h4, h5, h6, h7, rfl⟩, hQ⟩
    · rintro (⟨h1, _⟩ | ⟨recs, s, h1, hQ⟩)
      · exact absurd (h1.symm.trans hy) (by decide)
      · obtain ⟨w, w', q, e, l, q', w2, hr, h1', h2, h3, h4, h5, h6, h7, rfl⟩ := standalone_iff.1 h1
        injection hr with _ hr
        exact ⟨_, hr, w, w', q, e, l, q', w2, _, s, rfl, h1', h2, h3, h4, h5, h6, h7, rfl, hQ⟩
  · refine (leads_if_neg (by rw [h.cur]; exact ne_nat (ch% 's') hy)).trans ?_
    rw [M.pure_apply, leads_ok, hK _ _ _ _ _ h]
    constructor
    · exact Or.inl
    · rintro (h1 | ⟨recs, s, h1, hQ⟩)
      · exact h1
      · obtain ⟨w, w', q, e, l, q', w2, hr, _⟩ := standalone_iff.1 h1
        injection hr with hr
        exact absurd hr hy

/-- After white space. -/
theorem S.opts (h : S c p y r (pos c (y :: r)) o) {Q : List UInt8 → ParserOut → Prop}
    (hK : ∀ q b s lo o, S c q b s lo o → (K () q ↔ b = ch% '?' ∧ Q s o)) :
    Leads ((do
      let p ← M.get
      if p.currentChar = ch% 'e' then do
        let e ← skipCharSeq (str% "ncoding")
        if e then processDecEncodingAttr else parseErr "declaration should be encoding"
      else pure ()
      let p ← M.get
      if p.currentChar = ch% 's' then do
        let s ← skipCharSeq (str% "tandalone")
        if s then processDecStandaloneAttr else parseErr "declaration should be standalone"
      else pure () : M Parser Unit) p) K ↔
        ((y = ch% '?' ∧ Q r o) ∨ ∃ recs s, Standalone c.xmlDoc.length (y :: r) recs (ch% '?' :: s) ∧
          Q s (Parser.emit c.shallowDepth o recs)) ∨
        ∃ recs b s, Encoding c.xmlDoc.length (y :: r) recs (b :: s) ∧
          ((b = ch% '?' ∧ Q s (Parser.emit c.shallowDepth o recs)) ∨
            ∃ recs' s', Standalone c.xmlDoc.length (b :: s) recs' (ch% '?' :: s') ∧
              Q s' (Parser.emit c.shallowDepth (Parser.emit c.shallowDepth o recs) recs')) := by
  refine leads_get.trans ?_
  by_cases hy : y = ch% 'e'
  · refine (leads_if_pos (by rw [h.cur, hy]; rfl)).trans (leads_bind.trans ?_)
    refine (h.seq (str% "ncoding") rfl (fun _ _ h => (leads_if_pos rfl).trans (leads_bind.trans <| h.encAttr
      (Q := fun b s o => (b = ch% '?' ∧ Q s o) ∨
        ∃ recs s', Standalone c.xmlDoc.length (b :: s) recs (ch% '?' :: s') ∧ Q s' (Parser.emit c.shallowDepth o recs))
      (fun _ _ _ _ h => h.optAlone hK))) (Q' := fun _ => False)
      (fun _ _ h => (leads_if_neg (by simp)).trans (leads_bind.trans (by simp)))).trans ?_
    simp only [and_false, or_false, exists_false]
    constructor
    · rintro ⟨_, rfl, w, w', q, e, l, q', w2, b, s, rfl, h1, h2, h3, h4, h5, h6, h7, hQ⟩
      exact Or.inr ⟨_, b, s, encoding_iff.2 ⟨w, w', q, e, l, q', w2, by rw [hy]; rfl, h1, h2, h3, h4, h5, h6, h7, rfl⟩, hQ⟩
    · rintro ((⟨h1, _⟩ | ⟨recs, s, h1, hQ⟩) | ⟨recs, b, s, h1, hQ⟩)
      · exact absurd (h1.symm.trans hy) (by decide)
      · obtain ⟨w, w', q, e, l, q', w2, hr, _⟩ := standalone_iff.1 h1
        injection hr with hr
        exact absurd (hr.symm.trans hy) (by decide)
      · obtain ⟨w, w', q, e, l, q', w2, hr, h1', h2, h3, h4, h5, h6, h7, rfl⟩ := encoding_iff.1 h1
        injection hr with _ hr
        exact ⟨_, hr, w, w', q, e, l, q', w2, b, s, rfl, h1', h2, h3, h4, h5, h6, h7, hQ⟩
  · refine (leads_if_neg (by rw [h.cur]; exact ne_nat (ch% 'e') hy)).trans ?_
    refine (h.optAlone hK).trans ?_
    constructor
    · exact Or.inl
    · rintro (h1 | ⟨recs, b, s, h1, hQ⟩)
      · exact h1
      · obtain ⟨w, w', q, e, l, q', w2, hr, _⟩ := encoding_iff.1 h1
        injection hr with hr
        exact absurd hr hy

theorem S.optional (h : S c p y r lo o) {Q : List UInt8 → ParserOut → Prop}
    (hK : ∀ q b s lo o, S c q b s lo o → (K () q ↔ b = ch% '?' ∧ Q s o)) :
    Leads (decOptional p) K ↔ ∃ recs s, DeclRest c.xmlDoc.length (y :: r) recs (ch% '?' :: s) ∧
      Q s (Parser.emit c.shallowDepth o recs) := by
  unfold decOptional
  refine leads_get.trans ?_
  by_cases hy : Ws y
  · refine (leads_if_pos (by rw [h.cur]; exact (isSpaceChar_iff _).2 hy)).trans ?_
    refine (leads_bind.trans (h.nextWs fun _ _ _ h => leads_bind.trans (h.markPrev fun _ h => h.opts hK))).trans ?_
    have cons : ∀ {w}, AllWs w → AllWs (y :: w) := by
      intro w hw b hb
      rcases List.mem_cons.1 hb with rfl | hb
      · exact hy
      · exact hw b hb
    constructor
    · rintro ⟨w, b, s, rfl, hw, hb, (⟨rfl, hQ⟩ | ⟨recs, s', h1, hQ⟩) | ⟨recs, b', s', h1, ⟨rfl, hQ⟩ | ⟨recs', s2, h2, hQ⟩⟩⟩
      · exact ⟨[], s, .ws (w := y :: w) (by simp) (cons hw), hQ⟩
      · exact ⟨recs, s', .alone (w := y :: w) (by simp) (cons hw) h1, hQ⟩
      · exact ⟨recs, s', .enc (w := y :: w) (by simp) (cons hw) h1, hQ⟩
      · exact ⟨recs ++ recs', s2, .both (w := y :: w) (by simp) (cons hw) h1 h2, by rw [emit_append]; exact hQ⟩
    · rintro ⟨recs, s, h1, hQ⟩
      generalize hr : y :: r = r0 at h1
      generalize hs : ch% '?' :: s = s0 at h1
      have spl : ∀ {w z : List UInt8}, w ≠ [] → AllWs w → y :: r = w ++ z → ∃ w', AllWs w' ∧ r = w' ++ z := by
        intro w z h1 h2 h3
        cases w with
        | nil => exact absurd rfl h1
        | cons a w =>
          injection h3 with _ h3
          exact ⟨w, fun b hb => h2 b (List.mem_cons_of_mem _ hb), h3⟩
      cases h1 with
      | none =>
        rw [← hs] at hr
        injection hr with hr
        exact absurd hy (by rw [hr]; simp [Spec.S])
      | ws h1 h2 =>
        obtain ⟨w', h3, h4⟩ := spl h1 h2 hr
        subst hs
        exact ⟨w', _, _, h4, h3, by simp [Spec.S], Or.inl (Or.inl ⟨rfl, hQ⟩)⟩
      | enc h1 h2 h5 =>
        obtain ⟨w', h3, h4⟩ := spl h1 h2 hr
        subst hs
        obtain ⟨_, _, _, _, _, _, _, rfl, _⟩ := encoding_iff.1 h5
        exact ⟨w', _, _, h4, h3, by simp [Spec.S], Or.inr ⟨_, _, _, h5, Or.inl ⟨rfl, hQ⟩⟩⟩
      | alone h1 h2 h5 =>
        obtain ⟨w', h3, h4⟩ := spl h1 h2 hr
        subst hs
        obtain ⟨_, _, _, _, _, _, _, rfl, _⟩ := standalone_iff.1 h5
        exact ⟨w', _, _, h4, h3, by simp [Spec.S], Or.inl (Or.inr ⟨_, _, h5, hQ⟩)⟩
      | both h1 h2 h5 h6 =>
        obtain ⟨w', h3, h4⟩ := spl h1 h2 hr
        subst hs
        obtain ⟨_, _, _, _, _, _, _, rfl, _⟩ := standalone_iff.1 h6
        obtain ⟨_, _, _, _, _, _, _, rfl, _⟩ := encoding_iff.1 h5
        exact ⟨w', _, _, h4, h3, by simp [Spec.S], Or.inr ⟨_, _, _, h5, Or.inr ⟨_, _, h6, by rw [← emit_append]; exact hQ⟩⟩⟩
  · refine (leads_if_neg (by rw [h.cur]; simpa using mt (isSpaceChar_iff _).1 hy)).trans ?_
    rw [M.pure_apply, leads_ok, hK _ _ _ _ _ h]
    constructor
    · rintro ⟨rfl, hQ⟩
      exact ⟨[], r, .none, hQ⟩
    · rintro ⟨recs, s, h1, hQ⟩
      generalize hr : y :: r = r0 at h1
      generalize hs : ch% '?' :: s = s0 at h1
      have no : ∀ {w z : List UInt8}, w ≠ [] → AllWs w → y :: r ≠ w ++ z := by
        intro w z h1 h2 h3
        cases w with
        | nil => exact h1 rfl
        | cons a w =>
          injection h3 with h3 _
          exact hy (h2 _ (by rw [h3]; simp))
      cases h1 with
      | none =>
        rw [← hs] at hr
        injection hr with h1 h2
        subst h2
        exact ⟨h1, hQ⟩
      | ws h1 h2 => exact absurd hr (no h1 h2)
      | enc h1 h2 => exact absurd hr (no h1 h2)
      | alone h1 h2 => exact absurd hr (no h1 h2)
      | both h1 h2 => exact absurd hr (no h1 h2)

theorem S.declName (h : S c p y r (pos c r) o) {K : PState → Parser → Prop} {Q : List UInt8 → ParserOut → Prop}
    (hK : ∀ q s lo o, S c q (ch% '<') s lo o → (K .ltSeen q ↔ Q s o)) :
    Leads (processDecAttrName p) K ↔ ∃ recs r1 recs1 w r2, Version c.xmlDoc.length (y :: r) recs r1 ∧
      DeclRest c.xmlDoc.length r1 recs1 (str% "?>" ++ w ++ ch% '<' :: r2) ∧ AllWs w ∧
      Q r2 (Parser.emit c.shallowDepth (Parser.emit c.shallowDepth o recs) recs1) := by
  unfold processDecAttrName
  refine (leads_bind.trans (h.version rfl (Q := fun b s o => ∃ recs t, DeclRest c.xmlDoc.length (b :: s) recs (ch% '?' :: t) ∧
    ∃ x t', t = x :: t' ∧ ((x = ch% '>' ∧ ∃ w x r2, t' = w ++ x :: r2 ∧ AllWs w ∧ ¬ Ws x ∧ x = ch% '<' ∧
      Q r2 (Parser.emit c.shallowDepth o recs)) ∨ (x ≠ ch% '>' ∧ False)))
    fun _ _ _ _ _ h => leads_bind.trans (h.optional
      (Q := fun t o => ∃ x t', t = x :: t' ∧ ((x = ch% '>' ∧ ∃ w x r2, t' = w ++ x :: r2 ∧ AllWs w ∧ ¬ Ws x ∧ x = ch% '<' ∧
      Q r2 o) ∨ (x ≠ ch% '>' ∧ False)))
      fun _ b _ _ _ h => leads_get.trans (leads_bind.trans ?_)))).trans ?_
  · rw [leads_and, M.pure_apply, leads_ok]
    by_cases hb : b = ch% '?'
    · rw [if_pos (by rw [h.cur, hb]; rfl)]
      simp only [hb, true_and]
      refine h.skip (ch% '>') rfl (fun _ _ h => ?_) (fun _ h => ?_)
      · refine (leads_if_pos rfl).trans (leads_bind.trans (h.mark fun _ h => leads_bind.trans (h.nextWs fun _ x _ h =>
          leads_get.trans ?_)))
        by_cases hx : x = ch% '<'
        · refine (leads_if_pos (by rw [h.cur, hx]; rfl)).trans ?_
          rw [M.pure_apply, leads_ok]
          subst hx
          rw [hK _ _ _ _ h]
          simp
        · refine (leads_if_neg (by rw [h.cur]; exact ne_nat (ch% '<') hx)).trans ?_
          simp [hx]
      · refine (leads_if_neg (by simp)).trans (by simp)
    · rw [if_neg (by rw [h.cur]; simpa using ne_nat (ch% '?') hb)]
      simp only [hb, false_and, iff_false]
      intro hk
      rw [leads_if_neg (by simp)] at hk
      simp at hk
  · simp only [and_false, or_false]
    constructor
    · rintro ⟨w, w', q, d, b, s, hr, h1, h2, h3, h4, recs, _, h5, _, _, rfl, rfl, w2, _, r2, rfl, h6, _, rfl, hQ⟩
      exact ⟨_, b :: s, recs, w2, r2, version_iff.2 ⟨w, w', q, d, hr, h1, h2, h3, h4, rfl⟩, h5, h6, hQ⟩
    · rintro ⟨recs, r1, recs1, w2, r2, h1, h5, h6, hQ⟩
      obtain ⟨w, w', q, d, hr, h1', h2, h3, h4, rfl⟩ := version_iff.1 h1
      obtain ⟨b, s, rfl⟩ : ∃ b s, r1 = b :: s := by
        cases r1 with
        | cons b s => exact ⟨b, s, rfl⟩
        | nil =>
          have : ∀ r0 recs s0, DeclRest c.xmlDoc.length r0 recs s0 → r0 = [] → s0 = [] := by
            intro r0 recs s0 h hr0
            cases h with
            | none => exact hr0
            | ws a => exact absurd (List.append_eq_nil_iff.1 hr0).1 a
            | enc a => exact absurd (List.append_eq_nil_iff.1 hr0).1 a
            | alone a => exact absurd (List.append_eq_nil_iff.1 hr0).1 a
            | both a => exact absurd (List.append_eq_nil_iff.1 hr0).1 a
          exact absurd (this _ _ _ h5 rfl) (by simp)
      exact ⟨w, w', q, d, b, s, hr, h1', h2, h3, h4, recs1, _, h5, _, _, rfl, rfl, w2, _, r2, rfl, h6, by simp [Spec.S],
        rfl, hQ⟩
end

/-! ## The start of the document -/

theorem leads_andSkip2 (h : Rd c p r) {m n : Nat} (u v : UInt8) (hu : u.toNat = m) (hv : v.toNat = n)
    {K : Bool → Parser → Prop} {rest : M Parser Bool} :
    Leads (((skipChar m ||! skipChar n) &&! rest) p) K ↔ ∃ b r', r = b :: r' ∧
      (((b = u ∨ b = v) ∧ Leads (rest (go c p r' p.currentChar)) K) ∨
       (b ≠ u ∧ b ≠ v ∧ K false (go c p r p.currentChar))) := by
  rw [leads_and, leads_skip2 h u v hu hv]
  simp only [if_true, Bool.false_eq_true, if_false]

theorem leads_andSkip (h : Rd c p r) {n : Nat} (u : UInt8) (hu : u.toNat = n)
    {K : Bool → Parser → Prop} {rest : M Parser Bool} :
    Leads ((skipChar n &&! rest) p) K ↔ ∃ b r', r = b :: r' ∧
      ((b = u ∧ Leads (rest (go c p r' p.currentChar)) K) ∨ (b ≠ u ∧ K false (go c p r p.currentChar))) := by
  rw [leads_and, leads_skipChar h u hu]
  simp only [if_true, Bool.false_eq_true, if_false]

theorem leads_xmlDecl (h : Rd c p r) {K : Bool → Parser → Prop} :
    Leads ((skipChar (ch% '?') &&! (skipChar (ch% 'x') ||! skipChar (ch% 'X')) &&!
      (skipChar (ch% 'm') ||! skipChar (ch% 'M')) &&! (skipChar (ch% 'l') ||! skipChar (ch% 'L')) : M Parser Bool) p) K ↔
    ∃ q r1, r = q :: r1 ∧ ((q = ch% '?' ∧ ∃ x r2, r1 = x :: r2 ∧ (((x = ch% 'x' ∨ x = ch% 'X') ∧
      ∃ m r3, r2 = m :: r3 ∧ (((m = ch% 'm' ∨ m = ch% 'M') ∧ ∃ l r4, r3 = l :: r4 ∧
        (((l = ch% 'l' ∨ l = ch% 'L') ∧ K true (go c p r4 p.currentChar)) ∨
         (l ≠ ch% 'l' ∧ l ≠ ch% 'L' ∧ K false (go c p r3 p.currentChar)))) ∨
       (m ≠ ch% 'm' ∧ m ≠ ch% 'M' ∧ K false (go c p r2 p.currentChar)))) ∨
      (x ≠ ch% 'x' ∧ x ≠ ch% 'X' ∧ K false (go c p r1 p.currentChar)))) ∨
     (q ≠ ch% '?' ∧ K false (go c p r p.currentChar))) := by
  refine (leads_andSkip h (ch% '?') rfl).trans ?_
  refine exists_congr fun q => exists_congr fun r1 => and_congr_right fun hr => or_congr (and_congr_right fun _ => ?_)
    Iff.rfl
  subst hr
  have h1 := h.tail p.currentChar
  refine (leads_andSkip2 h1 (ch% 'x') (ch% 'X') rfl rfl).trans ?_
  refine exists_congr fun x => exists_congr fun r2 => and_congr_right fun hr => or_congr (and_congr_right fun _ => ?_)
    Iff.rfl
  subst hr
  have h2 := h1.tail p.currentChar
  refine (leads_andSkip2 h2 (ch% 'm') (ch% 'M') rfl rfl).trans ?_
  refine exists_congr fun m => exists_congr fun r3 => and_congr_right fun hr => or_congr (and_congr_right fun _ => ?_)
    Iff.rfl
  subst hr
  have h3 := h2.tail p.currentChar
  exact leads_skip2 h3 (ch% 'l') (ch% 'L')

/-- The test for white space, which must follow `<?xml`. -/
theorem leads_skipWs (h : Rd c p r) {K : Bool → Parser → Prop} :
    Leads ((skipChar (ch% ' ') ||! skipChar (ch% '\t') ||! skipChar (ch% '\n') ||! skipChar (ch% '\r') : M Parser Bool) p) K ↔
      ∃ b s, r = b :: s ∧ ((Ws b ∧ K true (go c p s p.currentChar)) ∨ (¬ Ws b ∧ K false (go c p r p.currentChar))) := by
  have or1 : ∀ {p r n} {rest : M Parser Bool} (h : Rd c p r) (u : UInt8), u.toNat = n →
      (Leads ((skipChar n ||! rest) p) K ↔ ∃ b s, r = b :: s ∧ ((b = u ∧ K true (go c p s p.currentChar)) ∨
        (b ≠ u ∧ Leads (rest (go c p r p.currentChar)) K))) := by
    intro p r n rest h u hu
    rw [leads_or, leads_skipChar h u hu]
    simp only [if_true, Bool.false_eq_true, if_false]
  have e : ∀ b : UInt8, Ws b ↔ b = ch% ' ' ∨ b = ch% '\t' ∨ b = ch% '\n' ∨ b = ch% '\r' := by
    intro b
    have : ∀ n < 256, Spec.S n ↔ n = 32 ∨ n = 9 ∨ n = 10 ∨ n = 13 := by
      intro n _
      simp only [Spec.S]; omega
    refine (this _ b.toNat_lt).trans ?_
    have i := fun v : UInt8 => (UInt8.toNat_inj (a := b) (b := v)).symm
    rw [i (ch% ' '), i (ch% '\t'), i (ch% '\n'), i (ch% '\r')]
    rfl
  cases r with
  | nil =>
    refine (or1 h (ch% ' ') rfl).trans ?_
    simp
  | cons b s =>
    have h1 := h.go (List.suffix_refl _) p.currentChar
    have cons : ∀ {P : UInt8 → List UInt8 → Prop}, (∃ b' s', b :: s = b' :: s' ∧ P b' s') ↔ P b s := by
      intro P
      constructor
      · rintro ⟨_, _, hh, hP⟩
        cases hh
        exact hP
      · intro hP
        exact ⟨b, s, rfl, hP⟩
    refine (or1 h (ch% ' ') rfl).trans ?_
    rw [cons, cons]
    have A := or1 (rest := skipChar (ch% '\n') ||! skipChar (ch% '\r')) h1 (ch% '\t') rfl
    have B := or1 (rest := skipChar (ch% '\r')) h1 (ch% '\n') rfl
    have C := leads_skipChar (K := K) h1 (ch% '\r')
    rw [cons] at A B C
    have A' := A.trans (or_congr Iff.rfl (and_congr_right fun _ => (B.trans (or_congr Iff.rfl (and_congr_right fun _ => C)))))
    have A2 := or_congr (Iff.refl (b = ch% ' ' ∧ K true (go c p s p.currentChar))) (and_congr_right (a := b ≠ ch% ' ') fun _ => A')
    refine A2.trans ?_
    rw [e]
    change ((b = 32 ∧ K true (go c p s p.currentChar)) ∨ b ≠ 32 ∧ ((b = 9 ∧ K true (go c p s p.currentChar)) ∨ b ≠ 9 ∧
      ((b = 10 ∧ K true (go c p s p.currentChar)) ∨ b ≠ 10 ∧ ((b = 13 ∧ K true (go c p s p.currentChar)) ∨
        (b ≠ 13 ∧ K false (go c p (b :: s) p.currentChar)))))) ↔ _
    generalize K true (go c p s p.currentChar) = X
    generalize K false (go c p (b :: s) p.currentChar) = Y
    have n1 : (32 : UInt8) ≠ 9 := by decide
    have n2 : (32 : UInt8) ≠ 10 := by decide
    by_cases h1 : b = 32
    · simp [h1]
    · by_cases h2 : b = 9
      · simp [h2]
      · by_cases h3 : b = 10
        · simp [h3]
        · by_cases h4 : b = 13
          · simp [h4]
          · simp [h1, h2, h3, h4]

end
end Parser
end GoVtd
