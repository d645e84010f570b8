import Verif.Spec.Fits
import Verif.Proofs.Parser.Tree

/-!
# Which trees are accepted
-/

namespace GoVtd
namespace Tree

open Grammar

/-! ## Bytes -/

theorem span_eq {P : UInt8 → Prop} {w w' : List UInt8} {b b' : UInt8} {s s' : List UInt8}
    (h : w ++ b :: s = w' ++ b' :: s') (hw : ∀ x ∈ w, P x) (hb : ¬ P b) (hw' : ∀ x ∈ w', P x) (hb' : ¬ P b') :
    w = w' ∧ b = b' ∧ s = s' := by
  induction w generalizing w' with
  | nil =>
    cases w' with
    | nil => simpa using h
    | cons x w' =>
      simp only [List.nil_append, List.cons_append, List.cons.injEq] at h
      exact absurd (h.1 ▸ hw' x (by simp)) hb
  | cons x w ih =>
    cases w' with
    | nil =>
      simp only [List.nil_append, List.cons_append, List.cons.injEq] at h
      exact absurd (h.1 ▸ hw x (by simp)) hb'
    | cons y w' =>
      simp only [List.cons_append, List.cons.injEq] at h
      obtain ⟨rfl, h⟩ := h
      obtain ⟨rfl, h2, h3⟩ := ih h (fun x hx => hw x (by simp [hx])) (fun x hx => hw' x (by simp [hx]))
      exact ⟨rfl, h2, h3⟩

theorem start_not_ws {b : UInt8} (h : StartByte b) : ¬ Ws b := fun hw => ws_not_name hw (Or.inl h)

theorem start_ne {b : UInt8} (h : StartByte b) : b ≠ ch% '/' ∧ b ≠ ch% '!' ∧ b ≠ ch% '?' ∧ b ≠ ch% '>' ∧ b ≠ ch% '=' ∧ b ≠ ch% '#' := by
  refine ⟨?_, ?_, ?_, ?_, ?_, ?_⟩ <;> rintro rfl <;> revert h <;> simp only [Spec.NameStartChar] <;> decide

/-! ## References -/

theorem foldl_mod {base : Nat} (m : Nat) (val : UInt8 → Option Nat) (ds : List UInt8) (v : Nat) :
    ds.foldl (fun v b => v * base + (val b).getD 0) (v % m) % m = ds.foldl (fun v b => v * base + (val b).getD 0) v % m := by
  induction ds generalizing v with
  | nil => simp
  | cons b ds ih =>
    simp only [List.foldl_cons]
    rw [← ih (v % m * base + _), ← ih (v * base + _)]
    congr 2
    simp [Nat.add_mod, Nat.mul_mod]

theorem decDigits_iff {ds : List UInt8} (h : ∀ b ∈ ds, decVal b ≠ none) {v : Nat} (hv : v < 2 ^ 32) {r r' : List UInt8} {v' : Nat} :
    DecDigits v (ds ++ ch% ';' :: r) v' r' ↔ v' = ds.foldl (fun v b => v * 10 + (decVal b).getD 0) v % 2 ^ 32 ∧ r' = r := by
  induction ds generalizing v with
  | nil =>
    simp only [List.nil_append, List.foldl_nil, Nat.mod_eq_of_lt hv]
    constructor
    · intro h
      cases h with
      | stop => simp
      | digit h1 h2 => exact absurd h2 (by decide)
    · rintro ⟨rfl, rfl⟩; exact .stop
  | cons b ds ih =>
    have hb := h b (by simp)
    have hd : ch% '0' ≤ b ∧ b ≤ ch% '9' := by
      unfold decVal at hb
      split at hb
      · assumption
      · exact absurd rfl hb
    have he : decVal b = some (b.toNat - ch% '0') := by unfold decVal; rw [if_pos hd]
    have ih := @ih (fun x hx => h x (by simp [hx])) ((v * 10 + (b.toNat - ch% '0')) % 2 ^ 32) (Nat.mod_lt _ (by decide))
    rw [foldl_mod (base := 10)] at ih
    simp only [List.cons_append, List.foldl_cons, he, Option.getD_some]
    rw [← ih]
    constructor
    · intro h
      cases h with
      | stop => exact absurd hd (by decide)
      | digit _ _ h => exact h
    · exact fun h => .digit hd.1 hd.2 h

theorem hexDigits_iff {ds : List UInt8} (h : ∀ b ∈ ds, hexVal b ≠ none) {v : Nat} (hv : v < 2 ^ 32) {r r' : List UInt8} {v' : Nat} :
    HexDigits v (ds ++ ch% ';' :: r) v' r' ↔ v' = ds.foldl (fun v b => v * 16 + (hexVal b).getD 0) v % 2 ^ 32 ∧ r' = r := by
  induction ds generalizing v with
  | nil =>
    simp only [List.nil_append, List.foldl_nil, Nat.mod_eq_of_lt hv]
    constructor
    · intro h
      cases h with
      | stop => simp
      | digit h1 h2 => rw [show hexVal (ch% ';') = none by decide] at h1; exact absurd h1 (by simp)
    · rintro ⟨rfl, rfl⟩; exact .stop
  | cons b ds ih =>
    have hb := h b (by simp)
    obtain ⟨x, he⟩ := Option.ne_none_iff_exists'.1 hb
    have ih := @ih (fun x hx => h x (by simp [hx])) ((v * 16 + x) % 2 ^ 32) (Nat.mod_lt _ (by decide))
    rw [foldl_mod (base := 16)] at ih
    simp only [List.cons_append, List.foldl_cons, he, Option.getD_some]
    rw [← ih]
    constructor
    · intro h
      cases h with
      | stop => exact absurd hb (by decide)
      | digit h1 h => rw [he] at h1; cases h1; exact h
    · exact fun h => .digit he h

theorem name_ne {s : List UInt8} (h : Name s) : ∀ x ∈ s, x ≠ ch% ';' := by
  obtain ⟨b, run, rfl, h1, h2⟩ := h
  rintro x hx rfl
  have : NameByte (ch% ';') := by
    rcases List.mem_cons.1 hx with rfl | hx
    · exact Or.inl h1
    · exact h2 _ hx
  simp only [Spec.NameChar, Spec.NameStartChar] at this
  revert this; decide

theorem name_head {s r : List UInt8} (h : Name s) : ∃ b t, s ++ r = b :: t ∧ StartByte b := by
  obtain ⟨b, run, rfl, h1, h2⟩ := h
  exact ⟨b, run ++ r, rfl, h1⟩

theorem Reference.parse_iff {x : Reference} (h : x.Syntax) {r r' : List UInt8} :
    ∃ y, x.bytes = ch% '&' :: y ∧ ((∃ v, Ref (y ++ r) v r') ↔ x.Accepted ∧ r' = r) := by
  cases x with
  | entity name =>
    refine ⟨_, rfl, ?_⟩
    simp only [List.append_assoc, List.cons_append, List.nil_append]
    constructor
    · rintro ⟨v, hr⟩
      have key : ∀ nm : List UInt8, nm ∈ entityNames → nm ++ ch% ';' :: r' = name ++ ch% ';' :: r → name ∈ entityNames ∧ r' = r := by
        intro nm h1 h2
        have h3 : ∀ nm ∈ entityNames, ∀ x ∈ nm, x ≠ ch% ';' := by decide
        have h3 := h3 nm h1
        obtain ⟨rfl, -, rfl⟩ := span_eq (P := (· ≠ ch% ';')) h2 h3 (by simp) (name_ne h) (by simp)
        exact ⟨h1, rfl⟩
      generalize hz : name ++ ch% ';' :: r = z at hr
      obtain ⟨b, t, h1, h2⟩ := name_head (r := ch% ';' :: r) h
      cases hr with
      | hex => rw [h1] at hz; simp only [List.cons.injEq] at hz; exact absurd hz.1 (start_ne h2).2.2.2.2.2
      | dec => rw [h1] at hz; simp only [List.cons.injEq] at hz; exact absurd hz.1 (start_ne h2).2.2.2.2.2
      | amp => exact key (str% "amp") (by decide) hz.symm
      | apos => exact key (str% "apos") (by decide) hz.symm
      | quot => exact key (str% "quot") (by decide) hz.symm
      | gt => exact key (str% "gt") (by decide) hz.symm
      | lt => exact key (str% "lt") (by decide) hz.symm
    · rintro ⟨h1, rfl⟩
      simp only [Reference.Accepted, entityNames, List.mem_cons, List.not_mem_nil, or_false] at h1
      rcases h1 with rfl | rfl | rfl | rfl | rfl
      · exact ⟨_, .amp⟩
      · exact ⟨_, .apos⟩
      · exact ⟨_, .quot⟩
      · exact ⟨_, .gt⟩
      · exact ⟨_, .lt⟩
  | dec ds =>
    refine ⟨_, rfl, ?_⟩
    simp only [List.append_assoc, List.cons_append, List.nil_append]
    constructor
    · rintro ⟨v, hr⟩
      generalize hz : (ch% '#' :: (ds ++ ch% ';' :: r) : List UInt8) = z at hr
      cases hr with
      | hex =>
        simp only [List.cons.injEq, true_and] at hz
        obtain ⟨h1, h2⟩ := h
        cases ds with
        | nil => exact absurd rfl h1
        | cons b ds =>
          simp only [List.cons_append, List.cons.injEq] at hz
          have := h2 b (by simp)
          rw [hz.1] at this
          exact absurd this (by decide)
      | dec h1 h2 =>
        simp only [List.cons.injEq, true_and] at hz
        rw [← hz, decDigits_iff h.2 (by decide)] at h1
        exact ⟨by rw [h1.1] at h2; exact h2, h1.2⟩
      | amp => simp at hz
      | apos => simp at hz
      | quot => simp at hz
      | gt => simp at hz
      | lt => simp at hz
    · rintro ⟨h1, rfl⟩
      exact ⟨_, .dec ((decDigits_iff h.2 (by decide)).2 ⟨rfl, rfl⟩) h1⟩
  | hex ds =>
    refine ⟨_, rfl, ?_⟩
    simp only [List.append_assoc, List.cons_append, List.nil_append]
    constructor
    · rintro ⟨v, hr⟩
      generalize hz : (ch% '#' :: ch% 'x' :: (ds ++ ch% ';' :: r) : List UInt8) = z at hr
      cases hr with
      | hex h1 h2 =>
        simp only [List.cons.injEq, true_and] at hz
        rw [← hz, hexDigits_iff h.2 (by decide)] at h1
        exact ⟨by rw [h1.1] at h2; exact h2, h1.2⟩
      | dec h1 h2 =>
        simp only [List.cons.injEq, true_and] at hz
        rw [← hz] at h1
        cases h1 with
        | digit _ h1 => exact absurd h1 (by decide)
      | amp => simp at hz
      | apos => simp at hz
      | quot => simp at hz
      | gt => simp at hz
      | lt => simp at hz
    · rintro ⟨h1, rfl⟩
      exact ⟨_, .hex ((hexDigits_iff h.2 (by decide)).2 ⟨rfl, rfl⟩) h1⟩

theorem Reference.no_bracket {x : Reference} (h : x.Syntax) : ∀ b ∈ x.bytes, b ≠ ch% ']' := by
  have key : ∀ ds : List UInt8, ch% ']' ∉ ds → ∀ b ∈ ds ++ [ch% ';'], b ≠ ch% ']' := by
    rintro ds hd b hb rfl
    simp only [List.mem_append, List.mem_singleton] at hb
    rcases hb with hb | hb
    · exact hd hb
    · exact absurd hb (by decide)
  cases x with
  | entity name =>
    simp only [Reference.bytes, List.forall_mem_cons]
    refine ⟨by decide, key _ ?_⟩
    intro hb
    obtain ⟨b, run, rfl, h1, h2⟩ := h
    have : NameByte (ch% ']') := by
      rcases List.mem_cons.1 hb with rfl | hx
      · exact Or.inl h1
      · exact h2 _ hx
    simp only [Spec.NameChar, Spec.NameStartChar] at this
    revert this; decide
  | dec ds =>
    simp only [Reference.bytes, List.forall_mem_cons]
    exact ⟨by decide, by decide, key _ (fun hb => absurd (h.2 _ hb) (by decide))⟩
  | hex ds =>
    simp only [Reference.bytes, List.forall_mem_cons]
    exact ⟨by decide, by decide, by decide, key _ (fun hb => absurd (h.2 _ hb) (by decide))⟩

/-! ## Texts -/

/-- A piece that the parser accepts. -/
def Piece.Accepted : Piece → Prop
  | byte _ => True
  | ref r => r.Accepted

@[simp] theorem Piece.accepted_byte {b : UInt8} : (Piece.byte b).Accepted ↔ True := Iff.rfl
@[simp] theorem Piece.accepted_ref {r : Reference} : (Piece.ref r).Accepted ↔ r.Accepted := Iff.rfl

theorem accepted_refs {t : Text} : (∀ p ∈ t, p.Accepted) ↔ ∀ r ∈ t.refs, r.Accepted := by
  simp only [Text.refs, List.mem_filterMap]
  constructor
  · rintro h r ⟨p, hp, he⟩
    have := h p hp
    cases p with
    | byte => simp at he
    | ref x => simp only [Option.some.injEq] at he; rw [← he]; exact this
  · intro h p hp
    cases p with
    | byte => trivial
    | ref x => exact h x ⟨_, hp, rfl⟩

theorem pair_cons {a b x : UInt8} {s : List UInt8} : HasPair a b (x :: s) ↔ (x = a ∧ s.head? = some b) ∨ HasPair a b s := by
  simp only [HasPair, List.infix_cons_iff]
  constructor
  · rintro (h | h)
    · left
      obtain ⟨v, e⟩ := h
      simp only [List.cons_append, List.nil_append, List.cons.injEq] at e
      exact ⟨e.1.symm, by rw [← e.2]; rfl⟩
    · exact Or.inr h
  · rintro (⟨rfl, h⟩ | h)
    · left
      cases s with
      | nil => simp at h
      | cons y s =>
        simp only [List.head?_cons, Option.some.injEq] at h
        exact ⟨s, by rw [h]; rfl⟩
    · exact Or.inr h

theorem textBody_peel {s r' : List UInt8} (h : TextBody (ch% ']' :: s) r') : TextBody s r' ∧ s.head? ≠ some (ch% '>') := by
  generalize hz : ch% ']' :: s = z at h
  cases h with
  | stop => simp at hz
  | char hb _ =>
    simp only [List.cons.injEq] at hz
    rw [← hz.1] at hb
    exact absurd rfl hb.2.2.2
  | item hi ht =>
    cases hi with
    | ref => simp at hz
    | @brackets k b r h1 h2 =>
      simp only [List.cons.injEq, true_and] at hz
      subst hz
      cases k with
      | zero => exact ⟨ht, by simpa using h2⟩
      | succ k => exact ⟨.item (.brackets (k := k) h1 h2) ht, by simp [List.replicate_succ]⟩

/-- No bracket before `>` in a text that `r` follows. -/
theorem textBody_iff {t : Text} (h : ∀ p ∈ t, p.Syntax) {r r' : List UInt8} :
    TextBody (t.bytes ++ ch% '<' :: r) r' ↔
      (∀ p ∈ t, p.Accepted) ∧ ¬ HasPair (ch% ']') (ch% '>') t.bytes ∧ r' = r := by
  induction t with
  | nil =>
    simp only [Text.bytes_nil, List.nil_append, List.not_mem_nil, false_imp_iff, implies_true, true_and]
    constructor
    · intro h
      refine ⟨by simp [HasPair], ?_⟩
      generalize hz : ch% '<' :: r = z at h
      cases h with
      | stop => simp only [List.cons.injEq, true_and] at hz; exact hz.symm
      | char hb => simp only [List.cons.injEq] at hz; rw [← hz.1] at hb; exact absurd rfl hb.2.1
      | item hi => cases hi <;> simp at hz
    · rintro ⟨-, rfl⟩; exact .stop
  | cons p t ih =>
    have ih := ih (fun p hp => h p (by simp [hp]))
    have hw := h p (by simp)
    cases p with
    | byte b =>
      obtain ⟨h1, h2, h3⟩ := hw
      simp only [Text.bytes_cons, Piece.bytes, List.cons_append, List.nil_append, List.forall_mem_cons, Piece.accepted_byte, Piece.accepted_ref,
        true_and, pair_cons]
      by_cases hb : b = ch% ']'
      · subst hb
        constructor
        · intro ht
          obtain ⟨h4, h5⟩ := textBody_peel ht
          obtain ⟨h6, h7, h8⟩ := ih.1 h4
          refine ⟨h6, ?_, h8⟩
          rintro (⟨-, h9⟩ | h9)
          · cases ht : Text.bytes t with
            | nil => rw [ht] at h9; simp at h9
            | cons x s => rw [ht] at h9 h5; exact h5 h9
          · exact h7 h9
        · rintro ⟨h4, h5, h6⟩
          have := ih.2 ⟨h4, fun h => h5 (Or.inr h), h6⟩
          cases ht : Text.bytes t with
          | nil => rw [ht] at this; exact textBody_bracket this (by decide)
          | cons x s =>
            rw [ht] at this
            exact textBody_bracket this (fun hx => h5 (Or.inl ⟨rfl, by rw [ht, hx]; rfl⟩))
      · have hc : ContentByte b := by
          refine ⟨h1, ?_, ?_, ?_⟩
          · intro h; exact h2 (UInt8.toNat_inj.1 h)
          · intro h; exact h3 (UInt8.toNat_inj.1 h)
          · intro h; exact hb (UInt8.toNat_inj.1 h)
        have e : ((b = ch% ']' ∧ (Text.bytes t).head? = some (ch% '>')) ∨ HasPair (ch% ']') (ch% '>') (Text.bytes t)) ↔
            HasPair (ch% ']') (ch% '>') (Text.bytes t) := by simp [hb]
        rw [e, ← ih]
        constructor
        · intro ht
          generalize hz : b :: (Text.bytes t ++ ch% '<' :: r) = z at ht
          cases ht with
          | stop => simp only [List.cons.injEq] at hz; exact absurd hz.1 h2
          | char _ ht => simp only [List.cons.injEq] at hz; rw [hz.2]; exact ht
          | item hi =>
            cases hi <;> simp only [List.cons.injEq] at hz
            · exact absurd hz.1 h3
            · exact absurd hz.1 hb
        · exact fun ht => .char hc ht
    | ref x =>
      have key : ∀ s, HasPair (ch% ']') (ch% '>') (x.bytes ++ s) ↔ HasPair (ch% ']') (ch% '>') s := by
        intro s
        have : ∀ b ∈ x.bytes, b ≠ ch% ']' := by
          exact Reference.no_bracket hw
        generalize x.bytes = y at this
        induction y with
        | nil => rfl
        | cons b y ih =>
          have ih : HasPair (ch% ']') (ch% '>') (y ++ s) ↔ HasPair (ch% ']') (ch% '>') s := ih (fun b hb => this b (by simp [hb]))
          rw [List.cons_append, pair_cons, ih]
          simp [this b (by simp)]
      simp only [Text.bytes_cons, Piece.bytes, List.forall_mem_cons, Piece.accepted_byte, Piece.accepted_ref, key, List.append_assoc]
      obtain ⟨y, h1, h2⟩ := Reference.parse_iff (r := Text.bytes t ++ ch% '<' :: r) (r' := Text.bytes t ++ ch% '<' :: r) hw
      rw [and_assoc, ← ih, h1]
      constructor
      · intro ht
        generalize hz : ch% '&' :: y ++ (Text.bytes t ++ ch% '<' :: r) = z at ht
        cases ht with
        | stop => simp at hz
        | char hb => simp only [List.cons_append, List.cons.injEq] at hz; rw [← hz.1] at hb; exact absurd rfl hb.2.2.1
        | @item _ r1 _ hi ht =>
          cases hi with
          | ref hr =>
            simp only [List.cons_append, List.cons.injEq, true_and] at hz
            rw [← hz] at hr
            obtain ⟨y', h3, h4⟩ := Reference.parse_iff (r := Text.bytes t ++ ch% '<' :: r) (r' := r1) hw
            have : y' = y := by rw [h1] at h3; simpa using h3.symm
            subst this
            obtain ⟨h5, rfl⟩ := h4.1 ⟨_, hr⟩
            exact ⟨h5, ht⟩
          | brackets => simp at hz
      · rintro ⟨h3, h4⟩
        obtain ⟨v, hr⟩ := h2.2 ⟨h3, rfl⟩
        exact .item (.ref hr) h4

theorem attrBody_iff {q : UInt8} (hq : Quote q) {t : Text} (h : ∀ p ∈ t, p.Syntax ∧ ∀ b, p = .byte b → b ≠ q) {r r' : List UInt8} :
    AttrBody q (t.bytes ++ q :: r) r' ↔ (∀ p ∈ t, p.Accepted) ∧ r' = r := by
  have hq' : q ≠ ch% '&' := by rcases hq with rfl | rfl <;> decide
  induction t with
  | nil =>
    simp only [Text.bytes_nil, List.nil_append, List.not_mem_nil, false_imp_iff, implies_true, true_and]
    constructor
    · intro h
      generalize hz : q :: r = z at h
      cases h with
      | stop => simp only [List.cons.injEq, true_and] at hz; exact hz.symm
      | char _ _ _ hb => simp only [List.cons.injEq] at hz; exact absurd hz.1.symm hb
      | ref => simp only [List.cons.injEq] at hz; exact absurd hz.1 hq'
    · rintro rfl; exact .stop
  | cons p t ih =>
    have ih : AttrBody q (Text.bytes t ++ q :: r) r' ↔ (∀ p ∈ t, p.Accepted) ∧ r' = r := ih (fun p hp => h p (by simp [hp]))
    obtain ⟨hw, hb⟩ := h p (by simp)
    cases p with
    | byte b =>
      obtain ⟨h1, h2, h3⟩ := hw
      simp only [Text.bytes_cons, Piece.bytes, List.cons_append, List.nil_append, List.forall_mem_cons, Piece.accepted_byte, Piece.accepted_ref, true_and]
      rw [← ih]
      constructor
      · intro ht
        generalize hz : b :: (Text.bytes t ++ q :: r) = z at ht
        cases ht with
        | stop => simp only [List.cons.injEq] at hz; exact absurd hz.1 (hb b rfl)
        | char _ _ _ _ ht => simp only [List.cons.injEq] at hz; rw [hz.2]; exact ht
        | ref => simp only [List.cons.injEq] at hz; exact absurd hz.1 h3
      · exact fun ht => .char h1 h2 h3 (hb b rfl) ht
    | ref x =>
      simp only [Text.bytes_cons, Piece.bytes, List.forall_mem_cons, Piece.accepted_byte, Piece.accepted_ref, List.append_assoc]
      obtain ⟨y, h1, h2⟩ := Reference.parse_iff (r := Text.bytes t ++ q :: r) (r' := Text.bytes t ++ q :: r) hw
      rw [and_assoc, ← ih, h1]
      constructor
      · intro ht
        generalize hz : ch% '&' :: y ++ (Text.bytes t ++ q :: r) = z at ht
        cases ht with
        | stop => simp only [List.cons_append, List.cons.injEq] at hz; exact absurd hz.1.symm hq'
        | char _ _ hb => simp only [List.cons_append, List.cons.injEq] at hz; exact absurd hz.1.symm hb
        | @ref _ _ r1 _ hr ht =>
          simp only [List.cons_append, List.cons.injEq, true_and] at hz
          rw [← hz] at hr
          obtain ⟨y', h3, h4⟩ := Reference.parse_iff (r := Text.bytes t ++ q :: r) (r' := r1) hw
          have : y' = y := by rw [h1] at h3; simpa using h3.symm
          subst this
          obtain ⟨h5, rfl⟩ := h4.1 ⟨_, hr⟩
          exact ⟨h5, ht⟩
      · rintro ⟨h3, h4⟩
        obtain ⟨v, hr⟩ := h2.2 ⟨h3, rfl⟩
        exact .ref hr h4

/-! ## Tags -/

theorem ws_cons {w w' : List UInt8} {s r : List UInt8} (h : w ++ s = w' ++ r) (hw : AllWs w) (hw' : AllWs w')
    (hs : ∃ b t, s = b :: t ∧ ¬ Ws b) (hr : ∃ b t, r = b :: t ∧ ¬ Ws b) : w = w' ∧ s = r := by
  obtain ⟨b, t, rfl, hb⟩ := hs
  obtain ⟨b', t', rfl, hb'⟩ := hr
  obtain ⟨h1, h2, h3⟩ := span_eq (P := Ws) h hw hb hw' hb'
  exact ⟨h1, by rw [h2, h3]⟩

theorem close_head {r r' : List UInt8} {e : Bool} (h : Close r e r') :
    ∃ b t, r = b :: t ∧ ¬ Ws b ∧ (b = ch% '>' ∨ b = ch% '/') := by
  cases h with
  | start => exact ⟨_, _, rfl, by simp only [Spec.S]; decide, Or.inl rfl⟩
  | empty => exact ⟨_, _, rfl, by simp only [Spec.S]; decide, Or.inr rfl⟩

theorem close_unique {r r1 r2 : List UInt8} {e1 e2 : Bool} (h : Close r e1 r1) (h' : Close r e2 r2) : e1 = e2 ∧ r1 = r2 := by
  cases h <;> cases h' <;> simp

theorem name_eq {s s' r r' : List UInt8} (h : s ++ r = s' ++ r') (hs : AllName s) (hs' : AllName s')
    (hr : ∃ b t, r = b :: t ∧ ¬ NameByte b) (hr' : ∃ b t, r' = b :: t ∧ ¬ NameByte b) : s = s' ∧ r = r' := by
  obtain ⟨b, t, rfl, hb⟩ := hr
  obtain ⟨b', t', rfl, hb'⟩ := hr'
  obtain ⟨h1, h2, h3⟩ := span_eq (P := NameByte) h hs hb hs' hb'
  exact ⟨h1, by rw [h2, h3]⟩

theorem Name.all {s : List UInt8} (h : Name s) : AllName s := by
  obtain ⟨b, run, rfl, h1, h2⟩ := h
  intro x hx
  rcases List.mem_cons.1 hx with rfl | hx
  · exact Or.inl h1
  · exact h2 x hx

theorem ws_head {w r : List UInt8} (hw : AllWs w) (hr : ∃ b t, r = b :: t ∧ ¬ NameByte b) :
    ∃ b t, w ++ r = b :: t ∧ ¬ NameByte b := by
  cases w with
  | nil => exact hr
  | cons x w => exact ⟨x, _, rfl, ws_not_name (hw x (by simp))⟩

/-- The limits of an attribute. -/
structure Attr.Fit (a : Attr) : Prop where
  name : a.name.length ≤ 2047
  pre : lastColon 0 0 a.name ≤ 511
  value : a.value.bytes.length ≤ maxLen
  refs : ∀ p ∈ a.value, p.Accepted

/-- The limits of a tag. -/
structure StartTag.Fit (d : Nat) (t : StartTag) : Prop where
  depth : d ≤ 254
  name : t.name.length ≤ 2047
  pre : lastColon 0 0 t.name ≤ 511
  attrs : ∀ a ∈ t.attrs, a.Fit
  count : t.attrs.length ≤ 256
  unique : (t.attrs.map Attr.name).Nodup

theorem quote_facts {q : UInt8} (h : Quote q) : ¬ Ws q := by
  rcases h with rfl | rfl <;> simp only [Spec.S] <;> decide

theorem attr_iff {n d : Nat} {a : Attr} (h : a.Syntax) {seen : List (List UInt8)} {r : List UInt8} {e : Bool} {r' : List UInt8} :
    (∃ recs, TagRest n d seen (a.bytes ++ r) recs e r') ↔
      a.Fit ∧ a.name ∉ seen ∧ seen.length < 256 ∧ ∃ recs, TagRest n d (a.name :: seen) r recs e r' := by
  obtain ⟨b, run, hn, hb, hr⟩ := h.name
  have heq : ¬ NameByte (ch% '=') ∧ ¬ Ws (ch% '=') := by
    simp only [Spec.NameChar, Spec.NameStartChar, Spec.S]; decide
  constructor
  · rintro ⟨recs, ht⟩
    generalize hz : a.bytes ++ r = z at ht
    simp only [Attr.bytes, List.append_assoc, List.cons_append, List.nil_append] at hz
    cases ht with
    | close hw hc =>
      obtain ⟨c, t, rfl, h1, h2⟩ := close_head hc
      obtain ⟨-, h3⟩ := ws_cons hz h.space.2.1 hw (by rw [hn]; exact ⟨b, _, rfl, start_not_ws hb⟩) ⟨c, t, rfl, h1⟩
      rw [hn] at h3
      simp only [List.cons_append, List.cons.injEq] at h3
      rcases h2 with rfl | rfl
      · exact absurd h3.1 (start_ne hb).2.2.2.1
      · exact absurd h3.1 (start_ne hb).1
    | @attr _ w b' run' w1 w2 q r0 r1 recs e r' g1 g2 g3 g4 g5 g6 g7 g8 g9 g10 g11 g12 g13 g14 =>
      simp only [List.append_assoc, List.cons_append] at hz
      obtain ⟨-, h3⟩ := ws_cons hz h.space.2.1 g2 (by rw [hn]; exact ⟨b, _, rfl, start_not_ws hb⟩)
        ⟨b', _, rfl, start_not_ws g3⟩
      rw [← List.cons_append] at h3
      obtain ⟨h4, h5⟩ := name_eq h3 h.name.all (Name.all ⟨b', run', rfl, g3, g4⟩)
        (ws_head h.space.2.2.1 ⟨_, _, rfl, heq.1⟩) (ws_head g9 ⟨_, _, rfl, heq.1⟩)
      obtain ⟨-, h6⟩ := ws_cons h5 h.space.2.2.1 g9 ⟨_, _, rfl, heq.2⟩ ⟨_, _, rfl, heq.2⟩
      simp only [List.cons.injEq, true_and] at h6
      obtain ⟨-, h7⟩ := ws_cons h6 h.space.2.2.2 g10 ⟨_, _, rfl, quote_facts h.quote⟩ ⟨_, _, rfl, quote_facts g11⟩
      simp only [List.cons.injEq] at h7
      obtain ⟨rfl, rfl⟩ := h7
      obtain ⟨h8, rfl⟩ := (attrBody_iff g11 h.value).1 g12
      rw [← h4] at g5 g7 g14
      refine ⟨⟨by rw [h4]; exact g8, g7, ?_, h8⟩, g5, g6, _, g14⟩
      simp only [List.length_append, List.length_cons] at g13
      omega
  · rintro ⟨hs, h1, h2, recs, ht⟩
    have hv := (attrBody_iff (r := r) (r' := r) h.quote h.value).2 ⟨hs.refs, rfl⟩
    have := TagRest.attr (n := n) (depth := d) (seen := seen) (w := a.space) (b := b) (run := run) (w1 := a.space1) (w2 := a.space2)
      (q := a.quote) (r := a.value.bytes ++ a.quote :: r) (r1 := r) h.space.1 h.space.2.1 hb hr (hn ▸ h1) h2
      (hn ▸ hs.pre) (by have := hs.name; rw [hn] at this; simpa using this) h.space.2.2.1 h.space.2.2.2 h.quote hv
      (by simp only [List.length_append, List.length_cons]; have := hs.value; omega) (hn ▸ ht)
    have e1 : a.space ++ b :: run ++ a.space1 ++ ch% '=' :: a.space2 ++ a.quote :: (a.value.bytes ++ a.quote :: r) =
        a.bytes ++ r := by
      simp [Attr.bytes, hn]
    rw [e1] at this
    exact ⟨_, this⟩

theorem attrs_iff {n d : Nat} {as : List Attr} (h : ∀ a ∈ as, a.Syntax) {seen : List (List UInt8)} (hseen : seen.length ≤ 256)
    {w : List UInt8} (hw : AllWs w) {r : List UInt8} {e : Bool} {r' : List UInt8} (hc : Close r e r') {e2 : Bool} {r2 : List UInt8} :
    (∃ recs, TagRest n d seen (as.flatMap Attr.bytes ++ (w ++ r)) recs e2 r2) ↔
      ((∀ a ∈ as, a.Fit) ∧ (as.map Attr.name).Nodup ∧ (∀ a ∈ as, a.name ∉ seen) ∧ seen.length + as.length ≤ 256) ∧
      e2 = e ∧ r2 = r' := by
  induction as generalizing seen with
  | nil =>
    simp only [List.flatMap_nil, List.nil_append, List.not_mem_nil, false_imp_iff, implies_true, List.map_nil, List.nodup_nil,
      true_and, List.length_nil, Nat.add_zero, hseen]
    constructor
    · rintro ⟨recs, ht⟩
      generalize hz : w ++ r = z at ht
      obtain ⟨c, t, h0, h1, h2⟩ := close_head hc
      cases ht with
      | close hw' hc' =>
        obtain ⟨c', t', h0', h1', h2'⟩ := close_head hc'
        obtain ⟨-, rfl⟩ := ws_cons hz hw hw' ⟨c, t, h0, h1⟩ ⟨c', t', h0', h1'⟩
        exact close_unique hc' hc
      | attr g1 g2 g3 =>
        simp only [List.append_assoc, List.cons_append] at hz
        obtain ⟨-, h3⟩ := ws_cons hz hw g2 ⟨c, t, h0, h1⟩ ⟨_, _, rfl, start_not_ws g3⟩
        rw [h0] at h3
        simp only [List.cons.injEq] at h3
        rw [← h3.1] at g3
        rcases h2 with rfl | rfl
        · exact absurd rfl (start_ne g3).2.2.2.1
        · exact absurd rfl (start_ne g3).1
    · rintro ⟨rfl, rfl⟩
      exact ⟨_, .close hw hc⟩
  | cons a as ih =>
    simp only [List.flatMap_cons, List.append_assoc]
    rw [attr_iff (h a (by simp))]
    constructor
    · rintro ⟨h1, h2, h3, h4⟩
      rw [ih (fun x hx => h x (by simp [hx])) (seen := a.name :: seen) (by simp only [List.length_cons]; omega)] at h4
      obtain ⟨⟨h5, h6, h7, h8⟩, h9⟩ := h4
      refine ⟨⟨?_, ?_, ?_, ?_⟩, h9⟩
      · exact List.forall_mem_cons.2 ⟨h1, h5⟩
      · simp only [List.map_cons, List.nodup_cons]
        refine ⟨?_, h6⟩
        intro hm
        obtain ⟨x, hx, he⟩ := List.mem_map.1 hm
        exact h7 x hx (by simp [he])
      · exact List.forall_mem_cons.2 ⟨h2, fun x hx hm => h7 x hx (by simp [hm])⟩
      · simp only [List.length_cons] at h8 ⊢; omega
    · rintro ⟨⟨h5, h6, h7, h8⟩, h9⟩
      simp only [List.map_cons, List.nodup_cons] at h6
      simp only [List.length_cons] at h8
      obtain ⟨f1, f2⟩ := List.forall_mem_cons.1 h5
      obtain ⟨k1, k2⟩ := List.forall_mem_cons.1 h7
      refine ⟨f1, k1, by omega, (ih (fun x hx => h x (by simp [hx])) (seen := a.name :: seen)
        (by simp only [List.length_cons]; omega)).2 ⟨⟨f2, h6.2, ?_, by simp only [List.length_cons]; omega⟩, h9⟩⟩
      intro x hx hm
      rcases List.mem_cons.1 hm with e | hm
      · exact h6.1 (e ▸ List.mem_map_of_mem hx)
      · exact k2 x hx hm

theorem StartTag.next {t : StartTag} (h : t.Syntax) {c : UInt8} {s : List UInt8} (hc : ¬ NameByte c) :
    ∃ x r, t.attrs.flatMap Attr.bytes ++ (t.space ++ c :: s) = x :: r ∧ ¬ NameByte x := by
  cases ha : t.attrs with
  | nil => rw [List.flatMap_nil, List.nil_append]; exact ws_head h.space ⟨_, _, rfl, hc⟩
  | cons a as =>
    obtain ⟨h1, h2, -⟩ := (h.attrs a (by simp [ha])).space
    cases hw : a.space with
    | nil => exact absurd hw h1
    | cons x w => exact ⟨x, _, by simp only [List.flatMap_cons, Attr.bytes, hw, List.cons_append]; rfl, ws_not_name (h2 x (by simp [hw]))⟩

theorem lastColon_one (b : UInt8) (run : List UInt8) : lastColon 0 0 (b :: run) = lastColon 1 0 run := by
  simp only [lastColon, ite_self, Nat.zero_add]

theorem tag_iff {n d : Nat} {t : StartTag} (h : t.Syntax) {c : UInt8} {r r' : List UInt8} {e : Bool}
    (hc : ¬ NameByte c) (hcl : Close (c :: r) e r') :
    ∃ s, t.bytes ++ c :: r = ch% '<' :: s ∧ (∃ b s', s = b :: s' ∧ StartByte b) ∧
      ∀ name e2 r2, (∃ recs, Tag n d [] name s recs e2 r2) ↔ t.Fit d ∧ name = t.name ∧ e2 = e ∧ r2 = r' := by
  obtain ⟨b, run, hn, hb, hr⟩ := h.name
  obtain ⟨x, y, hxy, hx⟩ := StartTag.next h (s := r) hc
  refine ⟨b :: (run ++ x :: y), ?_, ⟨_, _, rfl, hb⟩, ?_⟩
  · rw [← hxy]; simp [StartTag.bytes, hn]
  intro name e2 r2
  have ha := attrs_iff (n := n) (d := d) (seen := []) h.attrs (by simp) h.space hcl (e2 := e2) (r2 := r2)
  rw [hxy] at ha
  constructor
  · rintro ⟨recs, ht⟩
    generalize hz : b :: (run ++ x :: y) = z at ht
    cases ht with
    | @mk b' run' x' r0 recs0 _ _ g1 g2 g3 g4 g5 g6 g7 =>
      simp only [List.cons.injEq] at hz
      obtain ⟨rfl, hz⟩ := hz
      obtain ⟨rfl, rfl, rfl⟩ := span_eq (P := NameByte) hz hr hx g2 g3
      obtain ⟨⟨h1, h2, -, h3⟩, h4, h5⟩ := ha.1 ⟨_, g7⟩
      simp only [List.nil_append] at g6 ⊢
      exact ⟨⟨g4, by rw [hn]; exact g6, by rw [hn, lastColon_one]; exact g5, h1, by simpa using h3, h2⟩, hn.symm, h4, h5⟩
  · rintro ⟨hs, rfl, h4, h5⟩
    obtain ⟨recs, ht⟩ := ha.2 ⟨⟨hs.attrs, hs.unique, by simp, by have := hs.count; simpa using this⟩, h4, h5⟩
    rw [hn]
    refine ⟨_, Tag.mk (pre := []) hb hr hx hs.depth ?_ ?_ ht⟩
    · have := hs.pre; rw [hn, lastColon_one] at this; exact this
    · have := hs.name; rw [hn] at this; exact this

/-! ## Markup without content -/

theorem commentBody_unique {s r r' : List UInt8} (h : CommentBody s r) (h' : CommentBody s r') : r = r' := by
  induction h with
  | stop =>
    cases h' with
    | stop => rfl
    | char _ h => exact absurd rfl (h rfl)
  | char _ h1 _ ih =>
    cases h' with
    | stop => exact absurd rfl (h1 rfl)
    | char _ _ h => exact ih h

theorem piBody_unique {s r r' : List UInt8} (h : PiBody s r) (h' : PiBody s r') : r = r' := by
  induction h with
  | stop =>
    cases h' with
    | stop => rfl
    | char _ h => exact absurd rfl (h rfl)
  | char _ h1 _ ih =>
    cases h' with
    | stop => exact absurd rfl (h1 rfl)
    | char _ _ h => exact ih h

theorem brackets_eq {k k' : Nat} {b b' : UInt8} {s s' : List UInt8}
    (h : List.replicate k (ch% ']') ++ b :: s = List.replicate k' (ch% ']') ++ b' :: s') (hb : b ≠ ch% ']') (hb' : b' ≠ ch% ']') :
    b = b' ∧ s = s' := by
  have := span_eq (P := (· = ch% ']')) h (fun x hx => (List.mem_replicate.1 hx).2) hb (fun x hx => (List.mem_replicate.1 hx).2) hb'
  exact this.2

theorem cdataBody_unique {s r r' : List UInt8} (h : CdataBody s r) (h' : CdataBody s r') : r = r' := by
  induction h with
  | @stop k r =>
    generalize hz : ch% ']' :: (List.replicate k (ch% ']') ++ ch% '>' :: r) = z at h'
    cases h' with
    | stop => simp only [List.cons.injEq, true_and] at hz; exact (brackets_eq hz (by decide) (by decide)).2
    | char _ hb => simp only [List.cons.injEq] at hz; exact absurd hz.1.symm hb
    | brackets h1 h2 =>
      simp only [List.cons.injEq, true_and] at hz
      exact absurd (brackets_eq hz (by decide) h1).1.symm h2
  | @char b s r _ hb _ ih =>
    generalize hz : b :: s = z at h'
    cases h' with
    | stop => simp only [List.cons.injEq] at hz; exact absurd hz.1 hb
    | char _ _ h => simp only [List.cons.injEq] at hz; exact ih (hz.2 ▸ h)
    | brackets => simp only [List.cons.injEq] at hz; exact absurd hz.1 hb
  | @brackets k b s r h1 h2 _ ih =>
    generalize hz : ch% ']' :: (List.replicate k (ch% ']') ++ b :: s) = z at h'
    cases h' with
    | stop => simp only [List.cons.injEq, true_and] at hz; exact absurd (brackets_eq hz h1 (by decide)).1 h2
    | char _ hb => simp only [List.cons.injEq] at hz; exact absurd hz.1.symm hb
    | brackets g1 g2 h =>
      simp only [List.cons.injEq, true_and] at hz
      obtain ⟨rfl, rfl⟩ := brackets_eq hz h1 g1
      exact ih h

theorem xmlPrefix_cons {a b c : UInt8} {r : List UInt8} (h : XmlPrefix [a, b, c]) : XmlPrefix (a :: b :: c :: r) := by
  obtain ⟨x, y, z, r', e, h⟩ := h
  simp only [List.cons.injEq] at e
  obtain ⟨rfl, rfl, rfl, -⟩ := e
  exact ⟨_, _, _, r, rfl, h⟩

theorem piTarget_unique {s r r' : List UInt8} {x x' : UInt8} (h : PiTarget s x r) (h' : PiTarget s x' r') : x = x' ∧ r = r' := by
  cases h with
  | @plain b run _ _ h1 h2 h3 h4 =>
    generalize hz : b :: (run ++ x :: r) = z at h'
    cases h' with
    | plain g1 g2 g3 g4 =>
      simp only [List.cons.injEq] at hz
      exact (span_eq (P := NameByte) hz.2 h3 h4 g3 g4).2
    | xml g1 => exact absurd (xmlPrefix_cons g1) (hz ▸ h2)
  | @xml a b c y run _ _ h1 _ _ h3 h4 =>
    generalize hz : a :: b :: c :: y :: (run ++ x :: r) = z at h'
    cases h' with
    | plain g1 g2 => exact absurd (xmlPrefix_cons h1) (hz ▸ g2)
    | xml _ _ _ g3 g4 =>
      simp only [List.cons.injEq] at hz
      exact (span_eq (P := NameByte) hz.2.2.2.2 h3 h4 g3 g4).2

theorem piEndTarget_unique {s r r' : List UInt8} {x x' : UInt8} (h : PiEndTarget s x r) (h' : PiEndTarget s x' r') :
    x = x' ∧ r = r' := by
  cases h with
  | @mk b run _ _ h1 h2 h3 h4 =>
    generalize hz : b :: (run ++ x :: r) = z at h'
    cases h' with
    | mk g1 g2 g3 g4 =>
      simp only [List.cons.injEq] at hz
      exact (span_eq (P := NameByte) hz.2 h3 h4 g3 g4).2

/-- The limits of a processing instruction. -/
def PiFit (t : List UInt8) (x : Option (UInt8 × List UInt8)) : Prop :=
  t.length ≤ maxLen ∧ ∀ s data, x = some (s, data) → data.length ≤ maxLen

theorem pi_iff {n : Nat} {dep : Int} {t : List UInt8} {x : Option (UInt8 × List UInt8)} (h : (Atom.pi t x).WellFormed)
    (r : List UInt8) :
    ∃ s, (Atom.pi t x).bytes ++ r = ch% '<' :: ch% '?' :: s ∧
      ∀ r', (∃ recs, Pi n dep s recs r') ↔ PiFit t x ∧ r' = r := by
  obtain ⟨h1, h2, h3⟩ := h
  have hq : ¬ Ws (ch% '?') := by simp only [Spec.S]; decide
  cases x with
  | none =>
    refine ⟨t ++ ch% '?' :: ch% '>' :: r, by simp [Atom.bytes], ?_⟩
    have ht := piTarget (r := ch% '>' :: r) h1 h2 close_not_name.2.2
    have e1 : (t ++ ch% '?' :: ch% '>' :: r).length - (r.length + 2) = t.length := by
      simp only [List.length_append, List.length_cons]; omega
    intro r'
    constructor
    · rintro ⟨recs, hp⟩
      cases hp with
      | bare g1 g2 =>
        obtain ⟨-, e⟩ := piTarget_unique ht g1
        simp only [List.cons.injEq, true_and] at e
        subst e
        exact ⟨⟨by rw [e1] at g2; exact g2, nofun⟩, rfl⟩
      | value g1 g2 =>
        obtain ⟨rfl, -⟩ := piTarget_unique ht g1
        exact absurd g2 hq
    · rintro ⟨h4, rfl⟩
      exact ⟨_, .bare ht (by rw [e1]; exact h4.1)⟩
  | some y =>
    obtain ⟨c, data⟩ := y
    obtain ⟨h5, h6, h7⟩ := h3 c data rfl
    refine ⟨t ++ c :: (data ++ (str% "?>" ++ r)), by simp [Atom.bytes], ?_⟩
    have ht := piTarget (r := data ++ (str% "?>" ++ r)) h1 h2 (ws_not_name h5)
    have hb := piBody h6 h7 r
    have e1 : (t ++ c :: (data ++ (str% "?>" ++ r))).length - ((data ++ (str% "?>" ++ r)).length + 1) = t.length := by
      simp only [List.length_append, List.length_cons]; omega
    have e2 : (data ++ (str% "?>" ++ r)).length - (r.length + 2) = data.length := by
      simp only [List.length_append, List.length_cons, List.length_nil]; omega
    intro r'
    constructor
    · rintro ⟨recs, hp⟩
      cases hp with
      | bare g1 g2 =>
        obtain ⟨rfl, -⟩ := piTarget_unique ht g1
        exact absurd h5 hq
      | value g1 g2 g3 g4 g5 =>
        obtain ⟨rfl, rfl⟩ := piTarget_unique ht g1
        have := piBody_unique hb g4
        subst this
        rw [e1] at g3
        rw [e2] at g5
        refine ⟨⟨g3, ?_⟩, rfl⟩
        intro s d e
        simp only [Option.some.injEq, Prod.mk.injEq] at e
        rw [← e.2]; exact g5
    · rintro ⟨h4, rfl⟩
      exact ⟨_, .value ht h5 (by rw [e1]; exact h4.1) hb (by rw [e2]; exact h4.2 _ _ rfl)⟩

/-- The limits of an atom. -/
def Atom.Fit (d : Nat) : Atom → Prop
  | empty tag => tag.Fit d
  | cdata _ => True
  | comment _ => True
  | pi t x => PiFit t x

theorem start_markup {n d : Nat} {b : UInt8} {s : List UInt8} {recs : List Rec} {r' : List UInt8}
    (h : Inside n d .markup (b :: s) recs r') (hb : StartByte b) :
    (∃ name recs r1 recs1, Tag n d [] name (b :: s) recs true r1 ∧ Inside n d (.content .other) r1 recs1 r') ∨
    ∃ name recs r1 recs1 w r2 recs2, Tag n d [] name (b :: s) recs false r1 ∧
      Inside n (d + 1) (.content .start) r1 recs1 (name ++ w ++ ch% '>' :: r2) ∧ AllWs w ∧
      Inside n d (.content .end) r2 recs2 r' := by
  generalize hz : b :: s = z at h
  obtain ⟨k1, k2, k3, -⟩ := start_ne hb
  cases h with
  | endTag => simp only [List.cons.injEq] at hz; exact absurd hz.1 k1
  | empty h1 h2 => exact Or.inl ⟨_, _, _, _, h1, h2⟩
  | element h1 h2 h3 h4 => exact Or.inr ⟨_, _, _, _, _, _, _, h1, h2, h3, h4⟩
  | comment => simp only [List.cons_append, List.cons.injEq] at hz; exact absurd hz.1 k2
  | cdata => simp only [List.cons_append, List.cons.injEq] at hz; exact absurd hz.1 k2
  | doctype => simp only [List.cons_append, List.cons.injEq] at hz; exact absurd hz.1 k2
  | pi => simp only [List.cons.injEq] at hz; exact absurd hz.1 k3

theorem tag_start {n d : Nat} {pre name s : List UInt8} {recs : List Rec} {e : Bool} {r : List UInt8} (h : Tag n d pre name s recs e r) :
    ∃ b s', s = b :: s' ∧ StartByte b := by
  cases h with
  | mk h => exact ⟨_, _, rfl, h⟩

theorem atom_iff {n d : Nat} {a : Atom} (h : a.Syntax) (hp : ∀ data, a = .cdata data → ¬ HasPair (ch% ']') (ch% '>') data)
    (r : List UInt8) :
    ∃ s, a.bytes ++ r = ch% '<' :: s ∧ s.head? ≠ some (ch% '/') ∧
      ∀ r', (∃ recs, Inside n d .markup s recs r') ↔ a.Fit d ∧ ∃ recs, Inside n d (.content .other) r recs r' := by
  cases a with
  | empty tag =>
    obtain ⟨s, h1, ⟨b, s', rfl, h3⟩, h4⟩ := tag_iff (n := n) (d := d) (c := ch% '/') (r := ch% '>' :: r) (r' := r) (e := true) h
      close_not_name.2.1 .empty
    have e : (Atom.empty tag).bytes ++ r = tag.bytes ++ ch% '/' :: ch% '>' :: r := by simp [Atom.bytes]
    rw [e]
    refine ⟨_, h1, by simpa using (start_ne h3).1, ?_⟩
    intro r'
    constructor
    · rintro ⟨recs, hi⟩
      rcases start_markup hi h3 with ⟨name, recs, r1, recs1, g1, g2⟩ | ⟨name, recs, r1, recs1, w, r2, recs2, g1, -⟩
      · obtain ⟨g3, -, -, rfl⟩ := (h4 _ _ _).1 ⟨_, g1⟩
        exact ⟨g3, _, g2⟩
      · obtain ⟨-, -, g4, -⟩ := (h4 _ _ _).1 ⟨_, g1⟩
        exact absurd g4 (by decide)
    · rintro ⟨g1, recs, g2⟩
      obtain ⟨recs', g3⟩ := (h4 tag.name true r).2 ⟨g1, rfl, rfl, rfl⟩
      exact ⟨_, .empty g3 g2⟩
  | cdata data =>
    refine ⟨str% "![CDATA[" ++ (data ++ (str% "]]>" ++ r)), by simp [Atom.bytes], by simp, ?_⟩
    have hb := cdataBody h.1 (hp _ rfl) r
    intro r'
    constructor
    · rintro ⟨recs, hi⟩
      refine ⟨trivial, ?_⟩
      generalize hz : (str% "![CDATA[" ++ (data ++ (str% "]]>" ++ r)) : List UInt8) = z at hi
      cases hi with
      | endTag => simp at hz
      | empty g => obtain ⟨b, s, rfl, g1⟩ := tag_start g; simp only [List.cons_append, List.cons.injEq] at hz; exact absurd hz.1.symm (start_ne g1).2.1
      | element g => obtain ⟨b, s, rfl, g1⟩ := tag_start g; simp only [List.cons_append, List.cons.injEq] at hz; exact absurd hz.1.symm (start_ne g1).2.1
      | comment => simp at hz
      | cdata g1 g2 =>
        have e := List.append_cancel_left hz
        rw [← e] at g1
        rw [cdataBody_unique hb g1]
        exact ⟨_, g2⟩
      | doctype => simp at hz
      | pi => simp at hz
    · rintro ⟨-, recs, g⟩
      exact ⟨_, .cdata hb g⟩
  | comment data =>
    refine ⟨str% "!--" ++ (data ++ (str% "-->" ++ r)), by simp [Atom.bytes], by simp, ?_⟩
    have hb := commentBody h.1 h.2 r
    intro r'
    constructor
    · rintro ⟨recs, hi⟩
      refine ⟨trivial, ?_⟩
      generalize hz : (str% "!--" ++ (data ++ (str% "-->" ++ r)) : List UInt8) = z at hi
      cases hi with
      | endTag => simp at hz
      | empty g => obtain ⟨b, s, rfl, g1⟩ := tag_start g; simp only [List.cons_append, List.cons.injEq] at hz; exact absurd hz.1.symm (start_ne g1).2.1
      | element g => obtain ⟨b, s, rfl, g1⟩ := tag_start g; simp only [List.cons_append, List.cons.injEq] at hz; exact absurd hz.1.symm (start_ne g1).2.1
      | comment g1 g2 =>
        have e := List.append_cancel_left hz
        rw [← e] at g1
        have := commentBody_unique hb g1
        simp only [List.cons.injEq, true_and] at this
        rw [this]
        exact ⟨_, g2⟩
      | cdata => simp at hz
      | doctype => simp at hz
      | pi => simp at hz
    · rintro ⟨-, recs, g⟩
      exact ⟨_, .comment hb g⟩
  | pi target data =>
    obtain ⟨s, h1, h2⟩ := pi_iff (n := n) (dep := d - 1) h r
    refine ⟨ch% '?' :: s, h1, by simp, ?_⟩
    intro r'
    constructor
    · rintro ⟨recs, hi⟩
      generalize hz : ch% '?' :: s = z at hi
      cases hi with
      | endTag => simp at hz
      | empty g => obtain ⟨b, s, rfl, g1⟩ := tag_start g; simp only [List.cons.injEq] at hz; exact absurd hz.1.symm (start_ne g1).2.2.1
      | element g => obtain ⟨b, s, rfl, g1⟩ := tag_start g; simp only [List.cons.injEq] at hz; exact absurd hz.1.symm (start_ne g1).2.2.1
      | comment => simp at hz
      | cdata => simp at hz
      | doctype => simp at hz
      | pi g1 g2 =>
        simp only [List.cons.injEq, true_and] at hz
        subst hz
        obtain ⟨g3, rfl⟩ := (h2 _).1 ⟨_, g1⟩
        exact ⟨g3, _, g2⟩
    · rintro ⟨g1, recs, g2⟩
      obtain ⟨recs', g3⟩ := (h2 r).2 ⟨g1, rfl⟩
      exact ⟨_, .pi g3 g2⟩

/-! ## Content -/

theorem endTag_iff {n d : Nat} {r r' : List UInt8} : (∃ recs, Inside n d .markup (ch% '/' :: r) recs r') ↔ r' = r := by
  constructor
  · rintro ⟨recs, hi⟩
    generalize hz : ch% '/' :: r = z at hi
    cases hi with
    | endTag => simp only [List.cons.injEq, true_and] at hz; exact hz.symm
    | empty g => obtain ⟨b, s, rfl, g1⟩ := tag_start g; simp only [List.cons.injEq] at hz; exact absurd hz.1.symm (start_ne g1).1
    | element g => obtain ⟨b, s, rfl, g1⟩ := tag_start g; simp only [List.cons.injEq] at hz; exact absurd hz.1.symm (start_ne g1).1
    | comment => simp at hz
    | cdata => simp at hz
    | doctype => simp at hz
    | pi => simp at hz
  · rintro rfl; exact ⟨_, .endTag⟩

theorem ws_contentByte {b : UInt8} (h : Ws b) : ContentByte b := by
  simp only [Spec.S] at h
  refine ⟨?_, ?_, ?_, ?_⟩
  · simp only [Spec.Char11]; omega
  all_goals intro e; rw [e] at h; revert h; decide

theorem textBody_ws_iff {w s r' : List UInt8} (hw : AllWs w) : TextBody (w ++ s) r' ↔ TextBody s r' := by
  refine ⟨fun h => textBody_ws h hw, ?_⟩
  induction w with
  | nil => exact id
  | cons b w ih =>
    intro h
    exact .char (ws_contentByte (hw b (by simp))) (ih (fun x hx => hw x (by simp [hx])) h)

/-- What the parser wants of a text. -/
def TextFit (t : Text) : Prop := (∀ p ∈ t, p.Accepted) ∧ ¬ HasPair (ch% ']') (ch% '>') t.bytes

theorem lt_not_ws : ¬ Ws (ch% '<') ∧ ¬ Ws (ch% '&') ∧ ¬ Ws (ch% ']') := by simp only [Spec.S]; decide

theorem not_lt_bytes {t : Text} (h : ∀ p ∈ t, p.Syntax) {w r : List UInt8} {b : UInt8} (e : t.bytes = w ++ b :: r) (hw : AllWs w)
    : b ≠ ch% '<' := by
  induction t generalizing w with
  | nil => simp at e
  | cons p t ih =>
    have hp := h p (by simp)
    cases p with
    | byte x =>
      simp only [Text.bytes_cons, Piece.bytes, List.cons_append, List.nil_append] at e
      cases w with
      | nil =>
        simp only [List.nil_append, List.cons.injEq] at e
        rw [← e.1]; exact hp.2.1
      | cons y w =>
        simp only [List.cons_append, List.cons.injEq] at e
        exact ih (fun p hp => h p (by simp [hp])) e.2 (fun x hx => hw x (by simp [hx]))
    | ref x =>
      obtain ⟨y, e1, -⟩ := Reference.parse_iff (r := []) (r' := []) hp
      simp only [Text.bytes_cons, Piece.bytes, e1, List.cons_append] at e
      cases w with
      | nil =>
        simp only [List.nil_append, List.cons.injEq] at e
        rw [← e.1]; decide
      | cons z w =>
        simp only [List.cons_append, List.cons.injEq] at e
        have := hw z (by simp)
        rw [← e.1] at this
        exact absurd this lt_not_ws.2.1

theorem blank_fit {t : Text} (h : ∀ p ∈ t, p.Syntax) (hw : AllWs t.bytes) : TextFit t := by
  constructor
  · intro p hp
    cases p with
    | byte => trivial
    | ref x =>
      obtain ⟨y, e1, -⟩ := Reference.parse_iff (r := []) (r' := []) (h _ hp)
      have : Ws (ch% '&') := hw _ (List.mem_flatMap.2 ⟨_, hp, by simp [Piece.bytes, e1]⟩)
      exact absurd this lt_not_ws.2.1
  · rintro ⟨u, v, e⟩
    have : Ws (ch% '>') := hw _ (by rw [← e]; simp)
    simp only [Spec.S] at this
    revert this; decide

theorem item_head {r r' : List UInt8} (h : Item r r') : ∃ b t, r = b :: t ∧ (b = ch% '&' ∨ b = ch% ']') := by
  cases h with
  | ref => exact ⟨_, _, rfl, Or.inl rfl⟩
  | brackets => exact ⟨_, _, rfl, Or.inr rfl⟩

theorem item_ws {b : UInt8} (h : b = ch% '&' ∨ b = ch% ']') : ¬ Ws b ∧ b ≠ ch% '<' := by
  rcases h with rfl | rfl <;> simp only [Spec.S] <;> decide

theorem lead_iff {n d : Nat} {prev : Prev} {t : Text} (h : ∀ p ∈ t, p.Syntax) (hf : prev = .end → Content.Plain.First t)
    {s r' : List UInt8} :
    (∃ recs, Inside n d (.content prev) (t.bytes ++ ch% '<' :: s) recs r') ↔ TextFit t ∧ ∃ recs, Inside n d .markup s recs r' := by
  rcases split_ws t.bytes with hw | ⟨w, b, r, h1, h2, h3⟩
  · constructor
    · rintro ⟨recs, hi⟩
      refine ⟨blank_fit h hw, ?_⟩
      generalize hz : t.bytes ++ ch% '<' :: s = z at hi
      have hl : ∃ b t, (ch% '<' :: s : List UInt8) = b :: t ∧ ¬ Ws b := ⟨_, _, rfl, lt_not_ws.1⟩
      cases hi with
      | space g1 g2 g3 =>
        obtain ⟨-, e⟩ := ws_cons hz hw g1 hl ⟨_, _, rfl, lt_not_ws.1⟩
        simp only [List.cons.injEq, true_and] at e
        rw [e]; exact ⟨_, g3⟩
      | gap g1 =>
        obtain ⟨-, e⟩ := ws_cons hz hw g1 hl ⟨_, _, rfl, lt_not_ws.1⟩
        simp only [List.cons.injEq, true_and] at e
        rw [e]; exact ⟨_, .endTag⟩
      | text g1 g2 g3 =>
        obtain ⟨-, e⟩ := ws_cons hz hw g1 hl ⟨_, _, rfl, g2⟩
        simp only [List.cons.injEq] at e
        exact absurd e.1.symm g3
      | lost g1 g2 =>
        obtain ⟨b, t', e1, e2⟩ := item_head g2
        obtain ⟨-, e⟩ := ws_cons hz hw g1 hl ⟨b, t', e1, (item_ws e2).1⟩
        rw [e1] at e
        simp only [List.cons.injEq] at e
        exact absurd e.1.symm (item_ws e2).2
    · rintro ⟨-, recs, hi⟩
      by_cases hc : prev = .start ∧ s.head? = some (ch% '/')
      · obtain ⟨rfl, hc⟩ := hc
        cases s with
        | nil => simp at hc
        | cons x s =>
          simp only [List.head?_cons, Option.some.injEq] at hc
          subst hc
          obtain rfl := endTag_iff.1 ⟨_, hi⟩
          exact ⟨_, .gap hw⟩
      · exact ⟨_, .space hw (fun e e2 => hc ⟨e, e2⟩) hi⟩
  · have hlt := not_lt_bytes h h1 h2
    have ht : ∀ r1, TextBody (b :: (r ++ ch% '<' :: s)) r1 ↔ TextFit t ∧ r1 = s := by
      intro r1
      have := textBody_iff h (r := s) (r' := r1)
      rw [h1, List.append_assoc, textBody_ws_iff h2] at this
      rw [TextFit, h1, and_assoc]
      exact this
    rw [h1]
    simp only [List.append_assoc, List.cons_append]
    constructor
    · rintro ⟨recs, hi⟩
      generalize hz : w ++ b :: (r ++ ch% '<' :: s) = z at hi
      cases hi with
      | space g1 g2 g3 =>
        obtain ⟨-, e⟩ := ws_cons hz h2 g1 ⟨_, _, rfl, h3⟩ ⟨_, _, rfl, lt_not_ws.1⟩
        simp only [List.cons.injEq] at e
        exact absurd e.1 hlt
      | gap g1 =>
        obtain ⟨-, e⟩ := ws_cons hz h2 g1 ⟨_, _, rfl, h3⟩ ⟨_, _, rfl, lt_not_ws.1⟩
        simp only [List.cons.injEq] at e
        exact absurd e.1 hlt
      | text g1 g2 g3 g4 g5 g6 =>
        obtain ⟨-, e⟩ := ws_cons hz h2 g1 ⟨_, _, rfl, h3⟩ ⟨_, _, rfl, g2⟩
        rw [← e] at g5
        obtain ⟨g7, rfl⟩ := (ht _).1 g5
        exact ⟨g7, _, g6⟩
      | lost g1 g2 =>
        obtain ⟨b', t', e1, e2⟩ := item_head g2
        obtain ⟨-, e⟩ := ws_cons hz h2 g1 ⟨_, _, rfl, h3⟩ ⟨b', t', e1, (item_ws e2).1⟩
        rw [e1] at e
        simp only [List.cons.injEq] at e
        obtain ⟨f1, f2⟩ := hf rfl w b r h1 h2 h3
        rw [← e.1] at e2
        rcases e2 with e2 | e2
        · exact absurd e2 f1
        · exact absurd e2 f2
    · rintro ⟨g1, recs, g2⟩
      have g3 := (ht s).2 ⟨g1, rfl⟩
      refine ⟨_, Inside.text (prev := prev) h2 h3 hlt ?_ g3 g2⟩
      intro e
      obtain ⟨f1, f2⟩ := hf e w b r h1 h2 h3
      generalize hz : b :: (r ++ ch% '<' :: s) = z at g3
      cases g3 with
      | stop => simp only [List.cons.injEq] at hz; exact absurd hz.1 hlt
      | char hc _ => simp only [List.cons.injEq] at hz; rw [hz.1]; exact hc
      | item hi _ =>
        cases hi <;> simp only [List.cons.injEq] at hz
        · exact absurd hz.1 f1
        · exact absurd hz.1 f2

/-- What the parser wants of a content. -/
def Content.Fit (d : Nat) : Content → Prop
  | text t => TextFit t
  | atom t a rest => TextFit t ∧ a.Fit d ∧ rest.Fit d
  | element t tag body _ rest => TextFit t ∧ tag.Fit d ∧ body.Fit (d + 1) ∧ rest.Fit d

theorem gt_not_ws : ¬ Ws (ch% '>') := by simp only [Spec.S]; decide

theorem content_iff {n : Nat} {c : Content} : ∀ {d : Nat} {prev : Prev} {tail r' : List UInt8}, c.Syntax →
    c.Plain (decide (prev = .end)) →
    ((∃ recs, Inside n d (.content prev) (c.bytes ++ ch% '<' :: ch% '/' :: tail) recs r') ↔ c.Fit d ∧ r' = tail) := by
  induction c with
  | text t =>
    intro d prev tail r' h hp
    simp only [Content.bytes, Content.Fit]
    rw [lead_iff h.1 (fun e => hp (by simp [e])), endTag_iff]
  | atom t a rest ih =>
    intro d prev tail r' h hp
    obtain ⟨h1, h2, h3⟩ := h
    obtain ⟨p1, p2, p3⟩ := hp
    obtain ⟨s, e1, e2, e3⟩ := atom_iff (n := n) (d := d) h2 p2 (rest.bytes ++ ch% '<' :: ch% '/' :: tail)
    have e0 : (Content.atom t a rest).bytes ++ ch% '<' :: ch% '/' :: tail = t.bytes ++ ch% '<' :: s := by
      rw [← e1]; simp [Content.bytes]
    rw [e0, lead_iff h1.1 (fun e => p1 (by simp [e])), e3, ih (prev := .other) h3 p3]
    simp only [Content.Fit, and_assoc]
  | element t tag body space rest ih1 ih2 =>
    intro d prev tail r' h hp
    obtain ⟨h1, h2, h3, h4, h5⟩ := h
    obtain ⟨p1, p2, p3⟩ := hp
    obtain ⟨s, e1, ⟨b, s', rfl, e2⟩, e3⟩ := tag_iff (n := n) (d := d) (c := ch% '>') (e := false) h2 close_not_name.1
      (.start (r := body.bytes ++ ch% '<' :: ch% '/' :: (tag.name ++ space ++ ch% '>' ::
        (rest.bytes ++ ch% '<' :: ch% '/' :: tail))))
    have e0 : (Content.element t tag body space rest).bytes ++ ch% '<' :: ch% '/' :: tail = t.bytes ++ ch% '<' :: b :: s' := by
      rw [← e1]; simp [Content.bytes]
    rw [e0, lead_iff h1.1 (fun e => p1 (by simp [e]))]
    simp only [Content.Fit, and_assoc]
    refine and_congr_right fun _ => ?_
    constructor
    · rintro ⟨recs, hi⟩
      rcases start_markup hi e2 with ⟨name, recs, r1, recs1, g1, g2⟩ | ⟨name, recs, r1, recs1, w, r2, recs2, g1, g2, g3, g4⟩
      · obtain ⟨-, -, k, -⟩ := (e3 _ _ _).1 ⟨_, g1⟩
        exact absurd k (by decide)
      · obtain ⟨k1, rfl, -, rfl⟩ := (e3 _ _ _).1 ⟨_, g1⟩
        obtain ⟨k2, k3⟩ := (ih1 (d := d + 1) (prev := .start) h3 p2).1 ⟨_, g2⟩
        simp only [List.append_assoc] at k3
        obtain ⟨-, k4⟩ := ws_cons (List.append_cancel_left k3) g3 h4 ⟨_, _, rfl, gt_not_ws⟩ ⟨_, _, rfl, gt_not_ws⟩
        simp only [List.cons.injEq, true_and] at k4
        subst k4
        obtain ⟨k5, k6⟩ := (ih2 (d := d) (prev := .end) h5 p3).1 ⟨_, g4⟩
        exact ⟨k1, k2, k5, k6⟩
    · rintro ⟨k1, k2, k3, k4⟩
      obtain ⟨_, g1⟩ := (e3 tag.name false _).2 ⟨k1, rfl, rfl, rfl⟩
      obtain ⟨_, g2⟩ := (ih1 (d := d + 1) (prev := .start) h3 p2).2 ⟨k2, rfl⟩
      obtain ⟨_, g3⟩ := (ih2 (d := d) (prev := .end) (tail := tail) h5 p3).2 ⟨k3, k4⟩
      exact ⟨_, .element g1 g2 h4 g3⟩

/-! ## The document -/

theorem epilog_iff {n : Nat} {ms : List Misc} (h : ∀ m ∈ ms, m.WellFormed) {w : List UInt8} (hw : AllWs w) :
    (∃ recs, Epilog n (ms.flatMap Misc.bytes ++ w) recs) ↔ ∀ m ∈ ms, ∃ t x, m.atom = .pi t (some x) ∧ PiFit t (some x) := by
  induction ms with
  | nil => simp only [List.not_mem_nil, false_imp_iff, implies_true, iff_true]; exact ⟨_, .done hw⟩
  | cons m ms ih =>
    have ih : (∃ recs, Epilog n (ms.flatMap Misc.bytes ++ w) recs) ↔ _ := ih (fun x hx => h x (by simp [hx]))
    obtain ⟨m1, m2, m3⟩ := h m (by simp)
    rw [List.forall_mem_cons, ← ih]
    have e0 : (m :: ms).flatMap Misc.bytes ++ w = m.space ++ (m.atom.bytes ++ (ms.flatMap Misc.bytes ++ w)) := by
      simp [Misc.bytes]
    rw [e0]
    generalize ms.flatMap Misc.bytes ++ w = r
    rcases m2 with ⟨data, hm⟩ | ⟨t, y, hm⟩
    · rw [hm]
      constructor
      · rintro ⟨recs, he⟩
        exfalso
        generalize hz : m.space ++ ((Atom.comment data).bytes ++ r) = z at he
        have e1 : (Atom.comment data).bytes ++ r = ch% '<' :: ch% '!' :: (str% "--" ++ (data ++ (str% "-->" ++ r))) := by
          simp [Atom.bytes]
        rw [e1] at hz
        cases he with
        | done g => exact absurd (g (ch% '<') (by rw [← hz]; simp)) lt_not_ws.1
        | pi g =>
          obtain ⟨-, e⟩ := ws_cons hz m1 g ⟨_, _, rfl, lt_not_ws.1⟩ ⟨_, _, rfl, lt_not_ws.1⟩
          simp at e
        | piCut g =>
          obtain ⟨-, e⟩ := ws_cons hz m1 g ⟨_, _, rfl, lt_not_ws.1⟩ ⟨_, _, rfl, lt_not_ws.1⟩
          simp at e
      · rintro ⟨⟨t, x, e, -⟩, -⟩
        simp at e
    · rw [hm] at m3 ⊢
      obtain ⟨h1, h2, h3⟩ := m3
      have hq : ¬ Ws (ch% '?') := by simp only [Spec.S]; decide
      cases y with
      | none =>
        have e1 : (Atom.pi t none).bytes ++ r = ch% '<' :: ch% '?' :: (t ++ ch% '?' :: ch% '>' :: r) := by simp [Atom.bytes]
        have ht := piEndTarget (r := ch% '>' :: r) h1 h2 close_not_name.2.2
        rw [e1]
        constructor
        · rintro ⟨recs, he⟩
          exfalso
          generalize hz : m.space ++ ch% '<' :: ch% '?' :: (t ++ ch% '?' :: ch% '>' :: r) = z at he
          cases he with
          | done g => exact absurd (g (ch% '<') (by rw [← hz]; simp)) lt_not_ws.1
          | pi g g1 g2 =>
            obtain ⟨-, e⟩ := ws_cons hz m1 g ⟨_, _, rfl, lt_not_ws.1⟩ ⟨_, _, rfl, lt_not_ws.1⟩
            simp only [List.cons.injEq, true_and] at e
            rw [← e] at g1
            obtain ⟨rfl, -⟩ := piEndTarget_unique ht g1
            exact hq g2
          | piCut g g1 g2 g3 =>
            obtain ⟨-, e⟩ := ws_cons hz m1 g ⟨_, _, rfl, lt_not_ws.1⟩ ⟨_, _, rfl, lt_not_ws.1⟩
            simp only [List.cons.injEq, true_and] at e
            rw [← e] at g1
            obtain ⟨-, rfl⟩ := piEndTarget_unique ht g1
            exact g3 rfl
        · rintro ⟨⟨t, x, e, -⟩, -⟩
          simp at e
      | some y =>
        obtain ⟨c, data⟩ := y
        obtain ⟨h6, h7, h8⟩ := h3 c data rfl
        have e1 : (Atom.pi t (some (c, data))).bytes ++ r = ch% '<' :: ch% '?' :: (t ++ c :: (data ++ (str% "?>" ++ r))) := by
          simp [Atom.bytes]
        have ht := piEndTarget (x := c) (r := data ++ (str% "?>" ++ r)) h1 h2 (ws_not_name h6)
        have hb := piBody h7 h8 r
        have l1 : (t ++ c :: (data ++ (str% "?>" ++ r))).length - ((data ++ (str% "?>" ++ r)).length + 1) = t.length := by
          simp only [List.length_append, List.length_cons]; omega
        have l2 : (data ++ (str% "?>" ++ r)).length - (r.length + 2) = data.length := by
          simp only [List.length_append, List.length_cons, List.length_nil]; omega
        rw [e1]
        constructor
        · rintro ⟨recs, he⟩
          generalize hz : m.space ++ ch% '<' :: ch% '?' :: (t ++ c :: (data ++ (str% "?>" ++ r))) = z at he
          cases he with
          | done g => exact absurd (g (ch% '<') (by rw [← hz]; simp)) lt_not_ws.1
          | pi g g1 g2 g3 g4 g5 g6 =>
            obtain ⟨-, e⟩ := ws_cons hz m1 g ⟨_, _, rfl, lt_not_ws.1⟩ ⟨_, _, rfl, lt_not_ws.1⟩
            simp only [List.cons.injEq, true_and] at e
            subst e
            obtain ⟨rfl, rfl⟩ := piEndTarget_unique ht g1
            have := piBody_unique hb g4
            subst this
            rw [l1] at g3
            rw [l2] at g5
            refine ⟨⟨t, _, rfl, g3, ?_⟩, _, g6⟩
            intro s d e
            simp only [Option.some.injEq, Prod.mk.injEq] at e
            rw [← e.2]; exact g5
          | piCut g g1 g2 g3 =>
            obtain ⟨-, e⟩ := ws_cons hz m1 g ⟨_, _, rfl, lt_not_ws.1⟩ ⟨_, _, rfl, lt_not_ws.1⟩
            simp only [List.cons.injEq, true_and] at e
            rw [← e] at g1
            obtain ⟨rfl, -⟩ := piEndTarget_unique ht g1
            exact absurd h6 hq
        · rintro ⟨⟨t', x, e, g1, g2⟩, recs, g3⟩
          simp only [Atom.pi.injEq] at e
          obtain ⟨rfl, e⟩ := e
          have := g2 c data e.symm
          exact ⟨_, Epilog.pi m1 ht h6 (by rw [l1]; exact g1) hb (by rw [l2]; exact this) g3⟩

/-- What the parser wants of the root element. -/
def Root.Fit : Root → Prop
  | empty tag => tag.Fit 0
  | element tag body _ => tag.Fit 0 ∧ body.Fit 1

theorem start_root {n : Nat} {b : UInt8} {s : List UInt8} {recs : List Rec} (h : Grammar.Root n [] (b :: s) recs) (hb : StartByte b) :
    (∃ name recs r1 recs1, Tag n 0 [] name (b :: s) recs true r1 ∧ Epilog n r1 recs1) ∨
    ∃ name recs r1 recs1 w r2 recs2, Tag n 0 [] name (b :: s) recs false r1 ∧
      Inside n 1 (.content .start) r1 recs1 (name ++ w ++ ch% '>' :: r2) ∧ AllWs w ∧ Epilog n r2 recs2 := by
  generalize hz : b :: s = z at h
  obtain ⟨k1, k2, k3, -⟩ := start_ne hb
  cases h with
  | empty h1 h2 => exact Or.inl ⟨_, _, _, _, h1, h2⟩
  | element h1 h2 h3 h4 => exact Or.inr ⟨_, _, _, _, _, _, _, h1, h2, h3, h4⟩
  | comment => simp only [List.cons_append, List.cons.injEq] at hz; exact absurd hz.1 k2
  | pi => simp only [List.cons.injEq] at hz; exact absurd hz.1 k3

theorem root_iff {n : Nat} {x : Root} (h : x.Syntax) (hp : ∀ tag body space, x = .element tag body space → body.Plain false)
    (r : List UInt8) :
    ∃ b s, x.bytes ++ r = ch% '<' :: b :: s ∧ StartByte b ∧
      ((∃ recs, Grammar.Root n [] (b :: s) recs) ↔ x.Fit ∧ ∃ recs, Epilog n r recs) := by
  cases x with
  | empty tag =>
    obtain ⟨s, h1, ⟨b, s', rfl, h3⟩, h4⟩ := tag_iff (n := n) (d := 0) (c := ch% '/') (r := ch% '>' :: r) (r' := r) (e := true) h
      close_not_name.2.1 .empty
    have e : (Root.empty tag).bytes ++ r = tag.bytes ++ ch% '/' :: ch% '>' :: r := by simp [Root.bytes]
    rw [e]
    refine ⟨b, s', h1, h3, ?_⟩
    constructor
    · rintro ⟨recs, hi⟩
      rcases start_root hi h3 with ⟨name, recs, r1, recs1, g1, g2⟩ | ⟨name, recs, r1, recs1, w, r2, recs2, g1, -⟩
      · obtain ⟨g3, -, -, rfl⟩ := (h4 _ _ _).1 ⟨_, g1⟩
        exact ⟨g3, _, g2⟩
      · obtain ⟨-, -, g4, -⟩ := (h4 _ _ _).1 ⟨_, g1⟩
        exact absurd g4 (by decide)
    · rintro ⟨g1, recs, g2⟩
      obtain ⟨recs', g3⟩ := (h4 tag.name true r).2 ⟨g1, rfl, rfl, rfl⟩
      exact ⟨_, .empty g3 g2⟩
  | element tag body space =>
    obtain ⟨h2, h3, h4⟩ := h
    have p2 := hp _ _ _ rfl
    obtain ⟨s, e1, ⟨b, s', rfl, e2⟩, e3⟩ := tag_iff (n := n) (d := 0) (c := ch% '>') (e := false) h2 close_not_name.1
      (.start (r := body.bytes ++ ch% '<' :: ch% '/' :: (tag.name ++ space ++ ch% '>' :: r)))
    have e : (Root.element tag body space).bytes ++ r =
        tag.bytes ++ ch% '>' :: (body.bytes ++ ch% '<' :: ch% '/' :: (tag.name ++ space ++ ch% '>' :: r)) := by
      simp [Root.bytes]
    rw [e]
    refine ⟨b, s', e1, e2, ?_⟩
    simp only [Root.Fit, and_assoc]
    constructor
    · rintro ⟨recs, hi⟩
      rcases start_root hi e2 with ⟨name, recs, r1, recs1, g1, g2⟩ | ⟨name, recs, r1, recs1, w, r2, recs2, g1, g2, g3, g4⟩
      · obtain ⟨-, -, k, -⟩ := (e3 _ _ _).1 ⟨_, g1⟩
        exact absurd k (by decide)
      · obtain ⟨k1, rfl, -, rfl⟩ := (e3 _ _ _).1 ⟨_, g1⟩
        obtain ⟨k2, k3⟩ := (content_iff (d := 1) (prev := .start) h3 p2).1 ⟨_, g2⟩
        simp only [List.append_assoc] at k3
        obtain ⟨-, k4⟩ := ws_cons (List.append_cancel_left k3) g3 h4 ⟨_, _, rfl, gt_not_ws⟩ ⟨_, _, rfl, gt_not_ws⟩
        simp only [List.cons.injEq, true_and] at k4
        subst k4
        exact ⟨k1, k2, _, g4⟩
    · rintro ⟨k1, k2, recs, k4⟩
      obtain ⟨_, g1⟩ := (e3 tag.name false _).2 ⟨k1, rfl, rfl, rfl⟩
      obtain ⟨_, g2⟩ := (content_iff (d := 1) (prev := .start) h3 p2).2 ⟨k2, rfl⟩
      exact ⟨_, .element g1 g2 h4 k4⟩

/-- Comments and processing instructions before the markup `<c…`. -/
theorem prolog_iff {n : Nat} {ms : List Misc} (h : ∀ m ∈ ms, m.WellFormed) {w : List UInt8} (hw : AllWs w) {c : UInt8}
    {z : List UInt8} (hc : c ≠ ch% '?') :
    ∃ w' b s, ms.flatMap Misc.bytes ++ (w ++ ch% '<' :: c :: z) = w' ++ ch% '<' :: b :: s ∧ AllWs w' ∧
      (w' = [] → b = ch% '?' → ∃ m ms' t y, ms = m :: ms' ∧ m.atom = .pi t y ∧ m.space = []) ∧
      ((∃ recs, Grammar.Root n [] (b :: s) recs) ↔ (∀ m ∈ ms, m.atom.Fit 0) ∧ ∃ recs, Grammar.Root n [] (c :: z) recs) := by
  induction ms with
  | nil => exact ⟨w, c, z, rfl, hw, fun _ h => absurd h hc, by simp⟩
  | cons m ms ih =>
    obtain ⟨w1, b, s, e1, e2, -, e4⟩ := ih (fun x hx => h x (by simp [hx]))
    obtain ⟨m1, m2, m3⟩ := h m (by simp)
    have o0 : (m :: ms).flatMap Misc.bytes ++ (w ++ ch% '<' :: c :: z) = m.space ++ (m.atom.bytes ++ (w1 ++ ch% '<' :: b :: s)) := by
      rw [← e1]; simp [Misc.bytes]
    rw [o0, List.forall_mem_cons, and_assoc, ← e4]
    have hl : ∀ r : List UInt8, ∃ b t, (ch% '<' :: r : List UInt8) = b :: t ∧ ¬ Ws b := fun r => ⟨_, _, rfl, lt_not_ws.1⟩
    rcases m2 with ⟨data, hm⟩ | ⟨t, y, hm⟩
    · rw [hm] at m3 ⊢
      have hb := commentBody m3.1 m3.2 (w1 ++ ch% '<' :: b :: s)
      refine ⟨m.space, ch% '!', str% "--" ++ (data ++ (str% "-->" ++ (w1 ++ ch% '<' :: b :: s))), ?_, m1,
        fun _ h => absurd h (by decide), ?_⟩
      · simp [Atom.bytes]
      constructor
      · rintro ⟨recs, hr⟩
        refine ⟨trivial, ?_⟩
        generalize hz : (ch% '!' :: (str% "--" ++ (data ++ (str% "-->" ++ (w1 ++ ch% '<' :: b :: s)))) : List UInt8) = y at hr
        cases hr with
        | empty g => obtain ⟨b, s, rfl, g1⟩ := tag_start g; simp only [List.cons.injEq] at hz; exact absurd hz.1.symm (start_ne g1).2.1
        | element g => obtain ⟨b, s, rfl, g1⟩ := tag_start g; simp only [List.cons.injEq] at hz; exact absurd hz.1.symm (start_ne g1).2.1
        | comment g1 g2 g3 g4 =>
          simp only [List.cons_append, List.nil_append, List.cons.injEq, true_and] at hz
          rw [← hz] at g1
          have := commentBody_unique hb g1
          simp only [List.cons.injEq, true_and] at this
          rw [← this] at g3
          obtain ⟨-, e⟩ := ws_cons g3 e2 g2 (hl _) (hl _)
          simp only [List.cons.injEq, true_and] at e
          rw [e]; exact ⟨_, g4⟩
        | pi => simp at hz
      · rintro ⟨-, recs, hr⟩
        exact ⟨_, Grammar.Root.comment (pre := []) hb e2 rfl hr⟩
    · rw [hm] at m3 ⊢
      obtain ⟨s1, f1, f2⟩ := pi_iff (n := n) (dep := -1) m3 (w1 ++ ch% '<' :: b :: s)
      refine ⟨m.space, ch% '?', s1, by rw [f1], m1, ?_, ?_⟩
      · intro hsp _
        exact ⟨m, ms, t, y, rfl, hm, hsp⟩
      constructor
      · rintro ⟨recs, hr⟩
        generalize hz : ch% '?' :: s1 = x at hr
        cases hr with
        | empty g => obtain ⟨b, s, rfl, g1⟩ := tag_start g; simp only [List.cons.injEq] at hz; exact absurd hz.1.symm (start_ne g1).2.2.1
        | element g => obtain ⟨b, s, rfl, g1⟩ := tag_start g; simp only [List.cons.injEq] at hz; exact absurd hz.1.symm (start_ne g1).2.2.1
        | comment => simp at hz
        | pi g1 g2 g3 =>
          simp only [List.cons.injEq, true_and] at hz
          rw [← hz] at g1
          obtain ⟨k1, k2⟩ := (f2 _).1 ⟨_, g1⟩
          obtain ⟨-, e⟩ := ws_cons k2 g2 e2 (hl _) (hl _)
          simp only [List.cons.injEq, true_and] at e
          rw [← e]; exact ⟨k1, _, g3⟩
      · rintro ⟨k1, recs, k2⟩
        obtain ⟨_, g1⟩ := (f2 _).2 ⟨k1, rfl⟩
        exact ⟨_, Grammar.Root.pi (pre := []) g1 e2 k2⟩

/-! ## The XML declaration -/

theorem ws_tail {w w' r r' : List UInt8} (h : w ++ r = w' ++ r') (hw : AllWs w) (hw' : AllWs w')
    (hr : ∀ b, r.head? = some b → ¬ Ws b) (hr' : ∀ b, r'.head? = some b → ¬ Ws b) : r = r' := by
  induction w generalizing w' with
  | nil =>
    cases w' with
    | nil => exact h
    | cons x w' =>
      simp only [List.nil_append] at h
      rw [h] at hr
      exact absurd (hw' x (by simp)) (hr x rfl)
  | cons x w ih =>
    cases w' with
    | nil =>
      simp only [List.nil_append] at h
      rw [← h] at hr'
      exact absurd (hw x (by simp)) (hr' x rfl)
    | cons y w' =>
      simp only [List.cons_append, List.cons.injEq] at h
      exact ih h.2 (fun x hx => hw x (by simp [hx])) (fun x hx => hw' x (by simp [hx]))

theorem eq_not_ws : ¬ Ws (ch% '=') := by simp only [Spec.S]; decide

theorem version_unique {n n' : Nat} {s r r' : List UInt8} {recs recs' : List Rec} (h : Version n s recs r)
    (h' : Version n' s recs' r') : r = r' := by
  cases h with
  | @mk w w' q d r h1 h2 h3 h4 =>
    generalize hz : (str% "version" ++ w ++ ch% '=' :: w' ++ q :: str% "1." ++ d :: q :: r : List UInt8) = z at h'
    cases h' with
    | mk g1 g2 g3 g4 =>
      simp only [List.append_assoc, List.cons_append, List.nil_append] at hz
      simp only [List.cons.injEq, true_and] at hz
      obtain ⟨-, e⟩ := ws_cons hz h1 g1 ⟨_, _, rfl, eq_not_ws⟩ ⟨_, _, rfl, eq_not_ws⟩
      simp only [List.cons.injEq, true_and] at e
      obtain ⟨-, e⟩ := ws_cons e h2 g2 ⟨_, _, rfl, quote_facts h3⟩ ⟨_, _, rfl, quote_facts g3⟩
      simp only [List.cons.injEq, true_and] at e
      exact e.2.2.2

theorem encName_quote {e : List UInt8} {l : Int} (h : EncName e l) : ∀ x ∈ e, ¬ Grammar.Quote x := by
  have k1 : ∀ k < 4, ∀ x ∈ ((str% "p125" : List UInt8).take k ++ str% "P125" : List UInt8), ¬ (x = ch% '"' ∨ x = ch% '\'') := by decide
  have k2 : ∀ k < 10, ∀ x ∈ ((str% "indows-125" : List UInt8).take k ++ str% "INDOWS-125" : List UInt8),
    ¬ (x = ch% '"' ∨ x = ch% '\'') := by decide
  have k3 : ∀ x ∈ (str% "p125" : List UInt8), ¬ (x = ch% '"' ∨ x = ch% '\'') := by decide
  have k4 : ∀ x ∈ (str% "indows-125" : List UInt8), ¬ (x = ch% '"' ∨ x = ch% '\'') := by decide
  simp only [Grammar.Quote]
  cases h with
  | utf8 h1 h2 h3 =>
    simp only [List.forall_mem_cons, List.not_mem_nil, false_imp_iff, implies_true, and_true]
    refine ⟨?_, ?_, ?_, by decide, by decide⟩
    · rcases h1 with rfl | rfl <;> decide
    · rcases h2 with rfl | rfl <;> decide
    · rcases h3 with rfl | rfl <;> decide
  | cp h1 h2 =>
    rw [List.forall_mem_cons]
    constructor
    · rcases h1 with rfl | rfl <;> decide
    · rcases h2 with rfl | ⟨k, hk, rfl⟩
      · exact k3
      · exact k1 k hk
  | win h1 h2 =>
    rw [List.forall_mem_cons]
    constructor
    · rcases h1 with rfl | rfl <;> decide
    · rcases h2 with rfl | ⟨k, hk, rfl⟩
      · exact k4
      · exact k2 k hk

theorem encoding_unique {n n' : Nat} {s r r' : List UInt8} {recs recs' : List Rec} (h : Encoding n s recs r)
    (h' : Encoding n' s recs' r') : r = r' := by
  cases h with
  | @mk w w' q e l q' w2 r h1 h2 h3 h4 h5 h6 h7 =>
    generalize hz : (str% "encoding" ++ w ++ ch% '=' :: w' ++ q :: e ++ q' :: w2 ++ r : List UInt8) = z at h'
    cases h' with
    | mk g1 g2 g3 g4 g5 g6 g7 =>
      simp only [List.append_assoc, List.cons_append, List.nil_append] at hz
      simp only [List.cons.injEq, true_and] at hz
      obtain ⟨-, e⟩ := ws_cons hz h1 g1 ⟨_, _, rfl, eq_not_ws⟩ ⟨_, _, rfl, eq_not_ws⟩
      simp only [List.cons.injEq, true_and] at e
      obtain ⟨-, e⟩ := ws_cons e h2 g2 ⟨_, _, rfl, quote_facts h3⟩ ⟨_, _, rfl, quote_facts g3⟩
      simp only [List.cons.injEq] at e
      obtain ⟨-, -, e⟩ := span_eq (P := fun x => ¬ Grammar.Quote x) e.2 (encName_quote h4) (not_not_intro h5) (encName_quote g4)
        (not_not_intro g5)
      exact ws_tail e h6 g6 h7 g7

theorem yesno_quote {v : List UInt8} {l : Int} (h : (v = str% "yes" ∧ l = 3) ∨ ((v = str% "no" ∨ v = str% "yno" ∨ v = str% "yeno") ∧ l = 2)) :
    ∀ x ∈ v, ¬ Grammar.Quote x := by
  simp only [Grammar.Quote]
  rcases h with ⟨rfl, -⟩ | ⟨rfl | rfl | rfl, -⟩ <;> decide

theorem standalone_unique {n n' : Nat} {s r r' : List UInt8} {recs recs' : List Rec} (h : Standalone n s recs r)
    (h' : Standalone n' s recs' r') : r = r' := by
  cases h with
  | @mk w w' q e l q' w2 r h1 h2 h3 h4 h5 h6 h7 =>
    generalize hz : (str% "standalone" ++ w ++ ch% '=' :: w' ++ q :: e ++ q' :: w2 ++ r : List UInt8) = z at h'
    cases h' with
    | mk g1 g2 g3 g4 g5 g6 g7 =>
      simp only [List.append_assoc, List.cons_append, List.nil_append] at hz
      simp only [List.cons.injEq, true_and] at hz
      obtain ⟨-, e⟩ := ws_cons hz h1 g1 ⟨_, _, rfl, eq_not_ws⟩ ⟨_, _, rfl, eq_not_ws⟩
      simp only [List.cons.injEq, true_and] at e
      obtain ⟨-, e⟩ := ws_cons e h2 g2 ⟨_, _, rfl, quote_facts h3⟩ ⟨_, _, rfl, quote_facts g3⟩
      simp only [List.cons.injEq] at e
      obtain ⟨-, -, e⟩ := span_eq (P := fun x => ¬ Grammar.Quote x) e.2 (yesno_quote h4) (not_not_intro h5) (yesno_quote g4)
        (not_not_intro g5)
      exact ws_tail e h6 g6 h7 g7

theorem encoding_head {n : Nat} {s r : List UInt8} {recs : List Rec} (h : Encoding n s recs r) : ∃ t, s = ch% 'e' :: t := by
  cases h with | mk => exact ⟨_, rfl⟩

theorem standalone_head {n : Nat} {s r : List UInt8} {recs : List Rec} (h : Standalone n s recs r) : ∃ t, s = ch% 's' :: t := by
  cases h with | mk => exact ⟨_, rfl⟩

/-- The ways to end a declaration, after white space. -/
inductive DeclForm (n : Nat) : List UInt8 → List UInt8 → Prop where
  | stop {r} : DeclForm n (ch% '?' :: r) r
  | enc {s recs r} : Encoding n s recs (ch% '?' :: r) → DeclForm n s r
  | alone {s recs r} : Standalone n s recs (ch% '?' :: r) → DeclForm n s r
  | both {s recs r1 recs' r} : Encoding n s recs r1 → Standalone n r1 recs' (ch% '?' :: r) → DeclForm n s r

theorem DeclForm.head {n : Nat} {s r : List UInt8} (h : DeclForm n s r) : ∃ b t, s = b :: t ∧ ¬ Ws b := by
  have k : ¬ Ws (ch% '?') ∧ ¬ Ws (ch% 'e') ∧ ¬ Ws (ch% 's') := by simp only [Spec.S]; decide
  cases h with
  | stop => exact ⟨_, _, rfl, k.1⟩
  | enc h => obtain ⟨t, rfl⟩ := encoding_head h; exact ⟨_, _, rfl, k.2.1⟩
  | alone h => obtain ⟨t, rfl⟩ := standalone_head h; exact ⟨_, _, rfl, k.2.2⟩
  | both h => obtain ⟨t, rfl⟩ := encoding_head h; exact ⟨_, _, rfl, k.2.1⟩

theorem DeclForm.unique {n : Nat} {s r r' : List UInt8} (h : DeclForm n s r) (h' : DeclForm n s r') : r = r' := by
  cases h with
  | stop =>
    generalize hz : ch% '?' :: r = z at h'
    cases h' with
    | stop => simp only [List.cons.injEq, true_and] at hz; exact hz
    | enc g => obtain ⟨t, rfl⟩ := encoding_head g; simp at hz
    | alone g => obtain ⟨t, rfl⟩ := standalone_head g; simp at hz
    | both g => obtain ⟨t, rfl⟩ := encoding_head g; simp at hz
  | enc h =>
    cases h' with
    | stop => obtain ⟨t, e⟩ := encoding_head h; simp at e
    | enc g => have := encoding_unique h g; simpa using this
    | alone g => obtain ⟨t, rfl⟩ := encoding_head h; obtain ⟨t, e⟩ := standalone_head g; simp at e
    | both g g' =>
      have := encoding_unique h g; subst this
      obtain ⟨t, e⟩ := standalone_head g'; simp at e
  | alone h =>
    cases h' with
    | stop => obtain ⟨t, e⟩ := standalone_head h; simp at e
    | enc g => obtain ⟨t, rfl⟩ := encoding_head g; obtain ⟨t, e⟩ := standalone_head h; simp at e
    | alone g => have := standalone_unique h g; simpa using this
    | both g => obtain ⟨t, rfl⟩ := encoding_head g; obtain ⟨t, e⟩ := standalone_head h; simp at e
  | both h h0 =>
    cases h' with
    | stop => obtain ⟨t, e⟩ := encoding_head h; simp at e
    | enc g =>
      have := encoding_unique h g; subst this
      obtain ⟨t, e⟩ := standalone_head h0; simp at e
    | alone g => obtain ⟨t, rfl⟩ := encoding_head h; obtain ⟨t, e⟩ := standalone_head g; simp at e
    | both g g' =>
      have := encoding_unique h g; subst this
      have := standalone_unique h0 g'; simpa using this

theorem declRest_form {n : Nat} {s r : List UInt8} {recs : List Rec} (h : DeclRest n s recs (ch% '?' :: r)) :
    ∃ w t, s = w ++ t ∧ AllWs w ∧ DeclForm n t r := by
  generalize hz : ch% '?' :: r = z at h
  cases h with
  | none => exact ⟨[], _, rfl, nofun, hz ▸ .stop⟩
  | ws _ h => exact ⟨_, _, rfl, h, hz ▸ .stop⟩
  | enc _ h g => exact ⟨_, _, rfl, h, .enc (hz ▸ g)⟩
  | alone _ h g => exact ⟨_, _, rfl, h, .alone (hz ▸ g)⟩
  | both _ h g g' => exact ⟨_, _, rfl, h, .both g (hz ▸ g')⟩

theorem declRest_unique {n : Nat} {s r r' : List UInt8} {recs recs' : List Rec} (h : DeclRest n s recs (ch% '?' :: r))
    (h' : DeclRest n s recs' (ch% '?' :: r')) : r = r' := by
  obtain ⟨w, t, rfl, h1, h2⟩ := declRest_form h
  obtain ⟨w', t', e, g1, g2⟩ := declRest_form h'
  obtain ⟨-, rfl⟩ := ws_cons e h1 g1 h2.head g2.head
  exact h2.unique g2

theorem noDecl_cases {pre r : List UInt8} (h : NoDecl pre r) :
    (pre = [] ∧ ∃ b t, r = b :: t ∧ b ≠ ch% '?') ∨ ∃ t, pre ++ r = ch% '?' :: t ∧
      ¬ ∃ s t', t = str% "xml" ++ s :: t' ∧ Ws s := by
  cases h with
  | none h => exact Or.inl ⟨rfl, _, _, rfl, h⟩
  | q h1 h2 =>
    right; refine ⟨_, rfl, ?_⟩
    rintro ⟨s, t', e, -⟩
    simp only [List.append_eq, List.nil_append, List.cons_append, List.cons.injEq] at e
    exact h1 e.1
  | x h0 h1 h2 =>
    right; refine ⟨_, rfl, ?_⟩
    rintro ⟨s, t', e, -⟩
    simp only [List.append_eq, List.nil_append, List.cons_append, List.cons.injEq] at e
    exact h1 e.2.1
  | m h0 h h1 h2 =>
    right; refine ⟨_, rfl, ?_⟩
    rintro ⟨s, t', e, -⟩
    simp only [List.append_eq, List.nil_append, List.cons_append, List.cons.injEq] at e
    exact h1 e.2.2.1
  | l h0 h h1 h2 h3 =>
    right; refine ⟨_, rfl, ?_⟩
    rintro ⟨s, t', e, hs⟩
    simp only [List.append_eq, List.nil_append, List.cons_append, List.cons.injEq] at e
    rw [e.2.2.2.1] at h2
    exact h2 hs

/-- A document up to the markup `<c…` after its prolog. -/
theorem start_iff {n : Nat} {decl : Option Decl} (hd : ∀ x, decl = some x → x.WellFormed) {ms : List Misc}
    (h : ∀ m ∈ ms, m.WellFormed) (hf : ∀ m ms' t x, decl = none → ms = m :: ms' → m.atom = .pi t x → m.space ≠ [])
    {w : List UInt8} (hw : AllWs w) {c : UInt8} {z : List UInt8} (hc : c ≠ ch% '?') :
    (∃ recs, Grammar.Document n ((decl.map Decl.bytes).getD [] ++ (ms.flatMap Misc.bytes ++ (w ++ ch% '<' :: c :: z))) recs) ↔
      (∀ m ∈ ms, m.atom.Fit 0) ∧ ∃ recs, Grammar.Root n [] (c :: z) recs := by
  obtain ⟨w', b, s, e1, e2, e3, e4⟩ := prolog_iff (n := n) h hw (z := z) hc
  rw [e1, ← e4]
  have hl : ∀ r : List UInt8, ∃ b t, (ch% '<' :: r : List UInt8) = b :: t ∧ ¬ Ws b := fun r => ⟨_, _, rfl, lt_not_ws.1⟩
  cases decl with
  | none =>
    simp only [Option.map_none, Option.getD_none, List.nil_append]
    have hb : w' = [] → b ≠ ch% '?' := by
      intro h1 h2
      obtain ⟨m, ms', t, y, k1, k2, k3⟩ := e3 h1 h2
      exact hf m ms' t y rfl k1 k2 k3
    constructor
    · rintro ⟨recs, hr⟩
      generalize hz : w' ++ ch% '<' :: b :: s = y at hr
      cases hr with
      | decl =>
        obtain ⟨k1, k2⟩ := ws_cons (w' := []) hz e2 nofun (hl _) (hl _)
        simp only [List.cons.injEq, true_and] at k2
        exact absurd k2.1 (hb k1)
      | plain g1 g2 =>
        obtain ⟨k1, k2⟩ := ws_cons (w' := []) hz e2 nofun (hl _) (hl _)
        simp only [List.cons.injEq, true_and] at k2
        rcases noDecl_cases g1 with ⟨rfl, -⟩ | ⟨t, e, -⟩
        · rw [k2]; exact ⟨_, g2⟩
        · rw [e] at k2
          simp only [List.cons.injEq] at k2
          exact absurd k2.1 (hb k1)
      | space g1 g2 g3 =>
        obtain ⟨-, k2⟩ := ws_cons hz e2 g2 (hl _) (hl _)
        simp only [List.cons.injEq, true_and] at k2
        rw [k2]; exact ⟨_, g3⟩
    · rintro ⟨recs, hr⟩
      by_cases hw' : w' = []
      · subst hw'
        exact ⟨_, Grammar.Document.plain (pre := []) (.none (hb rfl)) hr⟩
      · exact ⟨_, Grammar.Document.space hw' e2 hr⟩
  | some x =>
    have hx := hd x rfl
    simp only [Option.map_some, Option.getD_some]
    have hr := Decl.rest (n := n) hx (w' ++ ch% '<' :: b :: s)
    obtain ⟨s0, w0, s1, g1, g2, g3, g4⟩ := decl_version (n := n) hx.version
      (optBytes (str% "encoding") x.encoding ++ (optBytes (str% "standalone") x.standalone ++
      (x.space ++ (str% "?>" ++ (w' ++ ch% '<' :: b :: s)))))
    have eb : x.bytes ++ (w' ++ ch% '<' :: b :: s) = ch% '<' :: ch% '?' :: ch% 'x' :: ch% 'm' :: ch% 'l' :: s0 :: (w0 ++ s1) := by
      rw [← g3]; simp [Decl.bytes]
    rw [eb]
    have hv : ∀ {s r recs}, Version n s recs r → ∃ b t, s = b :: t ∧ ¬ Ws b := by
      intro s r recs h
      cases h with
      | mk => exact ⟨_, _, rfl, by simp only [Spec.S]; decide⟩
    constructor
    · rintro ⟨recs, hr'⟩
      generalize hz : (ch% '<' :: ch% '?' :: ch% 'x' :: ch% 'm' :: ch% 'l' :: s0 :: (w0 ++ s1) : List UInt8) = y at hr'
      cases hr' with
      | decl k1 k2 k3 k4 k5 k6 k7 =>
        simp only [List.cons.injEq, true_and] at hz
        obtain ⟨-, e⟩ := ws_cons hz.2.2.2.2 g2 k3 (hv g4) (hv k4)
        subst e
        have := version_unique g4 k4
        subst this
        simp only [List.append_assoc, List.cons_append, List.nil_append] at k5 hr
        have := declRest_unique hr k5
        simp only [List.cons.injEq, true_and] at this
        obtain ⟨-, e⟩ := ws_cons this e2 k6 (hl _) (hl _)
        simp only [List.cons.injEq, true_and] at e
        rw [e]; exact ⟨_, k7⟩
      | plain k1 k2 =>
        simp only [List.cons.injEq, true_and] at hz
        rcases noDecl_cases k1 with ⟨rfl, b, t, rfl, k⟩ | ⟨t, e, k⟩
        · simp only [List.nil_append, List.cons.injEq] at hz
          exact absurd hz.1.symm k
        · rw [e] at hz
          simp only [List.cons.injEq, true_and] at hz
          exact absurd ⟨s0, _, hz.symm, g1⟩ k
      | space k1 k2 k3 =>
        obtain ⟨k4, -⟩ := ws_cons (w := []) hz nofun k2 (hl _) (hl _)
        exact absurd k4.symm k1
    · rintro ⟨recs, hr'⟩
      exact ⟨_, Grammar.Document.decl (n := n) (x := ch% 'x') (m := ch% 'm') (l := ch% 'l') (w' := w')
        ⟨_, _, _, [], rfl, Or.inl rfl, Or.inl rfl, Or.inl rfl⟩ g1 g2 g4 (by rw [List.append_assoc]; exact hr) e2 hr'⟩

/-! ## The limits as a list -/

theorem tag_fit {d : Nat} {t : StartTag} : t.Fit d ↔ d ≤ 254 ∧ (t.name.length ≤ 2047 ∧ ∀ a ∈ t.attrs, a.name.length ≤ 2047) ∧
    (lastColon 0 0 t.name ≤ 511 ∧ ∀ a ∈ t.attrs, lastColon 0 0 a.name ≤ 511) ∧
    (t.attrs.length ≤ 256 ∧ (t.attrs.map Attr.name).Nodup) ∧ (∀ a ∈ t.attrs, a.value.bytes.length ≤ maxLen) ∧
    ∀ r ∈ t.refs, r.Accepted := by
  constructor
  · rintro ⟨h1, h2, h3, h4, h5, h6⟩
    refine ⟨h1, ⟨h2, fun a ha => (h4 a ha).name⟩, ⟨h3, fun a ha => (h4 a ha).pre⟩, ⟨h5, h6⟩, fun a ha => (h4 a ha).value, ?_⟩
    intro r hr
    obtain ⟨a, ha, hr⟩ := List.mem_flatMap.1 hr
    exact accepted_refs.1 (h4 a ha).refs r hr
  · rintro ⟨h1, ⟨h2, h2'⟩, ⟨h3, h3'⟩, ⟨h5, h6⟩, h7, h8⟩
    exact ⟨h1, h2, h3, fun a ha => ⟨h2' a ha, h3' a ha, h7 a ha,
      accepted_refs.2 fun r hr => h8 r (List.mem_flatMap.2 ⟨a, ha, hr⟩)⟩, h5, h6⟩

theorem content_fit {c : Content} : ∀ {d : Nat}, c.Fit d ↔ (∀ t ∈ c.tags d, t.2.Fit t.1) ∧ (∀ t ∈ c.texts, TextFit t) ∧
    ∀ x ∈ c.pis, PiFit x.1 x.2 := by
  induction c with
  | text t => intro d; simp [Content.Fit, Content.tags, Content.texts, Content.pis]
  | atom t a rest ih =>
    intro d
    simp only [Content.Fit, Content.tags, Content.texts, Content.pis, ih]
    cases a <;> simp only [Atom.Fit, Atom.tags, Atom.pis, List.nil_append, List.cons_append, List.forall_mem_cons, true_and] <;> grind
  | element t tag body space rest ih1 ih2 =>
    intro d
    simp only [Content.Fit, Content.tags, Content.texts, Content.pis, ih1, ih2, List.forall_mem_cons, List.forall_mem_append]
    grind

theorem root_fit {x : Root} : x.Fit ↔ (∀ t ∈ x.tags, t.2.Fit t.1) ∧ (∀ t ∈ x.texts, TextFit t) ∧ ∀ y ∈ x.pis, PiFit y.1 y.2 := by
  cases x with
  | empty tag => simp [Root.Fit, Root.tags, Root.texts, Root.pis]
  | element tag body space =>
    simp only [Root.Fit, Root.tags, Root.texts, Root.pis, content_fit, List.forall_mem_cons, and_assoc]

/-- A document of the right syntax is accepted if and only if it fits. -/
theorem document_fits {n : Nat} {d : Document} (h : d.Syntax) (hp : d.Plain) :
    (∃ recs, Grammar.Document n d.bytes recs) ↔ d.Fits := by
  obtain ⟨b, s, e1, e2, e3⟩ := root_iff (n := n) h.root hp.root (d.epilog.flatMap Misc.bytes ++ d.space1)
  rw [epilog_iff h.epilog h.space.2, root_fit] at e3
  have := start_iff (n := n) h.decl h.prolog hp.first h.space.1 (z := s) (start_ne e2).2.2.1
  rw [← e1, e3] at this
  rw [Document.bytes, Document.declBytes, this]
  have hm : ∀ ms : List Misc, (∀ m ∈ ms, m.WellFormed) → ((∀ m ∈ ms, m.atom.Fit 0) ↔ ∀ x ∈ ms.flatMap (·.atom.pis), PiFit x.1 x.2) := by
    intro ms hms
    constructor
    · intro h1 x hx
      obtain ⟨m, h2, h3⟩ := List.mem_flatMap.1 hx
      have h4 := h1 m h2
      cases ha : m.atom <;> rw [ha] at h3 h4 <;> simp only [Atom.pis, List.not_mem_nil, List.mem_singleton] at h3
      subst h3; exact h4
    · intro h1 m h2
      rcases (hms m h2).kind with ⟨data, hk⟩ | ⟨t, x, hk⟩
      · rw [hk]; trivial
      · rw [hk]
        exact h1 (t, x) (List.mem_flatMap.2 ⟨m, h2, by simp [hk, Atom.pis]⟩)
  rw [hm _ h.prolog]
  constructor
  · rintro ⟨h1, ⟨h2, h3, h4⟩, h5⟩
    have h2' := fun t ht => tag_fit.1 (h2 t ht)
    refine ⟨fun t ht => (h2' t ht).1, fun t ht => (h2' t ht).2.1, fun t ht => (h2' t ht).2.2.1, fun t ht => (h2' t ht).2.2.2.1,
      fun t ht => (h2' t ht).2.2.2.2.1, ?_, ?_, fun t ht => (h3 t ht).2, fun m hm => ?_⟩
    · intro x hx
      simp only [Document.pis, List.mem_append] at hx
      rcases hx with (hx | hx) | hx
      · exact h1 x hx
      · exact h4 x hx
      · obtain ⟨m, k1, k2⟩ := List.mem_flatMap.1 hx
        obtain ⟨t, y, k3, k4⟩ := h5 m k1
        rw [k3] at k2
        simp only [Atom.pis, List.mem_singleton] at k2
        subst k2; exact k4
    · intro r hr
      simp only [Document.refs, List.mem_append, List.mem_flatMap] at hr
      rcases hr with ⟨t, k1, k2⟩ | ⟨t, k1, k2⟩
      · exact (h2' t k1).2.2.2.2.2 r k2
      · exact accepted_refs.1 (h3 t k1).1 r k2
    · obtain ⟨t, x, k1, -⟩ := h5 m hm
      exact ⟨t, x, k1⟩
  · intro hf
    have hp' : ∀ x ∈ d.pis, PiFit x.1 x.2 := hf.pis
    simp only [Document.pis, List.forall_mem_append] at hp'
    refine ⟨hp'.1.1, ⟨fun t ht => tag_fit.2 ⟨hf.depth t ht, hf.names t ht, hf.prefixes t ht, hf.attrs t ht, hf.values t ht, ?_⟩,
      fun t ht => ⟨accepted_refs.2 ?_, hf.texts t ht⟩, hp'.1.2⟩, ?_⟩
    · intro r hr
      exact hf.refs r (List.mem_append.2 (Or.inl (List.mem_flatMap.2 ⟨t, ht, hr⟩)))
    · intro r hr
      exact hf.refs r (List.mem_append.2 (Or.inr (List.mem_flatMap.2 ⟨t, ht, hr⟩)))
    · intro m hm
      obtain ⟨t, x, k⟩ := hf.epilog m hm
      exact ⟨t, x, k, hp'.2 (t, some x) (List.mem_flatMap.2 ⟨m, hm, by simp [k, Atom.pis]⟩)⟩

end Tree
end GoVtd
