import Verif.Spec.Tree
import Verif.Proofs.Parser.Nested

/-!
# Serialised trees are in the grammar
-/

namespace GoVtd
namespace Tree

open Grammar

theorem offset_app (n : Nat) (a r : List UInt8) : Grammar.offset n r = Grammar.offset n (a ++ r) + a.length := by
  simp only [Grammar.offset, List.length_append]; omega

/-! ## Bytes -/

theorem not_pair_cons {a b x : UInt8} {s : List UInt8} (h : ¬ HasPair a b (x :: s)) : ¬ HasPair a b s :=
  fun ⟨u, v, e⟩ => h ⟨x :: u, v, by rw [← e]; simp⟩

theorem not_pair_append {a b : UInt8} {u s : List UInt8} (h : ¬ HasPair a b (u ++ s)) : ¬ HasPair a b s :=
  fun ⟨v, w, e⟩ => h ⟨u ++ v, w, by rw [← e]; simp⟩

theorem ws_iff {b : UInt8} : (b = 0x20 || b = 0x9 || b = 0xD || b = 0xA) = true ↔ Ws b := by
  simp only [Bool.or_eq_true, decide_eq_true_eq, Spec.S, ← UInt8.toNat_inj, or_assoc]
  rfl

theorem blank_iff {t : Text} : Content.Blank t = true ↔ AllWs t.bytes := by
  simp only [Content.Blank, List.all_eq_true, AllWs, ws_iff]

theorem nameByte_of_start {b : UInt8} (h : StartByte b) : NameByte b := Or.inl h

theorem ws_not_name {b : UInt8} (h : Ws b) : ¬ NameByte b := by
  intro h'
  simp only [Spec.S, Spec.NameChar, Spec.NameStartChar] at h h'
  omega

theorem close_not_name : ¬ NameByte (ch% '>') ∧ ¬ NameByte (ch% '/') ∧ ¬ NameByte (ch% '?') := by
  refine ⟨?_, ?_, ?_⟩ <;>
  · intro h
    simp only [Spec.NameChar, Spec.NameStartChar] at h
    revert h; decide

/-! ## References -/

theorem foldl_le {base : Nat} (hb : 1 ≤ base) (val : UInt8 → Option Nat) (ds : List UInt8) (v : Nat) :
    v ≤ ds.foldl (fun v b => v * base + (val b).getD 0) v := by
  induction ds generalizing v with
  | nil => exact Nat.le_refl _
  | cons b ds ih =>
    refine Nat.le_trans ?_ (ih _)
    have : v * 1 ≤ v * base := Nat.mul_le_mul_left _ hb
    show v ≤ v * base + (val b).getD 0
    omega

theorem decDigits {ds : List UInt8} (h : ∀ b ∈ ds, decVal b ≠ none) (v : Nat) (r : List UInt8)
    (hv : ds.foldl (fun v b => v * 10 + (decVal b).getD 0) v < 2 ^ 32) :
    DecDigits v (ds ++ ch% ';' :: r) (ds.foldl (fun v b => v * 10 + (decVal b).getD 0) v) r := by
  induction ds generalizing v with
  | nil => exact .stop
  | cons b ds ih =>
    have hb := h b (by simp)
    have hd : ch% '0' ≤ b ∧ b ≤ ch% '9' := by
      unfold decVal at hb
      split at hb
      · assumption
      · exact absurd rfl hb
    have he : decVal b = some (b.toNat - ch% '0') := by unfold decVal; rw [if_pos hd]
    simp only [List.foldl_cons, he, Option.getD_some] at hv ⊢
    have := foldl_le (base := 10) (by omega) decVal ds (v * 10 + (b.toNat - ch% '0'))
    refine DecDigits.digit hd.1 hd.2 ?_
    rw [Nat.mod_eq_of_lt (by omega)]
    exact ih (fun x hx => h x (by simp [hx])) _ hv

theorem hexDigits {ds : List UInt8} (h : ∀ b ∈ ds, hexVal b ≠ none) (v : Nat) (r : List UInt8)
    (hv : ds.foldl (fun v b => v * 16 + (hexVal b).getD 0) v < 2 ^ 32) :
    HexDigits v (ds ++ ch% ';' :: r) (ds.foldl (fun v b => v * 16 + (hexVal b).getD 0) v) r := by
  induction ds generalizing v with
  | nil => exact .stop
  | cons b ds ih =>
    have hb := h b (by simp)
    obtain ⟨x, he⟩ := Option.ne_none_iff_exists'.1 hb
    simp only [List.foldl_cons, he, Option.getD_some] at hv ⊢
    have := foldl_le (base := 16) (by omega) hexVal ds (v * 16 + x)
    refine HexDigits.digit he ?_
    rw [Nat.mod_eq_of_lt (by omega)]
    exact ih (fun x hx => h x (by simp [hx])) _ hv

theorem char11_lt {v : Nat} (h : Spec.Char11 v) : v < 2 ^ 32 := by simp only [Spec.Char11] at h; omega

theorem Reference.parse {x : Reference} (h : x.WellFormed) :
    ∃ y, x.bytes = ch% '&' :: y ∧ ∀ r, ∃ v, Ref (y ++ r) v r := by
  cases x with
  | entity name =>
    refine ⟨_, rfl, fun r => ?_⟩
    simp only [Reference.WellFormed, entityNames, List.mem_cons, List.not_mem_nil, or_false] at h
    rcases h with rfl | rfl | rfl | rfl | rfl
    · exact ⟨_, .amp⟩
    · exact ⟨_, .apos⟩
    · exact ⟨_, .quot⟩
    · exact ⟨_, .gt⟩
    · exact ⟨_, .lt⟩
  | dec ds =>
    refine ⟨_, rfl, fun r => ⟨number 10 decVal ds, ?_⟩⟩
    have := decDigits h.1 0 r (char11_lt h.2)
    simp only [List.cons_append, List.append_assoc, List.nil_append]
    exact .dec this h.2
  | hex ds =>
    refine ⟨_, rfl, fun r => ⟨number 16 hexVal ds, ?_⟩⟩
    have := hexDigits h.1 0 r (char11_lt h.2)
    simp only [List.cons_append, List.append_assoc, List.nil_append]
    exact .hex this h.2

/-! ## Texts -/

@[simp] theorem Text.bytes_nil : Text.bytes [] = [] := rfl
@[simp] theorem Text.bytes_cons (p : Piece) (t : Text) : Text.bytes (p :: t) = p.bytes ++ Text.bytes t := rfl

theorem textBody_bracket {b : UInt8} {s r' : List UInt8} (h : TextBody (b :: s) r') (hb : b ≠ ch% '>') :
    TextBody (ch% ']' :: b :: s) r' := by
  by_cases hc : b = ch% ']'
  · subst hc
    generalize hz : ch% ']' :: s = z at h
    cases h with
    | stop => simp at hz
    | char hb _ =>
      simp only [List.cons.injEq] at hz
      rw [← hz.1] at hb
      exact absurd rfl hb.2.2.2
    | item hi ht =>
      cases hi with
      | ref => simp at hz
      | @brackets k b r h1 h2 =>
        exact .item (.brackets (k := k + 1) h1 h2) ht
  · exact .item (.brackets (k := 0) hc hb) h

theorem textBody {t : Text} (h : ∀ p ∈ t, p.WellFormed) (hp : ¬ HasPair (ch% ']') (ch% '>') t.bytes) (r : List UInt8) :
    TextBody (t.bytes ++ ch% '<' :: r) r := by
  induction t with
  | nil => exact .stop
  | cons p t ih =>
    have hp' : ¬ HasPair (ch% ']') (ch% '>') (Text.bytes t) := not_pair_append (u := p.bytes) hp
    have ih := ih (fun p hp => h p (by simp [hp])) hp'
    have hw := h p (by simp)
    cases p with
    | byte b =>
      obtain ⟨h1, h2, h3⟩ := hw
      simp only [Text.bytes_cons, Piece.bytes, List.cons_append, List.nil_append]
      by_cases hb : b = ch% ']'
      · subst hb
        cases hs : Text.bytes t with
        | nil => rw [hs] at ih; exact textBody_bracket ih (by decide)
        | cons x s =>
          rw [hs] at ih
          refine textBody_bracket ih ?_
          rintro rfl
          exact hp ⟨[], s, by simp [hs, Piece.bytes]⟩
      · refine .char ⟨h1, ?_, ?_, ?_⟩ ih
        · exact fun e => h2 (UInt8.toNat_inj.1 e)
        · exact fun e => h3 (UInt8.toNat_inj.1 e)
        · exact fun e => hb (UInt8.toNat_inj.1 e)
    | ref x =>
      obtain ⟨y, hy, hr⟩ := Reference.parse hw
      obtain ⟨v, hr⟩ := hr (Text.bytes t ++ ch% '<' :: r)
      simp only [Text.bytes_cons, Piece.bytes, hy, List.cons_append, List.append_assoc]
      exact .item (.ref hr) ih

theorem attrBody {q : UInt8} {t : Text} (h : ∀ p ∈ t, p.WellFormed ∧ ∀ b, p = .byte b → b ≠ q) (r : List UInt8) :
    AttrBody q (t.bytes ++ q :: r) r := by
  induction t with
  | nil => exact .stop
  | cons p t ih =>
    have ih := ih (fun p hp => h p (by simp [hp]))
    obtain ⟨hw, hq⟩ := h p (by simp)
    cases p with
    | byte b => exact .char hw.1 hw.2.1 hw.2.2 (hq b rfl) ih
    | ref x =>
      obtain ⟨y, hy, hr⟩ := Reference.parse hw
      obtain ⟨v, hr⟩ := hr (Text.bytes t ++ q :: r)
      simp only [Text.bytes_cons, Piece.bytes, hy, List.cons_append, List.append_assoc]
      exact .ref hr ih

/-! ## Tags -/

theorem Attr.isNs_iff {a : Attr} : a.IsNs = true ↔ Grammar.IsNs a.name := by
  simp only [Attr.IsNs, Bool.or_eq_true, decide_eq_true_eq, List.isPrefixOf_iff_prefix, Grammar.IsNs]

theorem Attr.tagRest {n d : Nat} {a : Attr} (h : a.WellFormed) (hs : a.Supported) {seen : List (List UInt8)}
    (h1 : a.name ∉ seen) (h2 : seen.length < 256) {r recs e r'} (ht : TagRest n d (a.name :: seen) r recs e r') :
    TagRest n d seen (a.bytes ++ r) (a.recs d (Grammar.offset n (a.bytes ++ r)) ++ recs) e r' := by
  obtain ⟨b, run, hn, hb, hr⟩ := h.name
  have hv := attrBody h.value r
  have := TagRest.attr (n := n) (depth := d) (seen := seen) (w := a.space) (b := b) (run := run) (w1 := a.space1) (w2 := a.space2)
    (q := a.quote) (r := a.value.bytes ++ a.quote :: r) (r1 := r) h.space.1 h.space.2.1 hb hr (hn ▸ h1) h2
    (hn ▸ hs.pre) (by have := hs.name; rw [hn] at this; simpa using this) h.space.2.2.1 h.space.2.2.2 h.quote hv
    (by simp only [List.length_append, List.length_cons]; have := hs.value; omega) (hn ▸ ht)
  have e1 : a.space ++ b :: run ++ a.space1 ++ ch% '=' :: a.space2 ++ a.quote :: (a.value.bytes ++ a.quote :: r) =
      a.bytes ++ r := by
    simp [Attr.bytes, hn]
  rw [e1] at this
  have e2 : a.recs d (Grammar.offset n (a.bytes ++ r)) ++ recs =
      attrRec n d (b :: run ++ a.space1 ++ ch% '=' :: a.space2 ++ a.quote :: (a.value.bytes ++ a.quote :: r)) (b :: run) ::
        ⟨.attrVal, Grammar.offset n (a.value.bytes ++ a.quote :: r),
          (a.value.bytes ++ a.quote :: r).length - (r.length + 1), d⟩ :: recs := by
    rw [← e1]
    simp only [Attr.recs, attrRec, List.cons_append, List.nil_append]
    congr 1
    · rw [← hn]
      congr 1
      · by_cases hc : Grammar.IsNs a.name
        · rw [if_pos hc, if_pos (Attr.isNs_iff.2 hc)]
        · rw [if_neg hc, if_neg (mt Attr.isNs_iff.1 hc)]
      · have : a.name.length = run.length + 1 := by rw [hn]; rfl
        simp only [Grammar.offset, List.length_append, List.length_cons]; omega
    · congr 1
      simp only [Rec.mk.injEq, true_and, and_true]
      constructor
      · simp only [Grammar.offset, List.length_append, List.length_cons, List.length_nil, Attr.bytes, hn]; omega
      · simp only [List.length_append, List.length_cons]; omega
  rw [e2]
  exact this

theorem attrs_tagRest {n d : Nat} {as : List Attr} (h : ∀ a ∈ as, a.WellFormed) (hs : ∀ a ∈ as, a.Supported)
    {seen : List (List UInt8)} (h1 : (as.map Attr.name).Nodup) (h2 : ∀ a ∈ as, a.name ∉ seen)
    (h3 : seen.length + as.length ≤ 256) {w : List UInt8} (hw : AllWs w) {r e r'} (hc : Close r e r') :
    TagRest n d seen (as.flatMap Attr.bytes ++ (w ++ r)) (attrRecs d (Grammar.offset n (as.flatMap Attr.bytes ++ (w ++ r))) as) e r' := by
  induction as generalizing seen with
  | nil => exact TagRest.close (w := w) hw hc
  | cons a as ih =>
    simp only [List.map_cons, List.nodup_cons] at h1
    simp only [List.length_cons] at h3
    have := ih (seen := a.name :: seen) (fun x hx => h x (by simp [hx])) (fun x hx => hs x (by simp [hx])) h1.2 (by
      intro x hx hm
      rcases List.mem_cons.1 hm with e | hm
      · exact h1.1 (e ▸ List.mem_map_of_mem hx)
      · exact h2 x (by simp [hx]) hm) (by simp only [List.length_cons]; omega)
    have := Attr.tagRest (h a (by simp)) (hs a (by simp)) (h2 a (by simp)) (by omega) this
    simp only [List.flatMap_cons, attrRecs, List.append_assoc]
    rw [← offset_app n a.bytes]
    exact this

theorem StartTag.head {t : StartTag} (h : t.WellFormed) {c : UInt8} {s : List UInt8} (hc : ¬ NameByte c) :
    ∃ x r, t.attrs.flatMap Attr.bytes ++ (t.space ++ c :: s) = x :: r ∧ ¬ NameByte x := by
  cases ha : t.attrs with
  | nil =>
    cases hw : t.space with
    | nil => exact ⟨c, s, rfl, hc⟩
    | cons x w => exact ⟨x, w ++ c :: s, rfl, ws_not_name (h.space x (by simp [hw]))⟩
  | cons a as =>
    obtain ⟨h1, h2, -⟩ := (h.attrs a (by simp [ha])).space
    cases hw : a.space with
    | nil => exact absurd hw h1
    | cons x w => exact ⟨x, _, by simp only [List.flatMap_cons, Attr.bytes, hw, List.cons_append]; rfl, ws_not_name (h2 x (by simp [hw]))⟩

theorem StartTag.tag {n d : Nat} {t : StartTag} (h : t.WellFormed) (hs : t.Supported d) {c : UInt8} {r r' : List UInt8} {e : Bool}
    (hc : ¬ NameByte c) (hcl : Close (c :: r) e r') :
    ∃ s, t.bytes ++ c :: r = ch% '<' :: s ∧ Tag n d [] t.name s (t.recs d (Grammar.offset n (t.bytes ++ c :: r))) e r' ∧
      ∃ b s', s = b :: s' ∧ StartByte b := by
  obtain ⟨b, run, hn, hb, hr⟩ := h.name
  obtain ⟨x, y, hxy, hx⟩ := StartTag.head h (s := r) hc
  refine ⟨b :: (run ++ x :: y), ?_, ?_, _, _, rfl, hb⟩
  · rw [← hxy]; simp [StartTag.bytes, hn]
  have ht := attrs_tagRest (n := n) (d := d) (seen := []) h.attrs hs.attrs h.unique (by simp) (by have := hs.count; simpa using this)
    h.space hcl
  have e1 : t.recs d (Grammar.offset n (t.bytes ++ c :: r)) =
      (⟨.startingTag, Grammar.offset n ([] ++ b :: (run ++ x :: y)), ((lastColon (([] : List UInt8).length + 1) 0 run <<< 1 |||
        (([] : List UInt8) ++ b :: run).length : Nat) : Int), d⟩ : Rec) ::
        attrRecs d (Grammar.offset n (t.attrs.flatMap Attr.bytes ++ (t.space ++ c :: r))) t.attrs := by
    have e0 : lastColon (([] : List UInt8).length + 1) 0 run = 0 := lastColon_none fun hm => hs.colon (by simp [hn, hm])
    rw [e0]
    simp only [StartTag.recs, List.nil_append]
    congr 1
    · simp only [Rec.mk.injEq, true_and, and_true]
      constructor
      · rw [← hxy]
        simp only [StartTag.bytes, hn, Grammar.offset, List.length_append, List.length_cons]; omega
      · simp only [Nat.zero_shiftLeft, Nat.zero_or, hn]
    · congr 1
      simp only [StartTag.bytes, hn, Grammar.offset, List.length_append, List.length_cons]; omega
  rw [e1, hxy, hn]
  rw [hxy] at ht
  refine Tag.mk (pre := []) hb hr hx hs.depth ?_ ?_ ht
  · rw [lastColon_none fun hm => hs.colon (by simp [hn, hm])]; omega
  · have := hs.name; rw [hn] at this; exact this

/-! ## Comments, CDATA sections, processing instructions -/

theorem commentBody {s : List UInt8} (h : ∀ b ∈ s, CharByte b) (hp : ¬ HasPair (ch% '-') (ch% '-') (s ++ [ch% '-']))
    (r : List UInt8) : CommentBody (s ++ (str% "-->" ++ r)) (ch% '>' :: r) := by
  induction s with
  | nil => exact .stop
  | cons b s ih =>
    refine .char (h b (by simp)) ?_ (ih (fun x hx => h x (by simp [hx])) (not_pair_cons hp))
    rintro rfl he
    apply hp
    cases s with
    | nil => exact ⟨[], [], rfl⟩
    | cons x s =>
      obtain rfl : x = _ := Option.some.inj he
      exact ⟨[], s ++ [ch% '-'], rfl⟩

theorem piBody {s : List UInt8} (h : ∀ b ∈ s, CharByte b) (hp : ¬ HasPair (ch% '?') (ch% '>') s)
    (r : List UInt8) : PiBody (s ++ (str% "?>" ++ r)) r := by
  induction s with
  | nil => exact .stop
  | cons b s ih =>
    refine .char (h b (by simp)) ?_ (ih (fun x hx => h x (by simp [hx])) (not_pair_cons hp))
    rintro rfl he
    apply hp
    cases s with
    | nil => simp at he
    | cons x s =>
      obtain rfl : x = _ := Option.some.inj he
      exact ⟨[], s, rfl⟩

theorem cdataBody_bracket {b : UInt8} {s r' : List UInt8} (h : CdataBody (b :: s) r') (hb : b ≠ ch% '>') :
    CdataBody (ch% ']' :: b :: s) r' := by
  by_cases hc : b = ch% ']'
  · subst hc
    generalize hz : ch% ']' :: s = z at h
    cases h with
    | @stop k => exact .stop (k := k + 1)
    | char _ hb _ =>
      simp only [List.cons.injEq] at hz
      exact absurd hz.1.symm hb
    | @brackets k b r r' h1 h2 h3 => exact .brackets (k := k + 1) h1 h2 h3
  · exact .brackets (k := 0) hc hb h

theorem cdataBody {s : List UInt8} (h : ∀ b ∈ s, CharByte b) (hp : ¬ HasPair (ch% ']') (ch% '>') s)
    (r : List UInt8) : CdataBody (s ++ (str% "]]>" ++ r)) r := by
  induction s with
  | nil => exact .stop (k := 1)
  | cons b s ih =>
    have ih := ih (fun x hx => h x (by simp [hx])) (not_pair_cons hp)
    by_cases hb : b = ch% ']'
    · subst hb
      cases s with
      | nil => exact cdataBody_bracket ih (by decide)
      | cons x s =>
        refine cdataBody_bracket ih ?_
        rintro rfl
        exact hp ⟨[], s, rfl⟩
    · exact .char (h b (by simp)) hb ih

theorem xml_cases {t : List UInt8} {x : UInt8} {r : List UInt8} (h : Name t) (hx : ¬ NameByte x)
    (hp : XmlPrefix (t ++ x :: r)) : ∃ a b c t', t = a :: b :: c :: t' ∧ XmlPrefix [a, b, c] := by
  have key : ∀ b : UInt8, (b = ch% 'm' ∨ b = ch% 'M' ∨ b = ch% 'l' ∨ b = ch% 'L') → NameByte b := by
    intro b hb
    rcases hb with rfl | rfl | rfl | rfl <;> exact Or.inl (by simp only [Spec.NameStartChar]; decide)
  obtain ⟨b, run, rfl, -, -⟩ := h
  obtain ⟨a, b', c, r', e, h1, h2, h3⟩ := hp
  match run, e with
  | [], e =>
    simp only [List.cons_append, List.nil_append, List.cons.injEq] at e
    exact absurd (key x (by rw [e.2.1]; rcases h2 with h | h <;> simp [h])) hx
  | [y], e =>
    simp only [List.cons_append, List.nil_append, List.cons.injEq] at e
    exact absurd (key x (by rw [e.2.2.1]; rcases h3 with h | h <;> simp [h])) hx
  | y :: z :: run, e =>
    simp only [List.cons_append, List.cons.injEq] at e
    exact ⟨b, y, z, run, rfl, _, _, _, [], rfl, e.1 ▸ h1, e.2.1 ▸ h2, e.2.2.1 ▸ h3⟩

theorem piTarget {t : List UInt8} {x : UInt8} {r : List UInt8} (h : Name t) (h3 : ¬ (t.length = 3 ∧ XmlPrefix t))
    (hx : ¬ NameByte x) : PiTarget (t ++ x :: r) x r := by
  by_cases hp : XmlPrefix (t ++ x :: r)
  · obtain ⟨a, b, c, t', rfl, h4⟩ := xml_cases h hx hp
    obtain ⟨b', run, e, -, hr⟩ := h
    simp only [List.cons.injEq] at e
    obtain ⟨rfl, rfl⟩ := e
    cases t' with
    | nil => exact absurd ⟨rfl, h4⟩ h3
    | cons y run =>
      have hy := hr y (by simp)
      refine .xml h4 ?_ ?_ (fun z hz => hr z (by simp [hz])) hx
      · rintro rfl; exact close_not_name.2.2 hy
      · exact fun hw => ws_not_name hw hy
  · obtain ⟨b, run, rfl, hb, hr⟩ := h
    exact .plain hb hp hr hx

theorem piEndTarget {t : List UInt8} {x : UInt8} {r : List UInt8} (h : Name t) (h3 : ¬ (t.length = 3 ∧ XmlPrefix t))
    (hx : ¬ NameByte x) : PiEndTarget (t ++ x :: r) x r := by
  have h0 := h
  obtain ⟨b, run, rfl, hb, hr⟩ := h
  refine .mk hb ?_ hr hx
  intro hp
  obtain ⟨a, b', c, t', e, h4⟩ := xml_cases h0 hx hp
  simp only [List.cons.injEq] at e
  obtain ⟨rfl, rfl⟩ := e
  cases t' with
  | nil => exact absurd ⟨rfl, h4⟩ h3
  | cons y run => simp

theorem piAtom {n : Nat} {d : Nat} {t : List UInt8} {x : Option (UInt8 × List UInt8)} (h : (Atom.pi t x).WellFormed)
    (hs : (Atom.pi t x).Supported d) (r : List UInt8) :
    ∃ s, (Atom.pi t x).bytes ++ r = ch% '<' :: ch% '?' :: s ∧
      Pi n (d - 1) s ((Atom.pi t x).recs d (Grammar.offset n ((Atom.pi t x).bytes ++ r))) r := by
  obtain ⟨h1, h2, h3⟩ := h
  obtain ⟨h4, h5⟩ := hs
  cases x with
  | none =>
    refine ⟨t ++ ch% '?' :: ch% '>' :: r, by simp [Atom.bytes], ?_⟩
    have ht := piTarget (x := ch% '?') (r := ch% '>' :: r) h1 h2 close_not_name.2.2
    have := Pi.bare (n := n) (depth := d - 1) ht (by simp only [List.length_append, List.length_cons]; omega)
    simp only [Atom.recs, Atom.bytes]
    have e1 : (offset n (str% "<?" ++ (t ++ str% "?>") ++ r) + 2 : Int) = offset n (t ++ ch% '?' :: ch% '>' :: r) := by
      simp only [Grammar.offset, List.length_append, List.length_cons, List.length_nil]; omega
    have e2 : ((t.length : Nat) : Int) = (t ++ ch% '?' :: ch% '>' :: r).length - (r.length + 2) := by
      simp only [List.length_append, List.length_cons]; omega
    rw [e1, e2]
    exact this
  | some sd =>
    obtain ⟨c, data⟩ := sd
    obtain ⟨h6, h7, h8⟩ := h3 c data rfl
    have h5 := h5 c data rfl
    refine ⟨t ++ c :: (data ++ (str% "?>" ++ r)), by simp [Atom.bytes], ?_⟩
    have ht := piTarget (x := c) (r := data ++ (str% "?>" ++ r)) h1 h2 (ws_not_name h6)
    have := Pi.value (n := n) (depth := d - 1) ht h6 (by simp only [List.length_append, List.length_cons]; omega)
      (piBody h7 h8 r) (by simp only [List.length_append, List.length_cons, List.length_nil]; omega)
    simp only [Atom.recs, Atom.bytes]
    have e1 : (offset n (str% "<?" ++ (t ++ c :: (data ++ str% "?>")) ++ r) + 2 : Int) =
        offset n (t ++ c :: (data ++ (str% "?>" ++ r))) := by
      simp only [Grammar.offset, List.length_append, List.length_cons, List.length_nil]; omega
    have e2 : ((t.length : Nat) : Int) = (t ++ c :: (data ++ (str% "?>" ++ r))).length -
        ((data ++ (str% "?>" ++ r)).length + 1) := by
      simp only [List.length_append, List.length_cons]; omega
    have e3 : ((data.length : Nat) : Int) = (data ++ (str% "?>" ++ r)).length - (r.length + 2) := by
      simp only [List.length_append, List.length_cons, List.length_nil]; omega
    have e4 : (offset n (t ++ c :: (data ++ (str% "?>" ++ r))) + t.length + 1 : Int) =
        offset n (data ++ (str% "?>" ++ r)) := by
      simp only [Grammar.offset, List.length_append, List.length_cons, List.length_nil]; omega
    rw [e1, e4, e2, e3]
    exact this

theorem commentRecs {n : Nat} {d : Nat} {data r : List UInt8} (h : data.length ≤ maxLen) :
    Grammar.textRecs .comment (Grammar.offset n (data ++ (str% "-->" ++ r))) ((data ++ (str% "-->" ++ r)).length - (r.length + 3)) (d - 1) =
      (Atom.comment data).recs d (Grammar.offset n ((Atom.comment data).bytes ++ r)) := by
  have e1 : ((data ++ (str% "-->" ++ r)).length - (r.length + 3) : Int) = data.length := by
    simp only [List.length_append, List.length_cons, List.length_nil]; omega
  have e2 : (Grammar.offset n ((Atom.comment data).bytes ++ r) + 4 : Int) = Grammar.offset n (data ++ (str% "-->" ++ r)) := by
    simp only [Atom.bytes, Grammar.offset, List.length_append, List.length_cons, List.length_nil]; omega
  rw [e1, Grammar.textRecs, if_neg (by omega)]
  simp only [Atom.recs, e2]

theorem cdataRecs {n : Nat} {d : Nat} {data r : List UInt8} (h : data.length ≤ maxLen) :
    Grammar.textRecs .cdataVal (Grammar.offset n (data ++ (str% "]]>" ++ r))) ((data ++ (str% "]]>" ++ r)).length - (r.length + 3)) (d - 1) =
      (Atom.cdata data).recs d (Grammar.offset n ((Atom.cdata data).bytes ++ r)) := by
  have e1 : ((data ++ (str% "]]>" ++ r)).length - (r.length + 3) : Int) = data.length := by
    simp only [List.length_append, List.length_cons, List.length_nil]; omega
  have e2 : (Grammar.offset n ((Atom.cdata data).bytes ++ r) + 9 : Int) = Grammar.offset n (data ++ (str% "]]>" ++ r)) := by
    simp only [Atom.bytes, Grammar.offset, List.length_append, List.length_cons, List.length_nil]; omega
  rw [e1, Grammar.textRecs, if_neg (by omega)]
  simp only [Atom.recs, e2]

theorem Atom.inside {n d : Nat} {a : Atom} (h : a.WellFormed) (hs : a.Supported d) {r recs r'}
    (hi : Inside n d (.content .other) r recs r') :
    ∃ s, a.bytes ++ r = ch% '<' :: s ∧ s.head? ≠ some (ch% '/') ∧
      Inside n d .markup s (a.recs d (Grammar.offset n (a.bytes ++ r)) ++ recs) r' := by
  cases a with
  | empty tag =>
    obtain ⟨s, h1, h2, b, s', h3, h4⟩ := StartTag.tag (n := n) (c := ch% '/') (r := ch% '>' :: r) (r' := r) (e := true) h hs
      close_not_name.2.1 .empty
    have e : (Atom.empty tag).bytes ++ r = tag.bytes ++ ch% '/' :: ch% '>' :: r := by simp [Atom.bytes]
    rw [e]
    refine ⟨s, h1, ?_, ?_⟩
    · subst h3
      simp only [List.head?_cons, ne_eq, Option.some.injEq]
      rintro rfl; exact close_not_name.2.1 (Or.inl h4)
    · exact Inside.empty h2 hi
  | cdata data =>
    refine ⟨str% "![CDATA[" ++ (data ++ (str% "]]>" ++ r)), by simp [Atom.bytes], by simp, ?_⟩
    rw [← cdataRecs hs.1]
    exact Inside.cdata (cdataBody h.1 hs.2 r) hi
  | comment data =>
    refine ⟨str% "!--" ++ (data ++ (str% "-->" ++ r)), by simp [Atom.bytes], by simp, ?_⟩
    rw [← commentRecs hs]
    exact Inside.comment (commentBody h.1 h.2 r) hi
  | pi target data =>
    obtain ⟨s, h1, h2⟩ := piAtom (n := n) h hs r
    exact ⟨ch% '?' :: s, h1, by simp, Inside.pi h2 hi⟩

/-! ## Content -/

theorem split_ws (s : List UInt8) : AllWs s ∨ ∃ w b r, s = w ++ b :: r ∧ AllWs w ∧ ¬ Ws b := by
  induction s with
  | nil => exact Or.inl nofun
  | cons b s ih =>
    by_cases hb : (b = 0x20 || b = 0x9 || b = 0xD || b = 0xA) = true
    · rcases ih with h | ⟨w, c, r, h1, h2, h3⟩
      · left
        intro x hx
        rcases List.mem_cons.1 hx with rfl | hx
        · exact ws_iff.1 hb
        · exact h x hx
      · right
        refine ⟨b :: w, c, r, by simp [h1], ?_, h3⟩
        intro x hx
        rcases List.mem_cons.1 hx with rfl | hx
        · exact ws_iff.1 hb
        · exact h2 x hx
    · exact Or.inr ⟨[], b, s, rfl, nofun, fun h => hb (ws_iff.2 h)⟩

theorem textBody_ws {w s r' : List UInt8} (h : TextBody (w ++ s) r') (hw : AllWs w) : TextBody s r' := by
  induction w with
  | nil => exact h
  | cons b w ih =>
    refine ih ?_ (fun x hx => hw x (by simp [hx]))
    have hb := hw b (by simp)
    generalize hz : b :: w ++ s = z at h
    cases h with
    | stop =>
      simp only [List.cons_append, List.cons.injEq] at hz
      exfalso; rw [hz.1] at hb; simp only [Spec.S] at hb; revert hb; decide
    | char _ h2 =>
      simp only [List.cons_append, List.cons.injEq] at hz
      rw [hz.2]; exact h2
    | item hi _ =>
      exfalso
      cases hi <;> simp only [List.cons_append, List.cons.injEq] at hz <;>
      · rw [hz.1] at hb; simp only [Spec.S] at hb; revert hb; decide

theorem textBody_first {b : UInt8} {r s : List UInt8} (h : TextBody (b :: r ++ ch% '<' :: s) s) : b ≠ ch% '<' := by
  rintro rfl
  generalize hz : ch% '<' :: r ++ ch% '<' :: s = z at h
  cases h with
  | stop =>
    simp only [List.cons_append, List.cons.injEq, true_and] at hz
    have := congrArg List.length hz
    simp at this; omega
  | char h1 _ =>
    simp only [List.cons_append, List.cons.injEq] at hz
    rw [← hz.1] at h1
    exact absurd rfl h1.2.1
  | item hi _ => cases hi <;> simp at hz

/-- What a text that is not blank is for the grammar. -/
theorem Text.inside {n d : Nat} {prev : Prev} {t : Text} (h : t.WellFormed)
    (hs : Content.TextSupported (decide (prev = .end)) t) (hb : Content.Blank t = false) {s recs r'}
    (hi : Inside n d .markup s recs r') :
    Inside n d (.content prev) (t.bytes ++ ch% '<' :: s)
      (⟨.characterData, Grammar.offset n (t.bytes ++ ch% '<' :: s), t.bytes.length, d - 1⟩ :: recs) r' := by
  rcases split_ws t.bytes with hw | ⟨w, b, r, h1, h2, h3⟩
  · rw [blank_iff.2 hw] at hb; simp at hb
  have ht := textBody h.1 hs.pair s
  have hf : prev = .end → b ≠ ch% '&' ∧ b ≠ ch% ']' := fun e => hs.first (by simp [e]) w b r h1 h2 h3
  have hl := hs.length
  rw [h1] at ht hl ⊢
  rw [List.append_assoc] at ht
  have ht := textBody_ws ht h2
  have hlt := textBody_first ht
  have := Inside.text (n := n) (d := d) (prev := prev) (w := w) (b := b) (r := r ++ ch% '<' :: s) (r1 := s) h2 h3 hlt ?_ ht hi
  · rw [Grammar.textRecs, if_neg] at this
    · have e : ((w ++ b :: (r ++ ch% '<' :: s)).length - (s.length + 1) : Int) = (w ++ b :: r).length := by
        simp only [List.length_append, List.length_cons]; omega
      rw [e] at this
      simpa using this
    · simp only [List.length_append, List.length_cons] at hl ⊢; omega
  · intro e
    obtain ⟨f1, f2⟩ := hf e
    generalize hz : b :: r ++ ch% '<' :: s = z at ht
    cases ht with
    | stop => simp at hz; exact absurd hz.1 hlt
    | char hc _ =>
      simp only [List.cons_append, List.cons.injEq] at hz
      rw [hz.1]; exact hc
    | item hi _ =>
      cases hi <;> simp only [List.cons_append, List.cons.injEq] at hz
      · exact absurd hz.1 f1
      · exact absurd hz.1 f2

theorem Text.lead {n d : Nat} {prev : Prev} {t : Text} (h : t.WellFormed)
    (hs : Content.TextSupported (decide (prev = .end)) t) {s recs r'} (hh : prev = .start → s.head? ≠ some (ch% '/'))
    (hi : Inside n d .markup s recs r') :
    Inside n d (.content prev) (t.bytes ++ ch% '<' :: s)
      (Content.textRecs d (Grammar.offset n (t.bytes ++ ch% '<' :: s)) t ++ recs) r' := by
  by_cases hb : Content.Blank t
  · rw [Content.textRecs, if_pos hb]
    exact Inside.space (blank_iff.1 hb) hh hi
  · rw [Content.textRecs, if_neg hb]
    exact Text.inside h hs (by simpa using hb) hi

theorem Content.inside {n : Nat} {c : Content} : ∀ {d : Nat} {prev : Prev} {tail : List UInt8}, c.WellFormed →
    c.Supported d (decide (prev = .end)) →
    Inside n d (.content prev) (c.bytes ++ ch% '<' :: ch% '/' :: tail)
      (c.recs d (decide (prev = .start)) (Grammar.offset n (c.bytes ++ ch% '<' :: ch% '/' :: tail))) tail := by
  induction c with
  | text t =>
    intro d prev tail h hs
    simp only [Content.bytes, Content.recs]
    by_cases hp : prev = .start
    · subst hp
      rw [if_pos (by simp)]
      cases hb : Content.Blank t with
      | true =>
        have := Inside.gap (n := n) (d := d) (w := t.bytes) (r := tail) (blank_iff.1 hb)
        rw [Grammar.textRecs, if_neg (by have := hs.length; omega)] at this
        exact this
      | false => exact Text.inside h hs hb Inside.endTag
    · rw [if_neg (by simpa using hp)]
      have := Text.lead (n := n) (d := d) (prev := prev) h hs (fun e => absurd e hp) (Inside.endTag (r := tail))
      rwa [List.append_nil] at this
  | atom t a rest ih =>
    intro d prev tail h hs
    obtain ⟨h1, h2, h3⟩ := h
    obtain ⟨s1, s2, s3⟩ := hs
    have := ih (d := d) (prev := .other) (tail := tail) h3 s3
    obtain ⟨s, e1, e2, e3⟩ := Atom.inside h2 s2 this
    have := Text.lead (prev := prev) h1 s1 (fun _ => e2) e3
    have e0 : (Content.atom t a rest).bytes ++ ch% '<' :: ch% '/' :: tail = t.bytes ++ ch% '<' :: s := by
      rw [← e1]; simp [Content.bytes]
    rw [e0]
    simp only [Content.recs, List.append_assoc]
    have o1 : Grammar.offset n (t.bytes ++ ch% '<' :: s) + t.bytes.length =
        Grammar.offset n (a.bytes ++ (rest.bytes ++ ch% '<' :: ch% '/' :: tail)) := by
      rw [e1, ← offset_app]
    rw [o1, ← offset_app]
    exact this
  | element t tag body space rest ih1 ih2 =>
    intro d prev tail h hs
    obtain ⟨h1, h2, h3, h4, h5⟩ := h
    obtain ⟨s1, s2, s3, s4⟩ := hs
    have i2 := ih2 (d := d) (prev := .end) (tail := tail) h5 s4
    have i1 := ih1 (d := d + 1) (prev := .start)
      (tail := tag.name ++ space ++ ch% '>' :: (rest.bytes ++ ch% '<' :: ch% '/' :: tail)) h3 s3
    obtain ⟨s, e1, e2, b, s', e3, e4⟩ := StartTag.tag (n := n) (c := ch% '>') (e := false) h2 s2 close_not_name.1
      (.start (r := body.bytes ++ ch% '<' :: ch% '/' :: (tag.name ++ space ++ ch% '>' ::
        (rest.bytes ++ ch% '<' :: ch% '/' :: tail))))
    have hi := Inside.element e2 i1 h4 i2
    have hh : s.head? ≠ some (ch% '/') := by
      subst e3
      simp only [List.head?_cons, ne_eq, Option.some.injEq]
      rintro rfl; exact close_not_name.2.1 (Or.inl e4)
    have := Text.lead (prev := prev) h1 s1 (fun _ => hh) hi
    have e0 : (Content.element t tag body space rest).bytes ++ ch% '<' :: ch% '/' :: tail = t.bytes ++ ch% '<' :: s := by
      rw [← e1]; simp [Content.bytes]
    rw [e0]
    simp only [Content.recs, List.append_assoc]
    simp only [List.append_assoc] at this
    have o1 : Grammar.offset n (t.bytes ++ ch% '<' :: s) + t.bytes.length =
        Grammar.offset n (tag.bytes ++ ch% '>' :: (body.bytes ++ ch% '<' :: ch% '/' :: (tag.name ++ space ++ ch% '>' ::
        (rest.bytes ++ ch% '<' :: ch% '/' :: tail)))) := by
      rw [e1, ← offset_app]
    rw [o1]
    have o2 : ∀ r, (Grammar.offset n (tag.bytes ++ ch% '>' :: r) + tag.bytes.length + 1 : Int) = Grammar.offset n r := by
      intro r; simp only [Grammar.offset, List.length_append, List.length_cons]; omega
    rw [o2, ← offset_app]
    have o3 : ∀ r, (Grammar.offset n (ch% '<' :: ch% '/' :: (tag.name ++ space ++ ch% '>' :: r)) +
        (2 + tag.name.length + space.length + 1) : Int) = Grammar.offset n r := by
      intro r; simp only [Grammar.offset, List.length_append, List.length_cons]; omega
    rw [o3]
    simpa using this

/-! ## The document -/

theorem zero_depth : (((0 : Nat) : Int) - 1) = -1 := rfl

theorem epilog {n : Nat} {ms : List Misc} (h : ∀ m ∈ ms, m.WellFormed)
    (hs : ∀ m ∈ ms, ∃ t x, m.atom = .pi t (some x) ∧ m.atom.Supported 0) {w : List UInt8} (hw : AllWs w) :
    Epilog n (ms.flatMap Misc.bytes ++ w) (miscRecs (Grammar.offset n (ms.flatMap Misc.bytes ++ w)) ms) := by
  induction ms with
  | nil => exact .done hw
  | cons m ms ih =>
    have ih := ih (fun x hx => h x (by simp [hx])) (fun x hx => hs x (by simp [hx]))
    obtain ⟨t, ⟨c, data⟩, e1, e2⟩ := hs m (by simp)
    obtain ⟨m1, m2, m3⟩ := h m (by simp)
    rw [e1] at e2 m3
    obtain ⟨h1, h2, h3⟩ := m3
    obtain ⟨h4, h5⟩ := e2
    obtain ⟨h6, h7, h8⟩ := h3 c data rfl
    have h5 := h5 c data rfl
    generalize hr : ms.flatMap Misc.bytes ++ w = r at ih
    have ht := piEndTarget (x := c) (r := data ++ (str% "?>" ++ r)) h1 h2 (ws_not_name h6)
    have := Epilog.pi (n := n) m1 ht h6 (by simp only [List.length_append, List.length_cons]; omega)
      (piBody h7 h8 r) (by simp only [List.length_append, List.length_cons, List.length_nil]; omega) ih
    have e0 : (m :: ms).flatMap Misc.bytes ++ w = m.space ++ ch% '<' :: ch% '?' :: (t ++ c :: (data ++ (str% "?>" ++ r))) := by
      rw [← hr]; simp [Misc.bytes, Atom.bytes, e1]
    have eb : m.bytes.length = m.space.length + (t.length + data.length + 5) := by
      simp only [Misc.bytes, e1, Atom.bytes, List.length_append, List.length_cons, List.length_nil]; omega
    simp only [miscRecs, e1, Atom.recs, eb]
    rw [e0]
    have f1 : (Grammar.offset n (m.space ++ ch% '<' :: ch% '?' :: (t ++ c :: (data ++ (str% "?>" ++ r)))) + m.space.length + 2 : Int) =
        Grammar.offset n (t ++ c :: (data ++ (str% "?>" ++ r))) := by
      simp only [Grammar.offset, List.length_append, List.length_cons, List.length_nil]; omega
    have f2 : ((t.length : Nat) : Int) = (t ++ c :: (data ++ (str% "?>" ++ r))).length -
        ((data ++ (str% "?>" ++ r)).length + 1) := by
      simp only [List.length_append, List.length_cons]; omega
    have f3 : ((data.length : Nat) : Int) = (data ++ (str% "?>" ++ r)).length - (r.length + 2) := by
      simp only [List.length_append, List.length_cons, List.length_nil]; omega
    have f4 : (Grammar.offset n (t ++ c :: (data ++ (str% "?>" ++ r))) + t.length + 1 : Int) =
        Grammar.offset n (data ++ (str% "?>" ++ r)) := by
      simp only [Grammar.offset, List.length_append, List.length_cons, List.length_nil]; omega
    have f5 : (Grammar.offset n (m.space ++ ch% '<' :: ch% '?' :: (t ++ c :: (data ++ (str% "?>" ++ r)))) +
        ((m.space.length + (t.length + data.length + 5) : Nat) : Int)) = Grammar.offset n r := by
      simp only [Grammar.offset, List.length_append, List.length_cons, List.length_nil]; omega
    rw [f5, f1, f4, f2, f3]
    exact this

theorem Root.root {n : Nat} {x : Root} (h : x.WellFormed) (hs : x.Supported) {r recs} (he : Epilog n r recs) :
    ∃ b s, x.bytes ++ r = ch% '<' :: b :: s ∧ StartByte b ∧
      Grammar.Root n [] (b :: s) (x.recs (Grammar.offset n (x.bytes ++ r)) ++ recs) := by
  cases x with
  | empty tag =>
    obtain ⟨s, h1, h2, b, s', h3, h4⟩ := StartTag.tag (n := n) (c := ch% '/') (r := ch% '>' :: r) (r' := r) (e := true) h hs
      close_not_name.2.1 .empty
    have e : (Root.empty tag).bytes ++ r = tag.bytes ++ ch% '/' :: ch% '>' :: r := by simp [Root.bytes]
    rw [e]
    exact ⟨b, s', h3 ▸ h1, h4, h3 ▸ Grammar.Root.empty h2 he⟩
  | element tag body space =>
    obtain ⟨h2, h3, h4⟩ := h
    obtain ⟨s2, s3⟩ := hs
    have i1 := Content.inside (n := n) (d := 1) (prev := .start)
      (tail := tag.name ++ space ++ ch% '>' :: r) h3 s3
    obtain ⟨s, e1, e2, b, s', e3, e4⟩ := StartTag.tag (n := n) (c := ch% '>') (e := false) h2 s2 close_not_name.1
      (.start (r := body.bytes ++ ch% '<' :: ch% '/' :: (tag.name ++ space ++ ch% '>' :: r)))
    have e : (Root.element tag body space).bytes ++ r =
        tag.bytes ++ ch% '>' :: (body.bytes ++ ch% '<' :: ch% '/' :: (tag.name ++ space ++ ch% '>' :: r)) := by
      simp [Root.bytes]
    rw [e]
    refine ⟨b, s', e3 ▸ e1, e4, ?_⟩
    have := Grammar.Root.element e2 i1 h4 he
    subst e3
    simp only [Root.recs]
    have o2 : ∀ r, (Grammar.offset n (tag.bytes ++ ch% '>' :: r) + tag.bytes.length + 1 : Int) = Grammar.offset n r := by
      intro r; simp only [Grammar.offset, List.length_append, List.length_cons]; omega
    rw [o2]
    exact this

theorem prolog {n : Nat} {ms : List Misc} (h : ∀ m ∈ ms, m.WellFormed) (hs : ∀ m ∈ ms, m.atom.Supported 0)
    {w : List UInt8} (hw : AllWs w) {x : Root} (hx : x.WellFormed) (hxs : x.Supported) {r recs} (he : Epilog n r recs) :
    ∃ w' b s, ms.flatMap Misc.bytes ++ (w ++ (x.bytes ++ r)) = w' ++ ch% '<' :: b :: s ∧ AllWs w' ∧
      (w' = [] → b = ch% '?' → ∃ m ms' t y, ms = m :: ms' ∧ m.atom = .pi t y ∧ m.space = []) ∧
      Grammar.Root n [] (b :: s) (miscRecs (Grammar.offset n (ms.flatMap Misc.bytes ++ (w ++ (x.bytes ++ r)))) ms ++
        (x.recs (Grammar.offset n (x.bytes ++ r)) ++ recs)) := by
  induction ms with
  | nil =>
    obtain ⟨b, s, e1, e2, e3⟩ := Root.root (n := n) hx hxs he
    refine ⟨w, b, s, by simp [e1], hw, ?_, e3⟩
    rintro - rfl
    exact absurd (Or.inl e2) close_not_name.2.2
  | cons m ms ih =>
    obtain ⟨w1, b, s, e1, e2, -, e4⟩ := ih (fun x hx => h x (by simp [hx])) (fun x hx => hs x (by simp [hx]))
    obtain ⟨m1, m2, m3⟩ := h m (by simp)
    have ms' := hs m (by simp)
    have o1 : ∀ r, (Grammar.offset n (m.space ++ (m.atom.bytes ++ r)) + m.bytes.length : Int) = Grammar.offset n r := by
      intro r
      simp only [Grammar.offset, Misc.bytes, List.length_append, List.length_cons]; omega
    simp only [List.flatMap_cons, miscRecs]
    have o0 : m.bytes ++ ms.flatMap Misc.bytes ++ (w ++ (x.bytes ++ r)) =
        m.space ++ (m.atom.bytes ++ (ms.flatMap Misc.bytes ++ (w ++ (x.bytes ++ r)))) := by simp [Misc.bytes]
    rw [o0, o1, ← offset_app]
    rcases m2 with ⟨data, hm⟩ | ⟨t, y, hm⟩
    · rw [hm] at m3 ms' ⊢
      have hc := commentBody m3.1 m3.2 (ms.flatMap Misc.bytes ++ (w ++ (x.bytes ++ r)))
      have := Grammar.Root.comment (n := n) (pre := []) hc e2 e1 e4
      have hr := commentRecs (n := n) (d := 0) (r := ms.flatMap Misc.bytes ++ (w ++ (x.bytes ++ r))) ms'
      rw [zero_depth] at hr
      rw [hr] at this
      refine ⟨m.space, ch% '!', str% "--" ++ (data ++ (str% "-->" ++ (ms.flatMap Misc.bytes ++ (w ++ (x.bytes ++ r))))), ?_, m1,
        fun _ h => absurd h (by decide), ?_⟩
      · simp [Atom.bytes]
      · simpa using this
    · rw [hm] at m3 ms' ⊢
      obtain ⟨s1, f1, f2⟩ := piAtom (n := n) m3 ms' (ms.flatMap Misc.bytes ++ (w ++ (x.bytes ++ r)))
      rw [zero_depth] at f2
      refine ⟨m.space, ch% '?', s1, by rw [f1], m1, ?_, ?_⟩
      · intro hsp _
        exact ⟨m, ms, t, y, rfl, hm, hsp⟩
      · rw [e1] at f2 ⊢
        have := Grammar.Root.pi (pre := []) f2 e2 e4
        rw [e1] at this
        simpa using this

theorem decl_version {n : Nat} {a : DeclAttr} (h : a.WellFormed [str% "1.0", str% "1.1"]) (r : List UInt8) :
    ∃ s w s', Ws s ∧ AllWs w ∧ a.bytes (str% "version") ++ r = s :: (w ++ s') ∧
      Version n s' (a.recs (str% "version") (Grammar.offset n (a.bytes (str% "version") ++ r))) r := by
  obtain ⟨⟨h1, h2, h3, h4⟩, h5, h6⟩ := h
  match hsp : a.space, h1 with
  | [], h1 => exact absurd rfl h1
  | s :: w, _ =>
    rw [hsp] at h2
    have hv : ∃ d, (d = ch% '0' ∨ d = ch% '1') ∧ a.value = str% "1." ++ [d] := by
      simp only [List.mem_cons, List.not_mem_nil, or_false] at h6
      rcases h6 with h | h
      · exact ⟨_, Or.inl rfl, h⟩
      · exact ⟨_, Or.inr rfl, h⟩
    obtain ⟨d, hd, hv⟩ := hv
    have := Version.mk (n := n) (r := r) h3 h4 h5 hd
    refine ⟨s, w, str% "version" ++ a.space1 ++ ch% '=' :: a.space2 ++ a.quote :: str% "1." ++ d :: a.quote :: r, h2 s (by simp), fun x hx => h2 x (by simp [hx]), ?_, ?_⟩
    rotate_left
    · have e : a.recs (str% "version") (Grammar.offset n (a.bytes (str% "version") ++ r)) =
        [⟨.decAttrName, Grammar.offset n (str% "version" ++ a.space1 ++ ch% '=' :: a.space2 ++ a.quote :: str% "1." ++ d :: a.quote :: r), 7, -1⟩,
         ⟨.decAttrVal, Grammar.offset n (str% "1." ++ d :: a.quote :: r), 3, -1⟩] := by
        simp only [DeclAttr.recs, DeclAttr.bytes, hsp, hv, List.cons.injEq, Rec.mk.injEq, true_and, and_true]
        refine ⟨⟨?_, rfl⟩, ?_, rfl⟩ <;>
        · simp only [Grammar.offset, List.length_append, List.length_cons, List.length_nil]; omega
      rw [e]
      exact this
    · simp [DeclAttr.bytes, hsp, hv]

theorem decl_encoding {n : Nat} {a : DeclAttr} (h : a.WellFormed utf8Names) {w r : List UInt8}
    (hw : AllWs w) (hr : ∀ b, r.head? = some b → ¬ Ws b) :
    ∃ s, a.bytes (str% "encoding") ++ (w ++ r) = a.space ++ s ∧
      Encoding n s (a.recs (str% "encoding") (Grammar.offset n (a.bytes (str% "encoding") ++ (w ++ r)))) r := by
  obtain ⟨⟨h1, h2, h3, h4⟩, h5, h6⟩ := h
  have hv : EncName a.value 5 ∧ a.value.length = 5 := by
    simp only [utf8Names, List.mem_cons, List.not_mem_nil, or_false] at h6
    rcases h6 with h | h | h | h | h | h | h | h <;> rw [h] <;> exact ⟨.utf8 (by decide) (by decide) (by decide), rfl⟩
  have := Encoding.mk (n := n) h3 h4 h5 hv.1 h5 hw hr
  refine ⟨str% "encoding" ++ a.space1 ++ ch% '=' :: a.space2 ++ a.quote :: a.value ++ a.quote :: w ++ r, ?_, ?_⟩
  rotate_left
  · have e : a.recs (str% "encoding") (Grammar.offset n (a.bytes (str% "encoding") ++ (w ++ r))) =
      [⟨.decAttrName, Grammar.offset n (str% "encoding" ++ a.space1 ++ ch% '=' :: a.space2 ++ a.quote :: a.value ++ a.quote :: w ++ r), 8, -1⟩,
       ⟨.decAttrVal, Grammar.offset n (a.value ++ a.quote :: w ++ r), 5, -1⟩] := by
      simp only [DeclAttr.recs, DeclAttr.bytes, List.cons.injEq, Rec.mk.injEq, true_and, and_true]
      refine ⟨⟨?_, rfl⟩, ?_, ?_⟩
      · simp only [Grammar.offset, List.length_append, List.length_cons, List.length_nil]; omega
      · simp only [Grammar.offset, List.length_append, List.length_cons, List.length_nil]; omega
      · rw [hv.2]; rfl
    rw [e]
    exact this
  · simp [DeclAttr.bytes]

theorem decl_standalone {n : Nat} {a : DeclAttr} (h : a.WellFormed [str% "yes", str% "no"]) {w r : List UInt8}
    (hw : AllWs w) (hr : ∀ b, r.head? = some b → ¬ Ws b) :
    ∃ s, a.bytes (str% "standalone") ++ (w ++ r) = a.space ++ s ∧ (∃ s', s = ch% 's' :: s') ∧
      Standalone n s (a.recs (str% "standalone") (Grammar.offset n (a.bytes (str% "standalone") ++ (w ++ r)))) r := by
  obtain ⟨⟨h1, h2, h3, h4⟩, h5, h6⟩ := h
  have hv : (a.value = str% "yes" ∧ (a.value.length : Int) = 3) ∨
      ((a.value = str% "no" ∨ a.value = str% "yno" ∨ a.value = str% "yeno") ∧ (a.value.length : Int) = 2) := by
    simp only [List.mem_cons, List.not_mem_nil, or_false] at h6
    rcases h6 with h | h
    · exact Or.inl ⟨h, by rw [h]; rfl⟩
    · exact Or.inr ⟨Or.inl h, by rw [h]; rfl⟩
  have := Standalone.mk (n := n) h3 h4 h5 hv h5 hw hr
  refine ⟨str% "standalone" ++ a.space1 ++ ch% '=' :: a.space2 ++ a.quote :: a.value ++ a.quote :: w ++ r, ?_, ?_, ?_⟩
  rotate_left 2
  · have e : a.recs (str% "standalone") (Grammar.offset n (a.bytes (str% "standalone") ++ (w ++ r))) =
      [⟨.decAttrName, Grammar.offset n (str% "standalone" ++ a.space1 ++ ch% '=' :: a.space2 ++ a.quote :: a.value ++ a.quote :: w ++ r), 10, -1⟩,
       ⟨.decAttrVal, Grammar.offset n (a.value ++ a.quote :: w ++ r), a.value.length, -1⟩] := by
      simp only [DeclAttr.recs, DeclAttr.bytes, List.cons.injEq, Rec.mk.injEq, true_and, and_true]
      refine ⟨⟨?_, rfl⟩, ?_⟩
      · simp only [Grammar.offset, List.length_append, List.length_cons, List.length_nil]; omega
      · simp only [Grammar.offset, List.length_append, List.length_cons, List.length_nil]; omega
    rw [e]
    exact this
  · simp [DeclAttr.bytes]
  · exact ⟨_, rfl⟩

theorem Decl.rest {n : Nat} {d : Decl} (h : d.WellFormed) (r : List UInt8) :
    DeclRest n (optBytes (str% "encoding") d.encoding ++ (optBytes (str% "standalone") d.standalone ++
      (d.space ++ (str% "?>" ++ r))))
      (optRecs (str% "encoding") (Grammar.offset n (optBytes (str% "encoding") d.encoding ++
        (optBytes (str% "standalone") d.standalone ++ (d.space ++ (str% "?>" ++ r))))) d.encoding ++
       optRecs (str% "standalone") (Grammar.offset n (optBytes (str% "standalone") d.standalone ++
        (d.space ++ (str% "?>" ++ r)))) d.standalone) (str% "?>" ++ r) := by
  have hq : ∀ b, (str% "?>" ++ r : List UInt8).head? = some b → ¬ Ws b := by
    intro b hb
    obtain rfl : _ = b := Option.some.inj hb
    simp only [Spec.S]; decide
  cases he : d.encoding with
  | none =>
    cases hs : d.standalone with
    | none =>
      cases hw : d.space with
      | nil => exact .none
      | cons b w => exact .ws (by simp) (hw ▸ h.space)
    | some a =>
      have ha := h.standalone a hs
      obtain ⟨s, e1, -, e3⟩ := decl_standalone (n := n) ha h.space hq
      simp only [optBytes, optRecs, List.nil_append]
      rw [e1] at e3 ⊢
      exact .alone ha.space.1 ha.space.2.1 e3
  | some a =>
    have ha := h.encoding a he
    cases hs : d.standalone with
    | none =>
      obtain ⟨s, e1, e3⟩ := decl_encoding (n := n) ha h.space hq
      simp only [optBytes, optRecs, List.nil_append, List.append_nil]
      rw [e1] at e3 ⊢
      exact .enc ha.space.1 ha.space.2.1 e3
    | some b =>
      have hb := h.standalone b hs
      obtain ⟨s, e1, ⟨s', e2⟩, e3⟩ := decl_standalone (n := n) hb h.space hq
      simp only [optBytes, optRecs]
      rw [e1] at e3 ⊢
      obtain ⟨s1, f1, f3⟩ := decl_encoding (n := n) ha (w := b.space) (r := s) hb.space.2.1 (by
        subst e2
        intro b hb
        obtain rfl : _ = b := Option.some.inj hb
        simp only [Spec.S]; decide)
      rw [f1] at f3 ⊢
      exact .both ha.space.1 ha.space.2.1 f3 e3

theorem Document.doc {n : Nat} {d : Document} (h : d.WellFormed) (hs : d.Supported) :
    Grammar.Document n d.bytes (d.recs (Grammar.offset n d.bytes)) := by
  have he := Tree.epilog (n := n) h.epilog hs.epilog h.space.2
  obtain ⟨w, b, s, e1, e2, e3, e4⟩ := Tree.prolog (n := n) h.prolog hs.prolog h.space.1 h.root hs.root he
  simp only [Document.bytes, Document.recs]
  cases hd : d.decl with
  | none =>
    simp only [Document.declBytes, hd, Option.map_none, Option.getD_none, List.nil_append]
    have o1 : ∀ r : List UInt8, (Grammar.offset n r + ([] : List UInt8).length : Int) = Grammar.offset n r := by
      intro r; simp
    rw [o1, ← offset_app, ← offset_app, ← offset_app, List.append_assoc, e1]
    rw [e1] at e4
    by_cases hw : w = []
    · subst hw
      refine Grammar.Document.plain (pre := []) (.none ?_) e4
      intro hb
      obtain ⟨m, ms, t, y, g1, g2, g3⟩ := e3 rfl hb
      exact hs.first m ms t y hd g1 g2 g3
    · exact Grammar.Document.space hw e2 e4
  | some x =>
    have hx := h.decl x hd
    simp only [Document.declBytes, hd, Option.map_some, Option.getD_some]
    rw [← offset_app, ← offset_app, ← offset_app, ← offset_app, e1]
    rw [e1] at e4
    have hr := Decl.rest (n := n) hx (w ++ ch% '<' :: b :: s)
    obtain ⟨s0, w0, s1, g1, g2, g3, g4⟩ := decl_version (n := n) hx.version
      (optBytes (str% "encoding") x.encoding ++ (optBytes (str% "standalone") x.standalone ++
      (x.space ++ (str% "?>" ++ (w ++ ch% '<' :: b :: s)))))
    have := Grammar.Document.decl (n := n) (x := ch% 'x') (m := ch% 'm') (l := ch% 'l') (w' := w)
      ⟨_, _, _, [], rfl, Or.inl rfl, Or.inl rfl, Or.inl rfl⟩ g1 g2 g4 (by rw [List.append_assoc]; exact hr) e2 e4
    have eb : x.bytes ++ (w ++ ch% '<' :: b :: s) = ch% '<' :: ch% '?' :: ch% 'x' :: ch% 'm' :: ch% 'l' :: s0 :: (w0 ++ s1) := by
      rw [← g3]; simp [Decl.bytes]
    rw [eb]
    have o5 : (Grammar.offset n (ch% '<' :: ch% '?' :: ch% 'x' :: ch% 'm' :: ch% 'l' :: s0 :: (w0 ++ s1)) + 5 : Int) =
        Grammar.offset n (s0 :: (w0 ++ s1)) := by
      simp only [Grammar.offset, List.length_cons]; omega
    have er : x.recs (Grammar.offset n (ch% '<' :: ch% '?' :: ch% 'x' :: ch% 'm' :: ch% 'l' :: s0 :: (w0 ++ s1))) =
        x.version.recs (str% "version") (Grammar.offset n (s0 :: (w0 ++ s1))) ++
        (optRecs (str% "encoding") (Grammar.offset n (optBytes (str% "encoding") x.encoding ++
        (optBytes (str% "standalone") x.standalone ++ (x.space ++ (str% "?>" ++ (w ++ ch% '<' :: b :: s)))))) x.encoding ++
       optRecs (str% "standalone") (Grammar.offset n (optBytes (str% "standalone") x.standalone ++
        (x.space ++ (str% "?>" ++ (w ++ ch% '<' :: b :: s))))) x.standalone) := by
      simp only [Decl.recs]
      rw [o5, ← g3, ← offset_app, ← offset_app, List.append_assoc]
    rw [er]
    rw [g3] at this
    simpa only [List.append_assoc] using this

end Tree
end GoVtd
