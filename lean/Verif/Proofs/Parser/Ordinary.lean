import Verif.Spec.Ordinary
import Verif.Proofs.Parser.Fits
import Verif.Proofs.Parser.Untree
import Verif.Proofs.Parser.TreeDec

/-!
# Ordinary documents of the grammar are serialised trees
-/

namespace GoVtd
namespace Tree

open Grammar

/-- The conditions on all parts of a document. -/
structure Core (s : List UInt8) : Prop where
  after : ∀ name w w' b, AllName name → AllWs w → AllWs w' → (b = ch% '&' ∨ b = ch% ']') →
    ¬ str% "</" ++ (name ++ (w ++ ch% '>' :: (w' ++ [b]))) <:+: s
  cdata : ∀ u, str% "<![CDATA[" ++ (u ++ str% "]>") <:+: s → ¬ HasPair (ch% ']') (ch% '>') u → ∃ v, u = v ++ [ch% ']']
  doctype : ¬ str% "<!DDOCTYPE" <:+: s
  target : ∀ x m l y, XmlPrefix [x, m, l] → str% "<?" ++ [x, m, l, y] <:+: s → NameByte y ∨ Ws y ∨ y = ch% '?'
  cut : ∀ name y, Name name → str% "<?" ++ (name ++ [ch% '?', y]) <:+: s → y = ch% '>'

theorem Core.of {s r : List UInt8} (h : Core s) (hr : r <:+: s) : Core r where
  after := fun name w w' b h1 h2 h3 h4 h5 => h.after name w w' b h1 h2 h3 h4 (h5.trans hr)
  cdata := fun u h1 h2 => h.cdata u (h1.trans hr) h2
  doctype := fun h1 => h.doctype (h1.trans hr)
  target := fun x m l y h1 h2 => h.target x m l y h1 (h2.trans hr)
  cut := fun name y h1 h2 => h.cut name y h1 (h2.trans hr)

theorem Core.suffix {s r : List UInt8} (h : Core s) (hr : r <:+ s) : Core r := h.of hr.isInfix

theorem ordinary_core {s : List UInt8} (h : Ordinary s) : Core s := ⟨h.after, h.cdata, h.doctype, h.target, h.cut⟩

/-! ## References and character data -/

theorem hexDigits_tree {v v' : Nat} {s r' : List UInt8} (h : HexDigits v s v' r') :
    ∃ ds, s = ds ++ ch% ';' :: r' ∧ (∀ b ∈ ds, hexVal b ≠ none) ∧ (ds = [] → v' = v) := by
  induction h with
  | stop => exact ⟨[], rfl, nofun, fun _ => rfl⟩
  | @digit v b d r v' r' h1 _ ih =>
    obtain ⟨ds, rfl, h2, -⟩ := ih
    refine ⟨b :: ds, rfl, fun x hx => ?_, nofun⟩
    rcases List.mem_cons.1 hx with rfl | hx
    · rw [h1]; simp
    · exact h2 x hx

theorem decDigits_tree {v v' : Nat} {s r' : List UInt8} (h : DecDigits v s v' r') :
    ∃ ds, s = ds ++ ch% ';' :: r' ∧ (∀ b ∈ ds, decVal b ≠ none) ∧ (ds = [] → v' = v) := by
  induction h with
  | stop => exact ⟨[], rfl, nofun, fun _ => rfl⟩
  | @digit v b r v' r' h1 h1' _ ih =>
    obtain ⟨ds, rfl, h2, -⟩ := ih
    refine ⟨b :: ds, rfl, fun x hx => ?_, nofun⟩
    rcases List.mem_cons.1 hx with rfl | hx
    · rw [decVal, if_pos ⟨h1, h1'⟩]; simp
    · exact h2 x hx

theorem ref_tree {t r' : List UInt8} {v : Nat} (h : Ref t v r') : ∃ x : Reference, x.Syntax ∧ ch% '&' :: t = x.bytes ++ r' := by
  have hn : ∀ s : List UInt8, s ∈ entityNames → Name s := by
    intro s hs
    simp only [entityNames, List.mem_cons, List.not_mem_nil, or_false] at hs
    rcases hs with rfl | rfl | rfl | rfl | rfl
    all_goals
      refine ⟨_, _, rfl, by simp only [Spec.NameStartChar]; decide, ?_⟩
      simp only [AllName]
      decide +kernel
  cases h with
  | hex h1 h2 =>
    obtain ⟨ds, rfl, h3, h4⟩ := hexDigits_tree h1
    refine ⟨.hex ds, ⟨fun h => ?_, h3⟩, by simp [Reference.bytes]⟩
    rw [h4 h] at h2
    simp only [Spec.Char11] at h2
    omega
  | dec h1 h2 =>
    obtain ⟨ds, rfl, h3, h4⟩ := decDigits_tree h1
    refine ⟨.dec ds, ⟨fun h => ?_, h3⟩, by simp [Reference.bytes]⟩
    rw [h4 h] at h2
    simp only [Spec.Char11] at h2
    omega
  | amp => exact ⟨.entity (str% "amp"), hn _ (by simp [entityNames]), by simp [Reference.bytes]⟩
  | apos => exact ⟨.entity (str% "apos"), hn _ (by simp [entityNames]), by simp [Reference.bytes]⟩
  | quot => exact ⟨.entity (str% "quot"), hn _ (by simp [entityNames]), by simp [Reference.bytes]⟩
  | gt => exact ⟨.entity (str% "gt"), hn _ (by simp [entityNames]), by simp [Reference.bytes]⟩
  | lt => exact ⟨.entity (str% "lt"), hn _ (by simp [entityNames]), by simp [Reference.bytes]⟩

theorem pair_append {a b : UInt8} {u l : List UInt8} (hu : ∀ x ∈ u, x ≠ a) (h : HasPair a b (u ++ l)) : HasPair a b l := by
  induction u with
  | nil => exact h
  | cons x u ih =>
    rcases pair_cons.1 h with ⟨h1, -⟩ | h1
    · exact absurd h1 (hu x (by simp))
    · exact ih (fun y hy => hu y (by simp [hy])) h1

theorem pair_replicate {k : Nat} {l : List UInt8} (hl : l.head? ≠ some (ch% '>')) (hp : ¬ HasPair (ch% ']') (ch% '>') l) :
    ¬ HasPair (ch% ']') (ch% '>') (List.replicate k (ch% ']') ++ l) := by
  induction k with
  | zero => simpa using hp
  | succ k ih =>
    intro h
    rw [List.replicate_succ, List.cons_append] at h
    rcases pair_cons.1 h with ⟨-, h1⟩ | h1
    · cases k with
      | zero => exact hl (by simpa using h1)
      | succ k => simp [List.replicate_succ] at h1
    · exact ih h1

theorem pair_nil {a b : UInt8} : ¬ HasPair a b [] := by
  rintro ⟨u, v, e⟩
  have := congrArg List.length e
  simp only [List.length_append, List.length_cons, List.length_nil] at this; omega

theorem head_of {l s r : List UInt8} {b c : UInt8} (h : b :: s = l ++ r) (hb : b ≠ c) : l.head? ≠ some c := by
  cases l with
  | nil => simp
  | cons x l =>
    simp only [List.cons_append, List.cons.injEq] at h
    rw [List.head?_cons, ← h.1]
    exact fun e => hb (Option.some.inj e)

theorem bytes_app (t u : Text) : Text.bytes (t ++ u) = t.bytes ++ u.bytes := by simp [Text.bytes]

theorem content_syntax {b : UInt8} (h : ContentByte b) : (Piece.byte b).Syntax ∧ b ≠ ch% ']' := by
  obtain ⟨h1, h2, h3, h4⟩ := h
  exact ⟨⟨h1, fun e => h2 (by rw [e]; rfl), fun e => h3 (by rw [e]; rfl)⟩, fun e => h4 (by rw [e]; rfl)⟩

theorem text_tree {s r' : List UInt8} (h : TextBody s r') :
    ∃ t : Text, (∀ p ∈ t, p.Syntax) ∧ s = t.bytes ++ ch% '<' :: r' ∧ ¬ HasPair (ch% ']') (ch% '>') t.bytes := by
  induction h with
  | stop => exact ⟨[], nofun, rfl, pair_nil⟩
  | @char b r r' hb _ ih =>
    obtain ⟨t, h1, rfl, h2⟩ := ih
    obtain ⟨h3, h4⟩ := content_syntax hb
    refine ⟨.byte b :: t, ?_, rfl, ?_⟩
    · intro p hp
      rcases List.mem_cons.1 hp with rfl | hp
      · exact h3
      · exact h1 p hp
    · intro h
      rcases pair_cons.1 (show HasPair _ _ (b :: t.bytes) from h) with ⟨h5, -⟩ | h5
      · exact h4 h5
      · exact h2 h5
  | @item r r1 r' hi _ ih =>
    obtain ⟨t, h1, h0, h2⟩ := ih
    cases hi with
    | ref hr =>
      obtain ⟨x, h3, h4⟩ := ref_tree hr
      refine ⟨.ref x :: t, ?_, ?_, ?_⟩
      · intro p hp
        rcases List.mem_cons.1 hp with rfl | hp
        · exact h3
        · exact h1 p hp
      · rw [h4, h0]; simp [Text.bytes, Piece.bytes]
      · intro h
        exact h2 (pair_append (Reference.no_bracket h3) (show HasPair _ _ (x.bytes ++ t.bytes) from h))
    | @brackets k b r hb1 hb2 =>
      refine ⟨List.replicate (k + 1) (.byte (ch% ']')) ++ t, ?_, ?_, ?_⟩
      · intro p hp
        rcases List.mem_append.1 hp with hp | hp
        · rw [List.eq_of_mem_replicate hp]
          exact ⟨by simp only [Spec.Char11]; decide, by decide, by decide⟩
        · exact h1 p hp
      · have : Text.bytes (List.replicate (k + 1) (.byte (ch% ']'))) = List.replicate (k + 1) (ch% ']') := by
          generalize k + 1 = j
          induction j with
          | zero => rfl
          | succ j ih => rw [List.replicate_succ, List.replicate_succ, ← ih]; rfl
        rw [bytes_app, this, List.append_assoc, ← h0]; rfl
      · have : Text.bytes (List.replicate (k + 1) (.byte (ch% ']'))) = List.replicate (k + 1) (ch% ']') := by
          generalize k + 1 = j
          induction j with
          | zero => rfl
          | succ j ih => rw [List.replicate_succ, List.replicate_succ, ← ih]; rfl
        rw [bytes_app, this]
        exact pair_replicate (head_of h0 hb2) h2

theorem attr_tree {q : UInt8} {s r' : List UInt8} (h : AttrBody q s r') :
    ∃ t : Text, (∀ p ∈ t, p.Syntax ∧ ∀ b, p = .byte b → b ≠ q) ∧ s = t.bytes ++ q :: r' := by
  induction h with
  | stop => exact ⟨[], nofun, rfl⟩
  | @char b r r' h1 h2 h3 h4 _ ih =>
    obtain ⟨t, h5, rfl⟩ := ih
    refine ⟨.byte b :: t, ?_, rfl⟩
    intro p hp
    rcases List.mem_cons.1 hp with rfl | hp
    · exact ⟨⟨h1, h2, h3⟩, fun y hy => by cases hy; exact h4⟩
    · exact h5 p hp
  | @ref r v r1 r' hr _ ih =>
    obtain ⟨t, h5, rfl⟩ := ih
    obtain ⟨x, h3, h4⟩ := ref_tree hr
    refine ⟨.ref x :: t, ?_, by rw [h4]; simp [Text.bytes, Piece.bytes]⟩
    intro p hp
    rcases List.mem_cons.1 hp with rfl | hp
    · exact ⟨h3, nofun⟩
    · exact h5 p hp

/-! ## Tags -/

theorem tagRest_tree {n : Nat} {d : Int} {seen : List (List UInt8)} {s recs e r'} (h : TagRest n d seen s recs e r') :
    ∃ (as : List Attr) (w c : List UInt8), s = as.flatMap Attr.bytes ++ (w ++ c) ∧ Close c e r' ∧ AllWs w ∧ ∀ a ∈ as, a.Syntax := by
  induction h with
  | @close seen w r e r' hw hcl => exact ⟨[], w, r, rfl, hcl, hw, nofun⟩
  | @attr seen w b run w1 w2 q r r1 recs e r' h1 h2 h3 h4 h5 h6 h7 h8 h9 h10 h11 h12 h13 h14 ih =>
    obtain ⟨t, hl, rfl⟩ := attr_tree h12
    obtain ⟨as, w0, c, rfl, i1, i2, i3⟩ := ih
    refine ⟨⟨w, b :: run, w1, w2, q, t⟩ :: as, w0, c, ?_, i1, i2, ?_⟩
    · simp [Attr.bytes]
    · intro a ha
      rcases List.mem_cons.1 ha with rfl | ha
      · exact ⟨⟨h1, h2, h9, h10⟩, ⟨b, run, rfl, h3, h4⟩, h11, hl⟩
      · exact i3 a ha

theorem tag_tree {n d : Nat} {name s recs e r'} (h : Tag n d [] name s recs e r') :
    ∃ (t : StartTag) (c : List UInt8), t.Syntax ∧ t.name = name ∧ ch% '<' :: s = t.bytes ++ c ∧ Close c e r' := by
  cases h with
  | @mk b run x r recs e r' h1 h2 h3 h4 h5 h6 h7 =>
    obtain ⟨as, w, c, e1, e2, e3, e4⟩ := tagRest_tree h7
    refine ⟨⟨b :: run, as, w⟩, c, ⟨⟨b, run, rfl, h1, h2⟩, e4, e3⟩, rfl, ?_, e2⟩
    rw [e1]; simp [StartTag.bytes]

/-! ## CDATA sections and processing instructions -/

theorem cdata_bytes {s r' : List UInt8} (h : CdataBody s r') :
    ∃ u, s = u ++ (str% "]>" ++ r') ∧ (∀ b ∈ u, CharByte b) ∧ ¬ HasPair (ch% ']') (ch% '>') u := by
  have hb : CharByte (ch% ']') := by simp only [Spec.Char11]; decide
  induction h with
  | @stop k r =>
    refine ⟨List.replicate k (ch% ']'), ?_, ?_, ?_⟩
    · have : ∀ (k : Nat) (l : List UInt8), ch% ']' :: (List.replicate k (ch% ']') ++ l) = List.replicate k (ch% ']') ++ ch% ']' :: l := by
        intro k l
        induction k with
        | zero => rfl
        | succ k ih => rw [List.replicate_succ, List.cons_append, ih]; rfl
      rw [this]; rfl
    · intro b h
      rw [List.eq_of_mem_replicate h]; exact hb
    · have := pair_replicate (k := k) (l := []) (by simp) pair_nil
      simpa using this
  | @char b r r' h1 h2 _ ih =>
    obtain ⟨u, rfl, h3, h4⟩ := ih
    refine ⟨b :: u, rfl, ?_, ?_⟩
    · intro x hx
      rcases List.mem_cons.1 hx with rfl | hx
      · exact h1
      · exact h3 x hx
    · intro h
      rcases pair_cons.1 h with ⟨h5, -⟩ | h5
      · exact h2 h5
      · exact h4 h5
  | @brackets k b r r' h1 h2 _ ih =>
    obtain ⟨u, h0, h3, h4⟩ := ih
    refine ⟨List.replicate (k + 1) (ch% ']') ++ u, ?_, ?_, ?_⟩
    · rw [List.append_assoc, ← h0]; rfl
    · intro x hx
      rcases List.mem_append.1 hx with hx | hx
      · rw [List.eq_of_mem_replicate hx]; exact hb
      · exact h3 x hx
    · exact pair_replicate (head_of h0 h2) h4

/-- A CDATA section whose first `]>` is the end of `]]>`. -/
theorem cdata_tree {s r' : List UInt8} (h : CdataBody s r') (hc : Core (str% "<![CDATA[" ++ s)) :
    ∃ data, (Atom.cdata data).WellFormed ∧ ch% '<' :: (str% "![CDATA[" ++ s) = (Atom.cdata data).bytes ++ r' ∧
      ¬ HasPair (ch% ']') (ch% '>') data := by
  obtain ⟨u, rfl, h1, h2⟩ := cdata_bytes h
  obtain ⟨v, rfl⟩ := hc.cdata u ⟨[], r', by simp⟩ h2
  have h3 : ¬ HasPair (ch% ']') (ch% '>') v := fun h => h2 (List.IsInfix.trans h (List.prefix_append _ _).isInfix)
  refine ⟨v, ⟨fun b hb => h1 b (by simp [hb]), fun h => h3 (List.IsInfix.trans ?_ h)⟩, by simp [Atom.bytes], h3⟩
  exact ⟨[ch% ']'], [], rfl⟩

theorem piBody_tree {s r' : List UInt8} (h : PiBody s r') :
    ∃ data, s = data ++ (str% "?>" ++ r') ∧ (∀ b ∈ data, CharByte b) ∧ ¬ HasPair (ch% '?') (ch% '>') data := by
  induction h with
  | stop => exact ⟨[], rfl, nofun, pair_nil⟩
  | @char b r r' h1 h2 _ ih =>
    obtain ⟨u, rfl, h3, h4⟩ := ih
    refine ⟨b :: u, rfl, ?_, ?_⟩
    · intro x hx
      rcases List.mem_cons.1 hx with rfl | hx
      · exact h1
      · exact h3 x hx
    · intro h
      rcases pair_cons.1 h with ⟨h5, h6⟩ | h5
      · refine h2 h5 ?_
        cases u with
        | nil => cases h6
        | cons x u => exact h6
      · exact h4 h5

theorem target_tree {r r1 : List UInt8} {x : UInt8} (h : PiTarget r x r1) (hc : Core (str% "<?" ++ r)) :
    ∃ t, Name t ∧ ¬ (t.length = 3 ∧ XmlPrefix t) ∧ r = t ++ x :: r1 := by
  cases h with
  | @plain b run x r h1 h2 h3 h4 =>
    refine ⟨b :: run, ⟨b, run, rfl, h1, h3⟩, ?_, rfl⟩
    rintro ⟨-, a, b', c, r', e, k⟩
    exact h2 ⟨a, b', c, r' ++ x :: r1, by rw [← List.cons_append, e]; rfl, k⟩
  | @xml a b c y run x r h1 h2 h3 h4 h5 =>
    have hy : NameByte y := by
      rcases hc.target a b c y h1 ⟨[], run ++ x :: r1, by simp⟩ with h | h | h
      · exact h
      · exact absurd h h3
      · exact absurd h h2
    refine ⟨a :: b :: c :: y :: run, ⟨a, b :: c :: y :: run, rfl, ?_, ?_⟩, ?_, rfl⟩
    · obtain ⟨a', b', c', r', e, k1, k2, k3⟩ := h1
      simp only [List.cons.injEq] at e
      rw [e.1]
      rcases k1 with rfl | rfl <;> (simp only [Spec.NameStartChar]; decide)
    · obtain ⟨a', b', c', r', e, k1, k2, k3⟩ := h1
      simp only [List.cons.injEq] at e
      obtain ⟨rfl, rfl, rfl, -⟩ := e
      intro z hz
      simp only [List.mem_cons] at hz
      rcases hz with rfl | rfl | rfl | hz
      · rcases k2 with rfl | rfl <;> (left; simp only [Spec.NameStartChar]; decide)
      · rcases k3 with rfl | rfl <;> (left; simp only [Spec.NameStartChar]; decide)
      · exact hy
      · exact h4 z hz
    · rintro ⟨h, -⟩
      simp only [List.length_cons] at h
      omega

theorem pi_tree {n : Nat} {dep : Int} {r r1 : List UInt8} {recs : List Rec} (h : Pi n dep r recs r1) (hc : Core (str% "<?" ++ r)) :
    ∃ t x, (Atom.pi t x).WellFormed ∧ ch% '<' :: ch% '?' :: r = (Atom.pi t x).bytes ++ r1 := by
  cases h with
  | bare h1 h2 =>
    obtain ⟨t, k1, k2, rfl⟩ := target_tree h1 hc
    exact ⟨t, none, ⟨k1, k2, nofun⟩, by simp [Atom.bytes]⟩
  | @value x _ _ h1 h2 h3 h4 h5 =>
    obtain ⟨t, k1, k2, rfl⟩ := target_tree h1 hc
    obtain ⟨data, rfl, k3, k4⟩ := piBody_tree h4
    refine ⟨t, some (x, data), ⟨k1, k2, ?_⟩, by simp [Atom.bytes]⟩
    intro s d e
    simp only [Option.some.injEq, Prod.mk.injEq] at e
    obtain ⟨rfl, rfl⟩ := e
    exact ⟨h2, k3, k4⟩

/-! ## Content -/

/-- What stands before a part. -/
def lead : Part → List UInt8 → List UInt8
  | .content _, s => s
  | .markup, s => ch% '<' :: s

/-- What a part is as a tree. -/
def IsSyntax : Part → List UInt8 → List UInt8 → Prop
  | .content _, s, r' => ∃ c : Content, c.Syntax ∧ s = c.bytes ++ ch% '<' :: ch% '/' :: r'
  | .markup, s, r' => ∃ f : Text → Content, ∀ t : Text, t.Syntax →
      (f t).Syntax ∧ t.bytes ++ ch% '<' :: s = (f t).bytes ++ ch% '<' :: ch% '/' :: r'

theorem pair_text {t : Text} (h : ∀ p ∈ t, p.Syntax) (hp : ¬ HasPair (ch% ']') (ch% '>') t.bytes) : t.Syntax :=
  ⟨h, fun hi => hp (List.IsInfix.trans ⟨[ch% ']'], [], rfl⟩ hi)⟩

theorem ws_syntax {w : List UInt8} (h : AllWs w) : ∀ p ∈ w.map Piece.byte, p.Syntax := by
  intro p hp
  obtain ⟨b, hb, rfl⟩ := List.mem_map.1 hp
  exact (content_syntax (ws_content (h b hb))).1

theorem ws_text {w : List UInt8} (h : AllWs w) : Text.Syntax (w.map Piece.byte) := by
  refine pair_text (ws_syntax h) ?_
  rw [bytes_lit]
  intro hp
  have := List.IsInfix.subset hp (a := ch% ']') (by simp)
  exact lt_not_ws.2.2 (h _ this)

theorem inside_tree {n d : Nat} {part s recs r'} (h : Inside n d part s recs r') (hc : Core (lead part s))
    (hl : part = .content .end → ∃ name w, AllName name ∧ AllWs w ∧ Core (str% "</" ++ (name ++ (w ++ ch% '>' :: s)))) :
    IsSyntax part s r' := by
  induction h with
  | endTag => exact ⟨Content.text, fun t ht => ⟨ht, rfl⟩⟩
  | empty ht _ ih =>
    obtain ⟨tag, c, h1, rfl, h2, h3⟩ := tag_tree ht
    obtain ⟨x, hx, rfl⟩ := ih (hc.suffix ((Tag.tail ht).trans (List.suffix_cons _ _))) nofun
    rw [Close.cases h3, if_pos rfl] at h2
    refine ⟨fun t => .atom t (.empty tag) x, fun t ht => ⟨⟨ht, h1, hx⟩, ?_⟩⟩
    rw [h2]
    simp [Content.bytes, Atom.bytes]
  | element ht hi hw hj ih1 ih2 =>
    obtain ⟨tag, c, h1, rfl, h2, h3⟩ := tag_tree ht
    have hc1 := hc.suffix ((Tag.tail ht).trans (List.suffix_cons _ _))
    obtain ⟨x, hx, rfl⟩ := ih1 hc1 nofun
    have hc2 := hc1.suffix (r := _) (List.suffix_append _ _)
    obtain ⟨y, hy, rfl⟩ := ih2 (hc2.suffix ⟨ch% '<' :: ch% '/' :: (tag.name ++ (_ ++ [ch% '>'])), by simp; rfl⟩)
      (fun _ => ⟨tag.name, _, h1.name.all, hw, by simpa using hc2⟩)
    rw [Close.cases h3, if_neg (by decide)] at h2
    refine ⟨fun t => .element t tag x _ y, fun t ht => ⟨⟨ht, h1, hx, hw, hy⟩, ?_⟩⟩
    rw [h2]
    simp [Content.bytes]
  | comment h1 _ ih =>
    obtain ⟨l, rfl, h2, h3⟩ := commentBytes h1
    obtain ⟨x, hx, rfl⟩ := ih (hc.suffix ⟨str% "<!--" ++ (l ++ str% "-->"), by simp [lead]⟩) nofun
    refine ⟨fun t => .atom t (.comment l) x, fun t ht => ⟨⟨ht, ⟨h2, h3⟩, hx⟩, ?_⟩⟩
    simp [Content.bytes, Atom.bytes]
  | cdata h1 _ ih =>
    obtain ⟨data, h2, h3, -⟩ := cdata_tree h1 hc
    obtain ⟨x, hx, rfl⟩ := ih (hc.suffix ⟨_, h3.symm⟩) nofun
    refine ⟨fun t => .atom t (.cdata data) x, fun t ht => ⟨⟨ht, h2, hx⟩, ?_⟩⟩
    rw [h3]
    simp [Content.bytes]
  | doctype => exact absurd ⟨[], _, rfl⟩ hc.doctype
  | pi h1 _ ih =>
    obtain ⟨t, x, h2, h3⟩ := pi_tree h1 hc
    obtain ⟨y, hy, rfl⟩ := ih (hc.suffix ⟨_, h3.symm⟩) nofun
    refine ⟨fun t' => .atom t' (.pi t x) y, fun t ht => ⟨⟨ht, h2, hy⟩, ?_⟩⟩
    rw [h3]
    simp [Content.bytes]
  | space hw _ _ ih =>
    obtain ⟨f, hf⟩ := ih (hc.suffix (List.suffix_append _ _)) nofun
    obtain ⟨h1, h2⟩ := hf _ (ws_text hw)
    rw [bytes_lit] at h2
    exact ⟨_, h1, h2⟩
  | @gap d w r hw =>
    refine ⟨.text (w.map Piece.byte), ws_text hw, ?_⟩
    simp [Content.bytes, bytes_lit]
  | @text d prev w b r r1 recs r' h1 h2 h3 h4 h5 _ ih =>
    obtain ⟨t, g1, g2, g3⟩ := text_tree h5
    rw [g2] at hc ⊢
    obtain ⟨f, hf⟩ := ih (hc.suffix ((List.suffix_append _ _).trans (List.suffix_append _ _))) nofun
    obtain ⟨k1, k2⟩ := hf (w.map Piece.byte ++ t) (pair_text (by
      intro p hp
      rcases List.mem_append.1 hp with hp | hp
      · exact ws_syntax h1 p hp
      · exact g1 p hp) (by
      rw [bytes_app, bytes_lit]
      exact fun h => g3 (pair_append (fun x hx e => lt_not_ws.2.2 (e ▸ h1 x hx)) h)))
    rw [bytes_app, bytes_lit] at k2
    exact ⟨_, k1, by rw [← k2, List.append_assoc]⟩
  | lost h1 h2 =>
    obtain ⟨name, w, k1, k2, k3⟩ := hl rfl
    obtain ⟨b, t, rfl, k4⟩ := item_head h2
    exact absurd ⟨[], t, by simp⟩ (k3.after name w _ b k1 k2 h1 k4)

/-! ## The document -/

theorem endTarget_tree {r r1 : List UInt8} {x : UInt8} (h : PiEndTarget r x r1) :
    ∃ t, Name t ∧ ¬ (t.length = 3 ∧ XmlPrefix t) ∧ r = t ++ x :: r1 := by
  cases h with
  | @mk b run x r h1 h2 h3 h4 =>
    refine ⟨b :: run, ⟨b, run, rfl, h1, h3⟩, ?_, rfl⟩
    rintro ⟨h5, a, b', c, r', e, k⟩
    have := h2 ⟨a, b', c, r' ++ x :: r1, by rw [← List.cons_append, e]; rfl, k⟩
    simp only [List.length_cons] at h5
    omega

theorem epilog_tree {n : Nat} {s recs} (h : Epilog n s recs) (hc : Core s) :
    ∃ (ms : List Misc) (w : List UInt8), (∀ m ∈ ms, m.WellFormed) ∧ AllWs w ∧ s = ms.flatMap Misc.bytes ++ w := by
  induction h with
  | @done w hw => exact ⟨[], w, nofun, hw, rfl⟩
  | @pi w r x r1 r2 recs h1 h2 h3 h4 h5 h6 _ ih =>
    obtain ⟨t, k1, k2, rfl⟩ := endTarget_tree h2
    obtain ⟨data, rfl, k3, k4⟩ := piBody_tree h5
    obtain ⟨ms, w', i1, i2, rfl⟩ := ih (hc.suffix ⟨w ++ (str% "<?" ++ (t ++ x :: (data ++ str% "?>"))), by simp⟩)
    refine ⟨⟨w, .pi t (some (x, data))⟩ :: ms, w', ?_, i2, by simp [Misc.bytes, Atom.bytes]⟩
    intro m hm
    rcases List.mem_cons.1 hm with rfl | hm
    · refine ⟨h1, Or.inr ⟨_, _, rfl⟩, k1, k2, ?_⟩
      intro s d e
      simp only [Option.some.injEq, Prod.mk.injEq] at e
      obtain ⟨rfl, rfl⟩ := e
      exact ⟨h3, k3, k4⟩
    · exact i1 m hm
  | @piCut w r r1 recs h1 h2 h3 h4 =>
    obtain ⟨t, k1, k2, rfl⟩ := endTarget_tree h2
    cases r1 with
    | nil => exact absurd rfl h3
    | cons y r1 =>
      have := hc.cut t y k1 ⟨w, r1, by simp⟩
      rw [this] at h4
      exact absurd rfl h4

theorem root_tree {n : Nat} {pre s recs} (h : Grammar.Root n pre s recs) (hp : pre = []) (hc : Core (ch% '<' :: s))
    (w : List UInt8) (hw : AllWs w) :
    ∃ d : Document, d.Syntax ∧ d.decl = none ∧ d.bytes = w ++ ch% '<' :: s := by
  induction h generalizing w with
  | empty ht he =>
    subst hp
    obtain ⟨tag, c, h1, rfl, h2, h3⟩ := tag_tree ht
    rw [Close.cases h3, if_pos rfl] at h2
    obtain ⟨ms, w', i1, i2, rfl⟩ := epilog_tree he (hc.suffix ((Tag.tail ht).trans (List.suffix_cons _ _)))
    refine ⟨⟨none, [], w, .empty tag, ms, w'⟩, ⟨nofun, nofun, ⟨hw, i2⟩, h1, i1⟩, rfl, ?_⟩
    rw [h2]
    simp [Document.bytes, Document.declBytes, Root.bytes]
  | element ht hi hw' he =>
    subst hp
    obtain ⟨tag, c, h1, rfl, h2, h3⟩ := tag_tree ht
    have hc1 := hc.suffix ((Tag.tail ht).trans (List.suffix_cons _ _))
    have hc2 := hc1.suffix (Inside.tail hi)
    obtain ⟨x, hx, rfl⟩ := inside_tree hi hc1 nofun
    rw [Close.cases h3, if_neg (by decide)] at h2
    obtain ⟨ms, w', i1, i2, rfl⟩ := epilog_tree he (hc2.suffix suffix_app_cons)
    refine ⟨⟨none, [], w, .element tag x _, ms, w'⟩, ⟨nofun, nofun, ⟨hw, i2⟩, ⟨h1, hx, hw'⟩, i1⟩, rfl, ?_⟩
    rw [h2]
    simp [Document.bytes, Document.declBytes, Root.bytes]
  | @comment pre r r1 w1 r2 recs h1 h2 h3 _ ih =>
    subst h3
    obtain ⟨l, rfl, g1, g2⟩ := commentBytes h1
    obtain ⟨d, d1, d2, d3⟩ := ih rfl (hc.suffix ⟨str% "<!--" ++ (l ++ (str% "-->" ++ w1)), by simp⟩) w1 h2
    refine ⟨{ d with prolog := ⟨w, .comment l⟩ :: d.prolog }, ⟨d1.decl, ?_, d1.space, d1.root, d1.epilog⟩, d2, ?_⟩
    · intro m hm
      rcases List.mem_cons.1 hm with rfl | hm
      · exact ⟨hw, Or.inl ⟨l, rfl⟩, g1, g2⟩
      · exact d1.prolog m hm
    · simp only [Document.bytes, Document.declBytes, d2] at d3 ⊢
      simp only [Option.map_none, Option.getD_none, List.nil_append, List.flatMap_cons] at d3 ⊢
      rw [List.append_assoc, d3]
      simp [Misc.bytes, Atom.bytes]
  | @pi pre r recs w1 r2 recs' h1 h2 _ ih =>
    obtain ⟨t, x, g1, g2⟩ := pi_tree h1 hc
    obtain ⟨d, d1, d2, d3⟩ := ih rfl (hc.suffix (by rw [g2]; exact (List.suffix_append _ _).trans (List.suffix_append _ _))) w1 h2
    refine ⟨{ d with prolog := ⟨w, .pi t x⟩ :: d.prolog }, ⟨d1.decl, ?_, d1.space, d1.root, d1.epilog⟩, d2, ?_⟩
    · intro m hm
      rcases List.mem_cons.1 hm with rfl | hm
      · exact ⟨hw, Or.inr ⟨t, x, rfl⟩, g1⟩
      · exact d1.prolog m hm
    · simp only [Document.bytes, Document.declBytes, d2] at d3 ⊢
      simp only [Option.map_none, Option.getD_none, List.nil_append, List.flatMap_cons] at d3 ⊢
      rw [List.append_assoc, d3, g2]
      simp [Misc.bytes]

/-- The declaration of a document that begins with one. -/
theorem decl_inv {n : Nat} {x : Decl} (hx : x.WellFormed) {t : List UInt8} {recs : List Rec}
    (h : Grammar.Document n (x.bytes ++ t) recs) : ∃ w r recs', t = w ++ ch% '<' :: r ∧ AllWs w ∧ Grammar.Root n [] r recs' := by
  have hr := Decl.rest (n := n) hx t
  obtain ⟨s0, w0, s1, g1, g2, g3, g4⟩ := decl_version (n := n) hx.version
    (optBytes (str% "encoding") x.encoding ++ (optBytes (str% "standalone") x.standalone ++ (x.space ++ (str% "?>" ++ t))))
  have eb : x.bytes ++ t = ch% '<' :: ch% '?' :: ch% 'x' :: ch% 'm' :: ch% 'l' :: s0 :: (w0 ++ s1) := by
    rw [← g3]; simp [Decl.bytes]
  rw [eb] at h
  have hv : ∀ {s r recs}, Version n s recs r → ∃ b t, s = b :: t ∧ ¬ Ws b := by
    intro s r recs h
    cases h with
    | mk => exact ⟨_, _, rfl, by simp only [Spec.S]; decide⟩
  generalize hz : (ch% '<' :: ch% '?' :: ch% 'x' :: ch% 'm' :: ch% 'l' :: s0 :: (w0 ++ s1) : List UInt8) = y at h
  cases h with
  | decl k1 k2 k3 k4 k5 k6 k7 =>
    simp only [List.cons.injEq, true_and] at hz
    obtain ⟨-, e⟩ := ws_cons hz.2.2.2.2 g2 k3 (hv g4) (hv k4)
    subst e
    have := version_unique g4 k4
    subst this
    simp only [List.append_assoc, List.cons_append, List.nil_append] at k5 hr
    have := declRest_unique hr k5
    simp only [List.cons.injEq, true_and] at this
    exact ⟨_, _, _, this, k6, k7⟩
  | plain k1 k2 =>
    simp only [List.cons.injEq, true_and] at hz
    rcases noDecl_cases k1 with ⟨rfl, b, t, rfl, k⟩ | ⟨t, e, k⟩
    · simp only [List.nil_append, List.cons.injEq] at hz
      exact absurd hz.1.symm k
    · rw [e] at hz
      simp only [List.cons.injEq, true_and] at hz
      exact absurd ⟨s0, _, hz.symm, g1⟩ k
  | space k1 k2 k3 =>
    obtain ⟨k4, -⟩ := ws_cons (w := []) hz nofun k2 ⟨_, _, rfl, lt_not_ws.1⟩ ⟨_, _, rfl, lt_not_ws.1⟩
    exact absurd k4.symm k1

/-- An ordinary document of the grammar has the right syntax. -/
theorem document_tree {n : Nat} {s recs} (h : Grammar.Document n s recs) (ho : Ordinary s) :
    ∃ d : Document, d.Syntax ∧ d.bytes = s := by
  have hc := ordinary_core ho
  by_cases hq : str% "<?" <+: s
  · obtain ⟨x, hx, t, rfl⟩ := ho.decl hq
    obtain ⟨w, r, recs', rfl, hw, hr⟩ := decl_inv hx h
    obtain ⟨d, d1, d2, d3⟩ := root_tree hr rfl (hc.suffix ((List.suffix_append _ _).trans (List.suffix_append _ _))) w hw
    refine ⟨{ d with decl := some x }, ⟨fun y hy => by cases hy; exact hx, d1.prolog, d1.space, d1.root, d1.epilog⟩, ?_⟩
    simp only [Document.bytes, Document.declBytes, d2] at d3 ⊢
    simp only [Option.map_none, Option.map_some, Option.getD_none, Option.getD_some, List.nil_append] at d3 ⊢
    rw [d3]
  · cases h with
    | decl => exact absurd ⟨_, rfl⟩ hq
    | @plain pre r recs h1 h2 =>
      rcases noDecl_cases h1 with ⟨rfl, -⟩ | ⟨t, e, -⟩
      · obtain ⟨d, d1, _, d3⟩ := root_tree h2 rfl hc [] nofun
        exact ⟨d, d1, d3⟩
      · rw [e] at hq
        exact absurd ⟨_, rfl⟩ hq
    | @space w r recs h1 h2 h3 =>
      obtain ⟨d, d1, _, d3⟩ := root_tree h3 rfl (hc.suffix (List.suffix_append _ _)) w h2
      exact ⟨d, d1, d3⟩

end Tree
end GoVtd
