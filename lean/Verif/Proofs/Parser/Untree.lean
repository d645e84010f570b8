import Verif.Proofs.Parser.Tree

/-!
# Documents of the grammar without special characters are serialised trees
-/

namespace GoVtd
namespace Tree

open Grammar

/-- No `&`, `]` and `?`, and no `!DDOCTYPE`. -/
def Clean (s : List UInt8) : Prop := ch% '&' ∉ s ∧ ch% ']' ∉ s ∧ ch% '?' ∉ s ∧ ¬ str% "!DDOCTYPE" <:+: s

theorem Clean.suffix {s r : List UInt8} (h : Clean s) (hr : r <:+ s) : Clean r :=
  ⟨fun hm => h.1 (hr.subset hm), fun hm => h.2.1 (hr.subset hm), fun hm => h.2.2.1 (hr.subset hm),
    fun hi => h.2.2.2 (hi.trans hr.isInfix)⟩

theorem Clean.tail {s : List UInt8} {b : UInt8} (h : Clean (b :: s)) : Clean s := h.suffix (List.suffix_cons _ _)

theorem bytes_lit (l : List UInt8) : Text.bytes (l.map Piece.byte) = l := by
  induction l with
  | nil => rfl
  | cons b l ih => simp [Piece.bytes, ih]

theorem Item.dirty {r r' : List UInt8} (h : Item r r') : ch% '&' ∈ r ∨ ch% ']' ∈ r := by
  cases h with
  | ref => exact Or.inl (by simp)
  | brackets => exact Or.inr (by simp)

theorem CdataBody.dirty {r r' : List UInt8} (h : CdataBody r r') : ch% ']' ∈ r := by
  induction h with
  | stop => simp
  | char _ _ _ ih => simp [ih]
  | brackets => simp

theorem textBytes {s r' : List UInt8} (h : TextBody s r') (hc : Clean s) :
    ∃ l, s = l ++ ch% '<' :: r' ∧ ∀ b ∈ l, ContentByte b := by
  induction h with
  | stop => exact ⟨[], rfl, nofun⟩
  | @char b r r' hb _ ih =>
    obtain ⟨l, rfl, hl⟩ := ih hc.tail
    refine ⟨b :: l, rfl, fun x hx => ?_⟩
    rcases List.mem_cons.1 hx with rfl | hx
    · exact hb
    · exact hl x hx
  | item hi => rcases Item.dirty hi with h | h; exact absurd h hc.1; exact absurd h hc.2.1

theorem attrBytes {q : UInt8} {s r' : List UInt8} (h : AttrBody q s r') (hc : Clean s) :
    ∃ l, s = l ++ q :: r' ∧ ∀ b ∈ l, CharByte b ∧ b ≠ ch% '<' ∧ b ≠ ch% '&' ∧ b ≠ q := by
  induction h with
  | stop => exact ⟨[], rfl, nofun⟩
  | @char b r r' h1 h2 h3 h4 _ ih =>
    obtain ⟨l, rfl, hl⟩ := ih hc.tail
    refine ⟨b :: l, rfl, fun x hx => ?_⟩
    rcases List.mem_cons.1 hx with rfl | hx
    · exact ⟨h1, h2, h3, h4⟩
    · exact hl x hx
  | ref => exact absurd (by simp) hc.1

theorem commentBytes {s r' : List UInt8} (h : CommentBody s r') :
    ∃ l, s = l ++ ch% '-' :: ch% '-' :: r' ∧ (∀ b ∈ l, CharByte b) ∧ ¬ HasPair (ch% '-') (ch% '-') (l ++ [ch% '-']) := by
  induction h with
  | stop =>
    refine ⟨[], rfl, nofun, ?_⟩
    rintro ⟨u, v, e⟩
    have := congrArg List.length e
    simp only [List.length_append, List.length_cons, List.length_nil] at this; omega
  | @char b r r' h1 h2 _ ih =>
    obtain ⟨l, rfl, hl, hp⟩ := ih
    refine ⟨b :: l, rfl, fun x hx => ?_, ?_⟩
    · rcases List.mem_cons.1 hx with rfl | hx
      · exact h1
      · exact hl x hx
    · rintro ⟨u, v, e⟩
      cases u with
      | nil =>
        cases l with
        | nil =>
          simp only [List.nil_append, List.cons_append, List.cons.injEq] at e
          exact h2 e.1.symm rfl
        | cons c l =>
          simp only [List.nil_append, List.cons_append, List.cons.injEq] at e
          exact h2 e.1.symm (by simp [← e.2.1])
      | cons x u =>
        simp only [List.cons_append, List.cons.injEq] at e
        exact hp ⟨u, v, e.2⟩

theorem tagBytes {n : Nat} {d : Int} {seen : List (List UInt8)} {s recs e r'} (h : TagRest n d seen s recs e r')
    (hc : Clean s) :
    ∃ (as : List Attr) (w c : List UInt8), s = as.flatMap Attr.bytes ++ (w ++ c) ∧ Close c e r' ∧ AllWs w ∧ (∀ a ∈ as, a.WellFormed) ∧
      (as.map Attr.name).Nodup ∧ ∀ a ∈ as, a.name ∉ seen := by
  induction h with
  | @close seen w r e r' hw hcl => exact ⟨[], w, r, rfl, hcl, hw, nofun, List.nodup_nil, nofun⟩
  | @attr seen w b run w1 w2 q r r1 recs e r' h1 h2 h3 h4 h5 h6 h7 h8 h9 h10 h11 h12 h13 h14 ih =>
    have hcr : Clean r := hc.suffix suffix_app_cons
    obtain ⟨l, rfl, hl⟩ := attrBytes h12 hcr
    obtain ⟨as, w0, c, rfl, i1, i2, i3, i4, i5⟩ := ih (hcr.suffix suffix_app_cons)
    refine ⟨⟨w, b :: run, w1, w2, q, l.map Piece.byte⟩ :: as, w0, c, ?_, i1, i2, ?_, ?_, ?_⟩
    · simp [Attr.bytes, bytes_lit]
    · intro a ha
      rcases List.mem_cons.1 ha with rfl | ha
      · refine ⟨⟨h1, h2, h9, h10⟩, ⟨b, run, rfl, h3, h4⟩, h11, ?_⟩
        intro p hp
        obtain ⟨x, hx, rfl⟩ := List.mem_map.1 hp
        obtain ⟨g1, g2, g3, g4⟩ := hl x hx
        exact ⟨⟨g1, g2, g3⟩, fun y hy => by cases hy; exact g4⟩
      · exact i3 a ha
    · simp only [List.map_cons, List.nodup_cons]
      refine ⟨?_, i4⟩
      intro hm
      obtain ⟨a, ha, hn⟩ := List.mem_map.1 hm
      exact i5 a ha (by rw [hn]; simp)
    · intro a ha
      rcases List.mem_cons.1 ha with rfl | ha
      · exact h5
      · exact fun hm => i5 a ha (by simp [hm])

theorem startTag {n d : Nat} {name s recs e r'} (h : Tag n d [] name s recs e r') (hc : Clean s) :
    ∃ (t : StartTag) (c : List UInt8), t.WellFormed ∧ t.name = name ∧ ch% '<' :: s = t.bytes ++ c ∧ Close c e r' := by
  cases h with
  | @mk b run x r recs e r' h1 h2 h3 h4 h5 h6 h7 =>
    have hcr : Clean (x :: r) := hc.suffix (by rw [← List.cons_append]; exact List.suffix_append _ _)
    obtain ⟨as, w, c, e1, e2, e3, e4, e5, e6⟩ := tagBytes h7 hcr
    refine ⟨⟨b :: run, as, w⟩, c, ⟨⟨b, run, rfl, h1, h2⟩, e4, e5, e3⟩, rfl, ?_, e2⟩
    rw [e1]; simp [StartTag.bytes]

theorem lit_wf {l : List UInt8} (h : ∀ b ∈ l, ContentByte b) : Text.WellFormed (l.map Piece.byte) := by
  constructor
  · intro p hp
    obtain ⟨x, hx, rfl⟩ := List.mem_map.1 hp
    obtain ⟨h1, h2, h3, h4⟩ := h x hx
    exact ⟨h1, fun e => h2 (by rw [e]; rfl), fun e => h3 (by rw [e]; rfl)⟩
  · rw [bytes_lit]
    intro hi
    have := hi.subset (a := ch% ']') (by simp)
    exact (h _ this).2.2.2 rfl

theorem ws_content {b : UInt8} (h : Ws b) : ContentByte b := by
  simp only [Spec.S, Spec.ContentChar, Spec.Char11] at *; omega

theorem TagRest.tail {n : Nat} {d : Int} {seen : List (List UInt8)} {s recs e r'} (h : TagRest n d seen s recs e r') : r' <:+ s := by
  induction h with
  | close _ hc => exact hc.lt.1.trans (List.suffix_append _ _)
  | attr _ _ _ _ _ _ _ _ _ _ _ h12 _ _ ih => exact ih.trans (h12.suffix.trans suffix_app_cons)

theorem Tag.tail {n d : Nat} {pre name s recs e r'} (h : Tag n d pre name s recs e r') : r' <:+ s := by
  cases h with
  | @mk b run x r recs e r' h1 h2 h3 h4 h5 h6 h7 =>
    refine (TagRest.tail h7).trans ?_
    rw [← List.cons_append]; exact List.suffix_append _ _

theorem Inside.tail {n d : Nat} {part s recs r'} (h : Inside n d part s recs r') : r' <:+ s := by
  induction h with
  | endTag => exact List.suffix_cons _ _
  | empty ht _ ih => exact ih.trans (Tag.tail ht)
  | element ht _ _ _ ih1 ih2 => exact ih2.trans (suffix_app_cons.trans (ih1.trans (Tag.tail ht)))
  | comment h1 _ ih => exact ih.trans ((List.suffix_cons _ _).trans (h1.suffix.trans (List.suffix_append _ _)))
  | cdata h1 _ ih => exact ih.trans (h1.suffix.trans (List.suffix_append _ _))
  | doctype h1 _ _ _ ih => exact ih.trans (suffix_app_cons.trans (h1.suffix.trans (List.suffix_append _ _)))
  | pi h1 _ ih => exact ih.trans (h1.suffix.trans (List.suffix_cons _ _))
  | space _ _ _ ih => exact ih.trans suffix_app_cons
  | gap => exact (List.suffix_cons _ _).trans suffix_app_cons
  | text _ _ _ _ h5 _ ih => exact ih.trans (h5.suffix.trans (List.suffix_append _ _))
  | lost _ h2 _ ih => exact ih.trans (h2.suffix.trans (List.suffix_append _ _))

/-- What a part is as a tree. -/
def IsTree : Part → List UInt8 → List UInt8 → Prop
  | .content _, s, r' => ∃ c : Content, c.WellFormed ∧ s = c.bytes ++ ch% '<' :: ch% '/' :: r'
  | .markup, s, r' => ∃ f : Text → Content, ∀ t : Text, t.WellFormed →
      (f t).WellFormed ∧ t.bytes ++ ch% '<' :: s = (f t).bytes ++ ch% '<' :: ch% '/' :: r'

theorem Close.cases {c : List UInt8} {e : Bool} {r' : List UInt8} (h : Close c e r') :
    c = if e then ch% '/' :: ch% '>' :: r' else ch% '>' :: r' := by
  cases h <;> rfl

theorem Inside.tree {n d : Nat} {part s recs r'} (h : Inside n d part s recs r') (hc : Clean s) : IsTree part s r' := by
  induction h with
  | endTag => exact ⟨Content.text, fun t ht => ⟨ht, rfl⟩⟩
  | empty ht _ ih =>
    obtain ⟨tag, c, h1, rfl, h2, h3⟩ := startTag ht hc
    obtain ⟨x, hx, rfl⟩ := ih (hc.suffix (Tag.tail ht))
    rw [Close.cases h3, if_pos rfl] at h2
    refine ⟨fun t => .atom t (.empty tag) x, fun t ht => ⟨⟨ht, h1, hx⟩, ?_⟩⟩
    rw [h2]
    simp [Content.bytes, Atom.bytes]
  | element ht hi hw hj ih1 ih2 =>
    obtain ⟨tag, c, h1, rfl, h2, h3⟩ := startTag ht hc
    have hc1 := hc.suffix (Tag.tail ht)
    have hc2 := hc1.suffix (Inside.tail hi)
    obtain ⟨x, hx, rfl⟩ := ih1 hc1
    obtain ⟨y, hy, rfl⟩ := ih2 (hc2.suffix suffix_app_cons)
    rw [Close.cases h3, if_neg (by decide)] at h2
    refine ⟨fun t => .element t tag x _ y, fun t ht => ⟨⟨ht, h1, hx, hw, hy⟩, ?_⟩⟩
    rw [h2]
    simp [Content.bytes]
  | comment h1 _ ih =>
    obtain ⟨l, rfl, h2, h3⟩ := commentBytes h1
    obtain ⟨x, hx, rfl⟩ := ih (hc.suffix ⟨str% "!--" ++ (l ++ str% "-->"), by simp⟩)
    refine ⟨fun t => .atom t (.comment l) x, fun t ht => ⟨⟨ht, ⟨h2, h3⟩, hx⟩, ?_⟩⟩
    simp [Content.bytes, Atom.bytes]
  | cdata h1 => exact absurd (List.mem_append_right _ (CdataBody.dirty h1)) hc.2.1
  | doctype => exact absurd ⟨[], _, rfl⟩ hc.2.2.2
  | pi => exact absurd (by simp) hc.2.2.1
  | space hw _ _ ih =>
    obtain ⟨f, hf⟩ := ih (hc.suffix suffix_app_cons)
    obtain ⟨h1, h2⟩ := hf _ (lit_wf fun b hb => ws_content (hw b hb))
    rw [bytes_lit] at h2
    exact ⟨_, h1, h2⟩
  | @gap d w r hw =>
    refine ⟨.text (w.map Piece.byte), lit_wf fun b hb => ws_content (hw b hb), ?_⟩
    simp [Content.bytes, bytes_lit]
  | @text d prev w b r r1 recs r' h1 h2 h3 h4 h5 _ ih =>
    obtain ⟨l, hl, h6⟩ := textBytes h5 (hc.suffix (List.suffix_append _ _))
    rw [hl] at hc ⊢
    obtain ⟨f, hf⟩ := ih (hc.suffix ((List.suffix_cons _ _).trans ((List.suffix_append _ _).trans (List.suffix_append _ _))))
    obtain ⟨g1, g2⟩ := hf ((w ++ l).map Piece.byte) (lit_wf fun b hb => by
      rcases List.mem_append.1 hb with hb | hb
      · exact ws_content (h1 b hb)
      · exact h6 b hb)
    rw [bytes_lit] at g2
    exact ⟨_, g1, by rw [← g2, List.append_assoc]⟩
  | lost _ h2 =>
    rcases Item.dirty h2 with h | h
    · exact absurd (List.mem_append_right _ h) hc.1
    · exact absurd (List.mem_append_right _ h) hc.2.1

theorem Epilog.tree {n : Nat} {s recs} (h : Epilog n s recs) (hc : Clean s) : AllWs s := by
  cases h with
  | done hw => exact hw
  | pi => exact absurd (by simp) hc.2.2.1
  | piCut => exact absurd (by simp) hc.2.2.1

theorem Root.tree {n : Nat} {pre s recs} (h : Grammar.Root n pre s recs) (hp : pre = []) (hc : Clean s) (w : List UInt8) (hw : AllWs w) :
    ∃ d : Document, d.WellFormed ∧ d.decl = none ∧ d.bytes = w ++ ch% '<' :: s := by
  induction h generalizing w with
  | empty ht he =>
    subst hp
    obtain ⟨tag, c, h1, rfl, h2, h3⟩ := startTag ht hc
    rw [Close.cases h3, if_pos rfl] at h2
    have := Epilog.tree he (hc.suffix (Tag.tail ht))
    refine ⟨⟨none, [], w, .empty tag, [], _⟩, ⟨nofun, nofun, ⟨hw, this⟩, h1, nofun⟩, rfl, ?_⟩
    rw [h2]
    simp [Document.bytes, Document.declBytes, Root.bytes]
  | element ht hi hw' he =>
    subst hp
    obtain ⟨tag, c, h1, rfl, h2, h3⟩ := startTag ht hc
    have hc1 := hc.suffix (Tag.tail ht)
    have hc2 := hc1.suffix (Inside.tail hi)
    obtain ⟨x, hx, rfl⟩ := Inside.tree hi hc1
    rw [Close.cases h3, if_neg (by decide)] at h2
    have := Epilog.tree he (hc2.suffix suffix_app_cons)
    refine ⟨⟨none, [], w, .element tag x _, [], _⟩, ⟨nofun, nofun, ⟨hw, this⟩, ⟨h1, hx, hw'⟩, nofun⟩, rfl, ?_⟩
    rw [h2]
    simp [Document.bytes, Document.declBytes, Root.bytes]
  | @comment pre r r1 w1 r2 recs h1 h2 h3 _ ih =>
    subst h3
    obtain ⟨l, rfl, g1, g2⟩ := commentBytes h1
    obtain ⟨d, d1, d2, d3⟩ := ih rfl (hc.suffix ⟨str% "!--" ++ (l ++ (str% "-->" ++ (w1 ++ [ch% '<']))), by simp⟩) w1 h2
    refine ⟨{ d with prolog := ⟨w, .comment l⟩ :: d.prolog }, ⟨d1.decl, ?_, d1.space, d1.root, d1.epilog⟩, d2, ?_⟩
    · intro m hm
      rcases List.mem_cons.1 hm with rfl | hm
      · exact ⟨hw, Or.inl ⟨l, rfl⟩, g1, g2⟩
      · exact d1.prolog m hm
    · simp only [Document.bytes, Document.declBytes, d2] at d3 ⊢
      simp only [Option.map_none, Option.getD_none, List.nil_append, List.flatMap_cons] at d3 ⊢
      rw [List.append_assoc, d3]
      simp [Misc.bytes, Atom.bytes]
  | pi => exact absurd (by simp) hc.2.2.1

theorem Document.tree {n : Nat} {s recs} (h : Grammar.Document n s recs) (hc : Clean s) :
    ∃ d : Document, d.WellFormed ∧ d.bytes = s := by
  cases h with
  | decl => exact absurd (by simp) hc.2.2.1
  | @plain pre r recs h1 h2 =>
    have : pre = [] := by
      cases h1 with
      | none => rfl
      | _ => exact absurd (by simp) hc.2.2.1
    subst this
    obtain ⟨d, d1, _, d3⟩ := Root.tree h2 rfl hc.tail [] nofun
    exact ⟨d, d1, d3⟩
  | @space w r recs h1 h2 h3 =>
    obtain ⟨d, d1, _, d3⟩ := Root.tree h3 rfl (hc.suffix suffix_app_cons) w h2
    exact ⟨d, d1, d3⟩

end Tree
end GoVtd
