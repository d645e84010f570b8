import Verif.Proofs.Parser.Regular
import Verif.Props.Limits
import Verif.Props.Split
import Verif.Props.Options
import Verif.Props.Ordinary

/-!
# C34, C47: what is stored for every document of the right syntax

`Verif/Spec/Stored.lean` lists the records that are stored for a tree, with the two deviations from the records
that a tree should have. Here: for a document of the right syntax without the constructs that are misread,
`Parse` accepts if and only if it is within the limits, and then stores exactly these records.
-/

namespace GoVtd

open Parser Grammar

theorem Tree.Document.bytes_pos (d : Tree.Document) : 0 < d.bytes.length := by
  have : 0 < d.root.bytes.length := by
    cases d.root <;> simp only [Tree.Root.bytes, Tree.StartTag.bytes, List.length_append, List.length_cons] <;> omega
  simp only [Tree.Document.bytes, List.length_append]; omega

theorem tree_start {doc : List UInt8} {o : Nat} {tree : Tree.Document} (hb : doc.drop o = tree.bytes) : o < doc.length := by
  have := tree.bytes_pos
  rw [← hb, List.length_drop] at this
  omega

/-! ## The two lists of records agree where a document is supported -/

namespace Tree

theorem StartTag.stored_eq {d : Nat} {o : Int} {t : StartTag} (h : t.Supported d) : t.stored d o = t.recs d o := by
  have hc : Grammar.lastColon 0 0 t.name = 0 := Grammar.lastColon_none h.colon
  simp [StartTag.stored, StartTag.recs, hc]

theorem Atom.stored_eq {d : Nat} {o : Int} {a : Atom} (h : a.Supported d) : a.stored d o = a.recs d o := by
  cases a with
  | empty tag => exact StartTag.stored_eq h
  | cdata data => exact textRecs_fits (by exact_mod_cast h.1)
  | comment data => exact textRecs_fits (by exact_mod_cast h)
  | pi t x => rfl

theorem Content.textStored_eq {d : Nat} {o : Int} {e : Bool} {t : Text} (h : Content.TextSupported e t) :
    Content.textStored d o t = Content.textRecs d o t := by
  rw [textStored, textRecs, textRecs_fits (by exact_mod_cast h.length)]

theorem Content.stored_eq (c : Content) : ∀ {d : Nat} {e sole : Bool} {o : Int}, c.Supported d e →
    c.stored d sole o = c.recs d sole o := by
  induction c with
  | text t =>
    intro d e sole o h
    rw [stored, recs, textStored_eq (e := e) h, textRecs_fits (by exact_mod_cast h.length)]
  | atom t a rest ih =>
    intro d e sole o h
    rw [stored, recs, textStored_eq h.1, Atom.stored_eq h.2.1, ih h.2.2]
  | element t tag body space rest ihb ihr =>
    intro d e sole o h
    rw [stored, recs, textStored_eq h.1, StartTag.stored_eq h.2.1, ihb h.2.2.1, ihr h.2.2.2]

theorem miscStored_eq {ms : List Misc} : ∀ {o : Int}, (∀ m ∈ ms, m.atom.Supported 0) → miscStored o ms = miscRecs o ms := by
  induction ms with
  | nil => intro o _; rfl
  | cons m ms ih =>
    intro o h
    rw [miscStored, miscRecs, Atom.stored_eq (h m (by simp)), ih fun x hx => h x (List.mem_cons_of_mem _ hx)]

/-- For a supported document the records stored are those that it should have. -/
theorem Document.stored_eq {d : Document} {o : Int} (h : d.Supported) : d.stored o = d.recs o := by
  have hr : ∀ p, d.root.stored p = d.root.recs p := by
    intro p
    have := h.root
    cases hx : d.root with
    | empty tag => rw [hx] at this; exact StartTag.stored_eq this
    | element tag body s =>
      rw [hx] at this
      rw [Root.stored, Root.recs, StartTag.stored_eq this.1, Content.stored_eq _ this.2]
  rw [Document.stored, Document.recs, miscStored_eq h.prolog, hr,
    miscStored_eq fun m hm => (h.epilog m hm).choose_spec.choose_spec.2]

end Tree

/-- C34 with the deviations: for a document of the right syntax, what `Parse` accepts and what it stores. -/
theorem C34_stored (fuel : Nat) (opts : List ParserOption) (doc : List UInt8) (o : Nat) (h : SelectRest opts doc o)
    (hlen : doc.length < 2 ^ 31) (tree : Tree.Document) (hb : doc.drop o = tree.bytes) (hs : tree.Syntax) (hp : tree.Plain)
    (ws : List (BitVec 64)) :
    parsedTokens fuel opts = some ws ↔ tree.Fits ∧ ws = (docRec :: tree.stored o).map Rec.word := by
  have hof : Grammar.offset doc.length tree.bytes = o := by
    have := congrArg List.length hb
    rw [List.length_drop] at this
    have := tree_start hb
    simp only [Grammar.offset]; omega
  have key : tree.Fits → parsedTokens fuel opts = some ((docRec :: tree.stored o).map Rec.word) := fun hf =>
    (C32_exact fuel opts doc o h _).2 ⟨hlen, _, by rw [hb]; exact hof ▸ Tree.Document.docStored hs hp hf, rfl⟩
  constructor
  · intro hw
    have hf := (C34_fits fuel opts doc o h hlen tree hb hs hp).1 ⟨_, hw⟩
    rw [key hf, Option.some.injEq] at hw
    exact ⟨hf, hw.symm⟩
  · rintro ⟨hf, rfl⟩; exact key hf

/-- C34 and C55 together, without a tree given beforehand: for an ordinary document, what `Parse` accepts and what it
stores. -/
theorem C34_ordinary_exact (fuel : Nat) (opts : List ParserOption) (doc : List UInt8) (o : Nat) (h : SelectRest opts doc o)
    (hlen : doc.length < 2 ^ 31) (ho : Ordinary (doc.drop o)) (ws : List (BitVec 64)) :
    parsedTokens fuel opts = some ws ↔ ∃ tree : Tree.Document, tree.Syntax ∧ tree.Fits ∧ tree.bytes = doc.drop o ∧
      ws = (docRec :: tree.stored o).map Rec.word := by
  constructor
  · intro hw
    obtain ⟨tree, h1, h2, h3⟩ := C55_syntax_partial fuel opts doc o h ⟨_, hw⟩ ho
    exact ⟨tree, h1, h2, h3,
      ((C34_stored fuel opts doc o h hlen tree h3.symm h1 (Tree.Document.plain_of h1 (h3 ▸ ho)) ws).1 hw).2⟩
  · rintro ⟨tree, h1, h2, h3, rfl⟩
    exact (C34_stored fuel opts doc o h hlen tree h3.symm h1 (Tree.Document.plain_of h1 (h3 ▸ ho)) _).2 ⟨h2, rfl⟩

/-- The records in a window, with any bytes before and after it. -/
theorem C34_stored_window_partial (fuel : Nat) (opts : List ParserOption) (doc : List UInt8) (o l : Nat)
    (h : SelectWindow opts doc o l) (hn : chosenNs opts = false) (hlen : o + l < 2 ^ 31) (tree : Tree.Document)
    (hb : (doc.drop o).take l = tree.bytes) (hs : tree.Syntax) (hp : tree.Plain) (hf : tree.Fits) :
    parsedTokens fuel opts = some ((docRec :: tree.stored o).map Rec.word) := by
  have h1 := h.nonempty
  have h2 := h.inside
  have hl : (doc.take (o + l)).length = o + l := by rw [List.length_take]; omega
  have hc : SelectWindow (reselect opts (doc.take (o + l)) o l) (doc.take (o + l)) o l := by
    refine ⟨?_, h1, by omega, by rw [hl]; omega⟩
    simp only [reselect, chosenDoc, List.foldl_append]; rfl
  have ns : chosenNs (reselect opts (doc.take (o + l)) o l) = chosenNs opts := by
    simp only [reselect, chosenNs, List.foldl_append]; rfl
  have dp : chosenDeep (reselect opts (doc.take (o + l)) o l) = chosenDeep opts := by
    simp only [reselect, chosenDeep, List.foldl_append]; rfl
  have hr : SelectRest (reselect opts (doc.take (o + l)) o l) (doc.take (o + l)) o :=
    ⟨⟨l, hc.window, by omega⟩, ⟨by omega, by omega⟩, ns.trans hn⟩
  have hbytes : (doc.take (o + l)).drop o = tree.bytes := by
    rw [List.drop_take, Nat.add_sub_cancel_left]; exact hb
  have key := (C34_stored fuel _ _ o hr (by omega) tree hbytes hs hp _).2 ⟨hf, rfl⟩
  obtain ⟨out, k1, k2⟩ := parsedTokens_of.1 key
  refine parsedTokens_of.2 ⟨out, ?_, k2⟩
  rw [← k1]
  refine C51_options_partial fuel _ opts (doc.take (o + l)) (doc.drop (o + l)) o l hc ?_ ns dp (by rw [k1]; trivial)
  rw [List.take_append_drop]; exact h

/-- The records with namespace awareness, for documents that call for no prefixes. -/
theorem C34_stored_aware_partial (fuel : Nat) (opts : List ParserOption) (doc : List UInt8) (o l : Nat)
    (h : SelectWindow opts doc o l) (hlen : doc.length < 2 ^ 30) (tree : Tree.Document)
    (hb : (doc.drop o).take l = tree.bytes) (hs : tree.Syntax) (hp : tree.Plain) (hf : tree.Fits)
    (hq : NoPrefixes doc ((docRec :: tree.stored o).map Rec.word)) :
    parsedTokens fuel opts = some ((docRec :: tree.stored o).map Rec.word) := by
  cases hn : chosenNs opts with
  | false => exact C34_stored_window_partial fuel opts doc o l h hn (by have := h.inside; omega) tree hb hs hp hf
  | true =>
    have d : ∀ b, chosenDoc (opts ++ [.nameSpaceAware b]) = chosenDoc opts := by
      intro b; simp only [chosenDoc, List.foldl_append]; rfl
    have n : ∀ b, chosenNs (opts ++ [.nameSpaceAware b]) = b := by
      intro b; simp only [chosenNs, List.foldl_append]; rfl
    have c : ∀ b, chosenDeep (opts ++ [.nameSpaceAware b]) = chosenDeep opts := by
      intro b; simp only [chosenDeep, List.foldl_append]; rfl
    have hf' : SelectWindow (opts ++ [.nameSpaceAware false]) doc o l :=
      ⟨(d _).trans h.window, h.nonempty, h.inside, h.size⟩
    have key := C34_stored_window_partial fuel _ doc o l hf' (n false) (by have := h.inside; omega) tree hb hs hp hf
    obtain ⟨out, k1, k2⟩ := parsedTokens_of.1 key
    rw [(C67_result fuel opts (opts ++ [.nameSpaceAware true]) h.args (d _).symm (by rw [hn, n]) (c _).symm).2]
    exact parsedTokens_of.2 ⟨out, C60_partial fuel fuel opts doc o l out h.window hlen k1 (by rw [k2]; exact hq), k2⟩

namespace Tree

/-! ## Where the spans are -/

theorem Atom.spans_at {d o : Nat} {a : Atom} {s : Span} (h : s ∈ a.spans d o) :
    (∃ x y, a.bytes = x ++ (s.data ++ y) ∧ s.off = o + x.length) ∧ s.depth = d ∧
      a.stored d o = Grammar.textRecs s.tok s.off s.data.length (s.depth - 1) := by
  cases a with
  | cdata data =>
    obtain rfl := List.mem_singleton.1 h
    exact ⟨⟨str% "<![CDATA[", str% "]]>", rfl, rfl⟩, rfl, rfl⟩
  | comment data =>
    obtain rfl := List.mem_singleton.1 h
    exact ⟨⟨str% "<!--", str% "-->", rfl, rfl⟩, rfl, rfl⟩
  | empty => cases h
  | pi => cases h

theorem Content.textSpan_at {d o : Nat} {t : Text} {s : Span} (h : s ∈ Content.textSpan d o t) :
    s.data = t.bytes ∧ s.off = o ∧ s.depth = d ∧
      Content.textStored d o t = Grammar.textRecs s.tok s.off s.data.length (s.depth - 1) := by
  simp only [Content.textSpan] at h
  split at h
  · cases h
  · rename_i hb
    obtain rfl := List.mem_singleton.1 h
    refine ⟨rfl, rfl, rfl, ?_⟩
    rw [Content.textStored, if_neg hb]

/-- What is to be shown of a span of a part of the document at offset `o`. -/
def Span.In (o : Nat) (bytes : List UInt8) (recs : List Rec) (s : Span) : Prop :=
  (∃ x y, bytes = x ++ (s.data ++ y) ∧ s.off = o + x.length) ∧
    Grammar.textRecs s.tok s.off s.data.length (s.depth - 1) <:+: recs

theorem Span.In.app {o o' : Nat} {x y bytes : List UInt8} {as bs recs : List Rec} {s : Span} (h : s.In o' bytes recs)
    (ho : o' = o + x.length) : s.In o (x ++ (bytes ++ y)) (as ++ (recs ++ bs)) := by
  obtain ⟨⟨u, v, h1, h2⟩, h3⟩ := h
  refine ⟨⟨x ++ u, v ++ y, by simp [h1], by rw [h2, ho, List.length_append]; omega⟩, h3.trans ?_⟩
  exact ⟨as, bs, by simp⟩

theorem Content.spans_in {c : Content} : ∀ {d : Nat} {sole : Bool} {o : Nat} {s : Span}, s ∈ c.spans d sole o →
    c.Fit d → d ≤ 255 → s.In o c.bytes (c.stored d sole o) ∧ s.depth ≤ 255 := by
  have htext : ∀ {d o : Nat} {t : Text} {s : Span} {y : List UInt8} {bs : List Rec}, s ∈ Content.textSpan d o t → d ≤ 255 →
      s.In o (t.bytes ++ y) (Content.textStored d o t ++ bs) ∧ s.depth ≤ 255 := by
    intro d o t s y bs h hd
    obtain ⟨h1, h2, h3, h4⟩ := Content.textSpan_at h
    refine ⟨⟨⟨[], y, by simp [h1], by simp [h2]⟩, ?_⟩, by omega⟩
    rw [h4]; exact ⟨[], bs, rfl⟩
  induction c with
  | text t =>
    intro d sole o s h _ hd
    simp only [Content.spans] at h
    simp only [Content.bytes, Content.stored]
    cases sole with
    | false =>
      simp only [Bool.false_eq_true, if_false] at h ⊢
      simpa using htext (y := []) (bs := []) h hd
    | true =>
      simp only [if_true] at h ⊢
      obtain rfl := List.mem_singleton.1 h
      exact ⟨⟨⟨[], [], by simp, rfl⟩, List.infix_refl _⟩, hd⟩
  | atom t a rest ih =>
    intro d sole o s h hf hd
    simp only [Content.spans, List.append_assoc, List.mem_append] at h
    simp only [Content.bytes, Content.stored, List.append_assoc]
    rcases h with h | h | h
    · exact htext h hd
    · obtain ⟨h1, h2, h3⟩ := Atom.spans_at h
      refine ⟨?_, by omega⟩
      have : s.In (o + t.bytes.length) a.bytes (a.stored d (o + t.bytes.length : Nat)) := ⟨h1, by rw [h3]; exact List.infix_refl _⟩
      exact this.app rfl
    · obtain ⟨h1, h2⟩ := ih h hf.2.2 hd
      refine ⟨?_, h2⟩
      have := h1.app (o := o) (x := t.bytes ++ a.bytes) (y := [])
        (as := Content.textStored d o t ++ a.stored d (o + t.bytes.length)) (bs := []) (by rw [List.length_append]; omega)
      simpa only [List.append_nil, List.append_assoc, Int.natCast_add] using this
  | element t tag body space rest ih1 ih2 =>
    intro d sole o s h hf hd
    obtain ⟨f1, f2, f3, f4⟩ := hf
    simp only [Content.spans, List.append_assoc, List.mem_append] at h
    simp only [Content.bytes, Content.stored, List.append_assoc]
    rcases h with h | h | h
    · exact htext h hd
    · obtain ⟨h1, h2⟩ := ih1 h f3 (by have := f2.depth; omega)
      refine ⟨?_, h2⟩
      have := h1.app (o := o) (x := t.bytes ++ (tag.bytes ++ [ch% '>']))
        (y := ch% '<' :: ch% '/' :: (tag.name ++ (space ++ ch% '>' :: rest.bytes)))
        (as := Content.textStored d o t ++ tag.stored d (o + t.bytes.length))
        (bs := rest.stored d false (o + t.bytes.length + tag.bytes.length + 1 + body.bytes.length +
          (2 + tag.name.length + space.length + 1))) (by simp only [List.length_append, List.length_cons, List.length_nil]; omega)
      simpa only [List.append_nil, List.append_assoc, Int.natCast_add, List.cons_append, List.nil_append, Int.natCast_one] using this
    · obtain ⟨h1, h2⟩ := ih2 h f4 hd
      refine ⟨?_, h2⟩
      have := h1.app (o := o) (x := t.bytes ++ (tag.bytes ++ ch% '>' :: (body.bytes ++
        (ch% '<' :: ch% '/' :: (tag.name ++ (space ++ [ch% '>'])))))) (y := [])
        (as := Content.textStored d o t ++ (tag.stored d (o + t.bytes.length) ++
          body.stored (d + 1) true (o + t.bytes.length + tag.bytes.length + 1)))
        (bs := []) (by simp only [List.length_append, List.length_cons, List.length_nil]; omega)
      simpa only [List.append_nil, List.append_assoc, Int.natCast_add, List.cons_append, List.nil_append, Int.natCast_one,
        Int.cast_ofNat_Int] using this

theorem miscSpans_in {ms : List Misc} : ∀ {o : Nat} {s : Span}, s ∈ miscSpans o ms →
    s.In o (ms.flatMap Misc.bytes) (miscStored o ms) ∧ s.depth ≤ 255 := by
  induction ms with
  | nil => intro o s h; cases h
  | cons m ms ih =>
    intro o s h
    simp only [miscSpans, List.mem_append] at h
    simp only [List.flatMap_cons, miscStored]
    rcases h with h | h
    · obtain ⟨h1, h2, h3⟩ := Atom.spans_at h
      refine ⟨?_, by omega⟩
      have : s.In (o + m.space.length) m.atom.bytes (m.atom.stored 0 (o + m.space.length : Nat)) :=
        ⟨h1, by rw [h3]; exact List.infix_refl _⟩
      have := this.app (o := o) (x := m.space) (y := ms.flatMap Misc.bytes) (as := []) (bs := miscStored (o + m.bytes.length) ms) rfl
      simpa only [Misc.bytes, List.append_assoc, List.nil_append, Int.natCast_add] using this
    · obtain ⟨h1, h2⟩ := ih h
      refine ⟨?_, h2⟩
      have := h1.app (o := o) (x := m.bytes) (y := []) (as := m.atom.stored 0 (o + m.space.length)) (bs := []) rfl
      simpa only [List.append_nil, List.append_assoc, Int.natCast_add] using this

theorem Document.spans_in {d : Document} (hf : d.Fits) {o : Nat} {s : Span} (h : s ∈ d.spans o) :
    s.In o d.bytes (d.stored o) ∧ s.depth ≤ 255 := by
  simp only [Document.spans, List.mem_append] at h
  simp only [Document.bytes, Document.stored]
  rcases h with (h | h) | h
  · obtain ⟨h1, h2⟩ := miscSpans_in h
    refine ⟨?_, h2⟩
    have := h1.app (o := o) (x := d.declBytes) (y := d.space ++ (d.root.bytes ++ (d.epilog.flatMap Misc.bytes ++ d.space1)))
      (as := (d.decl.map (Decl.recs o)).getD [])
      (bs := d.root.stored (o + d.declBytes.length + (d.prolog.flatMap Misc.bytes).length + d.space.length) ++
        miscStored (o + d.declBytes.length + (d.prolog.flatMap Misc.bytes).length + d.space.length +
          d.root.bytes.length) d.epilog) rfl
    simpa only [List.append_assoc, Int.natCast_add] using this
  · cases hr : d.root with
    | empty tag => rw [hr] at h; cases h
    | element tag body space =>
      have hfit := hf.root
      rw [hr] at h hfit
      obtain ⟨h1, h2⟩ := Content.spans_in h hfit.2 (by omega)
      refine ⟨?_, h2⟩
      have := h1.app (o := o) (x := d.declBytes ++ (d.prolog.flatMap Misc.bytes ++ (d.space ++ (tag.bytes ++ [ch% '>']))))
        (y := ch% '<' :: ch% '/' :: (tag.name ++ (space ++ ch% '>' :: (d.epilog.flatMap Misc.bytes ++ d.space1))))
        (as := (d.decl.map (Decl.recs o)).getD [] ++ (miscStored (o + d.declBytes.length) d.prolog ++
          tag.stored 0 (o + d.declBytes.length + (d.prolog.flatMap Misc.bytes).length + d.space.length)))
        (bs := miscStored (o + d.declBytes.length + (d.prolog.flatMap Misc.bytes).length + d.space.length +
          d.root.bytes.length) d.epilog) (by simp only [List.length_append, List.length_cons, List.length_nil]; omega)
      rw [hr] at this
      simpa only [Root.bytes, Root.stored, List.append_assoc, Int.natCast_add, List.cons_append, List.nil_append,
        Int.natCast_one] using this
  · obtain ⟨h1, h2⟩ := miscSpans_in h
    refine ⟨?_, h2⟩
    have := h1.app (o := o) (x := d.declBytes ++ (d.prolog.flatMap Misc.bytes ++ (d.space ++ d.root.bytes))) (y := d.space1)
      (as := (d.decl.map (Decl.recs o)).getD [] ++ (miscStored (o + d.declBytes.length) d.prolog ++
        d.root.stored (o + d.declBytes.length + (d.prolog.flatMap Misc.bytes).length + d.space.length))) (bs := [])
      (by simp only [List.length_append]; omega)
    simpa only [List.append_nil, List.append_assoc, Int.natCast_add] using this

theorem Span.tok_of {d : Document} {o : Nat} {s : Span} (h : s ∈ d.spans o) :
    s.tok = .characterData ∨ s.tok = .cdataVal ∨ s.tok = .comment := by
  have ha : ∀ {d o : Nat} {a : Atom} {s : Span}, s ∈ a.spans d o → s.tok = .characterData ∨ s.tok = .cdataVal ∨ s.tok = .comment := by
    intro d o a s h
    cases a <;> simp only [Atom.spans, List.mem_singleton, List.not_mem_nil] at h <;> subst h <;> simp
  have ht : ∀ {d o : Nat} {t : Text} {s : Span}, s ∈ Content.textSpan d o t →
      s.tok = .characterData ∨ s.tok = .cdataVal ∨ s.tok = .comment := by
    intro d o t s h
    simp only [Content.textSpan] at h
    split at h
    · cases h
    · obtain rfl := List.mem_singleton.1 h; simp
  have hm : ∀ {ms : List Misc} {o : Nat} {s : Span}, s ∈ miscSpans o ms →
      s.tok = .characterData ∨ s.tok = .cdataVal ∨ s.tok = .comment := by
    intro ms
    induction ms with
    | nil => intro o s h; cases h
    | cons m ms ih =>
      intro o s h
      simp only [miscSpans, List.mem_append] at h
      rcases h with h | h
      · exact ha h
      · exact ih h
  have hc : ∀ {c : Content} {d : Nat} {sole : Bool} {o : Nat} {s : Span}, s ∈ c.spans d sole o →
      s.tok = .characterData ∨ s.tok = .cdataVal ∨ s.tok = .comment := by
    intro c
    induction c with
    | text t =>
      intro d sole o s h
      simp only [Content.spans] at h
      split at h
      · obtain rfl := List.mem_singleton.1 h; simp
      · exact ht h
    | atom t a rest ih =>
      intro d sole o s h
      simp only [Content.spans, List.mem_append] at h
      rcases h with (h | h) | h
      · exact ht h
      · exact ha h
      · exact ih h
    | element t tag body space rest ih1 ih2 =>
      intro d sole o s h
      simp only [Content.spans, List.mem_append] at h
      rcases h with (h | h) | h
      · exact ht h
      · exact ih1 h
      · exact ih2 h
  simp only [Document.spans, List.mem_append] at h
  rcases h with (h | h) | h
  · exact hm h
  · cases hr : d.root with
    | empty tag => rw [hr] at h; cases h
    | element tag body space => rw [hr] at h; exact hc h
  · exact hm h

end Tree

/-- C47 for every accepted document of the right syntax: the records of a text, a comment or a CDATA section,
wherever it is, are consecutive, have its type, and cover its length without gaps. They begin at its data if it
fits into one record, and at offset 0 of the slice if it does not. -/
theorem C47_document_exact (fuel : Nat) (opts : List ParserOption) (doc : List UInt8) (o : Nat) (h : SelectRest opts doc o)
    (hlen : doc.length < 2 ^ 31) (tree : Tree.Document) (hb : doc.drop o = tree.bytes) (hs : tree.Syntax) (hp : tree.Plain)
    (ws : List (BitVec 64)) (hw : parsedTokens fuel opts = some ws) (s : Tree.Span) (hm : s ∈ tree.spans o) :
    (doc.drop s.off).take s.data.length = s.data ∧
    ∃ a rs b, ws = a ++ rs ++ b ∧ (∀ w ∈ rs, tokenType w = s.tok.code) ∧
      Covers (if s.data.length ≤ maxLen then s.off else 0) s.data.length rs := by
  obtain ⟨hf, rfl⟩ := (C34_stored fuel opts doc o h hlen tree hb hs hp ws).1 hw
  obtain ⟨⟨⟨x, y, h1, h2⟩, u, v, h3⟩, h4⟩ := Tree.Document.spans_in hf hm
  have hl := congrArg List.length hb
  rw [h1] at hl
  simp only [List.length_drop, List.length_append] at hl
  have ho := tree_start hb
  refine ⟨?_, ?_⟩
  · rw [h2, ← List.drop_drop, hb, h1, List.drop_left, List.take_left]
  · obtain ⟨k1, k2⟩ := covers_textRecs (doc := doc) hlen (t := s.tok)
      (by rcases Tree.Span.tok_of hm with e | e | e <;> rw [e] <;> decide) (o := s.off) (l := s.data.length)
      (d := (s.depth : Int) - 1) (by omega) (by omega) (by omega)
    refine ⟨(docRec :: u).map Rec.word, _, v.map Rec.word, ?_, fun w hw => (k2 w hw).1, k1⟩
    rw [← h3]; simp

namespace Tree

/-- An element with a prefix around a text, a comment and `k` letters. -/
def longTree (k : Nat) : Document where
  decl := none
  prolog := []
  space := []
  root := .element (tag "a:cd") (.atom (lit "hi") (.comment (bytes "c")) (.text (xs k))) []
  epilog := []
  space1 := []

theorem xs_syntax (k : Nat) : (xs k).Syntax ∧ (xs k).refs = [] := by
  refine ⟨⟨?_, ((xs_ok k).1).2⟩, ?_⟩
  · intro p hp
    rw [List.eq_of_mem_replicate hp]
    simp only [Piece.Syntax]
    decide +kernel
  · simp only [Text.refs, List.filterMap_eq_nil_iff]
    intro p hp
    rw [List.eq_of_mem_replicate hp]

theorem longTree_ok (k : Nat) : (longTree k).Syntax ∧ (longTree k).Plain ∧ (longTree k).Fits := by
  obtain ⟨x1, x2⟩ := xs_syntax k
  have ht : (tag "a:cd").Syntax := ((StartTag.wellFormed_iff _).1 (by decide +kernel)).1
  have hl : (lit "hi").Syntax := ((Text.wellFormed_iff _).1 (by decide +kernel)).1
  refine ⟨⟨nofun, nofun, ⟨nofun, nofun⟩, ⟨ht, ⟨hl, ?_, x1⟩, nofun⟩, nofun⟩, ⟨nofun, ?_⟩, ?_⟩
  · show (Atom.comment (bytes "c")).WellFormed
    decide +kernel
  · intro t b sp e
    simp only [longTree, Root.element.injEq] at e
    obtain ⟨-, rfl, -⟩ := e
    exact ⟨nofun, nofun, nofun⟩
  · have htags : (longTree k).tags = [(0, tag "a:cd")] := rfl
    have htexts : (longTree k).texts = [lit "hi", xs k] := rfl
    refine ⟨?_, ?_, ?_, ?_, ?_, ?_, ?_, ?_, ?_⟩
    · rw [htags]; decide
    · rw [htags]; decide +kernel
    · rw [htags]; decide +kernel
    · rw [htags]; decide +kernel
    · rw [htags]; decide +kernel
    · intro x hx; cases hx
    · intro r hr
      simp only [Document.refs, htags, htexts, List.flatMap_cons, List.flatMap_nil, x2, List.append_nil] at hr
      cases hr
    · rw [htexts]
      intro t ht
      simp only [List.mem_cons, List.not_mem_nil, or_false] at ht
      rcases ht with rfl | rfl
      · decide +kernel
      · exact (xs_ok k).2
    · nofun

theorem xs_blank (k : Nat) : Content.Blank (xs (k + 1)) = false := by
  simp only [Content.Blank, xs_bytes, List.replicate_succ, List.all_cons]
  rfl

end Tree

open Tree in
/-- Non-vacuity of C34_stored and C47_document_exact: the records of an element with a prefix around a text, a comment
and letters, a million or any other number. -/
example (k : Nat) (hk : k < 2 ^ 30) : parsedTokens 0 [.xmlDoc (some (longTree (k + 1)).bytes)] =
    some ((docRec :: [⟨.startingTag, 1, 6, 0⟩, ⟨.characterData, 6, 2, 0⟩, ⟨.comment, 12, 1, 0⟩] ++
      Grammar.textRecs .characterData 16 (k + 1) 0).map Rec.word) := by
  obtain ⟨h1, h2, h3⟩ := longTree_ok (k + 1)
  have hlen : (longTree (k + 1)).bytes.length < 2 ^ 31 := by
    have : (longTree (k + 1)).bytes.length = 16 + ((xs (k + 1)).bytes.length + 7) := by
      simp only [longTree, Document.bytes, Document.declBytes, Root.bytes, Content.bytes, Atom.bytes, Option.map_none, Option.getD_none,
        List.flatMap_nil, List.length_append, List.length_cons, List.length_nil]
      have e1 : (tag "a:cd").bytes.length = 5 := rfl
      have e2 : (lit "hi").bytes.length = 2 := rfl
      have e3 : (bytes "c").length = 1 := rfl
      have e4 : (tag "a:cd").name.length = 4 := rfl
      omega
    rw [this, xs_bytes, List.length_replicate]; omega
  rw [(C34_stored 0 _ _ 0 (select_whole _ hlen) hlen (longTree (k + 1)) rfl h1 h2 _).2 ⟨h3, rfl⟩]
  have e : (longTree (k + 1)).stored ((0 : Nat) : Int) =
      [⟨.startingTag, 1, 6, 0⟩, ⟨.characterData, 6, 2, 0⟩, ⟨.comment, 12, 1, 0⟩] ++
        Grammar.textRecs .characterData 16 (k + 1) 0 := by
    have hx : ((xs (k + 1)).bytes.length : Int) = k + 1 := by rw [xs_bytes, List.length_replicate]; rfl
    have hs : Content.textStored 1 16 (xs (k + 1)) = Grammar.textRecs .characterData 16 (k + 1) 0 := by
      rw [Content.textStored, if_neg (by rw [xs_blank]; decide), hx]
      rfl
    rw [← hs]
    simp only [Document.stored, longTree, miscStored, List.append_nil]
    rfl
  rw [e]
  rfl

/-- C34_ordinary_exact at the document of `Verif/Props/Ordinary.lean`. -/
example : ∃ (ws : List (BitVec 64)) (tree : Tree.Document), parsedTokens 0 [.xmlDoc (some ordinaryDoc)] = some ws ∧ tree.Syntax ∧
    tree.Fits ∧ tree.bytes = ordinaryDoc ∧ ws = (docRec :: tree.stored (0 : Nat)).map Rec.word := by
  obtain ⟨ws, hw⟩ := Option.isSome_iff_exists.1 (by decide +kernel : accepts ordinaryDoc = true)
  obtain ⟨tree, h1, h2, h3, h4⟩ := (C34_ordinary_exact 0 _ ordinaryDoc 0 (select_whole _ (by decide)) (by decide)
    ordinaryDoc_ordinary ws).1 hw
  exact ⟨ws, tree, hw, h1, h2, h3, h4⟩

end GoVtd
