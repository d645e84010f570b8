import Verif.Proofs.Parser.Fits
import Verif.Props.Tree

/-!
# C37, C38, C40, C41, C48, C58: exactly which documents are accepted

`Verif/Spec/Fits.lean` separates the syntax of a document from the limits and constraints that `Parse` checks
and from three constructs that it misreads. Here: a document of the right syntax without the three constructs
is accepted if and only if it is within each limit.
-/

namespace GoVtd

open Parser Grammar

/-- `Parse` accepts. -/
def Accepts (fuel : Nat) (opts : List ParserOption) : Prop := ∃ ws, parsedTokens fuel opts = some ws

theorem accepts_iff (fuel : Nat) (opts : List ParserOption) (doc : List UInt8) (o : Nat) (h : SelectRest opts doc o) :
    Accepts fuel opts ↔ doc.length < 2 ^ 31 ∧ ∃ recs, Document doc.length (doc.drop o) recs := by
  simp only [Accepts, C32_exact fuel opts doc o h]
  constructor
  · rintro ⟨ws, h1, recs, h2, -⟩; exact ⟨h1, recs, h2⟩
  · rintro ⟨h1, recs, h2⟩; exact ⟨_, h1, recs, h2, rfl⟩

/-- C34, C38, C40 and C48 together: a document of the right syntax is accepted if and only if it fits. -/
theorem C34_fits (fuel : Nat) (opts : List ParserOption) (doc : List UInt8) (o : Nat) (h : SelectRest opts doc o)
    (hlen : doc.length < 2 ^ 31) (tree : Tree.Document) (hb : doc.drop o = tree.bytes) (hs : tree.Syntax) (hp : tree.Plain) :
    Accepts fuel opts ↔ tree.Fits := by
  rw [accepts_iff fuel opts doc o h, hb, Tree.document_fits hs hp]
  simp [hlen]

namespace Tree

/-! What `Fits` and `Syntax` have to do with the recommendation: a tree is well-formed if and only if it has the
right syntax, its references are legal and the names of the attributes in a tag differ. -/

theorem Reference.wellFormed_iff (r : Reference) : r.WellFormed ↔ r.Syntax ∧ r.Legal := by
  cases r with
  | entity name =>
    simp only [Reference.WellFormed, Reference.Syntax, Reference.Legal, iff_and_self]
    intro h
    simp only [entityNames, List.mem_cons, List.not_mem_nil, or_false] at h
    rcases h with rfl | rfl | rfl | rfl | rfl <;> exact ⟨_, _, rfl, by decide, by simp only [AllName]; decide⟩
  | dec ds =>
    simp only [Reference.WellFormed, Reference.Syntax, Reference.Legal]
    constructor
    · rintro ⟨h1, h2⟩
      refine ⟨⟨?_, h1⟩, h2⟩
      rintro rfl; revert h2; decide +kernel
    · rintro ⟨⟨-, h1⟩, h2⟩; exact ⟨h1, h2⟩
  | hex ds =>
    simp only [Reference.WellFormed, Reference.Syntax, Reference.Legal]
    constructor
    · rintro ⟨h1, h2⟩
      refine ⟨⟨?_, h1⟩, h2⟩
      rintro rfl; revert h2; decide +kernel
    · rintro ⟨⟨-, h1⟩, h2⟩; exact ⟨h1, h2⟩

theorem Piece.wellFormed_iff (p : Piece) : p.WellFormed ↔ p.Syntax ∧ ∀ r, p = .ref r → r.Legal := by
  cases p with
  | byte b => simp [Piece.WellFormed, Piece.Syntax]
  | ref r => simp [Piece.WellFormed, Piece.Syntax, Reference.wellFormed_iff]

theorem Text.mem_refs {t : Text} {r : Reference} : r ∈ t.refs ↔ Piece.ref r ∈ t := by
  simp only [Text.refs, List.mem_filterMap]
  constructor
  · rintro ⟨p, h1, h2⟩
    cases p <;> simp at h2
    rwa [← h2]
  · intro h; exact ⟨_, h, rfl⟩

theorem Text.wellFormed_iff (t : Text) : t.WellFormed ↔ t.Syntax ∧ ∀ r ∈ t.refs, r.Legal := by
  simp only [Text.WellFormed, Text.Syntax, Text.mem_refs, Piece.wellFormed_iff]
  grind

theorem Attr.wellFormed_iff (a : Attr) : a.WellFormed ↔ a.Syntax ∧ ∀ r ∈ a.value.refs, r.Legal := by
  constructor
  · intro h
    refine ⟨⟨h.space, h.name, h.quote, fun p hp => ⟨((Piece.wellFormed_iff p).1 (h.value p hp).1).1, (h.value p hp).2⟩⟩, ?_⟩
    intro r hr
    exact ((Piece.wellFormed_iff _).1 (h.value _ (Text.mem_refs.1 hr)).1).2 r rfl
  · rintro ⟨h, hr⟩
    refine ⟨h.space, h.name, h.quote, fun p hp => ⟨(Piece.wellFormed_iff p).2 ⟨(h.value p hp).1, ?_⟩, (h.value p hp).2⟩⟩
    rintro r rfl
    exact hr r (Text.mem_refs.2 hp)

theorem StartTag.wellFormed_iff (t : StartTag) :
    t.WellFormed ↔ t.Syntax ∧ (∀ r ∈ t.refs, r.Legal) ∧ (t.attrs.map Attr.name).Nodup := by
  simp only [StartTag.refs, List.mem_flatMap]
  constructor
  · intro h
    refine ⟨⟨h.name, fun a ha => ((Attr.wellFormed_iff a).1 (h.attrs a ha)).1, h.space⟩, ?_, h.unique⟩
    rintro r ⟨a, ha, hr⟩
    exact ((Attr.wellFormed_iff a).1 (h.attrs a ha)).2 r hr
  · rintro ⟨h, hr, hu⟩
    exact ⟨h.name, fun a ha => (Attr.wellFormed_iff a).2 ⟨h.attrs a ha, fun r h => hr r ⟨a, ha, h⟩⟩, hu, h.space⟩

/-- The constraints of the recommendation on the tags and texts of a tree. -/
def Constraints (tags : List (Nat × StartTag)) (texts : List Text) : Prop :=
  (∀ t ∈ tags, (∀ r ∈ t.2.refs, r.Legal) ∧ (t.2.attrs.map Attr.name).Nodup) ∧ ∀ t ∈ texts, ∀ r ∈ t.refs, r.Legal

theorem Content.wellFormed_iff (c : Content) (d : Nat) : c.WellFormed ↔ c.Syntax ∧ Constraints (c.tags d) c.texts := by
  induction c generalizing d with
  | text t => simp [Content.WellFormed, Content.Syntax, Content.tags, Content.texts, Constraints, Text.wellFormed_iff]
  | atom t a rest ih =>
    have ih := ih d
    simp only [Content.WellFormed, Content.Syntax, Content.tags, Content.texts, Constraints, Text.wellFormed_iff, ih,
      List.forall_mem_append, List.forall_mem_cons]
    cases a with
    | empty tag => simp only [Atom.WellFormed, Atom.Syntax, Atom.tags, StartTag.wellFormed_iff, List.mem_singleton, forall_eq]; grind
    | cdata => simp only [Atom.Syntax, Atom.tags, List.not_mem_nil, false_imp_iff, implies_true, true_and]; grind
    | comment => simp only [Atom.Syntax, Atom.tags, List.not_mem_nil, false_imp_iff, implies_true, true_and]; grind
    | pi => simp only [Atom.Syntax, Atom.tags, List.not_mem_nil, false_imp_iff, implies_true, true_and]; grind
  | element t tag body space rest ih1 ih2 =>
    have ih1 := ih1 (d + 1)
    have ih2 := ih2 d
    simp only [Content.WellFormed, Content.Syntax, Content.tags, Content.texts, Constraints, Text.wellFormed_iff, ih1, ih2,
      StartTag.wellFormed_iff, List.forall_mem_append, List.forall_mem_cons]
    grind

theorem Root.wellFormed_iff (r : Root) : r.WellFormed ↔ r.Syntax ∧ Constraints r.tags r.texts := by
  cases r with
  | empty tag => simp [Root.WellFormed, Root.Syntax, Root.tags, Root.texts, Constraints, StartTag.wellFormed_iff]
  | element tag body space =>
    simp only [Root.WellFormed, Root.Syntax, Root.tags, Root.texts, Constraints, StartTag.wellFormed_iff, Content.wellFormed_iff body 1,
      List.forall_mem_cons]
    grind

theorem Document.wellFormed_iff (d : Document) : d.WellFormed ↔
    d.Syntax ∧ (∀ r ∈ d.refs, r.Legal) ∧ ∀ t ∈ d.tags, (t.2.attrs.map Attr.name).Nodup := by
  have key : Constraints d.root.tags d.root.texts ↔ (∀ r ∈ d.refs, r.Legal) ∧ ∀ t ∈ d.tags, (t.2.attrs.map Attr.name).Nodup := by
    simp only [Constraints, Document.refs, Document.tags, Document.texts, List.mem_append, List.mem_flatMap]
    constructor
    · rintro ⟨h1, h2⟩
      refine ⟨?_, fun t ht => (h1 t ht).2⟩
      rintro r (⟨t, ht, hr⟩ | ⟨t, ht, hr⟩)
      · exact (h1 t ht).1 r hr
      · exact h2 t ht r hr
    · rintro ⟨h1, h2⟩
      exact ⟨fun t ht => ⟨fun r hr => h1 r (Or.inl ⟨t, ht, hr⟩), h2 t ht⟩, fun t ht r hr => h1 r (Or.inr ⟨t, ht, hr⟩)⟩
  rw [← key]
  constructor
  · intro h
    exact ⟨⟨h.decl, h.prolog, h.space, ((Root.wellFormed_iff _).1 h.root).1, h.epilog⟩, ((Root.wellFormed_iff _).1 h.root).2⟩
  · rintro ⟨h, hc⟩
    exact ⟨h.decl, h.prolog, h.space, (Root.wellFormed_iff _).2 ⟨h.root, hc⟩, h.epilog⟩

end Tree

/-! ## C48, C58 -/

/-- The limits of `Tree.Document.Fits` other than those of C58. -/
structure Tree.Document.FitsElse (d : Tree.Document) : Prop where
  attrs : ∀ t ∈ d.tags, t.2.attrs.length ≤ 256 ∧ (t.2.attrs.map Tree.Attr.name).Nodup
  values : ∀ t ∈ d.tags, ∀ a ∈ t.2.attrs, a.value.bytes.length ≤ maxLen
  pis : ∀ x ∈ d.pis, x.1.length ≤ maxLen ∧ ∀ s data, x.2 = some (s, data) → data.length ≤ maxLen
  refs : ∀ r ∈ d.refs, r.Accepted
  texts : ∀ t ∈ d.texts, ¬ Tree.HasPair (ch% ']') (ch% '>') t.bytes
  epilog : ∀ m ∈ d.epilog, ∃ t x, m.atom = .pi t (some x)

/-- C58 for documents of the right syntax that are within the other limits: `Parse` accepts if and only if no
element is inside of 255 others, no name of an element or attribute is longer than 2047 bytes, and no prefix
of one is longer than 511 bytes. -/
theorem C58_partial (fuel : Nat) (opts : List ParserOption) (doc : List UInt8) (o : Nat) (h : SelectRest opts doc o)
    (hlen : doc.length < 2 ^ 31) (tree : Tree.Document) (hb : doc.drop o = tree.bytes) (hs : tree.Syntax) (hp : tree.Plain)
    (hf : tree.FitsElse) :
    Accepts fuel opts ↔
      (∀ t ∈ tree.tags, t.1 < 255) ∧
      (∀ t ∈ tree.tags, t.2.name.length ≤ 2047 ∧ ∀ a ∈ t.2.attrs, a.name.length ≤ 2047) ∧
      (∀ t ∈ tree.tags, lastColon 0 0 t.2.name ≤ 511 ∧ ∀ a ∈ t.2.attrs, lastColon 0 0 a.name ≤ 511) := by
  rw [C34_fits fuel opts doc o h hlen tree hb hs hp]
  constructor
  · intro h; exact ⟨fun t ht => by have := h.depth t ht; omega, h.names, h.prefixes⟩
  · rintro ⟨h1, h2, h3⟩
    exact ⟨fun t ht => by have := h1 t ht; omega, h2, h3, hf.attrs, hf.values, hf.pis, hf.refs, hf.texts, hf.epilog⟩

/-- C48, the refusals, without the other limits. -/
theorem C48_refused (fuel : Nat) (opts : List ParserOption) (doc : List UInt8) (o : Nat) (h : SelectRest opts doc o)
    (tree : Tree.Document) (hb : doc.drop o = tree.bytes) (hs : tree.Syntax) (hp : tree.Plain) (t : Nat × Tree.StartTag)
    (ht : t ∈ tree.tags)
    (hl : 255 ≤ t.1 ∨ 2048 ≤ t.2.name.length ∨ 512 ≤ lastColon 0 0 t.2.name ∨
      ∃ a ∈ t.2.attrs, 2048 ≤ a.name.length ∨ 512 ≤ lastColon 0 0 a.name) :
    ¬ Accepts fuel opts := by
  intro ha
  have hlen := ((accepts_iff fuel opts doc o h).1 ha).1
  rw [C34_fits fuel opts doc o h hlen tree hb hs hp] at ha
  have h1 := ha.depth t ht
  have h2 := ha.names t ht
  have h3 := ha.prefixes t ht
  rcases hl with hl | hl | hl | ⟨a, h4, hl | hl⟩
  · omega
  · omega
  · omega
  · have := h2.2 a h4; omega
  · have := h3.2 a h4; omega

namespace Tree

/-- `k` elements around a content. -/
def nest : Nat → Content → Content
  | 0, c => c
  | k + 1, c => .element [] (tag "a") (nest k c) [] (.text [])

/-- An element with `k` levels of elements inside. -/
def nested (k : Nat) : Document := only (.element (tag "a") (nest k (.text [])) [])

theorem tag_syntax : (tag "a").Syntax := ⟨⟨ch% 'a', [], rfl, by decide, nofun⟩, nofun, nofun⟩

theorem nil_syntax : Text.Syntax [] := ⟨nofun, by decide⟩

theorem nest_syntax : ∀ k, (nest k (.text [])).Syntax
  | 0 => nil_syntax
  | k + 1 => ⟨nil_syntax, tag_syntax, nest_syntax k, nofun, nil_syntax⟩

theorem first_nil : Content.Plain.First [] := fun w b r e => by simp at e

theorem nest_plain : ∀ k, (nest k (.text [])).Plain false
  | 0 => fun _ => first_nil
  | k + 1 => ⟨fun _ => first_nil, nest_plain k, fun _ => first_nil⟩

theorem nest_tags : ∀ k d, (nest k (.text [])).tags d = (List.range' d k).map fun i => (i, tag "a")
  | 0, _ => rfl
  | k + 1, d => by simp [nest, Content.tags, nest_tags k, List.range'_succ]

theorem nest_texts : ∀ k, ∀ t ∈ (nest k (.text [])).texts, t = []
  | 0 => by simp [nest, Content.texts]
  | k + 1 => by
    simp only [nest, Content.texts, List.forall_mem_cons, List.forall_mem_append, List.not_mem_nil, false_imp_iff, implies_true,
      and_true, true_and]
    exact nest_texts k

theorem nest_pis : ∀ k, (nest k (.text [])).pis = []
  | 0 => rfl
  | k + 1 => by simp [nest, Content.pis, nest_pis k]

theorem nested_facts (k : Nat) : (nested k).Syntax ∧ (nested k).Plain ∧ (nested k).FitsElse ∧
    (nested k).tags = (List.range (k + 1)).map fun i => (i, tag "a") := by
  have ht : (nested k).tags = (List.range (k + 1)).map fun i => (i, tag "a") := by
    simp [nested, only, Document.tags, Root.tags, nest_tags, List.range_eq_range', List.range'_succ]
  refine ⟨⟨nofun, nofun, ⟨nofun, nofun⟩, ⟨tag_syntax, nest_syntax k, nofun⟩, nofun⟩, ⟨?_, ?_⟩, ⟨?_, ?_, ?_, ?_, ?_, nofun⟩, ht⟩
  · intro m ms t x _ h; simp [nested, only] at h
  · intro t b s e
    simp only [nested, only, Root.element.injEq] at e
    rw [← e.2.1]; exact nest_plain k
  · rw [ht]; simp [tag]
  · rw [ht]; simp [tag]
  · simp [Document.pis, nested, only, Root.pis, nest_pis]
  · intro r hr
    simp only [Document.refs, ht, List.mem_append, List.mem_flatMap] at hr
    rcases hr with ⟨t, h1, h2⟩ | ⟨t, h1, h2⟩
    · simp only [List.mem_map] at h1
      obtain ⟨i, -, rfl⟩ := h1
      simp [StartTag.refs, tag] at h2
    · rw [nest_texts k t h1] at h2; simp [Text.refs] at h2
  · intro t h1
    rw [nest_texts k t h1]; decide

end Tree

open Tree in
/-- Non-vacuity of C58 and C48: `k + 1` levels of elements are accepted if and only if `k + 1 ≤ 255`. -/
example (k : Nat) (hlen : (nested k).bytes.length < 2 ^ 31) :
    Accepts 0 [.xmlDoc (some (nested k).bytes)] ↔ k + 1 ≤ 255 := by
  obtain ⟨h1, h2, h3, h4⟩ := nested_facts k
  rw [C58_partial 0 _ _ 0 (select_whole _ hlen) hlen (nested k) rfl h1 h2 h3, h4]
  constructor
  · intro h
    have := h.1 (k, tag "a") (List.mem_map.2 ⟨k, by simp, rfl⟩)
    simp only at this; omega
  · intro hk
    refine ⟨?_, ?_, ?_⟩ <;>
    · intro t ht
      simp only [List.mem_map, List.mem_range] at ht
      obtain ⟨i, hi, rfl⟩ := ht
      first
      | (simp only; omega)
      | (refine ⟨?_, nofun⟩; simp only; decide)

/-! ## C38 -/

/-- C38 in general: references with numbers are accepted if and only if the number modulo `2^32` is a
character, those with a name if and only if it is one of five. -/
theorem C38_exact (fuel : Nat) (opts : List ParserOption) (doc : List UInt8) (o : Nat) (h : SelectRest opts doc o)
    (hlen : doc.length < 2 ^ 31) (tree : Tree.Document) (hb : doc.drop o = tree.bytes) (hs : tree.Syntax) (hp : tree.Plain)
    (hf : (∀ r ∈ tree.refs, r.Accepted) → tree.Fits) :
    Accepts fuel opts ↔ ∀ r ∈ tree.refs, r.Accepted := by
  rw [C34_fits fuel opts doc o h hlen tree hb hs hp]
  exact ⟨fun h => h.refs, hf⟩

/-- The number of a reference. -/
def Tree.Reference.value : Tree.Reference → Nat
  | .entity _ => 0
  | .dec ds => Tree.number 10 Tree.decVal ds
  | .hex ds => Tree.number 16 hexVal ds

/-- C38 for numbers below `2^32`. -/
theorem C38_partial (fuel : Nat) (opts : List ParserOption) (doc : List UInt8) (o : Nat) (h : SelectRest opts doc o)
    (hlen : doc.length < 2 ^ 31) (tree : Tree.Document) (hb : doc.drop o = tree.bytes) (hs : tree.Syntax) (hp : tree.Plain)
    (hf : (∀ r ∈ tree.refs, r.Accepted) → tree.Fits) (hn : ∀ r ∈ tree.refs, r.value < 2 ^ 32) :
    Accepts fuel opts ↔ ∀ r ∈ tree.refs, r.Legal := by
  rw [C38_exact fuel opts doc o h hlen tree hb hs hp hf]
  refine forall_congr' fun r => ?_
  constructor <;>
  · intro h1 hr
    have h2 := h1 hr
    have h3 := hn r hr
    cases r with
    | entity => exact h2
    | dec ds =>
      simp only [Tree.Reference.value] at h3
      simpa only [Tree.Reference.Accepted, Tree.Reference.Legal, Nat.mod_eq_of_lt h3] using h2
    | hex ds =>
      simp only [Tree.Reference.value] at h3
      simpa only [Tree.Reference.Accepted, Tree.Reference.Legal, Nat.mod_eq_of_lt h3] using h2

namespace Tree

/-- `<a b="…">…</a>` with the same reference in the value and in the text. -/
def refDoc (r : Reference) : Document :=
  only (.element ⟨bytes "a", [⟨bytes " ", bytes "b", [], [], ch% '"', [.ref r]⟩], []⟩ (.text [.ref r]) [])

theorem refDoc_facts (r : Reference) (h : r.Syntax) (hl : r.bytes.length ≤ maxLen) : (refDoc r).Syntax ∧ (refDoc r).Plain ∧
    (refDoc r).refs = [r, r] ∧ ((∀ x ∈ (refDoc r).refs, x.Accepted) → (refDoc r).Fits) := by
  have hb : ∀ b ∈ r.bytes, b ≠ ch% ']' := Reference.no_bracket h
  have key : ∀ b s, ¬ (ch% ']' :: b :: s) <:+: (Text.bytes [.ref r] : List UInt8) := by
    rintro b s ⟨u, v, e⟩
    have : ch% ']' ∈ (Text.bytes [.ref r] : List UInt8) := by rw [← e]; simp
    simp only [Text.bytes_cons, Text.bytes_nil, Piece.bytes, List.append_nil] at this
    exact hb _ this rfl
  have hr : (refDoc r).refs = [r, r] := rfl
  have ht : (refDoc r).tags = [(0, ⟨bytes "a", [⟨bytes " ", bytes "b", [], [], ch% '"', [.ref r]⟩], []⟩)] := rfl
  refine ⟨⟨nofun, nofun, ⟨nofun, nofun⟩, ⟨⟨⟨ch% 'a', [], rfl, by decide, nofun⟩, ?_, nofun⟩, ⟨?_, key _ _⟩, nofun⟩, nofun⟩, ⟨?_, ?_⟩, hr, ?_⟩
  · simp only [List.mem_singleton, forall_eq]
    refine ⟨⟨by simp only; decide, ?_, nofun, nofun⟩, ⟨ch% 'b', [], rfl, by decide, nofun⟩, Or.inl rfl, ?_⟩
    · simp only [AllWs]; decide
    · simp only [List.mem_singleton, forall_eq]
      exact ⟨h, nofun⟩
  · simp only [List.mem_singleton, forall_eq]; exact h
  · intro m ms t x _ e; simp [refDoc, only] at e
  · intro t b s e
    simp only [refDoc, only, Root.element.injEq] at e
    rw [← e.2.1]
    exact fun h => absurd h (by decide)
  · intro ha
    refine ⟨?_, ?_, ?_, ?_, ?_, nofun, ha, ?_, nofun⟩
    · rw [ht]; simp
    · rw [ht]; simp only [List.mem_singleton, forall_eq]; decide
    · rw [ht]; simp only [List.mem_singleton, forall_eq]; decide
    · rw [ht]; simp
    · rw [ht]; simp only [List.mem_singleton, forall_eq, Text.bytes_cons, Text.bytes_nil, Piece.bytes, List.append_nil]; exact hl
    · show ∀ t ∈ [[Piece.ref r]], _
      simp only [List.mem_singleton, forall_eq]
      exact key _ _

end Tree

open Tree in
/-- C38_exact for every reference: this document is accepted if and only if the reference is. -/
example (r : Reference) (h : r.Syntax) (hl : r.bytes.length ≤ maxLen) :
    Accepts 0 [.xmlDoc (some (refDoc r).bytes)] ↔ r.Accepted := by
  obtain ⟨h1, h2, h3, h4⟩ := refDoc_facts r h hl
  have hlen : (refDoc r).bytes.length < 2 ^ 31 := by
    have : (refDoc r).bytes.length = 2 * r.bytes.length + 12 := by
      simp only [refDoc, only, Document.bytes, Document.declBytes, Root.bytes, StartTag.bytes, Attr.bytes, Content.bytes, Text.bytes_cons,
        Text.bytes_nil, Piece.bytes, Option.map_none, Option.getD_none, List.flatMap_nil, List.flatMap_cons, List.length_append,
        List.length_cons, List.length_nil]
      have : (bytes "a").length = 1 ∧ (bytes "b").length = 1 ∧ (bytes " ").length = 1 := by decide
      omega
    simp only [maxLen] at hl
    omega
  rw [C38_exact 0 _ _ 0 (select_whole _ hlen) hlen (refDoc r) rfl h1 h2 h4, h3]
  simp

open Tree in
/-- C38 is false: the number of `&#4294967361;` is not a character, and it is accepted (as `A`). -/
theorem C38_refuted : (Reference.dec (bytes "4294967361")).Syntax ∧ ¬ (Reference.dec (bytes "4294967361")).Legal ∧
    accepts (refDoc (.dec (bytes "4294967361"))).bytes = true := by
  refine ⟨⟨by decide, by decide⟩, ?_, by decide +kernel⟩
  simp only [Reference.Legal]
  decide +kernel

/-! ## C40 -/

/-- C40 in general: of comments and processing instructions after the root element only processing
instructions with data are accepted. -/
theorem C40_exact (fuel : Nat) (opts : List ParserOption) (doc : List UInt8) (o : Nat) (h : SelectRest opts doc o)
    (hlen : doc.length < 2 ^ 31) (tree : Tree.Document) (hb : doc.drop o = tree.bytes) (hs : tree.Syntax) (hp : tree.Plain)
    (hf : (∀ m ∈ tree.epilog, ∃ t x, m.atom = .pi t (some x)) → tree.Fits) :
    Accepts fuel opts ↔ ∀ m ∈ tree.epilog, ∃ t x, m.atom = .pi t (some x) := by
  rw [C34_fits fuel opts doc o h hlen tree hb hs hp]
  exact ⟨fun h => h.epilog, hf⟩

namespace Tree

/-- `<a/>` and one comment or processing instruction. -/
def after (m : Misc) : Document := { only (.empty (tag "a")) with epilog := [m] }

theorem after_facts (m : Misc) (h : m.WellFormed) (hl : ∀ x ∈ m.atom.pis, x.1.length ≤ maxLen ∧ ∀ s data, x.2 = some (s, data) → data.length ≤ maxLen) :
    (after m).Syntax ∧ (after m).Plain ∧
      ((∀ m' ∈ (after m).epilog, ∃ t x, m'.atom = .pi t (some x)) → (after m).Fits) := by
  have ht : (after m).tags = [(0, tag "a")] := rfl
  refine ⟨⟨nofun, nofun, ⟨nofun, nofun⟩, tag_syntax, fun m' hm => ?_⟩, ⟨nofun, nofun⟩, fun ha => ⟨?_, ?_, ?_, ?_, ?_, ?_, nofun, nofun, ha⟩⟩
  · obtain rfl : m' = m := by simpa [after] using hm
    exact h
  · rw [ht]; simp
  · rw [ht]; simp only [List.mem_singleton, forall_eq]; exact ⟨by decide, nofun⟩
  · rw [ht]; simp only [List.mem_singleton, forall_eq]; exact ⟨by decide, nofun⟩
  · rw [ht]; simp [tag]
  · rw [ht]; simp [tag]
  · simpa [Document.pis, after, only, Root.pis] using hl

end Tree

open Tree in
/-- Non-vacuity of C40_exact: no comment is accepted after the root element. -/
example (c : List UInt8) (h : (Atom.comment c).WellFormed) (hlen : (after ⟨[], .comment c⟩).bytes.length < 2 ^ 31) :
    ¬ Accepts 0 [.xmlDoc (some (after ⟨[], .comment c⟩).bytes)] := by
  obtain ⟨h1, h2, h3⟩ := after_facts ⟨[], .comment c⟩ ⟨nofun, Or.inl ⟨_, rfl⟩, h⟩ nofun
  rw [C40_exact 0 _ _ 0 (select_whole _ hlen) hlen _ rfl h1 h2 h3]
  intro h
  obtain ⟨t, x, e⟩ := h ⟨[], .comment c⟩ (by simp [after])
  simp at e

open Tree in
/-- Non-vacuity of C40_exact: a processing instruction with data is. -/
example : Accepts 0 [.xmlDoc (some (after ⟨[], .pi (bytes "b") (some (ch% ' ', bytes "c"))⟩).bytes)] := by
  obtain ⟨h1, h2, h3⟩ := after_facts ⟨[], .pi (bytes "b") (some (ch% ' ', bytes "c"))⟩
    ⟨nofun, Or.inr ⟨_, _, rfl⟩, by decide +kernel⟩ (by
      intro x hx
      simp only [Atom.pis, List.mem_singleton] at hx
      subst hx
      refine ⟨by simp only; decide, ?_⟩
      intro s data e
      simp only [Option.some.injEq, Prod.mk.injEq] at e
      rw [← e.2]; decide)
  refine (C40_exact 0 _ _ 0 (select_whole _ (by decide)) (by decide) _ rfl h1 h2 h3).2 ?_
  intro m hm
  obtain rfl : m = _ := by simpa [after] using hm
  exact ⟨_, _, rfl⟩

/-! ## C41 -/

/-- C41 is false of every document: with any declaration, comments and processing instructions before
`<!DOCTYPE`, and anything after it, `Parse` fails. (With a processing instruction at the very beginning it
has failed before.) -/
theorem C41_refuted_all (fuel : Nat) (opts : List ParserOption) (doc : List UInt8) (o : Nat) (h : SelectRest opts doc o)
    (decl : Option Tree.Decl) (hd : ∀ x, decl = some x → x.WellFormed) (ms : List Tree.Misc) (hm : ∀ m ∈ ms, m.WellFormed)
    (hf : ∀ m ms' t x, decl = none → ms = m :: ms' → m.atom = .pi t x → m.space ≠ [])
    (w z : List UInt8) (hw : AllWs w)
    (hb : doc.drop o = (decl.map Tree.Decl.bytes).getD [] ++ (ms.flatMap Tree.Misc.bytes ++ (w ++ (str% "<!DOCTYPE" ++ z)))) :
    ¬ Accepts fuel opts := by
  rw [accepts_iff fuel opts doc o h, hb]
  rintro ⟨-, hr⟩
  have := (Tree.start_iff (n := doc.length) hd hm hf hw (c := ch% '!') (z := str% "DOCTYPE" ++ z) (by decide)).1 (by simpa using hr)
  obtain ⟨-, recs, hr⟩ := this
  generalize hz : (ch% '!' :: (str% "DOCTYPE" ++ z) : List UInt8) = y at hr
  cases hr with
  | empty g => obtain ⟨b, s, rfl, g1⟩ := Tree.tag_start g; simp only [List.cons.injEq] at hz; exact absurd hz.1.symm (Tree.start_ne g1).2.1
  | element g => obtain ⟨b, s, rfl, g1⟩ := Tree.tag_start g; simp only [List.cons.injEq] at hz; exact absurd hz.1.symm (Tree.start_ne g1).2.1
  | comment => simp at hz
  | pi => simp at hz

/-- Non-vacuity of C41_refuted_all. -/
example : ¬ Accepts 0 [.xmlDoc (some (bytes "<!--c--> <!DOCTYPE a [<!ELEMENT a EMPTY>]><a/>"))] :=
  C41_refuted_all 0 _ _ 0 (select_whole _ (by decide)) none nofun [⟨[], .comment (bytes "c")⟩]
    (by intro m hm
        simp only [List.mem_singleton] at hm
        subst hm
        exact ⟨nofun, Or.inl ⟨_, rfl⟩, by decide +kernel⟩)
    (by intro m ms t x _ e e2
        simp only [List.cons.injEq] at e
        rw [← e.1] at e2
        simp at e2)
    (bytes " ") (bytes " a [<!ELEMENT a EMPTY>]><a/>") (by simp only [AllWs]; decide) (by decide)

/-! ## C37 -/

/-- C37 in general: a declared encoding is accepted only if it is UTF-8 in any case, or (without its last
digit) one of the names of the Windows code pages as `EncName` has them. -/
theorem C37_exact (fuel : Nat) (opts : List ParserOption) (doc : List UInt8) (o : Nat) (h : SelectRest opts doc o)
    (ha : Accepts fuel opts) (v a : Tree.DeclAttr) (hv : v.WellFormed [str% "1.0", str% "1.1"])
    (ha1 : a.space ≠ [] ∧ AllWs a.space ∧ AllWs a.space1 ∧ AllWs a.space2) (ha2 : Tree.Quote a.quote)
    (ha3 : ∀ x ∈ a.value, ¬ Tree.Quote x) (r : List UInt8)
    (hb : doc.drop o = str% "<?xml" ++ (v.bytes (str% "version") ++ (a.bytes (str% "encoding") ++ r))) :
    ∃ l, EncName a.value l := by
  rw [accepts_iff fuel opts doc o h, hb] at ha
  obtain ⟨-, recs, hd⟩ := ha
  obtain ⟨s0, w0, s1, g1, g2, g3, g4⟩ := Tree.decl_version (n := doc.length) hv (a.bytes (str% "encoding") ++ r)
  rw [g3] at hd
  have hvh : ∀ {s r recs}, Version doc.length s recs r → ∃ b t, s = b :: t ∧ ¬ Ws b := by
    intro s r recs h
    cases h with
    | mk => exact ⟨_, _, rfl, by simp only [Spec.S]; decide⟩
  generalize hz : (str% "<?xml" ++ s0 :: (w0 ++ s1) : List UInt8) = z at hd
  cases hd with
  | decl k1 k2 k3 k4 k5 =>
    simp only [List.cons_append, List.nil_append, List.cons.injEq, true_and] at hz
    obtain ⟨-, e⟩ := Tree.ws_cons hz.2.2.2.2 g2 k3 (hvh g4) (hvh k4)
    subst e
    have := Tree.version_unique g4 k4
    subst this
    simp only [List.append_assoc, List.cons_append, List.nil_append] at k5
    obtain ⟨w, t, e1, e2, e3⟩ := Tree.declRest_form k5
    simp only [Tree.DeclAttr.bytes, List.append_assoc] at e1
    obtain ⟨-, e⟩ := Tree.ws_cons e1 ha1.2.1 e2 ⟨_, _, rfl, by simp only [Spec.S]; decide⟩ e3.head
    have key : ∀ {recs r1}, Encoding doc.length t recs r1 → ∃ l, EncName a.value l := by
      intro recs r1 henc
      rw [← e] at henc
      generalize hy : (str% "encoding" ++ (a.space1 ++ (ch% '=' :: (a.space2 ++ a.quote :: (a.value ++ [a.quote])) ++ r)) : List UInt8) = y at henc
      cases henc with
      | mk f1 f2 f3 f4 f5 f6 f7 =>
        simp only [List.append_assoc, List.cons_append, List.nil_append] at hy
        simp only [List.cons.injEq, true_and] at hy
        obtain ⟨-, e⟩ := Tree.ws_cons hy ha1.2.2.1 f1 ⟨_, _, rfl, Tree.eq_not_ws⟩ ⟨_, _, rfl, Tree.eq_not_ws⟩
        simp only [List.cons.injEq, true_and] at e
        obtain ⟨-, e⟩ := Tree.ws_cons e ha1.2.2.2 f2 ⟨_, _, rfl, Tree.quote_facts ha2⟩ ⟨_, _, rfl, Tree.quote_facts f3⟩
        simp only [List.cons.injEq] at e
        obtain ⟨e, -, -⟩ := Tree.span_eq (P := fun x => ¬ Grammar.Quote x) e.2 ha3 (not_not_intro ha2) (Tree.encName_quote f4)
          (not_not_intro f5)
        rw [e]; exact ⟨_, f4⟩
    cases e3 with
    | stop => simp at e
    | enc f => exact key f
    | alone f => obtain ⟨t, e4⟩ := Tree.standalone_head f; rw [e4] at e; simp at e
    | both f => exact key f
  | plain k1 k2 =>
    simp only [List.cons_append, List.nil_append, List.cons.injEq, true_and] at hz
    rcases Tree.noDecl_cases k1 with ⟨rfl, b, t, rfl, k⟩ | ⟨t, e, k⟩
    · simp only [List.nil_append, List.cons.injEq] at hz
      exact absurd hz.1.symm k
    · rw [e] at hz
      simp only [List.cons.injEq, true_and] at hz
      exact absurd ⟨s0, _, hz.symm, g1⟩ k
  | space k1 k2 k3 =>
    obtain ⟨k4, -⟩ := Tree.ws_cons (w := []) hz nofun k2 ⟨_, _, rfl, Tree.lt_not_ws.1⟩ ⟨_, _, rfl, Tree.lt_not_ws.1⟩
    exact absurd k4.symm k1

/-- Lower case. -/
def lower (s : List UInt8) : List UInt8 := s.map fun b => if ch% 'A' ≤ b ∧ b ≤ ch% 'Z' then b + 32 else b

/-- C37 is false of every document that declares ASCII, an ISO 8859 or a Windows code page, whatever it is
written in: `Parse` fails. -/
theorem C37_refuted_all (fuel : Nat) (opts : List ParserOption) (doc : List UInt8) (o : Nat) (h : SelectRest opts doc o)
    (v a : Tree.DeclAttr) (hv : v.WellFormed [str% "1.0", str% "1.1"])
    (ha1 : a.space ≠ [] ∧ AllWs a.space ∧ AllWs a.space1 ∧ AllWs a.space2) (ha2 : Tree.Quote a.quote) (r : List UInt8)
    (ha3 : ∀ x ∈ a.value, ¬ Tree.Quote x)
    (ha : lower a.value = str% "ascii" ∨ lower a.value = str% "us-ascii" ∨ str% "iso-8859-" <+: lower a.value ∨
      (∃ d : UInt8, lower a.value = str% "windows-125" ++ [d]) ∨ ∃ d : UInt8, lower a.value = str% "cp125" ++ [d])
    (hb : doc.drop o = str% "<?xml" ++ (v.bytes (str% "version") ++ (a.bytes (str% "encoding") ++ r))) :
    ¬ Accepts fuel opts := by
  intro hacc
  obtain ⟨l, he⟩ := C37_exact fuel opts doc o h hacc v a hv ha1 ha2 ha3 r hb
  generalize a.value = e at he ha
  cases he with
  | utf8 h1 h2 h3 => rcases h1 with rfl | rfl <;> rcases h2 with rfl | rfl <;> rcases h3 with rfl | rfl <;> simp [lower] at ha
  | cp h1 h2 =>
    rcases h2 with rfl | ⟨k, h2, rfl⟩
    · rcases h1 with rfl | rfl <;> simp [lower] at ha
    · rcases h1 with rfl | rfl <;> rcases k with _ | _ | _ | _ | k <;> first | omega | simp [lower] at ha
  | win h1 h2 =>
    rcases h2 with rfl | ⟨k, h2, rfl⟩
    · rcases h1 with rfl | rfl <;> simp [lower] at ha
    · rcases h1 with rfl | rfl <;> rcases k with _ | _ | _ | _ | _ | _ | _ | _ | _ | _ | k <;> first | omega | simp [lower] at ha

/-- Non-vacuity of C37_refuted_all. -/
example : ¬ Accepts 0 [.xmlDoc (some (bytes "<?xml version='1.0' encoding='Windows-1252'?><a/>"))] :=
  C37_refuted_all 0 _ _ 0 (select_whole _ (by decide)) ⟨bytes " ", [], [], ch% '\'', bytes "1.0"⟩
    ⟨bytes " ", [], [], ch% '\'', bytes "Windows-1252"⟩ ⟨⟨by decide, by simp only [AllWs]; decide, nofun, nofun⟩, Or.inr rfl, by decide⟩
    ⟨by decide, by simp only [AllWs]; decide, nofun, nofun⟩ (Or.inr rfl) (bytes "?><a/>") (by simp only [Tree.Quote]; decide)
    (Or.inr (Or.inr (Or.inr (Or.inl ⟨ch% '2', by decide⟩)))) (by decide)

/-- Non-vacuity of C37_exact, and an accepted name that is not the name of an encoding. -/
example : ∃ l, EncName (bytes "cp125") l :=
  C37_exact 0 [.xmlDoc (some (bytes "<?xml version='1.0' encoding='cp125'?><a/>"))] _ 0 (select_whole _ (by decide))
    (Option.isSome_iff_exists.1 (by decide +kernel)) ⟨bytes " ", [], [], ch% '\'', bytes "1.0"⟩
    ⟨bytes " ", [], [], ch% '\'', bytes "cp125"⟩ ⟨⟨by decide, by simp only [AllWs]; decide, nofun, nofun⟩, Or.inr rfl, by decide⟩
    ⟨by decide, by simp only [AllWs]; decide, nofun, nofun⟩ (Or.inr rfl) (by simp only [Tree.Quote]; decide) (bytes "?><a/>") (by decide)

/-- C37, the part that holds: a document that declares UTF-8, in any case, is accepted if it fits. -/
theorem C37_partial (fuel : Nat) (opts : List ParserOption) (doc : List UInt8) (o : Nat) (h : SelectRest opts doc o)
    (hlen : doc.length < 2 ^ 31) (tree : Tree.Document) (hb : doc.drop o = tree.bytes) (hs : tree.Syntax) (hp : tree.Plain)
    (hf : tree.Fits) (x : Tree.Decl) (a : Tree.DeclAttr) (_ : tree.decl = some x) (_ : x.encoding = some a) :
    a.value ∈ Tree.utf8Names ∧ Accepts fuel opts := by
  refine ⟨((hs.decl x ‹_›).encoding a ‹_›).value, ?_⟩
  rw [C34_fits fuel opts doc o h hlen tree hb hs hp]
  exact hf

end GoVtd
