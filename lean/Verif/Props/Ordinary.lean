import Verif.Proofs.Parser.OrdinaryPlain
import Verif.Props.Aware

/-!
# C55, C34 and C37 for ordinary documents

`Verif/Spec/Ordinary.lean` says which documents have none of the constructs that the parser misreads. For these,
`Parse` accepts exactly the well-formed documents that are within its limits.
-/

namespace GoVtd

open Parser Grammar

/-- An ordinary document that is accepted is the serialisation of a tree of the right syntax that is within the limits. -/
theorem C55_syntax_partial (fuel : Nat) (opts : List ParserOption) (doc : List UInt8) (o : Nat) (h : SelectRest opts doc o)
    (ha : Accepts fuel opts) (ho : Ordinary (doc.drop o)) :
    ∃ tree : Tree.Document, tree.Syntax ∧ tree.Fits ∧ tree.bytes = doc.drop o := by
  obtain ⟨hlen, recs, hd⟩ := (accepts_iff fuel opts doc o h).1 ha
  obtain ⟨tree, h1, h2⟩ := Tree.document_tree hd ho
  refine ⟨tree, h1, ?_, h2⟩
  exact (C34_fits fuel opts doc o h hlen tree h2.symm h1 (Tree.Document.plain_of h1 (h2 ▸ ho))).1 ha

/-- C55 for ordinary documents in which the numbers of references are short: what is accepted is well-formed. -/
theorem C55_ordinary_partial (fuel : Nat) (opts : List ParserOption) (doc : List UInt8) (o : Nat) (h : SelectRest opts doc o)
    (ha : Accepts fuel opts) (ho : Ordinary (doc.drop o)) (hr : ShortRefs (doc.drop o)) :
    ∃ tree : Tree.Document, tree.WellFormed ∧ tree.bytes = doc.drop o := by
  obtain ⟨tree, h1, h2, h3⟩ := C55_syntax_partial fuel opts doc o h ha ho
  exact ⟨tree, Tree.Document.wellFormed_of h1 h2 (h3 ▸ hr), h3⟩

/-- C55 and C34 together: an ordinary document in which the numbers of references are short is accepted if and only if it is
well-formed and within the limits. -/
theorem C55_iff_partial (fuel : Nat) (opts : List ParserOption) (doc : List UInt8) (o : Nat) (h : SelectRest opts doc o)
    (hlen : doc.length < 2 ^ 31) (ho : Ordinary (doc.drop o)) (hr : ShortRefs (doc.drop o)) :
    Accepts fuel opts ↔ ∃ tree : Tree.Document, tree.WellFormed ∧ tree.Fits ∧ tree.bytes = doc.drop o := by
  constructor
  · intro ha
    obtain ⟨tree, h1, h2, h3⟩ := C55_syntax_partial fuel opts doc o h ha ho
    exact ⟨tree, Tree.Document.wellFormed_of h1 h2 (h3 ▸ hr), h2, h3⟩
  · rintro ⟨tree, h1, h2, h3⟩
    have hs := ((Tree.Document.wellFormed_iff tree).1 h1).1
    exact (C34_fits fuel opts doc o h hlen tree h3.symm hs (Tree.Document.plain_of hs (h3 ▸ ho))).2 h2

/-! ## Non-vacuity -/

/-- What `Ordinary` asks of the bytes from some place on. -/
def ordinaryAt (t : List UInt8) : Bool :=
  (match t with
    | 0x3C :: 0x2F :: r =>
      match (r.dropWhile fun b => decide (NameByte b)).dropWhile fun b => decide (Ws b) with
      | 0x3E :: r => (match r.dropWhile fun b => decide (Ws b) with | b :: _ => b != 0x26 && b != 0x5D | [] => true)
      | _ => true
    | _ => true) &&
  (!(str% "<![CDATA[" : List UInt8).isPrefixOf t ||
    (List.range t.length).all fun k => !(str% "]>" : List UInt8).isPrefixOf ((t.drop 9).drop k) ||
      decide (Tree.HasPair (ch% ']') (ch% '>') ((t.drop 9).take k)) || ((t.drop 9).take k).getLast? == some 0x5D) &&
  !(str% "<!DDOCTYPE" : List UInt8).isPrefixOf t &&
  (match t with
    | 0x3C :: 0x3F :: x :: m :: l :: y :: _ =>
      !((x == 0x78 || x == 0x58) && (m == 0x6D || m == 0x4D) && (l == 0x6C || l == 0x4C)) ||
        decide (NameByte y) || decide (Ws y) || y == 0x3F
    | _ => true) &&
  match t with
    | 0x3C :: 0x3F :: r =>
      (match r.dropWhile fun b => decide (NameByte b) with | 0x3F :: y :: _ => y == 0x3E | _ => true)
    | _ => true

theorem dropWhile_span {P : UInt8 → Prop} [DecidablePred P] {u v : List UInt8} {b : UInt8} (hu : ∀ x ∈ u, P x) (hb : ¬ P b) :
    (u ++ b :: v).dropWhile (fun x => decide (P x)) = b :: v := by
  induction u with
  | nil => simp [hb]
  | cons x u ih =>
    rw [List.cons_append, List.dropWhile_cons_of_pos (by simpa using hu x (by simp))]
    exact ih fun y hy => hu y (by simp [hy])

theorem ordinary_of {s : List UInt8} (hd : str% "<?" <+: s → ∃ d : Tree.Decl, d.WellFormed ∧ d.bytes <+: s)
    (hs : ((List.range (s.length + 1)).all fun k => ordinaryAt (s.drop k)) = true) : Ordinary s := by
  have key : ∀ {p : List UInt8}, p <:+: s → ∃ r, ordinaryAt (p ++ r) = true := by
    rintro p ⟨u, v, rfl⟩
    rw [List.all_eq_true] at hs
    have := hs u.length (by simp; omega)
    exact ⟨v, by simpa [List.append_assoc, List.drop_left'] using this⟩
  refine ⟨hd, ?_, ?_, ?_, ?_, ?_⟩
  · intro name w w' b h1 h2 h3 h4 h5
    obtain ⟨r, h⟩ := key h5
    have hn : ¬ NameByte (ch% '>') := Tree.close_not_name.1
    have hw : ¬ Ws (ch% '>') := by simp only [Spec.S]; decide
    have e1 : ((name ++ (w ++ ch% '>' :: (w' ++ b :: r))).dropWhile fun b => decide (NameByte b)).dropWhile (fun b => decide (Ws b)) =
        ch% '>' :: (w' ++ b :: r) := by
      cases w with
      | nil =>
        rw [List.nil_append, dropWhile_span h1 hn]
        exact dropWhile_span (P := Ws) (u := []) (fun x hx => by cases hx) hw
      | cons x w =>
        rw [List.cons_append, dropWhile_span h1 (Tree.ws_not_name (h2 x (by simp))), ← List.cons_append, dropWhile_span h2 hw]
    have hb : ¬ Ws b := by
      rcases h4 with rfl | rfl <;> (simp only [Spec.S]; decide)
    simp only [ordinaryAt, List.append_assoc, List.cons_append, List.nil_append, Bool.and_eq_true] at h
    have h := h.1.1.1.1
    rw [e1] at h
    simp only [dropWhile_span h3 hb, Bool.and_eq_true, bne_iff_ne, ne_eq] at h
    rcases h4 with h4 | h4
    · exact h.1 h4
    · exact h.2 h4
  · intro u h1 h2
    obtain ⟨r, h⟩ := key h1
    simp only [ordinaryAt, Bool.and_eq_true] at h
    have h := h.1.1.1.2
    have e1 : (str% "<![CDATA[" : List UInt8).isPrefixOf (str% "<![CDATA[" ++ (u ++ str% "]>") ++ r) = true := by
      rw [List.isPrefixOf_iff_prefix]; exact ⟨_, by rw [List.append_assoc]⟩
    have e2 : (str% "<![CDATA[" ++ (u ++ str% "]>") ++ r).drop 9 = u ++ (str% "]>" ++ r) := by simp
    rw [e1, e2, Bool.not_true, Bool.false_or, List.all_eq_true] at h
    have h := h u.length (by simp; omega)
    rw [List.drop_left, List.take_left] at h
    have e3 : (str% "]>" : List UInt8).isPrefixOf (str% "]>" ++ r) = true := by
      rw [List.isPrefixOf_iff_prefix]; exact ⟨_, rfl⟩
    simp only [e3, h2, decide_false, Bool.not_true, Bool.false_or, beq_iff_eq] at h
    obtain ⟨v, hv⟩ := List.getLast?_eq_some_iff.1 h
    exact ⟨v, hv⟩
  · intro h1
    obtain ⟨r, h⟩ := key h1
    simp only [ordinaryAt, Bool.and_eq_true] at h
    have h := h.1.1.2
    have e1 : (str% "<!DDOCTYPE" : List UInt8).isPrefixOf (str% "<!DDOCTYPE" ++ r) = true := by
      rw [List.isPrefixOf_iff_prefix]; exact ⟨_, rfl⟩
    rw [e1] at h
    exact absurd h (by decide)
  · rintro x m l y ⟨x', m', l', _, e, h1, h2, h3⟩ h4
    obtain ⟨r, h⟩ := key h4
    simp only [List.cons.injEq] at e
    obtain ⟨rfl, rfl, rfl, -⟩ := e
    simp only [ordinaryAt, List.append_assoc, List.cons_append, List.nil_append, Bool.and_eq_true] at h
    have h := h.1.2
    simp only [Bool.or_eq_true, decide_eq_true_eq, beq_iff_eq, Bool.not_eq_true', Bool.and_eq_false_iff, Bool.or_eq_false_iff,
      beq_eq_false_iff_ne] at h
    rcases h with ((h | h) | h) | h
    · exfalso; grind
    · exact Or.inl h
    · exact Or.inr (Or.inl h)
    · exact Or.inr (Or.inr h)
  · intro name y hn h1
    obtain ⟨r, h⟩ := key h1
    simp only [ordinaryAt, List.append_assoc, List.cons_append, List.nil_append, Bool.and_eq_true] at h
    have h := h.2
    rw [dropWhile_span (Tree.Name.all hn) Tree.close_not_name.2.2] at h
    simpa using h

/-- A document with an XML declaration, references, brackets, a processing instruction and a CDATA section. -/
def ordinaryDoc : List UInt8 :=
  bytes "<?xml version='1.0'?><!--c--><a b='&lt;&#x10FFFF;'>x&amp;]<?p q?><c>]&#65;</c> y]<![CDATA[&<]]]></a><?p ?>"

theorem ordinaryDoc_ordinary : Ordinary ordinaryDoc :=
  ordinary_of (fun _ => ⟨⟨⟨bytes " ", [], [], ch% '\'', bytes "1.0"⟩, none, none, []⟩, by
    refine ⟨⟨⟨by decide, by decide, nofun, nofun⟩, Or.inr rfl, by decide⟩, nofun, nofun, nofun⟩, by decide +kernel⟩) (by decide +kernel)

example : Accepts 0 [.xmlDoc (some ordinaryDoc)] ∧ Ordinary ordinaryDoc ∧ ShortRefs ordinaryDoc := by
  refine ⟨?_, ordinaryDoc_ordinary, shortRefsB_iff _ (by decide +kernel)⟩
  have : accepts ordinaryDoc = true := by decide +kernel
  exact Option.isSome_iff_exists.1 this

/-- C55_iff_partial at this document. -/
example : ∃ tree : Tree.Document, tree.WellFormed ∧ tree.Fits ∧ tree.bytes = ordinaryDoc :=
  (C55_iff_partial 0 _ ordinaryDoc 0 (select_whole _ (by decide)) (by decide) ordinaryDoc_ordinary
    (shortRefsB_iff _ (by decide +kernel))).1 (Option.isSome_iff_exists.1 (by decide +kernel : accepts ordinaryDoc = true))

end GoVtd
