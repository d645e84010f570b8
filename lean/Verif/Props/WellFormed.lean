import Verif.Proofs.Parser.Untree
import Verif.Props.Tree

/-!
# C55: accepted documents are well-formed
-/

namespace GoVtd

open Parser Grammar

/-- C55 for documents without `&`, `]`, `?` and `!DDOCTYPE` (elements, attributes, text and comments): what
`Parse` accepts is the serialisation of a well-formed tree. The general case is false; `C32_exact` gives the
exact language. -/
theorem C55_partial (fuel : Nat) (opts : List ParserOption) (doc : List UInt8) (o : Nat) (h : SelectRest opts doc o)
    (ws : List (BitVec 64)) (hp : parsedTokens fuel opts = some ws) (hc : Tree.Clean (doc.drop o)) :
    ∃ tree : Tree.Document, tree.WellFormed ∧ tree.bytes = doc.drop o := by
  obtain ⟨_, recs, hd, _⟩ := (C32_exact fuel opts doc o h ws).1 hp
  exact Tree.Document.tree hd hc

/-- Non-vacuity: an accepted document without the special characters. -/
example : accepts (bytes " <!-- - --><a b='c' d=\"e\"> x<f><g h='i'/></f><j/>y</a >") = true ∧
    Tree.Clean (bytes " <!-- - --><a b='c' d=\"e\"> x<f><g h='i'/></f><j/>y</a >") :=
  ⟨by decide +kernel, by decide +kernel, by decide +kernel, by decide +kernel, by decide +kernel⟩

namespace Tree

/-- Every well-formed document that begins with `<?` contains `?>`. -/
theorem pi_closed {d : Document} (h : d.WellFormed) {s : List UInt8} (hb : d.bytes = ch% '<' :: ch% '?' :: s) :
    str% "?>" <:+: d.bytes := by
  have first : ∀ {w : List UInt8} {r : List UInt8}, AllWs w → w ++ r = ch% '<' :: ch% '?' :: s → w = [] := by
    intro w r hw e
    cases w with
    | nil => rfl
    | cons b w =>
      have hb := hw b (by simp)
      simp only [List.cons_append, List.cons.injEq] at e
      rw [e.1] at hb
      simp only [Spec.S] at hb
      exfalso; revert hb; decide
  cases hd : d.decl with
  | some x =>
    simp only [Document.bytes, Document.declBytes, hd, Option.map_some, Option.getD_some, Decl.bytes]
    refine ⟨str% "<?xml" ++ (x.version.bytes (str% "version") ++ (optBytes (str% "encoding") x.encoding ++
      (optBytes (str% "standalone") x.standalone ++ x.space))), d.prolog.flatMap Misc.bytes ++ (d.space ++ (d.root.bytes ++
    (d.epilog.flatMap Misc.bytes ++ d.space1))), ?_⟩
    simp only [List.append_assoc]
  | none =>
    cases hm : d.prolog with
    | nil =>
      exfalso
      simp only [Document.bytes, Document.declBytes, hd, hm, Option.map_none, Option.getD_none, List.nil_append,
        List.flatMap_nil] at hb
      have hw := first h.space.1 hb
      rw [hw, List.nil_append] at hb
      have key : ∀ (t : StartTag) r, t.WellFormed → t.bytes ++ r ≠ ch% '<' :: ch% '?' :: s := by
        intro t r ht e
        obtain ⟨b, run, hn, hs, _⟩ := ht.name
        simp only [StartTag.bytes, hn, List.cons_append, List.cons.injEq, true_and] at e
        rw [e.1] at hs
        exact close_not_name.2.2 (Or.inl hs)
      have hr := h.root
      cases hx : d.root with
      | empty t =>
        rw [hx] at hb hr
        simp only [Root.bytes, List.append_assoc] at hb
        exact key t _ hr hb
      | element t c w =>
        rw [hx] at hb hr
        simp only [Root.bytes, List.append_assoc] at hb
        exact key t _ hr.1 hb
    | cons m ms =>
      have hmw := h.prolog m (by simp [hm])
      have hbb := hb
      simp only [Document.bytes, Document.declBytes, hd, hm, Option.map_none, Option.getD_none, List.nil_append,
        List.flatMap_cons, Misc.bytes, List.append_assoc] at hb ⊢
      have hw := first hmw.space hb
      rw [hw, List.nil_append] at hb ⊢
      rcases hmw.kind with ⟨c, hk⟩ | ⟨t, x, hk⟩
      · rw [hk] at hb
        simp [Atom.bytes] at hb
      · rw [hk]
        cases x with
        | none =>
          exact ⟨str% "<?" ++ t, _, by simp only [Atom.bytes, List.append_assoc]; rfl⟩
        | some y =>
          obtain ⟨c, data⟩ := y
          exact ⟨str% "<?" ++ (t ++ c :: data), _, by simp only [Atom.bytes, List.append_assoc, List.cons_append]; rfl⟩

end Tree

/-- C55 is false: `<?a></?a>` is accepted, and is not the serialisation of a well-formed document. -/
theorem C55_refuted : accepts (bytes "<?a></?a>") = true ∧
    ∀ tree : Tree.Document, tree.WellFormed → tree.bytes ≠ bytes "<?a></?a>" := by
  refine ⟨by decide +kernel, fun tree h hb => ?_⟩
  have := Tree.pi_closed h hb
  rw [hb] at this
  exact absurd this (by decide +kernel)

end GoVtd
