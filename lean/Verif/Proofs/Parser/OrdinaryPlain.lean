import Verif.Proofs.Parser.Ordinary
import Verif.Props.Limits
import Verif.Spec.Refs

/-!
# Trees of ordinary documents are plain, and short references are legal if they are accepted
-/

namespace GoVtd
namespace Tree

open Grammar

/-! ## Constructs that are misread -/

/-- What stands before a content: anything, or an end tag. -/
def EndsTag (e : Bool) (lead : List UInt8) : Prop :=
  e = true → ∃ u name w, AllName name ∧ AllWs w ∧ lead = u ++ (str% "</" ++ (name ++ (w ++ [ch% '>'])))

theorem first_of {e : Bool} {lead : List UInt8} {t : Text} {r : List UInt8} (hc : Core (lead ++ (t.bytes ++ r)))
    (he : EndsTag e lead) : e = true → Content.Plain.First t := by
  intro h w b r' hb hw _
  obtain ⟨u, name, w', h1, h2, rfl⟩ := he h
  refine Classical.byContradiction fun hn => ?_
  refine hc.after name w' w b h1 h2 hw (by grind) ⟨u, r' ++ r, ?_⟩
  rw [hb]
  simp

/-- Every pair has a first one. -/
theorem first_pair {a b : UInt8} {s : List UInt8} (h : HasPair a b s) :
    ∃ u v, s = u ++ a :: b :: v ∧ ¬ HasPair a b u := by
  induction s with
  | nil => exact absurd h pair_nil
  | cons x s ih =>
    rcases pair_cons.1 h with ⟨rfl, h1⟩ | h1
    · cases s with
      | nil => simp at h1
      | cons y s =>
        simp only [List.head?_cons, Option.some.injEq] at h1
        subst h1
        exact ⟨[], s, rfl, pair_nil⟩
    · by_cases hx : x = a ∧ s.head? = some b
      · cases s with
        | nil => simp at hx
        | cons y s =>
          simp only [List.head?_cons, Option.some.injEq] at hx
          obtain ⟨rfl, rfl⟩ := hx
          exact ⟨[], s, rfl, pair_nil⟩
      · obtain ⟨u, v, rfl, h2⟩ := ih h1
        refine ⟨x :: u, v, rfl, fun h3 => ?_⟩
        rcases pair_cons.1 h3 with ⟨h4, h5⟩ | h4
        · refine hx ⟨h4, ?_⟩
          cases u with
          | nil => simp at h5
          | cons => simpa using h5
        · exact h2 h4

theorem cdata_plain {pre data r : List UInt8} (hc : Core (pre ++ (str% "<![CDATA[" ++ (data ++ r)))) (hn : ¬ str% "]]>" <:+: data) :
    ¬ HasPair (ch% ']') (ch% '>') data := by
  intro h
  obtain ⟨u, v, rfl, h1⟩ := first_pair h
  obtain ⟨x, rfl⟩ := hc.cdata u ⟨pre, v ++ r, by simp⟩ h1
  exact hn ⟨x, v, by simp⟩

theorem Content.plain_of {c : Content} : ∀ {e : Bool} {lead : List UInt8} (r : List UInt8), c.Syntax →
    Core (lead ++ (c.bytes ++ r)) → EndsTag e lead → c.Plain e := by
  induction c with
  | text t => exact fun r hs hc he => first_of hc he
  | atom t a rest ih =>
    intro e lead r hs hc he
    refine ⟨first_of (r := a.bytes ++ (rest.bytes ++ r)) (by simpa [Content.bytes] using hc) he, ?_, ?_⟩
    · rintro data rfl
      refine cdata_plain (pre := lead ++ t.bytes) (r := str% "]]>" ++ (rest.bytes ++ r))
        (by simpa [Content.bytes, Atom.bytes] using hc) hs.2.1.2
    · exact ih (lead := lead ++ (t.bytes ++ a.bytes)) r hs.2.2 (by simpa [Content.bytes] using hc) nofun
  | element t tag body space rest ih1 ih2 =>
    intro e lead r hs hc he
    obtain ⟨s1, s2, s3, s4, s5⟩ := hs
    refine ⟨first_of (r := tag.bytes ++ ch% '>' :: (body.bytes ++
      (ch% '<' :: ch% '/' :: (tag.name ++ (space ++ ch% '>' :: (rest.bytes ++ r)))))) (by simpa [Content.bytes] using hc) he, ?_, ?_⟩
    · exact ih1 (lead := lead ++ (t.bytes ++ (tag.bytes ++ [ch% '>'])))
        (ch% '<' :: ch% '/' :: (tag.name ++ (space ++ ch% '>' :: (rest.bytes ++ r)))) s3 (by simpa [Content.bytes] using hc) nofun
    · refine ih2 (lead := lead ++ (t.bytes ++ (tag.bytes ++ ch% '>' :: (body.bytes ++
        (ch% '<' :: ch% '/' :: (tag.name ++ (space ++ [ch% '>']))))))) r s5 (by simpa [Content.bytes] using hc) fun _ => ?_
      exact ⟨lead ++ (t.bytes ++ (tag.bytes ++ ch% '>' :: body.bytes)), tag.name, space, Name.all s2.name, s4, by simp⟩

theorem Document.plain_of {d : Document} (hs : d.Syntax) (ho : Ordinary d.bytes) : d.Plain := by
  have hc := ordinary_core ho
  refine ⟨?_, ?_⟩
  · intro m ms t x h1 h2 h3 h4
    have hm := hs.prolog m (by simp [h2])
    have hw := hm.atom
    rw [h3] at hw
    obtain ⟨w1, w2, w3⟩ := hw
    have : ∃ r b, d.bytes = str% "<?" ++ (t ++ b :: r) ∧ ¬ NameByte b := by
      cases x with
      | none =>
        refine ⟨ch% '>' :: (ms.flatMap Misc.bytes ++ (d.space ++ (d.root.bytes ++ (d.epilog.flatMap Misc.bytes ++ d.space1)))), ch% '?',
          ?_, by simp only [Spec.NameChar]; decide⟩
        simp [Document.bytes, Document.declBytes, h1, h2, Misc.bytes, h3, h4, Atom.bytes]
      | some x =>
        obtain ⟨b, data⟩ := x
        refine ⟨data ++ (str% "?>" ++ (ms.flatMap Misc.bytes ++ (d.space ++ (d.root.bytes ++ (d.epilog.flatMap Misc.bytes ++ d.space1))))), b,
          ?_, ?_⟩
        · simp [Document.bytes, Document.declBytes, h1, h2, Misc.bytes, h3, h4, Atom.bytes]
        · exact ws_not_name (w3 b data rfl).1
    obtain ⟨r, b, e, hb⟩ := this
    obtain ⟨x, hx, t', e'⟩ := ho.decl ⟨_, e.symm⟩
    rw [e, Decl.bytes] at e'
    obtain ⟨c, v, hv, hc⟩ : ∃ c v, x.version.space = c :: v ∧ Ws c := by
      have := hx.version.space
      cases hv : x.version.space with
      | nil => exact absurd hv this.1
      | cons c v => exact ⟨c, v, rfl, this.2.1 c (by simp [hv])⟩
    simp only [DeclAttr.bytes, hv, List.append_assoc, List.cons_append, List.nil_append, List.cons.injEq, true_and] at e'
    have e'' := name_eq (s := str% "xml") (s' := t) e' (by simp only [AllName]; decide +kernel) (Name.all w1) ⟨c, _, rfl, ws_not_name hc⟩ ⟨b, _, rfl, hb⟩
    exact w2 (e''.1 ▸ ⟨rfl, _, _, _, _, rfl, Or.inl rfl, Or.inl rfl, Or.inl rfl⟩)
  · intro tag body space hr
    have hroot := hs.root
    rw [hr] at hroot
    refine Content.plain_of (e := false) (lead := d.declBytes ++ (d.prolog.flatMap Misc.bytes ++ (d.space ++ (tag.bytes ++ [ch% '>']))))
      (ch% '<' :: ch% '/' :: (tag.name ++ (space ++ ch% '>' :: (d.epilog.flatMap Misc.bytes ++ d.space1)))) hroot.2.1 ?_ nofun
    have : Core d.bytes := hc
    simpa [Document.bytes, hr, Root.bytes] using this

/-! ## References -/

theorem number_lt {base : Nat} {val : UInt8 → Option Nat} (hv : ∀ b d, val b = some d → d < base) (hb : 0 < base) (ds : List UInt8) :
    number base val ds < base ^ ds.length := by
  have key : ∀ (ds : List UInt8) v, ds.foldl (fun v b => v * base + (val b).getD 0) v < (v + 1) * base ^ ds.length := by
    intro ds
    induction ds with
    | nil => intro v; simp
    | cons b ds ih =>
      intro v
      refine Nat.lt_of_lt_of_le (ih _) ?_
      have : (val b).getD 0 + 1 ≤ base := by
        cases h : val b with
        | none => simp only [Option.getD_none]; omega
        | some d => exact hv b d h
      rw [List.length_cons, Nat.pow_succ, Nat.mul_comm (base ^ ds.length), ← Nat.mul_assoc]
      refine Nat.mul_le_mul_right _ ?_
      show v * base + (val b).getD 0 + 1 ≤ _
      rw [Nat.add_mul]; omega
  simpa [number] using key ds 0

theorem Text.ref_infix {t : Text} {r : Reference} (h : r ∈ t.refs) : r.bytes <:+: t.bytes := by
  obtain ⟨u, v, rfl⟩ := List.append_of_mem (Text.mem_refs.1 h)
  exact ⟨Text.bytes u, Text.bytes v, by simp [Text.bytes, Piece.bytes]⟩

theorem flatMap_infix {α : Type} {f : α → List UInt8} {l : List α} {x : α} (h : x ∈ l) : f x <:+: l.flatMap f := by
  obtain ⟨u, v, rfl⟩ := List.append_of_mem h
  exact ⟨u.flatMap f, v.flatMap f, by simp⟩

theorem StartTag.ref_infix {t : StartTag} {r : Reference} (h : r ∈ t.refs) : r.bytes <:+: t.bytes := by
  simp only [StartTag.refs, List.mem_flatMap] at h
  obtain ⟨a, h1, h2⟩ := h
  have h3 : a.value.bytes <:+: a.bytes :=
    ⟨a.space ++ (a.name ++ (a.space1 ++ ch% '=' :: (a.space2 ++ [a.quote]))), [a.quote], by simp [Attr.bytes]⟩
  have h4 : t.attrs.flatMap Attr.bytes <:+: t.bytes := ⟨ch% '<' :: t.name, t.space, by simp [StartTag.bytes]⟩
  exact (Text.ref_infix h2).trans (h3.trans ((flatMap_infix h1).trans h4))

theorem Content.parts_infix (c : Content) : ∀ k, (∀ t ∈ c.tags k, t.2.bytes <:+: c.bytes) ∧ ∀ t ∈ c.texts, t.bytes <:+: c.bytes := by
  induction c with
  | text t => intro k; simp [Content.tags, Content.texts, Content.bytes]
  | atom t a rest ih =>
    intro k
    have h0 : t.bytes <:+: (Content.atom t a rest).bytes := ⟨[], a.bytes ++ rest.bytes, by simp [Content.bytes]⟩
    have h1 : a.bytes <:+: (Content.atom t a rest).bytes := ⟨t.bytes, rest.bytes, by simp [Content.bytes]⟩
    have h2 : rest.bytes <:+: (Content.atom t a rest).bytes := ⟨t.bytes ++ a.bytes, [], by simp [Content.bytes]⟩
    refine ⟨fun x hx => ?_, fun x hx => ?_⟩
    · rcases List.mem_append.1 hx with hx | hx
      · cases a with
        | empty tag =>
          simp only [Atom.tags, List.mem_singleton] at hx
          subst hx
          exact List.IsInfix.trans ⟨[], str% "/>", by simp [Atom.bytes]⟩ h1
        | _ => simp [Atom.tags] at hx
      · exact ((ih k).1 x hx).trans h2
    · rcases List.mem_cons.1 hx with rfl | hx
      · exact h0
      · exact ((ih k).2 x hx).trans h2
  | element t tag body space rest ih1 ih2 =>
    intro k
    have h0 : t.bytes <:+: (Content.element t tag body space rest).bytes := ⟨[], _, by rw [List.nil_append, Content.bytes]⟩
    have h1 : tag.bytes <:+: (Content.element t tag body space rest).bytes := ⟨t.bytes, _, by rw [Content.bytes, List.append_assoc]⟩
    have h2 : body.bytes <:+: (Content.element t tag body space rest).bytes :=
      ⟨t.bytes ++ (tag.bytes ++ [ch% '>']), ch% '<' :: ch% '/' :: (tag.name ++ (space ++ ch% '>' :: rest.bytes)), by simp [Content.bytes]⟩
    have h3 : rest.bytes <:+: (Content.element t tag body space rest).bytes :=
      ⟨t.bytes ++ (tag.bytes ++ ch% '>' :: (body.bytes ++ (ch% '<' :: ch% '/' :: (tag.name ++ (space ++ [ch% '>']))))), [],
        by simp [Content.bytes]⟩
    refine ⟨fun x hx => ?_, fun x hx => ?_⟩
    · rcases List.mem_cons.1 hx with rfl | hx
      · exact h1
      · rcases List.mem_append.1 hx with hx | hx
        · exact ((ih1 _).1 x hx).trans h2
        · exact ((ih2 _).1 x hx).trans h3
    · rcases List.mem_cons.1 hx with rfl | hx
      · exact h0
      · rcases List.mem_append.1 hx with hx | hx
        · exact ((ih1 0).2 x hx).trans h2
        · exact ((ih2 0).2 x hx).trans h3

theorem Document.ref_infix {d : Document} {r : Reference} (h : r ∈ d.refs) : r.bytes <:+: d.bytes := by
  have hroot : d.root.bytes <:+: d.bytes :=
    ⟨d.declBytes ++ (d.prolog.flatMap Misc.bytes ++ d.space), d.epilog.flatMap Misc.bytes ++ d.space1, by simp [Document.bytes]⟩
  have key : (∀ t ∈ d.root.tags, t.2.bytes <:+: d.root.bytes) ∧ ∀ t ∈ d.root.texts, t.bytes <:+: d.root.bytes := by
    cases d.root with
    | empty tag =>
      simp only [Root.tags, Root.texts, List.mem_singleton, forall_eq, List.not_mem_nil, false_imp_iff, implies_true, and_true]
      exact ⟨[], str% "/>", by simp [Root.bytes]⟩
    | element tag body space =>
      have h1 : tag.bytes <:+: (Root.element tag body space).bytes := ⟨[], _, by rw [List.nil_append, Root.bytes]⟩
      have h2 : body.bytes <:+: (Root.element tag body space).bytes :=
        ⟨tag.bytes ++ [ch% '>'], ch% '<' :: ch% '/' :: (tag.name ++ (space ++ [ch% '>'])), by simp [Root.bytes]⟩
      refine ⟨fun x hx => ?_, fun x hx => ((body.parts_infix 1).2 x hx).trans h2⟩
      rcases List.mem_cons.1 hx with rfl | hx
      · exact h1
      · exact ((body.parts_infix 1).1 x hx).trans h2
  simp only [Document.refs, Document.tags, Document.texts, List.mem_append, List.mem_flatMap] at h
  rcases h with ⟨t, h1, h2⟩ | ⟨t, h1, h2⟩
  · exact (StartTag.ref_infix h2).trans ((key.1 t h1).trans hroot)
  · exact (Text.ref_infix h2).trans ((key.2 t h1).trans hroot)

theorem Text.ref_syntax {t : Text} (h : ∀ p ∈ t, p.Syntax) {r : Reference} (hr : r ∈ t.refs) : r.Syntax :=
  h _ (Text.mem_refs.1 hr)

theorem StartTag.ref_syntax {t : StartTag} (h : t.Syntax) {r : Reference} (hr : r ∈ t.refs) : r.Syntax := by
  simp only [StartTag.refs, List.mem_flatMap] at hr
  obtain ⟨a, h1, h2⟩ := hr
  exact Text.ref_syntax (fun p hp => ((h.attrs a h1).value p hp).1) h2

theorem Content.parts_syntax (c : Content) : ∀ k, c.Syntax → (∀ t ∈ c.tags k, t.2.Syntax) ∧ ∀ t ∈ c.texts, t.Syntax := by
  induction c with
  | text t =>
    intro k h
    have h : t.Syntax := h
    simpa [Content.tags, Content.texts] using h
  | atom t a rest ih =>
    intro k ⟨h1, h2, h3⟩
    refine ⟨fun x hx => ?_, fun x hx => ?_⟩
    · rcases List.mem_append.1 hx with hx | hx
      · cases a with
        | empty tag =>
          simp only [Atom.tags, List.mem_singleton] at hx
          subst hx
          exact h2
        | _ => simp [Atom.tags] at hx
      · exact (ih k h3).1 x hx
    · rcases List.mem_cons.1 hx with rfl | hx
      · exact h1
      · exact (ih k h3).2 x hx
  | element t tag body space rest ih1 ih2 =>
    intro k ⟨h1, h2, h3, h4, h5⟩
    refine ⟨fun x hx => ?_, fun x hx => ?_⟩
    · rcases List.mem_cons.1 hx with rfl | hx
      · exact h2
      · rcases List.mem_append.1 hx with hx | hx
        · exact (ih1 _ h3).1 x hx
        · exact (ih2 _ h5).1 x hx
    · rcases List.mem_cons.1 hx with rfl | hx
      · exact h1
      · rcases List.mem_append.1 hx with hx | hx
        · exact (ih1 0 h3).2 x hx
        · exact (ih2 0 h5).2 x hx

theorem Document.ref_syntax {d : Document} (hs : d.Syntax) {r : Reference} (h : r ∈ d.refs) : r.Syntax := by
  have key : ∀ root : Root, root.Syntax → (∀ t ∈ root.tags, t.2.Syntax) ∧ ∀ t ∈ root.texts, t.Syntax := by
    intro root hr
    cases root with
    | empty tag =>
      have hr : tag.Syntax := hr
      simpa [Root.tags, Root.texts] using hr
    | element tag body space =>
      refine ⟨fun x hx => ?_, (body.parts_syntax 1 hr.2.1).2⟩
      rcases List.mem_cons.1 hx with rfl | hx
      · exact hr.1
      · exact (body.parts_syntax 1 hr.2.1).1 x hx
  obtain ⟨k1, k2⟩ := key d.root hs.root
  simp only [Document.refs, Document.tags, Document.texts, List.mem_append, List.mem_flatMap] at h
  rcases h with ⟨t, h1, h2⟩ | ⟨t, h1, h2⟩
  · exact StartTag.ref_syntax (k1 t h1) h2
  · exact Text.ref_syntax (k2 t h1).1 h2

theorem takeWhile_length {p : UInt8 → Bool} {u v : List UInt8} {x : UInt8} (hu : ∀ b ∈ u, p b = true) (hx : p x = false) :
    ((u ++ x :: v).takeWhile p).length = u.length := by
  induction u with
  | nil => simp [hx]
  | cons b u ih => simp [hu b (by simp), ih fun y hy => hu y (by simp [hy])]

theorem Reference.value_lt {s : List UInt8} (hs : ShortRefs s) {r : Reference} (hr : r.Syntax) (hi : r.bytes <:+: s) :
    r.value < 2 ^ 32 := by
  obtain ⟨u, v, e⟩ := hi
  cases r with
  | entity => simp [Reference.value]
  | dec ds =>
    have h := hs u (ds ++ ch% ';' :: v) (by rw [← e]; simp [Reference.bytes])
    rw [takeWhile_length (fun b hb => ?_) (by decide)] at h
    · refine Nat.lt_of_lt_of_le (number_lt (base := 10) ?_ (by decide) ds)
        (Nat.le_trans (Nat.pow_le_pow_right (by decide) h) (by decide))
      intro b d hd
      simp only [decVal] at hd
      split at hd
      · rename_i hb
        have h2 : b.toNat ≤ 57 := hb.2
        simp only [Option.some.injEq] at hd
        omega
      · cases hd
    · have := hr.2 b hb
      simp only [ne_eq, decide_eq_true_eq]
      rintro rfl
      exact this (by decide)
  | hex ds =>
    have h := hs u (ch% 'x' :: (ds ++ ch% ';' :: v)) (by rw [← e]; simp [Reference.bytes])
    rw [← List.cons_append, takeWhile_length (fun b hb => ?_) (by decide)] at h
    · refine Nat.lt_of_lt_of_le (number_lt (base := 16) ?_ (by decide) ds)
        (Nat.le_trans (Nat.pow_le_pow_right (n := 16) (by decide) (show ds.length ≤ 7 by simp only [List.length_cons] at h; omega)) (by decide))
      intro b d hd
      simp only [hexVal] at hd
      split at hd
      · rename_i hb
        have h2 : b.toNat ≤ 57 := hb.2
        simp only [Option.some.injEq] at hd
        omega
      · split at hd
        · rename_i hb
          have h2 : b.toNat ≤ 102 := hb.2
          simp only [Option.some.injEq] at hd
          omega
        · split at hd
          · rename_i hb
            have h2 : b.toNat ≤ 70 := hb.2
            simp only [Option.some.injEq] at hd
            omega
          · cases hd
    · rcases List.mem_cons.1 hb with rfl | hb
      · decide
      · have := hr.2 b hb
        simp only [ne_eq, decide_eq_true_eq]
        rintro rfl
        exact this (by decide)

theorem Reference.legal_of {r : Reference} (h : r.Accepted) (hv : r.value < 2 ^ 32) : r.Legal := by
  cases r with
  | entity => exact h
  | dec ds => simpa only [Reference.Accepted, Reference.Legal, Nat.mod_eq_of_lt (show number 10 decVal ds < _ from hv)] using h
  | hex ds => simpa only [Reference.Accepted, Reference.Legal, Nat.mod_eq_of_lt (show number 16 hexVal ds < _ from hv)] using h

/-- A tree that fits, in an ordinary document with short references, is well-formed. -/
theorem Document.wellFormed_of {d : Document} (hs : d.Syntax) (hf : d.Fits) (hr : ShortRefs d.bytes) : d.WellFormed :=
  (Document.wellFormed_iff d).2 ⟨hs, fun r h => Reference.legal_of (hf.refs r h)
    (Reference.value_lt hr (Document.ref_syntax hs h) (Document.ref_infix h)), fun t h => (hf.attrs t h).2⟩

end Tree
end GoVtd
