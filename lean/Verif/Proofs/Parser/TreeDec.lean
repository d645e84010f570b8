import Verif.Proofs.Parser.Tree

/-!
# Deciding whether a tree is well-formed and supported
-/

namespace GoVtd

instance (c : Nat) : Decidable (Spec.NameStartChar c) := by unfold Spec.NameStartChar; infer_instance
instance (c : Nat) : Decidable (Spec.NameChar c) := by unfold Spec.NameChar; infer_instance
instance (c : Nat) : Decidable (Spec.S c) := by unfold Spec.S; infer_instance
instance (c : Nat) : Decidable (Spec.Char11 c) := by unfold Spec.Char11; infer_instance
instance (w : List UInt8) : Decidable (Grammar.AllWs w) := by unfold Grammar.AllWs; infer_instance
instance (w : List UInt8) : Decidable (Grammar.AllName w) := by unfold Grammar.AllName; infer_instance

def decInfix (p : List UInt8) : (s : List UInt8) → Decidable (p <:+: s)
  | [] => decidable_of_iff (p = []) List.infix_nil.symm
  | b :: s => by
    have := decInfix p s
    exact decidable_of_iff (p.isPrefixOf (b :: s) = true ∨ p <:+: s) (by
      rw [List.infix_cons_iff, List.isPrefixOf_iff_prefix])

instance (p s : List UInt8) : Decidable (p <:+: s) := decInfix p s

namespace Tree

instance (a b : UInt8) (s : List UInt8) : Decidable (HasPair a b s) := by unfold HasPair; infer_instance

theorem name_iff {s : List UInt8} :
    Name s ↔ s.head?.all (fun b => decide (Spec.NameStartChar b.toNat)) = true ∧ s ≠ [] ∧ Grammar.AllName s.tail := by
  cases s with
  | nil => simp [Name]
  | cons b run =>
    simp only [Name, List.cons.injEq, List.head?_cons, Option.all_some, decide_eq_true_eq, ne_eq, reduceCtorEq,
      not_false_eq_true, List.tail_cons, true_and]
    constructor
    · rintro ⟨b', run', ⟨rfl, rfl⟩, h1, h2⟩; exact ⟨h1, h2⟩
    · rintro ⟨h1, h2⟩; exact ⟨b, run, ⟨rfl, rfl⟩, h1, h2⟩

instance (s : List UInt8) : Decidable (Name s) := decidable_of_iff _ name_iff.symm
instance (q : UInt8) : Decidable (Quote q) := by unfold Quote; infer_instance

instance : (r : Reference) → Decidable r.WellFormed
  | .entity name => inferInstanceAs (Decidable (name ∈ entityNames))
  | .dec ds => inferInstanceAs (Decidable ((∀ b ∈ ds, decVal b ≠ none) ∧ Spec.Char11 (number 10 decVal ds)))
  | .hex ds => inferInstanceAs (Decidable ((∀ b ∈ ds, Grammar.hexVal b ≠ none) ∧ Spec.Char11 (number 16 Grammar.hexVal ds)))

instance : (p : Piece) → Decidable p.WellFormed
  | .byte b => inferInstanceAs (Decidable (Spec.Char11 b.toNat ∧ b ≠ ch% '<' ∧ b ≠ ch% '&'))
  | .ref r => inferInstanceAs (Decidable r.WellFormed)

instance (t : Text) : Decidable t.WellFormed := by unfold Text.WellFormed; infer_instance

/-- Is it this byte? -/
def Piece.is (q : UInt8) : Piece → Bool
  | .byte b => b = q
  | .ref _ => false

theorem Piece.is_iff {p : Piece} {q : UInt8} : p.is q = false ↔ ∀ b, p = .byte b → b ≠ q := by
  cases p <;> simp [Piece.is]

theorem Attr.wf_iff {a : Attr} : a.WellFormed ↔ (a.space ≠ [] ∧ Grammar.AllWs a.space ∧ Grammar.AllWs a.space1 ∧
    Grammar.AllWs a.space2) ∧ Name a.name ∧ Quote a.quote ∧ ∀ p ∈ a.value, p.WellFormed ∧ p.is a.quote = false := by
  simp only [Piece.is_iff]
  exact ⟨fun ⟨a, b, c, d⟩ => ⟨a, b, c, d⟩, fun ⟨a, b, c, d⟩ => ⟨a, b, c, d⟩⟩

instance (a : Attr) : Decidable a.WellFormed := decidable_of_iff _ Attr.wf_iff.symm

instance (a : Attr) : Decidable a.Supported :=
  decidable_of_iff (a.name.length ≤ 2047 ∧ Grammar.lastColon 0 0 a.name ≤ 511 ∧ a.value.bytes.length ≤ Grammar.maxLen)
    ⟨fun ⟨a, b, c⟩ => ⟨a, b, c⟩, fun ⟨a, b, c⟩ => ⟨a, b, c⟩⟩

instance (t : StartTag) : Decidable t.WellFormed :=
  decidable_of_iff (Name t.name ∧ (∀ a ∈ t.attrs, a.WellFormed) ∧ (t.attrs.map Attr.name).Nodup ∧ Grammar.AllWs t.space)
    ⟨fun ⟨a, b, c, d⟩ => ⟨a, b, c, d⟩, fun ⟨a, b, c, d⟩ => ⟨a, b, c, d⟩⟩

instance (d : Nat) (t : StartTag) : Decidable (t.Supported d) :=
  decidable_of_iff (d ≤ 254 ∧ t.name.length ≤ 2047 ∧ ch% ':' ∉ t.name ∧ (∀ a ∈ t.attrs, a.Supported) ∧ t.attrs.length ≤ 256)
    ⟨fun ⟨a, b, c, d, e⟩ => ⟨a, b, c, d, e⟩, fun ⟨a, b, c, d, e⟩ => ⟨a, b, c, d, e⟩⟩

instance (a b c : UInt8) : Decidable (Grammar.XmlPrefix [a, b, c]) :=
  decidable_of_iff ((a = ch% 'x' ∨ a = ch% 'X') ∧ (b = ch% 'm' ∨ b = ch% 'M') ∧ (c = ch% 'l' ∨ c = ch% 'L')) (by
    constructor
    · exact fun h => ⟨a, b, c, [], rfl, h⟩
    · rintro ⟨a', b', c', r', h1, h2⟩
      simp only [List.cons.injEq] at h1
      obtain ⟨rfl, rfl, rfl, -⟩ := h1
      exact h2)

instance : (t : List UInt8) → Decidable (t.length = 3 ∧ Grammar.XmlPrefix t)
  | [a, b, c] => decidable_of_iff (Grammar.XmlPrefix [a, b, c]) (by simp)
  | [] => isFalse (by simp)
  | [_] => isFalse (by simp)
  | [_, _] => isFalse (by simp)
  | _ :: _ :: _ :: _ :: _ => isFalse (by simp)

instance : (a : Atom) → Decidable a.WellFormed
  | .empty tag => inferInstanceAs (Decidable tag.WellFormed)
  | .cdata data => inferInstanceAs (Decidable ((∀ b ∈ data, Spec.Char11 b.toNat) ∧ ¬ str% "]]>" <:+: data))
  | .comment data => inferInstanceAs (Decidable ((∀ b ∈ data, Spec.Char11 b.toNat) ∧
      ¬ HasPair (ch% '-') (ch% '-') (data ++ [ch% '-'])))
  | .pi target none => decidable_of_iff (Name target ∧ ¬ (target.length = 3 ∧ Grammar.XmlPrefix target))
      ⟨fun ⟨a, b⟩ => ⟨a, b, nofun⟩, fun ⟨a, b, _⟩ => ⟨a, b⟩⟩
  | .pi target (some (s, data)) => decidable_of_iff (Name target ∧ ¬ (target.length = 3 ∧ Grammar.XmlPrefix target) ∧
      Spec.S s.toNat ∧ (∀ b ∈ data, Spec.Char11 b.toNat) ∧ ¬ HasPair (ch% '?') (ch% '>') data)
      ⟨fun ⟨a, b, c⟩ => ⟨a, b, fun _ _ e => by cases e; exact c⟩, fun ⟨a, b, c⟩ => ⟨a, b, c s data rfl⟩⟩

instance (d : Nat) : (a : Atom) → Decidable (a.Supported d)
  | .empty tag => inferInstanceAs (Decidable (tag.Supported d))
  | .cdata data => inferInstanceAs (Decidable (data.length ≤ Grammar.maxLen ∧ ¬ HasPair (ch% ']') (ch% '>') data))
  | .comment data => inferInstanceAs (Decidable (data.length ≤ Grammar.maxLen))
  | .pi target none => decidable_of_iff (target.length ≤ Grammar.maxLen) ⟨fun h => ⟨h, nofun⟩, fun h => h.1⟩
  | .pi target (some (s, data)) => decidable_of_iff (target.length ≤ Grammar.maxLen ∧ data.length ≤ Grammar.maxLen)
      ⟨fun ⟨a, b⟩ => ⟨a, fun _ _ e => by cases e; exact b⟩, fun ⟨a, b⟩ => ⟨a, b s data rfl⟩⟩

def decWF : (c : Content) → Decidable c.WellFormed
  | .text t => inferInstanceAs (Decidable t.WellFormed)
  | .atom t a rest => by
    have := decWF rest
    exact inferInstanceAs (Decidable (t.WellFormed ∧ a.WellFormed ∧ rest.WellFormed))
  | .element t tag body space rest => by
    have := decWF rest
    have := decWF body
    exact inferInstanceAs (Decidable (t.WellFormed ∧ tag.WellFormed ∧ body.WellFormed ∧ Grammar.AllWs space ∧ rest.WellFormed))

instance (c : Content) : Decidable c.WellFormed := decWF c

/-- The first byte that is not white space. -/
def firstByte : List UInt8 → Option UInt8
  | [] => none
  | b :: r => if Spec.S b.toNat then firstByte r else some b

theorem firstByte_iff {s : List UInt8} {b : UInt8} :
    firstByte s = some b ↔ ∃ w r, s = w ++ b :: r ∧ Grammar.AllWs w ∧ ¬ Grammar.Ws b := by
  induction s with
  | nil => simp [firstByte]
  | cons x s ih =>
    simp only [firstByte]
    split
    · rename_i hx
      rw [ih]
      constructor
      · rintro ⟨w, r, rfl, h1, h2⟩
        exact ⟨x :: w, r, rfl, fun y hy => by rcases List.mem_cons.1 hy with rfl | hy; exact hx; exact h1 y hy, h2⟩
      · rintro ⟨w, r, h0, h1, h2⟩
        cases w with
        | nil => simp only [List.nil_append, List.cons.injEq] at h0; exact absurd (h0.1 ▸ hx) h2
        | cons y w =>
          simp only [List.cons_append, List.cons.injEq] at h0
          exact ⟨w, r, h0.2, fun y hy => h1 y (by simp [hy]), h2⟩
    · rename_i hx
      simp only [Option.some.injEq]
      constructor
      · rintro rfl; exact ⟨[], s, rfl, nofun, hx⟩
      · rintro ⟨w, r, h0, h1, h2⟩
        cases w with
        | nil => simp only [List.nil_append, List.cons.injEq] at h0; exact h0.1
        | cons y w =>
          simp only [List.cons_append, List.cons.injEq] at h0
          exact absurd (h0.1 ▸ h1 y (by simp)) hx

instance (e : Bool) (t : Text) : Decidable (Content.TextSupported e t) :=
  decidable_of_iff (¬ HasPair (ch% ']') (ch% '>') t.bytes ∧ t.bytes.length ≤ Grammar.maxLen ∧
    (e = true → firstByte t.bytes ≠ some (ch% '&') ∧ firstByte t.bytes ≠ some (ch% ']'))) (by
    constructor
    · rintro ⟨h1, h2, h3⟩
      refine ⟨h1, h2, fun e w b r h4 h5 h6 => ?_⟩
      have := firstByte_iff.2 ⟨w, r, h4, h5, h6⟩
      have h3 := h3 e
      simp only [this, ne_eq, Option.some.injEq] at h3
      exact h3
    · rintro ⟨h1, h2, h3⟩
      refine ⟨h1, h2, fun e => ⟨fun h => ?_, fun h => ?_⟩⟩
      · obtain ⟨w, r, h4, h5, h6⟩ := firstByte_iff.1 h
        exact (h3 e w _ r h4 h5 h6).1 rfl
      · obtain ⟨w, r, h4, h5, h6⟩ := firstByte_iff.1 h
        exact (h3 e w _ r h4 h5 h6).2 rfl)

def decSupported : (d : Nat) → (e : Bool) → (c : Content) → Decidable (c.Supported d e)
  | d, e, .text t => inferInstanceAs (Decidable (Content.TextSupported e t))
  | d, e, .atom t a rest => by
    have := decSupported d false rest
    exact inferInstanceAs (Decidable (Content.TextSupported e t ∧ a.Supported d ∧ rest.Supported d false))
  | d, e, .element t tag body space rest => by
    have := decSupported d true rest
    have := decSupported (d + 1) false body
    exact inferInstanceAs (Decidable (Content.TextSupported e t ∧ tag.Supported d ∧ body.Supported (d + 1) false ∧
      rest.Supported d true))

instance (d : Nat) (e : Bool) (c : Content) : Decidable (c.Supported d e) := decSupported d e c

/-- Is it a comment or a processing instruction? -/
def Atom.isMisc : Atom → Bool
  | .comment _ => true
  | .pi _ _ => true
  | _ => false

theorem Atom.isMisc_iff {a : Atom} : a.isMisc = true ↔ (∃ c, a = .comment c) ∨ ∃ t x, a = .pi t x := by
  cases a <;> simp [Atom.isMisc]

instance (m : Misc) : Decidable m.WellFormed :=
  decidable_of_iff (Grammar.AllWs m.space ∧ m.atom.isMisc = true ∧ m.atom.WellFormed) (by
    rw [Atom.isMisc_iff]
    exact ⟨fun ⟨a, b, c⟩ => ⟨a, b, c⟩, fun ⟨a, b, c⟩ => ⟨a, b, c⟩⟩)

instance (vs : List (List UInt8)) (a : DeclAttr) : Decidable (a.WellFormed vs) :=
  decidable_of_iff ((a.space ≠ [] ∧ Grammar.AllWs a.space ∧ Grammar.AllWs a.space1 ∧ Grammar.AllWs a.space2) ∧
    Quote a.quote ∧ a.value ∈ vs) ⟨fun ⟨a, b, c⟩ => ⟨a, b, c⟩, fun ⟨a, b, c⟩ => ⟨a, b, c⟩⟩

/-- A condition on an attribute that can be left out. -/
def optAll (p : DeclAttr → Prop) : Option DeclAttr → Prop
  | none => True
  | some a => p a

theorem optAll_iff {p : DeclAttr → Prop} {x : Option DeclAttr} : optAll p x ↔ ∀ a, x = some a → p a := by
  cases x <;> simp [optAll]

instance (p : DeclAttr → Prop) [DecidablePred p] : (x : Option DeclAttr) → Decidable (optAll p x)
  | none => inferInstanceAs (Decidable True)
  | some a => inferInstanceAs (Decidable (p a))

instance (d : Decl) : Decidable d.WellFormed :=
  decidable_of_iff (d.version.WellFormed [str% "1.0", str% "1.1"] ∧
    optAll (fun a => a.WellFormed utf8Names) d.encoding ∧
    optAll (fun a => a.WellFormed [str% "yes", str% "no"]) d.standalone ∧ Grammar.AllWs d.space) (by
    simp only [optAll_iff]
    exact ⟨fun ⟨a, b, c, d⟩ => ⟨a, b, c, d⟩, fun ⟨a, b, c, d⟩ => ⟨a, b, c, d⟩⟩)

instance : (r : Root) → Decidable r.WellFormed
  | .empty tag => inferInstanceAs (Decidable tag.WellFormed)
  | .element tag body space => inferInstanceAs (Decidable (tag.WellFormed ∧ body.WellFormed ∧ Grammar.AllWs space))

instance : (r : Root) → Decidable r.Supported
  | .empty tag => inferInstanceAs (Decidable (tag.Supported 0))
  | .element tag body _ => inferInstanceAs (Decidable (tag.Supported 0 ∧ body.Supported 1 false))

def optDecl : Option Decl → Prop
  | none => True
  | some d => d.WellFormed

instance : (x : Option Decl) → Decidable (optDecl x)
  | none => inferInstanceAs (Decidable True)
  | some d => inferInstanceAs (Decidable d.WellFormed)

instance (d : Document) : Decidable d.WellFormed :=
  decidable_of_iff (optDecl d.decl ∧ (∀ m ∈ d.prolog, m.WellFormed) ∧ (Grammar.AllWs d.space ∧ Grammar.AllWs d.space1) ∧
    d.root.WellFormed ∧ ∀ m ∈ d.epilog, m.WellFormed) (by
    constructor
    · rintro ⟨a, b, c, e, f⟩
      exact ⟨fun x hx => by rw [hx] at a; exact a, b, c, e, f⟩
    · rintro ⟨a, b, c, e, f⟩
      refine ⟨?_, b, c, e, f⟩
      cases h : d.decl with
      | none => trivial
      | some x => exact a x h)

/-- Is it a processing instruction? -/
def Atom.isPi : Atom → Bool
  | .pi _ _ => true
  | _ => false

/-- Is it a processing instruction with data? -/
def Atom.isPiData : Atom → Bool
  | .pi _ (some _) => true
  | _ => false

theorem Atom.isPiData_iff {a : Atom} : a.isPiData = true ↔ ∃ t x, a = .pi t (some x) := by
  cases a with
  | pi t x => cases x <;> simp [Atom.isPiData]
  | _ => simp [Atom.isPiData]

/-- No processing instruction at the beginning. -/
def noFirst : Option Decl → List Misc → Bool
  | none, m :: _ => !m.atom.isPi || !m.space.isEmpty
  | _, _ => true

instance (d : Document) : Decidable d.Supported :=
  decidable_of_iff ((∀ m ∈ d.prolog, m.atom.Supported 0) ∧ noFirst d.decl d.prolog = true ∧ d.root.Supported ∧
    ∀ m ∈ d.epilog, m.atom.isPiData = true ∧ m.atom.Supported 0) (by
    simp only [Atom.isPiData_iff]
    constructor
    · rintro ⟨a, b, c, e⟩
      refine ⟨a, ?_, c, ?_⟩
      · intro m ms t x h1 h2 h3 h4
        simp [noFirst, h1, h2, h3, h4, Atom.isPi] at b
      · intro m hm
        obtain ⟨⟨t, x, h1⟩, h2⟩ := e m hm
        exact ⟨t, x, h1, h2⟩
    · rintro ⟨a, b, c, e⟩
      refine ⟨a, ?_, c, ?_⟩
      · cases h1 : d.decl with
        | some _ => rfl
        | none =>
          cases h2 : d.prolog with
          | nil => rfl
          | cons m ms =>
            simp only [noFirst]
            cases h3 : m.atom with
            | pi t x =>
              have := b m ms t x h1 h2 h3
              simp [Atom.isPi, this]
            | _ => simp [Atom.isPi]
      · intro m hm
        obtain ⟨t, x, h1, h2⟩ := e m hm
        exact ⟨⟨t, x, h1⟩, h2⟩)

end Tree
end GoVtd
