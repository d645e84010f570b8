import Verif.Spec.Elems
import Verif.Spec.Nav

/-!
# Where the start tags stand among the items of a tree
-/

namespace GoVtd
namespace Tree

/-- Item `j` is a start tag of depth `d`. -/
def Starts (xs : List Item) (j : Nat) (d : Int) : Prop := ∃ x, xs[j]? = some x ∧ x.kind = Token.startingTag.code ∧ x.depth = d

theorem Starts.unique {xs : List Item} {j : Nat} {d d' : Int} (h : Starts xs j d) (h' : Starts xs j d') : d = d' := by
  obtain ⟨x, h1, -, h2⟩ := h
  obtain ⟨y, g1, -, g2⟩ := h'
  rw [h1] at g1; cases g1
  omega

theorem starts_nil {j : Nat} {d : Int} : ¬ Starts [] j d := by
  rintro ⟨x, hx, -⟩; simp at hx

theorem starts_left {xs ys : List Item} {j : Nat} (h : j < xs.length) {d : Int} : Starts (xs ++ ys) j d ↔ Starts xs j d := by
  simp only [Starts, List.getElem?_append_left h]

theorem starts_right {xs ys : List Item} {j : Nat} {d : Int} : Starts (xs ++ ys) (xs.length + j) d ↔ Starts ys j d := by
  simp only [Starts, List.getElem?_append_right (Nat.le_add_right _ _), Nat.add_sub_cancel_left]

theorem starts_lt {xs : List Item} {j : Nat} {d : Int} (h : Starts xs j d) : j < xs.length := by
  obtain ⟨x, hx, -⟩ := h
  exact (List.getElem?_eq_some_iff.1 hx).1

theorem starts_append {xs ys : List Item} {j : Nat} {d : Int} :
    Starts (xs ++ ys) j d ↔ Starts xs j d ∨ ∃ i, j = xs.length + i ∧ Starts ys i d := by
  constructor
  · intro h
    by_cases hj : j < xs.length
    · exact Or.inl ((starts_left hj).1 h)
    · refine Or.inr ⟨j - xs.length, by omega, ?_⟩
      rw [show j = xs.length + (j - xs.length) by omega] at h
      exact starts_right.1 h
  · rintro (h | ⟨i, rfl, h⟩)
    · exact (starts_left (starts_lt h)).2 h
    · exact starts_right.2 h

/-- No start tags. -/
def Quiet (xs : List Item) : Prop := ∀ j d, ¬ Starts xs j d

theorem quiet_of {xs : List Item} (h : ∀ x ∈ xs, x.kind ≠ Token.startingTag.code) : Quiet xs := by
  rintro j d ⟨x, h1, h2, -⟩
  exact h x (List.mem_of_getElem? h1) h2

/-- A forest at depth `d`: no start tag has a smaller depth, and the first has depth `d`. -/
def Forest (d : Int) (xs : List Item) : Prop := ∀ j d', Starts xs j d' → d ≤ d' ∧ ∃ i, i ≤ j ∧ Starts xs i d

theorem Quiet.forest {xs : List Item} (h : Quiet xs) (d : Int) : Forest d xs := fun j d' hs => absurd hs (h j d')

theorem Forest.append {d : Int} {xs ys : List Item} (h : Forest d xs) (h' : Forest d ys) : Forest d (xs ++ ys) := by
  intro j d' hs
  replace hs := starts_append.1 hs
  rcases hs with hs | ⟨i, rfl, hs⟩
  · obtain ⟨h1, i, h2, h3⟩ := h _ _ hs
    exact ⟨h1, i, h2, starts_append.2 (Or.inl h3)⟩
  · obtain ⟨h1, k, h2, h3⟩ := h' _ _ hs
    exact ⟨h1, xs.length + k, by omega, starts_append.2 (Or.inr ⟨k, rfl, h3⟩)⟩

/-- An element: its start tag, other items of the tag, a forest one level deeper. -/
theorem forest_element {d : Int} {name : List UInt8} {as xs : List Item} (ha : Quiet as) (h : Forest (d + 1) xs) :
    Forest d (item .startingTag d name :: as ++ xs) := by
  have h0 : Starts (item .startingTag d name :: as ++ xs) 0 d := ⟨_, rfl, rfl, rfl⟩
  intro j d' hs
  refine ⟨?_, 0, Nat.zero_le _, h0⟩
  cases j with
  | zero => rw [hs.unique h0]; exact Int.le_refl _
  | succ j =>
    replace hs : Starts (as ++ xs) j d' := by simpa [Starts] using hs
    replace hs := starts_append.1 hs
    rcases hs with hs | ⟨i, rfl, hs⟩
    · exact absurd hs (ha _ _)
    · have := (h _ _ hs).1; omega

/-! ## Items of a tree -/

theorem attr_quiet (d : Int) (as : List Attr) : Quiet (as.flatMap (Attr.items d)) := by
  refine quiet_of fun x hx => ?_
  obtain ⟨a, -, hx⟩ := List.mem_flatMap.1 hx
  simp only [Attr.items, List.mem_cons, List.not_mem_nil, or_false] at hx
  rcases hx with rfl | rfl
  · simp only [item]; split <;> decide
  · simp only [item]; decide

theorem text_quiet (d : Int) (t : Text) : Quiet (textItems d t) := by
  refine quiet_of fun x hx => ?_
  simp only [textItems] at hx
  split at hx
  · simp at hx
  · simp only [List.mem_singleton] at hx; subst hx; simp only [item]; decide

theorem text_count (d : Int) (t : Text) : (textItems d t).length = (textItems 0 t).length := by
  simp only [textItems]; split <;> rfl

theorem StartTag.count (d : Int) (t : StartTag) : (t.items d).length = (t.items 0).length := by
  simp only [StartTag.items, List.length_cons, List.length_flatMap, Attr.items, List.length_nil]

theorem Atom.count (d : Int) (a : Atom) : (a.items d).length = (a.items 0).length := by
  cases a with
  | empty tag => simp only [Atom.items]; rw [StartTag.count, StartTag.count (0 + 1)]
  | cdata => rfl
  | comment => rfl
  | pi t x => rcases x with _ | ⟨_, _⟩ <;> rfl

theorem Content.count (c : Content) : ∀ (d : Int) (s : Bool), (c.items d s).length = (c.items 0 s).length := by
  induction c with
  | text t => intro d s; cases s <;> simp only [Content.items] <;> first | rfl | exact text_count d t
  | atom t a rest ih =>
    intro d s
    simp only [Content.items, List.length_append]
    rw [text_count, Atom.count, ih]
  | element t tag body sp rest ih1 ih2 =>
    intro d s
    simp only [Content.items, List.length_append]
    rw [text_count, StartTag.count, ih1, ih2, StartTag.count (0 + 1), ih1 (0 + 1)]

theorem StartTag.forest (d : Int) (t : StartTag) : Forest d (t.items d) := by
  have := forest_element (d := d) (name := t.name) (attr_quiet d t.attrs) (xs := []) (fun j d' h => absurd h starts_nil)
  rwa [List.append_nil] at this

/-- Markup other than a tag. -/
theorem Atom.quiet (d : Int) (a : Atom) (h : ∀ tag, a ≠ .empty tag) : Quiet (a.items d) := by
  refine quiet_of fun x hx => ?_
  cases a with
  | empty tag => exact absurd rfl (h tag)
  | cdata data => simp only [Atom.items, List.mem_singleton] at hx; subst hx; simp only [item]; decide
  | comment data => simp only [Atom.items, List.mem_singleton] at hx; subst hx; simp only [item]; decide
  | pi t y =>
    rcases y with _ | ⟨_, _⟩ <;> simp only [Atom.items, List.mem_cons, List.not_mem_nil, or_false] at hx <;>
      rcases hx with rfl | rfl <;> simp only [item] <;> decide

theorem Atom.forest (d : Int) (a : Atom) : Forest (d + 1) (a.items d) := by
  by_cases h : ∃ tag, a = .empty tag
  · obtain ⟨tag, rfl⟩ := h
    exact StartTag.forest _ _
  · exact (Atom.quiet d a fun tag ht => h ⟨tag, ht⟩).forest _

theorem Content.forest (c : Content) : ∀ (d : Int) (s : Bool), Forest (d + 1) (c.items d s) := by
  induction c with
  | text t =>
    intro d s
    cases s with
    | false => exact (text_quiet d t).forest _
    | true =>
      refine Quiet.forest (quiet_of fun x hx => ?_) _
      simp only [Content.items, List.mem_singleton] at hx; subst hx; simp only [item]; decide
  | atom t a rest ih =>
    intro d s
    simp only [Content.items]
    exact (((text_quiet d t).forest _).append (Atom.forest d a)).append (ih d false)
  | element t tag body sp rest ih1 ih2 =>
    intro d s
    simp only [Content.items]
    rw [List.append_assoc (textItems d t)]
    refine (((text_quiet d t).forest _).append ?_).append (ih2 d false)
    exact forest_element (attr_quiet _ _) (ih1 (d + 1) true)

/-- The items of an element at depth `d`. -/
def Elem.items (d : Int) (e : Elem) : List Item :=
  e.tag.items d ++ (match e.body with
    | none => []
    | some c => c.items d true)

/-- `e` stands in `xs` at its token, and what follows is no part of it: the first start tag after it has at most its
depth. -/
def Stands (xs : List Item) (d : Int) (e : Elem) : Prop :=
  ∃ pre post, xs = pre ++ (e.items d ++ post) ∧ e.token = pre.length ∧
    ∀ j d', Starts post j d' → ∃ i d'', i ≤ j ∧ d'' ≤ d ∧ Starts post i d''

/-- Where the elements of a content stand in its items. -/
theorem Content.parts (c : Content) : ∀ (d : Int) (s : Bool) (k : Nat), ∀ e ∈ c.elems k,
    ∃ pre post, c.items d s = pre ++ (e.items (d + 1) ++ post) ∧ e.token = k + pre.length ∧ Forest (d + 1) post := by
  induction c with
  | text t => intro d s k e he; simp [Content.elems] at he
  | atom t a rest ih =>
    intro d s k e he
    simp only [Content.elems, List.mem_append] at he
    rcases he with he | he
    · cases a with
      | empty tag =>
        simp only [List.mem_singleton] at he
        subst he
        refine ⟨textItems d t, rest.items d false, ?_, ?_, rest.forest d false⟩
        · simp only [Content.items, Atom.items, Elem.items, List.append_nil, List.append_assoc]
        · simp only [text_count d]
      | cdata => simp at he
      | comment => simp at he
      | pi => simp at he
    · obtain ⟨pre, post, h1, h2, h3⟩ := ih d false _ e he
      refine ⟨textItems d t ++ (a.items d ++ pre), post, ?_, ?_, h3⟩
      · simp only [Content.items, h1, List.append_assoc]
      · simp only [h2, List.length_append, text_count d, Atom.count d]; omega
  | element t tag body sp rest ih1 ih2 =>
    intro d s k e he
    simp only [Content.elems, List.mem_cons] at he
    rcases he with rfl | he
    · refine ⟨textItems d t, rest.items d false, ?_, ?_, rest.forest d false⟩
      · simp only [Content.items, Elem.items, List.append_assoc]
      · simp only [text_count d]
    · obtain ⟨pre, post, h1, h2, h3⟩ := ih2 d false _ e he
      refine ⟨textItems d t ++ (tag.items (d + 1) ++ (body.items (d + 1) true ++ pre)), post, ?_, ?_, h3⟩
      · simp only [Content.items, h1, List.append_assoc]
      · simp only [h2, List.length_append, text_count d, StartTag.count (d + 1), Content.count body (d + 1)]; omega

/-- The start tags of depth `d + 1` in a content are those of its elements. -/
theorem Content.top (c : Content) : ∀ (d : Int) (s : Bool) (k j : Nat), Starts (c.items d s) j (d + 1) →
    ∃ e ∈ c.elems k, e.token = k + j := by
  induction c with
  | text t =>
    intro d s k j h
    cases s with
    | false => exact absurd h (text_quiet d t j _)
    | true =>
      refine absurd h (quiet_of (fun x hx => ?_) j _)
      simp only [Content.items, List.mem_singleton] at hx; subst hx; simp only [item]; decide
  | atom t a rest ih =>
    intro d s k j h
    simp only [Content.items] at h
    replace h := starts_append.1 h
    rcases h with h | ⟨i, rfl, h⟩
    · replace h := starts_append.1 h
      rcases h with h | ⟨i, rfl, h⟩
      · exact absurd h (text_quiet d t j _)
      · cases a with
        | empty tag =>
          cases i with
          | zero =>
            exact ⟨_, by simp only [Content.elems, List.mem_append, List.mem_singleton]; exact Or.inl rfl, by simp [text_count d]⟩
          | succ i =>
            have : Starts (tag.attrs.flatMap (Attr.items (d + 1))) i (d + 1) := by
              simpa [Starts, Atom.items, StartTag.items] using h
            exact absurd this (attr_quiet _ _ _ _)
        | cdata => exact absurd h (Atom.quiet d _ (fun _ => by simp) _ _)
        | comment => exact absurd h (Atom.quiet d _ (fun _ => by simp) _ _)
        | pi => exact absurd h (Atom.quiet d _ (fun _ => by simp) _ _)
    · obtain ⟨e, h1, h2⟩ := ih d false (k + (textItems 0 t).length + (a.items 0).length) i h
      refine ⟨e, by simp only [Content.elems, List.mem_append]; exact Or.inr h1, ?_⟩
      simp only [h2, List.length_append, text_count d, Atom.count d]; omega
  | element t tag body sp rest ih1 ih2 =>
    intro d s k j h
    simp only [Content.items] at h
    replace h := starts_append.1 h
    rcases h with h | ⟨i, rfl, h⟩
    · replace h := starts_append.1 h
      rcases h with h | ⟨i, rfl, h⟩
      · replace h := starts_append.1 h
        rcases h with h | ⟨i, rfl, h⟩
        · exact absurd h (text_quiet d t j _)
        · cases i with
          | zero => exact ⟨_, List.mem_cons_self, by simp [text_count d]⟩
          | succ i =>
            have : Starts (tag.attrs.flatMap (Attr.items (d + 1))) i (d + 1) := by
              simpa [Starts, StartTag.items] using h
            exact absurd this (attr_quiet _ _ _ _)
      · have := (body.forest (d + 1) true _ _ h).1
        omega
    · obtain ⟨e, h1, h2⟩ := ih2 d false (k + (textItems 0 t).length + (tag.items 0).length + (body.items 0 true).length) i h
      refine ⟨e, List.mem_cons_of_mem _ h1, ?_⟩
      simp only [h2, List.length_append, text_count d, StartTag.count (d + 1), Content.count body (d + 1)]; omega

/-- The tokens of the elements of a content increase. -/
theorem Content.sorted (c : Content) : ∀ (k : Nat), (∀ e ∈ c.elems k, k ≤ e.token) ∧ (c.elems k).Pairwise fun a b => a.token < b.token := by
  induction c with
  | text t => intro k; simp [Content.elems]
  | atom t a rest ih =>
    intro k
    obtain ⟨h1, h2⟩ := ih (k + (textItems 0 t).length + (a.items 0).length)
    cases a with
    | empty tag =>
      have : 0 < (Atom.items 0 (.empty tag)).length := by simp [Atom.items, StartTag.items]
      simp only [Content.elems, List.singleton_append, List.mem_cons, List.pairwise_cons]
      refine ⟨?_, ⟨?_, h2⟩⟩
      · rintro e (rfl | he)
        · simp
        · have := h1 e he; omega
      · intro e he
        have := h1 e he
        show k + (textItems 0 t).length < e.token
        omega
    | cdata => simp only [Content.elems, List.nil_append]; exact ⟨fun e he => by have := h1 e he; omega, h2⟩
    | comment => simp only [Content.elems, List.nil_append]; exact ⟨fun e he => by have := h1 e he; omega, h2⟩
    | pi => simp only [Content.elems, List.nil_append]; exact ⟨fun e he => by have := h1 e he; omega, h2⟩
  | element t tag body sp rest ih1 ih2 =>
    intro k
    obtain ⟨h1, h2⟩ := ih2 (k + (textItems 0 t).length + (tag.items 0).length + (body.items 0 true).length)
    have : 0 < (tag.items 0).length := by simp [StartTag.items]
    simp only [Content.elems, List.mem_cons, List.pairwise_cons]
    refine ⟨?_, ⟨?_, h2⟩⟩
    · rintro e (rfl | he)
      · simp
      · have := h1 e he; omega
    · intro e he
      have := h1 e he
      show k + (textItems 0 t).length < e.token
      omega

theorem Elem.sorted (e : Elem) : e.children.Pairwise fun a b => a.token < b.token := by
  simp only [Elem.children]
  split
  · exact List.Pairwise.nil
  · exact (Content.sorted _ _).2

/-! ## The document -/

theorem misc_quiet {ms : List Misc} (h : ∀ m ∈ ms, m.WellFormed) : Quiet (ms.flatMap fun m => m.atom.items (-1)) := by
  rintro j d ⟨x, h1, h2, -⟩
  obtain ⟨m, hm, hx⟩ := List.mem_flatMap.1 (List.mem_of_getElem? h1)
  refine Atom.quiet (-1) m.atom (fun tag ht => ?_) _ _ ⟨x, (List.getElem?_of_mem hx).choose_spec, h2, rfl⟩
  rcases (h m hm).kind with ⟨c, hc⟩ | ⟨t, x, hc⟩ <;> rw [ht] at hc <;> cases hc

theorem Document.split {t : Document} (hw : ∀ m ∈ t.epilog, m.WellFormed) :
    ∃ pre post, t.items = pre ++ (t.rootElem.items 0 ++ post) ∧ t.rootElem.token = pre.length ∧ Quiet post := by
  refine ⟨item .document (-1) [] :: ((t.decl.map Decl.items).getD [] ++ t.prolog.flatMap (fun m => m.atom.items (-1))),
    t.epilog.flatMap (fun m => m.atom.items (-1)), ?_, ?_, misc_quiet hw⟩
  · simp only [Document.items, Document.rootElem]
    cases t.root <;> simp [Root.items, Elem.items]
  · simp only [Document.rootElem]
    cases t.root <;> simp <;> omega

theorem Document.root_stands {t : Document} (hw : ∀ m ∈ t.epilog, m.WellFormed) : Stands t.items 0 t.rootElem := by
  obtain ⟨pre, post, h1, h2, h3⟩ := split hw
  exact ⟨pre, post, h1, h2, fun j d' h => absurd h (h3 _ _)⟩

/-- Behind the start tag of the root element all start tags are deeper. -/
theorem Document.deeper {t : Document} (hw : ∀ m ∈ t.epilog, m.WellFormed) {j : Nat} {d : Int} (hj : t.rootElem.token < j) (hs : Starts t.items j d) :
    0 < d := by
  obtain ⟨pre, post, h1, h2, h3⟩ := split hw
  rw [h1] at hs
  replace hs := starts_append.1 hs
  rcases hs with hs | ⟨i, rfl, hs⟩
  · have := starts_lt hs; omega
  · replace hs := starts_append.1 hs
    rcases hs with hs | ⟨k, rfl, hs⟩
    · simp only [Elem.items] at hs
      replace hs := starts_append.1 hs
      rcases hs with hs | ⟨k, rfl, hs⟩
      · cases i with
        | zero => omega
        | succ i =>
          have : Starts (t.rootElem.tag.attrs.flatMap (Attr.items 0)) i d := by simpa [Starts, StartTag.items] using hs
          exact absurd this (attr_quiet _ _ _ _)
      · cases hb : t.rootElem.body with
        | none => rw [hb] at hs; exact absurd hs starts_nil
        | some c =>
          rw [hb] at hs
          have := (c.forest 0 true _ _ hs).1
          omega
    · exact absurd hs (h3 _ _)

theorem Stands.child {xs : List Item} {d : Int} {e c : Elem} (h : Stands xs d e) (hc : c ∈ e.children) : Stands xs (d + 1) c := by
  obtain ⟨pre, post, h1, h2, h3⟩ := h
  simp only [Elem.children] at hc
  split at hc
  · simp at hc
  · next b hb =>
    obtain ⟨pre', post', g1, g2, g3⟩ := Content.parts b d true _ c hc
    refine ⟨pre ++ (e.tag.items d ++ pre'), post' ++ post, ?_, ?_, ?_⟩
    · rw [h1]; simp only [Elem.items, hb, g1, List.append_assoc]
    · simp only [g2, h2, List.length_append, StartTag.count d]; omega
    · intro j d' hs
      replace hs := starts_append.1 hs
      rcases hs with hs | ⟨i, rfl, hs⟩
      · obtain ⟨-, i, k1, k2⟩ := g3 _ _ hs
        exact ⟨i, d + 1, k1, Int.le_refl _, starts_append.2 (Or.inl k2)⟩
      · obtain ⟨k, d'', k1, k2, k3⟩ := h3 _ _ hs
        exact ⟨post'.length + k, d'', by omega, by omega, starts_append.2 (Or.inr ⟨k, rfl, k3⟩)⟩

theorem Document.Has.stands {t : Document} (hw : ∀ m ∈ t.epilog, m.WellFormed) {n : Nat} {e : Elem} (h : t.Has n e) : Stands t.items n e := by
  induction h with
  | root => exact root_stands hw
  | child _ hc ih => exact ih.child hc

theorem Stands.item {xs : List Item} {d : Int} {e : Elem} (h : Stands xs d e) : xs[e.token]? = some (item .startingTag d e.tag.name) := by
  obtain ⟨pre, post, h1, h2, -⟩ := h
  rw [h1, h2, List.getElem?_append_right (Nat.le_refl _), Nat.sub_self]
  rfl

theorem Stands.starts {xs : List Item} {d : Int} {e : Elem} (h : Stands xs d e) : Starts xs e.token d := ⟨_, h.item, rfl, rfl⟩

/-- Start tags behind the one of `e`: in its content, or after it. -/
theorem Stands.inner {xs : List Item} {d : Int} {e : Elem} (h : Stands xs d e) {j : Nat} {d' : Int} (hj : e.token < j)
    (hs : Starts xs j d') : (∃ c i, e.body = some c ∧ j = e.token + (e.tag.items 0).length + i ∧ Starts (c.items d true) i d') ∨
      ∃ i d'', e.token < i ∧ i ≤ j ∧ d'' ≤ d ∧ Starts xs i d'' := by
  obtain ⟨pre, post, h1, h2, h3⟩ := h
  rw [h1] at hs
  replace hs := starts_append.1 hs
  rcases hs with hs | ⟨i, rfl, hs⟩
  · have := starts_lt hs; omega
  · replace hs := starts_append.1 hs
    rcases hs with hs | ⟨k, rfl, hs⟩
    · simp only [Elem.items] at hs
      replace hs := starts_append.1 hs
      rcases hs with hs | ⟨k, rfl, hs⟩
      · cases i with
        | zero => omega
        | succ i =>
          have : Starts (e.tag.attrs.flatMap (Attr.items d)) i d' := by simpa [Starts, StartTag.items] using hs
          exact absurd this (attr_quiet _ _ _ _)
      · left
        cases hb : e.body with
        | none => rw [hb] at hs; exact absurd hs starts_nil
        | some c =>
          rw [hb] at hs
          exact ⟨c, k, rfl, by rw [h2, StartTag.count d]; omega, hs⟩
    · obtain ⟨i, d'', k1, k2, k3⟩ := h3 _ _ hs
      right
      have : 0 < (e.items d).length := by simp [Elem.items, StartTag.items]
      refine ⟨pre.length + ((e.items d).length + i), d'', by omega, by omega, k2, ?_⟩
      rw [h1]
      exact starts_append.2 (Or.inr ⟨_, rfl, starts_append.2 (Or.inr ⟨i, rfl, k3⟩)⟩)

/-- The start tags one level deeper than `e`, with nothing in between that is not inside of `e`, are its children. -/
theorem Stands.child_iff {xs : List Item} {d : Int} {e : Elem} (h : Stands xs d e) (j : Nat) :
    (e.token < j ∧ Starts xs j (d + 1) ∧ ∀ k, e.token < k → k < j → ∀ d', Starts xs k d' → d < d') ↔ ∃ c ∈ e.children, c.token = j := by
  constructor
  · rintro ⟨h1, h2, h3⟩
    rcases h.inner h1 h2 with ⟨c, i, hb, rfl, hs⟩ | ⟨i, d'', g1, g2, g3, g4⟩
    · obtain ⟨c', k1, k2⟩ := Content.top c d true (e.token + (e.tag.items 0).length) i hs
      refine ⟨c', ?_, k2⟩
      simp only [Elem.children, hb]
      exact k1
    · by_cases hij : i = j
      · subst hij
        have := g4.unique h2
        omega
      · have := h3 i g1 (by omega) d'' g4
        omega
  · rintro ⟨c, hc, rfl⟩
    have hs := (h.child hc).starts
    have hlt : e.token < c.token := by
      simp only [Elem.children] at hc
      split at hc
      · simp at hc
      · have := (Content.sorted _ _).1 c hc
        have : 0 < (e.tag.items 0).length := by simp [StartTag.items]
        omega
    refine ⟨hlt, hs, fun k k1 k2 d' hk => ?_⟩
    obtain ⟨pre, post, h1, h2, h3⟩ := h
    rcases Stands.inner ⟨pre, post, h1, h2, h3⟩ k1 hk with ⟨b, i, hb, rfl, g⟩ | ⟨i, d'', g1, g2, g3, g4⟩
    · have := (b.forest d true _ _ g).1; omega
    · exfalso
      -- the token of the child lies in the content, so the one before it does too
      simp only [Elem.children] at hc
      split at hc
      · simp at hc
      · next b hb =>
        obtain ⟨pre', post', p1, p2, -⟩ := Content.parts b d true _ c hc
        have hi : i < pre.length + (e.items d).length := by
          have : c.token < pre.length + (e.items d).length := by
            have hp : 0 < (c.tag.items (d + 1)).length := by simp [StartTag.items]
            simp only [Elem.items, hb, p1, p2, h2, List.length_append, StartTag.count d]
            omega
          omega
        have hi' : Starts (e.items d) (i - pre.length) d'' := by
          rw [h1, show i = pre.length + (i - pre.length) by omega] at g4
          exact (starts_left (by omega)).1 (starts_right.1 g4)
        simp only [Elem.items, hb] at hi'
        replace hi' := starts_append.1 hi'
        rcases hi' with hs' | ⟨m, e1, hs'⟩
        · cases hm : i - pre.length with
          | zero => omega
          | succ m =>
            rw [hm] at hs'
            have : Starts (e.tag.attrs.flatMap (Attr.items d)) m d'' := by simpa [Starts, StartTag.items] using hs'
            exact attr_quiet _ _ _ _ this
        · have := (b.forest d true _ _ hs').1
          omega

end Tree
end GoVtd
