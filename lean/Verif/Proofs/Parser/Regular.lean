import Verif.Proofs.Parser.Stored
import Verif.Proofs.Parser.Items

/-!
# The records stored for a tree point to its items

As `Verif/Proofs/Parser/Items.lean`, for documents with prefixed element names.
-/

namespace GoVtd

theorem Item.RunsOn.colon {x : Item} (h : x.RunsOn) : ch% ':' ∈ x.text := by
  refine Classical.byContradiction fun hm => h.2 ?_
  rw [Grammar.lastColon_none hm]
  simp

theorem Item.Shows.refl {x : Item} (h : ¬ x.RunsOn) : x.Shows x := ⟨rfl, rfl, fun _ => rfl, fun g => absurd g h⟩

theorem Item.Shows.eq {x y : Item} (h : x.Shows y) (hc : ¬ y.RunsOn) : x = y := by
  obtain ⟨h1, h2, h3, -⟩ := h
  have h3 := h3 hc
  cases x; cases y
  simp_all

namespace Shown

theorem refl : ∀ {xs : List Item}, (∀ x ∈ xs, x.kind ≠ Token.startingTag.code) → Shown xs xs
  | [], _ => .nil
  | x :: _, h => .cons (.refl fun g => h x List.mem_cons_self g.1) (refl fun y hy => h y (List.mem_cons_of_mem _ hy))

theorem of_eq {xs ys : List Item} (h : xs = ys) (hk : ∀ y ∈ ys, y.kind ≠ Token.startingTag.code) : Shown xs ys := by
  subst h; exact refl hk

theorem append {xs ys xs' ys' : List Item} (h : Shown xs ys) (h' : Shown xs' ys') : Shown (xs ++ xs') (ys ++ ys') := by
  induction h with
  | nil => exact h'
  | cons hx _ ih => exact .cons hx ih

theorem length {xs ys : List Item} (h : Shown xs ys) : xs.length = ys.length := by
  induction h with
  | nil => rfl
  | cons _ _ ih => simp [ih]

theorem get {xs ys : List Item} (h : Shown xs ys) : ∀ {j : Nat} {y : Item}, ys[j]? = some y → ∃ x, xs[j]? = some x ∧ x.Shows y := by
  induction h with
  | nil => intro j y hy; simp at hy
  | cons hx _ ih =>
    intro j y hy
    cases j with
    | zero => simp only [List.getElem?_cons_zero, Option.some.injEq] at hy ⊢; exact ⟨_, rfl, hy ▸ hx⟩
    | succ j => simpa using ih (by simpa using hy)

theorem get' {xs ys : List Item} (h : Shown xs ys) : ∀ {j : Nat} {x : Item}, xs[j]? = some x → ∃ y, ys[j]? = some y ∧ x.Shows y := by
  induction h with
  | nil => intro j y hy; simp at hy
  | cons hx _ ih =>
    intro j y hy
    cases j with
    | zero => simp only [List.getElem?_cons_zero, Option.some.injEq] at hy ⊢; exact ⟨_, rfl, hy ▸ hx⟩
    | succ j => simpa using ih (by simpa using hy)

end Shown

namespace Tree
open Grammar Parser

/-! ## Supported trees are regular -/

theorem Piece.WellFormed.syn {p : Piece} (h : p.WellFormed) : p.Syntax := by
  cases p with
  | byte b => exact h
  | ref r =>
    cases r with
    | entity name =>
      have h : name ∈ entityNames := h
      simp only [entityNames, List.mem_cons, List.not_mem_nil, or_false] at h
      rcases h with rfl | rfl | rfl | rfl | rfl <;> exact ⟨_, _, rfl, by decide, by decide⟩
    | dec ds =>
      refine ⟨fun e => ?_, h.1⟩
      obtain ⟨-, h⟩ := h
      subst e
      revert h
      decide
    | hex ds =>
      refine ⟨fun e => ?_, h.1⟩
      obtain ⟨-, h⟩ := h
      subst e
      revert h
      decide

theorem Text.WellFormed.syn {t : Text} (h : t.WellFormed) : t.Syntax := ⟨fun p hp => (h.1 p hp).syn, h.2⟩

theorem StartTag.WellFormed.syn {t : StartTag} (h : t.WellFormed) : t.Syntax :=
  ⟨h.name, fun a ha => ⟨(h.attrs a ha).space, (h.attrs a ha).name, (h.attrs a ha).quote,
    fun p hp => ⟨((h.attrs a ha).value p hp).1.syn, ((h.attrs a ha).value p hp).2⟩⟩, h.space⟩

theorem Atom.WellFormed.syn {a : Atom} (h : a.WellFormed) : a.Syntax := by
  cases a with
  | empty tag => exact StartTag.WellFormed.syn h
  | _ => exact h

theorem Content.WellFormed.syn {c : Content} (h : c.WellFormed) : c.Syntax := by
  induction c with
  | text t => exact Text.WellFormed.syn h
  | atom t a rest ih => exact ⟨h.1.syn, h.2.1.syn, ih h.2.2⟩
  | element t tag body space rest ih1 ih2 => exact ⟨h.1.syn, h.2.1.syn, ih1 h.2.2.1, h.2.2.2.1, ih2 h.2.2.2.2⟩

theorem Document.WellFormed.syn {d : Document} (h : d.WellFormed) : d.Syntax := by
  refine ⟨h.decl, h.prolog, h.space, ?_, h.epilog⟩
  have := h.root
  cases hr : d.root with
  | empty tag => rw [hr] at this; exact StartTag.WellFormed.syn this
  | element tag body space => rw [hr] at this; exact ⟨this.1.syn, this.2.1.syn, this.2.2⟩

theorem Content.Supported.plain {c : Content} : ∀ {d : Nat} {b : Bool}, c.Supported d b → c.Plain b := by
  induction c with
  | text t => intro d b h; exact h.first
  | atom t a rest ih =>
    intro d b h
    refine ⟨h.1.first, ?_, ih h.2.2⟩
    rintro data rfl
    exact h.2.1.2
  | element t tag body space rest ih1 ih2 => intro d b h; exact ⟨h.1.first, ih1 h.2.2.1, ih2 h.2.2.2⟩

theorem Atom.Supported.short {a : Atom} {d e o : Nat} (h : a.Supported d) : ∀ s ∈ a.spans e o, s.data.length ≤ maxLen := by
  cases a with
  | empty tag => nofun
  | cdata data => intro s hs; obtain rfl := List.mem_singleton.1 hs; exact h.1
  | comment data => intro s hs; obtain rfl := List.mem_singleton.1 hs; exact h
  | pi t x => nofun

theorem text_short {t : Text} {d o : Nat} (h : t.bytes.length ≤ maxLen) : ∀ s ∈ Content.textSpan d o t, s.data.length ≤ maxLen := by
  intro s hs
  rw [Content.textSpan] at hs
  split at hs
  · simp at hs
  · obtain rfl := List.mem_singleton.1 hs; exact h

theorem Content.Supported.short {c : Content} : ∀ {d e o : Nat} {b sole : Bool}, c.Supported d b →
    ∀ s ∈ c.spans e sole o, s.data.length ≤ maxLen := by
  induction c with
  | text t =>
    intro d e o b sole h s hs
    rw [Content.spans] at hs
    split at hs
    · obtain rfl := List.mem_singleton.1 hs; exact h.length
    · exact text_short h.length s hs
  | atom t a rest ih =>
    intro d e o b sole h s hs
    simp only [Content.spans, List.mem_append] at hs
    rcases hs with (hs | hs) | hs
    · exact text_short h.1.length s hs
    · exact h.2.1.short s hs
    · exact ih h.2.2 s hs
  | element t tag body space rest ih1 ih2 =>
    intro d e o b sole h s hs
    simp only [Content.spans, List.mem_append] at hs
    rcases hs with (hs | hs) | hs
    · exact text_short h.1.length s hs
    · exact ih1 h.2.2.1 s hs
    · exact ih2 h.2.2.2 s hs

theorem misc_short {ms : List Misc} : ∀ {o : Nat}, (∀ m ∈ ms, m.atom.Supported 0) → ∀ s ∈ miscSpans o ms, s.data.length ≤ maxLen := by
  induction ms with
  | nil => nofun
  | cons m ms ih =>
    intro o h s hs
    rcases List.mem_append.1 hs with hs | hs
    · exact (h m (by simp)).short s hs
    · exact ih (fun x hx => h x (List.mem_cons_of_mem _ hx)) s hs

/-- Supported documents are regular. -/
theorem Document.Supported.regular {d : Document} (hw : d.WellFormed) (hs : d.Supported) : d.Regular := by
  have hp : d.Plain := by
    refine ⟨hs.first, fun tag body space hr => ?_⟩
    have := hs.root
    rw [hr] at this
    exact this.2.plain
  refine ⟨hw.syn, hp, ?_, ?_⟩
  · exact (document_fits (n := d.bytes.length) hw.syn hp).1 ⟨_, Document.doc hw hs⟩
  · intro s h
    simp only [Document.spans, List.mem_append] at h
    rcases h with (h | h) | h
    · exact misc_short hs.prolog s h
    · have := hs.root
      cases hr : d.root with
      | empty tag => rw [hr] at h; simp [Root.spans] at h
      | element tag body space => rw [hr] at h this; exact this.2.short s h
    · exact misc_short (fun m hm => (hs.epilog m hm).choose_spec.choose_spec.2) s h

/-! ## Items that are not start tags -/

theorem attrs_kind {d : Int} {as : List Attr} : ∀ x ∈ as.flatMap (Attr.items d), x.kind ≠ Token.startingTag.code := by
  intro x hx
  obtain ⟨a, -, hx⟩ := List.mem_flatMap.1 hx
  simp only [Attr.items, List.mem_cons, List.not_mem_nil, or_false] at hx
  rcases hx with rfl | rfl
  · simp only [item]; split <;> decide
  · simp [item, Token.code]

theorem Atom.kind {a : Atom} {d : Int} (h : ∀ tag, a ≠ .empty tag) : ∀ x ∈ a.items d, x.kind ≠ Token.startingTag.code := by
  intro x hx
  match a with
  | .empty tag => exact absurd rfl (h tag)
  | .cdata _ | .comment _ | .pi _ none | .pi _ (some (_, _)) =>
    simp only [Atom.items, List.mem_cons, List.not_mem_nil, or_false] at hx
    rcases hx with rfl | rfl <;> simp [item, Token.code]

theorem text_kind {d : Int} {t : Text} : ∀ x ∈ textItems d t, x.kind ≠ Token.startingTag.code := by
  intro x hx
  rw [textItems] at hx
  split at hx
  · cases hx
  · rw [List.mem_singleton.1 hx]; simp [item, Token.code]

theorem misc_kind {d : Int} {ms : List Misc} (h : ∀ m ∈ ms, m.WellFormed) :
    ∀ x ∈ ms.flatMap (fun m => m.atom.items d), x.kind ≠ Token.startingTag.code := by
  intro x hx
  obtain ⟨m, hm, hx⟩ := List.mem_flatMap.1 hx
  refine Atom.kind ?_ x hx
  rintro tag e
  rcases (h m hm).kind with ⟨c, hc⟩ | ⟨t, y, hc⟩ <;> rw [hc] at e <;> cases e

theorem declAttr_kind {a : DeclAttr} {n : List UInt8} : ∀ x ∈ a.items n, x.kind ≠ Token.startingTag.code := by
  intro x hx
  simp only [DeclAttr.items, List.mem_cons, List.not_mem_nil, or_false] at hx
  rcases hx with rfl | rfl <;> simp [item, Token.code]

theorem decl_kind {o : Option Decl} : ∀ x ∈ (o.map Decl.items).getD [], x.kind ≠ Token.startingTag.code := by
  intro x hx
  cases o with
  | none => cases hx
  | some d =>
    simp only [Option.map_some, Option.getD_some, Decl.items, List.mem_append] at hx
    rcases hx with (hx | hx) | hx
    · exact declAttr_kind x hx
    · cases he : d.encoding with
      | none => rw [he] at hx; cases hx
      | some a => rw [he] at hx; exact declAttr_kind x hx
    · cases he : d.standalone with
      | none => rw [he] at hx; cases hx
      | some a => rw [he] at hx; exact declAttr_kind x hx

/-! ## Reading the records -/

theorem textRecs_fits {t : Token} {o l d : Int} (h : l ≤ Grammar.maxLen) : Grammar.textRecs t o l d = [⟨t, o, l, d⟩] := by
  rw [Grammar.textRecs, if_neg (by omega)]

theorem or_mod {c n : Nat} (hc : c ≤ 511) (hn : n ≤ 2047) : (c <<< 1 ||| n) % 2048 = (c <<< 1 ||| n) := by
  refine Nat.mod_eq_of_lt (Nat.or_lt_two_pow (n := 11) ?_ (by omega))
  rw [Nat.shiftLeft_eq]; omega

theorem StartTag.Fit.named {d : Nat} {t : StartTag} (h : t.Fit d) : t.Named := ⟨h.name, fun a ha => (h.attrs a ha).name⟩

theorem StartTag.readStored {t : StartTag} {d : Nat} (hn : t.Named) (hc : lastColon 0 0 t.name ≤ 511) {o : Int} {pre post doc : List UInt8}
    (hd : doc = pre ++ (t.bytes ++ post)) (ho : o = pre.length) (hpost : post ≠ []) :
    Shown ((t.stored d o).map (readRec doc)) (t.items d) := by
  simp only [StartTag.stored, List.map_cons, StartTag.items]
  rw [attrs_read hn.2 (pre := pre ++ (ch% '<' :: t.name)) (post := t.space ++ post) (by simp [hd, StartTag.bytes])
      (by simp [ho]; omega)]
  have e : doc.drop (o + 1).toNat = t.name ++ (t.attrs.flatMap Attr.bytes ++ (t.space ++ post)) := by
    rw [show (o + 1).toNat = (pre ++ [ch% '<']).length by simp [ho], hd]
    rw [show pre ++ (t.bytes ++ post) = (pre ++ [ch% '<']) ++ (t.name ++ (t.attrs.flatMap Attr.bytes ++ (t.space ++ post))) by
      simp [StartTag.bytes], List.drop_left]
  have text : (readRec doc ⟨.startingTag, o + 1, ((lastColon 0 0 t.name <<< 1 ||| t.name.length : Nat) : Int), d⟩).text =
      t.name ++ (t.attrs.flatMap Attr.bytes ++ (t.space ++ post)).take ((lastColon 0 0 t.name <<< 1 ||| t.name.length) - t.name.length) := by
    simp only [readRec, true_or, if_true, Int.toNat_natCast, or_mod hc hn.1]
    rw [e, List.take_append (l₁ := t.name), List.take_of_length_le Nat.right_le_or]
  refine .cons ⟨rfl, rfl, ?_, ?_⟩ (.refl attrs_kind)
  · intro hr
    have : ¬ Overrun t.name := fun h => hr ⟨rfl, h⟩
    rw [Overrun, Classical.not_not] at this
    rw [text, this, Nat.sub_self, List.take_zero, List.append_nil]
    rfl
  · rintro ⟨-, hr⟩
    refine ⟨_, ?_, text⟩
    have : t.name.length ≤ (lastColon 0 0 t.name <<< 1 ||| t.name.length) := Nat.right_le_or
    have hr : (lastColon 0 0 t.name <<< 1 ||| t.name.length) ≠ t.name.length := hr
    rw [Ne, List.take_eq_nil_iff]
    rintro (h | h)
    · omega
    · simp [hpost] at h

theorem Atom.readStored {a : Atom} {d : Nat} {e : Int} (he : e = d - 1) (hf : a.Fit d) {k l : Nat}
    (hs : ∀ s ∈ a.spans k l, s.data.length ≤ maxLen) {o : Int} {pre post doc : List UInt8}
    (hd : doc = pre ++ (a.bytes ++ post)) (ho : o = pre.length) : Shown ((a.stored d o).map (readRec doc)) (a.items e) := by
  cases a with
  | empty tag =>
    have : e + 1 = d := by omega
    simp only [Atom.stored, Atom.items, this]
    exact StartTag.readStored hf.named hf.pre (pre := pre) (post := str% "/>" ++ post) (by simp [hd, Atom.bytes]) ho (by simp)
  | cdata data =>
    have h := hs _ (List.mem_singleton_self _)
    refine .of_eq ?_ (Atom.kind nofun)
    rw [Atom.stored, textRecs_fits (by exact_mod_cast h)]
    exact Atom.read (a := .cdata data) he nofun hd ho
  | comment data =>
    have h := hs _ (List.mem_singleton_self _)
    refine .of_eq ?_ (Atom.kind nofun)
    rw [Atom.stored, textRecs_fits (by exact_mod_cast h)]
    exact Atom.read (a := .comment data) he nofun hd ho
  | pi t x => exact .of_eq (Atom.read (a := .pi t x) he nofun hd ho) (Atom.kind nofun)

theorem text_readStored {t : Text} {d k l : Nat} {e : Int} (he : e = d - 1) (hs : ∀ s ∈ Content.textSpan k l t, s.data.length ≤ maxLen) {o : Int}
    {pre post doc : List UInt8} (hd : doc = pre ++ (t.bytes ++ post)) (ho : o = pre.length) :
    Shown ((Content.textStored d o t).map (readRec doc)) (textItems e t) := by
  refine .of_eq ?_ text_kind
  rw [← text_read he hd ho, Content.textStored, Content.textRecs]
  rw [Content.textSpan] at hs
  split
  · rfl
  · next h =>
    rw [if_neg h] at hs
    rw [textRecs_fits (by exact_mod_cast hs _ (List.mem_singleton_self _))]

theorem Content.readStored {c : Content} : ∀ {sole : Bool} {d k l : Nat} {e : Int} (_ : e = d - 1) (_ : c.Fit d)
    (_ : ∀ s ∈ c.spans k sole l, s.data.length ≤ maxLen) {o : Int}
    {pre post doc : List UInt8} (_ : doc = pre ++ (c.bytes ++ post)) (_ : o = pre.length),
    Shown ((c.stored d sole o).map (readRec doc)) (c.items e sole) := by
  induction c with
  | text t =>
    intro sole d k l e he h hs o pre post doc hd ho
    cases sole with
    | true =>
      refine .of_eq ?_ (by intro y hy; rw [List.mem_singleton.1 hy]; simp [item, Token.code])
      have h := hs _ (List.mem_singleton_self _)
      rw [Content.stored, if_pos rfl, textRecs_fits (by exact_mod_cast h)]
      exact Content.read (c := .text t) (sole := true) he nofun hd ho
    | false =>
      exact text_readStored he hs hd ho
  | atom t a rest ih =>
    intro sole d k l e he h hs o pre post doc hd ho
    obtain ⟨-, h2, h3⟩ := h
    simp only [Content.spans, List.forall_mem_append] at hs
    simp only [Content.stored, Content.items, List.map_append]
    exact ((text_readStored he hs.1.1 (pre := pre) (post := a.bytes ++ (rest.bytes ++ post)) (by simp [hd, Content.bytes]) ho).append
      (Atom.readStored he h2 hs.1.2 (pre := pre ++ t.bytes) (post := rest.bytes ++ post) (by simp [hd, Content.bytes]) (by simp [ho]))).append
      (ih he h3 hs.2 (pre := pre ++ (t.bytes ++ a.bytes)) (post := post) (by simp [hd, Content.bytes]) (by simp [ho]; omega))
  | element t tag body space rest ih1 ih2 =>
    intro sole d k l e he h hs o pre post doc hd ho
    obtain ⟨-, h2, h3, h4⟩ := h
    simp only [Content.spans, List.forall_mem_append] at hs
    have e1 : e + 1 = d := by omega
    simp only [Content.stored, Content.items, List.map_append, e1]
    exact (((text_readStored he hs.1.1 (pre := pre) (post := tag.bytes ++ ch% '>' :: (body.bytes ++
        (ch% '<' :: ch% '/' :: (tag.name ++ (space ++ ch% '>' :: (rest.bytes ++ post)))))) (by simp [hd, Content.bytes]) ho).append
      (StartTag.readStored h2.named h2.pre (pre := pre ++ t.bytes) (post := ch% '>' :: (body.bytes ++
        (ch% '<' :: ch% '/' :: (tag.name ++ (space ++ ch% '>' :: (rest.bytes ++ post)))))) (by simp [hd, Content.bytes]) (by simp [ho]) (by simp))).append
      (ih1 (e := d) (by omega) h3 hs.1.2 (pre := pre ++ (t.bytes ++ (tag.bytes ++ [ch% '>'])))
        (post := ch% '<' :: ch% '/' :: (tag.name ++ (space ++ ch% '>' :: (rest.bytes ++ post)))) (by simp [hd, Content.bytes])
        (by simp [ho]; omega))).append
      (ih2 he h4 hs.2 (pre := pre ++ (t.bytes ++ (tag.bytes ++ ch% '>' :: (body.bytes ++
        (ch% '<' :: ch% '/' :: (tag.name ++ (space ++ [ch% '>']))))))) (post := post) (by simp [hd, Content.bytes]) (by simp [ho]; omega))

theorem Root.readStored {r : Root} (h : r.Fit) {l : Nat} (hs : ∀ s ∈ r.spans l, s.data.length ≤ maxLen) {o : Int}
    {pre post doc : List UInt8} (hd : doc = pre ++ (r.bytes ++ post)) (ho : o = pre.length) :
    Shown ((r.stored o).map (readRec doc)) r.items := by
  cases r with
  | empty tag => exact StartTag.readStored h.named h.pre (pre := pre) (post := str% "/>" ++ post) (by simp [hd, Root.bytes]) ho (by simp)
  | element tag body space =>
    obtain ⟨h1, h2⟩ := h
    simp only [Root.stored, Root.items, List.map_append]
    exact (StartTag.readStored h1.named h1.pre (pre := pre)
        (post := ch% '>' :: (body.bytes ++ (ch% '<' :: ch% '/' :: (tag.name ++ (space ++ ch% '>' :: post)))))
        (by simp [hd, Root.bytes]) ho (by simp)).append
      (Content.readStored (e := 0) (by simp) h2 hs (pre := pre ++ (tag.bytes ++ [ch% '>']))
        (post := ch% '<' :: ch% '/' :: (tag.name ++ (space ++ ch% '>' :: post))) (by simp [hd, Root.bytes]) (by simp [ho]; omega))

theorem misc_readStored {ms : List Misc} : ∀ {l : Nat} (_ : ∀ m ∈ ms, m.WellFormed) (_ : ∀ s ∈ miscSpans l ms, s.data.length ≤ maxLen)
    {o : Int} {pre post doc : List UInt8} (_ : doc = pre ++ (ms.flatMap Misc.bytes ++ post)) (_ : o = pre.length),
    (miscStored o ms).map (readRec doc) = ms.flatMap fun m => m.atom.items (-1) := by
  intro l h hs o pre post doc hd ho
  rw [← misc_read h hd ho]
  congr 1
  clear hd ho
  induction ms generalizing l o with
  | nil => rfl
  | cons m ms ih =>
    simp only [miscSpans, List.forall_mem_append] at hs
    rw [miscStored, miscRecs, ih (fun x hx => h x (List.mem_cons_of_mem _ hx)) hs.2]
    congr 1
    rcases (h m (by simp)).kind with ⟨c, hc⟩ | ⟨t, y, hc⟩
    · rw [hc] at hs ⊢
      exact textRecs_fits (by exact_mod_cast hs.1 _ (List.mem_singleton_self _))
    · rw [hc]; rfl

theorem Document.readStored {t : Document} (h : t.Regular) {o : Int} {pre post doc : List UInt8} (hd : doc = pre ++ (t.bytes ++ post))
    (ho : o = pre.length) : Shown ((docRec :: t.stored o).map (readRec doc)) t.items := by
  have h0 : readRec doc docRec = item .document (-1) [] := rfl
  have hdecl : ((t.decl.map (Decl.recs o)).getD []).map (readRec doc) = (t.decl.map Decl.items).getD [] := by
    cases hx : t.decl with
    | none => rfl
    | some x =>
      simp only [Option.map_some, Option.getD_some]
      exact Decl.read (pre := pre) (post := t.prolog.flatMap Misc.bytes ++ (t.space ++ (t.root.bytes ++
        (t.epilog.flatMap Misc.bytes ++ (t.space1 ++ post))))) (by simp [hd, Document.bytes, Document.declBytes, hx]) ho
  have hs := h.short
  simp only [Document.Short, Document.spans, List.forall_mem_append] at hs
  simp only [Document.stored, List.map_cons, List.map_append, Document.items, h0, hdecl]
  rw [misc_readStored h.syn.prolog hs.1.1 (pre := pre ++ t.declBytes)
      (post := t.space ++ (t.root.bytes ++ (t.epilog.flatMap Misc.bytes ++ (t.space1 ++ post))))
      (by simp [hd, Document.bytes]) (by simp [ho]),
    misc_readStored h.syn.epilog hs.2
      (pre := pre ++ (t.declBytes ++ (t.prolog.flatMap Misc.bytes ++ (t.space ++ t.root.bytes))))
      (post := t.space1 ++ post) (by simp [hd, Document.bytes]) (by simp only [ho, List.length_append]; omega)]
  refine .cons (.refl fun h => absurd h.1 (by decide)) (((Shown.refl ?_).append ?_).append (.refl (misc_kind h.syn.epilog)))
  · intro x hx
    exact (List.mem_append.1 hx).elim (decl_kind x) (misc_kind h.syn.prolog x)
  exact Root.readStored h.fits.root hs.1.2 (pre := pre ++ (t.declBytes ++ (t.prolog.flatMap Misc.bytes ++ t.space)))
      (post := t.epilog.flatMap Misc.bytes ++ (t.space1 ++ post)) (by simp [hd, Document.bytes])
      (by simp only [ho, List.length_append]; omega)

/-! ## Packed records -/

theorem textRecs_len {t : Token} {o d : Int} {l : Nat} : ∀ x ∈ Grammar.textRecs t o l d, 0 ≤ x.len := by
  intro x hx
  rw [Grammar.textRecs] at hx
  split at hx
  · rcases List.mem_append.1 hx with hx | hx
    · obtain ⟨i, -, rfl⟩ := List.mem_map.1 hx
      exact Int.natCast_nonneg _
    · obtain rfl := List.mem_singleton.1 hx
      simp only [Int.toNat_natCast]
      have := Nat.div_mul_le_self (l - 1) maxLen
      have : (((l - 1) / maxLen * maxLen : Nat) : Int) ≤ l := Int.ofNat_le.2 (by omega)
      rw [Int.natCast_mul] at this
      omega
  · obtain rfl := List.mem_singleton.1 hx
    exact Int.natCast_nonneg _

theorem StartTag.lenStored {t : StartTag} {d : Nat} {o : Int} : ∀ x ∈ t.stored d o, 0 ≤ x.len := by
  intro x hx
  rcases List.mem_cons.1 hx with rfl | hx
  · exact Int.natCast_nonneg _
  · exact attr_len _ _ x hx

theorem Atom.lenStored {a : Atom} {d : Nat} {o : Int} : ∀ x ∈ a.stored d o, 0 ≤ x.len := by
  intro x hx
  cases a with
  | empty tag => exact StartTag.lenStored x hx
  | cdata data => exact textRecs_len x hx
  | comment data => exact textRecs_len x hx
  | pi t y => exact Atom.len (a := .pi t y) x hx

theorem text_lenStored {t : Text} {d : Nat} {o : Int} : ∀ x ∈ Content.textStored d o t, 0 ≤ x.len := by
  intro x hx
  simp only [Content.textStored] at hx
  split at hx
  · simp at hx
  · exact textRecs_len x hx

theorem Content.lenStored {c : Content} : ∀ {sole : Bool} {d : Nat} {o : Int}, ∀ x ∈ c.stored d sole o, 0 ≤ x.len := by
  induction c with
  | text t =>
    intro sole d o x hx
    cases sole with
    | true => exact textRecs_len x hx
    | false => exact text_lenStored x hx
  | atom t a rest ih =>
    intro sole d o x hx
    simp only [Content.stored, List.mem_append] at hx
    rcases hx with (hx | hx) | hx
    · exact text_lenStored x hx
    · exact Atom.lenStored x hx
    · exact ih x hx
  | element t tag body space rest ih1 ih2 =>
    intro sole d o x hx
    simp only [Content.stored, List.mem_append] at hx
    rcases hx with ((hx | hx) | hx) | hx
    · exact text_lenStored x hx
    · exact StartTag.lenStored x hx
    · exact ih1 x hx
    · exact ih2 x hx

theorem misc_lenStored {ms : List Misc} : ∀ {o : Int}, ∀ x ∈ miscStored o ms, 0 ≤ x.len := by
  induction ms with
  | nil => intro o x hx; simp [miscStored] at hx
  | cons m ms ih =>
    intro o x hx
    simp only [miscStored, List.mem_append] at hx
    rcases hx with hx | hx
    · exact Atom.lenStored x hx
    · exact ih x hx

theorem Document.lenStored {t : Document} {o : Int} : ∀ x ∈ docRec :: t.stored o, 0 ≤ x.len := by
  intro x hx
  simp only [Document.stored, List.mem_cons, List.mem_append] at hx
  rcases hx with rfl | ((hx | hx) | hx) | hx
  · decide
  · exact Document.len (t := t) (o := o) x (by simp only [Document.recs, List.mem_cons, List.mem_append]; simp [hx])
  · exact misc_lenStored x hx
  · cases hr : t.root with
    | empty tag => rw [hr] at hx; exact StartTag.lenStored x hx
    | element tag body space =>
      rw [hr] at hx
      simp only [Root.stored, List.mem_append] at hx
      rcases hx with hx | hx
      · exact StartTag.lenStored x hx
      · exact Content.lenStored x hx
  · exact misc_lenStored x hx

theorem Document.okStored {t : Document} (h : t.Syntax) (hp : t.Plain) (hf : t.Fits) {pre : List UInt8} :
    ∀ x ∈ docRec :: t.stored pre.length, RecOk (pre ++ t.bytes) x := by
  have hd := Tree.Document.docStored (n := (pre ++ t.bytes).length) h hp hf
  have : Grammar.offset (pre ++ t.bytes).length t.bytes = pre.length := by
    simp only [Grammar.offset, List.length_append]; omega
  rw [this, ← document_iff] at hd
  have hok := hd.ok (doc := pre ++ t.bytes) (List.suffix_append _ _)
  intro x hx
  rcases List.mem_cons.1 hx with rfl | hx
  · exact RecOk.plain (by decide) (by decide) (by decide) (by decide) (by simp; omega) (by decide) (by decide)
  · exact hok x hx

/-- The records stored for a regular tree show its items, wherever its bytes stand in a slice. -/
theorem Document.spellStored {t : Document} (h : t.Regular) {pre post : List UInt8} (hl : (pre ++ t.bytes).length < 2 ^ 31) :
    Shown (((docRec :: t.stored pre.length).map Rec.word).map (readToken (pre ++ t.bytes ++ post))) t.items := by
  have key := Document.readStored h (pre := pre) (post := post) (List.append_assoc _ _ _) rfl
  have e : ((docRec :: t.stored pre.length).map Rec.word).map (readToken (pre ++ t.bytes ++ post)) =
      (docRec :: t.stored pre.length).map (readRec (pre ++ t.bytes ++ post)) := by
    rw [List.map_map]
    refine List.map_congr_left fun x hx => ?_
    refine read_word (doc' := pre ++ t.bytes) (Document.okStored h.syn h.plain h.fits x hx) hl ?_
    rintro ⟨-, h⟩
    have := Document.lenStored x hx
    omega
  rw [e]
  exact key

end Tree
end GoVtd
