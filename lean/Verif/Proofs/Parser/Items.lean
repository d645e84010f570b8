import Verif.Spec.Items
import Verif.Spec.Fits
import Verif.Props.Shape
import Verif.Props.Tree

/-!
# The records of a tree point to its items
-/

namespace GoVtd
namespace Tree
open Grammar Parser

/-- Reading a record before it is packed. -/
def readRec (doc : List UInt8) (x : Rec) : Item where
  kind := x.tok.code
  depth := x.depth
  text := (doc.drop x.off.toNat).take
    (if x.tok = .startingTag ∨ x.tok = .attrName ∨ x.tok = .attrNs then x.len.toNat % 2048 else x.len.toNat)

theorem take_at {pre text post : List UInt8} {o : Int} (ho : o = pre.length) :
    ((pre ++ (text ++ post)).drop o.toNat).take text.length = text := by
  subst ho
  rw [Int.toNat_natCast, List.drop_left, List.take_left]

theorem read_plain {t : Token} {d o l : Int} {pre text post doc : List UInt8} (hd : doc = pre ++ (text ++ post))
    (ht : t ≠ .startingTag ∧ t ≠ .attrName ∧ t ≠ .attrNs) (ho : o = pre.length) (hl : l = text.length) :
    readRec doc ⟨t, o, l, d⟩ = item t d text := by
  subst hd hl
  simp only [readRec, item, ht, or_self, if_false, Int.toNat_natCast, take_at ho]

theorem read_name {t : Token} {d o l : Int} {pre text post doc : List UInt8} {k : Nat} (hd : doc = pre ++ (text ++ post))
    (ht : t = .startingTag ∨ t = .attrName ∨ t = .attrNs) (ho : o = pre.length) (hl : l = ((k <<< 11 ||| text.length : Nat) : Int))
    (hn : text.length ≤ 2047) : readRec doc ⟨t, o, l, d⟩ = item t d text := by
  subst hd hl
  have : (k <<< 11 ||| text.length) % 2048 = text.length := by
    have e := Nat.shiftLeft_add_eq_or_of_lt (b := text.length) (i := 11) (by omega) k
    rw [← e, Nat.shiftLeft_eq]; omega
  simp only [readRec, item, ht, if_true, Int.toNat_natCast, this, take_at ho]

theorem Attr.read {a : Attr} (h : a.name.length ≤ 2047) {d : Nat} {o : Int} {pre post doc : List UInt8} (hd : doc = pre ++ (a.bytes ++ post))
    (ho : o = pre.length) : (a.recs d o).map (readRec doc) = a.items d := by
  simp only [Attr.recs, List.map_cons, List.map_nil, Attr.items, List.cons.injEq, and_true]
  constructor
  · refine read_name (pre := pre ++ a.space) (post := a.space1 ++ ch% '=' :: (a.space2 ++ a.quote :: (a.value.bytes ++ a.quote :: post)))
      (by simp [hd, Attr.bytes]) ?_ (by simp [ho]) rfl h
    split <;> simp
  · refine read_plain (pre := pre ++ (a.space ++ (a.name ++ (a.space1 ++ ch% '=' :: (a.space2 ++ [a.quote]))))) (post := a.quote :: post)
      (by simp [hd, Attr.bytes]) (by decide) ?_ rfl
    simp only [ho, Attr.bytes, List.length_append, List.length_cons, List.length_nil]; omega

theorem attrs_read {as : List Attr} : ∀ (_ : ∀ a ∈ as, a.name.length ≤ 2047) {d : Nat} {o : Int} {pre post doc : List UInt8}
    (_ : doc = pre ++ (as.flatMap Attr.bytes ++ post)) (_ : o = pre.length),
    (attrRecs d o as).map (readRec doc) = as.flatMap (Attr.items d) := by
  induction as with
  | nil => intros; rfl
  | cons a as ih =>
    intro h d o pre post doc hd ho
    simp only [attrRecs, List.map_append, List.flatMap_cons]
    rw [Attr.read (h a (by simp)) (pre := pre) (post := as.flatMap Attr.bytes ++ post) (by simp [hd]) ho,
      ih (fun a ha => h a (by simp [ha])) (pre := pre ++ a.bytes) (post := post) (by simp [hd]) (by simp [ho])]

/-- The names in a tag are short enough for their records. -/
def StartTag.Named (t : StartTag) : Prop := t.name.length ≤ 2047 ∧ ∀ a ∈ t.attrs, a.name.length ≤ 2047

theorem StartTag.read {t : StartTag} {d : Nat} (h : t.Named) {o : Int} {pre post doc : List UInt8}
    (hd : doc = pre ++ (t.bytes ++ post)) (ho : o = pre.length) : (t.recs d o).map (readRec doc) = t.items d := by
  simp only [StartTag.recs, List.map_cons, StartTag.items]
  rw [read_name (k := 0) (pre := pre ++ [ch% '<']) (text := t.name) (post := t.attrs.flatMap Attr.bytes ++ (t.space ++ post))
      (by simp [hd, StartTag.bytes]) (Or.inl rfl) (by simp [ho]) (by simp) h.1,
    attrs_read h.2 (pre := pre ++ (ch% '<' :: t.name)) (post := t.space ++ post) (by simp [hd, StartTag.bytes])
      (by simp [ho]; omega)]

theorem Atom.read {a : Atom} {d : Nat} {e : Int} (he : e = d - 1) (h : ∀ x ∈ a.tags d, x.2.Named) {o : Int} {pre post doc : List UInt8}
    (hd : doc = pre ++ (a.bytes ++ post)) (ho : o = pre.length) : (a.recs d o).map (readRec doc) = a.items e := by
  cases a with
  | empty tag =>
    have : e + 1 = d := by omega
    simp only [Atom.recs, Atom.items, this]
    exact StartTag.read (h _ (List.mem_singleton_self _)) (pre := pre) (post := str% "/>" ++ post) (by simp [hd, Atom.bytes]) ho
  | cdata data =>
    simp only [Atom.recs, Atom.items, List.map_cons, List.map_nil, he]
    rw [read_plain (pre := pre ++ str% "<![CDATA[") (post := str% "]]>" ++ post) (by simp [hd, Atom.bytes]) (by decide) (by simp [ho]) rfl]
  | comment data =>
    simp only [Atom.recs, Atom.items, List.map_cons, List.map_nil, he]
    rw [read_plain (pre := pre ++ str% "<!--") (post := str% "-->" ++ post) (by simp [hd, Atom.bytes]) (by decide) (by simp [ho]) rfl]
  | pi target data =>
    cases data with
    | none =>
      simp only [Atom.recs, Atom.items, List.map_cons, List.map_nil, he]
      rw [read_plain (pre := pre ++ str% "<?") (post := str% "?>" ++ post) (by simp [hd, Atom.bytes]) (by decide) (by simp [ho]) rfl,
        read_plain (l := 0) (pre := pre ++ str% "<?") (text := []) (post := target ++ (str% "?>" ++ post)) (by simp [hd, Atom.bytes])
          (by decide) (by simp [ho]) rfl]
    | some x =>
      obtain ⟨s, data⟩ := x
      simp only [Atom.recs, Atom.items, List.map_cons, List.map_nil, he]
      rw [read_plain (pre := pre ++ str% "<?") (post := s :: (data ++ (str% "?>" ++ post))) (by simp [hd, Atom.bytes]) (by decide)
          (by simp [ho]) rfl,
        read_plain (pre := pre ++ (str% "<?" ++ (target ++ [s]))) (post := str% "?>" ++ post) (by simp [hd, Atom.bytes]) (by decide)
          (by simp [ho]; omega) rfl]

theorem text_read {t : Text} {d : Nat} {e : Int} (he : e = d - 1) {o : Int} {pre post doc : List UInt8}
    (hd : doc = pre ++ (t.bytes ++ post)) (ho : o = pre.length) : (Content.textRecs d o t).map (readRec doc) = textItems e t := by
  simp only [Content.textRecs, textItems]
  split
  · rfl
  · simp only [List.map_cons, List.map_nil, he]
    rw [read_plain hd (by decide) ho rfl]

theorem Content.read {c : Content} : ∀ {sole : Bool} {d : Nat} {e : Int} (_ : e = d - 1) (_ : ∀ x ∈ c.tags d, x.2.Named) {o : Int}
    {pre post doc : List UInt8} (_ : doc = pre ++ (c.bytes ++ post)) (_ : o = pre.length),
    (c.recs d sole o).map (readRec doc) = c.items e sole := by
  induction c with
  | text t =>
    intro sole d e he h o pre post doc hd ho
    cases sole with
    | true =>
      simp only [Content.recs, Content.items, if_true, List.map_cons, List.map_nil, he]
      rw [read_plain (text := t.bytes) hd (by decide) ho rfl]
    | false =>
      simp only [Content.recs, Content.items]
      exact text_read he hd ho
  | atom t a rest ih =>
    intro sole d e he h o pre post doc hd ho
    have h2 := fun x hx => h x (List.mem_append_left _ hx)
    have h3 := fun x hx => h x (List.mem_append_right _ hx)
    simp only [Content.recs, Content.items, List.map_append]
    rw [text_read he (pre := pre) (post := a.bytes ++ (rest.bytes ++ post)) (by simp [hd, Content.bytes]) ho,
      Atom.read he h2 (pre := pre ++ t.bytes) (post := rest.bytes ++ post) (by simp [hd, Content.bytes]) (by simp [ho]),
      ih he h3 (pre := pre ++ (t.bytes ++ a.bytes)) (post := post) (by simp [hd, Content.bytes]) (by simp [ho]; omega)]
  | element t tag body space rest ih1 ih2 =>
    intro sole d e he h o pre post doc hd ho
    have h2 := h (d, tag) List.mem_cons_self
    have h3 := fun x hx => h x (List.mem_cons_of_mem _ (List.mem_append_left _ hx))
    have h4 := fun x hx => h x (List.mem_cons_of_mem _ (List.mem_append_right _ hx))
    have e1 : e + 1 = d := by omega
    simp only [Content.recs, Content.items, List.map_append, e1]
    rw [text_read he (pre := pre) (post := tag.bytes ++ ch% '>' :: (body.bytes ++
        (ch% '<' :: ch% '/' :: (tag.name ++ (space ++ ch% '>' :: (rest.bytes ++ post)))))) (by simp [hd, Content.bytes]) ho,
      StartTag.read h2 (pre := pre ++ t.bytes) (post := ch% '>' :: (body.bytes ++
        (ch% '<' :: ch% '/' :: (tag.name ++ (space ++ ch% '>' :: (rest.bytes ++ post)))))) (by simp [hd, Content.bytes]) (by simp [ho]),
      ih1 (e := d) (by omega) h3 (pre := pre ++ (t.bytes ++ (tag.bytes ++ [ch% '>'])))
        (post := ch% '<' :: ch% '/' :: (tag.name ++ (space ++ ch% '>' :: (rest.bytes ++ post)))) (by simp [hd, Content.bytes])
        (by simp [ho]; omega),
      ih2 he h4 (pre := pre ++ (t.bytes ++ (tag.bytes ++ ch% '>' :: (body.bytes ++
        (ch% '<' :: ch% '/' :: (tag.name ++ (space ++ [ch% '>']))))))) (post := post) (by simp [hd, Content.bytes]) (by simp [ho]; omega)]

theorem Root.read {r : Root} (h : ∀ x ∈ r.tags, x.2.Named) {o : Int} {pre post doc : List UInt8} (hd : doc = pre ++ (r.bytes ++ post))
    (ho : o = pre.length) : (r.recs o).map (readRec doc) = r.items := by
  cases r with
  | empty tag => exact StartTag.read (h _ (List.mem_singleton_self _)) (pre := pre) (post := str% "/>" ++ post) (by simp [hd, Root.bytes]) ho
  | element tag body space =>
    have h1 := h (0, tag) List.mem_cons_self
    have h2 := fun x hx => h x (List.mem_cons_of_mem _ hx)
    simp only [Root.recs, Root.items, List.map_append]
    rw [StartTag.read h1 (pre := pre) (post := ch% '>' :: (body.bytes ++ (ch% '<' :: ch% '/' :: (tag.name ++ (space ++ ch% '>' :: post)))))
        (by simp [hd, Root.bytes]) ho,
      Content.read (e := 0) (by simp) h2 (pre := pre ++ (tag.bytes ++ [ch% '>']))
        (post := ch% '<' :: ch% '/' :: (tag.name ++ (space ++ ch% '>' :: post))) (by simp [hd, Root.bytes]) (by simp [ho]; omega)]
    rfl

theorem Misc.WellFormed.no_tags {m : Misc} (h : m.WellFormed) : ∀ x ∈ m.atom.tags 0, x.2.Named := by
  intro x hx
  rcases h.kind with ⟨c, hc⟩ | ⟨t, y, hc⟩ <;> rw [hc] at hx <;> simp [Atom.tags] at hx

theorem misc_read {ms : List Misc} : ∀ (_ : ∀ m ∈ ms, m.WellFormed) {o : Int} {pre post doc : List UInt8}
    (_ : doc = pre ++ (ms.flatMap Misc.bytes ++ post)) (_ : o = pre.length),
    (miscRecs o ms).map (readRec doc) = ms.flatMap fun m => m.atom.items (-1) := by
  induction ms with
  | nil => intros; rfl
  | cons m ms ih =>
    intro h o pre post doc hd ho
    simp only [miscRecs, List.map_append, List.flatMap_cons]
    rw [Atom.read (e := -1) (by simp) (h m (by simp)).no_tags (pre := pre ++ m.space) (post := ms.flatMap Misc.bytes ++ post)
        (by simp [hd, Misc.bytes]) (by simp [ho]),
      ih (fun m hm => h m (by simp [hm])) (pre := pre ++ m.bytes) (post := post) (by simp [hd]) (by simp [ho])]

theorem DeclAttr.read {a : DeclAttr} {name : List UInt8} {o : Int} {pre post doc : List UInt8} (hd : doc = pre ++ (a.bytes name ++ post))
    (ho : o = pre.length) : (a.recs name o).map (readRec doc) = a.items name := by
  simp only [DeclAttr.recs, DeclAttr.items, List.map_cons, List.map_nil]
  rw [read_plain (pre := pre ++ a.space) (post := a.space1 ++ ch% '=' :: (a.space2 ++ a.quote :: (a.value ++ a.quote :: post)))
      (by simp [hd, DeclAttr.bytes]) (by decide) (by simp [ho]) rfl,
    read_plain (pre := pre ++ (a.space ++ (name ++ (a.space1 ++ ch% '=' :: (a.space2 ++ [a.quote]))))) (post := a.quote :: post)
      (by simp [hd, DeclAttr.bytes]) (by decide) (by simp only [ho, DeclAttr.bytes, List.length_append, List.length_cons, List.length_nil]; omega)
      rfl]

theorem opt_read {a : Option DeclAttr} {name : List UInt8} {o : Int} {pre post doc : List UInt8}
    (hd : doc = pre ++ (optBytes name a ++ post)) (ho : o = pre.length) :
    (optRecs name o a).map (readRec doc) = (a.map (DeclAttr.items name)).getD [] := by
  cases a with
  | none => rfl
  | some a => exact DeclAttr.read hd ho

theorem Decl.read {x : Decl} {o : Int} {pre post doc : List UInt8} (hd : doc = pre ++ (x.bytes ++ post)) (ho : o = pre.length) :
    (x.recs o).map (readRec doc) = x.items := by
  simp only [Decl.recs, Decl.items, List.map_append]
  rw [DeclAttr.read (pre := pre ++ str% "<?xml") (post := optBytes (str% "encoding") x.encoding ++
        (optBytes (str% "standalone") x.standalone ++ (x.space ++ (str% "?>" ++ post)))) (by simp [hd, Decl.bytes]) (by simp [ho]),
    opt_read (pre := pre ++ (str% "<?xml" ++ x.version.bytes (str% "version")))
      (post := optBytes (str% "standalone") x.standalone ++ (x.space ++ (str% "?>" ++ post))) (by simp [hd, Decl.bytes])
      (by simp [ho]; omega),
    opt_read (pre := pre ++ (str% "<?xml" ++ (x.version.bytes (str% "version") ++ optBytes (str% "encoding") x.encoding)))
      (post := x.space ++ (str% "?>" ++ post)) (by simp [hd, Decl.bytes]) (by simp [ho]; omega)]

theorem Document.read {t : Document} (hm : ∀ m ∈ t.prolog ++ t.epilog, m.WellFormed) (h : ∀ x ∈ t.tags, x.2.Named) {o : Int} {pre post doc : List UInt8} (hd : doc = pre ++ (t.bytes ++ post))
    (ho : o = pre.length) : (docRec :: t.recs o).map (readRec doc) = t.items := by
  have h0 : readRec doc docRec = item .document (-1) [] := rfl
  have hdecl : ((t.decl.map (Decl.recs o)).getD []).map (readRec doc) = (t.decl.map Decl.items).getD [] := by
    cases hx : t.decl with
    | none => rfl
    | some x =>
      simp only [Option.map_some, Option.getD_some]
      exact Decl.read (pre := pre) (post := t.prolog.flatMap Misc.bytes ++ (t.space ++ (t.root.bytes ++
        (t.epilog.flatMap Misc.bytes ++ (t.space1 ++ post))))) (by simp [hd, Document.bytes, Document.declBytes, hx]) ho
  simp only [Document.recs, List.map_cons, List.map_append, Document.items, h0, hdecl]
  rw [misc_read (fun m h => hm m (List.mem_append_left _ h)) (pre := pre ++ t.declBytes) (post := t.space ++ (t.root.bytes ++ (t.epilog.flatMap Misc.bytes ++ (t.space1 ++ post))))
      (by simp [hd, Document.bytes]) (by simp [ho]),
    Root.read h (pre := pre ++ (t.declBytes ++ (t.prolog.flatMap Misc.bytes ++ t.space)))
      (post := t.epilog.flatMap Misc.bytes ++ (t.space1 ++ post)) (by simp [hd, Document.bytes])
      (by simp only [ho, List.length_append]; omega),
    misc_read (fun m h => hm m (List.mem_append_right _ h))
      (pre := pre ++ (t.declBytes ++ (t.prolog.flatMap Misc.bytes ++ (t.space ++ t.root.bytes))))
      (post := t.space1 ++ post) (by simp [hd, Document.bytes]) (by simp only [ho, List.length_append]; omega)]

/-! ## Packed records -/

theorem attr_len {d : Nat} (as : List Attr) : ∀ (o : Int), ∀ x ∈ attrRecs d o as, 0 ≤ x.len := by
  induction as with
  | nil => intro o x hx; simp [attrRecs] at hx
  | cons a as ih =>
    intro o x hx
    simp only [attrRecs, Attr.recs, List.mem_append, List.mem_cons, List.not_mem_nil, or_false] at hx
    rcases hx with (rfl | rfl) | hx
    · exact Int.natCast_nonneg _
    · exact Int.natCast_nonneg _
    · exact ih _ x hx

theorem StartTag.len {t : StartTag} {d : Nat} {o : Int} : ∀ x ∈ t.recs d o, 0 ≤ x.len := by
  intro x hx
  rcases List.mem_cons.1 hx with rfl | hx
  · exact Int.natCast_nonneg _
  · exact attr_len _ _ x hx

theorem Atom.len {a : Atom} {d : Nat} {o : Int} : ∀ x ∈ a.recs d o, 0 ≤ x.len := by
  intro x hx
  cases a with
  | empty tag => exact StartTag.len x hx
  | cdata data => simp only [Atom.recs, List.mem_singleton] at hx; subst hx; exact Int.natCast_nonneg _
  | comment data => simp only [Atom.recs, List.mem_singleton] at hx; subst hx; exact Int.natCast_nonneg _
  | pi target data =>
    cases data with
    | none =>
      simp only [Atom.recs, List.mem_cons, List.not_mem_nil, or_false] at hx
      rcases hx with rfl | rfl
      · exact Int.natCast_nonneg _
      · exact Int.le_refl _
    | some y =>
      simp only [Atom.recs, List.mem_cons, List.not_mem_nil, or_false] at hx
      rcases hx with rfl | rfl <;> exact Int.natCast_nonneg _

theorem text_len {t : Text} {d : Nat} {o : Int} : ∀ x ∈ Content.textRecs d o t, 0 ≤ x.len := by
  intro x hx
  simp only [Content.textRecs] at hx
  split at hx
  · simp at hx
  · simp only [List.mem_singleton] at hx; subst hx; exact Int.natCast_nonneg _

theorem Content.len {c : Content} : ∀ {sole : Bool} {d : Nat} {o : Int}, ∀ x ∈ c.recs d sole o, 0 ≤ x.len := by
  induction c with
  | text t =>
    intro sole d o x hx
    cases sole with
    | true => simp only [Content.recs, if_true, List.mem_singleton] at hx; subst hx; exact Int.natCast_nonneg _
    | false => exact text_len x hx
  | atom t a rest ih =>
    intro sole d o x hx
    simp only [Content.recs, List.mem_append] at hx
    rcases hx with (hx | hx) | hx
    · exact text_len x hx
    · exact Atom.len x hx
    · exact ih x hx
  | element t tag body space rest ih1 ih2 =>
    intro sole d o x hx
    simp only [Content.recs, List.mem_append] at hx
    rcases hx with ((hx | hx) | hx) | hx
    · exact text_len x hx
    · exact StartTag.len x hx
    · exact ih1 x hx
    · exact ih2 x hx

theorem misc_len {ms : List Misc} : ∀ {o : Int}, ∀ x ∈ miscRecs o ms, 0 ≤ x.len := by
  induction ms with
  | nil => intro o x hx; simp [miscRecs] at hx
  | cons m ms ih =>
    intro o x hx
    simp only [miscRecs, List.mem_append] at hx
    rcases hx with hx | hx
    · exact Atom.len x hx
    · exact ih x hx

theorem declAttr_len {name : List UInt8} {a : DeclAttr} {o : Int} : ∀ x ∈ a.recs name o, 0 ≤ x.len := by
  intro x hx
  simp only [DeclAttr.recs, List.mem_cons, List.not_mem_nil, or_false] at hx
  rcases hx with rfl | rfl <;> exact Int.natCast_nonneg _

theorem Document.len {t : Document} {o : Int} : ∀ x ∈ docRec :: t.recs o, 0 ≤ x.len := by
  intro x hx
  have opt : ∀ {name : List UInt8} {a : Option DeclAttr} {o : Int}, ∀ x ∈ optRecs name o a, 0 ≤ x.len := by
    intro name a o x hx
    cases a with
    | none => simp [optRecs] at hx
    | some a => exact declAttr_len x hx
  simp only [Document.recs, List.mem_cons, List.mem_append] at hx
  rcases hx with rfl | ((hx | hx) | hx) | hx
  · decide
  · cases hd : t.decl with
    | none => simp [hd] at hx
    | some y =>
      simp only [hd, Option.map_some, Option.getD_some, Decl.recs, List.mem_append] at hx
      rcases hx with (hx | hx) | hx
      · exact declAttr_len x hx
      · exact opt x hx
      · exact opt x hx
  · exact misc_len x hx
  · cases hr : t.root with
    | empty tag => rw [hr] at hx; exact StartTag.len x hx
    | element tag body space =>
      rw [hr] at hx
      simp only [Root.recs, List.mem_append] at hx
      rcases hx with hx | hx
      · exact StartTag.len x hx
      · exact Content.len x hx
  · exact misc_len x hx

theorem read_word {doc doc' : List UInt8} {x : Rec} (h : RecOk doc' x) (hl : doc'.length < 2 ^ 31) (hb : ¬ x.Bad) :
    readToken doc x.word = readRec doc x := by
  obtain ⟨e1, e2, e3, e4, e5⟩ := Rec.fields h hl hb
  have h1 := h.depth0
  have h2 := h.depth1
  have hk : (IsStart x.word ∨ IsAttr x.word) ↔ (x.tok = .startingTag ∨ x.tok = .attrName ∨ x.tok = .attrNs) := by
    rw [isStart_iff h hl, isAttr_iff h hl]
  simp only [readToken, readRec, e1, e2, e3, e4, e5, hk, Item.mk.injEq, true_and, and_true]
  split <;> omega

/-! ## Supported trees -/

theorem StartTag.Supported.named {d : Nat} {t : StartTag} (h : t.Supported d) : t.Named := ⟨h.name, fun a ha => (h.attrs a ha).name⟩

theorem Atom.Supported.named {a : Atom} {d : Nat} (h : a.Supported d) : ∀ x ∈ a.tags d, x.2.Named := by
  cases a with
  | empty tag => intro x hx; obtain rfl := List.mem_singleton.1 hx; exact StartTag.Supported.named h
  | _ => nofun

theorem Content.Supported.named {c : Content} : ∀ {d : Nat} {b : Bool}, c.Supported d b → ∀ x ∈ c.tags d, x.2.Named := by
  induction c with
  | text t => nofun
  | atom t a rest ih =>
    intro d b h x hx
    rcases List.mem_append.1 hx with hx | hx
    · exact Atom.Supported.named h.2.1 x hx
    · exact ih h.2.2 x hx
  | element t tag body space rest ih1 ih2 =>
    intro d b h x hx
    rcases List.mem_cons.1 hx with rfl | hx
    · exact StartTag.Supported.named h.2.1
    rcases List.mem_append.1 hx with hx | hx
    · exact ih1 h.2.2.1 x hx
    · exact ih2 h.2.2.2 x hx

theorem Document.Supported.named {t : Document} (h : t.Supported) : ∀ x ∈ t.tags, x.2.Named := by
  have := h.root
  simp only [Document.tags]
  cases hr : t.root with
  | empty tag =>
    rw [hr] at this
    intro x hx; obtain rfl := List.mem_singleton.1 hx; exact StartTag.Supported.named this
  | element tag body space =>
    rw [hr] at this
    intro x hx
    rcases List.mem_cons.1 hx with rfl | hx
    · exact StartTag.Supported.named this.1
    · exact Content.Supported.named this.2 x hx

theorem Document.WellFormed.miscs {t : Document} (h : t.WellFormed) : ∀ m ∈ t.prolog ++ t.epilog, m.WellFormed := by
  intro m hm
  rcases List.mem_append.1 hm with hm | hm
  · exact h.prolog m hm
  · exact h.epilog m hm

/-- The records of a supported tree read as its items, wherever its bytes stand in a slice. -/
theorem Document.spell {t : Document} (hw : t.WellFormed) (hs : t.Supported) {pre post : List UInt8}
    (hl : (pre ++ t.bytes).length < 2 ^ 31) :
    ((docRec :: t.recs pre.length).map Rec.word).map (readToken (pre ++ t.bytes ++ post)) = t.items := by
  have hd := Tree.Document.doc (n := (pre ++ t.bytes).length) hw hs
  have : Grammar.offset (pre ++ t.bytes).length t.bytes = pre.length := by
    simp only [Grammar.offset, List.length_append]; omega
  rw [this, ← document_iff] at hd
  have hok := hd.ok (doc := pre ++ t.bytes) (List.suffix_append _ _)
  rw [← Document.read hw.miscs hs.named (pre := pre) (post := post) (List.append_assoc _ _ _) rfl, List.map_map]
  refine List.map_congr_left fun x hx => ?_
  have hn : ¬ x.Bad := by
    rintro ⟨-, h⟩
    have := Document.len x hx
    omega
  refine read_word (doc' := pre ++ t.bytes) ?_ hl hn
  rcases List.mem_cons.1 hx with rfl | hx
  · exact RecOk.plain (by decide) (by decide) (by decide) (by decide) (by simp; omega) (by decide) (by decide)
  · exact hok x hx

end Tree
end GoVtd
