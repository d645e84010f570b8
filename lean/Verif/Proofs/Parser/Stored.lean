import Verif.Spec.Stored
import Verif.Proofs.Parser.Fits

/-!
# The records that are stored for a tree
-/

namespace GoVtd
namespace Tree

open Grammar

/-! ## Tags -/

theorem Attr.restStored {n d : Nat} {a : Attr} (h : a.Syntax) (hs : a.Fit) {seen : List (List UInt8)}
    (h1 : a.name ∉ seen) (h2 : seen.length < 256) {r recs e r'} (ht : TagRest n d (a.name :: seen) r recs e r') :
    TagRest n d seen (a.bytes ++ r) (a.recs d (Grammar.offset n (a.bytes ++ r)) ++ recs) e r' := by
  obtain ⟨b, run, hn, hb, hr⟩ := h.name
  have hv := (attrBody_iff (r := r) (r' := r) h.quote h.value).2 ⟨hs.refs, rfl⟩
  have := TagRest.attr (n := n) (depth := d) (seen := seen) (w := a.space) (b := b) (run := run) (w1 := a.space1) (w2 := a.space2)
    (q := a.quote) (r := a.value.bytes ++ a.quote :: r) (r1 := r) h.space.1 h.space.2.1 hb hr (hn ▸ h1) h2
    (hn ▸ hs.pre) (by have := hs.name; rw [hn] at this; simpa using this) h.space.2.2.1 h.space.2.2.2 h.quote hv
    (by simp only [List.length_append, List.length_cons]; have := hs.value; omega) (hn ▸ ht)
  have e1 : a.space ++ b :: run ++ a.space1 ++ ch% '=' :: a.space2 ++ a.quote :: (a.value.bytes ++ a.quote :: r) =
      a.bytes ++ r := by
    simp [Attr.bytes, hn]
  rw [e1] at this
  have e2 : a.recs d (Grammar.offset n (a.bytes ++ r)) ++ recs =
      attrRec n d (b :: run ++ a.space1 ++ ch% '=' :: a.space2 ++ a.quote :: (a.value.bytes ++ a.quote :: r)) (b :: run) ::
        ⟨.attrVal, Grammar.offset n (a.value.bytes ++ a.quote :: r),
          (a.value.bytes ++ a.quote :: r).length - (r.length + 1), d⟩ :: recs := by
    rw [← e1]
    simp only [Attr.recs, attrRec, List.cons_append, List.nil_append]
    congr 1
    · rw [← hn]
      congr 1
      · by_cases hc : Grammar.IsNs a.name
        · rw [if_pos hc, if_pos (Attr.isNs_iff.2 hc)]
        · rw [if_neg hc, if_neg (mt Attr.isNs_iff.1 hc)]
      · have : a.name.length = run.length + 1 := by rw [hn]; rfl
        simp only [Grammar.offset, List.length_append, List.length_cons]; omega
    · congr 1
      simp only [Rec.mk.injEq, true_and, and_true]
      constructor
      · simp only [Grammar.offset, List.length_append, List.length_cons, List.length_nil, Attr.bytes, hn]; omega
      · simp only [List.length_append, List.length_cons]; omega
  rw [e2]
  exact this

theorem attrs_restStored {n d : Nat} {as : List Attr} (h : ∀ a ∈ as, a.Syntax) (hs : ∀ a ∈ as, a.Fit)
    {seen : List (List UInt8)} (h1 : (as.map Attr.name).Nodup) (h2 : ∀ a ∈ as, a.name ∉ seen)
    (h3 : seen.length + as.length ≤ 256) {w : List UInt8} (hw : AllWs w) {r e r'} (hc : Close r e r') :
    TagRest n d seen (as.flatMap Attr.bytes ++ (w ++ r)) (attrRecs d (Grammar.offset n (as.flatMap Attr.bytes ++ (w ++ r))) as) e r' := by
  induction as generalizing seen with
  | nil => exact TagRest.close (w := w) hw hc
  | cons a as ih =>
    simp only [List.map_cons, List.nodup_cons] at h1
    simp only [List.length_cons] at h3
    have := ih (seen := a.name :: seen) (fun x hx => h x (by simp [hx])) (fun x hx => hs x (by simp [hx])) h1.2 (by
      intro x hx hm
      rcases List.mem_cons.1 hm with e | hm
      · exact h1.1 (e ▸ List.mem_map_of_mem hx)
      · exact h2 x (by simp [hx]) hm) (by simp only [List.length_cons]; omega)
    have := Attr.restStored (h a (by simp)) (hs a (by simp)) (h2 a (by simp)) (by omega) this
    simp only [List.flatMap_cons, attrRecs, List.append_assoc]
    rw [← offset_app n a.bytes]
    exact this

theorem StartTag.tagStored {n d : Nat} {t : StartTag} (h : t.Syntax) (hs : t.Fit d) {c : UInt8} {r r' : List UInt8} {e : Bool}
    (hc : ¬ NameByte c) (hcl : Close (c :: r) e r') :
    ∃ s, t.bytes ++ c :: r = ch% '<' :: s ∧ Tag n d [] t.name s (t.stored d (Grammar.offset n (t.bytes ++ c :: r))) e r' ∧
      ∃ b s', s = b :: s' ∧ StartByte b := by
  obtain ⟨b, run, hn, hb, hr⟩ := h.name
  obtain ⟨x, y, hxy, hx⟩ := StartTag.next h (s := r) hc
  refine ⟨b :: (run ++ x :: y), ?_, ?_, _, _, rfl, hb⟩
  · rw [← hxy]; simp [StartTag.bytes, hn]
  have ht := attrs_restStored (n := n) (d := d) (seen := []) h.attrs hs.attrs hs.unique (by simp) (by have := hs.count; simpa using this)
    h.space hcl
  have e1 : t.stored d (Grammar.offset n (t.bytes ++ c :: r)) =
      (⟨.startingTag, Grammar.offset n ([] ++ b :: (run ++ x :: y)), ((lastColon (([] : List UInt8).length + 1) 0 run <<< 1 |||
        (([] : List UInt8) ++ b :: run).length : Nat) : Int), d⟩ : Rec) ::
        attrRecs d (Grammar.offset n (t.attrs.flatMap Attr.bytes ++ (t.space ++ c :: r))) t.attrs := by
    have e0 : lastColon 0 0 t.name = lastColon (([] : List UInt8).length + 1) 0 run := by rw [hn]; exact lastColon_one b run
    simp only [StartTag.stored, List.nil_append, e0]
    congr 1
    · simp only [Rec.mk.injEq, true_and, and_true]
      constructor
      · rw [← hxy]
        simp only [StartTag.bytes, hn, Grammar.offset, List.length_append, List.length_cons]; omega
      · rw [hn]
    · congr 1
      simp only [StartTag.bytes, hn, Grammar.offset, List.length_append, List.length_cons]; omega
  rw [e1, hxy, hn]
  rw [hxy] at ht
  refine Tag.mk (pre := []) hb hr hx hs.depth ?_ ?_ ht
  · have := hs.pre; rw [hn, lastColon_one] at this; exact this
  · have := hs.name; rw [hn] at this; exact this

theorem commentStored {n : Nat} {d : Nat} {data r : List UInt8} :
    Grammar.textRecs .comment (Grammar.offset n (data ++ (str% "-->" ++ r))) ((data ++ (str% "-->" ++ r)).length - (r.length + 3)) (d - 1) =
      (Atom.comment data).stored d (Grammar.offset n ((Atom.comment data).bytes ++ r)) := by
  have e1 : ((data ++ (str% "-->" ++ r)).length - (r.length + 3) : Int) = data.length := by
    simp only [List.length_append, List.length_cons, List.length_nil]; omega
  have e2 : (Grammar.offset n ((Atom.comment data).bytes ++ r) + 4 : Int) = Grammar.offset n (data ++ (str% "-->" ++ r)) := by
    simp only [Atom.bytes, Grammar.offset, List.length_append, List.length_cons, List.length_nil]; omega
  rw [e1]
  simp only [Atom.stored, e2]

theorem cdataStored {n : Nat} {d : Nat} {data r : List UInt8} :
    Grammar.textRecs .cdataVal (Grammar.offset n (data ++ (str% "]]>" ++ r))) ((data ++ (str% "]]>" ++ r)).length - (r.length + 3)) (d - 1) =
      (Atom.cdata data).stored d (Grammar.offset n ((Atom.cdata data).bytes ++ r)) := by
  have e1 : ((data ++ (str% "]]>" ++ r)).length - (r.length + 3) : Int) = data.length := by
    simp only [List.length_append, List.length_cons, List.length_nil]; omega
  have e2 : (Grammar.offset n ((Atom.cdata data).bytes ++ r) + 9 : Int) = Grammar.offset n (data ++ (str% "]]>" ++ r)) := by
    simp only [Atom.bytes, Grammar.offset, List.length_append, List.length_cons, List.length_nil]; omega
  rw [e1]
  simp only [Atom.stored, e2]

theorem Atom.insideStored {n d : Nat} {a : Atom} (h : a.Syntax) (hs : a.Fit d)
    (hp : ∀ data, a = .cdata data → ¬ HasPair (ch% ']') (ch% '>') data) {r recs r'}
    (hi : Inside n d (.content .other) r recs r') :
    ∃ s, a.bytes ++ r = ch% '<' :: s ∧ s.head? ≠ some (ch% '/') ∧
      Inside n d .markup s (a.stored d (Grammar.offset n (a.bytes ++ r)) ++ recs) r' := by
  cases a with
  | empty tag =>
    obtain ⟨s, h1, h2, b, s', h3, h4⟩ := StartTag.tagStored (n := n) (c := ch% '/') (r := ch% '>' :: r) (r' := r) (e := true) h hs
      close_not_name.2.1 .empty
    have e : (Atom.empty tag).bytes ++ r = tag.bytes ++ ch% '/' :: ch% '>' :: r := by simp [Atom.bytes]
    rw [e]
    refine ⟨s, h1, ?_, ?_⟩
    · subst h3
      simp only [List.head?_cons, ne_eq, Option.some.injEq]
      rintro rfl; exact close_not_name.2.1 (Or.inl h4)
    · exact Inside.empty h2 hi
  | cdata data =>
    refine ⟨str% "![CDATA[" ++ (data ++ (str% "]]>" ++ r)), by simp [Atom.bytes], by simp, ?_⟩
    rw [← cdataStored]
    exact Inside.cdata (cdataBody h.1 (hp data rfl) r) hi
  | comment data =>
    refine ⟨str% "!--" ++ (data ++ (str% "-->" ++ r)), by simp [Atom.bytes], by simp, ?_⟩
    rw [← commentStored]
    exact Inside.comment (commentBody h.1 h.2 r) hi
  | pi target data =>
    obtain ⟨s, h1, h2⟩ := piAtom (n := n) (d := d) h hs r
    exact ⟨ch% '?' :: s, h1, by simp, Inside.pi h2 hi⟩

/-! ## Content -/

/-- What a text that is not blank is for the grammar. -/
theorem Text.insideStored {n d : Nat} {prev : Prev} {t : Text} (h : t.Syntax) (hs : TextFit t)
    (hq : prev = .end → Content.Plain.First t) (hb : Content.Blank t = false) {s recs r'}
    (hi : Inside n d .markup s recs r') :
    Inside n d (.content prev) (t.bytes ++ ch% '<' :: s)
      (Grammar.textRecs .characterData (Grammar.offset n (t.bytes ++ ch% '<' :: s)) t.bytes.length (d - 1) ++ recs) r' := by
  rcases split_ws t.bytes with hw | ⟨w, b, r, h1, h2, h3⟩
  · rw [blank_iff.2 hw] at hb; simp at hb
  have ht := (textBody_iff (r := s) (r' := s) h.1).2 ⟨hs.1, hs.2, rfl⟩
  have hf : prev = .end → b ≠ ch% '&' ∧ b ≠ ch% ']' := fun e => hq e w b r h1 h2 h3
  rw [h1] at ht ⊢
  rw [List.append_assoc] at ht
  have ht := textBody_ws ht h2
  have hlt := textBody_first ht
  have := Inside.text (n := n) (d := d) (prev := prev) (w := w) (b := b) (r := r ++ ch% '<' :: s) (r1 := s) h2 h3 hlt ?_ ht hi
  · have e : ((w ++ b :: (r ++ ch% '<' :: s)).length - (s.length + 1) : Int) = (w ++ b :: r).length := by
      simp only [List.length_append, List.length_cons]; omega
    rw [e] at this
    simpa using this
  · intro e
    obtain ⟨f1, f2⟩ := hf e
    generalize hz : b :: r ++ ch% '<' :: s = z at ht
    cases ht with
    | stop => simp at hz; exact absurd hz.1 hlt
    | char hc _ =>
      simp only [List.cons_append, List.cons.injEq] at hz
      rw [hz.1]; exact hc
    | item hi _ =>
      cases hi <;> simp only [List.cons_append, List.cons.injEq] at hz
      · exact absurd hz.1 f1
      · exact absurd hz.1 f2

theorem Text.leadStored {n d : Nat} {prev : Prev} {t : Text} (h : t.Syntax) (hs : TextFit t)
    (hq : prev = .end → Content.Plain.First t) {s recs r'} (hh : prev = .start → s.head? ≠ some (ch% '/'))
    (hi : Inside n d .markup s recs r') :
    Inside n d (.content prev) (t.bytes ++ ch% '<' :: s)
      (Content.textStored d (Grammar.offset n (t.bytes ++ ch% '<' :: s)) t ++ recs) r' := by
  by_cases hb : Content.Blank t
  · rw [Content.textStored, if_pos hb]
    exact Inside.space (blank_iff.1 hb) hh hi
  · rw [Content.textStored, if_neg hb]
    exact Text.insideStored h hs hq (by simpa using hb) hi

theorem Content.insideStored {n : Nat} {c : Content} : ∀ {d : Nat} {prev : Prev} {tail : List UInt8}, c.Syntax →
    c.Fit d → c.Plain (decide (prev = .end)) →
    Inside n d (.content prev) (c.bytes ++ ch% '<' :: ch% '/' :: tail)
      (c.stored d (decide (prev = .start)) (Grammar.offset n (c.bytes ++ ch% '<' :: ch% '/' :: tail))) tail := by
  induction c with
  | text t =>
    intro d prev tail h hs hq
    simp only [Content.bytes, Content.stored]
    by_cases hp : prev = .start
    · subst hp
      rw [if_pos (by simp)]
      cases hb : Content.Blank t with
      | true =>
        have := Inside.gap (n := n) (d := d) (w := t.bytes) (r := tail) (blank_iff.1 hb)
        exact this
      | false => exact by simpa using Text.insideStored h hs (fun e => absurd e (by simp)) hb (Inside.endTag (r := tail))
    · rw [if_neg (by simpa using hp)]
      have := Text.leadStored (n := n) (d := d) (prev := prev) h hs (fun e => hq (by simp [e])) (fun e => absurd e hp) (Inside.endTag (r := tail))
      rwa [List.append_nil] at this
  | atom t a rest ih =>
    intro d prev tail h hs hp
    obtain ⟨h1, h2, h3⟩ := h
    obtain ⟨s1, s2, s3⟩ := hs
    obtain ⟨p1, p2, p3⟩ := hp
    have := ih (d := d) (prev := .other) (tail := tail) h3 s3 p3
    obtain ⟨s, e1, e2, e3⟩ := Atom.insideStored h2 s2 p2 this
    have := Text.leadStored (prev := prev) h1 s1 (fun e => p1 (by simp [e])) (fun _ => e2) e3
    have e0 : (Content.atom t a rest).bytes ++ ch% '<' :: ch% '/' :: tail = t.bytes ++ ch% '<' :: s := by
      rw [← e1]; simp [Content.bytes]
    rw [e0]
    simp only [Content.stored, List.append_assoc]
    have o1 : Grammar.offset n (t.bytes ++ ch% '<' :: s) + t.bytes.length =
        Grammar.offset n (a.bytes ++ (rest.bytes ++ ch% '<' :: ch% '/' :: tail)) := by
      rw [e1, ← offset_app]
    rw [o1, ← offset_app]
    exact this
  | element t tag body space rest ih1 ih2 =>
    intro d prev tail h hs hp
    obtain ⟨h1, h2, h3, h4, h5⟩ := h
    obtain ⟨s1, s2, s3, s4⟩ := hs
    obtain ⟨p1, p2, p3⟩ := hp
    have i2 := ih2 (d := d) (prev := .end) (tail := tail) h5 s4 p3
    have i1 := ih1 (d := d + 1) (prev := .start)
      (tail := tag.name ++ space ++ ch% '>' :: (rest.bytes ++ ch% '<' :: ch% '/' :: tail)) h3 s3 p2
    obtain ⟨s, e1, e2, b, s', e3, e4⟩ := StartTag.tagStored (n := n) (c := ch% '>') (e := false) h2 s2 close_not_name.1
      (.start (r := body.bytes ++ ch% '<' :: ch% '/' :: (tag.name ++ space ++ ch% '>' ::
        (rest.bytes ++ ch% '<' :: ch% '/' :: tail))))
    have hi := Inside.element e2 i1 h4 i2
    have hh : s.head? ≠ some (ch% '/') := by
      subst e3
      simp only [List.head?_cons, ne_eq, Option.some.injEq]
      rintro rfl; exact close_not_name.2.1 (Or.inl e4)
    have := Text.leadStored (prev := prev) h1 s1 (fun e => p1 (by simp [e])) (fun _ => hh) hi
    have e0 : (Content.element t tag body space rest).bytes ++ ch% '<' :: ch% '/' :: tail = t.bytes ++ ch% '<' :: s := by
      rw [← e1]; simp [Content.bytes]
    rw [e0]
    simp only [Content.stored, List.append_assoc]
    simp only [List.append_assoc] at this
    have o1 : Grammar.offset n (t.bytes ++ ch% '<' :: s) + t.bytes.length =
        Grammar.offset n (tag.bytes ++ ch% '>' :: (body.bytes ++ ch% '<' :: ch% '/' :: (tag.name ++ space ++ ch% '>' ::
        (rest.bytes ++ ch% '<' :: ch% '/' :: tail)))) := by
      rw [e1, ← offset_app]
    rw [o1]
    have o2 : ∀ r, (Grammar.offset n (tag.bytes ++ ch% '>' :: r) + tag.bytes.length + 1 : Int) = Grammar.offset n r := by
      intro r; simp only [Grammar.offset, List.length_append, List.length_cons]; omega
    rw [o2, ← offset_app]
    have o3 : ∀ r, (Grammar.offset n (ch% '<' :: ch% '/' :: (tag.name ++ space ++ ch% '>' :: r)) +
        (2 + tag.name.length + space.length + 1) : Int) = Grammar.offset n r := by
      intro r; simp only [Grammar.offset, List.length_append, List.length_cons]; omega
    rw [o3]
    simpa using this

/-! ## The document -/

theorem miscStored_pi {ms : List Misc} (h : ∀ m ∈ ms, ∃ t x, m.atom = .pi t x) : ∀ o, miscStored o ms = miscRecs o ms := by
  induction ms with
  | nil => intro o; rfl
  | cons m ms ih =>
    intro o
    obtain ⟨t, x, e⟩ := h m (by simp)
    rw [miscStored, miscRecs, ih (fun x hx => h x (by simp [hx])), e]
    cases x <;> rfl

theorem Root.rootStored {n : Nat} {x : Root} (h : x.Syntax) (hs : x.Fit)
    (hp : ∀ tag body space, x = .element tag body space → body.Plain false) {r recs} (he : Epilog n r recs) :
    ∃ b s, x.bytes ++ r = ch% '<' :: b :: s ∧ StartByte b ∧
      Grammar.Root n [] (b :: s) (x.stored (Grammar.offset n (x.bytes ++ r)) ++ recs) := by
  cases x with
  | empty tag =>
    obtain ⟨s, h1, h2, b, s', h3, h4⟩ := StartTag.tagStored (n := n) (c := ch% '/') (r := ch% '>' :: r) (r' := r) (e := true) h hs
      close_not_name.2.1 .empty
    have e : (Root.empty tag).bytes ++ r = tag.bytes ++ ch% '/' :: ch% '>' :: r := by simp [Root.bytes]
    rw [e]
    exact ⟨b, s', h3 ▸ h1, h4, h3 ▸ Grammar.Root.empty h2 he⟩
  | element tag body space =>
    obtain ⟨h2, h3, h4⟩ := h
    obtain ⟨s2, s3⟩ := hs
    have i1 := Content.insideStored (n := n) (d := 1) (prev := .start)
      (tail := tag.name ++ space ++ ch% '>' :: r) h3 s3 (hp _ _ _ rfl)
    obtain ⟨s, e1, e2, b, s', e3, e4⟩ := StartTag.tagStored (n := n) (c := ch% '>') (e := false) h2 s2 close_not_name.1
      (.start (r := body.bytes ++ ch% '<' :: ch% '/' :: (tag.name ++ space ++ ch% '>' :: r)))
    have e : (Root.element tag body space).bytes ++ r =
        tag.bytes ++ ch% '>' :: (body.bytes ++ ch% '<' :: ch% '/' :: (tag.name ++ space ++ ch% '>' :: r)) := by
      simp [Root.bytes]
    rw [e]
    refine ⟨b, s', e3 ▸ e1, e4, ?_⟩
    have := Grammar.Root.element e2 i1 h4 he
    subst e3
    simp only [Root.stored]
    have o2 : ∀ r, (Grammar.offset n (tag.bytes ++ ch% '>' :: r) + tag.bytes.length + 1 : Int) = Grammar.offset n r := by
      intro r; simp only [Grammar.offset, List.length_append, List.length_cons]; omega
    rw [o2]
    exact this

theorem prologStored {n : Nat} {ms : List Misc} (h : ∀ m ∈ ms, m.WellFormed) (hs : ∀ m ∈ ms, m.atom.Fit 0)
    {w : List UInt8} (hw : AllWs w) {x : Root} (hx : x.Syntax) (hxs : x.Fit)
    (hxp : ∀ tag body space, x = .element tag body space → body.Plain false) {r recs} (he : Epilog n r recs) :
    ∃ w' b s, ms.flatMap Misc.bytes ++ (w ++ (x.bytes ++ r)) = w' ++ ch% '<' :: b :: s ∧ AllWs w' ∧
      (w' = [] → b = ch% '?' → ∃ m ms' t y, ms = m :: ms' ∧ m.atom = .pi t y ∧ m.space = []) ∧
      Grammar.Root n [] (b :: s) (miscStored (Grammar.offset n (ms.flatMap Misc.bytes ++ (w ++ (x.bytes ++ r)))) ms ++
        (x.stored (Grammar.offset n (x.bytes ++ r)) ++ recs)) := by
  induction ms with
  | nil =>
    obtain ⟨b, s, e1, e2, e3⟩ := Root.rootStored (n := n) hx hxs hxp he
    refine ⟨w, b, s, by simp [e1], hw, ?_, e3⟩
    rintro - rfl
    exact absurd (Or.inl e2) close_not_name.2.2
  | cons m ms ih =>
    obtain ⟨w1, b, s, e1, e2, -, e4⟩ := ih (fun x hx => h x (by simp [hx])) (fun x hx => hs x (by simp [hx]))
    obtain ⟨m1, m2, m3⟩ := h m (by simp)
    have ms' := hs m (by simp)
    have o1 : ∀ r, (Grammar.offset n (m.space ++ (m.atom.bytes ++ r)) + m.bytes.length : Int) = Grammar.offset n r := by
      intro r
      simp only [Grammar.offset, Misc.bytes, List.length_append]; omega
    simp only [List.flatMap_cons, miscStored]
    have o0 : m.bytes ++ ms.flatMap Misc.bytes ++ (w ++ (x.bytes ++ r)) =
        m.space ++ (m.atom.bytes ++ (ms.flatMap Misc.bytes ++ (w ++ (x.bytes ++ r)))) := by simp [Misc.bytes]
    rw [o0, o1, ← offset_app]
    rcases m2 with ⟨data, hm⟩ | ⟨t, y, hm⟩
    · rw [hm] at m3 ms' ⊢
      have hc := commentBody m3.1 m3.2 (ms.flatMap Misc.bytes ++ (w ++ (x.bytes ++ r)))
      have := Grammar.Root.comment (n := n) (pre := []) hc e2 e1 e4
      have hr := commentStored (n := n) (d := 0) (data := data) (r := ms.flatMap Misc.bytes ++ (w ++ (x.bytes ++ r)))
      rw [zero_depth] at hr
      rw [hr] at this
      refine ⟨m.space, ch% '!', str% "--" ++ (data ++ (str% "-->" ++ (ms.flatMap Misc.bytes ++ (w ++ (x.bytes ++ r))))), ?_, m1,
        fun _ h => absurd h (by decide), ?_⟩
      · simp [Atom.bytes]
      · simpa using this
    · rw [hm] at m3 ms' ⊢
      obtain ⟨s1, f1, f2⟩ := piAtom (n := n) (d := 0) m3 ms' (ms.flatMap Misc.bytes ++ (w ++ (x.bytes ++ r)))
      rw [zero_depth] at f2
      have est : ∀ o, (Atom.pi t y).stored 0 o = (Atom.pi t y).recs 0 o := fun _ => rfl
      rw [est]
      refine ⟨m.space, ch% '?', s1, by rw [f1], m1, ?_, ?_⟩
      · intro hsp _
        exact ⟨m, ms, t, y, rfl, hm, hsp⟩
      · rw [e1] at f2 ⊢
        have := Grammar.Root.pi (pre := []) f2 e2 e4
        rw [e1] at this
        simpa using this

theorem Document.Fits.root {d : Document} (hf : d.Fits) : d.root.Fit := by
  have hpi : ∀ x ∈ d.pis, PiFit x.1 x.2 := hf.pis
  simp only [Document.pis, List.forall_mem_append] at hpi
  refine root_fit.2 ⟨fun t ht => tag_fit.2 ⟨hf.depth t ht, hf.names t ht, hf.prefixes t ht, hf.attrs t ht, hf.values t ht, ?_⟩,
    fun t ht => ⟨accepted_refs.2 ?_, hf.texts t ht⟩, hpi.1.2⟩
  · intro r hr
    exact hf.refs r (List.mem_append.2 (Or.inl (List.mem_flatMap.2 ⟨t, ht, hr⟩)))
  · intro r hr
    exact hf.refs r (List.mem_append.2 (Or.inr (List.mem_flatMap.2 ⟨t, ht, hr⟩)))

/-- The serialisation of a tree that fits is a document of the grammar, with these records. -/
theorem Document.docStored {n : Nat} {d : Document} (h : d.Syntax) (hp : d.Plain) (hf : d.Fits) :
    Grammar.Document n d.bytes (d.stored (Grammar.offset n d.bytes)) := by
  have hpi : ∀ x ∈ d.pis, PiFit x.1 x.2 := hf.pis
  simp only [Document.pis, List.forall_mem_append] at hpi
  have he := Tree.epilog (n := n) (ms := d.epilog) h.epilog (by
    intro m hm
    obtain ⟨t, x, k⟩ := hf.epilog m hm
    refine ⟨t, x, k, ?_⟩
    rw [k]
    exact hpi.2 (t, some x) (List.mem_flatMap.2 ⟨m, hm, by simp [k, Atom.pis]⟩)) h.space.2
  rw [← miscStored_pi (fun m hm => by obtain ⟨t, x, k⟩ := hf.epilog m hm; exact ⟨t, _, k⟩)] at he
  obtain ⟨w, b, s, e1, e2, e3, e4⟩ := Tree.prologStored (n := n) h.prolog (by
    intro m hm
    rcases (h.prolog m hm).kind with ⟨data, hk⟩ | ⟨t, x, hk⟩
    · rw [hk]; trivial
    · rw [hk]
      exact hpi.1.1 (t, x) (List.mem_flatMap.2 ⟨m, hm, by simp [hk, Atom.pis]⟩)) h.space.1 h.root (hf.root) hp.root he
  simp only [Document.bytes, Document.stored]
  cases hd : d.decl with
  | none =>
    simp only [Document.declBytes, hd, Option.map_none, Option.getD_none, List.nil_append]
    have o1 : ∀ r : List UInt8, (Grammar.offset n r + ([] : List UInt8).length : Int) = Grammar.offset n r := by
      intro r; simp
    rw [o1, ← offset_app, ← offset_app, ← offset_app, List.append_assoc, e1]
    rw [e1] at e4
    by_cases hw : w = []
    · subst hw
      refine Grammar.Document.plain (pre := []) (.none ?_) e4
      intro hb
      obtain ⟨m, ms, t, y, g1, g2, g3⟩ := e3 rfl hb
      exact hp.first m ms t y hd g1 g2 g3
    · exact Grammar.Document.space hw e2 e4
  | some x =>
    have hx := h.decl x hd
    simp only [Document.declBytes, hd, Option.map_some, Option.getD_some]
    rw [← offset_app, ← offset_app, ← offset_app, ← offset_app, e1]
    rw [e1] at e4
    have hr := Decl.rest (n := n) hx (w ++ ch% '<' :: b :: s)
    obtain ⟨s0, w0, s1, g1, g2, g3, g4⟩ := decl_version (n := n) hx.version
      (optBytes (str% "encoding") x.encoding ++ (optBytes (str% "standalone") x.standalone ++
      (x.space ++ (str% "?>" ++ (w ++ ch% '<' :: b :: s)))))
    have := Grammar.Document.decl (n := n) (x := ch% 'x') (m := ch% 'm') (l := ch% 'l') (w' := w)
      ⟨_, _, _, [], rfl, Or.inl rfl, Or.inl rfl, Or.inl rfl⟩ g1 g2 g4 (by rw [List.append_assoc]; exact hr) e2 e4
    have eb : x.bytes ++ (w ++ ch% '<' :: b :: s) = ch% '<' :: ch% '?' :: ch% 'x' :: ch% 'm' :: ch% 'l' :: s0 :: (w0 ++ s1) := by
      rw [← g3]; simp [Decl.bytes]
    rw [eb]
    have o5 : (Grammar.offset n (ch% '<' :: ch% '?' :: ch% 'x' :: ch% 'm' :: ch% 'l' :: s0 :: (w0 ++ s1)) + 5 : Int) =
        Grammar.offset n (s0 :: (w0 ++ s1)) := by
      simp only [Grammar.offset, List.length_cons]; omega
    have er : x.recs (Grammar.offset n (ch% '<' :: ch% '?' :: ch% 'x' :: ch% 'm' :: ch% 'l' :: s0 :: (w0 ++ s1))) =
        x.version.recs (str% "version") (Grammar.offset n (s0 :: (w0 ++ s1))) ++
        (optRecs (str% "encoding") (Grammar.offset n (optBytes (str% "encoding") x.encoding ++
        (optBytes (str% "standalone") x.standalone ++ (x.space ++ (str% "?>" ++ (w ++ ch% '<' :: b :: s)))))) x.encoding ++
       optRecs (str% "standalone") (Grammar.offset n (optBytes (str% "standalone") x.standalone ++
        (x.space ++ (str% "?>" ++ (w ++ ch% '<' :: b :: s))))) x.standalone) := by
      simp only [Decl.recs]
      rw [o5, ← g3, ← offset_app, ← offset_app, List.append_assoc]
    rw [er]
    rw [g3] at this
    simpa only [List.append_assoc] using this

end Tree
end GoVtd
