import Verif.Proofs.Strings

/-!
# C72: the strings of a parsed document

A parser and a navigator together: what `ToRawStringAtIndex` and `ToStringAtIndex` return for the tokens of a document that is
given as a tree.
-/

namespace GoVtd

open Parser Grammar Paged VtdNav

/-! ## The tokens lie inside of the document -/

namespace Tree

theorem Root.last (r : Root) : ∃ x, r.bytes = x ++ [ch% '>'] := by
  cases r with
  | empty tag => exact ⟨tag.bytes ++ [ch% '/'], by simp [Root.bytes]⟩
  | element tag body space => exact ⟨tag.bytes ++ ch% '>' :: (body.bytes ++ (ch% '<' :: ch% '/' :: (tag.name ++ space))), by simp [Root.bytes]⟩

theorem Misc.last {m : Misc} (h : m.WellFormed) : ∃ x, m.bytes = x ++ [ch% '>'] := by
  rcases h.kind with ⟨c, hc⟩ | ⟨t, x, hc⟩
  · exact ⟨m.space ++ (str% "<!--" ++ (c ++ str% "--")), by simp [Misc.bytes, hc, Atom.bytes]⟩
  · cases x with
    | none => exact ⟨m.space ++ (str% "<?" ++ (t ++ [ch% '?'])), by simp [Misc.bytes, hc, Atom.bytes]⟩
    | some x => exact ⟨m.space ++ (str% "<?" ++ (t ++ x.1 :: (x.2 ++ [ch% '?']))), by obtain ⟨s, d⟩ := x; simp [Misc.bytes, hc, Atom.bytes]⟩

/-- The document without the white space at its end. -/
def Document.trim (t : Document) : Document := { t with space1 := [] }

theorem Document.trim_bytes (t : Document) : t.bytes = t.trim.bytes ++ t.space1 := by simp [Document.bytes, Document.trim, Document.declBytes]

theorem Document.trim_last {t : Document} (h : ∀ m ∈ t.epilog, m.WellFormed) : ∃ x, t.trim.bytes = x ++ [ch% '>'] := by
  rcases List.eq_nil_or_concat t.epilog with he | ⟨ms, m, he⟩
  · obtain ⟨x, hx⟩ := Root.last t.root
    exact ⟨t.declBytes ++ (t.prolog.flatMap Misc.bytes ++ (t.space ++ x)), by simp [Document.bytes, Document.trim, Document.declBytes, he, hx]⟩
  · obtain ⟨x, hx⟩ := Misc.last (h m (by simp [he]))
    exact ⟨t.declBytes ++ (t.prolog.flatMap Misc.bytes ++ (t.space ++ (t.root.bytes ++ (ms.flatMap Misc.bytes ++ x)))),
      by simp [Document.bytes, Document.trim, Document.declBytes, he, hx]⟩

/-- No token reaches beyond the last `>`, unless it is a start tag whose name runs on. -/
theorem Document.insideStored {t : Document} (hg : t.Regular) {pre : List UInt8} (hl : (pre ++ t.bytes).length < 2 ^ 31) {j : Nat} {y : Item}
    (hy : t.items[j]? = some y) (hc : ¬ y.RunsOn) {w : BitVec 64}
    (hj : ((docRec :: t.stored pre.length).map Rec.word)[j]? = some w) (h0 : readLength w ≠ 0) :
    tokenOffset w + readLength w ≤ (pre ++ t.trim.bytes).length := by
  have hg' : t.trim.Regular :=
    ⟨{ hg.syn with space := ⟨hg.syn.space.1, by simp [Document.trim, AllWs]⟩ }, { hg.plain with }, { hg.fits with }, hg.short⟩
  have hl' : (pre ++ t.trim.bytes).length < 2 ^ 31 := by
    rw [Document.trim_bytes] at hl
    simp only [List.length_append] at hl ⊢
    omega
  have hj : ((docRec :: t.trim.stored pre.length).map Rec.word)[j]? = some w := hj
  have hy : t.trim.items[j]? = some y := hy
  have key : ∀ post, (readToken (pre ++ (t.trim.bytes ++ post)) w).text = y.text := by
    intro post
    obtain ⟨x, k1, k2⟩ := (Document.spellStored hg' (pre := pre) (post := post) hl').get hy
    rw [List.getElem?_map, hj, Option.map_some, Option.some.injEq] at k1
    rw [← List.append_assoc, k1, k2.eq hc]
  have k := congrArg List.length ((key []).trans (key (List.replicate (tokenOffset w + readLength w) 0)).symm)
  simp only [readToken] at k
  simp only [List.length_take, List.length_drop, List.length_append, List.length_replicate, List.length_nil, Nat.add_zero] at k
  simp only [readLength] at h0 k ⊢
  rw [List.length_append]
  omega

end Tree

/-! ## C72 -/

theorem reader_parts {p : Parser} {doc : List UInt8} {depth : Int} {n : VtdNav} (h : ReaderOf p doc depth n) :
    n.vtdBuffer = p.out.vtdBuffer ∧ n.doc = doc ∧ n.ByteEncoded ∧ NavOf p depth n := by
  obtain ⟨o, l, enc, ns, he, h⟩ := h
  have hn : NavOf p depth n := ⟨o, l, enc, ns, some doc, h⟩
  simp only [newVtdNav] at h
  split at h
  · cases h
  · split at h
    · cases h
    · next b hb =>
      cases h
      refine ⟨rfl, ?_, he, hn⟩
      simp only [UniByteBuffer.new] at hb
      cases hb
      rfl

/-- The token buffer of a parser. -/
theorem tokens_fill {fuel : Nat} {opts : List ParserOption} {p : Parser} (hp : parsed fuel opts = some p) :
    ∃ e, p.out.vtdBuffer = fill e p.out.vtdBuffer.values ∧ p.out.vtdBuffer.pageSize = ((2 ^ e : Nat) : Int) := by
  obtain ⟨e, hf⟩ := filled (parsed_out_ok hp).vtd
  refine ⟨e, hf, ?_⟩
  conv => lhs; rw [hf]
  simp [fill]

/-- The string of a token that is not an empty text, for any navigator on the same tokens and document. -/
theorem strings_at {fuel : Nat} {opts : List ParserOption} {doc : List UInt8} {o l : Nat}
    (h : SelectWindow opts doc o l) (hlen : doc.length < 2 ^ 30) {tree : Tree.Document}
    (hn : NsNeutral opts doc o tree)
    (hb : (doc.drop o).take l = tree.bytes) (hg : tree.Regular) {p : Parser} (hp : parsed fuel opts = some p)
    {n : VtdNav} (hv : n.vtdBuffer = p.out.vtdBuffer) (hd : n.doc = doc)
    (he : n.ByteEncoded) {j : Nat} (hpage : (j : Int) < p.out.vtdBuffer.pageSize) {x : Item} (hx : tree.items[j]? = some x) (hcol : ¬ x.RunsOn) (hne : x.IsText → x.text ≠ []) (fuel' : Nat) :
    n.toRawStringAtIndex j = .ok (x.text.map crToLf) n ∧ n.toStringAtIndex fuel' j = .ok (x.text.map crToLf) n := by
  have hi := h.inside
  obtain ⟨e1, e2, e3⟩ := window_eq hi hb
  have ht := parsed_stored h (by omega) hn hb hg.syn hg.plain hg.fits hp
  have hitems := parsed_shown h (by omega) hn hb hg hp
  obtain ⟨e, hf, hpg⟩ := tokens_fill hp
  have hone : j < 2 ^ e := by omega
  generalize p.out.vtdBuffer.values = ws at *
  obtain ⟨x', hx', hsh⟩ := hitems.get hx
  obtain rfl := hsh.eq hcol
  rw [List.getElem?_map, Option.map_eq_some_iff] at hx'
  obtain ⟨w, hj, rfl⟩ := hx'
  have hfill : n.vtdBuffer = fill e ws := hv.trans hf
  have hin := Tree.Document.insideStored hg (pre := doc.take o) (by rw [List.length_append]; omega) hx hcol (w := w)
    (by rw [e2, ← ht]; exact hj)
  have htrim := congrArg List.length tree.trim_bytes
  rw [List.length_append] at hin htrim
  have hdl : n.doc.length < 2 ^ 30 := by rw [hd]; exact hlen
  have main : n.toRawStringAtIndex j = .ok ((readToken doc w).text.map crToLf) n := by
    rw [← hd]
    have hcr : readLength w ≠ 0 → tokenOffset w + readLength w < n.doc.length ∨ n.doc.getLast? ≠ some 13 := by
      intro h0
      by_cases hlast : tokenOffset w + readLength w < n.doc.length
      · exact .inl hlast
      refine .inr ?_
      have := hin h0
      rw [hd] at hlast ⊢
      have q1 : tree.space1 = [] := List.eq_nil_of_length_eq_zero (by omega)
      have q2 : doc.drop (o + l) = [] := List.drop_eq_nil_of_le (by omega)
      obtain ⟨y, hy⟩ := Tree.Document.trim_last hg.syn.epilog
      rw [e1, q2, tree.trim_bytes, q1, hy]
      simp
    refine raw_text hfill he hdl hj hone (fun h0 => ?_) hcr ?_
    · have := hin h0
      rw [hd]
      show tokenOffset w + readLength w ≤ _
      omega
    · intro hk h0
      refine hne ?_ ?_
      · simpa only [Item.IsText, readToken, Token.code] using hk
      · have : ¬ (IsStart w ∨ IsAttr w) := by
          simp only [IsStart, IsAttr, Token.code]; omega
        simp only [readToken, if_neg this, h0, List.take_zero]
  exact ⟨main, by rw [string_raw hfill hj hone]; exact main⟩

/-- C72 for every token of a regular tree that is neither an empty text nor the start tag of an element whose name runs on, and that is on the
first page of the token buffer: both calls return its bytes in the document, with
carriage returns shown as newlines. No reference is resolved. -/
theorem C72_partial (fuel : Nat) (opts : List ParserOption) (doc : List UInt8) (o l : Nat)
    (h : SelectWindow opts doc o l) (hlen : doc.length < 2 ^ 30) (tree : Tree.Document)
    (hn : NsNeutral opts doc o tree)
    (hb : (doc.drop o).take l = tree.bytes) (hg : tree.Regular) (p : Parser) (hp : parsed fuel opts = some p)
    (depth : Int) (n : VtdNav) (hr : ReaderOf p doc depth n)
    (j : Nat) (hpage : (j : Int) < p.out.vtdBuffer.pageSize) (x : Item) (hx : tree.items[j]? = some x) (hcol : ¬ x.RunsOn) (hne : x.IsText → x.text ≠ []) (fuel' : Nat) :
    (n.toRawStringAtIndex j).outcome = .value (x.text.map crToLf) ∧
    (n.toStringAtIndex fuel' j).outcome = .value (x.text.map crToLf) := by
  obtain ⟨h1, h2, h3, -⟩ := reader_parts hr
  obtain ⟨k1, k2⟩ := strings_at h hlen hn hb hg hp h1 h2 h3 hpage hx hcol hne fuel'
  rw [k1, k2]
  exact ⟨rfl, rfl⟩

theorem firstLength_pos {ws : List (BitVec 64)} {w : BitVec 64} (h : w ∈ ws) (h0 : tokenLength w ≠ 0) : firstLength ws ≠ 0 := by
  induction ws with
  | nil => simp at h
  | cons v vs ih =>
    rw [firstLength]
    split
    · next hv =>
      rcases List.mem_cons.1 h with rfl | h
      · exact absurd hv h0
      · exact ih h
    · next hv => exact hv

/-- C72 is false of empty texts: an empty text, comment or CDATA section that is followed by any token of the first page that is not empty is
never read as the empty string. -/
theorem C72_empty_refuted (fuel : Nat) (opts : List ParserOption) (doc : List UInt8) (o l : Nat)
    (h : SelectWindow opts doc o l) (hlen : doc.length < 2 ^ 30) (tree : Tree.Document)
    (hn : NsNeutral opts doc o tree)
    (hb : (doc.drop o).take l = tree.bytes) (hg : tree.Regular) (p : Parser) (hp : parsed fuel opts = some p)
    (depth : Int) (n : VtdNav) (hr : ReaderOf p doc depth n)
    (j : Nat) (x : Item) (hx : tree.items[j]? = some x) (ht : x.IsText) (k : Nat) (y : Item) (hk : j < k)
    (hpage : (k : Int) < p.out.vtdBuffer.pageSize)
    (hy : tree.items[k]? = some y) (hne : y.text ≠ []) :
    (n.toRawStringAtIndex j).outcome ≠ .value [] := by
  have hi := h.inside
  obtain ⟨h1, h2, h3, -⟩ := reader_parts hr
  obtain ⟨e, hf, hpg⟩ := tokens_fill hp
  have hone : j < 2 ^ e := by omega
  have hitems := parsed_shown h (by omega) hn hb hg hp
  generalize p.out.vtdBuffer.values = ws at *
  obtain ⟨x', hx, hsx⟩ := hitems.get hx
  obtain ⟨y', hy, hsy⟩ := hitems.get hy
  replace hne : y'.text ≠ [] := by
    by_cases h : y.RunsOn
    · obtain ⟨r, -, h⟩ := hsy.more h
      simp [h, hne]
    · rwa [hsy.text h]
  replace ht : x'.IsText := by simpa only [Item.IsText, hsx.kind] using ht
  rw [List.getElem?_map, Option.map_eq_some_iff] at hx hy
  obtain ⟨w, hj, rfl⟩ := hx
  obtain ⟨v, hv, rfl⟩ := hy
  have hkind : tokenType w = 5 ∨ tokenType w = 6 ∨ tokenType w = 11 := by
    simpa only [Item.IsText, readToken, Token.code] using ht
  have hv0 : tokenLength v ≠ 0 := by
    intro h0
    apply hne
    simp only [readToken]
    have : qnameLength v = 0 := by simp only [tokenLength, qnameLength] at h0 ⊢; omega
    split <;> simp [h0, this]
  have hmem : v ∈ ws.drop j := by
    rw [List.mem_drop_iff_getElem]
    obtain ⟨hl, he⟩ := List.getElem?_eq_some_iff.1 hv
    exact ⟨k - j, by omega, by simpa [show j + (k - j) = k by omega] using he⟩
  have hpos := firstLength_pos hmem hv0
  have hlt := firstLength_lt (ws.drop j)
  have hsl : shownLength ws j w = firstLength (ws.drop j) := by
    rw [shownLength, if_neg (by simp only [IsStart, IsAttr, Token.code]; omega), if_pos hkind]
  rw [raw_range (h1.trans hf) hj hone fun _ => .inr ⟨k, v, by omega, by omega, hv, hv0⟩, hsl]
  have ho : tokenOffset w % 2 ^ 30 < 2 ^ 30 := Nat.mod_lt _ (by decide)
  obtain ⟨-, c1, c2⟩ := C21_exact n h3 ((tokenOffset w % 2 ^ 30 : Nat) : Int) ((firstLength (ws.drop j) : Nat) : Int)
  rw [wrap32_of_range (by omega) (by omega)] at c1 c2
  by_cases hin : (((tokenOffset w % 2 ^ 30 : Nat) : Int) + ((firstLength (ws.drop j) : Nat) : Int)) ≤ n.doc.length
  · rw [c1 (by omega) (by omega) hin]
    intro hc
    simp only [Res.outcome, Outcome.value.injEq] at hc
    have := congrArg List.length hc
    simp at this
    omega
  · rw [c2 (by omega) (by omega)]
    simp [Res.outcome]

namespace Tree

theorem Content.elems_syn (c : Content) : ∀ (_ : c.Syntax) (k : Nat), ∀ e ∈ c.elems k, Name e.tag.name ∧ ∀ b, e.body = some b → b.Syntax := by
  induction c with
  | text t => intro _ k e he; simp [Content.elems] at he
  | atom t a rest ih =>
    rintro ⟨-, h1, h2⟩ k e he
    simp only [Content.elems, List.mem_append] at he
    rcases he with he | he
    · cases a with
      | empty tag =>
        simp only [List.mem_singleton] at he
        subst he
        exact ⟨h1.name, nofun⟩
      | _ => simp at he
    · exact ih h2 _ e he
  | element t tag body space rest _ ih =>
    rintro ⟨-, h1, h2, -, h3⟩ k e he
    simp only [Content.elems, List.mem_cons] at he
    rcases he with rfl | he
    · exact ⟨h1.name, fun b hb => by cases hb; exact h2⟩
    · exact ih h3 _ e he

theorem Document.Has.syn {t : Document} (hw : t.Syntax) {n : Nat} {e : Elem} (h : t.Has n e) :
    Name e.tag.name ∧ ∀ b, e.body = some b → b.Syntax := by
  induction h with
  | root =>
    have := hw.root
    simp only [Document.rootElem]
    cases hr : t.root with
    | empty tag => rw [hr] at this; exact ⟨this.name, nofun⟩
    | element tag body space => rw [hr] at this; exact ⟨this.1.name, fun b hb => by cases hb; exact this.2.1⟩
  | @child n e c _ hc ih =>
    simp only [Elem.children] at hc
    split at hc
    · simp at hc
    · next b hb => exact Content.elems_syn b (ih.2 b hb) _ c hc

/-- There is no carriage return in a name. -/
theorem Name.shown {s : List UInt8} (h : Name s) : s.map crToLf = s := by
  obtain ⟨b, run, rfl, h1, h2⟩ := h
  have key : ∀ x ∈ b :: run, crToLf x = x := by
    intro x hx
    rw [crToLf, if_neg]
    rintro rfl
    rcases List.mem_cons.1 hx with rfl | hx
    · exact absurd h1 (by decide)
    · exact absurd (h2 _ hx) (by decide)
  conv => rhs; rw [← List.map_id (b :: run)]
  exact List.map_congr_left key

end Tree

/-- The name of an element: `ToRawStringAtIndex` returns it for the token of any element whose name does not run on. -/
theorem C72_name_partial (fuel : Nat) (opts : List ParserOption) (doc : List UInt8) (o l : Nat)
    (h : SelectWindow opts doc o l) (hlen : doc.length < 2 ^ 30) (tree : Tree.Document)
    (hn : NsNeutral opts doc o tree)
    (hb : (doc.drop o).take l = tree.bytes) (hg : tree.Regular) (p : Parser) (hp : parsed fuel opts = some p)
    (depth : Int) (n : VtdNav) (hr : ReaderOf p doc depth n)
    (k : Nat) (e : Tree.Elem) (he : tree.Has k e) (hpage : (e.token : Int) < p.out.vtdBuffer.pageSize) (hcol : ¬ Overrun e.tag.name) :
    (n.toRawStringAtIndex e.token).outcome = .value e.tag.name := by
  have := (C72_partial fuel opts doc o l h hlen tree hn hb hg p hp depth n hr e.token hpage _ (he.stands hg.syn.epilog).item
    (fun h => hcol h.2) (by rintro (h | h | h) <;> cases h) 0).1
  rw [this]
  exact congrArg _ (Tree.Name.shown (he.syn hg.syn).1)

/-- A walk and the name at its end, from the walk and its token. -/
theorem walkName_value {dirs : List Direction} {n : VtdNav} {t : Option Int} (hw : (walkTo dirs n).outcome = .value t) {s : Option (List UInt8)}
    (hnone : t = none → s = none)
    (hsome : ∀ i, t = some i → ∃ x, s = some x ∧ ∀ n' : VtdNav, n'.vtdBuffer = n.vtdBuffer → n'.doc = n.doc → (n.ByteEncoded → n'.ByteEncoded) →
      (n'.toRawStringAtIndex i).outcome = .value x) : (walkName dirs n).outcome = .value s := by
  simp only [VtdNav.walkName, VtdNav.walkTo, M.bind_apply] at hw ⊢
  cases hwk : VtdNav.walk dirs n with
  | ok b n1 =>
    have hsrc := (walk_sources rfl dirs).ok hwk
    rw [hwk] at hw
    simp only [Res.andThen_ok, M.ite_apply] at hw ⊢
    cases b with
    | false =>
      simp only [Bool.false_eq_true, if_false, M.pure_apply, Res.outcome, Outcome.value.injEq] at hw ⊢
      exact (hnone hw.symm).symm
    | true =>
      simp only [if_true, M.bind_apply] at hw ⊢
      cases hgi : n1.getCurrentIndex with
      | ok i n2 =>
        have : n2 = n1 := getCurrentIndex_reads.ok hgi
        subst this
        rw [hgi] at hw
        simp only [Res.andThen_ok, M.pure_apply, Res.outcome, Outcome.value.injEq] at hw
        obtain ⟨x, rfl, hx⟩ := hsome i hw.symm
        simp only [sources, Prod.mk.injEq] at hsrc
        obtain ⟨s1, s2, s3, -⟩ := hsrc
        have hx := hx n2 s1 (congrArg UniByteBuffer.buffer s2) (by simp only [ByteEncoded, s3]; exact id)
        rw [Res.andThen_ok, M.bind_apply]
        cases hr : n2.toRawStringAtIndex i with
        | ok y n3 => rw [hr] at hx; cases hx; rfl
        | err _ _ => rw [hr] at hx; cases hx
        | panic => rw [hr] at hx; cases hx
        | diverge => rw [hr] at hx; cases hx
      | err _ _ => rw [hgi] at hw; cases hw
      | panic => rw [hgi] at hw; cases hw
      | diverge => rw [hgi] at hw; cases hw
  | err _ _ => rw [hwk] at hw; cases hw
  | panic => rw [hwk] at hw; cases hw
  | diverge => rw [hwk] at hw; cases hw

theorem walkName_error {dirs : List Direction} {n : VtdNav} {e : GoErr} (hw : (walkTo dirs n).outcome = .error e) :
    (walkName dirs n).outcome = .error e := by
  simp only [VtdNav.walkName, VtdNav.walkTo, M.bind_apply] at hw ⊢
  cases hwk : VtdNav.walk dirs n with
  | ok b n1 =>
    rw [hwk] at hw
    simp only [Res.andThen_ok, M.ite_apply] at hw ⊢
    cases b with
    | false => simp [Res.outcome] at hw
    | true =>
      simp only [if_true, M.bind_apply] at hw ⊢
      cases hgi : n1.getCurrentIndex with
      | ok i n2 => rw [hgi] at hw; simp [Res.outcome] at hw
      | err _ _ => rw [hgi] at hw; cases hw; rfl
      | panic => rw [hgi] at hw; cases hw
      | diverge => rw [hgi] at hw; cases hw
  | err _ _ => rw [hwk] at hw; cases hw; rfl
  | panic => rw [hwk] at hw; cases hw
  | diverge => rw [hwk] at hw; cases hw

theorem walkName_unread {dirs : List Direction} {n : VtdNav} {i : Int} {e : GoErr} (hw : (walkTo dirs n).outcome = .value (some i))
    (hu : ∀ n' : VtdNav, n'.vtdBuffer = n.vtdBuffer → (n'.toRawStringAtIndex i).outcome = .error e) :
    (walkName dirs n).outcome = .error e := by
  simp only [VtdNav.walkName, VtdNav.walkTo, M.bind_apply] at hw ⊢
  cases hwk : VtdNav.walk dirs n with
  | ok b n1 =>
    have hsrc := (walk_sources rfl dirs).ok hwk
    rw [hwk] at hw
    simp only [Res.andThen_ok, M.ite_apply] at hw ⊢
    cases b with
    | false => simp [Res.outcome] at hw
    | true =>
      simp only [if_true, M.bind_apply] at hw ⊢
      cases hgi : n1.getCurrentIndex with
      | ok i' n2 =>
        have : n2 = n1 := getCurrentIndex_reads.ok hgi
        subst this
        rw [hgi] at hw
        simp only [Res.andThen_ok, M.pure_apply, Res.outcome, Outcome.value.injEq, Option.some.injEq] at hw
        subst hw
        simp only [sources, Prod.mk.injEq] at hsrc
        have hx := hu n2 hsrc.1
        rw [Res.andThen_ok, M.bind_apply]
        cases hr : n2.toRawStringAtIndex i' with
        | ok y n3 => rw [hr] at hx; cases hx
        | err _ _ => rw [hr] at hx; cases hx; rfl
        | panic => rw [hr] at hx; cases hx
        | diverge => rw [hr] at hx; cases hx
      | err _ _ => rw [hgi] at hw; cases hw
      | panic => rw [hgi] at hw; cases hw
      | diverge => rw [hgi] at hw; cases hw
  | err _ _ => rw [hwk] at hw; cases hw
  | panic => rw [hwk] at hw; cases hw
  | diverge => rw [hwk] at hw; cases hw

/-- The names of the children of the root: `Root`, `FirstChild`, `k` times `NextSibling`, `GetCurrentIndex` and
`ToRawStringAtIndex` return the name of the `k`-th child element, if it does not run on and its token is on the first page, and one of the moves returns false if
there is no such child. -/
theorem C72_children_partial (fuel : Nat) (opts : List ParserOption) (hdeep : chosenDeep opts = true) (doc : List UInt8) (o l : Nat)
    (h : SelectWindow opts doc o l) (hlen : doc.length < 2 ^ 30) (tree : Tree.Document)
    (hn : NsNeutral opts doc o tree)
    (hb : (doc.drop o).take l = tree.bytes) (hg : tree.Regular) (htok : tree.items.length ≤ 2 ^ 28)
    (hc : tree.rootElem.children.length ≤ 32) (p : Parser) (hp : parsed fuel opts = some p)
    (depth : Int) (hd : 4 ≤ depth) (n : VtdNav) (hr : ReaderOf p doc depth n) (k : Nat)
    (hcol : ∀ c, tree.rootElem.children[k]? = some c → ¬ Overrun c.tag.name ∧ (c.token : Int) < p.out.vtdBuffer.pageSize) :
    (VtdNav.walkName (Direction.root :: Direction.firstChild :: List.replicate k Direction.nextSibling) n).outcome =
      .value (tree.rootElem.children[k]?.map fun c => c.tag.name) := by
  have hi := h.inside
  obtain ⟨h1, h2, h3, h4⟩ := reader_parts hr
  have key := C71_children_partial fuel opts hdeep doc o l h (by omega) tree hn hb hg htok hc p hp depth hd n h4 k
  refine walkName_value key (by simp) fun i hi => ?_
  obtain ⟨c, hk, rfl⟩ := Option.map_eq_some_iff.1 hi
  refine ⟨c.tag.name, by rw [hk]; rfl, fun n' g1 g2 g3 => ?_⟩
  have hh : tree.Has 1 c := .child .root (List.mem_of_getElem? hk)
  obtain ⟨r, -⟩ := strings_at h hlen hn hb hg hp (n := n') (g1.trans h1) (g2.trans h2) (g3 h3) (hcol c hk).2 (hh.stands hg.syn.epilog).item
    (fun h => (hcol c hk).1 h.2) (by rintro (h | h | h) <;> cases h) 0
  rw [r]
  exact congrArg Outcome.value (Tree.Name.shown (hh.syn hg.syn).1)

/-! ## Documents -/

/-- A navigator over what a parser has recorded of a document. -/
def readerOver (p : Parser) (doc : List UInt8) (depth : Int) : Option VtdNav :=
  match newVtdNav p.out.rootIndex 0 0 depth FormatUtf8 false (some doc) p.out.vtdBuffer p.out.l1Buffer p.out.l2Buffer p.out.l3Buffer with
  | .ok n _ => some n
  | _ => none

theorem readerOver_of {p : Parser} {doc : List UInt8} {depth : Int} {n : VtdNav} (h : readerOver p doc depth = some n) :
    ReaderOf p doc depth n := by
  refine ⟨0, 0, FormatUtf8, false, .inr (.inr rfl), ?_⟩
  simp only [readerOver] at h
  split at h
  · next hr => cases h; exact hr
  · cases h

/-- Parse, make a navigator and read strings. -/
theorem read_witness {opts : List ParserOption} {doc : List UInt8} {P : Parser → VtdNav → Prop} [∀ p n, Decidable (P p n)]
    (h : (match parsed 0 opts with
      | some p => match readerOver p doc 4 with
        | some n => decide (P p n)
        | none => false
      | none => false) = true) : ∃ p n, parsed 0 opts = some p ∧ ReaderOf p doc 4 n ∧ P p n := by
  split at h
  · next p hp =>
    split at h
    · next n hn => exact ⟨p, n, hp, readerOver_of hn, of_decide_eq_true h⟩
    · cases h
  · cases h

open Tree in
/-- C72 is false of the document `full`, which has every construct: token 19, the empty text of `<f></f>`, is read as `<`; and the
references in `1&amp;2` (token 12) and `t&#65;` (token 16) are not resolved. -/
theorem C72_refuted : full.items[19]? = some ⟨5, 1, []⟩ ∧ full.items[12]? = some ⟨4, 0, bytes "1&amp;2"⟩ ∧
    full.items[16]? = some ⟨5, 1, bytes "t&#65;"⟩ ∧
    ∃ p n, parsed 0 [.xmlDoc (some full.bytes)] = some p ∧ ReaderOf p full.bytes 4 n ∧
      (n.toRawStringAtIndex 19).outcome = .value (bytes "<") ∧ (n.toStringAtIndex 0 19).outcome = .value (bytes "<") ∧
      (n.toStringAtIndex 0 12).outcome = .value (bytes "1&amp;2") ∧ (n.toStringAtIndex 0 16).outcome = .value (bytes "t&#65;") :=
  ⟨by decide +kernel, by decide +kernel, by decide +kernel, read_witness (by decide +kernel)⟩

open Tree in
/-- C72 is false of names with a prefix: the name of the element in `<abc:d/>` is read as `abc:d/>`. -/
theorem C72_prefix_refuted : (only (.empty (tag "abc:d"))).items[1]? = some ⟨0, 0, bytes "abc:d"⟩ ∧
    ∃ p n, parsed 0 [.xmlDoc (some (bytes "<abc:d/>"))] = some p ∧ ReaderOf p (bytes "<abc:d/>") 4 n ∧
      (n.toRawStringAtIndex 1).outcome = .value (bytes "abc:d/>") :=
  ⟨by decide +kernel, read_witness (by decide +kernel)⟩

open Tree in
/-- Non-vacuity of `C72_partial` and `C72_empty_refuted`: the document `full`. -/
example : ∃ p n, parsed 0 [.xmlDoc (some full.bytes)] = some p ∧ ReaderOf p full.bytes 4 n ∧
    (n.toRawStringAtIndex 11).outcome = .value (bytes "x:b") ∧ (n.toRawStringAtIndex 17).outcome = .value (bytes "]") ∧
    (n.toRawStringAtIndex 19).outcome ≠ .value [] := by
  obtain ⟨p, n, hp, hr, hpage⟩ := read_witness (opts := [.xmlDoc (some full.bytes)]) (doc := full.bytes)
    (P := fun p _ => 64 ≤ p.out.vtdBuffer.pageSize) (by decide +kernel)
  have hsel := select_all full.bytes (by decide +kernel) (by decide +kernel)
  have hw : full.WellFormed := by decide +kernel
  have hs : full.Supported := by decide +kernel
  have hl : full.bytes.length < 2 ^ 30 := by decide +kernel
  have hb : (full.bytes.drop 0).take full.bytes.length = full.bytes := by simp
  have key := C72_partial 0 _ full.bytes 0 full.bytes.length hsel hl full (.inl rfl) hb (Tree.Document.Supported.regular hw hs) p hp 4 n hr
  have h11 : full.items[11]? = some ⟨2, 0, bytes "x:b"⟩ := by decide +kernel
  have h17 : full.items[17]? = some ⟨11, 0, bytes "]"⟩ := by decide +kernel
  have h19 : full.items[19]? = some ⟨5, 1, []⟩ := by decide +kernel
  have h20 : full.items[20]? = some ⟨5, 0, bytes "x"⟩ := by decide +kernel
  have e11 : (bytes "x:b").map crToLf = bytes "x:b" := by decide +kernel
  have e17 : (bytes "]").map crToLf = bytes "]" := by decide +kernel
  have k11 := (key 11 (by omega) _ h11 (by decide +kernel) (by rintro (h | h | h) <;> cases h) 0).1
  have k17 := (key 17 (by omega) _ h17 (by decide +kernel) (by intro _ h; cases h) 0).1
  rw [e11] at k11
  rw [e17] at k17
  refine ⟨p, n, hp, hr, k11, k17, ?_⟩
  exact C72_empty_refuted 0 _ full.bytes 0 full.bytes.length hsel hl full (.inl rfl) hb (Tree.Document.Supported.regular hw hs) p hp 4 n hr 19 ⟨5, 1, []⟩
    h19 (.inl rfl) 20 ⟨5, 0, bytes "x"⟩ (by decide) (by omega) h20 (by decide)

/-- Non-vacuity of `C72_children_partial` and `C72_name_partial`: in `<a><b/><c><d><e/></d></c></a>` the children of the root
are `b` and `c`, and the name of the element at depth 3 can be read although no cursor gets there. -/
example : ∃ p n, parsed 0 fourOpts = some p ∧ ReaderOf p (bytes "<a><b/><c><d><e/></d></c></a>") 4 n ∧
    (VtdNav.walkName [Direction.root, Direction.firstChild] n).outcome = .value (some (bytes "b")) ∧
    (VtdNav.walkName [Direction.root, Direction.firstChild, Direction.nextSibling] n).outcome = .value (some (bytes "c")) ∧
    (VtdNav.walkName [Direction.root, Direction.firstChild, Direction.nextSibling, Direction.nextSibling] n).outcome = .value none ∧
    (n.toRawStringAtIndex 5).outcome = .value (bytes "e") := by
  have hex : ∃ p n, parsed 0 fourOpts = some p ∧ ReaderOf p (bytes "<a><b/><c><d><e/></d></c></a>") 4 n ∧
      64 ≤ p.out.vtdBuffer.pageSize := read_witness (by decide +kernel)
  obtain ⟨p, n, hp, hr, hpage⟩ := hex
  have key := C72_children_partial 0 fourOpts rfl _ 0 29 fourDoc_select (by decide) fourDoc (.inl rfl) fourDoc_bytes fourDoc_regular
    fourDoc_small (by decide +kernel) p hp 4 (by decide) n hr
  have hall : ∀ c ∈ fourDoc.rootElem.children, ¬ Overrun c.tag.name ∧ c.token < 64 := by decide +kernel
  replace key := fun k => key k fun c hc => by
    have := hall c (List.mem_of_getElem? hc)
    exact ⟨this.1, by omega⟩
  have e0 : (fourDoc.rootElem.children[0]?.map fun c => c.tag.name) = some (bytes "b") := by decide +kernel
  have e1 : (fourDoc.rootElem.children[1]?.map fun c => c.tag.name) = some (bytes "c") := by decide +kernel
  have e2 : (fourDoc.rootElem.children[2]?.map fun c => c.tag.name) = none := by decide +kernel
  have e3 : (Tree.tag "e").name = bytes "e" := by decide +kernel
  have k3 := C72_name_partial 0 fourOpts _ 0 29 fourDoc_select (by decide) fourDoc (.inl rfl) fourDoc_bytes fourDoc_regular p hp
    4 n hr 3 _ fourDoc_has (show (5 : Int) < _ by omega) (by decide +kernel)
  rw [e3] at k3
  exact ⟨p, n, hp, hr, (key 0).trans (congrArg _ e0), (key 1).trans (congrArg _ e1), (key 2).trans (congrArg _ e2), k3⟩

end GoVtd
