import Verif.Props.Strings
import Verif.Props.Written
import Verif.Props.Many

/-!
# C72 for every accepted document, and beyond the first page

The statements of `Verif/Props/Strings.lean` without a tree: whatever the parser has accepted, in whatever mode. And what happens
to the tokens that are not on the first page of the token buffer.
-/

namespace GoVtd

open Parser Grammar Paged VtdNav

/-! ## Every accepted document -/

/-- C72 for every document that is accepted, with any options: the string of a token on the first page that lies inside of the document
and is not an empty text is its bytes. Beyond that page see `C72_page_refuted`. Only three kinds of tokens are left out: empty texts (`C72_empty_refuted`), start tags with a colon in
the range they denote (`C72_prefix_refuted`), and the token of type 15 that an empty CDATA section closed with one bracket gets.
The last byte of the window must not be a carriage return at the end of the slice. -/
theorem C72_token_partial (fuel : Nat) (opts : List ParserOption) (doc : List UInt8) (o l : Int)
    (hd : chosenDoc opts = some (doc, o, l)) (hl : IsInt l) (hin : o + l ≤ doc.length) (hlen : doc.length < 2 ^ 30)
    (hcr : doc.getLast? ≠ some 13) (p : Parser) (hp : parsed fuel opts = some p)
    (depth : Int) (n : VtdNav) (hr : ReaderOf p doc depth n)
    (j : Nat) (hpage : (j : Int) < p.out.vtdBuffer.pageSize) (w : BitVec 64) (hw : p.out.vtdBuffer.values[j]? = some w) (h15 : tokenType w ≠ 15)
    (hcolon : IsStart w → ch% ':' ∉ (doc.drop (tokenOffset w)).take (tokenLength w))
    (hne : (readToken doc w).IsText → tokenLength w ≠ 0) (fuel' : Nat) :
    (n.toRawStringAtIndex j).outcome = .value ((readToken doc w).text.map crToLf) ∧
    (n.toStringAtIndex fuel' j).outcome = .value ((readToken doc w).text.map crToLf) := by
  obtain ⟨h1, h2, h3, -⟩ := reader_parts hr
  obtain ⟨e, hf, hpg⟩ := tokens_fill hp
  have hone : j < 2 ^ e := by omega
  have hfill : n.vtdBuffer = fill e p.out.vtdBuffer.values := h1.trans hf
  have hdl : n.doc.length < 2 ^ 30 := by rw [h2]; exact hlen
  have hwin : tokenOffset w + readLength w ≤ n.doc.length := by
    rcases C35_partial fuel opts doc o l hd hl _ (by rw [parsedTokens, hp]; rfl) w (List.mem_of_getElem? hw) with hc | ⟨c1, c2, c3, c4⟩
    · exact absurd hc h15
    rw [h2]
    simp only [readLength]
    by_cases hs : IsStart w
    · have := c4 hs (hcolon hs)
      rw [if_pos (.inl hs)]
      have : qnameLength w ≤ tokenLength w := by simp only [qnameLength, tokenLength]; omega
      omega
    by_cases ha : IsAttr w
    · have := c1 ha
      rw [if_pos (.inr ha)]
      omega
    · have := c2 ha hs
      rw [if_neg (by simp [hs, ha])]
      omega
  have main : n.toRawStringAtIndex j = .ok ((readToken doc w).text.map crToLf) n := by
    rw [← h2]
    refine raw_text hfill h3 hdl hw hone (fun _ => hwin) (fun _ => .inr (by rw [h2]; exact hcr)) fun hk => hne ?_
    simpa only [Item.IsText, readToken, Token.code] using hk
  rw [string_raw hfill hw hone, main]
  exact ⟨rfl, rfl⟩

/-! ## Beyond the first page -/

theorem emit_page (s : Bool) (xs : List Rec) : ∀ {o : ParserOut} {e : Nat} {ws : List (BitVec 64)}, o.vtdBuffer = fill e ws →
    ∃ ws', (emit s o xs).vtdBuffer = fill e ws' := by
  induction xs with
  | nil => intro o e ws h; exact ⟨ws, h⟩
  | cons x xs ih =>
    intro o e ws h
    have hp : (push o (word x)).vtdBuffer = fill e (ws ++ [word x]) := by simp only [push, h, bpush_fill]
    refine ih (e := e) (ws := ws ++ [word x]) ?_
    simp only [emit1]
    split
    · rw [pushL5, cache_vtd]; exact hp
    · exact hp

/-- A page of the token buffer has from 2^6 to 2^15 entries. -/
theorem token_page {fuel : Nat} {opts : List ParserOption} {p : Parser} (hp : parsed fuel opts = some p) :
    ∃ e, 6 ≤ e ∧ e ≤ 15 ∧ p.out.vtdBuffer = fill e p.out.vtdBuffer.values := by
  obtain ⟨doc, o, l, hd⟩ := parsed_doc hp
  obtain ⟨es, recs, n, ho, -⟩ := parsed_tags hp hd
  have key : ∀ k : Nat, 6 ≤ k ∧ k ≤ 15 → ∃ e, 6 ≤ e ∧ e ≤ 15 ∧ freshBuffer (BitVec 64) k = fill e [] :=
    fun k hk => ⟨k, hk.1, hk.2, withPageSize_small k (by omega)⟩
  have h1 : 6 ≤ (shallowSizes n).1 ∧ (shallowSizes n).1 ≤ 15 := by
    simp only [shallowSizes]; repeat' split
    all_goals decide
  have h2 : 6 ≤ (deepSizes n).1 ∧ (deepSizes n).1 ≤ 15 := by
    simp only [deepSizes]; repeat' split
    all_goals decide
  have h0 : ∃ e, 6 ≤ e ∧ e ≤ 15 ∧ (initOut (!chosenDeep opts) n).vtdBuffer = fill e [] := by
    cases !chosenDeep opts
    · exact key _ h2
    · exact key _ h1
  obtain ⟨e, g1, g2, g3⟩ := h0
  obtain ⟨ws, hws⟩ := emit_page (!chosenDeep opts) (docRec :: recs) g3
  refine ⟨e, g1, g2, ?_⟩
  rw [ho, finish_vtd, hws, Paged.values_fill]

theorem page_unread {fuel : Nat} {opts : List ParserOption} {p : Parser} (hp : parsed fuel opts = some p) {n : VtdNav}
    (h1 : n.vtdBuffer = p.out.vtdBuffer) {j : Nat}
    (hj : j < p.out.vtdBuffer.values.length) (hpage : p.out.vtdBuffer.pageSize ≤ j) (fuel' : Nat) :
    (n.toRawStringAtIndex j).outcome = .error (indexErr none) ∧ (n.toStringAtIndex fuel' j).outcome = .error (indexErr none) := by
  obtain ⟨e, -, -, hf⟩ := token_page hp
  have h2 : p.out.vtdBuffer.pageSize = 2 ^ e := by
    conv => lhs; rw [hf]
    rfl
  have hc2 : (2 : Int) ^ e = ((2 ^ e : Nat) : Int) := by simp
  have ht : VtdNav.onVtd (longAt j) n = .err (indexErr none) n := by
    obtain ⟨-, -, h3⟩ := atWith_fill (fun _ => indexErr none) e p.out.vtdBuffer.values (j : Int)
    have hnp : ¬ panics e p.out.vtdBuffer.values.length (j : Int) := by
      rintro ⟨-, q1, -⟩
      have := Int.ediv_mul_le (j : Int) (b := (2 : Int) ^ e) (by rw [hc2]; have := Nat.two_pow_pos e; omega)
      omega
    rcases h3 (by rw [h2] at hpage; rintro ⟨-, -, h⟩; omega) hnp with h3 | h3 <;>
    · rw [← hf, ← h1] at h3
      simp only [VtdNav.onVtd, M.zoom_apply, longAt, h3]
      rfl
  simp only [toRawStringAtIndex, toStringAtIndex, getTokenType, M.bind_apply, ht]
  exact ⟨rfl, rfl⟩

/-- C72 is false of the tokens that are not on the first page of the token buffer: none of them can be read, whatever it is. -/
theorem C72_page_refuted (fuel : Nat) (opts : List ParserOption) (p : Parser) (hp : parsed fuel opts = some p)
    (doc : List UInt8) (depth : Int) (n : VtdNav) (hr : ReaderOf p doc depth n) (j : Nat)
    (hj : j < p.out.vtdBuffer.values.length) (hpage : p.out.vtdBuffer.pageSize ≤ j) (fuel' : Nat) :
    (n.toRawStringAtIndex j).outcome = .error (indexErr none) ∧ (n.toStringAtIndex fuel' j).outcome = .error (indexErr none) := by
  obtain ⟨h1, -, -, -⟩ := reader_parts hr
  exact page_unread hp h1 hj hpage fuel'

/-- C72 for the tokens of a regular tree, exactly: every token that is neither an empty text nor the start tag of an element whose
name runs on is read as its bytes if it is on the first page of the token buffer, and not at all otherwise. -/
theorem C72_tree_exact (fuel : Nat) (opts : List ParserOption) (doc : List UInt8) (o l : Nat)
    (h : SelectWindow opts doc o l) (hlen : doc.length < 2 ^ 30) (tree : Tree.Document) (hn : NsNeutral opts doc o tree)
    (hb : (doc.drop o).take l = tree.bytes) (hg : tree.Regular) (p : Parser) (hp : parsed fuel opts = some p)
    (depth : Int) (n : VtdNav) (hr : ReaderOf p doc depth n) :
    ∃ Q : Nat, p.out.vtdBuffer.pageSize = Q ∧ 64 ≤ Q ∧ Q ≤ 2 ^ 15 ∧
      ∀ (j : Nat) (x : Item), tree.items[j]? = some x → ¬ x.RunsOn → (x.IsText → x.text ≠ []) → ∀ fuel',
        let string := if j < Q then .value (x.text.map crToLf) else .error (indexErr none)
        (n.toRawStringAtIndex j).outcome = string ∧ (n.toStringAtIndex fuel' j).outcome = string := by
  have hi := h.inside
  obtain ⟨e, h1, h2, hf⟩ := token_page hp
  have hQ : p.out.vtdBuffer.pageSize = ((2 ^ e : Nat) : Int) := by
    conv => lhs; rw [hf]
    simp [fill]
  refine ⟨2 ^ e, hQ, Nat.pow_le_pow_right (n := 2) (by decide) h1, Nat.pow_le_pow_right (by decide) h2, ?_⟩
  intro j x hx hcol hne fuel'
  simp only
  split
  · exact C72_partial fuel opts doc o l h hlen tree hn hb hg p hp depth n hr j (by omega) x hx hcol hne fuel'
  · have hs := parsed_shown h (by omega) hn hb hg hp
    have hj : j < p.out.vtdBuffer.values.length := by
      have := hs.length
      rw [List.length_map] at this
      rw [this]
      exact (List.getElem?_eq_some_iff.1 hx).1
    exact C72_page_refuted fuel opts p hp doc depth n hr j hj (by omega) fuel'

/-- C72 for the names of elements, exactly: `ToRawStringAtIndex` returns the name of an element if and only if it does not run on
and its token is on the first page. -/
theorem C72_name_exact (fuel : Nat) (opts : List ParserOption) (doc : List UInt8) (o l : Nat)
    (h : SelectWindow opts doc o l) (hlen : doc.length < 2 ^ 30) (tree : Tree.Document) (hn : NsNeutral opts doc o tree)
    (hb : (doc.drop o).take l = tree.bytes) (hg : tree.Regular) (p : Parser) (hp : parsed fuel opts = some p)
    (depth : Int) (n : VtdNav) (hr : ReaderOf p doc depth n) (k : Nat) (e : Tree.Elem) (he : tree.Has k e) :
    (n.toRawStringAtIndex e.token).outcome = .value e.tag.name ↔
      ¬ Overrun e.tag.name ∧ (e.token : Int) < p.out.vtdBuffer.pageSize := by
  have hi := h.inside
  have hst := (he.stands hg.syn.epilog).item
  have hs := parsed_shown h (by omega) hn hb hg hp
  refine ⟨fun hv => ?_, fun ⟨h1, h2⟩ => C72_name_partial fuel opts doc o l h hlen tree hn hb hg p hp depth n hr k e he h2 h1⟩
  have hpage : (e.token : Int) < p.out.vtdBuffer.pageSize := by
    refine Int.not_le.1 fun hpage => ?_
    have hj : e.token < p.out.vtdBuffer.values.length := by
      have := hs.length
      rw [List.length_map] at this
      rw [this]
      exact (List.getElem?_eq_some_iff.1 hst).1
    rw [(C72_page_refuted fuel opts p hp doc depth n hr e.token hj hpage 0).1] at hv
    cases hv
  refine ⟨fun hover => ?_, hpage⟩
  obtain ⟨h1, h2, h3, -⟩ := reader_parts hr
  obtain ⟨ex, hf, hpg⟩ := tokens_fill hp
  have hone : e.token < 2 ^ ex := by omega
  obtain ⟨x, hx, hsx⟩ := hs.get hst
  rw [List.getElem?_map, Option.map_eq_some_iff] at hx
  obtain ⟨w, hj, rfl⟩ := hx
  have hstart : IsStart w := hsx.kind
  obtain ⟨r, hr0, hrt⟩ := hsx.more ⟨rfl, hover⟩
  have hlong : e.tag.name.length < qnameLength w := by
    have := congrArg List.length hrt
    have hr0 : r.length ≠ 0 := fun h => hr0 (List.eq_nil_of_length_eq_zero h)
    simp only [readToken, hstart, true_or, if_true, Tree.item, List.length_append, List.length_take] at this
    omega
  have hq : qnameLength w < 2 ^ 11 := by simp only [qnameLength]; omega
  have hsl : shownLength p.out.vtdBuffer.values e.token w = qnameLength w := by rw [shownLength, if_pos (.inl hstart)]
  rw [raw_range (h1.trans hf) hj hone (by
    intro ht
    simp only [IsStart, Token.code] at hstart
    omega), hsl] at hv
  have ho : tokenOffset w % 2 ^ 30 < 2 ^ 30 := Nat.mod_lt _ (by decide)
  obtain ⟨-, c1, c2⟩ := C21_exact n h3 ((tokenOffset w % 2 ^ 30 : Nat) : Int) ((qnameLength w : Nat) : Int)
  rw [wrap32_of_range (by omega) (by omega)] at c1 c2
  by_cases hin : (((tokenOffset w % 2 ^ 30 : Nat) : Int) + ((qnameLength w : Nat) : Int)) ≤ n.doc.length
  · rw [c1 (by omega) (by omega) hin] at hv
    simp only [Res.outcome, Outcome.value.injEq] at hv
    have := congrArg List.length hv
    simp at this
    omega
  · rw [c2 (by omega) (by omega)] at hv
    simp [Res.outcome] at hv

/-- C72 for the names of the children of the root, exactly, without a bound on their number: with pages of `P` entries in the
first cache and `Q` in the token buffer, the walk to the `k`-th child and the name at its end. -/
theorem C72_children_exact (fuel : Nat) (opts : List ParserOption) (hdeep : chosenDeep opts = true) (doc : List UInt8) (o l : Nat)
    (h : SelectWindow opts doc o l) (hlen : doc.length < 2 ^ 30) (tree : Tree.Document) (hn : NsNeutral opts doc o tree)
    (hb : (doc.drop o).take l = tree.bytes) (hg : tree.Regular) (htok : tree.items.length ≤ 2 ^ 28)
    (hcol : ∀ c ∈ tree.rootElem.children, ¬ Overrun c.tag.name) (p : Parser) (hp : parsed fuel opts = some p)
    (depth : Int) (hd : 4 ≤ depth) (n : VtdNav) (hr : ReaderOf p doc depth n) :
    ∃ P Q : Nat, p.out.l1Buffer.pageSize = P ∧ 32 ≤ P ∧ P ≤ 256 ∧ p.out.vtdBuffer.pageSize = Q ∧ 64 ≤ Q ∧ Q ≤ 2 ^ 15 ∧ ∀ k,
      (VtdNav.walkName (Direction.root :: Direction.firstChild :: List.replicate k Direction.nextSibling) n).outcome =
        if P ≤ k ∧ P < tree.rootElem.children.length then .error (indexErr (some (indexErr none)))
        else match tree.rootElem.children[k]? with
          | none => .value none
          | some c => if c.token < Q then .value (some c.tag.name) else .error (indexErr none) := by
  have hi := h.inside
  obtain ⟨h1, h2, h3, h4⟩ := reader_parts hr
  obtain ⟨P, p1, p2, p3, key⟩ := C71_children_exact fuel opts hdeep doc o l h (by omega) tree hn hb hg htok p hp depth hd n h4
  obtain ⟨e, e1, e2, hf⟩ := token_page hp
  have hQ : p.out.vtdBuffer.pageSize = ((2 ^ e : Nat) : Int) := by
    conv => lhs; rw [hf]
    simp [fill]
  refine ⟨P, 2 ^ e, p1, p2, p3, hQ, Nat.pow_le_pow_right (n := 2) (by decide) e1, Nat.pow_le_pow_right (by decide) e2, fun k => ?_⟩
  have key := key k
  split
  · next hk => rw [if_pos hk] at key; exact walkName_error key
  · next hk =>
    rw [if_neg hk] at key
    cases hc : tree.rootElem.children[k]? with
    | none =>
      rw [hc] at key
      exact walkName_value key (fun _ => rfl) nofun
    | some c =>
      rw [hc] at key
      have hh : tree.Has 1 c := .child .root (List.mem_of_getElem? hc)
      have hst := (hh.stands hg.syn.epilog).item
      simp only
      split
      · refine walkName_value key nofun fun i hi => ?_
        cases hi
        refine ⟨_, rfl, fun n' g1 g2 g3 => ?_⟩
        obtain ⟨r, -⟩ := strings_at h hlen hn hb hg hp (n := n') (g1.trans h1) (g2.trans h2) (g3 h3) (j := c.token) (by omega) hst
          (fun h => hcol c (List.mem_of_getElem? hc) h.2) (by rintro (h | h | h) <;> cases h) 0
        rw [r]
        exact congrArg Outcome.value (Tree.Name.shown (hh.syn hg.syn).1)
      · refine walkName_unread key fun n' g1 => ?_
        have hs := parsed_shown h (by omega) hn hb hg hp
        refine (page_unread hp (g1.trans h1) (j := c.token) ?_ (by omega) 0).1
        have := hs.length
        rw [List.length_map] at this
        rw [this]
        exact (List.getElem?_eq_some_iff.1 hst).1

/-- In particular no token from number 2^15 on can be read, in any document. -/
theorem C72_many_refuted (fuel : Nat) (opts : List ParserOption) (p : Parser) (hp : parsed fuel opts = some p)
    (doc : List UInt8) (depth : Int) (n : VtdNav) (hr : ReaderOf p doc depth n) (j : Nat)
    (hj : j < p.out.vtdBuffer.values.length) (hbig : 2 ^ 15 ≤ j) (fuel' : Nat) :
    (n.toRawStringAtIndex j).outcome = .error (indexErr none) ∧ (n.toStringAtIndex fuel' j).outcome = .error (indexErr none) := by
  refine C72_page_refuted fuel opts p hp doc depth n hr j hj ?_ fuel'
  obtain ⟨e, -, h15, hf⟩ := token_page hp
  have h2 : p.out.vtdBuffer.pageSize = 2 ^ e := by
    conv => lhs; rw [hf]
    rfl
  have hc2 : (2 : Int) ^ e = ((2 ^ e : Nat) : Int) := by simp
  have := Nat.pow_le_pow_right (n := 2) (by decide) h15
  rw [h2, hc2]
  omega

/-! ## Documents -/

/-- Non-vacuity of `C72_token_partial`: a namespace-aware parse of a document with a prefixed attribute, in the middle of a slice. -/
example : ∃ p n, parsed 0 [.nameSpaceAware true, .xmlDocCustomOffset (some (bytes "zz<a xmlns:p='u' p:x='1'>t</a>z")) 2 28] = some p ∧
    ReaderOf p (bytes "zz<a xmlns:p='u' p:x='1'>t</a>z") 4 n ∧
    (n.toRawStringAtIndex 4).outcome = .value (bytes "p:x") ∧ (n.toStringAtIndex 0 6).outcome = .value (bytes "t") := by
  have hex : ∃ p n, parsed 0 [.nameSpaceAware true, .xmlDocCustomOffset (some (bytes "zz<a xmlns:p='u' p:x='1'>t</a>z")) 2 28] = some p ∧
      ReaderOf p (bytes "zz<a xmlns:p='u' p:x='1'>t</a>z") 4 n ∧
      (64 ≤ p.out.vtdBuffer.pageSize ∧
        p.out.vtdBuffer.values.map (readToken (bytes "zz<a xmlns:p='u' p:x='1'>t</a>z")) =
          [⟨13, -1, []⟩, ⟨0, 0, bytes "a"⟩, ⟨3, 0, bytes "xmlns:p"⟩, ⟨4, 0, bytes "u"⟩, ⟨2, 0, bytes "p:x"⟩, ⟨4, 0, bytes "1"⟩,
            ⟨5, 0, bytes "t"⟩]) := read_witness (by decide +kernel)
  obtain ⟨p, n, hp, hr, hpage, hws⟩ := hex
  have key := C72_token_partial 0 _ (bytes "zz<a xmlns:p='u' p:x='1'>t</a>z") 2 28 rfl ⟨by decide, by decide⟩ (by decide +kernel)
    (by decide +kernel) (by decide +kernel) p hp 4 n hr
  have h4 := congrArg (fun l => l[4]?) hws
  have h6 := congrArg (fun l => l[6]?) hws
  simp only [List.getElem?_map] at h4 h6
  obtain ⟨w4, g4, e4⟩ := Option.map_eq_some_iff.1 h4
  obtain ⟨w6, g6, e6⟩ := Option.map_eq_some_iff.1 h6
  have t4 : tokenType w4 = 2 := congrArg Item.kind e4
  have t6 : tokenType w6 = 5 := congrArg Item.kind e6
  have k4 := (key 4 (by omega) w4 g4 (by omega) (by intro h; cases t4.symm.trans h) (by rw [e4]; rintro (h | h | h) <;> cases h) 0).1
  have k6 := (key 6 (by omega) w6 g6 (by omega) (by intro h; cases t6.symm.trans h) (by
    intro _ h0
    have := congrArg Item.text e6
    simp only [readToken] at this
    rw [if_neg (by simp [IsStart, IsAttr, t6, Token.code]), h0, List.take_zero] at this
    cases this) 0).2
  rw [e4, show (bytes "p:x").map crToLf = bytes "p:x" by decide +kernel] at k4
  rw [e6, show (bytes "t").map crToLf = bytes "t" by decide +kernel] at k6
  exact ⟨p, n, hp, hr, k4, k6⟩

/-- Non-vacuity of `C72_page_refuted`: the root with 64 children has 66 tokens, on pages of 64. The name of the last element on the
first page is read, that of the one after it is not. -/
theorem C72_page_witness_refuted : (manyDoc 64).items[63]? = some ⟨0, 1, bytes "b"⟩ ∧ (manyDoc 64).items[64]? = some ⟨0, 1, bytes "b"⟩ ∧
    ∃ p n, parsed 0 [.xmlDoc (some (manyDoc 64).bytes)] = some p ∧ ReaderOf p (manyDoc 64).bytes 4 n ∧
      (n.toRawStringAtIndex 63).outcome = .value (bytes "b") ∧ (n.toRawStringAtIndex 64).outcome = .error (indexErr none) := by
  refine ⟨by decide +kernel, by decide +kernel, ?_⟩
  have hex : ∃ p n, parsed 0 [.xmlDoc (some (manyDoc 64).bytes)] = some p ∧ ReaderOf p (manyDoc 64).bytes 4 n ∧
      (p.out.vtdBuffer.values.length = 66 ∧ p.out.vtdBuffer.pageSize = 64 ∧ (n.toRawStringAtIndex 63).outcome = .value (bytes "b")) :=
    read_witness (by decide +kernel)
  obtain ⟨p, n, hp, hr, h1, h2, h3⟩ := hex
  exact ⟨p, n, hp, hr, h3, (C72_page_refuted 0 _ p hp _ 4 n hr 64 (by omega) (by omega) 0).1⟩

/-! ### A document with prefixes -/

open Tree in
/-- `<p:a xmlns:p='u'><b/><p:c>t</p:c><d/></p:a>`. -/
def prefixTree : Tree.Document :=
  only (.element ⟨bytes "p:a", [⟨bytes " ", bytes "xmlns:p", [], [], ch% '\'', lit "u"⟩], []⟩
    (.atom [] (.empty (tag "b")) (.element [] (tag "p:c") (.text (lit "t")) [] (.atom [] (.empty (tag "d")) (.text [])))) [])

def prefixTreeDoc : List UInt8 := bytes "<p:a xmlns:p='u'><b/><p:c>t</p:c><d/></p:a>"

def prefixTreeOpts : List ParserOption := [.xmlDoc (some prefixTreeDoc), .nameSpaceAware true, .lcDepth 5]

theorem prefixTree_bytes : prefixTree.bytes = prefixTreeDoc := by decide +kernel

theorem prefixTree_regular : prefixTree.Regular := by
  have hs : prefixTree.Syntax := Tree.Document.WellFormed.syn (by decide +kernel)
  have hq : prefixTree.Plain := by
    refine ⟨nofun, fun t b sp e => ?_⟩
    simp only [prefixTree, Tree.only, Tree.Root.element.injEq] at e
    obtain ⟨-, rfl, -⟩ := e
    refine ⟨nofun, nofun, nofun, nofun, ?_, nofun, nofun⟩
    intro _ w b r h
    cases w <;> cases h
  refine ⟨hs, hq, ?_, ?_⟩
  · refine (C34_fits 0 [.xmlDoc (some prefixTreeDoc)] prefixTreeDoc 0 (select_whole _ (by decide)) (by decide) prefixTree
      prefixTree_bytes.symm hs hq).1 ?_
    exact Option.isSome_iff_exists.1 (by decide +kernel : accepts prefixTreeDoc = true)
  · intro s hs
    have : ∀ s ∈ prefixTree.spans 0, s.data.length ≤ 1 := by decide +kernel
    exact Nat.le_trans (this s hs) (by decide)

theorem prefixTree_neutral : NsNeutral prefixTreeOpts prefixTreeDoc 0 prefixTree :=
  .inr (.inr ⟨by decide, ⟨by decide +kernel, by decide +kernel, by decide +kernel, by decide +kernel⟩⟩)

/-- Names that run on and names that do not. -/
example : Overrun (bytes "abc:d") ∧ Overrun (bytes "xs:element") ∧ ¬ Overrun (bytes "p:c") ∧ ¬ Overrun (bytes "abcd") := by decide +kernel

/-- Non-vacuity of `C68_regular_partial`, `C68_exact`, `C71_tree`, `C72_tree_exact` and `C72_name_exact` with prefixes, in a namespace-aware
parse: the root and two of its children can be reached, and all tokens are read as what they are. -/
example : ∃ p n, parsed 0 prefixTreeOpts = some p ∧ ReaderOf p prefixTreeDoc 4 n ∧ Reachable n 1 ∧ Reachable n 5 ∧ Reachable n 7 ∧
    (n.toRawStringAtIndex 2).outcome = .value (bytes "xmlns:p") ∧ (n.toRawStringAtIndex 7).outcome = .value (bytes "d") ∧
    (n.toRawStringAtIndex 5).outcome = .value (bytes "p:c") ∧
    p.out.vtdBuffer.values.map (readToken prefixTreeDoc) = prefixTree.items := by
  have hex : ∃ p n, parsed 0 prefixTreeOpts = some p ∧ ReaderOf p prefixTreeDoc 4 n ∧
      (p.out.l1Buffer.getSize ≤ p.out.l1Buffer.pageSize ∧ p.out.l2Buffer.getSize ≤ p.out.l2Buffer.pageSize) :=
    read_witness (by decide +kernel)
  obtain ⟨p, n, hp, hr, c1, c2⟩ := hex
  have hl : prefixTreeDoc.length = 43 := by decide +kernel
  have hsel : SelectWindow prefixTreeOpts prefixTreeDoc 0 43 := ⟨by rw [← hl]; exact rfl, by omega, by omega, by omega⟩
  have hb : (prefixTreeDoc.drop 0).take 43 = prefixTree.bytes := by rw [← hl, prefixTree_bytes]; simp
  have hroot : prefixTree.Has 0 prefixTree.rootElem := .root
  obtain ⟨-, -, -, hv⟩ := reader_parts hr
  have reach := C71_tree 0 prefixTreeOpts rfl prefixTreeDoc 0 43 hsel (by decide) prefixTree prefixTree_neutral hb prefixTree_regular
    (by decide +kernel) p hp c1 c2 4 (by decide) n hv
  obtain ⟨Q, hQ, h64, -, key⟩ := C72_tree_exact 0 prefixTreeOpts prefixTreeDoc 0 43 hsel (by omega) prefixTree prefixTree_neutral hb
    prefixTree_regular p hp 4 n hr
  have hc : prefixTree.Has 1 ⟨5, Tree.tag "p:c", _⟩ := .child .root (.tail _ (.head _))
  have hd : prefixTree.Has 1 ⟨7, Tree.tag "d", _⟩ := .child .root (.tail _ (.tail _ (.head _)))
  have k5 := (C72_name_exact 0 prefixTreeOpts prefixTreeDoc 0 43 hsel (by omega) prefixTree prefixTree_neutral hb prefixTree_regular p hp 4 n hr
    1 _ hc).2 ⟨by decide +kernel, show (5 : Int) < _ by omega⟩
  have k2 := (key 2 ⟨3, 0, bytes "xmlns:p"⟩ (by decide +kernel) (by decide +kernel) (by rintro (h | h | h) <;> cases h) 0).1
  have k7 := (key 7 ⟨0, 1, bytes "d"⟩ (by decide +kernel) (by decide +kernel) (by rintro (h | h | h) <;> cases h) 0).1
  rw [if_pos (by omega), show (bytes "xmlns:p").map crToLf = bytes "xmlns:p" by decide +kernel] at k2
  rw [if_pos (by omega), show (bytes "d").map crToLf = bytes "d" by decide +kernel] at k7
  exact ⟨p, n, hp, hr, (reach 0 _ hroot).2 (by omega), (reach 1 _ hc).2 (by omega), (reach 1 _ hd).2 (by omega), k2, k7, k5,
    (C68_exact 0 prefixTreeOpts prefixTreeDoc 0 43 hsel (by decide) prefixTree prefixTree_neutral hb prefixTree_regular _
      (by rw [parsedTokens, hp]; rfl)).2 (by decide +kernel)⟩

/-- Non-vacuity of `C72_children_exact`: the root with 64 children again. The walk to child 31 gives its name, the walk to child 32
an error. -/
example : ∃ p n, parsed 0 [.xmlDoc (some (manyDoc 64).bytes), .lcDepth 5] = some p ∧ ReaderOf p (manyDoc 64).bytes 4 n ∧
    (VtdNav.walkName (Direction.root :: Direction.firstChild :: List.replicate 31 Direction.nextSibling) n).outcome = .value (some (bytes "b")) ∧
    (VtdNav.walkName (Direction.root :: Direction.firstChild :: List.replicate 32 Direction.nextSibling) n).outcome =
      .error (indexErr (some (indexErr none))) := by
  have hex : ∃ p n, parsed 0 [.xmlDoc (some (manyDoc 64).bytes), .lcDepth 5] = some p ∧ ReaderOf p (manyDoc 64).bytes 4 n ∧
      p.out.l1Buffer.pageSize = 32 := read_witness (by decide +kernel)
  obtain ⟨p, n, hp, hr, h32⟩ := hex
  have hl : (manyDoc 64).bytes.length = 263 := by decide +kernel
  have hsel : SelectWindow [.xmlDoc (some (manyDoc 64).bytes), .lcDepth 5] (manyDoc 64).bytes 0 263 :=
    ⟨by rw [← hl]; exact rfl, by omega, by omega, by omega⟩
  have hb : ((manyDoc 64).bytes.drop 0).take 263 = (manyDoc 64).bytes := by rw [← hl]; simp
  have hw : (manyDoc 64).WellFormed := by decide +kernel
  have hs : (manyDoc 64).Supported := by decide +kernel
  obtain ⟨P, Q, h1, -, -, -, h64, -, key⟩ := C72_children_exact 0 _ rfl (manyDoc 64).bytes 0 263 hsel (by omega) (manyDoc 64) (.inl rfl) hb
    (Tree.Document.Supported.regular hw hs) (by decide +kernel) (by decide +kernel) p hp 4 (by decide) n hr
  obtain rfl : P = 32 := by omega
  have hc : (manyDoc 64).rootElem.children.length = 64 := by decide +kernel
  have hk : ((manyDoc 64).rootElem.children[31]?.map fun c => (c.token, c.tag.name)) = some (33, bytes "b") := by decide +kernel
  have k31 := key 31
  have k32 := key 32
  rw [if_pos (by omega)] at k32
  rw [if_neg (by omega)] at k31
  obtain ⟨c, g1, g2⟩ := Option.map_eq_some_iff.1 hk
  simp only [Prod.mk.injEq] at g2
  rw [g1] at k31
  simp only [g2.1, g2.2] at k31
  rw [if_pos (by omega)] at k31
  exact ⟨p, n, hp, hr, k31, k32⟩

end GoVtd
