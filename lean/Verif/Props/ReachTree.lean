import Verif.Proofs.Elems
import Verif.Props.Reach
import Verif.Props.Items
import Verif.Props.Stored
import Verif.Props.NsOnly

/-!
# C71 for the elements of a tree

The statements of `Verif/Props/Reach.lean` for the elements of a document that is given as a tree, and the walk over the
children of the root.
-/

namespace GoVtd

open Parser Grammar Paged VtdNav

/-! ## Start tags of items and of words -/

theorem starts_word {doc : List UInt8} {ws : List (BitVec 64)} {j : Nat} {d : Int} :
    Tree.Starts (ws.map (readToken doc)) j d ↔
      ∃ w, ws[j]? = some w ∧ IsStart w ∧ (if tokenDepth w = 255 then (-1 : Int) else tokenDepth w) = d := by
  simp only [Tree.Starts, List.getElem?_map, Option.map_eq_some_iff]
  constructor
  · rintro ⟨x, ⟨w, h1, rfl⟩, h2, h3⟩
    exact ⟨w, h1, h2, h3⟩
  · rintro ⟨w, h1, h2, h3⟩
    exact ⟨_, ⟨w, h1, rfl⟩, h2, h3⟩

theorem starts_mem {doc : List UInt8} {ws : List (BitVec 64)} {j k : Nat} (hk : k < 255) :
    Tree.Starts (ws.map (readToken doc)) j k ↔ (j, k) ∈ startsFrom 0 ws := by
  rw [starts_word, mem_startsFrom]
  constructor
  · rintro ⟨w, h1, h2, h3⟩
    refine ⟨j, w, by omega, h1, h2, ?_⟩
    split at h3 <;> omega
  · rintro ⟨i, w, h0, h1, h2, h3⟩
    obtain rfl : j = i := by omega
    refine ⟨w, h1, h2, ?_⟩
    rw [if_neg (by omega)]
    omega

theorem starts_sorted (ws : List (BitVec 64)) : ∀ i, (∀ x ∈ startsFrom i ws, i ≤ x.1) ∧ (startsFrom i ws).Pairwise fun a b => a.1 < b.1 := by
  induction ws with
  | nil => intro i; simp [startsFrom]
  | cons w ws ih =>
    intro i
    obtain ⟨h1, h2⟩ := ih (i + 1)
    rw [startsFrom]
    split
    · refine ⟨fun x hx => ?_, List.pairwise_cons.2 ⟨fun x hx => ?_, h2⟩⟩
      · rcases List.mem_cons.1 hx with rfl | hx
        · exact Nat.le_refl _
        · have := h1 x hx; omega
      · have := h1 x hx; simp only; omega
    · exact ⟨fun x hx => by have := h1 x hx; omega, h2⟩

/-- Increasing lists with the same members. -/
theorem sorted_ext : ∀ {a b : List Nat}, a.Pairwise (· < ·) → b.Pairwise (· < ·) → (∀ x, x ∈ a ↔ x ∈ b) → a = b
  | [], [], _, _, _ => rfl
  | [], y :: b, _, _, h => by have := (h y).2 (by simp); simp at this
  | x :: a, [], _, _, h => by have := (h x).1 (by simp); simp at this
  | x :: a, y :: b, ha, hb, h => by
    obtain ⟨ha1, ha2⟩ := List.pairwise_cons.1 ha
    obtain ⟨hb1, hb2⟩ := List.pairwise_cons.1 hb
    have hxy : x = y := by
      rcases List.mem_cons.1 ((h x).1 (by simp)) with e | e
      · exact e
      · rcases List.mem_cons.1 ((h y).2 (by simp)) with e' | e'
        · exact e'.symm
        · have := hb1 x e; have := ha1 y e'; omega
    subst hxy
    congr 1
    refine sorted_ext ha2 hb2 fun z => ⟨fun hz => ?_, fun hz => ?_⟩
    · rcases List.mem_cons.1 ((h z).1 (by simp [hz])) with e | e
      · have := ha1 z hz; omega
      · exact e
    · rcases List.mem_cons.1 ((h z).2 (by simp [hz])) with e | e
      · have := hb1 z hz; omega
      · exact e

theorem level_tokens {k : Nat} {sts : List (Nat × Nat)} : ∀ {c : Nat}, (∀ x ∈ sts, x.1 < 2 ^ 28) → c + sts.length < 2 ^ 31 →
    ((level noChild k c sts).map entryOf).map (·.token) = (sts.filter (·.2 = k)).map (·.1) := by
  induction sts with
  | nil => intros; rfl
  | cons x sts ih =>
    intro c hx hc
    obtain ⟨i, d⟩ := x
    simp only [List.length_cons] at hc
    have hx' : ∀ x ∈ sts, x.1 < 2 ^ 28 := fun x h => hx x (List.mem_cons_of_mem _ h)
    rw [level]
    by_cases hd : d = k
    · subst hd
      rw [if_pos rfl, List.filter_cons_of_pos (by simp)]
      simp only [List.map_cons]
      rw [ih hx' (by omega), entryOf_entry (hx (i, d) (by simp))]
      split
      · omega
      · decide
    · rw [if_neg hd, List.filter_cons_of_neg (by simpa using hd)]
      exact ih hx' (by split <;> omega)

/-! ## Walks -/

namespace Walk

theorem walk_append {as bs : List Direction} {n n' : VtdNav} (h : VtdNav.walk as n = .ok true n') :
    VtdNav.walk (as ++ bs) n = VtdNav.walk bs n' := by
  induction as generalizing n with
  | nil => cases h; rfl
  | cons a as ih =>
    simp only [VtdNav.walk, List.cons_append, M.bind_apply] at h ⊢
    cases hr : VtdNav.toElement a n with
    | ok b n1 =>
      rw [hr] at h
      cases b
      · cases h
      · exact ih h
    | err _ _ => rw [hr] at h; cases h
    | panic => rw [hr] at h; cases h
    | diverge => rw [hr] at h; cases h

theorem walk_stop {as bs : List Direction} {n n' : VtdNav} (h : VtdNav.walk as n = .ok false n') :
    VtdNav.walk (as ++ bs) n = .ok false n' := by
  induction as generalizing n with
  | nil => cases h
  | cons a as ih =>
    simp only [VtdNav.walk, List.cons_append, M.bind_apply] at h ⊢
    cases hr : VtdNav.toElement a n with
    | ok b n1 =>
      rw [hr] at h
      cases b
      · exact h
      · exact ih h
    | err _ _ => rw [hr] at h; cases h
    | panic => rw [hr] at h; cases h
    | diverge => rw [hr] at h; cases h

theorem walk_one {d : Direction} {n n' : VtdNav} {b : Bool} (h : n.toElement d = .ok b n') : VtdNav.walk [d] n = .ok b n' := by
  simp only [VtdNav.walk, M.bind_apply]
  rw [h]
  cases b <;> rfl

variable {b1 b2 : FastLongBuffer} {root : Int} {exps1 : List Int} {es1 : List CacheEntry} {n : VtdNav}

theorem At.none (h : At b1 b2 root 0 n) (hc : CacheOver exps1 [] b1) : n.toElement Direction.firstChild = .ok false n := by
  have hc : CacheOver exps1 [] n.l1Buffer := h.l1 ▸ hc
  rw [toChild_level n _ 0 (.inl rfl) h.notTerminal h.level, if_pos rfl]
  simp only [toChildLevel0, M.bind_apply, M.get_apply, Res.andThen_ok, hc.size]
  rw [if_pos (by simp)]
  rfl

theorem At.walk (h : At b1 b2 root 0 n) (hc : CacheOver exps1 es1 b1) (k : Nat) {e : CacheEntry} (he : es1[k]? = some e) :
    ∃ n', VtdNav.walk (Direction.firstChild :: List.replicate k Direction.nextSibling) n = .ok true n' ∧ At b1 b2 root 1 n' ∧
      n'.l1index = k ∧ n'.context[1]? = some (e.token : Int) := by
  induction k generalizing e with
  | zero =>
    obtain ⟨n', h1, h2, h3, h4⟩ := h.first hc he
    exact ⟨n', walk_one h1, h2, h3, h4⟩
  | succ k ih =>
    have hl := (List.getElem?_eq_some_iff.1 he).1
    obtain ⟨n1, r1, a1, i1, -⟩ := ih (e := es1[k]'(by omega)) (by simp)
    obtain ⟨n', h1, h2, h3, h4⟩ := a1.next1 hc i1 he
    refine ⟨n', ?_, h2, h3, h4⟩
    rw [List.replicate_succ', ← List.cons_append, walk_append r1]
    exact walk_one h1

/-- The walk over the first cache. -/
theorem At.walkTo {c : Int} (h : At b1 b2 root c n) (hc : CacheOver exps1 es1 b1) (k : Nat) :
    (VtdNav.walkTo (Direction.root :: Direction.firstChild :: List.replicate k Direction.nextSibling) n).outcome =
      .value ((es1.map (·.token))[k]?.map fun (i : Nat) => (i : Int)) := by
  obtain ⟨n0, r0, a0⟩ := h.toRoot
  have hroot : ∀ ds, VtdNav.walk (Direction.root :: ds) n = VtdNav.walk ds n0 := fun ds => walk_append (as := [Direction.root]) (walk_one r0)
  simp only [VtdNav.walkTo, M.bind_apply, hroot]
  cases he : es1[k]? with
  | some e =>
    obtain ⟨n1, r1, a1, -, c1⟩ := a0.walk hc k he
    have hi := a1.index (c := 1) (by omega) c1
    rw [r1]
    simp only [Res.andThen_ok, if_true, M.bind_apply]
    cases hg : n1.getCurrentIndex with
    | ok i n2 =>
      rw [hg] at hi
      cases hi
      simp [he, Res.outcome, Res.andThen, M.pure_apply]
    | err _ _ => rw [hg] at hi; cases hi
    | panic => rw [hg] at hi; cases hi
    | diverge => rw [hg] at hi; cases hi
  | none =>
    obtain ⟨n1, hf⟩ : ∃ n1, VtdNav.walk (Direction.firstChild :: List.replicate k Direction.nextSibling) n0 = .ok false n1 := by
      cases hl : es1.length with
      | zero =>
        obtain rfl := List.length_eq_zero_iff.1 hl
        exact ⟨n0, walk_stop (as := [Direction.firstChild]) (walk_one (a0.none hc))⟩
      | succ m =>
        have hk : m < k := by
          have := List.getElem?_eq_none_iff.1 he; omega
        obtain ⟨n1, r1, a1, i1, -⟩ := a0.walk hc m (e := es1[m]'(by omega)) (by simp)
        refine ⟨n1, ?_⟩
        rw [show k = m + (1 + (k - m - 1)) by omega, ← List.replicate_append_replicate, ← List.cons_append,
          walk_append r1, ← List.replicate_append_replicate]
        exact walk_stop (walk_one (a1.end1 hc i1 (by omega)))
    rw [hf]
    simp [he, Res.outcome, M.pure_apply]

end Walk

/-! ## Documents given as trees -/

/-- The records of a successful parse of a tree. -/
theorem parsed_stored {fuel : Nat} {opts : List ParserOption} {doc : List UInt8} {o l : Nat}
    (h : SelectWindow opts doc o l) (hlen : o + l < 2 ^ 31) {tree : Tree.Document} (hn : NsNeutral opts doc o tree)
    (hb : (doc.drop o).take l = tree.bytes) (hs : tree.Syntax) (hq : tree.Plain) (hf : tree.Fits) {p : Parser}
    (hp : parsed fuel opts = some p) : p.out.vtdBuffer.values = (docRec :: tree.stored o).map Rec.word := by
  have hw : parsedTokens fuel opts = some p.out.vtdBuffer.values := by rw [parsedTokens, hp]; rfl
  have : parsedTokens fuel opts = some ((docRec :: tree.stored o).map Rec.word) := by
    rcases hn with hn | ⟨hd, hn⟩ | ⟨hd, hn⟩
    · exact C34_stored_window_partial fuel opts doc o l h hn hlen tree hb hs hq hf
    · exact C34_stored_aware_partial fuel opts doc o l h hd tree hb hs hq hf hn
    · obtain ⟨out, k1, k2⟩ := parsedTokens_of.1 hw
      have k3 := C56_partial fuel fuel opts doc o l out h.window hd hn k1
      have h' : SelectWindow (opts ++ [.nameSpaceAware false]) doc o l :=
        ⟨by rw [← h.window]; simp only [chosenDoc, List.foldl_append]; rfl, h.nonempty, h.inside, h.size⟩
      have k4 := C34_stored_window_partial fuel _ doc o l h' (by simp only [chosenNs, List.foldl_append]; rfl) hlen tree hb hs hq hf
      rw [parsedTokens_of.2 ⟨out, k3, k2⟩] at k4
      rw [hw, k4]
  rw [this, Option.some.injEq] at hw
  exact hw.symm

/-- What a successful parse of a tree shows. -/
theorem parsed_shown {fuel : Nat} {opts : List ParserOption} {doc : List UInt8} {o l : Nat}
    (h : SelectWindow opts doc o l) (hlen : o + l < 2 ^ 31) {tree : Tree.Document} (hn : NsNeutral opts doc o tree)
    (hb : (doc.drop o).take l = tree.bytes) (hg : tree.Regular) {p : Parser} (hp : parsed fuel opts = some p) :
    Shown (p.out.vtdBuffer.values.map (readToken doc)) tree.items := by
  rw [parsed_stored h hlen hn hb hg.syn hg.plain hg.fits hp]
  obtain ⟨e1, e2, e3⟩ := window_eq h.inside hb
  have := Tree.Document.spellStored hg (pre := doc.take o) (post := doc.drop (o + l)) (by rw [List.length_append]; omega)
  rwa [← e1, e2] at this

/-- The start tags among the items. -/
theorem Shown.starts {xs ys : List Item} (h : Shown xs ys) {j : Nat} {d : Int} : Tree.Starts xs j d ↔ Tree.Starts ys j d := by
  constructor
  · rintro ⟨x, h1, h2, h3⟩
    obtain ⟨y, k1, k2⟩ := h.get' h1
    exact ⟨y, k1, k2.kind ▸ h2, k2.depth ▸ h3⟩
  · rintro ⟨y, h1, h2, h3⟩
    obtain ⟨x, k1, k2⟩ := h.get h1
    exact ⟨x, k1, k2.kind ▸ h2, k2.depth ▸ h3⟩

/-- C68 for every regular document: token by token its items, but the names of some elements with a prefix run on. -/
theorem C68_regular_partial (fuel : Nat) (opts : List ParserOption) (doc : List UInt8) (o l : Nat)
    (h : SelectWindow opts doc o l) (hlen : o + l < 2 ^ 31) (tree : Tree.Document) (hn : NsNeutral opts doc o tree)
    (hb : (doc.drop o).take l = tree.bytes) (hg : tree.Regular) (ws : List (BitVec 64)) (hw : parsedTokens fuel opts = some ws) :
    Shown (ws.map (readToken doc)) tree.items := by
  rw [parsedTokens, Option.map_eq_some_iff] at hw
  obtain ⟨p, hp, rfl⟩ := hw
  exact parsed_shown h hlen hn hb hg hp

/-- C68 for regular documents, exactly: the tokens show the items of the document if and only if no name of an element runs on. -/
theorem C68_exact (fuel : Nat) (opts : List ParserOption) (doc : List UInt8) (o l : Nat)
    (h : SelectWindow opts doc o l) (hlen : o + l < 2 ^ 31) (tree : Tree.Document) (hn : NsNeutral opts doc o tree)
    (hb : (doc.drop o).take l = tree.bytes) (hg : tree.Regular) (ws : List (BitVec 64)) (hw : parsedTokens fuel opts = some ws) :
    ws.map (readToken doc) = tree.items ↔ ∀ x ∈ tree.items, ¬ x.RunsOn := by
  have hs := C68_regular_partial fuel opts doc o l h hlen tree hn hb hg ws hw
  constructor
  · intro he x hx hr
    obtain ⟨j, hj⟩ := List.mem_iff_getElem?.1 hx
    obtain ⟨x', h1, h2⟩ := hs.get hj
    rw [he, hj, Option.some.injEq] at h1
    subst h1
    obtain ⟨r, h3, h4⟩ := h2.more hr
    have := congrArg List.length h4
    rw [List.length_append] at this
    exact h3 (List.eq_nil_of_length_eq_zero (by omega))
  · intro hr
    refine List.ext_getElem? fun j => ?_
    cases hj : tree.items[j]? with
    | none =>
      have := hs.length
      rw [List.getElem?_eq_none_iff] at hj ⊢
      omega
    | some y =>
      obtain ⟨x, h1, h2⟩ := hs.get hj
      rw [h1, h2.eq (hr y (List.mem_of_getElem? hj))]

/-- C71 for the elements of a tree: an element with `k` elements around it can be reached exactly if `k` is at most 2. -/
theorem C71_tree (fuel : Nat) (opts : List ParserOption) (hdeep : chosenDeep opts = true) (doc : List UInt8) (o l : Nat)
    (h : SelectWindow opts doc o l) (hlen : o + l < 2 ^ 31) (tree : Tree.Document)
    (hn : NsNeutral opts doc o tree)
    (hb : (doc.drop o).take l = tree.bytes) (hg : tree.Regular) (htok : tree.items.length ≤ 2 ^ 28)
    (p : Parser) (hp : parsed fuel opts = some p)
    (h1 : p.out.l1Buffer.getSize ≤ p.out.l1Buffer.pageSize) (h2 : p.out.l2Buffer.getSize ≤ p.out.l2Buffer.pageSize)
    (depth : Int) (hd : 4 ≤ depth) (n : VtdNav) (hv : NavOf p depth n) (k : Nat) (e : Tree.Elem) (he : tree.Has k e) :
    Reachable n e.token ↔ k ≤ 2 := by
  have hi := parsed_shown h hlen hn hb hg hp
  have hst := hi.starts.2 (he.stands hg.syn.epilog).starts
  rw [← hi.length, List.length_map] at htok
  obtain ⟨w, g1, g2, g3⟩ := starts_word.1 hst
  have hk : tokenDepth w = k := by split at g3 <;> omega
  rw [C71_exact fuel opts hdeep p hp htok h1 h2 depth hd n hv e.token w g1 g2, hk]

/-- The tokens of the first cache are those of the children of the root. -/
theorem children_tokens {fuel : Nat} {opts : List ParserOption} {p : Parser} (hp : parsed fuel opts = some p) {doc : List UInt8}
    {tree : Tree.Document} (hw : ∀ m ∈ tree.epilog, m.WellFormed) (hi : Shown (p.out.vtdBuffer.values.map (readToken doc)) tree.items)
    (htok : p.out.vtdBuffer.values.length ≤ 2 ^ 28) :
    ((level noChild 1 0 (startsFrom 0 p.out.vtdBuffer.values)).map entryOf).map (·.token) = tree.rootElem.children.map (·.token) := by
  have hsorted := (starts_sorted p.out.vtdBuffer.values 0).2
  have hstl := startsFrom_length 0 p.out.vtdBuffer.values
  rw [level_tokens (fun x hx => by
    obtain ⟨j, w, g1, g2, -⟩ := mem_startsFrom.1 (show (x.1, x.2) ∈ _ from hx)
    have := (List.getElem?_eq_some_iff.1 g2).1
    omega) (by omega)]
  refine sorted_ext ?_ ?_ fun j => ?_
  · exact List.pairwise_map.2 (hsorted.sublist List.filter_sublist)
  · exact List.pairwise_map.2 (Tree.Elem.sorted _)
  have hroot := Tree.Document.root_stands hw
  obtain ⟨i, rest, hst, hpre⟩ := parsed_pre hp
  have hr : tree.rootElem.token = i := by
    have h0 := hi.starts.2 hroot.starts
    have h0 := (starts_mem (k := 0) (by omega)).1 (by exact_mod_cast h0)
    rw [hst] at h0
    rcases List.mem_cons.1 h0 with h0 | h0
    · simpa using h0
    · have := hpre.pos _ h0
      simp at this
  have hmem : (∃ c ∈ tree.rootElem.children, c.token = j) ↔ (j, 1) ∈ startsFrom 0 p.out.vtdBuffer.values := by
    rw [← hroot.child_iff j]
    constructor
    · rintro ⟨-, g2, -⟩
      exact (starts_mem (k := 1) (by omega)).1 (by exact_mod_cast hi.starts.2 g2)
    · intro hj
      rw [hst] at hsorted
      obtain ⟨s1, -⟩ := List.pairwise_cons.1 hsorted
      have hj' := hj
      rw [hst] at hj'
      have hj' : (j, 1) ∈ rest := by simpa using hj'
      refine ⟨by have := s1 _ hj'; simp only at this; omega, hi.starts.1 (by exact_mod_cast (starts_mem (k := 1) (by omega)).2 hj), ?_⟩
      intro k hk1 _ d' hd'
      exact Tree.Document.deeper hw hk1 hd'
  constructor
  · intro hj
    obtain ⟨x, hx, rfl⟩ := List.mem_map.1 hj
    obtain ⟨hx1, hx2⟩ := List.mem_filter.1 hx
    obtain ⟨c, hc, e⟩ := hmem.2 (by rw [← show x.2 = 1 by simpa using hx2]; exact hx1)
    exact List.mem_map.2 ⟨c, hc, e⟩
  · intro hj
    obtain ⟨c, hc, e⟩ := List.mem_map.1 hj
    exact List.mem_map.2 ⟨(j, 1), List.mem_filter.2 ⟨hmem.1 ⟨c, hc, e⟩, by simp⟩, rfl⟩

/-- Walking over the children of the root: `Root`, `FirstChild` and `k` times `NextSibling` bring the cursor to the `k`-th
child element in document order, and one of the moves returns false if there is no such child. -/
theorem C71_children_partial (fuel : Nat) (opts : List ParserOption) (hdeep : chosenDeep opts = true) (doc : List UInt8) (o l : Nat)
    (h : SelectWindow opts doc o l) (hlen : o + l < 2 ^ 31) (tree : Tree.Document)
    (hn : NsNeutral opts doc o tree)
    (hb : (doc.drop o).take l = tree.bytes) (hg : tree.Regular) (htok : tree.items.length ≤ 2 ^ 28)
    (hc : tree.rootElem.children.length ≤ 32) (p : Parser) (hp : parsed fuel opts = some p)
    (depth : Int) (hd : 4 ≤ depth) (n : VtdNav) (hv : NavOf p depth n) (k : Nat) :
    (VtdNav.walkTo (Direction.root :: Direction.firstChild :: List.replicate k Direction.nextSibling) n).outcome =
      .value (tree.rootElem.children[k]?.map fun c => (c.token : Int)) := by
  have hi := parsed_shown h hlen hn hb hg hp
  rw [← hi.length, List.length_map] at htok
  have ht := children_tokens hp hg.syn.epilog hi htok
  have h1 : p.out.l1Buffer.getSize ≤ p.out.l1Buffer.pageSize := by
    refine one_page (parsed_small hp).l1 ?_
    rw [(C45_caches fuel opts hdeep p hp).1]
    have := congrArg List.length ht
    simp only [List.length_map] at this
    omega
  obtain ⟨exps, k1⟩ := parsed_cache1 hdeep hp htok h1
  rw [(newVtdNav_at hv hd).walkTo k1 k, ht, List.getElem?_map, Option.map_map]
  rfl

/-! ## A document -/

open Tree in
/-- `<a><b/><c><d><e/></d></c></a>`. -/
def fourDoc : Tree.Document :=
  only (.element (tag "a") (.atom [] (.empty (tag "b")) (.element [] (tag "c") (.element [] (tag "d") (.atom [] (.empty (tag "e")) (.text []))
    [] (.text [])) [] (.text []))) [])

def fourOpts : List ParserOption := [.xmlDoc (some (bytes "<a><b/><c><d><e/></d></c></a>")), .lcDepth 5]

theorem fourDoc_select : SelectWindow fourOpts (bytes "<a><b/><c><d><e/></d></c></a>") 0 29 := ⟨rfl, by decide, by decide, by decide⟩

/-- A navigator over what a parser has recorded. -/
def navOver (p : Parser) (depth : Int) : Option VtdNav :=
  match newVtdNav p.out.rootIndex 0 0 depth 0 false (some []) p.out.vtdBuffer p.out.l1Buffer p.out.l2Buffer p.out.l3Buffer with
  | .ok n _ => some n
  | _ => none

theorem navOver_of {p : Parser} {depth : Int} {n : VtdNav} (h : navOver p depth = some n) : NavOf p depth n := by
  refine ⟨0, 0, 0, false, some [], ?_⟩
  simp only [navOver] at h
  split at h
  · next hr => cases h; exact hr
  · cases h

/-- The document is parsed, its caches are on one page, and there is a navigator. -/
theorem fourDoc_parsed : ∃ p n, parsed 0 fourOpts = some p ∧ NavOf p 4 n ∧ p.out.vtdBuffer.values.length = 6 ∧
    p.out.l1Buffer.getSize ≤ p.out.l1Buffer.pageSize ∧ p.out.l2Buffer.getSize ≤ p.out.l2Buffer.pageSize := by
  have h : (match parsed 0 fourOpts with
    | some p => match navOver p 4 with
      | some _ => decide (p.out.vtdBuffer.values.length = 6 ∧ p.out.l1Buffer.getSize ≤ p.out.l1Buffer.pageSize ∧
        p.out.l2Buffer.getSize ≤ p.out.l2Buffer.pageSize)
      | none => false
    | none => false) = true := by decide +kernel
  split at h
  · next p hp =>
    split at h
    · next n hn => exact ⟨p, n, hp, navOver_of hn, of_decide_eq_true h⟩
    · cases h
  · cases h

theorem fourDoc_bytes : ((bytes "<a><b/><c><d><e/></d></c></a>").drop 0).take 29 = fourDoc.bytes := by decide +kernel
theorem fourDoc_wf : fourDoc.WellFormed := by decide +kernel
theorem fourDoc_supported : fourDoc.Supported := by decide +kernel
theorem fourDoc_regular : fourDoc.Regular :=
  Tree.Document.Supported.regular fourDoc_wf fourDoc_supported
theorem fourDoc_small : fourDoc.items.length ≤ 2 ^ 28 := by decide +kernel

/-- The element `e`, at depth 3. -/
theorem fourDoc_has : fourDoc.Has 3 ⟨5, Tree.tag "e", none⟩ :=
  .child (e := ⟨4, Tree.tag "d", _⟩) (.child (e := ⟨3, Tree.tag "c", _⟩) (.child .root (.tail _ (.head _))) (.head _)) (.head _)

/-- C71 is false of this document: the element `e`, token 5, cannot be reached. -/
theorem C71_witness_refuted : ∃ p n, parsed 0 fourOpts = some p ∧ NavOf p 4 n ∧ fourDoc.Has 3 ⟨5, Tree.tag "e", none⟩ ∧ ¬ Reachable n 5 := by
  obtain ⟨p, n, h1, h2, -, h4, h5⟩ := fourDoc_parsed
  refine ⟨p, n, h1, h2, fourDoc_has, fun hr => ?_⟩
  have := (C71_tree 0 fourOpts rfl _ 0 29 fourDoc_select (by decide) fourDoc (.inl rfl) fourDoc_bytes fourDoc_regular
    fourDoc_small p h1 h4 h5 4 (by decide) n h2 3 _ fourDoc_has).1 hr
  omega

/-- Non-vacuity of `C71_tree`, `C71_exact` and `C71_partial`: the elements `a`, `c` and `d` of this document can be reached. -/
example : ∃ p n, parsed 0 fourOpts = some p ∧ NavOf p 4 n ∧ Reachable n 1 ∧ Reachable n 3 ∧ Reachable n 4 := by
  obtain ⟨p, n, h1, h2, -, h4, h5⟩ := fourDoc_parsed
  have key := fun k e he => C71_tree 0 fourOpts rfl _ 0 29 fourDoc_select (by decide) fourDoc (.inl rfl) fourDoc_bytes fourDoc_regular
    fourDoc_small p h1 h4 h5 4 (by decide) n h2 k e he
  have hc : fourDoc.Has 1 ⟨3, Tree.tag "c", _⟩ := .child .root (.tail _ (.head _))
  exact ⟨p, n, h1, h2, (key 0 _ .root).2 (by omega), (key 1 _ hc).2 (by omega),
    (key 2 ⟨4, Tree.tag "d", _⟩ (.child hc (.head _))).2 (by omega)⟩

/-- Non-vacuity of `C71_children_partial`: the root has two children, tokens 2 and 3. -/
example : ∃ p n, parsed 0 fourOpts = some p ∧ NavOf p 4 n ∧
    (VtdNav.walkTo [Direction.root, Direction.firstChild] n).outcome = .value (some 2) ∧
    (VtdNav.walkTo [Direction.root, Direction.firstChild, Direction.nextSibling] n).outcome = .value (some 3) ∧
    (VtdNav.walkTo [Direction.root, Direction.firstChild, Direction.nextSibling, Direction.nextSibling] n).outcome = .value none := by
  obtain ⟨p, n, h1, h2, -⟩ := fourDoc_parsed
  have key := C71_children_partial 0 fourOpts rfl _ 0 29 fourDoc_select (by decide) fourDoc (.inl rfl) fourDoc_bytes fourDoc_regular
    fourDoc_small (by decide +kernel) p h1 4 (by decide) n h2
  exact ⟨p, n, h1, h2, key 0, key 1, key 2⟩

/-- Non-vacuity of `C71_default_refuted`: the same document without `WithLcDepth(5)`; token 1 is the root element. -/
example : ∃ p n w, parsed 0 [.xmlDoc (some (bytes "<a><b/><c><d><e/></d></c></a>"))] = some p ∧ NavOf p 4 n ∧
    p.out.vtdBuffer.values[1]? = some w ∧ IsStart w ∧ ¬ Reachable n 1 ∧ Reachable n 0 := by
  have h : (match parsed 0 [.xmlDoc (some (bytes "<a><b/><c><d><e/></d></c></a>"))] with
    | some p => match navOver p 4, p.out.vtdBuffer.values[1]? with
      | some n, some w => decide (IsStart w ∧ (n.getCurrentIndex).outcome = .value 0)
      | _, _ => false
    | none => false) = true := by decide +kernel
  split at h
  · next p hp =>
    split at h
    · next n w hn hw =>
      have h := of_decide_eq_true h
      exact ⟨p, n, w, hp, navOver_of hn, hw, h.1, fun hr => C71_default_refuted 0 _ rfl p hp 4 n (navOver_of hn) 1 hr w hw h.1,
        n, .here, h.2⟩
    · cases h
  · cases h

end GoVtd
