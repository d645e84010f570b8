import Verif.Proofs.Parser.ParseAccept

/-!
# The records of the grammar
-/

namespace GoVtd
namespace Grammar

/-- `name` are the bytes of `doc` from offset `o` on. -/
def BytesAt (doc : List UInt8) (o : Int) (name : List UInt8) : Prop :=
  ∃ pre post, doc = pre ++ (name ++ post) ∧ o = pre.length

/-- What is true of every record. -/
structure RecOk (doc : List UInt8) (x : Rec) : Prop where
  depth0 : -1 ≤ x.depth
  depth1 : x.depth ≤ 254
  off : 0 ≤ x.off
  start : x.tok = .startingTag → ∃ name k : _, BytesAt doc x.off name ∧ name ≠ [] ∧ name.length ≤ 2047 ∧
    k ≤ 511 ∧ x.len = ((k <<< 1 ||| name.length : Nat) : Int) ∧ 0 ≤ x.depth ∧ (ch% ':' ∉ name → k = 0)
  attr : x.tok = .attrName ∨ x.tok = .attrNs → ∃ name k : _, BytesAt doc x.off name ∧ name ≠ [] ∧
    name.length ≤ 2047 ∧ k ≤ 511 ∧ x.len = ((k <<< 11 ||| name.length : Nat) : Int)
  cdata : x.tok = .cdataVal → -1 ≤ x.len
  other : x.tok ≠ .startingTag → x.tok ≠ .attrName → x.tok ≠ .attrNs → (x.tok = .cdataVal → x.len ≠ -1) →
    0 ≤ x.len ∧ x.len ≤ maxLen ∧ x.off + x.len ≤ doc.length

section
variable {doc : List UInt8}

theorem offset_suffix {s : List UInt8} (h : s <:+ doc) :
    0 ≤ offset doc.length s ∧ offset doc.length s + s.length = doc.length := by
  have := h.length_le
  simp only [offset]; omega

theorem bytesAt_suffix {name s : List UInt8} (h : name ++ s <:+ doc) :
    BytesAt doc (offset doc.length (name ++ s)) name := by
  obtain ⟨pre, hp⟩ := h
  refine ⟨pre, s, hp.symm, ?_⟩
  simp only [offset, ← hp, List.length_append]; omega

/-- A plain record. -/
theorem RecOk.plain {t : Token} {o l d : Int} (ht : t ≠ .startingTag ∧ t ≠ .attrName ∧ t ≠ .attrNs)
    (h0 : 0 ≤ o) (h1 : 0 ≤ l) (h2 : l ≤ maxLen) (h3 : o + l ≤ doc.length) (d0 : -1 ≤ d) (d1 : d ≤ 254) :
    RecOk doc ⟨t, o, l, d⟩ where
  depth0 := d0
  depth1 := d1
  off := h0
  start h := absurd h ht.1
  attr h := by rcases h with h | h; exact absurd h ht.2.1; exact absurd h ht.2.2
  cdata _ := by show -1 ≤ l; omega
  other _ _ _ _ := ⟨h1, h2, h3⟩

theorem textRecs_ok {t : Token} {o l d : Int} (ht : t ≠ .startingTag ∧ t ≠ .attrName ∧ t ≠ .attrNs)
    (h0 : 0 ≤ o) (h1 : 0 ≤ l ∨ (t = .cdataVal ∧ l = -1)) (h3 : o + l ≤ doc.length) (d0 : -1 ≤ d) (d1 : d ≤ 254) :
    ∀ x ∈ textRecs t o l d, RecOk doc x := by
  intro x hx
  simp only [textRecs] at hx
  split at hx
  · rename_i hl
    have hk : ((l.toNat - 1) / maxLen) * maxLen ≤ l.toNat - 1 := Nat.div_mul_le_self _ _
    have hk2 : l.toNat - 1 < ((l.toNat - 1) / maxLen + 1) * maxLen := Nat.lt_mul_of_div_lt (Nat.lt_succ_self _) (by decide)
    generalize (l.toNat - 1) / maxLen = k at *
    rw [Nat.succ_mul] at hk2
    simp only [maxLen] at *
    simp only [List.mem_append, List.mem_map, List.mem_range, List.mem_singleton] at hx
    obtain ⟨i, hi, rfl⟩ | rfl := hx
    · refine RecOk.plain ht ?_ ?_ ?_ ?_ d0 d1 <;> (try simp only [maxLen]) <;> omega
    · refine RecOk.plain ht ?_ ?_ ?_ ?_ d0 d1 <;> (try simp only [maxLen]) <;> omega
  · rename_i hl
    simp only [List.mem_singleton] at hx
    subst hx
    by_cases h : 0 ≤ l
    · exact RecOk.plain ht h0 h (by omega) h3 d0 d1
    · obtain ⟨rfl, rfl⟩ : t = .cdataVal ∧ l = -1 := by
        rcases h1 with h1 | h1
        · exact absurd h1 h
        · exact h1
      exact {
        depth0 := d0, depth1 := d1, off := h0
        start := nofun
        attr := by simp
        cdata := fun _ => Int.le_refl _
        other := fun _ _ _ h => absurd rfl (h rfl) }

theorem attrRec_ok {r name s : List UInt8} {d : Int} (hr : r = name ++ s) (h : r <:+ doc) (hn : name ≠ [])
    (h1 : name.length ≤ 2047) (h2 : lastColon 0 0 name ≤ 511) (d0 : -1 ≤ d) (d1 : d ≤ 254) :
    RecOk doc (attrRec doc.length d r name) where
  depth0 := d0
  depth1 := d1
  off := (offset_suffix h).1
  start h := by simp only [attrRec] at h; split at h <;> cases h
  attr _ := ⟨name, _, by subst hr; exact bytesAt_suffix h, hn, h1, h2, rfl⟩
  cdata h := by simp only [attrRec] at h; split at h <;> cases h
  other _ h2 h3 _ := by simp only [attrRec] at h2 h3; split at h2 <;> simp_all

theorem Close.lt {s e r'} (h : Close s e r') : r' <:+ s ∧ r'.length < s.length := by
  cases h with
  | start => exact ⟨List.suffix_cons _ _, by simp⟩
  | empty => exact ⟨(List.suffix_cons _ _).trans (List.suffix_cons _ _), by simp only [List.length_cons]; omega⟩

theorem suffix_app_cons {w r : List UInt8} {b : UInt8} : r <:+ w ++ b :: r :=
  (List.suffix_cons _ _).trans (List.suffix_append _ _)

theorem TagRest.ok {d : Int} {seen s recs e r'} (h : TagRest doc.length d seen s recs e r') (hs : s <:+ doc)
    (d0 : -1 ≤ d) (d1 : d ≤ 254) : (∀ x ∈ recs, RecOk doc x) ∧ r' <:+ s ∧ r'.length < s.length := by
  induction h with
  | @close seen w r e r' hw hc =>
    refine ⟨nofun, hc.lt.1.trans (List.suffix_append _ _), ?_⟩
    have := hc.lt.2
    simp only [List.length_append]; omega
  | @attr seen w b run w1 w2 q r r1 recs e r' h1 h2 h3 h4 h5 h6 h7 h8 h9 h10 h11 h12 h13 h14 ih =>
    have e1 : r1 <:+ r := h12.suffix
    have e2 := h12.lt
    have e3 : r <:+ w ++ b :: run ++ w1 ++ ch% '=' :: w2 ++ q :: r := suffix_app_cons
    have e4 : b :: run ++ w1 ++ ch% '=' :: w2 ++ q :: r <:+ w ++ b :: run ++ w1 ++ ch% '=' :: w2 ++ q :: r := by
      simp only [List.append_assoc]; exact List.suffix_append _ _
    obtain ⟨i1, i2, i3⟩ := ih (e1.trans (e3.trans hs))
    have := e3.length_le
    refine ⟨?_, i2.trans (e1.trans e3), by omega⟩
    intro x hx
    rw [List.mem_cons, List.mem_cons] at hx
    have ho := offset_suffix (e3.trans hs)
    obtain rfl | rfl | hx := hx
    · exact attrRec_ok (name := b :: run) (s := w1 ++ ch% '=' :: w2 ++ q :: r) (by simp) (e4.trans hs) (by simp) h8 h7 d0 d1
    · exact RecOk.plain (by decide) ho.1 (by omega) (by omega) (by omega) d0 d1
    · exact i1 x hx

theorem Pi.ok {d : Int} {s recs r'} (h : Pi doc.length d s recs r') (hs : s <:+ doc)
    (d0 : -1 ≤ d) (d1 : d ≤ 254) : (∀ x ∈ recs, RecOk doc x) ∧ r' <:+ s ∧ r'.length < s.length := by
  have ho := offset_suffix hs
  cases h with
  | bare h1 h2 =>
    have e1 := h1.suffix
    have e2 := e1.length_le
    simp only [List.length_cons] at e2
    refine ⟨?_, (List.suffix_cons _ _).trans ((List.suffix_cons _ _).trans e1), by omega⟩
    intro x hx
    simp only [List.mem_cons, List.not_mem_nil, or_false] at hx
    obtain rfl | rfl := hx
    · exact RecOk.plain (by decide) ho.1 (by omega) (by omega) (by omega) d0 d1
    · exact RecOk.plain (by decide) ho.1 (by omega) (by simp [maxLen]) (by omega) d0 d1
  | value h1 h2 h3 h4 h5 =>
    have e1 := h1.suffix
    have e2 := e1.length_le
    simp only [List.length_cons] at e2
    have e3 := h4.suffix
    have e4 := h4.two
    have ho' := offset_suffix (((List.suffix_cons _ _).trans e1).trans hs)
    refine ⟨?_, e3.trans ((List.suffix_cons _ _).trans e1), by omega⟩
    intro x hx
    simp only [List.mem_cons, List.not_mem_nil, or_false] at hx
    obtain rfl | rfl := hx
    · exact RecOk.plain (by decide) ho.1 (by omega) (by omega) (by omega) d0 d1
    · exact RecOk.plain (by decide) ho'.1 (by omega) (by omega) (by omega) d0 d1

theorem CdataBody.two {r r' : List UInt8} (h : CdataBody r r') : r'.length + 2 ≤ r.length := by
  induction h with
  | stop => simp only [List.length_cons, List.length_append]; omega
  | char _ _ _ ih => simp only [List.length_cons]; omega
  | brackets _ _ _ ih => simp only [List.length_cons, List.length_append] at *; omega

theorem lastColon_none {i acc : Nat} {run : List UInt8} (h : ch% ':' ∉ run) : lastColon i acc run = acc := by
  induction run generalizing i with
  | nil => rfl
  | cons b run ih =>
    simp only [List.mem_cons, not_or] at h
    rw [lastColon, if_neg (fun e => h.1 e.symm)]
    exact ih h.2

/-- The bytes read ahead. -/
def NT.pre : NT → List UInt8
  | .lt pre _ => pre
  | _ => []

/-- The open elements. -/
def NT.stack : NT → List (List UInt8)
  | .lt _ st => st
  | .content _ st => st
  | .close st => st
  | .epilog => []

theorem next_stack (prev : Prev) (st : List (List UInt8)) : (next prev st).stack = st ∧ (next prev st).pre = [] := by
  cases st <;> exact ⟨rfl, rfl⟩

theorem mem_app {P : Rec → Prop} {a b : List Rec} (h1 : ∀ x ∈ a, P x) (h2 : ∀ x ∈ b, P x) : ∀ x ∈ a ++ b, P x := by
  intro x hx
  rcases List.mem_append.1 hx with h | h
  · exact h1 x h
  · exact h2 x h

theorem G.ok {nt s recs} (h : G doc.length nt s recs) (hs : nt.pre ++ s <:+ doc) (hd : nt.stack.length ≤ 255) :
    ∀ x ∈ recs, RecOk doc x := by
  induction h with
  | @start pre st b run x r recs e r' recs' h1 h2 h3 h4 h5 h6 h7 h8 ih =>
    simp only [NT.pre] at hs
    have hs' : x :: r <:+ doc := by
      refine List.IsSuffix.trans ?_ hs
      rw [← List.cons_append, ← List.append_assoc]
      exact List.suffix_append _ _
    obtain ⟨i1, i2, i3⟩ := h7.ok hs' (by omega) (by omega)
    rw [← List.cons_append]
    refine mem_app ?_ (ih ?_ ?_)
    · intro y hy
      rcases List.mem_cons.1 hy with rfl | hy
      · refine { depth0 := ?_, depth1 := ?_, off := (offset_suffix hs).1, start := fun _ => ⟨pre ++ b :: run, _, ?_, by simp, h6, h5, rfl, ?_, ?_⟩,
                 attr := by simp, cdata := nofun, other := fun h => absurd rfl h }
        · show (-1 : Int) ≤ st.length; omega
        · show (st.length : Int) ≤ 254; omega
        · have := bytesAt_suffix (doc := doc) (name := pre ++ b :: run) (s := x :: r) (by simpa using hs)
          simpa using this
        · show (0 : Int) ≤ st.length; omega
        · intro hc
          exact lastColon_none fun h => hc (by simp [h])
      · exact i1 y hy
    · have : r' <:+ doc := i2.trans hs'
      split
      · rw [(next_stack _ _).2]; exact this
      · exact this
    · split
      · rw [(next_stack _ _).1]; simpa [NT.stack] using hd
      · simp only [NT.stack, List.length_cons]; omega
  | @endTag pre st r recs h1 ih =>
    exact ih (((List.suffix_cons _ _).trans (List.suffix_append pre _)).trans hs) hd
  | @close name st w r recs h1 h2 ih =>
    refine ih ?_ ?_
    · rw [(next_stack _ _).2]; exact suffix_app_cons.trans hs
    · rw [(next_stack _ _).1]; simp only [NT.stack, List.length_cons] at hd; omega
  | @comment pre st r r1 recs h1 h2 ih =>
    simp only [NT.pre, NT.stack] at hs hd
    have e0 : r <:+ doc := ((List.suffix_append _ _).trans (List.suffix_append pre _)).trans hs
    have e1 := h1.suffix
    have e2 := h1.two
    simp only [List.length_cons] at e2
    have ho := offset_suffix e0
    refine mem_app (textRecs_ok (by decide) ho.1 (Or.inl (by omega)) (by omega) (by omega) (by omega)) (ih ?_ hd)
    exact (List.suffix_cons _ _).trans (e1.trans e0)
  | @cdata pre st r r1 recs h0 h1 h2 ih =>
    simp only [NT.pre, NT.stack] at hs hd
    have e0 : r <:+ doc := ((List.suffix_append _ _).trans (List.suffix_append pre _)).trans hs
    have e1 := h1.suffix
    have e2 := h1.two
    have ho := offset_suffix e0
    refine mem_app (textRecs_ok (by decide) ho.1 (by simp only [true_and]; omega) (by omega) (by omega) (by omega)) (ih ?_ hd)
    exact e1.trans e0
  | @doctype pre st r r1 w r2 recs h0 h1 h2 h3 h4 h5 ih =>
    simp only [NT.pre, NT.stack] at hs hd
    have e0 : r <:+ doc := ((List.suffix_append _ _).trans (List.suffix_append pre _)).trans hs
    have e1 := h1.suffix
    have e2 := h1.lt
    have ho := offset_suffix e0
    intro x hx
    rcases List.mem_cons.1 hx with rfl | hx
    · exact RecOk.plain (by decide) ho.1 (by omega) (by omega) (by omega) (by omega) (by omega)
    · refine ih ?_ hd x hx
      show r2 <:+ doc
      refine List.IsSuffix.trans ?_ (e1.trans e0)
      rw [h4]; exact suffix_app_cons
  | @pi pre st r recs r1 recs' h1 h2 ih =>
    simp only [NT.pre, NT.stack] at hs hd
    have e0 : r <:+ doc := ((List.suffix_cons _ _).trans (List.suffix_append pre _)).trans hs
    obtain ⟨i1, i2, i3⟩ := h1.ok e0 (by omega) (by omega)
    exact mem_app i1 (ih (i2.trans e0) hd)
  | markup h1 h2 h3 ih => exact ih (suffix_app_cons.trans hs) hd
  | @gap st w r recs h1 h2 ih =>
    simp only [NT.pre, NT.stack] at hs hd
    have ho := offset_suffix hs
    simp only [List.nil_append] at ho
    have : w.length ≤ (w ++ ch% '<' :: ch% '/' :: r).length := by simp
    refine mem_app (textRecs_ok (by decide) ho.1 (Or.inl (by omega)) (by omega) (by omega) (by omega)) (ih ?_ hd)
    exact ((List.suffix_cons _ _).trans suffix_app_cons).trans hs
  | @text prev st w b r r1 recs h0 h1 h2 h3 h4 h5 h6 ih =>
    simp only [NT.pre, NT.stack, List.nil_append] at hs hd
    have ho := offset_suffix hs
    have e1 := h5.suffix
    have e2 := h5.lt
    have e3 := (List.suffix_append w (b :: r)).length_le
    refine mem_app (textRecs_ok (by decide) ho.1 (Or.inl (by omega)) (by omega) (by omega) (by omega)) (ih ?_ hd)
    exact (e1.trans (List.suffix_append _ _)).trans hs
  | @lost st w r r1 recs h1 h2 h3 ih =>
    simp only [NT.pre, NT.stack, List.nil_append] at hs hd
    exact ih ((h2.suffix.trans (List.suffix_append _ _)).trans hs) hd
  | done => nofun
  | @piEnd w r x r1 r2 recs h1 h2 h3 h4 h5 h6 h7 ih =>
    simp only [NT.pre, List.nil_append] at hs
    have e0 : r <:+ doc := ((List.suffix_cons _ _).trans suffix_app_cons).trans hs
    have e1 := h2.suffix
    have e2 := e1.length_le
    simp only [List.length_cons] at e2
    have ho := offset_suffix e0
    have f0 := ((List.suffix_cons _ _).trans e1).trans e0
    have f1 := h5.suffix
    have f2 := h5.two
    have fo := offset_suffix f0
    intro y hy
    rw [List.mem_cons, List.mem_cons] at hy
    obtain rfl | rfl | hy := hy
    · exact RecOk.plain (by decide) ho.1 (by omega) (by omega) (by omega) (by omega) (by omega)
    · exact RecOk.plain (by decide) fo.1 (by omega) (by omega) (by omega) (by omega) (by omega)
    · exact ih (f1.trans f0) hd y hy
  | @piCut w r r1 recs h1 h2 h3 h4 h5 h6 ih =>
    simp only [NT.pre, List.nil_append] at hs
    have e0 : r <:+ doc := ((List.suffix_cons _ _).trans suffix_app_cons).trans hs
    have e1 := h2.suffix
    have e2 := e1.length_le
    simp only [List.length_cons] at e2
    have ho := offset_suffix e0
    have f0 := ((List.suffix_cons _ _).trans e1).trans e0
    have fo := offset_suffix f0
    intro y hy
    rw [List.mem_cons, List.mem_cons] at hy
    obtain rfl | rfl | hy := hy
    · exact RecOk.plain (by decide) ho.1 (by omega) (by omega) (by omega) (by omega) (by omega)
    · exact RecOk.plain (by decide) fo.1 (by omega) (by simp [maxLen]) (by omega) (by omega) (by omega)
    · exact ih f0 hd y hy

theorem plain_at {t : Token} {r : List UInt8} {l : Int} (ht : t ≠ .startingTag ∧ t ≠ .attrName ∧ t ≠ .attrNs)
    (hr : r <:+ doc) (h1 : 0 ≤ l) (h2 : l ≤ 12) (h3 : l ≤ r.length) :
    RecOk doc ⟨t, offset doc.length r, l, -1⟩ := by
  have := offset_suffix hr
  exact RecOk.plain ht this.1 h1 (by simp only [maxLen]; omega) (by omega) (by decide) (by decide)

theorem two_ok {x y : Rec} (hx : RecOk doc x) (hy : RecOk doc y) : ∀ z ∈ [x, y], RecOk doc z := by
  intro z hz
  simp only [List.mem_cons, List.not_mem_nil, or_false] at hz
  obtain rfl | rfl := hz <;> assumption

theorem Version.ok {s recs r'} (h : Version doc.length s recs r') (hs : s <:+ doc) :
    (∀ x ∈ recs, RecOk doc x) ∧ r' <:+ s := by
  cases h with
  | @mk w w' q d r h1 h2 h3 h4 =>
    have e : str% "1." ++ d :: q :: r' <:+ str% "version" ++ w ++ ch% '=' :: w' ++ q :: str% "1." ++ d :: q :: r' := by
      exact ⟨str% "version" ++ w ++ ch% '=' :: w' ++ [q], by simp⟩
    refine ⟨two_ok (plain_at (by decide) hs (by decide) (by decide) (by simp; omega))
      (plain_at (by decide) (e.trans hs) (by decide) (by decide) (by simp; omega)), ?_⟩
    exact ((List.suffix_cons _ _).trans ((List.suffix_cons _ _).trans (List.suffix_append _ _))).trans e

theorem EncName.len {e l} (h : EncName e l) : 0 ≤ l ∧ l ≤ 12 ∧ l ≤ e.length + 1 := by
  cases h with
  | utf8 => simp
  | cp _ h =>
    rcases h with rfl | ⟨k, _, rfl⟩
    · simp
    · simp only [List.length_cons, List.length_append]; simp; omega
  | win _ h =>
    rcases h with rfl | ⟨k, _, rfl⟩
    · simp
    · simp only [List.length_cons, List.length_append]; simp; omega

theorem Encoding.ok {s recs r'} (h : Encoding doc.length s recs r') (hs : s <:+ doc) :
    (∀ x ∈ recs, RecOk doc x) ∧ r' <:+ s := by
  cases h with
  | @mk w w' q e l q' w2 r h1 h2 h3 h4 h5 h6 h7 =>
    have e1 : e ++ q' :: w2 ++ r' <:+ str% "encoding" ++ w ++ ch% '=' :: w' ++ q :: e ++ q' :: w2 ++ r' := by
      exact ⟨str% "encoding" ++ w ++ ch% '=' :: w' ++ [q], by simp⟩
    obtain ⟨l0, l1, l2⟩ := h4.len
    refine ⟨two_ok (plain_at (by decide) hs (by decide) (by decide) (by simp; omega))
      (plain_at (by decide) (e1.trans hs) l0 l1 (by simp only [List.length_append, List.length_cons]; omega)), ?_⟩
    exact List.suffix_append _ _

theorem Standalone.ok {s recs r'} (h : Standalone doc.length s recs r') (hs : s <:+ doc) :
    (∀ x ∈ recs, RecOk doc x) ∧ r' <:+ s := by
  cases h with
  | @mk w w' q e l q' w2 r h1 h2 h3 h4 h5 h6 h7 =>
    have e1 : e ++ q' :: w2 ++ r' <:+ str% "standalone" ++ w ++ ch% '=' :: w' ++ q :: e ++ q' :: w2 ++ r' := by
      exact ⟨str% "standalone" ++ w ++ ch% '=' :: w' ++ [q], by simp⟩
    have hl : 0 ≤ l ∧ l ≤ 12 ∧ l ≤ e.length := by
      obtain ⟨rfl, rfl⟩ | ⟨rfl | rfl | rfl, rfl⟩ := h4 <;> simp
    obtain ⟨l0, l1, l2⟩ := hl
    refine ⟨two_ok (plain_at (by decide) hs (by decide) (by decide) (by simp; omega))
      (plain_at (by decide) (e1.trans hs) l0 l1 (by simp only [List.length_append, List.length_cons]; omega)), ?_⟩
    exact List.suffix_append _ _

theorem DeclRest.ok {s recs r'} (h : DeclRest doc.length s recs r') (hs : s <:+ doc) :
    (∀ x ∈ recs, RecOk doc x) ∧ r' <:+ s := by
  cases h with
  | none => exact ⟨nofun, List.suffix_refl _⟩
  | ws => exact ⟨nofun, List.suffix_append _ _⟩
  | enc _ _ h =>
    have := h.ok ((List.suffix_append _ _).trans hs)
    exact ⟨this.1, this.2.trans (List.suffix_append _ _)⟩
  | alone _ _ h =>
    have := h.ok ((List.suffix_append _ _).trans hs)
    exact ⟨this.1, this.2.trans (List.suffix_append _ _)⟩
  | both _ _ h h' =>
    have h1 := h.ok ((List.suffix_append _ _).trans hs)
    have h2 := h'.ok (h1.2.trans ((List.suffix_append _ _).trans hs))
    exact ⟨mem_app h1.1 h2.1, h2.2.trans (h1.2.trans (List.suffix_append _ _))⟩

theorem Doc.ok {s recs} (h : Doc doc.length s recs) (hs : s <:+ doc) : ∀ x ∈ recs, RecOk doc x := by
  cases h with
  | @decl x m l s w r recs r1 recs1 w' r2 recs2 h1 h2 h3 h4 h5 h6 h7 =>
    have e0 : r <:+ doc := List.IsSuffix.trans ⟨ch% '<' :: ch% '?' :: x :: m :: l :: s :: w, by simp⟩ hs
    have e1 := h4.ok e0
    have e2 := h5.ok (e1.2.trans e0)
    refine mem_app (mem_app e1.1 e2.1) (h7.ok ?_ (by decide))
    exact (suffix_app_cons.trans e2.2).trans (e1.2.trans e0)
  | plain h1 h2 => exact h2.ok ((List.suffix_cons _ _).trans hs) (by simp [NT.stack])
  | space _ _ h => exact h.ok (suffix_app_cons.trans hs) (by simp [NT.stack])

end
end Grammar
end GoVtd
