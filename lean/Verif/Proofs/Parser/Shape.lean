import Verif.Proofs.Parser.Recs

/-!
# Start tags and attributes among the records
-/

namespace GoVtd
namespace Grammar

/-- Neither a start tag nor an attribute name. -/
def Rec.Plain (x : Rec) : Prop := x.tok ≠ .startingTag ∧ x.tok ≠ .attrName ∧ x.tok ≠ .attrNs

/-- The depths of the start tags. -/
def starts : List Rec → List Int
  | [] => []
  | x :: xs => if x.tok = .startingTag then x.depth :: starts xs else starts xs

/-- Depths at least 1 and at most one more than the one before. -/
def Pre : Int → List Int → Prop
  | _, [] => True
  | m, d :: ds => 1 ≤ d ∧ d ≤ m ∧ Pre (d + 1) ds

/-- The name of a record. -/
def Rec.name (doc : List UInt8) (x : Rec) : List UInt8 := (doc.drop x.off.toNat).take (x.len.toNat % 2048)

/-- The names of the attributes of a start tag differ; `seen` are the names before. -/
def Distinct (doc : List UInt8) : List (List UInt8) → List Rec → Prop
  | _, [] => True
  | seen, x :: xs =>
    if x.tok = .startingTag then Distinct doc [] xs
    else if x.tok = .attrName ∨ x.tok = .attrNs then x.name doc ∉ seen ∧ Distinct doc (x.name doc :: seen) xs
    else Distinct doc seen xs

section
variable {doc : List UInt8} {n : Nat}

theorem starts_plain {a b : List Rec} (h : ∀ x ∈ a, x.tok ≠ .startingTag) : starts (a ++ b) = starts b := by
  induction a with
  | nil => rfl
  | cons x a ih =>
    have := h x (by simp)
    simp only [List.cons_append, starts, this, if_false]
    exact ih fun y hy => h y (by simp [hy])

theorem distinct_plain {a b : List Rec} (h : ∀ x ∈ a, x.Plain) (seen : List (List UInt8)) :
    Distinct doc seen (a ++ b) ↔ Distinct doc seen b := by
  induction a with
  | nil => rfl
  | cons x a ih =>
    obtain ⟨h1, h2, h3⟩ := h x (by simp)
    simp only [List.cons_append, Distinct, h1, h2, h3, if_false, or_self]
    exact ih fun y hy => h y (by simp [hy])

theorem Pre.mono {m m' : Int} {ds : List Int} (h : Pre m ds) (hm : m ≤ m') : Pre m' ds := by
  cases ds with
  | nil => trivial
  | cons d ds => exact ⟨h.1, by have := h.2.1; omega, h.2.2⟩

theorem textRecs_plain {t : Token} {o l d : Int} (ht : t ≠ .startingTag ∧ t ≠ .attrName ∧ t ≠ .attrNs) :
    ∀ x ∈ textRecs t o l d, x.Plain := by
  intro x hx
  have : x.tok = t := by
    simp only [textRecs] at hx
    split at hx
    · simp only [List.mem_append, List.mem_map, List.mem_singleton] at hx
      obtain ⟨i, _, rfl⟩ | rfl := hx <;> rfl
    · simp only [List.mem_singleton] at hx
      rw [hx]
  simp only [Rec.Plain, this]
  exact ht

theorem Pi.plain {d : Int} {s recs r'} (h : Pi n d s recs r') : ∀ x ∈ recs, x.Plain := by
  intro x hx
  cases h <;>
  · simp only [List.mem_cons, List.not_mem_nil, or_false] at hx
    obtain rfl | rfl := hx <;> simp [Rec.Plain]

theorem Pi.suffix {d : Int} {s recs r'} (h : Pi n d s recs r') : r' <:+ s := by
  cases h with
  | bare h1 h2 => exact (List.suffix_cons _ _).trans ((List.suffix_cons _ _).trans h1.suffix)
  | value h1 h2 h3 h4 h5 => exact h4.suffix.trans ((List.suffix_cons _ _).trans h1.suffix)

theorem TagRest.noStart {d : Int} {seen s recs e r'} (h : TagRest n d seen s recs e r') :
    ∀ x ∈ recs, x.tok ≠ .startingTag := by
  induction h with
  | close => nofun
  | attr _ _ _ _ _ _ _ _ _ _ _ _ _ _ ih =>
    intro x hx
    rw [List.mem_cons, List.mem_cons] at hx
    obtain rfl | rfl | hx := hx
    · simp only [attrRec]; split <;> simp
    · simp
    · exact ih x hx

theorem or_low (k l : Nat) (h : l ≤ 2047) : (k <<< 11 ||| l) % 2048 = l := by
  rw [Nat.shiftLeft_eq, nat_or_add k 11 l (by omega)]
  omega

theorem name_suffix {name s : List UInt8} (h : name ++ s <:+ doc) :
    (doc.drop (offset doc.length (name ++ s)).toNat).take name.length = name := by
  obtain ⟨pre, hp⟩ := h
  have : (offset doc.length (name ++ s)).toNat = pre.length := by
    simp only [offset, ← hp, List.length_append]; omega
  rw [this, ← hp, List.drop_left, List.take_left]

theorem attrRec_name {d : Int} {r name s : List UInt8} (hr : r = name ++ s) (h : r <:+ doc) (h1 : name.length ≤ 2047) :
    (attrRec doc.length d r name).name doc = name := by
  subst hr
  simp only [attrRec, Rec.name, Int.toNat_natCast, or_low _ _ h1]
  exact name_suffix h

theorem attrRec_tok {d : Int} {r name : List UInt8} :
    (attrRec n d r name).tok ≠ .startingTag ∧
    ((attrRec n d r name).tok = .attrName ∨ (attrRec n d r name).tok = .attrNs) := by
  simp only [attrRec]; split <;> simp

theorem TagRest.distinct {d : Int} {seen s recs e r' recs'} (h : TagRest doc.length d seen s recs e r') (hs : s <:+ doc)
    (h' : ∀ seen, Distinct doc seen recs') : Distinct doc seen (recs ++ recs') := by
  induction h with
  | close => exact h' _
  | @attr seen w b run w1 w2 q r r1 recs e r' h1 h2 h3 h4 h5 h6 h7 h8 h9 h10 h11 h12 h13 h14 ih =>
    have e1 : r1 <:+ r := h12.suffix
    have e3 : r <:+ w ++ b :: run ++ w1 ++ ch% '=' :: w2 ++ q :: r := suffix_app_cons
    have e4 : b :: run ++ w1 ++ ch% '=' :: w2 ++ q :: r <:+ w ++ b :: run ++ w1 ++ ch% '=' :: w2 ++ q :: r := by
      simp only [List.append_assoc]; exact List.suffix_append _ _
    have i := ih (e1.trans (e3.trans hs))
    have hn : (attrRec doc.length d (b :: run ++ w1 ++ ch% '=' :: w2 ++ q :: r) (b :: run)).name doc = b :: run :=
      attrRec_name (s := w1 ++ ch% '=' :: w2 ++ q :: r) (by simp) (e4.trans hs) h8
    obtain ⟨t1, t2⟩ := attrRec_tok (n := doc.length) (d := d) (r := b :: run ++ w1 ++ ch% '=' :: w2 ++ q :: r) (name := b :: run)
    rw [List.cons_append, Distinct, if_neg t1, if_pos t2, hn]
    refine ⟨h5, ?_⟩
    simpa [Distinct] using i

theorem Version.plain {s recs r'} (h : Version n s recs r') : ∀ x ∈ recs, x.Plain := by
  intro x hx
  cases h
  simp only [List.mem_cons, List.not_mem_nil, or_false] at hx
  obtain rfl | rfl := hx <;> simp [Rec.Plain]

theorem Encoding.plain {s recs r'} (h : Encoding n s recs r') : ∀ x ∈ recs, x.Plain := by
  intro x hx
  cases h
  simp only [List.mem_cons, List.not_mem_nil, or_false] at hx
  obtain rfl | rfl := hx <;> simp [Rec.Plain]

theorem Standalone.plain {s recs r'} (h : Standalone n s recs r') : ∀ x ∈ recs, x.Plain := by
  intro x hx
  cases h
  simp only [List.mem_cons, List.not_mem_nil, or_false] at hx
  obtain rfl | rfl := hx <;> simp [Rec.Plain]

theorem all_app {P : Rec → Prop} {a b : List Rec} (h1 : ∀ x ∈ a, P x) (h2 : ∀ x ∈ b, P x) : ∀ x ∈ a ++ b, P x := by
  intro x hx
  rcases List.mem_append.1 hx with h | h
  · exact h1 x h
  · exact h2 x h

theorem DeclRest.plain {s recs r'} (h : DeclRest n s recs r') : ∀ x ∈ recs, x.Plain := by
  cases h with
  | none => nofun
  | ws => nofun
  | enc _ _ h => exact h.plain
  | alone _ _ h => exact h.plain
  | both _ _ h h' => exact all_app h.plain h'.plain

/-- The start tags of the rest of a document. -/
def Starts : NT → List Int → Prop
  | .epilog, ds => ds = []
  | nt, ds => if nt.stack = [] then ∃ ds', ds = 0 :: ds' ∧ Pre 1 ds' else Pre nt.stack.length ds

theorem starts_next (prev : Prev) {st : List (List UInt8)} {ds : List Int} (h : Starts (next prev st) ds) :
    Pre st.length ds := by
  cases st with
  | nil => simp only [next, Starts] at h; subst h; trivial
  | cons a st => simpa [next, Starts, NT.stack] using h

theorem G.starts {nt s recs} (h : G n nt s recs) : Starts nt (starts recs) := by
  induction h with
  | @start pre st b run x r recs e r' recs' h1 h2 h3 h4 h5 h6 h7 h8 ih =>
    have e1 : Pre (st.length + 1) (Grammar.starts recs') := by
      cases e with
      | true => exact (starts_next _ ih).mono (by omega)
      | false => simpa [Starts, NT.stack] using ih
    have e2 : Grammar.starts (⟨.startingTag, offset n (pre ++ b :: (run ++ x :: r)),
          ((lastColon (pre.length + 1) 0 run <<< 1 ||| (pre ++ b :: run).length : Nat) : Int), st.length⟩ ::
          (recs ++ recs')) = (st.length : Int) :: Grammar.starts recs' := by
      simp only [Grammar.starts, if_true, starts_plain h7.noStart]
    rw [e2]
    simp only [Starts, NT.stack]
    cases st with
    | nil => exact ⟨_, rfl, e1⟩
    | cons a st =>
      simp only [reduceCtorEq, if_false, List.length_cons] at e1 ⊢
      exact ⟨by omega, Int.le_refl _, e1⟩
  | endTag h1 ih => exact ih
  | @close name st w r recs h1 h2 ih =>
    simp only [Starts, NT.stack, reduceCtorEq, if_false]
    exact (starts_next _ ih).mono (by simp only [List.length_cons]; omega)
  | comment h1 h2 ih => rw [starts_plain fun x hx => (textRecs_plain (by decide) x hx).1]; exact ih
  | cdata h0 h1 h2 ih => rw [starts_plain fun x hx => (textRecs_plain (by decide) x hx).1]; exact ih
  | doctype h0 h1 h2 h3 h4 h5 ih => exact ih
  | pi h1 h2 ih => rw [starts_plain fun x hx => (h1.plain x hx).1]; exact ih
  | markup h1 h2 h3 ih => exact ih
  | gap h1 h2 ih => rw [starts_plain fun x hx => (textRecs_plain (by decide) x hx).1]; exact ih
  | text h0 h1 h2 h3 h4 h5 h6 ih => rw [starts_plain fun x hx => (textRecs_plain (by decide) x hx).1]; exact ih
  | lost h1 h2 h3 ih => exact ih
  | done => rfl
  | piEnd h1 h2 h3 h4 h5 h6 h7 ih => exact ih
  | piCut h1 h2 h3 h4 h5 h6 ih => exact ih

theorem G.distinct {nt s recs} (h : G doc.length nt s recs) (hs : s <:+ doc) (seen : List (List UInt8)) :
    Distinct doc seen recs := by
  induction h generalizing seen with
  | @start pre st b run x r recs e r' recs' h1 h2 h3 h4 h5 h6 h7 h8 ih =>
    have hs' : x :: r <:+ doc := List.IsSuffix.trans ⟨b :: run, by simp⟩ hs
    simp only [Distinct, if_true]
    exact h7.distinct hs' (ih ((h7.ok hs' (by omega) (by omega)).2.1.trans hs'))
  | endTag h1 ih => exact ih ((List.suffix_cons _ _).trans hs) seen
  | close h1 h2 ih => exact ih (suffix_app_cons.trans hs) seen
  | @comment pre st r r1 recs h1 h2 ih =>
    rw [distinct_plain (textRecs_plain (by decide))]
    exact ih ((List.suffix_cons _ _).trans (h1.suffix.trans ((List.suffix_append _ _).trans hs))) seen
  | cdata h0 h1 h2 ih =>
    rw [distinct_plain (textRecs_plain (by decide))]
    exact ih (h1.suffix.trans ((List.suffix_append _ _).trans hs)) seen
  | doctype h0 h1 h2 h3 h4 h5 ih =>
    refine ih ?_ seen
    refine List.IsSuffix.trans ?_ (h1.suffix.trans ((List.suffix_append _ _).trans hs))
    rw [h4]; exact suffix_app_cons
  | @pi pre st r recs r1 recs' h1 h2 ih =>
    rw [distinct_plain h1.plain]
    exact ih (h1.suffix.trans ((List.suffix_cons _ _).trans hs)) seen
  | markup h1 h2 h3 ih => exact ih (suffix_app_cons.trans hs) seen
  | gap h1 h2 ih =>
    rw [distinct_plain (textRecs_plain (by decide))]
    exact ih (((List.suffix_cons _ _).trans suffix_app_cons).trans hs) seen
  | text h0 h1 h2 h3 h4 h5 h6 ih =>
    rw [distinct_plain (textRecs_plain (by decide))]
    exact ih ((h5.suffix.trans (List.suffix_append _ _)).trans hs) seen
  | lost h1 h2 h3 ih => exact ih ((h2.suffix.trans (List.suffix_append _ _)).trans hs) seen
  | done => trivial
  | @piEnd w r x r1 r2 recs h1 h2 h3 h4 h5 h6 h7 ih =>
    simp only [Distinct, reduceCtorEq, if_false, or_self]
    exact ih ((h5.suffix.trans ((List.suffix_cons _ _).trans (h2.suffix.trans ((List.suffix_cons _ _).trans suffix_app_cons)))).trans hs) seen
  | @piCut w r r1 recs h1 h2 h3 h4 h5 h6 ih =>
    simp only [Distinct, reduceCtorEq, if_false, or_self]
    exact ih (((List.suffix_cons _ _).trans (h2.suffix.trans ((List.suffix_cons _ _).trans suffix_app_cons))).trans hs) seen

theorem Doc.starts {s recs} (h : Doc n s recs) : ∃ ds, Grammar.starts recs = 0 :: ds ∧ Pre 1 ds := by
  have key : ∀ {s recs pre}, G n (.lt pre []) s recs → ∃ ds, Grammar.starts recs = 0 :: ds ∧ Pre 1 ds := by
    intro s recs pre h
    simpa [Starts, NT.stack] using h.starts
  cases h with
  | decl h1 h2 h3 h4 h5 h6 h7 =>
    rw [List.append_assoc, starts_plain fun x hx => (h4.plain x hx).1, starts_plain fun x hx => (h5.plain x hx).1]
    exact key h7
  | plain h1 h2 => exact key h2
  | space _ _ h => exact key h

theorem Doc.distinct {s recs} (h : Doc doc.length s recs) (hs : s <:+ doc) (seen : List (List UInt8)) :
    Distinct doc seen recs := by
  cases h with
  | @decl x m l s w r recs r1 recs1 w' r2 recs2 h1 h2 h3 h4 h5 h6 h7 =>
    have e0 : r <:+ doc := List.IsSuffix.trans ⟨ch% '<' :: ch% '?' :: x :: m :: l :: s :: w, by simp⟩ hs
    have e1 := h4.ok e0
    have e2 := h5.ok (e1.2.trans e0)
    rw [List.append_assoc, distinct_plain h4.plain, distinct_plain h5.plain]
    exact h7.distinct ((suffix_app_cons.trans e2.2).trans (e1.2.trans e0)) seen
  | plain h1 h2 => exact h2.distinct (((List.suffix_append _ _).trans (List.suffix_cons _ _)).trans hs) seen
  | space _ _ h => exact h.distinct (suffix_app_cons.trans hs) seen

end
end Grammar
end GoVtd
