import Verif.Proofs.Parser.Scoped
import Verif.Spec.RootDeclared

/-!
# Prefixes declared anywhere: a start tag
-/

namespace GoVtd
namespace Parser
namespace Scoped
open Paged Grammar Two Ev Plain Sound
open Rooted (RR RX rx_nice sim_ok' ent GoodName NsOnly aw startTagLoop_rr count_succ tagSlash startTagEnd_slash tagSlash_base startTagEnd_notAttr pfx_splits)

variable {f : Nat} {x : Rooted.Ext} {s t p p' : Parser} {c : ParserCfg} {D : List UInt8} {V V' ws ds : List (BitVec 64)} {w : BitVec 64}
  {st st' : PState} {o0 : ParserOut} {es : List Mark} {stk : List (Nat × Nat)} {recs : List Rec}

/-! ## The numbers -/

theorem declsOf_append : declsOf D (V ++ ws) = declsOf D V ++ declsOf D ws := List.filter_append ..

theorem declsOf_nil (h : ∀ w ∈ ws, tokenType w ≠ Token.attrNs.code) : declsOf D ws = [] :=
  List.filter_eq_nil_iff.mpr fun w hw hd => h w hw (of_decide_eq_true hd).1

theorem scopeOf_append : scopeOf D (V ++ ws) = ws.foldl (Scope.step D) (scopeOf D V) := List.foldl_append ..

theorem step_quiet {S : Scope} (h1 : ¬ IsStart w) (h2 : ¬ IsPrefixDecl D w) : S.step D w = S := by
  rw [Scope.step, if_neg h1, if_neg h2]

theorem foldl_quiet {S : Scope} (h : ∀ w ∈ ws, ¬ IsStart w ∧ ¬ IsPrefixDecl D w) : ws.foldl (Scope.step D) S = S := by
  induction ws generalizing S with
  | nil => rfl
  | cons w ws ih =>
    rw [List.foldl_cons, step_quiet (h w (by simp)).1 (h w (by simp)).2]
    exact ih fun z hz => h z (by simp [hz])

/-- Records that are neither start tags nor declarations. -/
def Quiet (ws : List (BitVec 64)) : Prop := ∀ w ∈ ws, ¬ IsStart w ∧ tokenType w ≠ Token.attrNs.code

theorem scopeOf_quiet (h : Quiet ws) : scopeOf D (V ++ ws) = scopeOf D V := by
  rw [scopeOf_append]
  exact foldl_quiet fun w hw => ⟨(h w hw).1, fun hd => (h w hw).2 hd.1⟩

theorem declsOf_quiet (h : Quiet ws) : declsOf D (V ++ ws) = declsOf D V := by
  rw [declsOf_append, declsOf_nil fun w hw => (h w hw).2, List.append_nil]

/-- Within a start tag. -/
theorem scopeOf_tag (h : ∀ w ∈ ws, ¬ IsStart w) :
    scopeOf D (V ++ ws) = { scopeOf D V with visible := (scopeOf D V).visible + (declsOf D ws).length } := by
  rw [scopeOf_append]
  generalize scopeOf D V = S
  induction ws generalizing S with
  | nil => rfl
  | cons w ws ih =>
    rw [List.foldl_cons, ih (fun z hz => h z (by simp [hz])), Scope.step, if_neg (h w (by simp))]
    by_cases hd : IsPrefixDecl D w
    · rw [if_pos hd, show declsOf D (w :: ws) = w :: declsOf D ws from List.filter_cons_of_pos (decide_eq_true hd)]
      simp only [List.length_cons]
      congr 1
      omega
    · rw [if_neg hd, show declsOf D (w :: ws) = declsOf D ws from List.filter_cons_of_neg (by simpa using hd)]

theorem declsOf_start (h : IsStart w) : declsOf D (V ++ [w]) = declsOf D V := by
  have hd : ¬ IsPrefixDecl D w := fun hd => by
    have h : tokenType w = Token.startingTag.code := h
    rw [hd.1] at h
    exact absurd h (by decide)
  rw [declsOf_append, show declsOf D [w] = [] from List.filter_cons_of_neg (by simpa using hd), List.append_nil]

theorem scopeOf_start (h : IsStart w) : scopeOf D (V ++ [w]) =
    ⟨(scopeOf D V).all, (scopeOf D V).start (tokenDepth w), some (tokenDepth w)⟩ := by
  rw [scopeOf_append]
  show Scope.step D _ w = _
  rw [Scope.step, if_pos h]

theorem scopeOf_decl (h : IsPrefixDecl D w) : scopeOf D (V ++ [w]) =
    { scopeOf D V with visible := (scopeOf D V).visible + 1 } := by
  have hs : ¬ IsStart w := fun hs => by
    have hs : tokenType w = Token.startingTag.code := hs
    rw [h.1] at hs
    exact absurd hs (by decide)
  rw [scopeOf_append]
  show Scope.step D _ w = _
  rw [Scope.step, if_neg hs, if_pos h]

/-- No number exceeds the number of declarations. -/
theorem scope_le : (∀ k ∈ (scopeOf D V).all, k ≤ (declsOf D V).length) ∧ (∀ k ∈ (scopeOf D V).before, k ≤ (declsOf D V).length) ∧
    (scopeOf D V).visible ≤ (declsOf D V).length := by
  suffices h : ∀ R : List (BitVec 64), (∀ k ∈ (scopeOf D R.reverse).before, k ≤ (declsOf D R.reverse).length) ∧
      (scopeOf D R.reverse).visible ≤ (declsOf D R.reverse).length by
    have h := h V.reverse
    rw [List.reverse_reverse] at h
    refine ⟨fun k hk => ?_, h.1, h.2⟩
    rw [Scope.all] at hk
    split at hk
    · cases hk
    · rcases List.mem_append.mp hk with hk | hk
      · exact h.1 k hk
      · rw [List.mem_singleton.mp hk]; exact h.2
  intro R
  induction R with
  | nil => exact ⟨(fun k hk => by cases hk), Nat.le_refl _⟩
  | cons w R ih =>
    rw [List.reverse_cons]
    generalize R.reverse = V at ih
    have hall : ∀ k ∈ (scopeOf D V).all, k ≤ (declsOf D V).length := by
      intro k hk
      rw [Scope.all] at hk
      split at hk
      · cases hk
      · rcases List.mem_append.mp hk with hk | hk
        · exact ih.1 k hk
        · rw [List.mem_singleton.mp hk]; exact ih.2
    by_cases hs : IsStart w
    · have hq : declsOf D (V ++ [w]) = declsOf D V := by
        exact declsOf_start hs
      rw [scopeOf_start hs, hq]
      refine ⟨hall, ?_⟩
      show Scope.start _ _ ≤ _
      rw [Scope.start]
      split
      · exact ih.2
      · split
        · cases hh : (scopeOf D V).all[tokenDepth w - 1]? with
          | none => exact Nat.zero_le _
          | some k => exact hall k (List.mem_of_getElem? hh)
        · exact ih.2
    · by_cases hd : IsPrefixDecl D w
      · rw [scopeOf_decl hd, declsOf_append, show declsOf D [w] = [w] from List.filter_cons_of_pos (decide_eq_true hd), List.length_append]
        refine ⟨fun k hk => Nat.le_trans (ih.1 k hk) (Nat.le_add_right _ _), ?_⟩
        show _ + 1 ≤ _ + 1
        exact Nat.succ_le_succ ih.2
      · rw [scopeOf_append, declsOf_append, show declsOf D [w] = [] from List.filter_cons_of_neg (by simpa using hd), List.append_nil]
        show (∀ k ∈ (Scope.step D _ w).before, _) ∧ (Scope.step D _ w).visible ≤ _
        rw [step_quiet hs hd]
        exact ih

/-! ## The tables -/

/-- The entry of the first table for an element. -/
def num (k : Nat) : BitVec 32 := BitVec.ofInt 32 ((k : Int) - 1)

/-- The first table: `cl` tells whether the last start tag is closed. -/
def first (S : Scope) (cl : Bool) : FastIntBuffer :=
  match S.level with
  | none => plog [] 0
  | some e => if cl then plog (S.all.map num) (e + 1) else plog (S.before.map num) e

/-- The tables after the records `V`; `pend` is 1 between a declaration and its value. -/
structure Tab (D : List UInt8) (V : List (BitVec 64)) (cl : Bool) (pend : Nat) (n : ParserNs) : Prop where
  b1 : n.nsBuffer1 = first (scopeOf D V) cl
  opn : cl = false → ∃ e, (scopeOf D V).level = some e
  len : ∀ e, (scopeOf D V).level = some e → e ≤ (scopeOf D V).before.length ∧ e ≤ 63 ∧ (e = 0 → (scopeOf D V).before = [])
  b2 : ∃ ys, n.nsBuffer2 = plog ys ((scopeOf D V).visible - pend) ∧ ys.length + pend = (declsOf D V).length ∧ pend ≤ (scopeOf D V).visible
  fresh : pend = 1 → (scopeOf D V).visible = 1 → (declsOf D V).length = 1
  b3 : Table D (declsOf D V) (scopeOf D V).visible n.nsBuffer3

theorem Tab.to {n : ParserNs} {k : Nat} {cl : Bool} (h : Tab D V cl k n) (he : declsOf D V' = declsOf D V) (hs : scopeOf D V' = scopeOf D V) :
    Tab D V' cl k n := by
  obtain ⟨h1, h2, h3, h4, h5, h6⟩ := h
  constructor <;> (try rw [he]) <;> (try rw [hs]) <;> assumption

theorem Tab.quiet {n : ParserNs} {k : Nat} {cl : Bool} (h : Tab D V cl k n) (hq : Quiet ws) : Tab D (V ++ ws) cl k n :=
  h.to (declsOf_quiet hq) (scopeOf_quiet hq)

/-- What holds of every beginning of the records. -/
structure Part (D : List UInt8) (V : List (BitVec 64)) : Prop where
  level : ∀ w ∈ V, IsStart w → tokenDepth w ≤ 63
  elem : ∀ w ∈ V, IsStart w → ∃ n, n ≠ [] ∧ ElementName D w n
  decl : ∀ w ∈ V, ∀ p, Declares D w p → p ≠ str% "xml" ∧ p ≠ str% "xmlns"
  value : ∀ (i : Nat) (w v : BitVec 64), V[i]? = some w → V[i + 1]? = some v → tokenType w = Token.attrNs.code →
    (∀ p, Declares D w p → 0 < tokenLength v) ∧ (29 ≤ tokenLength v → D[tokenOffset v]? ≠ some (ch% '&'))
  few : ∀ A B, V = A ++ B → (scopeOf D A).visible ≤ 64
  nest : ∀ A w B, V = A ++ w :: B → IsStart w →
    ((scopeOf D A).level = none → tokenDepth w = 0) ∧ ∀ e, (scopeOf D A).level = some e → 1 ≤ tokenDepth w ∧ tokenDepth w ≤ e + 1

theorem Part.cut (h : Part D (V ++ ws)) : Part D V := by
  refine ⟨fun w hw => h.level w (List.mem_append_left _ hw), fun w hw => h.elem w (List.mem_append_left _ hw),
    fun w hw => h.decl w (List.mem_append_left _ hw), ?_, ?_, ?_⟩
  · intro i w v hw hv
    exact h.value i w v (by rw [List.getElem?_append_left (lt_of_some hw)]; exact hw) (by rw [List.getElem?_append_left (lt_of_some hv)]; exact hv)
  · rintro A B rfl
    exact h.few A (B ++ ws) (List.append_assoc ..)
  · rintro A w B rfl
    exact h.nest A w (B ++ ws) (by rw [List.append_assoc]; rfl)

/-- A declaration at which the parser looks at none before is the first one. -/
def Again (D : List UInt8) (V : List (BitVec 64)) : Prop :=
  ∀ A w B, V = A ++ w :: B → IsPrefixDecl D w → (scopeOf D A).visible = 0 → declsOf D A = []

theorem Again.cut (h : Again D (V ++ ws)) : Again D V := by
  rintro A w B rfl
  exact h A w (B ++ ws) (by rw [List.append_assoc]; rfl)

theorem Again.nil : Again D [] := by
  intro A w B h
  exact absurd h.symm (by simp)

theorem Again.add (h : Again D V) (h1 : IsPrefixDecl D w → (scopeOf D V).visible = 0 → declsOf D V = []) : Again D (V ++ [w]) := by
  intro A z B hV
  rcases List.append_eq_append_iff.mp hV with ⟨as, k1, k2⟩ | ⟨as, k1, k2⟩
  · cases as with
    | nil =>
      simp only [List.nil_append, List.cons.injEq] at k2
      rw [List.append_nil] at k1
      rw [k1, ← k2.1]; exact h1
    | cons a as =>
      have := congrArg List.length k2
      simp at this
  · cases as with
    | nil =>
      simp only [List.nil_append, List.cons.injEq] at k2
      rw [List.append_nil] at k1
      rw [← k1, k2.1]; exact h1
    | cons a as =>
      simp only [List.cons_append, List.cons.injEq] at k2
      exact h A z as (by rw [k1, k2.1])

theorem Again.more (h : Again D V) (hq : ∀ w ∈ ws, tokenType w ≠ Token.attrNs.code) : Again D (V ++ ws) := by
  induction ws generalizing V with
  | nil => rw [List.append_nil]; exact h
  | cons a ws ih =>
    rw [List.append_cons]
    exact ih (h.add fun hd => absurd hd.1 (hq a (by simp))) fun w hw => hq w (by simp [hw])

/-- The names of the elements are free of the prefix `xmlns`. -/
def Names (D : List UInt8) (V : List (BitVec 64)) : Prop :=
  ∀ w ∈ V, IsStart w → ∃ n, n ≠ [] ∧ ElementName D w n ∧ NoXmlns n

theorem Names.cut (h : Names D (V ++ ws)) : Names D V := fun w hw => h w (List.mem_append_left _ hw)

theorem Names.more (h : Names D V) (hq : ∀ w ∈ ws, ¬ IsStart w) : Names D (V ++ ws) := by
  intro w hw hs
  rcases List.mem_append.mp hw with hw | hw
  · exact h w hw hs
  · exact absurd hs (hq w hw)

/-- What holds when the start tag that has been read last is closed. -/
def Ready (D : List UInt8) (V : List (BitVec 64)) : Prop := ∀ A w0 B, V = A ++ w0 :: B → IsStart w0 → (∀ w ∈ B, ¬ IsStart w) →
  (∀ w ∈ B, Pfx D w → ∃ d ∈ visibleDecls D V, Declares D d (prefixOf D w)) ∧
  (∃ n, n ≠ [] ∧ ElementName D w0 n ∧ (lastColon 0 0 n ≠ 0 →
    XmlLike (n.take (lastColon 0 0 n)) ∨ ∃ d ∈ visibleDecls D V, Declares D d (n.take (lastColon 0 0 n)))) ∧
  (B.filter fun w => Pfx D w).Pairwise fun w z => localOf D w ≠ localOf D z

theorem visibleDecls_quiet (h : Quiet ws) : visibleDecls D (V ++ ws) = visibleDecls D V := by
  rw [visibleDecls, visibleDecls, scopeOf_quiet h, declsOf_quiet h]

theorem Ready.cut (h : Ready D (V ++ ws)) (hq : ∀ w ∈ ws, ¬ IsStart w ∧ tokenType w ≠ Token.attrName.code ∧ tokenType w ≠ Token.attrNs.code) :
    Ready D V := by
  have hQ : Quiet ws := fun w hw => ⟨(hq w hw).1, (hq w hw).2.2⟩
  intro A w0 B hV h0 hB
  obtain ⟨h1, ⟨n, h2, h3, h4⟩, h5⟩ := h A w0 (B ++ ws) (by rw [hV, List.append_assoc, List.cons_append]) h0 (fun w hw => by
    rcases List.mem_append.mp hw with hw | hw
    · exact hB w hw
    · exact (hq w hw).1)
  rw [visibleDecls_quiet hQ] at h1 h4
  refine ⟨fun w hw hp => h1 w (List.mem_append_left _ hw) hp, ⟨n, h2, h3, h4⟩, ?_⟩
  rw [List.filter_append] at h5
  exact (List.pairwise_append.mp h5).1

theorem Ready.more (h : Ready D V) (hq : ∀ w ∈ ws, ¬ IsStart w ∧ tokenType w ≠ Token.attrName.code ∧ tokenType w ≠ Token.attrNs.code) :
    Ready D (V ++ ws) := by
  have hQ : Quiet ws := fun w hw => ⟨(hq w hw).1, (hq w hw).2.2⟩
  intro A w0 B hV h0 hB
  rcases List.append_eq_append_iff.mp hV with ⟨as, h1, h2⟩ | ⟨bs, h1, h2⟩
  · exact absurd h0 (hq w0 (by rw [h2]; simp)).1
  cases bs with
  | nil => exact absurd h0 (hq w0 (by rw [List.nil_append] at h2; rw [← h2]; simp)).1
  | cons b bs =>
    simp only [List.cons_append, List.cons.injEq] at h2
    obtain ⟨rfl, rfl⟩ := h2
    obtain ⟨k1, k2, k3⟩ := h A w0 bs h1 h0 fun w hw => hB w (List.mem_append_left _ hw)
    rw [visibleDecls_quiet hQ]
    refine ⟨fun w hw hp => ?_, k2, ?_⟩
    · rcases List.mem_append.mp hw with hw | hw
      · exact k1 w hw hp
      · exact absurd hp.1 (hq w hw).2.1
    · rw [List.filter_append, show List.filter (fun w => decide (Pfx D w)) ws = [] from
        List.filter_eq_nil_iff.mpr fun w hw hp => (hq w hw).2.1 (of_decide_eq_true hp).1, List.append_nil]
      exact k3

/-- What is known of an accepted document besides. -/
structure Rest (D : List UInt8) (V : List (BitVec 64)) : Prop where
  locals : LocalsDistinct D V

theorem Rest.cut (h : Rest D (V ++ ws)) : Rest D V := by
  refine ⟨?_⟩
  intro i k w z hw hz hik hb
  refine h.locals i k w z (by rw [List.getElem?_append_left (lt_of_some hw)]; exact hw)
    (by rw [List.getElem?_append_left (lt_of_some hz)]; exact hz) hik fun m y h1 h2 hy => ?_
  rw [List.getElem?_append_left (by have := lt_of_some hz; omega)] at hy
  exact hb m y h1 h2 hy

theorem Rest.pairwise (h : Rest D V) {A B : List (BitVec 64)} {w0 : BitVec 64} (hV : V = A ++ w0 :: B) (hB : ∀ w ∈ B, ¬ IsStart w) :
    (B.filter fun w => Pfx D w).Pairwise fun w z => localOf D w ≠ localOf D z := by
  have hat : ∀ (i : Nat) w, B[i]? = some w → V[A.length + 1 + i]? = some w := by
    intro i w hw
    rw [hV, List.getElem?_append_right (by omega), show A.length + 1 + i - A.length = i + 1 by omega,
      List.getElem?_cons_succ]
    exact hw
  rw [List.pairwise_filter, List.pairwise_iff_getElem]
  intro i k hi hk hik hp hz
  have hp := of_decide_eq_true hp
  have hz := of_decide_eq_true hz
  obtain ⟨k1, k2⟩ := pfx_splits hp
  obtain ⟨k3, k4⟩ := pfx_splits hz
  refine h.locals _ _ _ _ (hat i _ (List.getElem?_eq_getElem hi)) (hat k _ (List.getElem?_eq_getElem hk)) (by omega) ?_ hp.1 hz.1
    _ _ _ _ k1 k3 k2 k4
  intro m y h1 h2 hy
  obtain ⟨m, rfl⟩ : ∃ j, m = A.length + 1 + j := ⟨m - A.length - 1, by omega⟩
  rw [hat m _ (List.getElem?_eq_getElem (by omega))] at hy
  cases hy
  exact hB _ (List.getElem_mem _)

/-- Either the checks at the end of the start tag will succeed, or they have succeeded. -/
def Cond (D : List UInt8) (V : List (BitVec 64)) (P : Prop) : Prop := Ready D V ∨ Rest D V ∧ P

theorem Cond.imp {P Q : Prop} (h : Cond D V P) (hpq : P → Q) : Cond D V Q := Or.imp id (And.imp id hpq) h

theorem declares_prefixDecl {d : BitVec 64} {q : List UInt8} (hq : Declares D d q) : IsPrefixDecl D d := by
  refine ⟨hq.type, ?_⟩
  rcases hq.name with h | ⟨u, h⟩ <;> rw [h] <;> simp

theorem declares_local {d : BitVec 64} {q : List UInt8} (hq : Declares D d q) : localOf D d = q := (declares_colon hq).2.symm

theorem declares_visible {b : FastLongBuffer} (hT : Table D (declsOf D V) (scopeOf D V).visible b) {d : BitVec 64} (hd : d ∈ visibleDecls D V) :
    Declares D d (localOf D d) := (hT.fit d (List.mem_of_mem_take hd)).2.2

/-! ## The tables at a start tag -/

theorem startTagNs_rr (hr : RR f s t) (hT : Tab D V true 0 t.ns) (hw : IsStart w) (hdw : s.depth = tokenDepth w) (hC : Part D (V ++ [w])) :
    ∃ t', startTagNs t = .ok () t' ∧ RR f { s with length2 := 0 } { t' with length2 := 0 } ∧ Tab D (V ++ [w]) false 0 t'.ns ∧
      t'.at_.prefixedAttCount = t.at_.prefixedAttCount := by
  obtain ⟨N1, N2⟩ := hC.nest V w [] rfl hw
  have hlev := hC.level w (by simp) hw
  have hsc := scopeOf_start (D := D) (V := V) hw
  have hqd : declsOf D (V ++ [w]) = declsOf D V := by
    exact declsOf_start hw
  have hfew := hC.few (V ++ [w]) [] (by simp)
  have hle := scope_le (D := D) (V := V ++ [w])
  have rest : ∀ {u : Parser}, u.depth = s.depth → u.ns = t.ns → ∃ n, (do
      let p ← M.get
      if p.depth ≤ p.ns.nsBuffer1.getSize - 1 then do
        M.modify fun p => { p with ns := { p.ns with nsBuffer1 := p.ns.nsBuffer1.setSize p.depth } }
        let t ← onNs1 (Paged.intAt (p.depth - 1))
        M.modify fun p => { p with
          ns := { p.ns with nsBuffer2 := p.ns.nsBuffer2.setSize (t + 1#32).toInt,
                            nsBuffer3 := p.ns.nsBuffer3.setSize (t + 1#32).toInt } }
      else pure () : M Parser Unit) u = .ok () { u with ns := n } ∧ Tab D (V ++ [w]) false 0 n := by
    intro u hu1 hu2
    obtain ⟨ys, hy, hyl, -⟩ := hT.b2
    have hb1 := hT.b1
    rw [M.bind_apply, M.get_apply, Res.andThen_ok, M.ite_apply, hu1, hu2]
    cases hl : (scopeOf D V).level with
    | none =>
      have hd0 := N1 hl
      rw [first, hl] at hb1
      have hall : (scopeOf D V).all = [] := by rw [Scope.all, hl]
      have hgs : t.ns.nsBuffer1.getSize = 0 := by rw [hb1]; rfl
      rw [if_neg (by rw [hgs]; omega)]
      have hst : (scopeOf D V).start (tokenDepth w) = (scopeOf D V).visible := by rw [Scope.start, hl]
      rw [hst, hall, hd0] at hsc
      refine ⟨u.ns, by rw [← hu1]; rfl, ?_⟩
      rw [hu2]
      constructor
      · rw [hsc, hb1, first]; rfl
      · intro _; rw [hsc]; exact ⟨_, rfl⟩
      · rw [hsc]
        rintro e' he
        cases he
        exact ⟨Nat.zero_le _, by omega, fun _ => rfl⟩
      · rw [hsc, hqd]
        exact hT.b2
      · intro h; cases h
      · rw [hsc, hqd]
        exact hT.b3
    | some e =>
      obtain ⟨d1, d2⟩ := N2 e hl
      obtain ⟨l1, l2, l3⟩ := hT.len e hl
      rw [first, hl] at hb1
      simp only [if_true] at hb1
      have hall : (scopeOf D V).all = (scopeOf D V).before ++ [(scopeOf D V).visible] := by rw [Scope.all, hl]
      have hlen : (scopeOf D V).all.length = (scopeOf D V).before.length + 1 := by rw [hall]; simp
      have hgs : t.ns.nsBuffer1.getSize = ((e + 1 : Nat) : Int) := by rw [hb1]; rfl
      by_cases hc : tokenDepth w ≤ e
      · rw [if_pos (by rw [hgs]; omega)]
        have hlt : tokenDepth w - 1 < (scopeOf D V).all.length := by omega
        have hst : (scopeOf D V).start (tokenDepth w) = (scopeOf D V).all[tokenDepth w - 1] := by
          rw [Scope.start, hl]
          simp only [if_pos hc, List.getElem?_eq_getElem hlt, Option.getD_some]
        rw [hsc] at hfew hle
        simp only at hfew hle
        refine ⟨{ nsBuffer1 := plog ((scopeOf D V).all.map num) (tokenDepth w),
                  nsBuffer2 := plog ys ((scopeOf D V).start (tokenDepth w)),
                  nsBuffer3 := plog ((declsOf D V).map (ent D)) ((scopeOf D V).start (tokenDepth w)) }, ?_, ?_⟩
        · rw [M.bind_apply, M.modify_apply, Res.andThen_ok, M.bind_apply]
          have hi : Paged.intAt (s.depth - 1) (plog ((scopeOf D V).all.map num) (tokenDepth w)) =
              .ok (num ((scopeOf D V).start (tokenDepth w))) (plog ((scopeOf D V).all.map num) (tokenDepth w)) := by
            rw [show s.depth - 1 = ((tokenDepth w - 1 : Nat) : Int) by omega]
            rw [Paged.intAt, atWith_plog _ (by simpa using hlt) (by omega) (by omega), List.getElem_map, hst]
          simp only [onNs1, M.zoom_apply, hu1, hu2, hb1, hdw, plog_size] at hi ⊢
          rw [hi]
          simp only [Res.zoom, Res.andThen_ok, M.modify_apply, num, count_succ hfew]
          rw [hy, hT.b3.eq, plog_size, plog_size]
        · constructor
          · rw [hsc, first]; rfl
          · intro _; rw [hsc]; exact ⟨_, rfl⟩
          · rw [hsc]
            rintro e' he
            cases he
            exact ⟨by show _ ≤ (scopeOf D V).all.length; omega, hlev, fun h => by omega⟩
          · rw [hsc, hqd]
            exact ⟨ys, rfl, hyl, Nat.zero_le _⟩
          · intro h; cases h
          · rw [hsc, hqd]
            rw [hqd] at hle
            exact ⟨rfl, hle.2.2, hfew, hT.b3.fit, hT.b3.small⟩
      · rw [if_neg (by rw [hgs]; omega)]
        have hst : (scopeOf D V).start (tokenDepth w) = (scopeOf D V).visible := by
          rw [Scope.start, hl]
          simp only [if_neg hc]
        rw [hst] at hsc
        refine ⟨u.ns, by rw [← hu1]; rfl, ?_⟩
        rw [hu2]
        constructor
        · rw [hsc, hb1, first]
          show _ = plog _ _
          congr 1
          omega
        · intro _; rw [hsc]; exact ⟨_, rfl⟩
        · rw [hsc]
          rintro e' he
          cases he
          exact ⟨by show _ ≤ (scopeOf D V).all.length; omega, hlev, fun h => by omega⟩
        · rw [hsc, hqd]
          exact hT.b2
        · intro h; cases h
        · rw [hsc, hqd]
          exact hT.b3
  have fin : ∀ {u : Parser} {l : Int} {r : BitVec 64}, u = { t with length2 := l, at_ := { t.at_ with currentElementRecord := r } } → ∀ n,
      RR f { s with length2 := 0 } { ({ u with ns := n } : Parser) with length2 := 0 } := by
    rintro u l r rfl n
    obtain ⟨x, rfl, a1, a2, a3⟩ := hr
    exact ⟨{ x with ns := n, elem := r }, rfl, a1, a2, a3⟩
  unfold startTagNs
  rw [M.bind_apply, M.get_apply, Res.andThen_ok, M.ite_apply, if_pos hr.on, M.ite_apply]
  split
  · rw [M.bind_apply, M.modify_apply, Res.andThen_ok]
    generalize hu : ({ t with
      length2 := t.length2 + t.enc.increment,
      at_ := { t.at_ with currentElementRecord := nsRecord (t.length2 + t.enc.increment) t.length1 t.lastOffset } } : Parser) = u
    obtain ⟨n, k1, k2⟩ := rest (u := u) (by rw [← hu]; exact hr.same.depth) (by rw [← hu])
    exact ⟨_, k1, fin hu.symm n, k2, by rw [← hu]⟩
  · rw [M.bind_apply, M.modify_apply, Res.andThen_ok]
    generalize hu : ({ t with at_ := { t.at_ with currentElementRecord := 0 } } : Parser) = u
    obtain ⟨n, k1, k2⟩ := rest (u := u) (by rw [← hu]; exact hr.same.depth) (by rw [← hu])
    exact ⟨_, k1, fin (l := t.length2) hu.symm n, k2, by rw [← hu]⟩

theorem startTagLoop_sr {a b : Nat} (hab : a ≤ b) {i : Nat} {s1 : Parser} {u : Unit} {n r : List UInt8} {y : UInt8} (hb : Base c s)
    (hr : RR f s t) (ho : s.rd.offset = s.lastOffset + (i : Int)) (h0 : 0 ≤ s.lastOffset) (hd : c.xmlDoc.drop s.lastOffset.toNat = n ++ y :: r)
    (hy : ¬ NameByte y) (hi : i ≤ n.length) 
    (hn : Grammar.AllName n) (hg : NoXmlns n ∨ ∃ u t1, startTagLoop b t = .ok u t1) (hm : startTagLoop a s = .ok u s1) :
    ∃ t1, startTagLoop b t = .ok u t1 ∧ RR f s1 t1 ∧ t1.ns = t.ns ∧ t1.at_ = t.at_ ∧
      ∀ j, i ≤ j → n[j]? = some (ch% ':') → str% "xmlns" <+: n.take j → j ≠ 5 ∧ j ≠ 10 := by
  induction a generalizing b i s t with
  | zero => cases hm
  | succ a ih =>
    obtain ⟨b, rfl⟩ : ∃ k, b = k + 1 := ⟨b - 1, by omega⟩
    simp only [startTagLoop] at hm hg ⊢
    obtain ⟨_, s', hnx, hm⟩ := bind_ok hm
    obtain ⟨t', hnt, hr', hns, -⟩ := sim_ok' (fun x => nextChar_sim (rx_nice (x := x))) hr hnx
    obtain ⟨z, hs', hb', -, hz⟩ := (nextChar_byte hb).eq hnx
    obtain ⟨z', ht', hbt', -, -⟩ := (nextChar_byte (hr.base hb)).eq hnt
    have hat : t'.at_ = t.at_ := by rw [ht']; rfl
    have e1 := hr'.same.currentChar
    have hinc := hb.inc
    have hzc : s'.currentChar = z.toNat := by rw [hs']; rfl
    have hz2 : (n ++ y :: r)[i]? = some z := by
      rw [← hd, List.getElem?_drop, ← hz]; congr 1; omega
    have hlo : s'.lastOffset = s.lastOffset := by rw [hs']; rfl
    have hro : s'.rd.offset = s'.lastOffset + ((i + 1 : Nat) : Int) := by rw [hs']; simp; omega
    have hof : s'.offset = s.lastOffset + ((i + 1 : Nat) : Int) := by rw [hs']; simp; omega
    have hinc' : s'.enc.increment = 1 := hb'.inc
    rw [M.bind_apply, hnt, Res.andThen_ok] at hg ⊢
    simp only [M.bind_apply, M.get_apply, Res.andThen_ok, e1, M.ite_apply] at hm hg ⊢
    by_cases hx : isNameChar s'.currentChar = true
    · rw [if_pos hx] at hm hg ⊢
      have hlt : i < n.length := Decidable.byContradiction fun hh => by
        have : i = n.length := by omega
        rw [this, List.getElem?_append_right (Nat.le_refl _), Nat.sub_self] at hz2
        simp only [List.getElem?_cons_zero, Option.some.injEq] at hz2
        rw [hzc, ← hz2] at hx
        exact hy ((isNameChar_iff _).mp hx)
      rw [List.getElem?_append_left hlt] at hz2
      by_cases hc : s'.currentChar = ch% ':'
      · rw [if_pos hc] at hm hg ⊢
        have hz3 : z = ch% ':' := by
          rw [hzc] at hc; exact UInt8.toNat_inj.mp hc
        rw [hz3] at hz2
        rw [M.modify_apply, Res.andThen_ok] at hm hg ⊢
        have hr2 : RR f { s' with length2 := s'.offset - s'.lastOffset - s'.enc.increment }
            { t' with length2 := t'.offset - t'.lastOffset - t'.enc.increment } := by
          obtain ⟨x, rfl, k1, k2, k3⟩ := hr'
          exact ⟨x, rfl, k1, k2, k3⟩
        have hbt : Base (aw f c) { t' with length2 := t'.offset - t'.lastOffset - t'.enc.increment } := hbt'
        have hl2 : t'.offset - t'.lastOffset - t'.enc.increment = i := by
          have a1 := hr'.same.offset
          have a2 := hr'.same.lastOffset
          have a3 : t'.enc.increment = 1 := hbt'.inc
          omega
        have hlt' : t'.lastOffset = s.lastOffset := by rw [hr'.same.lastOffset, hlo]
        generalize hq2 : ({ s' with length2 := s'.offset - s'.lastOffset - s'.enc.increment } : Parser) = s2 at *
        generalize hq3 : ({ t' with length2 := t'.offset - t'.lastOffset - t'.enc.increment } : Parser) = t2 at *
        have hb2 : Base c s2 := by rw [← hq2]; exact hb'
        have c1 : (pure s2.cfg.nsAware &&! checkXmlnsPrefix s2.lastOffset s2.length2 true) s2 = .ok false s2 := by
          rw [hr2.off]; rfl
        have ht2 : t2.length2 = i := by rw [← hq3]; exact hl2
        have htl : t2.lastOffset = s.lastOffset := by rw [← hq3]; exact hlt'
        have c2 : (pure t2.cfg.nsAware &&! checkXmlnsPrefix t2.lastOffset t2.length2 true) t2 =
            .ok (decide (str% "xmlns" <+: n.take i ∧ (i = 5 ∨ i = 10))) t2 := by
          rw [hr2.on]
          show checkXmlnsPrefix t2.lastOffset t2.length2 true t2 = _
          rw [Rooted.checkXmlns_upto hbt (a := n.take i) (y := ch% ':') (r := n.drop (i + 1) ++ y :: r) (by omega) ?_ (by decide)]
          · congr 1
            rw [ht2, decide_eq_decide]
            refine and_congr_right fun _ => ⟨fun h => ?_, fun h _ => ?_⟩
            · have := h rfl; omega
            · omega
          · rw [htl]
            show c.xmlDoc.drop _ = _
            rw [hd]
            have h1 := List.getElem_eq_iff (h := hlt) |>.mpr hz2
            rw [← List.cons_append, ← List.append_assoc, ← h1, List.getElem_cons_drop hlt, List.take_append_drop]
        rw [M.bind_apply, M.get_apply, Res.andThen_ok, M.bind_apply, c1, Res.andThen_ok] at hm
        rw [M.bind_apply, M.get_apply, Res.andThen_ok, M.bind_apply, c2, Res.andThen_ok] at hg ⊢
        have g2 : ¬ (str% "xmlns" <+: n.take i ∧ (i = 5 ∨ i = 10)) := by
          intro hbad
          rcases hg with hg | ⟨u', t1, hok⟩
          · have := hg i hz2 hbad.1
            omega
          · rw [decide_eq_true hbad, M.ite_apply, if_pos rfl] at hok
            exact (Two.parseErr_ok hok).elim
        rw [decide_eq_false g2] at hg ⊢
        simp only [Bool.false_eq_true, if_false] at hm hg ⊢
        have hlo2 : s2.lastOffset = s.lastOffset := by rw [← hq2]; exact hlo
        obtain ⟨t1, k1, k2, k3, k4, k5⟩ := ih (b := b) (by omega) hb2 hr2 (i := i + 1) (by rw [← hq2]; exact hro) (by omega) (by rw [hlo2]; exact hd) (by omega) hg hm
        refine ⟨t1, k1, k2, by rw [k3, ← hq3]; exact hns, by rw [k4, ← hq3]; exact hat, fun j hj hj' hx => ?_⟩
        by_cases he : j = i
        · subst he
          exact ⟨fun h => g2 ⟨hx, .inl h⟩, fun h => g2 ⟨hx, .inr h⟩⟩
        · exact k5 j (by omega) hj' hx
      · rw [if_neg hc] at hm hg ⊢
        obtain ⟨t1, k1, k2, k3, k4, k5⟩ := ih (b := b) (by omega) hb' hr' hro (by omega) (by rw [hlo]; exact hd) (by omega) hg hm
        refine ⟨t1, k1, k2, k3.trans hns, k4.trans hat, fun j hj hj' hx => ?_⟩
        by_cases he : j = i
        · subst he
          rw [hz2] at hj'
          rw [hzc, Option.some.inj hj'] at hc
          exact absurd rfl hc
        · exact k5 j (by omega) hj' hx
    · rw [if_neg hx] at hm ⊢
      cases hm
      refine ⟨t', rfl, hr', hns, hat, fun j hj hj' _ => ?_⟩
      have h1 := (List.getElem?_eq_some_iff.mp hj').1
      rw [List.getElem?_append_left (by omega)] at hz2
      rw [hzc] at hx
      exact absurd ((isNameChar_iff _).mpr (hn z (List.mem_of_getElem? hz2))) hx

theorem startHead_rr {q : Parser} {uu : Unit} (h : G c o0 .tagStart s es stk recs) (hr : RR f s t) (hT : Tab c.xmlDoc (vals s) true 0 t.ns)
    (hm : startHead s = .ok uu q) (hC : Part c.xmlDoc (vals q))
    (hN : Names c.xmlDoc (vals q) ∨ ∃ a t', startHead t = .ok a t') :
    ∃ t', startHead t = .ok () t' ∧ RR f q t' ∧ Tab c.xmlDoc (vals q) false 0 t'.ns ∧
      (∃ w, vals q = vals s ++ [w] ∧ IsStart w ∧ ∃ n, n ≠ [] ∧ ElementName c.xmlDoc w n ∧ NoXmlns n) ∧ Base c q ∧ t'.at_.prefixedAttCount = t.at_.prefixedAttCount := by
  have hs := h.inv.slots
  have h0 := h.inv.start (by simp)
  obtain ⟨hn0, hn1, hn2⟩ := h.inv.name (by simp)
  have hk := h.k
  rw [if_pos rfl, if_pos rfl] at hk
  obtain ⟨k, hk4, hk0, hkq, hko, b0, hb0, hsb⟩ := h.tagS rfl
  have hsy := h.inv.sync (by simp)
  have hinc : s.enc.increment = 1 := h.inv.base.inc
  have he1 := h.inv.base.end1
  have he2 := h.inv.base.end2
  have hdep := hk.depth
  have hlen2 := hk.len2
  unfold startHead at hm hN ⊢
  rw [M.bind_apply, M.get_apply, Res.andThen_ok] at hm hN ⊢
  obtain ⟨u, s1, hL, hm⟩ := bind_ok (m := startTagLoop s.loopFuel) hm
  obtain ⟨l, r, x, run, hp, hb, hr0, hre, hx, hnx, hrun, hdrop, hl0⟩ := (startTagLoop_post h.inv.base).eq hL
  have hcol := hl0 (k + 1) 0 (by rw [hlen2]; rfl) (by omega)
  have hl0 : 0 ≤ l := by omega
  rw [M.bind_apply, M.modify_apply, Res.andThen_ok, M.bind_apply, M.get_apply, Res.andThen_ok, M.ite_apply] at hm
  generalize hq : ({ s1 with length1 := s1.offset - s1.lastOffset - s1.enc.increment } : Parser) = s2 at hm
  have hq1 : s2.length1 = r - s.lastOffset := by subst hq hp; simp [hinc]; omega
  have hq2 : s2.length2 = l := by subst hq hp; rfl
  have hqb : Base c s2 := by subst hq; exact hb
  have hql : s2.lastOffset = s.lastOffset := by subst hq hp; rfl
  have hqd : s2.depth = s.depth := by subst hq hp; rfl
  have hqo : s2.out = s.out := by subst hq hp; rfl
  have hqs : SlotsCore c s2.tagStack s2.at_ s2.depth := by subst hq hp; exact hs
  by_cases hd : s2.depth > maxDepth
  · rw [if_pos hd] at hm
    exact ((post_err (p := s2) (Q := fun _ _ => False) MaximumDepthExceeded).eq hm).elim
  rw [if_neg hd] at hm
  have hd' : s2.depth ≤ 254 := by simpa [maxDepth] using hd
  obtain ⟨tg, ht, htlo, hthi, hts⟩ := pushTag_post hqs (by omega) (by omega) (by omega) (by omega) he2 he1
  rw [M.bind_apply, ht, Res.andThen_ok, M.bind_apply, M.modify_apply, Res.andThen_ok] at hm
  generalize hq3 : ({ s2 with
    tagStack := s2.tagStack.set s2.depth.toNat tg,
    vtdDepth := if s2.depth > s2.vtdDepth then s2.depth else s2.vtdDepth } : Parser) = s3 at hm
  have hb3 : Base c s3 := by subst hq3; exact hqb
  obtain ⟨u', s4, hw, hm⟩ := bind_ok (m := writeStartTag) hm
  obtain ⟨hl2, hl1, hs4, hb4⟩ := (writeStartTag_post hb3).eq hw
  have e31 : s3.length1 = s2.length1 := by subst hq3; rfl
  have e32 : s3.length2 = s2.length2 := by subst hq3; rfl
  have e33 : s3.lastOffset = s2.lastOffset := by subst hq3; rfl
  have e34 : s3.depth = s2.depth := by subst hq3; rfl
  have e35 : s3.out = s2.out := by subst hq3; rfl
  have hleft : startTagNs s4 = .ok () s4 := by
    have : s4.cfg.nsAware = false := by rw [hb4.cfg, ← h.inv.base.cfg]; exact hr.off
    simp only [startTagNs, M.bind_apply, M.get_apply, Res.andThen_ok, this]
    rfl
  rw [M.bind_apply, hleft, Res.andThen_ok] at hm
  cases hm
  have hv4 : vals s4 = vals s ++ [(startRec s3).word] := by
    rw [hs4]
    show (Parser.emit c.shallowDepth s3.out [startRec s3]).vtdBuffer.values = _
    rw [emit_values hb3.out, e35, hqo]
    rfl
  -- the record
  have hmem : (startRec s3).word ∈ vals s4 := by rw [hv4]; simp
  have hrng := shlOr_range (a := s3.length2) (b := s3.length1) (k := 1) (by omega) hl2 (by omega) hl1 (by omega)
  have hsm : Small (startRec s3) := fun _ =>
    ⟨by show 0 ≤ s3.lastOffset; omega, by show s3.lastOffset < 2 ^ 31; omega, hrng.1, hrng.2,
      by show 0 ≤ s3.depth; omega, by show s3.depth ≤ 254; omega⟩
  have hst : IsStart (startRec s3).word := (small_start hsm).2 rfl
  obtain ⟨-, f2, f3, f4⟩ := small_fields hsm (show Token.startingTag.code < 4 by decide)
  have f3 : tokenOffset (startRec s3).word = s.lastOffset.toNat := by
    rw [f3]; show s3.lastOffset.toNat = _; omega
  have f2 : s3.depth = tokenDepth (startRec s3).word := by
    rw [f2]
    show s3.depth = (s3.depth.toNat : Int)
    omega
  obtain ⟨n, hne, hEN, hgood⟩ : ∃ n, n ≠ [] ∧ ElementName c.xmlDoc (startRec s3).word n ∧
      (NoXmlns n ∨ ∃ u t1, startTagLoop t.loopFuel t = .ok u t1) := by
    rcases hN with hN | ⟨a, t', hok⟩
    · obtain ⟨n, h1, h2, h3⟩ := hN _ hmem hst
      exact ⟨n, h1, h2, .inl h3⟩
    · obtain ⟨n, h1, h2⟩ := hC.elem _ hmem hst
      obtain ⟨u, t1, k1, -⟩ := bind_ok (m := startTagLoop t.loopFuel) hok
      exact ⟨n, h1, h2, .inr ⟨u, t1, k1⟩⟩
  obtain ⟨hn, b, rr, hnr, hnb⟩ := id hEN
  rw [f3] at hnr
  have hk' : k = 0 := Decidable.byContradiction fun hk' => by
    have h3 := hkq hk'
    have e0 : (c.xmlDoc.drop s.lastOffset.toNat)[0]? = c.xmlDoc[s.lastOffset.toNat]? := by rw [List.getElem?_drop]; rfl
    rw [← e0] at h3
    cases n with
    | nil => exact hne rfl
    | cons y n =>
      rw [hnr] at h3
      simp only [List.cons_append, List.getElem?_cons_zero, Option.some.injEq] at h3
      have := hn y (by simp)
      rw [h3] at this
      exact absurd ((isNameChar_iff _).mpr this) (by decide)
  subst hk'
  have hn1' : 1 ≤ n.length := by cases n with
    | nil => exact absurd rfl hne
    | cons y n => simp
  -- the run with namespace awareness
  have hf : t.loopFuel = s.loopFuel := by obtain ⟨x, hr⟩ := hr; rw [hr.eq]; rfl
  obtain ⟨t1, hTL, hr1, n1, a1, hfree⟩ := startTagLoop_sr (b := t.loopFuel) (by omega) h.inv.base hr (i := 1) (by omega) hn0 hnr hnb hn1' hn hgood hL
  rw [M.bind_apply, hTL, Res.andThen_ok, M.bind_apply, M.modify_apply, Res.andThen_ok, M.bind_apply, M.get_apply,
    Res.andThen_ok, M.ite_apply]
  generalize hqt : ({ t1 with length1 := t1.offset - t1.lastOffset - t1.enc.increment } : Parser) = t2
  have hr2 : RR f s2 t2 := by
    obtain ⟨x, rfl, g1, g2, g3⟩ := hr1
    subst hq hqt
    exact ⟨x, rfl, g1, g2, g3⟩
  rw [if_neg (by rw [hr2.same.depth]; exact hd)]
  obtain ⟨t2', hpt, hr2', n2, -, c2, -⟩ := sim_ok' (fun x => pushTag_sim (rx_nice (x := x))) hr2 ht
  rw [M.bind_apply, hpt, Res.andThen_ok, M.bind_apply, M.modify_apply, Res.andThen_ok]
  generalize hqt3 : ({ t2' with vtdDepth := if t2'.depth > t2'.vtdDepth then t2'.depth else t2'.vtdDepth } : Parser) = t3
  have hr3 : RR f s3 t3 := by
    obtain ⟨x, rfl, a1, a2, a3⟩ := hr2'
    subst hq3 hqt3
    exact ⟨x, rfl, a1, a2, a3⟩
  obtain ⟨t4, hwt, hr4, n4, -, c4, -⟩ := sim_ok' (fun x => writeStartTag_sim (rx_nice (x := x))) hr3 hw
  rw [M.bind_apply, hwt, Res.andThen_ok]
  have hns4 : t4.ns = t.ns := by
    rw [n4, ← hqt3]
    show t2'.ns = _
    rw [n2, ← hqt]
    exact n1
  have hc4 : t4.at_.prefixedAttCount = t.at_.prefixedAttCount := by
    rw [c4, ← hqt3]
    show t2'.at_.prefixedAttCount = _
    rw [c2, ← hqt]
    show t1.at_.prefixedAttCount = _
    rw [a1]
  have hd4 : s4.depth = s3.depth := by rw [hs4]
  obtain ⟨t5, k1, k2, k3, k4⟩ := startTagNs_rr hr4 (by rw [hns4]; exact hT) hst (by rw [hd4]; exact f2) (by rw [← hv4]; exact hC)
  rw [M.bind_apply, k1, Res.andThen_ok]
  exact ⟨_, rfl, k2, by rw [hv4]; exact k3, ⟨_, hv4, hst, n, hne, hEN, fun j hj hx => by
    by_cases h1 : 1 ≤ j
    · exact hfree j h1 hj hx
    · omega⟩, hb4, k4.trans hc4⟩

/-! ## The end of a start tag -/

theorem elem_total {A B : List (BitVec 64)} {w0 : BitVec 64} (hb : Base c p) (hO : OpenTag c.xmlDoc V p.at_ A B w0)
    (hT : Table c.xmlDoc (declsOf c.xmlDoc V) (scopeOf c.xmlDoc V).visible p.ns.nsBuffer3) (hR : Ready c.xmlDoc V) :
    (if p.at_.currentElementRecord ≠ 0 then qualifyElement else pure ()) p = .ok () p := by
  rw [M.ite_apply]
  split
  · rename_i h0
    obtain ⟨-, ⟨n, h1, h2, h3⟩, -⟩ := hR A w0 B hO.eq hO.start hO.none
    have hc := hO.plain n h1 h2 h0
    obtain ⟨e1, e2, e3, e4⟩ := hO.elem n h2 hc
    obtain ⟨hsp, hlt⟩ := colon_splits hc
    obtain ⟨-, b, r, hr, -⟩ := id h2
    refine qualifyElement_total hb hT e1 e2 e3 (a := n.take (lastColon 0 0 n)) (r := n.drop (lastColon 0 0 n + 1) ++ b :: r) ?_
      (by rw [List.length_take]; omega) e4 ?_
    · rw [hr]
      have := hsp.eq
      rw [← List.cons_append, ← List.append_assoc, ← this]
    · rcases h3 hc with h3 | ⟨d, hd, hq⟩
      · exact .inr h3
      · exact .inl ⟨d, hd, declares_local hq⟩
  · rfl

theorem elem_seen {A B : List (BitVec 64)} {w0 : BitVec 64} (hb : Base c p) (hO : OpenTag c.xmlDoc V p.at_ A B w0)
    (hT : Table c.xmlDoc (declsOf c.xmlDoc V) (scopeOf c.xmlDoc V).visible p.ns.nsBuffer3) (hC : Part c.xmlDoc V)
    (hm : p.at_.currentElementRecord ≠ 0 → ∃ u p', qualifyElement p = .ok u p') :
    ∃ n, n ≠ [] ∧ ElementName c.xmlDoc w0 n ∧ (lastColon 0 0 n ≠ 0 →
      XmlLike (n.take (lastColon 0 0 n)) ∨ ∃ d ∈ visibleDecls c.xmlDoc V, Declares c.xmlDoc d (n.take (lastColon 0 0 n))) := by
  have h0 : w0 ∈ V := by rw [hO.eq]; simp
  obtain ⟨n, h1, h2⟩ := hC.elem w0 h0 hO.start
  refine ⟨n, h1, h2, fun hc => ?_⟩
  obtain ⟨e1, e2, e3, e4⟩ := hO.elem n h2 hc
  obtain ⟨u, p', hm⟩ := hm (by rw [e4]; exact nsRecord_ne (by omega) (by omega) e2 e3)
  obtain ⟨hsp, hlt⟩ := colon_splits hc
  obtain ⟨-, b, r, hr, -⟩ := id h2
  rcases qualifyElement_seen hb hT e1 e2 e3 (a := n.take (lastColon 0 0 n)) (r := n.drop (lastColon 0 0 n + 1) ++ b :: r) (by
    rw [hr]
    have := hsp.eq
    rw [← List.cons_append, ← List.append_assoc, ← this]) (by rw [List.length_take]; omega) e4 hm with ⟨d, hd, he⟩ | ⟨hx, hl | hl⟩
  · refine .inr ⟨d, hd, ?_⟩
    rw [← he]
    exact declares_visible hT hd
  · refine .inl (.inl ?_)
    obtain ⟨r, hr⟩ := hx
    have := congrArg List.length hr
    rw [List.length_append, hl] at this
    have : r = [] := List.eq_nil_of_length_eq_zero (by
      have h3 : (str% "xml" : List UInt8).length = 3 := rfl
      omega)
    rw [this, List.append_nil] at hr
    exact hr.symm
  · exact .inl (.inr ⟨hx, hl⟩)

theorem pushNs1_rr (hT : Tab D V false 0 t.ns) :
    ∃ b, pushNs1 t = .ok () { t with ns := { t.ns with nsBuffer1 := b } } ∧ Tab D V true 0 { t.ns with nsBuffer1 := b } := by
  obtain ⟨e, he⟩ := hT.opn rfl
  obtain ⟨l1, l2, l3⟩ := hT.len e he
  have hb1 := hT.b1
  rw [first, he] at hb1
  simp only [Bool.false_eq_true, if_false] at hb1
  have hall : (scopeOf D V).all = (scopeOf D V).before ++ [(scopeOf D V).visible] := by rw [Scope.all, he]
  have h1 := append_plog (xs := (scopeOf D V).before.map num) (n := e) (num (scopeOf D V).visible) (by omega)
    (fun h => by rw [l3 h]; rfl) (fun h => by rw [List.map_eq_nil_iff.mp h] at l1; simpa using l1)
  refine ⟨plog ((scopeOf D V).all.map num) (e + 1), ?_, ⟨?_, (fun h => by cases h), hT.len, hT.b2, hT.fresh, hT.b3⟩⟩
  · have e1 : BitVec.ofInt 32 (t.ns.nsBuffer3.getSize - 1) = num (scopeOf D V).visible := by
      rw [hT.b3.eq]; rfl
    simp only [pushNs1, M.bind_apply, M.get_apply, Res.andThen_ok, onNs1, M.zoom_apply, e1, hb1, h1, hall, List.map_append]
    rfl
  · rw [first, he]; rfl

/-- The last start tag. -/
theorem last_start {A A' B B' : List (BitVec 64)} {w0 w0' : BitVec 64} (h : V = A ++ w0 :: B) (h0 : IsStart w0) (hB : ∀ w ∈ B, ¬ IsStart w)
    (h' : V = A' ++ w0' :: B') (h0' : IsStart w0') (hB' : ∀ w ∈ B', ¬ IsStart w) : A = A' ∧ w0 = w0' ∧ B = B' := by
  have key := h.symm.trans h'
  rcases List.append_eq_append_iff.mp key with ⟨as, h1, h2⟩ | ⟨as, h1, h2⟩
  · cases as with
    | nil => rw [List.append_nil] at h1; simp only [List.nil_append, List.cons.injEq] at h2; exact ⟨h1.symm, h2⟩
    | cons a as =>
      simp only [List.cons_append, List.cons.injEq] at h2
      exact absurd h0' (hB w0' (by rw [h2.2]; simp))
  · cases as with
    | nil =>
      rw [List.append_nil] at h1
      simp only [List.nil_append, List.cons.injEq] at h2
      exact ⟨h1, h2.1.symm, h2.2.symm⟩
    | cons a as =>
      simp only [List.cons_append, List.cons.injEq] at h2
      exact absurd h0 (hB' w0 (by rw [h2.2]; simp))

theorem tagClose_rr {q : Parser} (hr : RR f s t) (hb : Base c s) (hI : InTag (aw f c) t) (hcnt : t.at_.prefixedAttCount = 0)
    (hT : Tab c.xmlDoc (vals s) false 0 t.ns) (hm : tagClose s = .ok st q) (hC : Part c.xmlDoc (vals q))
    (hR : Cond c.xmlDoc (vals q) (∃ a t', tagClose t = .ok a t')) :
    ∃ t', tagClose t = .ok st t' ∧ RR f q t' ∧ Tab c.xmlDoc (vals q) true 0 t'.ns ∧ Ready c.xmlDoc (vals q) ∧
      ∃ ys, vals q = vals s ++ ys ∧ Quiet ys := by
  have e := hr.same.currentChar
  simp only [tagClose, M.bind_apply, M.get_apply, Res.andThen_ok, M.ite_apply, e, hr.off, hr.on, if_true] at hm hR ⊢
  by_cases hc : s.currentChar = ch% '>'
  · rw [if_pos hc] at hm ⊢
    rw [if_neg (by simp)] at hm
    obtain ⟨b, h1, h2⟩ := pushNs1_rr hT
    rw [h1]
    rw [Res.andThen_ok]
    generalize hq1 : ({ t with ns := { t.ns with nsBuffer1 := b } } : Parser) = t1
    have hr1 : RR f s t1 := hr.ns ⟨_, t.at_.currentElementRecord, t.at_.prefixedAttCount, t.at_.prefixedAttrNameSlice, t.at_.prefixUrlSlice, hq1.symm⟩
    have ha1 : t1.at_ = t.at_ := by rw [← hq1]
    have hT1 : Tab c.xmlDoc (vals s) true 0 t1.ns := by rw [← hq1]; exact h2
    obtain ⟨ws, hv, hq⟩ := (lf_ok (LF.quiet processElementTail_qf) hm hb).vals hb.out
    obtain ⟨A, B, w0, hO⟩ := hI.opn
    have hO1 : OpenTag (aw f c).xmlDoc (vals s) t1.at_ A B w0 := by rw [ha1, ← hr.vals]; exact hO
    rw [hv] at hC hR
    have hR1 : Ready c.xmlDoc (vals s) := by
      rcases hR with hR | ⟨hR, a, t'', hok⟩
      · exact hR.cut hq
      · rw [if_pos hc, h1, Res.andThen_ok, hq1] at hok
        intro A' w' B' hV' h0' hB'
        have hseen := elem_seen (c := aw f c) (hr1.base hb) (V := vals s) hO1 hT1.b3 hC.cut (fun h0 => by
          rw [ha1] at h0
          rw [if_pos h0] at hok
          obtain ⟨u, p', k1, -⟩ := bind_ok hok
          exact ⟨u, p', k1⟩)
        obtain ⟨rfl, rfl, rfl⟩ : A' = A ∧ w' = w0 ∧ B' = B := last_start hV' h0' hB' hO1.eq hO1.start hO1.none
        refine ⟨fun w hw hp => ?_, hseen, hR.cut.pairwise hV' hB'⟩
        have h3 := hO1.count
        rw [ha1, hcnt] at h3
        have h3 : (B'.filter fun w => Pfx c.xmlDoc w).length = 0 := by
          have h4 : (0 : Int) = ((B'.filter fun w => Pfx c.xmlDoc w).length : Int) := h3
          omega
        have h4 : w ∈ B'.filter fun w => Pfx c.xmlDoc w := List.mem_filter.mpr ⟨hw, decide_eq_true hp⟩
        rw [List.eq_nil_of_length_eq_zero h3] at h4
        cases h4
    have hel := elem_total (c := aw f c) (hr1.base hb) (V := vals s) hO1 hT1.b3 hR1
    rw [ha1, M.ite_apply] at hel
    obtain ⟨t', h3, h4, n4, -⟩ := sim_ok' (fun x => processElementTail_sim (rx_nice (x := x))) hr1 hm
    refine ⟨t', ?_, h4, ?_, ?_, ws, hv, fun w hw => ⟨(hq w hw).1, (hq w hw).2.2⟩⟩
    · split
      · rename_i h0
        rw [if_pos h0] at hel
        rw [M.bind_apply, hel, Res.andThen_ok, h3]
      · exact h3
    · rw [n4, hv]
      exact hT1.quiet fun w hw => ⟨(hq w hw).1, (hq w hw).2.2⟩
    · rw [hv]; exact hR1.more hq
  · rw [if_neg hc] at hm
    exact (Two.parseErr_ok hm).elim

theorem startTagEnd_rr {q : Parser} (hr : RR f s t) (hb : Base c s) (hI : InTag (aw f c) t) (hcnt : t.at_.prefixedAttCount = 0)
    (hT : Tab c.xmlDoc (vals s) false 0 t.ns) (hm : startTagEnd s = .ok st q) (hC : Part c.xmlDoc (vals q))
    (hR : Cond c.xmlDoc (vals q) (∃ a t', startTagEnd t = .ok a t')) :
    ∃ t', startTagEnd t = .ok st t' ∧ RR f q t' ∧ Tab c.xmlDoc (vals q) true 0 t'.ns ∧ Ready c.xmlDoc (vals q) ∧
      ∃ ys, vals q = vals s ++ ys ∧ Quiet ys := by
  have hs : ∀ x, Sim (RX f x) False False tagSlash tagSlash := by
    intro x
    have hR := rx_nice (f := f) (x := x)
    unfold tagSlash
    sim hR
  rw [startTagEnd_slash] at hm hR ⊢
  obtain ⟨u, s', h1, h2⟩ := bind_ok hm
  obtain ⟨hb1, -, -, o1⟩ := (tagSlash_base hb).eq h1
  obtain ⟨t', h3, h4, n4, -⟩ := sim_ok' hs hr h1
  obtain ⟨-, a2, n2, o2⟩ := (tagSlash_base (hr.base hb)).eq h3
  obtain ⟨t'', h5, h6⟩ := tagClose_rr h4 hb1 (hI.same a2 n2 o2) (by rw [a2]; exact hcnt) (by rw [vals, o1, n4]; exact hT) h2 hC (by
    refine hR.imp ?_
    rintro ⟨a, t'', h⟩
    rw [M.bind_apply, h3, Res.andThen_ok] at h
    exact ⟨a, t'', h⟩)
  rw [show vals s' = vals s by rw [vals, o1]] at h6
  refine ⟨t'', ?_, h6⟩
  rw [M.bind_apply, h3, Res.andThen_ok, h5]

theorem tagRest2_rr {q : Parser} (hr : RR f s t) (hb : Base c s) (hI : InTag (aw f c) t) (hcnt : t.at_.prefixedAttCount = 0)
    (hT : Tab c.xmlDoc (vals s) false 0 t.ns) (hm : tagRest2 s = .ok st q) (hC : Part c.xmlDoc (vals q))
    (hR : notAttr st = true → Cond c.xmlDoc (vals q) (∃ a t', tagRest2 t = .ok a t')) :
    ∃ t', tagRest2 t = .ok st t' ∧ RR f q t' ∧ Tab c.xmlDoc (vals q) (notAttr st) 0 t'.ns ∧
      (notAttr st = true ∧ Ready c.xmlDoc (vals q) ∨ st = .attrName ∧ t'.ns = t.ns ∧ t'.at_ = t.at_ ∧ q.depth = s.depth) ∧
      ∃ ys, vals q = vals s ++ ys ∧ Quiet ys := by
  have fin : ∀ {s t : Parser}, RR f s t → Base c s → InTag (aw f c) t → t.at_.prefixedAttCount = 0 → Tab c.xmlDoc (vals s) false 0 t.ns →
      startTagEnd s = .ok st q → (notAttr st = true → Cond c.xmlDoc (vals q) (∃ a t', startTagEnd t = .ok a t')) →
      ∃ t', startTagEnd t = .ok st t' ∧ RR f q t' ∧ Tab c.xmlDoc (vals q) true 0 t'.ns ∧ notAttr st = true ∧ Ready c.xmlDoc (vals q) ∧
        ∃ ys, vals q = vals s ++ ys ∧ Quiet ys := by
    intro s t hr hb hI hcnt hT hm hR
    have hn := startTagEnd_notAttr _ _ _ hm
    obtain ⟨t', k1, k2, k3, k4, k5⟩ := startTagEnd_rr hr hb hI hcnt hT hm hC (hR hn)
    exact ⟨t', k1, k2, k3, hn, k4, k5⟩
  have e := hr.same.currentChar
  simp only [tagRest2, M.bind_apply, M.get_apply, Res.andThen_ok, M.ite_apply, e] at hm hR ⊢
  by_cases hc : isSpaceChar s.currentChar = true
  · rw [if_pos hc] at hm hR ⊢
    obtain ⟨u, s1, h1, hm⟩ := bind_ok (m := nextCharAfterWs) hm
    obtain ⟨t1, h2, hr1, n1, -⟩ := sim_ok' (fun x => nextCharAfterWs_sim (rx_nice (x := x))) hr h1
    obtain ⟨r2, y, w, e1, hb1, -⟩ := (nextCharAfterWs_byte hb).eq h1
    obtain ⟨r2', y', w', e2, -, -⟩ := (nextCharAfterWs_byte (hr.base hb)).eq h2
    have ho1 : s1.out = s.out := by rw [e1]; rfl
    have hv1 : vals s1 = vals s := by rw [vals, ho1]
    have hI1 : InTag (aw f c) t1 := hI.same (by rw [e2]; rfl) (by rw [e2]; rfl) (by rw [e2]; rfl)
    have ht1 : t1.at_.prefixedAttCount = 0 := by rw [e2]; exact hcnt
    have hT1 : Tab c.xmlDoc (vals s1) false 0 t1.ns := by rw [n1, hv1]; exact hT
    rw [h2, Res.andThen_ok] at hR ⊢
    have e1' := hr1.same.currentChar
    simp only [M.bind_apply, M.get_apply, Res.andThen_ok, M.ite_apply, e1'] at hm hR ⊢
    by_cases hx : isNameStartChar s1.currentChar = true
    · rw [if_pos hx] at hm ⊢
      rw [getPrevOffset_eq hb1, Res.andThen_ok, M.bind_apply, M.modify_apply, Res.andThen_ok] at hm
      rw [getPrevOffset_eq (hr1.base hb1), Res.andThen_ok, M.bind_apply, M.modify_apply, Res.andThen_ok]
      cases hm
      refine ⟨_, rfl, ?_, hT1, .inr ⟨rfl, n1, ?_, ?_⟩, [], by rw [List.append_nil]; exact hv1, (fun w hw => by cases hw)⟩
      · obtain ⟨x, rfl, a1, a2, a3⟩ := hr1
        exact ⟨x, rfl, a1, a2, a3⟩
      · show t1.at_ = _; rw [e2]; rfl
      · show s1.depth = _; rw [e1]; rfl
    · rw [if_neg hx] at hm hR ⊢
      obtain ⟨t', k1, k2, k3, k4, k5, k6⟩ := fin hr1 hb1 hI1 ht1 hT1 hm hR
      rw [hv1] at k6
      exact ⟨t', k1, k2, by rw [k4]; exact k3, .inl ⟨k4, k5⟩, k6⟩
  · rw [if_neg hc] at hm hR ⊢
    obtain ⟨t', k1, k2, k3, k4, k5, k6⟩ := fin hr hb hI hcnt hT hm hR
    exact ⟨t', k1, k2, by rw [k4]; exact k3, .inl ⟨k4, k5⟩, k6⟩

end Scoped
end Parser
end GoVtd
