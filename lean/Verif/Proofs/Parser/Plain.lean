import Verif.Proofs.Parser.Grow
import Verif.Props.Tags
import Verif.Spec.Plain

/-!
# Namespace awareness on a document without prefixes

`PR f n s t`: `s` is a state of a parse without namespace awareness, `t` the same state of a namespace-aware
parse whose namespace buffers are `n`.
-/

namespace GoVtd
namespace Parser
namespace Plain
open Paged Grammar Two Ev

/-- The namespace-aware state for `s`. -/
def aware (f : Nat) (n : ParserNs) (s : Parser) : Parser :=
  { s with cfg := { s.cfg with nsAware := true, matchFuel := f }, ns := n }

structure PR (f : Nat) (n : ParserNs) (s t : Parser) : Prop where
  eq : t = aware f n s
  off : s.cfg.nsAware = false
  enc : s.enc = stdEnc
  elem : s.at_.currentElementRecord = 0
  count : s.at_.prefixedAttCount = 0
  xml : s.at_.isXml = false

variable {f : Nat} {n n' : ParserNs} {s t : Parser} {c : ParserCfg}

theorem onRd_pr {α : Type} (m : M Reader α) : Sim (PR f n) False False (onRd m) (onRd m) := by
  rintro s t ⟨rfl, h1, h2, h3, h4, h5⟩
  simp only [onRd, M.zoom_apply]
  have e : (aware f n s).rd = s.rd := rfl
  rw [e]
  cases hr : m s.rd with
  | ok a r => exact ⟨_, rfl, ⟨rfl, h1, h2, h3, h4, h5⟩⟩
  | err e r => exact .inr ⟨_, rfl, ⟨rfl, h1, h2, h3, h4, h5⟩⟩
  | panic => exact .inr rfl
  | diverge => trivial

theorem pr_nice : Nice (PR f n) False where
  same := by
    rintro s t ⟨rfl, h1, h2, h3, h4, h5⟩
    constructor <;> first | rfl | exact Nat.le_refl _ | (simp only [encodingFixed, aware, h2]; rfl)
  put := by
    rintro s t ⟨rfl, h1, h2, h3, h4, h5⟩
    intros
    exact ⟨rfl, h1, h2, h3, h4, h5⟩
  seek := by
    rintro s t ⟨rfl, h1, h2, h3, h4, h5⟩ o
    exact ⟨rfl, h1, h2, h3, h4, h5⟩
  xml := by
    rintro s t ⟨rfl, h1, h2, h3, h4, h5⟩
    exact ⟨rfl, h1, h2, h3, h4, rfl⟩
  docByte i := by
    refine Sim.bind_get fun s t h => ?_
    obtain ⟨rfl, -⟩ := h
    exact Sim.index _ _
  getChar := onRd_pr _
  skipChar c := onRd_pr _
  skipCharSeq l := onRd_pr _

/-- A successful run on the left has one on the right with the same value. -/
theorem sim_ok' {α : Type} {m m' : M Parser α} (h : Sim (PR f n) False False m m') {a : α} {s' : Parser} (hr : PR f n s t)
    (hm : m s = .ok a s') : ∃ t', m' t = .ok a t' ∧ PR f n s' t' := by
  have := h s t hr
  rw [hm] at this
  exact this

/-! ## The buffers -/

/-- A first namespace buffer with full pages of 64 entries, all of them `v`. -/
structure B1 (v : BitVec 32) (b : FastIntBuffer) : Prop where
  exp : b.exp = 6
  r : b.r = 63
  page : b.pageSize = 64
  cap : b.capacity = 64 * (b.buffer.length : Int)
  size0 : 0 ≤ b.size
  size1 : b.size ≤ b.capacity
  empty : b.size = 0 → b.buffer = []
  all : ∀ pg ∈ b.buffer, ∀ x ∈ pg, x = v
  first : ∀ pg rest, b.buffer = pg :: rest → 64 ≤ pg.length ∨ b.size ≤ pg.length

structure N (n : ParserNs) : Prop where
  b1 : B1 (-1#32) n.nsBuffer1
  b2 : n.nsBuffer2.size = 0
  b3 : n.nsBuffer3.size = 0

theorem setAt_some {α : Type} {l : List α} {i : Int} (h0 : 0 ≤ i) (h : i.toNat < l.length) (x : α) :
    setAt l i x = some (l.set i.toNat x) := by
  unfold setAt
  rw [if_neg (by omega)]

theorem append_b1 {v : BitVec 32} {b : FastIntBuffer} (h : B1 v b) :
    ∃ b', Paged.append v b = .ok () b' ∧ B1 v b' ∧ b'.size = b.size + 1 := by
  have hc := h.cap
  have hs0 := h.size0
  have hs1 := h.size1
  by_cases hlt : b.size < b.capacity
  · have hpos : 1 ≤ b.size := by
      rcases Int.lt_or_eq_of_le hs0 with h' | h'
      · omega
      · have := h.empty h'.symm
        rw [this] at hc; simp at hc; omega
    have hpn : b.pageNum b.size = b.size / 64 := by simp [pageNum, h.exp]
    have hn0 : 0 ≤ b.size / 64 := by omega
    have hn1 : b.size / 64 < b.buffer.length := by omega
    have hn2 : b.size / 64 < b.size := by omega
    have hget : Paged.get (b.pageNum b.size) b = .ok (b.buffer[(b.size / 64).toNat]'(by omega)) b := by
      rw [hpn]
      simp only [Paged.get, M.bind_apply, M.get_apply, Res.andThen_ok, M.ite_apply]
      rw [if_neg (by omega), M.index_of_lt _ _ _ hn0 (by omega)]
    generalize hpg : (b.buffer[(b.size / 64).toNat]'(by omega)) = pg at hget
    have hpgm : pg ∈ b.buffer := by rw [← hpg]; exact List.getElem_mem _
    refine ⟨{ b with size := b.size + 1, buffer := b.buffer.set (b.size / 64).toNat (pg ++ [v]) }, ?_, ?_, rfl⟩
    · simp only [Paged.append, M.bind_apply, M.get_apply, Res.andThen_ok, M.ite_apply]
      rw [if_pos hlt, hget]
      simp only [Res.andThen_ok, M.modify_apply, Paged.set, M.bind_apply, M.get_apply, M.ite_apply]
      rw [hpn, if_neg (by omega), setAt_some hn0 (by omega)]
      rfl
    · refine ⟨h.exp, h.r, h.page, ?_, ?_, ?_, ?_, ?_, ?_⟩
      · simpa using hc
      · show 0 ≤ b.size + 1; omega
      · show b.size + 1 ≤ b.capacity; omega
      · intro h'; have h' : b.size + 1 = 0 := h'; omega
      · intro q hq x hx
        rcases List.mem_or_eq_of_mem_set hq with hq | rfl
        · exact h.all q hq x hx
        · rcases List.mem_append.mp hx with hx | hx
          · exact h.all pg hpgm x hx
          · exact List.mem_singleton.mp hx
      · intro q rest hq
        show 64 ≤ q.length ∨ b.size + 1 ≤ q.length
        cases hb : b.buffer with
        | nil => rw [hb] at hn1; simp at hn1; omega
        | cons p0 r0 =>
          have hf := h.first p0 r0 hb
          by_cases h0 : (b.size / 64).toNat = 0
          · have hq' : q = pg ++ [v] := by
              simp only [hb, h0, List.set_cons_zero, List.cons.injEq] at hq
              exact hq.1.symm
            have : pg = p0 := by rw [← hpg]; simp only [h0, hb, List.getElem_cons_zero]
            rw [hq', this, List.length_append, List.length_singleton]
            omega
          · obtain ⟨k, hk⟩ : ∃ k, (b.size / 64).toNat = k + 1 := ⟨(b.size / 64).toNat - 1, by omega⟩
            simp only [hb, hk, List.set_cons_succ, List.cons.injEq] at hq
            rw [← hq.1]
            omega
  · refine ⟨{ b with size := b.size + 1, capacity := b.capacity + b.pageSize, buffer := b.buffer ++ [[v]] }, ?_, ?_, rfl⟩
    · simp only [Paged.append, M.bind_apply, M.get_apply, Res.andThen_ok, M.ite_apply]
      rw [if_neg hlt]
      rfl
    · refine ⟨h.exp, h.r, h.page, ?_, ?_, ?_, ?_, ?_, ?_⟩
      · show b.capacity + b.pageSize = 64 * ((b.buffer ++ [[v]]).length : Int)
        rw [h.page, hc, List.length_append, List.length_singleton]; omega
      · show 0 ≤ b.size + 1; omega
      · show b.size + 1 ≤ b.capacity + b.pageSize; rw [h.page]; omega
      · intro h'; have h' : b.size + 1 = 0 := h'; omega
      · intro q hq x hx
        rcases List.mem_append.mp hq with hq | hq
        · exact h.all q hq x hx
        · rw [List.mem_singleton.mp hq] at hx; exact List.mem_singleton.mp hx
      · intro q rest hq
        show 64 ≤ q.length ∨ b.size + 1 ≤ q.length
        cases hb : b.buffer with
        | nil =>
          simp only [hb, List.nil_append, List.cons.injEq] at hq
          rw [hb] at hc
          rw [← hq.1]
          simp at hc ⊢
          omega
        | cons p0 r0 =>
          have hf := h.first p0 r0 hb
          simp only [hb, List.cons_append, List.cons.injEq] at hq
          rw [hb] at hc
          simp only [List.length_cons] at hc
          rw [← hq.1]
          omega

theorem cut_b1 {v : BitVec 32} {b : FastIntBuffer} (h : B1 v b) {d : Int} (h1 : 1 ≤ d) (h64 : d ≤ 64) (hd : d ≤ b.size - 1) :
    Paged.intAt (d - 1) (b.setSize d) = .ok v (b.setSize d) ∧ B1 v (b.setSize d) := by
  have hc := h.cap
  have hs1 := h.size1
  cases hb : b.buffer with
  | nil => rw [hb] at hc; simp at hc; omega
  | cons p0 r0 =>
    have hf := h.first p0 r0 hb
    have hlen : (d - 1).toNat < p0.length := by omega
    constructor
    · have hpn : (b.setSize d).pageNum (d - 1) = 0 := by
        simp only [pageNum, setSize, h.exp]; omega
      have hpo : (b.setSize d).pageOffset (d - 1) = (d - 1).toNat := by
        simp only [pageOffset, setSize, h.r]
        rw [show (63 : Int).toNat = 2 ^ 6 - 1 by decide, Nat.and_two_pow_sub_one_eq_mod]
        omega
      have hget : Paged.get 0 (b.setSize d) = .ok p0 (b.setSize d) := by
        simp only [Paged.get, M.bind_apply, M.get_apply, Res.andThen_ok, M.ite_apply]
        rw [if_neg (by simp only [setSize]; omega)]
        simp only [setSize, hb]
        rfl
      simp only [intAt, atWith, M.bind_apply, M.get_apply, Res.andThen_ok, M.catchErr_apply, hpn, hget, Res.handle, M.ite_apply, hpo]
      rw [if_neg (by omega), M.index_of_lt _ _ _ (by omega) (by omega)]
      simp only [Int.toNat_natCast]
      rw [h.all p0 (by rw [hb]; simp) _ (List.getElem_mem _)]
    · refine ⟨h.exp, h.r, h.page, hc, ?_, ?_, ?_, h.all, ?_⟩
      · show 0 ≤ d; omega
      · show d ≤ b.capacity; omega
      · intro h'; have h' : d = 0 := h'; omega
      · intro q rest hq
        have := h.first q rest hq
        show 64 ≤ q.length ∨ d ≤ q.length
        omega

/-! ## A start tag -/

theorem lastColon_pos {i a : Nat} (ha : 0 < a) (hi : 0 < i) (l : List UInt8) : 0 < lastColon i a l := by
  induction l generalizing i a with
  | nil => exact ha
  | cons b l ih =>
    simp only [lastColon]
    split
    · exact ih hi (by omega)
    · exact ih ha (by omega)

theorem startTagLoop_pr {a b : Nat} (hab : a ≤ b) {i : Nat} {s1 : Parser} {u : Unit} (hb : Base c s) (hr : PR f n s t)
    (ho : s.rd.offset = s.lastOffset + ((i + 1 : Nat) : Int)) (hl : s.length2 = 0) (hm : startTagLoop a s = .ok u s1)
    (h0 : s1.length2 = 0) : ∃ t1, startTagLoop b t = .ok u t1 ∧ PR f n s1 t1 := by
  induction a generalizing b i s t with
  | zero => cases hm
  | succ a ih =>
    obtain ⟨b, rfl⟩ : ∃ k, b = k + 1 := ⟨b - 1, by omega⟩
    simp only [startTagLoop] at hm ⊢
    obtain ⟨_, s', hn, hm⟩ := bind_ok hm
    obtain ⟨t', hnt, hr'⟩ := sim_ok' (nextChar_sim pr_nice) hr hn
    obtain ⟨x, hs', hb', -, -⟩ := (nextChar_byte hb).eq hn
    have e1 := (pr_nice.same hr').currentChar
    rw [M.bind_apply, hnt, Res.andThen_ok]
    simp only [M.bind_apply, M.get_apply, Res.andThen_ok, e1, M.ite_apply] at hm ⊢
    by_cases hx : isNameChar s'.currentChar = true
    · rw [if_pos hx] at hm ⊢
      by_cases hc : s'.currentChar = ch% ':'
      · rw [if_pos hc] at hm
        exfalso
        have hp : Post ((do
            let p ← M.get
            let bad ← (pure p.cfg.nsAware &&! checkXmlnsPrefix p.lastOffset p.length2 true)
            if bad then parseErr "XMLNS cannot be element prefix" else startTagLoop a : M Parser Unit)
            { s' with length2 := s'.offset - s'.lastOffset - s'.enc.increment }) fun _ s1 => s1.length2 ≠ 0 := by
          refine Post.get (Post.bind (eq_post (Fr.and eq_pre (Fr.pure eq_pre _) (checkXmlnsPrefix_fr eq_pre _ _ _))) ?_)
          rintro bad p' rfl
          refine Post.ite (fun _ => post_err _) fun _ => ?_
          refine (startTagLoop_post (c := c) (by exact hb')).mono ?_
          rintro _ p' ⟨l, r, x, run, rfl, -, -, -, -, -, -, -, hlc⟩
          have hinc := hb.inc
          have hlc := hlc (i + 2) (i + 1) (by rw [hs']; simp [hinc]; omega) (by rw [hs']; simp; omega)
          have := lastColon_pos (i := i + 2) (a := i + 1) (by omega) (by omega) run
          show l ≠ 0
          omega
        refine hp.eq (a := u) (s := s1) ?_ h0
        rw [← hm]
        rfl
      · rw [if_neg hc] at hm ⊢
        exact ih (by omega) hb' hr' (i := i + 1) (by rw [hs']; simp; omega) (by rw [hs']; exact hl) hm
    · rw [if_neg hx] at hm ⊢
      cases hm
      exact ⟨t', rfl, hr'⟩

/-- `startTagEnd` after the test for `/`. -/
def tagClose : M Parser PState := do
  let p ← M.get
  if p.currentChar = ch% '>' then do
    if p.cfg.nsAware then do
      pushNs1
      if p.at_.currentElementRecord ≠ 0 then qualifyElement else pure ()
    else pure ()
    processElementTail
  else parseErr "invalid char in starting tag"

theorem pushNs1_pr (hr : PR f n s t) (hN : N n) :
    ∃ n', pushNs1 t = .ok () (aware f n' s) ∧ N n' ∧ n'.nsBuffer1.size = n.nsBuffer1.size + 1 := by
  obtain ⟨rfl, -⟩ := hr
  obtain ⟨b', h1, h2, h3⟩ := append_b1 hN.b1
  refine ⟨{ n with nsBuffer1 := b' }, ?_, ⟨h2, hN.b2, hN.b3⟩, h3⟩
  have e : BitVec.ofInt 32 (n.nsBuffer3.getSize - 1) = -1#32 := by rw [getSize, hN.b3]; rfl
  simp only [pushNs1, M.bind_apply, M.get_apply, Res.andThen_ok, onNs1, M.zoom_apply]
  show Res.zoom _ _ (Paged.append (BitVec.ofInt 32 (n.nsBuffer3.getSize - 1)) n.nsBuffer1) = _
  rw [e, h1]
  rfl

theorem PR.to (hr : PR f n s t) (n' : ParserNs) : PR f n' s (aware f n' s) :=
  ⟨rfl, hr.off, hr.enc, hr.elem, hr.count, hr.xml⟩

theorem tagClose_pr (hr : PR f n s t) (hN : N n) {st : PState} {q : Parser} (hm : tagClose s = .ok st q) :
    ∃ t' n', tagClose t = .ok st t' ∧ PR f n' q t' ∧ N n' := by
  have e := (pr_nice.same hr).currentChar
  have e1 : t.cfg.nsAware = true := by rw [hr.eq]; rfl
  have e2 : t.at_.currentElementRecord = 0 := by rw [hr.eq]; exact hr.elem
  simp only [tagClose, M.bind_apply, M.get_apply, Res.andThen_ok, M.ite_apply, e, hr.off, e1, if_true] at hm ⊢
  by_cases hc : s.currentChar = ch% '>'
  · rw [if_pos hc] at hm ⊢
    rw [if_neg (by simp)] at hm
    obtain ⟨n', h1, h2, -⟩ := pushNs1_pr hr hN
    rw [h1]
    simp only [Res.andThen_ok, e2, ne_eq, not_true_eq_false, if_false, M.pure_apply]
    obtain ⟨t', h3, h4⟩ := sim_ok' (processElementTail_sim pr_nice) (hr.to n') hm
    exact ⟨t', n', h3, h4, h2⟩
  · rw [if_neg hc] at hm
    have := (post_err (p := s) (Q := fun _ _ => False) "invalid char in starting tag").eq hm
    exact this.elim

theorem startTagEnd_pr (hr : PR f n s t) (hN : N n) {st : PState} {q : Parser} (hm : startTagEnd s = .ok st q) :
    ∃ t' n', startTagEnd t = .ok st t' ∧ PR f n' q t' ∧ N n' := by
  have hs : Sim (PR f n) False False (do
      M.modify fun p => { p with helper := true }
      let p ← M.get
      if p.currentChar = ch% '/' then do
        M.modify fun p => { p with depth := p.depth - 1, helper := false }
        let ch ← getChar
        M.modify fun p => { p with currentChar := ch }
      else pure () : M Parser Unit) (do
      M.modify fun p => { p with helper := true }
      let p ← M.get
      if p.currentChar = ch% '/' then do
        M.modify fun p => { p with depth := p.depth - 1, helper := false }
        let ch ← getChar
        M.modify fun p => { p with currentChar := ch }
      else pure () : M Parser Unit) := by
    have hR := pr_nice (f := f) (n := n)
    sim hR
  have e : startTagEnd = (do
      (do
        M.modify fun p => { p with helper := true }
        let p ← M.get
        if p.currentChar = ch% '/' then do
          M.modify fun p => { p with depth := p.depth - 1, helper := false }
          let ch ← getChar
          M.modify fun p => { p with currentChar := ch }
        else pure () : M Parser Unit)
      tagClose) := by
    funext s
    simp only [startTagEnd, tagClose, M.bind_apply, M.modify_apply, M.get_apply, Res.andThen_ok, M.ite_apply]
    split
    · cases getChar { s with helper := false, depth := s.depth - 1 } <;> rfl
    · simp only [M.pure_apply, Res.andThen_ok, M.bind_apply, M.get_apply, M.ite_apply]
  rw [e] at hm ⊢
  obtain ⟨u, s', h1, h2⟩ := bind_ok hm
  obtain ⟨t', h3, h4⟩ := sim_ok' hs hr h1
  obtain ⟨t'', n', h5, h6, h7⟩ := tagClose_pr h4 hN h2
  refine ⟨t'', n', ?_, h6, h7⟩
  rw [M.bind_apply, h3, Res.andThen_ok, h5]

theorem startTagNs_pr (hr : PR f n s t) (hN : N n) (hl : s.length2 = 0) (hd : s.depth ≤ 64)
    (hd0 : 0 ≤ s.depth) (h1 : n.nsBuffer1.size ≠ 0 → 1 ≤ s.depth) :
    ∃ n', startTagNs t = .ok () (aware f n' s) ∧ N n' := by
  obtain ⟨rfl, -, -, helem, -⟩ := hr
  have e0 : ({ aware f n s with at_ := { (aware f n s).at_ with currentElementRecord := 0 } } : Parser) = aware f n s := by
    have : ({ s.at_ with currentElementRecord := 0 } : ParserAttr) = s.at_ := by rw [← helem]
    simp only [aware]
    rw [this]
  have e1 : (aware f n s).cfg.nsAware = true := rfl
  have e2 : ¬ ((aware f n s).length2 ≠ 0) := by
    intro h; exact h hl
  simp only [startTagNs, M.bind_apply, M.get_apply, Res.andThen_ok, e1, if_true, e2, if_false, M.ite_apply, M.modify_apply, e0]
  have hs0 := hN.b1.size0
  by_cases hc : s.depth ≤ n.nsBuffer1.size - 1
  · rw [if_pos (by exact hc)]
    have hd1 := h1 (by omega)
    obtain ⟨h2, h3⟩ := cut_b1 hN.b1 hd1 hd hc
    refine ⟨{ nsBuffer1 := n.nsBuffer1.setSize s.depth, nsBuffer2 := n.nsBuffer2.setSize 0,
              nsBuffer3 := n.nsBuffer3.setSize 0 }, ?_, ⟨h3, rfl, rfl⟩⟩
    simp only [onNs1, M.zoom_apply]
    show (Res.zoom _ _ (Paged.intAt (s.depth - 1) (n.nsBuffer1.setSize s.depth))).andThen _ = _
    rw [h2]
    rfl
  · rw [if_neg (by exact hc)]
    exact ⟨n, rfl, hN⟩

end Plain
end Parser
end GoVtd
