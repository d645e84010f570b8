import Verif.Proofs.Parser.Rooted

/-!
# A start tag of a document that declares its prefixes at the root
-/

namespace GoVtd
namespace Parser
namespace Rooted
open Paged Grammar Two Ev Plain Sound

variable {f : Nat} {x : Ext} {s t p p' : Parser} {c : ParserCfg} {D : List UInt8} {V V' ws ds : List (BitVec 64)} {w : BitVec 64}
  {st st' : PState} {o0 : ParserOut} {es : List Mark} {stk : List (Nat × Nat)} {recs : List Rec}

/-- A declaration of a prefix, as the parser sees it. -/
def IsDecl (D : List UInt8) (w : BitVec 64) : Prop := tokenType w = Token.attrNs.code ∧ colonAt D w ≠ 0

instance (D : List UInt8) (w : BitVec 64) : Decidable (IsDecl D w) := by unfold IsDecl; infer_instance

/-- The declarations among the records. -/
def decls (D : List UInt8) (V : List (BitVec 64)) : List (BitVec 64) := V.filter fun w => IsDecl D w

theorem decls_append : decls D (V ++ ws) = decls D V ++ decls D ws := List.filter_append ..

theorem decls_nil (h : ∀ w ∈ ws, tokenType w ≠ Token.attrNs.code) : decls D ws = [] :=
  List.filter_eq_nil_iff.mpr fun w hw hd => h w hw (of_decide_eq_true hd).1

theorem decls_quiet (h : ∀ w ∈ ws, tokenType w ≠ Token.attrNs.code) : decls D (V ++ ws) = decls D V := by
  rw [decls_append, decls_nil h, List.append_nil]

/-- The tables after the records `V`; `pend` is 1 between a declaration and its value. -/
structure Tab (D : List UInt8) (V : List (BitVec 64)) (pend : Nat) (n : ParserNs) : Prop where
  b1 : B1 (BitVec.ofInt 32 ((decls D V).length - 1)) n.nsBuffer1
  b2 : ∃ ys, n.nsBuffer2 = fill 6 ys ∧ ys.length + pend = (decls D V).length
  b3 : Table D (decls D V) n.nsBuffer3

theorem Tab.to {n : ParserNs} {k : Nat} (h : Tab D V k n) (he : decls D V' = decls D V) : Tab D V' k n := by
  obtain ⟨h1, h2, h3⟩ := h
  constructor <;> rw [he]
  · exact h1
  · exact h2
  · exact h3

theorem Tab.quiet {n : ParserNs} {k : Nat} (h : Tab D V k n) (hq : ∀ w ∈ ws, tokenType w ≠ Token.attrNs.code) : Tab D (V ++ ws) k n :=
  h.to (decls_quiet hq)

/-- The name of an element: with a colon it is one colon, and the prefix is not one that the parser refuses. -/
def GoodName (n : List UInt8) : Prop := ∀ i : Nat, n[i]? = some (ch% ':') → ch% ':' ∉ n.take i ∧
  ¬ (str% "xmlns" <+: n.take i ∧ (i = 5 ∨ i = 10))

/-- What holds of every beginning of the records. -/
structure Part (D : List UInt8) (V : List (BitVec 64)) : Prop where
  level : ∀ w ∈ V, IsStart w → tokenDepth w ≤ 64
  elem : ∀ w ∈ V, IsStart w → ∃ n, n ≠ [] ∧ ElementName D w n ∧ GoodName n
  decl : ∀ w ∈ V, tokenType w = Token.attrNs.code → ch% ':' ∉ qname D w ∨
    tokenDepth w = 0 ∧ ∃ p, Declares D w p ∧ p ≠ str% "xml" ∧ p ≠ str% "xmlns"
  value : ∀ (i : Nat) (w v : BitVec 64), V[i]? = some w → V[i + 1]? = some v → tokenType w = Token.attrNs.code →
    (ch% ':' ∈ qname D w → 0 < tokenLength v) ∧ (29 ≤ tokenLength v → D[tokenOffset v]? ≠ some (ch% '&'))
  few : (decls D V).length ≤ 64

theorem Part.cut (h : Part D (V ++ ws)) : Part D V := by
  refine ⟨fun w hw => h.level w (List.mem_append_left _ hw), fun w hw => h.elem w (List.mem_append_left _ hw),
    fun w hw => h.decl w (List.mem_append_left _ hw), ?_, ?_⟩
  · intro i w v hw hv
    exact h.value i w v (by rw [List.getElem?_append_left (lt_of_some hw)]; exact hw) (by rw [List.getElem?_append_left (lt_of_some hv)]; exact hv)
  · have := h.few
    rw [decls_append, List.length_append] at this
    omega

/-- What holds when the start tag that has been read last is closed. -/
def Ready (D : List UInt8) (V : List (BitVec 64)) : Prop := ∀ A w0 B, V = A ++ w0 :: B → IsStart w0 → (∀ w ∈ B, ¬ IsStart w) →
  (∀ w ∈ B, Pfx D w → ∃ d ∈ V, Declares D d (prefixOf D w)) ∧
  (∃ n, n ≠ [] ∧ ElementName D w0 n ∧ (lastColon 0 0 n ≠ 0 →
    n.take (lastColon 0 0 n) = str% "xml" ∨ ∃ d ∈ V, Declares D d (n.take (lastColon 0 0 n)))) ∧
  (B.filter fun w => Pfx D w).Pairwise fun w z => localOf D w ≠ localOf D z

theorem Ready.cut (h : Ready D (V ++ ws)) (hq : ∀ w ∈ ws, ¬ IsStart w ∧ tokenType w ≠ Token.attrName.code ∧ tokenType w ≠ Token.attrNs.code) :
    Ready D V := by
  intro A w0 B hV h0 hB
  have keep : ∀ {p}, (∃ d ∈ V ++ ws, Declares D d p) → ∃ d ∈ V, Declares D d p := by
    rintro p ⟨d, hd, hp⟩
    rcases List.mem_append.mp hd with hd | hd
    · exact ⟨d, hd, hp⟩
    · exact absurd hp.type (hq d hd).2.2
  obtain ⟨h1, ⟨n, h2, h3, h4⟩, h5⟩ := h A w0 (B ++ ws) (by rw [hV, List.append_assoc, List.cons_append]) h0 (fun w hw => by
    rcases List.mem_append.mp hw with hw | hw
    · exact hB w hw
    · exact (hq w hw).1)
  refine ⟨fun w hw hp => keep (h1 w (List.mem_append_left _ hw) hp), ⟨n, h2, h3, fun hc => (h4 hc).imp id keep⟩, ?_⟩
  rw [List.filter_append] at h5
  exact (List.pairwise_append.mp h5).1

theorem mem_decls {d : BitVec 64} {q : List UInt8} (hd : d ∈ V) (hq : Declares D d q) : d ∈ decls D V ∧ localOf D d = q := by
  obtain ⟨h1, h2⟩ := declares_colon hq
  exact ⟨List.mem_filter.mpr ⟨hd, decide_eq_true ⟨hq.type, h1⟩⟩, h2.symm⟩

/-! ## The change of the fields of a namespace-aware parse -/

/-- Only the fields of the namespaces differ. -/
structure NsOnly (t t' : Parser) : Prop where
  eq : ∃ n r k l u, t' = ({ t with
    ns := n, at_ := { t.at_ with currentElementRecord := r, prefixedAttCount := k, prefixedAttrNameSlice := l, prefixUrlSlice := u } } : Parser)

theorem RR.ns (h : RR f s t) {t' : Parser} (hn : NsOnly t t') : RR f s t' := by
  obtain ⟨n, r, k, l, u, rfl⟩ := hn
  obtain ⟨x, rfl, h1, h2, h3⟩ := h
  exact ⟨⟨n, r, k, l, u⟩, rfl, h1, h2, h3⟩

theorem RR.out (h : RR f s t) : t.out = s.out := h.same.out
theorem RR.vals (h : RR f s t) : vals t = vals s := by rw [Sound.vals, h.out]

/-- The configuration of the namespace-aware parse. -/
abbrev aw (f : Nat) (c : ParserCfg) : ParserCfg := { c with nsAware := true, matchFuel := f }

theorem RR.base (h : RR f s t) (hb : Base c s) : Base (aw f c) t := by
  obtain ⟨x, rfl, h1, h2, h3⟩ := h
  obtain rfl := hb.cfg
  exact { hb with cfg := rfl }

/-! ## The name -/

theorem startTagLoop_rr {a b : Nat} (hab : a ≤ b) {i : Nat} {s1 : Parser} {u : Unit} {n r : List UInt8} {y : UInt8} (hb : Base c s)
    (hr : RR f s t) (ho : s.rd.offset = s.lastOffset + (i : Int)) (h0 : 0 ≤ s.lastOffset) (hd : c.xmlDoc.drop s.lastOffset.toNat = n ++ y :: r)
    (hy : ¬ NameByte y) (hi : i ≤ n.length) (hg : GoodName n) (hm : startTagLoop a s = .ok u s1) :
    ∃ t1, startTagLoop b t = .ok u t1 ∧ RR f s1 t1 ∧ t1.ns = t.ns ∧ t1.at_ = t.at_ := by
  induction a generalizing b i s t with
  | zero => cases hm
  | succ a ih =>
    obtain ⟨b, rfl⟩ : ∃ k, b = k + 1 := ⟨b - 1, by omega⟩
    simp only [startTagLoop] at hm ⊢
    obtain ⟨_, s', hn, hm⟩ := bind_ok hm
    obtain ⟨t', hnt, hr', hns, -⟩ := sim_ok' (fun x => nextChar_sim (rx_nice (x := x))) hr hn
    obtain ⟨z, hs', hb', -, hz⟩ := (nextChar_byte hb).eq hn
    obtain ⟨z', ht', hbt', -, -⟩ := (nextChar_byte (hr.base hb)).eq hnt
    have hat : t'.at_ = t.at_ := by rw [ht']; rfl
    have e1 := hr'.same.currentChar
    have hinc := hb.inc
    have hzc : s'.currentChar = z.toNat := by rw [hs']; rfl
    have hz2 : (n ++ y :: r)[i]? = some z := by
      rw [← hd, List.getElem?_drop, ← hz]; congr 1; omega
    have hlo : s'.lastOffset = s.lastOffset := by rw [hs']; rfl
    have hro : s'.rd.offset = s'.lastOffset + ((i + 1 : Nat) : Int) := by rw [hs']; simp; omega
    have hof : s'.offset = s.lastOffset + ((i + 1 : Nat) : Int) := by rw [hs']; simp; omega
    have hinc' : s'.enc.increment = 1 := hb'.inc
    rw [M.bind_apply, hnt, Res.andThen_ok]
    simp only [M.bind_apply, M.get_apply, Res.andThen_ok, e1, M.ite_apply] at hm ⊢
    by_cases hx : isNameChar s'.currentChar = true
    · rw [if_pos hx] at hm ⊢
      have hlt : i < n.length := Decidable.byContradiction fun hh => by
        have : i = n.length := by omega
        rw [this, List.getElem?_append_right (Nat.le_refl _), Nat.sub_self] at hz2
        simp only [List.getElem?_cons_zero, Option.some.injEq] at hz2
        rw [hzc, ← hz2] at hx
        exact hy ((isNameChar_iff _).mp hx)
      rw [List.getElem?_append_left hlt] at hz2
      by_cases hc : s'.currentChar = ch% ':'
      · rw [if_pos hc] at hm ⊢
        have hz3 : z = ch% ':' := by
          rw [hzc] at hc; exact UInt8.toNat_inj.mp hc
        rw [hz3] at hz2
        obtain ⟨g1, g2⟩ := hg i hz2
        rw [M.modify_apply, Res.andThen_ok] at hm ⊢
        have hr2 : RR f { s' with length2 := s'.offset - s'.lastOffset - s'.enc.increment }
            { t' with length2 := t'.offset - t'.lastOffset - t'.enc.increment } := by
          obtain ⟨x, rfl, k1, k2, k3⟩ := hr'
          exact ⟨x, rfl, k1, k2, k3⟩
        have hbt : Base (aw f c) { t' with length2 := t'.offset - t'.lastOffset - t'.enc.increment } := hbt'
        have hl2 : t'.offset - t'.lastOffset - t'.enc.increment = i := by
          have a1 := hr'.same.offset
          have a2 := hr'.same.lastOffset
          have a3 : t'.enc.increment = 1 := hbt'.inc
          omega
        have hlt' : t'.lastOffset = s.lastOffset := by rw [hr'.same.lastOffset, hlo]
        generalize hq2 : ({ s' with length2 := s'.offset - s'.lastOffset - s'.enc.increment } : Parser) = s2 at *
        generalize hq3 : ({ t' with length2 := t'.offset - t'.lastOffset - t'.enc.increment } : Parser) = t2 at *
        have hb2 : Base c s2 := by rw [← hq2]; exact hb'
        have c1 : (pure s2.cfg.nsAware &&! checkXmlnsPrefix s2.lastOffset s2.length2 true) s2 = .ok false s2 := by
          rw [hr2.off]; rfl
        have ht2 : t2.length2 = i := by rw [← hq3]; exact hl2
        have htl : t2.lastOffset = s.lastOffset := by rw [← hq3]; exact hlt'
        have c2 : (pure t2.cfg.nsAware &&! checkXmlnsPrefix t2.lastOffset t2.length2 true) t2 = .ok false t2 := by
          rw [hr2.on]
          show checkXmlnsPrefix t2.lastOffset t2.length2 true t2 = _
          rw [checkXmlns_upto hbt (a := n.take i) (y := ch% ':') (r := n.drop (i + 1) ++ y :: r) (by omega) ?_ (by decide)]
          · congr 1
            rw [decide_eq_false_iff_not]
            rintro ⟨h1, h2⟩
            refine g2 ⟨h1, ?_⟩
            have := h2 rfl
            omega
          · rw [htl]
            show c.xmlDoc.drop _ = _
            rw [hd]
            have h1 := List.getElem_eq_iff (h := hlt) |>.mpr hz2
            rw [← List.cons_append, ← List.append_assoc, ← h1, List.getElem_cons_drop hlt, List.take_append_drop]
        rw [M.bind_apply, M.get_apply, Res.andThen_ok, M.bind_apply, c1, Res.andThen_ok] at hm
        rw [M.bind_apply, M.get_apply, Res.andThen_ok, M.bind_apply, c2, Res.andThen_ok]
        simp only [Bool.false_eq_true, if_false] at hm ⊢
        have hlo2 : s2.lastOffset = s.lastOffset := by rw [← hq2]; exact hlo
        obtain ⟨t1, k1, k2, k3, k4⟩ := ih (b := b) (by omega) hb2 hr2 (i := i + 1) (by rw [← hq2]; exact hro) (by omega) (by rw [hlo2]; exact hd) (by omega) hm
        exact ⟨t1, k1, k2, by rw [k3, ← hq3]; exact hns, by rw [k4, ← hq3]; exact hat⟩
      · rw [if_neg hc] at hm ⊢
        obtain ⟨t1, k1, k2, k3, k4⟩ := ih (b := b) (by omega) hb' hr' hro (by omega) (by rw [hlo]; exact hd) (by omega) hm
        exact ⟨t1, k1, k2, k3.trans hns, k4.trans hat⟩
    · rw [if_neg hx] at hm ⊢
      cases hm
      exact ⟨t', rfl, hr', hns, hat⟩

/-! ## The tables at a start tag -/

theorem setSize_fill {xs : List (BitVec 64)} {k : Int} (h : k = xs.length) : (fill 6 xs).setSize k = fill 6 xs := by
  subst h; rfl

theorem count_succ {k : Nat} (h : k ≤ 64) : (BitVec.ofInt 32 ((k : Int) - 1) + 1#32).toInt = k := by
  have e : BitVec.ofInt 32 ((k : Int) - 1) + 1#32 = BitVec.ofInt 32 k := by
    rw [show (1#32 : BitVec 32) = BitVec.ofInt 32 1 from rfl, ← BitVec.ofInt_add]
    congr 1
    omega
  rw [e, BitVec.toInt_ofInt]
  apply Int.bmod_eq_of_le <;> omega

theorem startTagNs_rr (hr : RR f s t) (hT : Tab D V 0 t.ns) (hd : s.depth ≤ 64) (hd0 : 0 ≤ s.depth)
    (h1 : t.ns.nsBuffer1.size ≠ 0 → 1 ≤ s.depth) :
    ∃ t', startTagNs t = .ok () t' ∧ RR f { s with length2 := 0 } { t' with length2 := 0 } ∧ Tab D V 0 t'.ns ∧
      (t'.ns.nsBuffer1.size ≠ 0 → 1 ≤ s.depth) ∧ t'.at_.prefixedAttCount = t.at_.prefixedAttCount := by
  have rest : ∀ {u : Parser}, u.depth = s.depth → u.ns = t.ns → ∃ n, (do
      let p ← M.get
      if p.depth ≤ p.ns.nsBuffer1.getSize - 1 then do
        M.modify fun p => { p with ns := { p.ns with nsBuffer1 := p.ns.nsBuffer1.setSize p.depth } }
        let t ← onNs1 (Paged.intAt (p.depth - 1))
        M.modify fun p => { p with
          ns := { p.ns with nsBuffer2 := p.ns.nsBuffer2.setSize (t + 1#32).toInt,
                            nsBuffer3 := p.ns.nsBuffer3.setSize (t + 1#32).toInt } }
      else pure () : M Parser Unit) u = .ok () { u with ns := n } ∧ Tab D V 0 n ∧ (n.nsBuffer1.size ≠ 0 → 1 ≤ s.depth) := by
    intro u hu1 hu2
    have hs0 := hT.b1.size0
    obtain ⟨ys, hy, hyl⟩ := hT.b2
    have hfew := hT.b3.few
    rw [M.bind_apply, M.get_apply, Res.andThen_ok, M.ite_apply, hu1, hu2]
    by_cases hc : s.depth ≤ t.ns.nsBuffer1.size - 1
    · rw [if_pos (by exact hc)]
      have hd1 := h1 (by omega)
      obtain ⟨h2, h3⟩ := cut_b1 hT.b1 hd1 hd hc
      refine ⟨{ t.ns with nsBuffer1 := t.ns.nsBuffer1.setSize s.depth }, ?_, ⟨h3, hT.b2, hT.b3⟩, fun _ => hd1⟩
      rw [M.bind_apply, M.modify_apply, Res.andThen_ok, M.bind_apply]
      simp only [onNs1, M.zoom_apply, hu1, hu2, h2]
      simp only [Res.zoom, Res.andThen_ok, M.modify_apply, count_succ hfew]
      rw [hy, hT.b3.eq, setSize_fill (by omega), setSize_fill (by simp)]
    · rw [if_neg (by exact hc)]
      exact ⟨u.ns, by rw [← hu1]; rfl, by rw [hu2]; exact hT, by rw [hu2]; exact h1⟩
  have fin : ∀ {u : Parser} {l : Int} {r : BitVec 64}, u = { t with length2 := l, at_ := { t.at_ with currentElementRecord := r } } → ∀ n,
      RR f { s with length2 := 0 } { ({ u with ns := n } : Parser) with length2 := 0 } := by
    rintro u l r rfl n
    obtain ⟨x, rfl, a1, a2, a3⟩ := hr
    exact ⟨{ x with ns := n, elem := r }, rfl, a1, a2, a3⟩
  unfold startTagNs
  rw [M.bind_apply, M.get_apply, Res.andThen_ok, M.ite_apply, if_pos hr.on, M.ite_apply]
  split
  · rw [M.bind_apply, M.modify_apply, Res.andThen_ok]
    generalize hu : ({ t with
      length2 := t.length2 + t.enc.increment,
      at_ := { t.at_ with currentElementRecord := nsRecord (t.length2 + t.enc.increment) t.length1 t.lastOffset } } : Parser) = u
    obtain ⟨n, k1, k2, k3⟩ := rest (u := u) (by rw [← hu]; exact hr.same.depth) (by rw [← hu])
    exact ⟨_, k1, fin hu.symm n, k2, k3, by rw [← hu]⟩
  · rw [M.bind_apply, M.modify_apply, Res.andThen_ok]
    generalize hu : ({ t with at_ := { t.at_ with currentElementRecord := 0 } } : Parser) = u
    obtain ⟨n, k1, k2, k3⟩ := rest (u := u) (by rw [← hu]; exact hr.same.depth) (by rw [← hu])
    exact ⟨_, k1, fin (l := t.length2) hu.symm n, k2, k3, by rw [← hu]⟩

theorem startHead_rr {q : Parser} {uu : Unit} (h : G c o0 .tagStart s es stk recs) (hr : RR f s t) (hT : Tab c.xmlDoc (vals s) 0 t.ns)
    (hW : t.ns.nsBuffer1.size ≠ 0 → 1 ≤ s.depth) (hm : startHead s = .ok uu q) (hC : Part c.xmlDoc (vals q)) :
    ∃ t', startHead t = .ok () t' ∧ RR f q t' ∧ Tab c.xmlDoc (vals q) 0 t'.ns ∧ (t'.ns.nsBuffer1.size ≠ 0 → 1 ≤ q.depth) ∧
      (∃ w, vals q = vals s ++ [w] ∧ IsStart w) ∧ Base c q ∧ t'.at_.prefixedAttCount = t.at_.prefixedAttCount := by
  have hs := h.inv.slots
  have h0 := h.inv.start (by simp)
  obtain ⟨hn0, hn1, hn2⟩ := h.inv.name (by simp)
  have hk := h.k
  rw [if_pos rfl, if_pos rfl] at hk
  obtain ⟨k, hk4, hk0, hkq, hko, b0, hb0, hsb⟩ := h.tagS rfl
  have hsy := h.inv.sync (by simp)
  have hinc : s.enc.increment = 1 := h.inv.base.inc
  have he1 := h.inv.base.end1
  have he2 := h.inv.base.end2
  have hdep := hk.depth
  have hlen2 := hk.len2
  unfold startHead at hm ⊢
  rw [M.bind_apply, M.get_apply, Res.andThen_ok] at hm ⊢
  obtain ⟨u, s1, hL, hm⟩ := bind_ok (m := startTagLoop s.loopFuel) hm
  obtain ⟨l, r, x, run, hp, hb, hr0, hre, hx, hnx, hrun, hdrop, hl0⟩ := (startTagLoop_post h.inv.base).eq hL
  have hcol := hl0 (k + 1) 0 (by rw [hlen2]; rfl) (by omega)
  have hl0 : 0 ≤ l := by omega
  rw [M.bind_apply, M.modify_apply, Res.andThen_ok, M.bind_apply, M.get_apply, Res.andThen_ok, M.ite_apply] at hm
  generalize hq : ({ s1 with length1 := s1.offset - s1.lastOffset - s1.enc.increment } : Parser) = s2 at hm
  have hq1 : s2.length1 = r - s.lastOffset := by subst hq hp; simp [hinc]; omega
  have hq2 : s2.length2 = l := by subst hq hp; rfl
  have hqb : Base c s2 := by subst hq; exact hb
  have hql : s2.lastOffset = s.lastOffset := by subst hq hp; rfl
  have hqd : s2.depth = s.depth := by subst hq hp; rfl
  have hqo : s2.out = s.out := by subst hq hp; rfl
  have hqs : SlotsCore c s2.tagStack s2.at_ s2.depth := by subst hq hp; exact hs
  by_cases hd : s2.depth > maxDepth
  · rw [if_pos hd] at hm
    exact ((post_err (p := s2) (Q := fun _ _ => False) MaximumDepthExceeded).eq hm).elim
  rw [if_neg hd] at hm
  have hd' : s2.depth ≤ 254 := by simpa [maxDepth] using hd
  obtain ⟨tg, ht, htlo, hthi, hts⟩ := pushTag_post hqs (by omega) (by omega) (by omega) (by omega) he2 he1
  rw [M.bind_apply, ht, Res.andThen_ok, M.bind_apply, M.modify_apply, Res.andThen_ok] at hm
  generalize hq3 : ({ s2 with
    tagStack := s2.tagStack.set s2.depth.toNat tg,
    vtdDepth := if s2.depth > s2.vtdDepth then s2.depth else s2.vtdDepth } : Parser) = s3 at hm
  have hb3 : Base c s3 := by subst hq3; exact hqb
  obtain ⟨u', s4, hw, hm⟩ := bind_ok (m := writeStartTag) hm
  obtain ⟨hl2, hl1, hs4, hb4⟩ := (writeStartTag_post hb3).eq hw
  have e31 : s3.length1 = s2.length1 := by subst hq3; rfl
  have e32 : s3.length2 = s2.length2 := by subst hq3; rfl
  have e33 : s3.lastOffset = s2.lastOffset := by subst hq3; rfl
  have e34 : s3.depth = s2.depth := by subst hq3; rfl
  have e35 : s3.out = s2.out := by subst hq3; rfl
  have hleft : startTagNs s4 = .ok () s4 := by
    have : s4.cfg.nsAware = false := by rw [hb4.cfg, ← h.inv.base.cfg]; exact hr.off
    simp only [startTagNs, M.bind_apply, M.get_apply, Res.andThen_ok, this]
    rfl
  rw [M.bind_apply, hleft, Res.andThen_ok] at hm
  cases hm
  have hv4 : vals s4 = vals s ++ [(startRec s3).word] := by
    rw [hs4]
    show (Parser.emit c.shallowDepth s3.out [startRec s3]).vtdBuffer.values = _
    rw [emit_values hb3.out, e35, hqo]
    rfl
  -- the record
  have hmem : (startRec s3).word ∈ vals s4 := by rw [hv4]; simp
  have hrng := shlOr_range (a := s3.length2) (b := s3.length1) (k := 1) (by omega) hl2 (by omega) hl1 (by omega)
  have hsm : Small (startRec s3) := fun _ =>
    ⟨by show 0 ≤ s3.lastOffset; omega, by show s3.lastOffset < 2 ^ 31; omega, hrng.1, hrng.2,
      by show 0 ≤ s3.depth; omega, by show s3.depth ≤ 254; omega⟩
  have hst : IsStart (startRec s3).word := (small_start hsm).2 rfl
  obtain ⟨-, f2, f3, f4⟩ := small_fields hsm (show Token.startingTag.code < 4 by decide)
  have f3 : tokenOffset (startRec s3).word = s.lastOffset.toNat := by
    rw [f3]; show s3.lastOffset.toNat = _; omega
  have hd64 : s3.depth ≤ 64 := by
    have := hC.level _ hmem hst
    rw [f2] at this
    have e : (startRec s3).depth = s3.depth := rfl
    rw [e] at this
    omega
  obtain ⟨n, hne, ⟨hn, b, rr, hnr, hnb⟩, hgood⟩ := hC.elem _ hmem hst
  rw [f3] at hnr
  have hk' : k = 0 := Decidable.byContradiction fun hk' => by
    have h3 := hkq hk'
    have e0 : (c.xmlDoc.drop s.lastOffset.toNat)[0]? = c.xmlDoc[s.lastOffset.toNat]? := by rw [List.getElem?_drop]; rfl
    rw [← e0] at h3
    cases n with
    | nil => exact hne rfl
    | cons y n =>
      rw [hnr] at h3
      simp only [List.cons_append, List.getElem?_cons_zero, Option.some.injEq] at h3
      have := hn y (by simp)
      rw [h3] at this
      exact absurd ((isNameChar_iff _).mpr this) (by decide)
  subst hk'
  have hn1' : 1 ≤ n.length := by cases n with
    | nil => exact absurd rfl hne
    | cons y n => simp
  -- the run with namespace awareness
  have hf : t.loopFuel = s.loopFuel := by obtain ⟨x, hr⟩ := hr; rw [hr.eq]; rfl
  obtain ⟨t1, hTL, hr1, n1, a1⟩ := startTagLoop_rr (b := t.loopFuel) (by omega) h.inv.base hr (i := 1) (by omega) hn0 hnr hnb hn1' hgood hL
  rw [M.bind_apply, hTL, Res.andThen_ok, M.bind_apply, M.modify_apply, Res.andThen_ok, M.bind_apply, M.get_apply,
    Res.andThen_ok, M.ite_apply]
  generalize hqt : ({ t1 with length1 := t1.offset - t1.lastOffset - t1.enc.increment } : Parser) = t2
  have hr2 : RR f s2 t2 := by
    obtain ⟨x, rfl, g1, g2, g3⟩ := hr1
    subst hq hqt
    exact ⟨x, rfl, g1, g2, g3⟩
  rw [if_neg (by rw [hr2.same.depth]; exact hd)]
  obtain ⟨t2', hpt, hr2', n2, -, c2, -⟩ := sim_ok' (fun x => pushTag_sim (rx_nice (x := x))) hr2 ht
  rw [M.bind_apply, hpt, Res.andThen_ok, M.bind_apply, M.modify_apply, Res.andThen_ok]
  generalize hqt3 : ({ t2' with vtdDepth := if t2'.depth > t2'.vtdDepth then t2'.depth else t2'.vtdDepth } : Parser) = t3
  have hr3 : RR f s3 t3 := by
    obtain ⟨x, rfl, a1, a2, a3⟩ := hr2'
    subst hq3 hqt3
    exact ⟨x, rfl, a1, a2, a3⟩
  obtain ⟨t4, hwt, hr4, n4, -, c4, -⟩ := sim_ok' (fun x => writeStartTag_sim (rx_nice (x := x))) hr3 hw
  rw [M.bind_apply, hwt, Res.andThen_ok]
  have hns4 : t4.ns = t.ns := by
    rw [n4, ← hqt3]
    show t2'.ns = _
    rw [n2, ← hqt]
    exact n1
  have hc4 : t4.at_.prefixedAttCount = t.at_.prefixedAttCount := by
    rw [c4, ← hqt3]
    show t2'.at_.prefixedAttCount = _
    rw [c2, ← hqt]
    show t1.at_.prefixedAttCount = _
    rw [a1]
  have hT4 : Tab c.xmlDoc (vals s4) 0 t4.ns := by
    rw [hv4, hns4]
    refine hT.quiet fun w hw => ?_
    rcases List.mem_singleton.mp hw with rfl
    have h1 : tokenType _ = Token.startingTag.code := hst
    rw [h1]
    decide
  have hd4 : s4.depth = s3.depth := by rw [hs4]
  obtain ⟨t5, k1, k2, k3, k4, k5⟩ := startTagNs_rr hr4 hT4 (by omega) (by omega) (by rw [hns4]; intro hh; have := hW hh; omega)
  rw [M.bind_apply, k1, Res.andThen_ok]
  exact ⟨_, rfl, k2, k3, k4, ⟨_, hv4, hst⟩, hb4, k5.trans hc4⟩

/-! ## The end of a start tag -/

theorem elem_total {A B : List (BitVec 64)} {w0 : BitVec 64} (hb : Base c p) (hO : OpenTag c.xmlDoc V p.at_ A B w0)
    (hT : Table c.xmlDoc (decls c.xmlDoc V) p.ns.nsBuffer3) (hR : Ready c.xmlDoc V) :
    (if p.at_.currentElementRecord ≠ 0 then qualifyElement else pure ()) p = .ok () p := by
  rw [M.ite_apply]
  split
  · rename_i h0
    obtain ⟨-, ⟨n, h1, h2, h3⟩, -⟩ := hR A w0 B hO.eq hO.start hO.none
    have hc := hO.plain n h1 h2 h0
    obtain ⟨e1, e2, e3, e4⟩ := hO.elem n h2 hc
    obtain ⟨hsp, hlt⟩ := colon_splits hc
    obtain ⟨-, b, r, hr, -⟩ := id h2
    refine qualifyElement_total hb hT e1 e2 e3 (a := n.take (lastColon 0 0 n)) (r := n.drop (lastColon 0 0 n + 1) ++ b :: r) ?_
      (by rw [List.length_take]; omega) e4 ?_
    · rw [hr]
      have := hsp.eq
      rw [← List.cons_append, ← List.append_assoc, ← this]
    · rcases h3 hc with h3 | ⟨d, hd, hq⟩
      · exact .inr h3
      · exact .inl ⟨d, mem_decls hd hq⟩
  · rfl

theorem pushNs1_rr {k : Nat} (hr : RR f s t) (hT : Tab D V k t.ns) :
    ∃ b, pushNs1 t = .ok () { t with ns := { t.ns with nsBuffer1 := b } } ∧ Tab D V k { t.ns with nsBuffer1 := b } := by
  obtain ⟨b', h1, h2, h3⟩ := append_b1 hT.b1
  refine ⟨b', ?_, ⟨h2, hT.b2, hT.b3⟩⟩
  have e : BitVec.ofInt 32 (t.ns.nsBuffer3.getSize - 1) = BitVec.ofInt 32 ((decls D V).length - 1) := by
    rw [hT.b3.eq]; simp [getSize, fill]
  simp only [pushNs1, M.bind_apply, M.get_apply, Res.andThen_ok, onNs1, M.zoom_apply, e, h1]
  rfl

theorem tagClose_rr {q : Parser} (hr : RR f s t) (hb : Base c s) (hI : InTag (aw f c) t)
    (hT : Tab c.xmlDoc (vals s) 0 t.ns) (hm : tagClose s = .ok st q) (hR : Ready c.xmlDoc (vals q)) :
    ∃ t', tagClose t = .ok st t' ∧ RR f q t' ∧ Tab c.xmlDoc (vals q) 0 t'.ns := by
  have e := hr.same.currentChar
  simp only [tagClose, M.bind_apply, M.get_apply, Res.andThen_ok, M.ite_apply, e, hr.off, hr.on, if_true] at hm ⊢
  by_cases hc : s.currentChar = ch% '>'
  · rw [if_pos hc] at hm ⊢
    rw [if_neg (by simp)] at hm
    obtain ⟨b, h1, h2⟩ := pushNs1_rr hr hT
    rw [h1]
    rw [Res.andThen_ok]
    generalize hq1 : ({ t with ns := { t.ns with nsBuffer1 := b } } : Parser) = t1
    have hr1 : RR f s t1 := hr.ns ⟨_, t.at_.currentElementRecord, t.at_.prefixedAttCount, t.at_.prefixedAttrNameSlice, t.at_.prefixUrlSlice, hq1.symm⟩
    have ha1 : t1.at_ = t.at_ := by rw [← hq1]
    have hT1 : Tab c.xmlDoc (vals s) 0 t1.ns := by rw [← hq1]; exact h2
    obtain ⟨ws, hv, hq⟩ := (lf_ok (LF.quiet processElementTail_qf) hm hb).vals hb.out
    obtain ⟨A, B, w0, hO⟩ := hI.opn
    have hel := elem_total (c := aw f c) (hr1.base hb) (V := vals s) (by rw [ha1, ← hr.vals]; exact hO) hT1.b3 (by
      refine Ready.cut (ws := ws) ?_ hq
      rw [← hv]; exact hR)
    rw [ha1, M.ite_apply] at hel
    obtain ⟨t', h3, h4, n4, -⟩ := sim_ok' (fun x => processElementTail_sim (rx_nice (x := x))) hr1 hm
    refine ⟨t', ?_, h4, ?_⟩
    · split
      · rename_i h0
        rw [if_pos h0] at hel
        rw [M.bind_apply, hel, Res.andThen_ok, h3]
      · exact h3
    · rw [n4, hv]
      exact hT1.quiet fun w hw => (hq w hw).2.2
  · rw [if_neg hc] at hm
    exact (Two.parseErr_ok hm).elim

/-- The first part of `startTagEnd`. -/
def tagSlash : M Parser Unit := do
  M.modify fun p => { p with helper := true }
  let p ← M.get
  if p.currentChar = ch% '/' then do
    M.modify fun p => { p with depth := p.depth - 1, helper := false }
    let ch ← getChar
    M.modify fun p => { p with currentChar := ch }
  else pure ()

theorem startTagEnd_slash : startTagEnd = (do tagSlash; tagClose) := by
  funext s
  simp only [startTagEnd, tagSlash, tagClose, M.bind_apply, M.modify_apply, M.get_apply, Res.andThen_ok, M.ite_apply]
  split
  · cases getChar { s with helper := false, depth := s.depth - 1 } <;> rfl
  · simp only [M.pure_apply, Res.andThen_ok, M.bind_apply, M.get_apply, M.ite_apply]

theorem tagSlash_base (hb : Base c s) : Post (tagSlash s) fun _ s' => Base c s' ∧ s'.at_ = s.at_ ∧ s'.ns = s.ns ∧ s'.out = s.out := by
  refine Post.modify (Post.get (Post.ite (fun _ => Post.modify ?_) fun _ => ⟨hb, rfl, rfl, rfl⟩))
  refine Post.bind (getChar_byte (c := c) (by exact hb)) ?_
  rintro _ _ ⟨b, -, rfl, hb', -⟩
  exact ⟨hb', rfl, rfl, rfl⟩

theorem startTagEnd_rr {q : Parser} (hr : RR f s t) (hb : Base c s) (hI : InTag (aw f c) t)
    (hT : Tab c.xmlDoc (vals s) 0 t.ns) (hm : startTagEnd s = .ok st q) (hR : Ready c.xmlDoc (vals q)) :
    ∃ t', startTagEnd t = .ok st t' ∧ RR f q t' ∧ Tab c.xmlDoc (vals q) 0 t'.ns := by
  have hs : ∀ x, Sim (RX f x) False False tagSlash tagSlash := by
    intro x
    have hR := rx_nice (f := f) (x := x)
    unfold tagSlash
    sim hR
  rw [startTagEnd_slash] at hm ⊢
  obtain ⟨u, s', h1, h2⟩ := bind_ok hm
  obtain ⟨hb1, -, -, o1⟩ := (tagSlash_base hb).eq h1
  obtain ⟨t', h3, h4, n4, -⟩ := sim_ok' hs hr h1
  obtain ⟨-, a2, n2, o2⟩ := (tagSlash_base (hr.base hb)).eq h3
  obtain ⟨t'', h5, h6⟩ := tagClose_rr h4 hb1 (hI.same a2 n2 o2) (by rw [vals, o1, n4]; exact hT) h2 hR
  refine ⟨t'', ?_, h6⟩
  rw [M.bind_apply, h3, Res.andThen_ok, h5]

theorem startTagEnd_notAttr : Ends notAttr startTagEnd := by
  have hT := tail_notAttr
  rw [startTagEnd_slash]
  unfold tagClose
  ends

theorem tagRest2_rr {q : Parser} (hr : RR f s t) (hb : Base c s) (hI : InTag (aw f c) t)
    (hT : Tab c.xmlDoc (vals s) 0 t.ns) (hm : tagRest2 s = .ok st q) (hR : notAttr st = true → Ready c.xmlDoc (vals q)) :
    ∃ t', tagRest2 t = .ok st t' ∧ RR f q t' ∧ Tab c.xmlDoc (vals q) 0 t'.ns ∧
      (notAttr st = true ∨ st = .attrName ∧ t'.ns = t.ns ∧ t'.at_ = t.at_ ∧ q.depth = s.depth) := by
  have fin : ∀ {s t : Parser}, RR f s t → Base c s → InTag (aw f c) t → Tab c.xmlDoc (vals s) 0 t.ns → startTagEnd s = .ok st q →
      ∃ t', startTagEnd t = .ok st t' ∧ RR f q t' ∧ Tab c.xmlDoc (vals q) 0 t'.ns ∧ notAttr st = true := by
    intro s t hr hb hI hT hm
    have hn := startTagEnd_notAttr _ _ _ hm
    obtain ⟨t', k1, k2, k3⟩ := startTagEnd_rr hr hb hI hT hm (hR hn)
    exact ⟨t', k1, k2, k3, hn⟩
  have e := hr.same.currentChar
  simp only [tagRest2, M.bind_apply, M.get_apply, Res.andThen_ok, M.ite_apply, e] at hm ⊢
  by_cases hc : isSpaceChar s.currentChar = true
  · rw [if_pos hc] at hm ⊢
    obtain ⟨u, s1, h1, hm⟩ := bind_ok (m := nextCharAfterWs) hm
    obtain ⟨t1, h2, hr1, n1, -⟩ := sim_ok' (fun x => nextCharAfterWs_sim (rx_nice (x := x))) hr h1
    obtain ⟨r2, y, w, e1, hb1, -⟩ := (nextCharAfterWs_byte hb).eq h1
    obtain ⟨r2', y', w', e2, -, -⟩ := (nextCharAfterWs_byte (hr.base hb)).eq h2
    have hI1 : InTag (aw f c) t1 := hI.same (by rw [e2]; rfl) (by rw [e2]; rfl) (by rw [e2]; rfl)
    have hT1 : Tab c.xmlDoc (vals s1) 0 t1.ns := by rw [n1, vals, show s1.out = s.out by rw [e1]; rfl]; exact hT
    rw [h2, Res.andThen_ok]
    have e1' := hr1.same.currentChar
    simp only [M.bind_apply, M.get_apply, Res.andThen_ok, M.ite_apply, e1'] at hm ⊢
    by_cases hx : isNameStartChar s1.currentChar = true
    · rw [if_pos hx] at hm ⊢
      rw [getPrevOffset_eq hb1, Res.andThen_ok, M.bind_apply, M.modify_apply, Res.andThen_ok] at hm
      rw [getPrevOffset_eq (hr1.base hb1), Res.andThen_ok, M.bind_apply, M.modify_apply, Res.andThen_ok]
      cases hm
      refine ⟨_, rfl, ?_, hT1, .inr ⟨rfl, n1, ?_, ?_⟩⟩
      · obtain ⟨x, rfl, a1, a2, a3⟩ := hr1
        exact ⟨x, rfl, a1, a2, a3⟩
      · show t1.at_ = _; rw [e2]; rfl
      · show s1.depth = _; rw [e1]; rfl
    · rw [if_neg hx] at hm ⊢
      obtain ⟨t', k1, k2, k3, k4⟩ := fin hr1 hb1 hI1 hT1 hm
      exact ⟨t', k1, k2, k3, .inl k4⟩
  · rw [if_neg hc] at hm ⊢
    obtain ⟨t', k1, k2, k3, k4⟩ := fin hr hb hI hT hm
    exact ⟨t', k1, k2, k3, .inl k4⟩

end Rooted
end Parser
end GoVtd
