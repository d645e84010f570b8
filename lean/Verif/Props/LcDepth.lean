import Verif.Spec.LcDepth
import Verif.Proofs.Parser.Wp
import Verif.Proofs.Parser.Resp
import Verif.Props.Total

/-!
# Property C59: `WithLcDepth` changes nothing but the location caches
-/

namespace GoVtd
open Parser Paged

namespace Lc

/-- The five location caches can be appended to. -/
structure Ok (o : ParserOut) : Prop where
  l1 : ∃ e xs, o.l1Buffer = fill e xs
  l2 : ∃ e xs, o.l2Buffer = fill e xs
  l3 : ∃ e xs, o.l3Buffer = fill e xs
  l4 : ∃ e xs, o.l4Buffer = fill e xs
  l5 : ∃ e xs, o.l5Buffer = fill e xs

/-- The computation succeeds and changes the location caches only. -/
def Keep (m : M Parser Unit) (p : Parser) : Prop :=
  ∃ o, m p = .ok () { p with out := o } ∧ Ok o ∧ o.vtdBuffer = p.out.vtdBuffer

theorem Keep.bind {m : M Parser Unit} {k : Unit → M Parser Unit} {p : Parser} (h : Keep m p)
    (hk : ∀ o, Ok o → o.vtdBuffer = p.out.vtdBuffer → Keep (k ()) { p with out := o }) : Keep (m >>= k) p := by
  obtain ⟨o, h1, h2, h3⟩ := h
  obtain ⟨o', h1', h2', h3'⟩ := hk o h2 h3
  exact ⟨o', by rw [M.bind_apply, h1]; exact h1', h2', by rw [h3']; exact h3⟩

theorem Keep.get {k : Parser → M Parser Unit} {p : Parser} (h : Keep (k p) p) : Keep (M.get >>= k) p := h

theorem Keep.pure {p : Parser} (h : Ok p.out) : Keep (Pure.pure ()) p := ⟨p.out, rfl, h, rfl⟩

theorem Keep.ite {c : Prop} [Decidable c] {a b : M Parser Unit} {p : Parser} (h : Keep a p) (hb : Keep b p) :
    Keep (if c then a else b) p := by
  split
  · exact h
  · exact hb

theorem Keep.onL1 {p : Parser} (h : Ok p.out) (v : BitVec 64) : Keep (onL1 (Paged.append v)) p := by
  obtain ⟨e, xs, hb⟩ := h.l1
  refine ⟨{ p.out with l1Buffer := fill e (xs ++ [v]) }, ?_, { h with l1 := ⟨_, _, rfl⟩ }, rfl⟩
  simp only [Parser.onL1, M.zoom_apply, hb, append_fill]
  rfl

theorem Keep.onL2 {p : Parser} (h : Ok p.out) (v : BitVec 64) : Keep (onL2 (Paged.append v)) p := by
  obtain ⟨e, xs, hb⟩ := h.l2
  refine ⟨{ p.out with l2Buffer := fill e (xs ++ [v]) }, ?_, { h with l2 := ⟨_, _, rfl⟩ }, rfl⟩
  simp only [Parser.onL2, M.zoom_apply, hb, append_fill]
  rfl

theorem Keep.onL3 {p : Parser} (h : Ok p.out) (v : BitVec 64) : Keep (onL3 (Paged.append v)) p := by
  obtain ⟨e, xs, hb⟩ := h.l3
  refine ⟨{ p.out with l3Buffer := fill e (xs ++ [v]) }, ?_, { h with l3 := ⟨_, _, rfl⟩ }, rfl⟩
  simp only [Parser.onL3, M.zoom_apply, hb, append_fill]
  rfl

theorem Keep.onL4 {p : Parser} (h : Ok p.out) (v : BitVec 64) : Keep (onL4 (Paged.append v)) p := by
  obtain ⟨e, xs, hb⟩ := h.l4
  refine ⟨{ p.out with l4Buffer := fill e (xs ++ [v]) }, ?_, { h with l4 := ⟨_, _, rfl⟩ }, rfl⟩
  simp only [Parser.onL4, M.zoom_apply, hb, append_fill]
  rfl

theorem Keep.onL5 {p : Parser} (h : Ok p.out) (v : BitVec 64) : Keep (onL5 (Paged.append v)) p := by
  obtain ⟨e, xs, hb⟩ := h.l5
  refine ⟨{ p.out with l5Buffer := fill e (xs ++ [v]) }, ?_, { h with l5 := ⟨_, _, rfl⟩ }, rfl⟩
  simp only [Parser.onL5, M.zoom_apply, hb, append_fill]
  rfl

theorem Keep.flushLeaf {p : Parser} (h : Ok p.out) (d : Int) : Keep (flushLeaf d) p :=
  Keep.get (Keep.ite (Keep.onL1 h _) (Keep.ite (Keep.onL2 h _) (Keep.ite (Keep.onL3 h _)
    (Keep.ite (Keep.onL4 h _) (Keep.pure h)))))

theorem Keep.set {p : Parser} {g : Parser → Parser} (o : ParserOut) (hg : g p = { p with out := o }) (h : Ok o)
    (hv : o.vtdBuffer = p.out.vtdBuffer) : Keep (M.modify g) p := ⟨o, by rw [← hg]; rfl, h, hv⟩

/-- What `writeVtdL5` does after it has written the record. -/
def after (depth : Int) : M Parser Unit := do
  let p ← M.get
  let last := p.out.vtdBuffer.getSize - 1
  if depth = 0 then M.modify fun p => { p with out := { p.out with rootIndex := last } }
  else if depth = 1 then do
    flushLeaf p.out.lastDepth
    M.modify fun p => { p with out := { p.out with lastL1Index := last, lastDepth := 1 } }
  else if depth = 2 then do
    if p.out.lastDepth = 1 then
      onL1 (Paged.append (lcEntry p.out.lastL1Index p.out.l2Buffer.getSize))
    else flushLeaf p.out.lastDepth
    M.modify fun p => { p with out := { p.out with lastL2Index := last, lastDepth := 2 } }
  else if depth = 3 then do
    if p.out.lastDepth = 2 then
      onL2 (Paged.append (lcEntry p.out.lastL2Index p.out.l3Buffer.getSize))
    else if p.out.lastDepth = 3 ∨ p.out.lastDepth = 4 then flushLeaf p.out.lastDepth
    else pure ()
    M.modify fun p => { p with out := { p.out with lastL3Index := last, lastDepth := 3 } }
  else if depth = 4 then do
    if p.out.lastDepth = 3 then
      onL3 (Paged.append (lcEntry p.out.lastL3Index p.out.l4Buffer.getSize))
    else if p.out.lastDepth = 4 then flushLeaf p.out.lastDepth
    else pure ()
    M.modify fun p => { p with out := { p.out with lastL4Index := last, lastDepth := 4 } }
  else if depth = 5 then do
    onL5 (Paged.append (BitVec.ofInt 64 last))
    let p ← M.get
    if p.out.lastDepth = 4 then
      onL4 (Paged.append (lcEntry p.out.lastL4Index (p.out.l5Buffer.getSize - 1)))
    else pure ()
    M.modify fun p => { p with out := { p.out with lastDepth := 5 } }
  else pure ()

theorem writeVtdL5_after (t : Token) (o l d : Int) :
    writeVtdL5 t o l d = (writeVtd t o l d >>= fun _ => after d) := rfl

theorem Keep.after {p : Parser} (h : Ok p.out) (d : Int) : Keep (after d) p := by
  refine Keep.get ?_
  refine Keep.ite (Keep.set _ rfl { h with } rfl) (Keep.ite ?_ (Keep.ite ?_ (Keep.ite ?_ (Keep.ite ?_
    (Keep.ite ?_ (Keep.pure h))))))
  · exact (Keep.flushLeaf h _).bind fun o ho hv => Keep.set _ rfl { ho with } rfl
  · have hs : ∀ o, Ok o → o.vtdBuffer = p.out.vtdBuffer → Keep (M.modify fun q => { q with out := { q.out with
        lastL2Index := p.out.vtdBuffer.getSize - 1, lastDepth := 2 } }) { p with out := o } :=
      fun o ho hv => Keep.set _ rfl { ho with } rfl
    split
    · exact (Keep.onL1 h _).bind hs
    · exact (Keep.flushLeaf h _).bind hs
  · have hs : ∀ o, Ok o → o.vtdBuffer = p.out.vtdBuffer → Keep (M.modify fun q => { q with out := { q.out with
        lastL3Index := p.out.vtdBuffer.getSize - 1, lastDepth := 3 } }) { p with out := o } :=
      fun o ho hv => Keep.set _ rfl { ho with } rfl
    split
    · exact (Keep.onL2 h _).bind hs
    · split
      · exact (Keep.flushLeaf h _).bind hs
      · exact hs p.out h rfl
  · have hs : ∀ o, Ok o → o.vtdBuffer = p.out.vtdBuffer → Keep (M.modify fun q => { q with out := { q.out with
        lastL4Index := p.out.vtdBuffer.getSize - 1, lastDepth := 4 } }) { p with out := o } :=
      fun o ho hv => Keep.set _ rfl { ho with } rfl
    split
    · exact (Keep.onL3 h _).bind hs
    · split
      · exact (Keep.flushLeaf h _).bind hs
      · exact hs p.out h rfl
  · refine (Keep.onL5 h _).bind fun o ho hv => Keep.get ?_
    have hs : ∀ o', Ok o' → o'.vtdBuffer = o.vtdBuffer → Keep (M.modify fun q => { q with out := { q.out with
        lastDepth := 5 } }) { p with out := o' } :=
      fun o ho hv => Keep.set _ rfl { ho with } rfl
    split
    · exact (Keep.onL4 (p := { p with out := o }) ho _).bind hs
    · exact hs o ho rfl

theorem Keep.finishUp {p : Parser} (h : Ok p.out) : Keep finishUp p :=
  Keep.get (Keep.ite (Keep.ite (Keep.flushLeaf h _) (Keep.pure h)) (Keep.flushLeaf h _))

/-- The two parsers differ in the kind and the contents of the location caches only. -/
def Rel (s t : Parser) : Prop :=
  Ok s.out ∧ Ok t.out ∧ ∃ b o, t = vary ⟨s.cfg.matchFuel, b, o⟩ s

theorem Rel.symm {s t : Parser} (h : Rel s t) : Rel t s := by
  obtain ⟨h1, h2, b, o, rfl⟩ := h
  exact ⟨h2, h1, s.cfg.shallowDepth, s.out, rfl⟩

theorem nice : Nice Rel where
  eq := by rintro s t ⟨-, -, b, o, h⟩; exact ⟨_, h⟩
  put := by
    rintro s t ⟨h1, h2, b, o, rfl⟩
    intros
    exact ⟨{ h1 with }, { h2 with }, b, o, rfl⟩

theorem keep_rel {m m' : M Parser Unit} {s t : Parser} (h : Rel s t) (hm : Keep m s) (hm' : Keep m' t) :
    RelRes Rel False (m s) (m' t) := by
  obtain ⟨-, -, b, o, rfl⟩ := h
  obtain ⟨o1, h1, h2, h3⟩ := hm
  obtain ⟨o2, h1', h2', h3'⟩ := hm'
  rw [h1, h1']
  refine ⟨rfl, h2, h2', b, o2, ?_⟩
  have : o2 = { o2 with vtdBuffer := o1.vtdBuffer } := by
    rw [h3]; replace h3' : o2.vtdBuffer = s.out.vtdBuffer := h3'; rw [← h3']
  simp only [vary]
  rw [← this]

theorem start_rel {s t : Parser} (h : Rel s t) (b b' : Bool) (k : Token) (o l d : Int) :
    RelRes Rel False ((if b = true then writeVtd k o l d else writeVtdL5 k o l d) s)
      ((if b' = true then writeVtd k o l d else writeVtdL5 k o l d) t) := by
  have e : ∀ b : Bool, (if b = true then writeVtd k o l d else writeVtdL5 k o l d) =
      (writeVtd k o l d >>= fun _ => if b = true then pure () else after d) := by
    intro b
    cases b
    · rfl
    · funext p
      simp only [if_true, M.bind_apply]
      cases writeVtd k o l d p <;> rfl
  rw [e b, e b']
  refine RelRes.andThen (writeVtd_resp nice k o l d s t h) fun _ s t h => ?_
  exact keep_rel h (Keep.ite (Keep.pure h.1) (Keep.after h.1 d)) (Keep.ite (Keep.pure h.2.1) (Keep.after h.2.1 d))

theorem parse_rel : Resp Rel False parse := by
  refine parse_resp nice ?_ ?_ ?_
  · intro s t h
    have hp : ∀ m, RelRes Rel False (parseErr (α := Unit) m s) (parseErr m t) := fun m => parseErr_resp nice m s t h
    have hs := start_rel h s.cfg.shallowDepth t.cfg.shallowDepth
    obtain ⟨-, -, b, o, rfl⟩ := id h
    simp only [writeStartTag, M.bind_apply, M.get_apply, Res.andThen_ok]
    have e1 : (vary ⟨s.cfg.matchFuel, b, o⟩ s).enc = s.enc := rfl
    have e2 : (vary ⟨s.cfg.matchFuel, b, o⟩ s).length1 = s.length1 := rfl
    have e3 : (vary ⟨s.cfg.matchFuel, b, o⟩ s).length2 = s.length2 := rfl
    have e4 : (vary ⟨s.cfg.matchFuel, b, o⟩ s).lastOffset = s.lastOffset := rfl
    have e5 : (vary ⟨s.cfg.matchFuel, b, o⟩ s).depth = s.depth := rfl
    rw [e1, e2, e3, e4, e5]
    split
    · split
      · exact hp _
      · exact hs _ _ _ _
    · split
      · exact hp _
      · exact hs _ _ _ _
  · intro a b c d s t h
    obtain ⟨-, -, b', o, rfl⟩ := id h
    simp only [matchUrl, M.bind_apply, M.get_apply, Res.andThen_ok]
    split
    · exact matchUrlLoop_resp nice _ _ _ _ _ h
    · exact ⟨rfl, h⟩
  · intro s t h
    exact keep_rel h (Keep.finishUp h.1) (Keep.finishUp h.2.1)

theorem args_lc (opts : List ParserOption) (a : ParserArgs) (b : Bool) :
    { opts.foldl ParserArgs.apply a with shallowDepth := b } =
      (withoutTuning opts).foldl ParserArgs.apply { a with shallowDepth := b } := by
  induction opts generalizing a with
  | nil => rfl
  | cons x xs ih =>
    cases x with
    | lcDepth d =>
      show _ = (withoutTuning xs).foldl ParserArgs.apply _
      rw [List.foldl_cons, ih]
      congr 1
      simp only [ParserArgs.apply]
      repeat' split
      all_goals rfl
    | bufferReuse b => exact ih _
    | _ => exact ih _

theorem init_rel (fuel : Nat) (doc : List UInt8) (a a' : ParserArgs) (rd : Reader)
    (h : { a with shallowDepth := true } = { a' with shallowDepth := true }) :
    Rel (initParser fuel doc a rd) (initParser fuel doc a' rd) := by
  obtain ⟨d, o, l, e, n, s⟩ := a
  obtain ⟨d', o', l', e', n', s'⟩ := a'
  cases h
  have ok := fun s n => initOut_ok s n
  refine ⟨⟨(ok _ _).l1, (ok _ _).l2, (ok _ _).l3, (ok _ _).l4, (ok _ _).l5⟩,
    ⟨(ok _ _).l1, (ok _ _).l2, (ok _ _).l3, (ok _ _).l4, (ok _ _).l5⟩, s', initOut s' l, ?_⟩
  have hv : (initOut s' l).vtdBuffer = (initOut s l).vtdBuffer := by
    have e : ∀ b, (initOut b l).vtdBuffer = freshBuffer (BitVec 64) (shallowSizes l).1 := by
      intro b
      cases b
      · simp only [initOut, deepSizes, shallowSizes]
        repeat' split
        all_goals first | rfl | omega
      · rfl
    rw [e, e]
  have : initOut s' l = { initOut s' l with vtdBuffer := (initOut s l).vtdBuffer } := by rw [← hv]
  simp only [vary, initParser]
  rw [← this]

theorem new_rel (fuel : Nat) {opts opts' : List ParserOption}
    (ha : { opts.foldl ParserArgs.apply {} with shallowDepth := true } =
      { opts'.foldl ParserArgs.apply {} with shallowDepth := true }) :
    (∃ e, newVtdParser fuel opts = .error e ∧ newVtdParser fuel opts' = .error e) ∨
    ∃ p q, newVtdParser fuel opts = .ok p ∧ newVtdParser fuel opts' = .ok q ∧ Rel p q := by
  simp only [newVtdParser]
  generalize opts.foldl ParserArgs.apply {} = a at ha
  generalize opts'.foldl ParserArgs.apply {} = a' at ha
  have hi := fun doc rd => init_rel fuel doc a a' rd ha
  injection ha with e1 e2 e3 e4
  rw [e1, e2, e3, e4]
  split
  · exact Or.inl ⟨_, rfl, rfl⟩
  split
  · exact Or.inl ⟨_, rfl, rfl⟩
  split
  · exact Or.inl ⟨_, rfl, rfl⟩
  split
  · exact Or.inl ⟨_, rfl, rfl⟩
  split
  · exact Or.inl ⟨_, rfl, rfl⟩
  · exact Or.inr ⟨_, _, rfl, rfl, hi _ _⟩

end Lc

/-- C59: two option lists that differ in their `WithLcDepth` and `WithBufferReuse` options only give
the same refusal, the same error, or the same token records. -/
theorem C59_tuning (fuel : Nat) (opts opts' : List ParserOption) (h : withoutTuning opts = withoutTuning opts') :
    parseEnd fuel opts = parseEnd fuel opts' := by
  have ha : { opts.foldl ParserArgs.apply {} with shallowDepth := true } =
      { opts'.foldl ParserArgs.apply {} with shallowDepth := true } := by
    rw [Lc.args_lc, Lc.args_lc, h]
  rcases Lc.new_rel fuel ha with ⟨e, h1, h2⟩ | ⟨p, q, h1, h2, hr⟩
  · simp only [parseEnd, h1, h2]
  · have := Lc.parse_rel p q hr
    simp only [parseEnd, h1, h2]
    generalize parse p = r at this ⊢
    generalize parse q = r' at this ⊢
    cases r <;> cases r' <;> try exact False.elim this
    · obtain ⟨-, -, -, b, o, rfl⟩ := this
      rfl
    · obtain ⟨rfl, -⟩ := this
      rfl
    · rfl
    · rfl

/-- Non-vacuity: two option lists of this kind, with the four records that both leave; the first
cache differs. -/
example :
    let doc := bytes "<a><b>t</b></a>"
    let opts : List ParserOption := [.lcDepth 5, .xmlDoc (some doc), .nameSpaceAware true]
    let opts' : List ParserOption := [.xmlDoc (some doc), .bufferReuse true, .nameSpaceAware true, .lcDepth 3, .lcDepth 9]
    withoutTuning opts = withoutTuning opts' ∧
    parseEnd 9 opts = .parsed [vtdRecord .document 0 0 (-1), vtdRecord .startingTag 1 1 0,
      vtdRecord .startingTag 4 1 1, vtdRecord .characterData 6 1 1] 0 ∧
    (parsed 9 opts).map (·.out.l1Buffer.values) ≠ (parsed 9 opts').map (·.out.l1Buffer.values) := by
  refine ⟨rfl, ?_, ?_⟩
  · decide +kernel
  · decide +kernel

/-- Non-vacuity: a document that both refuse. -/
example : (match parseEnd 9 [.xmlDoc (some (bytes "<a><b></a>")), .lcDepth 5] with
      | .failed _ => true
      | _ => false) = true ∧
    withoutTuning [.xmlDoc (some (bytes "<a><b></a>")), .lcDepth 5] = [.xmlDoc (some (bytes "<a><b></a>"))] := by
  refine ⟨?_, rfl⟩
  decide +kernel

end GoVtd
