import Verif.Proofs.Parser.Body

/-!
# Weakest preconditions

`Leads r K`: the call returned normally and its result and state satisfy `K`. Every lemma is an equivalence,
so that the accepting runs of a function can be computed by rewriting.
-/

namespace GoVtd

/-- The outcome is a normal return that satisfies `K`. -/
def Leads {σ α : Type} (r : Res σ α) (K : α → σ → Prop) : Prop := ∃ a s, r = .ok a s ∧ K a s

section
variable {σ α β : Type} {K : α → σ → Prop}

@[simp] theorem leads_ok (a : α) (s : σ) : Leads (.ok a s) K ↔ K a s := by
  constructor
  · rintro ⟨a', s', h, h'⟩; cases h; exact h'
  · intro h; exact ⟨a, s, rfl, h⟩

@[simp] theorem leads_err (e : GoErr) (s : σ) : Leads (.err e s) K ↔ False := by
  constructor
  · rintro ⟨a', s', h, h'⟩; cases h
  · exact False.elim

@[simp] theorem leads_panic : Leads (.panic : Res σ α) K ↔ False := by
  constructor
  · rintro ⟨a', s', h, h'⟩; cases h
  · exact False.elim

@[simp] theorem leads_diverge : Leads (.diverge : Res σ α) K ↔ False := by
  constructor
  · rintro ⟨a', s', h, h'⟩; cases h
  · exact False.elim

theorem leads_andThen {r : Res σ α} {f : α → M σ β} {K : β → σ → Prop} :
    Leads (r.andThen f) K ↔ Leads r (fun a s => Leads (f a s) K) := by
  cases r <;> simp

theorem leads_bind {m : M σ α} {f : α → M σ β} {s : σ} {K : β → σ → Prop} :
    Leads ((m >>= f) s) K ↔ Leads (m s) (fun a s => Leads (f a s) K) := leads_andThen

theorem leads_ite {c : Prop} [Decidable c] {a b : M σ α} {s : σ} :
    Leads ((if c then a else b) s) K ↔ (c ∧ Leads (a s) K) ∨ (¬ c ∧ Leads (b s) K) := by
  by_cases h : c <;> simp [h]

theorem leads_congr {r : Res σ α} {K K' : α → σ → Prop} (h : ∀ a s, r = .ok a s → (K a s ↔ K' a s)) :
    Leads r K ↔ Leads r K' := by
  constructor
  · rintro ⟨a, s, h1, h2⟩; exact ⟨a, s, h1, (h a s h1).1 h2⟩
  · rintro ⟨a, s, h1, h2⟩; exact ⟨a, s, h1, (h a s h1).2 h2⟩

theorem leads_and {a b : M σ Bool} {s : σ} {K : Bool → σ → Prop} :
    Leads ((M.and a b) s) K ↔ Leads (a s) (fun x s => if x then Leads (b s) K else K false s) := by
  rw [M.and_apply, leads_andThen]
  refine leads_congr fun x s _ => ?_
  cases x <;> simp

theorem leads_or {a b : M σ Bool} {s : σ} {K : Bool → σ → Prop} :
    Leads ((M.or a b) s) K ↔ Leads (a s) (fun x s => if x then K true s else Leads (b s) K) := by
  rw [M.or_apply, leads_andThen]
  refine leads_congr fun x s _ => ?_
  cases x <;> simp

theorem leads_catch {m : M σ α} {s : σ} {f : GoErr → GoErr} :
    Leads (M.catchErr m (fun e => M.raise (f e)) s) K ↔ Leads (m s) K := by
  rw [M.catchErr_apply]
  cases m s <;> simp [M.raise_apply]

end

namespace Parser
open Paged Grammar

section
variable {c : ParserCfg} {p p' : Parser} {r r' : List UInt8} {b : UInt8} {ch : Nat}

@[simp] theorem leads_parseErr {α : Type} (m : String) {K : α → Parser → Prop} :
    Leads (parseErr m p) K ↔ False := by
  constructor
  · rintro ⟨a, s, h, _⟩; exact (parseErr_ne_ok _ _).1 h
  · exact False.elim

@[simp] theorem leads_parseErrAt {α : Type} (m : String) (o : Int) {K : α → Parser → Prop} :
    Leads (parseErrAt m o p) K ↔ False := by
  constructor
  · rintro ⟨a, s, h, _⟩; exact (parseErrAt_ne_ok _ _ _).1 h
  · exact False.elim

@[simp] theorem leads_raise {α : Type} (e : GoErr) {K : α → Parser → Prop} :
    Leads ((M.raise e : M Parser α) p) K ↔ False := leads_err _ _

@[simp] theorem leads_wrap {α : Type} (msg : String) {m : M Parser α} {K : α → Parser → Prop} :
    Leads (wrapInternal msg m p) K ↔ Leads (m p) K := leads_catch

/-! ## Reading -/

theorem leads_nextChar (h : Rd c p r) {K : Unit → Parser → Prop} :
    Leads (nextChar p) K ↔ ∃ b r', r = b :: r' ∧ K () (go c p r' b.toNat) := by
  cases r with
  | nil => rw [nextChar_nil h]; simp
  | cons b r =>
    rw [nextChar_cons h, leads_ok]
    constructor
    · intro hk; exact ⟨b, r, rfl, hk⟩
    · rintro ⟨b', r', h0, hk⟩; cases h0; exact hk

theorem leads_getChar (h : Rd c p r) {K : Nat → Parser → Prop} :
    Leads (getChar p) K ↔ ∃ b r', r = b :: r' ∧ K b.toNat (go c p r' p.currentChar) := by
  cases r with
  | nil => rw [getChar_nil h]; simp
  | cons b r =>
    rw [getChar_cons h, leads_ok]
    constructor
    · intro hk; exact ⟨b, r, rfl, hk⟩
    · rintro ⟨b', r', h0, hk⟩; cases h0; exact hk

theorem leads_skipChar (h : Rd c p r) {n : Nat} (v : UInt8) (hv : v.toNat = n := by rfl)
    {K : Bool → Parser → Prop} :
    Leads (skipChar n p) K ↔ ∃ b r', r = b :: r' ∧ ((b = v ∧ K true (go c p r' p.currentChar)) ∨
      (b ≠ v ∧ K false (go c p r p.currentChar))) := by
  subst hv
  cases r with
  | nil => rw [skipChar_nil h]; simp
  | cons b r =>
    rw [skipChar_cons h]
    by_cases hb : b = v
    · subst hb
      rw [if_pos rfl, leads_ok]
      constructor
      · intro hk; exact ⟨b, r, rfl, Or.inl ⟨rfl, hk⟩⟩
      · rintro ⟨b', r', h0, hk⟩
        cases h0
        rcases hk with ⟨_, hk⟩ | ⟨hk, _⟩
        · exact hk
        · exact absurd rfl hk
    · rw [if_neg (fun h => hb (UInt8.toNat_inj.1 h).symm)]
      constructor
      · intro hk; exact ⟨b, r, rfl, Or.inr ⟨hb, (leads_ok _ _).1 hk⟩⟩
      · rintro ⟨b', r', h0, hk⟩
        cases h0
        rcases hk with ⟨hk, _⟩ | ⟨_, hk⟩
        · exact absurd hk hb
        · exact (leads_ok _ _).2 hk

theorem leads_nextWs (h : Rd c p r) {K : Unit → Parser → Prop} :
    Leads (nextCharAfterWs p) K ↔
      ∃ w b r', r = w ++ b :: r' ∧ AllWs w ∧ ¬ Ws b ∧ K () (go c p r' b.toNat) := by
  constructor
  · rintro ⟨_, s, h1, h2⟩
    obtain ⟨w, b, r', h3, h4, h5, rfl⟩ := (nextCharAfterWs_iff h).1 h1
    exact ⟨w, b, r', h3, h4, h5, h2⟩
  · rintro ⟨w, b, r', h3, h4, h5, h2⟩
    exact ⟨(), _, (nextCharAfterWs_iff h).2 ⟨w, b, r', h3, h4, h5, rfl⟩, h2⟩

theorem leads_item (h : Rd c p r) {K : Unit → Parser → Prop} :
    Leads (handleOtherTextChar b.toNat p) K ↔
      ∃ r', Item (b :: r) r' ∧ K () (go c p r' p.currentChar) := by
  constructor
  · rintro ⟨_, s, h1, h2⟩
    obtain ⟨r', h3, rfl⟩ := (handleOtherTextChar_iff h).1 h1
    exact ⟨r', h3, h2⟩
  · rintro ⟨r', h3, h2⟩
    exact ⟨(), _, (handleOtherTextChar_iff h).2 ⟨r', h3, rfl⟩, h2⟩

theorem leads_of_iff {α : Type} {m : M Parser Unit} {R : α → Prop} {f : α → Parser}
    (h : ∀ u p', m p = .ok u p' ↔ ∃ a, R a ∧ p' = f a) {K : Unit → Parser → Prop} :
    Leads (m p) K ↔ ∃ a, R a ∧ K () (f a) := by
  constructor
  · rintro ⟨u, s, h1, h2⟩
    obtain ⟨r', h3, rfl⟩ := (h _ _).1 h1
    exact ⟨r', h3, h2⟩
  · rintro ⟨r', h3, h2⟩
    exact ⟨(), _, (h _ _).2 ⟨r', h3, rfl⟩, h2⟩

/-! ## Output -/

/-- `Append` on a buffer, as a function. -/
def bpush (b : FastLongBuffer) (v : BitVec 64) : FastLongBuffer :=
  match Paged.append v b with
  | .ok _ b' => b'
  | _ => b

theorem bpush_fill (e : Nat) (xs : List (BitVec 64)) (v : BitVec 64) :
    bpush (fill e xs) v = fill e (xs ++ [v]) := by
  simp only [bpush, append_fill]

theorem bpush_ok {b : FastLongBuffer} (h : ∃ e xs, b = fill e xs) (v : BitVec 64) :
    Paged.append v b = .ok () (bpush b v) ∧ ∃ e xs, bpush b v = fill e xs := by
  obtain ⟨e, xs, rfl⟩ := h
  rw [bpush_fill]
  exact ⟨append_fill _ _ _, _, _, rfl⟩

/-- Append a record. -/
def push (o : ParserOut) (v : BitVec 64) : ParserOut := { o with vtdBuffer := bpush o.vtdBuffer v }

theorem push_ok {o : ParserOut} (h : OutOk o) (v : BitVec 64) : OutOk (push o v) :=
  { h with vtd := (bpush_ok h.vtd v).2 }

theorem writeVtd_go (h : OutOk p.out) (t : Token) (o l d : Int) :
    writeVtd t o l d p = .ok () { p with out := push p.out (vtdRecord t o l d) } := by
  simp only [writeVtd, onVtd, M.zoom_apply, (bpush_ok h.vtd _).1]
  rfl

/-- `flushLeaf` as a function. -/
def flush (d : Int) (o : ParserOut) : ParserOut :=
  if d = 1 then { o with l1Buffer := bpush o.l1Buffer (lcLeaf o.lastL1Index) }
  else if d = 2 then { o with l2Buffer := bpush o.l2Buffer (lcLeaf o.lastL2Index) }
  else if d = 3 then { o with l3Buffer := bpush o.l3Buffer (lcLeaf o.lastL3Index) }
  else if d = 4 then { o with l4Buffer := bpush o.l4Buffer (lcLeaf o.lastL4Index) }
  else o

theorem flush_ok {o : ParserOut} (h : OutOk o) (d : Int) : OutOk (flush d o) := by
  simp only [flush]
  split
  · exact { h with l1 := (bpush_ok h.l1 _).2 }
  split
  · exact { h with l2 := (bpush_ok h.l2 _).2 }
  split
  · exact { h with l3 := (bpush_ok h.l3 _).2 }
  split
  · exact { h with l4 := (bpush_ok h.l4 _).2 }
  · exact h

theorem flushLeaf_go (h : OutOk p.out) (d : Int) : flushLeaf d p = .ok () { p with out := flush d p.out } := by
  simp only [flushLeaf, flush, M.bind_apply, M.get_apply, Res.andThen_ok, M.ite_apply, M.pure_apply]
  split
  · simp only [onL1, M.zoom_apply, (bpush_ok h.l1 _).1]; rfl
  split
  · simp only [onL2, M.zoom_apply, (bpush_ok h.l2 _).1]; rfl
  split
  · simp only [onL3, M.zoom_apply, (bpush_ok h.l3 _).1]; rfl
  split
  · simp only [onL4, M.zoom_apply, (bpush_ok h.l4 _).1]; rfl
  · rfl

/-- The effect of a start tag of depth `d` on the caches; its record is `last`. -/
def cache (d last : Int) (o : ParserOut) : ParserOut :=
  if d = 0 then { o with rootIndex := last }
  else if d = 1 then { flush o.lastDepth o with lastL1Index := last, lastDepth := 1 }
  else if d = 2 then
    { (if o.lastDepth = 1 then
        { o with l1Buffer := bpush o.l1Buffer (lcEntry o.lastL1Index o.l2Buffer.getSize) }
      else flush o.lastDepth o) with lastL2Index := last, lastDepth := 2 }
  else if d = 3 then
    { (if o.lastDepth = 2 then
        { o with l2Buffer := bpush o.l2Buffer (lcEntry o.lastL2Index o.l3Buffer.getSize) }
      else if o.lastDepth = 3 ∨ o.lastDepth = 4 then flush o.lastDepth o
      else o) with lastL3Index := last, lastDepth := 3 }
  else if d = 4 then
    { (if o.lastDepth = 3 then
        { o with l3Buffer := bpush o.l3Buffer (lcEntry o.lastL3Index o.l4Buffer.getSize) }
      else if o.lastDepth = 4 then flush o.lastDepth o
      else o) with lastL4Index := last, lastDepth := 4 }
  else if d = 5 then
    { (if o.lastDepth = 4 then
        { o with l5Buffer := bpush o.l5Buffer (BitVec.ofInt 64 last),
                 l4Buffer := bpush o.l4Buffer
                  (lcEntry o.lastL4Index ((bpush o.l5Buffer (BitVec.ofInt 64 last)).getSize - 1)) }
      else { o with l5Buffer := bpush o.l5Buffer (BitVec.ofInt 64 last) }) with lastDepth := 5 }
  else o

theorem cache_ok {o : ParserOut} (h : OutOk o) (d last : Int) : OutOk (cache d last o) := by
  simp only [cache]
  split
  · exact { h with }
  split
  · exact { flush_ok h _ with }
  split
  · split
    · exact { h with l1 := (bpush_ok h.l1 _).2 }
    · exact { flush_ok h _ with }
  split
  · split
    · exact { h with l2 := (bpush_ok h.l2 _).2 }
    split
    · exact { flush_ok h _ with }
    · exact { h with }
  split
  · split
    · exact { h with l3 := (bpush_ok h.l3 _).2 }
    split
    · exact { flush_ok h _ with }
    · exact { h with }
  split
  · split
    · exact { h with l5 := (bpush_ok h.l5 _).2, l4 := (bpush_ok h.l4 _).2 }
    · exact { h with l5 := (bpush_ok h.l5 _).2 }
  · exact h

/-- One record of a start tag, with caches. -/
def pushL5 (o : ParserOut) (v : BitVec 64) (d : Int) : ParserOut :=
  cache d ((push o v).vtdBuffer.getSize - 1) (push o v)

theorem writeVtdL5_go (h : OutOk p.out) (t : Token) (o l d : Int) :
    writeVtdL5 t o l d p = .ok () { p with out := pushL5 p.out (vtdRecord t o l d) d } := by
  simp only [writeVtdL5, M.bind_apply, writeVtd_go h, Res.andThen_ok, M.get_apply, pushL5]
  have hp := push_ok h (vtdRecord t o l d)
  generalize push p.out (vtdRecord t o l d) = q at hp
  generalize q.vtdBuffer.getSize - 1 = last
  simp only [M.ite_apply, cache]
  split
  · rfl
  split
  · simp only [M.bind_apply]
    rw [flushLeaf_go (p := { p with out := q }) hp]
    rfl
  split
  · split
    · rename_i hd
      simp only [M.bind_apply, M.ite_apply, hd, if_true, onL1, M.zoom_apply, (bpush_ok hp.l1 _).1]
      rfl
    · rename_i hd
      simp only [M.bind_apply, M.ite_apply, hd, if_false]
      rw [flushLeaf_go (p := { p with out := q }) hp]
      rfl
  split
  · split
    · rename_i hd
      simp only [M.bind_apply, M.ite_apply, hd, if_true, onL2, M.zoom_apply, (bpush_ok hp.l2 _).1]
      rfl
    split
    · rename_i hd hd2
      simp only [M.bind_apply, M.ite_apply, hd, hd2, if_false, if_true]
      rw [flushLeaf_go (p := { p with out := q }) hp]
      rfl
    · rfl
  split
  · split
    · rename_i hd
      simp only [M.bind_apply, M.ite_apply, hd, if_true, onL3, M.zoom_apply, (bpush_ok hp.l3 _).1]
      rfl
    split
    · rename_i hd hd2
      simp only [M.bind_apply, M.ite_apply, hd, hd2, if_false, if_true]
      rw [flushLeaf_go (p := { p with out := q }) hp]
      rfl
    · rfl
  split
  · simp only [M.bind_apply, onL5, M.zoom_apply, (bpush_ok hp.l5 _).1, Res.zoom_ok, Res.andThen_ok, M.get_apply]
    split
    · rename_i hd
      simp only [M.bind_apply, M.ite_apply, hd, if_true, onL4, M.zoom_apply, (bpush_ok hp.l4 _).1]
      rfl
    · rename_i hd
      simp only [M.bind_apply, M.ite_apply, hd, if_false]
      rfl
  · rfl

/-- The word of a record. -/
def word (x : Rec) : BitVec 64 := vtdRecord x.tok x.off x.len x.depth

/-- Write one record. -/
def emit1 (shallow : Bool) (o : ParserOut) (x : Rec) : ParserOut :=
  if x.tok = .startingTag ∧ shallow = false then pushL5 o (word x) x.depth else push o (word x)

/-- Write records. -/
def emit (shallow : Bool) (o : ParserOut) (xs : List Rec) : ParserOut := xs.foldl (emit1 shallow) o

/-- The end of the parse. -/
def finish (shallow : Bool) (o : ParserOut) : ParserOut :=
  if shallow then (if o.lastDepth = 1 ∨ o.lastDepth = 2 then flush o.lastDepth o else o)
  else flush o.lastDepth o

@[simp] theorem emit_nil (s : Bool) (o : ParserOut) : emit s o [] = o := rfl
@[simp] theorem emit_cons (s : Bool) (o : ParserOut) (x : Rec) (xs : List Rec) :
    emit s o (x :: xs) = emit s (emit1 s o x) xs := rfl
theorem emit_append (s : Bool) (o : ParserOut) (xs ys : List Rec) :
    emit s o (xs ++ ys) = emit s (emit s o xs) ys := List.foldl_append

theorem emit1_ok {o : ParserOut} (h : OutOk o) (s : Bool) (x : Rec) : OutOk (emit1 s o x) := by
  simp only [emit1]
  split
  · exact cache_ok (push_ok h _) _ _
  · exact push_ok h _

theorem emit_ok {o : ParserOut} (h : OutOk o) (s : Bool) (xs : List Rec) : OutOk (emit s o xs) := by
  induction xs generalizing o with
  | nil => exact h
  | cons x xs ih => exact ih (emit1_ok h s x)

theorem emit1_other {s : Bool} {o : ParserOut} {x : Rec} (h : x.tok ≠ .startingTag) :
    emit1 s o x = push o (word x) := by simp [emit1, h]

theorem writeVtd_emit (h : OutOk p.out) (s : Bool) (t : Token) (o l d : Int) (ht : t ≠ .startingTag) :
    writeVtd t o l d p = .ok () { p with out := emit s p.out [⟨t, o, l, d⟩] } := by
  rw [writeVtd_go h, emit_cons, emit_nil, emit1_other (by exact ht)]
  rfl

theorem finishUp_go (h : OutOk p.out) :
    finishUp p = .ok () { p with out := finish p.cfg.shallowDepth p.out } := by
  simp only [finishUp, finish, M.bind_apply, M.get_apply, Res.andThen_ok, M.ite_apply, M.pure_apply]
  split
  · split
    · rw [flushLeaf_go h]
    · rfl
  · rw [flushLeaf_go h]

/-! ### Texts -/

theorem textRecs_step {t : Token} {ro j d : Int} (k : Nat) (hj : j = ro + k * maxLen)
    {x : List Rec} : (List.range (k + 1)).map (fun (i : Nat) => (⟨t, ro + i * maxLen, maxLen, d⟩ : Rec)) ++ x =
      ⟨t, ro, maxLen, d⟩ :: ((List.range k).map (fun (i : Nat) => (⟨t, ro + maxLen + i * maxLen, maxLen, d⟩ : Rec)) ++ x) := by
  rw [List.range_succ_eq_map]
  simp only [List.map_cons, List.map_map, List.cons_append, Int.natCast_zero, Int.zero_mul, Int.add_zero]
  congr 2
  apply List.map_congr_left
  intro i _
  simp only [Function.comp, Rec.mk.injEq, true_and, and_true]
  rw [Int.natCast_succ, Int.add_mul]
  omega

theorem writeVtdTextLoop_go (s : Bool) {fuel : Nat} {p : Parser} (h : OutOk p.out) (t : Token) (ht : t ≠ .startingTag)
    (k : Nat) (ro j d : Int) (hk : k < fuel) (hj : k * maxLen < j) (hj' : j ≤ k * maxLen + maxLen) :
    writeVtdTextLoop fuel t ro j d p = .ok () { p with
      out := emit s p.out ((List.range k).map (fun (i : Nat) => (⟨t, ro + i * maxLen, maxLen, d⟩ : Rec)) ++
        [(⟨t, ro + k * maxLen, j - k * maxLen, d⟩ : Rec)]) } := by
  induction k generalizing fuel p ro j with
  | zero =>
    obtain ⟨f, rfl⟩ : ∃ f, fuel = f + 1 := ⟨fuel - 1, by omega⟩
    simp only [writeVtdTextLoop]
    rw [if_neg (by simp [maxLen, maxTokenLength] at *; omega), writeVtd_emit h s _ _ _ _ ht]
    simp
  | succ k ih =>
    obtain ⟨f, rfl⟩ : ∃ f, fuel = f + 1 := ⟨fuel - 1, by omega⟩
    simp only [writeVtdTextLoop]
    rw [if_pos (by simp only [maxLen, maxTokenLength] at *; omega)]
    simp only [M.bind_apply, writeVtd_emit h s _ _ _ _ ht, Res.andThen_ok]
    rw [ih (emit_ok h s _) (ro + maxTokenLength) (j - maxTokenLength) (by omega)
      (by simp only [maxLen, maxTokenLength] at *; omega) (by simp only [maxLen, maxTokenLength] at *; omega)]
    rw [textRecs_step k rfl]
    have e1 : (maxTokenLength : Int) = (maxLen : Int) := rfl
    have e2 : ro + ((k + 1 : Nat) : Int) * maxLen = ro + maxLen + k * maxLen := by
      rw [Int.natCast_succ, Int.add_mul]; omega
    have e3 : j - ((k + 1 : Nat) : Int) * maxLen = j - maxLen - k * maxLen := by
      rw [Int.natCast_succ, Int.add_mul]; omega
    rw [e1, e2, e3]
    rfl

theorem writeVtdText_go (s : Bool) (h : OutOk p.out) (t : Token) (ht : t ≠ .startingTag) (o l d : Int) :
    writeVtdText t o l d p = .ok () { p with out := emit s p.out (textRecs t o l d) } := by
  simp only [writeVtdText, textRecs]
  by_cases hl : l > maxTokenLength
  · rw [if_pos hl, if_pos (by exact hl)]
    have hl' : l > (0xFFFFF : Int) := hl
    rw [writeVtdTextLoop_go s h t ht ((l.toNat - 1) / maxLen)]
    · simp
    · have : (l.toNat - 1) / maxLen ≤ l.toNat := Nat.le_trans (Nat.div_le_self _ _) (Nat.sub_le _ _)
      omega
    · have := Nat.div_mul_le_self (l.toNat - 1) maxLen
      omega
    · have := Nat.lt_div_mul_add (a := l.toNat - 1) (b := maxLen) (by decide)
      omega
  · rw [if_neg hl, if_neg (by exact hl), writeVtd_emit h s _ _ _ _ ht]

theorem writeText_go (hb : Base c p) (t : Token) (ht : t ≠ .startingTag) :
    writeText t p = .ok () { p with
      out := emit c.shallowDepth p.out (textRecs t p.lastOffset p.length1 p.depth) } := by
  simp only [writeText, M.bind_apply, M.get_apply, Res.andThen_ok, hb.single, if_true]
  exact writeVtdText_go _ hb.out t ht _ _ _

theorem writeAt_go (hb : Base c p) (t : Token) (ht : t ≠ .startingTag) (l : Int) :
    writeAt t l p = .ok () { p with out := emit c.shallowDepth p.out [⟨t, p.lastOffset, l, p.depth⟩] } := by
  simp only [writeAt, M.bind_apply, M.get_apply, Res.andThen_ok, hb.single, if_true]
  exact writeVtd_emit hb.out _ _ _ _ _ ht

theorem leads_writeCheck (hb : Base c p) (t : Token) (ht : t ≠ .startingTag) (msg : String)
    {K : Unit → Parser → Prop} :
    Leads (writeVtdWithLengthCheck t msg p) K ↔ p.length1 ≤ maxLen ∧
      K () { p with out := emit c.shallowDepth p.out [⟨t, p.lastOffset, p.length1, p.depth⟩] } := by
  simp only [writeVtdWithLengthCheck, M.bind_apply, M.get_apply, Res.andThen_ok, hb.single, if_true, M.ite_apply]
  by_cases h : p.length1 > maxTokenLength
  · rw [if_pos h]
    have : ¬ p.length1 ≤ maxLen := by simp only [maxTokenLength, maxLen] at *; omega
    simp [this]
  · rw [if_neg h, writeVtd_emit hb.out c.shallowDepth _ _ _ _ ht]
    have : p.length1 ≤ maxLen := by simp only [maxTokenLength, maxLen] at *; omega
    simp [this]

theorem Rd.emit (h : Rd c p r) (xs : List Rec) : Rd c { p with out := Parser.emit c.shallowDepth p.out xs } r :=
  { h with base := { h.base with out := emit_ok h.base.out _ _ } }

end
end Parser
end GoVtd
