import Verif.Proofs.Parser.Ends
import Verif.Proofs.Parser.Shape
import Verif.Proofs.Total
import Verif.Spec.Tags

/-!
# The tags the parser has seen

`K` relates the records written so far and the stack of open tags to a list of tags of the document; `G` is
the invariant of the state machine that carries it. Both hold in every mode, for every window and every slice.
-/

namespace GoVtd
namespace Parser
namespace Ev
open Paged Grammar Two
variable {c : ParserCfg} {p : Parser}

/-- Position and depth of the record of a start tag. -/
def recStart (x : Rec) : Option (Nat × Nat) :=
  if x.tok = .startingTag then some (x.off.toNat, x.depth.toNat) else none

/-- The fields of the record of a start tag or of an attribute name are in range. -/
def Small (x : Rec) : Prop :=
  x.tok.code < 4 → 0 ≤ x.off ∧ x.off < 2 ^ 31 ∧ 0 ≤ x.len ∧ x.len < 2 ^ 20 ∧ 0 ≤ x.depth ∧ x.depth ≤ 254

/-- The record of a start tag or of an attribute name denotes a name within the limits. -/
structure Named (doc : List UInt8) (x : Rec) : Prop where
  start : x.tok = .startingTag → ∃ len k l : Nat, k ≤ 4 ∧ (x.depth ≠ 0 → k = 0) ∧
    (k ≠ 0 → doc[x.off.toNat]? = some 0x3F) ∧ Grammar.NameAt doc x.off.toNat len k ∧ len ≤ 2047 ∧ l = lastColon (k + 1) 0 ((Grammar.sub doc x.off.toNat len).drop (k + 1)) ∧ l ≤ 511 ∧
    x.len = ((l <<< 1 ||| len : Nat) : Int)
  attr : x.tok = .attrName ∨ x.tok = .attrNs → ∃ len l : Nat, Grammar.NameAt doc x.off.toNat len 0 ∧
    len ≤ 2047 ∧ l = lastColon 0 0 (Grammar.sub doc x.off.toNat len) ∧ l ≤ 511 ∧ x.len = ((l <<< 11 ||| len : Nat) : Int)

/-- The names of the attributes since the last start tag. -/
def seenAfter (doc : List UInt8) : List (List UInt8) → List Rec → List (List UInt8)
  | seen, [] => seen
  | seen, x :: xs =>
    if x.tok = .startingTag then seenAfter doc [] xs
    else if x.tok = .attrName ∨ x.tok = .attrNs then seenAfter doc (x.name doc :: seen) xs
    else seenAfter doc seen xs

/-- The stack of the parser holds the open start tags. -/
def Slots (ts : List (BitVec 64)) : List (Nat × Nat) → Prop
  | [] => True
  | (o, len) :: stk => (∃ t, ts[stk.length]? = some t ∧ low32 t = o ∧ high32 t = len) ∧ Slots ts stk

theorem seenAfter_append (doc : List UInt8) (seen : List (List UInt8)) (xs ys : List Rec) :
    seenAfter doc seen (xs ++ ys) = seenAfter doc (seenAfter doc seen xs) ys := by
  induction xs generalizing seen with
  | nil => rfl
  | cons x xs ih =>
    simp only [List.cons_append, seenAfter]
    split
    · exact ih _
    · split
      · exact ih _
      · exact ih _

theorem distinct_append (doc : List UInt8) (seen : List (List UInt8)) (xs ys : List Rec) :
    Distinct doc seen (xs ++ ys) ↔ Distinct doc seen xs ∧ Distinct doc (seenAfter doc seen xs) ys := by
  induction xs generalizing seen with
  | nil => simp [Distinct, seenAfter]
  | cons x xs ih =>
    simp only [List.cons_append, Distinct, seenAfter]
    split
    · exact ih _
    · split
      · rw [ih, and_assoc]
      · exact ih _

theorem quiet_plain {xs : List Rec} (h : Quiet xs) : ∀ x ∈ xs, x.Plain := by
  intro x hx
  have := h x hx
  refine ⟨?_, ?_, ?_⟩ <;> (intro e; rw [e] at this; exact absurd this (by decide))

theorem seenAfter_quiet {doc : List UInt8} {seen : List (List UInt8)} {xs : List Rec} (h : Quiet xs) :
    seenAfter doc seen xs = seen := by
  induction xs with
  | nil => rfl
  | cons x xs ih =>
    obtain ⟨h1, h2, h3⟩ := quiet_plain h x (by simp)
    simp only [seenAfter, h1, h2, h3, if_false, or_self]
    exact ih fun y hy => h y (by simp [hy])

theorem quiet_starts {xs : List Rec} (h : Quiet xs) : xs.filterMap recStart = [] := by
  rw [List.filterMap_eq_nil_iff]
  intro x hx
  simp [recStart, (quiet_plain h x hx).1]

theorem Slots.set {ts : List (BitVec 64)} {stk : List (Nat × Nat)} (h : Slots ts stk) {i : Nat}
    (hi : stk.length ≤ i) (t : BitVec 64) : Slots (ts.set i t) stk := by
  induction stk with
  | nil => trivial
  | cons x stk ih =>
    obtain ⟨o, len⟩ := x
    obtain ⟨⟨u, h1, h2⟩, h3⟩ := h
    simp only [List.length_cons] at hi
    refine ⟨⟨u, ?_, h2⟩, ih h3 (by omega)⟩
    rw [List.getElem?_set_ne (by omega)]
    exact h1

/-- The records, the stack and the tags of the document. -/
structure K (c : ParserCfg) (o0 out : ParserOut) (ts : List (BitVec 64)) (length2 depth bound : Int)
    (es : List Mark) (stk : List (Nat × Nat)) (recs : List Rec) : Prop where
  out : out = Parser.emit c.shallowDepth o0 recs
  len2 : length2 = 0
  tags : Tags c.xmlDoc es stk
  pos : ∀ e ∈ es, (e.pos : Int) < bound
  depth : depth = (stk.length : Int) - 1
  slots : Slots ts stk
  starts : recs.filterMap recStart = es.filterMap Mark.startOf
  small : ∀ x ∈ recs, Small x
  distinct : Distinct c.xmlDoc [] recs
  names : ∀ x ∈ recs, Named c.xmlDoc x

theorem tags_nil {doc : List UInt8} {stk : List (Nat × Nat)} (h : Tags doc [] stk) : stk = [] := by
  generalize he : ([] : List Mark) = es at h
  cases h with
  | nil => rfl
  | start => simp at he
  | empty => simp at he
  | close => simp at he

section
variable {o0 out : ParserOut} {ts : List (BitVec 64)} {l2 d b b' : Int} {es : List Mark} {stk : List (Nat × Nat)}
  {recs : List Rec}

theorem K.bound (h : K c o0 out ts l2 d b es stk recs) (hb : b ≤ b') : K c o0 out ts l2 d b' es stk recs :=
  { h with pos := fun e he => by have := h.pos e he; omega }

theorem K.write (h : K c o0 out ts l2 d b es stk recs) {xs : List Rec} (hq : Quiet xs) :
    K c o0 (Parser.emit c.shallowDepth out xs) ts l2 d b es stk (recs ++ xs) :=
  { h with
    out := by rw [emit_append, ← h.out]
    starts := by rw [List.filterMap_append, quiet_starts hq, List.append_nil]; exact h.starts
    small := fun x hx => by
      rcases List.mem_append.mp hx with hx | hx
      · exact h.small x hx
      · intro hl; have := hq x hx; omega
    names := fun x hx => by
      rcases List.mem_append.mp hx with hx | hx
      · exact h.names x hx
      · obtain ⟨h1, h2, h3⟩ := quiet_plain hq x hx
        exact ⟨fun h => absurd h h1, fun h => by rcases h with h | h; exact absurd h h2; exact absurd h h3⟩
    distinct := by
      rw [distinct_append]
      refine ⟨h.distinct, ?_⟩
      have := (distinct_plain (doc := c.xmlDoc) (b := []) (quiet_plain hq) (seenAfter c.xmlDoc [] recs)).mpr trivial
      simpa using this }

theorem K.frame {p' : Parser} (h : K c o0 p.out p.tagStack p.length2 p.depth b es stk recs) (hf : QFrame p p')
    (hc : p.cfg = c) (hb : b ≤ b') :
    ∃ xs, Quiet xs ∧ K c o0 p'.out p'.tagStack p'.length2 p'.depth b' es stk (recs ++ xs) := by
  obtain ⟨xs, h1, h2⟩ := hf.out
  refine ⟨xs, h2, ?_⟩
  rw [h1, hc, hf.tagStack, hf.length2, hf.depth]
  exact (h.write h2).bound hb

theorem K.start (h : K c o0 out ts l2 d b es stk recs) {q len k : Nat} {l : Int} {t : BitVec 64}
    (hb : b ≤ q) (hroot : stk = [] → es = []) (hk : k ≤ 4) (hk0 : stk ≠ [] → k = 0) (hn : Grammar.NameAt c.xmlDoc q len k)
    (hlo : low32 t = q) (hhi : high32 t = len) (hts : stk.length < ts.length) (hq : (q : Int) < b') (hq' : (q : Int) < 2 ^ 31)
    (hl0 : 0 ≤ l) (hl1 : l < 2 ^ 20) (hd : d + 1 ≤ 254) (hnm : Named c.xmlDoc ⟨.startingTag, q, l, d + 1⟩) :
    K c o0 (Parser.emit c.shallowDepth out [⟨.startingTag, q, l, d + 1⟩]) (ts.set stk.length t) 0 (d + 1) b'
      (es ++ [.start q len stk.length]) ((q, len) :: stk) (recs ++ [⟨.startingTag, q, l, d + 1⟩]) := by
  have hdep := h.depth
  refine ⟨?_, rfl, ?_, ?_, ?_, ?_, ?_, ?_, ?_, ?_⟩
  · rw [emit_append, ← h.out]
  · refine .start h.tags (fun e he => ?_) hroot hk hk0 hn
    have := h.pos e he; omega
  · intro e he
    rcases List.mem_append.mp he with he | he
    · have := h.pos e he; omega
    · rw [List.mem_singleton.mp he]; exact hq
  · simp only [List.length_cons]; omega
  · exact ⟨⟨t, by rw [List.getElem?_set_self hts], hlo, hhi⟩, h.slots.set (Nat.le_refl _) t⟩
  · rw [List.filterMap_append, List.filterMap_append, h.starts]
    have : (d + 1).toNat = stk.length := by omega
    simp [recStart, Mark.startOf, this]
  · intro x hx
    rcases List.mem_append.mp hx with hx | hx
    · exact h.small x hx
    · rw [List.mem_singleton.mp hx]
      exact fun _ => ⟨by simp, hq', hl0, hl1, by simp only; omega, hd⟩
  · rw [distinct_append]
    exact ⟨h.distinct, by simp [Distinct]⟩
  · intro x hx
    rcases List.mem_append.mp hx with hx | hx
    · exact h.names x hx
    · rw [List.mem_singleton.mp hx]; exact hnm

theorem K.pop {o len q : Nat} {e : Mark} (h : K c o0 out ts l2 d b es ((o, len) :: stk) recs) (he : e.pos = q)
    (hs : e.startOf = none) (hq : (q : Int) < b') (hb : b ≤ b') (ht : Tags c.xmlDoc (es ++ [e]) stk) :
    K c o0 out ts l2 (d - 1) b' (es ++ [e]) stk recs := by
  have hdep := h.depth
  refine { h with tags := ht, pos := ?_, depth := ?_, slots := h.slots.2, starts := ?_ }
  · intro x hx
    rcases List.mem_append.mp hx with hx | hx
    · have := h.pos x hx; omega
    · rw [List.mem_singleton.mp hx, he]; exact hq
  · simp only [List.length_cons] at hdep; omega
  · rw [List.filterMap_append, h.starts]; simp [hs]

theorem K.attr (h : K c o0 out ts l2 d b es stk recs) {t : Token} {q l : Int} (ht : t = .attrName ∨ t = .attrNs)
    (hq : 0 ≤ q) (hq' : q < 2 ^ 31) (hl0 : 0 ≤ l) (hl1 : l < 2 ^ 20) (hd : d ≤ 254) (hd0 : 0 ≤ d)
    (hn : Rec.name c.xmlDoc ⟨t, q, l, d⟩ ∉ seenAfter c.xmlDoc [] recs) (hnm : Named c.xmlDoc ⟨t, q, l, d⟩) :
    K c o0 (Parser.emit c.shallowDepth out [⟨t, q, l, d⟩]) ts l2 d b es stk (recs ++ [⟨t, q, l, d⟩]) := by
  have hts : t ≠ .startingTag := by rcases ht with rfl | rfl <;> decide
  refine { h with out := ?_, starts := ?_, small := ?_, distinct := ?_, names := ?_ }
  · rw [emit_append, ← h.out]
  · rw [List.filterMap_append, h.starts]; simp [recStart, hts]
  · intro x hx
    rcases List.mem_append.mp hx with hx | hx
    · exact h.small x hx
    · rw [List.mem_singleton.mp hx]
      exact fun _ => ⟨hq, hq', hl0, hl1, hd0, hd⟩
  · rw [distinct_append]
    refine ⟨h.distinct, ?_⟩
    simp only [Distinct, hts, if_false, ht, if_true]
    exact ⟨hn, trivial⟩
  · intro x hx
    rcases List.mem_append.mp hx with hx | hx
    · exact h.names x hx
    · rw [List.mem_singleton.mp hx]; exact hnm

end

/-- The attribute names of the open start tag are in the table. -/
def Atts (doc : List UInt8) (names : List (BitVec 64)) (count : Int) (seen : List (List UInt8)) : Prop :=
  ∀ n ∈ seen, ∃ (i : Nat) (e : BitVec 64), (i : Int) < count ∧ names[i]? = some e ∧ low32 e = n.length ∧
    0 ≤ high32 e ∧ (doc.drop (high32 e).toNat).take n.length = n

/-- States in which the offset is the position of the reader, other than those in which `Inv` says so. -/
def mid : PState → Bool
  | .text | .piVal | .startComment | .cdata | .docType | .attrVal => true
  | _ => false

/-- The invariant of `Parse`. -/
structure G (c : ParserCfg) (o0 : ParserOut) (st : PState) (p : Parser) (es : List Mark) (stk : List (Nat × Nat))
    (recs : List Rec) : Prop where
  inv : Inv c st p
  k : K c o0 p.out p.tagStack p.length2 (if st = .tagStart then p.depth - 1 else p.depth)
    (if st = .tagStart then p.lastOffset else p.rd.offset) es stk recs
  root : after st = true ↔ stk = [] ∧ es ≠ []
  sync : mid st = true → p.offset = p.rd.offset
  lt : st = .ltSeen → p.offset = p.rd.offset ∨ (es = [] ∧ p.rd.offset ≤ p.offset + 4 ∧ c.xmlDoc[p.offset.toNat]? = some 0x3F)
  doc : st = .docStart → es = []
  tagS : st = .tagStart → ∃ k : Nat, k ≤ 4 ∧ (stk ≠ [] → k = 0) ∧ (k ≠ 0 → c.xmlDoc[p.lastOffset.toNat]? = some 0x3F) ∧ p.lastOffset + k + 1 = p.offset ∧
    ∃ b, c.xmlDoc[(p.lastOffset + k).toNat]? = some b ∧ StartByte b
  tagE : st = .tagEnd → 1 ≤ p.offset ∧ c.xmlDoc[(p.offset - 1).toNat]? = some 0x2F
  attr : st = .attrName ∨ st = .attrVal → (∃ o len stk', stk = (o, len) :: stk' ∧
    es.getLast? = some (.start o len stk'.length)) ∧
    Atts c.xmlDoc p.at_.attrNameSlice p.at_.attrCount (seenAfter c.xmlDoc [] recs)
  attrS : st = .attrName → p.offset = p.lastOffset + 1 ∧
    ∃ b, c.xmlDoc[p.lastOffset.toNat]? = some b ∧ StartByte b ∧ p.currentChar = b.toNat

/-- What is required of a step. -/
def Post {α : Type} (r : Res Parser α) (Q : α → Parser → Prop) : Prop := r.Sat Q (fun _ _ => True) True True

theorem Post.mono {α : Type} {r : Res Parser α} {Q Q' : α → Parser → Prop} (h : Post r Q) (hQ : ∀ a s, Q a s → Q' a s) :
    Post r Q' := Res.Sat.mono h hQ (fun _ _ h => h) id id
theorem Post.of {α : Type} {r : Res Parser α} {Q : α → Parser → Prop} (h : ∀ a s, r = .ok a s → Q a s) : Post r Q := by
  cases r with
  | ok a s => exact h a s rfl
  | err => trivial
  | panic => trivial
  | diverge => trivial
theorem Post.eq {α : Type} {r : Res Parser α} {Q : α → Parser → Prop} (h : Post r Q) {a s} (hr : r = .ok a s) : Q a s := by
  subst hr; exact h
theorem sat_post {α : Type} {r : Res Parser α} {Q : α → Parser → Prop} {E : GoErr → Parser → Prop} {P D : Prop}
    (h : r.Sat Q E P D) : Post r Q := Res.Sat.mono h (fun _ _ h => h) (fun _ _ _ => trivial) (fun _ => trivial) (fun _ => trivial)
theorem Post.bind {α β : Type} {m : M Parser α} {k : α → M Parser β} {Q : α → Parser → Prop} {Q' : β → Parser → Prop}
    (h : Post (m p) Q) (hk : ∀ a s, Q a s → Post (k a s) Q') : Post ((m >>= k) p) Q' := Res.Sat.bind h hk
theorem Post.ite {β : Type} {q : Prop} [Decidable q] {a b : M Parser β} {Q : β → Parser → Prop}
    (ha : q → Post (a p) Q) (hb : ¬ q → Post (b p) Q) : Post ((if q then a else b) p) Q := ite_sat ha hb
theorem Post.get {β : Type} {k : Parser → M Parser β} {Q : β → Parser → Prop} (h : Post (k p p) Q) :
    Post ((M.get >>= k) p) Q := h
theorem Post.modify {β : Type} {f : Parser → Parser} {k : Unit → M Parser β} {Q : β → Parser → Prop}
    (h : Post (k () (f p)) Q) : Post ((M.modify f >>= k) p) Q := h
theorem post_err {α : Type} {Q : α → Parser → Prop} (msg : String) : Post ((parseErr msg : M Parser α) p) Q := by
  refine Post.of fun a s h => ?_
  unfold parseErr at h
  rw [M.bind_apply] at h
  cases hx : fmtLine p <;> rw [hx] at h <;> cases h
theorem post_wrap {α : Type} {m : M Parser α} {Q : α → Parser → Prop} {msg : String} (h : Post (m p) Q) :
    Post (wrapInternal msg m p) Q := by
  refine Post.of fun a s hr => ?_
  simp only [wrapInternal, M.catchErr_apply] at hr
  cases hx : m p <;> rw [hx] at hr
  · simp only [Res.handle_ok] at hr; cases hr; exact h.eq hx
  · simp only [Res.handle, M.raise_apply] at hr; cases hr
  · cases hr
  · cases hr

/-- The next invariant, with some tags and records. The end tags are those at `cl`. -/
def Good (c : ParserCfg) (o0 : ParserOut) (cl : List Nat) (st : PState) (p : Parser) : Prop :=
  ∃ es stk recs, closes es = cl ∧ G c o0 st p es stk recs

theorem closes_close (es : List Mark) (q : Nat) : closes (es ++ [.close q]) = closes es ++ [q] := by simp [closes, Mark.closeOf]
theorem closes_empty (es : List Mark) (q : Nat) : closes (es ++ [.empty q]) = closes es := by simp [closes, Mark.closeOf]
theorem closes_start (es : List Mark) (q len l : Nat) : closes (es ++ [.start q len l]) = closes es := by simp [closes, Mark.closeOf]

theorem Post.cl {r : Res Parser PState} {o0 : ParserOut} {a b : List Nat} (h : a = b) (hp : Post r (Good c o0 a)) :
    Post r (Good c o0 b) := h ▸ hp

/-- A state that needs nothing special. -/
def plain : PState → Bool
  | .docStart | .tagStart | .tagEnd | .attrName | .attrVal => false
  | _ => true

section
variable {o0 : ParserOut} {es : List Mark} {stk : List (Nat × Nat)} {recs : List Rec}

theorem G.plain {st : PState} (hi : Inv c st p)
    (hk : K c o0 p.out p.tagStack p.length2 p.depth p.rd.offset es stk recs)
    (hr : after st = true ↔ stk = [] ∧ es ≠ []) (hst : Ev.plain st = true)
    (hs : synced st = true → p.offset = p.rd.offset) : G c o0 st p es stk recs := by
  cases st <;> simp only [Ev.plain, Bool.false_eq_true] at hst <;>
  exact ⟨hi, hk, hr, (by first | exact fun _ => hs rfl | exact fun h => by cases h),
    (by first | exact fun _ => .inl (hs rfl) | exact fun h => by cases h), (by intro h; cases h), (by intro h; cases h),
    (by intro h; cases h), (by rintro (h | h) <;> cases h), (by intro h; cases h)⟩

/-- A step that leaves the tags alone, before the end of the root element. -/
theorem quiet_next {m : M Parser PState} {lo b : Int}
    (hk : K c o0 p.out p.tagStack p.length2 p.depth b es stk recs) (hroot : stk = [] → es = []) (hb : Base c p)
    (hok : StepOk c lo (m p)) (hlo : b ≤ lo + 1) (hq : Fr QF m) (he : Ends between m)
    (hs : ∀ st' p', m p = .ok st' p' → synced st' = true → p'.offset = p'.rd.offset) : Post (m p) (Good c o0 (closes es)) := by
  refine Post.of fun st' p' h => ?_
  obtain ⟨hi, hlt⟩ := hok.ok h
  obtain ⟨xs, hx, hk'⟩ := hk.frame (b' := p'.rd.offset) (hq.ok h hb.out hb.enc hb.ws) hb.cfg (by omega)
  have hst := he _ _ _ h
  refine ⟨es, stk, recs ++ xs, rfl, G.plain hi hk' ?_ ?_ (hs st' p' h)⟩
  · constructor
    · intro ha
      cases st' <;> simp [after, between] at ha hst
    · rintro ⟨h1, h2⟩; exact absurd (hroot h1) h2
  · cases st' <;> simp [Ev.plain, between] at hst ⊢

theorem synced_between {m : M Parser PState} (h : Ends synced m) : Ends between m := by
  intro s st s' he
  have := h s st s' he
  cases st <;> simp [synced, between] at this ⊢

/-- The same, after the root element. -/
theorem after_next {m : M Parser PState} {lo b : Int}
    (hk : K c o0 p.out p.tagStack p.length2 p.depth b es stk recs) (hroot : stk = [] ∧ es ≠ []) (hb : Base c p)
    (hok : StepOk c lo (m p)) (hlo : b ≤ lo + 1) (hq : Fr QF m) (he : Ends after m) : Post (m p) (Good c o0 (closes es)) := by
  refine Post.of fun st' p' h => ?_
  obtain ⟨hi, hlt⟩ := hok.ok h
  obtain ⟨xs, hx, hk'⟩ := hk.frame (b' := p'.rd.offset) (hq.ok h hb.out hb.enc hb.ws) hb.cfg (by omega)
  have hst := he _ _ _ h
  refine ⟨es, stk, recs ++ xs, rfl, G.plain hi hk' ⟨fun _ => hroot, fun _ => hst⟩ ?_ ?_⟩
  · cases st' <;> simp [Ev.plain, after] at hst ⊢
  · cases st' <;> simp [synced, after] at hst ⊢

theorem G.notAfter {st : PState} (h : G c o0 st p es stk recs) (ha : after st = false) : stk = [] → es = [] := by
  intro hs
  apply Decidable.byContradiction
  intro he
  have := h.root.mpr ⟨hs, he⟩
  rw [ha] at this; cases this

/-- The common case of `quiet_next`. -/
theorem G.quiet {st : PState} {m : M Parser PState} (h : G c o0 st p es stk recs) (ht : st ≠ .tagStart)
    (ha : after st = false) (hok : StepOk c p.rd.offset (m p)) (hq : Fr QF m) (he : Ends synced m)
    (hs : ∀ st' p', m p = .ok st' p' → p'.offset = p'.rd.offset) : Post (m p) (Good c o0 (closes es)) := by
  have hk := h.k
  rw [if_neg ht, if_neg ht] at hk
  exact quiet_next hk (h.notAfter ha) h.inv.base hok (by omega) hq (synced_between he) fun st' p' h _ => hs st' p' h

theorem G.after {st : PState} {m : M Parser PState} (h : G c o0 st p es stk recs) (ha : after st = true)
    (hok : StepOk c p.rd.offset (m p)) (hq : Fr QF m) (he : Ends Ev.after m) : Post (m p) (Good c o0 (closes es)) := by
  have ht : st ≠ .tagStart := by rintro rfl; cases ha
  have hk := h.k
  rw [if_neg ht, if_neg ht] at hk
  exact after_next hk (h.root.mp ha) h.inv.base hok (by omega) hq he

end

/-! ## Bytes -/

/-- The byte that was read. -/
theorem nextChar_byte (hb : Base c p) : Post (nextChar p) fun _ p' => ∃ b : UInt8,
    p' = p.mv (p.rd.offset + 1) (p.rd.offset + 1) b.toNat ∧ Base c p' ∧ p.rd.offset < c.endOffset ∧
    c.xmlDoc[p.rd.offset.toNat]? = some b := by
  rw [nextChar_eq hb]
  have h0 := hb.off0; have h1 := hb.off1; have h2 := hb.end1
  split
  · rename_i h
    exact ⟨_, rfl, hb.mv _ (by omega) (by omega) (by omega) (fun _ => by omega), h, by simp⟩
  · trivial

theorem getChar_byte (hb : Base c p) : Post (getChar p) fun ch p' => ∃ b : UInt8, ch = b.toNat ∧
    p' = p.mv (p.rd.offset + 1) (p.rd.offset + 1) p.currentChar ∧ Base c p' ∧ p.rd.offset < c.endOffset ∧
    c.xmlDoc[p.rd.offset.toNat]? = some b := by
  rw [getChar_eq hb]
  have h0 := hb.off0; have h1 := hb.off1; have h2 := hb.end1
  split
  · rename_i h
    exact ⟨_, rfl, rfl, hb.mv _ (by omega) (by omega) (by omega) (fun _ => by omega), h, by simp⟩
  · trivial

theorem skipChar_byte (hb : Base c p) (ch : UInt8) (hch : ch ≠ 0) : Post (skipChar ch.toNat p) fun x p' =>
    p' = p.mv (p.rd.offset + x.toNat) (p.rd.offset + x.toNat) p.currentChar ∧ Base c p' ∧
    (x = true → c.xmlDoc[p.rd.offset.toNat]? = some ch) := by
  refine Post.of fun x p' h => ?_
  obtain ⟨h1, h2⟩ := (skipChar_sat hb (ch := ch.toNat) (by intro h; exact hch (UInt8.toNat_inj.mp h))).ok h
  refine ⟨h1, h2, ?_⟩
  rintro rfl
  by_cases hl : p.rd.offset < c.xmlDoc.length
  · rw [skipChar_eq hb _ hl] at h
    split at h
    · rename_i he
      rw [List.getElem?_eq_getElem, UInt8.toNat_inj.mp he]
    · cases h
  · rw [skipChar_panic hb _ (by omega)] at h; cases h

/-- White space and then the byte that was read. -/
theorem nextCharAfterWs_byte (hb : Base c p) : Post (nextCharAfterWs p) fun _ p' => ∃ (r : Int) (b : UInt8) (w : List UInt8),
    p' = p.mv (r + 1) (r + 1) b.toNat ∧ Base c p' ∧ p.rd.offset ≤ r ∧ r < c.endOffset ∧
    c.xmlDoc[r.toNat]? = some b ∧ AllWs w ∧ (c.xmlDoc.drop p.rd.offset.toNat) = w ++ c.xmlDoc.drop r.toNat := by
  have key : ∀ fuel {p : Parser}, Base c p → Post (nextCharAfterWsLoop fuel p) fun _ p' =>
      ∃ (r : Int) (b : UInt8) (w : List UInt8), p' = p.mv (r + 1) (r + 1) b.toNat ∧ Base c p' ∧ p.rd.offset ≤ r ∧
      r < c.endOffset ∧ c.xmlDoc[r.toNat]? = some b ∧ AllWs w ∧
      (c.xmlDoc.drop p.rd.offset.toNat) = w ++ c.xmlDoc.drop r.toNat := by
    intro fuel
    induction fuel with
    | zero => intro p hb; trivial
    | succ fuel ih =>
      intro p hb
      have h0 := hb.off0; have h1 := hb.off1
      refine Post.bind (nextChar_byte hb) fun _ p' ⟨b, h, hb', hlt, hd⟩ => Post.get (Post.ite (fun hw => ?_) fun _ => ?_)
      · subst h
        refine (ih hb').mono fun _ p' ⟨r, b', w, h1, h2, h3, h4, h5, h6, h7⟩ => ?_
        subst h1
        simp only [mv_rdOffset] at h3 h7
        refine ⟨r, b', b :: w, rfl, h2, by omega, h4, h5, ?_, ?_⟩
        · intro x hx
          rcases List.mem_cons.mp hx with rfl | hx
          · exact (isSpaceChar_iff _).mp hw
          · exact h6 x hx
        · obtain ⟨hl, hd'⟩ := List.getElem?_eq_some_iff.mp hd
          rw [List.drop_eq_getElem_cons hl, hd', List.cons_append, ← h7]
          congr 2; omega
      · exact ⟨p.rd.offset, b, [], h, hb', Int.le_refl _, hlt, hd, (fun _ h => by cases h), rfl⟩
  exact key _ hb

end Ev
end Parser
end GoVtd
