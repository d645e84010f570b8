import Verif.Proofs.Parser.Unambiguous

/-!
# Bytes after a part of the grammar

A nonterminal of `Verif/Spec/Nested.lean` that leaves a rest also derives its input with more bytes at the end. The
records are the same, as they hold offsets from the start.
-/

namespace GoVtd
namespace Grammar

open Tree

section
variable {z : List UInt8}

theorem offset_extend (n : Nat) (r : List UInt8) : offset (n + z.length) (r ++ z) = offset n r := by
  simp only [offset, List.length_append]; omega

theorem length_extend (a b : List UInt8) (k : Nat) : (a ++ z).length - ((b ++ z).length + k) = a.length - (b.length + k) := by
  simp only [List.length_append]; omega

theorem hexDigits_extend {v v' : Nat} {s r : List UInt8} (h : HexDigits v s v' r) : HexDigits v (s ++ z) v' (r ++ z) := by
  induction h with
  | stop => exact .stop
  | digit h _ ih => exact .digit h ih

theorem decDigits_extend {v v' : Nat} {s r : List UInt8} (h : DecDigits v s v' r) : DecDigits v (s ++ z) v' (r ++ z) := by
  induction h with
  | stop => exact .stop
  | digit h h' _ ih => exact .digit h h' ih

theorem ref_extend {v : Nat} {s r : List UInt8} (h : Ref s v r) : Ref (s ++ z) v (r ++ z) := by
  cases h with
  | hex h h' => exact .hex (hexDigits_extend h) h'
  | dec h h' => exact .dec (decDigits_extend h) h'
  | amp => exact .amp
  | apos => exact .apos
  | quot => exact .quot
  | gt => exact .gt
  | lt => exact .lt

theorem item_extend {s r : List UInt8} (h : Item s r) : Item (s ++ z) (r ++ z) := by
  cases h with
  | ref h => exact .ref (ref_extend h)
  | brackets h h' =>
    simp only [List.cons_append, List.append_assoc]
    exact .brackets h h'

theorem textBody_extend {s r : List UInt8} (h : TextBody s r) : TextBody (s ++ z) (r ++ z) := by
  induction h with
  | stop => exact .stop
  | char h _ ih => exact .char h ih
  | item h _ ih => exact .item (item_extend h) ih

theorem attrBody_extend {q : UInt8} {s r : List UInt8} (h : AttrBody q s r) : AttrBody q (s ++ z) (r ++ z) := by
  induction h with
  | stop => exact .stop
  | char h1 h2 h3 h4 _ ih => exact .char h1 h2 h3 h4 ih
  | ref h _ ih => exact .ref (ref_extend h) ih

theorem head_extend {s : List UInt8} (h : s ≠ []) : (s ++ z).head? = s.head? := by
  cases s with
  | nil => exact absurd rfl h
  | cons => rfl

theorem commentBody_extend {s r : List UInt8} (h : CommentBody s r) : CommentBody (s ++ z) (r ++ z) := by
  induction h with
  | stop => exact .stop
  | @char b s r h1 h2 h ih =>
    have : s ≠ [] := by cases h <;> simp
    exact .char h1 (fun e => (head_extend (z := z) this).symm ▸ h2 e) ih

theorem piBody_extend {s r : List UInt8} (h : PiBody s r) : PiBody (s ++ z) (r ++ z) := by
  induction h with
  | stop => exact .stop
  | @char b s r h1 h2 h ih =>
    have : s ≠ [] := by cases h <;> simp
    exact .char h1 (fun e => (head_extend (z := z) this).symm ▸ h2 e) ih

theorem cdataBody_extend {s r : List UInt8} (h : CdataBody s r) : CdataBody (s ++ z) (r ++ z) := by
  induction h with
  | stop => simp only [List.cons_append, List.append_assoc]; exact .stop
  | char h1 h2 _ ih => exact .char h1 h2 ih
  | brackets h1 h2 _ ih => simp only [List.cons_append, List.append_assoc]; exact .brackets h1 h2 ih

theorem dtdBody_extend {k : Nat} {s r : List UInt8} (h : DtdBody k s r) : DtdBody k (s ++ z) (r ++ z) := by
  induction h with
  | stop => exact .stop
  | close _ ih => exact .close ih
  | opening _ ih => exact .opening ih
  | char h1 h2 h3 _ ih => exact .char h1 h2 h3 ih

/-- Three bytes are enough to know. -/
theorem xmlPrefix_extend {b x : UInt8} {run r : List UInt8} (hx : ¬ NameByte x) :
    XmlPrefix (b :: (run ++ x :: r) ++ z) ↔ XmlPrefix (b :: (run ++ x :: r)) := by
  have k : ∀ c : UInt8, (c = ch% 'm' ∨ c = ch% 'M') ∨ (c = ch% 'l' ∨ c = ch% 'L') → c ≠ x := by
    rintro c h rfl
    have : NameByte (ch% 'm') ∧ NameByte (ch% 'M') ∧ NameByte (ch% 'l') ∧ NameByte (ch% 'L') := by
      refine ⟨?_, ?_, ?_, ?_⟩ <;> exact (isNameChar_iff _).1 (by decide)
    rcases h with (rfl | rfl) | (rfl | rfl)
    · exact hx this.1
    · exact hx this.2.1
    · exact hx this.2.2.1
    · exact hx this.2.2.2
  constructor
  · rintro ⟨a, b', c, r', e, h1, h2, h3⟩
    match run with
    | [] =>
      simp only [List.cons_append, List.nil_append, List.cons.injEq] at e
      exact absurd e.2.1.symm (k _ (.inl h2))
    | [y] =>
      simp only [List.cons_append, List.nil_append, List.cons.injEq] at e
      exact absurd e.2.2.1.symm (k _ (.inr h3))
    | y :: y' :: run =>
      simp only [List.cons_append, List.cons.injEq] at e
      obtain ⟨rfl, rfl, rfl, -⟩ := e
      exact ⟨_, _, _, _, rfl, h1, h2, h3⟩
  · rintro ⟨a, b', c, r', e, h⟩
    exact ⟨a, b', c, r' ++ z, by rw [e]; rfl, h⟩

theorem piTarget_extend {x : UInt8} {s r : List UInt8} (h : PiTarget s x r) : PiTarget (s ++ z) x (r ++ z) := by
  cases h with
  | plain h1 h2 h3 h4 =>
    have := mt (xmlPrefix_extend (z := z) h4).1 h2
    simp only [List.cons_append, List.append_assoc] at this ⊢
    exact .plain h1 this h3 h4
  | xml h1 h2 h3 h4 h5 =>
    simp only [List.cons_append, List.append_assoc]
    exact .xml h1 h2 h3 h4 h5

theorem int_extend (a b : List UInt8) (k : Int) :
    ((a ++ z).length : Int) - ((b ++ z).length + k) = a.length - (b.length + k) := by
  simp only [List.length_append]; omega

theorem pi_extend {n : Nat} {d : Int} {s r : List UInt8} {recs : List Rec} (h : Pi n d s recs r) :
    Pi (n + z.length) d (s ++ z) recs (r ++ z) := by
  cases h with
  | bare h1 h2 =>
    have := Pi.bare (n := n + z.length) (depth := d) (r1 := r ++ z) (piTarget_extend (z := z) h1) (by rw [length_extend]; exact h2)
    rw [offset_extend, int_extend] at this
    exact this
  | value h1 h2 h3 h4 h5 =>
    have := Pi.value (n := n + z.length) (depth := d) (piTarget_extend (z := z) h1) h2 (by rw [length_extend]; exact h3)
      (piBody_extend h4) (by rw [length_extend]; exact h5)
    rw [offset_extend, offset_extend, int_extend, int_extend] at this
    exact this

theorem close_extend {s r : List UInt8} {e : Bool} (h : Close s e r) : Close (s ++ z) e (r ++ z) := by
  cases h with
  | start => exact .start
  | empty => exact .empty

theorem attrRec_extend (n : Nat) (d : Int) (r name : List UInt8) :
    attrRec (n + z.length) d (r ++ z) name = attrRec n d r name := by
  simp only [attrRec, offset_extend]

theorem tagRest_extend {n : Nat} {d : Int} {seen : List (List UInt8)} {s r : List UInt8} {recs : List Rec} {e : Bool}
    (h : TagRest n d seen s recs e r) : TagRest (n + z.length) d seen (s ++ z) recs e (r ++ z) := by
  induction h with
  | close hw hc => rw [List.append_assoc]; exact .close hw (close_extend hc)
  | @attr seen w b run w1 w2 q r r1 recs e r' h0 hw hs hr h1 h2 h3 h4 hw1 hw2 hq hb hl _ ih =>
    have := TagRest.attr (n := n + z.length) (depth := d) h0 hw hs hr h1 h2 h3 h4 hw1 hw2 hq (attrBody_extend (z := z) hb)
      (by rw [length_extend]; exact hl) ih
    rw [offset_extend, int_extend, show b :: run ++ w1 ++ ch% '=' :: w2 ++ q :: (r ++ z) =
      (b :: run ++ w1 ++ ch% '=' :: w2 ++ q :: r) ++ z by simp, attrRec_extend] at this
    rw [show w ++ b :: run ++ w1 ++ ch% '=' :: w2 ++ q :: r ++ z = w ++ b :: run ++ w1 ++ ch% '=' :: w2 ++ q :: (r ++ z) by simp]
    exact this

theorem tag_extend {n d : Nat} {pre name s r : List UInt8} {recs : List Rec} {e : Bool}
    (h : Tag n d pre name s recs e r) : Tag (n + z.length) d pre name (s ++ z) recs e (r ++ z) := by
  cases h with
  | @mk b run x r recs _ _ h1 h2 h3 h4 h5 h6 ht =>
    have := Tag.mk (n := n + z.length) (d := d) (pre := pre) h1 h2 h3 h4 h5 h6 (tagRest_extend (z := z) ht)
    rw [show pre ++ b :: (run ++ x :: (r.append z)) = (pre ++ b :: (run ++ x :: r)) ++ z by simp, offset_extend] at this
    rw [show b :: (run ++ x :: r) ++ z = b :: (run ++ x :: (r.append z)) by simp]
    exact this

theorem inside_extend {n d : Nat} {part : Part} {s r : List UInt8} {recs : List Rec} (h : Inside n d part s recs r) :
    Inside (n + z.length) d part (s ++ z) recs (r ++ z) := by
  induction h with
  | endTag => exact .endTag
  | empty h _ ih => exact .empty (tag_extend h) ih
  | @element d name s recs r1 recs1 w r2 recs2 r' h _ hw _ ih1 ih2 =>
    refine .element (tag_extend h) (w := w) (r2 := r2 ++ z) ?_ hw ih2
    simpa using ih1
  | @comment d r r1 recs r' h _ ih =>
    have := Inside.comment (n := n + z.length) (r1 := r1 ++ z) (commentBody_extend (z := z) h) ih
    rw [offset_extend, int_extend] at this
    rw [List.append_assoc]
    exact this
  | @cdata d r r1 recs r' h _ ih =>
    have := Inside.cdata (n := n + z.length) (r1 := r1 ++ z) (cdataBody_extend (z := z) h) ih
    rw [offset_extend, int_extend] at this
    exact this
  | @doctype d r w r2 recs r' h hl hw _ ih =>
    have h' := dtdBody_extend (z := z) h
    have e : w ++ ch% '<' :: r2 ++ z = w ++ ch% '<' :: (r2 ++ z) := by simp
    have := Inside.doctype (n := n + z.length) (e ▸ h') (by rw [← e, length_extend]; exact hl) hw ih
    rw [← e, offset_extend, int_extend] at this
    exact this
  | pi h _ ih => exact .pi (pi_extend h) ih
  | @space d prev w r recs r' hw hs hi ih =>
    have e : w ++ ch% '<' :: r ++ z = w ++ ch% '<' :: (r ++ z) := by simp
    rw [e]
    exact .space hw (fun h => by rw [head_extend (inside_ne hi)]; exact hs h) ih
  | @gap d w r hw =>
    have := Inside.gap (n := n + z.length) (d := d) (w := w) (r := r ++ z) hw
    have e : w ++ ch% '<' :: ch% '/' :: r ++ z = w ++ ch% '<' :: ch% '/' :: (r ++ z) := by simp
    rw [← e, offset_extend] at this
    exact this
  | @text d prev w b r r1 recs r' hw h1 h2 h3 hb _ ih =>
    have := Inside.text (n := n + z.length) (d := d) (w := w) (b := b) (r := r ++ z) hw h1 h2 h3 (textBody_extend (z := z) hb) ih
    have e : w ++ b :: r ++ z = w ++ b :: (r ++ z) := by simp
    rw [← e, offset_extend, int_extend] at this
    exact this
  | @lost d w r r1 recs r' hw hi _ ih =>
    rw [List.append_assoc]
    exact .lost hw (item_extend hi) ih

end
end Grammar
end GoVtd
