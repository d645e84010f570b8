import Verif.Proofs.Parser.Fits

/-!
# The grammar is unambiguous

What a nonterminal of `Verif/Spec/Nested.lean` leaves of its input is determined by the input.
-/

namespace GoVtd
namespace Grammar

open Tree

theorem hexDigits_unique {v v1 v2 : Nat} {s r1 r2 : List UInt8} (h : HexDigits v s v1 r1) (h' : HexDigits v s v2 r2) :
    v1 = v2 ∧ r1 = r2 := by
  have k : hexVal (ch% ';') = none := by decide
  induction h with
  | stop =>
    cases h' with
    | stop => exact ⟨rfl, rfl⟩
    | digit h => rw [k] at h; cases h
  | digit h _ ih =>
    cases h' with
    | stop => rw [k] at h; cases h
    | digit g g' =>
      rw [h] at g
      cases g
      exact ih g'

theorem decDigits_unique {v v1 v2 : Nat} {s r1 r2 : List UInt8} (h : DecDigits v s v1 r1) (h' : DecDigits v s v2 r2) :
    v1 = v2 ∧ r1 = r2 := by
  induction h with
  | stop =>
    cases h' with
    | stop => exact ⟨rfl, rfl⟩
    | digit h1 h2 => exact absurd h2 (by decide)
  | digit h1 h2 _ ih =>
    cases h' with
    | stop => exact absurd h2 (by decide)
    | digit _ _ g' => exact ih g'

theorem decDigits_x {v v1 : Nat} {r r1 : List UInt8} : ¬ DecDigits v (ch% 'x' :: r) v1 r1 := by
  intro h
  cases h with
  | digit _ h2 => exact absurd h2 (by decide)

theorem ref_unique {s r1 r2 : List UInt8} {v1 v2 : Nat} (h : Ref s v1 r1) (h' : Ref s v2 r2) : v1 = v2 ∧ r1 = r2 := by
  cases h with
  | hex h _ =>
    cases h' with
    | hex g _ => exact hexDigits_unique h g
    | dec g _ => exact absurd g decDigits_x
  | dec h _ =>
    cases h' with
    | hex g _ => exact absurd h decDigits_x
    | dec g _ => exact decDigits_unique h g
  | amp => cases h' with | amp => exact ⟨rfl, rfl⟩
  | apos => cases h' with | apos => exact ⟨rfl, rfl⟩
  | quot => cases h' with | quot => exact ⟨rfl, rfl⟩
  | gt => cases h' with | gt => exact ⟨rfl, rfl⟩
  | lt => cases h' with | lt => exact ⟨rfl, rfl⟩

theorem item_unique {s r1 r2 : List UInt8} (h : Item s r1) (h' : Item s r2) : r1 = r2 := by
  cases h with
  | ref h => cases h' with | ref g => exact (ref_unique h g).2
  | @brackets k b r h1 h2 =>
    generalize hz : ch% ']' :: (List.replicate k (ch% ']') ++ b :: r) = z at h'
    cases h' with
    | ref g => simp at hz
    | brackets g1 g2 =>
      simp only [List.cons.injEq, true_and] at hz
      obtain ⟨rfl, rfl⟩ := brackets_eq hz h1 g1
      rfl

theorem content_item {b : UInt8} {s r : List UInt8} (hb : ContentByte b) (h : Item (b :: s) r) : False := by
  obtain ⟨c, t, e, hc⟩ := item_head h
  cases e
  obtain ⟨-, -, h1, h2⟩ := hb
  rcases hc with rfl | rfl
  · exact h1 rfl
  · exact h2 rfl

theorem content_lt : ¬ ContentByte (ch% '<') := fun h => h.2.1 rfl

theorem item_lt {s r : List UInt8} (h : Item (ch% '<' :: s) r) : False := by
  obtain ⟨c, t, e, hc⟩ := item_head h
  cases e
  exact absurd hc (by decide)

theorem textBody_unique {s r1 r2 : List UInt8} (h : TextBody s r1) (h' : TextBody s r2) : r1 = r2 := by
  induction h with
  | stop =>
    cases h' with
    | stop => rfl
    | char h => exact absurd h content_lt
    | item h => exact (item_lt h).elim
  | char hb _ ih =>
    cases h' with
    | stop => exact absurd hb content_lt
    | char _ g => exact ih g
    | item g => exact (content_item hb g).elim
  | item hi _ ih =>
    cases h' with
    | stop => exact (item_lt hi).elim
    | char hb g => exact (content_item hb hi).elim
    | item g g' => rw [item_unique hi g] at ih; exact ih g'

theorem attrBody_unique {q : UInt8} (hq : Quote q) {s r1 r2 : List UInt8} (h : AttrBody q s r1) (h' : AttrBody q s r2) : r1 = r2 := by
  have ha : ch% '&' ≠ q := by rcases hq with rfl | rfl <;> decide
  induction h with
  | stop =>
    cases h' with
    | stop => rfl
    | char _ _ _ h => exact absurd rfl h
    | ref => exact absurd rfl ha
  | char _ _ h1 h2 _ ih =>
    cases h' with
    | stop => exact absurd rfl h2
    | char _ _ _ _ g => exact ih g
    | ref => exact absurd rfl h1
  | ref h _ ih =>
    cases h' with
    | stop => exact absurd rfl ha
    | char _ _ g => exact absurd rfl g
    | ref g g' => rw [(ref_unique h g).2] at ih; exact ih g'

theorem dtdBody_unique {z : Nat} {s r1 r2 : List UInt8} (h : DtdBody z s r1) (h' : DtdBody z s r2) : r1 = r2 := by
  induction h with
  | stop =>
    cases h' with
    | stop => rfl
    | char _ _ h => exact absurd rfl h
  | close _ ih =>
    cases h' with
    | close g => exact ih g
    | char _ _ h => exact absurd rfl h
  | opening _ ih =>
    cases h' with
    | opening g => exact ih g
    | char _ h => exact absurd rfl h
  | char _ h1 h2 _ ih =>
    cases h' with
    | stop => exact absurd rfl h2
    | close => exact absurd rfl h2
    | opening => exact absurd rfl h1
    | char _ _ _ g => exact ih g

theorem pi_unique {n n' : Nat} {d d' : Int} {s r1 r2 : List UInt8} {recs recs' : List Rec} (h : Pi n d s recs r1)
    (h' : Pi n' d' s recs' r2) : r1 = r2 := by
  have k : ¬ Ws (ch% '?') := by simp only [Spec.S]; decide
  cases h with
  | bare h =>
    cases h' with
    | bare g => have := (piTarget_unique h g).2; simpa using this
    | value g hw => rw [← (piTarget_unique h g).1] at hw; exact absurd hw k
  | value h hw _ hb =>
    cases h' with
    | bare g => rw [(piTarget_unique h g).1] at hw; exact absurd hw k
    | value g _ _ gb =>
      rw [(piTarget_unique h g).2] at hb
      exact piBody_unique hb gb

theorem eq_not_name : ¬ NameByte (ch% '=') := by simp only [Spec.NameChar, Spec.NameStartChar]; decide

theorem tagRest_unique {n n' : Nat} {d d' : Int} {seen : List (List UInt8)} {s r1 r2 : List UInt8} {recs recs' : List Rec}
    {e1 e2 : Bool} (h : TagRest n d seen s recs e1 r1) (h' : TagRest n' d' seen s recs' e2 r2) : e1 = e2 ∧ r1 = r2 := by
  induction h generalizing recs' with
  | @close seen w r e r' hw hc =>
    generalize hz : w ++ r = z at h'
    obtain ⟨b, t, h1, h2, h3⟩ := close_head hc
    cases h' with
    | close gw gc =>
      obtain ⟨c, t', g1, g2, -⟩ := close_head gc
      obtain ⟨-, rfl⟩ := ws_cons hz hw gw ⟨b, t, h1, h2⟩ ⟨c, t', g1, g2⟩
      exact close_unique hc gc
    | attr g0 gw gs =>
      simp only [List.append_assoc, List.cons_append] at hz
      obtain ⟨-, e⟩ := ws_cons hz hw gw ⟨b, t, h1, h2⟩ ⟨_, _, rfl, start_not_ws gs⟩
      rw [h1] at e
      simp only [List.cons.injEq] at e
      obtain ⟨k1, -, -, k2, -⟩ := start_ne gs
      rcases h3 with rfl | rfl
      · exact absurd e.1.symm k2
      · exact absurd e.1.symm k1
  | @attr seen w b run w1 w2 q r r1 recs e r' h0 hw hs hr _ _ _ _ hw1 hw2 hq hb _ _ ih =>
    generalize hz : w ++ b :: run ++ w1 ++ ch% '=' :: w2 ++ q :: r = z at h'
    simp only [List.append_assoc, List.cons_append] at hz
    cases h' with
    | close gw gc =>
      obtain ⟨c, t', g1, g2, g3⟩ := close_head gc
      obtain ⟨-, e⟩ := ws_cons hz hw gw ⟨_, _, rfl, start_not_ws hs⟩ ⟨c, t', g1, g2⟩
      rw [g1] at e
      simp only [List.cons.injEq] at e
      obtain ⟨k1, -, -, k2, -⟩ := start_ne hs
      rcases g3 with rfl | rfl
      · exact absurd e.1 k2
      · exact absurd e.1 k1
    | attr g0 gw gs gr _ _ _ _ gw1 gw2 gq gb _ gt =>
      simp only [List.append_assoc, List.cons_append] at hz
      obtain ⟨-, e⟩ := ws_cons hz hw gw ⟨_, _, rfl, start_not_ws hs⟩ ⟨_, _, rfl, start_not_ws gs⟩
      simp only [List.cons.injEq] at e
      obtain ⟨rfl, e⟩ := e
      obtain ⟨rfl, e2⟩ := name_eq e hr gr (ws_head hw1 ⟨_, _, rfl, eq_not_name⟩) (ws_head gw1 ⟨_, _, rfl, eq_not_name⟩)
      obtain ⟨-, e⟩ := ws_cons e2 hw1 gw1 ⟨_, _, rfl, eq_not_ws⟩ ⟨_, _, rfl, eq_not_ws⟩
      simp only [List.cons.injEq, true_and] at e
      obtain ⟨-, e⟩ := ws_cons e hw2 gw2 ⟨_, _, rfl, quote_facts hq⟩ ⟨_, _, rfl, quote_facts gq⟩
      simp only [List.cons.injEq] at e
      obtain ⟨rfl, rfl⟩ := e
      rw [← attrBody_unique hq hb gb] at gt
      exact ih gt

theorem tag_unique {n n' d : Nat} {pre name name' s r1 r2 : List UInt8} {recs recs' : List Rec} {e1 e2 : Bool}
    (h : Tag n d pre name s recs e1 r1) (h' : Tag n' d pre name' s recs' e2 r2) : name = name' ∧ e1 = e2 ∧ r1 = r2 := by
  cases h with
  | @mk b run x r recs _ _ h1 h2 h3 _ _ _ ht =>
    generalize hz : b :: (run ++ x :: r) = z at h'
    cases h' with
    | mk g1 g2 g3 _ _ _ gt =>
      simp only [List.cons.injEq] at hz
      obtain ⟨rfl, e⟩ := hz
      obtain ⟨rfl, rfl, rfl⟩ := span_eq (P := NameByte) e h2 h3 g2 g3
      exact ⟨rfl, tagRest_unique ht gt⟩

theorem tag_head {n d : Nat} {pre name s r : List UInt8} {recs : List Rec} {e : Bool} (h : Tag n d pre name s recs e r) :
    ∃ b t, s = b :: t ∧ b ≠ ch% '/' ∧ b ≠ ch% '!' ∧ b ≠ ch% '?' := by
  cases h with
  | mk h => exact ⟨_, _, rfl, (start_ne h).1, (start_ne h).2.1, (start_ne h).2.2.1⟩

theorem inside_ne {n d : Nat} {part : Part} {s r : List UInt8} {recs : List Rec} (h : Inside n d part s recs r) : s ≠ [] := by
  cases h with
  | empty h => obtain ⟨b, t, rfl, -⟩ := tag_head h; simp
  | element h => obtain ⟨b, t, rfl, -⟩ := tag_head h; simp
  | lost _ h => obtain ⟨b, t, rfl, -⟩ := item_head h; simp
  | _ => simp

theorem inside_unique {n n' d : Nat} {part : Part} {s r1 r2 : List UInt8} {recs recs' : List Rec}
    (h : Inside n d part s recs r1) (h' : Inside n' d part s recs' r2) : r1 = r2 := by
  have hlt : ∀ r : List UInt8, ∃ b t, (ch% '<' :: r : List UInt8) = b :: t ∧ ¬ Ws b := fun r => ⟨_, _, rfl, lt_not_ws.1⟩
  have hgt : ∀ r : List UInt8, ∃ b t, (ch% '>' :: r : List UInt8) = b :: t ∧ ¬ Ws b := fun r => ⟨_, _, rfl, gt_not_ws⟩
  induction h generalizing recs' r2 with
  | endTag =>
    cases h' with
    | endTag => rfl
    | empty g => obtain ⟨b, t, e, h1, -⟩ := tag_head g; cases e; exact absurd rfl h1
    | element g => obtain ⟨b, t, e, h1, -⟩ := tag_head g; cases e; exact absurd rfl h1
  | empty h _ ih =>
    obtain ⟨b, t, rfl, k1, k2, k3⟩ := tag_head h
    cases h' with
    | endTag => exact absurd rfl k1
    | empty g g' => rw [(tag_unique h g).2.2] at ih; exact ih g'
    | element g => exact absurd (tag_unique h g).2.1 (by decide)
    | comment => exact absurd rfl k2
    | cdata => exact absurd rfl k2
    | doctype => exact absurd rfl k2
    | pi => exact absurd rfl k3
  | element h _ hw _ ih1 ih2 =>
    obtain ⟨b, t, rfl, k1, k2, k3⟩ := tag_head h
    cases h' with
    | endTag => exact absurd rfl k1
    | empty g g' => exact absurd (tag_unique h g).2.1 (by decide)
    | element g g1 gw g2 =>
      obtain ⟨rfl, -, rfl⟩ := tag_unique h g
      have e := ih1 g1
      simp only [List.append_assoc] at e
      obtain ⟨-, e⟩ := ws_cons (List.append_cancel_left e) hw gw (hgt _) (hgt _)
      simp only [List.cons.injEq, true_and] at e
      rw [e] at ih2
      exact ih2 g2
    | comment => exact absurd rfl k2
    | cdata => exact absurd rfl k2
    | doctype => exact absurd rfl k2
    | pi => exact absurd rfl k3
  | comment h _ ih =>
    cases h' with
    | empty g => obtain ⟨b, t, e, _, h1, -⟩ := tag_head g; cases e; exact absurd rfl h1
    | element g => obtain ⟨b, t, e, _, h1, -⟩ := tag_head g; cases e; exact absurd rfl h1
    | comment g g' =>
      have e := commentBody_unique h g
      simp only [List.cons.injEq, true_and] at e
      rw [e] at ih
      exact ih g'
  | cdata h _ ih =>
    cases h' with
    | empty g => obtain ⟨b, t, e, _, h1, -⟩ := tag_head g; cases e; exact absurd rfl h1
    | element g => obtain ⟨b, t, e, _, h1, -⟩ := tag_head g; cases e; exact absurd rfl h1
    | cdata g g' =>
      rw [cdataBody_unique h g] at ih
      exact ih g'
  | doctype h _ hw _ ih =>
    cases h' with
    | empty g => obtain ⟨b, t, e, _, h1, -⟩ := tag_head g; cases e; exact absurd rfl h1
    | element g => obtain ⟨b, t, e, _, h1, -⟩ := tag_head g; cases e; exact absurd rfl h1
    | doctype g _ gw g' =>
      obtain ⟨-, e⟩ := ws_cons (dtdBody_unique h g) hw gw (hlt _) (hlt _)
      simp only [List.cons.injEq, true_and] at e
      rw [e] at ih
      exact ih g'
  | pi h _ ih =>
    cases h' with
    | empty g => obtain ⟨b, t, e, _, _, h1⟩ := tag_head g; cases e; exact absurd rfl h1
    | element g => obtain ⟨b, t, e, _, _, h1⟩ := tag_head g; cases e; exact absurd rfl h1
    | pi g g' =>
      rw [pi_unique h g] at ih
      exact ih g'
  | @space d prev w r recs r' hw hs hi ih =>
    generalize hz : w ++ ch% '<' :: r = z at h'
    cases h' with
    | space gw _ g =>
      obtain ⟨-, e⟩ := ws_cons hz hw gw (hlt _) (hlt _)
      simp only [List.cons.injEq, true_and] at e
      rw [e] at ih
      exact ih g
    | gap gw =>
      obtain ⟨-, e⟩ := ws_cons hz hw gw (hlt _) (hlt _)
      simp only [List.cons.injEq, true_and] at e
      rw [e] at hs
      exact absurd rfl (hs rfl)
    | text gw g1 g2 =>
      obtain ⟨-, e⟩ := ws_cons hz hw gw (hlt _) ⟨_, _, rfl, g1⟩
      simp only [List.cons.injEq] at e
      exact absurd e.1.symm g2
    | lost gw g =>
      obtain ⟨b, t, rfl, hb⟩ := item_head g
      obtain ⟨-, e⟩ := ws_cons hz hw gw (hlt _) ⟨_, _, rfl, (item_ws hb).1⟩
      simp only [List.cons.injEq] at e
      exact absurd e.1.symm (item_ws hb).2
  | @gap d w r hw =>
    generalize hz : w ++ ch% '<' :: ch% '/' :: r = z at h'
    cases h' with
    | space gw gs g =>
      obtain ⟨-, e⟩ := ws_cons hz hw gw (hlt _) (hlt _)
      simp only [List.cons.injEq, true_and] at e
      rw [← e] at gs
      exact absurd rfl (gs rfl)
    | gap gw =>
      obtain ⟨-, e⟩ := ws_cons hz hw gw (hlt _) (hlt _)
      simpa using e
    | text gw g1 g2 =>
      obtain ⟨-, e⟩ := ws_cons hz hw gw (hlt _) ⟨_, _, rfl, g1⟩
      simp only [List.cons.injEq] at e
      exact absurd e.1.symm g2
  | @text d prev w b r r1 recs r' hw h1 h2 h3 hb _ ih =>
    generalize hz : w ++ b :: r = z at h'
    cases h' with
    | space gw gs g =>
      obtain ⟨-, e⟩ := ws_cons hz hw gw ⟨_, _, rfl, h1⟩ (hlt _)
      simp only [List.cons.injEq] at e
      exact absurd e.1 h2
    | gap gw =>
      obtain ⟨-, e⟩ := ws_cons hz hw gw ⟨_, _, rfl, h1⟩ (hlt _)
      simp only [List.cons.injEq] at e
      exact absurd e.1 h2
    | text gw g1 g2 g3 gb g =>
      obtain ⟨-, e⟩ := ws_cons hz hw gw ⟨_, _, rfl, h1⟩ ⟨_, _, rfl, g1⟩
      rw [e] at hb
      rw [textBody_unique hb gb] at ih
      exact ih g
    | lost gw g =>
      obtain ⟨c, t, rfl, hc⟩ := item_head g
      obtain ⟨-, e⟩ := ws_cons hz hw gw ⟨_, _, rfl, h1⟩ ⟨_, _, rfl, (item_ws hc).1⟩
      rw [← e] at g
      exact (content_item (h3 rfl) g).elim
  | @lost d w r r1 recs r' hw hi _ ih =>
    generalize hz : w ++ r = z at h'
    obtain ⟨c, t, rfl, hc⟩ := item_head hi
    cases h' with
    | space gw gs g =>
      obtain ⟨-, e⟩ := ws_cons hz hw gw ⟨_, _, rfl, (item_ws hc).1⟩ (hlt _)
      simp only [List.cons.injEq] at e
      exact absurd e.1 (item_ws hc).2
    | text gw g1 g2 g3 gb g =>
      obtain ⟨-, e⟩ := ws_cons hz hw gw ⟨_, _, rfl, (item_ws hc).1⟩ ⟨_, _, rfl, g1⟩
      rw [e] at hi
      exact (content_item (g3 rfl) hi).elim
    | lost gw g g' =>
      obtain ⟨c', t', rfl, hc'⟩ := item_head g
      obtain ⟨-, e⟩ := ws_cons hz hw gw ⟨_, _, rfl, (item_ws hc).1⟩ ⟨_, _, rfl, (item_ws hc').1⟩
      rw [e] at hi
      rw [item_unique hi g] at ih
      exact ih g'

end Grammar
end GoVtd
