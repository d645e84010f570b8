import Verif.Props.Split
import Verif.Props.Standing

/-!
# Property C66 is false of texts too long for one record

`C66_partial` excludes the records that are pieces of a long text. `C66_refuted` shows that they cannot be included:
whenever a text needs more than one record, some record of it begins where `<` stands.
-/

namespace GoVtd
open Parser Grammar Tree

theorem covers_first : ∀ {rs : List (BitVec 64)} {off len : Nat}, Covers off len rs → 0 < len →
    ∃ w ∈ rs, tokenOffset w = off ∧ 0 < tokenLength w
  | [], _, _, h, hl => by simp only [Covers] at h; omega
  | w :: rs, off, len, h, hl => by
    obtain ⟨h1, -, h3, h4⟩ := h
    by_cases h0 : tokenLength w = 0
    · rw [h0, Nat.add_zero, Nat.sub_zero] at h4
      obtain ⟨z, hz, e1, e2⟩ := covers_first h4 hl
      exact ⟨z, List.mem_cons_of_mem _ hz, e1, e2⟩
    · exact ⟨w, List.mem_cons_self, h1, by omega⟩

/-- Character data does not begin with `<`. -/
theorem text_head {s : List UInt8} (h : Markup.Text s) : s.head? ≠ some (ch% '<') := by
  cases h with
  | nil => exact fun h => by cases h
  | char h1 h2 h3 h4 h5 =>
    intro h
    exact h2 (Option.some.inj h)
  | ref h1 h2 =>
    obtain ⟨t, v, rfl, -⟩ := h1
    exact fun h => by cases h

/-- C66 is false for every element whose content is a text of 2^20 bytes or more, at the start of the slice: some record
of character data does not point at character data. -/
theorem C66_refuted (fuel : Nat) (opts : List ParserOption) (doc : List UInt8) (h : SelectRest opts doc 0)
    (hlen : doc.length < 2 ^ 31) (tag : StartTag) (hw : tag.WellFormed) (hs : tag.Supported 0) (t : Tree.Text)
    (ht : t.WellFormed) (hp : ¬ Tree.HasPair (ch% ']') (ch% '>') t.bytes) (hb : doc = wrap tag t.bytes)
    (hlong : 2 ^ 20 ≤ t.bytes.length) :
    ∃ ws w, parsedTokens fuel opts = some ws ∧ w ∈ ws ∧ tokenType w = Token.characterData.code ∧
      ¬ Markup.TextAt doc (tokenOffset w) (tokenLength w) := by
  obtain ⟨rs, h1, h2, h3⟩ := C47_exact fuel opts doc 0 h hlen tag hw hs t ht hp hb
  rw [if_neg (by simp only [maxLen]; omega)] at h3
  obtain ⟨w, hm, e1, e2⟩ := covers_first h3 (by omega)
  refine ⟨_, w, h1, List.mem_append_right _ hm, (h2 w hm).1, ?_⟩
  rintro ⟨pre, text, post, hd, htx, hpre, hl⟩
  rw [e1] at hpre
  obtain rfl := List.length_eq_zero_iff.mp hpre
  cases text with
  | nil => simp only [List.length_nil] at hl; omega
  | cons b s =>
    refine text_head htx ?_
    have : doc.head? = some (ch% '<') := by rw [hb]; rfl
    rw [← this, hd]; rfl

/-- Non-vacuity: `<a>` and `</a>` around a million letters or more. -/
example (k : Nat) (h1 : 2 ^ 20 ≤ k) (h2 : k < 2 ^ 30) : ∃ ws w, parsedTokens 100 [.xmlDoc (some (wrap (tag "a") (xs k).bytes))] = some ws ∧ w ∈ ws ∧
    tokenType w = Token.characterData.code ∧
    ¬ Markup.TextAt (wrap (tag "a") (xs k).bytes) (tokenOffset w) (tokenLength w) := by
  have hl : (wrap (tag "a") (xs k).bytes).length < 2 ^ 31 := by
    rw [wrap, xs_bytes]
    simp only [List.length_append, List.length_cons, List.length_replicate]
    have e1 : (tag "a").bytes.length = 2 := rfl
    have e2 : (tag "a").name.length = 1 := rfl
    simp only [e1, e2, List.length_nil]; omega
  exact C66_refuted 100 _ _ (select_whole _ hl) hl (tag "a") (by decide +kernel) (by decide +kernel) (xs k)
    (xs_ok _).1 (xs_ok _).2 rfl (by rw [xs_bytes, List.length_replicate]; exact h1)

end GoVtd
