import Verif.Proofs.Parser.LongerParse
import Verif.Proofs.Parser.Blank
import Verif.Props.Options
import Verif.Props.LcDepth
import Verif.Props.Cut
import Verif.Props.Limits

/-!
# C74: errors that are final, and the error of a truncated document

`parseResult` is the outcome of `NewVtdParser` followed by `Parse`, `e.as .eof` is `errors.As` with a `*EOFError`. All
theorems hold with and without namespace awareness.
-/

namespace GoVtd
open Parser Grammar

namespace Final
open Parser.Longer

/-- The arguments of a parser for a window. -/
def args (ns sh : Bool) (doc : List UInt8) (o l : Nat) : ParserArgs :=
  { doc := some doc, offset := o, length := l, endOffset := (o : Int) + l, nsAware := ns, shallowDepth := sh }

theorem new_window {opts : List ParserOption} {doc : List UInt8} {o l : Nat} (fuel : Nat) (h : SelectWindow opts doc o l) :
    newVtdParser fuel opts = .ok (initParser fuel doc (args (chosenNs opts) (!chosenDeep opts) doc o l)
      ⟨.utf8, doc, o, (o : Int) + l⟩) := by
  obtain ⟨-, -, a3, a4⟩ := args_chosen opts
  have h1 := h.nonempty; have h2 := h.inside; have h3 := h.size
  rw [reselect_same fuel h]
  simp only [newVtdParser, reselect, List.foldl_append, List.foldl_cons, List.foldl_nil]
  generalize opts.foldl ParserArgs.apply {} = a at a3 a4
  have hw : wrap64 ((o : Int) + l) = (o : Int) + l := wrap64_of_range (by omega) (by omega)
  have ha : a.apply (.xmlDocCustomOffset (some doc) o l) = args (chosenNs opts) (!chosenDeep opts) doc o l := by
    simp only [ParserArgs.apply, args, hw, a3, a4]
  rw [ha]
  generalize hA : args (chosenNs opts) (!chosenDeep opts) doc o l = A
  have e1 : A.doc = some doc := by rw [← hA]; rfl
  have e2 : A.offset = o := by rw [← hA]; rfl
  have e3 : A.length = l := by rw [← hA]; rfl
  have e4 : A.endOffset = (o : Int) + l := by rw [← hA]; rfl
  rw [e1]
  dsimp only
  rw [e2, e3, e4, hw, if_neg (by omega), if_neg (by omega), if_neg (by omega)]
  simp only [Reader.newUtf8]
  rw [if_neg (by omega), if_neg (by omega)]

/-- The parser for the longer document. -/
theorem init_long (fuel : Nat) (ns sh : Bool) (x z : List UInt8) (o l : Nat) :
    initParser fuel (x ++ z) (args ns sh (x ++ z) o (l + z.length)) ⟨.utf8, x ++ z, o, (o : Int) + (l + z.length : Nat)⟩ =
    long z (initOut sh ((l + z.length : Nat) : Int)) (initParser fuel x (args ns sh x o l) ⟨.utf8, x, o, (o : Int) + l⟩) := by
  simp only [initParser, args, long, Int.natCast_add, Int.add_assoc]

theorem error_iff {fuel : Nat} {opts : List ParserOption} {e : GoErr} :
    parseResult fuel opts = .error e ↔ parseEnd fuel opts = .refused e ∨ parseEnd fuel opts = .failed e := by
  simp only [parseResult, parseEnd]
  cases newVtdParser fuel opts with
  | error e => simp
  | ok p =>
    dsimp only
    generalize Parser.parse p = r
    cases r <;> simp

/-- The cache depth makes no difference. -/
theorem error_deep {fuel : Nat} {opts : List ParserOption} {e : GoErr} (d : Int) :
    parseResult fuel (opts ++ [.lcDepth d]) = .error e ↔ parseResult fuel opts = .error e := by
  have h : withoutTuning (opts ++ [ParserOption.lcDepth d]) = withoutTuning opts := by simp [withoutTuning]
  rw [error_iff, error_iff, C59_tuning fuel _ _ h]

end Final

open Parser.Longer in
/-- C74, errors are final: if `Parse` returns an error that is not an end-of-file error, then it returns the same error,
with the same message, line and column, whatever the document goes on with: `z` inside the window, `rest` behind it. The
document contains more than white space. -/
theorem C74_final_partial (fuel : Nat) (opts opts' : List ParserOption) (x z rest : List UInt8) (o l : Nat)
    (h : SelectWindow opts x o l) (hl : o + l = x.length) (h' : SelectWindow opts' (x ++ z ++ rest) o (l + z.length))
    (hn : chosenNs opts = chosenNs opts') (hlen : (x ++ z).length < 2 ^ 30) (ht : ¬ AllWs (x.drop o)) (e : GoErr)
    (he : parseResult fuel opts = .error e) (heof : e.as .eof = false) : parseResult fuel opts' = .error e := by
  have hs := h.size; have hs' := h'.size; have h0 := h.nonempty
  simp only [List.length_append] at hlen hs'
  -- the same cache depth
  have hD : ∀ opts : List ParserOption, chosenDeep (opts ++ [.lcDepth 3]) = false ∧
      chosenNs (opts ++ [.lcDepth 3]) = chosenNs opts ∧ chosenDoc (opts ++ [.lcDepth 3]) = chosenDoc opts := by
    intro opts
    simp only [chosenDeep, chosenNs, chosenDoc, List.foldl_append]
    exact ⟨rfl, rfl, rfl⟩
  have hS : ∀ {opts : List ParserOption} {doc : List UInt8} {o l : Nat}, SelectWindow opts doc o l →
      SelectWindow (opts ++ [.lcDepth 3]) doc o l := fun {opts _ _ _} h =>
    ⟨(hD opts).2.2.trans h.window, h.nonempty, h.inside, h.size⟩
  rw [← Final.error_deep 3] at he ⊢
  have g := hS h
  have g' := hS h'
  have gn : chosenNs (opts ++ [.lcDepth 3]) = chosenNs (opts' ++ [.lcDepth 3]) := by
    rw [(hD opts).2.1, (hD opts').2.1, hn]
  have gd : chosenDeep (opts ++ [.lcDepth 3]) = chosenDeep (opts' ++ [.lcDepth 3]) := by
    rw [(hD opts).1, (hD opts').1]
  generalize opts ++ [ParserOption.lcDepth 3] = opts at g gn gd he
  generalize opts' ++ [ParserOption.lcDepth 3] = opts' at g' gn gd ⊢
  clear h h' hn hD hS
  -- the document up to `rest`
  let mid := reselect opts' (x ++ z) o (l + z.length)
  have gm : SelectWindow mid (x ++ z) o (l + z.length) := by
    refine ⟨?_, by omega, by simp only [List.length_append]; omega, by simp only [List.length_append]; omega⟩
    simp only [mid, reselect, chosenDoc, List.foldl_append]; rfl
  have gmn : chosenNs mid = chosenNs opts' := by simp only [mid, reselect, chosenNs, List.foldl_append]; rfl
  have gmd : chosenDeep mid = chosenDeep opts' := by simp only [mid, reselect, chosenDeep, List.foldl_append]; rfl
  have key : parseResult fuel mid = .error e := by
    have n1 := Final.new_window fuel g
    have n2 := Final.new_window fuel gm
    rw [Final.init_long, gmn, gmd, ← gn, ← gd] at n2
    have hf := newVtdParser_fresh n1
    generalize hp : initParser fuel x _ _ = p at n1 n2 hf
    obtain ⟨b, hb, hw⟩ : ∃ b ∈ x.drop o, ¬ Ws b := by simpa [AllWs] using ht
    obtain ⟨k, hk, hb⟩ := List.getElem_of_mem hb
    rw [List.length_drop] at hk
    rw [List.getElem_drop] at hb
    have w1 : wrap64 ((o : Int) + l) = (o : Int) + l := wrap64_of_range (by omega) (by omega)
    have w2 : wrap64 ((o : Int) + (l + z.length)) = (o : Int) + (l + z.length) := wrap64_of_range (by omega) (by omega)
    have hfin := parse_long (d := z) hf (o := initOut (!chosenDeep opts) ((l + z.length : Nat) : Int)) (initOut_ok _ _)
      (by rw [← hp]; show wrap64 ((o : Int) + l) < _; rw [w1]; omega)
      (by rw [← hp]; show wrap64 ((o : Int) + (l + z.length)) < _; rw [w2]; omega)
      (by rw [← hp]; show ((o : Int) + l) + z.length ≤ (x ++ z).length; rw [List.length_append]; omega)
      (i := (o + k : Nat)) (b := b)
      (by rw [← hp]; show (o : Int) ≤ _; omega)
      (by rw [← hp]; show _ < (o : Int) + l; omega)
      (by rw [← hp]; show x[(((o + k : Nat) : Int)).toNat]? = some b
          rw [Int.toNat_natCast, List.getElem?_eq_getElem (by omega), hb])
      (by rw [← Bool.not_eq_true, isSpaceChar_iff]; exact hw)
    simp only [parseResult, n1, n2] at he ⊢
    cases hr : parse p with
    | err e' q =>
      rw [hr] at he
      obtain rfl : e' = e := by cases he; rfl
      obtain h1 | ⟨q', h1⟩ := hfin e' q hr
      · rw [heof] at h1; cases h1
      · rw [h1]
    | ok a q => rw [hr] at he; cases he
    | panic => rw [hr] at he; cases he
    | diverge => rw [hr] at he; cases he
  rw [← key]
  exact C51_options_partial fuel mid opts' (x ++ z) rest o (l + z.length) gm g' gmn gmd (by rw [key]; trivial)

/-- C74: if a document is accepted, then the only error that `Parse` returns for the document cut short is an end-of-file
error, provided that what is left is more than white space. -/
theorem C74_partial (fuel : Nat) (opts opts' : List ParserOption) (x z rest : List UInt8) (o l : Nat)
    (h : SelectWindow opts x o l) (hl : o + l = x.length) (h' : SelectWindow opts' (x ++ z ++ rest) o (l + z.length))
    (hn : chosenNs opts = chosenNs opts') (hlen : (x ++ z).length < 2 ^ 30) (ht : ¬ AllWs (x.drop o))
    (hacc : Accepts fuel opts') (e : GoErr) (he : parseResult fuel opts = .error e) : e.as .eof = true := by
  cases heof : e.as .eof with
  | true => rfl
  | false =>
    have k := C74_final_partial fuel opts opts' x z rest o l h hl h' hn hlen ht e he heof
    obtain ⟨ws, hw⟩ := hacc
    obtain ⟨out, k1, -⟩ := parsedTokens_of.1 hw
    rw [k] at k1
    cases k1

/-- C74 and C73 together, without namespace awareness: let `Parse` accept a document that ends, up to white space `t`,
with a `>` that does not end a processing instruction. Cut off before that `>`, but not before the first byte that is not
white space, it gives an end-of-file error or a panic, and nothing else. -/
theorem C74_truncated_partial (fuel : Nat) (opts opts' : List ParserOption) (u t x z : List UInt8) (c : UInt8) (o : Nat)
    (h' : SelectRest opts' (u ++ [c, ch% '>'] ++ t) o) (ht : AllWs t) (hc : c ≠ ch% '?')
    (hacc : Accepts fuel opts') (hsize : (u ++ [c, ch% '>'] ++ t).length < 2 ^ 30)
    (hx : u ++ [c, ch% '>'] ++ t = x ++ z) (hlen : x.length < (u ++ [c, ch% '>']).length) (h : SelectRest opts x o)
    (hw : ¬ AllWs (x.drop o)) :
    parseResult fuel opts = .panic ∨ ∃ e, parseResult fuel opts = .error e ∧ e.as .eof = true := by
  have hcut := C73_truncated fuel fuel opts opts' u t x z c o h' ht hc (by obtain ⟨ws, k⟩ := hacc; rw [k]; rfl) hx hlen h
  rw [hx] at h' hsize
  have ho : o < x.length := by
    refine Nat.lt_of_not_le fun k => hw ?_
    rw [List.drop_eq_nil_of_le k]
    exact fun _ hb => by cases hb
  have win : ∀ {opts : List ParserOption} {y : List UInt8}, o < y.length → SelectRest opts y o → SelectWindow opts y o (y.length - o) := by
    intro opts y hy k
    obtain ⟨l, k1, k2⟩ := k.window
    obtain rfl : l = ((y.length - o : Nat) : Int) := by omega
    exact ⟨k1, by omega, by omega, k.size.1⟩
  have w := win ho h
  have w' := win (by rw [List.length_append]; omega) h'
  rw [show (x ++ z).length - o = x.length - o + z.length by rw [List.length_append]; omega] at w'
  rw [← List.append_nil (x ++ z)] at w'
  have key := C74_partial fuel opts opts' x z [] o _ w (by omega) w' (by rw [h.ns, h'.ns]) hsize hw hacc
  have n1 := Final.new_window fuel w
  cases hr : parseResult fuel opts with
  | panic => exact .inl rfl
  | error e => exact .inr ⟨e, rfl, key e hr⟩
  | value out => rw [parsedTokens_of.2 ⟨out, hr, rfl⟩] at hcut; cases hcut
  | noReturn =>
    have k := C29_partial n1 (by show chosenNs opts = false; exact h.ns)
    simp only [parseResult, n1] at hr
    generalize parse _ = r at hr k
    cases r <;> first | (exfalso; exact k rfl) | cases hr

/-- A document of white space is refused with a parse error, in every window and mode. -/
theorem C74_blank_exact (fuel : Nat) (opts : List ParserOption) (x : List UInt8) (o l : Nat) (h : SelectWindow opts x o l)
    (hlen : o + l < 2 ^ 30) (hw : AllWs ((x.drop o).take l)) :
    ∃ pos, parseResult fuel opts = .error (newParseError "invalid parser state" (some pos) none) := by
  have n1 := Final.new_window fuel h
  have h0 := h.nonempty; have h1 := h.inside
  have hb : Blank.BlankFrom (initParser fuel x (Final.args (chosenNs opts) (!chosenDeep opts) x o l)
      ⟨.utf8, x, o, (o : Int) + l⟩).cfg (o : Int) := by
    intro i hi hi'
    have hi' : i < (o : Int) + l := hi'
    have hk : i.toNat < x.length := by omega
    refine ⟨x[i.toNat], by show x[i.toNat]? = _; rw [List.getElem?_eq_getElem hk], (isSpaceChar_iff _).2 (hw _ ?_)⟩
    rw [List.mem_iff_getElem?]
    refine ⟨i.toNat - o, ?_⟩
    rw [List.getElem?_take_of_lt (by omega), List.getElem?_drop, show o + (i.toNat - o) = i.toNat by omega,
      List.getElem?_eq_getElem hk]
  obtain ⟨pos, q, hq⟩ := Blank.parse_blank (newVtdParser_fresh n1) (by show (o : Int) < (o : Int) + l; omega)
    (by show (o : Int) + l < _; omega) hb
  exact ⟨pos, by simp only [parseResult, n1, hq]⟩

/-- C74: for the document cut short, all errors that `Parse` can return are end-of-file errors if and only if what is left
is more than white space. -/
theorem C74_exact (fuel : Nat) (opts opts' : List ParserOption) (x z rest : List UInt8) (o l : Nat)
    (h : SelectWindow opts x o l) (hl : o + l = x.length) (h' : SelectWindow opts' (x ++ z ++ rest) o (l + z.length))
    (hn : chosenNs opts = chosenNs opts') (hlen : (x ++ z).length < 2 ^ 30) (hacc : Accepts fuel opts') :
    (∀ e, parseResult fuel opts = .error e → e.as .eof = true) ↔ ¬ AllWs (x.drop o) := by
  constructor
  · intro k hw
    rw [List.length_append] at hlen
    obtain ⟨pos, hp⟩ := C74_blank_exact fuel opts x o l h (by omega) (fun b hb => hw b (List.mem_of_mem_take hb))
    exact absurd (k _ hp) (by rw [show GoErr.as .eof (newParseError "invalid parser state" (some pos) none) = false from rfl]; decide)
  · exact fun ht => C74_partial fuel opts opts' x z rest o l h hl h' hn hlen ht hacc

/-! ## Witnesses -/

theorem selectWhole {x : List UInt8} (h0 : 0 < x.length) (h : x.length < 2 ^ 63) (ns : Bool) :
    SelectWindow [.xmlDoc (some x), .nameSpaceAware ns] x 0 x.length := ⟨rfl, h0, by omega, h⟩

/-- The error has, or does not have, an error of this type in its chain. -/
def hasErr (t : ErrType) (b : Bool) : Outcome ParserOut → Bool
  | .error e => e.as t == b
  | _ => false

theorem hasErr_spec {t : ErrType} {b : Bool} {r : Outcome ParserOut} (h : hasErr t b r = true) :
    ∃ e, r = .error e ∧ e.as t = b := by
  cases r with
  | error e => exact ⟨e, rfl, by simpa [hasErr] using h⟩
  | _ => cases h

theorem accepts_of {fuel : Nat} {opts : List ParserOption} (h : (parsedTokens fuel opts).isSome = true) : Accepts fuel opts :=
  Option.isSome_iff_exists.1 h

/-- Non-vacuity of `C74_final_partial`: an error in the middle, in both modes, with line and column. -/
example (ns : Bool) : ∃ e, parseResult 9 [.xmlDoc (some (bytes "<a>\n<b></c>")), .nameSpaceAware ns] = .error e ∧ e.as .eof = false ∧
    ¬ AllWs ((bytes "<a>\n<b></c>").drop 0) ∧ ∀ z : List UInt8, (bytes "<a>\n<b></c>" ++ z).length < 2 ^ 30 →
      parseResult 9 [.xmlDoc (some (bytes "<a>\n<b></c>" ++ z)), .nameSpaceAware ns] = .error e := by
  have key : ∃ e, parseResult 9 [.xmlDoc (some (bytes "<a>\n<b></c>")), .nameSpaceAware ns] = .error e ∧ e.as .eof = false := by
    refine hasErr_spec ?_
    cases ns <;> decide +kernel
  have hw : ¬ AllWs ((bytes "<a>\n<b></c>").drop 0) := fun h => absurd (h (ch% '<') (by decide)) (by simp only [Spec.S]; decide)
  obtain ⟨e, h1, h2⟩ := key
  refine ⟨e, h1, h2, hw, fun z hz => ?_⟩
  have hl : (bytes "<a>\n<b></c>").length = 11 := by decide +kernel
  rw [List.length_append] at hz
  have s1 := selectWhole (x := bytes "<a>\n<b></c>") (by omega) (by omega) ns
  have s2 := selectWhole (x := bytes "<a>\n<b></c>" ++ z) (by rw [List.length_append]; omega) (by rw [List.length_append]; omega) ns
  refine C74_final_partial 9 [.xmlDoc (some (bytes "<a>\n<b></c>")), .nameSpaceAware ns]
    [.xmlDoc (some (bytes "<a>\n<b></c>" ++ z)), .nameSpaceAware ns] (bytes "<a>\n<b></c>") z [] 0 _ s1 (by omega) ?_ rfl (by rw [List.length_append]; omega) hw e h1 h2
  rw [List.append_nil, ← List.length_append]
  exact s2

/-- Non-vacuity of `C74_partial`: an accepted document, and the end-of-file error for its first bytes. -/
example : Accepts 9 [.xmlDoc (some (bytes "<a>\n<b></b></a>")), .nameSpaceAware true] ∧
    ∃ e, parseResult 9 [.xmlDoc (some (bytes "<a>\n<b")), .nameSpaceAware true] = .error e ∧ e.as .eof = true :=
  ⟨accepts_of (by decide +kernel), hasErr_spec (by decide +kernel)⟩

/-- Why more than white space is asked for: the end of a document of white space is taken for an invalid state, although
the document can be completed. -/
theorem C74_refuted : Accepts 0 [.xmlDoc (some (bytes "    <a/>"))] ∧
    ∃ e, parseResult 0 [.xmlDoc (some (bytes "    "))] = .error e ∧ e.as .eof = false :=
  ⟨accepts_of (by decide +kernel), hasErr_spec (by decide +kernel)⟩

/-- Non-vacuity of `C74_truncated_partial`: the document of `C73_truncated` without its last two bytes, and an outcome of
each kind. -/
example : Accepts 0 [.xmlDoc (some cutSample)] ∧ ¬ AllWs ((cutSample.take 50).drop 0) ∧
    (∃ e, parseResult 0 [.xmlDoc (some (cutSample.take 50))] = .error e ∧ e.as .eof = true) ∧
    parseResult 0 [.xmlDoc (some (cutSample.take 39))] = .panic := by
  refine ⟨accepts_of (by decide +kernel), fun h => absurd (h (ch% '<') (by decide +kernel)) (by simp only [Spec.S]; decide),
    hasErr_spec (by decide +kernel), ?_⟩
  have : (match parseResult 0 [.xmlDoc (some (cutSample.take 39))] with | .panic => true | _ => false) = true := by decide +kernel
  generalize parseResult 0 _ = r at this
  cases r <;> first | rfl | cases this

end GoVtd
