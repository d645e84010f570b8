import Verif.Proofs.Parser.TreeDec
import Verif.Props.Shape

/-!
# C32, C34: documents as trees
-/

namespace GoVtd

open Parser Grammar

/-- C32 and the general form of C34 with a context-free grammar: `Parse` succeeds exactly on the documents of
`Verif/Spec/Nested.lean`, in which an element is a start tag, a content and an end tag that repeats the name
of the start tag byte for byte, and one element is the root. -/
theorem C32_exact (fuel : Nat) (opts : List ParserOption) (doc : List UInt8) (o : Nat)
    (h : SelectRest opts doc o) (ws : List (BitVec 64)) :
    parsedTokens fuel opts = some ws ↔
      doc.length < 2 ^ 31 ∧ ∃ recs, Document doc.length (doc.drop o) recs ∧ ws = (docRec :: recs).map Rec.word := by
  simp only [C34_exact fuel opts doc o h ws, document_iff]

/-- Non-vacuity: the sample is in the context-free grammar. -/
example : ∃ recs, Document sample.length sample recs := by
  cases h : parsedTokens 0 [.xmlDoc (some sample)] with
  | none =>
    have : (parsedTokens 0 [.xmlDoc (some sample)]).isSome = true := by decide +kernel
    rw [h] at this; simp at this
  | some ws =>
    obtain ⟨_, recs, h1, _⟩ := (C32_exact 0 _ _ _ sample_select ws).1 h
    exact ⟨recs, h1⟩

/-- A whole slice is selected. -/
theorem select_whole (doc : List UInt8) (h : doc.length < 2 ^ 31) : SelectRest [.xmlDoc (some doc)] doc 0 :=
  ⟨⟨doc.length, rfl, by omega⟩, by omega, rfl⟩

/-! ## C34 -/

/-- C34 for trees within the limits of the parser (`Supported`): every serialisation of a well-formed tree is
accepted and the token records are exactly those of the tree. -/
theorem C34_partial (fuel : Nat) (opts : List ParserOption) (doc : List UInt8) (o : Nat) (h : SelectRest opts doc o)
    (hlen : doc.length < 2 ^ 31) (tree : Tree.Document) (hb : doc.drop o = tree.bytes) (hw : tree.WellFormed)
    (hs : tree.Supported) :
    parsedTokens fuel opts = some ((docRec :: tree.recs o).map Rec.word) := by
  rw [C32_exact fuel opts doc o h]
  have hd := Tree.Document.doc (n := doc.length) hw hs
  have hn : doc.drop o ≠ [] := by
    intro he
    rw [← hb, he] at hd
    generalize hz : ([] : List UInt8) = z at hd
    generalize tree.recs _ = recs at hd
    cases hd <;> simp at hz
  have ho : o < doc.length := by
    apply Nat.lt_of_not_le
    exact fun hle => hn (List.drop_of_length_le hle)
  refine ⟨hlen, tree.recs o, ?_, rfl⟩
  have : Grammar.offset doc.length tree.bytes = o := by
    rw [← hb]; simp only [Grammar.offset, List.length_drop]; omega
  rw [this] at hd
  rw [hb]
  exact hd

namespace Tree

/-- Character data without references. -/
def lit (s : String) : Text := (bytes s).map Piece.byte

/-- A start tag without attributes. -/
def tag (s : String) : StartTag := ⟨bytes s, [], []⟩

/-- A document that is just a root element. -/
def only (r : Root) : Document := ⟨none, [], [], r, [], []⟩

/-- A document with every construct:
`<?xml version="1.0" encoding='UTF-8' standalone="no" ?><!--c--><?p d?> <a x:b = "1&amp;2" xmlns='u' ><e>t&#65;</e>
<![CDATA[]]]]><f></f>x<g/><?q?> </a><?r s?> `. -/
def full : Document where
  decl := some ⟨⟨bytes " ", [], [], ch% '"', bytes "1.0"⟩, some ⟨bytes " ", [], [], ch% '\'', bytes "UTF-8"⟩,
    some ⟨bytes " ", [], [], ch% '"', bytes "no"⟩, bytes " "⟩
  prolog := [⟨[], .comment (bytes "c")⟩, ⟨[], .pi (bytes "p") (some (ch% ' ', bytes "d"))⟩]
  space := bytes " "
  root := .element ⟨bytes "a", [⟨bytes " ", bytes "x:b", bytes " ", bytes " ", ch% '"', lit "1" ++ [.ref (.entity (bytes "amp"))] ++ lit "2"⟩,
      ⟨bytes " ", bytes "xmlns", [], [], ch% '\'', lit "u"⟩], bytes " "⟩
    (.element [] (tag "e") (.text (lit "t" ++ [.ref (.dec (bytes "65"))])) []
      (.atom (lit "\n") (.cdata (bytes "]"))
      (.element [] (tag "f") (.text []) []
      (.atom (lit "x") (.empty (tag "g"))
      (.atom [] (.pi (bytes "q") none) (.text (lit " ")))))))
    []
  epilog := [⟨[], .pi (bytes "r") (some (ch% ' ', bytes "s"))⟩]
  space1 := bytes " "

end Tree

open Tree in
/-- Non-vacuity of C34_partial: the document with every construct is well-formed and supported; these are its
records. -/
example : full.WellFormed ∧ full.Supported ∧
    parsedTokens 0 [.xmlDoc (some full.bytes)] = some ((docRec :: full.recs 0).map Rec.word) ∧
    (full.recs 0).map (fun x => (x.tok.code, x.off, x.len, x.depth)) =
      [(9, 6, 7, -1), (10, 15, 3, -1), (9, 20, 8, -1), (10, 30, 5, -1), (9, 37, 10, -1), (10, 49, 2, -1),
       (6, 59, 1, -1), (7, 65, 1, -1), (8, 67, 1, -1),
       (0, 72, 1, 0), (2, 74, 3 + 2048, 0), (4, 81, 7, 0), (3, 90, 5, 0), (4, 97, 1, 0),
       (0, 102, 1, 1), (5, 104, 6, 1), (11, 124, 1, 0), (0, 129, 1, 1), (5, 131, 0, 1), (5, 135, 1, 0),
       (0, 137, 1, 1), (7, 142, 1, 0), (8, 142, 0, 0), (7, 152, 1, -1), (8, 154, 1, -1)] := by
  have h1 : full.WellFormed := by decide +kernel
  have h2 : full.Supported := by decide +kernel
  exact ⟨h1, h2, C34_partial 0 _ full.bytes 0 (select_whole _ (by decide +kernel)) (by decide +kernel) full rfl h1 h2,
    by decide +kernel⟩

/-- Does `Parse` accept these bytes? -/
def accepts (doc : List UInt8) : Bool := (parsedTokens 0 [.xmlDoc (some doc)]).isSome

open Tree in
/-- C34 is false: well-formed documents that are refused. In order: `<a>]></a>`, `<a><b></b>&amp;</a>`,
`<a><![CDATA[]>]]></a>`, `<?p?><a/>`, `<a/><!--c-->`, `<a/><?p?>`. -/
theorem C34_refuted :
    ∀ tree ∈ [only (.element (tag "a") (.text (lit "]>")) []),
      only (.element (tag "a") (.element [] (tag "b") (.text []) [] (.text [.ref (.entity (bytes "amp"))])) []),
      only (.element (tag "a") (.atom [] (.cdata (bytes "]>")) (.text [])) []),
      { only (.empty (tag "a")) with prolog := [⟨[], .pi (bytes "p") none⟩] },
      { only (.empty (tag "a")) with epilog := [⟨[], .comment (bytes "c")⟩] },
      { only (.empty (tag "a")) with epilog := [⟨[], .pi (bytes "p") none⟩] }],
    tree.WellFormed ∧ accepts tree.bytes = false := by
  decide +kernel

open Tree in
/-- C34 is false also for documents that are accepted: `<prefx:b/>` gets another record than the tree has. -/
theorem C34_refuted_records : (only (.empty (tag "prefx:b"))).WellFormed ∧
    accepts (only (.empty (tag "prefx:b"))).bytes = true ∧
    parsedTokens 0 [.xmlDoc (some (only (.empty (tag "prefx:b"))).bytes)] ≠
      some ((docRec :: (only (.empty (tag "prefx:b"))).recs 0).map Rec.word) := by
  decide +kernel

end GoVtd
