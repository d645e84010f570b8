# Formal model of go-vtd-xml: design

`properties.jsonl` lists the properties, `MANIFEST.json` the theorems that settle them,
`lean/Verif/` holds the model and the proofs, `seeded/LOG.jsonl` the wrong programs the
theorems were tested against.

## Layout

| directory | contents |
|---|---|
| `lean/Verif/Model` | the code, function by function; each definition cites the Go file and lines |
| `lean/Verif/Spec` | what the properties say, written without the model's helpers: page lists, W3C character classes, XML trees and their serialisation, tag lists, location caches, windows, outcomes |
| `lean/Verif/Proofs` | lemmas |
| `lean/Verif/Props` | the property theorems (names start with the property's id) and, beside them, examples that meet their hypotheses |
| `lean/Verif/Tests` | the unit tests of the repository evaluated on the model |

## How Go is represented

* A Go function that may return an error, panic or fail to return is a value of
  `M σ α := σ → Res σ α`, where `Res` has the four outcomes `ok a s`, `err e s`,
  `panic` and `diverge`. `err` keeps the state, because Go code keeps its partial
  mutations when it returns an error. `panic` stands for a Go run-time panic (index out
  of range, nil dereference, negative shift). `diverge` means only that the fuel of a
  loop ran out.
* Loops are structural recursion on a fuel argument. The fuel of the parser's loops is
  computed from the document; C29 proves that it is enough, so `diverge` does not stand
  for a modelling artefact. The one loop for which no fuel is enough (`matchUrl`) takes
  its fuel as a parameter `fuel` of `newVtdParser`, and theorems quantify over it;
  C29_aware_partial says on which documents the length of the slice is enough.
* Go `int` is Lean `Int`, wrapped to 64 bits only where unconstrained user input can
  overflow (page-size options, parser windows, navigator ranges). Characters (`uint32`)
  are `Nat`, with an explicit `% 2^32` where the code can wrap (character references).
  Packed records (`int64`) are `BitVec 64`.
* Documents are `List UInt8`. A slice access outside the slice is `panic`.
* Errors are values of `GoErr` that keep the type, the message that matters and the
  wrapped error.
* A nil argument is an explicit case (`Option`, `NavArg`).

## Trusted base

* Lean's kernel. The axioms are at most `propext`, `Classical.choice` and `Quot.sound`;
  the list for each theorem is at the end of this file. No axiom is added, nothing rests on
  compiled code (`native_decide`, `bv_decide`), `sorry` does not occur.
* The reading of the Go code. The model was transcribed by hand and the code was not run.
  Two checks guard the transcription. `lean/Verif/Tests/Repo.lean` evaluates the
  repository's own unit tests on the model in the kernel. The 16 golden documents of
  `parse_test.go`, with and without namespace awareness and with both cache depths, give
  the outcome and the message the tests expect when the model is evaluated (the larger
  ones are too slow for the kernel and are not part of the build).
* The English of the properties and the specifications in `lean/Verif/Spec`.

## What is modelled

All of `vtdxml/buffer`, `vtdxml/common`, `vtdxml/erroring`, `vtdxml/reader`,
`vtdxml/navigation`, `vtdxml/parser`, `vtdxml/modifier` and `vtdxml/pilot`: every function
of every non-test file.

Not modelled, or simplified:

* memory exhaustion, and the capacity (not the length) of Go slices; slicing between
  length and capacity counts as a panic;
* `fmt.Printf` output of the parser;
* the text of composite error messages (the wrapped chain and the messages that tests
  compare are kept);
* the write that `errors.As` makes to the global `EOFErrorType`, except in
  `Verif/Model/Parser/Threads.lean` (C70);
* slice aliasing: the caller is assumed not to change the document while it is in use,
  and not to write through slices that exported getters hand out;
* concurrency: the library starts no goroutines, so one call at a time is modelled.
  `Verif/Model/Parser/Threads.lean` models goroutines that each parse with a parser of their
  own; a turn of a goroutine is one iteration of the loop of `Parse`;
* fields that are written and never read: `lastChar`, `lcDepth`, `bufferReuse`;
* `vtdxml/expresion` (one empty interface) and the constants of `vtdxml/pilot/common.go`
  have no behaviour.

## How the parser is proved correct

The parser is a loop over states (`step`), each a function on the parser's fields. The
frameworks, each a sub-directory of lemmas that go function by function through the
parser:

* `Sat`, `Steps`, `Total`: the machine invariant (buffers, offsets, tag stack) and a
  measure that decreases in each step. Gives C29, C30, C36, C49, C54.
* `Leads`, `Procs`, `Elements`, `Body`, `ParseAccept`: for parsers without namespace
  awareness and windows that reach to the end of the slice, the exact set of accepted
  documents with their records, as a grammar over byte lists (`Spec/Grammar.lean`, then
  `Spec/Nested.lean`, then trees in `Spec/Tree.lean`). Gives C34, C37, C38, C40, C41, C47,
  C48, C55.
* `Two`: simulation of two runs of the same parser on two inputs. Gives C51 (bytes outside
  of the window) and C56 (the same input in two modes).
* `Wr` (`Verif/Proofs/Parser/Writes*.lean`): the records written so far are in order, lie in
  the window, are linked as names and values, and are at most half as many as the bytes read;
  in every mode and window. Gives C35, C61, C62, C63. With the bytes that each reading loop
  consumes (`Bodies.lean`) also what stands where a record points (`Spec/Markup.lean`):
  C64, C65, C66.
* `Ev`: what the tags read so far look like, in every mode and window
  (`Spec/Tags.lean`, `Spec/Trace.lean`). Gives C31, C32, C33, C45.

## Properties

"Partial" in `MANIFEST.json` almost always means that the property as a user would
state it is false of the code. For those there is a theorem `..._refuted` with a concrete
input, an exact characterisation (`..._exact`) where one could be found, and a theorem
`..._partial` that says where the property does hold. The code was not changed, and the
properties were not weakened to fit the code. A few properties were split when one half
turned out true and the other false (C45 and C57, C48 and C58).

| id | property | how | status and result |
|---|---|---|---|
| C01 | Appended values are all there, in order | page lists; induction over the append list with a page-shape invariant | **proved**. Both buffers, every page size and list. |
| C02 | Random access returns the i-th appended value | same invariant, exact outcome for each index | **partial**. False as stated (C02_refuted, C02_witness): At reads only the first page. The partial theorems give the exact range in which it holds; C03_exact gives the outcome for every index. |
| C03 | Out-of-range access is reported as an error, never a panic | same | **partial**. False as stated (C03_refuted: panics). C03_exact and C03_exact_int give the outcome for every index; C03_partial the indices for which an error is reported. |
| C04 | ModifyEntry is a point update | frame lemma from the page-shape invariant | **proved**. Point update with frame; C04_succeeds_iff says for which indices it succeeds. |
| C05 | A cleared buffer can be filled again | same | **partial**. False as stated (C05_refuted). Holds for a buffer that was empty (C05_partial); a cleared buffer reads as empty. |
| C06 | Truncate then append overwrites the tail | same | **partial**. False as stated (C06_refuted). C06_partial gives what holds. |
| C07 | Lower32At and Upper32At split a value | bit extensionality on `BitVec 64` | **partial**. Lower half exact (C07_lower). Upper half loses the top four bits (C07_upper_exact, C07_refuted); C07_partial for values below 2^60. |
| C08 | An object buffer counts and returns what was appended | induction over the append list | **partial**. False as stated (C08_refuted): every page boundary loses an object. C08_size_exact, C08_lost and C08_objectAt_partial say what is kept. |
| C09 | Page-size options are validated | case analysis on the exponent with 64-bit wrap | **partial**. False for negative exponents and 63 (C09_refuted); exact outcome for every machine integer. |
| C10 | Byte buffer access is exact and total | case analysis with 64-bit wrap | **partial**. ByteAt exact (C10_byteAt). GetByteSlice is not as stated (C10_refuted); exact outcome in C10_slice_exact. |
| C11 | XML character classes are exactly the W3C ones | range arithmetic over all naturals | **proved**. Every natural number; C11_not_xml10 shows Char is the 1.1 one. |
| C12 | Hash width is monotone and bounded | case analysis | **partial**. Width and bucket count proved; the mask is wrong (C12_mask_refuted). |
| C13 | A reader delivers the window byte by byte, then EOF for ever | induction on the number of calls | **proved**. Both readers, every window and number of calls. |
| C14 | Skipping is all or nothing | exact outcome per call | **partial**. False as stated (C14_refuted): a failed sequence keeps what it consumed and the end of the slice panics; exact outcome given. |
| C15 | Both readers accept a whole document | exact condition of the constructors | **partial**. True for UTF-8, false for every non-empty document with the ASCII reader (C15_refuted); C15_exact. |
| C16 | Line ends are reported uniformly | exact outcome per offset | **partial**. False at a last CR and for a bare CR (C16_refuted); exact outcome for every offset. |
| C17 | End of file is recognised through every wrapping | induction on the chain | **partial**. errors.As and constructors proved; NavigationError has the wrong type (C17_navigation_refuted). |
| C18 | Token records round-trip | bit extensionality | **proved**. C18_write: the record written for every token; C18_read: the four getters on it; C18_roundtrip puts them together. Offsets need 30 bits: C18_offset_bound_sharp shows the bound is sharp. |
| C19 | The length of a text token is the length of its text | induction over the token buffer | **partial**. False as stated (C19_refuted, C19_refuted_split): the length of an empty text token is that of a later token, and only the first part of a split text counts. C19_exact gives the value for every token list; C19_partial where the property holds. |
| C20 | Prefix and name length of a name token can be read back | bit arithmetic | **partial**. Attribute names proved (C20_attr). Start tags with a prefix are false (C20_refuted, C20_start_refuted_ns); C20_start_exact gives the value, C20_start_partial holds without a prefix. |
| C21 | Raw strings are the bytes of the document | induction on the length | **partial**. False at a final CR and for int32 overflow (C21_refuted, C21_refuted_overflow). C21_exact gives the outcome; C21_partial the range where it holds. |
| C22 | Resolved strings replace references | exact outcome; divergence for every fuel | **partial**. False: entities are never resolved (C22_exact: the resolved and the raw string are always the same; C22_refuted). C22_partial holds for text without references. |
| C23 | ToElement(Root) always reaches the root | case analysis | **partial**. Holds for every state with a cursor stack (C23_partial); a navigator made with depth 0 panics (C23_refuted, C23_refuted_reachable). |
| C24 | Child then parent comes back | case analysis over all moves | **proved**. Every cursor state and buffer. |
| C25 | A move that fails leaves the cursor alone | case analysis over all moves | **partial**. False (C25_refuted). C25_exact lists everything a failed move can leave behind; C25_moves_partial: unless the second cache lacks an entry that the first one points to (the case of C25_refuted), a failed move changes neither the current index nor what any later sequence of moves shows; C25_partial gives the current index and the cursor stack. |
| C26 | First and last child below the cached levels | induction over the token buffer | **partial**. Both directions, for token buffers of one page (C26_first_partial, C26_last_partial); false for longer ones (C26_refuted). |
| C27 | Siblings below the cached levels | induction over the token buffer | **partial**. PrevSibling proved for one-page buffers; NextSibling never succeeds (C27_next_exact, C27_refuted). |
| C28 | Cached levels are navigated through their own caches | case analysis | **partial**. Root to level 1, siblings at level 1 and level 1 to 2 proved; level 2 to 3 and siblings at level 2 use the wrong cache (C28_refuted, C28_refuted_sibling, C28_level2_child_exact). |
| C29 | Parse terminates | measure on the main loop | **partial**. Proved for every input when the parser is not namespace aware (C29_partial), and in every mode for slices whose numeric character references are at most eight bytes long, as all references to XML characters without leading zeros are (C29_aware_partial). False in namespace-aware mode: C29_refuted is a document on which Parse does not return for any number of steps. |
| C30 | Parse never panics | machine invariant | **partial**. False (four C30_refuted witnesses). C30_partial: a panic needs a window not followed by NUL, a slice that ends in the first bytes, an end tag outside of the root or a 257th attribute. |
| C31 | Elements nest | `Ev`: tag-list invariant | **proved**. Every option list: both modes, every window and slice. |
| C32 | End tags match start tags | `Ev`: tag-list invariant | **proved**. C32_tags: every option list. The tags (Verif/Spec/Tags.lean) have exactly the start tags of the records and the end tags that Parse met (Verif/Spec/Trace.lean). C32_exact: the accepted language as a grammar in which the end tag repeats the name of the start tag, without namespace awareness, for windows that reach to the end of the slice. |
| C33 | Attribute names are unique | `Ev`: tag-list invariant | **proved**. Every option list. Two names are of one tag when no start-tag record is between them; names are read from the records. |
| C34 | Well-formed documents are accepted with exactly their tokens | grammar, then induction over trees | **partial**. False (C34_refuted, C34_refuted_records). C34_partial: every well-formed tree within the listed limits (Verif/Spec/Tree.lean) is accepted with exactly its records. C34_fits: a document of the right syntax without three misread constructs is accepted exactly when it is within each of nine limits. C34_exact and C32_exact: the exact set of accepted documents and their records as grammars. C34_exact, C32_exact and C34_fits are without namespace awareness, for windows that reach to the end of the slice. C34_stored: a document of the right syntax without the misread constructs gives a list of tokens if and only if it is within the limits and the list is that of Tree.Document.stored, which differs from Tree.Document.recs only for element names with a prefix and for texts longer than one record; C34_ordinary_exact is the same without a tree given beforehand, C34_stored_window_partial and C34_stored_aware_partial in every window and mode; C34_neutral_partial: the records of every accepted document that fits, in every window, and with namespace awareness for documents it does not concern (NsNeutral). C34_window_partial is C34_partial for every window of every slice; C34_aware_partial adds namespace awareness, for trees without prefixes (the limits of C60); C34_stored_visible_partial and C34_stored_visible_exact are for trees with prefixes, and say exactly which of them are accepted with namespace awareness. |
| C35 | Tokens lie inside the document | `Wr`: invariant on the records written | **partial**. False (C35_refuted): an empty CDATA section closed by one bracket, and start tags with a prefix. C35_partial, for every option list: every other record lies inside the window, and of such a start tag the first byte. |
| C36 | Only byte encodings are accepted | decideEncoding, all first bytes | **proved**. All modes, every document and window. |
| C37 | Declared encodings | grammar of the declaration | **partial**. False (C37_refuted; C37_refuted_all: every document that declares ASCII, ISO-8859 or a Windows code page in any case is refused). C37_partial: documents that declare UTF-8, in any of its eight spellings, are accepted. C37_exact: the complete list of accepted names. |
| C38 | Character references | grammar of references | **partial**. False (C38_refuted: numbers are taken modulo 2^32). C38_exact: accepted exactly when the number modulo 2^32 is a character, or the name is one of the five. C38_partial: the property for numbers below 2^32. For documents of the right syntax without three misread constructs (Verif/Spec/Fits.lean), without namespace awareness. |
| C39 | Errors carry the right line number | induction over the document | **partial**. Line number of every syntax error is exact and so is the column as the code counts it (C39_partial); the column of the property is refuted on the first line of a window and for UTF-16 (C39_refuted_column). |
| C40 | Comments and PIs after the root element | grammar | **partial**. False (C40_refuted). C40_exact: what follows the root is accepted exactly when it is processing instructions with data. |
| C41 | A document type declaration is accepted | grammar | **partial**. False (C41_refuted); C41_refuted_all: no document with DOCTYPE in its prolog is accepted, whatever is before or after it. |
| C42 | Prefixes must be declared | invariant over the parse relating the namespace tables to the records; `Rooted`: simulation of the two parsers; witnesses for the false half | **partial**. False in both directions (six C42_refuted witnesses): a declared prefix refused, an undeclared one accepted. C42_attributes_partial and C42_elements_partial: in every accepted document the prefix of an attribute or element is xml or has been declared in the same start tag or before it (for elements, a seven-byte prefix that begins with xml is not checked). C42_root_partial and C42_root_iff_partial: in documents below 2^30 bytes that declare their prefixes at the root (RootPrefixes lists the further conditions) every declared prefix is accepted, with the records and caches of the parser without namespace awareness. C42_root_exact: a document that declares prefixes at its root only (RootDeclared lists the further conditions, none of which asks that the prefixes in use are declared) is accepted exactly when the parser without namespace awareness accepts it, every prefix in use is declared, the declarations are valid and the prefixed attributes of a tag have different local names; C42_root_refuses_partial draws the negative conclusion. C42_refuted_ten: a declared ten-byte prefix that begins with xmlns is refused. C42_visible_partial and C42_visible_iff_partial: declarations at any element; Spec/Scoped.lean says which declarations the parser looks at (not those in scope), and a document whose prefixes are declared by those is accepted, with the records and caches of the parser without namespace awareness. C42_refuted_again: two declarations at siblings are refused with an array index error, although no prefix is used. C42_visible_exact: with declarations at any element (VisibleDeclared leaves out four things: more than 63 levels, more than 64 declarations that the parser looks at, a root name that begins with a false XML declaration, and a declaration with a value of 29 bytes or more that begins with &) a document is accepted exactly when the parser without namespace awareness accepts it, every prefix in use is declared by a declaration that the parser looks at, the declarations are valid, the prefixed attributes of a tag have different local names, where a prefix is declared the parser looks at some declaration before unless there is none (DeclarationsInReach), and no element has the prefix xmlns or one taken for it (NamesWithoutXmlns); names with several colons and the prefixes taken for xml are covered; C42_visible_refuses_partial draws the negative conclusion. Missing: documents outside VisibleDeclared, for which only the first two theorems speak. |
| C43 | Qualified attribute names are unique | the same invariant; witnesses | **partial**. False (C43_refuted: Parse panics in both cases of the property; C43_refuted_entity: a duplicate is accepted). C43_partial: in every accepted document without misleading entities, the attributes of a tag with prefixes other than xml have different local names, so no duplicate is accepted. C43_root_exact: for documents that declare their prefixes at the root, having different local names is exactly what is asked; C43_visible_exact: the same for declarations at any element, with the declarations that the parser looks at. The other half, accepting the same local name in different namespaces, is false of every such document: C43_partial has no exception for it. |
| C44 | Reserved namespace names are protected | the same invariant; witnesses | **partial**. False (C44_refuted): the legal binding is refused and the illegal ones are accepted. C44_partial: no accepted document declares the prefix xml or xmlns, and none binds a prefix to the empty name. C44_root_exact: for documents that declare their prefixes at the root, these are exactly the demands on a declaration; C44_visible_exact: the same for declarations at any element, with the declarations that the parser looks at. |
| C45 | The deep location cache indexes every element | `Ev` and a list model of the caches | **proved**. C45_caches: every option list with WithLcDepth(5). Which marker it is, is C57. |
| C46 | The default location cache indexes every element | machine invariant | **partial**. False (C46_refuted). C46_exact: unless the deep cache was asked for, the caches are empty after every successful parse. |
| C47 | Long text is split into contiguous records | grammar, splitting lemma | **partial**. False (C47_refuted): every text longer than 2^20-1 bytes that is the content of an element is recorded from offset 0. C47_exact, C47_comment_exact, C47_cdata_exact: for texts, comments and CDATA sections the lengths add up and the records are consecutive, but from offset 0 when there is more than one; C47_partial: texts that fit. C47_document_exact: the same for every text, comment and CDATA section anywhere in a document of the right syntax; C47_neutral_exact: also in windows and with namespace awareness, if no attribute value begins with &a. Missing: documents with one of the three constructs that the parser misreads (Plain). |
| C48 | Nesting and name limits are enforced | `Ev` with the names of the records | **proved**. C48_limits, for every option list: what is accepted is within the limits. C48_refused says the same in terms of syntax trees. |
| C49 | A parser can be reused | machine invariant | **partial**. False (C49_refuted, C49_refuted_window). C49_exact: a second parse after a successful one never succeeds. |
| C50 | The result of a parse can be navigated | direct | **partial**. False: GetNav returns nil for every parser (C50_refuted); C50_partial says that it leaves the parser as it was. |
| C51 | Parsing a window depends on the window only | `Two`: simulation | **partial**. False (C51_refuted): the byte after the window decides between success, error and panic. C51_partial: if Parse comes back on the slice cut off at the window, then with any bytes after it the error, or the records and caches, are the same, in every mode. C51_before_partial: bytes before a window that reaches the end of the slice do not matter for acceptance and token records (without namespace awareness). C51_options_partial: C51_partial for every option list. |
| C52 | Modifier construction | induction over options | **proved**. Succeeds exactly for the supported encodings; C52_refuses gives the error in the other cases; a typed nil pointer panics (C52_nil_pointer). |
| C53 | Pilot options | induction over options | **proved**. Every list of options. |
| C54 | Parser construction validates its window | induction over options | **partial**. False for a negative length (C54_refuted). C54_exact: which options are accepted; C54_config: what the parser then works on; C54_partial for the other lengths. |
| C55 | Accepted documents are well-formed | grammar to trees | **partial**. False (C55_refuted: an accepted document that is the serialisation of no well-formed tree). C55_partial: true for documents without &, ], ? and !DDOCTYPE. C55_ordinary_partial: true for all documents without the constructs listed in Spec/Ordinary.lean (references, XML declarations, processing instructions and CDATA sections included) and with references of at most eight digits. C55_iff_partial: such a document is accepted if and only if it is well-formed and within the limits of Fits. C55_syntax_partial: the same without the condition on references, for the syntax. C32_exact gives the exact language of all documents. |
| C56 | Namespace awareness only restricts | `Two`: simulation | **partial**. False (C56_refuted: a declaration whose value starts with a broken reference is accepted only with namespace awareness). C56_partial: true for every document that has no quote followed by &a and no &ap; or &aos;. C56_grammar_partial: the records of a document accepted with namespace awareness are the ones its grammar gives. |
| C57 | The no-child marker is the one navigation looks for | evaluation of witnesses | **partial**. False (C57_refuted: the parser writes 0xFFFF, the navigator looks for 0xFFFFFFFF). C45_caches gives the exact contents. |
| C58 | Everything up to the nesting and name limits is accepted | grammar and size bounds | **partial**. False with namespace awareness (C58_refuted: 65 nested elements are accepted, 66 are refused, while the limit is 255). C58_partial: of documents within the other limits (Verif/Spec/Fits.lean) those are accepted that respect the three limits of the property; C58_window_partial: in every window; C58_aware_partial: with namespace awareness, if nothing in the document calls for prefixes; C58_visible_partial: the same with prefixes that are declared by declarations the parser looks at (C42), and at most 64 levels. Missing: documents with one of three constructs that the parser misreads (Plain). |
| C59 | Tuning options do not change the result | `Resp`: relation on the caches | **proved**. C59_tuning: the two runs end in the same way, with the same error or the same records. |
| C60 | Without prefixes, namespace awareness changes nothing | `Plain`: simulation of the two runs with an invariant on the namespace buffers | **partial**. False: C60_deep_refuted (the second element at depth 65 is refused only with namespace awareness) and C60_entity_refuted (so is a long default namespace name that begins with a reference). C60_partial: true for documents below 2^30 bytes with at most 65 levels and no such namespace name; C60_iff_partial and C60_plain_partial give both directions. |
| C61 | Tokens come in document order and do not overlap | `Wr`: invariant on the records written | **partial**. False (C61_refuted: the records of every text of more than 2^20-1 bytes begin at offset 0, see C47). C61_partial, for every option list: true without a token of that length, except that the empty data of a processing instruction without data is put at the start of its name; of a start tag only the first byte of its name is counted (C35 has why). |
| C62 | The number of tokens is bounded by the size of the document | `Wr`: invariant on the records written | **proved**. C62_bound, for every option list. |
| C63 | Names come with their values, attributes with their element | `Wr`: invariant on the records written | **proved**. C63_values, for every option list. C63_levels: the number of open elements rises at start tags only, and by one at most. |
| C64 | Attributes are written as their records say | `Wr` with the bytes read by each loop | **proved**. C64_attributes, for every option list; the bytes are those of the slice the window is in. |
| C65 | Comments and CDATA sections are where their records say | `Wr` with the bytes read by each loop | **partial**. False of this code: C65_refuted has a comment and a CDATA section in the middle of character data, after & instead of <, and a CDATA section that a single bracket ends. C65_comments_partial and C65_cdata_partial say exactly what does hold, for every option list: !-- or ![CDATA[ stands before, the text ends at the first -- (then > follows) or at the first ]> (the byte before it is left out). Records of texts longer than 2^20-1 bytes are excepted: their offsets are wrong (C47). |
| C66 | Character data records hold character data | `Wr` with the bytes read by each loop | **partial**. False of texts of 2^20 bytes or more (C66_refuted). C66_partial: for every option list, for records that are not pieces of a text longer than 2^20-1 bytes, whose offsets are wrong (C47_refuted). > never follows ], which is stronger than XML. |
| C67 | Options: the last of a kind counts, nothing else does | induction over options | **proved**. For all Go values (GoArgs: the selected lengths and offsets are 64-bit integers). |
| C68 | The tokens spell out the document | records of trees, induction over trees | **partial**. False of element names with a prefix (C68_refuted: the token of abc:d reads abc:d/>). C68_partial: true for every well-formed document within the limits of Tree.Document.Supported, in every window, without namespace awareness; C68_aware_partial: in both modes for documents without prefixes. C68_regular_partial: for every accepted tree whose texts fit into one record each, prefixes included, in every window and in both modes (with namespace awareness if no attribute value begins with &a): every token shows its item, except that the names of some elements run on. C68_exact: for these documents the property holds if and only if no element name runs on, that is if twice the position of the colon adds no bit to the length of the name (Overrun; p:c is fine, xs:element is not). C68_unique: the items do not depend on the tree chosen for the bytes. Missing: texts longer than 2^20-1 bytes (C47) and the constructs that the parser refuses or misreads (C34). |
| C69 | Processing instructions and the XML declaration are where their tokens say | induction over the grammar | **partial**. False (C69_refuted): after the root element a processing instruction can lack its >, a target that starts with xml can be no name, and the record of an encoding such as cp125 includes the quote. C69_instructions_partial and C69_declaration_partial: true of every accepted document with these deviations, without namespace awareness; C69_aware_partial: with it, if no reference to a predefined entity is cut short. Missing: the < before the ? (C44 and C34 give the constructs after which it can be missing), windows that end before the slice does. |
| C70 | Parsers in different goroutines are independent | induction over the schedule | **partial**. False of the exported variable erroring.EOFErrorType (C70_refuted: every successful Parse overwrites it, and two goroutines can be about to do so at once without a lock, a data race). C70_results_partial: for every schedule the result and the state of each parser are those of the call alone, unless that call never returns (C29_refuted). C70_type_partial: the variable always holds an end-of-file error. Missing: turns finer than an iteration of the loop of Parse. |
| C71 | Every element of a parsed document can be reached by moving the cursor | invariant of all moves; explicit walks over the caches that C45 gives | **partial**. False: with WithLcDepth(5) no element with three or more elements around it can be reached by any moves (C71_refuted, witness C71_witness_refuted), and with the default caches no element at all, the root included (C71_default_refuted). C71_exact and C71_tree: when each of the first two caches is on one page, the elements with at most two elements around them are exactly those that can be reached by a navigator with depth at least 4. C71_children_exact: Root, FirstChild and k times NextSibling give the k-th child of the root, and false past the last, but if there are more children than entries on a page of the first cache (32 to 256) the move to the first child beyond the page returns an error (C71_many_refuted, C71_many_witness_refuted); C71_children_partial is the case of at most 32. C71_page_refuted: no moves at all reach an element whose entry is not on the first page of its cache; C71_child_exact: the children of the root that can be reached are exactly those on the first page. Missing: which elements of depth 2 can be reached when a cache has several pages, depths below 4, and, in the theorems about trees, namespace-aware parsing of documents in which an attribute value begins with &a. GetNav itself returns nil (C50), so the navigator is made with NewVtdNav, as the tests of the package do. |
| C72 | The strings of a parsed document can be read back | composition of C68, C21 and the walk of C71 | **partial**. False: an empty text, comment or CDATA section that is followed by any token that is not empty is never read as the empty string (C72_empty_refuted, for every regular tree, prefixes included; in C72_refuted it is read as a piece of markup); references are not resolved (C72_refuted; C72_partial shows that both calls return the same bytes); a name with a prefix is read with bytes of the markup after it (C72_prefix_refuted). C72_partial and C72_tree_exact: for every other token of a regular tree both calls return its bytes, with carriage returns as newlines, if and only if it is on the first page of the token buffer (64 to 2^15 entries). C72_name_partial and C72_name_exact: the name of an element is read, also of one no cursor can reach (C71), if and only if it does not run on (C68) and its token is on the first page. C72_children_partial and C72_children_exact: moving to the k-th child of the root and reading the current token returns its name, false past the last, and an error exactly if a page ends before. These hold for namespace-aware parsing too if no attribute value begins with &a. C72_token_partial: the same for every document Parse accepts, in any mode: every token other than an empty text, a start tag with a colon and a token of type 15. C72_page_refuted and C72_many_refuted: no token beyond the first page of the token buffer can be read, so none from number 2^15 on in any document (witness C72_page_witness_refuted, C02). Missing: documents of 2^30 bytes or more, the two-byte encodings of the navigator. |
| C73 | No truncated document is accepted | the grammar is unambiguous and stable under appending: induction over derivations | **proved**. C73_truncated is the first sentence and C73_exact the second. For some prefixes, such as <a>< of <a></a>, Parse panics instead of returning an error: that is C30. C73_aware_partial: the first with namespace awareness, for documents without the references that a namespace-aware parser can misread. |
| C74 | An error other than end of file is final, so a truncated document is never called malformed | `Longer`: simulation of the runs on a document and on a longer one | **partial**. False for documents of white space alone: C74_refuted (four spaces, the beginning of an accepted document, are reported as a ParseError; processDocStart drops the end-of-file error there) and C74_blank_exact (every such document is). C74_exact: for a prefix of an accepted document, with and without namespace awareness and with any bytes behind the longer window, all errors are end-of-file errors if and only if the prefix contains more than white space; C74_final_partial is the first sentence of the property and C74_partial the second for these. C74_truncated_partial, with C73 and C29: a document without its last > gives an end-of-file error or a panic (C30) and nothing else. All for documents shorter than 1 GiB, where the size limits do not play a part. |

## Disagreements between the code and the properties

Found while proving; each is witnessed by a theorem.

* Buffers: random access reads only the first page (C02, C03); a cleared or truncated
  buffer keeps stale pages (C05, C06); `Upper32At` drops the top four bits (C07); the object buffer
  loses one object at every page boundary (C08); page exponents are not checked from below (C09).
* Hash: the mask does not select all buckets (C12).
* Readers: `SkipChar` and `SkipCharSeq` do not look at the window's end and keep
  what a failed sequence consumed (C14, C51); the ASCII reader refuses every whole document (C15).
* Errors: `NewNavigationError` builds an error of another type (C17).
* Token records: a start tag's prefix length is shifted by 1 where the getters expect 11 (C20).
* Navigator: entities are never resolved (C22); `NextSibling` never succeeds below the
  cached levels (C27); level 2 uses the wrong cache (C28); a failed move between caches that do not fit
  together changes the current index (C25).
* Parser, acceptance: `matchUrl` does not stop at the end of a URL: comparing a URL with itself panics at the end of the
  slice (C43) or never returns (C29);
  panics on a 257th attribute, on end tags outside the root and at the end of a slice
  (C30); declared encodings other than UTF-8 (C37), comments after the root (C40), and
  DOCTYPE (C41) are refused; character references are read modulo 2^32 (C38); prefix and
  namespace checks are wrong in both directions (C42, C43, C44); `?`, `]` and `&` handling
  accepts documents that are not well formed (C55).
* Parser, results: a long text's records start at offset 0 (C47); the default location caches are
  empty (C46); the no-child marker is 0xFFFF but the navigator looks for 0xFFFFFFFF (C57);
  a parser cannot be used twice (C49); `GetNav` returns nil (C50).
* Error positions: the column is wrong on the first line of a window (C39).

## Testing the theorems

Each line of `seeded/LOG.jsonl` is a wrong program: an edit to one definition of the model in
a scratch copy, the claim that the edit makes false, and the theorems that no longer
prove. The copy is rebuilt as far as needed: a lemma that no longer proves is replaced by an unproved
statement, so that one can see which property theorems depend on it, and a
property theorem counts as failed when its own proof fails or rests on such a
statement. An edit that broke a claim but no theorem led to a stronger theorem
(`tightened`); edits listed as controls leave every claim true and no property theorem may depend on more
than the edited function's own lemmas.

## Axioms of each theorem

Printed by `#print axioms` for every theorem of `MANIFEST.json`.

* none (5): `C17_constructor_types`, `C17_wrapping_keeps_chain`, `C50_refuted`, `C50_partial`, `C52_nil_pointer`.
* propext (5): `C05_clear_reads_empty`, `C09_refuted`, `C10_refuted`, `C14_refuted`, `C17_navigation_refuted`.
* propext, Quot.sound (32): `C07_lower`, `C09_long_exact`, `C09_object_exact`, `C09_int_exact`, `C09_partial`, `C12_last_size`, `C13_utf8`, `C13_ascii`, `C14_skipChar_exact`, `C14_skipChar_partial`, `C15_utf8_partial`, `C15_refuted`, `C16_exact`, `C16_partial`, `C16_refuted`, `C17_as_iff`, `C23_partial`, `C23_refuted`, `C23_refuted_reachable`, `C25_refuted`, `C28_refuted`, `C28_refuted_sibling`, `C52_refuses`, `C53_succeeds`, `C54_exact`, `C54_config`, `C54_partial`, `C65_refuted`, `C67_construct`, `C67_result`, `C67_override`, `C70_type_partial`.
* propext, Classical.choice, Quot.sound (241): `C01_long`, `C01_int`, `C02_longAt_partial`, `C02_intAt_partial`, `C02_refuted`, `C02_witness`, `C03_exact`, `C03_exact_int`, `C03_partial`, `C03_refuted`, `C04_modifyEntry`, `C04_modifyEntry_int`, `C04_succeeds_iff`, `C05_refuted`, `C05_partial`, `C06_refuted`, `C06_refuted_zero`, `C06_refuted_unit_pages`, `C06_partial`, `C07_upper_exact`, `C07_partial`, `C07_refuted`, `C08_objectAt_partial`, `C08_size_exact`, `C08_lost`, `C08_refuted`, `C10_byteAt`, `C10_slice_exact`, `C10_slice_partial`, `C11_classes`, `C11_not_xml10`, `C12_partial`, `C12_width_exact`, `C12_mask_refuted`, `C14_skipCharSeq_exact`, `C14_skipCharSeq_partial`, `C15_exact`, `C18_write`, `C18_read`, `C18_roundtrip`, `C18_offset_bound_sharp`, `C19_exact`, `C19_partial`, `C19_refuted`, `C19_refuted_split`, `C20_attr`, `C20_start_exact`, `C20_start_partial`, `C20_start_refuted_ns`, `C20_refuted`, `C21_exact`, `C21_partial`, `C21_partial_error`, `C21_no_panic`, `C21_refuted`, `C21_refuted_overflow`, `C22_exact`, `C22_partial`, `C22_refuted`, `C24_child_parent`, `C25_exact`, `C25_partial`, `C25_moves_partial`, `C26_first_partial`, `C26_last_partial`, `C26_refuted`, `C27_prev_partial`, `C27_next_exact`, `C27_refuted`, `C28_root_partial`, `C28_level1_sibling_partial`, `C28_level1_child_partial`, `C28_level2_child_exact`, `C29_aware_partial`, `C29_refuted`, `C29_partial`, `C30_refuted_truncated`, `C30_refuted_truncated_content`, `C30_refuted_end_tag`, `C30_refuted_pi`, `C30_partial`, `C31_nesting`, `C32_tags`, `C32_exact`, `C33_unique`, `C34_exact`, `C34_fits`, `C34_neutral_partial`, `C34_window_partial`, `C34_aware_partial`, `C34_stored`, `C34_ordinary_exact`, `C34_stored_window_partial`, `C34_stored_aware_partial`, `C34_partial`, `C34_refuted`, `C34_refuted_records`, `C34_stored_visible_partial`, `C34_stored_visible_exact`, `C35_refuted`, `C35_partial`, `C36_first_bytes`, `C37_exact`, `C37_refuted_all`, `C37_partial`, `C37_refuted`, `C38_exact`, `C38_partial`, `C38_refuted`, `C39_partial`, `C39_refuted_column`, `C40_exact`, `C40_refuted`, `C41_refuted_all`, `C41_refuted`, `C42_refuted_declared`, `C42_refuted_undeclared`, `C42_refuted_attribute`, `C42_attributes_partial`, `C42_elements_partial`, `C42_refuted_seven`, `C42_root_exact`, `C42_root_refuses_partial`, `C42_root_partial`, `C42_root_iff_partial`, `C42_refuted_ten`, `C42_visible_partial`, `C42_visible_iff_partial`, `C42_refuted_again`, `C42_visible_exact`, `C42_visible_refuses_partial`, `C43_refuted`, `C43_partial`, `C43_refuted_entity`, `C43_root_exact`, `C43_visible_exact`, `C44_refuted`, `C44_partial`, `C44_root_exact`, `C44_visible_exact`, `C45_caches`, `C46_exact`, `C46_refuted`, `C47_neutral_exact`, `C47_exact`, `C47_comment_exact`, `C47_cdata_exact`, `C47_partial`, `C47_refuted`, `C47_document_exact`, `C48_refused`, `C48_limits`, `C49_exact`, `C49_refuted`, `C49_refuted_window`, `C51_options_partial`, `C51_refuted`, `C51_partial`, `C51_after_partial`, `C51_before_partial`, `C52_succeeds_iff`, `C52_result`, `C53_refuses`, `C54_refuted`, `C55_syntax_partial`, `C55_ordinary_partial`, `C55_iff_partial`, `C55_partial`, `C55_refuted`, `C56_partial`, `C56_refuted`, `C56_grammar_partial`, `C57_refuted`, `C58_partial`, `C58_window_partial`, `C58_aware_partial`, `C58_refuted`, `C58_visible_partial`, `C59_tuning`, `C60_partial`, `C60_iff_partial`, `C60_plain_partial`, `C60_deep_refuted`, `C60_entity_refuted`, `C61_refuted`, `C61_partial`, `C61_offsets_partial`, `C62_bound`, `C63_values`, `C63_levels`, `C64_attributes`, `C65_comments_partial`, `C65_cdata_partial`, `C66_refuted`, `C66_partial`, `C68_partial`, `C68_aware_partial`, `C68_unique`, `C68_refuted`, `C68_regular_partial`, `C68_exact`, `C69_instructions_partial`, `C69_declaration_partial`, `C69_aware_partial`, `C69_refuted`, `C70_results_partial`, `C70_refuted`, `C71_children_exact`, `C71_many_refuted`, `C71_page_refuted`, `C71_child_exact`, `C71_many_witness_refuted`, `C71_refuted`, `C71_partial`, `C71_exact`, `C71_default_refuted`, `C71_tree`, `C71_children_partial`, `C71_witness_refuted`, `C72_token_partial`, `C72_page_refuted`, `C72_tree_exact`, `C72_name_exact`, `C72_children_exact`, `C72_many_refuted`, `C72_page_witness_refuted`, `C72_partial`, `C72_empty_refuted`, `C72_name_partial`, `C72_children_partial`, `C72_refuted`, `C72_prefix_refuted`, `C73_exact`, `C73_truncated`, `C73_aware_partial`, `C74_final_partial`, `C74_partial`, `C74_truncated_partial`, `C74_blank_exact`, `C74_exact`, `C74_refuted`.
