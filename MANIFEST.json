{
 "claims": [
  {
   "property": "C01",
   "status": "proved",
   "theorems": [
    "GoVtd.C01_long",
    "GoVtd.C01_int"
   ],
   "note": "Both buffers, every page size and list."
  },
  {
   "property": "C02",
   "status": "partial",
   "theorems": [
    "GoVtd.C02_longAt_partial",
    "GoVtd.C02_intAt_partial",
    "GoVtd.C02_refuted",
    "GoVtd.C02_witness"
   ],
   "note": "False as stated (C02_refuted, C02_witness): At reads only the first page. The partial theorems give the exact range in which it holds; C03_exact gives the outcome for every index."
  },
  {
   "property": "C03",
   "status": "partial",
   "theorems": [
    "GoVtd.C03_exact",
    "GoVtd.C03_exact_int",
    "GoVtd.C03_partial",
    "GoVtd.C03_refuted"
   ],
   "note": "False as stated (C03_refuted: panics). C03_exact and C03_exact_int give the outcome for every index; C03_partial the indices for which an error is reported."
  },
  {
   "property": "C04",
   "status": "proved",
   "theorems": [
    "GoVtd.C04_modifyEntry",
    "GoVtd.C04_modifyEntry_int",
    "GoVtd.C04_succeeds_iff"
   ],
   "note": "Point update with frame; C04_succeeds_iff says for which indices it succeeds."
  },
  {
   "property": "C05",
   "status": "partial",
   "theorems": [
    "GoVtd.C05_refuted",
    "GoVtd.C05_partial",
    "GoVtd.C05_clear_reads_empty"
   ],
   "note": "False as stated (C05_refuted). Holds for a buffer that was empty (C05_partial); a cleared buffer reads as empty."
  },
  {
   "property": "C06",
   "status": "partial",
   "theorems": [
    "GoVtd.C06_refuted",
    "GoVtd.C06_refuted_zero",
    "GoVtd.C06_refuted_unit_pages",
    "GoVtd.C06_partial"
   ],
   "note": "False as stated (C06_refuted). C06_partial gives what holds."
  },
  {
   "property": "C07",
   "status": "partial",
   "theorems": [
    "GoVtd.C07_lower",
    "GoVtd.C07_upper_exact",
    "GoVtd.C07_partial",
    "GoVtd.C07_refuted"
   ],
   "note": "Lower half exact (C07_lower). Upper half loses the top four bits (C07_upper_exact, C07_refuted); C07_partial for values below 2^60."
  },
  {
   "property": "C08",
   "status": "partial",
   "theorems": [
    "GoVtd.C08_objectAt_partial",
    "GoVtd.C08_size_exact",
    "GoVtd.C08_lost",
    "GoVtd.C08_refuted"
   ],
   "note": "False as stated (C08_refuted): every page boundary loses an object. C08_size_exact, C08_lost and C08_objectAt_partial say what is kept."
  },
  {
   "property": "C09",
   "status": "partial",
   "theorems": [
    "GoVtd.C09_long_exact",
    "GoVtd.C09_object_exact",
    "GoVtd.C09_int_exact",
    "GoVtd.C09_partial",
    "GoVtd.C09_refuted"
   ],
   "note": "False for negative exponents and 63 (C09_refuted); exact outcome for every machine integer."
  },
  {
   "property": "C10",
   "status": "partial",
   "theorems": [
    "GoVtd.C10_byteAt",
    "GoVtd.C10_slice_exact",
    "GoVtd.C10_slice_partial",
    "GoVtd.C10_refuted"
   ],
   "note": "ByteAt exact (C10_byteAt). GetByteSlice is not as stated (C10_refuted); exact outcome in C10_slice_exact."
  },
  {
   "property": "C11",
   "status": "proved",
   "theorems": [
    "GoVtd.C11_classes",
    "GoVtd.C11_not_xml10"
   ],
   "note": "Every natural number; C11_not_xml10 shows Char is the 1.1 one."
  },
  {
   "property": "C12",
   "status": "partial",
   "theorems": [
    "GoVtd.C12_partial",
    "GoVtd.C12_width_exact",
    "GoVtd.C12_mask_refuted",
    "GoVtd.C12_last_size"
   ],
   "note": "Width and bucket count proved; the mask is wrong (C12_mask_refuted)."
  },
  {
   "property": "C13",
   "status": "proved",
   "theorems": [
    "GoVtd.C13_utf8",
    "GoVtd.C13_ascii"
   ],
   "note": "Both readers, every window and number of calls."
  },
  {
   "property": "C14",
   "status": "partial",
   "theorems": [
    "GoVtd.C14_skipChar_exact",
    "GoVtd.C14_skipCharSeq_exact",
    "GoVtd.C14_skipChar_partial",
    "GoVtd.C14_skipCharSeq_partial",
    "GoVtd.C14_refuted"
   ],
   "note": "False as stated (C14_refuted): a failed sequence keeps what it consumed and the end of the slice panics; exact outcome given."
  },
  {
   "property": "C15",
   "status": "partial",
   "theorems": [
    "GoVtd.C15_utf8_partial",
    "GoVtd.C15_refuted",
    "GoVtd.C15_exact"
   ],
   "note": "True for UTF-8, false for every non-empty document with the ASCII reader (C15_refuted); C15_exact."
  },
  {
   "property": "C16",
   "status": "partial",
   "theorems": [
    "GoVtd.C16_exact",
    "GoVtd.C16_partial",
    "GoVtd.C16_refuted"
   ],
   "note": "False at a last CR and for a bare CR (C16_refuted); exact outcome for every offset."
  },
  {
   "property": "C17",
   "status": "partial",
   "theorems": [
    "GoVtd.C17_as_iff",
    "GoVtd.C17_constructor_types",
    "GoVtd.C17_wrapping_keeps_chain",
    "GoVtd.C17_navigation_refuted"
   ],
   "note": "errors.As and constructors proved; NavigationError has the wrong type (C17_navigation_refuted)."
  },
  {
   "property": "C18",
   "status": "proved",
   "theorems": [
    "GoVtd.C18_write",
    "GoVtd.C18_read",
    "GoVtd.C18_roundtrip",
    "GoVtd.C18_offset_bound_sharp"
   ],
   "note": "C18_write: the record written for every token; C18_read: the four getters on it; C18_roundtrip puts them together. Offsets need 30 bits: C18_offset_bound_sharp shows the bound is sharp."
  },
  {
   "property": "C19",
   "status": "partial",
   "theorems": [
    "GoVtd.C19_exact",
    "GoVtd.C19_partial",
    "GoVtd.C19_refuted",
    "GoVtd.C19_refuted_split"
   ],
   "note": "False as stated (C19_refuted, C19_refuted_split): the length of an empty text token is that of a later token, and only the first part of a split text counts. C19_exact gives the value for every token list; C19_partial where the property holds."
  },
  {
   "property": "C20",
   "status": "partial",
   "theorems": [
    "GoVtd.C20_attr",
    "GoVtd.C20_start_exact",
    "GoVtd.C20_start_partial",
    "GoVtd.C20_start_refuted_ns",
    "GoVtd.C20_refuted"
   ],
   "note": "Attribute names proved (C20_attr). Start tags with a prefix are false (C20_refuted, C20_start_refuted_ns); C20_start_exact gives the value, C20_start_partial holds without a prefix."
  },
  {
   "property": "C21",
   "status": "partial",
   "theorems": [
    "GoVtd.C21_exact",
    "GoVtd.C21_partial",
    "GoVtd.C21_partial_error",
    "GoVtd.C21_no_panic",
    "GoVtd.C21_refuted",
    "GoVtd.C21_refuted_overflow"
   ],
   "note": "False at a final CR and for int32 overflow (C21_refuted, C21_refuted_overflow). C21_exact gives the outcome; C21_partial the range where it holds."
  },
  {
   "property": "C22",
   "status": "partial",
   "theorems": [
    "GoVtd.C22_exact",
    "GoVtd.C22_partial",
    "GoVtd.C22_refuted"
   ],
   "note": "False: entities are never resolved (C22_exact: the resolved and the raw string are always the same; C22_refuted). C22_partial holds for text without references."
  },
  {
   "property": "C23",
   "status": "partial",
   "theorems": [
    "GoVtd.C23_partial",
    "GoVtd.C23_refuted",
    "GoVtd.C23_refuted_reachable"
   ],
   "note": "Holds for every state with a cursor stack (C23_partial); a navigator made with depth 0 panics (C23_refuted, C23_refuted_reachable)."
  },
  {
   "property": "C24",
   "status": "proved",
   "theorems": [
    "GoVtd.C24_child_parent"
   ],
   "note": "Every cursor state and buffer."
  },
  {
   "property": "C25",
   "status": "partial",
   "theorems": [
    "GoVtd.C25_exact",
    "GoVtd.C25_partial",
    "GoVtd.C25_refuted",
    "GoVtd.C25_moves_partial"
   ],
   "note": "False (C25_refuted). C25_exact lists everything a failed move can leave behind; C25_moves_partial: unless the second cache lacks an entry that the first one points to (the case of C25_refuted), a failed move changes neither the current index nor what any later sequence of moves shows; C25_partial gives the current index and the cursor stack."
  },
  {
   "property": "C26",
   "status": "partial",
   "theorems": [
    "GoVtd.C26_first_partial",
    "GoVtd.C26_last_partial",
    "GoVtd.C26_refuted"
   ],
   "note": "Both directions, for token buffers of one page (C26_first_partial, C26_last_partial); false for longer ones (C26_refuted)."
  },
  {
   "property": "C27",
   "status": "partial",
   "theorems": [
    "GoVtd.C27_prev_partial",
    "GoVtd.C27_next_exact",
    "GoVtd.C27_refuted"
   ],
   "note": "PrevSibling proved for one-page buffers; NextSibling never succeeds (C27_next_exact, C27_refuted)."
  },
  {
   "property": "C28",
   "status": "partial",
   "theorems": [
    "GoVtd.C28_root_partial",
    "GoVtd.C28_level1_sibling_partial",
    "GoVtd.C28_level1_child_partial",
    "GoVtd.C28_refuted",
    "GoVtd.C28_refuted_sibling",
    "GoVtd.C28_level2_child_exact"
   ],
   "note": "Root to level 1, siblings at level 1 and level 1 to 2 proved; level 2 to 3 and siblings at level 2 use the wrong cache (C28_refuted, C28_refuted_sibling, C28_level2_child_exact)."
  },
  {
   "property": "C29",
   "status": "partial",
   "theorems": [
    "GoVtd.C29_aware_partial",
    "GoVtd.C29_refuted",
    "GoVtd.C29_partial"
   ],
   "note": "Proved for every input when the parser is not namespace aware (C29_partial), and in every mode for slices whose numeric character references are at most eight bytes long, as all references to XML characters without leading zeros are (C29_aware_partial). False in namespace-aware mode: C29_refuted is a document on which Parse does not return for any number of steps."
  },
  {
   "property": "C30",
   "status": "partial",
   "theorems": [
    "GoVtd.C30_refuted_truncated",
    "GoVtd.C30_refuted_truncated_content",
    "GoVtd.C30_refuted_end_tag",
    "GoVtd.C30_refuted_pi",
    "GoVtd.C30_partial"
   ],
   "note": "False (four C30_refuted witnesses). C30_partial: a panic needs a window not followed by NUL, a slice that ends in the first bytes, an end tag outside of the root or a 257th attribute."
  },
  {
   "property": "C31",
   "status": "proved",
   "theorems": [
    "GoVtd.C31_nesting"
   ],
   "note": "Every option list: both modes, every window and slice."
  },
  {
   "property": "C32",
   "status": "proved",
   "theorems": [
    "GoVtd.C32_tags",
    "GoVtd.C32_exact"
   ],
   "note": "C32_tags: every option list. The tags (Verif/Spec/Tags.lean) have exactly the start tags of the records and the end tags that Parse met (Verif/Spec/Trace.lean). C32_exact: the accepted language as a grammar in which the end tag repeats the name of the start tag, without namespace awareness, for windows that reach to the end of the slice."
  },
  {
   "property": "C33",
   "status": "proved",
   "theorems": [
    "GoVtd.C33_unique"
   ],
   "note": "Every option list. Two names are of one tag when no start-tag record is between them; names are read from the records."
  },
  {
   "property": "C34",
   "status": "partial",
   "theorems": [
    "GoVtd.C34_exact",
    "GoVtd.C34_fits",
    "GoVtd.C34_neutral_partial",
    "GoVtd.C34_window_partial",
    "GoVtd.C34_aware_partial",
    "GoVtd.C34_stored",
    "GoVtd.C34_ordinary_exact",
    "GoVtd.C34_stored_window_partial",
    "GoVtd.C34_stored_aware_partial",
    "GoVtd.C34_partial",
    "GoVtd.C34_refuted",
    "GoVtd.C34_refuted_records",
    "GoVtd.C34_stored_visible_partial",
    "GoVtd.C34_stored_visible_exact"
   ],
   "note": "False (C34_refuted, C34_refuted_records). C34_partial: every well-formed tree within the listed limits (Verif/Spec/Tree.lean) is accepted with exactly its records. C34_fits: a document of the right syntax without three misread constructs is accepted exactly when it is within each of nine limits. C34_exact and C32_exact: the exact set of accepted documents and their records as grammars. C34_exact, C32_exact and C34_fits are without namespace awareness, for windows that reach to the end of the slice. C34_stored: a document of the right syntax without the misread constructs gives a list of tokens if and only if it is within the limits and the list is that of Tree.Document.stored, which differs from Tree.Document.recs only for element names with a prefix and for texts longer than one record; C34_ordinary_exact is the same without a tree given beforehand, C34_stored_window_partial and C34_stored_aware_partial in every window and mode; C34_neutral_partial: the records of every accepted document that fits, in every window, and with namespace awareness for documents it does not concern (NsNeutral). C34_window_partial is C34_partial for every window of every slice; C34_aware_partial adds namespace awareness, for trees without prefixes (the limits of C60); C34_stored_visible_partial and C34_stored_visible_exact are for trees with prefixes, and say exactly which of them are accepted with namespace awareness."
  },
  {
   "property": "C35",
   "status": "partial",
   "theorems": [
    "GoVtd.C35_refuted",
    "GoVtd.C35_partial"
   ],
   "note": "False (C35_refuted): an empty CDATA section closed by one bracket, and start tags with a prefix. C35_partial, for every option list: every other record lies inside the window, and of such a start tag the first byte."
  },
  {
   "property": "C36",
   "status": "proved",
   "theorems": [
    "GoVtd.C36_first_bytes"
   ],
   "note": "All modes, every document and window."
  },
  {
   "property": "C37",
   "status": "partial",
   "theorems": [
    "GoVtd.C37_exact",
    "GoVtd.C37_refuted_all",
    "GoVtd.C37_partial",
    "GoVtd.C37_refuted"
   ],
   "note": "False (C37_refuted; C37_refuted_all: every document that declares ASCII, ISO-8859 or a Windows code page in any case is refused). C37_partial: documents that declare UTF-8, in any of its eight spellings, are accepted. C37_exact: the complete list of accepted names."
  },
  {
   "property": "C38",
   "status": "partial",
   "theorems": [
    "GoVtd.C38_exact",
    "GoVtd.C38_partial",
    "GoVtd.C38_refuted"
   ],
   "note": "False (C38_refuted: numbers are taken modulo 2^32). C38_exact: accepted exactly when the number modulo 2^32 is a character, or the name is one of the five. C38_partial: the property for numbers below 2^32. For documents of the right syntax without three misread constructs (Verif/Spec/Fits.lean), without namespace awareness."
  },
  {
   "property": "C39",
   "status": "partial",
   "theorems": [
    "GoVtd.C39_partial",
    "GoVtd.C39_refuted_column"
   ],
   "note": "Line number of every syntax error is exact and so is the column as the code counts it (C39_partial); the column of the property is refuted on the first line of a window and for UTF-16 (C39_refuted_column)."
  },
  {
   "property": "C40",
   "status": "partial",
   "theorems": [
    "GoVtd.C40_exact",
    "GoVtd.C40_refuted"
   ],
   "note": "False (C40_refuted). C40_exact: what follows the root is accepted exactly when it is processing instructions with data."
  },
  {
   "property": "C41",
   "status": "partial",
   "theorems": [
    "GoVtd.C41_refuted_all",
    "GoVtd.C41_refuted"
   ],
   "note": "False (C41_refuted); C41_refuted_all: no document with DOCTYPE in its prolog is accepted, whatever is before or after it."
  },
  {
   "property": "C42",
   "status": "partial",
   "theorems": [
    "GoVtd.C42_refuted_declared",
    "GoVtd.C42_refuted_undeclared",
    "GoVtd.C42_refuted_attribute",
    "GoVtd.C42_attributes_partial",
    "GoVtd.C42_elements_partial",
    "GoVtd.C42_refuted_seven",
    "GoVtd.C42_root_exact",
    "GoVtd.C42_root_refuses_partial",
    "GoVtd.C42_root_partial",
    "GoVtd.C42_root_iff_partial",
    "GoVtd.C42_refuted_ten",
    "GoVtd.C42_visible_partial",
    "GoVtd.C42_visible_iff_partial",
    "GoVtd.C42_refuted_again",
    "GoVtd.C42_visible_exact",
    "GoVtd.C42_visible_refuses_partial"
   ],
   "note": "False in both directions (six C42_refuted witnesses): a declared prefix refused, an undeclared one accepted. C42_attributes_partial and C42_elements_partial: in every accepted document the prefix of an attribute or element is xml or has been declared in the same start tag or before it (for elements, a seven-byte prefix that begins with xml is not checked). C42_root_partial and C42_root_iff_partial: in documents below 2^30 bytes that declare their prefixes at the root (RootPrefixes lists the further conditions) every declared prefix is accepted, with the records and caches of the parser without namespace awareness. C42_root_exact: a document that declares prefixes at its root only (RootDeclared lists the further conditions, none of which asks that the prefixes in use are declared) is accepted exactly when the parser without namespace awareness accepts it, every prefix in use is declared, the declarations are valid and the prefixed attributes of a tag have different local names; C42_root_refuses_partial draws the negative conclusion. C42_refuted_ten: a declared ten-byte prefix that begins with xmlns is refused. C42_visible_partial and C42_visible_iff_partial: declarations at any element; Spec/Scoped.lean says which declarations the parser looks at (not those in scope), and a document whose prefixes are declared by those is accepted, with the records and caches of the parser without namespace awareness. C42_refuted_again: two declarations at siblings are refused with an array index error, although no prefix is used. C42_visible_exact: with declarations at any element (VisibleDeclared leaves out four things: more than 63 levels, more than 64 declarations that the parser looks at, a root name that begins with a false XML declaration, and a declaration with a value of 29 bytes or more that begins with &) a document is accepted exactly when the parser without namespace awareness accepts it, every prefix in use is declared by a declaration that the parser looks at, the declarations are valid, the prefixed attributes of a tag have different local names, where a prefix is declared the parser looks at some declaration before unless there is none (DeclarationsInReach), and no element has the prefix xmlns or one taken for it (NamesWithoutXmlns); names with several colons and the prefixes taken for xml are covered; C42_visible_refuses_partial draws the negative conclusion. Missing: documents outside VisibleDeclared, for which only the first two theorems speak."
  },
  {
   "property": "C43",
   "status": "partial",
   "theorems": [
    "GoVtd.C43_refuted",
    "GoVtd.C43_partial",
    "GoVtd.C43_refuted_entity",
    "GoVtd.C43_root_exact",
    "GoVtd.C43_visible_exact"
   ],
   "note": "False (C43_refuted: Parse panics in both cases of the property; C43_refuted_entity: a duplicate is accepted). C43_partial: in every accepted document without misleading entities, the attributes of a tag with prefixes other than xml have different local names, so no duplicate is accepted. C43_root_exact: for documents that declare their prefixes at the root, having different local names is exactly what is asked; C43_visible_exact: the same for declarations at any element, with the declarations that the parser looks at. The other half, accepting the same local name in different namespaces, is false of every such document: C43_partial has no exception for it."
  },
  {
   "property": "C44",
   "status": "partial",
   "theorems": [
    "GoVtd.C44_refuted",
    "GoVtd.C44_partial",
    "GoVtd.C44_root_exact",
    "GoVtd.C44_visible_exact"
   ],
   "note": "False (C44_refuted): the legal binding is refused and the illegal ones are accepted. C44_partial: no accepted document declares the prefix xml or xmlns, and none binds a prefix to the empty name. C44_root_exact: for documents that declare their prefixes at the root, these are exactly the demands on a declaration; C44_visible_exact: the same for declarations at any element, with the declarations that the parser looks at."
  },
  {
   "property": "C45",
   "status": "proved",
   "theorems": [
    "GoVtd.C45_caches"
   ],
   "note": "C45_caches: every option list with WithLcDepth(5). Which marker it is, is C57."
  },
  {
   "property": "C46",
   "status": "partial",
   "theorems": [
    "GoVtd.C46_exact",
    "GoVtd.C46_refuted"
   ],
   "note": "False (C46_refuted). C46_exact: unless the deep cache was asked for, the caches are empty after every successful parse."
  },
  {
   "property": "C47",
   "status": "partial",
   "theorems": [
    "GoVtd.C47_neutral_exact",
    "GoVtd.C47_exact",
    "GoVtd.C47_comment_exact",
    "GoVtd.C47_cdata_exact",
    "GoVtd.C47_partial",
    "GoVtd.C47_refuted",
    "GoVtd.C47_document_exact"
   ],
   "note": "False (C47_refuted): every text longer than 2^20-1 bytes that is the content of an element is recorded from offset 0. C47_exact, C47_comment_exact, C47_cdata_exact: for texts, comments and CDATA sections the lengths add up and the records are consecutive, but from offset 0 when there is more than one; C47_partial: texts that fit. C47_document_exact: the same for every text, comment and CDATA section anywhere in a document of the right syntax; C47_neutral_exact: also in windows and with namespace awareness, if no attribute value begins with &a. Missing: documents with one of the three constructs that the parser misreads (Plain)."
  },
  {
   "property": "C48",
   "status": "proved",
   "theorems": [
    "GoVtd.C48_refused",
    "GoVtd.C48_limits"
   ],
   "note": "C48_limits, for every option list: what is accepted is within the limits. C48_refused says the same in terms of syntax trees."
  },
  {
   "property": "C49",
   "status": "partial",
   "theorems": [
    "GoVtd.C49_exact",
    "GoVtd.C49_refuted",
    "GoVtd.C49_refuted_window"
   ],
   "note": "False (C49_refuted, C49_refuted_window). C49_exact: a second parse after a successful one never succeeds."
  },
  {
   "property": "C50",
   "status": "partial",
   "theorems": [
    "GoVtd.C50_refuted",
    "GoVtd.C50_partial"
   ],
   "note": "False: GetNav returns nil for every parser (C50_refuted); C50_partial says that it leaves the parser as it was."
  },
  {
   "property": "C51",
   "status": "partial",
   "theorems": [
    "GoVtd.C51_options_partial",
    "GoVtd.C51_refuted",
    "GoVtd.C51_partial",
    "GoVtd.C51_after_partial",
    "GoVtd.C51_before_partial"
   ],
   "note": "False (C51_refuted): the byte after the window decides between success, error and panic. C51_partial: if Parse comes back on the slice cut off at the window, then with any bytes after it the error, or the records and caches, are the same, in every mode. C51_before_partial: bytes before a window that reaches the end of the slice do not matter for acceptance and token records (without namespace awareness). C51_options_partial: C51_partial for every option list."
  },
  {
   "property": "C52",
   "status": "proved",
   "theorems": [
    "GoVtd.C52_refuses",
    "GoVtd.C52_succeeds_iff",
    "GoVtd.C52_result",
    "GoVtd.C52_nil_pointer"
   ],
   "note": "Succeeds exactly for the supported encodings; C52_refuses gives the error in the other cases; a typed nil pointer panics (C52_nil_pointer)."
  },
  {
   "property": "C53",
   "status": "proved",
   "theorems": [
    "GoVtd.C53_succeeds",
    "GoVtd.C53_refuses"
   ],
   "note": "Every list of options."
  },
  {
   "property": "C54",
   "status": "partial",
   "theorems": [
    "GoVtd.C54_exact",
    "GoVtd.C54_config",
    "GoVtd.C54_partial",
    "GoVtd.C54_refuted"
   ],
   "note": "False for a negative length (C54_refuted). C54_exact: which options are accepted; C54_config: what the parser then works on; C54_partial for the other lengths."
  },
  {
   "property": "C55",
   "status": "partial",
   "theorems": [
    "GoVtd.C55_syntax_partial",
    "GoVtd.C55_ordinary_partial",
    "GoVtd.C55_iff_partial",
    "GoVtd.C55_partial",
    "GoVtd.C55_refuted"
   ],
   "note": "False (C55_refuted: an accepted document that is the serialisation of no well-formed tree). C55_partial: true for documents without &, ], ? and !DDOCTYPE. C55_ordinary_partial: true for all documents without the constructs listed in Spec/Ordinary.lean (references, XML declarations, processing instructions and CDATA sections included) and with references of at most eight digits. C55_iff_partial: such a document is accepted if and only if it is well-formed and within the limits of Fits. C55_syntax_partial: the same without the condition on references, for the syntax. C32_exact gives the exact language of all documents."
  },
  {
   "property": "C56",
   "status": "partial",
   "theorems": [
    "GoVtd.C56_partial",
    "GoVtd.C56_refuted",
    "GoVtd.C56_grammar_partial"
   ],
   "note": "False (C56_refuted: a declaration whose value starts with a broken reference is accepted only with namespace awareness). C56_partial: true for every document that has no quote followed by &a and no &ap; or &aos;. C56_grammar_partial: the records of a document accepted with namespace awareness are the ones its grammar gives."
  },
  {
   "property": "C57",
   "status": "partial",
   "theorems": [
    "GoVtd.C57_refuted"
   ],
   "note": "False (C57_refuted: the parser writes 0xFFFF, the navigator looks for 0xFFFFFFFF). C45_caches gives the exact contents."
  },
  {
   "property": "C58",
   "status": "partial",
   "theorems": [
    "GoVtd.C58_partial",
    "GoVtd.C58_window_partial",
    "GoVtd.C58_aware_partial",
    "GoVtd.C58_refuted",
    "GoVtd.C58_visible_partial"
   ],
   "note": "False with namespace awareness (C58_refuted: 65 nested elements are accepted, 66 are refused, while the limit is 255). C58_partial: of documents within the other limits (Verif/Spec/Fits.lean) those are accepted that respect the three limits of the property; C58_window_partial: in every window; C58_aware_partial: with namespace awareness, if nothing in the document calls for prefixes; C58_visible_partial: the same with prefixes that are declared by declarations the parser looks at (C42), and at most 64 levels. Missing: documents with one of three constructs that the parser misreads (Plain)."
  },
  {
   "property": "C59",
   "status": "proved",
   "theorems": [
    "GoVtd.C59_tuning"
   ],
   "note": "C59_tuning: the two runs end in the same way, with the same error or the same records."
  },
  {
   "property": "C60",
   "status": "partial",
   "theorems": [
    "GoVtd.C60_partial",
    "GoVtd.C60_iff_partial",
    "GoVtd.C60_plain_partial",
    "GoVtd.C60_deep_refuted",
    "GoVtd.C60_entity_refuted"
   ],
   "note": "False: C60_deep_refuted (the second element at depth 65 is refused only with namespace awareness) and C60_entity_refuted (so is a long default namespace name that begins with a reference). C60_partial: true for documents below 2^30 bytes with at most 65 levels and no such namespace name; C60_iff_partial and C60_plain_partial give both directions."
  },
  {
   "property": "C61",
   "status": "partial",
   "theorems": [
    "GoVtd.C61_refuted",
    "GoVtd.C61_partial",
    "GoVtd.C61_offsets_partial"
   ],
   "note": "False (C61_refuted: the records of every text of more than 2^20-1 bytes begin at offset 0, see C47). C61_partial, for every option list: true without a token of that length, except that the empty data of a processing instruction without data is put at the start of its name; of a start tag only the first byte of its name is counted (C35 has why)."
  },
  {
   "property": "C62",
   "status": "proved",
   "theorems": [
    "GoVtd.C62_bound"
   ],
   "note": "C62_bound, for every option list."
  },
  {
   "property": "C63",
   "status": "proved",
   "theorems": [
    "GoVtd.C63_values",
    "GoVtd.C63_levels"
   ],
   "note": "C63_values, for every option list. C63_levels: the number of open elements rises at start tags only, and by one at most."
  },
  {
   "property": "C64",
   "status": "proved",
   "theorems": [
    "GoVtd.C64_attributes"
   ],
   "note": "C64_attributes, for every option list; the bytes are those of the slice the window is in."
  },
  {
   "property": "C65",
   "status": "partial",
   "theorems": [
    "GoVtd.C65_comments_partial",
    "GoVtd.C65_cdata_partial",
    "GoVtd.C65_refuted"
   ],
   "note": "False of this code: C65_refuted has a comment and a CDATA section in the middle of character data, after & instead of <, and a CDATA section that a single bracket ends. C65_comments_partial and C65_cdata_partial say exactly what does hold, for every option list: !-- or ![CDATA[ stands before, the text ends at the first -- (then > follows) or at the first ]> (the byte before it is left out). Records of texts longer than 2^20-1 bytes are excepted: their offsets are wrong (C47)."
  },
  {
   "property": "C66",
   "status": "partial",
   "theorems": [
    "GoVtd.C66_refuted",
    "GoVtd.C66_partial"
   ],
   "note": "False of texts of 2^20 bytes or more (C66_refuted). C66_partial: for every option list, for records that are not pieces of a text longer than 2^20-1 bytes, whose offsets are wrong (C47_refuted). > never follows ], which is stronger than XML."
  },
  {
   "property": "C67",
   "status": "proved",
   "theorems": [
    "GoVtd.C67_construct",
    "GoVtd.C67_result",
    "GoVtd.C67_override"
   ],
   "note": "For all Go values (GoArgs: the selected lengths and offsets are 64-bit integers)."
  },
  {
   "property": "C68",
   "status": "partial",
   "theorems": [
    "GoVtd.C68_partial",
    "GoVtd.C68_aware_partial",
    "GoVtd.C68_unique",
    "GoVtd.C68_refuted",
    "GoVtd.C68_regular_partial",
    "GoVtd.C68_exact"
   ],
   "note": "False of element names with a prefix (C68_refuted: the token of abc:d reads abc:d/>). C68_partial: true for every well-formed document within the limits of Tree.Document.Supported, in every window, without namespace awareness; C68_aware_partial: in both modes for documents without prefixes. C68_regular_partial: for every accepted tree whose texts fit into one record each, prefixes included, in every window and in both modes (with namespace awareness if no attribute value begins with &a): every token shows its item, except that the names of some elements run on. C68_exact: for these documents the property holds if and only if no element name runs on, that is if twice the position of the colon adds no bit to the length of the name (Overrun; p:c is fine, xs:element is not). C68_unique: the items do not depend on the tree chosen for the bytes. Missing: texts longer than 2^20-1 bytes (C47) and the constructs that the parser refuses or misreads (C34)."
  },
  {
   "property": "C69",
   "status": "partial",
   "theorems": [
    "GoVtd.C69_instructions_partial",
    "GoVtd.C69_declaration_partial",
    "GoVtd.C69_aware_partial",
    "GoVtd.C69_refuted"
   ],
   "note": "False (C69_refuted): after the root element a processing instruction can lack its >, a target that starts with xml can be no name, and the record of an encoding such as cp125 includes the quote. C69_instructions_partial and C69_declaration_partial: true of every accepted document with these deviations, without namespace awareness; C69_aware_partial: with it, if no reference to a predefined entity is cut short. Missing: the < before the ? (C44 and C34 give the constructs after which it can be missing), windows that end before the slice does."
  },
  {
   "property": "C70",
   "status": "partial",
   "theorems": [
    "GoVtd.C70_results_partial",
    "GoVtd.C70_type_partial",
    "GoVtd.C70_refuted"
   ],
   "note": "False of the exported variable erroring.EOFErrorType (C70_refuted: every successful Parse overwrites it, and two goroutines can be about to do so at once without a lock, a data race). C70_results_partial: for every schedule the result and the state of each parser are those of the call alone, unless that call never returns (C29_refuted). C70_type_partial: the variable always holds an end-of-file error. Missing: turns finer than an iteration of the loop of Parse."
  },
  {
   "property": "C71",
   "status": "partial",
   "theorems": [
    "GoVtd.C71_children_exact",
    "GoVtd.C71_many_refuted",
    "GoVtd.C71_page_refuted",
    "GoVtd.C71_child_exact",
    "GoVtd.C71_many_witness_refuted",
    "GoVtd.C71_refuted",
    "GoVtd.C71_partial",
    "GoVtd.C71_exact",
    "GoVtd.C71_default_refuted",
    "GoVtd.C71_tree",
    "GoVtd.C71_children_partial",
    "GoVtd.C71_witness_refuted"
   ],
   "note": "False: with WithLcDepth(5) no element with three or more elements around it can be reached by any moves (C71_refuted, witness C71_witness_refuted), and with the default caches no element at all, the root included (C71_default_refuted). C71_exact and C71_tree: when each of the first two caches is on one page, the elements with at most two elements around them are exactly those that can be reached by a navigator with depth at least 4. C71_children_exact: Root, FirstChild and k times NextSibling give the k-th child of the root, and false past the last, but if there are more children than entries on a page of the first cache (32 to 256) the move to the first child beyond the page returns an error (C71_many_refuted, C71_many_witness_refuted); C71_children_partial is the case of at most 32. C71_page_refuted: no moves at all reach an element whose entry is not on the first page of its cache; C71_child_exact: the children of the root that can be reached are exactly those on the first page. Missing: which elements of depth 2 can be reached when a cache has several pages, depths below 4, and, in the theorems about trees, namespace-aware parsing of documents in which an attribute value begins with &a. GetNav itself returns nil (C50), so the navigator is made with NewVtdNav, as the tests of the package do."
  },
  {
   "property": "C72",
   "status": "partial",
   "theorems": [
    "GoVtd.C72_token_partial",
    "GoVtd.C72_page_refuted",
    "GoVtd.C72_tree_exact",
    "GoVtd.C72_name_exact",
    "GoVtd.C72_children_exact",
    "GoVtd.C72_many_refuted",
    "GoVtd.C72_page_witness_refuted",
    "GoVtd.C72_partial",
    "GoVtd.C72_empty_refuted",
    "GoVtd.C72_name_partial",
    "GoVtd.C72_children_partial",
    "GoVtd.C72_refuted",
    "GoVtd.C72_prefix_refuted"
   ],
   "note": "False: an empty text, comment or CDATA section that is followed by any token that is not empty is never read as the empty string (C72_empty_refuted, for every regular tree, prefixes included; in C72_refuted it is read as a piece of markup); references are not resolved (C72_refuted; C72_partial shows that both calls return the same bytes); a name with a prefix is read with bytes of the markup after it (C72_prefix_refuted). C72_partial and C72_tree_exact: for every other token of a regular tree both calls return its bytes, with carriage returns as newlines, if and only if it is on the first page of the token buffer (64 to 2^15 entries). C72_name_partial and C72_name_exact: the name of an element is read, also of one no cursor can reach (C71), if and only if it does not run on (C68) and its token is on the first page. C72_children_partial and C72_children_exact: moving to the k-th child of the root and reading the current token returns its name, false past the last, and an error exactly if a page ends before. These hold for namespace-aware parsing too if no attribute value begins with &a. C72_token_partial: the same for every document Parse accepts, in any mode: every token other than an empty text, a start tag with a colon and a token of type 15. C72_page_refuted and C72_many_refuted: no token beyond the first page of the token buffer can be read, so none from number 2^15 on in any document (witness C72_page_witness_refuted, C02). Missing: documents of 2^30 bytes or more, the two-byte encodings of the navigator."
  },
  {
   "property": "C73",
   "status": "proved",
   "theorems": [
    "GoVtd.C73_exact",
    "GoVtd.C73_truncated",
    "GoVtd.C73_aware_partial"
   ],
   "note": "C73_truncated is the first sentence and C73_exact the second. For some prefixes, such as <a>< of <a></a>, Parse panics instead of returning an error: that is C30. C73_aware_partial: the first with namespace awareness, for documents without the references that a namespace-aware parser can misread."
  },
  {
   "property": "C74",
   "status": "partial",
   "theorems": [
    "GoVtd.C74_final_partial",
    "GoVtd.C74_partial",
    "GoVtd.C74_truncated_partial",
    "GoVtd.C74_blank_exact",
    "GoVtd.C74_exact",
    "GoVtd.C74_refuted"
   ],
   "note": "False for documents of white space alone: C74_refuted (four spaces, the beginning of an accepted document, are reported as a ParseError; processDocStart drops the end-of-file error there) and C74_blank_exact (every such document is). C74_exact: for a prefix of an accepted document, with and without namespace awareness and with any bytes behind the longer window, all errors are end-of-file errors if and only if the prefix contains more than white space; C74_final_partial is the first sentence of the property and C74_partial the second for these. C74_truncated_partial, with C73 and C29: a document without its last > gives an end-of-file error or a panic (C30) and nothing else. All for documents shorter than 1 GiB, where the size limits do not play a part."
  }
 ]
}