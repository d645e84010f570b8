{"id": "C01", "title": "Appended values are all there, in order", "statement": "After any sequence of Append calls on a fresh FastLongBuffer or FastIntBuffer, every Append returns nil, GetSize equals the number of appends and ToLongArray/ToIntArray returns exactly the appended values in order.", "quantifier": "every page-size exponent 0..62 and every finite list of values", "why_tests_cant": "The page arithmetic has to be right for every page size and every number of appends; a test fixes one of each.", "anchors": ["vtdxml/buffer/long_buffer.go:FastLongBuffer.Append,ToLongArray,GetSize", "vtdxml/buffer/int_buffer.go:FastIntBuffer.Append,ToIntArray,GetSize"]}
{"id": "C02", "title": "Random access returns the i-th appended value", "statement": "After appending v0..v(n-1) to a fresh buffer, LongAt(i)/IntAt(i) returns v_i for every 0 <= i < n.", "quantifier": "every page size, every list of values, every index in range", "why_tests_cant": "Needs every (size, page size, index) triple; the existing tests stay inside the first page.", "anchors": ["vtdxml/buffer/long_buffer.go:FastLongBuffer.LongAt", "vtdxml/buffer/int_buffer.go:FastIntBuffer.IntAt"]}
{"id": "C03", "title": "Out-of-range access is reported as an error, never a panic", "statement": "On a buffer filled by appends, LongAt/IntAt/ObjectAt with an index outside [0,n) returns an IndexOutOfRange error; it never panics.", "quantifier": "every page size, every contents, every index (also negative)", "why_tests_cant": "The panic needs a particular relation between index, page size and element count.", "anchors": ["vtdxml/buffer/long_buffer.go:FastLongBuffer.LongAt,get", "vtdxml/buffer/int_buffer.go:FastIntBuffer.IntAt,get"]}
{"id": "C04", "title": "ModifyEntry is a point update", "statement": "A successful ModifyEntry(i,v) makes LongAt(i) return v, changes no other readable entry and not the size; a failing one changes nothing.", "quantifier": "every buffer state reachable by appends, every index and value", "why_tests_cant": "Frame conditions quantify over all other indices.", "anchors": ["vtdxml/buffer/long_buffer.go:FastLongBuffer.ModifyEntry", "vtdxml/buffer/int_buffer.go:FastIntBuffer.ModifyEntry"]}
{"id": "C05", "title": "A cleared buffer can be filled again", "statement": "After Clear, a buffer behaves as if it were new: any further sequence of Append calls succeeds and is read back.", "quantifier": "every fill history before Clear and every append history after it", "why_tests_cant": "A claim about all histories across Clear.", "anchors": ["vtdxml/buffer/long_buffer.go:FastLongBuffer.Clear,Append,get", "vtdxml/buffer/int_buffer.go:FastIntBuffer.Clear,Append,get"]}
{"id": "C06", "title": "Truncate then append overwrites the tail", "statement": "After SetSize(k) on a buffer holding n > k values, Append(v) makes v the value at index k.", "quantifier": "every page size, contents, k and v", "why_tests_cant": "A claim about all truncation histories; the namespace scoping of the parser is built on it.", "anchors": ["vtdxml/buffer/long_buffer.go:FastLongBuffer.SetSize,Append,LongAt", "vtdxml/buffer/int_buffer.go:FastIntBuffer.SetSize,Append,IntAt"]}
{"id": "C07", "title": "Lower32At and Upper32At split a value", "statement": "Lower32At(i) and Upper32At(i) return the low and the high 32 bits of the value LongAt(i) returns, so that together they determine it.", "quantifier": "every 64-bit value at every index", "why_tests_cant": "2^64 values; the defect is in four bits.", "anchors": ["vtdxml/buffer/long_buffer.go:FastLongBuffer.Lower32At,Upper32At"]}
{"id": "C08", "title": "An object buffer counts and returns what was appended", "statement": "After n appends to a fresh FastObjectBuffer GetSize is n and ObjectAt(i) returns the i-th object.", "quantifier": "every page size, every list of objects, every index", "why_tests_cant": "Same quantification as C01/C02.", "anchors": ["vtdxml/buffer/object_buffer.go:FastObjectBuffer.Append,ObjectAt,GetSize"]}
{"id": "C09", "title": "Page-size options are validated", "statement": "A page-size exponent is either accepted and yields pages of 2^exponent entries, or refused with an InvalidArgumentError.", "quantifier": "every machine integer as exponent, for the three buffers", "why_tests_cant": "All 2^64 exponents, including negative ones and those where 1<<n wraps.", "anchors": ["vtdxml/buffer/long_buffer.go:WithFastLongBufferPageSize,NewFastLongBuffer", "vtdxml/buffer/int_buffer.go:WithFastIntBufferPageSize,NewFastIntBuffer", "vtdxml/buffer/object_buffer.go:WithFastObjectBufferPageSize,NewFastObjectBuffer"]}
{"id": "C10", "title": "Byte buffer access is exact and total", "statement": "ByteAt(i) returns byte i exactly when 0 <= i < len and otherwise an error; GetByteSlice(offset,length) returns the length bytes starting at offset whenever that range lies inside the buffer, and an error otherwise; neither panics.", "quantifier": "every byte slice and every pair of integers", "why_tests_cant": "All offsets and lengths, also where they overlap the end.", "anchors": ["vtdxml/buffer/byte_buffer.go:UniByteBuffer.ByteAt,GetByteSlice"]}
{"id": "C11", "title": "XML character classes are exactly the W3C ones", "statement": "For every code unit, IsNameStartChar, IsNameChar, IsSpaceChar, IsValidChar and IsContentChar decide the XML productions NameStartChar, NameChar, S, Char (XML 1.1) and Char minus {<,&,]}.", "quantifier": "every 32-bit character value", "why_tests_cant": "2^32 inputs against range tables with dozens of boundaries.", "anchors": ["vtdxml/common/xml_char.go:NewXmlChar,IsNameStartChar,IsNameChar,IsSpaceChar,IsValidChar,IsContentChar"]}
{"id": "C12", "title": "Hash width is monotone and bounded", "statement": "NewIntHash(WithSize(n)) picks a width between 3 and 22 that never decreases with n, allocates 2^width buckets and keeps a mask that selects exactly those buckets.", "quantifier": "every machine integer size", "why_tests_cant": "Monotonicity relates all pairs of sizes.", "anchors": ["vtdxml/common/int_hash.go:WithSize,determineHashWidth,NewIntHash"]}
{"id": "C13", "title": "A reader delivers the window byte by byte, then EOF for ever", "statement": "k calls of GetChar on a UTF-8 reader over [offset,end) return the bytes of the window in order; from then on each call returns an EOFError and leaves the reader where it is; no byte is ever refused. The ASCII reader does the same but refuses bytes above 0x7F.", "quantifier": "every document, window and number of calls", "why_tests_cant": "All documents and call counts.", "anchors": ["vtdxml/reader/utf8_reader.go:GetChar,GetOffset", "vtdxml/reader/ascii_reader.go:GetChar"]}
{"id": "C14", "title": "Skipping is all or nothing", "statement": "SkipChar/SkipCharSeq consume exactly the given characters and return true when the input continues with them, and otherwise return false and leave the reader where it was; they never panic.", "quantifier": "every document, position and sequence", "why_tests_cant": "All positions including the end of the document and partial matches.", "anchors": ["vtdxml/reader/utf8_reader.go:SkipChar,SkipCharSeq", "vtdxml/reader/ascii_reader.go:SkipChar,SkipCharSeq"]}
{"id": "C15", "title": "Both readers accept a whole document", "statement": "NewUtf8Reader(doc,0,len(doc)) and NewAsciiReader(doc,0,len(doc)) succeed for every document.", "quantifier": "every document", "why_tests_cant": "All documents; an off-by-one at the end offset.", "anchors": ["vtdxml/reader/utf8_reader.go:NewUtf8Reader", "vtdxml/reader/ascii_reader.go:NewAsciiReader"]}
{"id": "C16", "title": "Line ends are reported uniformly", "statement": "GetLongCharAt reports the character at an offset with its width, CR LF as one newline of width two, for every offset inside the document; a bare CR is handled as the navigator handles it.", "quantifier": "every document and offset", "why_tests_cant": "All offsets including a CR as last byte.", "anchors": ["vtdxml/reader/utf8_reader.go:GetLongCharAt", "vtdxml/navigation/get_char_resolved.go:getChar"]}
{"id": "C17", "title": "End of file is recognised through every wrapping", "statement": "errors.As against the EOF error type succeeds exactly when the chain of wrapped errors contains an EOFError; the constructors keep the type their name says.", "quantifier": "every chain of wrapped errors", "why_tests_cant": "Chains of any length.", "anchors": ["vtdxml/erroring/erroring.go:Unwrap,NewEOFError,NewNavigationError", "vtdxml/parser/parse.go:Parse"]}
{"id": "C18", "title": "Token records round-trip", "statement": "For every token type below 16, depth -1..254, length below 2^20 and offset below 2^30, writing the token and reading it back through GetTokenType, GetTokenOffset, GetTokenDepth and (for types without a prefix part) GetTokenLength returns what was written.", "quantifier": "every type, depth, length, offset", "why_tests_cant": "2^62 combinations of packed fields.", "anchors": ["vtdxml/parser/common.go:writeVtd", "vtdxml/navigation/common.go:GetTokenType,GetTokenOffset,GetTokenDepth,GetTokenLength", "vtdxml/common/common.go"]}
{"id": "C19", "title": "The length of a text token is the length of its text", "statement": "GetTokenLength on a character-data, CDATA or comment token returns the total length of that text: the recorded length for a single record, the sum over the records of a text that was split because it is longer than 2^20-1.", "quantifier": "every token buffer and index", "why_tests_cant": "Depends on the records that follow, at any distance.", "anchors": ["vtdxml/navigation/common.go:GetTokenLength", "vtdxml/parser/common.go:writeVtdText"]}
{"id": "C20", "title": "Prefix and name length of a name token can be read back", "statement": "For a start tag, attribute or namespace token written for a name of length q with a prefix of length l, GetTokenLength returns q (not namespace aware) or l*2^16+q (namespace aware), and ToRawStringAtIndex returns the q bytes of the name.", "quantifier": "every l <= 511, q <= 2047, every document", "why_tests_cant": "About a million (l,q) pairs times all documents.", "anchors": ["vtdxml/parser/process_start_tag.go:processStartTag", "vtdxml/parser/process_attr_name.go:processAttrName", "vtdxml/navigation/common.go:GetTokenLength", "vtdxml/navigation/to_string.go:ToRawStringAtIndex"]}
{"id": "C21", "title": "Raw strings are the bytes of the document", "statement": "For a range inside the document ToRawStringAtRange(offset,length) returns exactly the length bytes of the range (with carriage returns shown as newlines), and for a range that leaves the document it returns an error; it never panics.", "quantifier": "every document, offset and length, for ASCII, ISO-8859-1 and UTF-8", "why_tests_cant": "All ranges.", "anchors": ["vtdxml/navigation/to_string.go:ToRawStringAtRange", "vtdxml/navigation/get_char_resolved.go:getChar"]}
{"id": "C22", "title": "Resolved strings replace references", "statement": "ToStringAtRange returns the text of the range with the five built-in entities and numeric character references replaced by the character they denote, and always returns.", "quantifier": "every document and range", "why_tests_cant": "All texts; termination on every input.", "anchors": ["vtdxml/navigation/to_string.go:ToStringAtRange", "vtdxml/navigation/get_char_resolved.go:getCharResolved,resolveEntity"]}
{"id": "C23", "title": "ToElement(Root) always reaches the root", "statement": "After ToElement(Root), from any cursor state, GetCurrentIndex returns the root index.", "quantifier": "every cursor state", "why_tests_cant": "All reachable cursor states.", "anchors": ["vtdxml/navigation/to_element.go:toRootElement", "vtdxml/navigation/common.go:GetCurrentIndex"]}
{"id": "C24", "title": "Child then parent comes back", "statement": "When ToElement(FirstChild) or ToElement(LastChild) succeeds, a following ToElement(Parent) succeeds and GetCurrentIndex is what it was before.", "quantifier": "every cursor state and every token buffer", "why_tests_cant": "All cursor states and buffers.", "anchors": ["vtdxml/navigation/to_element.go:toChildElement,toParentElement,toFirstChild,toLastChild"]}
{"id": "C25", "title": "A move that fails leaves the cursor alone", "statement": "When ToElement returns false, GetCurrentIndex and the result of further moves are as before.", "quantifier": "every cursor state, direction and buffer contents", "why_tests_cant": "All cursor states.", "anchors": ["vtdxml/navigation/to_element.go:ToElement"]}
{"id": "C26", "title": "First and last child below the cached levels", "statement": "From an element at depth d >= 3 whose token is at index i, ToElement(FirstChild) (LastChild) goes to the first (last) start tag of depth d+1 after i that comes before any later start tag of depth <= d, and returns false exactly when there is none.", "quantifier": "every token buffer, index and depth", "why_tests_cant": "All token sequences of any length.", "anchors": ["vtdxml/navigation/to_element.go:toChildElement"]}
{"id": "C27", "title": "Siblings below the cached levels", "statement": "From an element at depth d >= 4, ToElement(NextSibling) (PrevSibling) goes to the nearest following (preceding) start tag of the same depth with the same parent and returns false exactly when there is none.", "quantifier": "every token buffer, index and depth", "why_tests_cant": "All token sequences of any length.", "anchors": ["vtdxml/navigation/to_element.go:toNextSibling,toPrevSibling"]}
{"id": "C28", "title": "Cached levels are navigated through their own caches", "statement": "At levels 1 to 3 a child or sibling move sets the current index to the entry of that level's location cache.", "quantifier": "every location cache and cursor state", "why_tests_cant": "All cache contents.", "anchors": ["vtdxml/navigation/to_element.go:toChildElement,toSiblingElement"]}
{"id": "C29", "title": "Parse terminates", "statement": "Parse returns or panics after finitely many steps, at most linearly many state transitions in the document length, for every document and every option.", "quantifier": "every byte sequence and every option combination", "why_tests_cant": "Non-termination cannot be observed by a test; all documents.", "anchors": ["vtdxml/parser/parse.go:Parse", "vtdxml/parser/common.go", "vtdxml/parser/process_*.go"]}
{"id": "C30", "title": "Parse never panics", "statement": "Parse returns an error value for every malformed document; it never panics.", "quantifier": "every byte sequence and option combination", "why_tests_cant": "All malformed documents.", "anchors": ["vtdxml/parser/parse.go:Parse", "vtdxml/parser/process_end_tag.go:processEndTag", "vtdxml/parser/common.go:decideEncoding,skipChar", "vtdxml/parser/process_attr_name.go:checkAttrUniqueness"]}
{"id": "C31", "title": "Elements nest", "statement": "When Parse succeeds, the depths of the start-tag records form the preorder of one tree: the first is 0, every later one is at least 1 and at most one more than its predecessor, none is above 254.", "quantifier": "every document and option combination on which Parse succeeds", "why_tests_cant": "All documents, any nesting.", "anchors": ["vtdxml/parser/process_start_tag.go:processStartTag", "vtdxml/parser/process_end_tag.go:processEndTag", "vtdxml/parser/process_lt_seen.go:processLtSeen"]}
{"id": "C32", "title": "End tags match start tags", "statement": "When Parse accepts an end tag, its name is byte for byte the name of the innermost open start tag.", "quantifier": "every document and every end tag in it", "why_tests_cant": "All documents, any nesting.", "anchors": ["vtdxml/parser/process_end_tag.go:processEndTag"]}
{"id": "C33", "title": "Attribute names are unique", "statement": "No start tag accepted by Parse carries two attributes with the same name.", "quantifier": "every document on which Parse succeeds", "why_tests_cant": "All documents, any number of attributes.", "anchors": ["vtdxml/parser/process_attr_name.go:checkAttrUniqueness"]}
{"id": "C34", "title": "Well-formed documents are accepted with exactly their tokens", "statement": "For every element tree serialised as XML (declaration, elements, attributes, text with references, CDATA, comments, PIs), Parse succeeds and the token records are exactly the tokens of the tree in document order with their offsets, lengths and depths.", "quantifier": "every document tree", "why_tests_cant": "Unbounded trees; the end-to-end correctness statement.", "anchors": ["vtdxml/parser/parse.go:Parse", "vtdxml/parser/process_*.go"]}
{"id": "C35", "title": "Tokens lie inside the document", "statement": "Every record written by a successful Parse denotes a range inside the document.", "quantifier": "every document on which Parse succeeds and every record", "why_tests_cant": "All documents.", "anchors": ["vtdxml/parser/common.go:writeVtd,writeVtdText,writeVtdWithLengthCheck", "vtdxml/parser/process_start_tag.go"]}
{"id": "C36", "title": "Only byte encodings are accepted", "statement": "When Parse succeeds the document was read byte by byte: documents that start with a byte order mark or look like UTF-16 are refused.", "quantifier": "every document", "why_tests_cant": "All documents.", "anchors": ["vtdxml/parser/common.go:decideEncoding", "vtdxml/parser/process_doc_start.go:processDocStart"]}
{"id": "C37", "title": "Declared encodings", "statement": "A document whose XML declaration names UTF-8 (any case), US-ASCII, ASCII, ISO-8859-x or windows-125x is parsed in that encoding.", "quantifier": "every document with such a declaration", "why_tests_cant": "All documents.", "anchors": ["vtdxml/parser/process_dec_attr_name.go:processDecEncodingAttr,checkUtfEncoding,checkAsciiEncoding,checkIsoEncoding,checkCpEncoding"]}
{"id": "C38", "title": "Character references", "statement": "A numeric reference in text or an attribute value is accepted exactly when the number it denotes is an XML character; a named one exactly when it is amp, apos, quot, lt or gt.", "quantifier": "every reference, any number of digits", "why_tests_cant": "All digit strings, including those that overflow 32 bits.", "anchors": ["vtdxml/parser/common.go:entityIdentifier"]}
{"id": "C39", "title": "Errors carry the right line number", "statement": "A ParseError raised at document offset o reports one plus the number of newlines before o as its line number, and the distance from the last of them as column.", "quantifier": "every document and error position", "why_tests_cant": "All documents.", "anchors": ["vtdxml/parser/common.go:fmtLine,fmtCustomLine"]}
{"id": "C40", "title": "Comments and PIs after the root element", "statement": "A well-formed document remains acceptable when a comment or processing instruction follows the root element.", "quantifier": "every such comment and PI", "why_tests_cant": "All comments.", "anchors": ["vtdxml/parser/process_end_comment.go:processEndComment", "vtdxml/parser/process_pi_end.go:processPiEnd"]}
{"id": "C41", "title": "A document type declaration is accepted", "statement": "A well-formed document with <!DOCTYPE ...> in its prolog is accepted (the VtdParser comment promises DTD handling).", "quantifier": "every such document", "why_tests_cant": "All documents.", "anchors": ["vtdxml/parser/process_lt_seen.go:processExSeen", "vtdxml/parser/process.go:validateSeq", "vtdxml/parser/process_doc_type.go:processDocType"]}
{"id": "C42", "title": "Prefixes must be declared", "statement": "With namespace awareness on, an element or attribute prefix is accepted exactly when a declaration of it is in scope.", "quantifier": "every document", "why_tests_cant": "Scopes of any depth and order.", "anchors": ["vtdxml/parser/common.go:qualifyElement", "vtdxml/parser/process_attr_val.go:qualifyAttributes", "vtdxml/parser/process_start_tag.go:processStartTag", "vtdxml/buffer/long_buffer.go:SetSize"]}
{"id": "C43", "title": "Qualified attribute names are unique", "statement": "With namespace awareness on, two attributes of one element with the same local name are accepted exactly when their prefixes are bound to different URLs.", "quantifier": "every document", "why_tests_cant": "All documents.", "anchors": ["vtdxml/parser/process_attr_val.go:checkQualifiedAttributeUniqueness,matchUrl,qualifyAttributes"]}
{"id": "C44", "title": "Reserved namespace names are protected", "statement": "xmlns:xml may only be bound to the XML namespace URL and no other prefix may be bound to it or to the xmlns URL.", "quantifier": "every declaration", "why_tests_cant": "All attribute values.", "anchors": ["vtdxml/parser/process_attr_val.go:identifyNsUrl,processAttrVal"]}
{"id": "C45", "title": "The deep location cache indexes every element", "statement": "With WithLcDepth(5), after a successful Parse the level-k cache (k=1..5) lists exactly the start tags of depth k in document order, each with the position of its first child in the level-(k+1) cache or, if it has none, one fixed marker; and the root index is the index of the root's record.", "quantifier": "every document tree", "why_tests_cant": "All nesting sequences of any length.", "anchors": ["vtdxml/parser/common.go:writeVtdL5", "vtdxml/parser/parse.go:finishUp"]}
{"id": "C46", "title": "The default location cache indexes every element", "statement": "With the default options, after a successful Parse the level-1..3 caches list the start tags of depth 1..3.", "quantifier": "every document", "why_tests_cant": "All documents.", "anchors": ["vtdxml/parser/process_start_tag.go:processStartTag", "vtdxml/parser/parse.go:finishUp"]}
{"id": "C47", "title": "Long text is split into contiguous records", "statement": "A text longer than 2^20-1 bytes is recorded as consecutive records, each at most 2^20-1 long, that together cover exactly the text.", "quantifier": "every length and offset", "why_tests_cant": "Texts of any length.", "anchors": ["vtdxml/parser/common.go:writeVtdText"]}
{"id": "C48", "title": "Nesting and name limits are enforced", "statement": "Parse refuses elements nested deeper than 255 levels, names longer than 2047 bytes and prefixes longer than 511 bytes, whatever the options.", "quantifier": "every document and option list", "why_tests_cant": "Boundary at every nesting.", "anchors": ["vtdxml/parser/process_start_tag.go:processStartTag", "vtdxml/parser/process_attr_name.go:processAttrName"]}
{"id": "C49", "title": "A parser can be reused", "statement": "Calling Parse again on the same parser gives the same result as the first call.", "quantifier": "every document on which Parse succeeds", "why_tests_cant": "All documents.", "anchors": ["vtdxml/parser/parse.go:Parse", "vtdxml/parser/common.go:decideEncoding"]}
{"id": "C50", "title": "The result of a parse can be navigated", "statement": "After a successful Parse, GetNav returns a navigator over the generated records.", "quantifier": "every document", "why_tests_cant": "All documents.", "anchors": ["vtdxml/parser/get_nav.go:GetNav", "vtdxml/parser/clear.go:Clear"]}
{"id": "C51", "title": "Parsing a window depends on the window only", "statement": "With WithXmlDocCustomOffset(doc,offset,length) the outcome of Parse depends only on the bytes doc[offset:offset+length].", "quantifier": "every document and window", "why_tests_cant": "All documents that differ only outside the window.", "anchors": ["vtdxml/parser/vtd_parser.go:WithXmlDocCustomOffset", "vtdxml/reader/utf8_reader.go:SkipChar"]}
{"id": "C52", "title": "Modifier construction", "statement": "NewXmlModifier with navigation succeeds exactly for a non-nil navigator whose encoding is ASCII or UTF-8, and allocates hashes of the width for the token count.", "quantifier": "every option list and navigator", "why_tests_cant": "All encodings and option orders.", "anchors": ["vtdxml/modifier/xml_modifier.go:WithNavigation,NewXmlModifier,getCharsetFromEncoding"]}
{"id": "C53", "title": "Pilot options", "statement": "NewAutoPilot applies its options in order, the last one of a kind wins, and fails exactly when a nil navigator is given.", "quantifier": "every option list", "why_tests_cant": "Option lists of any length.", "anchors": ["vtdxml/pilot/auto_pilot.go:NewAutoPilot,WithNavigation,WithCaching"]}
{"id": "C54", "title": "Parser construction validates its window", "statement": "NewVtdParser succeeds exactly when the document is non-nil and non-empty and the window is non-empty and inside the document.", "quantifier": "every option list, offset and length", "why_tests_cant": "All integers, including those where offset+length overflows.", "anchors": ["vtdxml/parser/vtd_parser.go:NewVtdParser", "vtdxml/parser/init.go:init"]}
{"id": "C55", "title": "Accepted documents are well-formed", "statement": "When Parse accepts a document it is a well-formed XML document: one root element, properly nested, nothing but white space, comments and PIs around it.", "quantifier": "every document on which Parse succeeds", "why_tests_cant": "All byte sequences.", "anchors": ["vtdxml/parser/parse.go:Parse", "vtdxml/parser/process_doc_start.go:processDocStart", "vtdxml/parser/process_end_tag.go:processEndTag", "vtdxml/parser/process_cdata.go:processCdata"]}
{"id": "C56", "title": "Namespace awareness only restricts", "statement": "A document that Parse accepts with namespace awareness on is accepted with it off, with the same records and caches.", "quantifier": "every document accepted with namespace awareness", "why_tests_cant": "All documents; relates two runs over the same input in different modes.", "anchors": ["vtdxml/parser/vtd_parser.go:WithNameSpaceAware", "vtdxml/parser/process_attr_val.go:processAttrVal,identifyNsUrl", "vtdxml/parser/process_start_tag.go:processStartTag"]}
{"id": "C57", "title": "The no-child marker is the one navigation looks for", "statement": "The marker that a deep location cache has for an element without children is the value that the navigator compares with before it moves to a child, and it differs from every position a child can have.", "quantifier": "every document and every element of it", "why_tests_cant": "All elements of all documents; ties what one package writes to what another one reads.", "anchors": ["vtdxml/parser/common.go:writeVtdL5", "vtdxml/navigation/to_element.go:toChildElement"]}
{"id": "C58", "title": "Everything up to the nesting and name limits is accepted", "statement": "A document that Parse would accept if it had shorter names and fewer levels is accepted as long as no element is nested deeper than 255 levels, no name is longer than 2047 bytes and no prefix longer than 511 bytes.", "quantifier": "every document", "why_tests_cant": "Boundary at every nesting.", "anchors": ["vtdxml/parser/process_start_tag.go:processStartTag", "vtdxml/parser/process_attr_name.go:processAttrName"]}
{"id": "C59", "title": "Tuning options do not change the result", "statement": "WithLcDepth and WithBufferReuse change nothing but the location caches: with the same other options, NewVtdParser and Parse return the same errors and leave the same token records whatever these two options say.", "quantifier": "every pair of option lists that agree on the other options, every document", "why_tests_cant": "Relates two runs on every document, accepted or not; tests compare a few accepted documents.", "anchors": ["vtdxml/parser/vtd_parser.go:WithLcDepth,WithBufferReuse", "vtdxml/parser/init.go:initWithShallowDepth,initWithoutShallowDepth", "vtdxml/parser/common.go:writeVtd,writeVtdL5"]}
{"id": "C60", "title": "Without prefixes, namespace awareness changes nothing", "statement": "A document in which no element and no attribute name has a prefix is accepted with WithNameSpaceAware(true) exactly when it is accepted with WithNameSpaceAware(false), and both parses leave the same token records and location caches.", "quantifier": "every document whose names have no colon, every list of other options", "why_tests_cant": "Relates two runs on every document; tests look at a few.", "anchors": ["vtdxml/parser/process_start_tag.go:processStartTag", "vtdxml/parser/process_attr_name.go:processAttrName", "vtdxml/parser/process_attr_val.go:processAttrVal", "vtdxml/parser/init.go"]}
{"id": "C61", "title": "Tokens come in document order and do not overlap", "statement": "After a successful Parse the token records are in document order: each token's bytes end before the next token's bytes begin, so the offsets never decrease and no byte of the document belongs to two tokens.", "quantifier": "every document on which Parse succeeds, every pair of its token records", "why_tests_cant": "Relates all pairs of records of every document.", "anchors": ["vtdxml/parser/common.go:writeVtd,writeVtdText", "vtdxml/parser/parse.go:Parse"]}
{"id": "C62", "title": "The number of tokens is bounded by the size of the document", "statement": "After a successful Parse of n bytes there are at most (n+1)/2 token records, so the memory a parse needs is linear in the size of the document.", "quantifier": "every document on which Parse succeeds", "why_tests_cant": "Documents of any size and content.", "anchors": ["vtdxml/parser/common.go:writeVtd,writeVtdText", "vtdxml/parser/parse.go:Parse"]}
{"id": "C63", "title": "Names come with their values, attributes with their element", "statement": "Among the token records of a document on which Parse succeeds, the record of an attribute name, of the name of a processing instruction and of a pseudo-attribute of the XML declaration is followed at once by the record of its value at the same depth; values come after names only; an attribute name follows a start tag or the value of another attribute at the same depth; and the last record is not a name. So the value of a name at index i is at i+1.", "quantifier": "every option list on which Parse succeeds: every document, window, location cache depth, with and without namespace awareness", "why_tests_cant": "The order in which the states of the parser write records must be right along every path through every document.", "anchors": ["vtdxml/parser/process_attr_name.go:processAttrName", "vtdxml/parser/process_attr_val.go:processAttrVal", "vtdxml/parser/process_pi_tag.go:processPiTag", "vtdxml/parser/process_pi_val.go:processPiVal", "vtdxml/parser/process_dec_attr_name.go:processDecAttrName"]}
{"id": "C64", "title": "Attributes are written as their records say", "statement": "After a successful Parse, at the offset and with the length of every attribute name record there is a name with white space before it; an equals sign with optional white space around it and a quote follow; and at the offset of the value record, right after the quote, there are as many bytes as it says, without the quote, without < and with references in place of &, and then the same quote again.", "quantifier": "every option list on which Parse succeeds, every attribute name record of the result", "why_tests_cant": "The offsets and lengths must fit the bytes of every document, with every amount of white space, every reference and along every path through the tag.", "anchors": ["vtdxml/parser/process_attr_name.go:processAttrName", "vtdxml/parser/process_attr_val.go:processAttrVal", "vtdxml/parser/process_start_tag.go:processStartTag", "vtdxml/parser/common.go:writeVtd"]}
{"id": "C65", "title": "Comments and CDATA sections are where their records say", "statement": "After a successful Parse the bytes of a comment record stand between <!-- and -->, contain no --, and those of a CDATA record stand between <![CDATA[ and ]]>.", "quantifier": "every option list on which Parse succeeds, every comment and CDATA record of the result", "why_tests_cant": "Boundary conditions on the bytes around every record of every document.", "anchors": ["vtdxml/parser/process_start_comment.go:processStartComment", "vtdxml/parser/process_cdata.go:processCdata", "vtdxml/parser/process_lt_seen.go:processExSeen", "vtdxml/parser/common.go:writeVtdText"]}
{"id": "C66", "title": "Character data records hold character data", "statement": "After a successful Parse the bytes of a character data record are characters other than < and &, and well-formed references, and the next byte is <.", "quantifier": "every option list on which Parse succeeds, every character data record of the result", "why_tests_cant": "Every mixture of characters, references and brackets in every document.", "anchors": ["vtdxml/parser/process_text.go:processText", "vtdxml/parser/process_element_tail.go:processElementTail", "vtdxml/parser/common.go:writeVtdText", "vtdxml/parser/common.go:entityIdentifier"]}
{"id": "C67", "title": "Options: the last of a kind counts, nothing else does", "statement": "The outcome of NewVtdParser and Parse (error, or token records and location caches) depends only on the document and window, the namespace awareness and the cache depth that are selected last: the order of options of different kinds, options that a later one overrides, WithBufferReuse and cache depths other than 3 and 5 make no difference.", "quantifier": "all pairs of option lists, of any length, with the same last choices", "why_tests_cant": "Lists of options are unbounded, and so are the documents parsed under them.", "anchors": ["vtdxml/parser/vtd_parser.go:NewVtdParser", "vtdxml/parser/vtd_parser.go:WithXmlDoc", "vtdxml/parser/vtd_parser.go:WithXmlDocCustomOffset", "vtdxml/parser/vtd_parser.go:WithNameSpaceAware", "vtdxml/parser/vtd_parser.go:WithBufferReuse", "vtdxml/parser/vtd_parser.go:WithLcDepth", "vtdxml/parser/init.go"]}
{"id": "C68", "title": "The tokens spell out the document", "statement": "After a successful Parse, reading the tokens in order (kind, depth, and the bytes each one covers) gives the attributes of the XML declaration, the element names, the attribute names and values, the texts, CDATA sections, comments and processing instructions of the document, in document order, each once and nothing else; only white space between markup is left out.", "quantifier": "every well-formed document, every window it stands in, every option list", "why_tests_cant": "Offsets, lengths and depths of all tokens of all documents have to fit together.", "anchors": ["vtdxml/parser/parse.go:Parse", "vtdxml/parser/common.go:writeVtd", "vtdxml/parser/common.go:writeVtdText", "vtdxml/parser/process_start_tag.go:processStartTag", "vtdxml/parser/process_attr_name.go:processAttrName", "vtdxml/parser/process_text.go:processText"]}
{"id": "C69", "title": "Processing instructions and the XML declaration are where their tokens say", "statement": "After a successful Parse, a token of the target of a processing instruction is followed by the token of its data. The first covers the target that stands after <? in the document. The second covers what stands between the white space after the target and ?>, or is empty if there is nothing. A token of the name of an attribute of the XML declaration is followed by the token of its value, and they cover the name and what stands between the quotes.", "quantifier": "every document Parse accepts, every token of these kinds, every option list", "why_tests_cant": "The positions depend on everything before, for every document.", "anchors": ["vtdxml/parser/process_pi_tag.go", "vtdxml/parser/process_pi_val.go", "vtdxml/parser/process_pi_end.go", "vtdxml/parser/process_dec_attr_name.go", "vtdxml/parser/parse.go:Parse"]}
{"id": "C70", "title": "Parsers in different goroutines are independent", "statement": "When several goroutines call Parse, each on a parser of its own, every call returns what it would return alone and leaves the same token records and location caches, and the calls change nothing else that the packages export.", "quantifier": "every number of parsers, every document and option list of each, every interleaving of their steps", "why_tests_cant": "The interleavings are unbounded and chosen by the scheduler.", "anchors": ["vtdxml/parser/parse.go:Parse", "vtdxml/erroring/erroring.go:EOFErrorType"]}
{"id": "C71", "title": "Every element of a parsed document can be reached by moving the cursor", "statement": "A navigator made by NewVtdNav from the root index, the token buffer and the location caches of a parser after a successful Parse can be brought to every element of the document by calls of ToElement. From the root element, FirstChild and then NextSibling visit its child elements in document order, and NextSibling returns false after the last.", "quantifier": "every document Parse accepts, every element of it, every option list, every sequence of moves", "why_tests_cant": "Whether a cursor position can be reached is a statement about all sequences of moves, on all documents.", "anchors": ["vtdxml/navigation/to_element.go:ToElement", "vtdxml/navigation/vtd_nav.go:NewVtdNav", "vtdxml/navigation/common.go:GetCurrentIndex", "vtdxml/parser/common.go:writeVtdL5", "vtdxml/parser/parse.go:Parse"]}
{"id": "C72", "title": "The strings of a parsed document can be read back", "statement": "For a navigator made by NewVtdNav over the result of a successful Parse and the same document, ToRawStringAtIndex returns for every token exactly the bytes of the name, value or text it stands for, as they are written in the document (a carriage return as a newline), and ToStringAtIndex the same with references resolved. Moving to the k-th child of the root and asking for the string of the current token returns the name of that child.", "quantifier": "every document given as a tree, every token of it, every window and every one-byte encoding of the navigator", "why_tests_cant": "Whole documents of any shape and size through parser, token buffer and navigator together.", "anchors": ["vtdxml/navigation/to_string.go:ToRawStringAtIndex,ToStringAtIndex", "vtdxml/navigation/common.go:GetTokenLength,GetTokenOffset", "vtdxml/navigation/to_element.go:ToElement", "vtdxml/parser/common.go:writeVtd", "vtdxml/parser/parse.go:Parse"]}
{"id": "C73", "title": "No truncated document is accepted", "statement": "If Parse accepts a document that ends, up to white space, with a > that does not end a processing instruction, then Parse succeeds for no prefix of the document in which that > is missing: it never takes a part of the document for the whole. More generally, when Parse accepts a document, it accepts the same document with further bytes behind it exactly if these are white space and processing instructions as they can stand after the root element, and the token records of the shorter document are then the first of the longer one.", "quantifier": "every document Parse accepts without namespace awareness, every prefix of it, every string of bytes behind it, every offset at which the document begins", "why_tests_cant": "A document has one prefix for every byte and there are infinitely many documents; a cut can fall inside any construct.", "anchors": ["vtdxml/parser/parse.go:Parse", "vtdxml/parser/process_doc_end.go:processDocEnd", "vtdxml/parser/process_pi_end.go:processPiEnd", "vtdxml/parser/process_start_tag.go:processStartTag", "vtdxml/parser/process_end_tag.go:processEndTag"]}
{"id": "C74", "title": "An error other than end of file is final, so a truncated document is never called malformed", "statement": "If Parse returns an error that is not, and does not wrap, an EOFError, then whatever bytes follow the document, Parse of the longer document returns the same error, with the same message, line and column. So when Parse accepts a document, the only error it returns for a prefix of it is an EOFError: a caller who reads a document piece by piece can tell not yet complete from wrong.", "quantifier": "every document, every continuation of it, every window that starts at the same offset, with and without namespace awareness", "why_tests_cant": "A document has infinitely many continuations, and each of the functions that read ahead can meet the end of the document or an error at every byte.", "anchors": ["vtdxml/parser/parse.go:Parse", "vtdxml/parser/process_doc_start.go:processDocStart", "vtdxml/parser/common.go:nextChar", "vtdxml/reader/utf8_reader.go:GetChar"]}
