{"id": "C01", "title": "Only well-formed UTF-8 characters are accepted", "statement": "When a document is UTF-8, a multi-byte sequence inside content, a comment, a PI, a CDATA section or a literal is accepted as a character exactly when it is the well-formed UTF-8 encoding of a Unicode scalar value other than U+FFFE/U+FFFF; overlong forms, surrogates, truncated and out-of-range sequences make XML_Parse fail with INVALID_TOKEN/PARTIAL_CHAR and never reach a handler.", "quantifier": "every byte sequence of length 2, 3 or 4 following a UTF-8 lead byte", "why_tests_cant": "There are over four billion four-byte sequences; a unit test samples a handful.", "anchors": ["src/lib/xmltok.rs: Utf8EncodingImpl::is_invalid_char", "src/lib/xmltok.rs: Utf8Encoding types table", "src/lib/xmltok_impl.rs: MATCH_INVALID_CASES"]}
{"id": "C02", "title": "The tokenizer always makes progress and stays in the buffer", "statement": "For every input buffer, one tokenizer call reports a next-token position that lies inside the buffer, and every accepted token consumes at least one byte; hence a parse call on finite data terminates and never reads past the supplied length.", "quantifier": "every byte buffer and each of the tokenizer entry points (content, CDATA, prolog, attribute value, entity value, IGNORE section), for every supported encoding", "why_tests_cant": "Memory safety and termination are claims about all inputs; fuzzing can only refute them.", "anchors": ["src/lib/xmltok_impl.rs: contentTok, prologTok, cdataSectionTok, attributeValueTok, entityValueTok, ignoreSectionTok, scan*"]}
{"id": "C03", "title": "Markup tokens do not change when more input arrives", "statement": "Once the tokenizer has delivered a complete markup token (tag, comment, PI, reference, CDATA open/close, declaration delimiter, literal) or rejected the input, delivering more bytes after it cannot change the token, its length, or the rejection.", "quantifier": "every buffer and every extension of that buffer by further bytes", "why_tests_cant": "The number of (buffer, extension) pairs is unbounded; tests try a few split points of a few documents.", "anchors": ["src/lib/xmltok_impl.rs: contentTok, cdataSectionTok, prologTok, scan*"]}
{"id": "C04", "title": "Content events do not depend on how the input is split into XML_Parse calls", "statement": "Feeding element content in any number of pieces, split at any byte positions, yields the same outcome (success, or the same error code) and the same sequence of handler events (up to how adjacent character data is sliced) as feeding it in one call; on failure the pieces may only differ in character data reported immediately before the error.", "quantifier": "every byte string and every way of cutting it into chunks", "why_tests_cant": "A document of n bytes has 2^(n-1) chunkings; tests try the one-shot and the byte-by-byte ones.", "anchors": ["src/lib/xmlparse.rs: doContent, doCdataSection, contentProcessor, XML_Parse", "src/lib/xmltok_impl.rs: contentTok"]}
{"id": "C05", "title": "\"]]>\" is never accepted as character data", "statement": "No run of character data accepted by the content tokenizer contains the sequence \"]]>\", no matter where buffer boundaries fall, and a document having it in content outside CDATA is rejected.", "quantifier": "every content byte string and every chunking", "why_tests_cant": "The interesting cases are split points inside runs of ']' of any length.", "anchors": ["src/lib/xmltok_impl.rs: contentTok (RSQB cases)", "src/lib/xmlparse.rs: doContent TRAILING_RSQB"]}
{"id": "C06", "title": "Comments are exactly the XML Comment production", "statement": "Text beginning with \"<!--\" is accepted as a comment exactly when it continues with legal characters containing no \"--\" and is closed by the first \"-->\"; the comment handler is given exactly the enclosed text with line ends normalised.", "quantifier": "every byte string following \"<!--\"", "why_tests_cant": "Comment bodies are unbounded; the grammar is about all of them.", "anchors": ["src/lib/xmltok_impl.rs: scanComment", "src/lib/xmlparse.rs: reportComment"]}
{"id": "C07", "title": "Processing instructions: reserved targets and termination", "statement": "A PI is accepted exactly when its target is a Name other than any mixed-case spelling of \"xml\", it ends at the first \"?>\", and all characters are legal; the lower-case target \"xml\" is classified as an XML/text declaration, the other seven spellings are rejected.", "quantifier": "every byte string following \"<?\"", "why_tests_cant": "Unbounded target and data.", "anchors": ["src/lib/xmltok_impl.rs: scanPi, checkPiTarget", "src/lib/xmlparse.rs: reportProcessingInstruction"]}
{"id": "C08", "title": "CDATA sections deliver their text verbatim up to the first \"]]>\"", "statement": "The character data reported for a CDATA section is the section's text up to (not including) the first \"]]>\", with each CR, CRLF or LF replaced by one LF; nothing else is changed, dropped or duplicated.", "quantifier": "every CDATA section body in a single-byte-unit encoding", "why_tests_cant": "Runs of brackets and CR/LF combinations of every length.", "anchors": ["src/lib/xmltok_impl.rs: cdataSectionTok", "src/lib/xmlparse.rs: doCdataSection"]}
{"id": "C09", "title": "Numeric character references denote exactly the XML Char they spell", "statement": "&#N; / &#xN; of any length is resolved to the number its digits spell when that number is a legal XML character (per the library's documented Char set) and is rejected with BAD_CHAR_REF otherwise; arbitrarily many digits or leading zeros never overflow.", "quantifier": "every digit string of every length, decimal and hexadecimal", "why_tests_cant": "Digit strings are unbounded; overflow shows only for particular long strings.", "anchors": ["src/lib/xmltok_impl.rs: charRefNumber, scanCharRef, scanHexCharRef", "src/lib/xmltok.rs: checkCharRefNumber"]}
{"id": "C10", "title": "Exactly five predefined entities", "statement": "A reference resolves as predefined exactly for the names lt, gt, amp, quot, apos, giving the characters < > & \" '; no other name is so resolved.", "quantifier": "every name byte string, in every supported encoding", "why_tests_cant": "The set of non-matching names is infinite.", "anchors": ["src/lib/xmltok_impl.rs: predefinedEntityName", "src/lib/xmlparse.rs: doContent ENTITY_REF"]}
{"id": "C11", "title": "Encoding a character as UTF-8 is correct and lossless", "statement": "The bytes delivered for a character reference are the well-formed UTF-8 encoding of the character; distinct characters give distinct, decodable byte strings; illegal code points give zero bytes.", "quantifier": "every integer code point", "why_tests_cant": "Over a million values times boundary conditions; a proof covers negative and out-of-range values too.", "anchors": ["src/lib/xmltok.rs: XmlUtf8Encode, XmlUtf16Encode"]}
{"id": "C12", "title": "Transcoding is faithful and independent of the output buffer size", "statement": "Converting ISO-8859-1, US-ASCII, UTF-8 or UTF-16 input to the UTF-8 reported to handlers gives the same bytes whether done in one large output buffer or through any sequence of small ones; no character is split, dropped or duplicated, and the output encodes exactly the input characters.", "quantifier": "every input, and every sequence of output buffer sizes large enough for one character", "why_tests_cant": "Buffer-size/character-boundary interactions are unbounded.", "anchors": ["src/lib/xmltok.rs: utf8Convert of Latin1/Utf8/Little2/Big2 encodings, _INTERNAL_trim_to_complete_utf8_characters", "src/lib/xmlparse.rs: doContent DATA_CHARS loop", "src/string_pool.rs: append"]}
{"id": "C13", "title": "UTF-16BE and UTF-16LE documents are treated alike", "statement": "A document in UTF-16BE is tokenised exactly as the same document in UTF-16LE; in particular no character makes the library panic.", "quantifier": "every sequence of 16-bit code units", "why_tests_cant": "65536 code units in every context.", "anchors": ["src/lib/xmltok.rs: Little2EncodingImpl, Big2EncodingImpl byte_type / byte_to_ascii / is_name_char"]}
{"id": "C14", "title": "Line ends in comments and PI data are normalised once and completely", "statement": "The text handed to comment and PI handlers contains no CR; every CRLF pair, lone CR and lone LF of the source appears as exactly one LF; all other bytes are unchanged; normalising again changes nothing.", "quantifier": "every byte string", "why_tests_cant": "CR/LF patterns are unbounded.", "anchors": ["src/lib/xmlparse.rs: normalizeLines, reportComment, reportProcessingInstruction"]}
{"id": "C15", "title": "Line and column numbers are right and additive", "statement": "XML_GetCurrentLineNumber/ColumnNumber equal one plus the number of line breaks (CRLF, CR, LF each once) before the position and the number of characters since the last line break, independent of how many internal updates computed them, provided no update boundary separates a CR from its LF.", "quantifier": "every byte string and every sequence of update points", "why_tests_cant": "Update points depend on chunking; all combinations cannot be enumerated.", "anchors": ["src/lib/xmltok_impl.rs: updatePosition", "src/lib/xmlparse.rs: XML_GetCurrentLineNumber, XML_GetCurrentColumnNumber"]}
{"id": "C16", "title": "Built-in encoding names are matched case-insensitively and nothing else matches", "statement": "An encoding name is recognised as one of the six built-in encodings exactly when it equals that name up to ASCII letter case; any other name is reported as unknown and goes to the unknown-encoding handler.", "quantifier": "every byte string used as an encoding name", "why_tests_cant": "Infinite set of names.", "anchors": ["src/lib/xmltok.rs: getEncodingIndex, streqci, findEncoding"]}
{"id": "C17", "title": "Encoding auto-detection follows the byte-order mark rules", "statement": "With no declared encoding, a document beginning FE FF / FF FE / EF BB BF is read as UTF-16BE / UTF-16LE / UTF-8 with the mark skipped, a NUL second/first byte means UTF-16LE/BE, and everything else is UTF-8; the decision does not change when more bytes arrive.", "quantifier": "every initial byte string and every extension", "why_tests_cant": "Short and split prefixes are a combinatorial family.", "anchors": ["src/lib/xmltok.rs: initScan, InitEncoding"]}
{"id": "C18", "title": "XML declarations are accepted exactly per the grammar", "statement": "<?xml ...?> is accepted exactly when it consists of version (first; optional only in a text declaration), optional encoding (mandatory in a text declaration), optional standalone=yes|no (not in a text declaration), correctly quoted and separated by white space; the reported values are the quoted ones.", "quantifier": "every byte string between <?xml and ?>", "why_tests_cant": "The attribute/whitespace/quote combinations are unbounded.", "anchors": ["src/lib/xmltok.rs: doParseXmlDecl, parsePseudoAttribute"]}
{"id": "C19", "title": "The XML declaration handler receives the declared version", "statement": "If the document declares a version, the version argument of the XmlDecl handler is that version string, whether or not an encoding is also declared.", "quantifier": "every pair of version and encoding strings", "why_tests_cant": "Needs a statement about both strings and pool contents at once.", "anchors": ["src/lib/xmlparse.rs: processXmlDecl", "src/string_pool.rs: store_c_string, current_start, finish_string"]}
{"id": "C20", "title": "Unknown-encoding maps are validated before use", "statement": "A map supplied by the unknown-encoding handler is accepted exactly when the ASCII characters of well-formed documents (other than $@\\^`{}~) stand at their own byte and nowhere else, and every entry is -1, -2..-4 with a converter supplied, or at most U+FFFF. After acceptance a byte sequence is taken for a legal character exactly when map and converter make it stand for an XML character up to U+FFFF, for a name (start) character exactly when that character is one, and converting any text yields the UTF-8 form of the characters it stands for, through output buffers of any size. Without an acceptable map parsing fails with UNKNOWN_ENCODING and the handler's release function is called.", "quantifier": "every 256-entry map, every converter function, every text and output size", "why_tests_cant": "256 arbitrary integers.", "anchors": ["src/lib/xmltok.rs: UnknownEncoding::initialize, utf8Convert", "src/lib/xmlparse.rs: handleUnknownEncoding"]}
{"id": "C21", "title": "A syntax error in the prolog is final", "statement": "Once the prolog grammar rejects a token, the grammar machine never leaves its error state and gives no later token any meaning: nothing after a syntax error is taken for a declaration, a DOCTYPE, a reference or the root element.", "quantifier": "every token sequence after the first error", "why_tests_cant": "Unbounded continuation.", "anchors": ["src/lib/xmlrole.rs: error, common"]}
{"id": "C22", "title": "Document structure of the prolog", "statement": "Along every token sequence accepted by the prolog grammar there is at most one XML declaration and it is first, at most one DOCTYPE, and nothing but comments, PIs and white space between the DOCTYPE's end and the root element.", "quantifier": "every token sequence", "why_tests_cant": "Unbounded sequences.", "anchors": ["src/lib/xmlrole.rs: prolog0, prolog1, prolog2, doctype0-5, internalSubset"]}
{"id": "C23", "title": "Content-model parentheses balance and connectors do not mix", "statement": "In every accepted element declaration, at any nesting depth, there is never a ')' without its '(', all groups are closed at the end, and '|' and ',' are never mixed in one group; no declaration makes the group bookkeeping leave its arrays.", "quantifier": "every token sequence of an <!ELEMENT declaration, any nesting depth", "why_tests_cant": "Unbounded nesting.", "anchors": ["src/lib/xmlrole.rs: element1-element7", "src/lib/xmlparse.rs: doProlog GROUP_OPEN, GROUP_CHOICE, GROUP_SEQUENCE"]}
{"id": "C24", "title": "Conditional sections balance", "statement": "In the external subset every \"]]>\" closes a previously opened INCLUDE/IGNORE section; the end of the entity inside an open section is an error; sections nest to any depth.", "quantifier": "every token sequence of an external subset", "why_tests_cant": "Unbounded nesting.", "anchors": ["src/lib/xmlrole.rs: externalSubset0, externalSubset1, condSect0-2"]}
{"id": "C25", "title": "The content model delivered equals the model declared", "statement": "The XML_Content tree passed to the element-declaration handler is exactly the declared content expression: same operators, quantifiers, names, child counts and order.", "quantifier": "every content expression of every depth and width", "why_tests_cant": "Trees are unbounded; index arithmetic bugs show only for particular shapes.", "anchors": ["src/lib/xmlparse.rs: DTDScaffold::next_part, build_node, build_model, doProlog ELEMENT roles"]}
{"id": "C26", "title": "Start and end element events are balanced and correctly nested", "statement": "In every run, each end-element event closes the most recently started open element and carries the same name; when parsing finishes successfully every started element has been ended exactly once.", "quantifier": "every document and chunking", "why_tests_cant": "Unbounded nesting.", "anchors": ["src/lib/xmlparse.rs: doContent START_TAG*, EMPTY_ELEMENT*, END_TAG, m_tagStack, m_tagLevel"]}
{"id": "C27", "title": "Mismatched, missing and surplus tags are rejected", "statement": "A document whose end tags do not match its start tags, that ends inside an element, or that has markup or text after the root element, never parses successfully; the error is TAG_MISMATCH, NO_ELEMENTS/UNCLOSED..., or JUNK_AFTER_DOC_ELEMENT respectively.", "quantifier": "every token stream", "why_tests_cant": "Unbounded nesting and lengths.", "anchors": ["src/lib/xmlparse.rs: doContent, epilogProcessor, contentProcessor"]}
{"id": "C28", "title": "Duplicate attribute names are rejected, order preserved, defaults added", "statement": "A start tag is accepted only if its attribute names are pairwise distinct; the attribute array lists the specified attributes in source order followed by declared defaults for the attributes not specified (declaration order), each exactly once; the specified count is the number written in the tag.", "quantifier": "every attribute list and every set of declared defaults", "why_tests_cant": "Unbounded lists.", "anchors": ["src/lib/xmlparse.rs: storeAtts, getAttributeId, defineAttribute"]}
{"id": "C29", "title": "Duplicate expanded names are rejected under namespaces", "statement": "With namespace processing, two attributes of one element whose prefixes are bound to the same URI and have the same local name are rejected with DUPLICATE_ATTRIBUTE, also when triplet reporting is on.", "quantifier": "every attribute list and binding environment", "why_tests_cant": "Unbounded lists; depends on configuration.", "anchors": ["src/lib/xmlparse.rs: storeAtts (nsAtts pass)"]}
{"id": "C30", "title": "Reserved namespace prefixes and URIs", "statement": "A namespace declaration is rejected exactly when it binds xmlns, binds xml to another URI, binds another prefix to the xml or xmlns namespace URI, or binds a non-empty prefix to the empty URI; otherwise it is accepted.", "quantifier": "every (prefix, URI) pair", "why_tests_cant": "Infinite URIs; near-miss URIs.", "anchors": ["src/lib/xmlparse.rs: addBinding"]}
{"id": "C31", "title": "Namespace declarations are scoped to their element", "statement": "After an element ends, every prefix has the binding it had before the element started, for any nesting and shadowing; end-namespace events mirror start-namespace events.", "quantifier": "every properly nested sequence of elements and declarations", "why_tests_cant": "Unbounded nesting.", "anchors": ["src/lib/xmlparse.rs: addBinding, doContent END_TAG, freeBindings, storeAtts"]}
{"id": "C32", "title": "The context string handed to external entity parsers is faithful", "statement": "A parser created from a context string sees exactly the namespace bindings and open entities of the parent at that point, for any enumeration order of the tables.", "quantifier": "every set of bindings and open entities, every hash iteration order", "why_tests_cant": "Hash order is arbitrary; strings arbitrary.", "anchors": ["src/lib/xmlparse.rs: getContext, setContext"]}
{"id": "C33", "title": "Attribute values are normalised per XML 3.3.3", "statement": "The value reported for an attribute is the literal with white-space characters and line ends replaced by spaces and references expanded; for non-CDATA types leading/trailing spaces are removed and inner runs of spaces are collapsed to one.", "quantifier": "every attribute literal and declared type", "why_tests_cant": "Unbounded literals.", "anchors": ["src/lib/xmlparse.rs: storeAttributeValue, appendAttributeValue", "src/lib/xmltok_impl.rs: attributeValueTok, getAtts"]}
{"id": "C34", "title": "Recursive entities are always detected and expansion terminates", "statement": "Expanding an entity reference always terminates: a reference to an entity currently being expanded is rejected with RECURSIVE_ENTITY_REF, whatever the entity definitions.", "quantifier": "every finite set of internal entity definitions (arbitrary reference graph)", "why_tests_cant": "Graphs of any size and cycle length.", "anchors": ["src/lib/xmlparse.rs: processInternalEntity, appendAttributeValue, storeEntityValue"]}
{"id": "C35", "title": "Entity expansion equals textual substitution", "statement": "When expansion succeeds, the character data delivered equals the text obtained by recursively replacing each reference by its declared replacement text.", "quantifier": "every finite acyclic set of entity definitions", "why_tests_cant": "Unbounded graphs and texts.", "anchors": ["src/lib/xmlparse.rs: processInternalEntity, doContent ENTITY_REF, appendAttributeValue"]}
{"id": "C36", "title": "The first declaration of an entity or attribute is binding", "statement": "If an entity (or attribute of an element type) is declared several times, only the first declaration has any effect on later references, defaults or types.", "quantifier": "every sequence of declarations", "why_tests_cant": "Unbounded sequences.", "anchors": ["src/lib/xmlparse.rs: doProlog GENERAL_ENTITY_NAME, PARAM_ENTITY_NAME, defineAttribute, hash_insert!"]}
{"id": "C37", "title": "Public identifiers: legal characters only, normalised", "statement": "A public identifier is accepted only if every character is a PubidChar; the value reported has runs of white space collapsed to one space and none at either end; normalising twice is the same as once.", "quantifier": "every literal", "why_tests_cant": "Unbounded strings.", "anchors": ["src/lib/xmltok_impl.rs: isPublicId", "src/lib/xmlparse.rs: normalizePublicId"]}
{"id": "C38", "title": "Lifecycle: finished, suspended and failed parsers refuse further input correctly", "statement": "XML_Parse/XML_ParseBuffer/XML_GetBuffer on a suspended or finished parser fail with SUSPENDED/FINISHED and change nothing else; XML_ResumeParser on a parser that is not suspended fails with NOT_SUSPENDED; XML_StopParser obeys the documented transition table; this holds after any history of calls.", "quantifier": "every sequence of API calls and every handler behaviour", "why_tests_cant": "Histories are unbounded.", "anchors": ["src/lib/xmlparse.rs: parse, parseBuffer, getBuffer, stopParser, resumeParser"]}
{"id": "C39", "title": "Errors are sticky", "statement": "After a parse call returns XML_STATUS_ERROR because of the document, every later attempt to parse more input returns XML_STATUS_ERROR, and no further handler is called, until the parser is reset.", "quantifier": "every sequence of later API calls", "why_tests_cant": "Histories are unbounded.", "anchors": ["src/lib/xmlparse.rs: parse, parseBuffer, resumeParser, errorProcessor"]}
{"id": "C40", "title": "Suspend and resume deliver each event exactly once", "statement": "Suspending in a handler and resuming later yields the same events as not suspending: nothing is lost and nothing is repeated, and resuming never panics.", "quantifier": "every document, every suspension point, every later sequence of parse calls", "why_tests_cant": "Suspension points times continuations.", "anchors": ["src/lib/xmlparse.rs: resumeParser, parseBuffer, XML_StopParser"]}
{"id": "C41", "title": "The input buffer never loses or reorders unparsed bytes", "statement": "Across any sequence of XML_GetBuffer/XML_ParseBuffer/XML_Parse calls the bytes presented to the tokenizer are exactly the unconsumed suffix of all bytes supplied so far, in order; a successful XML_GetBuffer(n) has room for n bytes; at most 1024 bytes of already-parsed context are kept.", "quantifier": "every sequence of buffer operations and sizes", "why_tests_cant": "Unbounded histories; the move/grow decisions depend on all sizes.", "anchors": ["src/lib/xmlparse.rs: getBuffer, parse, parseBuffer"]}
{"id": "C42", "title": "XML_ParserReset restores a fresh parser", "statement": "After XML_ParserReset succeeds, the parser behaves as a newly created one (same configuration of created-with options), whatever was parsed before; on a child (external entity) parser reset is refused and changes nothing.", "quantifier": "every prior history", "why_tests_cant": "Every reachable prior state.", "anchors": ["src/lib/xmlparse.rs: XML_ParserReset, reset, init"]}
{"id": "C43", "title": "Strings handed out by the pool never change", "statement": "A string finished in a string pool keeps its contents under all later pool operations until the pool is cleared, distinct strings never alias, and building a string piecewise gives the concatenation of the pieces.", "quantifier": "every sequence of pool operations", "why_tests_cant": "Unbounded histories.", "anchors": ["src/string_pool.rs: StringPool"]}
{"id": "C44", "title": "IGNORE sections skip exactly the nested section", "statement": "The text skipped by an IGNORE section ends at the \"]]>\" that balances it, counting nested \"<![\" and \"]]>\".", "quantifier": "every byte string", "why_tests_cant": "Unbounded nesting and bracket runs.", "anchors": ["src/lib/xmltok_impl.rs: ignoreSectionTok", "src/lib/xmlparse.rs: doIgnoreSection"]}
{"id": "C45", "title": "Position queries are safe at any time", "statement": "XML_GetCurrentLineNumber, XML_GetCurrentColumnNumber, XML_GetCurrentByteIndex can be called at any moment of a parser's life (between any two API calls) without failing.", "quantifier": "every sequence of API calls", "why_tests_cant": "Unbounded histories.", "anchors": ["src/lib/xmlparse.rs: XML_GetCurrentLineNumber, XML_GetCurrentColumnNumber, getBuffer"]}
{"id": "C46", "title": "Byte index equals bytes consumed", "statement": "XML_GetCurrentByteIndex during and after parsing equals the number of input bytes before the current event, independent of buffering.", "quantifier": "every sequence of parse calls", "why_tests_cant": "Unbounded histories.", "anchors": ["src/lib/xmlparse.rs: XML_GetCurrentByteIndex, parse, parseBuffer"]}
{"id": "C47", "title": "Name characters are classified per XML 1.0 and identically in every encoding", "statement": "A BMP character is accepted as a name (start) character exactly when XML 1.0 (4th ed. appendix B) says so, with the same answer for its UTF-8 and UTF-16 forms; every name-start character is a name character.", "quantifier": "every BMP code point", "why_tests_cant": "65536 characters times encodings; table and index arithmetic.", "anchors": ["src/lib/nametab.rs: namingBitmap, namePages, nmstrtPages", "src/lib/xmltok.rs: is_name_char, is_nmstrt_char"]}
{"id": "C48", "title": "Serialise-then-parse round trip", "statement": "Serialising any element tree (names, attributes, text, comments, PIs) in the obvious way and parsing it yields exactly the events of the tree, in document order, for any chunking.", "quantifier": "every element tree", "why_tests_cant": "Infinite set of trees and chunkings.", "anchors": ["src/lib/xmlparse.rs: doContent, storeAtts", "src/lib/xmltok_impl.rs: contentTok"]}
{"id": "C49", "title": "Configuration setters are refused once parsing has started", "statement": "XML_SetEncoding, XML_UseForeignDTD, XML_SetReturnNSTriplet and XML_SetParamEntityParsing have no effect while a parse is in progress or suspended and report failure where they can.", "quantifier": "every history of API calls", "why_tests_cant": "Unbounded histories.", "anchors": ["src/lib/xmlparse.rs: setEncoding, XML_UseForeignDTD, XML_SetReturnNSTriplet, XML_SetParamEntityParsing"]}
{"id": "C50", "title": "Undefined entity references follow the well-formedness rules", "statement": "A reference to an undeclared general entity is an error exactly when the document has no external subset/parameter-entity references that could declare it or is standalone; otherwise it is reported as skipped; references to unparsed entities and external entities in attribute values are always errors.", "quantifier": "every combination of document state and entity attributes", "why_tests_cant": "Decision table over several independent flags.", "anchors": ["src/lib/xmlparse.rs: doContent ENTITY_REF, appendAttributeValue"]}
{"id": "C51", "title": "Truncating a buffer to whole UTF-8 characters", "statement": "Cutting well-formed UTF-8 text at an arbitrary byte and trimming leaves exactly the longest prefix made of whole characters; at most three bytes are removed.", "quantifier": "every well-formed UTF-8 text and every cut", "why_tests_cant": "Cuts times texts.", "anchors": ["src/lib/xmltok.rs: _INTERNAL_trim_to_complete_utf8_characters, utf8Convert"]}
{"id": "C52", "title": "Names contain only well-formed characters", "statement": "Element, attribute, entity and PI-target names accepted from a UTF-8 document are sequences of well-formed UTF-8 characters; ill-formed byte sequences inside a name are rejected.", "quantifier": "every byte sequence in a name position", "why_tests_cant": "Every lead/trail byte combination in every name position.", "anchors": ["src/lib/xmltok_impl.rs: CHECK_NAME_CASES, CHECK_NMSTRT_CASES", "src/lib/xmltok.rs: Utf8EncodingImpl::is_name_char, is_nmstrt_char"]}
{"id": "C53", "title": "Tags are exactly the STag, EmptyElemTag and ETag productions", "statement": "Text beginning with '<' is accepted as a start or empty-element tag exactly when it is Name (S Attribute)* S? '>' or '/>' with each attribute Name S? '=' S? quoted value, values containing no '<', no bare '&' and no quote of the same kind; an end tag exactly when it is '</' Name S? '>'. The token ends right after the '>'.", "quantifier": "every buffer, every built-in encoding", "why_tests_cant": "Unbounded names, attribute counts, white space and values.", "anchors": ["src/lib/xmltok_impl.rs: scanLt, scanAtts, scanEndTag, scanRef, contentTok"]}
{"id": "C54", "title": "A declared encoding that contradicts the detected one is refused", "statement": "When the application gave no encoding, a grammatical XML or text declaration naming a built-in encoding makes parsing continue in that encoding if its code unit has the size already detected (and, for 16-bit units, the same byte order), fails with INCORRECT_ENCODING otherwise; UTF-16 in a 16-bit document keeps the detected byte order; other names go to the unknown-encoding handler; an encoding given by the application overrides all of this.", "quantifier": "every grammatical declaration and every detected encoding", "why_tests_cant": "All spellings of all names times all detected encodings.", "anchors": ["src/lib/xmlparse.rs: processXmlDecl", "src/lib/xmltok.rs: findEncoding"]}
{"id": "C55", "title": "From the root element on, exactly the well-formed documents are accepted, with exactly their events", "statement": "Cut into XML_Parse calls in any way, text beginning with the root element's tag is accepted exactly when it is an element of the XML grammar (tags, attributes, character data, references including declared entities whose replacement text is itself well-formed content, comments, PIs, CDATA sections, properly nested) followed only by comments, PIs and white space; the handlers are called with exactly the events of that grammar, in document order.", "quantifier": "every byte string of whole code units, every encoding of the library, every set of entity declarations, every chunking", "why_tests_cant": "The set of documents is infinite and both directions (nothing ill-formed accepted, nothing well-formed refused) are universal claims.", "anchors": ["src/lib/xmlparse.rs: doContent, doCdataSection, epilogProcessor, processInternalEntity, storeAtts", "src/lib/xmltok_impl.rs: contentTok, cdataSectionTok, prologTok"]}
{"id": "C56", "title": "An external parameter entity in an entity value contributes its whole text", "statement": "When the value of an entity declaration refers to an external parameter entity and the application parses that entity with a child parser, the value contains the entity's whole replacement text, however many XML_Parse calls deliver it and whether or not it starts with a text declaration or a byte order mark (which are not part of the text).", "quantifier": "every replacement text, every way of delivering it, every encoding", "why_tests_cant": "The cuts and the positions of tokens relative to them are unbounded.", "anchors": ["src/lib/xmlparse.rs: entityValueInitProcessor, entityValueProcessor, storeEntityValue, externalParEntInitProcessor"]}
{"id": "C57", "title": "How the prolog is cut into XML_Parse calls does not matter", "statement": "The XML declaration, the document type declaration with its internal subset and everything else before the root element, passed to XML_Parse in any pieces cut at any byte positions (inside tokens, code units, CR LF pairs, ignored sections), cause the same handler calls with the same arguments in the same order (text for the default handler may be sliced differently), the same declarations, the same error code if any, and the root element at the same place, as when passed in one call; so do whole documents.", "quantifier": "every byte string, every cut into pieces, every parser state at a call, every set of handlers, every answer of the external entity handler and the unknown-encoding handler", "why_tests_cant": "Cut positions times all prologs; entities, conditional sections and encodings interact with the cuts.", "anchors": ["src/lib/xmlparse.rs: doProlog, prologProcessor, ignoreSectionProcessor, doIgnoreSection, processXmlDecl, XML_Parse", "src/lib/xmltok_impl.rs: prologTok, ignoreSectionTok"]}
{"id": "C58", "title": "The replacement text of an internal entity", "statement": "The value stored (and reported) for an entity declared with a literal is the literal with character references replaced by their characters, parameter-entity references (where they are allowed: not in declarations of the document's internal subset) replaced by the replacement text of the entity, general-entity references left as written, and CR LF and CR turned into LF. A literal in the internal subset is accepted as a value exactly when it has such a text: ill-formed references, references to characters that are not XML characters and parameter-entity references are refused.", "quantifier": "every literal, every built-in encoding, every table of parameter entities, any nesting", "why_tests_cant": "Literals and nesting of parameter entities are unbounded; both directions are universal.", "anchors": ["src/lib/xmlparse.rs: storeEntityValue", "src/lib/xmltok_impl.rs: entityValueTok, scanRef, scanPercent, charRefNumber"]}
{"id": "C59", "title": "A prolog is reported as it is written", "statement": "When a document begins with a well-formed prolog (comments, processing instructions, a document type declaration with internal subset: entity, notation, attribute-list and element-type declarations, references to parameter entities), the application receives exactly the calls that correspond to what is written, in this order: start and end of the document type with its name and identifiers, each entity with its replacement text or its normalised identifiers, each attribute with its type and normalised default, each content model as a tree; of several declarations of an entity only the first counts; after a reference to a parameter entity that is not read, entity and attribute declarations are no longer processed unless the document is standalone. Then the content begins at the root element with exactly these declarations in force. None of this depends on how the input is cut into calls.", "quantifier": "every prolog of the grammar in every built-in encoding, any handlers set, any cut, entities expanding to further declarations to any depth", "why_tests_cant": "Prologs are unboundedly long, declarations nest through parameter entities, and the statement compares all of them with an independent grammar.", "anchors": ["src/lib/xmlparse.rs: doProlog, prologProcessor, processInternalEntity, defineAttribute, build_model", "src/lib/xmltok_impl.rs: prologTok", "src/lib/xmlrole.rs: prolog1, internalSubset, entity0-entity10, attlist0-attlist9, element0-element7, notation0-notation4, doctype0-doctype5"]}
{"id": "C60", "title": "A whole document is reported as it is written", "statement": "A document that consists of an optional byte order mark, an optional XML declaration, a well-formed prolog, a well-formed root element and trailing comments, processing instructions and white space is accepted. The encoding is that of the mark or of the first characters, then the one declared if it is compatible. The application is told, in this order: of the XML declaration, whether there is an encoding declaration and what standalone says; the contents of the prolog; the events of the root element and of what follows it, with the entities, attribute defaults and attribute types which the prolog declares. How the bytes are cut into XML_Parse calls does not matter, not even inside the mark.", "quantifier": "every document of the grammar, every built-in encoding, every encoding named to XML_ParserCreate, every cut", "why_tests_cant": "All documents times all cuts; the statement composes detection, declaration, prolog and content against one independent grammar.", "anchors": ["src/lib/xmlparse.rs: XML_Parse, prologInitProcessor, prologProcessor, processXmlDecl, doProlog, contentProcessor, doContent, epilogProcessor", "src/lib/xmltok.rs: InitEncoding::initScan, findEncoding"]}
{"id": "C61", "title": "Only well-formed documents are accepted", "statement": "With the settings a parser has after creation (parameter entities are not read, no handler for unknown encodings), a text for which all XML_Parse calls return OK is a document: an optional XML declaration as the grammar has it, with an encoding that agrees with the one detected; comments, processing instructions and white space; at most one document type declaration, every declaration of which (entities, notations, attribute lists with types and defaults, content models, identifiers) is written as the grammar says, with legal characters and names; one root element that is well-formed with the entities so declared; and only comments, processing instructions and white space after it. Everything else is refused, in whatever pieces it is passed.", "quantifier": "every byte string of whole code units (shorter than 2 GiB), every built-in encoding, every cut", "why_tests_cant": "It is a statement about all texts that are not documents; acceptance tests sample a few of them.", "anchors": ["src/lib/xmlparse.rs: XML_Parse, doProlog, prologProcessor, processXmlDecl, storeEntityValue, appendAttributeValue, doContent, epilogProcessor", "src/lib/xmltok_impl.rs: prologTok", "src/lib/xmlrole.rs: all handlers"]}
{"id": "C62", "title": "Handlers are given legal text only", "statement": "Whatever bytes are passed to XML_Parse, in whatever pieces and whether or not they are accepted in the end, every piece of character data, every comment, the data of every processing instruction and every attribute value given to a handler is a well-formed UTF-8 string of characters that XML allows, also when it comes from a character reference, an entity or a default value declared in the document; the same holds for entity values, default values, public and system identifiers reported from the prolog.", "quantifier": "every byte string of whole code units in every built-in encoding, every cut, every document type declaration made by the document itself", "why_tests_cant": "An application that trusts its strings to be UTF-8 is broken by a single input; tests try a few ill-formed sequences in a few places.", "anchors": ["src/lib/xmlparse.rs: doContent, doCdataSection, storeAtts, reportComment, reportProcessingInstruction, storeAttributeValue, storeEntityValue, doProlog", "src/lib/xmltok_impl.rs: contentTok, cdataSectionTok, charRefNumber", "src/lib/xmltok.rs: utf8Convert"]}
{"id": "C63", "title": "XML_Parse says OK to documents and ERROR to everything else", "statement": "On a parser as XML_ParserCreate or XML_ParserReset leave it (after whatever history), with or without an encoding named, calls of XML_Parse that pass a text in any pieces, empty ones included, the last call final: if the text is a document, every call returns XML_STATUS_OK, XML_GetErrorCode is XML_ERROR_NONE and the handlers have been called as the document says; if it is not, the last call returns XML_STATUS_ERROR and XML_GetErrorCode tells an error. Whatever the text, content handlers were given legal text only.", "quantifier": "every byte string of whole code units (below 1 GiB), every way of cutting it into calls, every history before a reset", "why_tests_cant": "It is about all texts, all cuts and all histories, through the buffer management of XML_Parse.", "anchors": ["src/lib/xmlparse.rs: XML_ParserCreate, XML_ParserReset, XML_SetEncoding, XML_Parse, XML_ParseBuffer, XML_GetBuffer, XML_GetErrorCode, prologInitProcessor, initializeEncoding, errorProcessor"]}
{"id": "C64", "title": "Handlers do not influence each other", "statement": "Take two parsers that differ only in which handlers are set (start and end of elements, character data, comments, processing instructions, CDATA sections, namespace declarations, skipped and external entities, document type, entity, attribute-list, element-type and notation declarations, XML declaration, XML_SetDefaultHandlerExpand), and pass both the same text, each in pieces of its own: the last calls return the same status; if it is XML_STATUS_OK, each handler set in both has been called with the same arguments in the same order relative to the other ones set in both. After the prolog the same holds for documents that fail: same error code, same calls before it.", "quantifier": "every text of whole code units below 1 GiB, every pair of handler sets, every pair of cuts", "why_tests_cant": "The code tests for handlers in dozens of places, often with side effects on pools and state in one branch only; the pairs of handler sets times all documents cannot be enumerated.", "anchors": ["src/lib/xmlparse.rs: doContent, storeAtts, doProlog, reportDefault, addBinding, XML_SetElementHandler, XML_SetCharacterDataHandler, XML_SetDefaultHandlerExpand"]}
{"id": "C65", "title": "The default handler is given the whole document", "statement": "With XML_SetDefaultHandler and no other handler set, no handler but the default handler is called, and the strings it is given, joined, are the text of the document from its first character after the byte order mark: XML declaration, document type declaration with all white space and comments, tags as they were written, references unexpanded, line ends as they were, white space at the end. For UTF-8 and US-ASCII it is the same byte for byte; ISO-8859-1 and UTF-16 come out as UTF-8. If the document is accepted it is all of the text (but for a stray last byte in UTF-16); if it is refused it is a first part of it. How the text is cut into XML_Parse calls does not matter.", "quantifier": "every text in a built-in encoding (below 1 GiB), well-formed or not, every cut, every parser as created or reset", "why_tests_cant": "A token that is passed on twice or not at all in one of some eighty branches of the prolog, in one cut, loses or doubles text; no test compares for all documents and cuts.", "anchors": ["src/lib/xmlparse.rs: reportDefault, XML_SetDefaultHandler, doProlog, doContent, doCdataSection, doIgnoreSection, epilogProcessor, processXmlDecl"]}
{"id": "C66", "title": "A parser for an external entity reads exactly external parsed entities", "statement": "A parser made by XML_ExternalEntityParserCreate from the context passed to the external entity handler, given the text of the entity by XML_Parse in any pieces: every call returns OK if and only if the text is an external parsed entity, that is, a byte order mark or none, a text declaration or none (encoding required, version optional, no standalone) whose encoding agrees with the detected one, and content in which every element begun is ended, with the namespace declarations in force at the reference and with the entity itself and all entities open at the reference forbidden. The XML declaration handler and the content handlers, whichever are set, are then told what it says, independently of the pieces.", "quantifier": "every byte string of whole code units, every built-in encoding named or not, every cut, every set of handlers, every set of declarations and bindings of the parent (in namespace mode: of parents that have not met an attribute xmlns, see finding 17)", "why_tests_cant": "The start of an entity is read by three processors handing over to each other at every possible cut, while the encoding is being detected; tests cover a handful of entities and cuts.", "anchors": ["src/lib/xmlparse.rs: XML_ExternalEntityParserCreate, externalEntityInitProcessor, externalEntityInitProcessor2, externalEntityInitProcessor3, externalEntityContentProcessor, processXmlDecl, getContext, setContext, doContent", "src/lib/xmltok.rs: InitEncoding::initScan"]}
{"id": "C67", "title": "After a parameter entity that was not read, declarations have no effect", "statement": "In a document that does not say standalone=\"yes\", once a reference between declarations to a parameter entity has been passed over (because parameter entities were not asked for, the entity is not declared, there is no external entity handler, or the handler returned without reading the entity), no entity and no attribute is declared any more, and none is reported to the entity-declaration, unparsed-entity or attribute-list handlers, until the end of the document: whatever the rest of the document type declaration contains, in whatever pieces it is passed, whatever further parameter entities, internal or external, are read. References and default attributes in the content are resolved with the declarations before that place.", "quantifier": "every state between declarations, every text after the reference, every cut, every behaviour of external entity handlers built from child parsers", "why_tests_cant": "The switch is one flag that dozens of actions must test; a forgotten test shows only for one kind of declaration after one kind of reference.", "anchors": ["src/lib/xmlparse.rs: doProlog (XML_ROLE_PARAM_ENTITY_REF and all actions testing keepProcessing), XML_SetParamEntityParsing, externalParEntProcessor"]}
{"id": "C68", "title": "Parameter entities that may not be used are refused at their place", "statement": "With parameter entity parsing on, a reference to a parameter entity whose text is being read, directly or through other entities, fails with XML_ERROR_RECURSIVE_ENTITY_REF; the text of a parameter entity that would close the document type declaration fails with XML_ERROR_INVALID_TOKEN, one that would close the internal subset with XML_ERROR_INCOMPLETE_PE; in a document that says standalone=\"yes\" a reference in the document to an undeclared parameter entity fails with XML_ERROR_UNDEFINED_ENTITY, to one declared in a parameter entity with XML_ERROR_ENTITY_DECLARED_IN_PE. Exactly the declarations before that place have been reported, in however many pieces the document is passed.", "quantifier": "every prolog with allowed declarations and references before the place, entities nested to any depth, any text after it, every cut, every set of handlers", "why_tests_cant": "The ways in which entities can refer to each other cannot be enumerated; a missing check is an endless expansion for one of them.", "anchors": ["src/lib/xmlparse.rs: doProlog, doPrologHandleEntityRef, processInternalEntity", "src/lib/xmlrole.rs: internalSubset, doctype5"]}
{"id": "C69", "title": "The external subset and external parameter entities are read as written", "statement": "An application sets parameter entity parsing on and a handler for external entities that creates a parser for the entity, passes it the entity's bytes and returns. Then a document whose document type declaration has an external identifier, or which refers to external parameter entities between declarations, in the document or in external entities themselves, is accepted; the handler is called for the external subset after the internal subset and for the other entities at their reference, with their identifiers; the declarations in the entities are reported exactly as written, in order, by the handlers of the main parser, with text declarations, INCLUDE and IGNORE sections taken into account; and the root element is read with the declarations of all of them, those of the internal subset taking precedence. It does not matter how the document and the entities are cut into pieces, nor in which encoding each of them is. (Not covered: references inside declarations; references to internal parameter entities inside INCLUDE sections and `]]]` inside IGNORE sections, which the code refuses.)", "quantifier": "every document, every set of external entities nested to any depth, every cut of each of them, every set of handlers, every built-in encoding of each of them", "why_tests_cant": "The documents, the entities they refer to, their nesting and their pieces are unbounded and independent of each other.", "anchors": ["src/lib/xmlparse.rs: doProlog (DOCTYPE_CLOSE, PARAM_ENTITY_REF), XML_ExternalEntityParserCreate, externalParEntInitProcessor, externalParEntProcessor, doIgnoreSection", "src/lib/xmlrole.rs: externalSubset0, externalSubset1, condSect0, condSect1, condSect2"]}
{"id": "C70", "title": "A foreign DTD stands for the external subset", "statement": "After XML_UseForeignDTD, with parameter entity parsing on and a handler for external entities, a document without a document type declaration is read as if it had an external subset: where the root element begins, after everything before it has been reported, the handler is called once with null identifiers; the declarations in what it reads are reported and hold for the root element. If the handler does not read anything the document is read as one without a document type declaration. Without parameter entity parsing, without a handler, or without XML_UseForeignDTD nothing is asked or reported.", "quantifier": "every document without a document type declaration, every foreign DTD, every cut of both, every set of handlers, every built-in encoding", "why_tests_cant": "Whether a declaration holds in the content depends on the whole foreign DTD and on the whole of what stands before the root element.", "anchors": ["src/lib/xmlparse.rs: XML_UseForeignDTD, doProlog (INSTANCE_START, DOCTYPE_CLOSE)"]}
{"id": "C71", "title": "The encoding of a document does not matter", "statement": "The same characters written in any two of the built-in encodings (UTF-8, UTF-16 in both byte orders, Latin-1, US-ASCII), with or without byte order marks and XML declarations before them, and passed in whatever pieces, are both accepted or both refused; if accepted, the entities, notations, elements and attributes declared are the same, the calls for the prolog after that for the XML declaration say the same, and the calls for the content are the same, argument for argument. Excepted are characters one of the encodings cannot represent, U+00AA, U+00B5 and U+00BA between UTF-8 and the other encodings, and U+0080-U+00FF in big-endian UTF-16.", "quantifier": "every sequence of characters, every pair of built-in encodings, every byte order mark and XML declaration that selects them, every cut of both texts, every set of handlers, parameter entities not read", "why_tests_cant": "A test compares two texts; that no token, name, reference, literal or line end of any document is taken differently in one of the encodings is a statement about all of them.", "anchors": ["src/lib/xmlparse.rs: XML_Parse, prologProcessor, contentProcessor, doProlog, doContent, storeAtts, appendAttributeValue, storeEntityValue", "src/lib/xmltok.rs: INIT_ENCODINGS, initScan", "src/lib/xmltok_impl.rs"]}
{"id": "C72", "title": "No document makes the parser panic or report an internal error", "statement": "Whatever bytes are passed to a parser as it is created, in whatever pieces and with whatever handlers set (none for unknown encodings), the parse ends in one of two ways: the document is accepted, or an error code is reported that blames the document; never XML_ERROR_UNEXPECTED_STATE or XML_ERROR_NO_MEMORY, never an endless loop or recursion, never a panic - with one exception: the library panics on the documents whose XML declaration names an encoding with a name of exactly 127 characters, and on no others.", "quantifier": "every sequence of bytes shorter than 2^31 - 2, every cut into calls, every set of handlers except one for unknown encodings, every encoding given to the parser, namespace processing on or off, parameter entities not read, calls that do not stop the parser", "why_tests_cant": "A fuzzer finds some inputs that reach an arm written for impossible situations; that no input at all reaches one is a statement about the whole tokenizer, the grammar machine, the content-model builder, the entity tables and the element stack together.", "anchors": ["src/lib/xmlparse.rs: XML_Parse, prologInitProcessor, prologProcessor, doProlog, processXmlDecl, storeEntityValue, storeAttributeValue, appendAttributeValue, contentProcessor, doContent, storeAtts, processInternalEntity, epilogProcessor, build_model, nextScaffoldPart", "src/lib/xmltok.rs: initScan, doParseXmlDecl, findEncoding, XML_TOK::negate", "src/lib/xmlrole.rs", "src/lib/xmltok_impl.rs"]}
{"id": "C73", "title": "During a handler call the byte index and byte count are those of the markup it reports", "statement": "While the content of a document is parsed, XML_GetCurrentByteIndex and XML_GetCurrentByteCount called from a handler give the place, in the bytes supplied so far, of the tag, comment, processing instruction, CDATA bracket or entity reference that the call reports: the bytes found there are that markup, with the name, comment text or PI data the handler gets. Calls for the text of an internal entity have the place of the reference. The end of an empty-element tag has the place behind the tag and the count 0 if a start element handler is set, otherwise the place of the tag. The places do not depend on how the bytes are cut into calls of XML_Parse, their indices never decrease, and they lie within the bytes supplied. After an error XML_GetCurrentByteIndex gives the markup at fault, for a tag mismatch the name in the end tag.", "quantifier": "every sequence of bytes as content, every cut into calls (for errors: one call), every set of handlers, every set of declarations, every built-in encoding, namespaces on or off; calls other than for character data and the default handler", "why_tests_cant": "Whether the pointer is right depends on everything parsed before, on the cut and on the bytes moved in the buffer; a test compares a few places in a few documents.", "anchors": ["src/lib/xmlparse.rs: XML_GetCurrentByteIndex, XML_GetCurrentByteCount, doContent, doCdataSection, epilogProcessor, processInternalEntity, reportDefault"]}
{"id": "C74", "title": "Line and column numbers in handler calls do not depend on when they are asked for or on how the document is cut", "statement": "XML_GetCurrentLineNumber and XML_GetCurrentColumnNumber, called from any of the handlers of C73 or after an error, give the line and column of the byte that XML_GetCurrentByteIndex gives: counted from the beginning of the document in whole characters, with \\r\\n, \\r and \\n as line ends. This holds whichever of the handlers have asked before (asking moves the stored position) and however the document is cut into calls of XML_Parse, also between \\r and \\n; and asking never panics.", "quantifier": "every sequence of bytes as content, every cut into calls, every choice of the calls in which the application asks, every set of handlers and declarations, every built-in encoding, namespaces on or off", "why_tests_cant": "The stored position depends on all earlier calls of the two functions and on all cuts; a test asks in a few calls of a few documents.", "anchors": ["src/lib/xmlparse.rs: XML_GetCurrentLineNumber, XML_GetCurrentColumnNumber, XML_ParseBuffer, doContent, epilogProcessor", "src/lib/xmltok_impl.rs: updatePosition, prologTok, contentTok"]}
{"id": "C75", "title": "XML_DefaultCurrent passes on the markup of the current call", "statement": "An application sets the default handler (with XML_SetDefaultHandler) and any of the handlers for content (elements, character data, comments, processing instructions, CDATA sections, namespace declarations, skipped and external entities); each of them but those for namespace declarations calls XML_DefaultCurrent once. Then the strings given to the default handler, joined, are the content of the document, each byte once and in order, recoded to UTF-8; if there is an error, a first part of it. This holds however the document is cut into calls of XML_Parse and however text is split into calls of the character data handler.", "quantifier": "every sequence of bytes as content, every cut, every set of handlers, every set of declarations, every built-in encoding, namespaces on or off", "why_tests_cant": "Text is handed to the handler in pieces whose ends depend on the conversion buffer, on line ends, references and cuts; whether the two event pointers enclose each piece exactly is seen only by adding up all calls of all documents.", "anchors": ["src/lib/xmlparse.rs: XML_DefaultCurrent, doContent, doCdataSection, epilogProcessor, reportDefault", "src/lib/xmltok.rs: utf8Convert"]}
{"id": "C76", "title": "The canonical output of xmlwf says what the document says, and is its own canonical output", "statement": "xmlwf -d writes, for a document it accepts, a text of start tags with attributes in the order of their names, end tags, escaped text and processing instructions. If the names in the document are names of XML 1.0 (fourth edition), that text is itself a well-formed document: a parser given it in any pieces accepts it, reports the same elements, attributes, text and processing instructions in the same order, and xmlwf -d writes the same bytes for it again. The order in which attributes are written in the document makes no difference. Two documents report the same elements, attributes, text and processing instructions if and only if the texts written for them are equal.", "quantifier": "every accepted document in every built-in encoding, cut into calls in any way, with any declarations in its internal subset; every cut of the text written", "why_tests_cant": "The escapes have to survive line-end and attribute-value normalisation, the end of a section, the end of a processing instruction and quotes, in all combinations, and to lose no difference; a test shows one document at a time.", "anchors": ["src/xmlwf/xmlwf.rs: characterData, attributeValue, attcmp, startElement, endElement, processingInstruction, main", "src/lib/xmlparse.rs: XML_Parse, doContent, storeAtts, reportProcessingInstruction, normalizeLines"]}
{"id": "C77", "title": "XML_GetInputContext gives the input around the current event", "statement": "XML_GetInputContext returns a null pointer if there is no current event. Otherwise it returns bytes that are exactly the end of all that was supplied to the parser so far, and an offset at which the current event begins in them: the place XML_GetCurrentByteIndex gives. In a handler the bytes contain all that was supplied by the present call, and before the event at least 1024 bytes of what came earlier, or all of it if there was less; the way the document was cut into calls of XML_Parse, XML_GetBuffer and XML_ParseBuffer makes no difference to that.", "quantifier": "all histories of API calls within the contract, all documents and ways to cut them, every event, and the states between calls", "why_tests_cant": "The bytes returned depend on the layout of a buffer that is moved, compacted and enlarged depending on all earlier calls; tests try a few sizes of chunks.", "anchors": ["src/lib/xmlparse.rs: XML_GetInputContext", "src/lib/xmlparse.rs: XML_ParserStruct::getBuffer", "src/lib/xmlparse.rs: XML_Parse", "src/lib/xmlparse.rs: XML_ParseBuffer", "src/lib/xmlparse.rs: XML_GetCurrentByteIndex"]}
{"id": "C78", "title": "Suspending while the text of an entity is parsed loses nothing", "statement": "If a handler that is called for something in the replacement text of an internal entity suspends the parser, XML_ResumeParser goes on where the parser stopped: the rest of the text of the entity, of the entities whose texts refer to it, and of the document are reported, each once, and the document is accepted or refused as if the parser had not been suspended.", "quantifier": "all documents from the root element on, all declarations, encodings, handlers and ways to cut the document; every call in which a handler suspends the parser", "why_tests_cant": "Which entities are open when a handler is called, and how much of each has been read, is different in every document; the tests suspend in one entity with one text.", "anchors": ["src/lib/xmlparse.rs: processInternalEntity", "src/lib/xmlparse.rs: internalEntityProcessor", "src/lib/xmlparse.rs: XML_ResumeParser", "src/lib/xmlparse.rs: doContent"]}
{"id": "C79", "title": "What xmlwf says of a file is whether it is a document, however the file is read", "statement": "xmlwf succeeds for a file exactly if the whole file is a well-formed document, whether it reads the file at once or, with -r, in whatever portions the operating system gives; otherwise it reports an error with the code of the parser. For a document the same output is written either way. The exit status of a command is 0 exactly if all files are documents; else it is 2, the files before the first that is not a document keep their outputs, its own output is removed, and no further file is read. A file that could not be read to its end is never reported as well-formed. The file for an external entity is looked for in the directory of the file that refers to it, unless its name is absolute.", "quantifier": "all files of less than about 2^30 bytes in all built-in encodings and all ways in which read(2) divides them; all lists of files; all pairs of file names", "why_tests_cant": "The buffer is moved and enlarged between portions depending on where tokens end in the file; which divisions a test sees depends on the operating system.", "anchors": ["src/xmlwf/xmlfile.rs: XML_ProcessFile", "src/xmlwf/xmlfile.rs: processStream", "src/xmlwf/xmlfile.rs: processFile", "src/xmlwf/xmlfile.rs: resolveSystemId", "src/xmlwf/readfilemap.rs: filemap", "src/xmlwf/xmlwf.rs: main_0", "src/lib/xmlparse.rs: XML_GetBuffer", "src/lib/xmlparse.rs: XML_ParseBuffer"]}
{"id": "C80", "title": "The names of open elements outlive the input buffer", "statement": "An element may be opened in one call of XML_Parse and closed in a later one, between which the input buffer has been moved, reallocated or overwritten with anything. The end tag is compared with the start tag as it was written, and the end handler gets the name as the start handler got it: the handler calls and the error of a parse depend neither on where the input was kept nor on what the memory allocator returns. Copying the names never writes outside the memory of the tag and spoils neither the converted name nor its local part.", "quantifier": "all contents of documents and external entities in all encodings, all divisions into calls, all places and contents of the buffer in each call, all contents of allocated memory, all handler settings", "why_tests_cant": "A pointer that is stale usually still shows the old bytes; whether they have been overwritten depends on the lengths of names, on buffer sizes and on the allocator.", "anchors": ["src/lib/xmlparse.rs: storeRawNames", "src/lib/xmlparse.rs: contentProcessor", "src/lib/xmlparse.rs: externalEntityContentProcessor", "src/lib/xmlparse.rs: doContent", "src/lib/xmlparse.rs: Tag", "src/lib/xmlparse.rs: storeAtts"]}
{"id": "C81", "title": "A parser for an external general entity knows what its parent has been told", "statement": "Whatever DTD the parent parser has built up (entities, element types with default and ID attributes, attributes met, prefixes, namespace declarations), XML_ExternalEntityParserCreate for a general entity gives a parser which knows the same of every name: the same entities with the same texts, identifiers and bases, the same default attributes in the same order, the same ID attributes and normalisation, and where each `xmlns` attribute declares the same prefix; it does not panic. (False for `xmlns` itself: the copy keeps a pointer to a variable that is gone, so a default namespace declared in the entity is lost when the parent has met an attribute `xmlns`.)", "quantifier": "all DTDs that can be built by declarations, tags and earlier copies, all names, all orders of iteration of the tables, all addresses", "why_tests_cant": "The copy is made table by table with pointers between tables translated; a pointer left to a moved value often still shows the right bytes in a test, and which names collide or share a base is unbounded.", "anchors": ["src/lib/xmlparse.rs: DTD::try_clone, copyEntityTable, XML_ExternalEntityParserCreate, getAttributeId, getElementType, setElementTypePrefix, defineAttribute, addBinding"]}
{"id": "C82", "title": "Names in namespaces are right although elements share buffers", "statement": "For every sequence of start tags, empty elements and end tags, with any namespace declarations, the names handed to the start-element and end-element handlers are the expanded names under the declarations in force (URI, separator, local name and, with triplets, prefix), and the end-element handler is given the name the start-element handler was given, even though the program composes the name in the buffer of the namespace's URI, which other elements overwrite, which moves when it grows and which is used again for other namespaces; nothing is written outside of a buffer.", "quantifier": "all sequences of tags and declarations, all contexts, separators and triplet settings, all behaviours of the allocator (addresses and garbage in new memory), handlers set or not at each end tag", "why_tests_cant": "Whether a name is overwritten depends on which elements with which name lengths were read in between and on where the allocator puts buffers; stale bytes often happen to be the right ones.", "anchors": ["src/lib/xmlparse.rs: storeAtts, addBinding, freeBindings, doContent (START_TAG, EMPTY_ELEMENT, END_TAG)"]}
{"id": "C83", "title": "Suspending in the prolog loses and repeats nothing", "statement": "Any handler may suspend the parser: those for the XML declaration, the document type, entities, notations, attribute lists and element types, comments and processing instructions in the DTD as well as those of the content. After XML_ResumeParser the parse goes on as if nothing had happened: from the first byte of the document to the last the handlers are called with the same arguments in the same order, and the same error is found, or none. (False if the call in which the parser was suspended is not the last, or if it is suspended twice: what was read when resuming is read again, in the state reached by then - a well-formed document is rejected, or the end of the DTD is reported as character data.)", "quantifier": "all documents in all built-in encodings, all divisions into calls, all handlers with a state of their own, all places of suspension", "why_tests_cant": "Every handler call of every document is a place of suspension; the state to be kept between the calls includes half-read declarations.", "anchors": ["src/lib/xmlparse.rs: doProlog", "src/lib/xmlparse.rs: prologProcessor, prologInitProcessor, ignoreSectionProcessor, contentProcessor", "src/lib/xmlparse.rs: XML_StopParser, XML_ResumeParser, XML_ParseBuffer"]}
{"id": "C84", "title": "A handler can end the parse", "statement": "Any handler, in the prolog or in the content, may end the parse by XML_StopParser with XML_FALSE. What has been reported up to then is what a parser whose handlers never stop it reports first; an error returned is XML_ERROR_ABORTED or the error of the document; the call in which the handler was called returns XML_STATUS_ERROR; and afterwards no handler is called again by any function, unless the parser is reset. (False in one point: if a handler for the start of a CDATA section ends the parse, the text of the section is still reported, and if the input ends there for now XML_Parse returns XML_STATUS_OK.)", "quantifier": "all documents in all built-in encodings, all states reached by earlier calls, all handlers with a state of their own, all sequences of calls afterwards", "why_tests_cant": "Each handler call of each document is a place to end the parse, and the claim is about all calls that can follow.", "anchors": ["src/lib/xmlparse.rs: doProlog, doContent, doCdataSection", "src/lib/xmlparse.rs: XML_StopParser, XML_Parse, XML_ParseBuffer, XML_ResumeParser, XML_GetBuffer", "src/lib/xmlparse.rs: errorProcessor"]}
