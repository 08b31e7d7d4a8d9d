{
 "claims": [
  {
   "property": "C01",
   "status": "proved",
   "theorems": [
    "Verif.C01.illformed_rejected",
    "Verif.C01.data_wellformed",
    "Verif.C01.literal_wellformed",
    "Verif.C01.pi_wellformed",
    "Verif.C01.comment_wellformed",
    "Verif.C01.data_accepted",
    "Verif.C01.ill_iff",
    "Verif.C01.content_fails",
    "Verif.C01.cdata_fails",
    "Verif.C01.comment_fails",
    "Verif.C01.pi_fails",
    "Verif.C01.value_fails",
    "Verif.C01.prolog_fails",
    "Verif.C01.document_fails",
    "Verif.C01.chunks_fail",
    "Verif.C01.handlers_legal"
   ],
   "note": "Tokenizers: every buffer. Parser: ill-formed text in character data, CDATA sections, comments, processing instructions, attribute values and literals of declarations fails with INVALID_TOKEN (PARTIAL_CHAR when the document ends there), in one call (document_fails) and in any pieces (chunks_fail; there JUNK_AFTER_DOC_ELEMENT is not excluded by the theorem); nothing ill-formed is given to a handler (handlers_legal). Names are not checked: C52."
  },
  {
   "property": "C02",
   "status": "proved",
   "theorems": [
    "Verif.C02.next_in_buffer",
    "Verif.C02.progress",
    "Verif.C02.reads_in_buffer",
    "Verif.C02.run_bounded",
    "Verif.C02.value_tok",
    "Verif.C02.literal_whole"
   ],
   "note": "All buffers, every encoding. Attribute/entity value tokenizers: on text made of whole characters, which is what accepted literals contain."
  },
  {
   "property": "C03",
   "status": "proved",
   "theorems": [
    "Verif.C03.stable",
    "Verif.C03.stable_chunks",
    "Verif.C03.encodings_ok"
   ],
   "note": "All buffers and extensions, every built-in encoding and every application-supplied map. Runs of character data and prolog white space are open-ended by design and excluded (see C04)."
  },
  {
   "property": "C04",
   "status": "proved",
   "theorems": [
    "Verif.C04.chunks",
    "Verif.C04.lawful",
    "Verif.C04.sem_lawful",
    "Verif.C04.parser_chunks",
    "Verif.C04.parser_chunks_ok"
   ],
   "note": "chunks: for any parser state machine satisfying Lawful; parser_chunks: for the modelled content parser (tags, attributes, namespaces, entities, CDATA, comments, PIs, epilog) in every built-in encoding, any configuration of handlers, any declarations, any cutting. Junk after the root element may be reported with its own error code instead of JUNK (see DESIGN.md). Suspension is not part of this claim."
  },
  {
   "property": "C05",
   "status": "proved",
   "theorems": [
    "Verif.C05.data_token",
    "Verif.C05.close_rejected",
    "Verif.C05.data_utf8"
   ],
   "note": "All buffers, every built-in encoding, any extension of the buffer."
  },
  {
   "property": "C06",
   "status": "proved",
   "theorems": [
    "Verif.C06.comment_iff",
    "Verif.C06.comment_utf8",
    "Verif.C06.comment_parsed"
   ],
   "note": "Recognition in both directions in every encoding; in element content, under any chunking, the handler gets exactly the enclosed text with line ends normalised."
  },
  {
   "property": "C07",
   "status": "proved",
   "theorems": [
    "Verif.C07.pi_iff",
    "Verif.C07.pi_token",
    "Verif.C07.decl_token",
    "Verif.C07.reserved_rejected",
    "Verif.C07.checkPiTarget_spec",
    "Verif.C07.pi_parsed"
   ],
   "note": "Every built-in encoding, any buffer; recognition in both directions; in element content under any chunking."
  },
  {
   "property": "C08",
   "status": "proved",
   "theorems": [
    "Verif.C08.section_iff",
    "Verif.C08.section_refused",
    "Verif.C08.cdata_iff"
   ],
   "note": "Anywhere in element content, any chunking, every built-in encoding (not only single-byte ones)."
  },
  {
   "property": "C09",
   "status": "proved",
   "theorems": [
    "Verif.C09.charRef_token",
    "Verif.C09.charRef_dec",
    "Verif.C09.charRef_hex",
    "Verif.C09.no_overflow"
   ],
   "note": "Any number of digits, every built-in encoding."
  },
  {
   "property": "C10",
   "status": "proved",
   "theorems": [
    "Verif.C10.predefined_iff"
   ],
   "note": "Every built-in encoding, every name."
  },
  {
   "property": "C11",
   "status": "proved",
   "theorems": [
    "Verif.C11.encode_spec",
    "Verif.C11.encode_none",
    "Verif.C11.decode_encode",
    "Verif.C11.encode_inj",
    "Verif.C11.decodeAll_encode"
   ],
   "note": "All integers."
  },
  {
   "property": "C12",
   "status": "proved",
   "theorems": [
    "Verif.C12.latin1_faithful",
    "Verif.C12.ascii_faithful",
    "Verif.C12.utf16le_faithful",
    "Verif.C12.utf16be_faithful",
    "Verif.C12.utf8_faithful",
    "Verif.C12.utf8_incomplete",
    "Verif.C12.drain_prefix",
    "Verif.C12.drain_all",
    "Verif.C12.loop_independent",
    "Verif.C12.uniform_latin1",
    "Verif.C12.uniform_ascii",
    "Verif.C12.uniform_utf16",
    "Verif.C12.uniform_unknown"
   ],
   "note": "every text, every succession of output buffers; buffer independence also for ill-formed input of the per-character converters"
  },
  {
   "property": "C13",
   "status": "partial",
   "theorems": [
    "Verif.C13.panics_iff",
    "Verif.C13.not_alike",
    "Verif.C13.no_panic_partial",
    "Verif.C13.tokens_partial",
    "Verif.C13.functions_partial",
    "Verif.C13.conversion",
    "Verif.C13.documents_partial"
   ],
   "note": "False as stated: byte_type of the UTF-16BE encodings panics exactly on U+0080-U+00FF (panics_iff, not_alike). Proved for every text without those characters: all tokenizers, the functions on token text, conversion (no exception there), and whole documents in any chunking."
  },
  {
   "property": "C14",
   "status": "proved",
   "theorems": [
    "Verif.C14.no_cr",
    "Verif.C14.idempotent",
    "Verif.C14.lines_joined",
    "Verif.C14.normalizeLines_spec",
    "Verif.C14.comment_text",
    "Verif.C14.comment_chars",
    "Verif.C14.pi_text",
    "Verif.C14.pi_bare"
   ],
   "note": "The in-place normaliser computes the reference line-end translation of every NUL-terminated string; comment and PI handlers get exactly the translated, converted text of the construct, in every supported encoding."
  },
  {
   "property": "C15",
   "status": "proved",
   "theorems": [
    "Verif.C15.update_spec",
    "Verif.C15.updates_spec",
    "Verif.C15.same_line",
    "Verif.C15.split_crlf"
   ],
   "note": "The position update over whole characters advances (line, column) exactly as specified, and any number of updates not cutting between CR and LF compose; split_crlf shows the proviso is needed. The API query is C45/C46."
  },
  {
   "property": "C16",
   "status": "partial",
   "theorems": [
    "Verif.C16.index_iff",
    "Verif.C16.index_none",
    "Verif.C16.declared_partial",
    "Verif.C16.long_name_panics"
   ],
   "note": "index_iff/index_none: the complete characterisation for names given by the application. declared_partial: names in XML declarations, every length but 127; long_name_panics: at exactly 127 characters the library panics (write through an empty slice), so the property is false there."
  },
  {
   "property": "C17",
   "status": "partial",
   "theorems": [
    "Verif.C17.detect",
    "Verif.C17.detect2",
    "Verif.C17.stable_partial",
    "Verif.C17.more_only",
    "Verif.C17.first_byte",
    "Verif.C17.first_byte_unstable"
   ],
   "note": "detect/detect2: the decision on any two or three initial bytes. stable_partial: a decision made on at least two bytes never changes, for every externally given encoding and both kinds of entity. first_byte_unstable: a single first byte may be decided as UTF-8 although the next byte would have selected UTF-16LE, so the property is false for one-byte first chunks."
  },
  {
   "property": "C18",
   "status": "partial",
   "theorems": [
    "Verif.C18.accepted_partial",
    "Verif.C18.panic_iff"
   ],
   "note": "accepted_partial: acceptance and reported values are exactly the grammar in every built-in encoding, except encoding names of exactly 127 characters; panic_iff: exactly on those the library panics. Value characters are [A-Za-z0-9._-]* as in the code (an empty version is accepted)."
  },
  {
   "property": "C19",
   "status": "partial",
   "theorems": [
    "Verif.C19.version_no_encoding",
    "Verif.C19.version_with_encoding",
    "Verif.C19.version_never_declared",
    "Verif.C19.version_prefix_partial",
    "Verif.C19.standalone_reported"
   ],
   "note": "The property is false of the code: version_never_declared proves that for every accepted declaration whose version differs from its encoding name the handler is not given the declared version (it gets the rest of the declaration, or the encoding name). version_prefix_partial is what holds."
  },
  {
   "property": "C20",
   "status": "proved",
   "theorems": [
    "Verif.C20.accepted_iff",
    "Verif.C20.legal_iff",
    "Verif.C20.names_iff",
    "Verif.C20.conversion",
    "Verif.C20.installed_iff",
    "Verif.C20.installed_is",
    "Verif.C20.released_iff"
   ],
   "note": "All maps and converters (a converter is a function of the bytes of its sequence). The map may contain surrogates and non-characters, as in the code: their bytes are then never legal."
  },
  {
   "property": "C21",
   "status": "proved",
   "theorems": [
    "Verif.C21.error_final",
    "Verif.C21.after_error"
   ],
   "note": "All handlers of xmlrole.rs. The machine's error handler answers NONE (not ERROR) to later tokens; the parser-level stickiness is C39."
  },
  {
   "property": "C22",
   "status": "proved",
   "theorems": [
    "Verif.C22.document_structure",
    "Verif.C22.doctype_contents",
    "Verif.C22.no_second_doctype"
   ],
   "note": "Exact characterisation (iff) of the token sequences accepted up to the root element, for any length: BOM*, at most one XML declaration, Misc*, at most one DOCTYPE, then Misc* only. The interior of the DOCTYPE is characterised by the grammar machine itself (C21, C23, C25 cover its parts) plus: it has no XML declaration, BOM, root element or second DOCTYPE and ends with '>'."
  },
  {
   "property": "C23",
   "status": "proved",
   "theorems": [
    "Verif.C23.accepted",
    "Verif.C23.balanced",
    "Verif.C23.no_mixing",
    "Verif.C23.no_fault"
   ],
   "note": "Over the token loop of doProlog with the role machine; up to 2^31 tokens (32-bit group counter)."
  },
  {
   "property": "C24",
   "status": "proved",
   "theorems": [
    "Verif.C24.close_matches",
    "Verif.C24.depth_counter",
    "Verif.C24.end_outside",
    "Verif.C24.nests"
   ],
   "note": "For token sequences of fewer than 2^32-1 tokens (the nesting counter is u32). IGNORE sections are consumed by the section skipper (C44)."
  },
  {
   "property": "C25",
   "status": "proved",
   "theorems": [
    "Verif.C25.declared_model",
    "Verif.C25.denotes_unique"
   ],
   "note": "iff acceptance by productions 45-51; the delivered block denotes the declared tree and is read unambiguously. Scaffold sizes as Nat (no 2 GiB overflow)."
  },
  {
   "property": "C26",
   "status": "proved",
   "theorems": [
    "Verif.C26.balanced",
    "Verif.C26.balanced_entity",
    "Verif.C26.tag_stack"
   ],
   "note": "Every document, chunking, encoding, DTD (entities included): start/end events nest, every successful parse closes all; an external general entity parsed on its own is balanced too; the tag stack is never popped empty."
  },
  {
   "property": "C27",
   "status": "proved",
   "theorems": [
    "Verif.C27.closed_iff",
    "Verif.C27.mismatch",
    "Verif.C27.unclosed",
    "Verif.C27.unclosed_token",
    "Verif.C27.after_root_iff",
    "Verif.C27.after_root_err",
    "Verif.C27.junk_tag"
   ],
   "note": "Inside elements nested to any depth, any chunking. The error after the root element is JUNK_AFTER_DOC_ELEMENT for a further element; for other text it may be that of a malformed token (as in the code)."
  },
  {
   "property": "C28",
   "status": "proved",
   "theorems": [
    "Verif.C28.attributes",
    "Verif.C28.duplicate_refused",
    "Verif.C28.accepted_iff",
    "Verif.C28.never_duplicate",
    "Verif.C28.flags_always_unset"
   ],
   "note": "Every tag, every attribute list declaration with distinct valued names. accepted_iff is for parsers without namespaces (with namespaces also C29, C30)."
  },
  {
   "property": "C29",
   "status": "partial",
   "theorems": [
    "Verif.C29.distinct_partial",
    "Verif.C29.triplets_missed"
   ],
   "note": "Proved without XML_SetReturnNSTriplet. With triplets and a separator the code misses such duplicates (triplets_missed, a concrete document): the set holds names with the prefix suffix, the lookup has none."
  },
  {
   "property": "C30",
   "status": "proved",
   "theorems": [
    "Verif.C30.reserved",
    "Verif.C30.never_reported",
    "Verif.C30.tag_refused"
   ],
   "note": "Every prefix and URI (URI as a string without NUL, as in the code)."
  },
  {
   "property": "C31",
   "status": "proved",
   "theorems": [
    "Verif.C31.scoping",
    "Verif.C31.in_force"
   ],
   "note": "Every document, chunking and DTD: the bindings in force are those of the scope reconstructed from the start/end namespace events alone."
  },
  {
   "property": "C32",
   "status": "proved",
   "theorems": [
    "Verif.C32.of_parser",
    "Verif.C32.faithful",
    "Verif.C32.bindings_ok",
    "Verif.C32.opened_known"
   ],
   "note": "For any order of the prefix and entity tables: the child has the parent's bindings and open entities, in every reachable state, inside entities or not. Hypotheses: prefix and entity names without '=' and form feed, namespace names without form feed (no XML characters)."
  },
  {
   "property": "C33",
   "status": "proved",
   "theorems": [
    "Verif.C33.literal_value",
    "Verif.C33.tag_values",
    "Verif.C33.reported_values",
    "Verif.C33.line_ends",
    "Verif.C33.line_ends_internal"
   ],
   "note": "Specification Norm (derivation rules of XML 1.0 3.3.3) with collapse for non-CDATA types; iff with the program for all literals, all built-in encodings, any nesting of entities; the tokenizer's 'needs no normalisation' shortcut is covered. Hypotheses TextsOk (entity texts consist of characters) and FlagsOk (maybeTokenized flags) are invariants of reading declarations."
  },
  {
   "property": "C34",
   "status": "proved",
   "theorems": [
    "Verif.C34.attr_recursion",
    "Verif.C34.attr_terminates",
    "Verif.C34.attr_acyclic",
    "Verif.C34.content_recursion",
    "Verif.C34.content_terminates",
    "Verif.C34.content_acyclic",
    "Verif.C34.document_acyclic"
   ],
   "note": "For the content parser and the attribute value normaliser with any entity table: an attempt to expand an entity that is already being expanded ends the run with RECURSIVE_ENTITY_REF; expansion always terminates (the model's fuel, the number of declared names plus one, is never used up, for every table including cyclic ones); a run that succeeds never met an entity whose replacement leads back to itself."
  },
  {
   "property": "C35",
   "status": "proved",
   "theorems": [
    "Verif.C35.content_substitution",
    "Verif.C35.value_substitution",
    "Verif.C35.steps_unique",
    "Verif.C35.acyclic_rewrites"
   ],
   "note": "Textual substitution is a rewriting system on symbols (characters and references), confluent and, for acyclic definitions, terminating. The character data delivered for content, cut in any way, and the value of an attribute are exactly the rewritten text, in each supported encoding. Stated for definitions whose replacement text is characters and references (no markup); expansions with markup are covered by C55."
  },
  {
   "property": "C36",
   "status": "proved",
   "theorems": [
    "Verif.C36.entity_stays",
    "Verif.C36.general_stays",
    "Verif.C36.reported_once",
    "Verif.C36.reported_counts",
    "Verif.C36.attribute_stays",
    "Verif.C36.flags_ok",
    "Verif.C36.content_firsts"
   ],
   "note": "For every sequence of calls of the parser in the prolog on any bytes, any settings and any external entity handler that does no more to the shared DTD than a child parser does (Ext.Keeps; resolver_keeps proves it of a handler that parses the entities with child parsers, to any depth): a declared entity keeps its entry, is reported at most once, the report is what counts at the end; attributes keep type, default and ID; content is processed as if later attribute declarations were not there (equality of the content parsers). The entry '#' for the external subset (not a name) is excluded."
  },
  {
   "property": "C37",
   "status": "proved",
   "theorems": [
    "Verif.C37.legal_iff",
    "Verif.C37.normalize_spec",
    "Verif.C37.only_spaces",
    "Verif.C37.words_normal",
    "Verif.C37.no_blank_ends",
    "Verif.C37.idempotent",
    "Verif.C37.reported"
   ],
   "note": "Acceptance is characterised exactly (iff) in every built-in encoding; the in-place normaliser computes the words of the literal separated by single spaces, without leaving the string."
  },
  {
   "property": "C38",
   "status": "proved",
   "theorems": [
    "Verif.C38.parse_refused",
    "Verif.C38.getBuffer_refused",
    "Verif.C38.parseBuffer_refused",
    "Verif.C38.resume_refused",
    "Verif.C38.stop_table",
    "Verif.C38.table_function",
    "Verif.C38.life",
    "Verif.C38.finished",
    "Verif.C38.suspended"
   ],
   "note": "Model: every API call on a parser whose processors are an arbitrary Engine (handlers may call XML_StopParser). The transition system of the status is proved for every call from any state satisfying the invariant, which every contract-abiding history preserves."
  },
  {
   "property": "C39",
   "status": "proved",
   "theorems": [
    "Verif.C39.fails",
    "Verif.C39.sticky_step",
    "Verif.C39.sticky"
   ],
   "note": "For every engine and every contract-abiding history without XML_ParserReset after the failing call. XML_Parse with zero bytes and isFinal false is not an attempt to parse: it returns OK in the code even after an error."
  },
  {
   "property": "C40",
   "status": "partial",
   "theorems": [
    "Verif.C40.resume_partial",
    "Verif.C40.resume_generic",
    "Verif.C40.resume_total",
    "Verif.C40.uninterrupted",
    "Verif.C40.shown_again",
    "Verif.C40.repeats",
    "Verif.C40.stuck",
    "Verif.C40.panics",
    "Verif.C40.panics_reached"
   ],
   "note": "Positive part: suspended once, in the final call, then resumed: all handler calls and the outcome are those without suspension, for every document content, chunking, handler set and encoding. False in general: resumeParser drops the processor's end pointer, so bytes are reported again (shown_again, repeats), a second suspension never gets further (stuck), and it panics at the end of a full buffer (panics, panics_reached). Not modelled: suspension inside an internal entity's text."
  },
  {
   "property": "C41",
   "status": "proved",
   "theorems": [
    "Verif.C41.moves",
    "Verif.C41.tape",
    "Verif.C41.new_parser",
    "Verif.C41.room",
    "Verif.C41.context",
    "Verif.C41.granted"
   ],
   "note": "For every engine and every contract-abiding history of all API calls (XML_ResumeParser included, with the defect of C40 visible as the rule 'again')."
  },
  {
   "property": "C42",
   "status": "partial",
   "theorems": [
    "Verif.C42.reset_fresh_partial",
    "Verif.C42.reset_document_partial",
    "Verif.C42.child_refused",
    "Verif.C42.not_queries"
   ],
   "note": "Proved for all calls but the position queries, for which the code differs (not_queries). reset_fresh_partial is for any processors with Engine.init; reset_document_partial for those of whole documents (C63), where declarations, open elements, encoding and all handler calls are those of a new parser. Not in the model: m_idAttIndex, m_groupSize, the hash salt, memory kept for reuse."
  },
  {
   "property": "C43",
   "status": "proved",
   "theorems": [
    "Verif.C43.run_refines",
    "Verif.C43.handed_out_stable",
    "Verif.C43.no_alias",
    "Verif.C43.supported_drains"
   ],
   "note": "For every allocator meeting the stated contract (bumpalo itself is not modelled; allocation failure excluded). finish_string_cells (handing out mutable cells) is not modelled."
  },
  {
   "property": "C44",
   "status": "partial",
   "theorems": [
    "Verif.C44.section_partial",
    "Verif.C44.accepted",
    "Verif.C44.missed_end"
   ],
   "note": "For every encoding, an IGNORE section without ']]]' is accepted exactly when its text is the balanced one (nested '<![' and ']]>'), and the token ends right after the balancing ']]>'; what is accepted is always balanced. The full statement is false of the code: missed_end exhibits ']]]>' whose end is missed (also in the original C library)."
  },
  {
   "property": "C45",
   "status": "partial",
   "theorems": [
    "Verif.C45.not_safe",
    "Verif.C45.getBuffer_then_line",
    "Verif.C45.byteIndex_none",
    "Verif.C45.byteIndex_panics",
    "Verif.C45.safe_partial"
   ],
   "note": "The property as stated is false of the code: not_safe, byteIndex_panics. safe_partial: exactly when the queries return. Missing: the queries after XML_GetBuffer moved the buffer and at the end of a full buffer, where the code panics."
  },
  {
   "property": "C46",
   "status": "partial",
   "theorems": [
    "Verif.C46.during_partial",
    "Verif.C46.after_partial",
    "Verif.C46.reached",
    "Verif.C46.full_buffer"
   ],
   "note": "Proved for every engine, history and offset of the event within the bytes given to the processor, except the panic at the very end of a full buffer (full_buffer, C45.byteIndex_panics)."
  },
  {
   "property": "C47",
   "status": "partial",
   "theorems": [
    "Verif.C47.utf8_names",
    "Verif.C47.utf16le_names_partial",
    "Verif.C47.encodings_agree_partial",
    "Verif.C47.encodings_disagree",
    "Verif.C47.start_is_name"
   ],
   "note": "UTF-8: exactly the 4th-edition name characters, all code points. The statement is false as written: Latin-1 and UTF-16 accept U+00AA, U+00B5, U+00BA (encodings_disagree); agreement proved for all other BMP characters."
  },
  {
   "property": "C48",
   "status": "proved",
   "theorems": [
    "Verif.C48.round_trip",
    "Verif.C48.forest_content"
   ],
   "note": "A document tree (text, comments, PIs, elements with attributes; nesting and lengths unbounded) serialised with escaping and parsed in any chunking gives back exactly its events; for UTF-8, UTF-16LE, Latin-1 and US-ASCII, namespaces on or off. Prolog-free documents, no attribute declarations."
  },
  {
   "property": "C49",
   "status": "proved",
   "theorems": [
    "Verif.C49.setter",
    "Verif.C49.conf_fixed",
    "Verif.C49.history"
   ],
   "note": "Setters equal the identity while PARSING or SUSPENDED and change exactly their own setting otherwise; over histories the settings in force when a parse started stay."
  },
  {
   "property": "C50",
   "status": "proved",
   "theorems": [
    "Verif.C50.content_wrong",
    "Verif.C50.content_skipped",
    "Verif.C50.undeclared_iff",
    "Verif.C50.value_wrong",
    "Verif.C50.document_wrong",
    "Verif.C50.document_value",
    "Verif.C50.document_refused",
    "Verif.C50.unparsed_wrong",
    "Verif.C50.external_wrong"
   ],
   "note": "Specified as an inductive table of wrong references with their error codes. Content: exact code at any point of a document, any chunking; undeclared is an error iff nothing else could declare it, and skipped otherwise. Attribute values: the first wrong reference decides the code."
  },
  {
   "property": "C51",
   "status": "proved",
   "theorems": [
    "Verif.C51.trim_spec",
    "Verif.C51.trim_longest"
   ],
   "note": "every text of Unicode scalar values, every cut position"
  },
  {
   "property": "C52",
   "status": "partial",
   "theorems": [
    "Verif.C52.illformed_name_accepted",
    "Verif.C52.names_partial"
   ],
   "note": "The statement is false of the code: name checks do not validate trail bytes (illformed_name_accepted). Proved for well-formed UTF-8 input: every accepted name is a run of whole characters, each an XML NameChar."
  },
  {
   "property": "C53",
   "status": "proved",
   "theorems": [
    "Verif.C53.start_tag",
    "Verif.C53.end_tag"
   ],
   "note": "Every built-in encoding, any buffer of whole code units, both directions. In end tags further colons are let through by the tokenizer (the raw-name comparison catches them, see C26)."
  },
  {
   "property": "C54",
   "status": "proved",
   "theorems": [
    "Verif.C54.declared_encoding",
    "Verif.C54.protocol_wins"
   ],
   "note": "Names of exactly 127 characters excepted (C16)."
  },
  {
   "property": "C55",
   "status": "proved",
   "theorems": [
    "Verif.C55.accepted_iff",
    "Verif.C55.accepted",
    "Verif.C55.refused",
    "Verif.C55.unambiguous"
   ],
   "note": "Grammar refinement in both directions, from the root start tag on, any chunking, every built-in encoding, all handlers set; attributes and namespaces of a tag are taken from storeAtts, specified by C28-C31 and C33."
  },
  {
   "property": "C56",
   "status": "partial",
   "theorems": [
    "Verif.C56.one_piece_partial",
    "Verif.C56.pieces_matter",
    "Verif.C56.pieces_lost",
    "Verif.C56.declarations_matter",
    "Verif.C56.marks_matter",
    "Verif.C56.document_value"
   ],
   "note": "The claim is false of the code, refuted with concrete witnesses run through the model (also for a whole document): the scanning loops of entityValueInitProcessor and entityValueProcessor move buf along and pass the moved pointer on, so text before the last token boundary is lost when the entity comes in several calls or after a text declaration; a byte order mark is kept. Proved for all inputs: text delivered in one call without '?' is evaluated whole."
  },
  {
   "property": "C57",
   "status": "proved",
   "theorems": [
    "Verif.C57.chunks",
    "Verif.C57.documents"
   ],
   "note": "For the prolog processor from the point where the encoding is determined (the initial detection of the encoding is C17). Any state at the call, any handlers, any answers; application-supplied encodings included (unknownBy_ok). Text passed to the default handler may be sliced differently: both sides are compared byte by byte. 'documents' composes with the content processor (C04) when the encoding in use at the root element is a built-in one. Handlers that stop the parser inside the prolog are not modelled."
  },
  {
   "property": "C58",
   "status": "proved",
   "theorems": [
    "Verif.C58.document_value",
    "Verif.C58.value",
    "Verif.C58.repl_unique"
   ],
   "note": "In the document's internal subset a literal is accepted as an entity value iff it has a replacement text in the sense of XML 1.0 section 4.5, and then exactly that is stored; with parameter entities (external parameter entities, text of internal ones) what the specification prescribes is stored, for recursion depth at least the number of declared parameter entities. Parameter entities that are external are the subject of C56."
  },
  {
   "property": "C59",
   "status": "proved",
   "theorems": [
    "Verif.C59.reported",
    "Verif.C59.declared_unique"
   ],
   "note": "For every prolog of the grammar in DeclSpec.lean/DoctypeSpec.lean (productions 22-30, 45-83 for the internal subset, without XML declaration), every cut and every sufficiently large recursion allowance of the model the application hears exactly what the grammar says (calls of the default handler aside) and the content starts with exactly the declarations made. External entities are not read in this theorem (C56 is about those); the converse, that nothing else is accepted, is not claimed."
  },
  {
   "property": "C60",
   "status": "proved",
   "theorems": [
    "Verif.C60.parsed",
    "Verif.C60.document",
    "Verif.C60.parse_found"
   ],
   "note": "byte order mark, XML declaration, prolog, root element and epilog in one theorem, from the first byte, for any cut. Any set of handlers (with XML_SetDefaultHandler instead of ...Expand entities are not expanded: not covered); built-in encodings; the XML declaration handler is told the version string that C19 describes; the external subset is not read."
  },
  {
   "property": "C61",
   "status": "proved",
   "theorems": [
    "Verif.C61.only",
    "Verif.C61.accepted_iff",
    "Verif.C61.refused",
    "Verif.C61.document_only"
   ],
   "note": "Whatever is accepted is a document of the grammar of C60, with its declarations and events; equivalence accepted_iff. Scope: parameter entities not read (the default), no unknown-encoding handler, whole code units, < 2^31 bytes."
  },
  {
   "property": "C62",
   "status": "proved",
   "theorems": [
    "Verif.C62.document_legal",
    "Verif.C62.prolog_all",
    "Verif.C62.prolog_heard",
    "Verif.C62.reported_legal",
    "Verif.C62.prolog_legal"
   ],
   "note": "Content events of any document (accepted or not) and all prolog events of any document, also of prologs that end in an error (prolog_all); built-in encodings, parameter entities not read, whole code units."
  },
  {
   "property": "C63",
   "status": "proved",
   "theorems": [
    "Verif.C63.accepted_iff",
    "Verif.C63.documents",
    "Verif.C63.nothing_else",
    "Verif.C63.after_reset",
    "Verif.C63.text_legal",
    "Verif.C63.outcome",
    "Verif.C63.path_exists",
    "Verif.C63.new_create",
    "Verif.C63.new_reset",
    "Verif.C63.ex_seen",
    "Verif.C63.ex_bad"
   ],
   "note": "Statuses, error code and handler calls of XML_Parse for every text and cut, from creation or any reset. A panic of the prolog (C18: encoding names of 127 bytes) counts as an error in the model."
  },
  {
   "property": "C64",
   "status": "proved",
   "theorems": [
    "Verif.C64.independent",
    "Verif.C64.content_independent",
    "Verif.C64.twin_document",
    "Verif.C64.twin_prolog",
    "Verif.C64.feed_same",
    "Verif.C64.ex_few",
    "Verif.C64.ex_most"
   ],
   "note": "Any two handler sets, any cuts, through XML_Parse; the document grammar is shown not to depend on handlers. Failing prologs: equal status only."
  },
  {
   "property": "C65",
   "status": "proved",
   "theorems": [
    "Verif.C65.copied",
    "Verif.C65.copied_bytes",
    "Verif.C65.copied_utf16"
   ],
   "note": "Every built-in encoding; NoDtd settings as in C63; the texts of tokens are joined, so how reportDefault slices them is not part of the claim. In UTF-16 a stray last byte after a final CR is not passed on (C65.ex_odd)."
  },
  {
   "property": "C66",
   "status": "proved",
   "theorems": [
    "Verif.C66.accepted_iff",
    "Verif.C66.from_context",
    "Verif.C66.refused",
    "Verif.C66.pieces",
    "Verif.C66.unambiguous",
    "Verif.C66.ParsedEntity.congr",
    "Verif.C66.content_congr"
   ],
   "note": "Whole code units; no handler for unknown encodings; encoding names of 127 letters excepted (C16); content grammar of C55 with any handlers."
  },
  {
   "property": "C67",
   "status": "proved",
   "theorems": [
    "Verif.C67.later_ignored",
    "Verif.C67.over_stays",
    "Verif.resolver_freezes"
   ],
   "note": "hext is discharged for handlers built from child parsers by resolver_freezes; references between declarations"
  },
  {
   "property": "C68",
   "status": "proved",
   "theorems": [
    "Verif.C68.refused",
    "Verif.C68.refused_between"
   ],
   "note": "refused: documents without XML declaration, in any pieces; refused_between: any state between declarations, standalone ones too"
  },
  {
   "property": "C69",
   "status": "proved",
   "theorems": [
    "Verif.C69.parsed",
    "Verif.C69.document"
   ],
   "note": "The handler's parsers are created for the entity and given all its bytes before the handler returns. Position-independent: depth of nesting and length unbounded (the model's recursion bounds are existential: from some bound on the result holds). Exceptions as in the statement; the not-standalone handler is asked as the code does (DESIGN.md, findings 30, 31)."
  },
  {
   "property": "C70",
   "status": "proved",
   "theorems": [
    "Verif.C70.used",
    "Verif.C70.not_read",
    "Verif.C70.not_asked"
   ],
   "note": "Documents without a document type declaration; those with one without external identifier are covered by C69.parsed with the foreign flag."
  },
  {
   "property": "C71",
   "status": "proved",
   "theorems": [
    "Verif.C71.same",
    "Verif.C71.odd_differs"
   ],
   "note": "Exceptions named in the statement: U+00AA, U+00B5, U+00BA between UTF-8/US-ASCII and the others (C47; odd_differs shows the exception is needed), U+0080-U+00FF in big-endian UTF-16 (C13). Parameter entities not read; fewer than 2^31 bytes; the two XML declarations agree on standalone."
  },
  {
   "property": "C72",
   "status": "proved",
   "theorems": [
    "Verif.C72.outcome",
    "Verif.C72.panics_iff",
    "Verif.C72.calls_outcome"
   ],
   "note": "Every outcome for every sequence of bytes, also at the level of XML_Parse and XML_GetErrorCode (calls_outcome), and the exact set of documents that panic. Scope: document entity, parameter entities not read, no handler for unknown encodings, handlers do not stop the parser, less than 2^31 - 2 bytes."
  },
  {
   "property": "C73",
   "status": "proved",
   "theorems": [
    "Verif.C73.calls",
    "Verif.C73.cut_free",
    "Verif.C73.stands",
    "Verif.C73.has_place",
    "Verif.C73.in_order",
    "Verif.C73.error_stands"
   ],
   "note": "Byte index and byte count of every call for content other than text; text pieces and the pointer after attribute errors not modelled."
  },
  {
   "property": "C74",
   "status": "partial",
   "theorems": [
    "Verif.C74.lines_partial",
    "Verif.C74.lines_partial_uncut",
    "Verif.C74.determined",
    "Verif.C74.cut_matters"
   ],
   "note": "False of the code in one case, shown by cut_matters: a call of XML_Parse that ends between CR and LF after the root element makes later line numbers one too large (as upstream). lines_partial: in all other cases, for every set of calls in which the application asks, every cut, and after errors, line and column are those of the byte index of C73, and no panic. Asking in calls for text and in the prolog is not modelled."
  },
  {
   "property": "C75",
   "status": "partial",
   "theorems": [
    "Verif.C75.same_calls",
    "Verif.C75.echoed_partial",
    "Verif.C75.echoed",
    "Verif.C75.cdata_twice"
   ],
   "note": "Full statement is false of the code for long lines of CDATA text in ISO-8859-1 and UTF-16 (cdata_twice: text passed on twice, DESIGN finding 34); echoed_partial excludes lines of more than 1024 converted bytes, for any handlers, declarations, state, cut and built-in encoding; echoed: UTF-8 and US-ASCII without exception."
  },
  {
   "property": "C76",
   "status": "proved",
   "theorems": [
    "Verif.C76.canonical",
    "Verif.C76.compares",
    "Verif.C76.in_order",
    "Verif.C76.order_free",
    "Verif.C76.written_says",
    "Verif.C76.ex_refused"
   ],
   "note": "canonical: what is written for an accepted document (any built-in encoding, any cut, internal subset allowed, Named: names of XML 1.0) is accepted in any cut, says the same, and is written again unchanged; compares: equal outputs iff equal meaning; in_order/order_free: attributes in byte order of names, independent of the order they come in. ex_refused: without the condition on names it is false (a Latin-1 name refused in UTF-8, see C47). xmlwf.rs modelled: lines 78-200, 287-300 (handlers of -d without -c, -m, -n, -N)."
  },
  {
   "property": "C77",
   "status": "partial",
   "theorems": [
    "Verif.C77.after",
    "Verif.C77.during",
    "Verif.C77.before_partial",
    "Verif.C77.kept",
    "Verif.C77.forgotten",
    "Verif.C77.context_lost"
   ],
   "note": "after, during: the bytes are the end of what was supplied and the event is where XML_GetCurrentByteIndex says. before_partial: 1024 bytes before the event, for histories in which the buffer is never made larger while everything in it was consumed. Without that condition the statement is false of the code (forgotten, context_lost)."
  },
  {
   "property": "C78",
   "status": "partial",
   "theorems": [
    "Verif.C78.resume_partial",
    "Verif.C78.well_formed_partial",
    "Verif.C78.gives_inside",
    "Verif.C78.ex_resumed",
    "Verif.C78.nested_lost",
    "Verif.C78.nested_recursive",
    "Verif.C78.nested_fails",
    "Verif.C78.cdata_as_markup",
    "Verif.C78.accepted"
   ],
   "note": "resume_partial: suspended once in the final call, inside the text of an entity or not, then resumed: the same calls and outcome as without suspension, or the parse without suspension fails; for entities whose texts contain no reference to an internal entity, not within a CDATA section in the text of an entity. Otherwise false of the code: nested_lost, nested_recursive, nested_fails, cdata_as_markup, accepted; and see C40."
  },
  {
   "property": "C79",
   "status": "proved",
   "theorems": [
    "Verif.C79.as_calls",
    "Verif.C79.verdict",
    "Verif.C79.output",
    "Verif.C79.read_all",
    "Verif.C79.exits",
    "Verif.C79.resolves",
    "Verif.C79.dir_exists",
    "Verif.C79.ex_run"
   ],
   "note": "XML_ProcessFile for files of up to about 2^30 bytes without errors of the operating system, with the options without -p and -x; the message texts are not modelled."
  },
  {
   "property": "C80",
   "status": "proved",
   "theorems": [
    "Verif.C80.documents",
    "Verif.C80.entities",
    "Verif.C80.unobservable",
    "Verif.C80.kept",
    "Verif.C80.kept_init",
    "Verif.C80.stored",
    "Verif.C80.needed"
   ],
   "note": "The parser on pointers is simulated by the parser on copies for all memories, places and allocators; storing a name keeps everything the tag shows; without storing a document is refused (witness)."
  },
  {
   "property": "C81",
   "status": "partial",
   "theorems": [
    "Verif.C81.knows_partial",
    "Verif.C81.knows_unmoved",
    "Verif.C81.default_lost",
    "Verif.C81.wrong_namespace"
   ],
   "note": "Everything but the attribute xmlns is the same in the child for every reachable DTD (knows_partial); the full claim is false of the code because the copy keeps a pointer to its moved local variable (default_lost, wrong_namespace, finding 57), and would hold if the copy were built in place (knows_unmoved). Allocation failure is not modelled; a DTD inherited by a child is covered as a parent only if xmlns was not met."
  },
  {
   "property": "C82",
   "status": "proved",
   "theorems": [
    "Verif.C82.names",
    "Verif.C82.no_overrun",
    "Verif.C82.paired",
    "Verif.C82.needed"
   ],
   "note": "Refinement of a pointer-level model (shared, moving and recycled URI buffers, arbitrary allocator) to the environment-level one, for all sequences of tags without NUL; a write outside of a buffer is an outcome of the model and never occurs. Allocation failure is not modelled."
  },
  {
   "property": "C83",
   "status": "partial",
   "theorems": [
    "Verif.C83.resume_partial",
    "Verif.C83.asked",
    "Verif.C83.rejected",
    "Verif.C83.stuck",
    "Verif.C83.ex_resumed"
   ],
   "note": "Proved for handlers that suspend the parser once, in the last call, at any handler call of prolog or content: handler calls and error are those of an uninterrupted parse (resume_partial); a call is suspended exactly if a handler asked for it (asked). The rest of the statement is false of the code: rejected (suspended in a call that is not the last), stuck (suspended twice)."
  },
  {
   "property": "C84",
   "status": "partial",
   "theorems": [
    "Verif.C84.ended_partial",
    "Verif.C84.noticed_partial",
    "Verif.C84.unread_parse",
    "Verif.C84.over_silent",
    "Verif.C84.unnoticed",
    "Verif.C84.one_more",
    "Verif.C84.ex_ended"
   ],
   "note": "Proved: what is heard is a prefix of what the uninterrupted parser reports, the error is XML_ERROR_ABORTED or the document's, and once a handler has ended the parse no handler is called again by any sequence of calls without a reset. noticed_partial: the call returns XML_STATUS_ERROR unless the parser is left within an ignored section or a CDATA section. Missing because false of the code (unnoticed, one_more): that the call always returns an error and that nothing more is reported in it. Not covered: stopping within the text of an entity; parameter entities or a foreign DTD that are read."
  }
 ]
}
