# Formal model of rexpat in Lean 4 - design

## 1. What is trusted

* Lean 4.33.0's kernel, and the axioms `propext`, `Classical.choice`, `Quot.sound`
  (each property theorem's axioms are listed at the end of the build by
  `Verif/Audit.lean`).  No own axioms, no `sorry`, no `native_decide`/`bv_decide`.
* The reading of /repo: every Lean definition cites the file and lines it models.
  Nothing is extracted mechanically except the byte-type and name-character tables,
  which `tools/gen_tables.py` copies from `src/lib/xmltok.rs` and `src/lib/nametab.rs`
  into `Verif/Tables.lean`.
* Configuration modelled: default cargo features (no `unicode`, `unicode_wchar_t`,
  `mozilla`), i.e. `XML_Char` is a byte and handlers see UTF-8; little-endian 64-bit.

## 2. Conventions of the model

* A byte is `UInt8`; a buffer (`ExpatBufRef`) is the `List UInt8` of its remaining
  bytes; a pointer is an offset (`Nat`) from the start of the token being scanned.
* A Rust loop is a recursive function terminating on the buffer length; `&mut`
  out-parameters become components of the result; a Rust panic is an explicit value.
* Machine integers are unbounded unless the property is about overflow.
* Handler calls are a list of events, handler *behaviour* (stop/suspend) a parameter.
* Allocation failure (`NO_MEMORY`) is not modelled unless said otherwise.

## 3. Modules

Layers, each importing those above it where needed; every definition cites the lines it models, and says
where it is simplified.

| module | contents |
|---|---|
| `Basic`, `Tables` (generated), `Encodings` | byte classes, token codes; byte-type tables xmltok.rs:1175-1915, nametab.rs; the encodings (UTF-8, internal UTF-8, Latin-1, US-ASCII, UTF-16LE/BE, application-supplied maps) as records of functions |
| `Spec/*` | specification vocabulary that mentions no model: Unicode scalar values and encoding forms, XML character classes from the recommendation, numerals, content-model trees, list predicates |
| `Scan`, `ScanAux` | all functions of xmltok_impl.rs |
| `ScanBounds`, `ScanStable`, `Locality`, `Whole`, `Splits`, `Units`, `Swap` | what holds of every scanner: offsets stay inside, verdicts are stable under extension, no byte outside the buffer is consulted, data runs may be cut, whole units, byte swapping |
| `Toks`, `PrologToks`, `Chars`, `Classes`, `Utf8Chars`, `Utf8Lemmas`, `DataRuns`, `CdataRuns`, `Refs`, `Names`, `NameTables`, `Tags`, `GetAtts` | tokens against the productions of XML 1.0 |
| `Convert`, `ConvChars`, `Additive`, `Coding` | utf8Convert of each encoding, delivery through the 1024-byte buffer, texts as code points |
| `Decl`, `DeclLemmas`, `XmlDecl` | findEncoding, initScan, doParseXmlDecl, processXmlDecl |
| `StringPool` | string_pool.rs over a byte memory with an allocator contract |
| `Roles`, `ElemDecl`, `ContentZip`, `ContentScaf`, `ElemSim`, `ElemReach` | xmlrole.rs; element declarations, scaffold, build_model against the content-model productions |
| `Reports`, `TextSpec` | comments, PIs, public identifiers, line-end normalisation |
| `Content`, `Chunks`, `Entity`, `Atts`, `AttsLemmas`, `AttNorm`, `Parser`, `Runs`, `SemInd` | doContent, doCdataSection, epilogProcessor, storeAtts, addBinding, appendAttributeValue, processInternalEntity in content; induction over executions |
| `ContentToks`, `ContentData`, `Grammar`, `ContentRuns`, `ContentItems`, `ContentThm`, `Document`, `DocThm` | refinement of the content loops to a grammar with events, both directions |
| `Subst`, `Tree` | entity expansion as rewriting; serialised trees |
| `Api`, `ApiQueue`, `ApiThm`, `ApiPath`, `ApiRan`, `ApiContent` | XML_Parse, XML_GetBuffer, XML_ParseBuffer, XML_StopParser, XML_ResumeParser, XML_ParserReset, setters, position queries, for an arbitrary `Engine` of processors and for the content engine; refinement to a byte queue |
| `UnknownEnc`, `UnknownCuts` | handleUnknownEncoding; application-supplied encodings under cuts |
| `Context` | getContext, setContext |
| `Prolog`, `PrologRoles`, `PrologInd`, `PrologActs`, `PrologKeep`, `PrologChild`, `PrologKeeps`, `PrologChunks` | doProlog with all its roles, storeEntityValue, defineAttribute, doIgnoreSection, parameter entities, external subset; XML_ExternalEntityParserCreate for parameter entities with its processors; invariants of the tables |
| `PrologFwd`, `PrologReach`, `EntNorm` | the tokens of each piece of markup in the prolog; runs of the loop of `doProlog`; entity values |
| `DeclSpec`, `DoctypeSpec`, `DeclRun`, `DeclAtt`, `DeclElem`, `DeclThm`, `DoctypeRun`, `PrologStart`, `XmlDeclRun`, `DocStart` | grammar of the prolog with what is reported and declared (specification); runs of the loop over each declaration, over the whole prolog, over the XML declaration; detection of the encoding |
| `PrologLex`, `PrologInv`, `ConvLegal`, `DeclInv`, `AttInv`, `ElemInv`, `SubsetInv`, `DoctypeInv`, `StartInv` | what each token of the prolog is written as; runs of the loop of `doProlog` backwards: a prolog that is accepted consists of declarations |
| `EventText` | texts built by doContent, storeAtts, doCdataSection are legal UTF-8 |
| `Handlers` | content with any set of handlers against content with all of them |
| `ApiDoc` | whole documents through the API model (XML_Parse, reset, buffers) |
| `Copy`, `CopyJoin`, `CopyRun` | what the default handler is passed, token by token |
| `EntityParser`, `EntityStart`, `EntityRun`, `EntityDecl`, `EntityContent` | parsers for external general entities (3459-3580, 1938-2032) |
| `PrologFrozen`, `DeclStop` | declarations after the switch; prologs that end with an error (C67, C68) |
| `SubsetSpec`, `SubsetSect`, `SubsetChild`, `SubsetThm`, `SubsetDoctype`, `SubsetProlog` | external subsets, external parameter entities and foreign DTDs that the application reads (C69, C70): specification; conditional sections; the parsers for them; declarations; document type declaration; prolog |
| `Transcode`, `TranscodeContent`, `TranscodeProlog`, `TranscodeEnc` | the same code points in two encodings (C71): pairs of encodings; content; prolog; the built-in encodings |
| `NoPanic`, `NoPanicVal`, `NoPanicRole`, `NoPanicProlog`, `NoPanicDoc` | no internal errors and no panics (C72): content; attribute and entity values; roles and literals; the prolog; whole documents |
| `Located`, `LocatedToks`, `LocatedPlaces` | `m_eventPtr` and `m_eventEndPtr` while content is parsed (C73): the loops with places, erasure and independence of cuts; the token each call belongs to, the order of the places, errors; the pointer moves within a token |
| `CharCut`, `Lines`, `LinesRun` | line and column numbers while content is parsed (C74): every token ends between two characters and not between `\r` and `\n`; positions add up along such places; the stored position (`m_position`, `m_positionPtr`) through handler calls and calls of XML_Parse |
| `Echo`, `EchoConv`, `EchoRun` | XML_DefaultCurrent while content is parsed (C75): the bytes between the event pointers in each call; conversion of text cut between characters; tokens, runs and documents |
| `Canon`, `CanonThm`, `CanonDoc` | the output of `xmlwf -d` (C76): its handlers; escaped text, values, processing instructions and elements are tokens of the grammar again; prologs, epilogs and documents |
| `Suspend`, `SuspendThm` | handlers that suspend the parser while the text of an entity is parsed (C78): the list of open entities, `internalEntityProcessor`; suspending and going on is not suspending, for one call |
| `Xmlwf`, `XmlwfThm` | how `xmlwf` reads files (C79): `processStream`, `processFile`, `filemap`, XML_ProcessFile, the loop over the files, `resolveSystemId` on C strings in memory; reading in pieces through XML_GetBuffer does what XML_Parse does |
| `RawNames`, `RawNamesThm` | the tags of open elements as they lie in memory (C80): `rawName` a pointer into the parse buffer or into the buffer of the tag, `storeRawNames`, the pointers into a buffer that is moved; the parser on pointers beside the parser on copies |
| `Clone`, `CloneThm` | the DTD as a structure with pointers, what fills its tables, and its copy for a parser of an external general entity (C81): `DTD::try_clone`, `copyEntityTable`, the move to the heap |
| `UriBuf`, `UriBufThm` | the buffers of namespace URIs in which names of elements are composed (C82): `addBinding` with `m_freeBindingList`, the end of `storeAtts` with the move of a buffer, the end tag, against an arbitrary allocator |
| `ApiHeard`, `ApiHeardThm` | the processors of a whole document with handlers that may stop the parser at any call (C83), as an engine under the API model |
| `PrologUnread` | parameter entities that are not read stay unread throughout the prolog, and the start of the root element calls no handler |
| `ApiAbort` | the engine of `ApiHeard` compared with the uninterrupted processors when handlers do anything at all (C84) |
| `Props/Cnn` | the property theorems, each with its specification and a concrete case |
| `Audit` (generated) | fails to compile unless each theorem named in MANIFEST.json exists and uses no axiom but the three standard ones |

Not modelled: the `unicode`, `unicode_wchar_t` and `mozilla` features (`utf16Convert`); allocation failure and
the accounting of bytes; `XML_SetUserData`, `XML_FreeContentModel`, `XML_MemMalloc`
and the like; hash seeds and the hash tables (finite maps here, any iteration order where order matters);
handlers that change the set of handlers during a call, handlers that stop the parser within the text of a parameter entity; xmlwf but for the handlers of `-d` (C76) and the reading of files (C79); the test programs.

## 4. Per-property plan

| id | modelled / proof idea |
|---|---|
| C01 | `is_invalid_char` bit tests vs. an independent scalar-value decoder; case analysis on byte ranges; the scanners on well-formed text followed by an ill-formed sequence (`Props/C01Doc.lean`), the content processor in any state, whole documents through the grammar's completeness and C04 |
| C02 | fun_induction over every scanner: offset bounds |
| C03 | fun_induction over every scanner: result unchanged under `++` |
| C04 | content machine; induction over chunks using C03 and a data-splitting lemma |
| C05 | data runs never contain `]]>`; induction on contentTok loop |
| C06,C07,C08 | scanner = grammar, both directions, by induction |
| C09 | digits folded as in the code vs. positional value; overflow-free invariant `< 0x110000*16` |
| C10 | decision logic, generic in encoding |
| C11 | arithmetic on div/mod, decoder as spec |
| C12 | converters as loops with output budget; refinement to `List.flatMap` of per-character encoding |
| C13 | byte-swap simulation; negation witness for U+0080..U+00FF in BE |
| C14 | spec function over the text; induction |
| C15 | spec counts; additivity by induction; negation witness for CR/LF split |
| C16,C17,C18 | decision logic / grammar parsing |
| C19 | pool model; negation witness |
| C20 | validation decision logic + conversion |
| C21-C24 | role machine invariants by induction on token lists |
| C25 | scaffold building vs. tree; induction on trees |
| C26,C27 | tag-stack invariant over content events |
| C28,C29 | attribute list processing; negation for triplets |
| C30 | decision logic |
| C31 | binding stack refinement to functional environments |
| C32 | print/parse round trip |
| C33 | normalisation vs. spec |
| C34,C35 | entity graph: termination measure = number of closed entities; equals substitution |
| C36 | first-wins map |
| C37 | normalisation spec |
| C38-C42,C45,C46,C49 | API state machine with abstract processor; invariants over op lists; negations where the code is wrong |
| C43 | pool refinement to list of strings |
| C44 | nesting counter spec; negation for `]]]>` |
| C47 | table check over the BMP, lifted; UTF-8/UTF-16 index arithmetic |
| C48 | composition of scanner completeness lemmas |
| C50 | decision table |
| C51 | trim on well-formed text |
| C52 | negation witness (`<` C3 28 `>`), partial for well-formed input |
| C53 | scanners against the tag productions, both directions |
| C54 | decision table over declared and detected encodings |
| C55 | grammar refinement of the whole content loop, both directions, any chunking |
| C56 | entity-value processors of child parsers; negation witnesses, partial for delivery in one call |
| C57 | the prolog loop with and without more input; `split` by induction over the input, white space (whose token ends where the buffer ends) cut by a lemma of its own, IGNORE sections by the automaton; composed with C04 for whole documents |
| C58 | `Repl`, an inductive reading of XML 1.0 section 4.5 off the characters of the literal; the loop of `storeEntityValue` one character or reference at a time (`EntNorm.lean`); both directions for the document's internal subset, completeness with parameter entities; the recursion is no deeper than the number of parameter entities |
| C59 | `DeclSpec.lean`, `DoctypeSpec.lean`: an inductive grammar of the prolog that says for each text what is reported and declared; forward lemmas for the prolog tokenizer (`PrologFwd.lean`), one lemma per declaration for the loop of `doProlog` together with the grammar machine and the tables (`DeclRun`, `DeclAtt`, `DeclElem`, with the simulation of C25 for content models), induction over the nesting of parameter entities (`DeclThm`), the DOCTYPE declaration (`DoctypeRun`), cuts by C57. The external subset is not read here (parameter-entity parsing off, or no handler); PE references inside declarations are not allowed in the internal subset (XML 1.0, 2.8) |
| C60 | `Found` (byte order marks and first characters), `Head` (the declaration of C18 and which encoding follows, `NextEnc`), `PrologText` of C59 and `Document` of C55 composed: detection is stable under cuts (`DocStart`), the declaration is one token and one step of the loop (`XmlDeclRun`), then `run_prolog`, then C55, with C57 for the cuts. The XML declaration handler is told the version string that the code produces (`versionTold`; it is wrong, see C19). Any handlers may be set (`C64.full`, `wants`); encodings the application supplies are excluded. |
| C61 | the converse of C60: `only`, `accepted_iff`, `refused`. Every token of an accepted prolog is one of the lexemes of `PrologLex` (tokenizer backwards), every state of the role machine admits only the tokens the grammar has there (`*Inv`), and the declarations read so far stay within the invariants the next step needs (`TextsOk`: replacement texts are legal text, `decl_keeps`); the state after each step is the one the forward runs of C59 compute. Scope: parameter entities not read (`start cur .never`, the setting after creation), no unknown-encoding handler, whole code units, less than 2^31 bytes (lengths of literals and content models are `int`s), first bytes as `Found` has them (a white-space character in UTF-16LE without mark is detected differently depending on the cut, see C53). |
| C62 | `reported_legal`: an invariant of `run` over any semantics (`run_events`), then of each branch of doContent, doCdataSection, epilogProcessor: data tokens, comments, PIs by what the tokenizer accepts (`data_*`, grammar of C43/C53), converted text by `ConvLegal`, references by the table of predefined entities and C07, attribute values by C33's `Norm`, at any depth of entities. `prolog_legal`: what the grammar of C59 reports is legal, and so are the entity texts and default values it stores; `document_legal` joins the two for whole documents from the first byte, accepted or not; `prolog_all` (Props/C62Prolog.lean): the prolog's own calls whatever becomes of the document, by an invariant over the tokens of every prolog run (LegalProlog, LegalRounds, LegalRun: identifiers waiting to be reported, the pool under construction, entity tables), also when an entity value has an error after part of it was reported; `prolog_heard`: the same through the grammar. Names are C52. |
| C63 | `ApiDoc.lean`: the processors of a whole document (`turn`: detection, prolog, content) as an `Engine` for the API model, with the handler calls so far as history. `goes`: one processor call is the first step of `C60.parse`; `path_told`: by induction over the calls, statuses, error code and handler calls of XML_Parse are those of `C60.parse` on the non-empty pieces (so all theorems C55-C62 are about XML_Parse). `documents`, `nothing_else`, `accepted_iff`, `after_reset`, `text_legal`; `path_exists`: the calls return. Limits: handlers that stop the parser are in C40/C41; a panic in the prolog (C18) appears as an error with stage `dead` |
| C64 | `Handlers.lean`: for content, a simulation (`Same`) of the parser with any handlers by the parser with all of them (`full c`), over `toChars`, bindings, attributes, tags, references, tokens, calls (`feed_same`): equal outcome, and the calls are those of the full parser for which there is a handler (`wants`). With this C55, C60, C61 and C63 hold for any set of handlers. For the prolog, the specification of C59 is shown to give agreeing calls for two sets of handlers (`twin_decl`, ..., `twin_prolog`), by induction. `independent` joins them through C63; `content_independent` covers documents that fail after the prolog. Treated as settings, not as handlers: unknown encodings, not-standalone, answers of the external entity handler, the unparsed-entity handler (without it the entity declaration handler gets its calls), and XML_SetDefaultHandler, which stops the expansion of entities. Not claimed: equal error codes for prologs that fail |
| C65 | `Copy.lean`: for content, each branch of `act` passes the text of its token to the default handler once (`Passes`), by induction over runs and calls (`eats_feed`); for the prolog the same for each branch of `pact` (`Leaves`, `leave_*`), with the invariants that make it so without other handlers (`Quiet`: the name of the document type, of a notation and parameter entities are never kept; `Late`: after the first token no XML declaration). `CopyRun.lean`: the XML declaration, which changes the encoding half way (`Begins`, `start_call`), nothing is left over in a final call (`feed_end`), documents (`whole_start`). `Recodes` is the specification of the recoding. `copied` joins it with C63. In UTF-16 the recoding of the parts is the recoding of the whole only if no character is cut: `CopyJoin.lean` shows from `CharCut.lean` (C74) and `EchoConv.lean` (C75) that no token cuts one (`joins_all`), also of ignored sections. `copied_bytes`: the documents that come back byte by byte; `copied_utf16`: well-formed UTF-16 that is accepted. |
| C66 | `EntityParser.lean`: the three init processors of a general-entity parser, calls of XML_Parse in pieces, creation from a context. `EntityStart.lean`: detection (`Detected`, independent of `initScan`); `EntityRun.lean`: by induction over the pieces the parser detects, waits and reads the declaration wherever the text is cut; `EntityDecl.lean`: the text declaration forwards (C18, C19, C54) and backwards; `EntityContent.lean`: content for any handlers (C04, C55, C64), congruence in the set of open entities. `Props/C66.lean`: `ParsedEntity` is the specification, `accepted_iff` both directions with what is reported, `from_context` composes it with C32. Not modelled here: suspension in the XML declaration handler; XML_ParseBuffer with no bytes before the first ones (see section 5); in namespace mode a parent that has met an attribute `xmlns` (finding 17). |
| C67 | `PrologFrozen.lean`: a relation (`Freeze`: tables unchanged, no declaration reported, the flag stays off) shown of every action, then of whole runs, expansions and child parsers by the induction principle of `PrologInd.lean`; `ref_dropped` computes the reference itself |
| C68 | `DeclStop.lean`: runs that end with an error (`Stops`), composed with the `Reach` of C59; `Bad`, an inductive description of refused texts over the grammar of C59; induction over it (`run_bad`) |
| C69 | `SubsetSpec.lean`: the grammar of C59 extended by conditional sections, references to external entities and what the application has for them (`XDecls`, `XDoctype`, `XPrologText`); an application as a function from requests to pieces (`docs`), the handler made from it with `childParse` (`resolver`); induction over `XDecls` (`run_xdecls`), the child parser's pieces joined by C59's lemmas for cuts (`child_pieces`); `parsed` as C60 |
| C70 | instances of C69 for documents without a document type declaration (`XClose`), with the calls written out |
| C71 | `same`: the grammars of C55, C59, C60 are carried from one encoding to the other (`Same.document`, `Same.prolog`, by induction over the grammar), given for a pair of encodings only that both write each code point in one way, that ASCII is what it is, and that name start and name characters are the same code points in both (`Pair`; `C71.pair` for the built-in encodings from C47, C48). With C60 and C61 in both directions acceptance, declarations and calls agree. An XML declaration can be read in one way only (`head_unique`). `odd_differs`: the exception for U+00AA is needed. Scope as C61 |
| C72 | `outcome`, `panics_iff`, `calls_outcome` (the calls of XML_Parse, via C63): an invariant of the content engine (`Sane`: as many open elements as the level, prefix flags only on names with a colon; `feed_inner`), of entity and attribute values even where the literal is cut off by the end of the document (`Wh`, `store_ev`, `store_wh`), of the prolog (`Calm`: the grammar machine is in a state of the document entity, the content-model builder in a state of C37's invariant, all entity texts are legal; `pact_fine`, `prun_fine`), combined over the calls of XML_Parse (`document_fine`, `parse_fine`). The one panic is C18's; `long_panics` shows that it happens, in any pieces, for all these documents. Panics of the Rust code are modelled where the model says so (indexing in the tag stack, scaffold and group connectors, `negate`, conversions, `normalizeLines`); not allocation failures. Scope: document entity, parameter entities not read, no unknown-encoding handler, no stopping |
| C73 | `runAt` is `run` with the byte index `m_parseEndByteIndex - (bytes left)` at each token and `places` for the pointer moves inside a token; `calls`: without the places it is the parser of the other properties; `cut_free`: places do not depend on the cut (C04's argument again, on located runs); `stands`: at each place there is the markup reported, in the productions of C53/C54; `has_place`, `in_order`; `error_stands`. Not modelled: the places of text (pieces), and where the pointer is after an error in an attribute (hence of `endNamespaceDecl` calls made while such an error is returned) |
| C74 | `feedLines` is `feedAt` with the stored position, moved by the two functions (when an arbitrary predicate says the application asks) and at the end of each call of XML_Parse; specification `PosAt`: the lines and columns of C15 counted over the whole document. `lines_partial`: what is told is `PosAt` of the byte index of C73, and nothing panics, if no call ends within `\r\n` after the root element; `cut_matters`: otherwise it is false. Not modelled: asking in calls for text and in the prolog |
| C75 | `feedShown` is `feed` with, for every call, the bytes between `m_eventPtr` and `m_eventEndPtr` (`eaten`: in content the end pointer is where the converter stopped; `toEnd`: in CDATA sections it is the end of the token; an empty tag's end has no bytes if its start was reported); `same_calls`: it is the run of the parser. Specification: `Recodes` (identity; one code point per byte; UTF-16 to UTF-8). `echoed_partial`: what the default handler is given adds up to the content, by showing that every token ends between characters and that conversion is additive there (`EchoConv`); excluded are lines of more than 1024 converted bytes, because of `cdata_twice`. `echoed`: no exception for UTF-8 and US-ASCII. |
| C76 | `Canon` models the handlers of `xmlwf -d` (`put`). `content_again`, `document_again`: for each construct of the grammar of C43/C61 the text written is again derivable in the grammar, for UTF-8 and no declarations, with the same calls (`Again`, by induction over derivations); with C61 `documents` (grammar = parser) this gives `canonical`. `says`: the calls without comments, declarations, the division of text and the order of attributes; `compares`: outputs are equal exactly if `says` is. `in_order`, `order_free` say in terms of lists of bytes what the order of attributes is. Condition `Named`: names of XML 1.0 (`ex_refused`: needed). |
| C77 | `inputContext` on the parser of `Api`; with the tape of C41 (`Holds`) the buffer is the end of what was supplied: `after` (between calls), `during` (in a handler, C46 `inHandler`). How much there is before the event: invariant `Full` (1024 bytes before `start`, or all), kept by every call for which the buffer is not made larger while it is empty (`Kept`, `kept`), hence `before_partial`. Without the condition false of the code: `forgotten` (the condition is exact), `context_lost` (witness). |
| C78 | `Suspend` models the list of open entities, `processInternalEntity` with handlers that stop the parser, and `internalEntityProcessor`, as an engine under the API of C38–C40. `resume_partial`: for entities whose texts do not refer to internal entities (`Flat`), suspended once in the final call: same calls, same outcome, or the parse without suspension fails; by induction over runs (`run_tellsS`, `internal_tells`), on top of `run_tells` of C40. `well_formed_partial`. False of the code otherwise: `nested_lost`, `nested_recursive`, `nested_fails`, `cdata_as_markup`, `accepted`. |
| C79 | `File`: what open, fstat and read give (`IsFile`: a file without errors, in any portions). `stream_agrees`: the loop of `processStream` beside calls of XML_Parse on the same portions, by induction, through the queue of C41 (both calls do the same to it); so C63 applies: `verdict`, and with C76 `output`. `exits`: induction over the files of a command. `read_all`: no success for a file not read to its end, for any engine. `resolves`: `strcpy`, `strrchr` on memory, no write beyond it. Not included: XML_ErrorString and the position in the message (C46, C74), `-x`, `-p`. |
| C80 | `PTag`: buffer, address, offsets; `ptrSem` runs the parser of `Parser.lean` on the names as the pointers show them and forgets the copies (`blank`). `act_tags`: a token pushes, pops or leaves the stack, entities included (by `Compositional`: the bottom of the stack is untouched while an entity is parsed). `store_ok`, `storeAll_ok`: after `storeRawNames` every tag shows the same whatever the memory; it may stop at the first stored tag because stored tags lie below (`Stacked`). `run_sees`/`feed_sees`: simulation by induction over the input; `documents`, `entities`, `unobservable`, `kept`, `stored`; `needed`: without storing a document is refused. Failing allocations are not modelled; that names copied from entity texts do not move while the entity is parsed is taken from the code. |
| C81 | `DTD`: tables as lists in any order of iteration, pointers to entries as keys, a pointer to the field `defaultPrefix` as the address of the DTD; `Built`: the DTDs that declarations, tags, entities, changes of the cells and earlier copies can build. `Built.closed`: keys are distinct and every pointer leads into the DTD (induction over `Built`). `copyAtts_eq`, `copyElems_eq`, `copyEntities_eq`: the loops are maps when keys are distinct, the cache of the last base never shows a wrong one. `knows_partial`: the child exists and agrees with the parent on everything but the attribute `xmlns`; `knows_unmoved`: with the copy built in place the full claim holds; `default_lost`, `wrong_namespace`: as it is, it is false whenever the parent has met `xmlns`. Writing through the dangling pointer is modelled as without effect on the parser (in fact it is undefined behaviour). `Built.inherited` makes children parents again, as long as `xmlns` was not met before (`Closed.child`). Not modelled: failing allocations. |
| C82 | `UState`: memory by address, bindings with `uri`, `uriLen`, `uriAlloc`, `prevPrefixBinding`, the free list, pointers of prefixes, open tags with `name.str` as an address; `Heap`: any allocator that does not give out a buffer in use, with any bytes in it; a write outside of a buffer is the outcome `overflow`. Specification `SState`: environments and `elemName`/`expanded` as in C29–C31, no memory. `Inv`: free and used bindings are disjoint, addresses distinct, each pointer leads to a used binding that holds its URI, undoing the bindings of the open tags gives the environments around them, and each open tag has room for its name; kept under `Frame` (bindings keep what they hold, perhaps at another address). `addBind_ok`, `grow_ok`, `place_ok`, `rewrite_ok`, `release_ok`; `names` by induction over the tags; `no_overrun`, `paired`; `needed`: without writing the name again at the end tag it would be wrong. The tags are given as declarations, attribute names and raw name (that the tokenizer delivers them is C53/C28); that `localPart` goes on pointing to the local part is C80; NULs do not occur (C62). Failing allocations are not modelled. |
| C83 | `hturn`: the processors of C63 with the application's state and `m_parsingStatus` carried along, looked at where the code looks at it (after each token of the prolog; not between prolog and content; not between an ignored section and the prolog). `hcall_means`, `content_halts`: a suspended call followed by a second call of the same processor is one call without suspension. `resume_partial`: any pieces, suspended once in the last call, resumed: same handler calls and error as a path of C63. `asked`: XML_Parse returns XML_STATUS_SUSPENDED exactly if a handler called in it asked for that. Missing because false: `rejected` (not the last call: a well-formed document is rejected), `stuck` (twice: the end of the prolog is read again as character data). Outside the theorem: suspension within the text of entities (C78 for content) |
| C84 | `hturn_first`: whatever the handlers ask for, a turn of the processors with handlers calls a prefix of what the uninterrupted turn calls, and its error is XML_ERROR_ABORTED or that of the uninterrupted turn. `ended_partial`: for XML_Parse in any open state; and if one of the handlers called ended the parse, no path of API calls without XML_ParserReset calls a handler again (`over_silent`, by induction on the path, from the queue machine of C43). `noticed_partial`: that call returns XML_STATUS_ERROR unless the parser is left within an ignored section or a CDATA section (`hrun_noticed`, `hrun_root`, `run_noticed`; no handler is called at the start of the root element, `start_silent`). Missing because false: that the call returns an error in all cases (`unnoticed`) and that no further handler is called in it (`one_more`). Not covered: stopping within the text of an entity; parameter entities or a foreign DTD that are read |

## 5. Known disagreements between code and intended behaviour

(found while reading; each is to be shown by a theorem with a concrete witness)

1. `resumeParser` (xmlparse.rs:2938-2979) never advances `m_bufferStart`; bytes handled
   during a resume are handled again by the next parse call.  On a fresh parser,
   stop(resumable) + resume indexes an empty vector and panics.  In the prolog the bytes are
   read again in the state reached by then: a well-formed document is rejected
   (`C83.rejected`), the end of the DTD becomes character data (`C83.stuck`).
2. `XML_GetCurrentLineNumber`/`ColumnNumber` (3100-3140) unwrap `m_positionIdx`, which
   `getBuffer` sets to `None` when it has to reallocate.
3. `storeAtts` (4519-4548): with triplets on, the duplicate check looks up a different key
   from the one inserted.
4. `processXmlDecl` (5255-5285): version and encoding share one unfinished pool string;
   the version reported is the encoding name.
5. Not-standalone handler is invoked for internal parameter entities and twice for
   external ones (5597-5641).
6. UTF-16BE `byte_type` (xmltok.rs:1019) indexes with a sign-extended byte: panic for
   U+0080..U+00FF.
7. Names: `is_name_char` does not validate trail bytes (as in upstream before 2.4.5), so
   ill-formed UTF-8 is accepted in names.
8. `ignoreSectionTok` misses the close in `]]]>` (as upstream).
9. UTF-16: an unpaired high surrogate followed by any unit is accepted (as upstream).
10. Line counting: a chunk boundary between CR and LF in the epilog counts two lines (as upstream; C74 `cut_matters`).
11. External parameter entities in entity values (5428-5567): `buf` is moved by the scanning loop and the moved
    pointer is handed on, so text is lost when the entity arrives in several calls or after a text
    declaration (C56; upstream keeps a separate `next` and `s`).  A byte order mark stays in the value, and a text
    declaration without version is refused there (both as upstream).
12. `m_tempPool` keeps the beginning of an enumerated attribute type if processing of declarations is switched
    off inside it (`<!ATTLIST e a (x|%undefined;y) "d"><!-- c -->` in an external subset with the attribute
    and comment handlers set); the next comment, PI target or notation name is delivered with that text in front
    (as upstream).
13. An encoding name of exactly 127 characters in an XML declaration makes `findEncoding` panic (C16, C18).
14. A single first byte can be decided as UTF-8 although the next byte selects UTF-16LE (C17).
15. `XML_GetCurrentByteIndex` panics at the end of a full buffer; position queries panic after XML_GetBuffer moved
    or reallocated the buffer (C45).
16. `XML_ParserReset` forgets the unknown-encoding handler although the documentation says handlers are kept, and
    unwraps `Rc::get_mut` of the DTD, which panics while a child parser shares it.
17. `DTD::try_clone` stores the address of a local's `defaultPrefix` (dangling after the move) in child parsers
    for general entities.  (Not expressible here: the model has no addresses.)
18. A reference `%a;` inside the declaration of `a` itself calls the external entity handler without system
    identifier (as upstream).
19. Element declarations in a child parser that runs inside an element declaration of its parent disturb the
    shared scaffold.
20. VersionNum as checked by the code disallows `:` and allows the empty string (C18).
21. Latin-1 and UTF-16 documents accept U+00AA, U+00B5, U+00BA in names, UTF-8 documents do not (C47).
22. `]]` at the end of an internal entity followed by `>` in the document is accepted (as upstream).
23. With namespace processing the tokenizer of the prolog accepts `a:1` as a prefixed name: what follows the
    colon need not begin with a name start character (as upstream; in content it is refused).  The grammar of
    C59 and C60 (`DName`) says so.
24. XML_ParseBuffer with no bytes, not final, as the first call on a parser for an external general entity: the third
    init processor sees no token and installs the content processor, with the encoding not yet detected and a text
    declaration not expected any more; a byte order mark or text declaration that follows is mishandled (as upstream).
    XML_Parse returns before that.  C66 is about XML_Parse.
25. A reference to an internal parameter entity between declarations inside an INCLUDE section of the external subset fails
    with INCOMPLETE_PE (as upstream at that version).
26. The attribute-list handler is called for a second declaration of the same attribute, which is not used (as upstream).
27. XML_Parse with no bytes, not final, returns OK also after an error (as upstream).
28. XML_ParserReset keeps the final-buffer flag and the index of the ID attribute until the next parse sets them.
29. With an unparsed-entity handler unset and an entity-declaration handler set, unparsed entities are reported to the latter
    (as documented upstream).
30. `paramEntityRead` is shared by all parsers of a document: when the last external reference inside an external entity is not
    read by the handler, the entity itself is taken for one that has not been read (declarations after it do not count unless the
    document is standalone, the not-standalone handler is asked once instead of twice; for a foreign DTD it is forgotten that
    there was one).
31. The not-standalone handler is asked twice for every external parameter entity that is read.
32. A foreign DTD that is not asked for (no parameter entity parsing, or no handler) still counts as "has parameter entity
    references": undeclared entities in the content are skipped, not refused.  When it is asked for and not read they are refused.
33. `entityValueInitProcessor` treats the start of an external entity used in an entity value as that of a document: an XML
    declaration with standalone="yes" there sets the flag of the document.
34. In a CDATA section whose text is converted, `*eventEndPP` is the end of the token in every call for it (4991; in content it is
    where the converter stopped, 4154): the byte count is too large in all calls but the last, XML_DefaultCurrent passes on the
    rest of the text each time, and in doing so overwrites `m_dataBuf`, that is, the string the handler was given (C75
    `cdata_twice`; the pointers as upstream).
35. A final `]` in content leaves `next` unset (4104-4121): the byte count is 0 and XML_DefaultCurrent passes on nothing.  It is
    followed by an error in a document.
36. A UTF-16 document that ends with `\r` and an odd byte after its root element is accepted; the odd byte is ignored (C75 has
    whole code units as a condition for that reason; with any other end the odd byte is an error).
37. In converted encodings `reportDefault` may split `\r\n` into two calls (at 1024 bytes).
38. The entity-declaration handler is called with the part of the value read so far when the value of the entity has an error,
    which is then reported (5879-5900; as upstream).
39. An undefined parameter entity referred to in an entity value, inside the text of a parameter entity, ends the value there
    without an error.
40. After an error in `storeAtts` for a start tag the bindings made for it are not undone (the parser is of no further use then).
41. After XML_StopParser in the start-of-CDATA handler one more token is processed before the parser stops (as upstream).
42. `reportDefault` unwraps the default handler for every 1024 bytes: a default handler that unsets itself makes it panic.
43. `latin1_toUtf16`, `utf16Convert` (feature `unicode` only): an inverted condition and a missing `inc_start`.
44. A document in UTF-16 whose last character is `\r` may be followed by one stray byte, which is neither read nor reported (`C65.ex_odd`); after any other character it is UNCLOSED_TOKEN.  The same text in two calls, the second with the stray byte alone, is refused.
45. The encoding declaration of a document in UTF-16 may name the other byte order, and the parser follows it although the declaration was read (`Head`, C60; hence the last hypothesis of `C65.copied_utf16`).
46. FINISHED parsers still accept handler settings and XML_SetParamEntityParsing (2543-2558: only PARSING and SUSPENDED are blocked; XML_ParserReset then sets it to NEVER again, 1804, so that it has no effect).
47. The grammar machine's `error` state answers `NONE` for every token (xmlrole.rs `error`), so that after an error in the prolog only the processor `errorProcessor` prevents more tokens from being accepted.
48. xmlwf: `nsattcmp` looks for the separator of the second name in the first (xmlwf.rs:202-211), so that with `-n` attributes may be written in another order; not modelled.
49. The output of `xmlwf -d` for a document in ISO-8859-1 with the letters ª, µ, º in names is refused by the parser, since these bytes are name characters in ISO-8859-1 but not in UTF-8 (`C76.ex_refused`, cause in C47).
50. `m_groupSize` is doubled with `wrapping_mul` (6420-6426) and `build_model` computes a size in `c_int` (8281-8286): content models with 2^31 levels, or of 2^31 bytes, would overflow.  Read in the code, not modelled (sizes are unbounded in the model).
51. `attributeValueTok` and `entityValueTok` (xmltok_impl.rs:1283, 1358) skip sequences of several bytes without checking them; what they are given was checked when the literal was read.
52. `getBuffer` (xmlparse.rs:2828-2835) takes a buffer in which everything was consumed for "a brand new buffer" when it has to make it larger, and forgets the up to 1024 bytes of context it has just counted in `neededSize`: XML_GetInputContext then has nothing before the new bytes (`C77.forgotten`, `C77.context_lost`).
53. Suspended in an entity that is referred to in the text of another entity, the parser does not come back to the other entity: after the inner one `internalEntityProcessor` (xmlparse.rs:7103-7131) goes on with the document. The rest of the outer text is lost, and the outer entity stays open, so that another reference to it is refused as recursive (`C78.nested_lost`, `C78.nested_recursive`). If nothing is left of the outer text, the outer entity is closed and the inner one drops off the list with it (7036), and XML_ResumeParser fails with UNEXPECTED_STATE (`C78.nested_fails`).
54. Suspended in a CDATA section in the text of an entity, the rest of the section is read as markup: `processInternalEntity` replaces `cdataSectionProcessor` by `internalEntityProcessor`, which calls `doContent` (`C78.cdata_as_markup`).
55. Suspended at the end of the text of an entity, the test that elements end in the entity they begin in is skipped: documents that are not well-formed are accepted (`C78.accepted`).
56. `internalEntityProcessor` calls `doContent` on the document without `storeRawNames` afterwards, unlike `contentProcessor` (3441-3465): if that call returns before the end of the document, names of open elements still point into the input buffer (`C80.needed` shows what follows: the end tag is refused once the buffer is overwritten).
57. `DTD::try_clone` (1217-1218) gives the copied attribute `xmlns` the address of `defaultPrefix` in its local variable `newDtd`, which is then returned and moved into an `Rc` (1948-1954). In the parser for an external general entity the pointer dangles: a declaration `xmlns="v"` there writes to dead stack memory and does not set the default namespace, so elements are reported in the inherited one; a parser created from that parser reads the dead memory (`(*oldA.prefix).name`). `C81.default_lost`, `C81.wrong_namespace`. The parsers of C32 and C66 have an environment in place of pointers and do not show it: what they say of namespaces in an external general entity presupposes that the parent has not met an attribute named exactly `xmlns` (or that this is repaired).
58. After the handler for the start of a CDATA section `doContent` (4072-4103) goes on into `doCdataSection` without looking at `m_parsingStatus`. If that handler ends the parse, the text of the section is still reported (`C84.one_more`); if the call's input ends right after `<![CDATA[`, XML_Parse returns XML_STATUS_OK with the parser finished, and the next call returns XML_ERROR_FINISHED instead of XML_ERROR_ABORTED (`C84.unnoticed`). libexpat has the same code.
