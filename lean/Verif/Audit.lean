import Lean
import Verif.Additive
import Verif.Api
import Verif.ApiAbort
import Verif.ApiContent
import Verif.ApiDoc
import Verif.ApiHeard
import Verif.ApiHeardThm
import Verif.ApiPath
import Verif.ApiQueue
import Verif.ApiRan
import Verif.ApiThm
import Verif.AttInv
import Verif.AttNorm
import Verif.Atts
import Verif.AttsLemmas
import Verif.Basic
import Verif.Canon
import Verif.CanonDoc
import Verif.CanonThm
import Verif.CdataRuns
import Verif.CharCut
import Verif.Chars
import Verif.Chunks
import Verif.Classes
import Verif.Clone
import Verif.CloneThm
import Verif.Coding
import Verif.Content
import Verif.ContentData
import Verif.ContentItems
import Verif.ContentRuns
import Verif.ContentScaf
import Verif.ContentThm
import Verif.ContentToks
import Verif.ContentZip
import Verif.Context
import Verif.ConvChars
import Verif.ConvLegal
import Verif.Convert
import Verif.Copy
import Verif.CopyJoin
import Verif.CopyRun
import Verif.DataRuns
import Verif.Decl
import Verif.DeclAtt
import Verif.DeclElem
import Verif.DeclInv
import Verif.DeclLemmas
import Verif.DeclRun
import Verif.DeclSpec
import Verif.DeclStop
import Verif.DeclThm
import Verif.DocStart
import Verif.DocThm
import Verif.DoctypeInv
import Verif.DoctypeRun
import Verif.DoctypeSpec
import Verif.Document
import Verif.Echo
import Verif.EchoConv
import Verif.EchoRun
import Verif.ElemDecl
import Verif.ElemInv
import Verif.ElemReach
import Verif.ElemSim
import Verif.Encodings
import Verif.EntNorm
import Verif.Entity
import Verif.EntityContent
import Verif.EntityDecl
import Verif.EntityParser
import Verif.EntityRun
import Verif.EntityStart
import Verif.EventText
import Verif.GetAtts
import Verif.Grammar
import Verif.Handlers
import Verif.LegalProlog
import Verif.LegalRounds
import Verif.LegalRun
import Verif.Lines
import Verif.LinesRun
import Verif.Locality
import Verif.Located
import Verif.LocatedPlaces
import Verif.LocatedToks
import Verif.NameTables
import Verif.Names
import Verif.NoPanic
import Verif.NoPanicDoc
import Verif.NoPanicProlog
import Verif.NoPanicRole
import Verif.NoPanicVal
import Verif.Parser
import Verif.Prolog
import Verif.PrologActs
import Verif.PrologChild
import Verif.PrologChunks
import Verif.PrologFrozen
import Verif.PrologFwd
import Verif.PrologInd
import Verif.PrologInv
import Verif.PrologKeep
import Verif.PrologKeeps
import Verif.PrologLex
import Verif.PrologReach
import Verif.PrologRoles
import Verif.PrologStart
import Verif.PrologToks
import Verif.PrologUnread
import Verif.Props.C01
import Verif.Props.C01Doc
import Verif.Props.C02
import Verif.Props.C03
import Verif.Props.C04
import Verif.Props.C04Parser
import Verif.Props.C05
import Verif.Props.C06
import Verif.Props.C06Parser
import Verif.Props.C07
import Verif.Props.C07Parser
import Verif.Props.C08
import Verif.Props.C09
import Verif.Props.C10
import Verif.Props.C11
import Verif.Props.C12
import Verif.Props.C13
import Verif.Props.C14
import Verif.Props.C15
import Verif.Props.C16
import Verif.Props.C17
import Verif.Props.C18
import Verif.Props.C19
import Verif.Props.C20
import Verif.Props.C21
import Verif.Props.C22
import Verif.Props.C23
import Verif.Props.C24
import Verif.Props.C25
import Verif.Props.C26
import Verif.Props.C27
import Verif.Props.C28
import Verif.Props.C29
import Verif.Props.C30
import Verif.Props.C31
import Verif.Props.C32
import Verif.Props.C33
import Verif.Props.C34
import Verif.Props.C35
import Verif.Props.C36
import Verif.Props.C37
import Verif.Props.C38
import Verif.Props.C39
import Verif.Props.C40
import Verif.Props.C41
import Verif.Props.C42
import Verif.Props.C42Doc
import Verif.Props.C43
import Verif.Props.C44
import Verif.Props.C45
import Verif.Props.C46
import Verif.Props.C47
import Verif.Props.C48
import Verif.Props.C49
import Verif.Props.C50
import Verif.Props.C51
import Verif.Props.C52
import Verif.Props.C53
import Verif.Props.C54
import Verif.Props.C55
import Verif.Props.C56
import Verif.Props.C57
import Verif.Props.C58
import Verif.Props.C59
import Verif.Props.C60
import Verif.Props.C61
import Verif.Props.C62
import Verif.Props.C62Prolog
import Verif.Props.C63
import Verif.Props.C64
import Verif.Props.C65
import Verif.Props.C66
import Verif.Props.C67
import Verif.Props.C68
import Verif.Props.C69
import Verif.Props.C70
import Verif.Props.C71
import Verif.Props.C72
import Verif.Props.C73
import Verif.Props.C74
import Verif.Props.C75
import Verif.Props.C76
import Verif.Props.C77
import Verif.Props.C78
import Verif.Props.C79
import Verif.Props.C80
import Verif.Props.C81
import Verif.Props.C82
import Verif.Props.C83
import Verif.Props.C84
import Verif.RawNames
import Verif.RawNamesThm
import Verif.Refs
import Verif.Reports
import Verif.Roles
import Verif.Runs
import Verif.Scan
import Verif.ScanAux
import Verif.ScanBounds
import Verif.ScanStable
import Verif.SemInd
import Verif.Spec.ContentModel
import Verif.Spec.Lists
import Verif.Spec.NameChars
import Verif.Spec.Numbers
import Verif.Spec.Unicode
import Verif.Splits
import Verif.StartInv
import Verif.StringPool
import Verif.SubsetChild
import Verif.SubsetDoctype
import Verif.SubsetInv
import Verif.SubsetProlog
import Verif.SubsetSect
import Verif.SubsetSpec
import Verif.SubsetThm
import Verif.Subst
import Verif.Suspend
import Verif.SuspendThm
import Verif.Swap
import Verif.Tables
import Verif.Tags
import Verif.TextSpec
import Verif.Toks
import Verif.Transcode
import Verif.TranscodeContent
import Verif.TranscodeEnc
import Verif.TranscodeProlog
import Verif.Tree
import Verif.Units
import Verif.UnknownCuts
import Verif.UnknownEnc
import Verif.UriBuf
import Verif.UriBufThm
import Verif.Utf8Chars
import Verif.Utf8Lemmas
import Verif.Whole
import Verif.XmlDecl
import Verif.XmlDeclRun
import Verif.Xmlwf
import Verif.XmlwfThm

/-! Generated by tools/gen_manifest.py.  Fails to compile unless every theorem claimed in
MANIFEST.json exists and depends on no axiom besides the three standard ones. -/

open Lean Elab Command in
elab "audit " ids:ident,* : command => do
  for id in ids.getElems do
    let n ← liftCoreM (realizeGlobalConstNoOverload id)
    let some (.thmInfo _) := (← getEnv).find? n | throwError "{n} is not a theorem"
    for a in ← collectAxioms n do
      unless a ∈ [``propext, ``Classical.choice, ``Quot.sound] do
        throwError "{n} depends on axiom {a}"

audit Verif.C01.illformed_rejected
audit Verif.C01.data_wellformed
audit Verif.C01.literal_wellformed
audit Verif.C01.pi_wellformed
audit Verif.C01.comment_wellformed
audit Verif.C01.data_accepted
audit Verif.C01.ill_iff
audit Verif.C01.content_fails
audit Verif.C01.cdata_fails
audit Verif.C01.comment_fails
audit Verif.C01.pi_fails
audit Verif.C01.value_fails
audit Verif.C01.prolog_fails
audit Verif.C01.document_fails
audit Verif.C01.chunks_fail
audit Verif.C01.handlers_legal
audit Verif.C02.next_in_buffer
audit Verif.C02.progress
audit Verif.C02.reads_in_buffer
audit Verif.C02.run_bounded
audit Verif.C02.value_tok
audit Verif.C02.literal_whole
audit Verif.C03.stable
audit Verif.C03.stable_chunks
audit Verif.C03.encodings_ok
audit Verif.C04.chunks
audit Verif.C04.lawful
audit Verif.C04.sem_lawful
audit Verif.C04.parser_chunks
audit Verif.C04.parser_chunks_ok
audit Verif.C05.data_token
audit Verif.C05.close_rejected
audit Verif.C05.data_utf8
audit Verif.C06.comment_iff
audit Verif.C06.comment_utf8
audit Verif.C06.comment_parsed
audit Verif.C07.pi_iff
audit Verif.C07.pi_token
audit Verif.C07.decl_token
audit Verif.C07.reserved_rejected
audit Verif.C07.checkPiTarget_spec
audit Verif.C07.pi_parsed
audit Verif.C08.section_iff
audit Verif.C08.section_refused
audit Verif.C08.cdata_iff
audit Verif.C09.charRef_token
audit Verif.C09.charRef_dec
audit Verif.C09.charRef_hex
audit Verif.C09.no_overflow
audit Verif.C10.predefined_iff
audit Verif.C11.encode_spec
audit Verif.C11.encode_none
audit Verif.C11.decode_encode
audit Verif.C11.encode_inj
audit Verif.C11.decodeAll_encode
audit Verif.C12.latin1_faithful
audit Verif.C12.ascii_faithful
audit Verif.C12.utf16le_faithful
audit Verif.C12.utf16be_faithful
audit Verif.C12.utf8_faithful
audit Verif.C12.utf8_incomplete
audit Verif.C12.drain_prefix
audit Verif.C12.drain_all
audit Verif.C12.loop_independent
audit Verif.C12.uniform_latin1
audit Verif.C12.uniform_ascii
audit Verif.C12.uniform_utf16
audit Verif.C12.uniform_unknown
audit Verif.C13.panics_iff
audit Verif.C13.not_alike
audit Verif.C13.no_panic_partial
audit Verif.C13.tokens_partial
audit Verif.C13.functions_partial
audit Verif.C13.conversion
audit Verif.C13.documents_partial
audit Verif.C14.no_cr
audit Verif.C14.idempotent
audit Verif.C14.lines_joined
audit Verif.C14.normalizeLines_spec
audit Verif.C14.comment_text
audit Verif.C14.comment_chars
audit Verif.C14.pi_text
audit Verif.C14.pi_bare
audit Verif.C15.update_spec
audit Verif.C15.updates_spec
audit Verif.C15.same_line
audit Verif.C15.split_crlf
audit Verif.C16.index_iff
audit Verif.C16.index_none
audit Verif.C16.declared_partial
audit Verif.C16.long_name_panics
audit Verif.C17.detect
audit Verif.C17.detect2
audit Verif.C17.stable_partial
audit Verif.C17.more_only
audit Verif.C17.first_byte
audit Verif.C17.first_byte_unstable
audit Verif.C18.accepted_partial
audit Verif.C18.panic_iff
audit Verif.C19.version_no_encoding
audit Verif.C19.version_with_encoding
audit Verif.C19.version_never_declared
audit Verif.C19.version_prefix_partial
audit Verif.C19.standalone_reported
audit Verif.C20.accepted_iff
audit Verif.C20.legal_iff
audit Verif.C20.names_iff
audit Verif.C20.conversion
audit Verif.C20.installed_iff
audit Verif.C20.installed_is
audit Verif.C20.released_iff
audit Verif.C21.error_final
audit Verif.C21.after_error
audit Verif.C22.document_structure
audit Verif.C22.doctype_contents
audit Verif.C22.no_second_doctype
audit Verif.C23.accepted
audit Verif.C23.balanced
audit Verif.C23.no_mixing
audit Verif.C23.no_fault
audit Verif.C24.close_matches
audit Verif.C24.depth_counter
audit Verif.C24.end_outside
audit Verif.C24.nests
audit Verif.C25.declared_model
audit Verif.C25.denotes_unique
audit Verif.C26.balanced
audit Verif.C26.balanced_entity
audit Verif.C26.tag_stack
audit Verif.C27.closed_iff
audit Verif.C27.mismatch
audit Verif.C27.unclosed
audit Verif.C27.unclosed_token
audit Verif.C27.after_root_iff
audit Verif.C27.after_root_err
audit Verif.C27.junk_tag
audit Verif.C28.attributes
audit Verif.C28.duplicate_refused
audit Verif.C28.accepted_iff
audit Verif.C28.never_duplicate
audit Verif.C28.flags_always_unset
audit Verif.C29.distinct_partial
audit Verif.C29.triplets_missed
audit Verif.C30.reserved
audit Verif.C30.never_reported
audit Verif.C30.tag_refused
audit Verif.C31.scoping
audit Verif.C31.in_force
audit Verif.C32.of_parser
audit Verif.C32.faithful
audit Verif.C32.bindings_ok
audit Verif.C32.opened_known
audit Verif.C33.literal_value
audit Verif.C33.tag_values
audit Verif.C33.reported_values
audit Verif.C33.line_ends
audit Verif.C33.line_ends_internal
audit Verif.C34.attr_recursion
audit Verif.C34.attr_terminates
audit Verif.C34.attr_acyclic
audit Verif.C34.content_recursion
audit Verif.C34.content_terminates
audit Verif.C34.content_acyclic
audit Verif.C34.document_acyclic
audit Verif.C35.content_substitution
audit Verif.C35.value_substitution
audit Verif.C35.steps_unique
audit Verif.C35.acyclic_rewrites
audit Verif.C36.entity_stays
audit Verif.C36.general_stays
audit Verif.C36.reported_once
audit Verif.C36.reported_counts
audit Verif.C36.attribute_stays
audit Verif.C36.flags_ok
audit Verif.C36.content_firsts
audit Verif.C37.legal_iff
audit Verif.C37.normalize_spec
audit Verif.C37.only_spaces
audit Verif.C37.words_normal
audit Verif.C37.no_blank_ends
audit Verif.C37.idempotent
audit Verif.C37.reported
audit Verif.C38.parse_refused
audit Verif.C38.getBuffer_refused
audit Verif.C38.parseBuffer_refused
audit Verif.C38.resume_refused
audit Verif.C38.stop_table
audit Verif.C38.table_function
audit Verif.C38.life
audit Verif.C38.finished
audit Verif.C38.suspended
audit Verif.C39.fails
audit Verif.C39.sticky_step
audit Verif.C39.sticky
audit Verif.C40.resume_partial
audit Verif.C40.resume_generic
audit Verif.C40.resume_total
audit Verif.C40.uninterrupted
audit Verif.C40.shown_again
audit Verif.C40.repeats
audit Verif.C40.stuck
audit Verif.C40.panics
audit Verif.C40.panics_reached
audit Verif.C41.moves
audit Verif.C41.tape
audit Verif.C41.new_parser
audit Verif.C41.room
audit Verif.C41.context
audit Verif.C41.granted
audit Verif.C42.reset_fresh_partial
audit Verif.C42.reset_document_partial
audit Verif.C42.child_refused
audit Verif.C42.not_queries
audit Verif.C43.run_refines
audit Verif.C43.handed_out_stable
audit Verif.C43.no_alias
audit Verif.C43.supported_drains
audit Verif.C44.section_partial
audit Verif.C44.accepted
audit Verif.C44.missed_end
audit Verif.C45.not_safe
audit Verif.C45.getBuffer_then_line
audit Verif.C45.byteIndex_none
audit Verif.C45.byteIndex_panics
audit Verif.C45.safe_partial
audit Verif.C46.during_partial
audit Verif.C46.after_partial
audit Verif.C46.reached
audit Verif.C46.full_buffer
audit Verif.C47.utf8_names
audit Verif.C47.utf16le_names_partial
audit Verif.C47.encodings_agree_partial
audit Verif.C47.encodings_disagree
audit Verif.C47.start_is_name
audit Verif.C48.round_trip
audit Verif.C48.forest_content
audit Verif.C49.setter
audit Verif.C49.conf_fixed
audit Verif.C49.history
audit Verif.C50.content_wrong
audit Verif.C50.content_skipped
audit Verif.C50.undeclared_iff
audit Verif.C50.value_wrong
audit Verif.C50.document_wrong
audit Verif.C50.document_value
audit Verif.C50.document_refused
audit Verif.C50.unparsed_wrong
audit Verif.C50.external_wrong
audit Verif.C51.trim_spec
audit Verif.C51.trim_longest
audit Verif.C52.illformed_name_accepted
audit Verif.C52.names_partial
audit Verif.C53.start_tag
audit Verif.C53.end_tag
audit Verif.C54.declared_encoding
audit Verif.C54.protocol_wins
audit Verif.C55.accepted_iff
audit Verif.C55.accepted
audit Verif.C55.refused
audit Verif.C55.unambiguous
audit Verif.C56.one_piece_partial
audit Verif.C56.pieces_matter
audit Verif.C56.pieces_lost
audit Verif.C56.declarations_matter
audit Verif.C56.marks_matter
audit Verif.C56.document_value
audit Verif.C57.chunks
audit Verif.C57.documents
audit Verif.C58.document_value
audit Verif.C58.value
audit Verif.C58.repl_unique
audit Verif.C59.reported
audit Verif.C59.declared_unique
audit Verif.C60.parsed
audit Verif.C60.document
audit Verif.C60.parse_found
audit Verif.C61.only
audit Verif.C61.accepted_iff
audit Verif.C61.refused
audit Verif.C61.document_only
audit Verif.C62.document_legal
audit Verif.C62.prolog_all
audit Verif.C62.prolog_heard
audit Verif.C62.reported_legal
audit Verif.C62.prolog_legal
audit Verif.C63.accepted_iff
audit Verif.C63.documents
audit Verif.C63.nothing_else
audit Verif.C63.after_reset
audit Verif.C63.text_legal
audit Verif.C63.outcome
audit Verif.C63.path_exists
audit Verif.C63.new_create
audit Verif.C63.new_reset
audit Verif.C63.ex_seen
audit Verif.C63.ex_bad
audit Verif.C64.independent
audit Verif.C64.content_independent
audit Verif.C64.twin_document
audit Verif.C64.twin_prolog
audit Verif.C64.feed_same
audit Verif.C64.ex_few
audit Verif.C64.ex_most
audit Verif.C65.copied
audit Verif.C65.copied_bytes
audit Verif.C65.copied_utf16
audit Verif.C66.accepted_iff
audit Verif.C66.from_context
audit Verif.C66.refused
audit Verif.C66.pieces
audit Verif.C66.unambiguous
audit Verif.C66.ParsedEntity.congr
audit Verif.C66.content_congr
audit Verif.C67.later_ignored
audit Verif.C67.over_stays
audit Verif.resolver_freezes
audit Verif.C68.refused
audit Verif.C68.refused_between
audit Verif.C69.parsed
audit Verif.C69.document
audit Verif.C70.used
audit Verif.C70.not_read
audit Verif.C70.not_asked
audit Verif.C71.same
audit Verif.C71.odd_differs
audit Verif.C72.outcome
audit Verif.C72.panics_iff
audit Verif.C72.calls_outcome
audit Verif.C73.calls
audit Verif.C73.cut_free
audit Verif.C73.stands
audit Verif.C73.has_place
audit Verif.C73.in_order
audit Verif.C73.error_stands
audit Verif.C74.lines_partial
audit Verif.C74.lines_partial_uncut
audit Verif.C74.determined
audit Verif.C74.cut_matters
audit Verif.C75.same_calls
audit Verif.C75.echoed_partial
audit Verif.C75.echoed
audit Verif.C75.cdata_twice
audit Verif.C76.canonical
audit Verif.C76.compares
audit Verif.C76.in_order
audit Verif.C76.order_free
audit Verif.C76.written_says
audit Verif.C76.ex_refused
audit Verif.C77.after
audit Verif.C77.during
audit Verif.C77.before_partial
audit Verif.C77.kept
audit Verif.C77.forgotten
audit Verif.C77.context_lost
audit Verif.C78.resume_partial
audit Verif.C78.well_formed_partial
audit Verif.C78.gives_inside
audit Verif.C78.ex_resumed
audit Verif.C78.nested_lost
audit Verif.C78.nested_recursive
audit Verif.C78.nested_fails
audit Verif.C78.cdata_as_markup
audit Verif.C78.accepted
audit Verif.C79.as_calls
audit Verif.C79.verdict
audit Verif.C79.output
audit Verif.C79.read_all
audit Verif.C79.exits
audit Verif.C79.resolves
audit Verif.C79.dir_exists
audit Verif.C79.ex_run
audit Verif.C80.documents
audit Verif.C80.entities
audit Verif.C80.unobservable
audit Verif.C80.kept
audit Verif.C80.kept_init
audit Verif.C80.stored
audit Verif.C80.needed
audit Verif.C81.knows_partial
audit Verif.C81.knows_unmoved
audit Verif.C81.default_lost
audit Verif.C81.wrong_namespace
audit Verif.C82.names
audit Verif.C82.no_overrun
audit Verif.C82.paired
audit Verif.C82.needed
audit Verif.C83.resume_partial
audit Verif.C83.asked
audit Verif.C83.rejected
audit Verif.C83.stuck
audit Verif.C83.ex_resumed
audit Verif.C84.ended_partial
audit Verif.C84.noticed_partial
audit Verif.C84.unread_parse
audit Verif.C84.over_silent
audit Verif.C84.unnoticed
audit Verif.C84.one_more
audit Verif.C84.ex_ended
