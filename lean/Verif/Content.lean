import Verif.Props.C15

/-! The loops which consume element content: `doContent`, `doCdataSection`, `epilogProcessor`
(src/lib/xmlparse.rs:3584-4210, 4924-5054, 6879-6950), generic in what is done for each token.

The three Rust functions call each other (a CDATA section inside content, the epilog after the end of
the root element); they are one loop here, whose `mode` says which of the three is running, i.e. which
tokenizer is used and which tokens are final.  What a token does (handler calls, changes of the
parser's data) is a parameter `Sem`; the instance for the real parser is in `ParserSem`. -/

namespace Verif

/-- src/expat_h.rs:67-114 `enum XML_Error`, without `NONE`.  The last constructor is not an error code:
it is the exhaustion of the model's recursion bound (see `appendAttributeValue`), shown in C34 never to
happen. -/
inductive XErr where
  | NO_MEMORY | SYNTAX | NO_ELEMENTS | INVALID_TOKEN | UNCLOSED_TOKEN | PARTIAL_CHAR | TAG_MISMATCH
  | DUPLICATE_ATTRIBUTE | JUNK_AFTER_DOC_ELEMENT | PARAM_ENTITY_REF | UNDEFINED_ENTITY
  | RECURSIVE_ENTITY_REF | ASYNC_ENTITY | BAD_CHAR_REF | BINARY_ENTITY_REF
  | ATTRIBUTE_EXTERNAL_ENTITY_REF | MISPLACED_XML_PI | UNKNOWN_ENCODING | INCORRECT_ENCODING
  | UNCLOSED_CDATA_SECTION | EXTERNAL_ENTITY_HANDLING | NOT_STANDALONE | UNEXPECTED_STATE
  | ENTITY_DECLARED_IN_PE | FEATURE_REQUIRES_XML_DTD | CANT_CHANGE_FEATURE_ONCE_PARSING
  | UNBOUND_PREFIX | UNDECLARING_PREFIX | INCOMPLETE_PE | XML_DECL | TEXT_DECL | PUBLICID | SUSPENDED
  | NOT_SUSPENDED | ABORTED | FINISHED | SUSPEND_PE | RESERVED_PREFIX_XML | RESERVED_PREFIX_XMLNS
  | RESERVED_NAMESPACE_URI | INVALID_ARGUMENT | DIVERGED
deriving DecidableEq, Repr, Inhabited

/-- The calls of application handlers made while content is parsed (src/lib/xmlparse.rs:495-760
`Handlers`).  Strings are without their NUL. -/
inductive Ev where
  /-- with the numbers of XML_GetSpecifiedAttributeCount / 2 and XML_GetIdAttributeIndex / 2 -/
  | startElement (name : Buf) (atts : List (Buf × Buf)) (specified : Nat) (idIndex : Option Nat)
  | endElement (name : Buf)
  | chars (s : Buf)
  | pi (target data : Buf)
  | comment (s : Buf)
  | startCdata
  | endCdata
  | startNs (pre : Option Buf) (uri : Option Buf)
  | endNs (pre : Option Buf)
  | skippedEntity (name : Buf) (isParam : Bool)
  | externalRef (context systemId : Option Buf) (publicId : Option Buf)
  | dflt (s : Buf)
deriving DecidableEq, Repr, Inhabited

/-- Which of the three loops runs: `doContent`, `doCdataSection`, `epilogProcessor`. -/
inductive Mode where
  | content | cdata | epilog
deriving DecidableEq, Repr, Inhabited

/-- What `m_parsingStatus.parsing` says after a token: go on, SUSPENDED, FINISHED. -/
inductive Stop where
  | go | suspend | abort
deriving DecidableEq, Repr, Inhabited

/-- What the parser does for a token, over a type `σ` of parser states. -/
structure Sem (σ : Type) where
  /-- the loop that runs next -/
  mode : σ → Mode
  /-- the branch of the `match tok`: handler calls, and the new state or an error; the buffer is
  the text of the token -/
  act : σ → Tok → Buf → List Ev × Except XErr σ
  /-- `m_parsingStatus.parsing` -/
  stop : σ → Stop
  /-- the tests at the end of the input (3639-3645, 3652-3660): `startTagLevel == 0`,
  `m_tagLevel != startTagLevel` -/
  fin : σ → Option XErr

/-- Result of a processor: XML_ERROR_NONE with the state and the bytes from `*nextPtr` on, or an
error. -/
inductive Out (σ : Type) where
  | ok (s : σ) (rest : Buf)
  | err (c : XErr)
deriving DecidableEq, Repr

/-- The tokenizer the loop calls. -/
def Mode.tok : Mode → Enc → Buf → Res
  | .content => contentTok
  | .cdata => cdataSectionTok
  | .epilog => prologTok

/-- What a loop does with a token. -/
inductive Verdict where
  /-- return XML_ERROR_NONE if more input may come, otherwise the error -/
  | wait (c : XErr)
  /-- return XML_ERROR_NONE if more input may come, otherwise treat the rest as token `t` and
  apply the end tests -/
  | last (t : Tok)
  /-- return XML_ERROR_NONE if more input may come, otherwise apply the end tests -/
  | done
  /-- return XML_ERROR_NONE in any case -/
  | stop
  | fail (c : XErr)
  /-- carry out the token and go on -/
  | act
  /-- carry out the token as PROLOG_S, and return XML_ERROR_NONE -/
  | actStop
deriving DecidableEq, Repr

/-- The `match tok` of the three loops as far as it decides about going on:
3607-3647 and 3648-3681, 4110-4145 (content), 5012-5036 (cdata), 6889-6935 (epilog). -/
def Mode.verdict : Mode → Tok → Verdict
  | .content, .NONE => .done
  | .content, .TRAILING_CR => .last .DATA_NEWLINE
  | .content, .TRAILING_RSQB => .last .DATA_CHARS
  | .content, .INVALID => .fail .INVALID_TOKEN
  | .content, .PARTIAL => .wait .UNCLOSED_TOKEN
  | .content, .PARTIAL_CHAR => .wait .PARTIAL_CHAR
  | .content, _ => .act
  | .cdata, .CDATA_SECT_CLOSE => .act
  | .cdata, .DATA_NEWLINE => .act
  | .cdata, .DATA_CHARS => .act
  | .cdata, .INVALID => .fail .INVALID_TOKEN
  | .cdata, .PARTIAL_CHAR => .wait .PARTIAL_CHAR
  | .cdata, .PARTIAL => .wait .UNCLOSED_CDATA_SECTION
  | .cdata, .NONE => .wait .UNCLOSED_CDATA_SECTION
  | .cdata, _ => .fail .UNEXPECTED_STATE
  | .epilog, .PROLOG_S_NEG => .actStop
  | .epilog, .NONE => .stop
  | .epilog, .PROLOG_S => .act
  | .epilog, .PI => .act
  | .epilog, .COMMENT => .act
  | .epilog, .INVALID => .fail .INVALID_TOKEN
  | .epilog, .PARTIAL => .wait .UNCLOSED_TOKEN
  | .epilog, .PARTIAL_CHAR => .wait .PARTIAL_CHAR
  | .epilog, _ => .fail .JUNK_AFTER_DOC_ELEMENT

variable {σ : Type}

/-- Results with their handler calls; `pre E r` makes the calls `E` first. -/
abbrev Ran (σ : Type) := List Ev × Out σ
def pre (E : List Ev) (r : Ran σ) : Ran σ := (E ++ r.1, r.2)

/-- The tests at the end of the final buffer. -/
def finish (M : Sem σ) (s : σ) (rest : Buf) : Out σ :=
  match M.fin s with
  | some c => .err c
  | none => .ok s rest

/-- `doContent`, `doCdataSection`, `epilogProcessor` on the bytes `b`; `more` is `haveMore` (resp.
not `finalBuffer`).  `viaCdata`: the call came from `cdataSectionProcessor` (4892-4920), which on
the end of the section calls the content processor without looking at the parsing status.
No status is looked at after a CDATA section start either (4093-4097).
The guard on the length always holds (`C02.progress`); it makes termination evident. -/
def run (M : Sem σ) (e : Enc) (more viaCdata : Bool) (s : σ) (b : Buf) : Ran σ :=
  let r := (M.mode s).tok e b
  match (M.mode s).verdict r.tok with
  | .wait c => if more then ([], .ok s b) else ([], .err c)
  | .last t =>
    if more then ([], .ok s b) else
    match M.act s t b with
    | (E, .error c) => (E, .err c)
    | (E, .ok s') => (E, finish M s' [])
  | .done => if more then ([], .ok s b) else ([], finish M s b)
  | .stop => ([], .ok s b)
  | .fail c => ([], .err c)
  | .actStop =>
    match M.act s .PROLOG_S (b.take r.next) with
    | (E, .error c) => (E, .err c)
    | (E, .ok s') => (E, if M.stop s' = .abort then .err .ABORTED else .ok s' (b.drop r.next))
  | .act =>
    match M.act s r.tok (b.take r.next) with
    | (E, .error c) => (E, .err c)
    | (E, .ok s') =>
      if r.tok = .CDATA_SECT_OPEN ∨
          (viaCdata ∧ M.mode s = .cdata ∧ r.tok = .CDATA_SECT_CLOSE ∧ M.stop s' ≠ .abort) ∨
          M.stop s' = .go then
        if (b.drop r.next).length < b.length then
          pre E (run M e more (viaCdata && r.tok != .CDATA_SECT_CLOSE) s' (b.drop r.next))
        else (E, .ok s' b)
      else if M.stop s' = .suspend then (E, .ok s' (b.drop r.next))
      else (E, .err .ABORTED)
termination_by b.length
decreasing_by assumption

/-- A call of the processor: see `viaCdata`. -/
def call (M : Sem σ) (e : Enc) (more : Bool) (s : σ) (b : Buf) : Ran σ :=
  run M e more (M.mode s == .cdata) s b

/-- Several calls of XML_Parse, the last of them final: each call is given the bytes not yet
consumed followed by the new ones (src/lib/xmlparse.rs:2581-2665, 2685-2747); an error ends the
parse. -/
def feed (M : Sem σ) (e : Enc) (s : σ) (rest : Buf) : List Buf → Ran σ
  | [] => call M e false s rest
  | [x] => call M e false s (rest ++ x)
  | x :: xs =>
    match call M e true s (rest ++ x) with
    | (E, .ok s' r) => pre E (feed M e s' r xs)
    | (E, .err c) => (E, .err c)

end Verif
