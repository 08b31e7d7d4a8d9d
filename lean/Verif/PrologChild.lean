import Verif.Prolog

/-!
# Parsers for external parameter entities
(src/lib/xmlparse.rs:1938-2032, 5394-5585)

`XML_ExternalEntityParserCreate` with a null context, the processors of the new parser, and an
application whose external entity handler does the usual thing: it creates a parser for the entity,
passes it the entity's bytes in some pieces and returns whether that succeeded.
-/

set_option autoImplicit false

namespace Verif

/-- `m_processor` of a parser for an external parameter entity: `externalParEntInitProcessor`,
`externalParEntProcessor`, `entityValueInitProcessor`, `entityValueProcessor`, and `prologProcessor` (or
`ignoreSectionProcessor`). -/
inductive Phase where
  | init | parEnt | evInit | ev | prolog
deriving DecidableEq, Repr

/-- A parser for an external parameter entity; `enc` is the index of the named encoding as long as the
encoding has not been detected (`m_encoding` is `m_initEncoding`). -/
structure Child where
  s : DState
  enc : Option EncIndex
  phase : Phase := .init

/-- `xmlTok(XML_STATE::PROLOG, ..)` of `m_encoding`, which may be the detecting encoding
(src/lib/xmltok.rs:1980-2115): the token, and the encoding afterwards. -/
def firstTok (ns : Bool) (enc : Option EncIndex) (cur : CurEnc) (b : Buf) : Res × Option EncIndex × CurEnc :=
  match enc with
  | none => (prologTok (cur.x ns).e b, none, cur)
  | some idx =>
    match initScan idx .prolog b with
    | .none => (⟨.NONE, 0⟩, enc, cur)
    | .more => (⟨.PARTIAL, 0⟩, enc, cur)
    | .bom i n => (⟨.BOM, n⟩, none, .builtin i)
    | .scan i => (prologTok (i.x ns).e b, none, .builtin i)

/-- The token when encoding detection is over, as far as the result is concerned. -/
def Child.set (ch : Child) (q : Res × Option EncIndex × CurEnc) : Child :=
  { ch with enc := q.2.1, s := { ch.s with cur := q.2.2 } }

/-- Handler calls, the parser, what is appended to `entityValuePool`, and the result. -/
structure Childed where
  E : List PEv
  ch : Child
  value : Buf
  out : PEnd

/-- What the loops of `entityValueInitProcessor` and `entityValueProcessor` find: `wait`: more input is
needed, `*nextPtr` is at `rest`; the end of the entity with `rest` from the last token on; a declaration;
`<` of an element. -/
inductive EvScan where
  | wait (rest : Buf)
  | fail (c : XErr)
  | stop (rest : Buf)
  | decl (w rest : Buf)
deriving DecidableEq, Repr

/-- src/lib/xmlparse.rs:5441-5456, 5547-5561: a token that is not positive. -/
def evTokEnd (more : Bool) (t : Tok) (b : Buf) : EvScan :=
  if more ∧ t ≠ .INVALID then .wait b
  else match t with
    | .INVALID => .fail .INVALID_TOKEN
    | .PARTIAL => .fail .UNCLOSED_TOKEN
    | .PARTIAL_CHAR => .fail .PARTIAL_CHAR
    | _ => .stop b

/-- src/lib/xmlparse.rs:5436-5502: the loop of `entityValueInitProcessor`, once the encoding is known; `buf`
is moved along.  (The guard on the length always holds.) -/
def evInitScan (e : Enc) (more : Bool) (b : Buf) : EvScan :=
  let r := prologTok e b
  if r.tok.isError then evTokEnd more r.tok b
  else if r.tok = .XML_DECL then .decl (b.take r.next) (b.drop r.next)
  else if r.tok = .INSTANCE_START then .fail .SYNTAX
  else if (b.drop r.next).length < b.length then evInitScan e more (b.drop r.next)
  else .fail .UNEXPECTED_STATE
termination_by b.length
decreasing_by assumption

/-- src/lib/xmlparse.rs:5544-5566: the loop of `entityValueProcessor`; `buf` is moved along as well. -/
def evScan (e : Enc) (more : Bool) (b : Buf) : EvScan :=
  let r := prologTok e b
  if r.tok.isError then evTokEnd more r.tok b
  else if (b.drop r.next).length < b.length then evScan e more (b.drop r.next)
  else .fail .UNEXPECTED_STATE
termination_by b.length
decreasing_by assumption

/-- `storeEntityValue(parser, EncodingType::Normal, b)` at the end of the entity. -/
def childStore (c : PCfg) (ext : Ext) (fuel : Nat) (opened : List Buf) (ch : Child) (b : Buf) : Childed :=
  let v := storeEntityValue c ext ch.s.pe fuel (ch.s.cur.x c.c.ns) false opened ch.s.sh [] b
  ⟨v.E, { ch with s := ch.s.setSh v.sh }, v.pool, match v.err with | some e => .err e | none => .done b⟩

/-- src/lib/xmlparse.rs:5534-5567 `entityValueProcessor`: `storeEntityValue` gets `buf`. -/
def evCall (c : PCfg) (ext : Ext) (fuel : Nat) (opened : List Buf) (more : Bool) (ch : Child) (b : Buf) : Childed :=
  match evScan (ch.s.cur.x c.c.ns).e more b with
  | .wait rest => ⟨[], ch, [], .done rest⟩
  | .fail e => ⟨[], ch, [], .err e⟩
  | .stop rest => childStore c ext fuel opened ch rest
  | .decl _ _ => ⟨[], ch, [], .panic⟩

/-- src/lib/xmlparse.rs:5428-5503 `entityValueInitProcessor`, after the encoding has been detected:
`storeEntityValue` gets `init_buf`. -/
def evInitRun (c : PCfg) (ext : Ext) (fuel : Nat) (opened : List Buf) (more : Bool) (ch : Child) (b0 b : Buf) : Childed :=
  match evInitScan (ch.s.cur.x c.c.ns).e more b with
  | .wait rest => ⟨[], ch, [], .done rest⟩
  | .fail e => ⟨[], ch, [], .err e⟩
  | .stop _ => childStore c ext fuel opened ch b0
  | .decl w rest =>
    match actXmlDecl c ch.s false w with
    | (E, s, .go _) =>
      let r := evCall c ext fuel opened more { ch with s := s, phase := .ev } rest
      { r with E := E ++ r.E }
    | (E, s, .fail e) => ⟨E, { ch with s := s }, [], .err e⟩
    | (E, s, _) => ⟨E, { ch with s := s }, [], .panic⟩

/-- The same with the detection of the encoding: the first token can be a byte order mark (5479-5489). -/
def evInitCall (c : PCfg) (ext : Ext) (fuel : Nat) (opened : List Buf) (more : Bool) (ch : Child) (b : Buf) : Childed :=
  let q := firstTok c.c.ns ch.enc ch.s.cur b
  let ch := ch.set q
  if q.1.tok = .BOM then
    if b.drop q.1.next = [] ∧ more then ⟨[], ch, [], .done []⟩
    else evInitRun c ext fuel opened more ch b (b.drop q.1.next)
  else if q.2.1.isSome then
    -- not detected: the token is NONE or PARTIAL
    match evTokEnd more q.1.tok b with
    | .wait rest => ⟨[], ch, [], .done rest⟩
    | .stop _ => childStore c ext fuel opened ch b
    | _ => ⟨[], ch, [], .err .UNCLOSED_TOKEN⟩
  else evInitRun c ext fuel opened more ch b b

/-- src/lib/xmlparse.rs:5505-5532 `externalParEntProcessor`, and later `prologProcessor`. -/
def parEntCall (c : PCfg) (ext : Ext) (fuel : Nat) (opened : List Buf) (more : Bool) (ch : Child) (b : Buf) : Childed :=
  let q := firstTok c.c.ns ch.enc ch.s.cur b
  let ch := ch.set q
  let go := fun b =>
    let r := prologCall c ext fuel opened more ch.s b
    (⟨r.1, { ch with s := r.2.1, phase := .prolog }, [], r.2.2⟩ : Childed)
  if q.1.tok.isError then
    match evTokEnd more q.1.tok b with
    | .wait rest => ⟨[], ch, [], .done rest⟩
    | .fail e => ⟨[], ch, [], .err e⟩
    | _ => go b
  else if q.1.tok = .BOM then go (b.drop q.1.next)
  else go b

/-- A call of the processor (`externalParEntInitProcessor`, 5408-5426, goes on with one of the others). -/
def childCall (c : PCfg) (ext : Ext) (fuel : Nat) (opened : List Buf) (more : Bool) (ch : Child) (b : Buf) : Childed :=
  match ch.phase with
  | .init =>
    let s := { ch.s with D := { ch.s.D with peRead := true } }
    if s.el.p.inEntityValue then evInitCall c ext fuel opened more { ch with s := s, phase := .evInit } b
    else parEntCall c ext fuel opened more { ch with s := s, phase := .parEnt } b
  | .evInit => evInitCall c ext fuel opened more ch b
  | .ev => evCall c ext fuel opened more ch b
  | .parEnt => parEntCall c ext fuel opened more ch b
  | .prolog =>
    let r := prologCall c ext fuel opened more ch.s b
    ⟨r.1, { ch with s := r.2.1 }, [], r.2.2⟩

/-- The pieces are passed to the parser one after the other (`XML_Parse`, the last one final); `left` are the
bytes not yet consumed.  It stops at the first error. -/
def childParse (c : PCfg) (ext : Ext) (fuel : Nat) (opened : List Buf) : Child → Buf → List Buf → Childed
  | ch, left, [] => ⟨[], ch, [], .done left⟩
  | ch, left, b :: bs =>
    let r := childCall c ext fuel opened (!bs.isEmpty) ch (left ++ b)
    match r.out with
    | .done rest =>
      let r' := childParse c ext fuel opened r.ch rest bs
      ⟨r.E ++ r'.E, r'.ch, r.value ++ r'.value, r'.out⟩
    | _ => r

/-- src/lib/xmlparse.rs:1938-2032 `XML_ExternalEntityParserCreate` with a null context: the DTD is shared. -/
def childNew (enc : EncIndex) (req : ExtReq) (sh : Shared) : Child :=
  ⟨{ el := ⟨{ PState.initExternal with inEntityValue := req.inValue }, 0, fun _ => 0, sh.scaf.inEldecl, sh.scaf.scaffold,
             sh.scaf.index, sh.scaf.strLen, [], []⟩
     D := sh.D, cur := .builtin enc.enc, pe := req.pe }, some enc, .init⟩

/-- What the application knows of an entity: the encoding it names, and the entity's bytes in pieces. -/
structure ExtDoc where
  enc : EncIndex := .noEnc
  pieces : List Buf

/-- The settings of a child parser (1972-1997): no handlers for the DOCTYPE declaration, no base; the name of an
encoding is the one passed to the function, if any (`m_protocolEncodingName`, 1744-1759). -/
def PCfg.toChild (c : PCfg) (enc : EncIndex) : PCfg :=
  { c with startDoctype := false, endDoctype := false, base := none, child := true, isPE := true,
           protocol := enc ≠ .noEnc }

/-- An external entity handler: for an entity it knows (`docs`) it creates a parser, passes it the bytes and
returns 1 if there was no error; for others it returns 1 without doing anything.  The depth of nested
handler calls is bounded by `d`: beyond it the handler returns 0. -/
def resolver (c : PCfg) (docs : ExtReq → Option ExtDoc) (fuel : Nat) : Nat → Ext
  | 0 => fun _ sh => ⟨[], sh, [], false⟩
  | d + 1 => fun req sh =>
    match docs req with
    | none => ⟨[], sh, [], true⟩
    | some doc =>
      let r := childParse (c.toChild doc.enc) (resolver c docs fuel d) fuel req.opened (childNew doc.enc req sh) [] doc.pieces
      ⟨r.E, r.ch.s.sh, r.value, match r.out with | .done _ => true | _ => false⟩

end Verif
