import Verif.PrologChild
import Verif.Context

/-!
# Parsers for external general entities
(src/lib/xmlparse.rs:1938-2032, 3459-3580)

`XML_ExternalEntityParserCreate` with a context, and the processors of the new parser.
-/

set_option autoImplicit false

namespace Verif

/-- `m_processor` of a parser for an external general entity: `externalEntityInitProcessor` or its second part,
its third part, `externalEntityContentProcessor` (or, inside a CDATA section, `cdataSectionProcessor`). -/
inductive GPhase where
  | second
  | third
  | content (s : CState)

/-- A parser for an external general entity; `enc` is the index of the named encoding as long as the encoding
has not been detected (`m_encoding` is `m_initEncoding`). -/
structure GChild where
  s : DState
  enc : Option EncIndex
  phase : GPhase := .second

/-- `xmlTok(XML_STATE::CONTENT, ..)` of `m_encoding`, which may be the detecting encoding
(src/lib/xmltok.rs:1980-2115): the token, and the encoding afterwards. -/
def firstContentTok (ns : Bool) (enc : Option EncIndex) (cur : CurEnc) (b : Buf) : Res × Option EncIndex × CurEnc :=
  match enc with
  | none => (contentTok (cur.x ns).e b, none, cur)
  | some idx =>
    match initScan idx .content b with
    | .none => (⟨.NONE, 0⟩, enc, cur)
    | .more => (⟨.PARTIAL, 0⟩, enc, cur)
    | .bom i n => (⟨.BOM, n⟩, none, .builtin i)
    | .scan i => (contentTok (i.x ns).e b, none, .builtin i)

/-- The encoding is as the token left it. -/
def GChild.set (ch : GChild) (q : Res × Option EncIndex × CurEnc) : GChild :=
  { ch with enc := q.2.1, s := { ch.s with cur := q.2.2 } }

/-- The result of a call: as for any processor; the bytes not consumed are kept. -/
inductive GEnd where
  | done (rest : Buf)
  | err (e : XErr)
  | panic

/-- Handler calls, the parser, and the result. -/
abbrev GRun := List PEv × GChild × GEnd

/-- The calls `E` come first. -/
def GRun.pre (E : List PEv) (r : GRun) : GRun := (E ++ r.1, r.2)

/-- `doContent(1, EncodingType::Normal, ..)` with the declarations of the parser; `opened` are the entities the
context says are open. -/
abbrev entSem (c : PCfg) (opened : List Buf) (s : DState) : Sem CState :=
  sem c.c s.D.toDtd c.int s.D.toDtd.fuel (s.cur.x c.c.ns) opened 1

/-- src/lib/xmlparse.rs:3560-3580 `externalEntityContentProcessor`, and 4892-4920 `cdataSectionProcessor`, which goes
on with it.  `storeRawNames` is not modelled (cf. `call`). -/
def entContent (c : PCfg) (opened : List Buf) (more : Bool) (ch : GChild) (s : CState) (b : Buf) : GRun :=
  match call (entSem c opened ch.s) (ch.s.cur.x c.c.ns).e more s b with
  | (F, .ok s' rest) => (F.map .ev, { ch with phase := .content s' }, .done rest)
  | (F, .err e) => (F.map .ev, { ch with phase := .content s }, .err e)

/-- The content begins with the bindings of the context, and with `m_tagLevel` = 1 (3556). -/
def inherited (v : Env) : CState := { CState.init with level := 1, env := v }

/-- src/lib/xmlparse.rs:3519-3534, 3555-3557: the text declaration `w` is at the start of the entity. -/
def entDecl (c : PCfg) (opened : List Buf) (v : Env) (more : Bool) (ch : GChild) (w rest : Buf) : GRun :=
  match actXmlDecl c ch.s true w with
  | (E, s, .go _) => GRun.pre E (entContent c opened more { ch with s := s } (inherited v) rest)
  | (E, s, .fail e) => (E, { ch with s := s, phase := .third }, .err e)
  | (E, s, _) => (E, { ch with s := s, phase := .third }, .panic)

/-- src/lib/xmlparse.rs:3507-3558 `externalEntityInitProcessor3`.  Suspension in the handler for the text declaration is
not modelled.  While the encoding is not known there are no bytes (see `entSecond`), and the token is NONE. -/
def entThird (c : PCfg) (opened : List Buf) (v : Env) (more : Bool) (ch : GChild) (b : Buf) : GRun :=
  let r := (firstContentTok c.c.ns ch.enc ch.s.cur b).1
  match r.tok with
  | .XML_DECL => entDecl c opened v more ch (b.take r.next) (b.drop r.next)
  | .PARTIAL => if more then ([], { ch with phase := .third }, .done b) else ([], { ch with phase := .third }, .err .UNCLOSED_TOKEN)
  | .PARTIAL_CHAR => if more then ([], { ch with phase := .third }, .done b) else ([], { ch with phase := .third }, .err .PARTIAL_CHAR)
  | _ => entContent c opened more ch (inherited v) b

/-- src/lib/xmlparse.rs:3459-3505 `externalEntityInitProcessor`, `externalEntityInitProcessor2`: a byte order mark is
skipped; after one, more bytes are needed to see a text declaration. -/
def entSecond (c : PCfg) (opened : List Buf) (v : Env) (more : Bool) (ch : GChild) (b : Buf) : GRun :=
  let q := firstContentTok c.c.ns ch.enc ch.s.cur b
  let ch := ch.set q
  match q.1.tok with
  | .BOM =>
    if b.drop q.1.next = [] ∧ more then ([], ch, .done [])
    else entThird c opened v more ch (b.drop q.1.next)
  | .PARTIAL => if more then ([], ch, .done b) else ([], ch, .err .UNCLOSED_TOKEN)
  | .PARTIAL_CHAR => if more then ([], ch, .done b) else ([], ch, .err .PARTIAL_CHAR)
  | _ => entThird c opened v more ch b

/-- One call of the processor. -/
def entCall (c : PCfg) (opened : List Buf) (v : Env) (more : Bool) (ch : GChild) (b : Buf) : GRun :=
  match ch.phase with
  | .second => entSecond c opened v more ch b
  | .third => entThird c opened v more ch b
  | .content s => entContent c opened more ch s b

/-- Several calls of XML_Parse, the last of them final; a call without bytes that is not final does nothing
(src/lib/xmlparse.rs:2604-2608), otherwise the processor is given the bytes not yet consumed followed by the new ones
(2581-2665, 2685-2747). -/
def entFeed (c : PCfg) (opened : List Buf) (v : Env) (ch : GChild) (rest : Buf) : List Buf → GRun
  | [] => entCall c opened v false ch rest
  | [x] => entCall c opened v false ch (rest ++ x)
  | x :: xs =>
    if x = [] then entFeed c opened v ch rest xs
    else match entCall c opened v true ch (rest ++ x) with
      | (E, ch', .done q) => GRun.pre E (entFeed c opened v ch' q xs)
      | r => r

/-- XML_ExternalEntityParserCreate with a context and an encoding name (src/lib/xmlparse.rs:1938-2032): the
declarations are copied; `none` if the context is not understood. The handlers, which are copied too, are in the configuration. -/
def entCreate (D : DTab) (pe : PEParsing) (idx : EncIndex) (ctx : Buf) : Option (GChild × Inherited) :=
  (setContext (fun n => (D.toDtd.entity n).isSome) .none [] ctx).map fun i =>
    (⟨{ el := { p := PState.init }, cur := .builtin idx.enc, pe := pe, D := D }, some idx, .second⟩, i)

end Verif
