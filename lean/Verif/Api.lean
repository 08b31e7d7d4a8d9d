import Verif.Content
import Verif.ScanAux

/-! The calls of the application on a parser: XML_Parse, XML_GetBuffer, XML_ParseBuffer,
XML_StopParser, XML_ResumeParser, XML_ParserReset, the setters that are tied to the parsing status,
and the queries about the current position (src/lib/xmlparse.rs:1755-1905, 2118-2165, 2543-2560,
2581-2979, 3010-3140).

The processors (`m_processor` other than `errorProcessor`) with everything they alone touch are a
parameter, `Engine`.  Handlers run inside a processor; a handler may call XML_StopParser, which is
why a processor returns a parsing status.  Handlers which call other functions of this file are not
modelled, nor are null parser pointers, nor wrap-around of 64-bit counters. -/

set_option autoImplicit false

namespace Verif.Api
open Verif

/-- src/expat_h.rs `XML_Parsing`. -/
inductive Parsing where
  | INITIALIZED | PARSING | FINISHED | SUSPENDED
deriving DecidableEq, Repr, Inhabited

/-- src/expat_h.rs `XML_Status`. -/
inductive Status where
  | OK | ERROR | SUSPENDED
deriving DecidableEq, Repr, Inhabited

/-- src/expat_h.rs `XML_ParamEntityParsing`. -/
inductive PePolicy where
  | never | unlessStandalone | always
deriving DecidableEq, Repr, Inhabited

/-- What the setters set: `m_protocolEncodingName`, `m_useForeignDTD`, `m_ns_triplets`,
`m_paramEntityParsing`. -/
structure Conf where
  encoding : Option Buf
  foreignDtd : Bool
  triplets : Bool
  pe : PePolicy
deriving DecidableEq, Repr

/-- What a call of a processor does: the handler calls, the number of bytes before `*endPtr`, the
error code (`none` is XML_ERROR_NONE), the state, `m_parsingStatus.parsing`, and `m_eventPtr` and
`m_eventEndPtr` as offsets into the bytes it was given. -/
structure Done (σ : Type) where
  calls : List Ev
  used : Nat
  code : Option XErr
  inner : σ
  parsing : Parsing
  event : Nat
  eventEnd : Nat

/-- The processors: `init` is the state `init` (1755-1805) and `DTD::reset` leave behind; `start` is
`startParsing` (1599-1612, `none` is failure); `proc` is `m_processor`, called while the status is
PARSING; `upd` is `m_encoding.updatePosition` (`none` is a panic); `alloc n` says whether
`try_reserve_exact` can make the buffer `n` bytes long. -/
structure Engine (σ : Type) where
  init : σ
  start : Conf → σ → Option σ
  proc : Conf → σ → (final : Bool) → Buf → Done σ
  upd : σ → Buf → Pos → Option Pos
  alloc : Nat → Bool

/-- The fields of `XML_ParserStruct` (769-840) used here. -/
structure Parser (σ : Type) where
  /-- `m_buffer`; its capacity is taken to be its length, as after `try_reserve_exact` -/
  buffer : Buf
  /-- `m_bufferStart` -/
  start : Nat
  /-- `m_bufferEnd` -/
  stop : Nat
  /-- `m_parseEndByteIndex` -/
  endByte : Nat
  /-- `m_parseEndIdx` -/
  endIdx : Nat
  /-- `m_processor` is `errorProcessor` -/
  failed : Bool
  /-- everything only the processors touch -/
  inner : σ
  /-- `m_errorCode` -/
  error : Option XErr
  /-- `m_eventPtr`, as an index into `m_buffer` -/
  event : Option Nat
  /-- `m_eventEndPtr` -/
  eventEnd : Option Nat
  /-- `m_positionIdx` -/
  posIdx : Option Nat
  /-- `m_position` -/
  pos : Pos
  /-- `m_parsingStatus` -/
  parsing : Parsing
  final : Bool
  /-- `is_child_parser` -/
  child : Bool
  /-- `m_isParamEntity` -/
  paramEntity : Bool
  conf : Conf

variable {σ : Type} (E : Engine σ)

/-- 1640-1751 `try_new` followed by `init` (1755-1805). -/
def create (encoding : Option Buf) : Parser σ where
  buffer := []
  start := 0
  stop := 0
  endByte := 0
  endIdx := 0
  failed := false
  inner := E.init
  error := none
  event := none
  eventEnd := none
  posIdx := some 0
  pos := ⟨0, 0⟩
  parsing := .INITIALIZED
  final := false
  child := false
  paramEntity := false
  conf := ⟨encoding, false, false, .never⟩

/-- What comes back from a call: the value returned, the bytes a processor was given and the handler
calls it made, and the parser afterwards. -/
structure Ret (σ ρ : Type) where
  val : ρ
  shown : Option Buf := none
  calls : List Ev := []
  st : Parser σ

/-- `m_processor(self, buf, &mut ptr)`, on the bytes of the buffer from `m_bufferStart`. -/
def process (p : Parser σ) (b : Buf) : Done σ :=
  if p.failed then
    -- 7134-7140 `errorProcessor`
    ⟨[], 0, p.error, p.inner, p.parsing, 0, 0⟩
  else E.proc p.conf p.inner p.final b

/-- The parser when a processor has returned, apart from `m_bufferStart`. -/
def returned (p : Parser σ) (d : Done σ) : Parser σ :=
  { p with
    inner := d.inner, error := d.code, parsing := d.parsing,
    event := if p.failed then p.event else some (p.start + d.event),
    eventEnd := if p.failed then p.eventEnd else some (p.start + d.eventEnd) }

/-- 2653-2655, 2722-2726, 2950-2954. -/
def fail (p : Parser σ) : Parser σ := { p with eventEnd := p.event, failed := true }

/-- `updatePosition(m_buffer[m_positionIdx.unwrap()..m_bufferStart])` and
`m_positionIdx = Some(m_bufferStart)`; `none` is a panic. -/
def advancePos (p : Parser σ) : Option (Parser σ) :=
  match p.posIdx with
  | none => none
  | some i =>
    if p.start < i ∨ p.buffer.length < p.start then none else
    match E.upd p.inner ((p.buffer.take p.start).drop i) p.pos with
    | none => none
    | some q => some { p with pos := q, posIdx := some p.start }

/-- 2586-2603, 2689-2704: the checks of the status at the start of `parse` and `parseBuffer`;
`.inl` is the return with XML_STATUS_ERROR. -/
def admit (p : Parser σ) : Parser σ ⊕ Parser σ :=
  match p.parsing with
  | .SUSPENDED => .inl { p with error := some .SUSPENDED }
  | .FINISHED => .inl { p with error := some .FINISHED }
  | .INITIALIZED =>
    if p.child then .inr { p with parsing := .PARSING } else
    match E.start p.conf p.inner with
    | none => .inl { p with error := some .NO_MEMORY }
    | some s => .inr { p with inner := s, parsing := .PARSING }
  | .PARSING => .inr p

/-- 2722-2746, 2950-2978: what `parseBuffer` and `resumeParser` do when the processor has returned;
`b` are the bytes it was given. -/
def conclude (q : Parser σ) (b : Buf) (d : Done σ) : Option (Ret σ Status) :=
  match d.code with
  | some _ => some { val := .ERROR, shown := b, calls := d.calls, st := fail q }
  | none =>
    if (d.parsing = .INITIALIZED ∨ d.parsing = .PARSING) ∧ q.final = true then
      some { val := .OK, shown := b, calls := d.calls, st := { q with parsing := .FINISHED } }
    else
      (advancePos E q).map fun q' =>
        { val := if d.parsing = .SUSPENDED then .SUSPENDED else .OK, shown := b, calls := d.calls, st := q' }

/-- 2622-2655: the same in `parse` without new bytes. -/
def concludeFinal (q : Parser σ) (b : Buf) (d : Done σ) : Option (Ret σ Status) :=
  match d.code with
  | some _ => some { val := .ERROR, shown := b, calls := d.calls, st := fail q }
  | none =>
    if d.parsing = .SUSPENDED then
      (advancePos E q).map fun q' => { val := .SUSPENDED, shown := b, calls := d.calls, st := q' }
    else some { val := .OK, shown := b, calls := d.calls, st := { q with parsing := .FINISHED } }

/-- 2710-2714: `n` bytes more. -/
def extend (p : Parser σ) (n : Nat) (final : Bool) : Parser σ :=
  { p with posIdx := some p.start, stop := p.stop + n, endIdx := p.stop + n,
           endByte := p.endByte + n, final := final }

/-- 2707-2721 `parseBuffer` after the checks: `n` bytes have been written to the buffer after
`m_bufferEnd`.  `none` is a panic (also if `n` is more than the room in the buffer). -/
def parseBufferGo (p : Parser σ) (n : Nat) (final : Bool) : Option (Ret σ Status) :=
  let p := extend p n final
  if p.buffer.length < p.stop ∨ p.stop < p.start then none else
  let b := (p.buffer.take p.stop).drop p.start
  let d := process E p b
  conclude E { returned p d with start := p.start + d.used } b d

/-- XML_ParseBuffer. -/
def parseBuffer (p : Parser σ) (n : Nat) (final : Bool) : Option (Ret σ Status) :=
  match admit E p with
  | .inl q => some { val := .ERROR, st := q }
  | .inr q => parseBufferGo E q n final

/-- 2809-2818: double until there is room; `none` is the overflow of `c_int`. -/
def grow (size needed : Nat) : Option Nat :=
  if size < needed then
    if 2 * size < 2 ^ 31 then
      if 0 < size then grow (2 * size) needed else none
    else none
  else some size
termination_by needed - size

/-- 2765-2841 XML_GetBuffer.  The value is the room: the length of `m_buffer[m_bufferEnd..]`, or
`none` for a null pointer. -/
def getBuffer (p : Parser σ) (len : Int) : Option (Ret σ (Option Nat)) :=
  if len < 0 then some { val := none, st := { p with error := some .NO_MEMORY } } else
  if p.parsing = .SUSPENDED then some { val := none, st := { p with error := some .SUSPENDED } } else
  if p.parsing = .FINISHED then some { val := none, st := { p with error := some .FINISHED } } else
  let n := len.toNat
  if p.buffer.length < p.stop then none else
  if n ≤ p.buffer.length - p.stop then some { val := some (p.buffer.length - p.stop), st := p } else
  if p.stop < p.start ∨ 2 ^ 31 ≤ p.stop - p.start then none else
  if 2 ^ 31 ≤ n + (p.stop - p.start) then some { val := none, st := { p with error := some .NO_MEMORY } } else
  let keep := min 1024 p.start
  let needed := n + (p.stop - p.start) + keep
  let forget (q : Parser σ) : Parser σ := { q with event := none, eventEnd := none, posIdx := none }
  if needed ≤ p.buffer.length then
    let q := if keep < p.start then
        let off := p.start - keep
        { p with
          buffer := (p.buffer.take p.stop).drop off ++ p.buffer.drop (p.stop - off)
          start := p.start - off, stop := p.stop - off }
      else p
    some { val := some (q.buffer.length - q.stop), st := forget q }
  else
    let size0 := if p.buffer.length - p.start = 0 then 1024 else p.buffer.length - p.start
    if 2 ^ 31 ≤ size0 then none else
    match grow size0 needed with
    | none => some { val := none, st := { p with error := some .NO_MEMORY } }
    | some size =>
      if size < p.buffer.length then none else
      if !E.alloc size then some { val := none, st := { p with error := some .NO_MEMORY } } else
      let big := p.buffer ++ List.replicate (size - p.buffer.length) 0
      let q := if p.start < p.stop then
          { p with
            buffer := (big.take p.stop).drop (p.start - keep) ++ big.drop (p.stop - (p.start - keep))
            start := keep, stop := p.stop - p.start + keep }
        else { p with buffer := big, start := 0, stop := 0 }
      some { val := some (q.buffer.length - q.stop), st := forget q }

/-- The application (or `parse`) writes `w` to the start of the room. -/
def write (p : Parser σ) (w : Buf) : Parser σ :=
  { p with buffer := p.buffer.take p.stop ++ w ++ p.buffer.drop (p.stop + w.length) }

/-- 2609-2610: no more bytes. -/
def atEnd (p : Parser σ) : Parser σ := { p with posIdx := some p.start, endIdx := p.stop }

/-- 2581-2665 `parse` with arguments XML_Parse lets through: `w` is `s[..len]`. -/
def parse (p : Parser σ) (w : Buf) (final : Bool) : Option (Ret σ Status) :=
  match admit E p with
  | .inl q => some { val := .ERROR, st := q }
  | .inr p =>
    if w.length = 0 then
      let p := { p with final := final }
      if final = false then some { val := .OK, st := p } else
      let p := atEnd p
      if p.buffer.length < p.stop ∨ p.stop < p.start then none else
      let b := (p.buffer.take p.stop).drop p.start
      let d := process E p b
      concludeFinal E { returned p d with start := p.start + d.used } b d
    else
      match getBuffer E p w.length with
      | none => none
      | some ⟨none, _, _, q⟩ => some { val := .ERROR, st := q }
      | some ⟨some room, _, _, q⟩ =>
        if room < w.length then none else parseBuffer E (write q w) w.length final

/-- 2668-2683 XML_Parse with `len < 0`, or with a null pointer and `len ≠ 0`. -/
def parseBad (p : Parser σ) : Ret σ Status :=
  { val := .ERROR, st := { p with error := some .INVALID_ARGUMENT } }

/-- 2889-2915 `stopParser`. -/
def stopParser (p : Parser σ) (resumable : Bool) : Ret σ Status :=
  match p.parsing with
  | .SUSPENDED =>
    if resumable then { val := .ERROR, st := { p with error := some .SUSPENDED } }
    else { val := .OK, st := { p with parsing := .FINISHED } }
  | .FINISHED => { val := .ERROR, st := { p with error := some .FINISHED } }
  | _ =>
    if resumable then
      if p.paramEntity then { val := .ERROR, st := { p with error := some .SUSPEND_PE } }
      else { val := .OK, st := { p with parsing := .SUSPENDED } }
    else { val := .OK, st := { p with parsing := .FINISHED } }

/-- 2938-2979 `resumeParser`.  `&self.m_buffer[self.m_bufferStart]` panics at the end of the buffer,
and the pointer the processor returns is dropped: `m_bufferStart` stays as it is. -/
def resumeParser (p : Parser σ) : Option (Ret σ Status) :=
  if p.parsing ≠ .SUSPENDED then some { val := .ERROR, st := { p with error := some .NOT_SUSPENDED } } else
  let p := { p with parsing := .PARSING }
  if p.buffer.length < p.endIdx ∨ p.endIdx < p.start ∨ p.buffer.length ≤ p.start then none else
  let b := (p.buffer.take p.endIdx).drop p.start
  let d := process E p b
  conclude E (returned p d) b d

/-- 1828-1864 `reset`: `init`, with the encoding name given; `m_buffer`, `m_ns_triplets` and
`finalBuffer` are left as they are.  The value is the XML_Bool returned. -/
def reset (p : Parser σ) (encoding : Option Buf) : Ret σ Bool :=
  if p.child then { val := false, st := p } else
  { val := true
    st := { create E encoding with
      buffer := p.buffer, final := p.final
      conf := { (create E encoding).conf with triplets := p.conf.triplets } } }

/-- The guard of the setters (1888-1893, 2125-2130, 2152-2157, 2550-2555). -/
def busy (p : Parser σ) : Bool := p.parsing = .PARSING ∨ p.parsing = .SUSPENDED

/-- 1883-1905 XML_SetEncoding. -/
def setEncoding (p : Parser σ) (name : Option Buf) : Ret σ Status :=
  if busy p then { val := .ERROR, st := p }
  else { val := .OK, st := { p with conf := { p.conf with encoding := name } } }

/-- 2118-2134 XML_UseForeignDTD. -/
def useForeignDtd (p : Parser σ) (use : Bool) : Ret σ (Option XErr) :=
  if busy p then { val := some .CANT_CHANGE_FEATURE_ONCE_PARSING, st := p }
  else { val := none, st := { p with conf := { p.conf with foreignDtd := use } } }

/-- 2148-2161 XML_SetReturnNSTriplet. -/
def setTriplets (p : Parser σ) (on : Bool) : Ret σ Unit :=
  if busy p then { val := (), st := p }
  else { val := (), st := { p with conf := { p.conf with triplets := on } } }

/-- 2543-2560 XML_SetParamEntityParsing. -/
def setPe (p : Parser σ) (pe : PePolicy) : Ret σ Nat :=
  if busy p then { val := 0, st := p }
  else { val := 1, st := { p with conf := { p.conf with pe := pe } } }

/-- 3100-3119, 3120-3140: what XML_GetCurrentLineNumber and XML_GetCurrentColumnNumber do before
they read `m_position`; `none` is a panic. -/
def locate (p : Parser σ) : Option (Parser σ) :=
  match p.posIdx with
  | none => none
  | some i =>
    match p.event with
    | none => some p
    | some j =>
      if i ≤ j then
        if p.buffer.length < j then none else
        match E.upd p.inner ((p.buffer.take j).drop i) p.pos with
        | none => none
        | some q => some { p with pos := q, posIdx := some j }
      else some p

/-- XML_GetCurrentLineNumber. -/
def lineNumber (p : Parser σ) : Option (Ret σ Nat) := (locate E p).map fun q => { val := q.pos.line + 1, st := q }

/-- XML_GetCurrentColumnNumber. -/
def columnNumber (p : Parser σ) : Option (Ret σ Nat) := (locate E p).map fun q => { val := q.pos.col, st := q }

/-- 3018-3030 XML_GetCurrentByteIndex, with `buffer_index` (851-859), which refuses the end of the
buffer.  `none` is a panic. -/
def byteIndex (p : Parser σ) : Option Int :=
  match p.event with
  | none => some (-1)
  | some j =>
    if j < p.buffer.length then
      if p.endIdx < j ∨ p.endByte < p.endIdx - j then none
      else some (p.endByte - (p.endIdx - j) : Nat)
    else none

/-- 3034-3044 XML_GetCurrentByteCount. -/
def byteCount (p : Parser σ) : Int :=
  match p.eventEnd, p.event with
  | some j, some i => (j : Int) - i
  | _, _ => 0

/-- The calls of an application. -/
inductive Call where
  | parse (w : Buf) (final : Bool)
  | parseBad
  | getBuffer (len : Int)
  /-- the application writes `w` to the buffer it got and calls XML_ParseBuffer -/
  | parseBuffer (w : Buf) (final : Bool)
  | stop (resumable : Bool)
  | resume
  | reset (encoding : Option Buf)
  | setEncoding (name : Option Buf)
  | useForeignDtd (use : Bool)
  | setTriplets (on : Bool)
  | setPe (pe : PePolicy)
  | lineNumber
  | columnNumber
  | byteIndex
  | byteCount
  | getError
deriving DecidableEq, Repr

/-- The values the calls return. -/
inductive Val where
  | status (s : Status)
  /-- whether the pointer is not null -/
  | pointer (ok : Bool)
  | bool (b : Bool)
  | code (c : Option XErr)
  | num (n : Int)
  | unit
deriving DecidableEq, Repr

def Ret.as {α β : Type} (r : Ret σ α) (f : α → β) : Ret σ β := { r with val := f r.val }

/-- One call; `none` is a panic. -/
def step (p : Parser σ) : Call → Option (Ret σ Val)
  | .parse w final => (parse E p w final).map (·.as .status)
  | .parseBad => some ((parseBad p).as .status)
  | .getBuffer len => (getBuffer E p len).map (·.as fun r => .pointer r.isSome)
  | .parseBuffer w final => (parseBuffer E (write p w) w.length final).map (·.as .status)
  | .stop r => some ((stopParser p r).as .status)
  | .resume => (resumeParser E p).map (·.as .status)
  | .reset enc => some ((reset E p enc).as .bool)
  | .setEncoding n => some ((setEncoding p n).as .status)
  | .useForeignDtd u => some ((useForeignDtd p u).as .code)
  | .setTriplets b => some ((setTriplets p b).as fun _ => .unit)
  | .setPe x => some ((setPe p x).as fun n => .num n)
  | .lineNumber => (lineNumber E p).map (·.as fun n => .num n)
  | .columnNumber => (columnNumber E p).map (·.as fun n => .num n)
  | .byteIndex => (byteIndex p).map fun n => { val := .num n, st := p }
  | .byteCount => some { val := .num (byteCount p), st := p }
  | .getError => some { val := .code p.error, st := p }

/-- A sequence of calls: what each of them returned, and the parser after the last of them. -/
def steps (p : Parser σ) : List Call → Option (List (Ret σ Val) × Parser σ)
  | [] => some ([], p)
  | c :: cs =>
    match step E p c with
    | none => none
    | some r =>
      match steps r.st cs with
      | none => none
      | some (rs, q) => some (r :: rs, q)

end Verif.Api
