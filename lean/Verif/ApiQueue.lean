import Verif.Api

/-! A parser as a queue of bytes: the same calls without the buffer and its indices. -/

set_option autoImplicit false

namespace Verif.Api
open Verif

variable {σ : Type} (E : Engine σ)

/-- The parser without its buffer: the bytes supplied and not consumed, and the number of bytes
supplied in all. -/
structure Queue (σ : Type) where
  pending : Buf
  total : Nat
  failed : Bool
  inner : σ
  error : Option XErr
  parsing : Parsing
  final : Bool
  child : Bool
  paramEntity : Bool
  conf : Conf

/-- What a call on a queue gives. -/
structure QRet (σ : Type) where
  val : Val
  shown : Option Buf := none
  calls : List Ev := []
  st : Queue σ

namespace Queue

def refuse (a : Queue σ) (c : XErr) : QRet σ := { val := .status .ERROR, st := { a with error := some c } }

/-- The processor on the bytes `b`; an error is final. -/
def work (a : Queue σ) (b : Buf) : Done σ :=
  if a.failed then ⟨[], 0, a.error, a.inner, a.parsing, 0, 0⟩ else E.proc a.conf a.inner a.final b

/-- What follows when a processor has returned: an error is final, and at the end of the input the
parser has finished. -/
def settle (a : Queue σ) (b : Buf) (d : Done σ) : QRet σ :=
  match d.code with
  | some _ => { val := .status .ERROR, shown := b, calls := d.calls, st := { a with failed := true } }
  | none =>
    if d.parsing = .SUSPENDED then { val := .status .SUSPENDED, shown := b, calls := d.calls, st := a }
    else
      { val := .status .OK, shown := b, calls := d.calls
        st := { a with parsing := if a.final then .FINISHED else d.parsing } }

/-- Give the processor `b`; `keep`: what stays pending, given how much was used. -/
def give (a : Queue σ) (b : Buf) (keep : Nat → Buf) : QRet σ :=
  let d := work E a b
  settle { a with pending := keep d.used, inner := d.inner, error := d.code, parsing := d.parsing } b d

/-- Append `w` and parse. -/
def input (a : Queue σ) (w : Buf) (final : Bool) : QRet σ :=
  give E { a with total := a.total + w.length, final := final } (a.pending ++ w)
    fun n => (a.pending ++ w).drop n

/-- A parse call that the status allows. -/
def started (a : Queue σ) (k : Queue σ → QRet σ) : QRet σ :=
  match a.parsing with
  | .SUSPENDED => a.refuse .SUSPENDED
  | .FINISHED => a.refuse .FINISHED
  | .PARSING => k a
  | .INITIALIZED =>
    if a.child then k { a with parsing := .PARSING } else
    match E.start a.conf a.inner with
    | none => a.refuse .NO_MEMORY
    | some s => k { a with inner := s, parsing := .PARSING }

def idle (a : Queue σ) : Bool := a.parsing = .INITIALIZED ∨ a.parsing = .FINISHED

/-- One call; `mem`: there is memory for it.  The queries about the position are left out. -/
def step (mem : Bool) (a : Queue σ) : Call → QRet σ
  | .parse w final =>
    started E a fun a =>
      if w = [] ∧ final = false then { val := .status .OK, st := { a with final := false } }
      else if w ≠ [] ∧ mem = false then a.refuse .NO_MEMORY
      else input E a w final
  | .parseBad => a.refuse .INVALID_ARGUMENT
  | .getBuffer len =>
    if len < 0 then { val := .pointer false, st := { a with error := some .NO_MEMORY } } else
    match a.parsing with
    | .SUSPENDED => { val := .pointer false, st := { a with error := some .SUSPENDED } }
    | .FINISHED => { val := .pointer false, st := { a with error := some .FINISHED } }
    | _ =>
      if mem then { val := .pointer true, st := a }
      else { val := .pointer false, st := { a with error := some .NO_MEMORY } }
  | .parseBuffer w final => started E a fun a => input E a w final
  | .stop resumable =>
    match a.parsing, resumable with
    | .FINISHED, _ => a.refuse .FINISHED
    | .SUSPENDED, true => a.refuse .SUSPENDED
    | _, false => { val := .status .OK, st := { a with parsing := .FINISHED } }
    | _, true =>
      if a.paramEntity then a.refuse .SUSPEND_PE
      else { val := .status .OK, st := { a with parsing := .SUSPENDED } }
  | .resume =>
    if a.parsing = .SUSPENDED then give E { a with parsing := .PARSING } a.pending fun _ => a.pending
    else a.refuse .NOT_SUSPENDED
  | .reset enc =>
    if a.child then { val := .bool false, st := a } else
    { val := .bool true
      st := { pending := [], total := 0, failed := false, inner := E.init, error := none
              parsing := .INITIALIZED, final := a.final, child := false, paramEntity := false
              conf := ⟨enc, false, a.conf.triplets, .never⟩ } }
  | .setEncoding n =>
    if a.idle then { val := .status .OK, st := { a with conf := { a.conf with encoding := n } } }
    else { val := .status .ERROR, st := a }
  | .useForeignDtd u =>
    if a.idle then { val := .code none, st := { a with conf := { a.conf with foreignDtd := u } } }
    else { val := .code (some .CANT_CHANGE_FEATURE_ONCE_PARSING), st := a }
  | .setTriplets b =>
    if a.idle then { val := .unit, st := { a with conf := { a.conf with triplets := b } } }
    else { val := .unit, st := a }
  | .setPe x =>
    if a.idle then { val := .num 1, st := { a with conf := { a.conf with pe := x } } }
    else { val := .num 0, st := a }
  | .getError => { val := .code a.error, st := a }
  | .lineNumber | .columnNumber | .byteIndex | .byteCount => { val := .unit, st := a }

end Queue

/-- The queue of a parser. -/
def Parser.queue (p : Parser σ) : Queue σ where
  pending := (p.buffer.take p.stop).drop p.start
  total := p.endByte
  failed := p.failed
  inner := p.inner
  error := p.error
  parsing := p.parsing
  final := p.final
  child := p.child
  paramEntity := p.paramEntity
  conf := p.conf

/-- What processors keep to: they consume no more than they are given, point into what they are
given, and the status is never INITIALIZED again. -/
structure Engine.Lawful : Prop where
  used : ∀ c s f b, (E.proc c s f b).used ≤ b.length
  event : ∀ c s f b, (E.proc c s f b).event ≤ b.length
  parsing : ∀ c s f b, (E.proc c s f b).parsing ≠ .INITIALIZED

/-- What holds between calls. -/
structure Inv (p : Parser σ) : Prop where
  start : p.start ≤ p.stop
  stop : p.stop ≤ p.buffer.length
  size : p.buffer.length < 2 ^ 31
  endIdx : p.parsing = .SUSPENDED → p.endIdx = p.stop
  failed : p.failed = true → p.error ≠ none
  total : p.stop ≤ p.endByte
  event : ∀ j, p.event = some j → j ≤ p.stop ∧ p.endIdx = p.stop

/-- What the documentation asks of the application: lengths are those of a C `int`, XML_ParseBuffer
is for no more bytes than there is room for, and XML_StopParser with `resumable` is for handlers. -/
def Contract (p : Parser σ) : Call → Prop
  | .parse w _ => w.length < 2 ^ 31
  | .parseBuffer w _ => w.length ≤ p.buffer.length - p.stop
  | .stop resumable => resumable = false
  | .getBuffer len => len < 2 ^ 31
  | _ => True

end Verif.Api
