import Verif.Props.C40

/-! Handlers that stop the parser while the text of an internal entity is parsed: the list of open entities, and
`internalEntityProcessor` (src/lib/xmlparse.rs:6955-7131). -/

set_option autoImplicit false

namespace Verif.Api
open Verif

variable {α : Type}

/-- An `OpenInternalEntity`: the entity, what `processed` says is left of its text, and `startTagLevel`.  (`processed` is a field
of the entity; an entity is in the list once at most.) -/
structure OpenEnt where
  name : Buf
  rest : Buf
  level : Nat
deriving DecidableEq, Repr

/-- `m_openInternalEntities`, the innermost entity first; the entities whose `open` is set; whether `m_processor` is
`internalEntityProcessor`. -/
structure Ents where
  stack : List OpenEnt
  opened : List Buf
  inside : Bool
deriving DecidableEq, Repr

def Ents.closed : Ents := ⟨[], [], false⟩

/-- The entity's `processed` is set to where its rest begins. -/
def Ents.keep (u : Ents) (n rest : Buf) : Ents :=
  { u with stack := u.stack.map fun o => if o.name = n then { o with rest := rest } else o }

/-- What is parsed; the application; `m_parsingStatus.parsing`; the open entities. -/
abbrev SState (α : Type) := CState × α × Stop × Ents

/-- Whether a reference (`actEntityRef`) is to an internal entity that is to be expanded: its name and text. -/
def expands (c : Cfg) (D : Dtd) (x : XEnc) (opened : List Buf) (w : Buf) : Option (Buf × Buf) :=
  if predefinedEntityName x.e (refName x.e w) ≠ 0 then .none else
  let name := C43.converted x (refName x.e w)
  match D.entity name with
  | .none => .none
  | some ent =>
    if D.mustDeclare && !ent.isInternal then .none
    else if name ∈ opened then .none
    else if ent.notation_.isSome then .none
    else match ent.text with
      | some t => if c.expandInternal then some (name, t) else .none
      | .none => .none

/-- 6955-7046 `processInternalEntity`, for a general entity; `doContent` on its text is `inner`.  The entity that is closed is taken
off the list together with all that was opened after it (7036: the list becomes what it was when the entity was opened). -/
def enter (inner : SState α → Verif.Ran (SState α)) (n t : Buf) (s : SState α) : List Ev × Except XErr (SState α) :=
  let u := s.2.2.2
  match inner (s.1, s.2.1, s.2.2.1, { u with stack := ⟨n, t, s.1.level⟩ :: u.stack, opened := n :: u.opened }) with
  | (E, .err c) => (E, .error c)
  | (E, .ok (s', a', k, u') rest) =>
    if rest ≠ [] ∧ k = .suspend then (E, .ok (s', a', k, { u'.keep n rest with inside := true }))
    else (E, .ok (s', a', k, { u' with stack := u.stack, opened := u'.opened.erase n }))

/-- What the loops do for a token, with handlers that may stop the parser; the handlers' requests are looked at after each token, also in the
text of an entity. -/
def semS (c : Cfg) (D : Dtd) (int : XEnc) (app : App α) : Nat → XEnc → Nat → Sem (SState α)
  | 0, x, start =>
    { mode := fun s => s.1.mode
      act := fun s t w =>
        match act c D int x s.2.2.2.opened start (fun _ _ _ => ([], .error .DIVERGED)) s.1 t w with
        | (E, .error c) => (E, .error c)
        | (E, .ok s') => let y := app.tell (s.2.1, s.2.2.1) E; (E, .ok (s', y.1, y.2, s.2.2.2))
      stop := fun s => s.2.2.1
      fin := fun s => (semOf c D int x [] start fun _ _ _ => ([], .error .DIVERGED)).fin s.1 }
  | k + 1, x, start =>
    { mode := fun s => s.1.mode
      act := fun s t w =>
        match if t = .ENTITY_REF then expands c D x s.2.2.2.opened w else .none with
        | some (n, txt) => enter (fun s' => run (semS c D int app k int s.1.level) int.e false false s' txt) n txt s
        | .none =>
          match act c D int x s.2.2.2.opened start (fun _ _ _ => ([], .error .DIVERGED)) s.1 t w with
          | (E, .error c) => (E, .error c)
          | (E, .ok s') => let y := app.tell (s.2.1, s.2.2.1) E; (E, .ok (s', y.1, y.2, s.2.2.2))
      stop := fun s => s.2.2.1
      fin := fun s => (semOf c D int x [] start fun _ _ _ => ([], .error .DIVERGED)).fin s.1 }

/-- `doContent` is called next.  (The end of the root element is never in an entity, so that the epilog does not matter.) -/
def toContent (s : CState) : CState := { s with mode := if s.mode = .cdata then .content else s.mode }

/-- The contents of a state of the parser between calls. -/
abbrev Between (α : Type) := CState × α × Ents

/-- What a processor that has returned leaves behind. -/
def given (s : Between α) (b : Buf) : Verif.Ran (SState α) → Done (Between α)
  | (E, .ok s' rest) => ⟨E, b.length - rest.length, .none, (s'.1, s'.2.1, s'.2.2.2), s'.2.2.1.parsing, b.length - rest.length, b.length - rest.length⟩
  | (E, .err c) => ⟨E, 0, some c, s, if c = .ABORTED then .FINISHED else .PARSING, 0, 0⟩

/-- 7049-7131 `internalEntityProcessor`, for a general entity: the rest of the innermost entity's text is given to `doContent` (also
if a CDATA section was being read), then the rest of the document (whatever entities are open, and without a look at the
parsing status).  `*nextPtr` is not set if the parser is suspended in the entity; XML_ResumeParser, the only caller, does not look at it.
A call of `storeRawNames`, which `contentProcessor` makes, is missing here (names are copied in the model). -/
def internalProc (c : Cfg) (D : Dtd) (int x : XEnc) (app : App α) (fuel : Nat) (final : Bool) (s : Between α) (b : Buf) : Verif.Ran (SState α) :=
  match s.2.2.stack with
  | [] => ([], .err .UNEXPECTED_STATE)
  | o :: stack =>
    match run (semS c D int app (fuel - (stack.length + 1)) int o.level) int.e false false (toContent s.1, s.2.1, .go, s.2.2) o.rest with
    | (E, .err c) => (E, .err c)
    | (E, .ok (s', a', k, u) rest) =>
      if rest ≠ [] ∧ k = .suspend then (E, .ok (s', a', k, u.keep o.name rest) b)
      else
        pre E (run (semS c D int app fuel x 0) x.e (!final) false
          (toContent s', a', k, { stack := stack, opened := u.opened.erase o.name, inside := false }) b)

/-- The processors from the root element's start tag on, as in `contentEngine`, with entities. -/
def suspendEngine (c : Cfg) (D : Dtd) (int x : XEnc) (app : App α) (a0 : α) (alloc : Nat → Bool) : Engine (Between α) where
  init := (CState.init, a0, .closed)
  start _ s := some s
  proc _ s final b :=
    given s b (if s.2.2.inside then internalProc c D int x app D.fuel final s b
      else call (semS c D int app D.fuel x 0) x.e (!final) (s.1, s.2.1, .go, s.2.2) b)
  upd _ b p := updatePosition x.e b p
  alloc := alloc

end Verif.Api
