import Verif.RawNames
import Verif.AttsLemmas
import Verif.XmlDecl

/-! The names of elements in namespaces as they lie in memory: the name handed to the handlers is composed
in the buffer of the URI of the binding, which all elements that use the binding share; bindings that have
gone out of scope are used again; buffers move when they grow. -/

set_option autoImplicit false

namespace Verif.Uri
open Verif

/-- `Binding` (src/lib/xmlparse.rs:862-873) without `attId`; `uri` is the address of a buffer, `prev`
(`prevPrefixBinding`) the number of a binding.  `nextTagBinding` is in the lists `UTag.binds` and
`UState.free`. -/
structure PBind where
  pre : Option Buf
  uri : Nat
  uriLen : Nat
  uriAlloc : Nat
  prev : Option Nat
deriving DecidableEq, Repr

/-- `Tag` with its `TagName`: `str` is the address of the buffer of a binding, or none for the tag's own
buffer, which holds `raw`; `loc` is what `localPart`, a pointer into the tag's own buffer, shows
(that it goes on showing it is C80). -/
structure UTag where
  str : Option Nat
  raw : Buf
  loc : Option Buf
  uriLen : Nat
  pre : Option Buf
  binds : List Nat
deriving DecidableEq, Repr

/-- The memory, the bindings that exist, `m_freeBindingList`, `prefix.binding` of each prefix, `m_tagStack`. -/
structure UState where
  mem : Nat → Buf
  binds : List PBind
  free : List Nat
  env : Option Buf → Option Nat
  tags : List UTag

/-- What the allocator may do: a new buffer is none of those in use, and its bytes are any. -/
structure Heap where
  malloc : UState → Nat → Nat
  malloc_new : ∀ (s : UState) (n i : Nat) (b : PBind), s.binds[i]? = some b → malloc s n ≠ b.uri
  realloc : UState → Nat → Nat → Nat
  realloc_new : ∀ (s : UState) (i n j : Nat) (b : PBind), j ≠ i → s.binds[j]? = some b → realloc s i n ≠ b.uri
  junk : UState → Nat → Buf
  junk_length : ∀ s n, (junk s n).length = n

/-- Why parsing stops: a prefix is not bound; an end tag without a start tag; memory is written outside of
a buffer. -/
inductive Stop where
  | unbound
  | async
  | overflow
deriving DecidableEq, Repr

/-- `EXPAND_SPARE` (1496). -/
def spare : Nat := 24

def UState.put (s : UState) (a : Nat) (b : Buf) : UState := { s with mem := fun x => if x = a then b else s.mem x }

/-- Writing to a buffer. -/
def UState.write (s : UState) (a off : Nat) (v : Buf) : Except Stop UState :=
  if off + v.length ≤ (s.mem a).length then .ok (s.put a (Raw.poke (s.mem a) off v)) else .error .overflow

def setPtr (e : Option Buf → Option Nat) (p : Option Buf) (v : Option Nat) : Option Buf → Option Nat :=
  fun q => if q = p then v else e q

/-- `addBinding`, 4840-4862: a binding with room for `len` bytes. -/
def getBinding (H : Heap) (s : UState) (len : Nat) : UState × Nat :=
  match s.free with
  | i :: is =>
    match s.binds[i]? with
    | none => (s, i)
    | some b =>
      if len > b.uriAlloc then
        let a := H.realloc s i (len + spare)
        ({ s.put a (H.junk s (len + spare)) with
            binds := s.binds.set i { b with uri := a, uriAlloc := len + spare }, free := is }, i)
      else ({ s with free := is }, i)
  | [] =>
    let a := H.malloc s (len + spare)
    ({ s.put a (H.junk s (len + spare)) with binds := s.binds ++ [⟨none, a, 0, len + spare, none⟩] }, s.binds.length)

/-- `addBinding`, 4837-4886, after the checks. -/
def addBind (H : Heap) (c : Cfg) (s : UState) (p : Option Buf) (u : Buf) : Except Stop (UState × Nat) :=
  let len := u.length + (if c.sep = 0 then 0 else 1)
  let (s, i) := getBinding H s len
  match s.binds[i]? with
  | none => .error .overflow
  | some b =>
    match s.write b.uri 0 ((u ++ [0]).take len) with
    | .error e => .error e
    | .ok s =>
      match if c.sep = 0 then .ok s else s.write b.uri (len - 1) [c.sep] with
      | .error e => .error e
      | .ok s =>
        .ok ({ s with
          binds := s.binds.set i { b with pre := p, uriLen := len, prev := s.env p }
          env := setPtr s.env p (if p = none ∧ u = [] then none else some i) }, i)

/-- The declarations of a tag; the list is `*bindingsPtr`. -/
def addBinds (H : Heap) (c : Cfg) (s : UState) (bs : List Nat) : List (Option Buf × Buf) → Except Stop (UState × List Nat)
  | [] => .ok (s, bs)
  | (p, u) :: ds =>
    match addBind H c s p u with
    | .error e => .error e
    | .ok (s, i) => addBinds H c s (i :: bs) ds

/-- The name of an attribute (`storeAtts`, 4452-4530): copied to a pool byte by byte. -/
def attName (c : Cfg) (s : UState) (n : Buf) : Option Buf :=
  match attKind c.ns n, splitColon n with
  | .prefixed _, some (p, l) =>
    match s.env (some p) with
    | none => none
    | some i =>
      match s.binds[i]? with
      | none => none
      | some b => some (cstr ((s.mem b.uri).take b.uriLen ++ l ++ (if c.triplets then c.sep :: b.pre.getD [] else []) ++ [0]))
  | _, _ => some n

def attNames (c : Cfg) (s : UState) : List Buf → Option (List Buf)
  | [] => some []
  | n :: ns =>
    match attName c s n, attNames c s ns with
    | some m, some ms => some (m :: ms)
    | _, _ => none

/-- `prefixLen` (4687-4697): with the NUL. -/
def preLen (c : Cfg) (p : Option Buf) : Nat :=
  if c.triplets then (match p with | none => 0 | some p => p.length + 1) else 0

/-- 4709-4729: a larger buffer for the URI; names of open elements in the old one follow. -/
def growUri (H : Heap) (s : UState) (i : Nat) (b : PBind) (n : Nat) : UState :=
  let a := H.malloc s (n + spare)
  { s.put a (Raw.poke (H.junk s (n + spare)) 0 ((s.mem b.uri).take b.uriLen)) with
    binds := s.binds.set i { b with uri := a, uriAlloc := n + spare }
    tags := s.tags.map fun t => if t.str = some b.uri then { t with str := some a } else t }

/-- `storeAtts`, 4687-4747: the name `raw` with the local part `l` in the namespace of the binding `i`. -/
def place (H : Heap) (c : Cfg) (s : UState) (bs : List Nat) (i : Nat) (raw l : Buf) : Except Stop (UState × UTag) :=
  match s.binds[i]? with
  | none => .error .overflow
  | some b =>
    let n := l.length + 1 + b.uriLen + preLen c b.pre
    let s := if n > b.uriAlloc then growUri H s i b n else s
    match s.binds[i]? with
    | none => .error .overflow
    | some b =>
      match s.write b.uri b.uriLen (l ++ [0]) with
      | .error e => .error e
      | .ok s =>
        match if preLen c b.pre ≠ 0 then s.write b.uri (b.uriLen + l.length) (c.sep :: b.pre.getD [] ++ [0]) else .ok s with
        | .error e => .error e
        | .ok s => .ok (s, ⟨some b.uri, raw, some l, b.uriLen, b.pre, bs⟩)

/-- `storeAtts`, 4662-4747. -/
def nameTag (H : Heap) (c : Cfg) (s : UState) (bs : List Nat) (raw : Buf) : Except Stop (UState × UTag) :=
  if !c.ns then .ok (s, ⟨none, raw, none, 0, none, bs⟩) else
  match splitColon raw with
  | some (p, l) =>
    match s.env (some p) with
    | none => .error .unbound
    | some i => place H c s bs i raw l
  | none =>
    match s.env none with
    | none => .ok (s, ⟨none, raw, none, 0, none, bs⟩)
    | some i => place H c s bs i raw raw

/-- What a handler reads at `tag.name.str`. -/
def UState.shows (s : UState) (t : UTag) : Buf :=
  match t.str with
  | none => t.raw
  | some a => cstr (s.mem a)

/-- What handlers are given. -/
inductive Told where
  | start (n : Buf) (atts : List Buf)
  | stop (n : Buf)
deriving DecidableEq, Repr

/-- `storeAtts`: the declarations, the names of the attributes, the name of the element. -/
def openTag (H : Heap) (c : Cfg) (s : UState) (ds : List (Option Buf × Buf)) (as : List Buf) (raw : Buf) :
    Except Stop (UState × UTag × List Buf) :=
  match addBinds H c s [] ds with
  | .error e => .error e
  | .ok (s, bs) =>
    match attNames c s as with
    | none => .error .unbound
    | some as =>
      match nameTag H c s bs raw with
      | .error e => .error e
      | .ok (s, t) => .ok (s, t, as)

/-- The end of an element, 3983-4018: the local part and the prefix are written again. -/
def rewrite (c : Cfg) (s : UState) (t : UTag) : Except Stop UState :=
  match t.loc with
  | none => .ok s
  | some l =>
    if !c.ns then .ok s else
    match t.str with
    | none => .error .overflow
    | some a => s.write a t.uriLen (l ++ (if c.triplets && t.pre.isSome then c.sep :: t.pre.getD [] else []) ++ [0])

/-- 4025-4034 and `freeBindings` (4218-4229). -/
def release (s : UState) : List Nat → UState
  | [] => s
  | i :: is =>
    match s.binds[i]? with
    | none => release s is
    | some b => release { s with free := i :: s.free, env := setPtr s.env b.pre b.prev } is

/-- Start tags, empty elements and end tags; `told`: a handler for end tags is set. -/
inductive Op where
  | start (ds : List (Option Buf × Buf)) (as : List Buf) (raw : Buf)
  | empty (ds : List (Option Buf × Buf)) (as : List Buf) (raw : Buf)
  | stop (told : Bool)

/-- `doContent` (3782-4034), as far as names are concerned. -/
def UState.step (H : Heap) (c : Cfg) (s : UState) : Op → Except Stop (UState × List Told)
  | .start ds as raw =>
    match openTag H c s ds as raw with
    | .error e => .error e
    | .ok (s, t, as) => .ok ({ s with tags := t :: s.tags }, [.start (s.shows t) as])
  | .empty ds as raw =>
    match openTag H c s ds as raw with
    | .error e => .error e
    | .ok (s, t, as) => .ok (release s t.binds, [.start (s.shows t) as, .stop (s.shows t)])
  | .stop told =>
    match s.tags with
    | [] => .error .async
    | t :: ts =>
      let s := { s with tags := ts }
      if told then
        match rewrite c s t with
        | .error e => .error e
        | .ok s => .ok (release s t.binds, [.stop (s.shows t)])
      else .ok (release s t.binds, [])

def UState.run (H : Heap) (c : Cfg) (s : UState) : List Op → List Told × Option Stop
  | [] => ([], none)
  | o :: os =>
    match s.step H c o with
    | .error e => ([], some e)
    | .ok (s, E) => let r := s.run H c os; (E ++ r.1, r.2)

/-- A parser with the bindings of its context (`m_inheritedBindings`: `xml` at least). -/
def UState.empty : UState := ⟨fun _ => [], [], [], fun _ => none, []⟩

def runFrom (H : Heap) (c : Cfg) (ctx : List (Option Buf × Buf)) (os : List Op) : List Told × Option Stop :=
  match addBinds H c .empty [] ctx with
  | .error e => ([], some e)
  | .ok (s, _) => s.run H c os

/-! ### Without memory -/

/-- The namespaces in force, and for each open element its name and the namespaces around it. -/
structure SState where
  env : Env
  stack : List (TagName × Env)

def declared (env : Env) : List (Option Buf × Buf) → Env
  | [] => env
  | (p, u) :: ds => declared (env.set p (if p = none ∧ u = [] then none else some u)) ds

def expandAll (c : Cfg) (env : Env) : List Buf → Option (List Buf)
  | [] => some []
  | n :: ns =>
    match expanded c env n, expandAll c env ns with
    | some m, some ms => some (m :: ms)
    | _, _ => none

def SState.opened (c : Cfg) (s : SState) (ds : List (Option Buf × Buf)) (as : List Buf) (raw : Buf) :
    Except Stop (Env × TagName × List Buf) :=
  match expandAll c (declared s.env ds) as with
  | none => .error .unbound
  | some as =>
    match elemName c (declared s.env ds) raw with
    | .error _ => .error .unbound
    | .ok n => .ok (declared s.env ds, n, as)

def SState.step (c : Cfg) (s : SState) : Op → Except Stop (SState × List Told)
  | .start ds as raw =>
    match s.opened c ds as raw with
    | .error e => .error e
    | .ok (env, n, as) => .ok (⟨env, (n, s.env) :: s.stack⟩, [.start (n.full c) as])
  | .empty ds as raw =>
    match s.opened c ds as raw with
    | .error e => .error e
    | .ok (_, n, as) => .ok (s, [.start (n.full c) as, .stop (n.full c)])
  | .stop told =>
    match s.stack with
    | [] => .error .async
    | (n, env) :: st => .ok (⟨env, st⟩, if told then [.stop (n.full c)] else [])

def SState.run (c : Cfg) (s : SState) : List Op → List Told × Option Stop
  | [] => ([], none)
  | o :: os =>
    match s.step c o with
    | .error e => ([], some e)
    | .ok (s, E) => let r := s.run c os; (E ++ r.1, r.2)

end Verif.Uri
