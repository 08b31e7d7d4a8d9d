import Verif.Atts

/-! The DTD as a structure with pointers in it, and how the parser for an external general entity gets a copy.

Pointers to entries of a table (boxes, which stay where they are until the DTD is dropped) are written as
the keys of the entries.  A pointer to the field `defaultPrefix` of a DTD is an address: that of the DTD. -/

set_option autoImplicit false

namespace Verif.Clone
open Verif

/-- `*mut Prefix`: an entry of the table `prefixes`, or the field `defaultPrefix` of the DTD at an address. -/
inductive PRef where
  | named (n : Buf)
  | field (addr : Nat)
deriving DecidableEq, Repr

/-- `AttributeId` (src/lib/xmlparse.rs:855-935). -/
structure AttId where
  name : Buf
  maybeTokenized : Bool
  xmlns : Bool
  pre : Option PRef
deriving DecidableEq, Repr

/-- `DefaultAttribute`; `id` is a pointer to an entry of `attributeIds`. -/
structure DefAtt where
  id : Buf
  isCdata : Bool
  value : Option Buf
deriving DecidableEq, Repr

/-- `ElementType`; `idAtt` and `pre` are pointers to entries of `attributeIds` and `prefixes`. -/
structure ElemType where
  name : Buf
  idAtt : Option Buf
  pre : Option Buf
  defaults : List DefAtt
deriving DecidableEq, Repr

/-- `Entity` (src/lib/xmlparse.rs:1393-1405); `β` is the type of pointers to base URIs. -/
structure Ent (β : Type) where
  name : Buf
  text : Option Buf
  systemId : Option Buf
  base : Option β
  publicId : Option Buf
  notation_ : Option Buf
  isParam : Bool
  isInternal : Bool
deriving DecidableEq, Repr

/-- The cells of a DTD that are no tables. -/
structure Cells where
  keepProcessing : Bool := true
  hasParamEntityRefs : Bool := false
  standalone : Bool := false
  paramEntityRead : Bool := false
  inEldecl : Bool := false
  contentStringLen : Nat := 0
deriving DecidableEq, Repr

/-- `DTD` (src/lib/xmlparse.rs:1082-1114) at the address `addr`.  The tables are lists in the order in which
they happen to be iterated. -/
structure DTD (β : Type) where
  addr : Nat
  prefixes : List Buf
  atts : List AttId
  elems : List ElemType
  gen : List (Ent β)
  par : List (Ent β)
  cells : Cells

section
variable {α : Type} {β : Type}

/-- `hash_lookup!` (1073-1078). -/
def find (key : α → Buf) (t : List α) (n : Buf) : Option α := t.find? fun a => key a = n

/-- `hash_insert!` (1046-1071) of a new entry, and whether it was inserted. -/
def insert (key : α → Buf) (t : List α) (a : α) : List α × Bool :=
  match find key t (key a) with
  | some _ => (t, false)
  | none => (t ++ [a], true)

def DTD.att (D : DTD β) (n : Buf) : Option AttId := find AttId.name D.atts n
def DTD.elem (D : DTD β) (n : Buf) : Option ElemType := find ElemType.name D.elems n
def DTD.general (D : DTD β) (n : Buf) : Option (Ent β) := find Ent.name D.gen n
def DTD.param (D : DTD β) (n : Buf) : Option (Ent β) := find Ent.name D.par n

/-! ### What fills the tables -/

/-- `DTD::try_new` (1117-1131). -/
def DTD.empty (addr : Nat) : DTD β := ⟨addr, [], [], [], [], [], {}⟩

def DTD.addPrefix (D : DTD β) (p : Buf) : DTD β := { D with prefixes := (insert id D.prefixes p).1 }

/-- `getAttributeId` (7823-7913): a name met for the first time is classified (`attKind`). -/
def DTD.getAttributeId (ns : Bool) (D : DTD β) (n : Buf) : DTD β :=
  match D.att n with
  | some _ => D
  | none =>
    match attKind ns n with
    | .plain => { D with atts := D.atts ++ [⟨n, false, false, none⟩] }
    | .xmlns none => { D with atts := D.atts ++ [⟨n, false, true, some (.field D.addr)⟩] }
    | .xmlns (some p) => { D.addPrefix p with atts := D.atts ++ [⟨n, false, true, some (.named p)⟩] }
    | .prefixed p => { D.addPrefix p with atts := D.atts ++ [⟨n, false, false, some (.named p)⟩] }

/-- `getElementType` (8301-8329) with `setElementTypePrefix` (7781-7821). -/
def DTD.getElementType (D : DTD β) (n : Buf) : DTD β :=
  match D.elem n with
  | some _ => D
  | none =>
    match splitColon n with
    | none => { D with elems := D.elems ++ [⟨n, none, none, []⟩] }
    | some (p, _) => { D.addPrefix p with elems := D.elems ++ [⟨n, none, some p, []⟩] }

/-- `defineAttribute` (7747-7778) on an entry. -/
def ElemType.define (e : ElemType) (a : AttId) (isCdata isId : Bool) (value : Option Buf) : ElemType :=
  if (value.isSome ∨ isId) ∧ e.defaults.any (·.id = a.name) then e else
  { e with
    idAtt := if isId ∧ e.idAtt = none ∧ a.xmlns = false then some a.name else e.idAtt
    defaults := e.defaults ++ [⟨a.name, isCdata, value⟩] }

/-- `defineAttribute` for the element `n` and the attribute `m`. -/
def DTD.defineAttribute (D : DTD β) (n m : Buf) (isCdata isId : Bool) (value : Option Buf) : DTD β :=
  match D.att m with
  | none => D
  | some a =>
    { D with
      elems := D.elems.map fun e => if e.name = n then e.define a isCdata isId value else e
      atts := if isCdata then D.atts else D.atts.map fun b => if b.name = m then { b with maybeTokenized := true } else b }

/-! ### The copy -/

/-- The base of an entity and the cache after it (8167-8179). -/
def copyBase [DecidableEq β] (str : β → Buf) (cached : Option (β × Buf)) : Option β → Option Buf × Option (β × Buf)
  | none => (none, cached)
  | some b =>
    match cached with
    | none => (some (str b), some (b, str b))
    | some (b', s) => if b = b' then (some s, cached) else (some (str b), some (b, str b))

/-- `copyEntityTable` (8142-8206): `str` is what a pointer shows; the last base copied is remembered by its
address.  `none`: the assertion fails. -/
def copyEntities [DecidableEq β] (str : β → Buf) (cached : Option (β × Buf)) :
    List (Ent Buf) → List (Ent β) → Option (List (Ent Buf))
  | new, [] => some new
  | new, e :: es =>
    let base := copyBase str cached e.base
    let ext := e.systemId.isSome
    let e' : Ent Buf :=
      { name := e.name
        text := if ext then none else some (e.text.getD [])
        systemId := e.systemId
        base := if ext then base.1 else none
        publicId := if ext then e.publicId else none
        notation_ := e.notation_
        isParam := e.isParam
        isInternal := e.isInternal }
    match insert Ent.name new e' with
    | (_, false) => none
    | (new, true) => copyEntities str (if ext then base.2 else cached) new es

/-- The attributes (1199-1226): `here` is the address of the new DTD while it is being filled. -/
def copyAtts (old here : Nat) (prefixes : List Buf) : List AttId → List AttId → Option (List AttId)
  | new, [] => some new
  | new, a :: as =>
    let a' : AttId :=
      { name := a.name
        maybeTokenized := a.maybeTokenized
        xmlns := if a.pre = none then false else a.xmlns
        pre := match a.pre with
          | none => none
          | some (.field x) => if x = old then some (.field here) else none
          | some (.named p) => (find id prefixes p).map .named }
    match insert AttId.name new a' with
    | (_, false) => none
    | (new, true) => copyAtts old here prefixes new as

/-- The element types (1228-1269). -/
def copyElems (prefixes : List Buf) (atts : List AttId) : List ElemType → List ElemType → Option (List ElemType)
  | new, [] => some new
  | new, e :: es =>
    let e' : ElemType :=
      { name := e.name
        idAtt := e.idAtt.bind fun i => (find AttId.name atts i).map (·.name)
        pre := e.pre.bind fun p => find id prefixes p
        defaults := e.defaults.map fun d =>
          { d with id := match find AttId.name atts d.id with | some a => a.name | none => [] } }
    match insert ElemType.name new e' with
    | (_, false) => none
    | (new, true) => copyElems prefixes atts new es

/-- `DTD::try_clone` (src/lib/xmlparse.rs:1157-1291); `here` is the address of its local variable `newDtd`. -/
def DTD.tryClone [DecidableEq β] (str : β → Buf) (here : Nat) (D : DTD β) : Option (DTD Buf) :=
  let prefixes := D.prefixes.foldl (fun t p => (insert id t p).1) []
  match copyAtts D.addr here prefixes [] D.atts with
  | none => none
  | some atts =>
    match copyElems prefixes atts [] D.elems with
    | none => none
    | some elems =>
      match copyEntities str none [] D.gen with
      | none => none
      | some gen =>
        match copyEntities str none [] D.par with
        | none => none
        | some par => some ⟨here, prefixes, atts, elems, gen, par, D.cells⟩

/-- A value of type `DTD` is moved: its bytes, pointers among them, are copied to another address. -/
def DTD.move (D : DTD β) (addr : Nat) : DTD β := { D with addr := addr }

/-- What XML_ExternalEntityParserCreate does for a general entity (1948-1954): the copy is returned from
`try_clone`, whose variables are gone then, and moved to the heap by `Rc::try_new`. -/
def child [DecidableEq β] (str : β → Buf) (stack heap : Nat) (D : DTD β) : Option (DTD Buf) :=
  (D.tryClone str stack).map fun D' => D'.move heap

/-! ### What the prefix of an attribute is for -/

/-- The entry of the environment that a declaration with this attribute sets (`addBinding`, 4756-4887, writes
`(*prefix).binding`): that of a named prefix, or the default one.  `none`: no entry of this parser. -/
def DTD.scope (D : DTD β) (a : AttId) : Option (Option Buf) :=
  match a.pre with
  | none => none
  | some (.named p) => some (some p)
  | some (.field x) => if x = D.addr then some none else none

/-- A start tag with the attribute `n` and the value `uri` (4348-4370): the environment after it. -/
def declare (ns : Bool) (D : DTD β) (env : Env) (n uri : Buf) : Env :=
  match (D.getAttributeId ns n).att n with
  | none => env
  | some a =>
    if a.xmlns then
      match (D.getAttributeId ns n).scope a with
      | none => env
      | some k => fun p => if p = k then (if k = none ∧ uri = [] then none else some uri) else env p
    else env

end

end Verif.Clone
