import Verif.Entity

/-! Attributes and namespaces of a start tag: `storeAtts`, `addBinding`, `freeBindings`
(src/lib/xmlparse.rs:4218-4887).

Not modelled: allocation failure, the reuse of binding structures and of their `uri` buffers (a name
is a value here; the code composes it in the buffer of the binding and composes it again for the end
tag, 3981-4018), `m_eventPtr`, the `mozilla` feature. -/

namespace Verif
open C43

/-- src/lib/xmlparse.rs:911-917 `AttributeType`, the byte before an attribute name (`Namespace` is used
with the `mozilla` feature only). -/
inductive AFlag where
  | unset | normal | prefixed
deriving DecidableEq, Repr, Inhabited

/-- `prefix` and `xmlns` of an `AttributeId`. -/
inductive AKind where
  | plain
  | prefixed (p : Buf)
  | xmlns (p : Option Buf)
deriving DecidableEq, Repr, Inhabited

/-- The two parts of a name around its first colon. -/
def splitColon : Buf → Option (Buf × Buf)
  | [] => none
  | c :: r => if c = 0x3A then some ([], r) else (splitColon r).map fun (p, l) => (c :: p, l)

/-- "xmlns" -/
def xmlnsName : Buf := [0x78, 0x6D, 0x6C, 0x6E, 0x73]
/-- "xml" -/
def xmlName : Buf := [0x78, 0x6D, 0x6C]

/-- src/lib/xmlparse.rs:7854-7905, the part of `getAttributeId` that classifies a new name. -/
def attKind (ns : Bool) (name : Buf) : AKind :=
  if !ns then .plain
  else if name = xmlnsName then .xmlns none
  else if name.take 6 = xmlnsName ++ [0x3A] then .xmlns (some (name.drop 6))
  else
    match splitColon name with
    | none => .plain
    | some (p, _) => .prefixed p

/-- "http://www.w3.org/XML/1998/namespace" -/
def xmlNamespace : Buf := [0x68, 0x74, 0x74, 0x70, 0x3A, 0x2F, 0x2F, 0x77, 0x77, 0x77, 0x2E, 0x77, 0x33, 0x2E,
  0x6F, 0x72, 0x67, 0x2F, 0x58, 0x4D, 0x4C, 0x2F, 0x31, 0x39, 0x39, 0x38, 0x2F, 0x6E, 0x61, 0x6D, 0x65, 0x73,
  0x70, 0x61, 0x63, 0x65]
/-- "http://www.w3.org/2000/xmlns/" -/
def xmlnsNamespace : Buf := [0x68, 0x74, 0x74, 0x70, 0x3A, 0x2F, 0x2F, 0x77, 0x77, 0x77, 0x2E, 0x77, 0x33, 0x2E,
  0x6F, 0x72, 0x67, 0x2F, 0x32, 0x30, 0x30, 0x30, 0x2F, 0x78, 0x6D, 0x6C, 0x6E, 0x73, 0x2F]

/-- The handlers that are set (src/lib/xmlparse.rs:495-760 `Handlers`) and other settings; they are
taken to stay the same during a parse.  `ns`, `sep`, `triplets`: `m_ns`, `m_namespaceSeparator`,
`m_ns_triplets`; `expandInternal`: `m_defaultExpandInternalEntities`; `refOk`: whether the external
entity handler returns a nonzero value, given the entity; `al`: the arena of the string pools. -/
structure Cfg where
  startElement : Bool := true
  endElement : Bool := true
  chars : Bool := true
  pi : Bool := true
  comment : Bool := true
  startCdata : Bool := true
  endCdata : Bool := true
  startNs : Bool := true
  endNs : Bool := true
  skipped : Bool := true
  externalRef : Bool := true
  dflt : Bool := false
  ns : Bool := false
  sep : UInt8 := 0
  triplets : Bool := false
  expandInternal : Bool := true
  refOk : Buf → Entity → Bool := fun _ _ => true
  al : Allocator := C43.bump

/-- The namespaces in force: for each prefix (`none`: the default one) `prefix.binding`'s URI. -/
abbrev Env := Option Buf → Option Buf

/-- src/lib/xmlparse.rs `Binding`: prefix, attribute, URI, and `prevPrefixBinding`. -/
structure Binding where
  pre : Option Buf
  att : Buf
  uri : Buf
  prev : Option Buf
deriving DecidableEq, Repr

def Env.set (v : Env) (p : Option Buf) (u : Option Buf) : Env := fun q => if q = p then u else v q

/-- src/lib/xmlparse.rs:4806-4821: the loop comparing the URI with one of the two reserved ones, from
index `i`; `skip` is the case `mustBeXML` for the second of them, where characters are not compared. -/
def uriMatch (reserved : Buf) (skip : Bool) : Nat → Buf → Bool
  | _, [] => true
  | i, c :: r => (skip || reserved[i]? == some c) && uriMatch reserved skip (i + 1) r

/-- src/lib/xmlparse.rs:4783-4835: the tests made by `addBinding`. -/
def bindingError (p : Option Buf) (uri : Buf) : Option XErr :=
  if uri = [] ∧ p ≠ none then some .UNDECLARING_PREFIX
  else if p = some xmlnsName then some .RESERVED_PREFIX_XMLNS
  else
    let mustBeXML := p = some xmlName
    let isXML := uriMatch xmlNamespace false 0 uri && uri.length == xmlNamespace.length
    let isXMLNS := uriMatch xmlnsNamespace mustBeXML 0 uri && uri.length == xmlnsNamespace.length
    if decide mustBeXML ≠ isXML then
      some (if mustBeXML then .RESERVED_PREFIX_XML else .RESERVED_NAMESPACE_URI)
    else if isXMLNS then some .RESERVED_NAMESPACE_URI
    else none

/-- src/lib/xmlparse.rs:4756-4887 `addBinding`, for a declaration in a tag (`attId` not null): the event,
the new environment and the new list of bindings. -/
def addBinding (c : Cfg) (v : Env) (bs : List Binding) (p : Option Buf) (att uri : Buf) :
    List Ev × Except XErr (Env × List Binding) :=
  match bindingError p uri with
  | some x => ([], .error x)
  | none =>
    let new := if uri = [] ∧ p = none then none else some uri
    (if c.startNs then [.startNs p new] else [],
      .ok (v.set p new, ⟨p, att, uri, v p⟩ :: bs))

/-- src/lib/xmlparse.rs:4218-4229 `freeBindings`; also 4025-4034. -/
def freeBindings (c : Cfg) (v : Env) : List Binding → List Ev × Env
  | [] => ([], v)
  | b :: bs =>
    let r := freeBindings c (v.set b.pre b.prev) bs
    ((if c.endNs then [Ev.endNs b.pre] else []) ++ r.1, r.2)

/-- The variables of `storeAtts`: `m_atts` (with `typed_atts`, whose entries are the same names),
the flags before the names, the bindings and the environment, `nPrefixes`. -/
structure AState where
  atts : List (Buf × Buf)
  flags : Buf → AFlag
  env : Env
  binds : List Binding
  nPre : Nat

def setFlag (f : Buf → AFlag) (n : Buf) (g : AFlag) : Buf → AFlag := fun m => if m = n then g else f m

/-- A chain of steps with events, the first error ending it. -/
def chain {α σ ε : Type} (f : σ → α → List Ev × Except ε σ) (s : σ) : List α → List Ev × Except ε σ
  | [] => ([], .ok s)
  | a :: as =>
    match f s a with
    | (E, .error c) => (E, .error c)
    | (E, .ok s') => let r := chain f s' as; (E ++ r.1, r.2)

/-- An error in `storeAtts`, with the bindings made so far (`*bindingsPtr`), for `freeBindings`. -/
abbrev AErr := XErr × List Binding

/-- The declared type of an attribute as looked up in 4310-4319. -/
def declCdata (D : Dtd) (et : ElemType) (name : Buf) : Bool :=
  if name ∈ D.maybeTok then ((et.atts.find? (·.name = name)).map (·.isCdata)).getD true else true

/-- The name of an attribute as found by `getAtts` in the tag `b`. -/
def attName (x : XEnc) (b : Buf) (a : Att) : Buf :=
  converted x ((b.drop a.name).take (nameLength x.e (b.drop a.name)))

/-- The value literal. -/
def attLiteral (b : Buf) (a : Att) : Buf := (b.drop a.valuePtr).take (a.valueEnd - a.valuePtr)

/-- src/lib/xmlparse.rs:4308-4337: the value of a specified attribute. -/
def attValue (D : Dtd) (int x : XEnc) (opened : List Buf) (et : ElemType) (b : Buf) (a : Att) (name : Buf) :
    Except XErr Buf :=
  if !a.normalized then
    storeAttributeValue D D.mustDeclare int x (declCdata D et name) opened (attLiteral b a)
  else .ok (converted x (attLiteral b a))

/-- src/lib/xmlparse.rs:4281-4372: the closure applied to each specified attribute. -/
def attOne (c : Cfg) (D : Dtd) (int x : XEnc) (opened : List Buf) (et : ElemType) (b : Buf) (s : AState)
    (a : Att) : List Ev × Except AErr AState :=
  let name := attName x b a
  if s.flags name ≠ .unset then ([], .error (.DUPLICATE_ATTRIBUTE, s.binds)) else
  match attValue D int x opened et b a name with
  | .error c => ([], .error (c, s.binds))
  | .ok v =>
    match attKind c.ns name with
    | .plain => ([], .ok { s with flags := setFlag s.flags name .normal, atts := s.atts ++ [(name, v)] })
    | .prefixed _ =>
      ([], .ok { s with flags := setFlag s.flags name .prefixed, atts := s.atts ++ [(name, v)],
                        nPre := s.nPre + 1 })
    | .xmlns p =>
      match addBinding c s.env s.binds p name v with
      | (E, .error c) => (E, .error (c, s.binds))
      | (E, .ok (env, bs)) => (E, .ok { s with flags := setFlag s.flags name .normal, env := env, binds := bs })

/-- src/lib/xmlparse.rs:4398-4436: the body of the loop over the declared attributes. -/
def defOne (c : Cfg) (s : AState) (d : ADecl) : List Ev × Except AErr AState :=
  match d.value with
  | none => ([], .ok s)
  | some v =>
    if s.flags d.name ≠ .unset then ([], .ok s) else
    match attKind c.ns d.name with
    | .plain => ([], .ok { s with flags := setFlag s.flags d.name .normal, atts := s.atts ++ [(d.name, v)] })
    | .prefixed _ =>
      ([], .ok { s with flags := setFlag s.flags d.name .prefixed, atts := s.atts ++ [(d.name, v)],
                        nPre := s.nPre + 1 })
    | .xmlns p =>
      match addBinding c s.env s.binds p d.name v with
      | (E, .error c) => (E, .error (c, s.binds))
      | (E, .ok (env, bs)) => (E, .ok { s with env := env, binds := bs })

/-- The separator between URI and local name. -/
def Cfg.sepB (c : Cfg) : Buf := if c.sep = 0 then [] else [c.sep]
/-- What is appended for triplets: separator and prefix.  (If the separator is NUL, the string as the
application sees it ends there.) -/
def Cfg.suffix (c : Cfg) (p : Buf) : Buf := if c.triplets && c.sep != 0 then c.sep :: p else []

/-- src/lib/xmlparse.rs:4441-4597: expansion of prefixed names with the check for duplicates (`seen`
is `m_nsAtts`) and clearing of the flags; `n` prefixed attributes are still to come. -/
def expandNames (c : Cfg) (env : Env) : Nat → (Buf → AFlag) → List Buf → List (Buf × Buf) →
    Except XErr (List (Buf × Buf) × (Buf → AFlag))
  | _, f, _, [] => .ok ([], f)
  | n, f, seen, (name, v) :: rest =>
    let out := fun (r : Except XErr (List (Buf × Buf) × (Buf → AFlag))) (m : Buf) =>
      match r with
      | .error x => .error x
      | .ok (as, g) => .ok ((m, v) :: as, g)
    if n ≠ 0 ∧ f name = .prefixed then
      match splitColon name with
      | none => .error .NO_MEMORY
      | some (p, l) =>
        match env (some p) with
        | none => .error .UNBOUND_PREFIX
        | some uri =>
          if uri ++ c.sepB ++ l ∈ seen then .error .DUPLICATE_ATTRIBUTE
          else out (expandNames c env (n - 1) (setFlag f name .unset) ((uri ++ c.sepB ++ l ++ c.suffix p) :: seen) rest)
            (uri ++ c.sepB ++ l ++ c.suffix p)
    else out (expandNames c env n (setFlag f name .unset) seen rest) name

/-- The name of an element: as written, or composed of URI, local name and prefix
(`TagName`: `str`, `localPart`, `uriLen`, `prefix`). -/
structure TagName where
  raw : Buf
  ns : Option (Buf × Buf × Option Buf)
deriving DecidableEq, Repr

/-- The string handed to the handlers (4712-4746 for the start, 3981-4018 for the end of an element). -/
def TagName.full (c : Cfg) (n : TagName) : Buf :=
  match n.ns with
  | none => n.raw
  | some (uri, l, p) => uri ++ c.sepB ++ l ++ (match p with | none => [] | some p => c.suffix p)

/-- src/lib/xmlparse.rs:4668-4700: the namespace of the element. -/
def elemName (c : Cfg) (env : Env) (raw : Buf) : Except XErr TagName :=
  if !c.ns then .ok ⟨raw, none⟩ else
  match splitColon raw with
  | some (p, l) =>
    match env (some p) with
    | none => .error .UNBOUND_PREFIX
    | some uri => .ok ⟨raw, some (uri, l, some p)⟩
  | none =>
    match env none with
    | some uri => .ok ⟨raw, some (uri, raw, none)⟩
    | none => .ok ⟨raw, none⟩

/-- What `storeAtts` leaves: `m_atts`, `m_nSpecifiedAtts / 2`, `m_idAttIndex / 2`, the flags, the
environment and the new bindings, and the name of the element. -/
structure Stored where
  atts : List (Buf × Buf)
  specified : Nat
  idIndex : Option Nat
  flags : Buf → AFlag
  env : Env
  binds : List Binding
  name : TagName

/-- src/lib/xmlparse.rs:4242-4749 `storeAtts` for the tag `b` of an element `raw`. -/
def storeAtts (c : Cfg) (D : Dtd) (int x : XEnc) (opened : List Buf) (flags : Buf → AFlag) (env : Env)
    (raw b : Buf) : List Ev × Except AErr Stored :=
  let et := D.elem raw
  match chain (attOne c D int x opened et b) ⟨[], flags, env, [], 0⟩ (getAtts x.e b) with
  | (E, .error c) => (E, .error c)
  | (E, .ok s) =>
    let spec := s.atts.length
    let idIndex := match et.idAtt with
      | none => none
      | some i => if s.flags i ≠ .unset then s.atts.findIdx? (·.1 = i) else none
    match chain (defOne c) s et.atts with
    | (E2, .error c) => (E ++ E2, .error c)
    | (E2, .ok s) =>
      match expandNames c s.env s.nPre s.flags [] s.atts with
      | .error c => (E ++ E2, .error (c, s.binds))
      | .ok (atts, f) =>
        let f := s.binds.foldl (fun f b => setFlag f b.att .unset) f
        match elemName c s.env raw with
        | .error c => (E ++ E2, .error (c, s.binds))
        | .ok n => (E ++ E2, .ok ⟨atts, spec, idIndex, f, s.env, s.binds, n⟩)

end Verif
