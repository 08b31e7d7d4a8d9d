import Verif.Parser
import Verif.ElemDecl
import Verif.XmlDecl
import Verif.Reports

/-!
# The prolog: `doProlog`, `storeEntityValue`, `defineAttribute`, `doIgnoreSection`
(src/lib/xmlparse.rs:5059-5160, 5392-5642, 5644-6872, 7383-7573, 7747-7779)

Everything the parser does between the start of a document (or of an external parameter entity)
and the root element.  Not modelled: allocation failure, `m_eventPtr`/`m_eventEndPtr`, handlers that
stop the parser or change the set of handlers, the `mozilla` feature.

What the application does when its external entity handler is called is a parameter (`Ext`): it may
run a child parser, which shares the DTD, so it gets and returns the shared data.
-/

set_option autoImplicit false

namespace Verif
open C43

/-- src/lib/xmlparse.rs:1080-1110 `DTD` as far as declarations and references are concerned.  Hash
tables are association lists. -/
structure DTab where
  gen : List (Buf × Entity) := []
  par : List (Buf × Entity) := []
  elems : List (Buf × ElemType) := []
  maybeTok : List Buf := []
  hasPERefs : Bool := false
  standalone : Bool := false
  keep : Bool := true
  peRead : Bool := false
deriving Repr, Inhabited, DecidableEq

/-- What content sees of it. -/
def DTab.toDtd (D : DTab) : Dtd := ⟨D.gen, D.elems, D.maybeTok, D.hasPERefs, D.standalone⟩

/-- `hash_lookup!` (src/lib/xmlparse.rs:1074-1079). -/
def tabGet {α : Type} (t : List (Buf × α)) (n : Buf) : Option α := (t.find? (·.1 = n)).map (·.2)

/-- Change of an entry through the pointer to it. -/
def tabSet {α : Type} (t : List (Buf × α)) (n : Buf) (f : α → α) : List (Buf × α) :=
  t.map fun p => if p.1 = n then (p.1, f p.2) else p

/-- `hash_insert!` (src/lib/xmlparse.rs:1045-1072): an existing entry stays. -/
def tabPut {α : Type} (t : List (Buf × α)) (n : Buf) (v : α) : List (Buf × α) :=
  if (tabGet t n).isSome then t else t ++ [(n, v)]

/-- `std::mem::zeroed()` -/
def Entity.zero : Entity := ⟨none, false, none, none, none, none⟩

/-- Handler calls made in the prolog.  `ev`: those which content can make as well. -/
inductive PEv where
  | ev (v : Ev)
  | startDoctype (name sys pub : Option Buf) (internalSubset : Bool)
  | endDoctype
  | entityDecl (name : Buf) (isParam : Bool) (value base sys pub notation_ : Option Buf)
  | unparsed (name : Buf) (base sys pub notation_ : Option Buf)
  | notationDecl (name base sys pub : Option Buf)
  | attlistDecl (elem att type : Buf) (dflt : Option Buf) (required : Bool)
  | elementDecl (name : Buf) (model : Block)
  | extRef (base sys pub : Option Buf)
  | xmlDecl (d : DeclCall)
  | notStandalone
deriving DecidableEq, Repr

/-- src/expat_h.rs `XML_ParamEntityParsing`. -/
inductive PEParsing where
  | never | unlessStandalone | always
deriving DecidableEq, Repr, Inhabited

/-- The part of the DTD that belongs to the declaration of an element in progress
(`in_eldecl`, `scaffold`, `contentStringLen`). -/
structure Scaf where
  inEldecl : Bool
  scaffold : List Part
  index : List Nat
  strLen : Nat

/-- What a child parser for a parameter entity shares with its parent
(src/lib/xmlparse.rs:1949-1950: the same `m_dtd`). -/
structure Shared where
  D : DTab
  scaf : Scaf

/-- A call of the external entity handler for a parameter entity, as far as it can matter to the
child parser: `inValue` is `m_prologState.inEntityValue`, `opened` are the parameter entities whose
`open` flag is set, `pe` is `m_paramEntityParsing`. -/
structure ExtReq where
  inValue : Bool
  opened : List Buf
  pe : PEParsing
  base : Option Buf
  sys : Option Buf
  pub : Option Buf

/-- What the handler does: handler calls of child parsers, the shared data afterwards, what was
appended to `entityValuePool`, and whether it returns a nonzero value. -/
structure ExtAns where
  calls : List PEv
  sh : Shared
  value : Buf
  ok : Bool

abbrev Ext := ExtReq → Shared → ExtAns

/-- The settings, taken to stay the same during a parse: handlers that are set, `base` is `m_curBase`,
`child` is `is_child_parser`, `isPE` is `m_isParamEntity`; `notStandalone` is the answer of the
handler; `unknown` is the encoding which the unknown-encoding handler provides for a name;
`protocol`: an encoding was named by the application; `int` is the internal encoding. -/
structure PCfg where
  c : Cfg
  int : XEnc
  startDoctype : Bool := true
  endDoctype : Bool := true
  entityDecl : Bool := true
  unparsed : Bool := true
  notationDecl : Bool := true
  attlistDecl : Bool := true
  elementDecl : Bool := true
  xmlDecl : Bool := true
  notStandalone : Option Bool := none
  unknown : Buf → Option XEnc := fun _ => none
  protocol : Bool := false
  base : Option Buf := none
  child : Bool := false
  isPE : Bool := false

/-- `m_declAttributeType`: null, a constant, or the start of the current string of `m_tempPool`. -/
inductive AttTy where
  | null
  | known (s : Buf)
  | built
deriving DecidableEq, Repr

/-- `m_encoding`: one of the built-in encodings, or another one. -/
inductive CurEnc where
  | builtin (i : EncId)
  | other (x : XEnc)

def CurEnc.x (ns : Bool) : CurEnc → XEnc
  | .builtin i => i.x ns
  | .other x => x

/-- The variables of the parser used in the prolog. -/
structure DState where
  /-- `m_prologState`, `m_groupConnector`, `m_declElementType`, and the data of `Scaf` -/
  el : EState
  D : DTab := {}
  cur : CurEnc
  /-- `m_paramEntityParsing` -/
  pe : PEParsing := .never
  /-- `m_declEntity`: which table, and the name -/
  decl : Option (Bool × Buf) := none
  /-- `m_declAttributeId`, `m_declAttributeIsCdata`, `m_declAttributeIsId`, `m_declAttributeType` -/
  att : Buf := []
  isCdata : Bool := false
  isId : Bool := false
  ty : AttTy := .null
  /-- the current (unfinished) string of `m_tempPool` -/
  tmp : Buf := []
  /-- `m_declNotationName`, `m_declNotationPublicId` -/
  nName : Option Buf := none
  nPub : Option Buf := none
  /-- `m_doctypeName`, `m_doctypeSysid`, `m_doctypePubid` -/
  dName : Option Buf := none
  dSys : Option Buf := none
  dPub : Option Buf := none
  /-- `m_useForeignDTD` -/
  foreign : Bool := false
  /-- the processor is `ignoreSectionProcessor` -/
  ignoring : Bool := false

/-- What a round of the loop comes to: go on (`handleDefault`), the root element starts, go on with
an IGNORE section, an error, a panic. -/
inductive AOut where
  | go (dflt : Bool)
  | start
  | ignore
  | fail (c : XErr)
  | panic
deriving DecidableEq, Repr

/-- Handler calls, new state, outcome. -/
abbrev Acted := List PEv × DState × AOut

/-- XML_ROLE_ERROR and SYNTAX errors of groups (src/lib/xmlparse.rs:6389-6399). -/
def PErr.toX : PErr → XErr
  | .SYNTAX => .SYNTAX
  | .PARAM_ENTITY_REF => .PARAM_ENTITY_REF
  | .MISPLACED_XML_PI => .MISPLACED_XML_PI

namespace DState

def sh (s : DState) : Shared := ⟨s.D, s.el.inEldecl, s.el.scaffold, s.el.index, s.el.strLen⟩

def setSh (s : DState) (t : Shared) : DState :=
  { s with D := t.D
           el := { s.el with inEldecl := t.scaf.inEldecl, scaffold := t.scaf.scaffold,
                             index := t.scaf.index, strLen := t.scaf.strLen } }

/-- `self.encoding(enc_type)` -/
def x (s : DState) (c : PCfg) (internal : Bool) : XEnc := if internal then c.int else s.cur.x c.c.ns

/-- `m_declEntity`'s fields are assigned. -/
def setDecl (s : DState) (f : Entity → Entity) : DState :=
  match s.decl with
  | none => s
  | some (true, n) => { s with D := { s.D with par := tabSet s.D.par n f } }
  | some (false, n) => { s with D := { s.D with gen := tabSet s.D.gen n f } }

/-- The entity `m_declEntity` points to. -/
def declEnt (s : DState) : Option (Bool × Buf × Entity) :=
  match s.decl with
  | none => none
  | some (true, n) => (tabGet s.D.par n).map fun e => (true, n, e)
  | some (false, n) => (tabGet s.D.gen n).map fun e => (false, n, e)

end DState

/-- `normalizePublicId` on a stored string (src/lib/xmlparse.rs:8115-8140). -/
def pubNorm (s : Buf) : Buf := ((normalizePublicId (s ++ [0])).map cstr).getD []

/-- "#" (src/lib/xmlparse.rs:5654 `externalSubsetName`). -/
def hashName : Buf := [0x23]

/-- `!standalone && notStandalone() == Ok(0)`: the call, and whether the parse fails. -/
def askStandalone (c : PCfg) (D : DTab) : List PEv × Bool :=
  if D.standalone then ([], false)
  else match c.notStandalone with
    | none => ([], false)
    | some ok => ([.notStandalone], !ok)

/-- Ask, and fail or go on. -/
def standaloneCheck (c : PCfg) (s : DState) (hd : Bool) : Acted :=
  let r := askStandalone c s.D
  (r.1, s, if r.2 then .fail .NOT_STANDALONE else .go hd)

/-- Calls made first. -/
def Acted.pre (E : List PEv) (r : Acted) : Acted := (E ++ r.1, r.2)

/-- The external entity handler is called while `opened` are open. -/
def callExt (ext : Ext) (s : DState) (opened : List Buf) (ent : Entity) : List PEv × DState × Bool :=
  let s := { s with D := { s.D with peRead := false } }
  let a := ext ⟨s.el.p.inEntityValue, opened, s.pe, ent.base, ent.systemId, ent.publicId⟩ s.sh
  (.extRef ent.base ent.systemId ent.publicId :: a.calls, s.setSh a.sh, a.ok)

/-! ### The external subset -/

/-- src/lib/xmlparse.rs:5857-5898 and 5906-5940: the external subset (or the foreign DTD) is read at the
end of the DOCTYPE declaration, or at the root element if there is none (`atRoot`). -/
def readSubset (c : PCfg) (ext : Ext) (opened : List Buf) (atRoot : Bool) (s : DState) : Acted :=
  let had := s.D.hasPERefs
  let s := { s with D := { s.D with hasPERefs := true } }
  if s.pe ≠ .never ∧ c.c.externalRef then
    let s := { s with D := { s.D with par := tabPut s.D.par hashName .zero } }
    let s := if s.foreign ∨ atRoot then
        { s with D := { s.D with par := tabSet s.D.par hashName fun e => { e with base := c.base } } }
      else s
    let r := callExt ext s opened ((tabGet s.D.par hashName).getD .zero)
    if !r.2.2 then (r.1, r.2.1, .fail .EXTERNAL_ENTITY_HANDLING)
    else if r.2.1.D.peRead then (standaloneCheck c r.2.1 true).pre r.1
    else if atRoot ∨ r.2.1.dSys = none then
      (r.1, { r.2.1 with D := { r.2.1.D with hasPERefs := had } }, .go true)
    else (r.1, r.2.1, .go true)
  else ([], s, .go true)

/-- src/lib/xmlparse.rs:5838-5901 `DOCTYPE_CLOSE`. -/
def actDoctypeClose (c : PCfg) (ext : Ext) (opened : List Buf) (allowClose : Bool) (s : DState) : Acted :=
  if !allowClose then ([], s, .fail .INVALID_TOKEN) else
  let E := if s.dName.isSome then [.startDoctype s.dName s.dSys s.dPub false] else []
  let hd := s.dName.isNone && !c.endDoctype
  let s := if s.dName.isSome then { s with tmp := [] } else s
  let E2 := if c.endDoctype then [.endDoctype] else []
  if s.dSys.isSome ∨ s.foreign then
    match readSubset c ext opened false s with
    | (E1, s, .go _) => (E ++ E1 ++ E2, { s with foreign := false }, .go hd)
    | (E1, s, o) => (E ++ E1, s, o)
  else (E ++ E2, s, .go hd)

/-- src/lib/xmlparse.rs:5902-5945 `INSTANCE_START`. -/
def actInstanceStart (c : PCfg) (ext : Ext) (opened : List Buf) (s : DState) : Acted :=
  if s.foreign then
    match readSubset c ext opened true s with
    | (E, s, .go _) => (E, s, .start)
    | r => r
  else ([], s, .start)

/-! ### Declarations -/

/-- `(*attId).xmlns`, which `getAttributeId` sets for namespace declarations (7846-7867). -/
def isXmlnsAtt (ns : Bool) (att : Buf) : Bool := match attKind ns att with | .xmlns _ => true | _ => false

/-- src/lib/xmlparse.rs:7762-7764: the ID attribute of an element type after one more declaration. -/
def newIdAtt (ns : Bool) (et : ElemType) (att : Buf) (isId : Bool) : Option Buf :=
  if isId ∧ et.idAtt.isNone ∧ ¬ isXmlnsAtt ns att then some att else et.idAtt

/-- src/lib/xmlparse.rs:7747-7779 `defineAttribute`. -/
def defineAttribute (ns : Bool) (D : DTab) (elem att : Buf) (isCdata isId : Bool) (value : Option Buf) : DTab :=
  let et := (tabGet D.elems elem).getD ⟨[], none⟩
  if (value.isSome ∨ isId) ∧ et.atts.any (·.name = att) then D else
  { D with
    elems := tabSet (tabPut D.elems elem ⟨[], none⟩) elem fun _ =>
      ⟨et.atts ++ [⟨att, isCdata, value⟩], newIdAtt ns et att isId⟩
    maybeTok := if isCdata then D.maybeTok else att :: D.maybeTok }

/-- The test for an enumerated or notation type (6025-6028): `(` or `NO` at the start. -/
def isEnumType (t : Buf) : Bool := t.head? == some 0x28 || t.take 2 == [0x4E, 0x4F]

/-- src/lib/xmlparse.rs:6021-6046, 6078-6103: the attribute-declaration handler is called if there is
one and the type is known. -/
def reportAttribute (c : PCfg) (s : DState) (value : Option Buf) (req : Bool) : Acted :=
  if !c.attlistDecl then ([], s, .go true) else
  match s.ty with
  | .null => ([], s, .go true)
  | .known t =>
    ([.attlistDecl s.el.declName s.att (if isEnumType t then s.tmp ++ [0x29] else t) value req],
      { s with tmp := [] }, .go false)
  | .built =>
    ([.attlistDecl s.el.declName s.att (if isEnumType s.tmp then s.tmp ++ [0x29] else s.tmp) value req],
      { s with tmp := [] }, .go false)

/-- `checkEntityDecl` for a default value in a declaration (7260-7266); `internal` stands for
`m_openInternalEntities` not being null. -/
def checkDefault (s : DState) (internal : Bool) : Bool :=
  s.el.p.documentEntity && (if s.D.standalone then !internal else !s.D.hasPERefs)

/-- src/lib/xmlparse.rs:5946-5985 the roles that set up an attribute declaration. -/
def actAttlist (c : PCfg) (s : DState) (x : XEnc) (r : Role) (w : Buf) : DState :=
  match r with
  | .ATTLIST_ELEMENT_NAME => { s with el := { s.el with declName := converted x w } }
  | .ATTRIBUTE_NAME => { s with att := converted x w, isCdata := false, ty := .null, isId := false }
  | .ATTRIBUTE_TYPE_CDATA => { s with isCdata := true, ty := .known PState.kwCDATA }
  | .ATTRIBUTE_TYPE_ID => { s with isId := true, ty := .known PState.kwID }
  | .ATTRIBUTE_TYPE_IDREF => { s with ty := .known PState.kwIDREF }
  | .ATTRIBUTE_TYPE_IDREFS => { s with ty := .known PState.kwIDREFS }
  | .ATTRIBUTE_TYPE_ENTITY => { s with ty := .known PState.kwENTITY }
  | .ATTRIBUTE_TYPE_ENTITIES => { s with ty := .known PState.kwENTITIES }
  | .ATTRIBUTE_TYPE_NMTOKEN => { s with ty := .known PState.kwNMTOKEN }
  | .ATTRIBUTE_TYPE_NMTOKENS => { s with ty := .known PState.kwNMTOKENS }
  | .ATTRIBUTE_ENUM_VALUE | .ATTRIBUTE_NOTATION_VALUE =>
    -- 5986-6011
    if s.D.keep && c.attlistDecl then
      let pre := if s.ty ≠ .null then [0x7C]
        else if r = .ATTRIBUTE_NOTATION_VALUE then PState.kwNOTATION ++ [0x28] else [0x28]
      { s with tmp := s.tmp ++ pre ++ converted x w, ty := .built }
    else s
  | _ => s

/-- src/lib/xmlparse.rs:6012-6108: the end of an attribute declaration. -/
def actAttDefault (c : PCfg) (s : DState) (x : XEnc) (internal : Bool) (r : Role) (w : Buf) : Acted :=
  if !s.D.keep then ([], s, .go true) else
  match r with
  | .IMPLIED_ATTRIBUTE_VALUE | .REQUIRED_ATTRIBUTE_VALUE =>
    let D := defineAttribute c.c.ns s.D s.el.declName s.att s.isCdata s.isId none
    reportAttribute c { s with D := D } none (r = .REQUIRED_ATTRIBUTE_VALUE)
  | _ =>
    match storeAttributeValue s.D.toDtd (checkDefault s internal) c.int x s.isCdata [] (refName x.e w) with
    | .error e => ([], s, .fail e)
    | .ok v =>
      let D := defineAttribute c.c.ns s.D s.el.declName s.att s.isCdata false (some v)
      reportAttribute c { s with D := D } (some v) (r = .FIXED_ATTRIBUTE_VALUE)

/-! ### Entity values -/

/-- Result of `storeEntityValue`: handler calls, shared data, the string in `entityValuePool`, error. -/
structure EVal where
  E : List PEv
  sh : Shared
  pool : Buf
  err : Option XErr

/-- What a round of the loop in `storeEntityValue` comes to. -/
inductive EVStep where
  | stop (v : EVal)
  | next (n : Nat) (E : List PEv) (sh : Shared) (pool : Buf)

/-- `keepProcessing.set(standalone)` -/
def DTab.drop (D : DTab) : DTab := { D with keep := D.standalone }

/-- src/lib/xmlparse.rs:7408-7485: a parameter-entity reference in an entity value.  `rec` is the
recursive call for the text of an internal entity. -/
def evParamRef (c : PCfg) (ext : Ext) (pe : PEParsing) (rec : Buf → Shared → Buf → Buf → EVal)
    (opened : List Buf) (sh : Shared) (pool : Buf) (name : Buf) (n : Nat) : EVStep :=
  match tabGet sh.D.par name with
  | none => .stop ⟨[], { sh with D := sh.D.drop }, pool, none⟩
  | some ent =>
    if name ∈ opened then .stop ⟨[], sh, pool, some .RECURSIVE_ENTITY_REF⟩
    else if ent.systemId.isSome then
      if c.c.externalRef then
        let a := ext ⟨true, name :: opened, pe, ent.base, ent.systemId, ent.publicId⟩
          { sh with D := { sh.D with peRead := false } }
        let E := PEv.extRef ent.base ent.systemId ent.publicId :: a.calls
        if !a.ok then .stop ⟨E, a.sh, pool ++ a.value, some .EXTERNAL_ENTITY_HANDLING⟩
        else .next n E (if a.sh.D.peRead then a.sh else { a.sh with D := a.sh.D.drop }) (pool ++ a.value)
      else .next n [] { sh with D := sh.D.drop } pool
    else
      let v := rec name sh pool (ent.text.getD [])
      match v.err with
      | some _ => .stop v
      | none => .next n v.E v.sh v.pool

/-- src/lib/xmlparse.rs:7398-7569: one round of the loop. -/
def evStep (c : PCfg) (ext : Ext) (pe : PEParsing) (x : XEnc) (internal : Bool)
    (rec : Buf → Shared → Buf → Buf → EVal) (opened : List Buf) (sh : Shared) (pool b : Buf) : EVStep :=
  let r := entityValueTok x.e b
  let w := b.take r.next
  match r.tok with
  | .PARAM_ENTITY_REF =>
    if c.isPE || internal then
      evParamRef c ext pe rec opened sh pool (converted x (refName x.e w)) r.next
    else .stop ⟨[], sh, pool, some .PARAM_ENTITY_REF⟩
  | .NONE => .stop ⟨[], sh, pool, none⟩
  | .ENTITY_REF | .DATA_CHARS => .next r.next [] sh (pool ++ converted x w)
  | .TRAILING_CR => .next x.e.mb [] sh (pool ++ [0x0A])
  | .DATA_NEWLINE => .next r.next [] sh (pool ++ [0x0A])
  | .CHAR_REF =>
    let n := charRefNumber x.e b
    if n < 0 then .stop ⟨[], sh, pool, some .BAD_CHAR_REF⟩
    else .next r.next [] sh (pool ++ xmlUtf8Encode n)
  | .PARTIAL | .INVALID => .stop ⟨[], sh, pool, some .INVALID_TOKEN⟩
  | _ => .stop ⟨[], sh, pool, some .UNEXPECTED_STATE⟩

/-- src/lib/xmlparse.rs:7397-7570: the loop.  (The guard on the length always holds.) -/
def evLoop (c : PCfg) (ext : Ext) (pe : PEParsing) (x : XEnc) (internal : Bool)
    (rec : Buf → Shared → Buf → Buf → EVal) (opened : List Buf) (sh : Shared) (pool b : Buf) : EVal :=
  match evStep c ext pe x internal rec opened sh pool b with
  | .stop v => v
  | .next n E sh pool =>
    if (b.drop n).length < b.length then
      let v := evLoop c ext pe x internal rec opened sh pool (b.drop n)
      { v with E := E ++ v.E }
    else ⟨E, sh, pool, some .UNEXPECTED_STATE⟩
termination_by b.length
decreasing_by assumption

/-- src/lib/xmlparse.rs:7383-7573 `storeEntityValue`.  `fuel` bounds the depth of the recursion, `DIVERGED` is
its exhaustion. -/
def storeEntityValue (c : PCfg) (ext : Ext) (pe : PEParsing) :
    Nat → XEnc → Bool → List Buf → Shared → Buf → Buf → EVal
  | 0, x, internal, opened, sh, pool, b =>
    evLoop c ext pe x internal (fun _ sh p _ => ⟨[], sh, p, some .DIVERGED⟩) opened sh pool b
  | k + 1, x, internal, opened, sh, pool, b =>
    evLoop c ext pe x internal
      (fun n sh p t => storeEntityValue c ext pe k c.int true (n :: opened) sh p t) opened sh pool b

/-! ### Entity and notation declarations -/

/-- A new entry (6244-6253): "internal" if it is declared in the document itself. -/
def newEntity (c : PCfg) (internal : Bool) : Entity :=
  { Entity.zero with isInternal := !(c.child || internal) }

/-- The arms for entity declarations: 5829-5837, 6109-6146, 6182-6299, 6803-6860. -/
def actEntity (c : PCfg) (ext : Ext) (fuel : Nat) (opened : List Buf) (s : DState) (x : XEnc) (internal : Bool)
    (r : Role) (w : Buf) : Acted :=
  match r with
  | .GENERAL_ENTITY_NAME =>
    if predefinedEntityName x.e w ≠ 0 then ([], { s with decl := none }, .go true)
    else if s.D.keep then
      if (tabGet s.D.gen (converted x w)).isSome then ([], { s with decl := none }, .go true)
      else ([], { s with decl := some (false, converted x w)
                         D := { s.D with gen := tabPut s.D.gen (converted x w) (newEntity c internal) } },
        .go (!c.entityDecl))
    else ([], { s with decl := none }, .go true)
  | .PARAM_ENTITY_NAME =>
    if s.D.keep then
      if (tabGet s.D.par (converted x w)).isSome then ([], { s with decl := none }, .go true)
      else ([], { s with decl := some (true, converted x w)
                         D := { s.D with par := tabPut s.D.par (converted x w) (newEntity c internal) } },
        .go (!c.entityDecl))
    else ([], { s with decl := none }, .go true)
  | .ENTITY_VALUE =>
    if !s.D.keep then ([], s, .go true) else
    let v := storeEntityValue c ext s.pe fuel x internal opened s.sh [] (refName x.e w)
    let s := (s.setSh v.sh).setDecl fun e => { e with text := some v.pool }
    let r : List PEv × Bool :=
      match s.decl with
      | none => (v.E, true)
      | some (p, n) =>
        if c.entityDecl then (v.E ++ [.entityDecl n p (some v.pool) c.base none none none], false)
        else (v.E, true)
    (r.1, s, match v.err with | some e => .fail e | none => .go r.2)
  | .ENTITY_PUBLIC_ID =>
    if (isPublicId x.e w).isSome then ([], s, .fail .PUBLICID)
    else if s.D.keep && s.decl.isSome then
      ([], s.setDecl fun e => { e with publicId := some (pubNorm (converted x (refName x.e w))) },
        .go (!c.entityDecl))
    else ([], s, .go true)
  | .ENTITY_SYSTEM_ID =>
    if s.D.keep && s.decl.isSome then
      ([], s.setDecl fun e => { e with systemId := some (converted x (refName x.e w)), base := c.base },
        .go (!c.entityDecl))
    else ([], s, .go true)
  | .ENTITY_COMPLETE =>
    match s.declEnt with
    | none => ([], s, .go true)
    | some (p, n, e) =>
      if s.D.keep && c.entityDecl then
        ([.entityDecl n p none e.base e.systemId e.publicId none], s, .go false)
      else ([], s, .go true)
  | .ENTITY_NOTATION_NAME =>
    if s.D.keep then
      let s := s.setDecl fun e => { e with notation_ := some (converted x w) }
      match s.declEnt with
      | none => ([], s, .go true)
      | some (_, n, e) =>
        if c.unparsed then ([.unparsed n e.base e.systemId e.publicId e.notation_], s, .go false)
        else if c.entityDecl then
          ([.entityDecl n false none e.base e.systemId e.publicId e.notation_], s, .go false)
        else ([], s, .go true)
    else ([], s, .go true)
  | _ => ([], s, .go true)

/-- The arms for notation declarations: 6300-6388. -/
def actNotation (c : PCfg) (s : DState) (x : XEnc) (r : Role) (w : Buf) : Acted :=
  match r with
  | .NOTATION_NAME =>
    if c.notationDecl then
      ([], { s with nPub := none, nName := some (s.tmp ++ converted x w), tmp := [] }, .go false)
    else ([], { s with nPub := none, nName := none }, .go true)
  | .NOTATION_PUBLIC_ID =>
    if (isPublicId x.e w).isSome then ([], s, .fail .PUBLICID)
    else if s.nName.isSome then
      ([], { s with nPub := some (pubNorm (s.tmp ++ converted x (refName x.e w))), tmp := [] }, .go false)
    else ([], s, .go true)
  | .NOTATION_SYSTEM_ID =>
    if s.nName.isSome && c.notationDecl then
      ([.notationDecl s.nName c.base (some (s.tmp ++ converted x (refName x.e w))) s.nPub],
        { s with tmp := [] }, .go false)
    else ([], { s with tmp := [] }, .go true)
  | _ =>
    if s.nPub.isSome && c.notationDecl then
      ([.notationDecl s.nName c.base none s.nPub], { s with tmp := [] }, .go false)
    else ([], { s with tmp := [] }, .go true)

/-! ### DOCTYPE -/

/-- src/lib/xmlparse.rs:5764-5789, with the fall-through to 6812-6824, once `m_declEntity` has been set. -/
def docPublic (c : PCfg) (x : XEnc) (w : Buf) (s : DState) : Acted :=
  if (isPublicId x.e w).isSome then ([], s, .fail .PUBLICID)
  else if c.startDoctype then ([], docPublicSet x w (docPublicId x w s), .go false)
  else ([], docPublicSet x w s, .go true)
where
  /-- `m_doctypePubid` -/
  docPublicId (x : XEnc) (w : Buf) (s : DState) : DState :=
    { s with dPub := some (pubNorm (s.tmp ++ converted x (refName x.e w))), tmp := [] }
  /-- the entry of the external subset -/
  docPublicSet (x : XEnc) (w : Buf) (s : DState) : DState :=
    if s.D.keep then s.setDecl fun e => { e with publicId := some (pubNorm (converted x (refName x.e w))) }
    else s

/-- 6164-6181: `m_declEntity` is set if there was no public identifier. -/
def docEntry (s : DState) : DState :=
  if s.decl = none then
    { s with decl := some (true, hashName)
             D := { s.D with par := tabSet (tabPut s.D.par hashName .zero) hashName
                               fun e => { e with publicId := none } } }
  else s

/-- 6182-6200, to which the arm falls through. -/
def docSystemSet (c : PCfg) (x : XEnc) (w : Buf) (s : DState) : DState :=
  if s.D.keep then
    s.setDecl fun e => { e with systemId := some (converted x (refName x.e w)), base := c.base }
  else s

/-- 6160-6200, once `m_doctypeSysid` has been set. -/
def docSystem (c : PCfg) (x : XEnc) (w : Buf) (s : DState) : Acted :=
  let a := if s.pe = .never then askStandalone c s.D else ([], false)
  if a.2 then (a.1, s, .fail .NOT_STANDALONE)
  else (a.1, docSystemSet c x w (docEntry s), .go (!c.startDoctype))

/-- The arms for the DOCTYPE declaration up to its end: 5757-5789, 5796-5828, 6147-6181, 6803-6860. -/
def actDoctype (c : PCfg) (s : DState) (x : XEnc) (r : Role) (w : Buf) : Acted :=
  match r with
  | .DOCTYPE_NAME =>
    if c.startDoctype then
      ([], { s with dName := some (s.tmp ++ converted x w), tmp := [], dPub := none, dSys := none }, .go false)
    else ([], { s with dSys := none }, .go true)
  | .DOCTYPE_INTERNAL_SUBSET =>
    if c.startDoctype then
      ([.startDoctype s.dName s.dSys s.dPub true], { s with dName := none, tmp := [] }, .go false)
    else ([], s, .go true)
  | .DOCTYPE_PUBLIC_ID =>
    docPublic c x w { s with foreign := false, decl := some (true, hashName)
                             D := { s.D with par := tabPut s.D.par hashName .zero, hasPERefs := true } }
  | .DOCTYPE_SYSTEM_ID =>
    docSystem c x w
      (if c.startDoctype then
        { s with foreign := false, D := { s.D with hasPERefs := true }
                 dSys := some (s.tmp ++ converted x (refName x.e w)), tmp := [] }
      else { s with foreign := false, D := { s.D with hasPERefs := true }, dSys := some hashName })
  | _ => ([], s, .go true)

/-! ### XML and text declarations -/

/-- src/lib/xmltok.rs:2998-3000: the text between `<?xml` and `?>`. -/
def declText (e : Enc) (w : Buf) : Buf := (w.drop (5 * e.mb)).take (w.length - 5 * e.mb - 2 * e.mb)

/-- src/lib/xmlparse.rs:5216-5332 `processXmlDecl`.  For an encoding that is not built in, the
application must have named it. -/
def actXmlDecl (c : PCfg) (s : DState) (isText : Bool) (w : Buf) : Acted :=
  let x := s.cur.x c.c.ns
  match doParseXmlDecl x isText (declText x.e w) with
  | .panic => ([], s, .panic)
  | .bad => ([], s, .fail (if isText then .TEXT_DECL else .XML_DECL))
  | .ok o =>
    let alone := !isText && o.standalone == some true
    let s := if alone then
        { s with D := { s.D with standalone := true }
                 pe := if s.pe = .unlessStandalone then .never else s.pe }
      else s
    let E : Option (List PEv) :=
      if c.xmlDecl then (xmlDeclCall c.c.al x Pool.new o).map fun d => [.xmlDecl d]
      else some ((toDefault c.c x w).map .ev)
    match E with
    | none => ([], s, .panic)
    | some E =>
      match s.cur with
      | .other _ => (E, s, .go false)
      | .builtin i =>
        match processXmlDecl c.c.ns i c.protocol isText (declText x.e w) with
        | .panic => (E, s, .panic)
        | .error _ => (E, s, .fail .XML_DECL)
        | .incorrectEncoding => (E, s, .fail .INCORRECT_ENCODING)
        | .proceed j => (E, { s with cur := .builtin j }, .go false)
        | .askHandler =>
          let name := match o.encoding with
            | some (on, _, _) => converted x (on.take (nameLength x.e on))
            | none => []
          match c.unknown name with
          | none => (E, s, .fail .UNKNOWN_ENCODING)
          | some y => (E, { s with cur := .other y }, .go false)

/-! ### Parameter-entity references between and in declarations -/

/-- src/lib/xmlparse.rs:5588-5642 `doPrologHandleEntityRef`; `expand` is `processInternalEntity`. -/
def handleRef (c : PCfg) (ext : Ext) (expand : Bool → Buf → Buf → DState → Acted) (opened : List Buf)
    (s : DState) (r : Role) (name : Buf) (ent : Entity) : Acted :=
  if name ∈ opened then ([], s, .fail .RECURSIVE_ENTITY_REF) else
  match ent.text with
  | some t =>
    match expand (r = .PARAM_ENTITY_REF) name t s with
    | (E, s, .go _) => (E, s, .go false)
    | q => q
  | none =>
    if c.c.externalRef then
      let q := callExt ext s (name :: opened) ent
      if !q.2.2 then (q.1, q.2.1, .fail .EXTERNAL_ENTITY_HANDLING)
      else if !q.2.1.D.peRead then (q.1, { q.2.1 with D := q.2.1.D.drop }, .go false)
      else (standaloneCheck c q.2.1 false).pre q.1
    else ([], { s with D := s.D.drop }, .go true)

/-- `doPrologHandleEntityRef` followed by the check of 6571-6573 and 6594-6596. -/
def handleRefCheck (c : PCfg) (ext : Ext) (expand : Bool → Buf → Buf → DState → Acted) (opened : List Buf)
    (s : DState) (r : Role) (name : Buf) (ent : Entity) : Acted :=
  match handleRef c ext expand opened s r name ent with
  | (E, s, .go hd) => (standaloneCheck c s hd).pre E
  | q => q

/-- src/lib/xmlparse.rs:6506-6599, after `hasParamEntityRefs` has been set. -/
def paramRef (c : PCfg) (ext : Ext) (expand : Bool → Buf → Buf → DState → Acted) (opened : List Buf)
    (s : DState) (x : XEnc) (internal : Bool) (r : Role) (w : Buf) : Acted :=
  if s.pe = .never then standaloneCheck c { s with D := s.D.drop } true else
  let name := converted x (refName x.e w)
  let must := s.el.p.documentEntity && (if s.D.standalone then !internal else !s.D.hasPERefs)
  match tabGet s.D.par name with
  | none =>
    if must then ([], s, .fail .UNDEFINED_ENTITY)
    else if r = .PARAM_ENTITY_REF ∧ c.c.skipped then
      ([.ev (.skippedEntity name true)], { s with D := s.D.drop }, .go false)
    else ([], { s with D := s.D.drop }, .go true)
  | some ent =>
    if must && !ent.isInternal then ([], s, .fail .ENTITY_DECLARED_IN_PE)
    else handleRefCheck c ext expand opened s r name ent

/-- src/lib/xmlparse.rs:6502-6599 `PARAM_ENTITY_REF`, `INNER_PARAM_ENTITY_REF`. -/
def actParamRef (c : PCfg) (ext : Ext) (expand : Bool → Buf → Buf → DState → Acted) (opened : List Buf)
    (s : DState) (x : XEnc) (internal : Bool) (r : Role) (w : Buf) : Acted :=
  paramRef c ext expand opened { s with D := { s.D with hasPERefs := true } } x internal r w

/-! ### The round -/

/-- src/lib/xmlparse.rs:7651-7677 `reportComment`: the string starts with what is left in `m_tempPool`. -/
def actComment (c : PCfg) (s : DState) (x : XEnc) (w : Buf) : Acted :=
  if c.c.comment then
    match normalizeLines (s.tmp ++ converted x ((w.drop (4 * x.e.mb)).take (w.length - 4 * x.e.mb - 3 * x.e.mb)) ++ [0]) with
    | some d => ([.ev (.comment (cstr d))], { s with tmp := [] }, .go false)
    | none => ([], s, .panic)
  else ((toDefault c.c x w).map .ev, s, .go false)

/-- src/lib/xmlparse.rs:7612-7649 `reportProcessingInstruction`. -/
def actPI (c : PCfg) (s : DState) (x : XEnc) (w : Buf) : Acted :=
  if c.c.pi then
    let b := w.drop (2 * x.e.mb)
    let n := nameLength x.e b
    let d := skipS x.e (b.drop n)
    match normalizeLines (converted x (d.take (d.length - 2 * x.e.mb)) ++ [0]) with
    | some d => ([.ev (.pi (cstr (s.tmp ++ converted x (b.take n))) (cstr d))], { s with tmp := [] }, .go false)
    | none => ([], s, .panic)
  else ((toDefault c.c x w).map .ev, s, .go false)

/-- The group and element roles (6418-6501, 6600-6671, 6732-6802): as in `EState.act`, with the calls as
events and the value of `handleDefault`. -/
def actElement (c : PCfg) (s : DState) (x : XEnc) (r : Role) (t : Tok) (w : Buf) : Acted :=
  match ({ s.el with calls := [] }).act c.elementDecl (converted x) x.e t w r with
  | .err e => ([], s, .fail e.toX)
  | .fault => ([], s, .panic)
  | .start el => ([], { s with el := el }, .start)
  | .ok el =>
    let hd : Bool :=
      match r with
      | .ELEMENT_NAME => !c.elementDecl
      | .GROUP_CHOICE =>
        !(s.el.inEldecl && s.el.conn s.el.p.level.toNat == 0 && c.elementDecl &&
          (match s.el.index with | i :: _ => (s.el.scaffold.getD i {}).type != .MIXED | [] => false))
      | _ => !(s.el.inEldecl && c.elementDecl)
    (el.calls.map fun p => .elementDecl p.1 p.2, { s with el := { el with calls := [] } }, .go hd)

/-- src/lib/xmlparse.rs:5746-6861: the `match` on the role; the role handler has already run.  The token
is `w`, in encoding `x`. -/
def pact (c : PCfg) (ext : Ext) (fuel : Nat) (expand : Bool → Buf → Buf → DState → Acted)
    (internal allowClose : Bool) (opened : List Buf) (s : DState) (r : Role) (t : Tok) (w : Buf) : Acted :=
  let x := s.x c internal
  match r with
  | .XML_DECL => actXmlDecl c s false w
  | .TEXT_DECL => actXmlDecl c s true w
  | .DOCTYPE_NAME | .DOCTYPE_INTERNAL_SUBSET | .DOCTYPE_PUBLIC_ID | .DOCTYPE_SYSTEM_ID => actDoctype c s x r w
  | .DOCTYPE_CLOSE => actDoctypeClose c ext opened allowClose s
  | .INSTANCE_START => actInstanceStart c ext opened s
  | .ATTLIST_ELEMENT_NAME | .ATTRIBUTE_NAME | .ATTRIBUTE_TYPE_CDATA | .ATTRIBUTE_TYPE_ID
  | .ATTRIBUTE_TYPE_IDREF | .ATTRIBUTE_TYPE_IDREFS | .ATTRIBUTE_TYPE_ENTITY | .ATTRIBUTE_TYPE_ENTITIES
  | .ATTRIBUTE_TYPE_NMTOKEN | .ATTRIBUTE_TYPE_NMTOKENS | .ATTRIBUTE_ENUM_VALUE | .ATTRIBUTE_NOTATION_VALUE =>
    ([], actAttlist c s x r w, .go (!(s.D.keep && c.attlistDecl)))
  | .IMPLIED_ATTRIBUTE_VALUE | .REQUIRED_ATTRIBUTE_VALUE | .DEFAULT_ATTRIBUTE_VALUE | .FIXED_ATTRIBUTE_VALUE =>
    actAttDefault c s x internal r w
  | .GENERAL_ENTITY_NAME | .PARAM_ENTITY_NAME | .ENTITY_VALUE | .ENTITY_PUBLIC_ID | .ENTITY_SYSTEM_ID
  | .ENTITY_COMPLETE | .ENTITY_NOTATION_NAME => actEntity c ext fuel opened s x internal r w
  | .NOTATION_NAME | .NOTATION_PUBLIC_ID | .NOTATION_SYSTEM_ID | .NOTATION_NO_SYSTEM_ID => actNotation c s x r w
  | .PARAM_ENTITY_REF | .INNER_PARAM_ENTITY_REF => actParamRef c ext expand opened s x internal r w
  | .IGNORE_SECT => ((toDefault c.c x w).map .ev, s, .ignore)
  | .PI => actPI c s x w
  | .COMMENT => actComment c s x w
  | .NONE => ([], s, .go (t != .BOM))
  | .DOCTYPE_NONE => ([], s, .go (!c.startDoctype))
  | .ENTITY_NONE => ([], s, .go (!(s.D.keep && c.entityDecl)))
  | .NOTATION_NONE => ([], s, .go (!c.notationDecl))
  | .ATTLIST_NONE => ([], s, .go (!(s.D.keep && c.attlistDecl)))
  | .ELEMENT_NONE => ([], s, .go (!c.elementDecl))
  | .ERROR => ([], s, .fail (errorCode t).toX)
  | _ => actElement c s x r t w

/-- The role handler is called (5739-5745), then the `match` is done, then the default handler (6863-6865). -/
def pround (c : PCfg) (ext : Ext) (fuel : Nat) (expand : Bool → Buf → Buf → DState → Acted)
    (internal allowClose : Bool) (opened : List Buf) (s : DState) (t : Tok) (w : Buf) : Acted :=
  let x := s.x c internal
  let q := s.el.p.next x.e t w
  match pact c ext fuel expand internal allowClose opened { s with el := { s.el with p := q.1 } } q.2 t w with
  | (E, s, .go true) => (E ++ (toDefault c.c (s.x c internal) w).map .ev, s, .go true)
  | r => r

/-- Result of `doProlog`: XML_ERROR_NONE with the bytes from `*nextPtr` on; the root element starts with
`rest`; an error; a panic.  The state is kept in all cases. -/
inductive PEnd where
  | done (rest : Buf)
  | content (rest : Buf)
  | err (c : XErr)
  | panic
deriving DecidableEq, Repr

abbrev Prolog := List PEv × DState × PEnd

def Prolog.pre (E : List PEv) (r : Prolog) : Prolog := (E ++ r.1, r.2)

/-- What `doIgnoreSection` does (5086-5160): the section is closed after `n` bytes; wait for more; an
error. -/
inductive IgnEnd where
  | closed (n : Nat)
  | wait
  | err (c : XErr)
deriving DecidableEq, Repr

def ignoreSection (x : XEnc) (more : Bool) (b : Buf) : IgnEnd :=
  let r := ignoreSectionTok x.e b
  match r.tok with
  | .IGNORE_SECT => .closed r.next
  | .INVALID => .err .INVALID_TOKEN
  | .PARTIAL_CHAR => if more then .wait else .err .PARTIAL_CHAR
  | .PARTIAL | .NONE => if more then .wait else .err .SYNTAX
  | _ => .err .UNEXPECTED_STATE

/-- src/lib/xmlparse.rs:5693-5737: what is made of the token: a token to carry out with its length, or the
end. `between` is `betweenDecl` of the open internal entity. -/
inductive Seen where
  | tok (t : Tok) (n : Nat)
  | wait
  | endPE
  | fail (c : XErr)
  | panic
deriving DecidableEq, Repr

def seeRes (internal between more isPE : Bool) (r : Res) (b : Buf) : Seen :=
  if !r.tok.isError then .tok r.tok r.next
  else if more ∧ r.tok ≠ .INVALID then .wait
  else match r.tok with
    | .INVALID => .fail .INVALID_TOKEN
    | .PARTIAL => .fail .UNCLOSED_TOKEN
    | .PARTIAL_CHAR => .fail .PARTIAL_CHAR
    | .PROLOG_S_NEG => .tok .PROLOG_S r.next
    | .NONE =>
      if internal ∧ ¬ between then .wait
      else if isPE ∨ internal then .endPE
      else .fail .NO_ELEMENTS
    | t =>
      match t.negate with
      | some t => .tok t b.length
      | none => .panic

def seeToken (x : XEnc) (internal between more isPE : Bool) (b : Buf) : Seen :=
  seeRes internal between more isPE (prologTok x.e b) b

/-- src/lib/xmlparse.rs:5689-6872: the loop of `doProlog`.  (The guards on the length always hold.) -/
def prun (c : PCfg) (ext : Ext) (fuel : Nat) (expand : Bool → Buf → Buf → DState → Acted)
    (internal between allowClose more : Bool) (opened : List Buf) (s : DState) (b : Buf) : Prolog :=
  let x := s.x c internal
  match seeToken x internal between more c.isPE b with
  | .wait => ([], s, .done b)
  | .fail e => ([], s, .err e)
  | .panic => ([], s, .panic)
  | .endPE =>
    -- 5716-5733
    let q := s.el.p.next x.e .NONE []
    let s := { s with el := { s.el with p := q.1 } }
    if q.2 = .ERROR then ([], s, .err .INCOMPLETE_PE) else ([], s, .done b)
  | .tok t n =>
    match pround c ext fuel expand internal allowClose opened s t (b.take n) with
    | (E, s, .fail e) => (E, s, .err e)
    | (E, s, .panic) => (E, s, .panic)
    | (E, s, .start) => (E, s, .content b)
    | (E, s, .go _) =>
      if (b.drop n).length < b.length then
        Prolog.pre E (prun c ext fuel expand internal between allowClose more opened s (b.drop n))
      else (E, s, .panic)
    | (E, s, .ignore) =>
      -- 6400-6417
      let x := s.x c internal
      match ignoreSection x more (b.drop n) with
      | .wait => (E, { s with ignoring := true }, .done (b.drop n))
      | .err e => (E, s, .err e)
      | .closed k =>
        if ((b.drop n).drop k).length < b.length then
          Prolog.pre (E ++ (toDefault c.c x ((b.drop n).take k)).map .ev)
            (prun c ext fuel expand internal between allowClose more opened s ((b.drop n).drop k))
        else (E, s, .panic)
termination_by b.length
decreasing_by all_goals assumption

/-- Result of a nested run, as the outcome of a reference. -/
def Prolog.toActed (r : Prolog) : Acted :=
  match r with
  | (E, s, .done _) => (E, s, .go true)
  | (E, s, .content _) => (E, s, .start)   -- the grammar machine is inside the DTD here
  | (E, s, .err e) => (E, s, .fail e)
  | (E, s, .panic) => (E, s, .panic)

/-- src/lib/xmlparse.rs:6955-7046 `processInternalEntity` for a parameter entity: `doProlog` on its text in the
internal encoding with the entity open.  `fuel` bounds the depth of the recursion. -/
def expandPE (c : PCfg) (ext : Ext) (fuel : Nat) : Nat → List Buf → Bool → Buf → Buf → DState → Acted
  | 0, _, _, _, _, s => ([], s, .fail .DIVERGED)
  | k + 1, opened, between, n, t, s =>
    (prun c ext fuel (expandPE c ext fuel k (n :: opened)) true between false false (n :: opened) s t).toActed

/-- A call of `prologProcessor` or `ignoreSectionProcessor` (5062-5085, 5569-5585) on the bytes not yet
consumed; `opened` are the parameter entities open in the parents of a child parser. -/
def prologCall (c : PCfg) (ext : Ext) (fuel : Nat) (opened : List Buf) (more : Bool) (s : DState) (b : Buf) :
    Prolog :=
  let go := fun (s : DState) (b : Buf) =>
    prun c ext fuel (expandPE c ext fuel fuel opened) false false true more opened s b
  if s.ignoring then
    let x := s.x c false
    match ignoreSection x more b with
    | .wait => ([], s, .done b)
    | .err e => ([], s, .err e)
    | .closed k => Prolog.pre ((toDefault c.c x (b.take k)).map .ev) (go { s with ignoring := false } (b.drop k))
  else go s b

end Verif
