import Verif.Atts

/-! What `doContent`, `doCdataSection` and `epilogProcessor` do for each token
(src/lib/xmlparse.rs:3584-4210, 4924-5054, 6879-6950), as an instance of `Sem`. -/

namespace Verif
open C43

/-- src/lib/xmlparse.rs `Tag`. -/
structure Tag where
  rawName : Buf
  name : TagName
  binds : List Binding
deriving DecidableEq, Repr

/-- The state of the parser while content is parsed: `m_tagStack`, `m_tagLevel`, which processor is
running, the bindings of the prefixes, the flags of the attribute names. -/
structure CState where
  tags : List Tag
  level : Nat
  mode : Mode
  env : Env
  flags : Buf → AFlag

/-- Before the root element: only the prefix `xml` is bound (src/lib/xmlparse.rs:1840-1850,
`implicitContext`). -/
def CState.init : CState :=
  ⟨[], 0, .content, fun p => if p = some xmlName then some xmlNamespace else none, fun _ => .unset⟩

/-- Text for a handler: in one piece if it needs no conversion, otherwise through `m_dataBuf`. -/
def pieces (x : XEnc) (b : Buf) : List Buf := if x.isUtf8 then [b] else deliver x b

/-- `if hasDefault() { reportDefault(..) }`, src/lib/xmlparse.rs:7679-7735. -/
def toDefault (c : Cfg) (x : XEnc) (b : Buf) : List Ev := if c.dflt then (pieces x b).map .dflt else []

/-- The character data handler, or the default handler. -/
def toChars (c : Cfg) (x : XEnc) (data : List Buf) (b : Buf) : List Ev :=
  if c.chars then data.map .chars else toDefault c x b

/-- A handler with this event, or the default handler. -/
def orDefault (c : Cfg) (x : XEnc) (set : Bool) (v : Ev) (b : Buf) : List Ev :=
  if set then [v] else toDefault c x b

/-- Raw name of a tag whose name starts `k` bytes into it. -/
def rawName (x : XEnc) (k : Nat) (b : Buf) : Buf := (b.drop k).take (nameLength x.e (b.drop k))

/-- src/lib/xmlparse.rs:3681-3780: a reference to an entity; `expand` is `processInternalEntity`. -/
def actEntityRef (c : Cfg) (D : Dtd) (x : XEnc) (opened : List Buf)
    (expand : Buf → Buf → CState → List Ev × Except XErr CState) (s : CState) (w : Buf) :
    List Ev × Except XErr CState :=
  let ch := predefinedEntityName x.e (refName x.e w)
  if ch ≠ 0 then (toChars c x [[ch]] w, .ok s) else
  let name := converted x (refName x.e w)
  match D.entity name with
  | none =>
    if D.mustDeclare then ([], .error .UNDEFINED_ENTITY)
    else (orDefault c x c.skipped (.skippedEntity name false) w, .ok s)
  | some ent =>
    if D.mustDeclare && !ent.isInternal then ([], .error .ENTITY_DECLARED_IN_PE)
    else if name ∈ opened then ([], .error .RECURSIVE_ENTITY_REF)
    else if ent.notation_.isSome then ([], .error .BINARY_ENTITY_REF)
    else
      match ent.text with
      | some t =>
        if !c.expandInternal then (orDefault c x c.skipped (.skippedEntity name false) w, .ok s)
        else expand name t s
      | none =>
        if c.externalRef then
          ([.externalRef none ent.systemId ent.publicId],
            if c.refOk name ent then .ok s else .error .EXTERNAL_ENTITY_HANDLING)
        else (toDefault c x w, .ok s)

/-- src/lib/xmlparse.rs:3781-3873: a start tag. -/
def actStart (c : Cfg) (D : Dtd) (int x : XEnc) (opened : List Buf) (s : CState) (w : Buf) :
    List Ev × Except XErr CState :=
  let raw := rawName x x.e.mb w
  match storeAtts c D int x opened s.flags s.env (converted x raw) w with
  | (E, .error (c, _)) => (E, .error c)
  | (E, .ok r) =>
    (E ++ orDefault c x c.startElement (.startElement (r.name.full c) r.atts r.specified r.idIndex) w,
      .ok { s with tags := ⟨raw, r.name, r.binds⟩ :: s.tags, level := s.level + 1, env := r.env,
                   flags := r.flags })

/-- src/lib/xmlparse.rs:3874-3935: an empty-element tag. -/
def actEmpty (c : Cfg) (D : Dtd) (int x : XEnc) (opened : List Buf) (s : CState) (w : Buf) :
    List Ev × Except XErr CState :=
  match storeAtts c D int x opened s.flags s.env (converted x (rawName x x.e.mb w)) w with
  | (E, .error (err, bs)) => (E ++ (freeBindings c s.env bs).1, .error err)
  | (E, .ok r) =>
    let f := freeBindings c r.env r.binds
    (E ++ (if c.startElement then [.startElement (r.name.full c) r.atts r.specified r.idIndex] else []) ++
        (if c.endElement then [.endElement (r.name.full c)] else []) ++
        (if !c.startElement && !c.endElement then toDefault c x w else []) ++ f.1,
      .ok { s with env := f.2, flags := r.flags, mode := if s.level = 0 then .epilog else s.mode })

/-- src/lib/xmlparse.rs:3936-4053: an end tag; `start` is `startTagLevel`. -/
def actEnd (c : Cfg) (x : XEnc) (start : Nat) (s : CState) (w : Buf) : List Ev × Except XErr CState :=
  if s.level = start then ([], .error .ASYNC_ENTITY) else
  match s.tags with
  | [] => ([], .error .UNEXPECTED_STATE)   -- `unwrap` of an empty stack: panic (`C26.tag_stack`: not reached)
  | tag :: tags =>
    if rawName x (2 * x.e.mb) w ≠ tag.rawName then ([], .error .TAG_MISMATCH) else
    let f := freeBindings c s.env tag.binds
    (orDefault c x c.endElement (.endElement (tag.name.full c)) w ++ f.1,
      .ok { s with tags := tags, level := s.level - 1, env := f.2,
                   mode := if s.level - 1 = 0 then .epilog else s.mode })

/-- The `match tok` of the three functions.  Events: `E`; the `m_eventPtr` updates are left out.
Context strings of external entities are not part of the event (see C32). -/
def act (c : Cfg) (D : Dtd) (int x : XEnc) (opened : List Buf) (start : Nat)
    (expand : Buf → Buf → CState → List Ev × Except XErr CState) (s : CState) (t : Tok) (w : Buf) :
    List Ev × Except XErr CState :=
  match t with
  | .ENTITY_REF => actEntityRef c D x opened expand s w
  | .START_TAG_NO_ATTS | .START_TAG_WITH_ATTS => actStart c D int x opened s w
  | .EMPTY_ELEMENT_NO_ATTS | .EMPTY_ELEMENT_WITH_ATTS => actEmpty c D int x opened s w
  | .END_TAG => actEnd c x start s w
  | .CHAR_REF =>
    let n := charRefNumber x.e w
    if n < 0 then ([], .error .BAD_CHAR_REF) else (toChars c x [xmlUtf8Encode n] w, .ok s)
  | .XML_DECL => ([], .error .MISPLACED_XML_PI)
  | .DATA_NEWLINE => (toChars c x [[0x0A]] w, .ok s)
  | .DATA_CHARS => (toChars c x (pieces x w) w, .ok s)
  | .CDATA_SECT_OPEN => (orDefault c x c.startCdata .startCdata w, .ok { s with mode := .cdata })
  | .CDATA_SECT_CLOSE => (orDefault c x c.endCdata .endCdata w, .ok { s with mode := .content })
  | .PI =>
    if c.pi then
      match reportPI c.al x Pool.new w with
      | some (t, d) => ([.pi t d], .ok s)
      | none => ([], .error .NO_MEMORY)   -- never: C14
    else (toDefault c x w, .ok s)
  | .COMMENT =>
    if c.comment then
      match reportComment c.al x Pool.new w with
      | some d => ([.comment d], .ok s)
      | none => ([], .error .NO_MEMORY)   -- never: C14
    else (toDefault c x w, .ok s)
  | _ => (toDefault c x w, .ok s)

/-- The parser with a given way of expanding entities; no handler stops it. -/
def semOf (c : Cfg) (D : Dtd) (int x : XEnc) (opened : List Buf) (start : Nat)
    (expand : Buf → Buf → CState → List Ev × Except XErr CState) : Sem CState where
  mode s := s.mode
  act := act c D int x opened start expand
  stop _ := .go
  fin s := if start = 0 then some .NO_ELEMENTS else if s.level ≠ start then some .ASYNC_ENTITY else none

/-- Result of a nested run. -/
def Ran.toAct (r : Ran CState) : List Ev × Except XErr CState :=
  match r with
  | (E, .ok s _) => (E, .ok s)
  | (E, .err c) => (E, .error c)

/-- src/lib/xmlparse.rs:6955-7046 `processInternalEntity` calls `doContent` on the text of the entity, in
the internal encoding, with the entity open and the current level as `startTagLevel`.  `fuel` bounds the
depth of that recursion; see `appendAttributeValue`. -/
def sem (c : Cfg) (D : Dtd) (int : XEnc) : Nat → XEnc → List Buf → Nat → Sem CState
  | 0, x, opened, start => semOf c D int x opened start fun _ _ _ => ([], .error .DIVERGED)
  | k + 1, x, opened, start =>
    semOf c D int x opened start fun n t s =>
      Ran.toAct (run (sem c D int k int (n :: opened) s.level) int.e false false s t)

/-- The content of a document, from the start tag of the root element on. -/
def parser (c : Cfg) (D : Dtd) (int x : XEnc) : Sem CState := sem c D int D.fuel x [] 0

end Verif
