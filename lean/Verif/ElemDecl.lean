import Verif.Props.C21

/-!
# Element declarations in `doProlog` (src/lib/xmlparse.rs:6389-6501, 6600-6671, 6732-6802),
the content scaffold and the delivered model

The part of `doProlog` modelled here: the call of the grammar machine, the error codes of the
`ERROR` role, the group-connector array, the content scaffold, and the element-declaration handler.
Simplifications: allocation succeeds; the arms for the other roles (entities, attributes,
notations, DOCTYPE, references) have no effect on these variables and are left out; the byte
lengths `contentStringLen` and `allocsize` (c_uint / c_int) are natural numbers, so a model of
2 GiB and more is outside the model.  A read or write outside `m_groupConnector`, an index out of
range and an `unwrap` of `None` are the outcome `fault`.
-/

namespace Verif

/-- src/expat_h.rs:125-132 `XML_Content_Type`; `ZERO` is the all-zero value a scaffold cell has
before its type is set (`std::mem::zeroed`, src/lib/xmlparse.rs:1318). -/
inductive CType where
  | ZERO | EMPTY | ANY | MIXED | NAME | CHOICE | SEQ
deriving DecidableEq, Repr, Inhabited

/-- src/expat_h.rs:142-147 `XML_Content_Quant`. -/
inductive Quant where
  | NONE | OPT | REP | PLUS
deriving DecidableEq, Repr, Inhabited

/-- src/lib/xmlparse.rs:1341-1351 `ContentScaffold`; the name is the string pointed to. -/
structure Part where
  type : CType := .ZERO
  quant : Quant := .NONE
  name : List UInt8 := []
  firstchild : Nat := 0
  lastchild : Nat := 0
  childcnt : Nat := 0
  nextsib : Nat := 0
deriving DecidableEq, Repr, Inhabited

/-- src/lib/xmlparse.rs:1311-1332 `DTDScaffold::next_part`: the new index and the scaffold.
`index` is the stack of open groups, innermost first.  `none`: index out of range. -/
def nextPart (scf : List Part) (index : List Nat) : Option (List Part) :=
  let next := scf.length
  let scf := scf ++ [{}]
  match index with
  | [] => some scf
  | idx :: _ =>
    match scf[idx]? with
    | none => none
    | some p =>
      let scf := if p.lastchild ≠ 0 then scf.modify p.lastchild fun q => { q with nextsib := next } else scf
      some (scf.modify idx fun p =>
        { p with firstchild := if p.childcnt = 0 then next else p.firstchild, lastchild := next,
                 childcnt := p.childcnt + 1 })

/-- src/expat_h.rs:169-175 `XML_cp`, with the two pointers as offsets into the allocated block:
`name` into the string area, `children` into the array of cells. -/
structure Cell where
  type : CType := .ZERO
  quant : Quant := .NONE
  name : Option Nat := none
  numchildren : Nat := 0
  children : Option Nat := none
deriving DecidableEq, Repr, Inhabited

/-- The block `build_model` allocates: an array of cells followed by the string area, together
with the first free cell and the first free byte (`contpos`, `strpos`). -/
structure Block where
  cells : List Cell
  strs : List UInt8
  contpos : Nat
  strpos : Nat
deriving DecidableEq, Repr, Inhabited

/-- src/lib/xmlparse.rs:8252-8261: copying a name and its NUL; `none` is the panic of
`split_first_mut().unwrap()`. -/
def copyStr (m : Block) : List UInt8 → Option Block
  | [] => some m
  | c :: cs =>
    if m.strpos < m.strs.length then
      copyStr { m with strs := m.strs.set m.strpos c, strpos := m.strpos + 1 } cs
    else none

/-- src/lib/xmlparse.rs:8270-8276: the loop over the children in `build_node`; `bn` is the
recursive call. -/
def buildKids (scf : List Part) (bn : Nat → Nat → Block → Option Block) :
    Nat → Nat → Nat → Block → Option Block
  | 0, _, _, m => some m
  | k + 1, cn, dest, m =>
    (bn cn dest m).bind fun m =>
      match scf[cn]? with
      | none => none
      | some p => buildKids scf bn k p.nextsib (dest + 1) m

/-- src/lib/xmlparse.rs:8235-8279 `build_node`.  The recursion has no bound in the code; here it
gets a depth bound (running out is `none`, like a panic), shown in C25 never to be reached when it
is the number of scaffold cells. -/
def buildNode (scf : List Part) : Nat → Nat → Nat → Block → Option Block
  | 0, _, _, _ => none
  | f + 1, src, dest, m =>
    match scf[src]? with
    | none => none
    | some p =>
      if p.type = .NAME then
        copyStr { m with cells := m.cells.set dest ⟨p.type, p.quant, some m.strpos, 0, none⟩ }
          (p.name ++ [0])
      else if m.cells.length < m.contpos + p.childcnt then none
      else
        buildKids scf (buildNode scf f) p.childcnt p.firstchild m.contpos
          { m with cells := m.cells.set dest ⟨p.type, p.quant, none, p.childcnt, some m.contpos⟩
                   contpos := m.contpos + p.childcnt }

/-- src/lib/xmlparse.rs:8281-8303 `build_model`: the root is cell 0. -/
def buildModel (scf : List Part) (strLen : Nat) : Option Block :=
  if scf.length = 0 then none
  else buildNode scf scf.length 0 0
    ⟨List.replicate scf.length {}, List.replicate strLen 0, 1, 0⟩

/-- The variables of the parser that the modelled arms use. -/
structure EState where
  p : PState
  /-- `m_groupSize` -/
  groupSize : UInt32 := 0
  /-- `m_groupConnector` -/
  conn : Nat → UInt8 := fun _ => 0
  /-- `m_dtd.in_eldecl` -/
  inEldecl : Bool := false
  /-- `m_dtd.scaffold.scaffold` -/
  scaffold : List Part := []
  /-- `m_dtd.scaffold.index`, innermost first -/
  index : List Nat := []
  /-- `m_dtd.contentStringLen` -/
  strLen : Nat := 0
  /-- the name of `m_declElementType` -/
  declName : List UInt8 := []
  /-- the calls of the element-declaration handler so far, latest last -/
  calls : List (List UInt8 × Block) := []

/-- Error codes of the `ERROR` role. -/
inductive PErr where
  | SYNTAX | PARAM_ENTITY_REF | MISPLACED_XML_PI
deriving DecidableEq, Repr, Inhabited

/-- Outcome of one round of the loop in `doProlog`.  `start`: the root element begins, `doProlog`
hands over to `contentProcessor` (src/lib/xmlparse.rs:5902-5945). -/
inductive ElemRes where
  | ok (s : EState)
  | start (s : EState)
  | err (c : PErr)
  | fault

/-- src/lib/xmlparse.rs:6389-6399. -/
def errorCode (t : Tok) : PErr :=
  match t with
  | .PARAM_ENTITY_REF => .PARAM_ENTITY_REF
  | .XML_DECL => .MISPLACED_XML_PI
  | _ => .SYNTAX

namespace EState

/-- src/lib/xmlparse.rs:6420-6438: growing `m_groupConnector`. -/
def grow (s : EState) : EState :=
  if s.p.level ≥ s.groupSize then
    { s with groupSize := if s.groupSize ≠ 0 then s.groupSize * 2 else 32 }
  else s

/-- `*m_groupConnector.offset(level) = c` -/
def setConn (s : EState) (c : UInt8) : ElemRes :=
  if s.p.level < s.groupSize then
    .ok { s with conn := fun i => if i = s.p.level.toNat then c else s.conn i }
  else .fault

/-- Change the type of the innermost open group
(`index.last().copied().unwrap()`, `scaffold[idx]`). -/
def modTop (s : EState) (f : Part → Part) : ElemRes :=
  match s.index with
  | [] => .fault
  | idx :: _ =>
    if idx < s.scaffold.length then .ok { s with scaffold := s.scaffold.modify idx f } else .fault

/-- src/lib/xmlparse.rs:6418-6458, `GROUP_OPEN`. -/
def groupOpen (s : EState) : ElemRes :=
  match s.grow.setConn 0 with
  | .ok s =>
    if s.inEldecl then
      match nextPart s.scaffold s.index with
      | none => .fault
      | some scf => { s with scaffold := scf, index := s.scaffold.length :: s.index }.modTop
          fun p => { p with type := .SEQ }
    else .ok s
  | r => r

/-- src/lib/xmlparse.rs:6459-6473, `GROUP_SEQUENCE`. -/
def groupSequence (s : EState) : ElemRes :=
  if ¬ s.p.level < s.groupSize then .fault
  else if s.conn s.p.level.toNat = 0x7C then .err .SYNTAX
  else s.setConn 0x2C

/-- src/lib/xmlparse.rs:6474-6501, `GROUP_CHOICE`. -/
def groupChoice (s : EState) : ElemRes :=
  if ¬ s.p.level < s.groupSize then .fault
  else if s.conn s.p.level.toNat = 0x2C then .err .SYNTAX
  else if s.inEldecl ∧ s.conn s.p.level.toNat = 0 then
    match s.modTop fun p => if p.type ≠ .MIXED then { p with type := .CHOICE } else p with
    | .ok s => s.setConn 0x7C
    | r => r
  else s.setConn 0x7C

/-- src/lib/xmlparse.rs:6600-6614, `ELEMENT_NAME`. -/
def elementName (decl : Bool) (s : EState) (name : List UInt8) : ElemRes :=
  if decl then .ok { s with declName := name, scaffold := [], index := [], inEldecl := true }
  else .ok s

/-- src/lib/xmlparse.rs:6615-6637, `CONTENT_ANY` and `CONTENT_EMPTY`. -/
def contentLeaf (decl : Bool) (s : EState) (ty : CType) : ElemRes :=
  if s.inEldecl then
    .ok { s with
      calls := if decl then s.calls ++ [(s.declName, ⟨[⟨ty, .NONE, none, 0, none⟩], [], 1, 0⟩)] else s.calls
      inEldecl := false }
  else .ok s

/-- src/lib/xmlparse.rs:6638-6647, `CONTENT_PCDATA`. -/
def contentPcdata (s : EState) : ElemRes :=
  if s.inEldecl then s.modTop fun p => { p with type := .MIXED } else .ok s

/-- src/lib/xmlparse.rs:6732-6774, `CONTENT_ELEMENT` and its quantified forms.  `name` is the name
without the quantifier character. -/
def contentElement (s : EState) (q : Quant) (name : List UInt8) : ElemRes :=
  if s.inEldecl then
    match nextPart s.scaffold s.index with
    | none => .fault
    | some scf => .ok { s with
        scaffold := scf.modify s.scaffold.length fun p => { p with type := .NAME, quant := q, name := name }
        strLen := s.strLen + (name.length + 1) }
  else .ok s

/-- src/lib/xmlparse.rs:6775-6802, `GROUP_CLOSE` and its quantified forms. -/
def groupClose (decl : Bool) (s : EState) (q : Quant) : ElemRes :=
  if s.inEldecl then
    match s.modTop fun p => { p with quant := q } with
    | .ok s =>
      let s := { s with index := s.index.tail }
      if s.index.isEmpty then
        if decl then
          match buildModel s.scaffold s.strLen with
          | none => .fault
          | some m => .ok { s with calls := s.calls ++ [(s.declName, m)], inEldecl := false, strLen := 0 }
        else .ok { s with inEldecl := false, strLen := 0 }
      else .ok s
    | r => r
  else .ok s

/-- The arms of the `match` on the role in `doProlog` (src/lib/xmlparse.rs:5747-6861) that matter
for element declarations; the role handlers have already run (`s.p`).  `decl`: an
element-declaration handler is set.  `nm` stands for `getElementType` followed by reading the
stored name (src/lib/xmlparse.rs:8305-8331). -/
def act (decl : Bool) (nm : Buf → List UInt8) (e : Enc) (s : EState) (t : Tok) (b : Buf)
    (r : Role) : ElemRes :=
  match r with
  | .ERROR => .err (errorCode t)
  | .INSTANCE_START => .start s
  | .GROUP_OPEN => s.groupOpen
  | .GROUP_SEQUENCE => s.groupSequence
  | .GROUP_CHOICE => s.groupChoice
  | .ELEMENT_NAME => s.elementName decl (nm b)
  | .CONTENT_ANY => s.contentLeaf decl .ANY
  | .CONTENT_EMPTY => s.contentLeaf decl .EMPTY
  | .CONTENT_PCDATA => s.contentPcdata
  | .CONTENT_ELEMENT => s.contentElement .NONE (nm b)
  | .CONTENT_ELEMENT_OPT => s.contentElement .OPT (nm (b.take (b.length - e.mb)))
  | .CONTENT_ELEMENT_REP => s.contentElement .REP (nm (b.take (b.length - e.mb)))
  | .CONTENT_ELEMENT_PLUS => s.contentElement .PLUS (nm (b.take (b.length - e.mb)))
  | .GROUP_CLOSE => s.groupClose decl .NONE
  | .GROUP_CLOSE_OPT => s.groupClose decl .OPT
  | .GROUP_CLOSE_REP => s.groupClose decl .REP
  | .GROUP_CLOSE_PLUS => s.groupClose decl .PLUS
  | _ => .ok s

/-- One round of the loop in `doProlog` (src/lib/xmlparse.rs:5738-6872) for a token that is not
an error token. -/
def step (decl : Bool) (nm : Buf → List UInt8) (e : Enc) (s : EState) (t : Tok) (b : Buf) : ElemRes :=
  { s with p := (s.p.next e t b).1 }.act decl nm e t b (s.p.next e t b).2

/-- The loop of `doProlog` over a list of tokens: it stops at the first error. -/
def run (decl : Bool) (nm : Buf → List UInt8) (e : Enc) (s : EState) : List (Tok × Buf) → ElemRes
  | [] => .ok s
  | (t, b) :: ts =>
    match s.step decl nm e t b with
    | .ok s => run decl nm e s ts
    | r => r

end EState
end Verif
