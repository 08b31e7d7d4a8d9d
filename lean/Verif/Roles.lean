import Verif.Props.C54

/-!
# The prolog grammar machine (src/lib/xmlrole.rs)

Every handler of the file is one definition.  A handler that reaches its final
`common(state, tok)` returns `none` here; `PState.next` then applies `common`.
The handler is called with the token's own bytes (xmlparse.rs:5739-5745 passes
`buf.with_end(next)`), which is the `b` argument.
-/

namespace Verif

/-- src/lib/xmlrole.rs:40-107 `XML_ROLE`. -/
inductive Role where
  | ERROR | NONE | XML_DECL | INSTANCE_START | DOCTYPE_NONE | DOCTYPE_NAME | DOCTYPE_SYSTEM_ID |
  DOCTYPE_PUBLIC_ID | DOCTYPE_INTERNAL_SUBSET | DOCTYPE_CLOSE | GENERAL_ENTITY_NAME |
  PARAM_ENTITY_NAME | ENTITY_NONE | ENTITY_VALUE | ENTITY_SYSTEM_ID | ENTITY_PUBLIC_ID |
  ENTITY_COMPLETE | ENTITY_NOTATION_NAME | NOTATION_NONE | NOTATION_NAME | NOTATION_SYSTEM_ID |
  NOTATION_NO_SYSTEM_ID | NOTATION_PUBLIC_ID | ATTRIBUTE_NAME | ATTRIBUTE_TYPE_CDATA |
  ATTRIBUTE_TYPE_ID | ATTRIBUTE_TYPE_IDREF | ATTRIBUTE_TYPE_IDREFS | ATTRIBUTE_TYPE_ENTITY |
  ATTRIBUTE_TYPE_ENTITIES | ATTRIBUTE_TYPE_NMTOKEN | ATTRIBUTE_TYPE_NMTOKENS |
  ATTRIBUTE_ENUM_VALUE | ATTRIBUTE_NOTATION_VALUE | ATTLIST_NONE | ATTLIST_ELEMENT_NAME |
  IMPLIED_ATTRIBUTE_VALUE | REQUIRED_ATTRIBUTE_VALUE | DEFAULT_ATTRIBUTE_VALUE |
  FIXED_ATTRIBUTE_VALUE | ELEMENT_NONE | ELEMENT_NAME | CONTENT_ANY | CONTENT_EMPTY |
  CONTENT_PCDATA | GROUP_OPEN | GROUP_CLOSE | GROUP_CLOSE_REP | GROUP_CLOSE_OPT | GROUP_CLOSE_PLUS
  | GROUP_CHOICE | GROUP_SEQUENCE | CONTENT_ELEMENT | CONTENT_ELEMENT_REP | CONTENT_ELEMENT_OPT |
  CONTENT_ELEMENT_PLUS | PI | COMMENT | TEXT_DECL | IGNORE_SECT | INNER_PARAM_ENTITY_REF |
  PARAM_ENTITY_REF
deriving DecidableEq, Repr, Inhabited

/-- The handler functions of src/lib/xmlrole.rs:356-1597, as values of `state.handler`. -/
inductive Hd where
  | prolog0 | prolog1 | prolog2 | doctype0 | doctype1 | doctype2 | doctype3 | doctype4 | doctype5
  | internalSubset | externalSubset1 | externalSubset0 | entity0 | entity1 | entity2 | entity3 |
  entity4 | entity5 | entity6 | entity7 | entity8 | entity9 | entity10 | notation0 | notation1 |
  notation2 | notation3 | notation4 | attlist0 | attlist1 | attlist2 | attlist3 | attlist4 |
  attlist5 | attlist6 | attlist7 | attlist8 | attlist9 | element0 | element1 | element2 | element3
  | element4 | element5 | element6 | element7 | condSect0 | condSect1 | condSect2 | declClose |
  error
deriving DecidableEq, Repr, Inhabited

/-- src/lib/xmlrole.rs:117-128 `prolog_state`.  `handler` is never `None` once one of the two
initialisers has run, so the `Option` is dropped; the two `c_int` flags are Booleans. -/
structure PState where
  h : Hd
  level : UInt32 := 0
  roleNone : Role := .NONE
  includeLevel : UInt32 := 0
  documentEntity : Bool
  inEntityValue : Bool := false
deriving DecidableEq, Repr

namespace PState

/-- src/lib/xmlrole.rs:156-354 `KW_ANY`. -/
def kwANY : List UInt8 := [0x41, 0x4E, 0x59]
/-- src/lib/xmlrole.rs:156-354 `KW_ATTLIST`. -/
def kwATTLIST : List UInt8 := [0x41, 0x54, 0x54, 0x4C, 0x49, 0x53, 0x54]
/-- src/lib/xmlrole.rs:156-354 `KW_CDATA`. -/
def kwCDATA : List UInt8 := [0x43, 0x44, 0x41, 0x54, 0x41]
/-- src/lib/xmlrole.rs:156-354 `KW_DOCTYPE`. -/
def kwDOCTYPE : List UInt8 := [0x44, 0x4F, 0x43, 0x54, 0x59, 0x50, 0x45]
/-- src/lib/xmlrole.rs:156-354 `KW_ELEMENT`. -/
def kwELEMENT : List UInt8 := [0x45, 0x4C, 0x45, 0x4D, 0x45, 0x4E, 0x54]
/-- src/lib/xmlrole.rs:156-354 `KW_EMPTY`. -/
def kwEMPTY : List UInt8 := [0x45, 0x4D, 0x50, 0x54, 0x59]
/-- src/lib/xmlrole.rs:156-354 `KW_ENTITIES`. -/
def kwENTITIES : List UInt8 := [0x45, 0x4E, 0x54, 0x49, 0x54, 0x49, 0x45, 0x53]
/-- src/lib/xmlrole.rs:156-354 `KW_ENTITY`. -/
def kwENTITY : List UInt8 := [0x45, 0x4E, 0x54, 0x49, 0x54, 0x59]
/-- src/lib/xmlrole.rs:156-354 `KW_FIXED`. -/
def kwFIXED : List UInt8 := [0x46, 0x49, 0x58, 0x45, 0x44]
/-- src/lib/xmlrole.rs:156-354 `KW_ID`. -/
def kwID : List UInt8 := [0x49, 0x44]
/-- src/lib/xmlrole.rs:156-354 `KW_IDREF`. -/
def kwIDREF : List UInt8 := [0x49, 0x44, 0x52, 0x45, 0x46]
/-- src/lib/xmlrole.rs:156-354 `KW_IDREFS`. -/
def kwIDREFS : List UInt8 := [0x49, 0x44, 0x52, 0x45, 0x46, 0x53]
/-- src/lib/xmlrole.rs:156-354 `KW_IGNORE`. -/
def kwIGNORE : List UInt8 := [0x49, 0x47, 0x4E, 0x4F, 0x52, 0x45]
/-- src/lib/xmlrole.rs:156-354 `KW_IMPLIED`. -/
def kwIMPLIED : List UInt8 := [0x49, 0x4D, 0x50, 0x4C, 0x49, 0x45, 0x44]
/-- src/lib/xmlrole.rs:156-354 `KW_INCLUDE`. -/
def kwINCLUDE : List UInt8 := [0x49, 0x4E, 0x43, 0x4C, 0x55, 0x44, 0x45]
/-- src/lib/xmlrole.rs:156-354 `KW_NDATA`. -/
def kwNDATA : List UInt8 := [0x4E, 0x44, 0x41, 0x54, 0x41]
/-- src/lib/xmlrole.rs:156-354 `KW_NMTOKEN`. -/
def kwNMTOKEN : List UInt8 := [0x4E, 0x4D, 0x54, 0x4F, 0x4B, 0x45, 0x4E]
/-- src/lib/xmlrole.rs:156-354 `KW_NMTOKENS`. -/
def kwNMTOKENS : List UInt8 := [0x4E, 0x4D, 0x54, 0x4F, 0x4B, 0x45, 0x4E, 0x53]
/-- src/lib/xmlrole.rs:156-354 `KW_NOTATION`. -/
def kwNOTATION : List UInt8 := [0x4E, 0x4F, 0x54, 0x41, 0x54, 0x49, 0x4F, 0x4E]
/-- src/lib/xmlrole.rs:156-354 `KW_PCDATA`. -/
def kwPCDATA : List UInt8 := [0x50, 0x43, 0x44, 0x41, 0x54, 0x41]
/-- src/lib/xmlrole.rs:156-354 `KW_PUBLIC`. -/
def kwPUBLIC : List UInt8 := [0x50, 0x55, 0x42, 0x4C, 0x49, 0x43]
/-- src/lib/xmlrole.rs:156-354 `KW_REQUIRED`. -/
def kwREQUIRED : List UInt8 := [0x52, 0x45, 0x51, 0x55, 0x49, 0x52, 0x45, 0x44]
/-- src/lib/xmlrole.rs:156-354 `KW_SYSTEM`. -/
def kwSYSTEM : List UInt8 := [0x53, 0x59, 0x53, 0x54, 0x45, 0x4D]

/-- `state.handler = h; return r` -/
@[inline] def go (s : PState) (h : Hd) (r : Role) : Option (PState × Role) := some ({ s with h := h }, r)
/-- `return r` -/
@[inline] def stay (s : PState) (r : Role) : Option (PState × Role) := some (s, r)
/-- `state.handler = declClose; state.role_none = n; return r` -/
@[inline] def close (s : PState) (n : Role) (r : Role) : Option (PState × Role) :=
  some ({ s with h := .declClose, roleNone := n }, r)
/-- `state.handler = if state.documentEntity != 0 { internalSubset } else { externalSubset1 };
return r` (for example src/lib/xmlrole.rs:1557-1562; the same in every handler that ends a
declaration). -/
@[inline] def top (s : PState) (r : Role) : Option (PState × Role) :=
  some ({ s with h := if s.documentEntity then .internalSubset else .externalSubset1 }, r)
/-- the closing-parenthesis arms of `element7` (src/lib/xmlrole.rs:1444-1475). -/
@[inline] def closeGroup (s : PState) (r : Role) : Option (PState × Role) :=
  if s.level - 1 = 0 then some ({ s with level := s.level - 1, h := .declClose, roleNone := .ELEMENT_NONE }, r)
  else some ({ s with level := s.level - 1 }, r)

/-- src/lib/xmlrole.rs:1599-1606 `common`. -/
def common (s : PState) (tok : Tok) : PState × Role :=
  if !s.documentEntity && tok == .PARAM_ENTITY_REF then (s, .INNER_PARAM_ENTITY_REF)
  else ({ s with h := .error }, .ERROR)

/-- src/lib/xmlrole.rs:356-396 `prolog0`. -/
def prolog0 (e : Enc) (s : PState) (t : Tok) (b : Buf) : Option (PState × Role) :=
  match t with
  | .PROLOG_S => s.go .prolog1 .NONE
  | .XML_DECL => s.go .prolog1 .XML_DECL
  | .PI => s.go .prolog1 .PI
  | .COMMENT => s.go .prolog1 .COMMENT
  | .BOM => s.stay .NONE
  | .DECL_OPEN =>
    if nameMatchesAscii e (b.drop (2 * e.mb)) kwDOCTYPE then s.go .doctype0 .DOCTYPE_NONE
    else none
  | .INSTANCE_START => s.go .error .INSTANCE_START
  | _ => none

/-- src/lib/xmlrole.rs:398-434 `prolog1`. -/
def prolog1 (e : Enc) (s : PState) (t : Tok) (b : Buf) : Option (PState × Role) :=
  match t with
  | .PROLOG_S => s.stay .NONE
  | .PI => s.stay .PI
  | .COMMENT => s.stay .COMMENT
  | .BOM => s.stay .NONE
  | .DECL_OPEN =>
    if nameMatchesAscii e (b.drop (2 * e.mb)) kwDOCTYPE then s.go .doctype0 .DOCTYPE_NONE
    else none
  | .INSTANCE_START => s.go .error .INSTANCE_START
  | _ => none

/-- src/lib/xmlrole.rs:436-453 `prolog2`. -/
def prolog2 (s : PState) (t : Tok) : Option (PState × Role) :=
  match t with
  | .PROLOG_S => s.stay .NONE
  | .PI => s.stay .PI
  | .COMMENT => s.stay .COMMENT
  | .INSTANCE_START => s.go .error .INSTANCE_START
  | _ => none

/-- src/lib/xmlrole.rs:455-470 `doctype0`. -/
def doctype0 (s : PState) (t : Tok) : Option (PState × Role) :=
  match t with
  | .PROLOG_S => s.stay .DOCTYPE_NONE
  | .NAME | .PREFIXED_NAME => s.go .doctype1 .DOCTYPE_NAME
  | _ => none

/-- src/lib/xmlrole.rs:472-501 `doctype1`. -/
def doctype1 (e : Enc) (s : PState) (t : Tok) (b : Buf) : Option (PState × Role) :=
  match t with
  | .PROLOG_S => s.stay .DOCTYPE_NONE
  | .OPEN_BRACKET => s.go .internalSubset .DOCTYPE_INTERNAL_SUBSET
  | .DECL_CLOSE => s.go .prolog2 .DOCTYPE_CLOSE
  | .NAME =>
    if nameMatchesAscii e b kwSYSTEM then s.go .doctype3 .DOCTYPE_NONE
    else if nameMatchesAscii e b kwPUBLIC then s.go .doctype2 .DOCTYPE_NONE
    else none
  | _ => none

/-- src/lib/xmlrole.rs:503-518 `doctype2`. -/
def doctype2 (s : PState) (t : Tok) : Option (PState × Role) :=
  match t with
  | .PROLOG_S => s.stay .DOCTYPE_NONE
  | .LITERAL => s.go .doctype3 .DOCTYPE_PUBLIC_ID
  | _ => none

/-- src/lib/xmlrole.rs:520-535 `doctype3`. -/
def doctype3 (s : PState) (t : Tok) : Option (PState × Role) :=
  match t with
  | .PROLOG_S => s.stay .DOCTYPE_NONE
  | .LITERAL => s.go .doctype4 .DOCTYPE_SYSTEM_ID
  | _ => none

/-- src/lib/xmlrole.rs:537-556 `doctype4`. -/
def doctype4 (s : PState) (t : Tok) : Option (PState × Role) :=
  match t with
  | .PROLOG_S => s.stay .DOCTYPE_NONE
  | .OPEN_BRACKET => s.go .internalSubset .DOCTYPE_INTERNAL_SUBSET
  | .DECL_CLOSE => s.go .prolog2 .DOCTYPE_CLOSE
  | _ => none

/-- src/lib/xmlrole.rs:558-573 `doctype5`. -/
def doctype5 (s : PState) (t : Tok) : Option (PState × Role) :=
  match t with
  | .PROLOG_S => s.stay .DOCTYPE_NONE
  | .DECL_CLOSE => s.go .prolog2 .DOCTYPE_CLOSE
  | _ => none

/-- src/lib/xmlrole.rs:575-625 `internalSubset`. -/
def internalSubset (e : Enc) (s : PState) (t : Tok) (b : Buf) : Option (PState × Role) :=
  match t with
  | .PROLOG_S => s.stay .NONE
  | .DECL_OPEN =>
    if nameMatchesAscii e (b.drop (2 * e.mb)) kwENTITY then s.go .entity0 .ENTITY_NONE
    else if nameMatchesAscii e (b.drop (2 * e.mb)) kwATTLIST then s.go .attlist0 .ATTLIST_NONE
    else if nameMatchesAscii e (b.drop (2 * e.mb)) kwELEMENT then s.go .element0 .ELEMENT_NONE
    else if nameMatchesAscii e (b.drop (2 * e.mb)) kwNOTATION then s.go .notation0 .NOTATION_NONE
    else none
  | .PI => s.stay .PI
  | .COMMENT => s.stay .COMMENT
  | .PARAM_ENTITY_REF => s.stay .PARAM_ENTITY_REF
  | .CLOSE_BRACKET => s.go .doctype5 .DOCTYPE_NONE
  | .NONE => s.stay .NONE
  | _ => none

/-- src/lib/xmlrole.rs:640-667 `externalSubset1`. -/
def externalSubset1 (e : Enc) (s : PState) (t : Tok) (b : Buf) : Option (PState × Role) :=
  match t with
  | .COND_SECT_OPEN => s.go .condSect0 .NONE
  | .COND_SECT_CLOSE =>
    if s.includeLevel ≠ 0 then some ({ s with includeLevel := s.includeLevel - 1 }, .NONE) else none
  | .PROLOG_S => s.stay .NONE
  | .CLOSE_BRACKET => none
  | .NONE => if s.includeLevel = 0 then s.stay .NONE else none
  | _ => internalSubset e s t b

/-- src/lib/xmlrole.rs:627-638 `externalSubset0`; the handler is replaced before delegating. -/
def externalSubset0 (e : Enc) (s : PState) (t : Tok) (b : Buf) : Option (PState × Role) :=
  if t = .XML_DECL then s.go .externalSubset1 .TEXT_DECL
  else externalSubset1 e { s with h := .externalSubset1 } t b

/-- src/lib/xmlrole.rs:670-689 `entity0`. -/
def entity0 (s : PState) (t : Tok) : Option (PState × Role) :=
  match t with
  | .PROLOG_S => s.stay .ENTITY_NONE
  | .PERCENT => s.go .entity1 .ENTITY_NONE
  | .NAME => s.go .entity2 .GENERAL_ENTITY_NAME
  | _ => none

/-- src/lib/xmlrole.rs:691-706 `entity1`. -/
def entity1 (s : PState) (t : Tok) : Option (PState × Role) :=
  match t with
  | .PROLOG_S => s.stay .ENTITY_NONE
  | .NAME => s.go .entity7 .PARAM_ENTITY_NAME
  | _ => none

/-- src/lib/xmlrole.rs:708-734 `entity2`. -/
def entity2 (e : Enc) (s : PState) (t : Tok) (b : Buf) : Option (PState × Role) :=
  match t with
  | .PROLOG_S => s.stay .ENTITY_NONE
  | .NAME =>
    if nameMatchesAscii e b kwSYSTEM then s.go .entity4 .ENTITY_NONE
    else if nameMatchesAscii e b kwPUBLIC then s.go .entity3 .ENTITY_NONE
    else none
  | .LITERAL => s.close .ENTITY_NONE .ENTITY_VALUE
  | _ => none

/-- src/lib/xmlrole.rs:736-751 `entity3`. -/
def entity3 (s : PState) (t : Tok) : Option (PState × Role) :=
  match t with
  | .PROLOG_S => s.stay .ENTITY_NONE
  | .LITERAL => s.go .entity4 .ENTITY_PUBLIC_ID
  | _ => none

/-- src/lib/xmlrole.rs:753-768 `entity4`. -/
def entity4 (s : PState) (t : Tok) : Option (PState × Role) :=
  match t with
  | .PROLOG_S => s.stay .ENTITY_NONE
  | .LITERAL => s.go .entity5 .ENTITY_SYSTEM_ID
  | _ => none

/-- src/lib/xmlrole.rs:770-795 `entity5`. -/
def entity5 (e : Enc) (s : PState) (t : Tok) (b : Buf) : Option (PState × Role) :=
  match t with
  | .PROLOG_S => s.stay .ENTITY_NONE
  | .DECL_CLOSE => s.top .ENTITY_COMPLETE
  | .NAME =>
    if nameMatchesAscii e b kwNDATA then s.go .entity6 .ENTITY_NONE
    else none
  | _ => none

/-- src/lib/xmlrole.rs:797-813 `entity6`. -/
def entity6 (s : PState) (t : Tok) : Option (PState × Role) :=
  match t with
  | .PROLOG_S => s.stay .ENTITY_NONE
  | .NAME => s.close .ENTITY_NONE .ENTITY_NOTATION_NAME
  | _ => none

/-- src/lib/xmlrole.rs:815-841 `entity7`. -/
def entity7 (e : Enc) (s : PState) (t : Tok) (b : Buf) : Option (PState × Role) :=
  match t with
  | .PROLOG_S => s.stay .ENTITY_NONE
  | .NAME =>
    if nameMatchesAscii e b kwSYSTEM then s.go .entity9 .ENTITY_NONE
    else if nameMatchesAscii e b kwPUBLIC then s.go .entity8 .ENTITY_NONE
    else none
  | .LITERAL => s.close .ENTITY_NONE .ENTITY_VALUE
  | _ => none

/-- src/lib/xmlrole.rs:843-858 `entity8`. -/
def entity8 (s : PState) (t : Tok) : Option (PState × Role) :=
  match t with
  | .PROLOG_S => s.stay .ENTITY_NONE
  | .LITERAL => s.go .entity9 .ENTITY_PUBLIC_ID
  | _ => none

/-- src/lib/xmlrole.rs:860-875 `entity9`. -/
def entity9 (s : PState) (t : Tok) : Option (PState × Role) :=
  match t with
  | .PROLOG_S => s.stay .ENTITY_NONE
  | .LITERAL => s.go .entity10 .ENTITY_SYSTEM_ID
  | _ => none

/-- src/lib/xmlrole.rs:877-896 `entity10`. -/
def entity10 (s : PState) (t : Tok) : Option (PState × Role) :=
  match t with
  | .PROLOG_S => s.stay .ENTITY_NONE
  | .DECL_CLOSE => s.top .ENTITY_COMPLETE
  | _ => none

/-- src/lib/xmlrole.rs:898-913 `notation0`. -/
def notation0 (s : PState) (t : Tok) : Option (PState × Role) :=
  match t with
  | .PROLOG_S => s.stay .NOTATION_NONE
  | .NAME => s.go .notation1 .NOTATION_NAME
  | _ => none

/-- src/lib/xmlrole.rs:915-936 `notation1`. -/
def notation1 (e : Enc) (s : PState) (t : Tok) (b : Buf) : Option (PState × Role) :=
  match t with
  | .PROLOG_S => s.stay .NOTATION_NONE
  | .NAME =>
    if nameMatchesAscii e b kwSYSTEM then s.go .notation3 .NOTATION_NONE
    else if nameMatchesAscii e b kwPUBLIC then s.go .notation2 .NOTATION_NONE
    else none
  | _ => none

/-- src/lib/xmlrole.rs:938-953 `notation2`. -/
def notation2 (s : PState) (t : Tok) : Option (PState × Role) :=
  match t with
  | .PROLOG_S => s.stay .NOTATION_NONE
  | .LITERAL => s.go .notation4 .NOTATION_PUBLIC_ID
  | _ => none

/-- src/lib/xmlrole.rs:955-971 `notation3`. -/
def notation3 (s : PState) (t : Tok) : Option (PState × Role) :=
  match t with
  | .PROLOG_S => s.stay .NOTATION_NONE
  | .LITERAL => s.close .NOTATION_NONE .NOTATION_SYSTEM_ID
  | _ => none

/-- src/lib/xmlrole.rs:973-997 `notation4`. -/
def notation4 (s : PState) (t : Tok) : Option (PState × Role) :=
  match t with
  | .PROLOG_S => s.stay .NOTATION_NONE
  | .LITERAL => s.close .NOTATION_NONE .NOTATION_SYSTEM_ID
  | .DECL_CLOSE => s.top .NOTATION_NO_SYSTEM_ID
  | _ => none

/-- src/lib/xmlrole.rs:999-1014 `attlist0`. -/
def attlist0 (s : PState) (t : Tok) : Option (PState × Role) :=
  match t with
  | .PROLOG_S => s.stay .ATTLIST_NONE
  | .NAME | .PREFIXED_NAME => s.go .attlist1 .ATTLIST_ELEMENT_NAME
  | _ => none

/-- src/lib/xmlrole.rs:1016-1039 `attlist1`. -/
def attlist1 (s : PState) (t : Tok) : Option (PState × Role) :=
  match t with
  | .PROLOG_S => s.stay .ATTLIST_NONE
  | .DECL_CLOSE => s.top .ATTLIST_NONE
  | .NAME | .PREFIXED_NAME => s.go .attlist2 .ATTRIBUTE_NAME
  | _ => none

/-- src/lib/xmlrole.rs:1041-1088 `attlist2`. -/
def attlist2 (e : Enc) (s : PState) (t : Tok) (b : Buf) : Option (PState × Role) :=
  match t with
  | .PROLOG_S => s.stay .ATTLIST_NONE
  | .NAME =>
    if nameMatchesAscii e b kwCDATA then s.go .attlist8 .ATTRIBUTE_TYPE_CDATA
    else if nameMatchesAscii e b kwID then s.go .attlist8 .ATTRIBUTE_TYPE_ID
    else if nameMatchesAscii e b kwIDREF then s.go .attlist8 .ATTRIBUTE_TYPE_IDREF
    else if nameMatchesAscii e b kwIDREFS then s.go .attlist8 .ATTRIBUTE_TYPE_IDREFS
    else if nameMatchesAscii e b kwENTITY then s.go .attlist8 .ATTRIBUTE_TYPE_ENTITY
    else if nameMatchesAscii e b kwENTITIES then s.go .attlist8 .ATTRIBUTE_TYPE_ENTITIES
    else if nameMatchesAscii e b kwNMTOKEN then s.go .attlist8 .ATTRIBUTE_TYPE_NMTOKEN
    else if nameMatchesAscii e b kwNMTOKENS then s.go .attlist8 .ATTRIBUTE_TYPE_NMTOKENS
    else if nameMatchesAscii e b kwNOTATION then s.go .attlist5 .ATTLIST_NONE
    else none
  | .OPEN_PAREN => s.go .attlist3 .ATTLIST_NONE
  | _ => none

/-- src/lib/xmlrole.rs:1090-1107 `attlist3`. -/
def attlist3 (s : PState) (t : Tok) : Option (PState × Role) :=
  match t with
  | .PROLOG_S => s.stay .ATTLIST_NONE
  | .NMTOKEN | .NAME | .PREFIXED_NAME => s.go .attlist4 .ATTRIBUTE_ENUM_VALUE
  | _ => none

/-- src/lib/xmlrole.rs:1109-1128 `attlist4`. -/
def attlist4 (s : PState) (t : Tok) : Option (PState × Role) :=
  match t with
  | .PROLOG_S => s.stay .ATTLIST_NONE
  | .CLOSE_PAREN => s.go .attlist8 .ATTLIST_NONE
  | .OR => s.go .attlist3 .ATTLIST_NONE
  | _ => none

/-- src/lib/xmlrole.rs:1130-1145 `attlist5`. -/
def attlist5 (s : PState) (t : Tok) : Option (PState × Role) :=
  match t with
  | .PROLOG_S => s.stay .ATTLIST_NONE
  | .OPEN_PAREN => s.go .attlist6 .ATTLIST_NONE
  | _ => none

/-- src/lib/xmlrole.rs:1147-1162 `attlist6`. -/
def attlist6 (s : PState) (t : Tok) : Option (PState × Role) :=
  match t with
  | .PROLOG_S => s.stay .ATTLIST_NONE
  | .NAME => s.go .attlist7 .ATTRIBUTE_NOTATION_VALUE
  | _ => none

/-- src/lib/xmlrole.rs:1164-1183 `attlist7`. -/
def attlist7 (s : PState) (t : Tok) : Option (PState × Role) :=
  match t with
  | .PROLOG_S => s.stay .ATTLIST_NONE
  | .CLOSE_PAREN => s.go .attlist8 .ATTLIST_NONE
  | .OR => s.go .attlist6 .ATTLIST_NONE
  | _ => none

/-- src/lib/xmlrole.rs:1186-1227 `attlist8`. -/
def attlist8 (e : Enc) (s : PState) (t : Tok) (b : Buf) : Option (PState × Role) :=
  match t with
  | .PROLOG_S => s.stay .ATTLIST_NONE
  | .POUND_NAME =>
    if nameMatchesAscii e (b.drop e.mb) kwIMPLIED then s.go .attlist1 .IMPLIED_ATTRIBUTE_VALUE
    else if nameMatchesAscii e (b.drop e.mb) kwREQUIRED then s.go .attlist1 .REQUIRED_ATTRIBUTE_VALUE
    else if nameMatchesAscii e (b.drop e.mb) kwFIXED then s.go .attlist9 .ATTLIST_NONE
    else none
  | .LITERAL => s.go .attlist1 .DEFAULT_ATTRIBUTE_VALUE
  | _ => none

/-- src/lib/xmlrole.rs:1229-1244 `attlist9`. -/
def attlist9 (s : PState) (t : Tok) : Option (PState × Role) :=
  match t with
  | .PROLOG_S => s.stay .ATTLIST_NONE
  | .LITERAL => s.go .attlist1 .FIXED_ATTRIBUTE_VALUE
  | _ => none

/-- src/lib/xmlrole.rs:1246-1261 `element0`. -/
def element0 (s : PState) (t : Tok) : Option (PState × Role) :=
  match t with
  | .PROLOG_S => s.stay .ELEMENT_NONE
  | .NAME | .PREFIXED_NAME => s.go .element1 .ELEMENT_NAME
  | _ => none

/-- src/lib/xmlrole.rs:1263-1291 `element1`. -/
def element1 (e : Enc) (s : PState) (t : Tok) (b : Buf) : Option (PState × Role) :=
  match t with
  | .PROLOG_S => s.stay .ELEMENT_NONE
  | .NAME =>
    if nameMatchesAscii e b kwEMPTY then s.close .ELEMENT_NONE .CONTENT_EMPTY
    else if nameMatchesAscii e b kwANY then s.close .ELEMENT_NONE .CONTENT_ANY
    else none
  | .OPEN_PAREN => some ({ s with h := .element2, level := 1 }, .GROUP_OPEN)
  | _ => none

/-- src/lib/xmlrole.rs:1293-1335 `element2`. -/
def element2 (e : Enc) (s : PState) (t : Tok) (b : Buf) : Option (PState × Role) :=
  match t with
  | .PROLOG_S => s.stay .ELEMENT_NONE
  | .POUND_NAME =>
    if nameMatchesAscii e (b.drop e.mb) kwPCDATA then s.go .element3 .CONTENT_PCDATA
    else none
  | .OPEN_PAREN => some ({ s with h := .element6, level := 2 }, .GROUP_OPEN)
  | .NAME | .PREFIXED_NAME => s.go .element7 .CONTENT_ELEMENT
  | .NAME_QUESTION => s.go .element7 .CONTENT_ELEMENT_OPT
  | .NAME_ASTERISK => s.go .element7 .CONTENT_ELEMENT_REP
  | .NAME_PLUS => s.go .element7 .CONTENT_ELEMENT_PLUS
  | _ => none

/-- src/lib/xmlrole.rs:1337-1362 `element3`. -/
def element3 (s : PState) (t : Tok) : Option (PState × Role) :=
  match t with
  | .PROLOG_S => s.stay .ELEMENT_NONE
  | .CLOSE_PAREN => s.close .ELEMENT_NONE .GROUP_CLOSE
  | .CLOSE_PAREN_ASTERISK => s.close .ELEMENT_NONE .GROUP_CLOSE_REP
  | .OR => s.go .element4 .ELEMENT_NONE
  | _ => none

/-- src/lib/xmlrole.rs:1364-1379 `element4`. -/
def element4 (s : PState) (t : Tok) : Option (PState × Role) :=
  match t with
  | .PROLOG_S => s.stay .ELEMENT_NONE
  | .NAME | .PREFIXED_NAME => s.go .element5 .CONTENT_ELEMENT
  | _ => none

/-- src/lib/xmlrole.rs:1381-1401 `element5`. -/
def element5 (s : PState) (t : Tok) : Option (PState × Role) :=
  match t with
  | .PROLOG_S => s.stay .ELEMENT_NONE
  | .CLOSE_PAREN_ASTERISK => s.close .ELEMENT_NONE .GROUP_CLOSE_REP
  | .OR => s.go .element4 .ELEMENT_NONE
  | _ => none

/-- src/lib/xmlrole.rs:1403-1434 `element6`. -/
def element6 (s : PState) (t : Tok) : Option (PState × Role) :=
  match t with
  | .PROLOG_S => s.stay .ELEMENT_NONE
  | .OPEN_PAREN => some ({ s with level := s.level + 1 }, .GROUP_OPEN)
  | .NAME | .PREFIXED_NAME => s.go .element7 .CONTENT_ELEMENT
  | .NAME_QUESTION => s.go .element7 .CONTENT_ELEMENT_OPT
  | .NAME_ASTERISK => s.go .element7 .CONTENT_ELEMENT_REP
  | .NAME_PLUS => s.go .element7 .CONTENT_ELEMENT_PLUS
  | _ => none

/-- src/lib/xmlrole.rs:1436-1487 `element7`. -/
def element7 (s : PState) (t : Tok) : Option (PState × Role) :=
  match t with
  | .PROLOG_S => s.stay .ELEMENT_NONE
  | .CLOSE_PAREN => s.closeGroup .GROUP_CLOSE
  | .CLOSE_PAREN_ASTERISK => s.closeGroup .GROUP_CLOSE_REP
  | .CLOSE_PAREN_QUESTION => s.closeGroup .GROUP_CLOSE_OPT
  | .CLOSE_PAREN_PLUS => s.closeGroup .GROUP_CLOSE_PLUS
  | .COMMA => s.go .element6 .GROUP_SEQUENCE
  | .OR => s.go .element6 .GROUP_CHOICE
  | _ => none

/-- src/lib/xmlrole.rs:1489-1510 `condSect0`. -/
def condSect0 (e : Enc) (s : PState) (t : Tok) (b : Buf) : Option (PState × Role) :=
  match t with
  | .PROLOG_S => s.stay .NONE
  | .NAME =>
    if nameMatchesAscii e b kwINCLUDE then s.go .condSect1 .NONE
    else if nameMatchesAscii e b kwIGNORE then s.go .condSect2 .NONE
    else none
  | _ => none

/-- src/lib/xmlrole.rs:1512-1528 `condSect1`. -/
def condSect1 (s : PState) (t : Tok) : Option (PState × Role) :=
  match t with
  | .PROLOG_S => s.stay .NONE
  | .OPEN_BRACKET => some ({ s with h := .externalSubset1, includeLevel := s.includeLevel + 1 }, .NONE)
  | _ => none

/-- src/lib/xmlrole.rs:1530-1546 `condSect2`. -/
def condSect2 (s : PState) (t : Tok) : Option (PState × Role) :=
  match t with
  | .PROLOG_S => s.stay .NONE
  | .OPEN_BRACKET => s.go .externalSubset1 .IGNORE_SECT
  | _ => none

/-- src/lib/xmlrole.rs:1548-1572 `declClose`. -/
def declClose (s : PState) (t : Tok) : Option (PState × Role) :=
  match t with
  | .PROLOG_S => s.stay s.roleNone
  | .DECL_CLOSE => s.top s.roleNone
  | _ => none

/-- the call through `state.handler` (src/lib/xmlparse.rs:5739-5745), before `common`. -/
def handle (e : Enc) (s : PState) (t : Tok) (b : Buf) : Option (PState × Role) :=
  match s.h with
  | .prolog0 => prolog0 e s t b
  | .prolog1 => prolog1 e s t b
  | .prolog2 => prolog2 s t
  | .doctype0 => doctype0 s t
  | .doctype1 => doctype1 e s t b
  | .doctype2 => doctype2 s t
  | .doctype3 => doctype3 s t
  | .doctype4 => doctype4 s t
  | .doctype5 => doctype5 s t
  | .internalSubset => internalSubset e s t b
  | .externalSubset1 => externalSubset1 e s t b
  | .externalSubset0 => externalSubset0 e s t b
  | .entity0 => entity0 s t
  | .entity1 => entity1 s t
  | .entity2 => entity2 e s t b
  | .entity3 => entity3 s t
  | .entity4 => entity4 s t
  | .entity5 => entity5 e s t b
  | .entity6 => entity6 s t
  | .entity7 => entity7 e s t b
  | .entity8 => entity8 s t
  | .entity9 => entity9 s t
  | .entity10 => entity10 s t
  | .notation0 => notation0 s t
  | .notation1 => notation1 e s t b
  | .notation2 => notation2 s t
  | .notation3 => notation3 s t
  | .notation4 => notation4 s t
  | .attlist0 => attlist0 s t
  | .attlist1 => attlist1 s t
  | .attlist2 => attlist2 e s t b
  | .attlist3 => attlist3 s t
  | .attlist4 => attlist4 s t
  | .attlist5 => attlist5 s t
  | .attlist6 => attlist6 s t
  | .attlist7 => attlist7 s t
  | .attlist8 => attlist8 e s t b
  | .attlist9 => attlist9 s t
  | .element0 => element0 s t
  | .element1 => element1 e s t b
  | .element2 => element2 e s t b
  | .element3 => element3 s t
  | .element4 => element4 s t
  | .element5 => element5 s t
  | .element6 => element6 s t
  | .element7 => element7 s t
  | .condSect0 => condSect0 e s t b
  | .condSect1 => condSect1 s t
  | .condSect2 => condSect2 s t
  | .declClose => declClose s t
  | .error => s.stay .NONE

/-- One call of the current handler (src/lib/xmlparse.rs:5739-5745).  `error`
(src/lib/xmlrole.rs:1589-1597) always answers `NONE`.  `externalSubset0` has already replaced
the handler when `common` runs, which makes no difference because `common` either keeps the
state or overwrites the handler: the first case is treated by `fall`. -/
def fall (s : PState) : PState :=
  match s.h with
  | .externalSubset0 => { s with h := .externalSubset1 }
  | _ => s

/-- One call of the current handler (src/lib/xmlparse.rs:5739-5745). -/
def next (e : Enc) (s : PState) (t : Tok) (b : Buf) : PState × Role :=
  (handle e s t b).getD (common s.fall t)

/-- src/lib/xmlrole.rs:1608-1615 `XmlPrologStateInit`; `level` and `role_none` keep their old
values there, both are written before they are read. -/
def init : PState := { h := .prolog0, documentEntity := true }

/-- src/lib/xmlrole.rs:1617-1622 `XmlPrologStateInitExternalEntity`. -/
def initExternal : PState := { h := .externalSubset0, documentEntity := false }

/-- Feeding tokens one after the other; the roles returned, in order. -/
def run (e : Enc) (s : PState) : List (Tok × Buf) → PState × List Role
  | [] => (s, [])
  | (t, b) :: ts =>
    let r := s.next e t b
    let r' := run e r.1 ts
    (r'.1, r.2 :: r'.2)

end PState
end Verif
