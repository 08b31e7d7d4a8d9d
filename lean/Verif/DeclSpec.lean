import Verif.Props.C58
import Verif.Props.C37
import Verif.Props.C25
import Verif.PrologReach
import Verif.PrologActs

/-! # Markup declarations as XML 1.0 writes them, and what each is to be reported as

Productions 45-83 for declarations without parameter-entity references inside them.  A relation
`Decl k D text E D'` says: `text` is a declaration (or a comment, processing instruction, white-space
character or reference between declarations); read when `D` has been declared it is reported by the handler calls `E`,
and afterwards `D'` has been declared. -/

set_option autoImplicit false

namespace Verif.C59
open C43 C53 Spec Verif PState

/-- Where the declaration stands: the settings of the parser, whether the text comes from an internal
entity, whether the parser reads the document entity, the encoding and its spelling of ASCII, the
entities being expanded. -/
structure Ctx where
  c : PCfg
  internal : Bool
  doc : Bool
  x : XEnc
  asc : UInt8 → Buf
  opened : List Buf
  pe : PEParsing

/-- Production 3: white space, at least one character. -/
def White (sp : List UInt8) : Prop := sp ≠ [] ∧ AllWS sp

/-- Productions 11, 12, 75: external identifiers; public and system identifier. -/
inductive ExternalID (x : XEnc) (asc : UInt8 → Buf) : Buf → Option Buf → Buf → Prop where
  | system (sp : List UInt8) (q : UInt8) (ws : List Buf) (h1 : White sp) (h2 : Quoted x.e asc q ws) :
      ExternalID x asc (spell asc kwSYSTEM ++ (spell asc sp ++ litText asc q ws)) none (converted x ws.flatten)
  | pub (sp1 : List UInt8) (q1 : UInt8) (cs : List UInt8) (sp2 : List UInt8) (q2 : UInt8) (ws : List Buf)
      (h1 : White sp1) (h2 : Quoted x.e asc q1 (cs.map asc)) (h3 : ∀ d ∈ cs, C37.PubidChar d = true)
      (h4 : White sp2) (h5 : Quoted x.e asc q2 ws) :
      ExternalID x asc (spell asc kwPUBLIC ++ (spell asc sp1 ++ (litText asc q1 (cs.map asc) ++
        (spell asc sp2 ++ litText asc q2 ws)))) (some (C37.normal cs)) (converted x ws.flatten)

/-! ### Entities -/

/-- What a declaration says about an entity. -/
inductive EntityDef where
  | value (v : Buf)
  | external (pub : Option Buf) (sys : Buf)
  | unparsed (pub : Option Buf) (sys : Buf) (notation_ : Buf)

/-- Productions 73, 74, 76, 9.  Values are looked at only as long as declarations are processed
(XML 1.0, 5.1). -/
inductive EntityDefText (k : Ctx) (D : DTab) : Bool → Buf → EntityDef → Prop where
  | value (isParam : Bool) (q : UInt8) (ws : List Buf) (v : Buf) (h1 : Quoted k.x.e k.asc q ws)
      (h2 : D.keep = true → C58.Repl (tabGet D.par) k.c.int k.x k.asc (k.x.e.lineEnds k.asc) (k.c.isPE || k.internal)
        k.opened ws.flatten v) :
      EntityDefText k D isParam (litText k.asc q ws) (.value v)
  | external (isParam : Bool) (w : Buf) (pub : Option Buf) (sys : Buf) (h1 : ExternalID k.x k.asc w pub sys) :
      EntityDefText k D isParam w (.external pub sys)
  | unparsed (w : Buf) (pub : Option Buf) (sys : Buf) (sp1 sp2 : List UInt8) (name : List Buf)
      (h1 : ExternalID k.x k.asc w pub sys) (h2 : White sp1) (h3 : White sp2) (h4 : k.x.e.Name name) :
      EntityDefText k D false (w ++ (spell k.asc sp1 ++ (spell k.asc kwNDATA ++ (spell k.asc sp2 ++ name.flatten))))
        (.unparsed pub sys (converted k.x name.flatten))

/-- The entity as declared. -/
def EntityDef.entity (k : Ctx) : EntityDef → Entity
  | .value v => { text := some v, isInternal := !(k.c.child || k.internal), notation_ := none, systemId := none,
                  publicId := none, base := none }
  | .external pub sys => { text := none, isInternal := !(k.c.child || k.internal), notation_ := none,
                           systemId := some sys, publicId := pub, base := k.c.base }
  | .unparsed pub sys n => { text := none, isInternal := !(k.c.child || k.internal), notation_ := some n,
                             systemId := some sys, publicId := pub, base := k.c.base }

/-- The handler calls for an entity declaration that counts. -/
def EntityDef.report (k : Ctx) (isParam : Bool) (name : Buf) : EntityDef → List PEv
  | .value v => if k.c.entityDecl then [.entityDecl name isParam (some v) k.c.base none none none] else []
  | .external pub sys =>
    if k.c.entityDecl then [.entityDecl name isParam none k.c.base (some sys) pub none] else []
  | .unparsed pub sys n =>
    if k.c.unparsed then [.unparsed name k.c.base (some sys) pub (some n)]
    else if k.c.entityDecl then [.entityDecl name isParam none k.c.base (some sys) pub (some n)] else []

/-- `lt`, `gt`, `amp`, `quot`, `apos` -/
def isPredefined (asc : UInt8 → Buf) (name : Buf) : Prop :=
  ∃ n ∈ [[0x6C, 0x74], [0x67, 0x74], [0x61, 0x6D, 0x70], [0x71, 0x75, 0x6F, 0x74], [0x61, 0x70, 0x6F, 0x73]],
    name = spell asc n

/-- The declaration counts: declarations are still processed, it is the first one, and the name is not that of a
predefined general entity. -/
def Counts (k : Ctx) (D : DTab) (isParam : Bool) (name : Buf) : Prop :=
  D.keep = true ∧
    if isParam then tabGet D.par (converted k.x name) = none
    else tabGet D.gen (converted k.x name) = none ∧ ¬ isPredefined k.asc name

/-- One more entity. -/
def addEntity (D : DTab) (isParam : Bool) (name : Buf) (e : Entity) : DTab :=
  if isParam then { D with par := D.par ++ [(name, e)] } else { D with gen := D.gen ++ [(name, e)] }

/-! ### Attributes -/

/-- The keywords of production 54 - 56. -/
def typeKeywords : List (List UInt8) :=
  [kwCDATA, kwID, kwIDREF, kwIDREFS, kwENTITY, kwENTITIES, kwNMTOKEN, kwNMTOKENS]

/-- The members of an enumeration: white space, token, white space. -/
def enumText (asc : UInt8 → Buf) : List (List UInt8 × List Buf × List UInt8) → Buf
  | [] => []
  | [m] => spell asc m.1 ++ (m.2.1.flatten ++ spell asc m.2.2)
  | m :: ms => spell asc m.1 ++ (m.2.1.flatten ++ (spell asc m.2.2 ++ (asc 0x7C ++ enumText asc ms)))

/-- `a|b|c` -/
def enumType (x : XEnc) (ms : List (List UInt8 × List Buf × List UInt8)) : Buf :=
  List.intercalate [0x7C] (ms.map fun m => converted x m.2.1.flatten)

/-- Productions 54-59: whether it is CDATA, whether it is ID, the type as reported. -/
inductive AttTypeText (x : XEnc) (asc : UInt8 → Buf) : Buf → Bool → Bool → Buf → Prop where
  | keyword (kw : List UInt8) (h : kw ∈ typeKeywords) :
      AttTypeText x asc (spell asc kw) (decide (kw = kwCDATA)) (decide (kw = kwID)) kw
  | enum (ms : List (List UInt8 × List Buf × List UInt8)) (h0 : ms ≠ [])
      (h : ∀ m ∈ ms, AllWS m.1 ∧ x.e.Nmtoken asc m.2.1 ∧ AllWS m.2.2) :
      AttTypeText x asc (asc 0x28 ++ (enumText asc ms ++ asc 0x29)) false false (0x28 :: (enumType x ms ++ [0x29]))
  | notations (sp : List UInt8) (ms : List (List UInt8 × List Buf × List UInt8)) (h1 : White sp) (h0 : ms ≠ [])
      (h : ∀ m ∈ ms, AllWS m.1 ∧ x.e.Name m.2.1 ∧ AllWS m.2.2) :
      AttTypeText x asc (spell asc kwNOTATION ++ (spell asc sp ++ (asc 0x28 ++ (enumText asc ms ++ asc 0x29)))) false false
        (kwNOTATION ++ (0x28 :: (enumType x ms ++ [0x29])))

/-- Entities must have been declared (XML 1.0, 4.1). -/
def Ctx.must (k : Ctx) (D : DTab) : Bool := k.doc && (if D.standalone then !k.internal else !D.hasPERefs)

/-- The normalised value of a literal (XML 1.0, 3.3.3). -/
def DefaultValue (k : Ctx) (D : DTab) (isCdata : Bool) (b v : Buf) : Prop :=
  ∃ out, C33.Norm D.toDtd (k.must D) k.c.int k.x k.asc (k.x.e.lineEnds k.asc) [] b out ∧
    v = if isCdata then out else C33.collapse out

/-- Production 60: the default value, if any, and whether the attribute is required (with a value: fixed). -/
inductive DefaultText (k : Ctx) (D : DTab) (isCdata : Bool) : Buf → Option Buf → Bool → Prop where
  | implied : DefaultText k D isCdata (k.asc 0x23 ++ spell k.asc kwIMPLIED) none false
  | required : DefaultText k D isCdata (k.asc 0x23 ++ spell k.asc kwREQUIRED) none true
  | value (q : UInt8) (ws : List Buf) (v : Buf) (h1 : Quoted k.x.e k.asc q ws)
      (h2 : D.keep = true → DefaultValue k D isCdata ws.flatten v) :
      DefaultText k D isCdata (litText k.asc q ws) (some v) false
  | fixed (sp : List UInt8) (q : UInt8) (ws : List Buf) (v : Buf) (h0 : White sp) (h1 : Quoted k.x.e k.asc q ws)
      (h2 : D.keep = true → DefaultValue k D isCdata ws.flatten v) :
      DefaultText k D isCdata (k.asc 0x23 ++ (spell k.asc kwFIXED ++ (spell k.asc sp ++ litText k.asc q ws))) (some v) true

/-- One more attribute of an element type.  The first declaration counts; the first attribute of type ID
(without a default) that is not a namespace declaration is the ID attribute. -/
def addAtt (ns : Bool) (D : DTab) (elem att : Buf) (isCdata isId : Bool) (value : Option Buf) : DTab :=
  let old := (tabGet D.elems elem).getD ⟨[], none⟩
  let id := isId && value.isNone
  if (value.isSome ∨ id) ∧ old.atts.any (·.name = att) then D else
  let new : ElemType := ⟨old.atts ++ [⟨att, isCdata, value⟩],
    if id ∧ old.idAtt = none ∧ ¬ isXmlnsAtt ns att then some att else old.idAtt⟩
  { D with
    elems := if (tabGet D.elems elem).isSome then D.elems.map fun p => if p.1 = elem then (p.1, new) else p
      else D.elems ++ [(elem, new)]
    maybeTok := if isCdata then D.maybeTok else att :: D.maybeTok }

/-- Production 53. -/
inductive AttDef (k : Ctx) (elem : Buf) (D : DTab) : Buf → List PEv → DTab → Prop where
  | mk (sp1 sp2 sp3 : List UInt8) (name : List Buf) (type dflt : Buf) (isCdata isId : Bool) (ty : Buf) (value : Option Buf) (req : Bool)
      (h1 : White sp1) (h2 : DName k.x.e k.asc name) (h3 : White sp2) (h4 : AttTypeText k.x k.asc type isCdata isId ty)
      (h5 : White sp3) (h6 : DefaultText k D isCdata dflt value req) :
      AttDef k elem D
        (spell k.asc sp1 ++ (name.flatten ++ (spell k.asc sp2 ++ (type ++ (spell k.asc sp3 ++ dflt)))))
        (if D.keep && k.c.attlistDecl then [.attlistDecl elem (converted k.x name.flatten) ty value req] else [])
        (if D.keep then addAtt k.c.c.ns D elem (converted k.x name.flatten) isCdata isId value else D)

inductive AttDefs (k : Ctx) (elem : Buf) : DTab → Buf → List PEv → DTab → Prop where
  | nil (D : DTab) : AttDefs k elem D [] [] D
  | cons {D D' D'' : DTab} {w w' : Buf} {E E' : List PEv} (h1 : AttDef k elem D w E D') (h2 : AttDefs k elem D' w' E' D'') :
      AttDefs k elem D (w ++ w') (E ++ E') D''

/-! ### Element types -/

/-- `?`, `*`, `+` -/
def quantText (asc : UInt8 → Buf) : Quant → Buf
  | .NONE => []
  | .OPT => asc 0x3F
  | .REP => asc 0x2A
  | .PLUS => asc 0x2B

/-- How a symbol of a content specification is written. -/
inductive SyText (x : XEnc) (asc : UInt8 → Buf) : Sy → Buf → Prop where
  | nm (q : Quant) (name : List Buf) (h : DName x.e asc name) :
      SyText x asc (.nm q (converted x name.flatten)) (name.flatten ++ quantText asc q)
  | opn : SyText x asc .opn (asc 0x28)
  | cls (q : Quant) : SyText x asc (.cls q) (asc 0x29 ++ quantText asc q)
  | comma : SyText x asc (.sep false) (asc 0x2C)
  | bar : SyText x asc (.sep true) (asc 0x7C)
  | pcdata : SyText x asc .pcdata (asc 0x23 ++ spell asc kwPCDATA)

/-- Symbols with white space between them. -/
inductive SyTexts (x : XEnc) (asc : UInt8 → Buf) : List Sy → Buf → Prop where
  | nil : SyTexts x asc [] []
  | cons {y : Sy} {ys : List Sy} {w r : Buf} (sp : List UInt8) (h1 : AllWS sp) (h2 : SyText x asc y w) (h3 : SyTexts x asc ys r) :
      SyTexts x asc (y :: ys) (spell asc sp ++ (w ++ r))

/-- Productions 46-51. -/
inductive ContentSpecText (x : XEnc) (asc : UInt8 → Buf) : CM → Buf → Prop where
  | empty : ContentSpecText x asc (.group .EMPTY .NONE []) (spell asc kwEMPTY)
  | any : ContentSpecText x asc (.group .ANY .NONE []) (spell asc kwANY)
  | mixed (q : Quant) (ks : List CM) (w : Buf) (h1 : IsMixed q ks) (h2 : SyTexts x asc (CM.mixedText q ks) w) :
      ContentSpecText x asc (.group .MIXED q ks) w
  | children (ty : CType) (q : Quant) (ks : List CM) (w : Buf) (h1 : IsCp (.group ty q ks))
      (h2 : SyTexts x asc (CM.text (.group ty q ks)) w) : ContentSpecText x asc (.group ty q ks) w

/-! ### Declarations -/

/-- `<!NAME` -/
def declOpen (asc : UInt8 → Buf) (kw : List UInt8) : Buf := asc 0x3C ++ (asc 0x21 ++ spell asc kw)

/-- Productions 82, 83: notations, with public and system identifier. -/
inductive NotationID (x : XEnc) (asc : UInt8 → Buf) : Buf → Option Buf → Option Buf → Prop where
  | external (w : Buf) (pub : Option Buf) (sys : Buf) (h : ExternalID x asc w pub sys) : NotationID x asc w pub (some sys)
  | pubOnly (sp : List UInt8) (q : UInt8) (cs : List UInt8) (h1 : White sp) (h2 : Quoted x.e asc q (cs.map asc))
      (h3 : ∀ d ∈ cs, C37.PubidChar d = true) :
      NotationID x asc (spell asc kwPUBLIC ++ (spell asc sp ++ litText asc q (cs.map asc))) (some (C37.normal cs)) none

/-- What an application is to be told: a call, or the content model of an element type in whatever layout the
block has that is passed to the handler. -/
inductive Said where
  | call (v : PEv)
  | model (name : Buf) (m : CM)

/-- `v` says it. -/
def Said.by : Said → PEv → Prop
  | .call u, v => v = u
  | .model n m, v => ∃ b, v = .elementDecl n b ∧ Denotes b 0 m

inductive Says : List Said → List PEv → Prop where
  | nil : Says [] []
  | cons {a : Said} {v : PEv} {A : List Said} {E : List PEv} (h1 : a.by v) (h2 : Says A E) : Says (a :: A) (v :: E)

def calls (E : List PEv) : List Said := E.map .call

/-! References to parameter entities between declarations (production 69, 28a) -/

/-- `%name;` -/
def perefText (asc : UInt8 → Buf) (name : List Buf) : Buf := asc 0x25 ++ (name.flatten ++ asc 0x3B)

/-- After a reference to an entity that is not read the document is known not to be standalone, and unless it says it
is, declarations are no longer processed (XML 1.0, 5.1). -/
def unread (D : DTab) : DTab := { D with hasPERefs := true, keep := D.standalone }

/-- The call of the not-standalone handler. -/
def asked (k : Ctx) (D : DTab) : List PEv := if D.standalone = false ∧ k.c.notStandalone.isSome then [.notStandalone] else []

/-- The not-standalone handler does not object. -/
def Allowed (k : Ctx) (D : DTab) : Prop := D.standalone = true ∨ k.c.notStandalone ≠ some false

/-- The entity must have been declared, and not in an external entity (XML 1.0, 4.1). -/
def MustKnow (k : Ctx) (D : DTab) : Prop := k.doc = true ∧ D.standalone = true ∧ k.internal = false

/-- Productions 29, 28a and 3, 15, 16, 69: what may stand between the brackets of the DOCTYPE declaration, or in the
external subset. -/
inductive Decl (k : Ctx) (D : DTab) : Buf → List Said → DTab → Prop where
  | space (d : UInt8) (h : isWS d = true) : Decl k D (k.asc d) [] D
  | comment (ws : List Buf) (h : CommentOk k.x.e k.asc ws) :
      Decl k D (commentText k.asc ws)
        (calls (if k.c.c.comment then [.ev (.comment (C14.lineEnds (converted k.x ws.flatten)))] else [])) D
  | pi (target : List Buf) (sp : List UInt8) (ws : List Buf) (h : PiOk k.x.e k.asc target sp ws) :
      Decl k D (piText k.asc target sp ws)
        (calls (if k.c.c.pi then [.ev (.pi (cstr (converted k.x target.flatten)) (C14.lineEnds (converted k.x ws.flatten)))] else [])) D
  | entity (sp1 : List UInt8) (name : List Buf) (sp2 : List UInt8) (w : Buf) (d : EntityDef) (sp3 : List UInt8)
      (h1 : White sp1) (h2 : k.x.e.Name name) (h3 : White sp2) (h4 : EntityDefText k D false w d) (h5 : AllWS sp3)
      (E : List PEv) (D' : DTab)
      (h6 : Counts k D false name.flatten → E = d.report k false (converted k.x name.flatten) ∧
        D' = addEntity D false (converted k.x name.flatten) (d.entity k))
      (h7 : ¬ Counts k D false name.flatten → E = [] ∧ D' = D) :
      Decl k D (declOpen k.asc kwENTITY ++ (spell k.asc sp1 ++ (name.flatten ++ (spell k.asc sp2 ++ (w ++
        (spell k.asc sp3 ++ k.asc 0x3E)))))) (calls E) D'
  | paramEntity (sp0 sp1 : List UInt8) (name : List Buf) (sp2 : List UInt8) (w : Buf) (d : EntityDef) (sp3 : List UInt8)
      (h0 : White sp0) (h1 : White sp1) (h2 : k.x.e.Name name) (h3 : White sp2) (h4 : EntityDefText k D true w d)
      (h5 : AllWS sp3) (E : List PEv) (D' : DTab)
      (h6 : Counts k D true name.flatten → E = d.report k true (converted k.x name.flatten) ∧
        D' = addEntity D true (converted k.x name.flatten) (d.entity k))
      (h7 : ¬ Counts k D true name.flatten → E = [] ∧ D' = D) :
      Decl k D (declOpen k.asc kwENTITY ++ (spell k.asc sp0 ++ (k.asc 0x25 ++ (spell k.asc sp1 ++ (name.flatten ++
        (spell k.asc sp2 ++ (w ++ (spell k.asc sp3 ++ k.asc 0x3E)))))))) (calls E) D'
  | notation_ (sp1 : List UInt8) (name : List Buf) (sp2 : List UInt8) (w : Buf) (pub sys : Option Buf) (sp3 : List UInt8)
      (h1 : White sp1) (h2 : k.x.e.Name name) (h3 : White sp2) (h4 : NotationID k.x k.asc w pub sys) (h5 : AllWS sp3) :
      Decl k D (declOpen k.asc kwNOTATION ++ (spell k.asc sp1 ++ (name.flatten ++ (spell k.asc sp2 ++ (w ++
        (spell k.asc sp3 ++ k.asc 0x3E))))))
        (calls (if k.c.notationDecl then [.notationDecl (some (converted k.x name.flatten)) k.c.base sys pub] else [])) D
  | attlist (sp1 : List UInt8) (name : List Buf) (w : Buf) (sp2 : List UInt8) (E : List PEv) (D' : DTab)
      (h1 : White sp1) (h2 : DName k.x.e k.asc name) (h3 : AttDefs k (converted k.x name.flatten) D w E D') (h4 : AllWS sp2) :
      Decl k D (declOpen k.asc kwATTLIST ++ (spell k.asc sp1 ++ (name.flatten ++ (w ++ (spell k.asc sp2 ++ k.asc 0x3E))))) (calls E) D'
  | element (sp1 : List UInt8) (name : List Buf) (sp2 : List UInt8) (m : CM) (w : Buf) (sp3 : List UInt8)
      (h1 : White sp1) (h2 : DName k.x.e k.asc name) (h3 : White sp2) (h4 : ContentSpecText k.x k.asc m w) (h5 : AllWS sp3)
      (h6 : w.length + 3 < 2 ^ 31) :
      Decl k D (declOpen k.asc kwELEMENT ++ (spell k.asc sp1 ++ (name.flatten ++ (spell k.asc sp2 ++ (w ++
        (spell k.asc sp3 ++ k.asc 0x3E))))))
        (if k.c.elementDecl then [.model (converted k.x name.flatten) m] else []) D
  | refUnread (name : List Buf) (h1 : k.x.e.Name name) (h2 : k.pe = .never) (h3 : Allowed k D) :
      Decl k D (perefText k.asc name) (calls (asked k D)) (unread D)
  | refUnknown (name : List Buf) (h1 : k.x.e.Name name) (h2 : k.pe ≠ .never) (h3 : tabGet D.par (converted k.x name.flatten) = none)
      (h4 : ¬ MustKnow k D) :
      Decl k D (perefText k.asc name)
        (calls (if k.c.c.skipped then [.ev (.skippedEntity (converted k.x name.flatten) true)] else [])) (unread D)
  | refExternal (name : List Buf) (ent : Entity) (h1 : k.x.e.Name name) (h2 : k.pe ≠ .never)
      (h3 : tabGet D.par (converted k.x name.flatten) = some ent) (h4 : MustKnow k D → ent.isInternal = true)
      (h5 : converted k.x name.flatten ∉ k.opened) (h6 : ent.text = none) (h7 : k.c.c.externalRef = false) (h8 : Allowed k D) :
      Decl k D (perefText k.asc name) (calls (asked k D)) (unread D)

/-- The text of an internal parameter entity is read in the internal encoding, with the entity open. -/
def Ctx.inside (k : Ctx) (n : Buf) : Ctx := { k with internal := true, x := k.c.int, asc := asc1, opened := n :: k.opened }

/-- Several of them; and references to internal parameter entities, which stand for the declarations in their texts. -/
inductive Decls : Ctx → DTab → Buf → List Said → DTab → Prop where
  | nil (k : Ctx) (D : DTab) : Decls k D [] [] D
  | cons {k : Ctx} {D D' D'' : DTab} {w w' : Buf} {A A' : List Said} (h1 : Decl k D w A D') (h2 : Decls k D' w' A' D'') :
      Decls k D (w ++ w') (A ++ A') D''
  | ref {k : Ctx} {D D' D'' : DTab} {w' t : Buf} {A A' : List Said} (name : List Buf) (ent : Entity) (h1 : k.x.e.Name name) (h2 : k.pe ≠ .never)
      (h3 : tabGet D.par (converted k.x name.flatten) = some ent) (h4 : MustKnow k D → ent.isInternal = true)
      (h5 : converted k.x name.flatten ∉ k.opened) (h6 : ent.text = some t)
      (h7 : Decls (k.inside (converted k.x name.flatten)) { D with hasPERefs := true } t A D') (h8 : Allowed k D')
      (h9 : Decls k D' w' A' D'') :
      Decls k D (perefText k.asc name ++ w') (A ++ calls (asked k D') ++ A') D''

end Verif.C59
