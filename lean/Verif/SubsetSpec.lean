import Verif.PrologChild
import Verif.EntityDecl
import Verif.DoctypeSpec
import Verif.Props.C44

/-!
# The external subset and external parameter entities: what is to be reported (C69)

An application that reads external entities: its external entity handler creates a parser for the entity, passes it
the bytes, in pieces of any size, and returns.
-/

set_option autoImplicit false

namespace Verif.C69
open C43 C53 C59 C60 Spec Verif PState

/-- How an entity begins: a byte order mark or text that shows its encoding, as for documents (`Found`); or it is
shorter than two bytes. -/
inductive Opens (idx : EncIndex) : Buf → Buf → EncId → Prop where
  | found {m t : Buf} {i : EncId} (h : C60.Found idx m t i) : Opens idx m t i
  | one (a : UInt8) (h1 : a ≠ 0 ∧ a ≠ 0x3C ∧ a ≠ 0xEF ∧ a ≠ 0xFE ∧ a ≠ 0xFF)
      (h2 : idx ≠ .utf_16 ∧ idx ≠ .utf_16le ∧ idx ≠ .utf_16be) : Opens idx [] [a] idx.enc
  | empty : Opens idx [] [] idx.enc

/-- The settings of the parser for an external entity: the handlers are those of the main parser, but for the ones for the document
type declaration; it has no base; entities declared there are not internal; the encoding that the application names overrides the one
declared. -/
def theirs (c : PCfg) (enc : EncIndex) : PCfg :=
  { c with startDoctype := false, endDoctype := false, base := none, child := true, isPE := true, protocol := enc ≠ .noEnc }

/-- Where the declarations of an external entity stand: in a parser of its own. -/
def apart (k : Ctx) (enc : EncIndex) (j : EncId) (o : List Buf) : Ctx :=
  ⟨theirs k.c enc, false, false, j.x k.c.c.ns, C54.ascOf j, o, k.pe⟩

/-- What the application is asked for, when `o` are the entities being read. -/
def request (k : Ctx) (o : List Buf) (ent : Entity) : ExtReq := ⟨false, o, k.pe, ent.base, ent.systemId, ent.publicId⟩

/-- `<![`, a keyword, `[`. -/
def condOpen (asc : UInt8 → Buf) (sp1 kw sp2 : List UInt8) : Buf :=
  spell asc [0x3C, 0x21, 0x5B] ++ (spell asc sp1 ++ (spell asc kw ++ (spell asc sp2 ++ asc 0x5B)))

/-- Production 65: what an ignored section contains, with the `]]>` that ends it; without `]]]`, where the end is not
found (C44). -/
structure Ignored (e : Enc) (asc : UInt8 → Buf) (ws : List Buf) : Prop where
  chars : ∀ w ∈ ws, e.IsChar w
  sect : C44.Sect asc 0 ws
  ends : NoTriple (asc 0x5D) (asc 0x5D) (asc 0x5D) ws

/-- What is said about an external entity before its declarations and after: the handler is called, a text
declaration reported. -/
def entered (k : Ctx) (enc : EncIndex) (ent : Entity) (d : Option C18.Src) : List PEv :=
  .extRef ent.base ent.systemId ent.publicId :: C66.textTold (theirs k.c enc) d

/-- When the last thing an entity refers to has not been read the code takes the entity itself for one that has not been
read (the flag `paramEntityRead` is shared; DESIGN.md, finding 30). -/
def settled (D : DTab) : DTab := if D.peRead then D else { D with keep := D.standalone }

/-- The not-standalone handler is asked twice, after an entity that has been read. -/
def asks (k : Ctx) (D : DTab) : List PEv := if D.peRead then asked k D ++ asked k D else asked k D

/-- Productions 31, 30, 61-65, 78: declarations in the internal or external subset, inside `n` included sections;
references to internal parameter entities, not inside included sections (DESIGN.md, finding 25); references to
external ones, which stand for the declarations in what the application has for them (`docs`), or are not read. -/
inductive XDecls (docs : ExtReq → Option ExtDoc) : Ctx → Nat → DTab → Buf → List Said → DTab → Prop where
  | nil (k : Ctx) (n : Nat) (D : DTab) : XDecls docs k n D [] [] D
  | cons {k : Ctx} {n : Nat} {D D' D'' : DTab} {w w' : Buf} {A A' : List Said} (h1 : Decl k D w A D')
      (h2 : XDecls docs k n D' w' A' D'') : XDecls docs k n D (w ++ w') (A ++ A') D''
  | ref {k : Ctx} {D D' D'' : DTab} {w' t : Buf} {A A' : List Said} (name : List Buf) (ent : Entity) (h1 : k.x.e.Name name) (h2 : k.pe ≠ .never)
      (h3 : tabGet D.par (converted k.x name.flatten) = some ent) (h4 : MustKnow k D → ent.isInternal = true)
      (h5 : converted k.x name.flatten ∉ k.opened) (h6 : ent.text = some t)
      (h7 : XDecls docs (k.inside (converted k.x name.flatten)) 0 { D with hasPERefs := true } t A D') (h8 : Allowed k D')
      (h9 : XDecls docs k 0 D' w' A' D'') :
      XDecls docs k 0 D (perefText k.asc name ++ w') (A ++ calls (asked k D') ++ A') D''
  | ext {k : Ctx} {n : Nat} {D D' D'' : DTab} {w' m h t : Buf} {i j : EncId} {d : Option C18.Src} {A A' : List Said}
      (name : List Buf) (ent : Entity) (doc : ExtDoc) (h1 : k.x.e.Name name) (h2 : k.pe ≠ .never)
      (h3 : tabGet D.par (converted k.x name.flatten) = some ent) (h4 : MustKnow k D → ent.isInternal = true)
      (h5 : converted k.x name.flatten ∉ k.opened) (h6 : ent.text = none) (h7 : k.c.c.externalRef = true)
      (g1 : docs (request k (converted k.x name.flatten :: k.opened) ent) = some doc) (g2 : doc.pieces ≠ [])
      (g3 : doc.pieces.flatten = m ++ (h ++ t)) (g4 : Opens doc.enc m (h ++ t) i)
      (g5 : C66.TextHead (theirs k.c doc.enc) i h d j) (g6 : C54.unitSize i ∣ (h ++ t).length)
      (g7 : XDecls docs (apart k doc.enc j (converted k.x name.flatten :: k.opened)) 0
        { D with hasPERefs := true, peRead := true } t A D')
      (h8 : Allowed k D') (h9 : XDecls docs k n (settled D') w' A' D'') :
      XDecls docs k n D (perefText k.asc name ++ w')
        (calls (entered k doc.enc ent d) ++ A ++ calls (asks k D') ++ A') D''
  | skip {k : Ctx} {n : Nat} {D D' : DTab} {w' : Buf} {A' : List Said}
      (name : List Buf) (ent : Entity) (h1 : k.x.e.Name name) (h2 : k.pe ≠ .never)
      (h3 : tabGet D.par (converted k.x name.flatten) = some ent) (h4 : MustKnow k D → ent.isInternal = true)
      (h5 : converted k.x name.flatten ∉ k.opened) (h6 : ent.text = none) (h7 : k.c.c.externalRef = true)
      (g1 : docs (request k (converted k.x name.flatten :: k.opened) ent) = none) (h8 : Allowed k D)
      (h9 : XDecls docs k n { unread D with peRead := false } w' A' D') :
      XDecls docs k n D (perefText k.asc name ++ w')
        (calls (.extRef ent.base ent.systemId ent.publicId :: asked k D) ++ A') D'
  | include_ {k : Ctx} {n : Nat} {D D' D'' : DTab} {w w' : Buf} {A A' : List Said} (sp1 sp2 : List UInt8) (h1 : AllWS sp1) (h2 : AllWS sp2)
      (h3 : k.doc = false) (h4 : n + 1 < 2 ^ 32) (h5 : XDecls docs k (n + 1) D w A D') (h6 : XDecls docs k n D' w' A' D'') :
      XDecls docs k n D (condOpen k.asc sp1 kwINCLUDE sp2 ++ (w ++ (spell k.asc [0x5D, 0x5D, 0x3E] ++ w'))) (A ++ A') D''
  | ignore {k : Ctx} {n : Nat} {D D' : DTab} {w' : Buf} {A' : List Said} (sp1 sp2 : List UInt8) (ws : List Buf) (h1 : AllWS sp1) (h2 : AllWS sp2)
      (h3 : k.doc = false) (h4 : Ignored k.x.e k.asc ws) (h5 : XDecls docs k n D w' A' D') :
      XDecls docs k n D (condOpen k.asc sp1 kwIGNORE sp2 ++ (ws.flatten ++ w')) A' D'

/-- An external entity `ent`, read while `o` are being read. -/
inductive Reads (docs : ExtReq → Option ExtDoc) (k : Ctx) (D : DTab) (o : List Buf) (ent : Entity) : List Said → DTab → Prop where
  | mk {D' : DTab} {m h t : Buf} {i j : EncId} {d : Option C18.Src} {A : List Said} (doc : ExtDoc)
      (g1 : docs (request k o ent) = some doc) (g2 : doc.pieces ≠ [])
      (g3 : doc.pieces.flatten = m ++ (h ++ t)) (g4 : Opens doc.enc m (h ++ t) i)
      (g5 : C66.TextHead (theirs k.c doc.enc) i h d j) (g6 : C54.unitSize i ∣ (h ++ t).length)
      (g7 : XDecls docs (apart k doc.enc j o) 0 { D with hasPERefs := true, peRead := true } t A D') :
      Reads docs k D o ent (calls (entered k doc.enc ent d) ++ A) D'

/-! ### The document type declaration -/

/-- The external subset, or the foreign DTD (without identifiers), as an entity. -/
def subsetEntity (k : Ctx) (pub sys : Option Buf) : Entity :=
  { text := none, isInternal := false, notation_ := none, systemId := sys, publicId := pub, base := k.c.base }

/-- The foreign DTD is entered in the table when it is asked for. -/
def withSubset (k : Ctx) (sys : Option Buf) (D : DTab) : DTab :=
  if sys.isSome then D else { D with par := D.par ++ [(hashName, subsetEntity k none none)] }

/-- Afterwards, `D` being known before: when a foreign DTD has not been read it is forgotten that the document could have
declarations that have not been read. -/
def unlessRead (sys : Option Buf) (D D' : DTab) : DTab :=
  if D'.peRead = false ∧ sys = none then { D' with hasPERefs := D.hasPERefs } else D'

/-- What is known and reported when the external subset with the identifiers `pub` and `sys`, or, without identifiers, the
foreign DTD has been asked for. -/
inductive XSubset (docs : ExtReq → Option ExtDoc) (k : Ctx) (D : DTab) (pub sys : Option Buf) : List Said → DTab → Prop where
  | unread (h : k.pe = .never ∨ k.c.c.externalRef = false) : XSubset docs k D pub sys [] { D with hasPERefs := true }
  | skip (h1 : k.pe ≠ .never) (h2 : k.c.c.externalRef = true) (h3 : docs (request k k.opened (subsetEntity k pub sys)) = none) :
      XSubset docs k D pub sys (calls [.extRef k.c.base sys pub])
        (unlessRead sys D { withSubset k sys D with hasPERefs := true, peRead := false })
  | read {A : List Said} {D' : DTab} (h1 : k.pe ≠ .never) (h2 : k.c.c.externalRef = true)
      (h3 : Reads docs k (withSubset k sys D) k.opened (subsetEntity k pub sys) A D') (h4 : D'.peRead = true → Allowed k D') :
      XSubset docs k D pub sys (A ++ calls (if D'.peRead then asked k D' else [])) (unlessRead sys D D')

/-- At the end of the document type declaration, or at the root element when there is none: the external subset is read if
the declaration has an external identifier; otherwise the foreign DTD, if the application uses one (`foreign`). -/
inductive XClose (docs : ExtReq → Option ExtDoc) (k : Ctx) (foreign : Bool) (D : DTab) (pub sys : Option Buf) : List Said → DTab → Prop where
  | nothing (h1 : foreign = false) (h2 : sys = none) : XClose docs k foreign D pub sys [] D
  | subset {A : List Said} {D' : DTab} (h1 : sys.isSome = true ∨ foreign = true) (h2 : sys = none → tabGet D.par hashName = none ∧ pub = none)
      (h3 : XSubset docs k D pub sys A D') : XClose docs k foreign D pub sys A D'

/-- The external identifier of a document type declaration, with the white space before it, if there is one. -/
inductive XOuter (k : Ctx) (D : DTab) : Buf → Option Buf → Option Buf → List PEv → DTab → Prop where
  | none : XOuter k D [] none none [] D
  | some (sp : List UInt8) (w : Buf) (pub : Option Buf) (sys : Buf) (h1 : White sp) (h2 : ExternalID k.x k.asc w pub sys)
      (h4 : k.pe = .never → Allowed k D) :
      XOuter k D (spell k.asc sp ++ w) pub (some sys) (if k.pe = .never then asked k D else []) (addSubset k D pub sys)

/-- The internal subset with the white space after it, if there is one. -/
inductive XInner (docs : ExtReq → Option ExtDoc) (k : Ctx) (D : DTab) : Buf → Bool → List Said → DTab → Prop where
  | none : XInner docs k D [] false [] D
  | some (w : Buf) (A : List Said) (D' : DTab) (sp : List UInt8) (h1 : XDecls docs k 0 D w A D') (h2 : AllWS sp) :
      XInner docs k D (k.asc 0x5B ++ (w ++ (k.asc 0x5D ++ spell k.asc sp))) true A D'

/-- Production 28: the declaration, what it is reported as, the declarations made.  The internal subset comes first. -/
inductive XDoctype (docs : ExtReq → Option ExtDoc) (k : Ctx) (foreign : Bool) (D : DTab) : Buf → List Said → DTab → Prop where
  | mk (sp1 : List UInt8) (name : List Buf) (w1 : Buf) (sp2 : List UInt8) (w2 : Buf) (pub sys : Option Buf) (b : Bool) (E : List PEv)
      (A B : List Said) (D1 D2 D3 : DTab) (h1 : White sp1) (h2 : DName k.x.e k.asc name) (h3 : XOuter k D w1 pub sys E D1) (h4 : AllWS sp2)
      (h5 : XInner docs k D1 w2 b A D2) (h6 : XClose docs k foreign D2 pub sys B D3) :
      XDoctype docs k foreign D (declOpen k.asc kwDOCTYPE ++ (spell k.asc sp1 ++ (name.flatten ++ (w1 ++ (spell k.asc sp2 ++ (w2 ++ k.asc 0x3E))))))
        (calls (E ++ if k.c.startDoctype then [.startDoctype (some (converted k.x name.flatten)) sys pub b] else []) ++ A ++
          (B ++ calls (if k.c.endDoctype then [.endDoctype] else [])))
        D3

/-- Production 22 without the XML declaration. -/
inductive XPrologText (docs : ExtReq → Option ExtDoc) (k : Ctx) (foreign : Bool) (D : DTab) : Buf → List Said → DTab → Prop where
  | plain (w : Buf) (E : List PEv) (B : List Said) (D' : DTab) (h : Miscs k w E) (h2 : XClose docs k foreign D none none B D') :
      XPrologText docs k foreign D w (calls E ++ B) D'
  | typed (w1 w2 w3 : Buf) (E1 E3 : List PEv) (A : List Said) (D' : DTab) (h1 : Miscs k w1 E1) (h2 : XDoctype docs k foreign D w2 A D') (h3 : Miscs k w3 E3) :
      XPrologText docs k foreign D (w1 ++ (w2 ++ w3)) (calls E1 ++ A ++ calls E3) D'

end Verif.C69
