import Verif.DeclSpec

/-! # The prolog as XML 1.0 writes it, and what is to be reported

Productions 22, 27, 28, 28b: what stands before the root element, after the XML declaration. -/

set_option autoImplicit false

namespace Verif.C59
open C43 C53 Spec Verif PState

/-- Production 27, any number of times: comments, processing instructions and white space, reported as far as there
are handlers. -/
inductive Miscs (k : Ctx) : Buf → List PEv → Prop where
  | nil : Miscs k [] []
  | space (d : UInt8) (h : isWS d = true) {w : Buf} {E : List PEv} (h' : Miscs k w E) : Miscs k (k.asc d ++ w) E
  | comment (ws : List Buf) (h : CommentOk k.x.e k.asc ws) {w : Buf} {E : List PEv} (h' : Miscs k w E) :
      Miscs k (commentText k.asc ws ++ w) ((if k.c.c.comment then [.ev (.comment (C14.lineEnds (converted k.x ws.flatten)))] else []) ++ E)
  | pi (target : List Buf) (sp : List UInt8) (ws : List Buf) (h : PiOk k.x.e k.asc target sp ws) {w : Buf} {E : List PEv} (h' : Miscs k w E) :
      Miscs k (piText k.asc target sp ws ++ w)
        ((if k.c.c.pi then [.ev (.pi (cstr (converted k.x target.flatten)) (C14.lineEnds (converted k.x ws.flatten)))] else []) ++ E)

/-- The external subset is an entity without a name; it is kept under a name no entity can have. -/
def addSubset (k : Ctx) (D : DTab) (pub : Option Buf) (sys : Buf) : DTab :=
  { D with hasPERefs := true
           par := D.par ++ [(hashName, { text := none, isInternal := false, notation_ := none, systemId := some sys,
                                         publicId := pub, base := k.c.base })] }

/-- The external identifier of a document type declaration, with the white space before it, if there is one; for an
external subset that is not read. -/
inductive Outer (k : Ctx) (D : DTab) : Buf → Option Buf → Option Buf → List PEv → DTab → Prop where
  | none : Outer k D [] none none [] D
  | some (sp : List UInt8) (w : Buf) (pub : Option Buf) (sys : Buf) (h1 : White sp) (h2 : ExternalID k.x k.asc w pub sys)
      (h3 : k.pe = .never ∨ k.c.c.externalRef = false) (h4 : k.pe = .never → Allowed k D) :
      Outer k D (spell k.asc sp ++ w) pub (some sys) (if k.pe = .never then asked k D else []) (addSubset k D pub sys)

/-- The internal subset with the white space after it, if there is one. -/
inductive Inner (k : Ctx) (D : DTab) : Buf → Bool → List Said → DTab → Prop where
  | none : Inner k D [] false [] D
  | some (w : Buf) (A : List Said) (D' : DTab) (sp : List UInt8) (h1 : Decls k D w A D') (h2 : AllWS sp) :
      Inner k D (k.asc 0x5B ++ (w ++ (k.asc 0x5D ++ spell k.asc sp))) true A D'

/-- At the end of the declaration: with an external identifier the document may have declarations that are not read. -/
def closed (sys : Option Buf) (D : DTab) : DTab := if sys.isSome then { D with hasPERefs := true } else D

/-- Production 28: the declaration, what it is reported as, the declarations made. -/
inductive Doctype (k : Ctx) (D : DTab) : Buf → List Said → DTab → Prop where
  | mk (sp1 : List UInt8) (name : List Buf) (w1 : Buf) (sp2 : List UInt8) (w2 : Buf) (pub sys : Option Buf) (b : Bool) (E : List PEv)
      (A : List Said) (D1 D2 : DTab) (h1 : White sp1) (h2 : DName k.x.e k.asc name) (h3 : Outer k D w1 pub sys E D1) (h4 : AllWS sp2)
      (h5 : Inner k D1 w2 b A D2) :
      Doctype k D (declOpen k.asc kwDOCTYPE ++ (spell k.asc sp1 ++ (name.flatten ++ (w1 ++ (spell k.asc sp2 ++ (w2 ++ k.asc 0x3E))))))
        (calls (E ++ if k.c.startDoctype then [.startDoctype (some (converted k.x name.flatten)) sys pub b] else []) ++ A ++
          calls (if k.c.endDoctype then [.endDoctype] else []))
        (closed sys D2)

/-- Production 22 without the XML declaration. -/
inductive PrologText (k : Ctx) (D : DTab) : Buf → List Said → DTab → Prop where
  | plain (w : Buf) (E : List PEv) (h : Miscs k w E) : PrologText k D w (calls E) D
  | typed (w1 w2 w3 : Buf) (E1 E3 : List PEv) (A : List Said) (D' : DTab) (h1 : Miscs k w1 E1) (h2 : Doctype k D w2 A D') (h3 : Miscs k w3 E3) :
      PrologText k D (w1 ++ (w2 ++ w3)) (calls E1 ++ A ++ calls E3) D'

end Verif.C59
