import Verif.Prolog

/-! The output of `xmlwf -d` (without `-c`, `-m`, `-n`, `-N`): src/xmlwf/xmlwf.rs:78-199, 287-300, with the handlers set as in 1420-1483. -/

set_option autoImplicit false

namespace Verif.C76
open Verif

/-- src/xmlwf/xmlwf.rs:86-107: what `characterData` writes for one `XML_Char` (a byte).  `fprintf(fp, "&#%d;", *s)` is written out for the three
numbers it is used with; `fputc` of a byte from 0x80 on is given a negative number and writes that byte. -/
def escByte (d : UInt8) : Buf :=
  if d = 38 then [0x26, 0x61, 0x6D, 0x70, 0x3B]
  else if d = 60 then [0x26, 0x6C, 0x74, 0x3B]
  else if d = 62 then [0x26, 0x67, 0x74, 0x3B]
  else if d = 34 then [0x26, 0x71, 0x75, 0x6F, 0x74, 0x3B]
  else if d = 9 then [0x26, 0x23, 0x39, 0x3B]
  else if d = 10 then [0x26, 0x23, 0x31, 0x30, 0x3B]
  else if d = 13 then [0x26, 0x23, 0x31, 0x33, 0x3B]
  else [d]

/-- src/xmlwf/xmlwf.rs:78-112 `characterData`. -/
def characterData (s : Buf) : Buf := s.flatMap escByte

/-- src/xmlwf/xmlwf.rs:118-146: the loop of `attributeValue`; a value ends at a NUL (the end of `s`) or at a byte 1 (the separator used with
`-n`). -/
def valueLoop : Buf → Buf
  | [] => [0x22]
  | d :: s => if d = 0 ∨ d = 1 then [0x22] else escByte d ++ valueLoop s

/-- src/xmlwf/xmlwf.rs:114-148 `attributeValue`. -/
def attributeValue (s : Buf) : Buf := 0x3D :: 0x22 :: valueLoop s

/-- `strcmp(a, b) <= 0`, which compares bytes as unsigned numbers (for strings without NUL). -/
def strLe : Buf → Buf → Bool
  | [], _ => true
  | _ :: _, [] => false
  | a :: r, b :: s => if a = b then strLe r s else a < b

/-- One attribute put in its place. -/
def insertAtt (p : Buf × Buf) : List (Buf × Buf) → List (Buf × Buf)
  | [] => [p]
  | q :: l => if strLe p.1 q.1 then p :: q :: l else q :: insertAtt p l

/-- src/xmlwf/xmlwf.rs:153-158 `attcmp`, 175-182 `qsort`: attributes in the order of their names.  (C's `qsort` need not be stable; the names
of the attributes of one element are different, so every way of sorting gives the same.) -/
def sortAtts (as : List (Buf × Buf)) : List (Buf × Buf) := as.foldr insertAtt []

/-- src/xmlwf/xmlwf.rs:184-190: one attribute. -/
def attText (p : Buf × Buf) : Buf := 0x20 :: (p.1 ++ attributeValue p.2)

/-- src/xmlwf/xmlwf.rs:160-192 `startElement`. -/
def startElement (name : Buf) (as : List (Buf × Buf)) : Buf := 0x3C :: (name ++ ((sortAtts as).flatMap attText ++ [0x3E]))

/-- src/xmlwf/xmlwf.rs:194-200 `endElement`. -/
def endElement (name : Buf) : Buf := 0x3C :: 0x2F :: (name ++ [0x3E])

/-- src/xmlwf/xmlwf.rs:287-300 `processingInstruction`. -/
def processingInstruction (target data : Buf) : Buf := 0x3C :: 0x3F :: (target ++ (0x20 :: (data ++ [0x3F, 0x3E])))

/-- src/xmlwf/xmlwf.rs:1440-1483: the handlers set; the other calls are not made, or nothing is written for them. -/
def put : Ev → Buf
  | .chars s => characterData s
  | .startElement n as _ _ => startElement n as
  | .endElement n => endElement n
  | .pi t d => processingInstruction t d
  | _ => []

/-- The same for calls made in the prolog. -/
def putP : PEv → Buf
  | .ev v => put v
  | _ => []

/-- All that is written for a document: the calls made in the prolog, and the others. -/
def written (P : List PEv) (F : List Ev) : Buf := P.flatMap putP ++ F.flatMap put

/-! What is to be kept: elements with their attributes, text, processing instructions. -/

/-- What a call says, regardless of the order of attributes, of where attributes come from, and of how text is divided. -/
def seen : Ev → List Ev
  | .chars s => s.map fun d => .chars [d]
  | .startElement n as _ _ => [.startElement n (sortAtts as) as.length none]
  | .endElement n => [.endElement n]
  | .pi t d => [.pi t d]
  | _ => []

def seenP : PEv → List Ev
  | .ev v => seen v
  | _ => []

/-- What the calls made for a document say. -/
def says (P : List PEv) (F : List Ev) : List Ev := P.flatMap seenP ++ F.flatMap seen

end Verif.C76
