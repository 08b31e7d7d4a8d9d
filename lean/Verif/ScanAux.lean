import Verif.Scan
import Verif.Encodings

/-! Model of the remaining functions of src/lib/xmltok_impl.rs: those applied to the text of a
token that has already been recognised.  The Rust code runs on a raw pointer and relies on the
tokenizer having found a terminating character; the model stops (with the result so far) if the
buffer ends, which the theorems show not to happen on tokens. -/

namespace Verif

/-- xmltok_impl.rs:1637-1643: value of a hexadecimal digit character (`none`: the `_ => {}` arm). -/
def hexDigit? (c : UInt8) : Option Nat :=
  if 0x30 ≤ c ∧ c ≤ 0x39 then some (c.toNat - 0x30)
  else if 0x41 ≤ c ∧ c ≤ 0x46 then some (10 + (c.toNat - 0x41))
  else if 0x61 ≤ c ∧ c ≤ 0x66 then some (10 + (c.toNat - 0x61))
  else none

/-- xmltok_impl.rs:1634-1656: the hexadecimal loop of `charRefNumber`.  `result` is a `c_int`; it is
below 0x110000 at every turn (`C09.no_overflow`), so `<<= 4`, `|=` and `+=` cannot overflow and are
plain arithmetic here.  (`|=` of a digit into a multiple of 16 is addition.) -/
def charRefHex (e : Enc) (b : Buf) (result : Nat) : Option Nat :=
  if b.length < e.mb then some result
  else if e.charMatches b 0x3B then some result
  else
    match hexDigit? (e.toAscii b) with
    | some d =>
      if 0x110000 ≤ result * 16 + d then none
      else charRefHex e (b.drop e.mb) (result * 16 + d)
    | none => if 0x110000 ≤ result then none else charRefHex e (b.drop e.mb) result
termination_by b.length
decreasing_by all_goals simp only [Enc.mb, List.length_drop] at *; omega

/-- xmltok_impl.rs:1658-1667: the decimal loop of `charRefNumber`; `(c - '0')` is computed on the
signed `c_char`. -/
def charRefDec (e : Enc) (b : Buf) (result : Int) : Option Int :=
  if b.length < e.mb then some result
  else if e.charMatches b 0x3B then some result
  else
    if 0x110000 ≤ result * 10 + ((e.toAscii b).toInt8.toInt - 0x30) then none
    else charRefDec e (b.drop e.mb) (result * 10 + ((e.toAscii b).toInt8.toInt - 0x30))
termination_by b.length
decreasing_by all_goals simp only [Enc.mb, List.length_drop] at *; omega

/-- xmltok_impl.rs:1630-1670 `charRefNumber` (`b` is at the `&`). -/
def charRefNumber (e : Enc) (b : Buf) : Int :=
  if e.charMatches (b.drop (2 * e.mb)) 0x78 then
    match charRefHex e (b.drop (3 * e.mb)) 0 with
    | none => -1
    | some r => checkCharRefNumber r
  else
    match charRefDec e (b.drop (2 * e.mb)) 0 with
    | none => -1
    | some r => checkCharRefNumber r

/-- xmltok_impl.rs:1671-1726 `predefinedEntityName`: the character, or 0. -/
def predefinedEntityName (e : Enc) (b : Buf) : UInt8 :=
  let c0 := e.toAscii b
  let m (i : Nat) (c : UInt8) : Bool := e.charMatches (b.drop (i * e.mb)) c
  match b.length / e.mb with
  | 2 => if m 1 0x74 then (if c0 = 0x6C then 0x3C else if c0 = 0x67 then 0x3E else 0) else 0
  | 3 => if e.charMatches b 0x61 then
           (if m 1 0x6D then (if m 2 0x70 then 0x26 else 0) else 0) else 0
  | 4 => if c0 = 0x71 then
           (if m 1 0x75 then (if m 2 0x6F then (if m 3 0x74 then 0x22 else 0) else 0) else 0)
         else if c0 = 0x61 then
           (if m 1 0x70 then (if m 2 0x6F then (if m 3 0x73 then 0x27 else 0) else 0) else 0)
         else 0
  | _ => 0

/-- xmltok_impl.rs:1727-1747 `nameMatchesAscii`. -/
def nameMatchesAscii (e : Enc) : Buf → List UInt8 → Bool
  | b, [] => b.isEmpty
  | b, c :: cs =>
    if b.length < e.mb then false
    else if !e.charMatches b c then false
    else nameMatchesAscii e (b.drop e.mb) cs

/-- xmltok_impl.rs:1748-1765 `nameLength`. -/
def nameLength (e : Enc) (b : Buf) : Nat :=
  if b.length < e.mb then 0 else
  match e.bt b with
  | .LEAD2 => 2 + nameLength e (b.drop 2)
  | .LEAD3 => 3 + nameLength e (b.drop 3)
  | .LEAD4 => 4 + nameLength e (b.drop 4)
  | .NONASCII | .NMSTRT | .COLON | .HEX | .DIGIT | .NAME | .MINUS =>
    e.mb + nameLength e (b.drop e.mb)
  | _ => 0
termination_by b.length
decreasing_by all_goals simp only [Enc.mb, List.length_drop] at *; omega

/-- xmltok_impl.rs:1766-1773 `skipS`. -/
def skipS (e : Enc) (b : Buf) : Buf :=
  if b.length < e.mb then b else
  match e.bt b with
  | .LF | .CR | .S => skipS e (b.drop e.mb)
  | _ => b
termination_by b.length
decreasing_by all_goals simp only [Enc.mb, List.length_drop] at *; omega

/-- src/lib/xmltok.rs `struct position`.  `XML_Size` is unsigned 64-bit with wrapping; line and
column stay below the number of bytes processed, so `Nat` is used. -/
structure Pos where
  line : Nat
  col : Nat
deriving DecidableEq, Repr

/-- xmltok_impl.rs:1774-1803 `updatePosition`. (`columnNumber = -1` followed by the increment at
the end of the turn is 0.)  `none` is the panic of `inc_start` (xmlparse.rs:122-124) when the buffer
ends inside a character. -/
def updatePosition (e : Enc) (b : Buf) (pos : Pos) : Option Pos :=
  if b.length < e.mb then some pos else
  match e.bt b with
  | .LEAD2 => if b.length < 2 then none else updatePosition e (b.drop 2) ⟨pos.line, pos.col + 1⟩
  | .LEAD3 => if b.length < 3 then none else updatePosition e (b.drop 3) ⟨pos.line, pos.col + 1⟩
  | .LEAD4 => if b.length < 4 then none else updatePosition e (b.drop 4) ⟨pos.line, pos.col + 1⟩
  | .LF => updatePosition e (b.drop e.mb) ⟨pos.line + 1, 0⟩
  | .CR =>
    if e.mb ≤ (b.drop e.mb).length ∧ e.bt (b.drop e.mb) = .LF then
      updatePosition e (b.drop (2 * e.mb)) ⟨pos.line + 1, 0⟩
    else updatePosition e (b.drop e.mb) ⟨pos.line + 1, 0⟩
  | _ => updatePosition e (b.drop e.mb) ⟨pos.line, pos.col + 1⟩
termination_by b.length
decreasing_by all_goals simp only [Enc.mb, List.length_drop] at *; omega

/-- src/lib/xmltok.rs `struct ATTRIBUTE`, with offsets for the three pointers. -/
structure Att where
  name : Nat
  valuePtr : Nat
  valueEnd : Nat
  normalized : Bool
deriving DecidableEq, Repr

/-- xmltok_impl.rs:1526-1530 the `State` of `getAtts`; `inValue` carries `open`. -/
inductive GAState where
  | other
  | inName
  | inValue (op : ByteType)
deriving DecidableEq, Repr

/-- xmltok_impl.rs:1543-1551 `START_NAME!`. -/
def startName (st : GAState) (a : Att) (p : Nat) : GAState × Att :=
  if st = .other then (.inName, { a with name := p, normalized := true }) else (st, a)

/-- xmltok_impl.rs:1566-1595: a quote character of class `q` at offset `p`; the third component says
that the attribute is complete. -/
def gaQuote (e : Enc) (q : ByteType) (st : GAState) (a : Att) (p : Nat) : GAState × Att × Bool :=
  match st with
  | .inValue op => if op = q then (.other, { a with valueEnd := p }, true) else (st, a, false)
  | _ => (.inValue q, { a with valuePtr := p + e.mb }, false)

/-- xmltok_impl.rs:1599-1612: a white-space character of class `S`. -/
def gaSpace (e : Enc) (st : GAState) (a : Att) (b : Buf) (p : Nat) : GAState × Att :=
  match st with
  | .inName => (.other, a)
  | .inValue op =>
    if a.normalized ∧ (p = a.valuePtr ∨ e.toAscii b ≠ 0x20 ∨ e.toAscii (b.drop e.mb) = 0x20
        ∨ e.bt (b.drop e.mb) = op) then (st, { a with normalized := false })
    else (st, a)
  | .other => (st, a)

/-- xmltok_impl.rs:1613-1621: a line end. -/
def gaLine (st : GAState) (a : Att) : GAState × Att :=
  match st with
  | .inName => (.other, a)
  | .inValue _ => (st, { a with normalized := false })
  | .other => (st, a)

/-- xmltok_impl.rs:1519-1629: the loop of `getAtts`.  The callback `f` is applied by the caller of
the model to the list, in order (`f` stopping with an error stops the loop; the loop itself has no
other effect). -/
def getAttsLoop (e : Enc) (st : GAState) (a : Att) (b : Buf) (p : Nat) : List Att :=
  if b.length < e.mb then [] else
  match e.bt b with
  | .LEAD2 => getAttsLoop e (startName st a p).1 (startName st a p).2 (b.drop 2) (p + 2)
  | .LEAD3 => getAttsLoop e (startName st a p).1 (startName st a p).2 (b.drop 3) (p + 3)
  | .LEAD4 => getAttsLoop e (startName st a p).1 (startName st a p).2 (b.drop 4) (p + 4)
  | .NONASCII | .NMSTRT | .HEX =>
    getAttsLoop e (startName st a p).1 (startName st a p).2 (b.drop e.mb) (p + e.mb)
  | .QUOT =>
    if (gaQuote e .QUOT st a p).2.2 then
      (gaQuote e .QUOT st a p).2.1 ::
        getAttsLoop e (gaQuote e .QUOT st a p).1 (gaQuote e .QUOT st a p).2.1 (b.drop e.mb) (p + e.mb)
    else getAttsLoop e (gaQuote e .QUOT st a p).1 (gaQuote e .QUOT st a p).2.1 (b.drop e.mb) (p + e.mb)
  | .APOS =>
    if (gaQuote e .APOS st a p).2.2 then
      (gaQuote e .APOS st a p).2.1 ::
        getAttsLoop e (gaQuote e .APOS st a p).1 (gaQuote e .APOS st a p).2.1 (b.drop e.mb) (p + e.mb)
    else getAttsLoop e (gaQuote e .APOS st a p).1 (gaQuote e .APOS st a p).2.1 (b.drop e.mb) (p + e.mb)
  | .AMP => getAttsLoop e st { a with normalized := false } (b.drop e.mb) (p + e.mb)
  | .S => getAttsLoop e (gaSpace e st a b p).1 (gaSpace e st a b p).2 (b.drop e.mb) (p + e.mb)
  | .CR | .LF => getAttsLoop e (gaLine st a).1 (gaLine st a).2 (b.drop e.mb) (p + e.mb)
  | .GT | .SOL =>
    match st with
    | .inValue _ => getAttsLoop e st a (b.drop e.mb) (p + e.mb)
    | _ => []
  | _ => getAttsLoop e st a (b.drop e.mb) (p + e.mb)
termination_by b.length
decreasing_by all_goals simp only [Enc.mb, List.length_drop] at *; omega

/-- xmltok_impl.rs:1519-1629 `getAtts` (`b` is at the `<`). -/
def getAtts (e : Enc) (b : Buf) : List Att :=
  getAttsLoop e .inName ⟨0, 0, 0, false⟩ (b.drop e.mb) e.mb

end Verif
