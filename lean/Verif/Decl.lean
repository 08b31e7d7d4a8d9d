import Verif.Props.C12

/-! Encoding names, encoding detection and XML declarations
(src/lib/xmltok.rs:1928-2099, 2548-2600, 2807-3107, 3180-3232). -/

namespace Verif
open Tables

/-- An encoding object: the character tests, the converter to UTF-8, and `isUtf8` (no conversion
needed: `MUST_CONVERT!` is its negation, src/lib/xmlparse.rs:1467-1471). -/
structure XEnc where
  e : Enc
  conv : Buf → Nat → Conv
  isUtf8 : Bool

/-- src/lib/xmltok.rs:2481-2482, 396 -/
def utf8X (ns : Bool) : XEnc := ⟨utf8Enc ns, utf8Convert, true⟩
/-- src/lib/xmltok.rs:2483-2484, 396 -/
def internalUtf8X (ns : Bool) : XEnc := ⟨internalUtf8Enc ns, utf8Convert, true⟩
/-- src/lib/xmltok.rs:2479-2480, 660 -/
def latin1X (ns : Bool) : XEnc := ⟨latin1Enc ns, latin1Convert, false⟩
/-- src/lib/xmltok.rs:2485-2486, 753 -/
def asciiX (ns : Bool) : XEnc := ⟨asciiEnc ns, asciiConvert, true⟩
/-- src/lib/xmltok.rs:2487-2488, 834 -/
def little2X (ns : Bool) : XEnc := ⟨little2Enc ns, little2Convert, false⟩
/-- src/lib/xmltok.rs:2493-2494, 1010 -/
def big2X (ns : Bool) : XEnc := ⟨big2Enc ns, big2Convert, false⟩

/-- The entries of `encodings`/`encodingsNS` (src/lib/xmltok.rs:2509-2546). -/
inductive EncId where
  | latin1 | ascii | utf8 | utf16be | utf16le
deriving DecidableEq, Repr, Inhabited

def EncId.x (ns : Bool) : EncId → XEnc
  | .latin1 => latin1X ns
  | .ascii => asciiX ns
  | .utf8 => utf8X ns
  | .utf16be => big2X ns
  | .utf16le => little2X ns

/-- src/lib/xmltok.rs:3180-3206: the indices of the encoding names, plus NO_ENC (6). -/
inductive EncIndex where
  | iso_8859_1 | us_ascii | utf_8 | utf_16 | utf_16be | utf_16le | noEnc
deriving DecidableEq, Repr, Inhabited

/-- src/lib/xmltok.rs:2509-2546: `encodings[i]` (UTF-16 without further qualification, index 3,
is the big-endian one; no encoding given, index 6, is UTF-8). -/
def EncIndex.enc : EncIndex → EncId
  | .iso_8859_1 => .latin1
  | .us_ascii => .ascii
  | .utf_8 => .utf8
  | .utf_16 => .utf16be
  | .utf_16be => .utf16be
  | .utf_16le => .utf16le
  | .noEnc => .utf8

/-- src/lib/xmltok.rs:2815-2817: fold of an ASCII lower-case letter. (`c_char` is signed; bytes from
0x80 on are negative and outside the range, as they are here.) -/
def upper (c : UInt8) : UInt8 := if 0x61 ≤ c ∧ c ≤ 0x7A then c - 0x20 else c

/-- src/lib/xmltok.rs:2807-2833 `streqci`. A C string is its list of bytes without the final NUL
(and contains no NUL): reaching the end of one list is reading its NUL. -/
def streqci : List UInt8 → List UInt8 → Bool
  | [], [] => true
  | [], c :: _ => upper c == 0
  | c :: _, [] => upper c == 0
  | c :: s, d :: t => if upper c ≠ upper d then false else if upper c = 0 then true else streqci s t

/-- src/lib/xmltok.rs:3184-3206: KW_ISO_8859_1, KW_US_ASCII, KW_UTF_8, KW_UTF_16, KW_UTF_16BE,
KW_UTF_16LE. -/
def encodingNames : List (List UInt8 × EncIndex) :=
  [([0x49, 0x53, 0x4F, 0x2D, 0x38, 0x38, 0x35, 0x39, 0x2D, 0x31], .iso_8859_1), ([0x55, 0x53, 0x2D, 0x41, 0x53, 0x43, 0x49, 0x49], .us_ascii),
   ([0x55, 0x54, 0x46, 0x2D, 0x38], .utf_8), ([0x55, 0x54, 0x46, 0x2D, 0x31, 0x36], .utf_16),
   ([0x55, 0x54, 0x46, 0x2D, 0x31, 0x36, 0x42, 0x45], .utf_16be), ([0x55, 0x54, 0x46, 0x2D, 0x31, 0x36, 0x4C, 0x45], .utf_16le)]

/-- src/lib/xmltok.rs:3208-3232 `getEncodingIndex` (`none` argument: the null pointer; `none`
result: UNKNOWN_ENC). -/
def getEncodingIndex : Option (List UInt8) → Option EncIndex
  | none => some .noEnc
  | some name => (encodingNames.find? fun p => streqci name p.1).map Prod.snd

/-- Outcome of `findEncoding`. `panic`: the write `p[0] = 0` (line 2562) indexes an empty slice. -/
inductive Found where
  | panic
  | unknown
  | same
  | builtin (i : EncId)
deriving DecidableEq, Repr, Inhabited

/-- src/lib/xmltok.rs:2548-2574 `findEncoding` (and 2576-2602 `findEncodingNS`): the name is
converted into 127 bytes of a 128-byte buffer, `p` being the part left; the write of the
terminating NUL goes through the slice `p`, which is empty if all 127 bytes were used. A NUL in the
converted name would end the C string (no name in an XML declaration contains one). -/
def findEncoding (x : XEnc) (name : Buf) : Found :=
  let c := x.conv name 127
  if c.rest ≠ [] then .unknown
  else if c.out.length = 127 then .panic
  else if streqci c.out [0x55, 0x54, 0x46, 0x2D, 0x31, 0x36] && x.e.mb == 2 then .same
  else match getEncodingIndex (some c.out) with
    | none => .unknown
    | some i => .builtin i.enc

/-- src/lib/xmltok.rs: `XML_STATE` as used by `initScan`. -/
inductive InitState where
  | prolog | content
deriving DecidableEq, Repr, Inhabited

/-- What `initScan` does: NONE, PARTIAL (`more`), a BOM token of `n` bytes selecting an encoding, or select
an encoding and let its tokenizer scan the same buffer. -/
inductive Init where
  | none
  | more
  | bom (i : EncId) (n : Nat)
  | scan (i : EncId)
deriving DecidableEq, Repr, Inhabited

/-- src/lib/xmltok.rs:1980-2099 `InitEncoding::initScan`; `idx` is `encoding_index`. -/
def initScan (idx : EncIndex) (st : InitState) : Buf → Init
  | [] => .none
  | [a] =>
    if idx = .utf_16 ∨ idx = .utf_16le ∨ idx = .utf_16be then .more
    else if (a = 0xFE ∨ a = 0xFF ∨ a = 0xEF) ∧ (idx ≠ .iso_8859_1 ∨ st ≠ .content) then .more
    else if a = 0 ∨ a = 0x3C then .more
    else .scan idx.enc
  | a :: b :: r =>
    if a = 0xFE ∧ b = 0xFF then
      if ¬ (idx = .iso_8859_1 ∧ st = .content) then .bom .utf16be 2 else .scan idx.enc
    else if a = 0x3C ∧ b = 0 then
      if ¬ ((idx = .utf_16be ∨ idx = .utf_16) ∧ st = .content) then .scan .utf16le
      else .scan idx.enc
    else if a = 0xFF ∧ b = 0xFE then
      if ¬ (idx = .iso_8859_1 ∧ st = .content) then .bom .utf16le 2 else .scan idx.enc
    else if a = 0xEF ∧ b = 0xBB then
      if st ≠ .content ∨ ¬ (idx = .iso_8859_1 ∨ idx = .utf_16be ∨ idx = .utf_16le ∨ idx = .utf_16) then
        match r with
        | [] => .more
        | c :: _ => if c = 0xBF then .bom .utf8 3 else .scan idx.enc
      else .scan idx.enc
    else if a = 0 then
      if ¬ (st = .content ∧ idx = .utf_16le) then .scan .utf16be else .scan idx.enc
    else if b = 0 then
      if ¬ (st = .content) then .scan .utf16le else .scan idx.enc
    else .scan idx.enc

/-! ### XML declarations -/

/-- src/lib/xmltok.rs:2843-2858 `toAscii`: the first output byte of a conversion into one byte of
room, or -1. -/
def toAscii (x : XEnc) (b : Buf) : Int :=
  match (x.conv b 1).out with
  | [] => -1
  | c :: _ => c.toInt8.toInt

/-- src/lib/xmltok.rs:2860-2866 `isSpace`. -/
def isSpace (c : Int) : Bool := c == 32 || c == 13 || c == 10 || c == 9

/-- The white-space loops of `parsePseudoAttribute` and `doParseXmlDecl` (e.g.
src/lib/xmltok.rs:2932-2935): skip while `isSpace(toAscii(..))`. The length guard is there for
termination only (a character was read, so one is there). -/
def skipSp (x : XEnc) (b : Buf) : Buf :=
  if b.length < x.e.mb then b
  else if isSpace (toAscii x b) then skipSp x (b.drop x.e.mb) else b
termination_by b.length
decreasing_by simp only [Enc.mb, List.length_drop] at *; omega

/-- src/lib/xmltok.rs:2898-2926: the name loop. Result: the name and the buffer at the '='. -/
def pseudoName (x : XEnc) (b : Buf) : Option (Buf × Buf) :=
  if toAscii x b = -1 then none
  else if toAscii x b = 0x3D then some ([], b)
  else if isSpace (toAscii x b) then
    if toAscii x (skipSp x (b.drop x.e.mb)) ≠ 0x3D then none
    else some ([], skipSp x (b.drop x.e.mb))
  else if b.length < x.e.mb then none
  else (pseudoName x (b.drop x.e.mb)).map fun (n, r) => (b.take x.e.mb ++ n, r)
termination_by b.length
decreasing_by simp only [Enc.mb, List.length_drop] at *; omega

/-- src/lib/xmltok.rs:2946-2951: the characters allowed in a value. -/
def valueChar (c : Int) : Bool :=
  decide (0x61 ≤ c ∧ c ≤ 0x7A) || decide (0x41 ≤ c ∧ c ≤ 0x5A) || decide (0x30 ≤ c ∧ c ≤ 0x39)
    || c == 0x2E || c == 0x2D || c == 0x5F

/-- src/lib/xmltok.rs:2941-2960: the value loop. Result: the value and what follows the closing
quote. -/
def pseudoValue (x : XEnc) (op : Int) (b : Buf) : Option (Buf × Buf) :=
  if toAscii x b = op then some ([], b.drop x.e.mb)
  else if !valueChar (toAscii x b) then none
  else if b.length < x.e.mb then none
  else (pseudoValue x op (b.drop x.e.mb)).map fun (n, r) => (b.take x.e.mb ++ n, r)
termination_by b.length
decreasing_by simp only [Enc.mb, List.length_drop] at *; omega

/-- Result of `parsePseudoAttribute`: return value 0; 1 with `name = None` (only white space); 1
with a name, the value, the buffer at the value (its end is the end of the input), and the rest. -/
inductive Pseudo where
  | bad
  | stop
  | attr (name value valueOn rest : Buf)
deriving DecidableEq, Repr, Inhabited

/-- src/lib/xmltok.rs:2871-2962 `parsePseudoAttribute` (error positions omitted). -/
def parsePseudo (x : XEnc) (b : Buf) : Pseudo :=
  if b.isEmpty then .stop
  else if !isSpace (toAscii x b) then .bad
  else
    let b1 := skipSp x (b.drop x.e.mb)
    if b1.isEmpty then .stop
    else match pseudoName x b1 with
      | none => .bad
      | some (n, b2) =>
        if n.isEmpty then .bad
        else
          let b3 := skipSp x (b2.drop x.e.mb)
          let c := toAscii x b3
          if c ≠ 0x22 ∧ c ≠ 0x27 then .bad
          else match pseudoValue x c (b3.drop x.e.mb) with
            | none => .bad
            | some (v, r) => .attr n v (b3.drop x.e.mb) r

/-- What `doParseXmlDecl` stores through its out-parameters. `version` is `*versionBuf` (a buffer
whose end is the end of the declaration), `encName` the text from `*encodingName` on together with
the encoding found. -/
structure DeclOut where
  version : Option Buf
  encoding : Option (Buf × Buf × Found)
  standalone : Option Bool
deriving DecidableEq, Repr, Inhabited

inductive DeclRes where
  | bad
  | panic
  | ok (o : DeclOut)
deriving DecidableEq, Repr, Inhabited

def kwVersion : List UInt8 := [0x76, 0x65, 0x72, 0x73, 0x69, 0x6F, 0x6E]
def kwEncoding : List UInt8 := [0x65, 0x6E, 0x63, 0x6F, 0x64, 0x69, 0x6E, 0x67]
def kwStandalone : List UInt8 := [0x73, 0x74, 0x61, 0x6E, 0x64, 0x61, 0x6C, 0x6F, 0x6E, 0x65]
def kwYes : List UInt8 := [0x79, 0x65, 0x73]
def kwNo : List UInt8 := [0x6E, 0x6F]

/-- src/lib/xmltok.rs:3072-3105: the standalone part of `doParseXmlDecl`. -/
def declStandalone (x : XEnc) (isText : Bool) (ver : Option Buf)
    (enc : Option (Buf × Buf × Found)) (name value rest : Buf) : DeclRes :=
  if !nameMatchesAscii x.e name kwStandalone || isText then .bad
  else if nameMatchesAscii x.e value kwYes then
    if (skipSp x rest).isEmpty then .ok ⟨ver, enc, some true⟩ else .bad
  else if nameMatchesAscii x.e value kwNo then
    if (skipSp x rest).isEmpty then .ok ⟨ver, enc, some false⟩ else .bad
  else .bad

/-- src/lib/xmltok.rs:3044-3105: from the test for `encoding` on. -/
def declEncoding (x : XEnc) (isText : Bool) (ver : Option Buf) (name value valueOn rest : Buf) :
    DeclRes :=
  if nameMatchesAscii x.e name kwEncoding then
    let c := toAscii x valueOn
    if !(decide (0x61 ≤ c ∧ c ≤ 0x7A) || decide (0x41 ≤ c ∧ c ≤ 0x5A)) then .bad
    else match findEncoding x value with
      | .panic => .panic
      | f =>
        match parsePseudo x rest with
        | .bad => .bad
        | .stop => .ok ⟨ver, some (valueOn, value, f), none⟩
        | .attr n v _ r => declStandalone x isText ver (some (valueOn, value, f)) n v r
  else declStandalone x isText ver none name value rest

/-- src/lib/xmltok.rs:2981-3107 `doParseXmlDecl` on the text between `<?xml` and `?>` (lines
2998-3000 cut the five and two characters off). `isText` is `isGeneralTextEntity`. -/
def doParseXmlDecl (x : XEnc) (isText : Bool) (b : Buf) : DeclRes :=
  match parsePseudo x b with
  | .bad => .bad
  | .stop => .bad
  | .attr n v on r =>
    if !nameMatchesAscii x.e n kwVersion then
      if !isText then .bad else declEncoding x isText none n v on r
    else
      match parsePseudo x r with
      | .bad => .bad
      | .stop => if isText then .bad else .ok ⟨some on, none, none⟩
      | .attr n2 v2 on2 r2 => declEncoding x isText (some on) n2 v2 on2 r2

end Verif
