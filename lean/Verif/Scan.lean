import Verif.Basic

/-! Model of src/lib/xmltok_impl.rs: the scanners, generic in the encoding.

`b` is the buffer from the current pointer to its end, `p` the offset of that pointer from
the start of the token.  `HAS_CHAR!(buf, self)` is `e.mb ≤ b.length`.  A Rust `loop`/`while`
that falls through into another loop is one function with an explicit state argument; the
comment at each state gives the lines it stands for. -/

namespace Verif

/-- Outcome of one of the `match`-macros: return, advance by `k+1` bytes, or none of the
macro's own cases applies. -/
inductive Step where
  | ret (r : Res)
  | adv (k : Nat)
  | other
deriving DecidableEq, Repr

/-- xmltok_impl.rs:31-57 `MATCH_INVALID_CASES!` (the cases before `$tail`). -/
def invalidCases (e : Enc) (b : Buf) (p : Nat) : Step :=
  let lead (k : Nat) : Step :=
    if b.length < k + 1 then .ret ⟨.PARTIAL_CHAR, 0⟩
    else if e.isInvalid (k + 1) b then .ret ⟨.INVALID, p⟩
    else .adv k
  match e.bt b with
  | .LEAD2 => lead 1
  | .LEAD3 => lead 2
  | .LEAD4 => lead 3
  | .NONXML | .MALFORM | .TRAIL => .ret ⟨.INVALID, p⟩
  | _ => .other

/-- xmltok_impl.rs:59-87 `CHECK_NAME_CASES!`. -/
def nameCases (e : Enc) (b : Buf) (p : Nat) : Step :=
  let lead (k : Nat) : Step :=
    if b.length < k + 1 then .ret ⟨.PARTIAL_CHAR, 0⟩
    else if !e.isName (k + 1) b then .ret ⟨.INVALID, p⟩
    else .adv k
  match e.bt b with
  | .LEAD2 => lead 1
  | .LEAD3 => lead 2
  | .LEAD4 => lead 3
  | .NONASCII => if !e.isNameMin b then .ret ⟨.INVALID, p⟩ else .adv e.m
  | .NMSTRT | .HEX | .DIGIT | .NAME | .MINUS => .adv e.m
  | _ => .other

/-- xmltok_impl.rs:89-117 `CHECK_NMSTRT_CASES!`. -/
def nmstrtCases (e : Enc) (b : Buf) (p : Nat) : Step :=
  let lead (k : Nat) : Step :=
    if b.length < k + 1 then .ret ⟨.PARTIAL_CHAR, 0⟩
    else if !e.isNmstrt (k + 1) b then .ret ⟨.INVALID, p⟩
    else .adv k
  match e.bt b with
  | .LEAD2 => lead 1
  | .LEAD3 => lead 2
  | .LEAD4 => lead 3
  | .NONASCII => if !e.isNmstrtMin b then .ret ⟨.INVALID, p⟩ else .adv e.m
  | .NMSTRT | .HEX => .adv e.m
  | _ => .other

/-- xmltok_impl.rs:160-182: the loop of `scanComment`. -/
def scanCommentLoop (e : Enc) (b : Buf) (p : Nat) : Res :=
  if b.length < e.mb then ⟨.PARTIAL, 0⟩ else
  match invalidCases e b p with
  | .ret r => r
  | .adv k => scanCommentLoop e (b.drop (k + 1)) (p + (k + 1))
  | .other =>
    match e.bt b with
    | .MINUS =>
      if (b.drop e.mb).length < e.mb then ⟨.PARTIAL, 0⟩
      else if e.charMatches (b.drop e.mb) 0x2D then
        if (b.drop (2 * e.mb)).length < e.mb then ⟨.PARTIAL, 0⟩
        else if !e.charMatches (b.drop (2 * e.mb)) 0x3E then ⟨.INVALID, p + 2 * e.mb⟩
        else ⟨.COMMENT, p + 3 * e.mb⟩
      else scanCommentLoop e (b.drop e.mb) (p + e.mb)
    | _ => scanCommentLoop e (b.drop e.mb) (p + e.mb)
termination_by b.length
decreasing_by all_goals simp only [Enc.mb, List.length_drop] at *; omega

/-- xmltok_impl.rs:149-183 `scanComment` (`b` follows `<!-`). -/
def scanComment (e : Enc) (b : Buf) (p : Nat) : Res :=
  if e.mb ≤ b.length then
    if !e.charMatches b 0x2D then ⟨.INVALID, p⟩
    else scanCommentLoop e (b.drop e.mb) (p + e.mb)
  else ⟨.PARTIAL, 0⟩

/-- xmltok_impl.rs:204-231: the loop of `scanDecl`. -/
def scanDeclLoop (e : Enc) (b : Buf) (p : Nat) : Res :=
  if b.length < e.mb then ⟨.PARTIAL, 0⟩ else
  match e.bt b with
  | .PERCNT =>
    if b.length < 2 * e.mb then ⟨.PARTIAL, 0⟩
    else match e.bt (b.drop e.mb) with
      | .S | .CR | .LF | .PERCNT => ⟨.INVALID, p⟩
      | _ => ⟨.DECL_OPEN, p⟩
  | .S | .CR | .LF => ⟨.DECL_OPEN, p⟩
  | .NMSTRT | .HEX => scanDeclLoop e (b.drop e.mb) (p + e.mb)
  | _ => ⟨.INVALID, p⟩
termination_by b.length
decreasing_by all_goals simp only [Enc.mb, List.length_drop] at *; omega

/-- xmltok_impl.rs:186-232 `scanDecl` (`b` follows `<!`). -/
def scanDecl (e : Enc) (b : Buf) (p : Nat) : Res :=
  if b.length < e.mb then ⟨.PARTIAL, 0⟩ else
  match e.bt b with
  | .MINUS => scanComment e (b.drop e.mb) (p + e.mb)
  | .LSQB => ⟨.COND_SECT_OPEN, p + e.mb⟩
  | .NMSTRT | .HEX => scanDeclLoop e (b.drop e.mb) (p + e.mb)
  | _ => ⟨.INVALID, p⟩

/-- xmltok_impl.rs:233-265 `checkPiTarget`: `none` is the return value 0 (reserved target),
`some t` is 1 with `*tokPtr = t`. -/
def checkPiTarget (e : Enc) (tgt : Buf) : Option Tok :=
  if tgt.length ≠ e.mb * 3 then some .PI
  else
    let c0 := e.toAscii tgt
    let c1 := e.toAscii (tgt.drop e.mb)
    let c2 := e.toAscii (tgt.drop (2 * e.mb))
    if !(c0 == 0x78 || c0 == 0x58) then some .PI
    else if !(c1 == 0x6D || c1 == 0x4D) then some .PI
    else if !(c2 == 0x6C || c2 == 0x4C) then some .PI
    else if c0 == 0x58 || c1 == 0x4D || c2 == 0x4C then none
    else some .XML_DECL

/-- xmltok_impl.rs:292-308: the data loop of `scanPi`. -/
def scanPiData (e : Enc) (tok : Tok) (b : Buf) (p : Nat) : Res :=
  if b.length < e.mb then ⟨.PARTIAL, 0⟩ else
  match invalidCases e b p with
  | .ret r => r
  | .adv k => scanPiData e tok (b.drop (k + 1)) (p + (k + 1))
  | .other =>
    match e.bt b with
    | .QUEST =>
      if (b.drop e.mb).length < e.mb then ⟨.PARTIAL, 0⟩
      else if e.charMatches (b.drop e.mb) 0x3E then ⟨tok, p + 2 * e.mb⟩
      else scanPiData e tok (b.drop e.mb) (p + e.mb)
    | _ => scanPiData e tok (b.drop e.mb) (p + e.mb)
termination_by b.length
decreasing_by all_goals simp only [Enc.mb, List.length_drop] at *; omega

/-- xmltok_impl.rs:281-331: the target loop of `scanPi`; `tgt` is the buffer at the start of
the target and `p0` its offset. -/
def scanPiTarget (e : Enc) (tgt : Buf) (p0 : Nat) (b : Buf) (p : Nat) : Res :=
  if b.length < e.mb then ⟨.PARTIAL, 0⟩ else
  match nameCases e b p with
  | .ret r => r
  | .adv k => scanPiTarget e tgt p0 (b.drop (k + 1)) (p + (k + 1))
  | .other =>
    match e.bt b with
    | .S | .CR | .LF =>
      match checkPiTarget e (tgt.take (p - p0)) with
      | none => ⟨.INVALID, p⟩
      | some tok => scanPiData e tok (b.drop e.mb) (p + e.mb)
    | .QUEST =>
      match checkPiTarget e (tgt.take (p - p0)) with
      | none => ⟨.INVALID, p⟩
      | some tok =>
        if (b.drop e.mb).length < e.mb then ⟨.PARTIAL, 0⟩
        else if e.charMatches (b.drop e.mb) 0x3E then ⟨tok, p + 2 * e.mb⟩
        else ⟨.INVALID, p + e.mb⟩
    | _ => ⟨.INVALID, p⟩
termination_by b.length
decreasing_by all_goals simp only [Enc.mb, List.length_drop] at *; omega

/-- xmltok_impl.rs:268-332 `scanPi` (`b` follows `<?`). -/
def scanPi (e : Enc) (b : Buf) (p : Nat) : Res :=
  if b.length < e.mb then ⟨.PARTIAL, 0⟩ else
  match nmstrtCases e b p with
  | .ret r => r
  | .adv k => scanPiTarget e b p (b.drop (k + 1)) (p + (k + 1))
  | .other => ⟨.INVALID, p⟩

/-- xmltok_impl.rs:350-357: the comparison loop of `scanCdataSection`; `none` when all
expected characters match, otherwise the offset of the mismatch. -/
def cdataMismatch (e : Enc) : List UInt8 → Buf → Nat → Option Nat
  | [], _, _ => none
  | c :: cs, b, p =>
    if !e.charMatches b c then some p else cdataMismatch e cs (b.drop e.mb) (p + e.mb)

/-- xmltok_impl.rs:338-345 `CDATA_LSQB`: the characters `CDATA[`. -/
def CDATA_LSQB : List UInt8 := [0x43, 0x44, 0x41, 0x54, 0x41, 0x5B]

/-- xmltok_impl.rs:333-360 `scanCdataSection` (`b` follows `<![`). -/
def scanCdataSection (e : Enc) (b : Buf) (p : Nat) : Res :=
  if b.length < 6 * e.mb then ⟨.PARTIAL, 0⟩ else
  match cdataMismatch e CDATA_LSQB b p with
  | some q => ⟨.INVALID, q⟩
  | none => ⟨.CDATA_SECT_OPEN, p + 6 * e.mb⟩

/-- xmltok_impl.rs:374-406: the loops of `scanEndTag`; `ws` is the inner loop (380-391). -/
def scanEndTagLoop (e : Enc) (ws : Bool) (b : Buf) (p : Nat) : Res :=
  if b.length < e.mb then ⟨.PARTIAL, 0⟩ else
  if ws then
    match e.bt b with
    | .S | .CR | .LF => scanEndTagLoop e true (b.drop e.mb) (p + e.mb)
    | .GT => ⟨.END_TAG, p + e.mb⟩
    | _ => ⟨.INVALID, p⟩
  else
    match nameCases e b p with
    | .ret r => r
    | .adv k => scanEndTagLoop e false (b.drop (k + 1)) (p + (k + 1))
    | .other =>
      match e.bt b with
      | .S | .CR | .LF => scanEndTagLoop e true (b.drop e.mb) (p + e.mb)
      | .COLON => scanEndTagLoop e false (b.drop e.mb) (p + e.mb)
      | .GT => ⟨.END_TAG, p + e.mb⟩
      | _ => ⟨.INVALID, p⟩
termination_by b.length
decreasing_by all_goals simp only [Enc.mb, List.length_drop] at *; omega

/-- xmltok_impl.rs:363-407 `scanEndTag` (`b` follows `</`). -/
def scanEndTag (e : Enc) (b : Buf) (p : Nat) : Res :=
  if b.length < e.mb then ⟨.PARTIAL, 0⟩ else
  match nmstrtCases e b p with
  | .ret r => r
  | .adv k => scanEndTagLoop e false (b.drop (k + 1)) (p + (k + 1))
  | .other => ⟨.INVALID, p⟩

/-- xmltok_impl.rs:424-437: the loop of `scanHexCharRef`. -/
def scanHexLoop (e : Enc) (b : Buf) (p : Nat) : Res :=
  if b.length < e.mb then ⟨.PARTIAL, 0⟩ else
  match e.bt b with
  | .DIGIT | .HEX => scanHexLoop e (b.drop e.mb) (p + e.mb)
  | .SEMI => ⟨.CHAR_REF, p + e.mb⟩
  | _ => ⟨.INVALID, p⟩
termination_by b.length
decreasing_by all_goals simp only [Enc.mb, List.length_drop] at *; omega

/-- xmltok_impl.rs:410-440 `scanHexCharRef` (`b` follows `&#x`). -/
def scanHexCharRef (e : Enc) (b : Buf) (p : Nat) : Res :=
  if e.mb ≤ b.length then
    match e.bt b with
    | .DIGIT | .HEX => scanHexLoop e (b.drop e.mb) (p + e.mb)
    | _ => ⟨.INVALID, p⟩
  else ⟨.PARTIAL, 0⟩

/-- xmltok_impl.rs:460-473: the loop of `scanCharRef`. -/
def scanDecLoop (e : Enc) (b : Buf) (p : Nat) : Res :=
  if b.length < e.mb then ⟨.PARTIAL, 0⟩ else
  match e.bt b with
  | .DIGIT => scanDecLoop e (b.drop e.mb) (p + e.mb)
  | .SEMI => ⟨.CHAR_REF, p + e.mb⟩
  | _ => ⟨.INVALID, p⟩
termination_by b.length
decreasing_by all_goals simp only [Enc.mb, List.length_drop] at *; omega

/-- xmltok_impl.rs:443-476 `scanCharRef` (`b` follows `&#`). -/
def scanCharRef (e : Enc) (b : Buf) (p : Nat) : Res :=
  if e.mb ≤ b.length then
    if e.charMatches b 0x78 then scanHexCharRef e (b.drop e.mb) (p + e.mb)
    else match e.bt b with
      | .DIGIT => scanDecLoop e (b.drop e.mb) (p + e.mb)
      | _ => ⟨.INVALID, p⟩
  else ⟨.PARTIAL, 0⟩

/-- xmltok_impl.rs:496-507 (`scanRef`) and 797-808 (`scanPercent`): a name up to `;`,
giving token `tok`. -/
def scanNameSemi (e : Enc) (tok : Tok) (b : Buf) (p : Nat) : Res :=
  if b.length < e.mb then ⟨.PARTIAL, 0⟩ else
  match nameCases e b p with
  | .ret r => r
  | .adv k => scanNameSemi e tok (b.drop (k + 1)) (p + (k + 1))
  | .other =>
    match e.bt b with
    | .SEMI => ⟨tok, p + e.mb⟩
    | _ => ⟨.INVALID, p⟩
termination_by b.length
decreasing_by all_goals simp only [Enc.mb, List.length_drop] at *; omega

/-- xmltok_impl.rs:479-508 `scanRef` (`b` follows `&`). -/
def scanRef (e : Enc) (b : Buf) (p : Nat) : Res :=
  if b.length < e.mb then ⟨.PARTIAL, 0⟩ else
  match nmstrtCases e b p with
  | .ret r => r
  | .adv k => scanNameSemi e .ENTITY_REF (b.drop (k + 1)) (p + (k + 1))
  | .other =>
    match e.bt b with
    | .NUM => scanCharRef e (b.drop e.mb) (p + e.mb)
    | _ => ⟨.INVALID, p⟩

/-- The control points of `scanAtts` (xmltok_impl.rs:511-675). -/
inductive AttSt where
  /-- 525-559: top of the `while`, inside an attribute name -/
  | name (hadColon : Bool)
  /-- 537-542: after a colon -/
  | colon
  /-- 545-554: white space before `=` -/
  | toEq
  /-- 565-579: after `=`, before the opening quote -/
  | toOpen
  /-- 582-605: inside the value -/
  | value (op : ByteType)
  /-- 606-622: after the closing quote -/
  | close
  /-- 628-651: white space after a value -/
  | ws
  /-- 660-669: after `/` -/
  | sol
deriving DecidableEq, Repr

/-- xmltok_impl.rs:511-675 `scanAtts`. -/
def scanAtts (e : Enc) (st : AttSt) (b : Buf) (p : Nat) : Res :=
  if b.length < e.mb then ⟨.PARTIAL, 0⟩ else
  match st with
  | .name hadColon =>
    match nameCases e b p with
    | .ret r => r
    | .adv k => scanAtts e (.name hadColon) (b.drop (k + 1)) (p + (k + 1))
    | .other =>
      match e.bt b with
      | .COLON =>
        if hadColon then ⟨.INVALID, p⟩ else scanAtts e .colon (b.drop e.mb) (p + e.mb)
      | .S | .CR | .LF => scanAtts e .toEq (b.drop e.mb) (p + e.mb)
      | .EQUALS => scanAtts e .toOpen (b.drop e.mb) (p + e.mb)
      | _ => ⟨.INVALID, p⟩
  | .colon =>
    match nmstrtCases e b p with
    | .ret r => r
    | .adv k => scanAtts e (.name true) (b.drop (k + 1)) (p + (k + 1))
    | .other => ⟨.INVALID, p⟩
  | .toEq =>
    match e.bt b with
    | .EQUALS => scanAtts e .toOpen (b.drop e.mb) (p + e.mb)
    | .S | .LF | .CR => scanAtts e .toEq (b.drop e.mb) (p + e.mb)
    | _ => ⟨.INVALID, p⟩
  | .toOpen =>
    match e.bt b with
    | .QUOT => scanAtts e (.value .QUOT) (b.drop e.mb) (p + e.mb)
    | .APOS => scanAtts e (.value .APOS) (b.drop e.mb) (p + e.mb)
    | .S | .LF | .CR => scanAtts e .toOpen (b.drop e.mb) (p + e.mb)
    | _ => ⟨.INVALID, p⟩
  | .value op =>
    if e.bt b = op then scanAtts e .close (b.drop e.mb) (p + e.mb)
    else match invalidCases e b p with
      | .ret r => r
      | .adv k => scanAtts e (.value op) (b.drop (k + 1)) (p + (k + 1))
      | .other =>
        match e.bt b with
        | .AMP =>
          if (scanRef e (b.drop e.mb) (p + e.mb)).tok.isError then
            scanRef e (b.drop e.mb) (p + e.mb)
          -- 594 `buf.with_start(ptr)`; the test `p < next` always succeeds here
          -- (`scanRef_progress`), it only makes termination evident
          else if p < (scanRef e (b.drop e.mb) (p + e.mb)).next then
            scanAtts e (.value op)
              (b.drop ((scanRef e (b.drop e.mb) (p + e.mb)).next - p))
              (scanRef e (b.drop e.mb) (p + e.mb)).next
          else ⟨.PARTIAL, 0⟩
        | .LT => ⟨.INVALID, p⟩
        | _ => scanAtts e (.value op) (b.drop e.mb) (p + e.mb)
  | .close =>
    match e.bt b with
    | .S | .CR | .LF => scanAtts e .ws (b.drop e.mb) (p + e.mb)
    | .SOL => scanAtts e .sol (b.drop e.mb) (p + e.mb)
    | .GT => ⟨.START_TAG_WITH_ATTS, p + e.mb⟩
    | _ => ⟨.INVALID, p⟩
  | .ws =>
    match nmstrtCases e b p with
    | .ret r => r
    | .adv k => scanAtts e (.name false) (b.drop (k + 1)) (p + (k + 1))
    | .other =>
      match e.bt b with
      | .S | .CR | .LF => scanAtts e .ws (b.drop e.mb) (p + e.mb)
      | .GT => ⟨.START_TAG_WITH_ATTS, p + e.mb⟩
      | .SOL => scanAtts e .sol (b.drop e.mb) (p + e.mb)
      | _ => ⟨.INVALID, p⟩
  | .sol =>
    if !e.charMatches b 0x3E then ⟨.INVALID, p⟩
    else ⟨.EMPTY_ELEMENT_WITH_ATTS, p + e.mb⟩
termination_by b.length
decreasing_by all_goals simp only [Enc.mb, List.length_drop] at *; omega

/-- xmltok_impl.rs:677-690 `scanLtHelper` (`b` is at the `/`). -/
def scanLtHelper (e : Enc) (b : Buf) (p : Nat) : Res :=
  if (b.drop e.mb).length < e.mb then ⟨.PARTIAL, 0⟩
  else if !e.charMatches (b.drop e.mb) 0x3E then ⟨.INVALID, p + e.mb⟩
  else ⟨.EMPTY_ELEMENT_NO_ATTS, p + 2 * e.mb⟩

/-- The control points of the start-tag part of `scanLt`. -/
inductive LtSt where
  /-- 729-779: inside the element name -/
  | name (hadColon : Bool)
  /-- 740-745: after a colon -/
  | colon
  /-- 749-770: white space after the name -/
  | ws
deriving DecidableEq, Repr

/-- xmltok_impl.rs:725-781: the start-tag loops of `scanLt`. -/
def scanStartTag (e : Enc) (st : LtSt) (b : Buf) (p : Nat) : Res :=
  if b.length < e.mb then ⟨.PARTIAL, 0⟩ else
  match st with
  | .name hadColon =>
    match nameCases e b p with
    | .ret r => r
    | .adv k => scanStartTag e (.name hadColon) (b.drop (k + 1)) (p + (k + 1))
    | .other =>
      match e.bt b with
      | .COLON =>
        if hadColon then ⟨.INVALID, p⟩ else scanStartTag e .colon (b.drop e.mb) (p + e.mb)
      | .S | .CR | .LF => scanStartTag e .ws (b.drop e.mb) (p + e.mb)
      | .GT => ⟨.START_TAG_NO_ATTS, p + e.mb⟩
      | .SOL => scanLtHelper e b p
      | _ => ⟨.INVALID, p⟩
  | .colon =>
    match nmstrtCases e b p with
    | .ret r => r
    | .adv k => scanStartTag e (.name true) (b.drop (k + 1)) (p + (k + 1))
    | .other => ⟨.INVALID, p⟩
  | .ws =>
    match nmstrtCases e b p with
    | .ret r => r
    | .adv k => scanAtts e (.name false) (b.drop (k + 1)) (p + (k + 1))
    | .other =>
      match e.bt b with
      | .GT => ⟨.START_TAG_NO_ATTS, p + e.mb⟩
      | .SOL => scanLtHelper e b p
      | .S | .CR | .LF => scanStartTag e .ws (b.drop e.mb) (p + e.mb)
      | _ => ⟨.INVALID, p⟩
termination_by b.length
decreasing_by all_goals simp only [Enc.mb, List.length_drop] at *; omega

/-- xmltok_impl.rs:693-782 `scanLt` (`b` follows `<`). -/
def scanLt (e : Enc) (b : Buf) (p : Nat) : Res :=
  if b.length < e.mb then ⟨.PARTIAL, 0⟩ else
  match nmstrtCases e b p with
  | .ret r => r
  | .adv k => scanStartTag e (.name false) (b.drop (k + 1)) (p + (k + 1))
  | .other =>
    match e.bt b with
    | .EXCL =>
      if (b.drop e.mb).length < e.mb then ⟨.PARTIAL, 0⟩
      else match e.bt (b.drop e.mb) with
        | .MINUS => scanComment e (b.drop (2 * e.mb)) (p + 2 * e.mb)
        | .LSQB => scanCdataSection e (b.drop (2 * e.mb)) (p + 2 * e.mb)
        | _ => ⟨.INVALID, p + e.mb⟩
    | .QUEST => scanPi e (b.drop e.mb) (p + e.mb)
    | .SOL => scanEndTag e (b.drop e.mb) (p + e.mb)
    | _ => ⟨.INVALID, p⟩

/-- xmltok_impl.rs:785-809 `scanPercent` (`b` follows `%`). -/
def scanPercent (e : Enc) (b : Buf) (p : Nat) : Res :=
  if b.length < e.mb then ⟨.PARTIAL, 0⟩ else
  match nmstrtCases e b p with
  | .ret r => r
  | .adv k => scanNameSemi e .PARAM_ENTITY_REF (b.drop (k + 1)) (p + (k + 1))
  | .other =>
    match e.bt b with
    | .S | .LF | .CR | .PERCNT => ⟨.PERCENT, p⟩
    | _ => ⟨.INVALID, p⟩

/-- xmltok_impl.rs:821-832: the loop of `scanPoundName`. -/
def scanPoundNameLoop (e : Enc) (b : Buf) (p : Nat) : Res :=
  if b.length < e.mb then ⟨.POUND_NAME_NEG, 0⟩ else
  match nameCases e b p with
  | .ret r => r
  | .adv k => scanPoundNameLoop e (b.drop (k + 1)) (p + (k + 1))
  | .other =>
    match e.bt b with
    | .CR | .LF | .S | .RPAR | .GT | .PERCNT | .VERBAR => ⟨.POUND_NAME, p⟩
    | _ => ⟨.INVALID, p⟩
termination_by b.length
decreasing_by all_goals simp only [Enc.mb, List.length_drop] at *; omega

/-- xmltok_impl.rs:810-833 `scanPoundName` (`b` follows `#`). -/
def scanPoundName (e : Enc) (b : Buf) (p : Nat) : Res :=
  if b.length < e.mb then ⟨.PARTIAL, 0⟩ else
  match nmstrtCases e b p with
  | .ret r => r
  | .adv k => scanPoundNameLoop e (b.drop (k + 1)) (p + (k + 1))
  | .other => ⟨.INVALID, p⟩

/-- xmltok_impl.rs:834-864 `scanLit`. -/
def scanLit (e : Enc) (op : ByteType) (b : Buf) (p : Nat) : Res :=
  if b.length < e.mb then ⟨.PARTIAL, 0⟩ else
  match invalidCases e b p with
  | .ret r => r
  | .adv k => scanLit e op (b.drop (k + 1)) (p + (k + 1))
  | .other =>
    if e.bt b = .QUOT ∨ e.bt b = .APOS then
      if e.bt b = op then
        if (b.drop e.mb).length < e.mb then ⟨.LITERAL_NEG, 0⟩
        else match e.bt (b.drop e.mb) with
          | .S | .CR | .LF | .GT | .PERCNT | .LSQB => ⟨.LITERAL, p + e.mb⟩
          | _ => ⟨.INVALID, p + e.mb⟩
      else scanLit e op (b.drop e.mb) (p + e.mb)
    else scanLit e op (b.drop e.mb) (p + e.mb)
termination_by b.length
decreasing_by all_goals simp only [Enc.mb, List.length_drop] at *; omega

/-- The truncation to whole units at the head of the tokenizers, e.g.
xmltok_impl.rs:878-887 (`n & (MINBPC-1)`, `MINBPC` being 1 or 2). -/
def truncBuf (e : Enc) (b : Buf) : Buf := b.take (b.length - b.length % e.mb)

/-- xmltok_impl.rs:921-939: one turn of the data loop of `cdataSectionTok`. -/
def cdataStep (e : Enc) (b : Buf) (p : Nat) : Step :=
  let lead (k : Nat) : Step :=
    if b.length < k + 1 ∨ e.isInvalid (k + 1) b then .ret ⟨.DATA_CHARS, p⟩ else .adv k
  match e.bt b with
  | .LEAD2 => lead 1
  | .LEAD3 => lead 2
  | .LEAD4 => lead 3
  | .NONXML | .MALFORM | .TRAIL | .CR | .LF | .RSQB => .ret ⟨.DATA_CHARS, p⟩
  | _ => .adv e.m

/-- xmltok_impl.rs:921-939: the data loop of `cdataSectionTok`. -/
def cdataLoop (e : Enc) (b : Buf) (p : Nat) : Res :=
  if b.length < e.mb then ⟨.DATA_CHARS, p⟩ else
  match cdataStep e b p with
  | .ret r => r
  | .adv k => cdataLoop e (b.drop (k + 1)) (p + (k + 1))
  | .other => ⟨.DATA_CHARS, p⟩
termination_by b.length
decreasing_by all_goals simp only [Enc.mb, List.length_drop] at *; omega

/-- xmltok_impl.rs:888-940: `cdataSectionTok` after truncation. -/
def cdataTokBody (e : Enc) (b : Buf) : Res :=
  match invalidCases e b 0 with
  | .ret r => r
  | .adv k => cdataLoop e (b.drop (k + 1)) (k + 1)
  | .other =>
    match e.bt b with
    | .RSQB =>
      if (b.drop e.mb).length < e.mb then ⟨.PARTIAL, 0⟩
      else if e.charMatches (b.drop e.mb) 0x5D then
        if (b.drop (2 * e.mb)).length < e.mb then ⟨.PARTIAL, 0⟩
        else if !e.charMatches (b.drop (2 * e.mb)) 0x3E then cdataLoop e (b.drop e.mb) e.mb
        else ⟨.CDATA_SECT_CLOSE, 3 * e.mb⟩
      else cdataLoop e (b.drop e.mb) e.mb
    | .CR =>
      if (b.drop e.mb).length < e.mb then ⟨.PARTIAL, 0⟩
      else if e.bt (b.drop e.mb) = .LF then ⟨.DATA_NEWLINE, 2 * e.mb⟩
      else ⟨.DATA_NEWLINE, e.mb⟩
    | .LF => ⟨.DATA_NEWLINE, e.mb⟩
    | _ => cdataLoop e (b.drop e.mb) e.mb

/-- xmltok_impl.rs:870-940 `cdataSectionTok`. -/
def cdataSectionTok (e : Enc) (b : Buf) : Res :=
  if b.isEmpty then ⟨.NONE, 0⟩
  else if (truncBuf e b).isEmpty then ⟨.PARTIAL, 0⟩
  else cdataTokBody e (truncBuf e b)

/-- xmltok_impl.rs:1001-1038: one turn of the data loop of `contentTok`. -/
def contentStep (e : Enc) (b : Buf) (p : Nat) : Step :=
  let lead (k : Nat) : Step :=
    if b.length < k + 1 ∨ e.isInvalid (k + 1) b then .ret ⟨.DATA_CHARS, p⟩ else .adv k
  match e.bt b with
  | .LEAD2 => lead 1
  | .LEAD3 => lead 2
  | .LEAD4 => lead 3
  | .RSQB =>
    if 2 * e.mb ≤ b.length then
      if !e.charMatches (b.drop e.mb) 0x5D then .adv e.m
      else if 3 * e.mb ≤ b.length then
        if !e.charMatches (b.drop (2 * e.mb)) 0x3E then .adv e.m
        else .ret ⟨.INVALID, p + 2 * e.mb⟩
      else .ret ⟨.DATA_CHARS, p⟩
    else .ret ⟨.DATA_CHARS, p⟩
  | .AMP | .LT | .NONXML | .MALFORM | .TRAIL | .CR | .LF => .ret ⟨.DATA_CHARS, p⟩
  | _ => .adv e.m

/-- xmltok_impl.rs:1001-1038: the data loop of `contentTok`. -/
def contentLoop (e : Enc) (b : Buf) (p : Nat) : Res :=
  if b.length < e.mb then ⟨.DATA_CHARS, p⟩ else
  match contentStep e b p with
  | .ret r => r
  | .adv k => contentLoop e (b.drop (k + 1)) (p + (k + 1))
  | .other => ⟨.DATA_CHARS, p⟩
termination_by b.length
decreasing_by all_goals simp only [Enc.mb, List.length_drop] at *; omega

/-- xmltok_impl.rs:959-1039: `contentTok` after truncation. -/
def contentTokBody (e : Enc) (b : Buf) : Res :=
  match invalidCases e b 0 with
  | .ret r => r
  | .adv k => contentLoop e (b.drop (k + 1)) (k + 1)
  | .other =>
    match e.bt b with
    | .LT => scanLt e (b.drop e.mb) e.mb
    | .AMP => scanRef e (b.drop e.mb) e.mb
    | .CR =>
      if (b.drop e.mb).length < e.mb then ⟨.TRAILING_CR, 0⟩
      else if e.bt (b.drop e.mb) = .LF then ⟨.DATA_NEWLINE, 2 * e.mb⟩
      else ⟨.DATA_NEWLINE, e.mb⟩
    | .LF => ⟨.DATA_NEWLINE, e.mb⟩
    | .RSQB =>
      if (b.drop e.mb).length < e.mb then ⟨.TRAILING_RSQB, 0⟩
      else if e.charMatches (b.drop e.mb) 0x5D then
        if (b.drop (2 * e.mb)).length < e.mb then ⟨.TRAILING_RSQB, 0⟩
        else if !e.charMatches (b.drop (2 * e.mb)) 0x3E then contentLoop e (b.drop e.mb) e.mb
        else ⟨.INVALID, 2 * e.mb⟩
      else contentLoop e (b.drop e.mb) e.mb
    | _ => contentLoop e (b.drop e.mb) e.mb

/-- xmltok_impl.rs:941-1039 `contentTok`. -/
def contentTok (e : Enc) (b : Buf) : Res :=
  if b.isEmpty then ⟨.NONE, 0⟩
  else if (truncBuf e b).isEmpty then ⟨.PARTIAL, 0⟩
  else contentTokBody e (truncBuf e b)

/-- xmltok_impl.rs:1109-1133: the white-space loop of `prologTok` (`b` is the buffer after
the first white-space character). -/
def prologSpace (e : Enc) (b : Buf) (p : Nat) : Res :=
  if b.length < e.mb then ⟨.PROLOG_S, p⟩ else
  match e.bt b with
  | .CR => if b.length = e.mb then ⟨.PROLOG_S, p⟩ else prologSpace e (b.drop e.mb) (p + e.mb)
  | .S | .LF => prologSpace e (b.drop e.mb) (p + e.mb)
  | _ => ⟨.PROLOG_S, p⟩
termination_by b.length
decreasing_by all_goals simp only [Enc.mb, List.length_drop] at *; omega

/-- xmltok_impl.rs:1241-1248: the token at a non-name character: just after a colon it has
become an NMTOKEN, elsewhere it is unchanged. -/
def prologNameTok (colon : Bool) (tok : Tok) : Tok := if colon then .NMTOKEN else tok

/-- xmltok_impl.rs:1228-1281: the name loop of `prologTok`; `colon` marks the position
just after a colon following a NAME (1240-1248); a non-name character found there is then
examined again by the loop. -/
def prologName (e : Enc) (tok : Tok) (colon : Bool) (b : Buf) (p : Nat) : Res :=
  if b.length < e.mb then
    if colon then ⟨.PARTIAL, 0⟩ else ⟨(tok.negate).getD .INVALID, 0⟩
  else
  match nameCases e b p with
  | .ret r => r
  | .adv k =>
    prologName e (if colon then .PREFIXED_NAME else tok) false (b.drop (k + 1)) (p + (k + 1))
  | .other =>
    match e.bt b with
    | .GT | .RPAR | .COMMA | .VERBAR | .LSQB | .PERCNT | .S | .CR | .LF =>
      ⟨prologNameTok colon tok, p⟩
    | .COLON =>
      if prologNameTok colon tok = .NAME then
        prologName e .NAME true (b.drop e.mb) (p + e.mb)
      else if prologNameTok colon tok = .PREFIXED_NAME then
        prologName e .NMTOKEN false (b.drop e.mb) (p + e.mb)
      else prologName e (prologNameTok colon tok) false (b.drop e.mb) (p + e.mb)
    | .PLUS =>
      if prologNameTok colon tok = .NMTOKEN then ⟨.INVALID, p⟩ else ⟨.NAME_PLUS, p + e.mb⟩
    | .AST =>
      if prologNameTok colon tok = .NMTOKEN then ⟨.INVALID, p⟩ else ⟨.NAME_ASTERISK, p + e.mb⟩
    | .QUEST =>
      if prologNameTok colon tok = .NMTOKEN then ⟨.INVALID, p⟩ else ⟨.NAME_QUESTION, p + e.mb⟩
    | _ => ⟨.INVALID, p⟩
termination_by b.length
decreasing_by all_goals simp only [Enc.mb, List.length_drop] at *; omega

/-- xmltok_impl.rs:1061-1080 (the `LEAD_CASE`): a multi-byte character at the start of a
token of the prolog. -/
def prologLead (e : Enc) (k : Nat) (b : Buf) : Res :=
  if b.length < k + 1 then ⟨.PARTIAL_CHAR, 0⟩
  else if e.isNmstrt (k + 1) b then prologName e .NAME false (b.drop (k + 1)) (k + 1)
  else if e.isName (k + 1) b then prologName e .NMTOKEN false (b.drop (k + 1)) (k + 1)
  else ⟨.INVALID, 0⟩

/-- xmltok_impl.rs:1059-1282: `prologTok` after truncation. -/
def prologTokBody (e : Enc) (b : Buf) : Res :=
  match e.bt b with
  | .LEAD2 => prologLead e 1 b
  | .LEAD3 => prologLead e 2 b
  | .LEAD4 => prologLead e 3 b
  | .QUOT => scanLit e .QUOT (b.drop e.mb) e.mb
  | .APOS => scanLit e .APOS (b.drop e.mb) e.mb
  | .LT =>
    if (b.drop e.mb).length < e.mb then ⟨.PARTIAL, 0⟩
    else match e.bt (b.drop e.mb) with
      | .EXCL => scanDecl e (b.drop (2 * e.mb)) (2 * e.mb)
      | .QUEST => scanPi e (b.drop (2 * e.mb)) (2 * e.mb)
      | .NMSTRT | .HEX | .NONASCII | .LEAD2 | .LEAD3 | .LEAD4 => ⟨.INSTANCE_START, 0⟩
      | _ => ⟨.INVALID, e.mb⟩
  | .CR => if b.length = e.mb then ⟨.PROLOG_S_NEG, e.mb⟩ else prologSpace e (b.drop e.mb) e.mb
  | .S | .LF => prologSpace e (b.drop e.mb) e.mb
  | .PERCNT => scanPercent e (b.drop e.mb) e.mb
  | .COMMA => ⟨.COMMA, e.mb⟩
  | .LSQB => ⟨.OPEN_BRACKET, e.mb⟩
  | .RSQB =>
    if (b.drop e.mb).length < e.mb then ⟨.CLOSE_BRACKET_NEG, 0⟩
    else if e.charMatches (b.drop e.mb) 0x5D then
      if (b.drop e.mb).length < 2 * e.mb then ⟨.PARTIAL, 0⟩
      else if e.charMatches (b.drop (2 * e.mb)) 0x3E then ⟨.COND_SECT_CLOSE, 3 * e.mb⟩
      else ⟨.CLOSE_BRACKET, e.mb⟩
    else ⟨.CLOSE_BRACKET, e.mb⟩
  | .LPAR => ⟨.OPEN_PAREN, e.mb⟩
  | .RPAR =>
    if (b.drop e.mb).length < e.mb then ⟨.CLOSE_PAREN_NEG, 0⟩
    else match e.bt (b.drop e.mb) with
      | .AST => ⟨.CLOSE_PAREN_ASTERISK, 2 * e.mb⟩
      | .QUEST => ⟨.CLOSE_PAREN_QUESTION, 2 * e.mb⟩
      | .PLUS => ⟨.CLOSE_PAREN_PLUS, 2 * e.mb⟩
      | .CR | .LF | .S | .GT | .COMMA | .VERBAR | .RPAR => ⟨.CLOSE_PAREN, e.mb⟩
      | _ => ⟨.INVALID, e.mb⟩
  | .VERBAR => ⟨.OR, e.mb⟩
  | .GT => ⟨.DECL_CLOSE, e.mb⟩
  | .NUM => scanPoundName e (b.drop e.mb) e.mb
  | .NMSTRT | .HEX => prologName e .NAME false (b.drop e.mb) e.mb
  | .DIGIT | .NAME | .MINUS | .COLON => prologName e .NMTOKEN false (b.drop e.mb) e.mb
  | .NONASCII =>
    if e.isNmstrtMin b then prologName e .NAME false (b.drop e.mb) e.mb
    else if e.isNameMin b then prologName e .NMTOKEN false (b.drop e.mb) e.mb
    else ⟨.INVALID, 0⟩
  | _ => ⟨.INVALID, 0⟩

/-- xmltok_impl.rs:1040-1282 `prologTok`. -/
def prologTok (e : Enc) (b : Buf) : Res :=
  if b.isEmpty then ⟨.NONE, 0⟩
  else if (truncBuf e b).isEmpty then ⟨.PARTIAL, 0⟩
  else prologTokBody e (truncBuf e b)

/-- xmltok_impl.rs:1302-1356: the loop of `attributeValueTok`; `p = 0` is
`buf.as_ptr() == start`. -/
def attValLoop (e : Enc) (b : Buf) (p : Nat) : Res :=
  if b.length < e.mb then ⟨.DATA_CHARS, p⟩ else
  match e.bt b with
  | .LEAD2 => attValLoop e (b.drop 2) (p + 2)
  | .LEAD3 => attValLoop e (b.drop 3) (p + 3)
  | .LEAD4 => attValLoop e (b.drop 4) (p + 4)
  | .AMP => if p = 0 then scanRef e (b.drop e.mb) e.mb else ⟨.DATA_CHARS, p⟩
  | .LT => ⟨.INVALID, p⟩
  | .LF => if p = 0 then ⟨.DATA_NEWLINE, e.mb⟩ else ⟨.DATA_CHARS, p⟩
  | .CR =>
    if p = 0 then
      if (b.drop e.mb).length < e.mb then ⟨.TRAILING_CR, 0⟩
      else if e.bt (b.drop e.mb) = .LF then ⟨.DATA_NEWLINE, 2 * e.mb⟩
      else ⟨.DATA_NEWLINE, e.mb⟩
    else ⟨.DATA_CHARS, p⟩
  | .S => if p = 0 then ⟨.ATTRIBUTE_VALUE_S, e.mb⟩ else ⟨.DATA_CHARS, p⟩
  | _ => attValLoop e (b.drop e.mb) (p + e.mb)
termination_by b.length
decreasing_by all_goals simp only [Enc.mb, List.length_drop] at *; omega

/-- xmltok_impl.rs:1283-1357 `attributeValueTok`. -/
def attributeValueTok (e : Enc) (b : Buf) : Res :=
  if b.isEmpty then ⟨.NONE, 0⟩
  else if b.length < e.mb then ⟨.PARTIAL, 0⟩
  else attValLoop e b 0

/-- xmltok_impl.rs:1377-1430: the loop of `entityValueTok`. -/
def entValLoop (e : Enc) (b : Buf) (p : Nat) : Res :=
  if b.length < e.mb then ⟨.DATA_CHARS, p⟩ else
  match e.bt b with
  | .LEAD2 => entValLoop e (b.drop 2) (p + 2)
  | .LEAD3 => entValLoop e (b.drop 3) (p + 3)
  | .LEAD4 => entValLoop e (b.drop 4) (p + 4)
  | .AMP => if p = 0 then scanRef e (b.drop e.mb) e.mb else ⟨.DATA_CHARS, p⟩
  | .PERCNT =>
    if p = 0 then
      let r := scanPercent e (b.drop e.mb) e.mb
      if r.tok = .PERCENT then ⟨.INVALID, r.next⟩ else r
    else ⟨.DATA_CHARS, p⟩
  | .LF => if p = 0 then ⟨.DATA_NEWLINE, e.mb⟩ else ⟨.DATA_CHARS, p⟩
  | .CR =>
    if p = 0 then
      if (b.drop e.mb).length < e.mb then ⟨.TRAILING_CR, 0⟩
      else if e.bt (b.drop e.mb) = .LF then ⟨.DATA_NEWLINE, 2 * e.mb⟩
      else ⟨.DATA_NEWLINE, e.mb⟩
    else ⟨.DATA_CHARS, p⟩
  | _ => entValLoop e (b.drop e.mb) (p + e.mb)
termination_by b.length
decreasing_by all_goals simp only [Enc.mb, List.length_drop] at *; omega

/-- xmltok_impl.rs:1358-1431 `entityValueTok`. -/
def entityValueTok (e : Enc) (b : Buf) : Res :=
  if b.isEmpty then ⟨.NONE, 0⟩
  else if b.length < e.mb then ⟨.PARTIAL, 0⟩
  else entValLoop e b 0

/-- xmltok_impl.rs:1445-1480: the loop of `ignoreSectionTok` (the `c_int` level is a `Nat`). -/
def ignoreLoop (e : Enc) (level : Nat) (b : Buf) (p : Nat) : Res :=
  if b.length < e.mb then ⟨.PARTIAL, 0⟩ else
  match invalidCases e b p with
  | .ret r => r
  | .adv k => ignoreLoop e level (b.drop (k + 1)) (p + (k + 1))
  | .other =>
    match e.bt b with
    | .LT =>
      if (b.drop e.mb).length < e.mb then ⟨.PARTIAL, 0⟩
      else if e.charMatches (b.drop e.mb) 0x21 then
        if (b.drop (2 * e.mb)).length < e.mb then ⟨.PARTIAL, 0⟩
        else if e.charMatches (b.drop (2 * e.mb)) 0x5B then
          ignoreLoop e (level + 1) (b.drop (3 * e.mb)) (p + 3 * e.mb)
        else ignoreLoop e level (b.drop (2 * e.mb)) (p + 2 * e.mb)
      else ignoreLoop e level (b.drop e.mb) (p + e.mb)
    | .RSQB =>
      if (b.drop e.mb).length < e.mb then ⟨.PARTIAL, 0⟩
      else if e.charMatches (b.drop e.mb) 0x5D then
        if (b.drop (2 * e.mb)).length < e.mb then ⟨.PARTIAL, 0⟩
        else if e.charMatches (b.drop (2 * e.mb)) 0x3E then
          match level with
          | 0 => ⟨.IGNORE_SECT, p + 3 * e.mb⟩
          | l + 1 => ignoreLoop e l (b.drop (3 * e.mb)) (p + 3 * e.mb)
        else ignoreLoop e level (b.drop (2 * e.mb)) (p + 2 * e.mb)
      else ignoreLoop e level (b.drop e.mb) (p + e.mb)
    | _ => ignoreLoop e level (b.drop e.mb) (p + e.mb)
termination_by b.length
decreasing_by all_goals simp only [Enc.mb, List.length_drop] at *; omega

/-- xmltok_impl.rs:1432-1481 `ignoreSectionTok`. -/
def ignoreSectionTok (e : Enc) (b : Buf) : Res := ignoreLoop e 0 (truncBuf e b) 0

/-- xmltok_impl.rs:1489-1513: the loop of `isPublicId`: `none` = all legal, `some p` = the
offset of the offending character (`*badPtr`). -/
def isPublicIdLoop (e : Enc) (b : Buf) (p : Nat) : Option Nat :=
  if b.length < e.mb then none else
  match e.bt b with
  | .DIGIT | .HEX | .MINUS | .APOS | .LPAR | .RPAR | .PLUS | .COMMA | .SOL | .EQUALS
  | .QUEST | .CR | .LF | .SEMI | .EXCL | .AST | .PERCNT | .NUM | .COLON =>
    isPublicIdLoop e (b.drop e.mb) (p + e.mb)
  | .S => if e.charMatches b 0x09 then some p else isPublicIdLoop e (b.drop e.mb) (p + e.mb)
  | .NAME | .NMSTRT =>
    if e.toAscii b &&& 0x80 = 0 then isPublicIdLoop e (b.drop e.mb) (p + e.mb)
    else if e.toAscii b = 0x24 ∨ e.toAscii b = 0x40 then
      isPublicIdLoop e (b.drop e.mb) (p + e.mb)
    else some p
  | _ =>
    if e.toAscii b = 0x24 ∨ e.toAscii b = 0x40 then
      isPublicIdLoop e (b.drop e.mb) (p + e.mb)
    else some p
termination_by b.length
decreasing_by all_goals simp only [Enc.mb, List.length_drop] at *; omega

/-- xmltok_impl.rs:1482-1514 `isPublicId` on a quoted literal (1487: the quotes are cut off). -/
def isPublicId (e : Enc) (b : Buf) : Option Nat :=
  isPublicIdLoop e ((b.drop e.mb).take (b.length - 2 * e.mb)) e.mb

end Verif
