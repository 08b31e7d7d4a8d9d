/-! Basic vocabulary of the tokenizer: byte classes, token codes, and an encoding as a
record of the primitive character tests the scanners use. -/

namespace Verif

/-- src/xmltok_impl_h.rs:7-46 `enum ByteType`. -/
inductive ByteType where
  | NONXML | MALFORM | LT | AMP | RSQB | LEAD2 | LEAD3 | LEAD4 | TRAIL | CR | LF | GT
  | QUOT | APOS | EQUALS | QUEST | EXCL | SOL | SEMI | NUM | LSQB | S | NMSTRT | COLON
  | HEX | DIGIT | NAME | MINUS | OTHER | NONASCII | PERCNT | LPAR | RPAR | AST | PLUS
  | COMMA | VERBAR
deriving DecidableEq, Repr, Inhabited

/-- src/lib/xmltok.rs:53-137 `enum XML_TOK`. -/
inductive Tok where
  | TRAILING_RSQB | NONE | TRAILING_CR | PARTIAL_CHAR | PARTIAL | INVALID
  | START_TAG_WITH_ATTS | START_TAG_NO_ATTS | EMPTY_ELEMENT_WITH_ATTS
  | EMPTY_ELEMENT_NO_ATTS | END_TAG | DATA_CHARS | DATA_NEWLINE | CDATA_SECT_OPEN
  | ENTITY_REF | CHAR_REF | PI | XML_DECL | COMMENT | BOM | PROLOG_S | PROLOG_S_NEG
  | DECL_OPEN | DECL_CLOSE | NAME | NAME_NEG | NMTOKEN | NMTOKEN_NEG | POUND_NAME
  | POUND_NAME_NEG | OR | PERCENT | OPEN_PAREN | CLOSE_PAREN | CLOSE_PAREN_NEG
  | OPEN_BRACKET | CLOSE_BRACKET | CLOSE_BRACKET_NEG | LITERAL | LITERAL_NEG
  | PARAM_ENTITY_REF | INSTANCE_START | NAME_QUESTION | NAME_ASTERISK | NAME_PLUS
  | COND_SECT_OPEN | COND_SECT_CLOSE | CLOSE_PAREN_QUESTION | CLOSE_PAREN_ASTERISK
  | CLOSE_PAREN_PLUS | COMMA | ATTRIBUTE_VALUE_S | CDATA_SECT_CLOSE | PREFIXED_NAME
  | PREFIXED_NAME_NEG | IGNORE_SECT
deriving DecidableEq, Repr, Inhabited

/-- src/lib/xmltok.rs:54-137: the discriminants of `XML_TOK`. -/
def Tok.toInt : Tok → Int
  | TRAILING_RSQB => -5 | NONE => -4 | TRAILING_CR => -3 | PARTIAL_CHAR => -2
  | PARTIAL => -1 | INVALID => 0 | START_TAG_WITH_ATTS => 1 | START_TAG_NO_ATTS => 2
  | EMPTY_ELEMENT_WITH_ATTS => 3 | EMPTY_ELEMENT_NO_ATTS => 4 | END_TAG => 5
  | DATA_CHARS => 6 | DATA_NEWLINE => 7 | CDATA_SECT_OPEN => 8 | ENTITY_REF => 9
  | CHAR_REF => 10 | PI => 11 | XML_DECL => 12 | COMMENT => 13 | BOM => 14
  | PROLOG_S => 15 | PROLOG_S_NEG => -15 | DECL_OPEN => 16 | DECL_CLOSE => 17
  | NAME => 18 | NAME_NEG => -18 | NMTOKEN => 19 | NMTOKEN_NEG => -19
  | POUND_NAME => 20 | POUND_NAME_NEG => -20 | OR => 21 | PERCENT => 22
  | OPEN_PAREN => 23 | CLOSE_PAREN => 24 | CLOSE_PAREN_NEG => -24 | OPEN_BRACKET => 25
  | CLOSE_BRACKET => 26 | CLOSE_BRACKET_NEG => -26 | LITERAL => 27 | LITERAL_NEG => -27
  | PARAM_ENTITY_REF => 28 | INSTANCE_START => 29 | NAME_QUESTION => 30
  | NAME_ASTERISK => 31 | NAME_PLUS => 32 | COND_SECT_OPEN => 33 | COND_SECT_CLOSE => 34
  | CLOSE_PAREN_QUESTION => 35 | CLOSE_PAREN_ASTERISK => 36 | CLOSE_PAREN_PLUS => 37
  | COMMA => 38 | ATTRIBUTE_VALUE_S => 39 | CDATA_SECT_CLOSE => 40 | PREFIXED_NAME => 41
  | PREFIXED_NAME_NEG => -41 | IGNORE_SECT => 42

/-- src/lib/xmltok.rs:140-142 `XML_TOK::is_error`. -/
def Tok.isError (t : Tok) : Bool := t.toInt ≤ 0

/-- src/lib/xmltok.rs:144-163 `XML_TOK::negate`; `none` is the `unimplemented!` panic. -/
def Tok.negate : Tok → Option Tok
  | CLOSE_PAREN_NEG => some CLOSE_PAREN
  | POUND_NAME_NEG => some POUND_NAME
  | LITERAL_NEG => some LITERAL
  | NAME_NEG => some NAME
  | NAME => some NAME_NEG
  | PREFIXED_NAME => some PREFIXED_NAME_NEG
  | NMTOKEN => some NMTOKEN_NEG
  | CLOSE_BRACKET_NEG => some CLOSE_BRACKET
  | CLOSE_BRACKET => some CLOSE_BRACKET_NEG
  | PREFIXED_NAME_NEG => some PREFIXED_NAME
  | NMTOKEN_NEG => some NMTOKEN
  | _ => none

/-- A byte buffer: the bytes from the current pointer to the end
(src/lib/xmlparse.rs:84-232 `ExpatBufRef`; `inc_start n` is `List.drop n`). -/
abbrev Buf := List UInt8

/-- src/lib/xmltok.rs:347-372 `trait XmlEncodingImpl`: the character tests an encoding
supplies to the scanners.  Each takes the buffer beginning at the pointer.
`matches`/`ascii` model `char_matches`/`byte_to_ascii` (`c_char` as its byte; the value
`-1` for "not ASCII" is the byte 0xFF). -/
structure Enc where
  /-- `MINBPC` minus one (kept this way so that `mb` is positive by construction) -/
  m : Nat
  /-- `byte_type` -/
  bt : Buf → ByteType
  /-- `is_name_char(p, n)` -/
  isName : Nat → Buf → Bool
  /-- `is_nmstrt_char(p, n)` -/
  isNmstrt : Nat → Buf → Bool
  /-- `is_invalid_char(p, n)` -/
  isInvalid : Nat → Buf → Bool
  /-- `is_name_char_minbpc` -/
  isNameMin : Buf → Bool
  /-- `is_nmstrt_char_minbpc` -/
  isNmstrtMin : Buf → Bool
  /-- `char_matches` -/
  charMatches : Buf → UInt8 → Bool
  /-- `byte_to_ascii` -/
  toAscii : Buf → UInt8

/-- `MINBPC`: the width in bytes of the smallest character. -/
def Enc.mb (e : Enc) : Nat := e.m + 1

/-- What the scanners rely on: the tests look only at the bytes of the character. -/
structure Enc.Ok (e : Enc) : Prop where
  bt_app : ∀ b x, e.mb ≤ b.length → e.bt (b ++ x) = e.bt b
  matches_app : ∀ b x c, e.mb ≤ b.length → e.charMatches (b ++ x) c = e.charMatches b c
  ascii_app : ∀ b x, e.mb ≤ b.length → e.toAscii (b ++ x) = e.toAscii b
  name_app : ∀ n b x, n ≤ b.length → e.isName n (b ++ x) = e.isName n b
  nmstrt_app : ∀ n b x, n ≤ b.length → e.isNmstrt n (b ++ x) = e.isNmstrt n b
  invalid_app : ∀ n b x, n ≤ b.length → e.isInvalid n (b ++ x) = e.isInvalid n b
  nameMin_app : ∀ b x, e.mb ≤ b.length → e.isNameMin (b ++ x) = e.isNameMin b
  nmstrtMin_app : ∀ b x, e.mb ≤ b.length → e.isNmstrtMin (b ++ x) = e.isNmstrtMin b

/-- Result of a scanner: the token and `*nextTokPtr` as an offset from the start of the
token; 0 when the scanner leaves `*nextTokPtr` at the caller's initial value. -/
structure Res where
  tok : Tok
  next : Nat
deriving DecidableEq, Repr, Inhabited

end Verif
