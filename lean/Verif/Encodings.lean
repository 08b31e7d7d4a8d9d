import Verif.Tables
import Verif.Scan

/-! Model of the encodings of src/lib/xmltok.rs as values of `Enc`, with the locality laws
`Enc.Ok` the scanner theorems use. -/

namespace Verif
open Tables

/-- The byte at offset `i` of the buffer.  Reading past the end gives 0 here; the scanners
only read inside the buffer, which `Verif/Locality.lean` makes precise. -/
def byteAt (b : Buf) (i : Nat) : UInt8 := b.getD i 0

/-- xmltok.rs:404 `T::types[idx]`. -/
def tableBt (t : List ByteType) (c : UInt8) : ByteType := t.getD c.toNat .NONXML

/-- xmltok.rs:382-386 `UCS2_GET_NAMING!(pages, hi, lo) != 0`. -/
def ucs2Naming (pages : List Nat) (hi lo : Nat) : Bool :=
  (namingBitmap.getD ((pages.getD hi 0 <<< 3) + (lo >>> 5)) 0).testBit (lo &&& 0x1F)

/-- xmltok.rs:416-426 / 448-458 (`is_name_char`/`is_nmstrt_char` for two bytes). -/
def utf8Naming2 (pages : List Nat) (p0 p1 : Nat) : Bool :=
  (namingBitmap.getD ((pages.getD (p0 >>> 2 &&& 7) 0 <<< 3) + ((p0 &&& 3) <<< 1)
    + (p1 >>> 5 &&& 1)) 0).testBit (p1 &&& 0x1f)

/-- xmltok.rs:427-438 / 459-471 (`is_name_char`/`is_nmstrt_char` for three bytes). -/
def utf8Naming3 (pages : List Nat) (p0 p1 p2 : Nat) : Bool :=
  (namingBitmap.getD ((pages.getD (((p0 &&& 0xf) <<< 4) + (p1 >>> 2 &&& 0xf)) 0 <<< 3)
    + ((p1 &&& 3) <<< 1) + (p2 >>> 5 &&& 1)) 0).testBit (p2 &&& 0x1f)

/-- xmltok.rs:413-443 / 445-476 `Utf8EncodingImpl::is_name_char`, `is_nmstrt_char`
(lengths other than 2, 3, 4 panic in the source and are never passed). -/
def utf8Naming (pages : List Nat) (n : Nat) (b : Buf) : Bool :=
  match n with
  | 2 => utf8Naming2 pages (byteAt b 0).toNat (byteAt b 1).toNat
  | 3 => utf8Naming3 pages (byteAt b 0).toNat (byteAt b 1).toNat (byteAt b 2).toNat
  | _ => false

/-- xmltok.rs:482-486: `is_invalid_char` for two bytes. -/
def utf8Invalid2 (a b : UInt8) : Bool := a < 0xc2 || b &&& 0x80 == 0 || b &&& 0xc0 == 0xc0

/-- xmltok.rs:487-509: `is_invalid_char` for three bytes. -/
def utf8Invalid3 (a b c : UInt8) : Bool :=
  c &&& 0x80 == 0
  || (if a == 0xef && b == 0xbf then c > 0xbd else c &&& 0xc0 == 0xc0)
  || (if a == 0xe0 then b < 0xa0 || b &&& 0xc0 == 0xc0
      else b &&& 0x80 == 0 || (if a == 0xed then b > 0x9f else b &&& 0xc0 == 0xc0))

/-- xmltok.rs:510-528: `is_invalid_char` for four bytes. -/
def utf8Invalid4 (a b c d : UInt8) : Bool :=
  d &&& 0x80 == 0 || d &&& 0xc0 == 0xc0 || c &&& 0x80 == 0 || c &&& 0xc0 == 0xc0
  || (if a == 0xf0 then b < 0x90 || b &&& 0xc0 == 0xc0
      else b &&& 0x80 == 0 || (if a == 0xf4 then b > 0x8f else b &&& 0xc0 == 0xc0))

/-- xmltok.rs:479-532 `Utf8EncodingImpl::is_invalid_char`. -/
def utf8IsInvalid (n : Nat) (b : Buf) : Bool :=
  match n with
  | 2 => utf8Invalid2 (byteAt b 0) (byteAt b 1)
  | 3 => utf8Invalid3 (byteAt b 0) (byteAt b 1) (byteAt b 2)
  | 4 => utf8Invalid4 (byteAt b 0) (byteAt b 1) (byteAt b 2) (byteAt b 3)
  | _ => false

/-- xmltok.rs:395-547 `Utf8EncodingImpl<T>` with table `t`. -/
def utf8EncOf (t : List ByteType) : Enc where
  m := 0
  bt b := tableBt t (byteAt b 0)
  isName := utf8Naming namePages
  isNmstrt := utf8Naming nmstrtPages
  isInvalid := utf8IsInvalid
  isNameMin _ := false
  isNmstrtMin _ := false
  charMatches b c := byteAt b 0 == c
  toAscii b := byteAt b 0

/-- xmltok.rs:659-703 `Latin1EncodingImpl<T>` and 752-796 `AsciiEncodingImpl<T>` (their
character tests are identical). -/
def byteEncOf (t : List ByteType) : Enc where
  m := 0
  bt b := tableBt t (byteAt b 0)
  isName _ _ := false
  isNmstrt _ _ := false
  isInvalid _ _ := false
  isNameMin _ := false
  isNmstrtMin _ := false
  charMatches b c := byteAt b 0 == c
  toAscii b := byteAt b 0

/-- xmltok.rs:2782-2805 `unicode_byte_type`. -/
def unicodeByteType (hi lo : UInt8) : ByteType :=
  if 216 ≤ hi ∧ hi ≤ 219 then .LEAD4
  else if 220 ≤ hi ∧ hi ≤ 223 then .TRAIL
  else if hi = 255 ∧ (lo = 255 ∨ lo = 254) then .NONXML
  else .NONASCII

/-- xmltok.rs:833-891 `Little2EncodingImpl<T>`. -/
def little2EncOf (t : List ByteType) : Enc where
  m := 1
  bt b := if byteAt b 1 = 0 then tableBt t (byteAt b 0)
          else unicodeByteType (byteAt b 1) (byteAt b 0)
  isName _ _ := false
  isNmstrt _ _ := false
  isInvalid _ _ := false
  isNameMin b := ucs2Naming namePages (byteAt b 1).toNat (byteAt b 0).toNat
  isNmstrtMin b := ucs2Naming nmstrtPages (byteAt b 1).toNat (byteAt b 0).toNat
  charMatches b c := byteAt b 1 == 0 && byteAt b 0 == c
  toAscii b := if byteAt b 1 = 0 then byteAt b 0 else 0xFF

/-- xmltok.rs:1019-1026 `Big2EncodingImpl::byte_type`.  `bytes.1 as usize` sign-extends the
`c_char`, so for `bytes.1 ≥ 0x80` the index is out of range and the code panics: `none`. -/
def big2Bt? (t : List ByteType) (b : Buf) : Option ByteType :=
  if byteAt b 0 = 0 then
    if (byteAt b 1).toNat < 0x80 then some (tableBt t (byteAt b 1)) else none
  else some (unicodeByteType (byteAt b 0) (byteAt b 1))

/-- xmltok.rs:1008-1065 `Big2EncodingImpl<T>`.  On the inputs where `byte_type` panics
(`big2Bt? t b = none`) the value of `bt` here is arbitrary; theorems about this encoding
exclude them. -/
def big2EncOf (t : List ByteType) : Enc where
  m := 1
  bt b := (big2Bt? t b).getD .NONXML
  isName _ _ := false
  isNmstrt _ _ := false
  isInvalid _ _ := false
  isNameMin b := ucs2Naming namePages (byteAt b 0).toNat (byteAt b 1).toNat
  isNmstrtMin b := ucs2Naming nmstrtPages (byteAt b 0).toNat (byteAt b 1).toNat
  charMatches b c := byteAt b 0 == 0 && byteAt b 1 == c
  toAscii b := if byteAt b 0 = 0 then byteAt b 1 else 0xFF

/-- xmltok.rs:3119-3135 `checkCharRefNumber`. -/
def checkCharRefNumber (c : Int) : Int :=
  if 0xD800 ≤ c ∧ c ≤ 0xDFFF then -1
  else if 0 ≤ c ∧ c < 0x100 ∧ latin1EncodingTable.getD c.toNat .NONXML = .NONXML then -1
  else if c = 0xFFFE ∨ c = 0xFFFF then -1
  else c

/-- xmltok.rs:3137-3165 `XmlUtf8Encode`: the bytes written (`[]` for the return value 0). -/
def xmlUtf8Encode (c : Int) : List UInt8 :=
  let n := c.toNat
  if c < 0 then []
  else if n < 0x80 then [UInt8.ofNat n]
  else if n < 0x800 then [UInt8.ofNat (n >>> 6 ||| 0xC0), UInt8.ofNat (n &&& 0x3f ||| 0x80)]
  else if n < 0x10000 then
    [UInt8.ofNat (n >>> 12 ||| 0xE0), UInt8.ofNat (n >>> 6 &&& 0x3f ||| 0x80),
     UInt8.ofNat (n &&& 0x3f ||| 0x80)]
  else if n < 0x110000 then
    [UInt8.ofNat (n >>> 18 ||| 0xF0), UInt8.ofNat (n >>> 12 &&& 0x3f ||| 0x80),
     UInt8.ofNat (n >>> 6 &&& 0x3f ||| 0x80), UInt8.ofNat (n &&& 0x3f ||| 0x80)]
  else []

/-- xmltok.rs:2237-2243 `UnknownEncoding`: the application's converter, the class of every
lead byte, and for every byte its UTF-8 form (`[]` when `utf8[i][0] = 0`, i.e. for lead
bytes of multi-byte sequences).  The converter is a C function on a pointer; it is modelled
as a function of the bytes of the sequence (`n` bytes from the pointer).  `utf16` is only
used by the UTF-16 build and omitted. -/
structure Unknown where
  types : List ByteType
  utf8 : List (List UInt8)
  convert : Option (Buf → Int)

/-- xmltok.rs:2271-2330: one iteration of the table loop of `UnknownEncoding::initialize`
(`none` = the function returns false). -/
def unknownEntry (hasConvert : Bool) (i : Nat) (c : Int) : Option (ByteType × List UInt8) :=
  if c = -1 then some (.MALFORM, [0])
  else if c < 0 then
    if c < -4 then none
    else if !hasConvert then none
    else some (if c = -2 then .LEAD2 else if c = -3 then .LEAD3 else .LEAD4, [])
  else if c < 0x80 then
    let t := latin1EncodingTable.getD c.toNat .NONXML
    if t ≠ .OTHER ∧ t ≠ .NONXML ∧ c ≠ i then none
    else some (t, [UInt8.ofNat c.toNat])
  else if checkCharRefNumber c < 0 then some (.NONXML, [0])
  else if c > 0xffff then none
  else
    let hi := c.toNat >>> 8
    let lo := c.toNat &&& 0xff
    let t := if ucs2Naming nmstrtPages hi lo then ByteType.NMSTRT
             else if ucs2Naming namePages hi lo then .NAME else .OTHER
    some (t, xmlUtf8Encode c)

/-- xmltok.rs:2263-2270: the first loop of `UnknownEncoding::initialize`. -/
def unknownAsciiOk (table : List Int) : Bool :=
  (List.range 128).all fun i =>
    let t := latin1EncodingTable.getD i .NONXML
    t == .OTHER || t == .NONXML || table.getD i 0 == (i : Int)

/-- xmltok.rs:2271: the second loop, from index `i` on. -/
def unknownEntries (hasConvert : Bool) : Nat → List Int → Option (List (ByteType × List UInt8))
  | _, [] => some []
  | i, c :: cs => do
    let x ← unknownEntry hasConvert i c
    let xs ← unknownEntries hasConvert (i + 1) cs
    return x :: xs

/-- xmltok.rs:2256-2339 `UnknownEncoding::initialize` (`table` has 256 entries). -/
def unknownInit (table : List Int) (convert : Option (Buf → Int)) (isNs : Bool) :
    Option Unknown :=
  if !unknownAsciiOk table then none
  else do
    let es ← unknownEntries convert.isSome 0 table
    let types := es.map Prod.fst
    let types := if isNs then types.set 0x3A .COLON else types
    return { types, utf8 := es.map Prod.snd, convert }

/-- xmltok.rs:2342-2407 `impl XmlEncodingImpl for UnknownEncoding`. -/
def unknownEncOf (u : Unknown) : Enc where
  m := 0
  bt b := tableBt u.types (byteAt b 0)
  isName n b := match u.convert with
    | some f =>
      let c := f (b.take n)
      decide (0 ≤ c ∧ c ≤ 0xffff) && ucs2Naming namePages (c.toNat >>> 8) (c.toNat &&& 0xff)
    | none => false
  isNmstrt n b := match u.convert with
    | some f =>
      let c := f (b.take n)
      decide (0 ≤ c ∧ c ≤ 0xffff) && ucs2Naming nmstrtPages (c.toNat >>> 8) (c.toNat &&& 0xff)
    | none => false
  isInvalid n b := match u.convert with
    | some f =>
      let c := f (b.take n)
      !decide (0 ≤ c ∧ c ≤ 0xffff) || decide (checkCharRefNumber c < 0)
    | none => false
  isNameMin _ := false
  isNmstrtMin _ := false
  charMatches b c := byteAt b 0 == c
  toAscii b := byteAt b 0

/-- xmltok.rs:2481-2482 -/
def utf8Enc (ns : Bool) : Enc := utf8EncOf (if ns then utf8EncodingTableNS else utf8EncodingTable)
/-- xmltok.rs:2483-2484, 2500-2506 -/
def internalUtf8Enc (ns : Bool) : Enc :=
  utf8EncOf (if ns then internalUtf8EncodingTableNS else internalUtf8EncodingTable)
/-- xmltok.rs:2479-2480 -/
def latin1Enc (ns : Bool) : Enc :=
  byteEncOf (if ns then latin1EncodingTableNS else latin1EncodingTable)
/-- xmltok.rs:2485-2486 -/
def asciiEnc (ns : Bool) : Enc :=
  byteEncOf (if ns then asciiEncodingTableNS else asciiEncodingTable)
/-- xmltok.rs:2487-2488, 828-829 -/
def little2Enc (ns : Bool) : Enc :=
  little2EncOf (if ns then latin1EncodingTableNS else latin1EncodingTable)
/-- xmltok.rs:2493-2494, 1003-1004 -/
def big2Enc (ns : Bool) : Enc :=
  big2EncOf (if ns then latin1EncodingTableNS else latin1EncodingTable)

/-! ### Locality laws -/

theorem byteAt_app (b x : Buf) (i : Nat) (h : i < b.length) : byteAt (b ++ x) i = byteAt b i := by
  simp [byteAt, List.getD, List.getElem?_append_left h]

theorem utf8EncOf_ok (t : List ByteType) : (utf8EncOf t).Ok := by
  have h1 : ∀ (b x : Buf), 1 ≤ b.length → byteAt (b ++ x) 0 = byteAt b 0 :=
    fun b x h => byteAt_app b x 0 (by omega)
  refine ⟨?_, ?_, ?_, ?_, ?_, ?_, ?_, ?_⟩ <;> intros <;>
    simp only [utf8EncOf, Enc.mb] at * <;> try rfl
  · rw [h1 _ _ ‹_›]
  · rw [h1 _ _ ‹_›]
  · rw [h1 _ _ ‹_›]
  all_goals
    rename_i n b x h
    simp only [utf8Naming, utf8IsInvalid]
    split <;> (try rfl) <;>
      simp only [byteAt_app b x 0 (by omega), byteAt_app b x 1 (by omega)] <;>
      (try rw [byteAt_app b x 2 (by omega)]) <;> (try rw [byteAt_app b x 3 (by omega)])

theorem byteEncOf_ok (t : List ByteType) : (byteEncOf t).Ok := by
  refine ⟨?_, ?_, ?_, ?_, ?_, ?_, ?_, ?_⟩ <;> intros <;>
    simp only [byteEncOf, Enc.mb] at * <;> (try rfl) <;> rw [byteAt_app _ _ 0 (by omega)]

theorem little2EncOf_ok (t : List ByteType) : (little2EncOf t).Ok := by
  refine ⟨?_, ?_, ?_, ?_, ?_, ?_, ?_, ?_⟩ <;> intros <;>
    simp only [little2EncOf, Enc.mb] at * <;> (try rfl) <;>
    rw [byteAt_app _ _ 0 (by omega), byteAt_app _ _ 1 (by omega)]

theorem big2EncOf_ok (t : List ByteType) : (big2EncOf t).Ok := by
  refine ⟨?_, ?_, ?_, ?_, ?_, ?_, ?_, ?_⟩ <;> intros <;>
    simp only [big2EncOf, Enc.mb, big2Bt?] at * <;> (try rfl) <;>
    rw [byteAt_app _ _ 0 (by omega), byteAt_app _ _ 1 (by omega)]

theorem unknownEncOf_ok (u : Unknown) : (unknownEncOf u).Ok := by
  refine ⟨?_, ?_, ?_, ?_, ?_, ?_, ?_, ?_⟩ <;> intros <;>
    simp only [unknownEncOf, Enc.mb] at * <;> (try rfl)
  · rw [byteAt_app _ _ 0 (by omega)]
  · rw [byteAt_app _ _ 0 (by omega)]
  · rw [byteAt_app _ _ 0 (by omega)]
  all_goals
    rw [List.take_append_of_le_length ‹_›]

end Verif
