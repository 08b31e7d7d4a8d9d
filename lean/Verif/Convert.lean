import Verif.Props.C52

/-! Conversion of input bytes to the UTF-8 reported to handlers
(the `utf8Convert` methods of the encodings). -/

namespace Verif
open Tables

/-- src/lib/xmltok.rs:167-171 `enum XML_Convert_Result`. -/
inductive ConvRes where
  | completed | inputIncomplete | outputExhausted
deriving DecidableEq, Repr, Inhabited

/-- Outcome of a conversion call: the bytes written to the output, what `*fromP` is left
as, and the returned code. -/
structure Conv where
  out : List UInt8
  rest : Buf
  res : ConvRes
deriving DecidableEq, Repr, Inhabited

/-- One iteration of a conversion loop: return, or write bytes and advance the input by
`k + 1` bytes. -/
inductive CStep where
  | stop (r : ConvRes)
  | emit (w : List UInt8) (k : Nat)
deriving DecidableEq, Repr, Inhabited

/-- The loop common to the per-character converters: `step b cap` is one iteration with `b`
the remaining input (not empty) and `cap` the remaining output room. An empty input ends the
loop with COMPLETED. -/
def convLoop (step : Buf → Nat → CStep) (b : Buf) (cap : Nat) : Conv :=
  if h : b = [] then ⟨[], [], .completed⟩
  else match step b cap with
    | .stop r => ⟨[], b, r⟩
    | .emit w k =>
      let c := convLoop step (b.drop (k + 1)) (cap - w.length)
      ⟨w ++ c.out, c.rest, c.res⟩
termination_by b.length
decreasing_by
  have := List.length_pos_iff.2 h
  simp only [List.length_drop]; omega

/-- src/lib/xmltok.rs:706-735: one iteration of `Latin1Encoding::utf8Convert`. -/
def latin1ConvStep (b : Buf) (cap : Nat) : CStep :=
  let c := (byteAt b 0).toNat
  if c &&& 0x80 ≠ 0 then
    if cap < 2 then .stop .outputExhausted
    else .emit [UInt8.ofNat (c >>> 6 ||| 0xC0), UInt8.ofNat (c &&& 0x3f ||| 0x80)] 0
  else if cap = 0 then .stop .outputExhausted
  else .emit [byteAt b 0] 0

/-- src/lib/xmltok.rs:799-814: one iteration of `AsciiEncoding::utf8Convert`; the loop ends
when the input or the output is exhausted, with OUTPUT_EXHAUSTED iff input remains. -/
def asciiConvStep (b : Buf) (cap : Nat) : CStep :=
  if cap = 0 then .stop .outputExhausted else .emit [byteAt b 0] 0

/-- src/lib/xmltok.rs:894-971 and 1068-1145: one iteration of the `utf8Convert` of the
UTF-16 encodings; `hi`/`lo` select the high and low byte of a code unit. -/
def utf16ConvStep (hi lo : Buf → Nat) (b : Buf) (cap : Nat) : CStep :=
  let h := hi b
  let l := lo b
  if h ≤ 7 then
    if h = 0 ∧ l < 0x80 then
      if cap = 0 then .stop .outputExhausted else .emit [UInt8.ofNat l] 1
    else if cap < 2 then .stop .outputExhausted
    else .emit [UInt8.ofNat (l >>> 6 ||| h <<< 2 ||| 0xC0), UInt8.ofNat (l &&& 0x3f ||| 0x80)] 1
  else if 216 ≤ h ∧ h ≤ 219 then
    if cap < 4 then .stop .outputExhausted
    else if b.length < 4 then .stop .inputIncomplete
    else
      let plane := ((h &&& 3) <<< 2 ||| l >>> 6 &&& 3) + 1
      let h2 := hi (b.drop 2)
      let l2 := lo (b.drop 2)
      .emit [UInt8.ofNat (plane >>> 2 ||| 0xF0),
        UInt8.ofNat (l >>> 2 &&& 0xf ||| (plane &&& 3) <<< 4 ||| 0x80),
        UInt8.ofNat ((l &&& 3) <<< 4 ||| (h2 &&& 3) <<< 2 ||| l2 >>> 6 ||| 0x80),
        UInt8.ofNat (l2 &&& 0x3f ||| 0x80)] 3
  else if cap < 3 then .stop .outputExhausted
  else .emit [UInt8.ofNat (h >>> 4 ||| 0xE0), UInt8.ofNat ((h &&& 0xf) <<< 2 ||| l >>> 6 ||| 0x80),
    UInt8.ofNat (l &&& 0x3f ||| 0x80)] 1

/-- src/lib/xmltok.rs:706-735 `Latin1Encoding::utf8Convert`. -/
def latin1Convert : Buf → Nat → Conv := convLoop latin1ConvStep
/-- src/lib/xmltok.rs:799-814 `AsciiEncoding::utf8Convert`. -/
def asciiConvert : Buf → Nat → Conv := convLoop asciiConvStep
/-- src/lib/xmltok.rs:894-971 `Little2Encoding::utf8Convert`; the input view is cut to an even
length first (line 900). -/
def little2Convert (b : Buf) (cap : Nat) : Conv :=
  convLoop (utf16ConvStep (fun b => (byteAt b 1).toNat) (fun b => (byteAt b 0).toNat))
    (b.take (b.length / 2 * 2)) cap
/-- src/lib/xmltok.rs:1068-1145 `Big2Encoding::utf8Convert`. -/
def big2Convert (b : Buf) (cap : Nat) : Conv :=
  convLoop (utf16ConvStep (fun b => (byteAt b 0).toNat) (fun b => (byteAt b 1).toNat))
    (b.take (b.length / 2 * 2)) cap

/-- src/lib/xmltok.rs:2741-2779 `_INTERNAL_trim_to_complete_utf8_characters`: the loop, with
`i` and `walked` as in the source; the result is the final `i` (the length kept). The loop
guard `i <= from_buf.len()` holds on every iteration, since `i` only grows right before a
`break`. -/
def trimLoop (b : Buf) : Nat → Nat → Nat
  | 0, _ => 0
  | i + 1, walked =>
    let prev := byteAt b i
    if prev &&& 0xf8 == 0xf0 then
      if 4 ≤ walked + 1 then i + 1 + 3 else trimLoop b i 1
    else if prev &&& 0xf0 == 0xe0 then
      if 3 ≤ walked + 1 then i + 1 + 2 else trimLoop b i 1
    else if prev &&& 0xe0 == 0xc0 then
      if 2 ≤ walked + 1 then i + 1 + 1 else trimLoop b i 1
    else if prev &&& 0x80 == 0 then i + 1
    else trimLoop b i (walked + 1)

/-- src/lib/xmltok.rs:2741-2779 `_INTERNAL_trim_to_complete_utf8_characters`. -/
def trimUtf8 (b : Buf) : Buf := b.take (trimLoop b b.length 0)

/-- src/lib/xmltok.rs:550-582 `Utf8Encoding::utf8Convert`. -/
def utf8Convert (b : Buf) (cap : Nat) : Conv :=
  let from1 := if cap < b.length then b.take cap else b
  let from2 := trimUtf8 from1
  ⟨from2, b.drop from2.length,
    if cap < b.length then .outputExhausted
    else if from2.length < from1.length then .inputIncomplete
    else .completed⟩

/-- src/lib/xmltok.rs:2410-2445: one iteration of `UnknownEncoding::utf8Convert`. The
application's converter is given the bytes of the sequence (see `Unknown`); the advance is the
length announced by the class of the lead byte. A byte whose table entry is empty always has a
LEAD class (`unknownEntry`), so the class is only consulted there; for other classes the code
would compute a meaningless advance (modelled as 1). -/
def unknownConvStep (u : Unknown) (b : Buf) (cap : Nat) : CStep :=
  match u.utf8.getD (byteAt b 0).toNat [] with
  | [] =>
    let n := match tableBt u.types (byteAt b 0) with
      | .LEAD2 => 2 | .LEAD3 => 3 | .LEAD4 => 4 | _ => 1
    let w := match u.convert with
      | some f => xmlUtf8Encode (f (b.take n))
      | none => []
    if cap < w.length then .stop .outputExhausted else .emit w (n - 1)
  | w => if cap < w.length then .stop .outputExhausted else .emit w 0

/-- src/lib/xmltok.rs:2410-2445 `UnknownEncoding::utf8Convert`. -/
def unknownConvert (u : Unknown) : Buf → Nat → Conv := convLoop (unknownConvStep u)

/-- Converting through a succession of output buffers of the given sizes: the bytes written
altogether and the input left over. -/
def drain (conv : Buf → Nat → Conv) : List Nat → Buf → List UInt8 × Buf
  | [], b => ([], b)
  | cap :: caps, b =>
    let c := conv b cap
    let r := drain conv caps c.rest
    (c.out ++ r.1, r.2)

end Verif
