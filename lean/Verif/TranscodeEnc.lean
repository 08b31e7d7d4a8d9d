import Verif.TranscodeProlog
import Verif.Props.C54
import Verif.Props.C48

/-! The built-in encodings take the same code points for name characters, except for three letters. -/

set_option autoImplicit false

namespace Verif
open C43 C53 C59 Spec PState Tables

theorem Coding.restrict {x : XEnc} {asc : UInt8 → Buf} {enc : Nat → Buf} {ok ok' : Nat → Prop} (K : Coding x asc enc ok) (h : ∀ c, ok' c → ok c)
    (ha : ∀ c, XmlChar c → c < 0x80 → ok' c) : Coding x asc enc ok' where
  sup := K.sup
  xml hc := K.xml (h _ hc)
  char hc := K.char (h _ hc)
  conv hc := K.conv fun c hm => h c (hc c hm)
  ascii := K.ascii
  asciiOk h1 h2 := ha _ h1 h2

namespace C71

/-- How a code point is written in an encoding. -/
def encOf : EncId → Nat → Buf
  | .latin1 | .ascii => C12.byte1
  | .utf8 => Spec.utf8
  | .utf16be => C12.utf16be
  | .utf16le => C12.utf16le

/-- The characters of XML 1.0 that can be written in it; in UTF-16 with the high byte first those from U+0080 to U+00FF are left
out, where the code panics (C13). -/
def okOf : EncId → Nat → Prop
  | .latin1 => fun c => XmlChar c ∧ c < 256
  | .ascii => fun c => XmlChar c ∧ c < 128
  | .utf8 | .utf16le => XmlChar
  | .utf16be => fun c => XmlChar c ∧ ¬ (0x80 ≤ c ∧ c < 0x100)

/-- The encodings in which U+00AA, U+00B5 and U+00BA are taken for name characters (C47). -/
def oddly : EncId → Bool
  | .latin1 | .utf16le | .utf16be => true
  | .utf8 | .ascii => false

theorem coding (ns : Bool) (i : EncId) : Coding (i.x ns) (C54.ascOf i) (encOf i) (okOf i) := by
  cases i
  · exact .latin1 ns
  · exact .ascii' ns
  · exact .utf8 ns
  · exact .utf16be ns
  · exact .utf16le ns

/-- Name start characters and name characters (productions 4, 5), without the colon when namespaces are processed, and with the three
letters where they are taken for such. -/
def Starts (ns odd : Bool) (c : Nat) : Prop := InRanges nameStart c ∧ ¬ (ns = true ∧ c = 0x3A) ∨ odd = true ∧ c ∈ C47.latin1Odd
def Names (ns odd : Bool) (c : Nat) : Prop := InRanges nameChar c ∧ ¬ (ns = true ∧ c = 0x3A) ∨ odd = true ∧ c ∈ C47.latin1Odd

theorem notOdd_starts {ns odd : Bool} {c : Nat} (h : c ∉ C47.latin1Odd) : Starts ns odd c ↔ InRanges nameStart c ∧ ¬ (ns = true ∧ c = 0x3A) := by
  simp [Starts, h]
theorem notOdd_names {ns odd : Bool} {c : Nat} (h : c ∉ C47.latin1Odd) : Names ns odd c ↔ InRanges nameChar c ∧ ¬ (ns = true ∧ c = 0x3A) := by
  simp [Names, h]

theorem lead4_none {e : Enc} {w : Buf} (hb : e.bt w = .LEAD4) (h1 : e.isNmstrt 4 w = false) (h2 : e.isName 4 w = false) :
    ¬ e.NmstrtChar w ∧ ¬ e.NameChar w := by
  simp only [Enc.NmstrtChar, Enc.NameChar, hb, h1, h2]
  simp

theorem le_lead (ns : Bool) {hi lo : Nat} (h1 : 216 ≤ hi / 256) (h2 : hi / 256 ≤ 219) : (little2X ns).e.bt (le16 hi ++ le16 lo) = .LEAD4 := by
  have n1 : (UInt8.ofNat (hi / 256)).toNat = hi / 256 := toNat_ofNat (by omega)
  show (if UInt8.ofNat (hi / 256) = 0 then _ else unicodeByteType (UInt8.ofNat (hi / 256)) (UInt8.ofNat (hi % 256))) = _
  rw [if_neg]
  · exact unicodeByteType_lead (by omega) (by omega)
  · intro a; have a := congrArg UInt8.toNat a; rw [n1] at a; have a : hi / 256 = 0 := a; omega

theorem le_high (ns : Bool) {c : Nat} (hc : 0x10000 ≤ c) (hu : c < 0x110000) :
    ¬ (little2X ns).e.NmstrtChar (C12.utf16le c) ∧ ¬ (little2X ns).e.NameChar (C12.utf16le c) := by
  have e : C12.utf16le c = le16 (0xD800 + (c - 0x10000) / 0x400) ++ le16 (0xDC00 + (c - 0x10000) % 0x400) := by
    rw [C12.utf16le, utf16, if_neg (by omega)]
    simp
  rw [e]
  exact lead4_none (le_lead ns (by omega) (by omega)) rfl rfl

theorem be_lead (ns : Bool) {hi lo : Nat} (h1 : 216 ≤ hi / 256) (h2 : hi / 256 ≤ 219) : (big2X ns).e.bt (be16 hi ++ be16 lo) = .LEAD4 := by
  have n1 : (UInt8.ofNat (hi / 256)).toNat = hi / 256 := toNat_ofNat (by omega)
  show (if UInt8.ofNat (hi / 256) = 0 then _ else some (unicodeByteType (UInt8.ofNat (hi / 256)) (UInt8.ofNat (hi % 256)))).getD _ = _
  rw [if_neg]
  · exact unicodeByteType_lead (by omega) (by omega)
  · intro a; have a := congrArg UInt8.toNat a; rw [n1] at a; have a : hi / 256 = 0 := a; omega

theorem be_high (ns : Bool) {c : Nat} (hc : 0x10000 ≤ c) (hu : c < 0x110000) :
    ¬ (big2X ns).e.NmstrtChar (C12.utf16be c) ∧ ¬ (big2X ns).e.NameChar (C12.utf16be c) := by
  have e : C12.utf16be c = be16 (0xD800 + (c - 0x10000) / 0x400) ++ be16 (0xDC00 + (c - 0x10000) % 0x400) := by
    rw [C12.utf16be, utf16, if_neg (by omega)]
    simp
  rw [e]
  exact lead4_none (be_lead ns (by omega) (by omega)) rfl rfl

theorem be_bmp (ns : Bool) {c : Nat} (h1 : 0x100 ≤ c) (h2 : c < 0x10000) (h : XmlChar c) :
    ((big2X ns).e.NmstrtChar (C12.utf16be c) ↔ InRanges nameStart c) ∧ ((big2X ns).e.NameChar (C12.utf16be c) ↔ InRanges nameChar c) := by
  rw [C12.utf16be, utf16, if_pos h2]
  simp only [List.map_cons, List.map_nil, List.flatten_cons, List.flatten_nil, List.append_nil]
  have b0 : byteAt (be16 c) 0 = UInt8.ofNat (c / 256) := rfl
  have b1 : byteAt (be16 c) 1 = UInt8.ofNat (c % 256) := rfl
  have n1 : (UInt8.ofNat (c / 256)).toNat = c / 256 := toNat_ofNat (by omega)
  have n0 : (UInt8.ofNat (c % 256)).toNat = c % 256 := toNat_ofNat (by omega)
  have hb : (big2X ns).e.bt (be16 c) = .NONASCII := by
    show (if byteAt (be16 c) 0 = 0 then _ else some (unicodeByteType (byteAt (be16 c) 0) (byteAt (be16 c) 1))).getD _ = _
    rw [if_neg, b0, b1]
    · refine unicodeByteType_bmp ?_ ?_
      · rw [n1]; simp only [XmlChar] at h; omega
      · rintro ⟨a, b⟩
        have a := congrArg UInt8.toNat a
        rw [n1] at a
        have : c % 256 = 255 ∨ c % 256 = 254 := by
          rcases b with b | b
          · left; have b := congrArg UInt8.toNat b; rw [n0] at b; exact b
          · right; have b := congrArg UInt8.toNat b; rw [n0] at b; exact b
        have a : c / 256 = 255 := a
        simp only [XmlChar] at h; omega
    · rw [b0]; intro a; have a := congrArg UInt8.toNat a; rw [n1] at a; have a : c / 256 = 0 := a; omega
  have e1 : 256 * (c / 256) + c % 256 = c := Nat.div_add_mod c 256
  have m1 := nmstrt_ucs2 (c / 256) (c % 256) (by omega) (by omega)
  have m2 := name_ucs2 (c / 256) (c % 256) (by omega) (by omega)
  rw [e1] at m1 m2
  have g1 : (big2X ns).e.isNmstrtMin (be16 c) = ucs2Naming nmstrtPages (c / 256) (c % 256) := by
    show ucs2Naming _ (byteAt (be16 c) 0).toNat (byteAt (be16 c) 1).toNat = _
    rw [b0, b1, n1, n0]
  have g2 : (big2X ns).e.isNameMin (be16 c) = ucs2Naming namePages (c / 256) (c % 256) := by
    show ucs2Naming _ (byteAt (be16 c) 0).toNat (byteAt (be16 c) 1).toNat = _
    rw [b0, b1, n1, n0]
  simp only [Enc.NmstrtChar, Enc.NameChar, hb, g1, g2, ← m1, ← m2]
  exact ⟨⟨fun h => h.2, fun h => ⟨rfl, h⟩⟩, ⟨fun h => h.2, fun h => ⟨rfl, h⟩⟩⟩

theorem high_ranges {ns odd : Bool} {c : Nat} (hc : 0x10000 ≤ c) : ¬ Starts ns odd c ∧ ¬ Names ns odd c := by
  obtain ⟨h1, h2⟩ := C47.ranges_bmp c hc
  have : c ∉ C47.latin1Odd := by
    intro h
    simp only [C47.latin1Odd, List.mem_cons, List.not_mem_nil, or_false] at h
    omega
  simp [Starts, Names, h1, h2, this]

/-- The name characters of the encodings. -/
theorem classes (ns : Bool) (i : EncId) {c : Nat} (h : okOf i c) :
    ((i.x ns).e.NmstrtChar (encOf i c) ↔ Starts ns (oddly i) c) ∧ ((i.x ns).e.NameChar (encOf i c) ↔ Names ns (oddly i) c) := by
  cases i with
  | latin1 =>
    have h1 : ∀ c < 256, (((EncId.latin1.x ns).e.NmstrtChar (C12.byte1 c)) ↔
        ((rangeBits nameStart).testBit c = true ∧ ¬ (ns = true ∧ c = 0x3A) ∨ c ∈ C47.latin1Odd)) ∧
        (((EncId.latin1.x ns).e.NameChar (C12.byte1 c)) ↔ ((rangeBits nameChar).testBit c = true ∧ ¬ (ns = true ∧ c = 0x3A) ∨ c ∈ C47.latin1Odd)) := by
      cases ns <;> decide +kernel
    have := h1 c h.2
    simp only [rangeBits_spec] at this
    simpa [Starts, Names, oddly, encOf, EncId.x, utf8X] using this
  | ascii =>
    have h1 : ∀ c < 128, (((EncId.ascii.x ns).e.NmstrtChar (C12.byte1 c)) ↔
        ((rangeBits nameStart).testBit c = true ∧ ¬ (ns = true ∧ c = 0x3A))) ∧
        (((EncId.ascii.x ns).e.NameChar (C12.byte1 c)) ↔ ((rangeBits nameChar).testBit c = true ∧ ¬ (ns = true ∧ c = 0x3A))) := by
      cases ns <;> decide +kernel
    have := h1 c h.2
    simp only [rangeBits_spec] at this
    simpa [Starts, Names, oddly, encOf, EncId.x, utf8X] using this
  | utf8 =>
    have := C47.utf8_names ns c (by have := xmlChar_lt h; omega)
    simpa [Starts, Names, oddly, encOf, EncId.x, utf8X] using this
  | utf16le =>
    have h : XmlChar c := h
    by_cases hc : c < 0x10000
    · by_cases ho : c ∈ C47.latin1Odd
      · have : ∀ c ∈ C47.latin1Odd, (EncId.utf16le.x ns).e.NmstrtChar (encOf .utf16le c) ∧ (EncId.utf16le.x ns).e.NameChar (encOf .utf16le c) := by
          cases ns <;> decide +kernel
        have := this c ho
        simp [Starts, Names, oddly, ho, this]
      · have := C47.utf16le_names_partial ns c hc (scalar_of_xml h) (by simp only [XmlChar] at h; omega) ho
        rw [notOdd_starts ho, notOdd_names ho]
        rw [show encOf .utf16le c = le16 c by rw [encOf, C12.utf16le, utf16, if_pos hc]; simp]
        exact this
    · have h1 := le_high ns (c := c) (by omega) (by have := xmlChar_lt h; omega)
      have h2 := high_ranges (ns := ns) (odd := true) (c := c) (by omega)
      exact ⟨⟨fun h => absurd h h1.1, fun h => absurd h h2.1⟩, ⟨fun h => absurd h h1.2, fun h => absurd h h2.2⟩⟩
  | utf16be =>
    obtain ⟨h, h80⟩ := h
    by_cases hc : c < 0x10000
    · have ho : c ∉ C47.latin1Odd := by
        intro h
        simp only [C47.latin1Odd, List.mem_cons, List.not_mem_nil, or_false] at h
        omega
      rw [notOdd_starts ho, notOdd_names ho]
      by_cases hs : c < 0x80
      · have h1 : ∀ c < 128, (((EncId.utf16be.x ns).e.NmstrtChar (be16 c)) ↔
            ((rangeBits nameStart).testBit c = true ∧ ¬ (ns = true ∧ c = 0x3A))) ∧
            (((EncId.utf16be.x ns).e.NameChar (be16 c)) ↔ ((rangeBits nameChar).testBit c = true ∧ ¬ (ns = true ∧ c = 0x3A))) := by
          cases ns <;> decide +kernel
        have := h1 c hs
        simp only [rangeBits_spec] at this
        rw [show encOf .utf16be c = be16 c by rw [encOf, C12.utf16be, utf16, if_pos hc]; simp]
        exact this
      · have := be_bmp ns (c := c) (by omega) hc h
        have h3 : ¬ (ns = true ∧ c = 0x3A) := by omega
        simp only [h3, not_false_eq_true, and_true]
        exact this
    · have h1 := be_high ns (c := c) (by omega) (by have := xmlChar_lt h; omega)
      have h2 := high_ranges (ns := ns) (odd := true) (c := c) (by omega)
      exact ⟨⟨fun h => absurd h h1.1, fun h => absurd h h2.1⟩, ⟨fun h => absurd h h1.2, fun h => absurd h h2.2⟩⟩

/-- Code points that both encodings can represent and take for the same. -/
def Both (i j : EncId) (c : Nat) : Prop := okOf i c ∧ okOf j c ∧ (c ∈ C47.latin1Odd → oddly i = oddly j)

theorem colon_iff (ns : Bool) (i : EncId) : (i.x ns).e.bt (C54.ascOf i 0x3A) = .COLON ↔ ns = true := by
  cases i <;> cases ns <;> decide +kernel

theorem ends_true (ns : Bool) (i : EncId) : (i.x ns).e.lineEnds (C54.ascOf i) = true := by
  cases i <;> cases ns <;> decide +kernel

theorem pair (ns : Bool) (i j : EncId) : Pair (i.x ns) (C54.ascOf i) (encOf i) (j.x ns) (C54.ascOf j) (encOf j) (Both i j) := by
  have asc : ∀ c, XmlChar c → c < 0x80 → Both i j c := by
    intro c h1 h2
    refine ⟨(coding ns i).asciiOk h1 h2, (coding ns j).asciiOk h1 h2, fun h => ?_⟩
    simp only [C47.latin1Odd, List.mem_cons, List.not_mem_nil, or_false] at h
    omega
  refine ⟨(coding ns i).restrict (fun c h => h.1) asc, (coding ns j).restrict (fun c h => h.2.1) asc, ?_, ?_, ?_, ?_⟩
  · intro c h
    rw [(classes ns i h.1).1, (classes ns j h.2.1).1]
    by_cases ho : c ∈ C47.latin1Odd
    · rw [h.2.2 ho]
    · rw [notOdd_starts ho, notOdd_starts ho]
  · intro c h
    rw [(classes ns i h.1).2, (classes ns j h.2.1).2]
    by_cases ho : c ∈ C47.latin1Odd
    · rw [h.2.2 ho]
    · rw [notOdd_names ho, notOdd_names ho]
  · rw [ends_true, ends_true]
  · rw [colon_iff, colon_iff]

end C71

end Verif
