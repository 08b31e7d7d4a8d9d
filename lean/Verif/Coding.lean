import Verif.Props.C27

/-! Texts as strings of code points in one of the encodings. -/

set_option autoImplicit false

namespace Verif
open C43 C53 Spec Tables

/-- The encoding `x` represents the code point `c` as the bytes `enc c`, for the code points `ok`. -/
structure Coding (x : XEnc) (asc : UInt8 → Buf) (enc : Nat → Buf) (ok : Nat → Prop) : Prop where
  sup : XSupported x asc
  xml {c : Nat} : ok c → XmlChar c
  char {c : Nat} : ok c → x.e.IsChar (enc c)
  conv {cs : List Nat} : (∀ c ∈ cs, ok c) → converted x (C12.text enc cs) = utf8s cs
  ascii (c : UInt8) : c < 0x80 → enc c.toNat = asc c
  asciiOk {c : Nat} : XmlChar c → c < 0x80 → ok c

theorem utf8_asc (c : UInt8) (h : c < 0x80) : utf8 c.toNat = [c] := by
  have h : c.toNat < 0x80 := h
  rw [utf8, if_pos h]; simp

theorem utf8_ne_nil (c : Nat) : utf8 c ≠ [] := by rw [utf8]; split <;> (try split) <;> (try split) <;> simp

theorem utf8_single {c : Nat} {d : UInt8} (h : utf8 c = [d]) : c = d.toNat := by
  rw [utf8] at h
  split at h
  · simp only [List.cons.injEq, and_true] at h
    rw [← h]; exact (toNat_ofNat (by omega)).symm
  · split at h
    · simp at h
    · split at h <;> simp at h

theorem byte1_ascii (c : UInt8) : C12.byte1 c.toNat = [c] := by simp [C12.byte1]

/-- UTF-8: all characters. -/
theorem Coding.utf8 (ns : Bool) : Coding (utf8X ns) asc1 Spec.utf8 XmlChar where
  sup := .utf8 ns
  xml h := h
  char {c} h := (utf8Enc_isChar ns _).2 ⟨c, h, rfl⟩
  conv h := C14.converted_faithful C12.utf8_faithful utf8_ne_nil _ fun c hc => scalar_of_xml (h c hc)
  ascii c h := utf8_asc c h
  asciiOk h _ := h

/-- The internal encoding of replacement texts. -/
theorem Coding.internal (ns : Bool) : Coding (internalUtf8X ns) asc1 Spec.utf8 XmlChar where
  sup := .internalUtf8 ns
  xml h := h
  char {c} h := (internalUtf8Enc_isChar ns _).2 ⟨c, h, rfl⟩
  conv h := C14.converted_faithful C12.utf8_faithful utf8_ne_nil _ fun c hc => scalar_of_xml (h c hc)
  ascii c h := utf8_asc c h
  asciiOk h _ := h

/-- ISO 8859-1: the characters below U+0100. -/
theorem Coding.latin1 (ns : Bool) : Coding (latin1X ns) asc1 C12.byte1 fun c => XmlChar c ∧ c < 256 where
  sup := .latin1 ns
  xml h := h.1
  char {c} h := by
    have : ∀ c < 256, XmlChar c → (latin1X ns).e.IsChar (C12.byte1 c) := by cases ns <;> decide +kernel
    exact this c h.2 h.1
  conv h := C14.converted_faithful C12.latin1_faithful (by simp [C12.byte1]) _ fun c hc => (h c hc).2
  ascii c h := byte1_ascii c
  asciiOk h h1 := ⟨h, by omega⟩

/-- US-ASCII. -/
theorem Coding.ascii' (ns : Bool) : Coding (asciiX ns) asc1 C12.byte1 fun c => XmlChar c ∧ c < 128 where
  sup := .ascii ns
  xml h := h.1
  char {c} h := by
    have : ∀ c < 128, XmlChar c → (asciiX ns).e.IsChar (C12.byte1 c) := by cases ns <;> decide +kernel
    exact this c h.2 h.1
  conv h := C14.converted_faithful C12.ascii_faithful (by simp [C12.byte1]) _ fun c hc => (h c hc).2
  ascii c h := byte1_ascii c
  asciiOk h h1 := ⟨h, h1⟩

theorem le16_ascii (c : UInt8) : le16 c.toNat = ascL c := by
  have := c.toNat_lt
  simp only [le16, ascL]
  rw [Nat.mod_eq_of_lt (by omega), Nat.div_eq_of_lt (by omega)]; simp

theorem be16_ascii (c : UInt8) : be16 c.toNat = ascB c := by
  have := c.toNat_lt
  simp only [be16, ascB]
  rw [Nat.mod_eq_of_lt (by omega), Nat.div_eq_of_lt (by omega)]; simp

theorem unicodeByteType_bmp {h l : UInt8} (h1 : ¬ (216 ≤ h.toNat ∧ h.toNat ≤ 223)) (h2 : ¬ (h = 255 ∧ (l = 255 ∨ l = 254))) :
    unicodeByteType h l = .NONASCII := by
  rw [unicodeByteType, if_neg, if_neg, if_neg h2]
  · rintro ⟨a, b⟩; exact h1 ⟨Nat.le_trans (by decide) (UInt8.le_iff_toNat_le.1 a), UInt8.le_iff_toNat_le.1 b⟩
  · rintro ⟨a, b⟩; exact h1 ⟨UInt8.le_iff_toNat_le.1 a, Nat.le_trans (UInt8.le_iff_toNat_le.1 b) (by decide)⟩

theorem unicodeByteType_lead {h l : UInt8} (h1 : 216 ≤ h.toNat) (h2 : h.toNat ≤ 219) : unicodeByteType h l = .LEAD4 := by
  rw [unicodeByteType, if_pos ⟨UInt8.le_iff_toNat_le.2 h1, UInt8.le_iff_toNat_le.2 h2⟩]

theorem le_pair (ns : Bool) {hi : Nat} (lo : Nat) (h1 : 216 ≤ hi / 256) (h2 : hi / 256 ≤ 219) :
    (little2X ns).e.IsChar (le16 hi ++ le16 lo) := by
  have n1 : (UInt8.ofNat (hi / 256)).toNat = hi / 256 := toNat_ofNat (by omega)
  have hb : (little2X ns).e.bt (le16 hi ++ le16 lo) = .LEAD4 := by
    show (if UInt8.ofNat (hi / 256) = 0 then _ else unicodeByteType (UInt8.ofNat (hi / 256)) (UInt8.ofNat (hi % 256))) = _
    rw [if_neg]
    · exact unicodeByteType_lead (by omega) (by omega)
    · intro a; have a := congrArg UInt8.toNat a; rw [n1] at a; have a : hi / 256 = 0 := a; omega
  simp only [Enc.IsChar, hb]
  exact ⟨rfl, rfl⟩

theorem be_pair (ns : Bool) {hi : Nat} (lo : Nat) (h1 : 216 ≤ hi / 256) (h2 : hi / 256 ≤ 219) :
    (big2X ns).e.IsChar (be16 hi ++ be16 lo) := by
  have n1 : (UInt8.ofNat (hi / 256)).toNat = hi / 256 := toNat_ofNat (by omega)
  have hb : (big2X ns).e.bt (be16 hi ++ be16 lo) = .LEAD4 := by
    show (if UInt8.ofNat (hi / 256) = 0 then _ else some (unicodeByteType (UInt8.ofNat (hi / 256)) (UInt8.ofNat (hi % 256)))).getD _ = _
    rw [if_neg]
    · exact unicodeByteType_lead (by omega) (by omega)
    · intro a; have a := congrArg UInt8.toNat a; rw [n1] at a; have a : hi / 256 = 0 := a; omega
  simp only [Enc.IsChar, hb]
  exact ⟨rfl, rfl⟩

/-- UTF-16, low byte first: all characters. -/
theorem Coding.utf16le (ns : Bool) : Coding (little2X ns) ascL C12.utf16le XmlChar where
  sup := .utf16le ns
  xml h := h
  char {c} h := by
    have small : ∀ c < 256, XmlChar c → (little2X ns).e.IsChar (le16 c) := by cases ns <;> decide +kernel
    rw [C12.utf16le, utf16]
    split
    · rename_i hc
      by_cases hs : c < 256
      · simpa using small c hs h
      · have hb : (little2X ns).e.bt (le16 c) = .NONASCII := by
          have e1 : byteAt (le16 c) 1 = UInt8.ofNat (c / 256) := rfl
          have e0 : byteAt (le16 c) 0 = UInt8.ofNat (c % 256) := rfl
          have n1 : (UInt8.ofNat (c / 256)).toNat = c / 256 := toNat_ofNat (by omega)
          have n0 : (UInt8.ofNat (c % 256)).toNat = c % 256 := toNat_ofNat (by omega)
          show (if byteAt (le16 c) 1 = 0 then _ else unicodeByteType (byteAt (le16 c) 1) (byteAt (le16 c) 0)) = _
          rw [if_neg, e1, e0]
          · refine unicodeByteType_bmp ?_ ?_
            · rw [n1]; simp only [XmlChar] at h; omega
            · rintro ⟨a, b⟩
              have a := congrArg UInt8.toNat a
              rw [n1] at a
              have : c % 256 = 255 ∨ c % 256 = 254 := by
                rcases b with b | b
                · left; have b := congrArg UInt8.toNat b; rw [n0] at b; exact b
                · right; have b := congrArg UInt8.toNat b; rw [n0] at b; exact b
              have a : c / 256 = 255 := a
              simp only [XmlChar] at h; omega
          · rw [e1]; intro a; have a := congrArg UInt8.toNat a; rw [n1] at a; have a : c / 256 = 0 := a; omega
        simp only [Enc.IsChar, List.map_cons, List.map_nil, List.flatten_cons, List.flatten_nil, List.append_nil, hb]
        rfl
    · rename_i hc
      have hu : c < 0x110000 := by simp only [XmlChar] at h; omega
      simp only [List.map_cons, List.map_nil, List.flatten_cons, List.flatten_nil, List.append_nil]
      exact le_pair ns _ (by omega) (by omega)
  conv h := C14.converted_faithful C12.utf16le_faithful (C12.utf16_ne _ fun _ => rfl) _ fun c hc => scalar_of_xml (h c hc)
  ascii c h := by
    have : c.toNat < 0x80 := h
    rw [C12.utf16le, utf16, if_pos (by omega)]; simpa using le16_ascii c
  asciiOk h _ := h

/-- UTF-16, high byte first: all characters but U+0080 - U+00FF, where the code panics (C13). -/
theorem Coding.utf16be (ns : Bool) : Coding (big2X ns) ascB C12.utf16be fun c => XmlChar c ∧ ¬ (0x80 ≤ c ∧ c < 0x100) where
  sup := .utf16be ns
  xml h := h.1
  char {c} h' := by
    obtain ⟨h, h80⟩ := h'
    have small : ∀ c < 128, XmlChar c → (big2X ns).e.IsChar (be16 c) := by cases ns <;> decide +kernel
    rw [C12.utf16be, utf16]
    split
    · rename_i hc
      by_cases hs : c < 256
      · simpa using small c (by omega) h
      · have hb : (big2X ns).e.bt (be16 c) = .NONASCII := by
          have e1 : byteAt (be16 c) 0 = UInt8.ofNat (c / 256) := rfl
          have e0 : byteAt (be16 c) 1 = UInt8.ofNat (c % 256) := rfl
          have n1 : (UInt8.ofNat (c / 256)).toNat = c / 256 := toNat_ofNat (by omega)
          have n0 : (UInt8.ofNat (c % 256)).toNat = c % 256 := toNat_ofNat (by omega)
          show (if byteAt (be16 c) 0 = 0 then _ else some (unicodeByteType (byteAt (be16 c) 0) (byteAt (be16 c) 1))).getD _ = _
          rw [if_neg, e1, e0]
          · refine unicodeByteType_bmp ?_ ?_
            · rw [n1]; simp only [XmlChar] at h; omega
            · rintro ⟨a, b⟩
              have a := congrArg UInt8.toNat a
              rw [n1] at a
              have : c % 256 = 255 ∨ c % 256 = 254 := by
                rcases b with b | b
                · left; have b := congrArg UInt8.toNat b; rw [n0] at b; exact b
                · right; have b := congrArg UInt8.toNat b; rw [n0] at b; exact b
              have a : c / 256 = 255 := a
              simp only [XmlChar] at h; omega
          · rw [e1]; intro a; have a := congrArg UInt8.toNat a; rw [n1] at a; have a : c / 256 = 0 := a; omega
        simp only [Enc.IsChar, List.map_cons, List.map_nil, List.flatten_cons, List.flatten_nil, List.append_nil, hb]
        rfl
    · rename_i hc
      have hu : c < 0x110000 := by simp only [XmlChar] at h; omega
      simp only [List.map_cons, List.map_nil, List.flatten_cons, List.flatten_nil, List.append_nil]
      exact be_pair ns _ (by omega) (by omega)
  conv h := C14.converted_faithful C12.utf16be_faithful (C12.utf16_ne _ fun _ => rfl) _ fun c hc => scalar_of_xml (h c hc).1
  ascii c h := by
    have : c.toNat < 0x80 := h
    rw [C12.utf16be, utf16, if_pos (by omega)]; simpa using be16_ascii c
  asciiOk h h1 := ⟨h, by omega⟩

namespace Coding
variable {x : XEnc} {asc : UInt8 → Buf} {enc : Nat → Buf} {ok : Nat → Prop} (K : Coding x asc enc ok)
include K

theorem conv1 {c : Nat} (h : ok c) : converted x (enc c) = Spec.utf8 c := by
  have := K.conv (cs := [c]) (by simpa using h)
  simpa [C12.text, utf8s] using this

theorem chars {cs : List Nat} (h : ∀ c ∈ cs, ok c) : x.e.Chars (cs.map enc) := by
  intro w hw
  obtain ⟨c, hc, rfl⟩ := List.mem_map.1 hw
  exact K.char (h c hc)

/-- Only an ASCII character is written like it. -/
theorem eq_asc {c : Nat} (hc : ok c) {d : UInt8} (hd : d < 0x80) (hx : XmlChar d.toNat) (h : enc c = asc d) : c = d.toNat := by
  rw [← K.ascii d hd] at h
  have h2 := congrArg (converted x) h
  rw [K.conv1 hc, K.conv1 (K.asciiOk hx hd), utf8_asc d hd] at h2
  exact utf8_single h2

theorem ne_asc {c : Nat} (hc : ok c) {d : UInt8} (hd : d < 0x80) (hx : XmlChar d.toNat) (h : c ≠ d.toNat) : enc c ≠ asc d :=
  fun h1 => h (K.eq_asc hc hd hx h1)

theorem spell_eq {ds : List UInt8} (h : ∀ d ∈ ds, d < 0x80) : C12.text enc (ds.map UInt8.toNat) = spell asc ds := by
  induction ds with
  | nil => rfl
  | cons d ds ih =>
    simp only [List.mem_cons, forall_eq_or_imp] at h
    have := ih h.2
    simp only [C12.text, spell, List.map_cons, List.flatten_cons, K.ascii d h.1] at this ⊢
    rw [this]

theorem dvd {cs : List Nat} (h : ∀ c ∈ cs, ok c) : x.e.mb ∣ (C12.text enc cs).length := by
  induction cs with
  | nil => exact Nat.dvd_zero _
  | cons c cs ih =>
    simp only [List.mem_cons, forall_eq_or_imp] at h
    rw [C12.text, List.map_cons, List.flatten_cons, List.length_append]
    exact Nat.dvd_add (K.sup.s.dvd (K.char h.1)) (ih h.2)

end Coding

end Verif
