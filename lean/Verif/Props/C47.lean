import Verif.NameTables

/-! C47: name characters are classified per XML 1.0 and alike in every encoding. -/

namespace Verif.C47
open Verif Spec Tables

/-- Classes of one-byte name-start and name characters. -/
def startClass : ByteType → Bool
  | .NMSTRT | .HEX => true
  | _ => false
def nameClass : ByteType → Bool
  | .NMSTRT | .HEX | .DIGIT | .NAME | .MINUS => true
  | _ => false

/-- Not a lead byte nor a class that needs a further test. -/
def plainClass : ByteType → Bool
  | .LEAD2 | .LEAD3 | .LEAD4 | .NONASCII => false
  | _ => true

/-- Whether the one-byte class table `t` (with colon treatment `ns`) agrees with the ranges at the
code points from `n` on, except those in `ex`. -/
def tableOk (ns : Bool) (ex : List Nat) (lim : Nat) : List ByteType → Nat → Bool
  | [], _ => true
  | x :: xs, n =>
    ((lim ≤ n || ex.contains n) ||
      (startClass x == ((rangeBits nameStart).testBit n && !(ns && n == 0x3A)) &&
       nameClass x == ((rangeBits nameChar).testBit n && !(ns && n == 0x3A)) &&
       plainClass x)) &&
    tableOk ns ex lim xs (n + 1)

theorem tableOk_get {ns ex lim} (t : List ByteType) (m : Nat) (h : tableOk ns ex lim t m = true)
    (n : Nat) (k : ByteType) (hk : t[n]? = some k) (hl : m + n < lim) (he : m + n ∉ ex) :
    (startClass k = true ↔ InRanges nameStart (m + n) ∧ ¬ (ns = true ∧ m + n = 0x3A)) ∧
    (nameClass k = true ↔ InRanges nameChar (m + n) ∧ ¬ (ns = true ∧ m + n = 0x3A)) ∧
    plainClass k = true := by
  induction t generalizing m n with
  | nil => simp at hk
  | cons x xs ih =>
    simp only [tableOk, Bool.and_eq_true, Bool.or_eq_true, beq_iff_eq, decide_eq_true_eq] at h
    cases n with
    | zero =>
      simp at hk; subst hk
      have h1 := h.1.resolve_left (by
        rintro (h | h)
        · omega
        · exact he (by simpa using h))
      rw [← rangeBits_spec, ← rangeBits_spec]
      refine ⟨?_, ?_, h1.2⟩
      · rw [h1.1.1]; cases ns <;> simp
      · rw [h1.1.2]; cases ns <;> simp
    | succ n =>
      have := ih (m + 1) h.2 n (by simpa using hk) (by omega) (by rwa [show m + 1 + n = m + (n + 1) by omega])
      rwa [show m + 1 + n = m + (n + 1) by omega] at this

theorem tableBt_get {t : List ByteType} (hl : t.length = 256) {c : Nat} (hc : c < 256) :
    t[c]? = some (tableBt t (UInt8.ofNat c)) := by
  rw [tableBt, toNat_ofNat hc, List.getD, List.getElem?_eq_getElem (by omega)]; rfl

/-- A one-byte character `w` of class table entry. -/
theorem one_iff {e : Enc} {w : Buf} {k : ByteType} (hb : e.bt w = k) (hl : w.length = e.mb)
    (hk : plainClass k = true) :
    (e.NmstrtChar w ↔ startClass k = true) ∧ (e.NameChar w ↔ nameClass k = true) := by
  simp only [Enc.NmstrtChar, Enc.NameChar, hb]
  cases k <;> simp_all [startClass, nameClass, plainClass]

theorem ranges_bmp (c : Nat) (hc : 0x10000 ≤ c) : ¬ InRanges nameChar c ∧ ¬ InRanges nameStart c := by
  have h : ∀ rs : List (Nat × Nat), (rs.all fun r => r.2 < 0x10000) = true → ¬ InRanges rs c := by
    intro rs h
    rintro ⟨r, hr, h1, h2⟩
    have := List.all_eq_true.1 h r hr
    simp at this; omega
  exact ⟨h _ (by decide +kernel), h _ (by decide +kernel)⟩

theorem bt_lead {ns} {c : Nat} :
    (0x80 ≤ c → c < 0x800 → (utf8Enc ns).bt (utf8 c) = .LEAD2) ∧
    (0x800 ≤ c → c < 0x10000 → (utf8Enc ns).bt (utf8 c) = .LEAD3) ∧
    (0x10000 ≤ c → c < 0x110000 → (utf8Enc ns).bt (utf8 c) = .LEAD4) := by
  have h2 : ∀ ns : Bool, ∀ n < 32, 2 ≤ n → tableBt (if ns then utf8EncodingTableNS else utf8EncodingTable)
      (UInt8.ofNat (0xC0 + n)) = .LEAD2 := by
    intro ns; cases ns <;> decide +kernel
  have h3 : ∀ ns : Bool, ∀ n < 16, tableBt (if ns then utf8EncodingTableNS else utf8EncodingTable)
      (UInt8.ofNat (0xE0 + n)) = .LEAD3 := by
    intro ns; cases ns <;> decide +kernel
  have h4 : ∀ ns : Bool, ∀ n < 5, tableBt (if ns then utf8EncodingTableNS else utf8EncodingTable)
      (UInt8.ofNat (0xF0 + n)) = .LEAD4 := by
    intro ns; cases ns <;> decide +kernel
  refine ⟨fun h1 h5 => ?_, fun h1 h5 => ?_, fun h1 h5 => ?_⟩
  · rw [utf8, if_neg (by omega), if_pos h5]
    exact h2 ns (c / 64) (by omega) (by omega)
  · rw [utf8, if_neg (by omega), if_neg (by omega), if_pos h5]
    exact h3 ns (c / 4096) (by omega)
  · rw [utf8, if_neg (by omega), if_neg (by omega), if_neg (by omega)]
    exact h4 ns (c / 262144) (by omega)

/-- C47, UTF-8: for every Unicode scalar value `c`, the tokenizer takes its UTF-8 form for a
name (start) character exactly when production [4]/[5] of XML 1.0 does; with namespace processing
the colon is set apart. -/
theorem utf8_names (ns : Bool) (c : Nat) (hc : c < 0x110000) :
    ((utf8Enc ns).NmstrtChar (utf8 c) ↔ InRanges nameStart c ∧ ¬ (ns = true ∧ c = 0x3A)) ∧
    ((utf8Enc ns).NameChar (utf8 c) ↔ InRanges nameChar c ∧ ¬ (ns = true ∧ c = 0x3A)) := by
  by_cases h1 : c < 0x80
  · have hw : utf8 c = [UInt8.ofNat c] := by rw [utf8, if_pos h1]
    have ht : ∀ ns : Bool, tableOk ns [] 0x80 (if ns then utf8EncodingTableNS else utf8EncodingTable) 0
        = true := by intro ns; cases ns <;> decide +kernel
    have := tableOk_get _ 0 (ht ns) c _ (tableBt_get (by cases ns <;> decide +kernel) (by omega))
      (by omega) (by simp)
    rw [hw]
    obtain ⟨i1, i2⟩ := one_iff (e := utf8Enc ns) (w := [UInt8.ofNat c]) rfl rfl this.2.2
    rw [Nat.zero_add] at this
    rw [i1, i2]
    exact ⟨this.1, this.2.1⟩
  have hn : ¬ (ns = true ∧ c = 0x3A) := by omega
  simp only [hn, not_false_eq_true, and_true]
  by_cases h2 : c < 0x800
  · have hb := (bt_lead (ns := ns) (c := c)).1 (by omega) h2
    have hw : utf8 c = [UInt8.ofNat (0xC0 + c / 64), UInt8.ofNat (0x80 + c % 64)] := by
      rw [utf8, if_neg h1, if_pos h2]
    have g : ∀ pages, utf8Naming pages 2 (utf8 c) = ucs2Naming pages (c / 256) (c % 256) := by
      intro pages
      rw [hw, ← utf8Naming2_eq pages c h2]
      simp only [utf8Naming, byteAt, List.getD_cons_zero, List.getD_cons_succ,
        toNat_ofNat (show 0xC0 + c / 64 < 256 by omega),
        toNat_ofNat (show 0x80 + c % 64 < 256 by omega)]
    have e1 : 256 * (c / 256) + c % 256 = c := Nat.div_add_mod c 256
    have n1 := nmstrt_ucs2 (c / 256) (c % 256) (by omega) (by omega)
    have n2 := name_ucs2 (c / 256) (c % 256) (by omega) (by omega)
    rw [e1] at n1 n2
    simp only [Enc.NmstrtChar, Enc.NameChar, hb]
    rw [← n1, ← n2, ← g, ← g]
    have hl : (utf8 c).length = 2 := by rw [hw]; rfl
    simp only [hl, true_and]
    exact ⟨Iff.rfl, Iff.rfl⟩
  by_cases h3 : c < 0x10000
  · have hb := (bt_lead (ns := ns) (c := c)).2.1 (by omega) h3
    have hw : utf8 c = [UInt8.ofNat (0xE0 + c / 4096), UInt8.ofNat (0x80 + c / 64 % 64),
        UInt8.ofNat (0x80 + c % 64)] := by
      rw [utf8, if_neg h1, if_neg h2, if_pos h3]
    have g : ∀ pages, utf8Naming pages 3 (utf8 c) = ucs2Naming pages (c / 256) (c % 256) := by
      intro pages
      rw [hw, ← utf8Naming3_eq pages c h3]
      simp only [utf8Naming, byteAt, List.getD_cons_zero, List.getD_cons_succ,
        toNat_ofNat (show 0xE0 + c / 4096 < 256 by omega),
        toNat_ofNat (show 0x80 + c / 64 % 64 < 256 by omega),
        toNat_ofNat (show 0x80 + c % 64 < 256 by omega)]
    have e1 : 256 * (c / 256) + c % 256 = c := Nat.div_add_mod c 256
    have n1 := nmstrt_ucs2 (c / 256) (c % 256) (by omega) (by omega)
    have n2 := name_ucs2 (c / 256) (c % 256) (by omega) (by omega)
    rw [e1] at n1 n2
    simp only [Enc.NmstrtChar, Enc.NameChar, hb]
    rw [← n1, ← n2, ← g, ← g]
    have hl : (utf8 c).length = 3 := by rw [hw]; rfl
    simp only [hl, true_and]
    exact ⟨Iff.rfl, Iff.rfl⟩
  · have hb := (bt_lead (ns := ns) (c := c)).2.2 (by omega) hc
    have hr := ranges_bmp c (by omega)
    simp only [Enc.NmstrtChar, Enc.NameChar, hb, hr.1, hr.2, iff_false, not_and]
    exact ⟨fun _ => Bool.false_ne_true, fun _ => Bool.false_ne_true⟩

/-- The code points at which the Latin-1 class table departs from the specification: the letters
U+00AA, U+00B5, U+00BA are name characters for the tokenizer but not for XML 1.0 (4th ed.). -/
def latin1Odd : List Nat := [0xAA, 0xB5, 0xBA]

theorem latin1_tables (ns : Bool) :
    tableOk ns latin1Odd 0x100 (if ns then latin1EncodingTableNS else latin1EncodingTable) 0 = true := by
  cases ns <;> decide +kernel

/-- C47, UTF-16LE, for the basic plane without surrogates, except the three letters above. -/
theorem utf16le_names_partial (ns : Bool) (c : Nat) (hc : c < 0x10000) (hs : Scalar c)
    (hx : c ≠ 0xFFFE ∧ c ≠ 0xFFFF) (hodd : c ∉ latin1Odd) :
    ((little2Enc ns).NmstrtChar (le16 c) ↔ InRanges nameStart c ∧ ¬ (ns = true ∧ c = 0x3A)) ∧
    ((little2Enc ns).NameChar (le16 c) ↔ InRanges nameChar c ∧ ¬ (ns = true ∧ c = 0x3A)) := by
  have b0 : byteAt (le16 c) 0 = UInt8.ofNat (c % 256) := rfl
  have b1 : byteAt (le16 c) 1 = UInt8.ofNat (c / 256) := rfl
  by_cases h0 : c < 256
  · have hb : (little2Enc ns).bt (le16 c) =
        tableBt (if ns then latin1EncodingTableNS else latin1EncodingTable) (UInt8.ofNat c) := by
      show (if byteAt (le16 c) 1 = 0 then _ else _) = _
      rw [if_pos (by rw [b1, show c / 256 = 0 by omega]; rfl), b0, Nat.mod_eq_of_lt h0]
    have := tableOk_get _ 0 (latin1_tables ns) c _
      (tableBt_get (by cases ns <;> decide +kernel) h0) (by omega) (by simpa using hodd)
    obtain ⟨i1, i2⟩ := one_iff hb rfl this.2.2
    rw [Nat.zero_add] at this
    rw [i1, i2]
    exact ⟨this.1, this.2.1⟩
  · have hb : (little2Enc ns).bt (le16 c) = .NONASCII := by
      show (if byteAt (le16 c) 1 = 0 then _ else _) = _
      have hne : byteAt (le16 c) 1 ≠ 0 := by
        rw [b1]; intro h
        have := congrArg UInt8.toNat h
        rw [toNat_ofNat (by omega)] at this
        simp at this; omega
      rw [if_neg hne, b0, b1, unicodeByteType]
      simp only [Scalar] at hs
      have i1 : ∀ n : Nat, n < 256 → ∀ m : Nat, m < 256 →
          (UInt8.ofNat n ≤ UInt8.ofNat m ↔ n ≤ m) := by
        intro n hn m hm
        rw [UInt8.le_iff_toNat_le, toNat_ofNat hn, toNat_ofNat hm]
      have i2 : ∀ n : Nat, n < 256 → ∀ m : Nat, m < 256 → (UInt8.ofNat n = UInt8.ofNat m ↔ n = m) :=
        fun n hn m hm => ⟨fun h => ofNat_toNat_eq hn h hm, fun h => by rw [h]⟩
      rw [if_neg, if_neg, if_neg]
      · rw [show (255 : UInt8) = UInt8.ofNat 255 from rfl, show (254 : UInt8) = UInt8.ofNat 254 from rfl,
          i2 _ (by omega) _ (by omega), i2 _ (by omega) _ (by omega), i2 _ (by omega) _ (by omega)]
        omega
      · rw [show (220 : UInt8) = UInt8.ofNat 220 from rfl, show (223 : UInt8) = UInt8.ofNat 223 from rfl,
          i1 _ (by omega) _ (by omega), i1 _ (by omega) _ (by omega)]
        omega
      · rw [show (216 : UInt8) = UInt8.ofNat 216 from rfl, show (219 : UInt8) = UInt8.ofNat 219 from rfl,
          i1 _ (by omega) _ (by omega), i1 _ (by omega) _ (by omega)]
        omega
    have hn : ¬ (ns = true ∧ c = 0x3A) := by omega
    have e1 : 256 * (c / 256) + c % 256 = c := Nat.div_add_mod c 256
    have n1 := nmstrt_ucs2 (c / 256) (c % 256) (by omega) (by omega)
    have n2 := name_ucs2 (c / 256) (c % 256) (by omega) (by omega)
    rw [e1] at n1 n2
    simp only [Enc.NmstrtChar, Enc.NameChar, hb, hn, not_false_eq_true, and_true, ← n1, ← n2]
    have g1 : (little2Enc ns).isNmstrtMin (le16 c) = ucs2Naming nmstrtPages (c / 256) (c % 256) := by
      show ucs2Naming _ (byteAt (le16 c) 1).toNat (byteAt (le16 c) 0).toNat = _
      rw [b0, b1, toNat_ofNat (by omega), toNat_ofNat (by omega)]
    have g2 : (little2Enc ns).isNameMin (le16 c) = ucs2Naming namePages (c / 256) (c % 256) := by
      show ucs2Naming _ (byteAt (le16 c) 1).toNat (byteAt (le16 c) 0).toNat = _
      rw [b0, b1, toNat_ofNat (by omega), toNat_ofNat (by omega)]
    rw [g1, g2]
    exact ⟨⟨fun h => h.2, fun h => ⟨rfl, h⟩⟩, ⟨fun h => h.2, fun h => ⟨rfl, h⟩⟩⟩

/-- C47: UTF-8 and UTF-16LE agree on every character of the basic plane but three. -/
theorem encodings_agree_partial (ns : Bool) (c : Nat) (hc : c < 0x10000) (hs : Scalar c)
    (hx : c ≠ 0xFFFE ∧ c ≠ 0xFFFF) (hodd : c ∉ latin1Odd) :
    ((little2Enc ns).NmstrtChar (le16 c) ↔ (utf8Enc ns).NmstrtChar (utf8 c)) ∧
    ((little2Enc ns).NameChar (le16 c) ↔ (utf8Enc ns).NameChar (utf8 c)) := by
  have h1 := utf16le_names_partial ns c hc hs hx hodd
  have h2 := utf8_names ns c (by omega)
  exact ⟨h1.1.trans h2.1.symm, h1.2.trans h2.2.symm⟩

/-- The exception is real: U+00AA may begin a name in a UTF-16 or Latin-1 document but not in a
UTF-8 one, so C47 as stated is false of the code. -/
theorem encodings_disagree :
    (little2Enc false).NmstrtChar (le16 0xAA) ∧ (latin1Enc false).NmstrtChar [0xAA] ∧
      ¬ (utf8Enc false).NmstrtChar (utf8 0xAA) ∧ ¬ InRanges nameStart 0xAA := by
  refine ⟨by decide +kernel, by decide +kernel, by decide +kernel, ?_⟩
  rw [← rangeBits_spec]; decide +kernel

/-- C47: every name-start character is a name character. -/
theorem start_is_name (c : Nat) (h : InRanges nameStart c) : InRanges nameChar c := by
  obtain ⟨r, hr, h1⟩ := h
  exact ⟨r, by simp only [nameChar, List.mem_append]; exact .inl (.inl (.inl (.inl hr))), h1⟩

/-! Non-vacuity: U+3042 (HIRAGANA A) starts a name, U+0301 is only a name character. -/
example : (utf8Enc true).NmstrtChar (utf8 0x3042) := by decide +kernel
example : (utf8Enc true).NameChar (utf8 0x301) ∧ ¬ (utf8Enc true).NmstrtChar (utf8 0x301) := by
  constructor <;> decide +kernel

end Verif.C47
