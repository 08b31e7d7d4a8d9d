import Verif.Coding

/-! What the conversions produce: the UTF-8 form of XML characters, for every character the tokenizers accept. -/

set_option autoImplicit false

namespace Verif
open C43 C53 Spec Tables

theorem table_legal : ∀ c : UInt8, ∀ ns : Bool,
    (tableBt (if ns then latin1EncodingTableNS else latin1EncodingTable) c ≠ .NONXML → XmlChar c.toNat) ∧
      (tableBt (if ns then asciiEncodingTableNS else asciiEncodingTable) c ≠ .NONXML → XmlChar c.toNat ∧ c.toNat < 128) := by
  intro c; revert c; exact UInt8.forall_dec (by decide +kernel)

theorem unicode_legal (h l : UInt8) (h0 : h ≠ 0) (h1 : unicodeByteType h l ≠ .NONXML) (h2 : unicodeByteType h l ≠ .LEAD4)
    (h3 : unicodeByteType h l ≠ .TRAIL) : XmlChar (h.toNat * 256 + l.toNat) := by
  rw [unicodeByteType] at h1 h2 h3
  have hl := l.toNat_lt
  have hh := h.toNat_lt
  have hz : h.toNat ≠ 0 := fun hz => h0 (UInt8.toNat_inj.1 hz)
  split at h1
  · rename_i g; rw [if_pos g] at h2; exact absurd rfl h2
  · rename_i g
    rw [if_neg g] at h2 h3
    split at h1
    · rename_i g; rw [if_pos g] at h3; exact absurd rfl h3
    · rename_i g'
      split at h1
      · exact absurd rfl h1
      · rename_i g2
        have g : ¬ (216 ≤ h.toNat ∧ h.toNat ≤ 219) := fun ⟨a, b⟩ => g ⟨UInt8.le_iff_toNat_le.2 a, UInt8.le_iff_toNat_le.2 b⟩
        have g' : ¬ (220 ≤ h.toNat ∧ h.toNat ≤ 223) := fun ⟨a, b⟩ => g' ⟨UInt8.le_iff_toNat_le.2 a, UInt8.le_iff_toNat_le.2 b⟩
        have g2 : ¬ (h.toNat = 255 ∧ (l.toNat = 255 ∨ l.toNat = 254)) := by
          rintro ⟨a, b⟩
          exact g2 ⟨UInt8.toNat_inj.1 a, b.imp (fun b => UInt8.toNat_inj.1 b) fun b => UInt8.toNat_inj.1 b⟩
        unfold XmlChar
        omega

/-- One character of UTF-16; the second half of a pair need not be one. -/
theorem utf16_legal {hi lo : Buf → Nat} {w : Buf} (hh : hi w < 256) (hl : lo w < 256) (hh2 : hi (w.drop 2) < 256) (hl2 : lo (w.drop 2) < 256)
    (h : w.length = 2 ∧ XmlChar (hi w * 256 + lo w) ∨ w.length = 4 ∧ 216 ≤ hi w ∧ hi w ≤ 219) :
    ∃ c, XmlChar c ∧ (convLoop (utf16ConvStep hi lo) w (4 * w.length + 4)).out = utf8 c := by
  have hne : w ≠ [] := by rintro rfl; simp at h
  rcases h with ⟨h, hx⟩ | ⟨h, h1, h2⟩
  · refine ⟨_, hx, loop1 (k := 1) hne ?_ (by omega)⟩
    have e := C12.utf16_step (fun b => (byteAt b 1).toNat) (fun b => (byteAt b 0).toNat) le16 (fun _ => rfl)
      (fun u hu r => by simp [le16, byteAt]; omega) (fun u hu r => by simp [le16, byteAt])
      (hi w * 256 + lo w) (scalar_of_xml hx) [] (4 * w.length + 4)
    have hb : hi w * 256 + lo w < 0x10000 := by omega
    have e1 : ((utf16 (hi w * 256 + lo w)).map le16).flatten ++ [] = le16 (hi w * 256 + lo w) := by
      rw [utf16, if_pos hb]; simp
    have e2 : ((utf16 (hi w * 256 + lo w)).map le16).flatten.length = 2 := by rw [utf16, if_pos hb]; rfl
    have e3 : (byteAt (le16 (hi w * 256 + lo w)) 1).toNat = hi w := by simp [le16, byteAt]; omega
    have e4 : (byteAt (le16 (hi w * 256 + lo w)) 0).toNat = lo w := by simp [le16, byteAt]; omega
    have e5 : (utf8 (hi w * 256 + lo w)).length ≤ 4 := by
      rw [utf8]; (repeat' split) <;> simp
    rw [e1, e2, if_neg (by omega)] at e
    rw [← e]
    have n : ¬ (216 ≤ hi w ∧ hi w ≤ 219) := by unfold XmlChar at hx; omega
    simp only [utf16ConvStep, e3, e4, if_neg n]
  · have hm : 220 ≤ 220 + hi (w.drop 2) % 4 ∧ 220 + hi (w.drop 2) % 4 ≤ 223 := by omega
    have hb := C12.bits_sup (hi w) (lo w) (220 + hi (w.drop 2) % 4) (lo (w.drop 2)) ⟨h1, h2⟩ hl hm hl2 _ rfl
    generalize hc : 0x10000 + ((hi w - 216) * 256 + lo w) * 1024 + ((220 + hi (w.drop 2) % 4 - 220) * 256 + lo (w.drop 2)) = c at hb
    have hx : XmlChar c := by unfold XmlChar; omega
    refine ⟨c, hx, loop1 (k := 3) hne ?_ (by omega)⟩
    have e3 : (220 + hi (w.drop 2) % 4) &&& 3 = hi (w.drop 2) &&& 3 := by
      rw [show (220 + hi (w.drop 2) % 4) &&& 3 = (220 + hi (w.drop 2) % 4) % 4 from Nat.and_two_pow_sub_one_eq_mod _ 2,
        show hi (w.drop 2) &&& 3 = hi (w.drop 2) % 4 from Nat.and_two_pow_sub_one_eq_mod _ 2]
      omega
    simp only [e3] at hb
    simp only [utf16ConvStep]
    rw [if_neg (by omega), if_pos ⟨h1, h2⟩, if_neg (by omega), if_neg (by omega), hb, utf8, if_neg (by omega), if_neg (by omega), if_neg (by omega)]

/-- Every character that the tokenizers accept is converted to the UTF-8 form of an XML character. -/
theorem conv_legal {x : XEnc} {asc : UInt8 → Buf} (s : XSupported x asc) {w : Buf} (hw : x.e.IsChar w) :
    ∃ c, XmlChar c ∧ converted x w = utf8 c := by
  cases s with
  | utf8 ns =>
    have h1 := (utf8Enc_isChar ns w).1 hw
    obtain ⟨c, h2, h3⟩ := id h1
    exact ⟨c, h2, by simp only [converted, utf8X]; rw [utf8_id h1, h3]⟩
  | internalUtf8 ns =>
    have h1 := (internalUtf8Enc_isChar ns w).1 hw
    obtain ⟨c, h2, h3⟩ := id h1
    exact ⟨c, h2, by simp only [converted, internalUtf8X]; rw [utf8_id h1, h3]⟩
  | latin1 ns =>
    obtain ⟨c, hc, rfl⟩ : ∃ c : UInt8, XmlChar c.toNat ∧ w = [c] := by
      have hl := Enc.isChar_len (e := latin1Enc ns) (show (1 : Nat) ≤ 2 by omega) hw
      cases w with
      | nil => exact absurd hl (by change ¬ (1 : Nat) ≤ 0; omega)
      | cons a w =>
        have t1 := table16 a ns
        have t2 := (table_legal a ns).1
        have hb : (latin1X ns).e.bt (a :: w) = tableBt (if ns then latin1EncodingTableNS else latin1EncodingTable) a := rfl
        have hmb : (latin1X ns).e.mb = 1 := rfl
        simp only [Enc.IsChar, hb] at hw
        refine ⟨a, t2 ?_, ?_⟩
        · intro h; rw [h] at hw; exact hw
        · generalize tableBt (if ns then latin1EncodingTableNS else latin1EncodingTable) a = t at *
          cases t <;> simp_all
    exact ⟨_, hc, by simpa [byte1_ascii] using (Coding.latin1 ns).conv1 (c := c.toNat) ⟨hc, c.toNat_lt⟩⟩
  | ascii ns =>
    obtain ⟨c, hc, rfl⟩ : ∃ c : UInt8, (XmlChar c.toNat ∧ c.toNat < 128) ∧ w = [c] := by
      obtain ⟨o, ho⟩ := ascii_charStep ns w hw
      have hl := Enc.isChar_len (e := asciiEnc ns) (show (1 : Nat) ≤ 2 by omega) hw
      change 1 ≤ w.length at hl
      have h1 := ho [] (4 * w.length + 4) (by omega)
      have hwl : w.length = 1 := by
        rw [asciiConvStep] at h1
        repeat' split at h1
        all_goals first | cases h1; done | (injection h1 with _ h1; omega)
      obtain ⟨a, rfl⟩ := List.length_eq_one_iff.1 hwl
      refine ⟨a, (table_legal a ns).2 ?_, rfl⟩
      intro h
      have hb : (asciiX ns).e.bt [a] = tableBt (if ns then asciiEncodingTableNS else asciiEncodingTable) a := rfl
      simp only [Enc.IsChar, hb, h] at hw
    exact ⟨_, hc.1, by simpa [byte1_ascii] using (Coding.ascii' ns).conv1 (c := c.toNat) hc⟩
  | utf16le ns =>
    have hL := little2_lead ns w
    have hmb : (little2X ns).e.mb = 2 := rfl
    have hb : (little2X ns).e.bt w = if byteAt w 1 = 0 then tableBt (if ns then latin1EncodingTableNS else latin1EncodingTable) (byteAt w 0)
          else unicodeByteType (byteAt w 1) (byteAt w 0) := rfl
    have hL : (little2X ns).e.bt w ≠ .LEAD2 ∧ (little2X ns).e.bt w ≠ .LEAD3 ∧
      ((little2X ns).e.bt w = .LEAD4 ↔ 216 ≤ (byteAt w 1).toNat ∧ (byteAt w 1).toNat ≤ 219) := hL
    have hc : w.length = 2 ∧ XmlChar ((byteAt w 1).toNat * 256 + (byteAt w 0).toNat) ∨
        w.length = 4 ∧ 216 ≤ (byteAt w 1).toNat ∧ (byteAt w 1).toNat ≤ 219 := by
      by_cases h4 : (little2X ns).e.bt w = .LEAD4
      · refine .inr ⟨?_, hL.2.2.1 h4⟩
        simp only [Enc.IsChar, h4] at hw
        exact hw.1
      · refine .inl ⟨?_, ?_⟩
        · simp only [Enc.IsChar] at hw
          generalize (little2X ns).e.bt w = t at *
          cases t <;> simp_all
        · have hn : (little2X ns).e.bt w ≠ .NONXML ∧ (little2X ns).e.bt w ≠ .TRAIL := by
            constructor <;> intro h <;> simp only [Enc.IsChar, h] at hw
          rw [hb] at hn h4
          by_cases h0 : byteAt w 1 = 0
          · rw [if_pos h0] at hn
            rw [h0]
            simpa using (table_legal _ ns).1 hn.1
          · rw [if_neg h0] at hn h4
            exact unicode_legal _ _ h0 hn.1 h4 hn.2
    simp only [converted, little2X, little2Convert]
    rw [C12.take_even (by omega)]
    exact utf16_legal (hi := fun b => (byteAt b 1).toNat) (lo := fun b => (byteAt b 0).toNat) (byteAt w 1).toNat_lt (byteAt w 0).toNat_lt
      (byteAt (w.drop 2) 1).toNat_lt (byteAt (w.drop 2) 0).toNat_lt hc
  | utf16be ns =>
    have hL := big2_lead ns w
    have hmb : (big2X ns).e.mb = 2 := rfl
    have hb : (big2X ns).e.bt w = (big2Bt? (if ns then latin1EncodingTableNS else latin1EncodingTable) w).getD .NONXML := rfl
    have hL : (big2X ns).e.bt w ≠ .LEAD2 ∧ (big2X ns).e.bt w ≠ .LEAD3 ∧
      ((big2X ns).e.bt w = .LEAD4 ↔ 216 ≤ (byteAt w 0).toNat ∧ (byteAt w 0).toNat ≤ 219) := hL
    have hc : w.length = 2 ∧ XmlChar ((byteAt w 0).toNat * 256 + (byteAt w 1).toNat) ∨
        w.length = 4 ∧ 216 ≤ (byteAt w 0).toNat ∧ (byteAt w 0).toNat ≤ 219 := by
      by_cases h4 : (big2X ns).e.bt w = .LEAD4
      · refine .inr ⟨?_, hL.2.2.1 h4⟩
        simp only [Enc.IsChar, h4] at hw
        exact hw.1
      · refine .inl ⟨?_, ?_⟩
        · simp only [Enc.IsChar] at hw
          generalize (big2X ns).e.bt w = t at *
          cases t <;> simp_all
        · have hn : (big2X ns).e.bt w ≠ .NONXML ∧ (big2X ns).e.bt w ≠ .TRAIL := by
            constructor <;> intro h <;> simp only [Enc.IsChar, h] at hw
          rw [hb, big2Bt?] at hn h4
          by_cases h0 : byteAt w 0 = 0
          · rw [if_pos h0] at hn
            rw [h0]
            split at hn
            · simpa using (table_legal _ ns).1 hn.1
            · exact absurd rfl hn.1
          · rw [if_neg h0] at hn h4
            exact unicode_legal _ _ h0 hn.1 h4 hn.2
    simp only [converted, big2X, big2Convert]
    rw [C12.take_even (by omega)]
    exact utf16_legal (hi := fun b => (byteAt b 0).toNat) (lo := fun b => (byteAt b 1).toNat) (byteAt w 0).toNat_lt (byteAt w 1).toNat_lt
      (byteAt (w.drop 2) 0).toNat_lt (byteAt (w.drop 2) 1).toNat_lt hc

/-- Every text that the tokenizers accept is converted to the UTF-8 form of a string of XML characters. -/
theorem conv_legals {x : XEnc} {asc : UInt8 → Buf} (s : XSupported x asc) {ws : List Buf} (hw : x.e.Chars ws) :
    ∃ cs, (∀ c ∈ cs, XmlChar c) ∧ converted x ws.flatten = utf8s cs := by
  rw [conv_chars s hw]
  induction ws with
  | nil => exact ⟨[], by simp, rfl⟩
  | cons w ws ih =>
    obtain ⟨c, h1, h2⟩ := conv_legal s hw.head
    obtain ⟨cs, h3, h4⟩ := ih hw.tail
    exact ⟨c :: cs, by simp; exact ⟨h1, h3⟩, by simp [utf8s, h2, h4]⟩

end Verif
