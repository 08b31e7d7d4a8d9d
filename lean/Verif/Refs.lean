import Verif.Classes
import Verif.Spec.Numbers

/-! Character references: what is recognised and what number results. -/

namespace Verif
open Tables Spec

theorem numeralFrom_mono (base : Nat) (hb : 1 ≤ base) (ds : List UInt8) (a : Nat) :
    a ≤ numeralFrom base a ds := by
  induction ds generalizing a with
  | nil => exact Nat.le_refl _
  | cons d ds ih =>
    have h1 := ih (a * base + digitValue d)
    have h2 : a * 1 ≤ a * base := Nat.mul_le_mul_left _ hb
    simp only [numeralFrom]
    omega

theorem hexDigit_spec (c : UInt8) (h : (isDec c || isHexLetter c) = true) :
    hexDigit? c = some (digitValue c) := by
  have : ∀ c : UInt8, (isDec c || isHexLetter c) = true → hexDigit? c = some (digitValue c) :=
    UInt8.forall_dec (by decide +kernel)
  exact this c h

theorem decDigit_spec (c : UInt8) (h : isDec c = true) :
    c.toInt8.toInt - 0x30 = (digitValue c : Int) := by
  have : ∀ c : UInt8, isDec c = true → c.toInt8.toInt - 0x30 = (digitValue c : Int) :=
    UInt8.forall_dec (by decide +kernel)
  exact this c h

theorem dec_not_semi (c : UInt8) (h : (isDec c || isHexLetter c) = true) : c ≠ 0x3B := by
  have : ∀ c : UInt8, (isDec c || isHexLetter c) = true → c ≠ 0x3B :=
    UInt8.forall_dec (by decide +kernel)
  exact this c h

theorem checkCharRefNumber_spec (n : Nat) (h : n < 0x110000) :
    checkCharRefNumber n = if XmlChar n then (n : Int) else -1 := by
  have key : ((List.range 256).all fun n => decide (((latin1EncodingTable.getD n .NONXML = .NONXML)
      ↔ ¬ XmlChar n))) = true := by decide +kernel
  by_cases hn : n < 256
  · have hk : latin1EncodingTable.getD n .NONXML = .NONXML ↔ ¬ XmlChar n := by
      exact of_decide_eq_true (List.all_eq_true.1 key n (List.mem_range.2 hn))
    simp only [checkCharRefNumber, Int.toNat_natCast]
    rw [if_neg (by omega)]
    by_cases hx : XmlChar n
    · rw [if_neg (fun h => hk.1 h.2.2 hx), if_neg (by omega), if_pos hx]
    · rw [if_pos ⟨by omega, by omega, hk.2 hx⟩, if_neg hx]
  · simp only [checkCharRefNumber, Int.toNat_natCast]
    have hx : XmlChar n ↔ ¬ ((0xD800 ≤ n ∧ n ≤ 0xDFFF) ∨ n = 0xFFFE ∨ n = 0xFFFF) := by
      simp only [XmlChar]; omega
    by_cases h1 : 0xD800 ≤ n ∧ n ≤ 0xDFFF
    · rw [if_pos (by omega), if_neg (by rw [hx]; omega)]
    · rw [if_neg (by omega), if_neg (by omega)]
      by_cases h2 : n = 0xFFFE ∨ n = 0xFFFF
      · rw [if_pos (by omega), if_neg (by rw [hx]; omega)]
      · rw [if_neg (by omega), if_pos (by rw [hx]; omega)]

section
variable {e : Enc} {asc : UInt8 → Buf} (s : Supported e asc)
include s

theorem charRefHex_spec (ds : List UInt8) (hd : ∀ d ∈ ds, (isDec d || isHexLetter d) = true)
    (r : Buf) (acc : Nat) (ha : acc < 0x110000) (v : Nat) (hv : v = numeralFrom 16 acc ds) :
    charRefHex e ((ds.map asc).flatten ++ (asc 0x3B ++ r)) acc =
      if v < 0x110000 then some v else none := by
  have l (c) := s.asc.len c
  induction ds generalizing acc with
  | nil =>
    simp only [numeralFrom] at hv
    subst hv
    rw [charRefHex]
    simp only [List.map_nil, List.flatten_nil, List.nil_append]
    rw [if_neg (by rw [List.length_append]; have := l 0x3B; omega),
      if_pos ((s.matches_asc (by decide) r).2 rfl), if_pos ha]
  | cons d ds ih =>
    have h1 := hd d (by simp)
    have hns := dec_not_semi d (by simp [h1])
    simp only [numeralFrom] at hv
    rw [charRefHex]
    simp only [List.map_cons, List.flatten_cons, List.append_assoc]
    rw [if_neg (by rw [List.length_append]; have := l d; omega),
      if_neg (fun h => hns ((s.matches_asc (by decide) _).1 h)), s.toAscii, hexDigit_spec d h1,
      drop_char (l d)]
    have hm := numeralFrom_mono 16 (by decide) ds (acc * 16 + digitValue d)
    simp only
    split
    · rw [if_neg (by omega)]
    · exact ih (fun d h => hd d (by simp [h])) _ (by omega) hv

theorem charRefDec_spec (ds : List UInt8) (hd : ∀ d ∈ ds, isDec d = true)
    (r : Buf) (acc : Nat) (ha : acc < 0x110000) (v : Nat) (hv : v = numeralFrom 10 acc ds) :
    charRefDec e ((ds.map asc).flatten ++ (asc 0x3B ++ r)) acc =
      if v < 0x110000 then some (v : Int) else none := by
  have l (c) := s.asc.len c
  induction ds generalizing acc with
  | nil =>
    simp only [numeralFrom] at hv
    subst hv
    rw [charRefDec]
    simp only [List.map_nil, List.flatten_nil, List.nil_append]
    rw [if_neg (by rw [List.length_append]; have := l 0x3B; omega),
      if_pos ((s.matches_asc (by decide) r).2 rfl), if_pos ha]
  | cons d ds ih =>
    have h1 := hd d (by simp)
    have hns := dec_not_semi d (by simp [h1])
    simp only [numeralFrom] at hv
    rw [charRefDec]
    simp only [List.map_cons, List.flatten_cons, List.append_assoc]
    rw [if_neg (by rw [List.length_append]; have := l d; omega),
      if_neg (fun h => hns ((s.matches_asc (by decide) _).1 h)), s.toAscii, decDigit_spec d h1,
      drop_char (l d)]
    have hm := numeralFrom_mono 10 (by decide) ds (acc * 10 + digitValue d)
    have hc : (acc : Int) * 10 + (digitValue d : Int) = ((acc * 10 + digitValue d : Nat) : Int) := by
      push_cast; rfl
    rw [hc]
    split
    · rw [if_neg (by omega)]
    · exact ih (fun d h => hd d (by simp [h])) _ (by omega) hv

/-- The digit loop recognises digits up to the first `;`. -/
theorem scanHexLoop_iff (b p n) : scanHexLoop e b p = ⟨.CHAR_REF, n⟩ ↔
    ∃ (ds : List UInt8) (r : Buf), (∀ d ∈ ds, (isDec d || isHexLetter d) = true) ∧
      b = (ds.map asc).flatten ++ (asc 0x3B ++ r) ∧ n = p + (ds.length + 1) * e.mb := by
  have l (c) := s.asc.len c
  constructor
  · intro h
    fun_induction scanHexLoop e b p with
    | case2 b p h1 h2 ih =>
      obtain ⟨ds, r, i1, i2, i3⟩ := ih h
      obtain ⟨c, hc, hb⟩ := s.class_split hexDigitClass (b := b) (by omega) (by simp [h2])
      refine ⟨c :: ds, r, ?_, ?_, ?_⟩
      · intro d hd
        rcases List.mem_cons.1 hd with rfl | hd
        · exact hc
        · exact i1 d hd
      · rw [List.map_cons, List.flatten_cons, List.append_assoc, ← i2]; exact hb
      · rw [i3, List.length_cons, Nat.add_mul (ds.length + 1)]; omega
    | case3 b p h1 h2 ih =>
      obtain ⟨ds, r, i1, i2, i3⟩ := ih h
      obtain ⟨c, hc, hb⟩ := s.class_split hexDigitClass (b := b) (by omega) (by simp [h2])
      refine ⟨c :: ds, r, ?_, ?_, ?_⟩
      · intro d hd
        rcases List.mem_cons.1 hd with rfl | hd
        · exact hc
        · exact i1 d hd
      · rw [List.map_cons, List.flatten_cons, List.append_assoc, ← i2]; exact hb
      · rw [i3, List.length_cons, Nat.add_mul (ds.length + 1)]; omega
    | case4 b p h1 h2 =>
      injection h with _ h
      have := bt_split s (t := .SEMI) rfl (by omega) h2
      exact ⟨[], b.drop e.mb, by simp, by simpa using this, by simp [← h]⟩
    | _ => cases h
  · rintro ⟨ds, r, h1, rfl, rfl⟩
    induction ds generalizing p with
    | nil =>
      rw [scanHexLoop, if_neg (by have := l 0x3B; simp only [List.length_append]; omega)]
      simp only [List.map_nil, List.flatten_nil, List.nil_append, asc_bt s (t := .SEMI) rfl]
      simp
    | cons d ds ih =>
      have hd := s.class_app hexDigitClass (h1 d (by simp))
        ((ds.map asc).flatten ++ (asc 0x3B ++ r))
      rw [List.map_cons, List.flatten_cons, List.append_assoc, scanHexLoop,
        if_neg (by have := l d; simp only [List.length_append]; omega), drop_char (l d),
        ih _ (fun d h => h1 d (by simp [h]))]
      have he : p + e.mb + (ds.length + 1) * e.mb = p + ((d :: ds).length + 1) * e.mb := by
        rw [List.length_cons, Nat.add_mul (ds.length + 1)]; omega
      rw [he]
      split <;> simp_all

theorem scanDecLoop_iff (b p n) : scanDecLoop e b p = ⟨.CHAR_REF, n⟩ ↔
    ∃ (ds : List UInt8) (r : Buf), (∀ d ∈ ds, isDec d = true) ∧
      b = (ds.map asc).flatten ++ (asc 0x3B ++ r) ∧ n = p + (ds.length + 1) * e.mb := by
  have l (c) := s.asc.len c
  constructor
  · intro h
    fun_induction scanDecLoop e b p with
    | case2 b p h1 h2 ih =>
      obtain ⟨ds, r, i1, i2, i3⟩ := ih h
      obtain ⟨c, hc, hb⟩ := s.class_split digitClass (b := b) (by omega) (by simp [h2])
      refine ⟨c :: ds, r, ?_, ?_, ?_⟩
      · intro d hd
        rcases List.mem_cons.1 hd with rfl | hd
        · exact hc
        · exact i1 d hd
      · rw [List.map_cons, List.flatten_cons, List.append_assoc, ← i2]; exact hb
      · rw [i3, List.length_cons, Nat.add_mul (ds.length + 1)]; omega
    | case3 b p h1 h2 =>
      injection h with _ h
      have := bt_split s (t := .SEMI) rfl (by omega) h2
      exact ⟨[], b.drop e.mb, by simp, by simpa using this, by simp [← h]⟩
    | _ => cases h
  · rintro ⟨ds, r, h1, rfl, rfl⟩
    induction ds generalizing p with
    | nil =>
      rw [scanDecLoop, if_neg (by have := l 0x3B; simp only [List.length_append]; omega)]
      simp only [List.map_nil, List.flatten_nil, List.nil_append, asc_bt s (t := .SEMI) rfl]
      simp
    | cons d ds ih =>
      have hd := s.class_app digitClass (h1 d (by simp))
        ((ds.map asc).flatten ++ (asc 0x3B ++ r))
      rw [List.map_cons, List.flatten_cons, List.append_assoc, scanDecLoop,
        if_neg (by have := l d; simp only [List.length_append]; omega), drop_char (l d),
        ih _ (fun d h => h1 d (by simp [h]))]
      have he : p + e.mb + (ds.length + 1) * e.mb = p + ((d :: ds).length + 1) * e.mb := by
        rw [List.length_cons, Nat.add_mul (ds.length + 1)]; omega
      rw [he]
      split <;> simp_all

end

end Verif
