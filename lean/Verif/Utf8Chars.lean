import Verif.Chars

/-! The legal characters of the UTF-8 tables are exactly the UTF-8 forms of XML characters. -/

namespace Verif
open Tables Spec

/-- 0 = not a character, 1 = a one-byte character, n = lead byte of an n-byte sequence. -/
def ByteType.size : ByteType → Nat
  | .NONXML | .MALFORM | .TRAIL => 0
  | .LEAD2 => 2
  | .LEAD3 => 3
  | .LEAD4 => 4
  | _ => 1

/-- What UTF-8 (Unicode table 3-7) says about a byte in first position. -/
def utf8Size (n : Nat) : Nat :=
  if n < 0x80 then (if XmlChar n then 1 else 0)
  else if n < 0xC0 then 0 else if n < 0xE0 then 2 else if n < 0xF0 then 3
  else if n < 0xF5 then 4 else 0

def sizesOk : List ByteType → Nat → Bool
  | [], n => n == 256
  | x :: xs, n => x.size == utf8Size n && sizesOk xs (n + 1)

theorem sizesOk_get (t : List ByteType) (m : Nat) (h : sizesOk t m = true) (n : Nat)
    (hn : m + n < 256) : (t.getD n .NONXML).size = utf8Size (m + n) := by
  induction t generalizing m n with
  | nil => simp [sizesOk] at h; omega
  | cons x xs ih =>
    simp only [sizesOk, Bool.and_eq_true, beq_iff_eq] at h
    cases n with
    | zero => simpa using h.1
    | succ n =>
      have := ih (m + 1) h.2 n (by omega)
      simpa [show m + (n + 1) = m + 1 + n by omega] using this

theorem utf8_size {t} (h : sizesOk t 0 = true) (c : UInt8) :
    (tableBt t c).size = utf8Size c.toNat := by
  have := sizesOk_get t 0 h c.toNat (by have := c.toNat_lt; omega)
  simpa [tableBt] using this

theorem isChar_size (t : List ByteType) (w : Buf) : (utf8EncOf t).IsChar w ↔
    (tableBt t (byteAt w 0)).size = w.length ∧ w ≠ [] ∧
      (1 < w.length → utf8IsInvalid w.length w = false) := by
  have h1 : (utf8EncOf t).bt w = tableBt t (byteAt w 0) := rfl
  have h2 : (utf8EncOf t).mb = 1 := rfl
  have h3 : (utf8EncOf t).isInvalid = utf8IsInvalid := rfl
  simp only [Enc.IsChar, h1, h2, h3]
  generalize tableBt t (byteAt w 0) = k
  have h4 : w ≠ [] ↔ 0 < w.length := List.length_pos_iff.symm
  rw [h4]
  cases k <;> simp only [ByteType.size] <;> grind

theorem ofNat_toNat_eq {n m : Nat} (hn : n < 256) (h : UInt8.ofNat n = UInt8.ofNat m) (hm : m < 256) : n = m := by
  have := congrArg UInt8.toNat h
  simpa [Nat.mod_eq_of_lt hn, Nat.mod_eq_of_lt hm] using this

theorem toNat_ofNat {n : Nat} (h : n < 256) : (UInt8.ofNat n).toNat = n := by
  simp [Nat.mod_eq_of_lt h]

theorem eq_ofNat {b : UInt8} {n : Nat} (h : b.toNat = n) : b = UInt8.ofNat n := by
  rw [← h, UInt8.ofNat_toNat]

/-- The characters the UTF-8 tokenizer accepts are exactly the UTF-8 forms of XML characters. -/
theorem utf8_isChar_iff {t} (ht : sizesOk t 0 = true) (w : Buf) :
    (utf8EncOf t).IsChar w ↔ ∃ c, XmlChar c ∧ w = utf8 c := by
  rw [isChar_size, utf8_size ht]
  constructor
  · rintro ⟨h1, h2, h3⟩
    match w, h2 with
    | [a], _ =>
      simp [byteAt] at h1
      refine ⟨a.toNat, ?_, ?_⟩ <;> simp only [utf8Size] at h1
      · split at h1
        · split at h1 <;> simp_all
        · repeat' split at h1
          all_goals omega
      · have : a.toNat < 0x80 := by
          repeat' split at h1
          all_goals omega
        simp [utf8, this]
    | [a, b], _ =>
      have h3 := h3 (by simp)
      simp only [byteAt, utf8IsInvalid, List.length_cons, List.length_nil, List.getD_cons_zero,
        List.getD_cons_succ, inv2_iff] at h1 h3
      have h4 : a.toNat < 0xE0 := by
        simp only [utf8Size] at h1
        repeat' split at h1
        all_goals omega
      refine ⟨(a.toNat - 0xC0) * 64 + (b.toNat - 0x80), ?_, ?_⟩
      · unfold XmlChar; omega
      · rw [utf8, if_neg (by omega), if_pos (by omega),
          ← eq_ofNat (b := a) (by omega), ← eq_ofNat (b := b) (by omega)]
    | [a, b, c], _ =>
      have h3 := h3 (by simp)
      simp only [byteAt, utf8IsInvalid, List.length_cons, List.length_nil, List.getD_cons_zero,
        List.getD_cons_succ, inv3_iff, ← UInt8.toNat_inj] at h1 h3
      have h4 : 0xE0 ≤ a.toNat ∧ a.toNat < 0xF0 := by
        simp only [utf8Size] at h1
        repeat' split at h1
        all_goals omega
      simp at h3
      refine ⟨(a.toNat - 0xE0) * 4096 + (b.toNat - 0x80) * 64 + (c.toNat - 0x80), ?_, ?_⟩
      · unfold XmlChar; omega
      · rw [utf8, if_neg (by omega), if_neg (by omega), if_pos (by omega),
          ← eq_ofNat (b := a) (by omega), ← eq_ofNat (b := b) (by omega), ← eq_ofNat (b := c) (by omega)]
    | [a, b, c, d], _ =>
      have h3 := h3 (by simp)
      simp only [byteAt, utf8IsInvalid, List.length_cons, List.length_nil, List.getD_cons_zero,
        List.getD_cons_succ, inv4_iff, ← UInt8.toNat_inj] at h1 h3
      have h4 : 0xF0 ≤ a.toNat ∧ a.toNat < 0xF5 := by
        simp only [utf8Size] at h1
        repeat' split at h1
        all_goals omega
      simp at h3
      refine ⟨(a.toNat - 0xF0) * 262144 + (b.toNat - 0x80) * 4096 + (c.toNat - 0x80) * 64
        + (d.toNat - 0x80), ?_, ?_⟩
      · unfold XmlChar; omega
      · rw [utf8, if_neg (by omega), if_neg (by omega), if_neg (by omega),
          ← eq_ofNat (b := a) (by omega), ← eq_ofNat (b := b) (by omega),
          ← eq_ofNat (b := c) (by omega), ← eq_ofNat (b := d) (by omega)]
    | a :: b :: c :: d :: f :: l, _ =>
      exfalso
      simp only [utf8Size, List.length_cons] at h1
      repeat' split at h1
      all_goals omega
  · rintro ⟨c, h1, rfl⟩
    unfold utf8
    unfold XmlChar at h1
    split
    · rename_i h
      refine ⟨?_, by simp, by simp⟩
      simp only [byteAt, List.getD_cons_zero, toNat_ofNat (show c < 256 by omega), utf8Size, XmlChar]
      simp [h]; omega
    · split
      · refine ⟨?_, by simp, fun _ => ?_⟩
        · simp only [byteAt, List.getD_cons_zero, utf8Size]
          rw [toNat_ofNat (by omega), if_neg (by omega), if_neg (by omega), if_pos (by omega)]
          simp
        · simp only [byteAt, utf8IsInvalid, List.length_cons, List.length_nil, List.getD_cons_zero,
            List.getD_cons_succ, inv2_iff]
          rw [toNat_ofNat (by omega), toNat_ofNat (by omega)]
          omega
      · split
        · refine ⟨?_, by simp, fun _ => ?_⟩
          · simp only [byteAt, List.getD_cons_zero, utf8Size]
            rw [toNat_ofNat (by omega), if_neg (by omega), if_neg (by omega), if_neg (by omega),
              if_pos (by omega)]
            simp
          · simp only [byteAt, utf8IsInvalid, List.length_cons, List.length_nil, List.getD_cons_zero,
              List.getD_cons_succ, inv3_iff, ← UInt8.toNat_inj]
            rw [toNat_ofNat (by omega), toNat_ofNat (by omega), toNat_ofNat (by omega)]
            simp
            omega
        · refine ⟨?_, by simp, fun _ => ?_⟩
          · simp only [byteAt, List.getD_cons_zero, utf8Size]
            rw [toNat_ofNat (by omega), if_neg (by omega), if_neg (by omega), if_neg (by omega),
              if_neg (by omega), if_pos (by omega)]
            simp
          · simp only [byteAt, utf8IsInvalid, List.length_cons, List.length_nil, List.getD_cons_zero,
              List.getD_cons_succ, inv4_iff, ← UInt8.toNat_inj]
            rw [toNat_ofNat (by omega), toNat_ofNat (by omega), toNat_ofNat (by omega),
              toNat_ofNat (by omega)]
            simp
            omega

theorem utf8Enc_isChar (ns) (w : Buf) : (utf8Enc ns).IsChar w ↔ ∃ c, XmlChar c ∧ w = utf8 c := by
  cases ns <;> exact utf8_isChar_iff (by decide +kernel) w

theorem internalUtf8Enc_isChar (ns) (w : Buf) :
    (internalUtf8Enc ns).IsChar w ↔ ∃ c, XmlChar c ∧ w = utf8 c := by
  cases ns <;> exact utf8_isChar_iff (by decide +kernel) w

/-- A string of legal characters is the encoding of a string of XML characters. -/
theorem utf8_chars (ns) (ws : List Buf) (h : ∀ w ∈ ws, (utf8Enc ns).IsChar w) :
    ∃ cs : List Nat, (∀ c ∈ cs, XmlChar c) ∧ ws = cs.map utf8 := by
  induction ws with
  | nil => exact ⟨[], by simp, rfl⟩
  | cons w ws ih =>
    obtain ⟨cs, h1, h2⟩ := ih (fun w hw => h w (by simp [hw]))
    obtain ⟨c, h3, h4⟩ := (utf8Enc_isChar ns w).1 (h w (by simp))
    exact ⟨c :: cs, by simp; exact ⟨h3, h1⟩, by simp [h4, h2]⟩

theorem utf8_ascii {c : Nat} (d : Nat) (hd : d < 128) : utf8 c = [UInt8.ofNat d] ↔ c = d := by
  unfold utf8
  split
  · constructor
    · intro h
      have := ofNat_toNat_eq (by omega) (List.cons.inj h).1 (by omega)
      omega
    · rintro rfl; rfl
  · constructor
    · intro h; repeat' split at h
      all_goals simp at h
    · intro h; omega

end Verif
