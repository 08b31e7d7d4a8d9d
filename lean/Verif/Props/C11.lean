import Verif.Refs

/-! C11: encoding a character as UTF-8 is correct and lossless. -/

namespace Verif.C11
open Verif Spec

/-- A decoder for one UTF-8 sequence, written independently (no validity checks). -/
def decode : List UInt8 → Nat
  | [a] => a.toNat
  | [a, b] => (a.toNat - 0xC0) * 64 + (b.toNat - 0x80)
  | [a, b, c] => (a.toNat - 0xE0) * 4096 + (b.toNat - 0x80) * 64 + (c.toNat - 0x80)
  | [a, b, c, d] =>
    (a.toNat - 0xF0) * 262144 + (b.toNat - 0x80) * 4096 + (c.toNat - 0x80) * 64 + (d.toNat - 0x80)
  | _ => 0

theorem decode2 (a b) : decode [a, b] = (a.toNat - 0xC0) * 64 + (b.toNat - 0x80) := rfl
theorem decode3 (a b c) : decode [a, b, c] =
    (a.toNat - 0xE0) * 4096 + (b.toNat - 0x80) * 64 + (c.toNat - 0x80) := rfl
theorem decode4 (a b c d) : decode [a, b, c, d] = (a.toNat - 0xF0) * 262144 +
    (b.toNat - 0x80) * 4096 + (c.toNat - 0x80) * 64 + (d.toNat - 0x80) := rfl

theorem or_add (n k m : Nat) (h : n < 2 ^ k) : n ||| (2 ^ k * m) = 2 ^ k * m + n := by
  rw [Nat.or_comm, Nat.two_pow_add_eq_or_of_lt h]

theorem trail (n : Nat) : n &&& 0x3f ||| 0x80 = 0x80 + n % 64 := by
  have h : n &&& 0x3f = n % 64 := Nat.and_two_pow_sub_one_eq_mod n 6
  rw [h]
  exact or_add (n % 64) 6 2 (Nat.mod_lt _ (by decide))

/-- C11: the bytes produced for a code point below 0x110000 are its UTF-8 form. -/
theorem encode_spec (n : Nat) (h : n < 0x110000) : xmlUtf8Encode n = utf8 n := by
  have t1 := trail n
  have t2 := trail (n >>> 6)
  have t3 := trail (n >>> 12)
  simp only [Nat.shiftRight_eq_div_pow] at t2 t3
  simp only [xmlUtf8Encode, utf8, Int.toNat_natCast, Nat.shiftRight_eq_div_pow]
  rw [if_neg (by omega)]
  split
  · rfl
  split
  · rw [t1, show (n / 2 ^ 6 ||| 0xC0) = 0xC0 + n / 64 from or_add (n / 64) 6 3 (by omega)]
  split
  · rw [t1, t2, show (n / 2 ^ 12 ||| 0xE0) = 0xE0 + n / 4096 from or_add (n / 4096) 5 7 (by omega)]
  · rw [t1, t2, t3,
      show (n / 2 ^ 18 ||| 0xF0) = 0xF0 + n / 262144 from or_add (n / 262144) 4 15 (by omega)]

/-- C11: illegal code points (negative or too large) give zero bytes. -/
theorem encode_none (c : Int) (h : c < 0 ∨ 0x110000 ≤ c) : xmlUtf8Encode c = [] := by
  unfold xmlUtf8Encode
  rcases h with h | h
  · simp [h]
  · have : ¬ c < 0 := by omega
    have h1 : 0x110000 ≤ c.toNat := by omega
    simp only [this, if_false]
    rw [if_neg (by omega), if_neg (by omega), if_neg (by omega), if_neg (by omega)]

/-- C11: what is produced decodes to the character again. -/
theorem decode_encode (n : Nat) (h : n < 0x110000) : decode (xmlUtf8Encode n) = n := by
  rw [encode_spec n h]
  unfold utf8
  split
  · show (UInt8.ofNat n).toNat = n
    exact toNat_ofNat (by omega)
  split
  · rw [decode2, toNat_ofNat (show 0xC0 + n / 64 < 256 by omega),
      toNat_ofNat (show 0x80 + n % 64 < 256 by omega)]
    omega
  split
  · rw [decode3, toNat_ofNat (show 0xE0 + n / 4096 < 256 by omega),
      toNat_ofNat (show 0x80 + n / 64 % 64 < 256 by omega),
      toNat_ofNat (show 0x80 + n % 64 < 256 by omega)]
    omega
  · rw [decode4, toNat_ofNat (show 0xF0 + n / 262144 < 256 by omega),
      toNat_ofNat (show 0x80 + n / 4096 % 64 < 256 by omega),
      toNat_ofNat (show 0x80 + n / 64 % 64 < 256 by omega),
      toNat_ofNat (show 0x80 + n % 64 < 256 by omega)]
    omega

/-- C11: distinct characters give distinct bytes. -/
theorem encode_inj (a b : Nat) (ha : a < 0x110000) (hb : b < 0x110000)
    (h : xmlUtf8Encode a = xmlUtf8Encode b) : a = b := by
  rw [← decode_encode a ha, ← decode_encode b hb, h]

/-- Length of a sequence from its first byte (independent of the library's tables). -/
def seqLen (a : UInt8) : Nat := if a < 0x80 then 1 else if a < 0xE0 then 2 else if a < 0xF0 then 3 else 4

/-- Decoding of a whole text. -/
def decodeAll (b : List UInt8) : List Nat :=
  match b with
  | [] => []
  | a :: r => decode ((a :: r).take (seqLen a)) :: decodeAll ((a :: r).drop (seqLen a))
termination_by b.length
decreasing_by simp only [List.length_drop, List.length_cons, seqLen]; split <;> (try split) <;> (try split) <;> omega

theorem encode_head (n : Nat) (h : n < 0x110000) : ∃ a w, xmlUtf8Encode n = a :: w ∧
    seqLen a = (a :: w).length := by
  rw [encode_spec n h]
  unfold utf8
  split
  · refine ⟨_, _, rfl, ?_⟩
    rw [seqLen, if_pos]; rfl
    rw [UInt8.lt_iff_toNat_lt, toNat_ofNat (by omega)]; assumption
  split
  · refine ⟨_, _, rfl, ?_⟩
    rw [seqLen]; simp only [UInt8.lt_iff_toNat_lt]
    rw [toNat_ofNat (show 0xC0 + n / 64 < 256 by omega)]
    rw [if_neg (by simp; omega), if_pos (by simp; omega)]; simp
  split
  · refine ⟨_, _, rfl, ?_⟩
    rw [seqLen]; simp only [UInt8.lt_iff_toNat_lt]
    rw [toNat_ofNat (show 0xE0 + n / 4096 < 256 by omega)]
    rw [if_neg (by simp; omega), if_neg (by simp), if_pos (by simp; omega)]; simp
  · refine ⟨_, _, rfl, ?_⟩
    rw [seqLen]; simp only [UInt8.lt_iff_toNat_lt]
    rw [toNat_ofNat (show 0xF0 + n / 262144 < 256 by omega)]
    rw [if_neg (by simp; omega), if_neg (by simp; omega), if_neg (by simp)]; simp

/-- C11: the concatenation of the bytes for any sequence of characters decodes to that sequence. -/
theorem decodeAll_encode (cs : List Nat) (h : ∀ c ∈ cs, c < 0x110000) :
    decodeAll (cs.map fun c : Nat => xmlUtf8Encode c).flatten = cs := by
  induction cs with
  | nil => simp [decodeAll]
  | cons c cs ih =>
    obtain ⟨a, w, h1, h2⟩ := encode_head c (h c (by simp))
    rw [List.map_cons, List.flatten_cons, h1, List.cons_append, decodeAll, h2,
      show a :: (w ++ (cs.map fun c : Nat => xmlUtf8Encode c).flatten)
        = (a :: w) ++ (cs.map fun c : Nat => xmlUtf8Encode c).flatten from rfl,
      List.take_left' rfl, List.drop_left' rfl, ih (fun c hc => h c (by simp [hc])), ← h1,
      decode_encode c (h c (by simp))]

/-! Non-vacuity. -/
example : xmlUtf8Encode 0x1F600 = [0xF0, 0x9F, 0x98, 0x80] := by decide
example : xmlUtf8Encode 0x110000 = [] := by decide

end Verif.C11
