import Verif.Names
import Verif.Spec.NameChars

/-! The name-character bitmaps of nametab.rs against the ranges of the XML specification.  Both are
turned into one 65536-bit number and compared. -/

namespace Verif
open Tables Spec

/-- The set given by a list of ranges as a number. -/
def rangeBits : List (Nat × Nat) → Nat
  | [] => 0
  | (a, b) :: rs => ((2 ^ (b + 1 - a) - 1) <<< a) ||| rangeBits rs

theorem rangeBits_spec (rs : List (Nat × Nat)) (i : Nat) :
    (rangeBits rs).testBit i = true ↔ InRanges rs i := by
  induction rs with
  | nil => simp [rangeBits, InRanges]
  | cons r rs ih =>
    obtain ⟨a, b⟩ := r
    simp only [rangeBits, Nat.testBit_or, Bool.or_eq_true, ih, Nat.testBit_shiftLeft,
      Bool.and_eq_true, decide_eq_true_eq, Nat.testBit_two_pow_sub_one, InRanges, List.mem_cons,
      exists_eq_or_imp]
    have : i ≥ a ∧ i - a < b + 1 - a ↔ a ≤ i ∧ i ≤ b := by omega
    rw [this]

/-- 32-bit words, least significant first, as one number. -/
def words : List Nat → Nat
  | [] => 0
  | w :: ws => w ||| (words ws <<< 32)

theorem words_spec (ws : List Nat) (h : ∀ w ∈ ws, w < 2 ^ 32) (i j : Nat) (hj : j < 32) :
    (words ws).testBit (32 * i + j) = (ws.getD i 0).testBit j := by
  induction ws generalizing i with
  | nil => simp [words]
  | cons w ws ih =>
    simp only [words, Nat.testBit_or, Nat.testBit_shiftLeft]
    cases i with
    | zero =>
      have : ¬ (32 * 0 + j ≥ 32) := by omega
      simp; intro h; omega
    | succ i =>
      have h1 : w.testBit (32 * (i + 1) + j) = false :=
        Nat.testBit_lt_two_pow (Nat.lt_of_lt_of_le (h w (by simp))
          (Nat.pow_le_pow_right (by decide) (by omega)))
      have h2 : 32 * (i + 1) + j - 32 = 32 * i + j := by omega
      have h3 : 32 * (i + 1) + j ≥ 32 := by omega
      rw [h1, h2, ih (fun w hw => h w (by simp [hw]))]
      simp [h3]

/-- The words of the bitmap in code point order: eight words for each page. -/
def pageWords (pages : List Nat) : List Nat :=
  (pages.map fun pg => (namingBitmap.drop (pg <<< 3)).take 8).flatten

/-- Every page number refers to eight words of the bitmap. -/
def pagesOk (pages : List Nat) : Bool :=
  pages.length == 256 && pages.all (fun pg => (pg <<< 3) + 8 ≤ namingBitmap.length)

theorem flatten_get (m : Nat) (xs : List (List Nat)) (h : ∀ x ∈ xs, x.length = m) (i j : Nat)
    (hi : i < xs.length) (hj : j < m) :
    xs.flatten.getD (m * i + j) 0 = (xs.getD i []).getD j 0 := by
  induction xs generalizing i with
  | nil => simp at hi
  | cons x xs ih =>
    have hx := h x (by simp)
    cases i with
    | zero =>
      simp only [List.flatten_cons, Nat.mul_zero, Nat.zero_add, List.getD_cons_zero]
      rw [List.getD_eq_getElem?_getD, List.getElem?_append_left (by omega), List.getD_eq_getElem?_getD]
    | succ i =>
      have e1 : m * (i + 1) + j = x.length + (m * i + j) := by rw [hx, Nat.mul_add]; omega
      rw [List.flatten_cons, e1, List.getD_eq_getElem?_getD,
        List.getElem?_append_right (by omega), Nat.add_sub_cancel_left, ← List.getD_eq_getElem?_getD,
        ih (fun x hx => h x (by simp [hx])) i (by simpa using hi)]
      simp

theorem bitmap_words : ∀ w ∈ namingBitmap, w < 2 ^ 32 := by decide +kernel

theorem ucs2Naming_words {pages} (h : pagesOk pages = true) (hi lo : Nat) (h1 : hi < 256)
    (h2 : lo < 256) : ucs2Naming pages hi lo = (words (pageWords pages)).testBit (256 * hi + lo) := by
  simp only [pagesOk, Bool.and_eq_true, beq_iff_eq, List.all_eq_true, decide_eq_true_eq] at h
  have e1 : 256 * hi + lo = 32 * (8 * hi + lo / 32) + lo % 32 := by omega
  have hw : ∀ w ∈ pageWords pages, w < 2 ^ 32 := by
    intro w hw
    simp only [pageWords, List.mem_flatten, List.mem_map] at hw
    obtain ⟨l, ⟨pg, _, rfl⟩, hw⟩ := hw
    exact bitmap_words w (List.mem_of_mem_drop (List.mem_of_mem_take hw))
  rw [e1, words_spec _ hw _ _ (by omega), pageWords, flatten_get 8 _ _ _ _ (by simpa [h.1] using h1)
    (by omega)]
  · have e2 : pages[hi]? = some pages[hi] := List.getElem?_eq_getElem (by omega)
    simp only [List.getD_eq_getElem?_getD, List.getElem?_map, e2, Option.map_some, Option.getD_some]
    rw [List.getElem?_take_of_lt (by omega), List.getElem?_drop, ucs2Naming]
    simp only [List.getD_eq_getElem?_getD, e2, Option.getD_some]
    rw [show lo >>> 5 = lo / 32 from Nat.shiftRight_eq_div_pow lo 5,
      show lo &&& 0x1F = lo % 32 from Nat.and_two_pow_sub_one_eq_mod lo 5]
  · intro x hx
    obtain ⟨pg, hpg, rfl⟩ := List.mem_map.1 hx
    have := h.2 pg hpg
    rw [List.length_take, List.length_drop]; omega

/-- nametab.rs agrees with the specification on the whole basic plane. -/
theorem nmstrt_table : words (pageWords nmstrtPages) = rangeBits nameStart := by decide +kernel
theorem name_table : words (pageWords namePages) = rangeBits nameChar := by decide +kernel

theorem nmstrt_ucs2 (hi lo : Nat) (h1 : hi < 256) (h2 : lo < 256) :
    ucs2Naming nmstrtPages hi lo = true ↔ InRanges nameStart (256 * hi + lo) := by
  rw [ucs2Naming_words (by decide +kernel) hi lo h1 h2, nmstrt_table, rangeBits_spec]

theorem name_ucs2 (hi lo : Nat) (h1 : hi < 256) (h2 : lo < 256) :
    ucs2Naming namePages hi lo = true ↔ InRanges nameChar (256 * hi + lo) := by
  rw [ucs2Naming_words (by decide +kernel) hi lo h1 h2, name_table, rangeBits_spec]

/-- The two-byte form reads the same bit. -/
theorem utf8Naming2_eq (pages : List Nat) (c : Nat) (h : c < 0x800) :
    utf8Naming2 pages (0xC0 + c / 64) (0x80 + c % 64) = ucs2Naming pages (c / 256) (c % 256) := by
  have a7 : ∀ n, n &&& 7 = n % 8 := fun n => Nat.and_two_pow_sub_one_eq_mod n 3
  have a3 : ∀ n, n &&& 3 = n % 4 := fun n => Nat.and_two_pow_sub_one_eq_mod n 2
  have a1 : ∀ n, n &&& 1 = n % 2 := fun n => Nat.and_two_pow_sub_one_eq_mod n 1
  have a31 : ∀ n, n &&& 0x1f = n % 32 := fun n => Nat.and_two_pow_sub_one_eq_mod n 5
  simp only [utf8Naming2, ucs2Naming, a7, a3, a1, a31, Nat.shiftRight_eq_div_pow,
    Nat.shiftLeft_eq]
  have e1 : (0xC0 + c / 64) / 2 ^ 2 % 8 = c / 256 := by omega
  have e2 : (0x80 + c % 64) % 32 = c % 256 % 32 := by omega
  rw [e1, e2]
  generalize pages.getD (c / 256) 0 = x
  have e3 : x * 2 ^ 3 + (0xC0 + c / 64) % 4 * 2 ^ 1 + (0x80 + c % 64) / 2 ^ 5 % 2 =
      x * 2 ^ 3 + c % 256 / 2 ^ 5 := by omega
  rw [e3]

/-- So does the three-byte form. -/
theorem utf8Naming3_eq (pages : List Nat) (c : Nat) (h : c < 0x10000) :
    utf8Naming3 pages (0xE0 + c / 4096) (0x80 + c / 64 % 64) (0x80 + c % 64) =
      ucs2Naming pages (c / 256) (c % 256) := by
  have a15 : ∀ n, n &&& 0xf = n % 16 := fun n => Nat.and_two_pow_sub_one_eq_mod n 4
  have a3 : ∀ n, n &&& 3 = n % 4 := fun n => Nat.and_two_pow_sub_one_eq_mod n 2
  have a1 : ∀ n, n &&& 1 = n % 2 := fun n => Nat.and_two_pow_sub_one_eq_mod n 1
  have a31 : ∀ n, n &&& 0x1f = n % 32 := fun n => Nat.and_two_pow_sub_one_eq_mod n 5
  simp only [utf8Naming3, ucs2Naming, a15, a3, a1, a31, Nat.shiftRight_eq_div_pow,
    Nat.shiftLeft_eq]
  have e1 : (0xE0 + c / 4096) % 16 * 2 ^ 4 + (0x80 + c / 64 % 64) / 2 ^ 2 % 16 = c / 256 := by omega
  have e2 : (0x80 + c % 64) % 32 = c % 256 % 32 := by omega
  rw [e1, e2]
  generalize pages.getD (c / 256) 0 = x
  have e3 : x * 2 ^ 3 + (0x80 + c / 64 % 64) % 4 * 2 ^ 1 + (0x80 + c % 64) / 2 ^ 5 % 2 =
      x * 2 ^ 3 + c % 256 / 2 ^ 5 := by omega
  rw [e3]

end Verif
