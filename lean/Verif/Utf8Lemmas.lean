import Verif.Encodings
import Verif.Spec.Unicode

/-! Lemmas relating the bit tests of the UTF-8 encoding to arithmetic. -/

namespace Verif
open Tables Spec

theorem UInt8.forall_nat {P : UInt8 → Prop} (h : ∀ n, n < 256 → P (UInt8.ofNat n)) (b : UInt8) :
    P b := by
  have := h b.toNat b.toNat_lt
  simpa using this

/-- Decide a statement about all bytes. -/
theorem UInt8.forall_dec {P : UInt8 → Prop} [DecidablePred P]
    (h : ((List.range 256).all fun n => decide (P (UInt8.ofNat n))) = true) (b : UInt8) : P b := by
  refine UInt8.forall_nat (fun n hn => ?_) b
  simpa using List.all_eq_true.1 h n (List.mem_range.2 hn)

theorem and80 (b : UInt8) : (b &&& 0x80 == 0) = decide (b.toNat < 128) := by
  revert b; exact UInt8.forall_dec (by decide +kernel)
theorem andc0 (b : UInt8) : (b &&& 0xc0 == 0xc0) = decide (192 ≤ b.toNat) := by
  revert b; exact UInt8.forall_dec (by decide +kernel)

theorem inv2_iff (a b : UInt8) : utf8Invalid2 a b = false ↔
    0xc2 ≤ a.toNat ∧ 128 ≤ b.toNat ∧ b.toNat < 192 := by
  simp only [utf8Invalid2, and80, andc0, UInt8.lt_iff_toNat_lt]
  grind

theorem inv3_iff (a b c : UInt8) : utf8Invalid3 a b c = false ↔
    128 ≤ b.toNat ∧ b.toNat < 192 ∧ 128 ≤ c.toNat ∧ c.toNat < 192 ∧
    (a = 0xe0 → 160 ≤ b.toNat) ∧ (a = 0xed → b.toNat < 160) ∧
    (a = 0xef ∧ b = 0xbf → c.toNat < 0xbe) := by
  simp only [utf8Invalid3, and80, andc0, UInt8.lt_iff_toNat_lt, GT.gt]
  have h1 : ∀ x y : UInt8, (x == y) = decide (x.toNat = y.toNat) := fun x y => by
    by_cases h : x = y <;> simp [h, UInt8.toNat_inj]
  have h2 : ∀ x y : UInt8, (x = y) ↔ (x.toNat = y.toNat) := fun x y => UInt8.toNat_inj.symm
  simp only [h1, h2]
  grind

theorem inv4_iff (a b c d : UInt8) : utf8Invalid4 a b c d = false ↔
    128 ≤ b.toNat ∧ b.toNat < 192 ∧ 128 ≤ c.toNat ∧ c.toNat < 192 ∧
    128 ≤ d.toNat ∧ d.toNat < 192 ∧
    (a = 0xf0 → 144 ≤ b.toNat) ∧ (a = 0xf4 → b.toNat < 144) := by
  simp only [utf8Invalid4, and80, andc0, UInt8.lt_iff_toNat_lt, GT.gt]
  have h1 : ∀ x y : UInt8, (x == y) = decide (x.toNat = y.toNat) := fun x y => by
    by_cases h : x = y <;> simp [h, UInt8.toNat_inj]
  have h2 : ∀ x y : UInt8, (x = y) ↔ (x.toNat = y.toNat) := fun x y => UInt8.toNat_inj.symm
  simp only [h1, h2]
  grind

end Verif
