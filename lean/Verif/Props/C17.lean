import Verif.Props.C16

/-! C17: encoding auto-detection follows the byte-order mark rules. -/

namespace Verif.C17
open Verif

/-- Specification of what a document entity is read as when no encoding was given from outside,
once three bytes are there: byte-order marks select UTF-16BE / UTF-16LE / UTF-8 and are skipped, a
NUL in the first (second) byte selects UTF-16BE (UTF-16LE), everything else is UTF-8. -/
def expected (a b c : UInt8) : Init :=
  if [a, b] = [0xFE, 0xFF] then .bom .utf16be 2
  else if [a, b] = [0xFF, 0xFE] then .bom .utf16le 2
  else if [a, b, c] = [0xEF, 0xBB, 0xBF] then .bom .utf8 3
  else if a = 0 then .scan .utf16be
  else if b = 0 then .scan .utf16le
  else .scan .utf8

/-- C17: the decision on a document of three or more bytes. -/
theorem detect (a b c : UInt8) (r : Buf) :
    initScan .noEnc .prolog (a :: b :: c :: r) = expected a b c := by
  unfold expected
  simp only [initScan]
  by_cases h1 : a = 0xFE ∧ b = 0xFF
  · simp [h1]
  by_cases h2 : a = 0x3C ∧ b = 0
  · obtain ⟨rfl, rfl⟩ := h2; simp
  by_cases h3 : a = 0xFF ∧ b = 0xFE
  · obtain ⟨rfl, rfl⟩ := h3; simp
  by_cases h4 : a = 0xEF ∧ b = 0xBB
  · obtain ⟨rfl, rfl⟩ := h4; simp [EncIndex.enc]
  · have h1' : ¬ ([a, b] = [0xFE, 0xFF]) := by simpa using h1
    have h3' : ¬ ([a, b] = [0xFF, 0xFE]) := by simpa using h3
    have h4' : ¬ ([a, b, c] = [0xEF, 0xBB, 0xBF]) := by
      intro h; simp at h; exact h4 ⟨h.1, h.2.1⟩
    rw [if_neg h1, if_neg h2, if_neg h3, if_neg h4, if_neg h1', if_neg h3', if_neg h4']
    simp [EncIndex.enc]

/-- C17: with two bytes the decision is already that, except that EF BB waits for the third. -/
theorem detect2 (a b : UInt8) : initScan .noEnc .prolog [a, b] =
    if [a, b] = [0xEF, 0xBB] then .more else expected a b 0 := by
  unfold expected
  simp only [initScan]
  by_cases h1 : a = 0xFE ∧ b = 0xFF
  · obtain ⟨rfl, rfl⟩ := h1; simp
  by_cases h2 : a = 0x3C ∧ b = 0
  · obtain ⟨rfl, rfl⟩ := h2; simp
  by_cases h3 : a = 0xFF ∧ b = 0xFE
  · obtain ⟨rfl, rfl⟩ := h3; simp
  by_cases h4 : a = 0xEF ∧ b = 0xBB
  · obtain ⟨rfl, rfl⟩ := h4; simp
  · have h1' : ¬ ([a, b] = [0xFE, 0xFF]) := by simpa using h1
    have h3' : ¬ ([a, b] = [0xFF, 0xFE]) := by simpa using h3
    have h4' : ¬ ([a, b] = [0xEF, 0xBB]) := by simpa using h4
    rw [if_neg h1, if_neg h2, if_neg h3, if_neg h4, if_neg h4', if_neg h1', if_neg h3']
    simp [EncIndex.enc]

/-- C17, partial (the first byte alone is excluded, see `first_byte_unstable`): with any encoding
given from outside or none, in a document or an external entity, a decision made on two or more
bytes is not changed by the bytes that follow. -/
theorem stable_partial (idx : EncIndex) (st : InitState) (b x : Buf) (hb : 2 ≤ b.length)
    (h : initScan idx st b ≠ .more) : initScan idx st (b ++ x) = initScan idx st b := by
  match b, hb with
  | [p, q], _ =>
    show initScan idx st (p :: q :: x) = _
    simp only [initScan] at h ⊢
    grind
  | p :: q :: c :: r, _ => rfl

/-- C17: nothing is decided about an empty document, and waiting is only asked for on one byte, or
on two that may begin a UTF-8 byte-order mark. -/
theorem more_only (idx : EncIndex) (st : InitState) (b : Buf) (h : initScan idx st b = .more) :
    b.length = 1 ∨ b = [0xEF, 0xBB] := by
  match b with
  | [] => simp [initScan] at h
  | [p] => simp
  | [p, q] =>
    right
    simp only [initScan] at h
    grind
  | p :: q :: c :: r =>
    exfalso
    simp only [initScan] at h
    grind

/-- C17 fails on a single byte: a document that begins with a space and is delivered byte by byte
is fixed to be UTF-8, although the same bytes delivered together are UTF-16LE. -/
theorem first_byte_unstable :
    initScan .noEnc .prolog [0x20] = .scan .utf8 ∧
    initScan .noEnc .prolog ([0x20] ++ [0x00, 0x3C, 0x00]) = .scan .utf16le := by
  decide +kernel

/-- Single bytes are safe exactly when they do not decide, and they decide unless they can begin a
byte-order mark or are NUL or '<'. -/
theorem first_byte (a : UInt8) : initScan .noEnc .prolog [a] =
    if a = 0xFE ∨ a = 0xFF ∨ a = 0xEF ∨ a = 0 ∨ a = 0x3C then .more else .scan .utf8 := by
  revert a; exact UInt8.forall_dec (by decide +kernel)

example : initScan .noEnc .prolog [0xEF, 0xBB, 0xBF, 0x3C] = .bom .utf8 3 ∧
    initScan .noEnc .prolog [0x3C, 0x00] = .scan .utf16le := by decide +kernel

end Verif.C17
