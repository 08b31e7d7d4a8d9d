import Verif.EntityParser
import Verif.DocStart

/-! # The start of an external entity: detection of the encoding -/

set_option autoImplicit false

namespace Verif.C66
open C43 C53 Spec Verif

/-- The names for encodings with two bytes to the unit. -/
def wide : EncIndex → Bool
  | .utf_16 | .utf_16be | .utf_16le => true
  | _ => false

/-- What the first bytes of an external parsed entity say of its encoding, `idx` being the one named by the application:
a byte order mark and the text after it, or no mark and the text.  A mark is text instead if the encoding named has such
characters. -/
inductive Detected (idx : EncIndex) : Buf → Buf → EncId → Prop where
  | utf8 (t : Buf) (h : idx ≠ .iso_8859_1) (hw : wide idx = false) : Detected idx [0xEF, 0xBB, 0xBF] t .utf8
  | be (t : Buf) (h : idx ≠ .iso_8859_1) : Detected idx [0xFE, 0xFF] t .utf16be
  | le (t : Buf) (h : idx ≠ .iso_8859_1) : Detected idx [0xFF, 0xFE] t .utf16le
  /-- a zero byte -/
  | zeroBe (b : UInt8) (r : Buf) (h : idx ≠ .utf_16le) : Detected idx [] (0 :: b :: r) .utf16be
  | zeroLe (b : UInt8) (r : Buf) (h : idx = .utf_16le) : Detected idx [] (0 :: b :: r) .utf16le
  /-- `<` and a zero byte -/
  | ltLe (r : Buf) (h : idx ≠ .utf_16be ∧ idx ≠ .utf_16) : Detected idx [] (0x3C :: 0 :: r) .utf16le
  | ltBe (r : Buf) (h : idx = .utf_16be ∨ idx = .utf_16) : Detected idx [] (0x3C :: 0 :: r) .utf16be
  | lt (b : UInt8) (r : Buf) (h : b ≠ 0) : Detected idx [] (0x3C :: b :: r) idx.enc
  /-- another byte, with which no mark begins -/
  | char (a : UInt8) (r : Buf) (h0 : a ≠ 0 ∧ a ≠ 0x3C) (h : (a ≠ 0xEF ∧ a ≠ 0xFE ∧ a ≠ 0xFF) ∨ idx = .iso_8859_1)
      (hw : wide idx = true → r ≠ []) : Detected idx [] (a :: r) idx.enc
  /-- the beginning of a mark only -/
  | noMark (a b : UInt8) (r : Buf) (h : idx ≠ .iso_8859_1) (h0 : a = 0xEF ∨ a = 0xFE ∨ a = 0xFF)
      (h1 : ¬ (a = 0xFE ∧ b = 0xFF)) (h2 : ¬ (a = 0xFF ∧ b = 0xFE)) (h3 : a = 0xEF ∧ b = 0xBB → wide idx = true) :
      Detected idx [] (a :: b :: r) idx.enc
  | noMark3 (d : UInt8) (r : Buf) (h : idx ≠ .iso_8859_1) (hw : wide idx = false) (h1 : d ≠ 0xBF) :
      Detected idx [] (0xEF :: 0xBB :: d :: r) idx.enc

/-- Every beginning of the text is decided in the same way, or is too short. -/
theorem Detected.cut {idx : EncIndex} {m t : Buf} {i : EncId} (h : Detected idx m t i) {b x : Buf} (hb : b ++ x = m ++ t) :
    initScan idx .content b = C60.decision m i ∨ initScan idx .content b = .more ∨ initScan idx .content b = .none := by
  match b with
  | [] => exact .inr (.inr rfl)
  | [p] =>
    cases h <;> simp at hb <;> obtain ⟨rfl, -⟩ := hb <;> cases idx <;> simp_all [initScan, C60.decision, wide, EncIndex.enc] <;> grind
  | [p, q] =>
    cases h <;> simp at hb
    case char a r h0 h hw => obtain ⟨rfl, -⟩ := hb; cases idx <;> simp_all [initScan, C60.decision, wide, EncIndex.enc] <;> grind
    all_goals obtain ⟨rfl, rfl, -⟩ := hb
    all_goals cases idx <;> simp_all [initScan, C60.decision, wide, EncIndex.enc] <;> grind
  | p :: q :: o :: b =>
    cases h <;> simp at hb
    case char a r h0 h hw => obtain ⟨rfl, -⟩ := hb; cases idx <;> simp_all [initScan, C60.decision, wide, EncIndex.enc] <;> grind
    case utf8 => obtain ⟨rfl, rfl, rfl, -⟩ := hb; cases idx <;> simp_all [initScan, C60.decision, wide, EncIndex.enc]
    case noMark3 => obtain ⟨rfl, rfl, rfl, -⟩ := hb; cases idx <;> simp_all [initScan, C60.decision, wide, EncIndex.enc]
    all_goals obtain ⟨rfl, rfl, -⟩ := hb
    all_goals cases idx <;> simp_all [initScan, C60.decision, wide, EncIndex.enc] <;> grind

theorem Detected.whole {idx : EncIndex} {m t : Buf} {i : EncId} (h : Detected idx m t i) :
    initScan idx .content (m ++ t) = C60.decision m i := by
  cases h with
  | char a r h0 h hw =>
    match r with
    | [] => cases idx <;> simp_all [initScan, C60.decision, wide, EncIndex.enc]
    | b :: r => cases idx <;> simp_all [initScan, C60.decision, wide, EncIndex.enc] <;> grind
  | _ => cases idx <;> simp_all [initScan, C60.decision, wide, EncIndex.enc] <;> grind

theorem Detected.long {idx : EncIndex} {m t : Buf} {i : EncId} (h : Detected idx m t i) {b x : Buf} (hb : b ++ x = m ++ t)
    (hd : initScan idx .content b = C60.decision m i) : m.length ≤ b.length := by
  match b with
  | [] => cases h <;> cases hd <;> simp
  | [p] =>
    cases h <;> simp at hb <;> try simp
    all_goals obtain ⟨rfl, -⟩ := hb
    all_goals cases idx <;> simp_all [initScan, C60.decision, wide]
  | [p, q] =>
    cases h <;> simp at hb <;> try simp
    obtain ⟨rfl, rfl, -⟩ := hb
    cases idx <;> simp_all [initScan, C60.decision, wide]
  | _ :: _ :: _ :: _ => cases h <;> simp

/-- There is a decision on every text, except on the beginning of a mark, and on what is less than a unit. -/
theorem detected (idx : EncIndex) (w : Buf) (h0 : w ≠ []) :
    (∃ m t i, w = m ++ t ∧ Detected idx m t i) ∨ initScan idx .content w = .more := by
  match w with
  | [] => exact absurd rfl h0
  | [a] =>
    by_cases hm : initScan idx .content [a] = .more
    · exact .inr hm
    · refine .inl ⟨[], [a], idx.enc, rfl, .char a [] ?_ ?_ ?_⟩ <;> cases idx <;> simp_all [initScan, wide] <;> grind
  | a :: b :: r =>
    by_cases hm : initScan idx .content (a :: b :: r) = .more
    · exact .inr hm
    left
    by_cases ha : a = 0
    · subst ha
      by_cases hi : idx = .utf_16le
      · exact ⟨[], _, _, rfl, .zeroLe b r hi⟩
      · exact ⟨[], _, _, rfl, .zeroBe b r hi⟩
    by_cases hl : a = 0x3C
    · subst hl
      by_cases hb : b = 0
      · subst hb
        by_cases hi : idx = .utf_16be ∨ idx = .utf_16
        · exact ⟨[], _, _, rfl, .ltBe r hi⟩
        · exact ⟨[], _, _, rfl, .ltLe r (by simpa using hi)⟩
      · exact ⟨[], _, _, rfl, .lt b r hb⟩
    by_cases hc : (a ≠ 0xEF ∧ a ≠ 0xFE ∧ a ≠ 0xFF) ∨ idx = .iso_8859_1
    · exact ⟨[], _, _, rfl, .char a (b :: r) ⟨ha, hl⟩ hc (by simp)⟩
    have hi : idx ≠ .iso_8859_1 := fun h => hc (.inr h)
    have h3 : a = 0xEF ∨ a = 0xFE ∨ a = 0xFF := by
      refine Classical.byContradiction fun h => hc (.inl ?_)
      simpa [not_or] using h
    by_cases h1 : a = 0xFE ∧ b = 0xFF
    · obtain ⟨rfl, rfl⟩ := h1; exact ⟨_, _, _, rfl, .be r hi⟩
    by_cases h2 : a = 0xFF ∧ b = 0xFE
    · obtain ⟨rfl, rfl⟩ := h2; exact ⟨_, _, _, rfl, .le r hi⟩
    by_cases h4 : a = 0xEF ∧ b = 0xBB → wide idx = true
    · exact ⟨[], _, _, rfl, .noMark a b r hi h3 h1 h2 h4⟩
    · obtain ⟨⟨rfl, rfl⟩, hw⟩ : (a = 0xEF ∧ b = 0xBB) ∧ wide idx = false := by
        by_cases h : a = 0xEF ∧ b = 0xBB
        · refine ⟨h, ?_⟩
          cases hw : wide idx
          · rfl
          · exact absurd (fun _ => hw) h4
        · exact absurd (fun h' => absurd h' h) h4
      match r with
      | [] => exact absurd (by cases idx <;> simp_all [initScan, wide]) hm
      | d :: r =>
        by_cases hd : d = 0xBF
        · subst hd; exact ⟨_, _, _, rfl, .utf8 r hi hw⟩
        · exact ⟨[], _, _, rfl, .noMark3 d r hi hw hd⟩

end Verif.C66
