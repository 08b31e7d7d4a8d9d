import Verif.Refs

/-! C09: numeric character references denote exactly the XML character they spell. -/

namespace Verif.C09
open Verif Spec

/-- The spelling of an ASCII string in the encoding. -/
abbrev spell (asc : UInt8 → Buf) (cs : List UInt8) : Buf := (cs.map asc).flatten

/-- C09, recognition: after `&` (at offset `p`), a character reference token ending at offset `n` is recognised exactly
when `#` and decimal digits, or `#x` and hexadecimal digits, and `;` follow — any number of digits,
at least one. -/
theorem charRef_token {e asc} (s : Supported e asc) (b : Buf) (p n : Nat) :
    scanRef e b p = ⟨.CHAR_REF, n⟩ ↔
    (∃ ds r, ds ≠ [] ∧ (∀ d ∈ ds, isDec d = true) ∧
      b = asc 0x23 ++ (spell asc ds ++ (asc 0x3B ++ r)) ∧ n = p + (ds.length + 2) * e.mb) ∨
    (∃ ds r, ds ≠ [] ∧ (∀ d ∈ ds, (isDec d || isHexLetter d) = true) ∧
      b = asc 0x23 ++ (asc 0x78 ++ (spell asc ds ++ (asc 0x3B ++ r))) ∧
      n = p + (ds.length + 3) * e.mb) := by
  have l (c) := s.asc.len c
  have hne : ∀ t b p n, t ≠ .CHAR_REF → scanNameSemi e t b p ≠ ⟨.CHAR_REF, n⟩ := by
    intro t b p n ht h
    have := scanNameSemi_tok e t b p
    rw [h] at this
    rcases this with h | h
    · simp [Tok.fail] at h
    · exact ht h.symm
  constructor
  · intro h
    rw [scanRef] at h
    split at h
    · cases h
    rename_i hb
    split at h
    · rename_i r hr
      have := nmstrtCases_fail hr
      rw [h] at this; simp [Tok.fail] at this
    · exact absurd h (hne _ _ _ _ (by decide))
    · split at h
      · rename_i hnum
        have h0 := bt_split s (t := .NUM) rfl (by omega) hnum
        rw [scanCharRef] at h
        split at h
        · rename_i hb2
          split at h
          · rename_i hx
            have h1 := mat_split s (by decide) hb2 hx
            rw [scanHexCharRef] at h
            split at h
            · rename_i hb3
              have key : (e.bt ((b.drop e.mb).drop e.mb) = .DIGIT ∨
                  e.bt ((b.drop e.mb).drop e.mb) = .HEX) ∧
                  scanHexLoop e (((b.drop e.mb).drop e.mb).drop e.mb) (p + e.mb + e.mb + e.mb)
                    = ⟨.CHAR_REF, n⟩ := by
                split at h
                · exact ⟨.inl ‹_›, h⟩
                · exact ⟨.inr ‹_›, h⟩
                · cases h
              obtain ⟨ds, r, i1, i2, i3⟩ := (scanHexLoop_iff s _ _ _).1 key.2
              obtain ⟨c, hc, hb4⟩ := s.class_split hexDigitClass hb3
                (by rcases key.1 with h | h <;> rw [h] <;> rfl)
              right
              refine ⟨c :: ds, r, by simp, ?_, ?_, ?_⟩
              · intro d hd
                rcases List.mem_cons.1 hd with rfl | hd
                · exact hc
                · exact i1 d hd
              · rw [spell, List.map_cons, List.flatten_cons, List.append_assoc, ← i2, ← hb4, ← h1]
                exact h0
              · rw [i3, List.length_cons]
                simp only [Nat.add_mul]; omega
            · cases h
          · split at h
            · rename_i hx hdg
              obtain ⟨ds, r, i1, i2, i3⟩ := (scanDecLoop_iff s _ _ _).1 h
              obtain ⟨c, hc, hb4⟩ := s.class_split digitClass hb2 (by simp [hdg])
              left
              refine ⟨c :: ds, r, by simp, ?_, ?_, ?_⟩
              · intro d hd
                rcases List.mem_cons.1 hd with rfl | hd
                · exact hc
                · exact i1 d hd
              · rw [spell, List.map_cons, List.flatten_cons, List.append_assoc, ← i2, ← hb4]
                exact h0
              · rw [i3, List.length_cons]
                simp only [Nat.add_mul]; omega
            · cases h
        · cases h
      · cases h
  · have hnum : ∀ r, scanRef e (asc 0x23 ++ r) p = scanCharRef e r (p + e.mb) := by
      intro r
      have h1 := asc_bt s (t := .NUM) rfl r
      rw [scanRef, if_neg (by have := l 0x23; rw [List.length_append]; omega)]
      simp only [nmstrtCases, h1, drop_char (l 0x23)]
    rintro (⟨ds, r, h1, h2, rfl, rfl⟩ | ⟨ds, r, h1, h2, rfl, rfl⟩)
    · cases ds with
      | nil => exact absurd rfl h1
      | cons d ds =>
        rw [hnum, scanCharRef, spell, List.map_cons, List.flatten_cons, List.append_assoc,
          if_pos (by have := l d; rw [List.length_append]; omega),
          if_neg, drop_char (l d)]
        · have hd : e.bt (asc d ++ ((ds.map asc).flatten ++ (asc 0x3B ++ r))) = .DIGIT := by
            simpa using s.class_app digitClass (h2 d (by simp)) _
          rw [hd]
          simp only
          rw [(scanDecLoop_iff s _ _ _).2 ⟨ds, r, fun d h => h2 d (by simp [h]), rfl, rfl⟩]
          rw [List.length_cons]
          simp only [Nat.add_mul, Res.mk.injEq, true_and]; omega
        · rw [s.matches_asc (by decide)]
          rintro rfl
          exact absurd (h2 0x78 (by simp)) (by decide)
    · cases ds with
      | nil => exact absurd rfl h1
      | cons d ds =>
        rw [hnum, scanCharRef, spell, List.map_cons, List.flatten_cons, List.append_assoc,
          if_pos (by have := l 0x78; rw [List.length_append]; omega),
          if_pos ((s.matches_asc (by decide) _).2 rfl), drop_char (l 0x78), scanHexCharRef,
          if_pos (by have := l d; rw [List.length_append]; omega), drop_char (l d)]
        have hd := s.class_app hexDigitClass (h2 d (by simp))
          ((ds.map asc).flatten ++ (asc 0x3B ++ r))
        rw [(scanHexLoop_iff s _ _ _).2 ⟨ds, r, fun d h => h2 d (by simp [h]), rfl, rfl⟩]
        have he : p + e.mb + e.mb + e.mb + (ds.length + 1) * e.mb = p + ((d :: ds).length + 3) * e.mb := by
          rw [List.length_cons]; simp only [Nat.add_mul]; omega
        rw [he]
        split <;> simp_all

/-- C09, value: for a reference `&#ds;` the number computed is the one the decimal digits spell
if that is an XML character, and -1 (BAD_CHAR_REF) otherwise — for any number of digits, with no
overflow. -/
theorem charRef_dec {e asc} (s : Supported e asc) (ds : List UInt8) (hne : ds ≠ [])
    (hd : ∀ d ∈ ds, isDec d = true) (r : Buf) :
    charRefNumber e (asc 0x26 ++ (asc 0x23 ++ (spell asc ds ++ (asc 0x3B ++ r)))) =
      if XmlChar (numeral 10 ds) then (numeral 10 ds : Int) else -1 := by
  have l (c) := s.asc.len c
  have d2 : (asc 0x26 ++ (asc 0x23 ++ (spell asc ds ++ (asc 0x3B ++ r)))).drop (2 * e.mb)
      = spell asc ds ++ (asc 0x3B ++ r) := by
    rw [Nat.two_mul, ← List.drop_drop, drop_char (l 0x26), drop_char (l 0x23)]
  rw [charRefNumber, d2, if_neg]
  · have h := charRefDec_spec s ds hd r 0 (by decide) _ rfl
    rw [show ((0 : Nat) : Int) = 0 from rfl] at h
    rw [spell, h, ← numeral]
    by_cases hv : numeral 10 ds < 0x110000
    · rw [if_pos hv]
      exact checkCharRefNumber_spec _ hv
    · rw [if_neg hv, if_neg]
      intro hx
      simp only [XmlChar] at hx; omega
  · cases ds with
    | nil => exact absurd rfl hne
    | cons d ds =>
      rw [spell, List.map_cons, List.flatten_cons, List.append_assoc, s.matches_asc (by decide)]
      rintro rfl
      exact absurd (hd 0x78 (by simp)) (by decide)

/-- C09, value, for `&#xds;`. -/
theorem charRef_hex {e asc} (s : Supported e asc) (ds : List UInt8)
    (hd : ∀ d ∈ ds, (isDec d || isHexLetter d) = true) (r : Buf) :
    charRefNumber e (asc 0x26 ++ (asc 0x23 ++ (asc 0x78 ++ (spell asc ds ++ (asc 0x3B ++ r))))) =
      if XmlChar (numeral 16 ds) then (numeral 16 ds : Int) else -1 := by
  have l (c) := s.asc.len c
  have d2 : (asc 0x26 ++ (asc 0x23 ++ (asc 0x78 ++ (spell asc ds ++ (asc 0x3B ++ r))))).drop
      (2 * e.mb) = asc 0x78 ++ (spell asc ds ++ (asc 0x3B ++ r)) := by
    rw [Nat.two_mul, ← List.drop_drop, drop_char (l 0x26), drop_char (l 0x23)]
  have d3 : (asc 0x26 ++ (asc 0x23 ++ (asc 0x78 ++ (spell asc ds ++ (asc 0x3B ++ r))))).drop
      (3 * e.mb) = spell asc ds ++ (asc 0x3B ++ r) := by
    rw [show 3 * e.mb = 2 * e.mb + e.mb by omega, ← List.drop_drop, d2, drop_char (l 0x78)]
  rw [charRefNumber, d2, d3, if_pos ((s.matches_asc (by decide) _).2 rfl),
    spell, charRefHex_spec s ds hd r 0 (by decide) _ rfl, ← numeral]
  by_cases hv : numeral 16 ds < 0x110000
  · rw [if_pos hv]
    exact checkCharRefNumber_spec _ hv
  · rw [if_neg hv, if_neg]
    intro hx
    simp only [XmlChar] at hx; omega

/-- No `c_int` overflow: at every turn the accumulated value and the next one are below 2^31. -/
theorem no_overflow (acc d : Nat) (ha : acc < 0x110000) (hd : d < 16) :
    acc * 16 + d < 2 ^ 31 ∧ acc * 10 + d < 2 ^ 31 := by omega

/-! Non-vacuity: `&#x00000020AC;`, `&#8364;`, and numbers that are no characters. -/
example : scanRef (utf8Enc false) [0x23, 0x78, 0x30, 0x30, 0x32, 0x30, 0x41, 0x43, 0x3B, 0x61] 0
    = ⟨.CHAR_REF, 9⟩ := by decide +kernel
example : charRefNumber (utf8Enc false)
    [0x26, 0x23, 0x78, 0x30, 0x30, 0x32, 0x30, 0x41, 0x43, 0x3B] = 0x20AC := by decide +kernel
example : numeral 16 [0x30, 0x30, 0x32, 0x30, 0x41, 0x43] = 0x20AC := by decide
example : charRefNumber (little2Enc false)
    [0x26, 0, 0x23, 0, 0x38, 0, 0x33, 0, 0x36, 0, 0x34, 0, 0x3B, 0] = 8364 := by decide +kernel
example : charRefNumber (utf8Enc false) [0x26, 0x23, 0x30, 0x3B] = -1 := by decide +kernel
example : charRefNumber (utf8Enc false)
    [0x26, 0x23, 0x78, 0x44, 0x38, 0x30, 0x30, 0x3B] = -1 := by decide +kernel

end Verif.C09
