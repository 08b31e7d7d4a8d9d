import Verif.DeclLemmas

/-! C16: built-in encoding names are matched case-insensitively and nothing else matches. -/

namespace Verif.C16
open Verif

/-- Specification: two characters equal up to the case of ASCII letters. -/
def SameLetter (a b : UInt8) : Prop :=
  a = b ∨ (0x41 ≤ a ∧ a ≤ 0x5A ∧ b.toNat = a.toNat + 32) ∨
    (0x41 ≤ b ∧ b ≤ 0x5A ∧ a.toNat = b.toNat + 32)

instance (a b) : Decidable (SameLetter a b) := by unfold SameLetter; infer_instance

/-- Two names equal up to the case of ASCII letters. -/
def SameName (s t : List UInt8) : Prop :=
  s.length = t.length ∧ ∀ p ∈ s.zip t, SameLetter p.1 p.2

instance (s t) : Decidable (SameName s t) := by unfold SameName; infer_instance

def codes (s : List Char) : List UInt8 := s.map fun c => UInt8.ofNat c.toNat

/-- The six names of the documentation. -/
def names : List (List UInt8 × EncIndex) :=
  [(codes ['I','S','O','-','8','8','5','9','-','1'], .iso_8859_1),
   (codes ['U','S','-','A','S','C','I','I'], .us_ascii),
   (codes ['U','T','F','-','8'], .utf_8),
   (codes ['U','T','F','-','1','6'], .utf_16),
   (codes ['U','T','F','-','1','6','B','E'], .utf_16be),
   (codes ['U','T','F','-','1','6','L','E'], .utf_16le)]

theorem upper_iff (a b : UInt8) : upper a = upper b ↔ SameLetter a b := by
  have : ∀ a : UInt8, ∀ b : UInt8, (upper a = upper b ↔ SameLetter a b) := by
    intro a b
    have h1 : (0x61 ≤ a ∧ a ≤ 0x7A) ↔ (97 ≤ a.toNat ∧ a.toNat ≤ 122) := by
      simp [UInt8.le_iff_toNat_le]
    have h2 : (0x61 ≤ b ∧ b ≤ 0x7A) ↔ (97 ≤ b.toNat ∧ b.toNat ≤ 122) := by
      simp [UInt8.le_iff_toNat_le]
    have s : ∀ x : UInt8, 97 ≤ x.toNat → (x - 0x20).toNat = x.toNat - 32 := by
      intro x hx
      rw [UInt8.toNat_sub_of_le]
      · rfl
      · rw [UInt8.le_iff_toNat_le]; exact Nat.le_trans (by decide) hx
    simp only [upper, SameLetter, UInt8.le_iff_toNat_le, ← UInt8.toNat_inj]
    have n1 : (0x61 : UInt8).toNat = 97 := rfl
    have n2 : (0x7A : UInt8).toNat = 122 := rfl
    have n3 : (0x41 : UInt8).toNat = 65 := rfl
    have n4 : (0x5A : UInt8).toNat = 90 := rfl
    rw [n1, n2, n3, n4]
    by_cases ha : 97 ≤ a.toNat ∧ a.toNat ≤ 122 <;> by_cases hb : 97 ≤ b.toNat ∧ b.toNat ≤ 122
    · rw [if_pos ha, if_pos hb, s a ha.1, s b hb.1]; omega
    · rw [if_pos ha, if_neg hb, s a ha.1]; omega
    · rw [if_neg ha, if_pos hb, s b hb.1]; omega
    · rw [if_neg ha, if_neg hb]; omega
  exact this a b

theorem upper_zero (c : UInt8) : upper c = 0 ↔ c = 0 := by
  revert c; exact UInt8.forall_dec (by decide +kernel)

/-- The comparison of C strings is equality up to case. -/
theorem streqci_iff (s t : List UInt8) (hs : 0 ∉ s) (ht : 0 ∉ t) :
    streqci s t = true ↔ SameName s t := by
  induction s generalizing t with
  | nil =>
    cases t with
    | nil => simp [streqci, SameName]
    | cons c t =>
      have hc : c ≠ 0 := by intro h; exact ht (by simp [h])
      have := mt (upper_zero c).1 hc
      simp [streqci, SameName, this]
  | cons c s ih =>
    have hc : c ≠ 0 := by intro h; exact hs (by simp [h])
    have hc0 := mt (upper_zero c).1 hc
    cases t with
    | nil => simp [streqci, SameName, hc0]
    | cons d t =>
      have ih := ih t (fun h => hs (by simp [h])) (fun h => ht (by simp [h]))
      rw [streqci]
      by_cases hu : upper c = upper d
      · rw [if_neg (by simpa using hu), if_neg hc0, ih]
        have := (upper_iff c d).1 hu
        simp only [SameName, List.length_cons, List.zip_cons_cons, List.mem_cons, forall_eq_or_imp]
        constructor
        · rintro ⟨a, b⟩; exact ⟨by omega, this, b⟩
        · rintro ⟨a, _, b⟩; exact ⟨by omega, b⟩
      · rw [if_pos hu]
        have := mt (upper_iff c d).2 hu
        simp only [SameName, List.length_cons, List.zip_cons_cons, List.mem_cons, forall_eq_or_imp]
        simp [this]

theorem sameLetter_symm {a b} (h : SameLetter a b) : SameLetter b a := by
  rw [← upper_iff] at *; exact h.symm
theorem sameLetter_trans {a b c} (h : SameLetter a b) (h' : SameLetter b c) : SameLetter a c := by
  rw [← upper_iff] at *; exact h.trans h'

theorem sameName_cancel : ∀ {s t u : List UInt8}, SameName s t → SameName s u → SameName t u
  | [], [], [], _, _ => by simp [SameName]
  | [], [], _ :: _, _, h => by simp [SameName] at h
  | [], _ :: _, _, h, _ => by simp [SameName] at h
  | _ :: _, [], _, h, _ => by simp [SameName] at h
  | _ :: _, _ :: _, [], _, h => by simp [SameName] at h
  | a :: s, b :: t, c :: u, h, h' => by
    simp only [SameName, List.length_cons, List.zip_cons_cons, List.mem_cons, forall_eq_or_imp] at h h' ⊢
    have := @sameName_cancel s t u ⟨by omega, h.2.2⟩ ⟨by omega, h'.2.2⟩
    exact ⟨by have := this.1; omega, sameLetter_trans (sameLetter_symm h.2.1) h'.2.1, this.2⟩

theorem names_eq : encodingNames = names := by decide +kernel

theorem names_distinct : ∀ p ∈ names, ∀ q ∈ names, SameName p.1 q.1 → p = q := by decide +kernel

theorem names_nul : ∀ p ∈ names, (0 : UInt8) ∉ p.1 := by decide +kernel

/-- C16: an application-supplied name (a C string) selects a built-in encoding exactly when it is
that encoding's name up to letter case. -/
theorem index_iff (s : List UInt8) (hs : 0 ∉ s) (i : EncIndex) :
    getEncodingIndex (some s) = some i ↔ ∃ n, (n, i) ∈ names ∧ SameName s n := by
  simp only [getEncodingIndex, names_eq, Option.map_eq_some_iff]
  constructor
  · rintro ⟨⟨n, j⟩, h, rfl⟩
    have hm := List.mem_of_find?_eq_some h
    have hp := List.find?_some h
    exact ⟨n, hm, (streqci_iff s n hs (names_nul _ hm)).1 hp⟩
  · rintro ⟨n, hn, h⟩
    have hp := (streqci_iff s n hs (names_nul _ hn)).2 h
    cases hf : names.find? (fun p => streqci s p.1) with
    | none => exact absurd hp (by simpa using List.find?_eq_none.1 hf (n, i) hn)
    | some p =>
      refine ⟨p, rfl, ?_⟩
      have hm := List.mem_of_find?_eq_some hf
      have h0 := List.find?_some hf
      have h2 := (streqci_iff s p.1 hs (names_nul _ hm)).1 h0
      have := names_distinct p hm (n, i) hn (sameName_cancel h2 h)
      rw [this]

/-- C16: any other name is unknown. -/
theorem index_none (s : List UInt8) (hs : 0 ∉ s) :
    getEncodingIndex (some s) = none ↔ ¬ ∃ p ∈ names, SameName s p.1 := by
  constructor
  · rintro h ⟨⟨n, i⟩, hn, h2⟩
    have := (index_iff s hs i).2 ⟨n, hn, h2⟩
    rw [h] at this; simp at this
  · intro h
    cases hf : getEncodingIndex (some s) with
    | none => rfl
    | some i =>
      obtain ⟨n, hn, h2⟩ := (index_iff s hs i).1 hf
      exact absurd ⟨(n, i), hn, h2⟩ h

theorem utf16_name : codes ['U','T','F','-','1','6'] = [0x55, 0x54, 0x46, 0x2D, 0x31, 0x36] := by decide

/-- C16 for the encoding named in an XML declaration (ASCII text spelled in the current encoding),
partial: names of exactly 127 characters are excluded, see `long_name_panics`. "UTF-16" in a 16-bit
encoding keeps the current one. -/
theorem declared_partial {x asc} (s : XSupported x asc) (n : List UInt8)
    (hn : ∀ c ∈ n, c < 0x80) (h0 : 0 ∉ n) (h127 : n.length ≠ 127) :
    findEncoding x (spell asc n) =
      if SameName n (codes ['U','T','F','-','1','6']) ∧ x.e.mb = 2 then .same
      else match getEncodingIndex (some n) with
        | some i => .builtin i.enc
        | none => .unknown := by
  obtain ⟨h1, h2⟩ := conv_ascii s n hn 127
  rw [findEncoding]
  simp only [h1, h2]
  by_cases hl : 127 < n.length
  · have hne : spell asc (n.drop 127) ≠ [] := by
      intro h
      have := congrArg List.length (spell_eq_nil s h)
      rw [List.length_drop] at this; simp at this; omega
    have hnone : getEncodingIndex (some n) = none := by
      rw [index_none n h0]
      rintro ⟨p, hp, hs⟩
      have : ∀ p ∈ names, p.1.length < 20 := by decide +kernel
      have := this p hp; have := hs.1; omega
    have h16 : ¬ (SameName n (codes ['U','T','F','-','1','6']) ∧ x.e.mb = 2) := by
      rintro ⟨hs, _⟩
      have := hs.1; simp [codes] at this; omega
    rw [if_pos hne, if_neg h16, hnone]
  · have ht : n.take 127 = n := List.take_of_length_le (by omega)
    have hd : n.drop 127 = [] := List.drop_of_length_le (by omega)
    rw [hd, spell_nil, if_neg (by simp), ht, if_neg h127]
    have hu : (streqci n [0x55, 0x54, 0x46, 0x2D, 0x31, 0x36] && x.e.mb == 2) = true ↔
        SameName n (codes ['U','T','F','-','1','6']) ∧ x.e.mb = 2 := by
      rw [utf16_name, ← streqci_iff n _ h0 (by decide)]
      simp
    by_cases hc : SameName n (codes ['U','T','F','-','1','6']) ∧ x.e.mb = 2
    · rw [if_pos (hu.2 hc), if_pos hc]
    · rw [if_neg (fun h => hc (hu.1 h)), if_neg hc]
      split <;> rename_i h <;> rw [h]

/-- C16 fails for declared names of exactly 127 characters: the library panics. -/
theorem long_name_panics {x asc} (s : XSupported x asc) (n : List UInt8)
    (hn : ∀ c ∈ n, c < 0x80) (hl : n.length = 127) : findEncoding x (spell asc n) = .panic := by
  obtain ⟨h1, h2⟩ := conv_ascii s n hn 127
  rw [findEncoding]
  simp only [h1, h2]
  rw [List.drop_of_length_le (by omega), List.take_of_length_le (by omega), spell_nil,
    if_neg (by simp), if_pos hl]

/-- 127 times 'A' as a declared encoding name. -/
example : findEncoding (utf8X false) (spell asc1 (List.replicate 127 0x41)) = .panic :=
  long_name_panics (.utf8 false) _ (fun c hc => by rw [List.eq_of_mem_replicate hc]; decide) (by simp)

example : getEncodingIndex (some (codes ['u','t','F','-','8'])) = some .utf_8 ∧
    getEncodingIndex (some (codes ['l','a','t','i','n','1'])) = none := by decide +kernel

end Verif.C16
