import Verif.Locality

/-! Lemmas: attribute-value and entity-value tokenizers on buffers made of whole characters. -/

namespace Verif

/-- The number of bytes the encoding assigns to the character at the head of the buffer. -/
def Enc.charLen (e : Enc) (b : Buf) : Nat :=
  match e.bt b with
  | .LEAD2 => 2
  | .LEAD3 => 3
  | .LEAD4 => 4
  | _ => e.mb

/-- The buffer is a concatenation of whole characters. -/
inductive WholeChars (e : Enc) : Buf → Prop where
  | nil : WholeChars e []
  | cons (b : Buf) (h1 : e.mb ≤ b.length) (h : e.charLen b ≤ b.length)
      (t : WholeChars e (b.drop (e.charLen b))) : WholeChars e b

theorem WholeChars.cases' {e b} (h : WholeChars e b) :
    b.length < e.mb ∨ (e.charLen b ≤ b.length ∧ WholeChars e (b.drop (e.charLen b))) := by
  cases h with
  | nil => left; simp [Enc.mb]
  | cons _ _ h t => right; exact ⟨h, t⟩

theorem attValLoop_bnd (e b p) (h : WholeChars e b) :
    (attValLoop e b p).next ≤ p + b.length ∧
    ((attValLoop e b p).tok.isError = false → p ≤ (attValLoop e b p).next ∧
      (e.mb ≤ b.length → 0 < (attValLoop e b p).next)) := by
  have h1 := fun b p => (scanRef_bnd e b p).lo
  have h2 := fun b p => (scanRef_bnd e b p).hi
  fun_induction attValLoop e b p <;>
    grind [→ WholeChars.cases', Enc.charLen, Enc.mb, List.length_drop, Tok.isError, Tok.toInt]

theorem entValLoop_bnd (e b p) (h : WholeChars e b) :
    (entValLoop e b p).next ≤ p + b.length ∧
    ((entValLoop e b p).tok.isError = false → p ≤ (entValLoop e b p).next ∧
      (e.mb ≤ b.length → 0 < (entValLoop e b p).next)) := by
  have h1 := fun b p => (scanRef_bnd e b p).lo
  have h2 := fun b p => (scanRef_bnd e b p).hi
  have h3 := fun b p => (scanPercent_bnd e b p).lo
  have h4 := fun b p => (scanPercent_bnd e b p).hi
  fun_induction entValLoop e b p <;>
    grind [→ WholeChars.cases', Enc.charLen, Enc.mb, List.length_drop, Tok.isError, Tok.toInt]

theorem charLen_app {e : Enc} (ok : e.Ok) (b x) (h : e.mb ≤ b.length) :
    e.charLen (b ++ x) = e.charLen b := by
  simp only [Enc.charLen, ok.bt_app b x h]

/-- Prepending a whole character. -/
theorem WholeChars.take_add {e : Enc} (ok : e.Ok) {b : Buf} {k n : Nat} (hk : e.charLen b = k)
    (hm : e.mb ≤ k) (hl : k ≤ b.length) (h : WholeChars e ((b.drop k).take n)) :
    WholeChars e (b.take (k + n)) := by
  have h1 : b.take (k + n) = b.take k ++ (b.drop k).take n := by
    rw [List.take_add]
  have h2 : (b.take k).length = k := by simp [hl]
  have h3 : e.charLen (b.take k) = k := by
    rw [← hk]
    conv => rhs; rw [← List.take_append_drop k b]
    rw [charLen_app ok _ _ (by omega), hk]
  have h4 : e.charLen (b.take (k + n)) = k := by
    rw [h1, charLen_app ok _ _ (by omega), h3]
  refine .cons _ ?_ ?_ ?_
  · rw [h1, List.length_append]; omega
  · rw [h4, h1, List.length_append]; omega
  · rw [h4, h1, List.drop_append_of_le_length (by omega), List.drop_of_length_le (by omega)]
    exact h

theorem invalidCases_charLen {e b p k} (hk : invalidCases e b p = .adv k) :
    e.charLen b = k + 1 ∧ (k + 1 = 2 ∨ k + 1 = 3 ∨ k + 1 = 4) := by
  simp only [invalidCases, Enc.charLen] at *
  generalize e.bt b = t at *
  cases t <;> simp only at hk ⊢ <;> grind

theorem invalidCases_charLen' {e b p} (hk : invalidCases e b p = .other) :
    e.charLen b = e.mb := by
  simp only [invalidCases, Enc.charLen] at *
  generalize e.bt b = t at *
  cases t <;> simp only at hk ⊢ <;> grind

/-- One character further along. -/
theorem WholeChars.ex {e : Enc} (ok : e.Ok) {b : Buf} {k p q : Nat} (hk : e.charLen b = k)
    (hm : e.mb ≤ k) (hl : k ≤ b.length)
    (h : ∃ n, q = p + k + n + e.mb ∧ n + e.mb ≤ (b.drop k).length ∧
      WholeChars e ((b.drop k).take n)) :
    ∃ n, q = p + n + e.mb ∧ n + e.mb ≤ b.length ∧ WholeChars e (b.take n) := by
  obtain ⟨n, h1, h2, h3⟩ := h
  simp only [List.length_drop] at h2
  exact ⟨k + n, by omega, by omega, .take_add ok hk hm hl h3⟩

/-- The text between the quotes of an accepted literal consists of whole characters. -/
theorem scanLit_whole {e : Enc} (ok : e.Ok) (hm : e.mb ≤ 2) (op b p)
    (h : (scanLit e op b p).tok = .LITERAL) :
    ∃ n, (scanLit e op b p).next = p + n + e.mb ∧ n + e.mb ≤ b.length ∧
      WholeChars e (b.take n) := by
  fun_induction scanLit e op b p with
  | case2 b p h1 r h2 =>
    have := invalidCases_err h2
    rw [h] at this; cases this
  | case3 b p h1 k h2 ih =>
    have h3 := invalidCases_charLen h2
    exact WholeChars.ex ok h3.1 (by omega) (invalidCases_adv h2) (ih h)
  | case5 | case6 | case7 | case8 | case9 | case10 =>
    exact ⟨0, by simp_all, by simp_all; try omega, .nil⟩
  | case12 b p h1 h2 _ _ ih | case13 b p h1 h2 _ ih =>
    exact WholeChars.ex ok (invalidCases_charLen' h2) (by omega) (by omega) (ih h)
  | _ => cases h

end Verif
