import Verif.DataRuns

/-! Data tokens inside CDATA sections. -/

namespace Verif
open Spec

theorem cdataStep_cases {e : Enc} {b : Buf} {p k} (h : cdataStep e b p = .adv k) :
    (e.isInvalid (k + 1) b = false ∧ k + 1 ≤ b.length ∧ (e.bt b = .LEAD2 ∧ k = 1
      ∨ e.bt b = .LEAD3 ∧ k = 2 ∨ e.bt b = .LEAD4 ∧ k = 3)) ∨
    (k = e.m ∧ e.bt b ≠ .LEAD2 ∧ e.bt b ≠ .LEAD3 ∧ e.bt b ≠ .LEAD4
      ∧ e.bt b ≠ .NONXML ∧ e.bt b ≠ .MALFORM ∧ e.bt b ≠ .TRAIL ∧ e.bt b ≠ .RSQB
      ∧ e.bt b ≠ .CR ∧ e.bt b ≠ .LF) := by
  simp only [cdataStep] at h
  generalize e.bt b = t at *
  cases t <;> simp only at h <;> grind

/-- The character classes treated by `cdataStep` and `invalidCases` agree. -/
theorem cdataStep_inv {e : Enc} {b : Buf} {p k} (h : cdataStep e b p = .adv k) :
    invalidCases e b p = .adv k ∨
    (invalidCases e b p = .other ∧ k = e.m ∧ e.bt b ≠ .RSQB ∧ e.bt b ≠ .CR ∧ e.bt b ≠ .LF) := by
  simp only [cdataStep, invalidCases] at h ⊢
  generalize e.bt b = t at *
  cases t <;> simp only at h ⊢ <;> grind

section
variable {e : Enc} {asc : UInt8 → Buf} (s : Supported e asc)
include s

theorem lead_bt {w : Buf} (hl : e.isLead w = true) :
    e.bt w ≠ .CR ∧ e.bt w ≠ .RSQB ∧ e.bt w ≠ .LF := by
  clear s
  simp only [Enc.isLead] at hl
  generalize e.bt w = t at *
  cases t <;> first | (cases hl; done) | decide

theorem cdataLoop_data (b p n) (h : cdataLoop e b p = ⟨.DATA_CHARS, n⟩) :
    ∃ (ws : List Buf) (r : Buf), (∀ w ∈ ws, e.IsChar w ∧ w ≠ asc 0x0A ∧ e.bt w ≠ .CR ∧ w ≠ asc 0x5D) ∧
      b = ws.flatten ++ r ∧ n = p + ws.flatten.length := by
  fun_induction cdataLoop e b p with
  | case1 b p h1 => injection h with _ h; exact ⟨[], b, by simp, by simp, by simp [h]⟩
  | case2 b p h1 r h2 =>
    have := cdataStep_ret h2
    subst this
    injection h with _ h; exact ⟨[], b, by simp, by simp, by simp [h]⟩
  | case3 b p h1 k h2 ih =>
    obtain ⟨ws, r, i1, i2, i3⟩ := ih h
    have key : ∃ w, e.IsChar w ∧ w.length = k + 1 ∧ b = w ++ b.drop (k + 1) ∧
        w ≠ asc 0x0A ∧ e.bt w ≠ .CR ∧ w ≠ asc 0x5D := by
      rcases cdataStep_inv h2 with h3 | ⟨h3, rfl, h4, h5, h6⟩
      · obtain ⟨w, w1, w2, w3, w4⟩ := adv_split s h3
        exact ⟨w, w1, w3, w4, lead_ne s w2 (t := .LF) rfl, (lead_bt s w2).1,
          lead_ne s w2 (t := .RSQB) rfl⟩
      · obtain ⟨w, w1, w2, w3, w4, w5⟩ := other_split s h1 h3
        rw [w5] at h4 h5 h6
        exact ⟨w, w1, w3, w4, bt_ne s (t := .LF) rfl h6, h5, bt_ne s (t := .RSQB) rfl h4⟩
    obtain ⟨w, w1, w3, w4, w5, w6, w7⟩ := key
    refine ⟨w :: ws, r, ?_, ?_, ?_⟩
    · intro u hu
      rcases List.mem_cons.1 hu with rfl | hu
      · exact ⟨w1, w5, w6, w7⟩
      · exact i1 u hu
    · rw [List.flatten_cons, List.append_assoc, ← i2]; exact w4
    · rw [i3, List.flatten_cons, List.length_append]; omega
  | case4 b p h1 h2 => injection h with _ h; exact ⟨[], b, by simp, by simp, by simp [h]⟩

/-- A data token of a CDATA section: legal characters, no line end, `]` at most at the front and
then not beginning `]]>` under any continuation of the input. -/
theorem cdataTokBody_data (b n) (hb : e.mb ≤ b.length)
    (h : cdataTokBody e b = ⟨.DATA_CHARS, n⟩) :
    ∃ (w : Buf) (ws : List Buf) (r : Buf), (∀ u ∈ w :: ws, e.IsChar u ∧ u ≠ asc 0x0A ∧ e.bt u ≠ .CR) ∧ asc 0x5D ∉ ws ∧
      (∀ x q, b ++ x ≠ asc 0x5D ++ (asc 0x5D ++ (asc 0x3E ++ q))) ∧
      b = (w :: ws).flatten ++ r ∧ n = (w :: ws).flatten.length := by
  have l1 := s.asc.len 0x5D
  have l2 := s.asc.len 0x3E
  have key : ∀ w k, e.IsChar w → w.length = k → b = w ++ b.drop k → w ≠ asc 0x0A →
      e.bt w ≠ .CR →
      (∀ x r, b ++ x ≠ asc 0x5D ++ (asc 0x5D ++ (asc 0x3E ++ r))) →
      cdataLoop e (b.drop k) k = ⟨.DATA_CHARS, n⟩ →
      ∃ (w : Buf) (ws : List Buf) (r : Buf), (∀ u ∈ w :: ws, e.IsChar u ∧ u ≠ asc 0x0A ∧ e.bt u ≠ .CR) ∧ asc 0x5D ∉ ws ∧
      (∀ x q, b ++ x ≠ asc 0x5D ++ (asc 0x5D ++ (asc 0x3E ++ q))) ∧
      b = (w :: ws).flatten ++ r ∧ n = (w :: ws).flatten.length := by
    intro w k w1 w2 w3 w4 w5 w6 h
    obtain ⟨ws, r, i1, i2, i3⟩ := cdataLoop_data s _ _ _ h
    refine ⟨w, ws, r, ?_, ?_, w6, ?_, ?_⟩
    · intro u hu
      rcases List.mem_cons.1 hu with rfl | hu
      · exact ⟨w1, w4, w5⟩
      · have := i1 u hu; exact ⟨this.1, this.2.1, this.2.2.1⟩
    · intro hm; exact (i1 _ hm).2.2.2 rfl
    · rw [List.flatten_cons, List.append_assoc, ← i2]; exact w3
    · rw [i3, List.flatten_cons, List.length_append]; omega
  revert h
  fun_cases cdataTokBody e b with
  | case1 r h2 =>
    intro h
    have := invalidCases_err h2
    rw [h] at this; cases this
  | case2 k h2 =>
    intro h
    obtain ⟨w, w1, w2, w3, w4⟩ := adv_split s h2
    refine key w _ w1 w3 w4 (lead_ne s w2 (t := .LF) rfl) (lead_bt s w2).1 ?_ h
    intro x r hx
    rw [w4] at hx
    exact lead_ne s w2 (t := .RSQB) rfl (head_rsqb s w1 hx)
  | case5 h2 h3 h4 h5 h6 h7 =>
    intro h
    obtain ⟨w, w1, w2, w3, w4, w5⟩ := other_split s (by omega) h2
    refine key w _ w1 w3 w4
      (bt_ne s (t := .LF) rfl (by rw [← w5, h3]; decide)) (by rw [← w5, h3]; decide) ?_ h
    intro x r hx
    have d1 : b.drop e.mb ++ x = asc 0x5D ++ (asc 0x3E ++ r) := by
      rw [← drop_app b x _ (by omega), hx, drop_char l1]
    have d2 : b.drop (2 * e.mb) ++ x = asc 0x3E ++ r := by
      rw [Nat.two_mul, ← List.drop_drop, ← drop_app (b.drop e.mb) x _ (by omega), d1,
        drop_char l1]
    have m2 : e.charMatches (b.drop (2 * e.mb)) 0x3E = true := by
      rw [← s.ok.matches_app _ x _ (by omega), d2]
      exact asc_mat s _ (by decide) _
    rw [m2] at h7; simp at h7
  | case7 h2 h3 h4 h5 =>
    intro h
    obtain ⟨w, w1, w2, w3, w4, w5⟩ := other_split s (by omega) h2
    refine key w _ w1 w3 w4
      (bt_ne s (t := .LF) rfl (by rw [← w5, h3]; decide)) (by rw [← w5, h3]; decide) ?_ h
    intro x r hx
    have d1 : b.drop e.mb ++ x = asc 0x5D ++ (asc 0x3E ++ r) := by
      rw [← drop_app b x _ (by omega), hx, drop_char l1]
    have m1 : e.charMatches (b.drop e.mb) 0x5D = true := by
      rw [← s.ok.matches_app _ x _ (by omega), d1]
      exact asc_mat s _ (by decide) _
    exact h5 m1
  | case12 h2 h3 h4 h5 =>
    intro h
    obtain ⟨w, w1, w2, w3, w4, w5⟩ := other_split s (by omega) h2
    refine key w _ w1 w3 w4 (bt_ne s (t := .LF) rfl (by rw [← w5]; assumption))
      (by rw [← w5]; assumption) ?_ h
    intro x r hx
    rw [w4] at hx
    have := head_rsqb s w1 hx
    exact bt_ne s (t := .RSQB) rfl (by rw [← w5]; assumption) this
  | _ => intro h; cases h

end

end Verif
