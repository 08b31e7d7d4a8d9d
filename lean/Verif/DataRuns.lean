import Verif.Toks
import Verif.Spec.Lists

/-! Runs of character data, PI data and literals as strings of legal characters. -/

namespace Verif
open Spec

/-- Every chunk is a legal character. -/
def Enc.Chars (e : Enc) (ws : List Buf) : Prop := ∀ w ∈ ws, e.IsChar w

theorem Enc.Chars.nil {e : Enc} : e.Chars [] := by intro w h; cases h
theorem Enc.Chars.cons {e : Enc} {w ws} (h : e.IsChar w) (h2 : e.Chars ws) : e.Chars (w :: ws) := by
  intro x hx
  rcases List.mem_cons.1 hx with rfl | hx
  · exact h
  · exact h2 x hx
theorem Enc.Chars.head {e : Enc} {w ws} (h : e.Chars (w :: ws)) : e.IsChar w := h w (by simp)
theorem Enc.Chars.tail {e : Enc} {w ws} (h : e.Chars (w :: ws)) : e.Chars ws :=
  fun x hx => h x (by simp [hx])
theorem Enc.Chars.append {e : Enc} {u v} (h : e.Chars u) (h2 : e.Chars v) : e.Chars (u ++ v) := by
  intro x hx
  rcases List.mem_append.1 hx with hx | hx
  · exact h x hx
  · exact h2 x hx

section
variable {e : Enc} {asc : UInt8 → Buf} (s : Supported e asc)
include s

theorem adv_split {b : Buf} {p k} (h : invalidCases e b p = .adv k) :
    ∃ w, e.IsChar w ∧ e.isLead w = true ∧ w.length = k + 1 ∧ b = w ++ b.drop (k + 1) := by
  obtain ⟨h1, h2, h3, _⟩ := isChar_of_adv s.ok s.mb h
  exact ⟨_, h1, h2, by simp [h3], (List.take_append_drop _ _).symm⟩

theorem other_split {b : Buf} {p} (hb : ¬ b.length < e.mb) (h : invalidCases e b p = .other) :
    ∃ w, e.IsChar w ∧ e.isLead w = false ∧ w.length = e.mb ∧ b = w ++ b.drop e.mb
      ∧ e.bt b = e.bt w := by
  obtain ⟨h1, h2, h3⟩ := isChar_of_other s.ok (Nat.le_of_not_lt hb) h
  exact ⟨_, h1, h2, by simp; omega, (List.take_append_drop _ _).symm, h3.symm⟩

/-- A lead-byte character is not an ASCII character of a single-character class. -/
theorem lead_ne {w : Buf} (hl : e.isLead w = true) {t : ByteType} {c} (ht : t.single = some c) :
    w ≠ asc c := by
  rintro rfl
  rw [asc_nl s ht] at hl; cases hl

theorem bt_ne {w : Buf} {t : ByteType} {c} (ht : t.single = some c) (h : e.bt w ≠ t) :
    w ≠ asc c := by
  rintro rfl
  have := asc_bt s ht []
  rw [List.append_nil] at this
  exact h this

omit s in
theorem drop_char {w r : Buf} {n} (h : w.length = n) : (w ++ r).drop n = r := by
  rw [← h, List.drop_left]

/-! ### PI data -/

theorem scanPiData_sound (t b p n) (ht : t.isError = false) (h : scanPiData e t b p = ⟨t, n⟩) :
    ∃ ws r, e.Chars ws ∧ NoPair (asc 0x3F) (asc 0x3E) (ws ++ [asc 0x3F]) ∧
      b = ws.flatten ++ (asc 0x3F ++ (asc 0x3E ++ r)) ∧ n = p + ws.flatten.length + 2 * e.mb := by
  fun_induction scanPiData e t b p with
  | case1 => injection h with h; subst h; cases ht
  | case2 b p h1 r h2 =>
    have := invalidCases_err h2
    rw [h, ht] at this; cases this
  | case3 b p h1 k h2 ih =>
    obtain ⟨ws, r, i1, i2, i3, i4⟩ := ih h
    obtain ⟨w, w1, w2, w3, w4⟩ := adv_split s h2
    refine ⟨w :: ws, r, .cons w1 i1, NoPair.cons_ne (lead_ne s w2 (t := .QUEST) rfl) i2, ?_, ?_⟩
    · rw [List.flatten_cons, List.append_assoc, ← i3]; exact w4
    · rw [i4, List.flatten_cons, List.length_append]; omega
  | case4 => injection h with h; subst h; cases ht
  | case5 b p h1 h2 h3 h4 h5 =>
    have e1 := bt_split s (t := .QUEST) rfl (by omega) h3
    have e2 := mat_split s (c := 0x3E) (by decide) (by omega) h5
    refine ⟨[], b.drop (2 * e.mb), .nil, trivial, ?_, ?_⟩
    · rw [List.flatten_nil, List.nil_append]
      conv => lhs; rw [e1, e2, List.drop_drop, ← Nat.two_mul]
    · injection h with _ h; simp [← h]
  | case6 b p h1 h2 h3 h4 h5 ih =>
    obtain ⟨ws, r, i1, i2, i3, i4⟩ := ih h
    have e1 := bt_split s (t := .QUEST) rfl (by omega) h3
    refine ⟨asc 0x3F :: ws, r, .cons (asc_char s (t := .QUEST) rfl) i1, ?_, ?_, ?_⟩
    · cases ws with
      | nil => refine ⟨fun h => h5 ?_, trivial⟩; rw [i3, h.2]; exact asc_mat s _ (by decide) _
      | cons w ws =>
        refine ⟨fun h => h5 ?_, i2⟩
        rw [i3, h.2, List.flatten_cons, List.append_assoc]; exact asc_mat s _ (by decide) _
    · rw [List.flatten_cons, List.append_assoc, ← i3]; exact e1
    · rw [i4, List.flatten_cons, List.length_append, s.asc.len]; omega
  | case7 b p h1 h2 h3 ih =>
    obtain ⟨ws, r, i1, i2, i3, i4⟩ := ih h
    obtain ⟨w, w1, w2, w3, w4, w5⟩ := other_split s h1 h2
    refine ⟨w :: ws, r, .cons w1 i1, NoPair.cons_ne (bt_ne s (t := .QUEST) rfl ?_) i2, ?_, ?_⟩
    · rw [← w5]; exact h3
    · rw [List.flatten_cons, List.append_assoc, ← i3]; exact w4
    · rw [i4, List.flatten_cons, List.length_append]; omega

theorem scanPiData_complete (t : Tok) (ws : List Buf) (r p) (hw : e.Chars ws)
    (hd : NoPair (asc 0x3F) (asc 0x3E) (ws ++ [asc 0x3F])) :
    scanPiData e t (ws.flatten ++ (asc 0x3F ++ (asc 0x3E ++ r))) p
      = ⟨t, p + ws.flatten.length + 2 * e.mb⟩ := by
  have l1 := s.asc.len 0x3F
  have l2 := s.asc.len 0x3E
  induction ws generalizing p with
  | nil =>
    rw [List.flatten_nil, List.nil_append, scanPiData, if_neg (by simp [l1]),
      invalidCases_asc s (t := .QUEST) rfl, asc_bt s (t := .QUEST) rfl]
    simp only [drop_char l1]
    rw [if_neg (by simp [l2]), if_pos (asc_mat s _ (by decide) _)]
    simp
  | cons w ws ih =>
    have hw1 := hw.head
    have ih := ih (p + w.length) hw.tail hd.tail
    have hlen := e.isChar_len s.mb hw1
    rw [List.flatten_cons, List.append_assoc, scanPiData,
      if_neg (by rw [List.length_append]; omega)]
    by_cases hl : e.isLead w
    · obtain ⟨h1, h2⟩ := invalidCases_lead s.ok s.mb hw1 hl
        (ws.flatten ++ (asc 0x3F ++ (asc 0x3E ++ r))) p
      rw [h1]
      simp only [Nat.sub_add_cancel h2, List.drop_left]
      rw [ih, List.length_append, Nat.add_assoc p]
    · have hl : e.isLead w = false := by simpa using hl
      have hlen := e.isChar_len_nl hw1 hl
      rw [invalidCases_nl s.ok s.mb hw1 hl]
      have next : scanPiData e t (ws.flatten ++ (asc 0x3F ++ (asc 0x3E ++ r)))
          (p + e.mb) = ⟨t, p + (w ++ ws.flatten).length + 2 * e.mb⟩ := by
        rw [← hlen, ih, List.length_append, Nat.add_assoc p, hlen]
      simp only [drop_char hlen]
      split
      · rename_i h3
        rw [char_bt s hw1 rfl] at h3
        have hnd : e.charMatches (ws.flatten ++ (asc 0x3F ++ (asc 0x3E ++ r))) 0x3E
            = false := by
          rw [Bool.eq_false_iff]
          intro h4
          cases ws with
          | nil =>
            rw [List.flatten_nil, List.nil_append,
              char_mat s (asc_char s (t := .QUEST) rfl) (t := .GT) rfl] at h4
            exact hd.1 ⟨h3, h4⟩
          | cons w' ws' =>
            rw [List.flatten_cons, List.append_assoc,
              char_mat s hw.tail.head (t := .GT) rfl] at h4
            exact hd.1 ⟨h3, h4⟩
        rw [if_neg (by simp [l1]; omega), hnd, next]
        simp
      · exact next

/-! ### Literals -/

theorem scanLit_chars (t : ByteType) (c : UInt8) (ht : t.single = some c)
    (hq : t = .QUOT ∨ t = .APOS) (b p n) (h : scanLit e t b p = ⟨.LITERAL, n⟩) :
    ∃ ws r, e.Chars ws ∧ asc c ∉ ws ∧ b = ws.flatten ++ (asc c ++ r) ∧
      n = p + ws.flatten.length + e.mb := by
  fun_induction scanLit e t b p with
  | case2 b p h1 r h2 =>
    have := invalidCases_err h2
    rw [h] at this; cases this
  | case3 b p h1 k h2 ih =>
    obtain ⟨ws, r, i1, i2, i3, i4⟩ := ih h
    obtain ⟨w, w1, w2, w3, w4⟩ := adv_split s h2
    refine ⟨w :: ws, r, .cons w1 i1, ?_, ?_, ?_⟩
    · simp only [List.mem_cons, not_or]; exact ⟨(lead_ne s w2 ht).symm, i2⟩
    · rw [List.flatten_cons, List.append_assoc, ← i3]; exact w4
    · rw [i4, List.flatten_cons, List.length_append]; omega
  | case5 b p h1 h2 h3 h4 | case6 b p h1 h2 h3 h4 | case7 b p h1 h2 h3 h4 | case8 b p h1 h2 h3 h4
  | case9 b p h1 h2 h3 h4 | case10 b p h1 h2 h3 h4 =>
    have e1 := bt_split s ht (by omega) h4
    injection h with _ h
    exact ⟨[], b.drop e.mb, .nil, by simp, by simpa using e1, by simp [← h]⟩
  | case12 b p h1 h2 h3 h4 ih =>
    obtain ⟨ws, r, i1, i2, i3, i4⟩ := ih h
    obtain ⟨w, w1, w2, w3, w4, w5⟩ := other_split s h1 h2
    refine ⟨w :: ws, r, .cons w1 i1, ?_, ?_, ?_⟩
    · simp only [List.mem_cons, not_or]; exact ⟨(bt_ne s ht (by rw [← w5]; exact h4)).symm, i2⟩
    · rw [List.flatten_cons, List.append_assoc, ← i3]; exact w4
    · rw [i4, List.flatten_cons, List.length_append]; omega
  | case13 b p h1 h2 h3 ih =>
    obtain ⟨ws, r, i1, i2, i3, i4⟩ := ih h
    obtain ⟨w, w1, w2, w3, w4, w5⟩ := other_split s h1 h2
    refine ⟨w :: ws, r, .cons w1 i1, ?_, ?_, ?_⟩
    · simp only [List.mem_cons, not_or]
      refine ⟨(bt_ne s ht (by rw [← w5]; intro h5; rw [h5] at h3; exact h3 hq)).symm, i2⟩
    · rw [List.flatten_cons, List.append_assoc, ← i3]; exact w4
    · rw [i4, List.flatten_cons, List.length_append]; omega
  | _ => cases h

/-! ### Character data -/

omit s in
theorem contentStep_cases {b : Buf} {p k} (h : contentStep e b p = .adv k) :
    (e.isInvalid (k + 1) b = false ∧ (e.bt b = .LEAD2 ∧ k = 1 ∨ e.bt b = .LEAD3 ∧ k = 2
      ∨ e.bt b = .LEAD4 ∧ k = 3)) ∨ (k = e.m ∧ e.bt b ≠ .LEAD2 ∧ e.bt b ≠ .LEAD3 ∧ e.bt b ≠ .LEAD4
      ∧ e.bt b ≠ .NONXML ∧ e.bt b ≠ .MALFORM ∧ e.bt b ≠ .TRAIL ∧ e.bt b ≠ .LT ∧ e.bt b ≠ .AMP
      ∧ e.bt b ≠ .CR ∧ e.bt b ≠ .LF) := by
  simp only [contentStep] at h
  generalize e.bt b = t at *
  cases t <;> simp only at h <;> grind

/-- One turn of the content data loop that advances: a legal character, not one that ends a
run, and a `]` only when it certainly does not begin `]]>`. -/
theorem contentStep_split {b : Buf} {p k} (hb : ¬ b.length < e.mb)
    (h : contentStep e b p = .adv k) :
    ∃ w, e.IsChar w ∧ w.length = k + 1 ∧ b = w ++ b.drop (k + 1) ∧
      w ≠ asc 0x3C ∧ w ≠ asc 0x26 ∧ w ≠ asc 0x0A ∧ e.bt w ≠ .CR ∧
      (w = asc 0x5D → ∀ x r, b ++ x ≠ asc 0x5D ++ (asc 0x5D ++ (asc 0x3E ++ r))) := by
  have hk := contentStep_adv (Nat.le_of_not_lt hb) h
  have h2 : b = b.take (k + 1) ++ b.drop (k + 1) := (List.take_append_drop _ _).symm
  have hlen : (b.take (k + 1)).length = k + 1 := by simp [hk]
  have hcase := contentStep_cases h
  have hm := s.mb
  have h4 : e.mb ≤ k + 1 := by
    rcases hcase with ⟨_, h | h | h⟩ | h
    · omega
    · omega
    · omega
    · rw [h.1]; exact Nat.le_refl _
  have h3 := s.ok.bt_app (b.take (k + 1)) (b.drop (k + 1)) (by omega)
  rw [← h2] at h3
  have h5 := s.ok.invalid_app (k + 1) (b.take (k + 1)) (b.drop (k + 1)) (by omega)
  rw [← h2] at h5
  refine ⟨b.take (k + 1), ?_, hlen, h2, ?_, ?_, ?_, ?_, ?_⟩
  · simp only [Enc.IsChar, ← h3, hlen]
    rcases hcase with ⟨h, h6 | h6 | h6⟩ | h
    · obtain ⟨h6, rfl⟩ := h6; rw [h6]; exact ⟨rfl, by rw [← h5]; exact h⟩
    · obtain ⟨h6, rfl⟩ := h6; rw [h6]; exact ⟨rfl, by rw [← h5]; exact h⟩
    · obtain ⟨h6, rfl⟩ := h6; rw [h6]; exact ⟨rfl, by rw [← h5]; exact h⟩
    · obtain ⟨rfl, h⟩ := h
      clear h2 hlen h4 h3 h5
      generalize e.bt b = t at *
      cases t <;> first | rfl | (exfalso; revert h; decide)
  · apply bt_ne s (t := .LT) rfl; rw [← h3]
    rcases hcase with ⟨_, h | h | h⟩ | h <;> simp [h]
  · apply bt_ne s (t := .AMP) rfl; rw [← h3]
    rcases hcase with ⟨_, h | h | h⟩ | h <;> simp [h]
  · apply bt_ne s (t := .LF) rfl; rw [← h3]
    rcases hcase with ⟨_, h | h | h⟩ | h <;> simp [h]
  · rw [← h3]; rcases hcase with ⟨_, h | h | h⟩ | h <;> simp [h]
  · intro hw x r hx
    have l1 := s.asc.len 0x5D
    have l2 := s.asc.len 0x3E
    have hbt : e.bt b = .RSQB := by
      rw [h3, hw]; have := asc_bt s (t := .RSQB) rfl []; rwa [List.append_nil] at this
    simp only [contentStep, hbt] at h
    split at h
    · rename_i hl1
      have d1 : b.drop e.mb ++ x = asc 0x5D ++ (asc 0x3E ++ r) := by
        rw [← drop_app b x _ (by omega), hx, drop_char l1]
      have m1 : e.charMatches (b.drop e.mb) 0x5D = true := by
        rw [← s.ok.matches_app _ x _ (by simp only [List.length_drop]; omega), d1]
        exact asc_mat s _ (by decide) _
      rw [m1] at h
      simp only [Bool.not_true, Bool.false_eq_true, if_false] at h
      split at h
      · rename_i hl2
        have d2 : b.drop (2 * e.mb) ++ x = asc 0x3E ++ r := by
          rw [Nat.two_mul, ← List.drop_drop, ← drop_app (b.drop e.mb) x _
            (by simp only [List.length_drop]; omega), d1, drop_char l1]
        have m2 : e.charMatches (b.drop (2 * e.mb)) 0x3E = true := by
          rw [← s.ok.matches_app _ x _ (by simp only [List.length_drop]; omega), d2]
          exact asc_mat s _ (by decide) _
        rw [m2] at h
        simp at h
      · cases h
    · cases h

/-- A character that can be part of a run of character data, at the head of `b`. -/
structure DataHead (e : Enc) (asc : UInt8 → Buf) (w b : Buf) : Prop where
  char : e.IsChar w
  notLT : w ≠ asc 0x3C
  notAMP : w ≠ asc 0x26
  notLF : w ≠ asc 0x0A
  notCR : e.bt w ≠ .CR
  /-- it does not begin `]]>`, whatever follows the buffer -/
  noClose : ∀ x r, b ++ x ≠ asc 0x5D ++ (asc 0x5D ++ (asc 0x3E ++ r))

/-- The run of characters `ws` at the head of `b`. -/
inductive DataRun (e : Enc) (asc : UInt8 → Buf) : List Buf → Buf → Prop
  | nil (b) : DataRun e asc [] b
  | cons {w ws b} : DataHead e asc w (w ++ b) → DataRun e asc ws b → DataRun e asc (w :: ws) (w ++ b)

/-- If the buffer begins with the character `w`, then `]]>` at its head means `w` is `]`. -/
theorem head_rsqb {w b x r : Buf} (hw : e.IsChar w)
    (h : w ++ b ++ x = asc 0x5D ++ (asc 0x5D ++ (asc 0x3E ++ r))) : w = asc 0x5D := by
  rw [← char_bt s hw (t := .RSQB) rfl (b ++ x), ← List.append_assoc, h]
  exact asc_bt s (t := .RSQB) rfl _

theorem contentLoop_data (b p n) (h : contentLoop e b p = ⟨.DATA_CHARS, n⟩) :
    ∃ ws r, DataRun e asc ws b ∧ b = ws.flatten ++ r ∧ n = p + ws.flatten.length := by
  fun_induction contentLoop e b p with
  | case1 b p h1 => injection h with _ h; exact ⟨[], b, .nil _, by simp, by simp [h]⟩
  | case2 b p h1 r h2 =>
    rcases contentStep_ret h2 with rfl | ⟨rfl, _⟩
    · injection h with _ h; exact ⟨[], b, .nil _, by simp, by simp [h]⟩
    · cases h
  | case3 b p h1 k h2 ih =>
    obtain ⟨ws, r, i1, i2, i3⟩ := ih h
    obtain ⟨w, w1, w2, w3, w4, w5, w6, w7, w8⟩ := contentStep_split s h1 h2
    refine ⟨w :: ws, r, ?_, ?_, ?_⟩
    · rw [w3]
      refine .cons ⟨w1, w4, w5, w6, w7, fun x r hx => ?_⟩ i1
      have := head_rsqb s w1 hx
      rw [← w3] at hx
      exact w8 this x r hx
    · rw [List.flatten_cons, List.append_assoc, ← i2]; exact w3
    · rw [i3, List.flatten_cons, List.length_append]; omega
  | case4 b p h1 h2 => injection h with _ h; exact ⟨[], b, .nil _, by simp, by simp [h]⟩

/-- Reading a legal character from the truncated buffer's head when it is not a lead byte. -/
theorem contentTokBody_data (b n) (hb : e.mb ≤ b.length)
    (h : contentTokBody e b = ⟨.DATA_CHARS, n⟩) :
    ∃ w ws r, DataRun e asc (w :: ws) b ∧ b = (w :: ws).flatten ++ r
      ∧ n = (w :: ws).flatten.length := by
  have l1 := s.asc.len 0x5D
  have l2 := s.asc.len 0x3E
  have key : ∀ w, e.IsChar w → w.length = e.mb → b = w ++ b.drop e.mb → w ≠ asc 0x3C →
      w ≠ asc 0x26 → w ≠ asc 0x0A → e.bt w ≠ .CR →
      (∀ x r, b ++ x ≠ asc 0x5D ++ (asc 0x5D ++ (asc 0x3E ++ r))) →
      contentLoop e (b.drop e.mb) e.mb = ⟨.DATA_CHARS, n⟩ →
      ∃ w ws r, DataRun e asc (w :: ws) b ∧ b = (w :: ws).flatten ++ r
        ∧ n = (w :: ws).flatten.length := by
    intro w w1 w2 w3 w4 w5 w6 w7 w8 h
    obtain ⟨ws, r, i1, i2, i3⟩ := contentLoop_data s _ _ _ h
    refine ⟨w, ws, r, ?_, ?_, ?_⟩
    · rw [w3]; exact .cons ⟨w1, w4, w5, w6, w7, by rw [← w3]; exact w8⟩ i1
    · rw [List.flatten_cons, List.append_assoc, ← i2]; exact w3
    · rw [i3, List.flatten_cons, List.length_append]; omega
  revert h
  fun_cases contentTokBody e b with
  | case1 r h2 =>
    intro h
    have := invalidCases_err h2
    rw [h] at this; cases this
  | case2 k h2 =>
    intro h
    obtain ⟨w, w1, w2, w3, w4⟩ := adv_split s h2
    obtain ⟨ws, r, i1, i2, i3⟩ := contentLoop_data s _ _ _ h
    have hbt : e.bt w = .LEAD2 ∨ e.bt w = .LEAD3 ∨ e.bt w = .LEAD4 := by
      simp only [Enc.isLead] at w2
      revert w2
      cases e.bt w <;> first | (intro h; exfalso; revert h; decide) | (intro _; decide)
    refine ⟨w, ws, r, ?_, ?_, ?_⟩
    · rw [w4]
      refine .cons ⟨w1, lead_ne s w2 (t := .LT) rfl, lead_ne s w2 (t := .AMP) rfl,
        lead_ne s w2 (t := .LF) rfl, ?_, fun x r hx => ?_⟩ i1
      · rcases hbt with h | h | h <;> simp [h]
      · exact lead_ne s w2 (t := .RSQB) rfl (head_rsqb s w1 hx)
    · rw [List.flatten_cons, List.append_assoc, ← i2]; exact w4
    · rw [i3, List.flatten_cons, List.length_append]; omega
  | case3 h2 h3 =>
    intro h
    have hb' : scanLt e (b.drop e.mb) e.mb ≠ ⟨.DATA_CHARS, n⟩ := scanLt_not_data e _ _ n
    exact absurd h hb'
  | case4 h2 h3 =>
    intro h
    exact absurd h (scanRef_not_data e _ _ n)
  | case11 h2 h3 h4 h5 h6 h7 =>
    intro h
    obtain ⟨w, w1, w2, w3, w4, w5⟩ := other_split s (by omega) h2
    have hw : w = asc 0x5D := by
      rw [← char_bt s w1 (t := .RSQB) rfl (b.drop e.mb), ← w4]; exact h3
    refine key w w1 w3 w4 (bt_ne s (t := .LT) rfl (by rw [← w5, h3]; decide))
      (bt_ne s (t := .AMP) rfl (by rw [← w5, h3]; decide))
      (bt_ne s (t := .LF) rfl (by rw [← w5, h3]; decide)) (by rw [← w5, h3]; decide) ?_ h
    intro x r hx
    have d1 : b.drop e.mb ++ x = asc 0x5D ++ (asc 0x3E ++ r) := by
      rw [← drop_app b x _ (by omega), hx, drop_char l1]
    have d2 : b.drop (2 * e.mb) ++ x = asc 0x3E ++ r := by
      rw [Nat.two_mul, ← List.drop_drop, ← drop_app (b.drop e.mb) x _ (by omega), d1,
        drop_char l1]
    have m2 : e.charMatches (b.drop (2 * e.mb)) 0x3E = true := by
      rw [← s.ok.matches_app _ x _ (by omega), d2]
      exact asc_mat s _ (by decide) _
    rw [m2] at h7; simp at h7
  | case13 h2 h3 h4 h5 =>
    intro h
    obtain ⟨w, w1, w2, w3, w4, w5⟩ := other_split s (by omega) h2
    refine key w w1 w3 w4 (bt_ne s (t := .LT) rfl (by rw [← w5, h3]; decide))
      (bt_ne s (t := .AMP) rfl (by rw [← w5, h3]; decide))
      (bt_ne s (t := .LF) rfl (by rw [← w5, h3]; decide)) (by rw [← w5, h3]; decide) ?_ h
    intro x r hx
    have d1 : b.drop e.mb ++ x = asc 0x5D ++ (asc 0x3E ++ r) := by
      rw [← drop_app b x _ (by omega), hx, drop_char l1]
    have m1 : e.charMatches (b.drop e.mb) 0x5D = true := by
      rw [← s.ok.matches_app _ x _ (by omega), d1]
      exact asc_mat s _ (by decide) _
    exact h5 m1
  | case14 h2 h3 h4 h5 h6 h7 =>
    intro h
    obtain ⟨w, w1, w2, w3, w4, w5⟩ := other_split s (by omega) h2
    refine key w w1 w3 w4 (bt_ne s (t := .LT) rfl (by rw [← w5]; exact h3))
      (bt_ne s (t := .AMP) rfl (by rw [← w5]; exact h4))
      (bt_ne s (t := .LF) rfl (by rw [← w5]; exact h6)) (by rw [← w5]; exact h5) ?_ h
    intro x r hx
    rw [w4] at hx
    have := head_rsqb s w1 hx
    exact bt_ne s (t := .RSQB) rfl (by rw [← w5]; exact h7) this
  | _ => intro h; cases h

end

theorem truncBuf_prefix (e : Enc) (b : Buf) : ∃ y, b = truncBuf e b ++ y :=
  ⟨b.drop (b.length - b.length % e.mb), (List.take_append_drop _ _).symm⟩

theorem DataRun.cons_inv {e asc w ws b} (h : DataRun e asc (w :: ws) b) :
    ∃ b', b = w ++ b' ∧ DataHead e asc w b ∧ DataRun e asc ws b' := by
  cases h with
  | cons hd tl => exact ⟨_, rfl, hd, tl⟩

theorem DataRun.mem {e asc ws b} (h : DataRun e asc ws b) :
    ∀ w ∈ ws, e.IsChar w ∧ w ≠ asc 0x3C ∧ w ≠ asc 0x26 ∧ w ≠ asc 0x0A ∧ e.bt w ≠ .CR := by
  induction h with
  | nil => simp
  | cons hd _ ih =>
    intro u hu
    rcases List.mem_cons.1 hu with rfl | hu
    · exact ⟨hd.char, hd.notLT, hd.notAMP, hd.notLF, hd.notCR⟩
    · exact ih u hu

theorem DataRun.suffix {e asc us vs b} (h : DataRun e asc (us ++ vs) b) :
    ∃ b', b = us.flatten ++ b' ∧ DataRun e asc vs b' := by
  induction us generalizing b with
  | nil => exact ⟨b, by simp, h⟩
  | cons u us ih =>
    obtain ⟨b1, rfl, _, h1⟩ := h.cons_inv
    obtain ⟨b2, rfl, h2⟩ := ih h1
    exact ⟨b2, by simp, h2⟩

/-- The data loop steps over an ordinary character. -/
theorem contentLoop_char {e asc} (s : Supported e asc) {w : Buf} (hw : e.IsChar w)
    (h1 : w ≠ asc 0x3C) (h2 : w ≠ asc 0x26) (h3 : w ≠ asc 0x0A) (h4 : e.bt w ≠ .CR) (b p)
    (h5 : w = asc 0x5D → 2 * e.mb ≤ b.length ∧ ∀ r, b ≠ asc 0x5D ++ (asc 0x3E ++ r)) :
    contentLoop e (w ++ b) p = contentLoop e b (p + w.length) := by
  have hl := e.isChar_len s.mb hw
  have hbt := s.ok.bt_app w b hl
  rw [contentLoop, if_neg (by rw [List.length_append]; omega)]
  cases hlead : e.isLead w with
  | true =>
    have h0 := invalidCases_lead s.ok s.mb hw hlead b p
    have : contentStep e (w ++ b) p = .adv (w.length - 1) := by
      have h0 := h0.1
      simp only [contentStep, invalidCases, Enc.isLead, hbt] at h0 hlead ⊢
      clear hbt
      generalize e.bt w = t at *
      cases t <;> simp only at h0 hlead ⊢ <;> grind
    rw [this]
    simp only [show w.length - 1 + 1 = w.length by omega, List.drop_left]
  | false =>
    have hlen := e.isChar_len_nl hw hlead
    have c1 : e.bt w ≠ .LT := fun h => h1 ((char_bt s hw (t := .LT) rfl []).1 (by simpa using h))
    have c2 : e.bt w ≠ .AMP := fun h => h2 ((char_bt s hw (t := .AMP) rfl []).1 (by simpa using h))
    have c3 : e.bt w ≠ .LF := fun h => h3 ((char_bt s hw (t := .LF) rfl []).1 (by simpa using h))
    have c5 : e.bt w = .RSQB → w = asc 0x5D :=
      fun h => (char_bt s hw (t := .RSQB) rfl []).1 (by simpa using h)
    have : contentStep e (w ++ b) p = .adv e.m := by
      by_cases hr : e.bt w = .RSQB
      · obtain ⟨h6, h7⟩ := h5 (c5 hr)
        simp only [contentStep, hbt, hr]
        have d1 : (w ++ b).drop e.mb = b := drop_char hlen
        have d2 : (w ++ b).drop (2 * e.mb) = b.drop e.mb := by
          rw [Nat.two_mul, ← List.drop_drop, d1]
        rw [if_pos (by rw [List.length_append]; omega), d1, d2,
          if_pos (show 3 * e.mb ≤ (w ++ b).length by rw [List.length_append]; omega)]
        cases m1 : e.charMatches b 0x5D with
        | false => simp
        | true =>
          cases m2 : e.charMatches (b.drop e.mb) 0x3E with
          | false => simp
          | true =>
            exfalso
            have e1 := mat_split s (by decide) (by omega) m1
            have e2 := mat_split s (b := b.drop e.mb) (by decide)
              (by rw [List.length_drop]; omega) m2
            exact h7 _ (by rw [← e2]; exact e1)
      · simp only [Enc.IsChar, Enc.isLead] at hw hlead
        simp only [contentStep, hbt]
        generalize e.bt w = t at *
        cases t <;> first | contradiction | rfl | (cases hw) | (cases hlead)
    rw [this]
    have h9 : e.m + 1 = w.length := by rw [hlen]; rfl
    simp only [h9, List.drop_left]

/-- Meeting `]]>` while collecting character data is an error: nothing of the run is reported. -/
theorem contentLoop_close {e asc} (s : Supported e asc) (r p) :
    (contentLoop e (asc 0x5D ++ (asc 0x5D ++ (asc 0x3E ++ r))) p).tok = .INVALID := by
  have l1 := s.asc.len 0x5D
  have l2 := s.asc.len 0x3E
  have hm : e.mb = e.m + 1 := rfl
  rw [contentLoop, if_neg (by rw [List.length_append]; omega), contentStep,
    asc_bt s (t := .RSQB) rfl]
  have d1 : (asc 0x5D ++ (asc 0x5D ++ (asc 0x3E ++ r))).drop e.mb = asc 0x5D ++ (asc 0x3E ++ r) :=
    drop_char l1
  have d2 : (asc 0x5D ++ (asc 0x5D ++ (asc 0x3E ++ r))).drop (2 * e.mb) = asc 0x3E ++ r := by
    rw [Nat.two_mul, ← List.drop_drop, d1, drop_char l1]
  simp only [d1, d2, asc_mat s 0x5D (by decide), asc_mat s 0x3E (by decide)]
  rw [if_pos (by simp only [List.length_append]; omega), if_neg (by simp),
    if_pos (by simp only [List.length_append]; omega), if_neg (by simp)]


theorem truncBuf_dvd (e : Enc) (u r : Buf) (h : e.mb ∣ u.length) :
    truncBuf e (u ++ r) = u ++ truncBuf e r := by
  have h1 : (u ++ r).length % e.mb = r.length % e.mb := by
    obtain ⟨k, hk⟩ := h
    rw [List.length_append, hk, Nat.mul_add_mod]
  have h2 := Nat.mod_le r.length e.mb
  rw [truncBuf, truncBuf, h1, List.length_append,
    show u.length + r.length - r.length % e.mb = u.length + (r.length - r.length % e.mb) by omega,
    List.take_length_add_append]

theorem contentTok_eq {e : Enc} {b : Buf} (h : e.mb ≤ b.length) :
    contentTok e b = contentTokBody e (truncBuf e b) := by
  have hm : e.mb = e.m + 1 := rfl
  have hl : (truncBuf e b).length ≠ 0 := by
    have h1 := Nat.mod_lt b.length (show 0 < e.mb by omega)
    simp only [truncBuf, List.length_take]; omega
  rw [contentTok, if_neg, if_neg]
  · simpa using hl
  · intro h2
    have : b = [] := by simpa using h2
    subst this; simp at h; omega

/-- The length of a legal character is a whole number of units. -/
theorem Supported.dvd {e asc} (s : Supported e asc) {w} (hw : e.IsChar w) : e.mb ∣ w.length := by
  have h1 : e.mb = 1 ∨ e.mb = 2 := by
    have := s.mb
    have : e.mb = e.m + 1 := rfl
    omega
  rcases h1 with h1 | h1
  · rw [h1]; exact Nat.one_dvd _
  · cases hl : e.isLead w with
    | false => rw [e.isChar_len_nl hw hl]; exact Nat.dvd_refl _
    | true =>
      have h4 : e.bt w = .LEAD4 := by
        have hu : ∀ a b, unicodeByteType a b = .LEAD4 ∨ unicodeByteType a b = .TRAIL ∨
            unicodeByteType a b = .NONXML ∨ unicodeByteType a b = .NONASCII := by
          intro a b; simp only [unicodeByteType]; grind
        have ht : ∀ ns : Bool, ∀ c : UInt8,
            tableBt (if ns then Tables.latin1EncodingTableNS else Tables.latin1EncodingTable) c ≠ .LEAD2 ∧
            tableBt (if ns then Tables.latin1EncodingTableNS else Tables.latin1EncodingTable) c ≠ .LEAD3 := by
          intro ns
          cases ns <;> exact UInt8.forall_dec (by decide +kernel)
        simp only [Enc.isLead] at hl
        cases s with
        | utf8 | internalUtf8 | latin1 | ascii => cases h1
        | utf16le ns =>
          simp only [little2Enc, little2EncOf] at hl ⊢
          split at hl
          · rename_i heq
            split at heq
            · exact absurd heq (ht ns _).1
            · have := hu (byteAt w 1) (byteAt w 0); rw [heq] at this; simp at this
          · rename_i heq
            split at heq
            · exact absurd heq (ht ns _).2
            · have := hu (byteAt w 1) (byteAt w 0); rw [heq] at this; simp at this
          · assumption
          · cases hl
        | utf16be ns =>
          simp only [big2Enc, big2EncOf, big2Bt?] at hl ⊢
          split at hl
          · rename_i heq
            split at heq
            · split at heq
              · exact absurd heq (ht ns _).1
              · cases heq
            · have := hu (byteAt w 0) (byteAt w 1); simp only [Option.getD_some] at heq
              rw [heq] at this; simp at this
          · rename_i heq
            split at heq
            · split at heq
              · exact absurd heq (ht ns _).2
              · cases heq
            · have := hu (byteAt w 0) (byteAt w 1); simp only [Option.getD_some] at heq
              rw [heq] at this; simp at this
          · assumption
          · cases hl
      simp only [Enc.IsChar, h4] at hw
      rw [h1, hw.1]; decide

theorem Supported.dvds {e asc} (s : Supported e asc) {ws : List Buf} (hw : ∀ w ∈ ws, e.IsChar w) :
    e.mb ∣ ws.flatten.length := by
  induction ws with
  | nil => simp
  | cons w ws ih =>
    rw [List.flatten_cons, List.length_append]
    exact Nat.dvd_add (s.dvd (hw w (by simp))) (ih (fun w h => hw w (by simp [h])))

/-- At an ordinary character `contentTok` enters its data loop. -/
theorem contentTokBody_char {e asc} (s : Supported e asc) {w : Buf} (hw : e.IsChar w)
    (h1 : w ≠ asc 0x3C) (h2 : w ≠ asc 0x26) (h3 : w ≠ asc 0x0A) (h4 : e.bt w ≠ .CR) (b)
    (h5 : w = asc 0x5D → 2 * e.mb ≤ b.length ∧ ∀ r, b ≠ asc 0x5D ++ (asc 0x3E ++ r)) :
    contentTokBody e (w ++ b) = contentLoop e b w.length := by
  have hl := e.isChar_len s.mb hw
  have hbt := s.ok.bt_app w b hl
  cases hlead : e.isLead w with
  | true =>
    have h0 := invalidCases_lead s.ok s.mb hw hlead b 0
    rw [contentTokBody, h0.1]
    simp only [show w.length - 1 + 1 = w.length by omega, List.drop_left]
  | false =>
    have hlen := e.isChar_len_nl hw hlead
    rw [contentTokBody, invalidCases_nl s.ok s.mb hw hlead]
    have c1 : e.bt w ≠ .LT := fun h => h1 ((char_bt s hw (t := .LT) rfl []).1 (by simpa using h))
    have c2 : e.bt w ≠ .AMP := fun h => h2 ((char_bt s hw (t := .AMP) rfl []).1 (by simpa using h))
    have c3 : e.bt w ≠ .LF := fun h => h3 ((char_bt s hw (t := .LF) rfl []).1 (by simpa using h))
    have c5 : e.bt w = .RSQB → w = asc 0x5D :=
      fun h => (char_bt s hw (t := .RSQB) rfl []).1 (by simpa using h)
    have d1 : (w ++ b).drop e.mb = b := drop_char hlen
    have d2 : (w ++ b).drop (2 * e.mb) = b.drop e.mb := by
      rw [Nat.two_mul, ← List.drop_drop, d1]
    by_cases hr : e.bt w = .RSQB
    · obtain ⟨h6, h7⟩ := h5 (c5 hr)
      simp only [hbt, hr, d1, d2, hlen]
      rw [if_neg (by omega)]
      have h8 : ¬ (b.drop e.mb).length < e.mb := by rw [List.length_drop]; omega
      simp only [if_neg h8]
      cases m1 : e.charMatches b 0x5D with
      | false => simp
      | true =>
        cases m2 : e.charMatches (b.drop e.mb) 0x3E with
        | false => simp
        | true =>
          exfalso
          have e1 := mat_split s (by decide) (by omega) m1
          have e2 := mat_split s (b := b.drop e.mb) (by decide)
            (by rw [List.length_drop]; omega) m2
          exact h7 _ (by rw [← e2]; exact e1)
    · simp only [hbt, d1, hlen]

theorem contentTokBody_close {e asc} (s : Supported e asc) (r) :
    (contentTokBody e (asc 0x5D ++ (asc 0x5D ++ (asc 0x3E ++ r)))).tok = .INVALID := by
  have l1 := s.asc.len 0x5D
  have l2 := s.asc.len 0x3E
  rw [contentTokBody, invalidCases_asc s (t := .RSQB) rfl, asc_bt s (t := .RSQB) rfl]
  have d1 : (asc 0x5D ++ (asc 0x5D ++ (asc 0x3E ++ r))).drop e.mb = asc 0x5D ++ (asc 0x3E ++ r) :=
    drop_char l1
  have d2 : (asc 0x5D ++ (asc 0x5D ++ (asc 0x3E ++ r))).drop (2 * e.mb) = asc 0x3E ++ r := by
    rw [Nat.two_mul, ← List.drop_drop, d1, drop_char l1]
  simp only [d1, d2, asc_mat s 0x5D (by decide), asc_mat s 0x3E (by decide)]
  rw [if_neg (by simp only [List.length_append]; omega), if_pos (by trivial),
    if_neg (by simp only [List.length_append]; omega), if_neg (by simp)]

theorem contentLoop_rejects {e asc} (s : Supported e asc) (ws : List Buf) (r : Buf)
    (hw : ∀ w ∈ ws, e.IsChar w ∧ w ≠ asc 0x3C ∧ w ≠ asc 0x26 ∧ w ≠ asc 0x0A ∧ e.bt w ≠ .CR)
    (p) :
    (contentLoop e (ws.flatten ++ (asc 0x5D ++ (asc 0x5D ++ (asc 0x3E ++ r)))) p).tok
      = .INVALID := by
  have l1 := s.asc.len 0x5D
  have l2 := s.asc.len 0x3E
  induction ws generalizing p with
  | nil => exact contentLoop_close s r p
  | cons w ws ih =>
    obtain ⟨h1, h2, h3, h4, h5⟩ := hw w (by simp)
    rw [List.flatten_cons, List.append_assoc]
    by_cases hc : w = asc 0x5D ∧ ∃ q, ws.flatten ++ (asc 0x5D ++ (asc 0x5D ++ (asc 0x3E ++ r)))
        = asc 0x5D ++ (asc 0x3E ++ q)
    · obtain ⟨rfl, q, hq⟩ := hc
      rw [hq]; exact contentLoop_close s q p
    · rw [contentLoop_char s h1 h2 h3 h4 h5, ih (fun w hw' => hw w (by simp [hw']))]
      intro h6
      refine ⟨by simp only [List.length_append]; omega, fun q hq => hc ⟨h6, q, hq⟩⟩

end Verif
