import Verif.Convert

/-! C51: truncating a buffer to whole UTF-8 characters. -/

namespace Verif.C51
open Verif Spec

theorem f8 (b : UInt8) : (b &&& 0xf8 == 0xf0) = decide (240 ≤ b.toNat ∧ b.toNat < 248) := by
  revert b; exact UInt8.forall_dec (by decide +kernel)
theorem f0 (b : UInt8) : (b &&& 0xf0 == 0xe0) = decide (224 ≤ b.toNat ∧ b.toNat < 240) := by
  revert b; exact UInt8.forall_dec (by decide +kernel)
theorem e0 (b : UInt8) : (b &&& 0xe0 == 0xc0) = decide (192 ≤ b.toNat ∧ b.toNat < 224) := by
  revert b; exact UInt8.forall_dec (by decide +kernel)

theorem trimLoop_eq (b : Buf) (i walked : Nat) : trimLoop b (i + 1) walked =
    let p := (byteAt b i).toNat
    if 240 ≤ p ∧ p < 248 then if 4 ≤ walked + 1 then i + 4 else trimLoop b i 1
    else if 224 ≤ p ∧ p < 240 then if 3 ≤ walked + 1 then i + 3 else trimLoop b i 1
    else if 192 ≤ p ∧ p < 224 then if 2 ≤ walked + 1 then i + 2 else trimLoop b i 1
    else if p < 128 then i + 1 else trimLoop b i (walked + 1) := by
  simp only [trimLoop, f8, f0, e0, and80, decide_eq_true_eq]

/-- The shape of the UTF-8 form of a scalar value. -/
def Shape (w : List Nat) : Prop :=
  match w with
  | [a] => a < 128
  | [a, b] => (192 ≤ a ∧ a < 224) ∧ (128 ≤ b ∧ b < 192)
  | [a, b, c] => (224 ≤ a ∧ a < 240) ∧ (128 ≤ b ∧ b < 192) ∧ (128 ≤ c ∧ c < 192)
  | [a, b, c, d] => (240 ≤ a ∧ a < 248) ∧ (128 ≤ b ∧ b < 192) ∧ (128 ≤ c ∧ c < 192) ∧
      (128 ≤ d ∧ d < 192)
  | _ => False

theorem shape_utf8 (c : Nat) (h : c < 0x110000) : Shape ((utf8 c).map UInt8.toNat) := by
  unfold utf8
  split
  · simp only [List.map, Shape]; rw [toNat_ofNat (by omega)]; assumption
  split
  · simp only [List.map, Shape]; rw [toNat_ofNat (by omega), toNat_ofNat (by omega)]; omega
  split
  · simp only [List.map, Shape]
    rw [toNat_ofNat (by omega), toNat_ofNat (by omega), toNat_ofNat (by omega)]; omega
  · simp only [List.map, Shape]
    rw [toNat_ofNat (by omega), toNat_ofNat (by omega), toNat_ofNat (by omega),
      toNat_ofNat (by omega)]; omega

theorem byteAt_mid (p : Buf) (a : UInt8) (s : Buf) : byteAt (p ++ a :: s) p.length = a := by
  simp [byteAt, List.getD]

theorem byteAt_mid1 (p : Buf) (a a1 : UInt8) (s : Buf) :
    byteAt (p ++ a :: a1 :: s) (p.length + 1) = a1 := by
  simp [byteAt, List.getD]

theorem byteAt_mid2 (p : Buf) (a a1 a2 : UInt8) (s : Buf) :
    byteAt (p ++ a :: a1 :: a2 :: s) (p.length + 2) = a2 := by
  simp [byteAt, List.getD]

theorem byteAt_mid3 (p : Buf) (a a1 a2 a3 : UInt8) (s : Buf) :
    byteAt (p ++ a :: a1 :: a2 :: a3 :: s) (p.length + 3) = a3 := by
  simp [byteAt, List.getD]

theorem step_trail {b : Buf} {i w : Nat} (h : 128 ≤ (byteAt b i).toNat ∧ (byteAt b i).toNat < 192) :
    trimLoop b (i + 1) w = trimLoop b i (w + 1) := by
  rw [trimLoop_eq]; simp only
  rw [if_neg (by omega), if_neg (by omega), if_neg (by omega), if_neg (by omega)]

theorem step_lead2 {b : Buf} {i w : Nat} (h : 192 ≤ (byteAt b i).toNat ∧ (byteAt b i).toNat < 224) :
    trimLoop b (i + 1) w = if 2 ≤ w + 1 then i + 2 else trimLoop b i 1 := by
  rw [trimLoop_eq]; simp only
  rw [if_neg (by omega), if_neg (by omega), if_pos (by omega)]

theorem step_lead3 {b : Buf} {i w : Nat} (h : 224 ≤ (byteAt b i).toNat ∧ (byteAt b i).toNat < 240) :
    trimLoop b (i + 1) w = if 3 ≤ w + 1 then i + 3 else trimLoop b i 1 := by
  rw [trimLoop_eq]; simp only
  rw [if_neg (by omega), if_pos (by omega)]

theorem step_lead4 {b : Buf} {i w : Nat} (h : 240 ≤ (byteAt b i).toNat ∧ (byteAt b i).toNat < 248) :
    trimLoop b (i + 1) w = if 4 ≤ w + 1 then i + 4 else trimLoop b i 1 := by
  rw [trimLoop_eq]; simp only
  rw [if_pos (by omega)]

theorem step_ascii {b : Buf} {i w : Nat} (h : (byteAt b i).toNat < 128) :
    trimLoop b (i + 1) w = i + 1 := by
  rw [trimLoop_eq]; simp only
  rw [if_neg (by omega), if_neg (by omega), if_neg (by omega), if_pos (by omega)]

/-- Walking back over a complete character stops at its end. -/
theorem trim_whole (p w s : Buf) (k : Nat) (hw : Shape (w.map UInt8.toNat)) :
    trimLoop (p ++ w ++ s) (p.length + w.length) k = p.length + w.length := by
  match w, hw with
  | [a], hw =>
    simp only [List.append_assoc, List.cons_append, List.nil_append, List.length_cons,
      List.length_nil]
    exact step_ascii (by rw [byteAt_mid]; exact hw)
  | [a, a1], hw =>
    simp only [List.append_assoc, List.cons_append, List.nil_append, List.length_cons,
      List.length_nil]
    rw [show p.length + (0 + 1 + 1) = p.length + 1 + 1 by omega,
      step_trail (by rw [byteAt_mid1]; exact hw.2), step_lead2 (by rw [byteAt_mid]; exact hw.1),
      if_pos (by omega)]
  | [a, a1, a2], hw =>
    simp only [List.append_assoc, List.cons_append, List.nil_append, List.length_cons,
      List.length_nil]
    rw [show p.length + (0 + 1 + 1 + 1) = p.length + 2 + 1 by omega,
      step_trail (by rw [byteAt_mid2]; exact hw.2.2), step_trail (by rw [byteAt_mid1]; exact hw.2.1),
      step_lead3 (by rw [byteAt_mid]; exact hw.1), if_pos (by omega)]
  | [a, a1, a2, a3], hw =>
    simp only [List.append_assoc, List.cons_append, List.nil_append, List.length_cons,
      List.length_nil]
    rw [show p.length + (0 + 1 + 1 + 1 + 1) = p.length + 3 + 1 by omega,
      step_trail (by rw [byteAt_mid3]; exact hw.2.2.2),
      step_trail (by rw [byteAt_mid2]; exact hw.2.2.1),
      step_trail (by rw [byteAt_mid1]; exact hw.2.1),
      step_lead4 (by rw [byteAt_mid]; exact hw.1), if_pos (by omega)]

/-- Walking back over a cut character drops it. -/
theorem trim_cut (p w s : Buf) (hw : Shape (w.map UInt8.toNat)) (j : Nat) (h0 : 0 < j)
    (hj : j < w.length) :
    trimLoop (p ++ w.take j ++ s) (p.length + j) 0 = trimLoop (p ++ w.take j ++ s) p.length 1 := by
  match w, hw, j, h0, hj with
  | [a], hw, j, h0, hj => simp at hj; omega
  | [a, a1], hw, 1, h0, hj =>
    simp only [List.take, List.append_assoc, List.cons_append, List.nil_append]
    rw [step_lead2 (by rw [byteAt_mid]; exact hw.1), if_neg (by omega)]
  | [a, a1, a2], hw, 1, h0, hj =>
    simp only [List.take, List.append_assoc, List.cons_append, List.nil_append]
    rw [step_lead3 (by rw [byteAt_mid]; exact hw.1), if_neg (by omega)]
  | [a, a1, a2], hw, 2, h0, hj =>
    simp only [List.take, List.append_assoc, List.cons_append, List.nil_append]
    rw [show p.length + 2 = p.length + 1 + 1 by omega,
      step_trail (by rw [byteAt_mid1]; exact hw.2.1),
      step_lead3 (by rw [byteAt_mid]; exact hw.1), if_neg (by omega)]
  | [a, a1, a2, a3], hw, 1, h0, hj =>
    simp only [List.take, List.append_assoc, List.cons_append, List.nil_append]
    rw [step_lead4 (by rw [byteAt_mid]; exact hw.1), if_neg (by omega)]
  | [a, a1, a2, a3], hw, 2, h0, hj =>
    simp only [List.take, List.append_assoc, List.cons_append, List.nil_append]
    rw [show p.length + 2 = p.length + 1 + 1 by omega,
      step_trail (by rw [byteAt_mid1]; exact hw.2.1),
      step_lead4 (by rw [byteAt_mid]; exact hw.1), if_neg (by omega)]
  | [a, a1, a2, a3], hw, 3, h0, hj =>
    simp only [List.take, List.append_assoc, List.cons_append, List.nil_append]
    rw [show p.length + 3 = p.length + 2 + 1 by omega,
      step_trail (by rw [byteAt_mid2]; exact hw.2.2.1),
      step_trail (by rw [byteAt_mid1]; exact hw.2.1),
      step_lead4 (by rw [byteAt_mid]; exact hw.1), if_neg (by omega)]

theorem utf8s_append (a b : List Nat) : utf8s (a ++ b) = utf8s a ++ utf8s b := by
  simp [utf8s]

theorem utf8s_cons (a : Nat) (b : List Nat) : utf8s (a :: b) = utf8 a ++ utf8s b := by
  simp [utf8s]

theorem trim_end (cs : List Nat) (h : ∀ c ∈ cs, c < 0x110000) (s : Buf) (k : Nat) :
    trimLoop (utf8s cs ++ s) (utf8s cs).length k = (utf8s cs).length := by
  rcases List.eq_nil_or_concat cs with rfl | ⟨cs', c, rfl⟩
  · simp [utf8s, trimLoop]
  · rw [List.concat_eq_append, utf8s_append, utf8s_cons]
    have e : utf8s [] = [] := rfl
    rw [e, List.append_nil, List.length_append]
    exact trim_whole _ _ _ _ (shape_utf8 c (h c (by simp)))

/-- C51: cutting UTF-8 text in front of, or strictly inside, a character and trimming leaves
exactly the characters before the cut. -/
theorem trim_spec (cs : List Nat) (h : ∀ c ∈ cs, c < 0x110000) (c : Nat) (hc : c < 0x110000)
    (j : Nat) (hj : j < (utf8 c).length) :
    trimUtf8 (utf8s cs ++ (utf8 c).take j) = utf8s cs := by
  have hl : (utf8s cs ++ (utf8 c).take j).length = (utf8s cs).length + j := by
    simp; omega
  have key : trimLoop (utf8s cs ++ (utf8 c).take j) ((utf8s cs).length + j) 0
      = (utf8s cs).length := by
    by_cases h0 : j = 0
    · subst h0; exact trim_end cs h _ _
    · have := trim_cut (utf8s cs) (utf8 c) [] (shape_utf8 c hc) j (by omega) hj
      rw [List.append_nil] at this
      rw [this]
      exact trim_end cs h _ _
  rw [trimUtf8, hl, key, List.take_left]

/-- Every cut of a text is in front of or inside one of its characters, or at its end. -/
theorem cut_split (cs : List Nat) (n : Nat) (hn : n < (utf8s cs).length) :
    ∃ k c j, cs[k]? = some c ∧ j < (utf8 c).length ∧
      (utf8s cs).take n = utf8s (cs.take k) ++ (utf8 c).take j ∧
      n = (utf8s (cs.take k)).length + j := by
  induction cs generalizing n with
  | nil => simp [utf8s] at hn
  | cons c cs ih =>
    rw [utf8s_cons] at hn ⊢
    by_cases h : n < (utf8 c).length
    · refine ⟨0, c, n, by simp, h, ?_, by simp [utf8s]⟩
      rw [List.take_append_of_le_length (by omega)]
      simp [utf8s]
    · rw [List.length_append] at hn
      obtain ⟨k, c', j, h1, h2, h3, h4⟩ := ih (n - (utf8 c).length) (by omega)
      refine ⟨k + 1, c', j, by simpa using h1, h2, ?_, ?_⟩
      · rw [List.take_append, List.take_of_length_le (by omega), h3, List.take_succ_cons, utf8s_cons,
          List.append_assoc]
      · rw [List.take_succ_cons, utf8s_cons, List.length_append]; omega

theorem utf8_length (c : Nat) : 1 ≤ (utf8 c).length ∧ (utf8 c).length ≤ 4 := by
  unfold utf8; split <;> (try split) <;> (try split) <;> simp

theorem utf8s_take_mono (cs : List Nat) (k k' : Nat) (h : k ≤ k') :
    (utf8s (cs.take k)).length ≤ (utf8s (cs.take k')).length := by
  obtain ⟨d, rfl⟩ := Nat.exists_eq_add_of_le h
  rw [List.take_add, utf8s_append, List.length_append]; omega

/-- C51: cutting well-formed UTF-8 text at any byte `n` and trimming leaves the longest prefix
of whole characters that fits into `n` bytes; at most three bytes are removed. -/
theorem trim_longest (cs : List Nat) (h : ∀ c ∈ cs, Scalar c) (n : Nat) :
    ∃ k, trimUtf8 ((utf8s cs).take n) = utf8s (cs.take k) ∧
      (∀ k', (utf8s (cs.take k')).length ≤ n →
        (utf8s (cs.take k')).length ≤ (utf8s (cs.take k)).length) ∧
      (utf8s (cs.take k)).length ≤ n ∧
      ((utf8s cs).take n).length ≤ (utf8s (cs.take k)).length + 3 := by
  have hlt : ∀ c ∈ cs, c < 0x110000 := fun c hc => by
    have := h c hc; unfold Scalar at this; omega
  by_cases hn : n < (utf8s cs).length
  · obtain ⟨k, c, j, h1, h2, h3, h4⟩ := cut_split cs n hn
    have hc : c ∈ cs := List.mem_of_getElem? h1
    refine ⟨k, ?_, ?_, by omega, ?_⟩
    · rw [h3]
      exact trim_spec _ (fun c hc => hlt c (List.mem_of_mem_take hc)) c (hlt c hc) j h2
    · intro k' hk'
      rcases Nat.lt_or_ge k k' with hlt' | hge
      · exfalso
        have e : cs.take (k + 1) = cs.take k ++ [c] := by
          rw [List.take_add_one, h1]; rfl
        have m := utf8s_take_mono cs (k + 1) k' hlt'
        rw [e, utf8s_append, List.length_append] at m
        have e2 : utf8s [c] = utf8 c := by simp [utf8s]
        rw [e2] at m
        omega
      · exact utf8s_take_mono cs k' k hge
    · rw [List.length_take]
      have := (utf8_length c).2
      omega
  · have e : (utf8s cs).take n = utf8s cs := List.take_of_length_le (by omega)
    refine ⟨cs.length, ?_, ?_, by rw [List.take_length]; omega, ?_⟩
    · rw [e, List.take_length, trimUtf8]
      have := trim_end cs hlt [] 0
      rw [List.append_nil] at this
      rw [this, List.take_length]
    · intro k' _
      rcases Nat.le_total k' cs.length with hk | hk
      · exact utf8s_take_mono cs k' _ hk
      · rw [List.take_of_length_le hk, List.take_length]; omega
    · rw [e, List.take_length]; omega

/-- "é€" cut inside the euro sign. -/
example : (∀ c ∈ [0xE9, 0x20AC], Scalar c) ∧
    trimUtf8 ((utf8s [0xE9, 0x20AC]).take 4) = utf8s [0xE9] := by
  decide +kernel

end Verif.C51
