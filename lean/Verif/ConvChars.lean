import Verif.GetAtts

/-! Conversion to UTF-8 character by character, for all the built-in encodings. -/

namespace Verif
open C43 Spec

theorem or_ge (n m : Nat) (hm : ∀ a : UInt8, ¬ (a ||| UInt8.ofNat m) < 0x80) : ¬ UInt8.ofNat (n ||| m) < 0x80 := by
  rw [UInt8.ofNat_or]
  exact hm _

theorem or80 : ∀ a : UInt8, ¬ (a ||| UInt8.ofNat 0x80) < 0x80 :=
  UInt8.forall_dec (P := fun a => ¬ (a ||| UInt8.ofNat 0x80) < 0x80) (by decide +kernel)
theorem orC0 : ∀ a : UInt8, ¬ (a ||| UInt8.ofNat 0xC0) < 0x80 :=
  UInt8.forall_dec (P := fun a => ¬ (a ||| UInt8.ofNat 0xC0) < 0x80) (by decide +kernel)
theorem orE0 : ∀ a : UInt8, ¬ (a ||| UInt8.ofNat 0xE0) < 0x80 :=
  UInt8.forall_dec (P := fun a => ¬ (a ||| UInt8.ofNat 0xE0) < 0x80) (by decide +kernel)
theorem orF0 : ∀ a : UInt8, ¬ (a ||| UInt8.ofNat 0xF0) < 0x80 :=
  UInt8.forall_dec (P := fun a => ¬ (a ||| UInt8.ofNat 0xF0) < 0x80) (by decide +kernel)

theorem scalar_of_xml {c} (h : XmlChar c) : Scalar c := by
  unfold XmlChar at h; unfold Scalar; omega

theorem utf8_convert (cs : List Nat) (h : ∀ c ∈ cs, Scalar c) : (utf8Convert (utf8s cs) (4 * (utf8s cs).length + 4)).out = utf8s cs := by
  obtain ⟨k, h1, h2, h3, h4, h5, h6⟩ := C12.utf8_faithful cs h (4 * (utf8s cs).length + 4)
  rw [C12.text_utf8] at h2
  rw [h2]
  by_cases hk : k = cs.length
  · rw [hk, List.take_length]
  · have := (h6 (by omega)).2
    have hle : (utf8s (cs.take (k + 1))).length ≤ (utf8s cs).length := by
      conv => rhs; rw [← List.take_append_drop (k + 1) cs, C51.utf8s_append, List.length_append]
      omega
    omega

theorem utf8s_one (c : Nat) : utf8s [c] = utf8 c := by simp [utf8s]

theorem utf8_id {w : Buf} (h : ∃ c, XmlChar c ∧ w = utf8 c) : (utf8Convert w (4 * w.length + 4)).out = w := by
  obtain ⟨c, h1, rfl⟩ := h
  rw [← utf8s_one]
  exact utf8_convert [c] (by intro d hd; simp at hd; subst hd; exact scalar_of_xml h1)

theorem utf8_ids {ws : List Buf} (h : ∀ w ∈ ws, ∃ c, XmlChar c ∧ w = utf8 c) :
    (utf8Convert ws.flatten (4 * ws.flatten.length + 4)).out = ws.flatten := by
  have : ∃ cs : List Nat, (∀ c ∈ cs, XmlChar c) ∧ ws = cs.map utf8 := by
    induction ws with
    | nil => exact ⟨[], by simp, rfl⟩
    | cons w ws ih =>
      obtain ⟨cs, h1, h2⟩ := ih (fun w hw => h w (by simp [hw]))
      obtain ⟨c, h3, h4⟩ := h w (by simp)
      exact ⟨c :: cs, by simp; exact ⟨h3, h1⟩, by simp [h4, h2]⟩
  obtain ⟨cs, h1, rfl⟩ := this
  exact utf8_convert cs (fun c hc => scalar_of_xml (h1 c hc))

theorem ascii_charStep (ns) : CharStep (asciiEnc ns) asciiConvStep := by
  intro w hw
  have hl := Enc.isChar_len (e := asciiEnc ns) (show (1 : Nat) ≤ 2 by omega) hw
  cases w with
  | nil => exact absurd hl (by change ¬ (1 : Nat) ≤ 0; omega)
  | cons a w =>
    have : w = [] := by
      have hb : ∀ a : UInt8, ∀ r, (asciiEnc ns).bt (a :: r) = (asciiEnc ns).bt [a] := fun a r =>
        (byteEncOf_ok _).bt_app [a] r (Nat.le_refl 1)
      have hL : ∀ a : UInt8, (asciiEnc ns).bt [a] ≠ .LEAD2 ∧ (asciiEnc ns).bt [a] ≠ .LEAD3 ∧ (asciiEnc ns).bt [a] ≠ .LEAD4 := by
        cases ns
        · exact UInt8.forall_dec (P := fun a => (asciiEnc false).bt [a] ≠ .LEAD2 ∧ (asciiEnc false).bt [a] ≠ .LEAD3 ∧ (asciiEnc false).bt [a] ≠ .LEAD4) (by decide +kernel)
        · exact UInt8.forall_dec (P := fun a => (asciiEnc true).bt [a] ≠ .LEAD2 ∧ (asciiEnc true).bt [a] ≠ .LEAD3 ∧ (asciiEnc true).bt [a] ≠ .LEAD4) (by decide +kernel)
      have hmb : (asciiEnc ns).mb = 1 := rfl
      simp only [Enc.IsChar] at hw
      rw [hb] at hw
      have := hL a
      generalize (asciiEnc ns).bt [a] = t at *
      cases t <;> simp_all
    subst this
    refine ⟨[a], fun r cap hc => ?_⟩
    rw [asciiConvStep, if_neg (by omega)]; rfl

theorem fits_ascii : Fits asciiConvStep := by
  intro b cap hb hc
  rw [asciiConvStep, if_neg (by omega)]
  simp

/-- Text may be converted in parts cut between characters. -/
theorem conv_app {x asc} (s : XSupported x asc) {ws vs : List Buf} (hw : x.e.Chars ws) (hv : x.e.Chars vs) :
    converted x (ws.flatten ++ vs.flatten) = converted x ws.flatten ++ converted x vs.flatten := by
  cases s with
  | utf8 ns =>
    have h1 := fun w h => (utf8Enc_isChar ns w).1 (hw w h)
    have h2 := fun w h => (utf8Enc_isChar ns w).1 (hv w h)
    have h3 := utf8_ids (ws := ws ++ vs) (by intro w h; rcases List.mem_append.1 h with h | h; exact h1 w h; exact h2 w h)
    rw [List.flatten_append] at h3
    simp only [converted, utf8X]
    rw [h3, utf8_ids h1, utf8_ids h2]
  | internalUtf8 ns =>
    have h1 := fun w h => (internalUtf8Enc_isChar ns w).1 (hw w h)
    have h2 := fun w h => (internalUtf8Enc_isChar ns w).1 (hv w h)
    have h3 := utf8_ids (ws := ws ++ vs) (by intro w h; rcases List.mem_append.1 h with h | h; exact h1 w h; exact h2 w h)
    rw [List.flatten_append] at h3
    simp only [converted, internalUtf8X]
    rw [h3, utf8_ids h1, utf8_ids h2]
  | latin1 ns => exact converted_app (.latin1 ns) rfl hw _
  | ascii ns =>
    exact loop_app (ascii_charStep ns) C12.uniform_ascii fits_ascii (show (1:Nat) ≤ 2 by omega) ws hw _ _ _ _
      (by omega) (by omega) (by omega)
  | utf16le ns => exact converted_app (.utf16le ns) rfl hw _
  | utf16be ns => exact converted_app (.utf16be ns) rfl hw _

theorem conv_nil {x asc} (s : XSupported x asc) : converted x [] = [] := by
  cases s <;> try rfl
  · simp only [converted, latin1X, latin1Convert]; rw [convLoop, dif_pos rfl]
  · simp only [converted, asciiX, asciiConvert]; rw [convLoop, dif_pos rfl]
  · simp only [converted, little2X, little2Convert, List.take_nil]; rw [convLoop, dif_pos rfl]
  · simp only [converted, big2X, big2Convert, List.take_nil]; rw [convLoop, dif_pos rfl]

/-- Text is converted character by character. -/
theorem conv_chars {x asc} (s : XSupported x asc) {ws : List Buf} (hw : x.e.Chars ws) :
    converted x ws.flatten = (ws.map (converted x)).flatten := by
  induction ws with
  | nil => exact conv_nil s
  | cons w ws ih =>
    have := conv_app s (ws := [w]) (vs := ws) (.cons hw.head .nil) hw.tail
    simp only [List.flatten_cons, List.flatten_nil, List.append_nil, List.map_cons] at this ⊢
    rw [this, ih hw.tail]

theorem utf8_lt {c : Nat} {d : UInt8} (h : d ∈ utf8 c) (hd : d < 0x80) (hc : c < 0x110000) : utf8 c = [d] := by
  have hd' : d.toNat < 128 := hd
  unfold utf8 at h ⊢
  split at h
  · simp only [List.mem_cons, List.not_mem_nil, or_false] at h
    rw [if_pos (by assumption), h]
  · exfalso
    repeat' split at h
    all_goals
      simp only [List.mem_cons, List.not_mem_nil, or_false] at h
      grind [toNat_ofNat]

theorem loop1 {step : Buf → Nat → CStep} {w o : Buf} {cap k : Nat} (hw : w ≠ []) (h : step w cap = .emit o k) (hk : w.length = k + 1) :
    (convLoop step w cap).out = o := by
  rw [convLoop, dif_neg hw, h]
  simp only
  rw [show w.drop (k + 1) = [] by rw [List.drop_eq_nil_iff]; omega, convLoop, dif_pos rfl]
  simp

theorem utf16_out {hi lo : Buf → Nat} {w : Buf} (h : w.length = 2 ∧ ¬ (216 ≤ hi w ∧ hi w ≤ 219) ∨ w.length = 4 ∧ 216 ≤ hi w ∧ hi w ≤ 219)
    (hl : lo w < 256) {d} (hd : d < 0x80)
    (hm : d ∈ (convLoop (utf16ConvStep hi lo) w (4 * w.length + 4)).out) :
    w.length = 2 ∧ hi w = 0 ∧ lo w = d.toNat := by
  have hne : w ≠ [] := by rintro rfl; simp at h
  have key : ∃ o, utf16ConvStep hi lo w (4 * w.length + 4) = .emit o (w.length - 1) ∧ (d ∈ o → hi w = 0 ∧ lo w = d.toNat) := by
    rw [utf16ConvStep]
    simp only
    rcases h with ⟨h, h'⟩ | ⟨h, h'⟩
    · split
      · split
        · rw [if_neg (by omega), h]
          refine ⟨_, rfl, fun hm => ?_⟩
          rename_i h0
          simp only [List.mem_cons, List.not_mem_nil, or_false] at hm
          subst hm
          exact ⟨h0.1, by rw [toNat_ofNat (by omega)]⟩
        · rw [if_neg (by omega), h]
          refine ⟨_, rfl, fun hm => ?_⟩
          simp only [List.mem_cons, List.not_mem_nil, or_false] at hm
          rcases hm with rfl | rfl
          · exact absurd hd (or_ge _ _ orC0)
          · exact absurd hd (or_ge _ _ or80)
      · rw [if_neg (by omega), h]
        refine ⟨_, rfl, fun hm => ?_⟩
        simp only [List.mem_cons, List.not_mem_nil, or_false] at hm
        rcases hm with rfl | rfl | rfl
        · exact absurd hd (or_ge _ _ orE0)
        · exact absurd hd (or_ge _ _ or80)
        · exact absurd hd (or_ge _ _ or80)
    · rw [if_neg (by omega), if_pos h', if_neg (by omega), if_neg (by omega), h]
      refine ⟨_, rfl, fun hm => ?_⟩
      simp only [List.mem_cons, List.not_mem_nil, or_false] at hm
      rcases hm with rfl | rfl | rfl | rfl
      · exact absurd hd (or_ge _ _ orF0)
      · exact absurd hd (or_ge _ _ or80)
      · exact absurd hd (or_ge _ _ or80)
      · exact absurd hd (or_ge _ _ or80)
  obtain ⟨o, h1, h2⟩ := key
  rw [loop1 hne h1 (by omega)] at hm
  obtain ⟨h3, h4⟩ := h2 hm
  exact ⟨by omega, h3, h4⟩

/-- An ASCII character in the converted text comes from that character only. -/
theorem conv_ascii_only {x asc} (s : XSupported x asc) {w : Buf} (hw : x.e.IsChar w) {d : UInt8} (hd : d < 0x80)
    (h : d ∈ converted x w) : w = asc d := by
  cases s with
  | utf8 ns =>
    have h1 := (utf8Enc_isChar ns w).1 hw
    simp only [converted, utf8X] at h
    rw [utf8_id h1] at h
    obtain ⟨c, h2, rfl⟩ := h1
    exact utf8_lt h hd (by unfold XmlChar at h2; omega)
  | internalUtf8 ns =>
    have h1 := (internalUtf8Enc_isChar ns w).1 hw
    simp only [converted, internalUtf8X] at h
    rw [utf8_id h1] at h
    obtain ⟨c, h2, rfl⟩ := h1
    exact utf8_lt h hd (by unfold XmlChar at h2; omega)
  | latin1 ns =>
    obtain ⟨o, ho⟩ := latin1_charStep ns w hw
    have hl := Enc.isChar_len (e := latin1Enc ns) (show (1 : Nat) ≤ 2 by omega) hw
    change 1 ≤ w.length at hl
    have h1 := ho [] (4 * w.length + 4) (by omega)
    rw [List.append_nil] at h1
    have hwl : w.length = 1 := by
      rw [latin1ConvStep] at h1
      repeat' split at h1
      all_goals first | cases h1; done | (injection h1 with _ h1; omega)
    simp only [converted, latin1X, latin1Convert] at h
    rw [loop1 (by rintro rfl; simp at hl) h1 (by omega)] at h
    rw [latin1ConvStep] at h1
    obtain ⟨a, rfl⟩ := List.length_eq_one_iff.1 hwl
    repeat' split at h1
    all_goals first | cases h1; done | (injection h1 with h1 _; subst h1)
    · simp only [List.mem_cons, List.not_mem_nil, or_false] at h
      rcases h with rfl | rfl
      · exact absurd hd (or_ge _ _ orC0)
      · exact absurd hd (or_ge _ _ or80)
    · simp only [List.mem_cons, List.not_mem_nil, or_false] at h
      rw [h]; rfl
  | ascii ns =>
    obtain ⟨o, ho⟩ := ascii_charStep ns w hw
    have hl := Enc.isChar_len (e := asciiEnc ns) (show (1 : Nat) ≤ 2 by omega) hw
    change 1 ≤ w.length at hl
    have h1 := ho [] (4 * w.length + 4) (by omega)
    rw [List.append_nil] at h1
    have hwl : w.length = 1 := by
      rw [asciiConvStep] at h1
      repeat' split at h1
      all_goals first | cases h1; done | (injection h1 with _ h1; omega)
    simp only [converted, asciiX, asciiConvert] at h
    rw [loop1 (by rintro rfl; simp at hl) h1 (by omega)] at h
    rw [asciiConvStep] at h1
    obtain ⟨a, rfl⟩ := List.length_eq_one_iff.1 hwl
    repeat' split at h1
    all_goals first | cases h1; done | (injection h1 with h1 _; subst h1)
    simp only [List.mem_cons, List.not_mem_nil, or_false] at h
    rw [h]; rfl
  | utf16le ns =>
    have hL := little2_lead ns w
    have hmb : (little2X ns).e.mb = 2 := rfl
    have hc : w.length = 2 ∧ ¬ (216 ≤ (byteAt w 1).toNat ∧ (byteAt w 1).toNat ≤ 219) ∨
        w.length = 4 ∧ 216 ≤ (byteAt w 1).toNat ∧ (byteAt w 1).toNat ≤ 219 := by
      simp only [Enc.IsChar] at hw
      change match (little2Enc ns).bt w with | .NONXML | .MALFORM | .TRAIL => False | .LEAD2 => _ | .LEAD3 => _ | .LEAD4 => _ | _ => _ at hw
      generalize (little2Enc ns).bt w = t at *
      cases t <;> simp_all
    simp only [converted, little2X, little2Convert] at h
    rw [C12.take_even (by omega)] at h
    obtain ⟨h1, h2, h3⟩ := utf16_out (hi := fun b => (byteAt b 1).toNat) (lo := fun b => (byteAt b 0).toNat) hc
      (byteAt w 0).toNat_lt hd h
    match w, h1 with
    | [a, b], _ =>
      simp only [byteAt, List.getD_cons_zero, List.getD_cons_succ] at h2 h3
      rw [show a = d from UInt8.toNat_inj.1 h3, show b = 0 from UInt8.toNat_inj.1 h2]; rfl
  | utf16be ns =>
    have hL := big2_lead ns w
    have hmb : (big2X ns).e.mb = 2 := rfl
    have hc : w.length = 2 ∧ ¬ (216 ≤ (byteAt w 0).toNat ∧ (byteAt w 0).toNat ≤ 219) ∨
        w.length = 4 ∧ 216 ≤ (byteAt w 0).toNat ∧ (byteAt w 0).toNat ≤ 219 := by
      simp only [Enc.IsChar] at hw
      change match (big2Enc ns).bt w with | .NONXML | .MALFORM | .TRAIL => False | .LEAD2 => _ | .LEAD3 => _ | .LEAD4 => _ | _ => _ at hw
      generalize (big2Enc ns).bt w = t at *
      cases t <;> simp_all
    simp only [converted, big2X, big2Convert] at h
    rw [C12.take_even (by omega)] at h
    obtain ⟨h1, h2, h3⟩ := utf16_out (hi := fun b => (byteAt b 0).toNat) (lo := fun b => (byteAt b 1).toNat) hc
      (byteAt w 1).toNat_lt hd h
    match w, h1 with
    | [a, b], _ =>
      simp only [byteAt, List.getD_cons_zero, List.getD_cons_succ] at h2 h3
      rw [show b = d from UInt8.toNat_inj.1 h3, show a = 0 from UInt8.toNat_inj.1 h2]; rfl

/-- A character is not converted to nothing. -/
theorem conv_ne_nil {x asc} (s : XSupported x asc) {w : Buf} (hw : x.e.IsChar w) : converted x w ≠ [] := by
  have hl := x.e.isChar_len s.s.mb hw
  have hne : w ≠ [] := by rintro rfl; exact absurd hl (by simp [Enc.mb])
  have key : ∀ {step : Buf → Nat → CStep}, CharStep x.e step → (∀ b cap o k, step b cap = .emit o k → o ≠ []) →
      (convLoop step w (4 * w.length + 4)).out ≠ [] := by
    intro step hs he
    obtain ⟨o, ho⟩ := hs w hw
    have h1 := ho [] (4 * w.length + 4) (by omega)
    rw [List.append_nil] at h1
    have : 0 < w.length := by simp only [Enc.mb] at hl; omega
    rw [loop1 hne h1 (by omega)]
    exact he _ _ _ _ h1
  have k16 : ∀ (hi lo : Buf → Nat) b cap o k, utf16ConvStep hi lo b cap = .emit o k → o ≠ [] := by
    intro hi lo b cap o k h
    rw [utf16ConvStep] at h
    simp only at h
    repeat' split at h
    all_goals first | cases h; done | (injection h with h _; subst h; exact List.cons_ne_nil _ _)
  have even : x.e.mb = 2 → ∀ hi lo, CharStep x.e (utf16ConvStep hi lo) → w.length % 2 = 0 := by
    intro hm hi lo hs
    obtain ⟨o, ho⟩ := hs w hw
    have h1 := ho [] (4 * w.length + 4) (by omega)
    rw [List.append_nil] at h1
    have : 0 < w.length := by simp only [Enc.mb] at hl; omega
    rw [utf16ConvStep] at h1
    simp only at h1
    repeat' split at h1
    all_goals first | cases h1; done | (injection h1 with _ h1; omega)
  cases s with
  | utf8 ns =>
    simp only [converted, utf8X]
    rw [utf8_id ((utf8Enc_isChar ns w).1 hw)]; exact hne
  | internalUtf8 ns =>
    simp only [converted, internalUtf8X]
    rw [utf8_id ((internalUtf8Enc_isChar ns w).1 hw)]; exact hne
  | latin1 ns =>
    refine key (latin1_charStep ns) ?_
    intro b cap o k h
    rw [latin1ConvStep] at h
    repeat' split at h
    all_goals first | cases h; done | (injection h with h _; subst h; exact List.cons_ne_nil _ _)
  | ascii ns =>
    refine key (ascii_charStep ns) ?_
    intro b cap o k h
    rw [asciiConvStep] at h
    repeat' split at h
    all_goals first | cases h; done | (injection h with h _; subst h; exact List.cons_ne_nil _ _)
  | utf16le ns =>
    have := key (little2_charStep ns) (k16 _ _)
    simp only [converted, little2X, little2Convert]
    rw [C12.take_even (even rfl _ _ (little2_charStep ns))]
    exact this
  | utf16be ns =>
    have := key (big2_charStep ns) (k16 _ _)
    simp only [converted, big2X, big2Convert]
    rw [C12.take_even (even rfl _ _ (big2_charStep ns))]
    exact this

end Verif
