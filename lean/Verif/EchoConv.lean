import Verif.Echo
import Verif.Lines

/-! Conversion of text made of whole characters (C75): it can be taken apart between any two of them. -/

set_option autoImplicit false

namespace Verif
open C43 C53 Spec C04 C65 C15

/-- The converter takes a whole character at a time. -/
def WholeStep (e : Enc) (step : Buf → Nat → CStep) : Prop :=
  ∀ w, Whole1 e w → ∃ o, ∀ r cap, 4 ≤ cap → step (w ++ r) cap = .emit o (w.length - 1)

theorem latin1_wholeStep (ns) : WholeStep (latin1Enc ns) latin1ConvStep := by
  intro w hw
  have hl : w.length = 1 := by
    have := table16 (byteAt w 0) ns
    obtain ⟨-, hw⟩ := hw
    simp only [Enc.charLen, latin1Enc, byteEncOf, Enc.mb] at hw
    generalize tableBt _ _ = t at *
    cases t <;> simp_all
  match w, hl with
  | [c], _ =>
    by_cases h : c.toNat &&& 0x80 ≠ 0
    · refine ⟨[UInt8.ofNat (c.toNat >>> 6 ||| 0xC0), UInt8.ofNat (c.toNat &&& 0x3f ||| 0x80)], fun r cap hc => ?_⟩
      simp only [latin1ConvStep, List.singleton_append, byteAt, List.getD_cons_zero, if_pos h,
        if_neg (show ¬ cap < 2 by omega)]
      rfl
    · refine ⟨[c], fun r cap hc => ?_⟩
      simp only [latin1ConvStep, List.singleton_append, byteAt, List.getD_cons_zero, if_neg h,
        if_neg (show ¬ cap = 0 by omega)]
      rfl

theorem utf16_wholeStep (hi lo : Buf → Nat) {w : Buf}
    (h2 : w.length = 2 ∧ ¬ (216 ≤ hi w ∧ hi w ≤ 219) ∨ w.length = 4 ∧ 216 ≤ hi w ∧ hi w ≤ 219)
    (hhi : ∀ (b r : Buf), 2 ≤ b.length → hi (b ++ r) = hi b) (hlo : ∀ (b r : Buf), 2 ≤ b.length → lo (b ++ r) = lo b) :
    ∃ o, ∀ r cap, 4 ≤ cap → utf16ConvStep hi lo (w ++ r) cap = .emit o (w.length - 1) := by
  rcases h2 with ⟨hl, hn⟩ | ⟨hl, h⟩
  · by_cases h7 : hi w ≤ 7
    · by_cases h0 : hi w = 0 ∧ lo w < 0x80
      · refine ⟨[UInt8.ofNat (lo w)], fun r cap hc => ?_⟩
        simp only [utf16ConvStep, hhi w r (by omega), hlo w r (by omega), if_pos h7, if_pos h0,
          if_neg (show ¬ cap = 0 by omega), hl]
      · refine ⟨[UInt8.ofNat (lo w >>> 6 ||| hi w <<< 2 ||| 0xC0), UInt8.ofNat (lo w &&& 0x3f ||| 0x80)],
          fun r cap hc => ?_⟩
        simp only [utf16ConvStep, hhi w r (by omega), hlo w r (by omega), if_pos h7, if_neg h0,
          if_neg (show ¬ cap < 2 by omega), hl]
    · refine ⟨[UInt8.ofNat (hi w >>> 4 ||| 0xE0), UInt8.ofNat ((hi w &&& 0xf) <<< 2 ||| lo w >>> 6 ||| 0x80),
        UInt8.ofNat (lo w &&& 0x3f ||| 0x80)], fun r cap hc => ?_⟩
      simp only [utf16ConvStep, hhi w r (by omega), hlo w r (by omega), if_neg h7, if_neg hn,
        if_neg (show ¬ cap < 3 by omega), hl]
  · have h7 : ¬ hi w ≤ 7 := by omega
    refine ⟨[UInt8.ofNat ((((hi w &&& 3) <<< 2 ||| lo w >>> 6 &&& 3) + 1) >>> 2 ||| 0xF0),
        UInt8.ofNat (lo w >>> 2 &&& 0xf ||| ((((hi w &&& 3) <<< 2 ||| lo w >>> 6 &&& 3) + 1) &&& 3) <<< 4 ||| 0x80),
        UInt8.ofNat ((lo w &&& 3) <<< 4 ||| (hi (w.drop 2) &&& 3) <<< 2 ||| lo (w.drop 2) >>> 6 ||| 0x80),
        UInt8.ofNat (lo (w.drop 2) &&& 0x3f ||| 0x80)], fun r cap hc => ?_⟩
    · simp only [utf16ConvStep, hhi w r (by omega), hlo w r (by omega), if_neg h7, if_pos h,
        if_neg (show ¬ cap < 4 by omega), if_neg (show ¬ (w ++ r).length < 4 by rw [List.length_append]; omega), hl]
      rw [List.drop_append_of_le_length (by omega), hhi _ r (by rw [List.length_drop]; omega),
        hlo _ r (by rw [List.length_drop]; omega)]

theorem little2_wholeStep (ns) : WholeStep (little2Enc ns)
    (utf16ConvStep (fun b => (byteAt b 1).toNat) (fun b => (byteAt b 0).toNat)) := by
  intro w hw
  apply utf16_wholeStep
  · have := little2_lead ns w
    have hmb : (little2Enc ns).mb = 2 := rfl
    obtain ⟨-, hw⟩ := hw
    simp only [Enc.charLen] at hw
    generalize (little2Enc ns).bt w = t at *
    cases t <;> simp_all
  · intro b r h; simp only [byteAt_left (b := b) (r := r) (i := 1) (by omega)]
  · intro b r h; simp only [byteAt_left (b := b) (r := r) (i := 0) (by omega)]

theorem big2_wholeStep (ns) : WholeStep (big2Enc ns)
    (utf16ConvStep (fun b => (byteAt b 0).toNat) (fun b => (byteAt b 1).toNat)) := by
  intro w hw
  apply utf16_wholeStep
  · have := big2_lead ns w
    have hmb : (big2Enc ns).mb = 2 := rfl
    obtain ⟨-, hw⟩ := hw
    simp only [Enc.charLen] at hw
    generalize (big2Enc ns).bt w = t at *
    cases t <;> simp_all
  · intro b r h; simp only [byteAt_left (b := b) (r := r) (i := 0) (by omega)]
  · intro b r h; simp only [byteAt_left (b := b) (r := r) (i := 1) (by omega)]

/-! ### The loop -/

section
variable {e : Enc} {step : Buf → Nat → CStep}

theorem whole_pos {w : Buf} (h : Whole1 e w) : 0 < w.length := by
  have h1 := h.1
  have : e.mb = e.m + 1 := rfl
  omega

/-- What a character is converted to. -/
def outOf (step : Buf → Nat → CStep) (w : Buf) : Buf := (convLoop step w 4).out

theorem whole_step (hs : WholeStep e step) (hu : C12.Uniform step) {w : Buf} (hw : Whole1 e w) (r : Buf) (cap : Nat) :
    (outOf step w).length ≤ 4 ∧ ((outOf step w).length ≤ cap ∧ step (w ++ r) cap = .emit (outOf step w) (w.length - 1) ∨
      cap < (outOf step w).length ∧ step (w ++ r) cap = .stop .outputExhausted) := by
  have hp := whole_pos hw
  obtain ⟨o, ho⟩ := hs w hw
  have hne : ∀ r, w ++ r ≠ [] := by intro r h; have := congrArg List.length h; simp at this; simp [this] at hp
  have e1 : outOf step w = o := by
    have h4 := ho [] 4 (by omega)
    rw [List.append_nil] at h4
    rw [outOf, convLoop.eq_def, dif_neg (by simpa using hne []), h4]
    simp only
    rw [List.drop_eq_nil_of_le (by omega), convLoop.eq_def, dif_pos rfl, List.append_nil]
  rw [e1]
  rcases hu (w ++ r) (hne r) with ⟨w', k, h⟩ | h
  · have h4 := ho r (w'.length + 4) (by omega)
    rcases h (w'.length + 4) with ⟨-, h2⟩ | ⟨h1, -⟩
    · rw [h4] at h2
      injection h2 with h2 h3
      subst h2 h3
      refine ⟨?_, h cap⟩
      rcases h 4 with ⟨h1, -⟩ | ⟨-, h2⟩
      · exact h1
      · rw [ho r 4 (by omega)] at h2; cases h2
    · omega
  · have h4 := ho r 4 (by omega)
    rcases h 4 with h2 | h2 <;> (rw [h4] at h2; cases h2)

/-- The converter takes characters as long as there is room. -/
theorem loop_greedy (hs : WholeStep e step) (hu : C12.Uniform step) (ws : List Buf) : ∀ cap, (∀ w ∈ ws, Whole1 e w) →
    ∃ us vs, ws = us ++ vs ∧ (convLoop step ws.flatten cap).out = (us.map (outOf step)).flatten ∧ (convLoop step ws.flatten cap).rest = vs.flatten ∧
      ((vs = [] ∧ (convLoop step ws.flatten cap).res = .completed) ∨
        (vs ≠ [] ∧ (convLoop step ws.flatten cap).res = .outputExhausted ∧ cap < ((ws.map (outOf step)).flatten).length)) ∧ (4 ≤ cap → us = [] → ws = []) := by
  induction ws with
  | nil => intro cap _; refine ⟨[], [], rfl, ?_⟩; rw [convLoop.eq_def]; simp
  | cons w ws ih =>
    intro cap hw
    have hp := whole_pos (hw w (by simp))
    obtain ⟨h4, h⟩ := whole_step hs hu (hw w (by simp)) ws.flatten cap
    have hne : w ++ ws.flatten ≠ [] := by intro h; have := congrArg List.length h; simp at this; simp [this] at hp
    rcases h with ⟨h1, h2⟩ | ⟨h1, h2⟩
    · obtain ⟨us, vs, i1, i2, i3, i4, i5⟩ := ih (cap - (outOf step w).length) (fun w hw' => hw w (by simp [hw']))
      refine ⟨w :: us, vs, by rw [i1]; rfl, ?_⟩
      rw [List.flatten_cons, convLoop.eq_def, dif_neg hne, h2]
      simp only
      rw [show w.length - 1 + 1 = w.length by omega, List.drop_left]
      refine ⟨by rw [i2]; simp, i3, ?_, by simp⟩
      rcases i4 with i4 | ⟨i4, i6, i7⟩
      · exact .inl i4
      · refine .inr ⟨i4, i6, ?_⟩
        rw [List.map_cons, List.flatten_cons, List.length_append]; omega
    · refine ⟨[], w :: ws, rfl, ?_⟩
      rw [List.flatten_cons, convLoop.eq_def, dif_neg hne, h2]
      refine ⟨rfl, rfl, .inr ⟨by simp, rfl, ?_⟩, fun h => absurd h (by omega)⟩
      rw [List.map_cons, List.flatten_cons, List.length_append]; omega

/-- With room enough the characters are converted one by one. -/
theorem loop_apart (hs : WholeStep e step) (hu : C12.Uniform step) (hf : Fits step) (ws : List Buf) (hw : ∀ w ∈ ws, Whole1 e w) (v : Buf) :
    ∀ c1 c2, 4 * (ws.flatten ++ v).length ≤ c1 → 4 * v.length ≤ c2 →
    (convLoop step (ws.flatten ++ v) c1).out = (ws.map (outOf step)).flatten ++ (convLoop step v c2).out := by
  induction ws with
  | nil => intro c1 c2 h1 h2; simpa using loop_cap hu hf v c1 c2 (by simpa using h1) h2
  | cons w ws ih =>
    intro c1 c2 h1 h2
    have hp := whole_pos (hw w (by simp))
    have hne : w ++ (ws.flatten ++ v) ≠ [] := by intro h; have := congrArg List.length h; simp at this; simp [this] at hp
    rw [List.flatten_cons, List.append_assoc, List.length_append] at h1
    obtain ⟨h4, h⟩ := whole_step hs hu (hw w (by simp)) (ws.flatten ++ v) c1
    rcases h with ⟨g1, g2⟩ | ⟨g1, -⟩
    · rw [List.flatten_cons, List.append_assoc, convLoop.eq_def, dif_neg hne, g2]
      simp only
      rw [show w.length - 1 + 1 = w.length by omega, List.drop_left, List.map_cons, List.flatten_cons, List.append_assoc,
        ih (fun w hw' => hw w (by simp [hw'])) _ c2 (by omega) h2]
    · omega
end

/-! ### The encodings -/

section
variable {x : XEnc} {asc : UInt8 → Buf} (S : XSupported x asc)
include S

/-- Text that is converted is converted by a loop over characters. -/
theorem conv_loop (hc : x.isUtf8 = false) : ∃ step, C12.Uniform step ∧ Fits step ∧ WholeStep x.e step ∧
    (∀ b cap, x.conv b cap = convLoop step (b.take (b.length / x.e.mb * x.e.mb)) cap) := by
  cases S with
  | utf8 ns => cases hc
  | internalUtf8 ns => cases hc
  | latin1 ns =>
    refine ⟨_, C12.uniform_latin1, fits_latin1, latin1_wholeStep ns, fun b cap => ?_⟩
    rw [show (latin1X ns).e.mb = 1 from rfl, Nat.div_one, Nat.mul_one, List.take_length]
    rfl
  | ascii ns => cases hc
  | utf16le ns => exact ⟨_, C12.uniform_utf16 _ _, fits_utf16 _ _, little2_wholeStep ns, fun _ _ => rfl⟩
  | utf16be ns => exact ⟨_, C12.uniform_utf16 _ _, fits_utf16 _ _, big2_wholeStep ns, fun _ _ => rfl⟩

theorem whole_dvd (hc : x.isUtf8 = false) {w : Buf} (hw : Whole1 x.e w) : x.e.mb ∣ w.length := by
  obtain ⟨-, hw⟩ := hw
  rw [hw]
  cases S with
  | utf8 ns => cases hc
  | internalUtf8 ns => cases hc
  | latin1 ns => exact Nat.one_dvd _
  | ascii ns => cases hc
  | utf16le ns =>
    have := little2_lead ns w
    show 2 ∣ Enc.charLen (little2Enc ns) w
    have hmb : (little2Enc ns).mb = 2 := rfl
    simp only [Enc.charLen]
    generalize (little2Enc ns).bt w = t at *
    cases t <;> simp_all
  | utf16be ns =>
    have := big2_lead ns w
    show 2 ∣ Enc.charLen (big2Enc ns) w
    have hmb : (big2Enc ns).mb = 2 := rfl
    simp only [Enc.charLen]
    generalize (big2Enc ns).bt w = t at *
    cases t <;> simp_all

theorem wholes_dvd (hc : x.isUtf8 = false) {ws : List Buf} (hw : ∀ w ∈ ws, Whole1 x.e w) : x.e.mb ∣ ws.flatten.length := by
  induction ws with
  | nil => exact Nat.dvd_zero _
  | cons w ws ih =>
    rw [List.flatten_cons, List.length_append]
    exact Nat.dvd_add (whole_dvd S hc (hw w (by simp))) (ih fun w h => hw w (by simp [h]))

/-- Text is converted apart between two characters. -/
theorem converted_whole (hc : x.isUtf8 = false) {ws : List Buf} (hw : ∀ w ∈ ws, Whole1 x.e w) (v : Buf) :
    converted x (ws.flatten ++ v) = converted x ws.flatten ++ converted x v := by
  obtain ⟨step, hu, hf, hs, hx⟩ := conv_loop S hc
  have hd := wholes_dvd S hc hw
  have hpos : 0 < x.e.mb := Nat.succ_pos _
  have e0 : ws.flatten.take (ws.flatten.length / x.e.mb * x.e.mb) = ws.flatten := by
    rw [Nat.div_mul_cancel hd, List.take_length]
  have e1 : (ws.flatten ++ v).take ((ws.flatten ++ v).length / x.e.mb * x.e.mb) = ws.flatten ++ v.take (v.length / x.e.mb * x.e.mb) := by
    obtain ⟨k, hk⟩ := hd
    rw [List.length_append, hk, Nat.mul_add_div hpos, Nat.add_mul, Nat.mul_comm k, ← hk, List.take_length_add_append]
  simp only [converted, hx, e0, e1]
  generalize hv : v.take (v.length / x.e.mb * x.e.mb) = v'
  have hl : v'.length ≤ v.length := by rw [← hv, List.length_take]; omega
  rw [loop_apart hs hu hf ws hw v' _ (4 * v.length + 4) (by simp only [List.length_append]; omega) (by omega)]
  congr 1
  have := loop_apart hs hu hf ws hw [] (4 * ws.flatten.length + 4) 0 (by simp) (by simp)
  rw [List.append_nil, convLoop.eq_def step [] 0, dif_pos rfl, List.append_nil] at this
  rw [this]

/-- One call of the converter on whole characters. -/
theorem conv_greedy (hc : x.isUtf8 = false) {ws : List Buf} (hw : ∀ w ∈ ws, Whole1 x.e w) (cap : Nat) (hcap : 4 ≤ cap) :
    ∃ us vs, ws = us ++ vs ∧ (x.conv ws.flatten cap).rest = vs.flatten ∧ (us = [] → ws = []) ∧
      ((vs = [] ∧ (x.conv ws.flatten cap).res = .completed) ∨
        (vs ≠ [] ∧ (x.conv ws.flatten cap).res = .outputExhausted ∧ cap < (converted x ws.flatten).length)) := by
  obtain ⟨step, hu, hf, hs, hx⟩ := conv_loop S hc
  have hd := wholes_dvd S hc hw
  have e0 : ws.flatten.take (ws.flatten.length / x.e.mb * x.e.mb) = ws.flatten := by
    rw [Nat.div_mul_cancel hd, List.take_length]
  obtain ⟨us, vs, h1, -, h3, h4, h5⟩ := loop_greedy hs hu ws cap hw
  simp only [converted, hx, e0]
  have := loop_apart hs hu hf ws hw [] (4 * ws.flatten.length + 4) 0 (by simp) (by simp)
  rw [List.append_nil, convLoop.eq_def step [] 0, dif_pos rfl, List.append_nil] at this
  rw [this]
  exact ⟨us, vs, h1, h3, h5 hcap, h4⟩

theorem raw_eq (w : Buf) : raw x w = if x.isUtf8 then w else converted x w := by rw [raw, pieces_flatten S]

theorem raw_whole {ws : List Buf} (hw : ∀ w ∈ ws, Whole1 x.e w) (v : Buf) : raw x (ws.flatten ++ v) = raw x ws.flatten ++ raw x v := by
  simp only [raw_eq S]
  cases hc : x.isUtf8
  · exact converted_whole S hc hw v
  · rfl

theorem raw_nil : raw x [] = [] := by
  have := raw_whole S (ws := []) (by simp) []
  simp only [List.flatten_nil, List.append_nil] at this
  have hl := congrArg List.length this
  rw [List.length_append] at hl
  exact List.length_eq_zero_iff.1 (by omega)

/-- The bytes consumed in the calls for a stretch of text make up the text. -/
theorem eaten_raw (hc : x.isUtf8 = false) (n : Nat) : ∀ (ws : List Buf), ws.length = n → (∀ w ∈ ws, Whole1 x.e w) →
    ((eaten x ws.flatten).map (raw x)).flatten = raw x ws.flatten := by
  induction n using Nat.strongRecOn with
  | _ n ih =>
    intro ws hn hw
    obtain ⟨us, vs, h1, h2, h3, h4⟩ := conv_greedy S hc hw 1024 (by omega)
    subst h1
    have hus : ∀ w ∈ us, Whole1 x.e w := fun w h => hw w (by simp [h])
    have ht : (us ++ vs).flatten.take ((us ++ vs).flatten.length - vs.flatten.length) = us.flatten := by
      rw [List.flatten_append, List.length_append, Nat.add_sub_cancel, List.take_left]
    rw [eaten]
    simp only [h2]
    rw [ht]
    split
    · rename_i h
      rcases h4 with ⟨-, g⟩ | ⟨g, -, -⟩
      · rw [g] at h; cases h.1
      · have : us ≠ [] := by intro e; exact g (List.append_eq_nil_iff.1 (h3 e)).2
        have hl := List.length_pos_iff.2 this
        rw [List.map_cons, List.flatten_cons, ih vs.length (by rw [← hn, List.length_append]; omega) vs rfl (fun w h => hw w (by simp [h])),
          List.flatten_append, raw_whole S hus]
    · rename_i h
      rcases h4 with ⟨g, -⟩ | ⟨g, g2, -⟩
      · subst g; simp
      · exfalso
        refine h ⟨g2, ?_⟩
        have : us ≠ [] := by intro e; exact g (List.append_eq_nil_iff.1 (h3 e)).2
        obtain ⟨u, us', rfl⟩ := List.exists_cons_of_ne_nil this
        have := whole_pos (hus u (by simp))
        simp only [List.cons_append, List.flatten_cons, List.flatten_append, List.length_append]
        omega

/-- Text that fits into the buffer is reported in one call. -/
theorem toEnd_short (hc : x.isUtf8 = false) {ws : List Buf} (hw : ∀ w ∈ ws, Whole1 x.e w) (h : (converted x ws.flatten).length ≤ 1024) :
    toEnd x ws.flatten = [ws.flatten] := by
  obtain ⟨us, vs, h1, h2, h3, h4⟩ := conv_greedy S hc hw 1024 (by omega)
  rw [toEnd]
  rw [if_neg]
  rintro ⟨g, -⟩
  rcases h4 with ⟨-, g'⟩ | ⟨-, -, g'⟩
  · rw [g] at g'; cases g'
  · omega

end

end Verif
