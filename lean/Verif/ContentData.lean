import Verif.ContentToks

/-! Single characters and line ends in content and in CDATA sections. -/

set_option autoImplicit false

namespace Verif
open C43 C53 Spec

/-- The text starts with `]]>`. -/
def StartsClose (asc : UInt8 → Buf) (b : Buf) : Prop := ∃ r, b = asc 0x5D ++ (asc 0x5D ++ (asc 0x3E ++ r))

/-- A character other than a line end. -/
def Enc.Plain (e : Enc) (asc : UInt8 → Buf) (w : Buf) : Prop :=
  e.IsChar w ∧ w ≠ asc 0x0A ∧ (w = asc 0x0D → e.lineEnds asc = false)

section
variable {e : Enc} {asc : UInt8 → Buf} (s : Supported e asc)
include s

omit s in
theorem Enc.Plain.cr {w : Buf} (h : e.Plain asc w) (hc : ∀ w, e.IsChar w → e.bt w = .CR → w = asc 0x0D) : e.bt w ≠ .CR := by
  intro h1
  have h2 := hc w h.1 h1
  have h3 := h.2.2 h2
  subst h2
  rw [Enc.lineEnds, h1] at h3; cases h3

theorem cr_split {b : Buf} (hb : e.mb ≤ b.length) (h1 : e.bt b = .CR) :
    b = asc 0x0D ++ b.drop e.mb ∧ e.lineEnds asc = true := by
  obtain ⟨c, h2, h3⟩ := space_split s hb (.inr (.inl h1))
  have h4 := ws_bt s h2 (b.drop e.mb)
  rw [← h3, h1] at h4
  by_cases h5 : c = 0x0D ∧ e.lineEnds asc = true
  · obtain ⟨rfl, h6⟩ := h5
    exact ⟨h3, h6⟩
  · rw [if_neg h5] at h4
    split at h4 <;> cases h4

theorem cr_asc {w : Buf} (h : e.IsChar w) (h1 : e.bt w = .CR) : w = asc 0x0D := by
  have h2 := (cr_split s (e.isChar_len s.mb h) h1).1
  have : e.isLead w = false := by simp only [Enc.isLead, h1]
  have := e.isChar_len_nl h this
  rw [List.drop_of_length_le (by omega), List.append_nil] at h2
  exact h2

theorem asc_len0 (c : UInt8) : 0 < (asc c).length := by rw [s.asc.len]; exact Nat.succ_pos _

/-- The data loop, and the tokenizer at the same place. -/
theorem content_loop_tok (b : Buf) (hd : e.mb ∣ b.length) :
    contentLoop e b 0 = ⟨.DATA_CHARS, 0⟩ ∨ contentTok e b = contentLoop e b 0 := by
  by_cases hb : b.length < e.mb
  · left; rw [contentLoop, if_pos hb]
  · cases hs : contentStep e b 0 with
    | ret r =>
      have h1 : contentLoop e b 0 = r := by rw [contentLoop, if_neg hb, hs]
      rcases contentStep_ret hs with rfl | ⟨rfl, h3⟩
      · exact .inl h1
      · right
        rw [h1, contentTok_eq (by omega), trunc_whole s hd, contentTokBody]
        have hm : e.mb = e.m + 1 := rfl
        simp only [contentStep] at hs
        simp only [invalidCases, List.length_drop]
        generalize e.bt b = t at *
        cases t <;> simp only at hs ⊢ <;> grind
    | adv k =>
      right
      rw [contentTok_eq (by omega), trunc_whole s hd, contentTokBody_adv (by omega) hs]
    | other => left; rw [contentLoop, if_neg hb, hs]

theorem cdata_loop_tok (b : Buf) (hd : e.mb ∣ b.length) :
    cdataLoop e b 0 = ⟨.DATA_CHARS, 0⟩ ∨ cdataSectionTok e b = cdataLoop e b 0 := by
  by_cases hb : b.length < e.mb
  · left; rw [cdataLoop, if_pos hb]
  · cases hs : cdataStep e b 0 with
    | ret r =>
      have h1 : cdataLoop e b 0 = r := by rw [cdataLoop, if_neg hb, hs]
      have := cdataStep_ret hs
      subst this
      exact .inl h1
    | adv k =>
      right
      rw [cdataSectionTok_eq (by omega), trunc_whole s hd, cdataTokBody_adv (by omega) hs]
    | other => left; rw [cdataLoop, if_neg hb, hs]

/-- A character of data followed by anything: the data loop goes on after it, but for a `]` which might
begin `]]>`. -/
theorem content_char {w b : Buf} (hw : e.IsChar w) (h1 : w ≠ asc 0x3C) (h2 : w ≠ asc 0x26) (h3 : w ≠ asc 0x0A)
    (h4 : e.bt w ≠ .CR) (h5 : ¬ StartsClose asc (w ++ b)) (hd : e.mb ∣ (w ++ b).length) :
    contentTok e (w ++ b) = (contentLoop e b 0).shift w.length ∨
      w = asc 0x5D ∧ (b = [] ∨ b = asc 0x5D) ∧ contentTok e (w ++ b) = ⟨.TRAILING_RSQB, 0⟩ := by
  have hl := e.isChar_len s.mb hw
  have l (c) := s.asc.len c
  have hm : e.mb = e.m + 1 := rfl
  rw [contentTok_eq (by rw [List.length_append]; omega), trunc_whole s hd, contentTokBody]
  have sh := contentLoop_shift (e := e) b 0 w.length
  rw [Nat.add_zero] at sh
  by_cases hlead : e.isLead w = true
  · obtain ⟨i1, i2⟩ := invalidCases_lead s.ok s.mb hw hlead b 0
    left
    rw [i1]
    simp only
    rw [show w.length - 1 + 1 = w.length by omega, List.drop_left' rfl, sh]
  · have hlead : e.isLead w = false := by simpa using hlead
    have hlen := e.isChar_len_nl hw hlead
    rw [invalidCases_nl s.ok s.mb hw hlead b 0]
    simp only
    rw [← hlen, List.drop_left' rfl, Nat.two_mul, ← List.drop_drop, List.drop_left' rfl]
    by_cases hr : w = asc 0x5D
    · subst hr
      simp only [asc_bt s (t := .RSQB) rfl]
      rw [l] at *
      split
      · rename_i h6
        right
        refine ⟨trivial, .inl ?_, rfl⟩
        rcases Nat.eq_zero_or_pos b.length with h7 | h7
        · exact List.length_eq_zero_iff.1 h7
        · rw [List.length_append, l, Nat.dvd_add_right (Nat.dvd_refl _)] at hd
          exact absurd (Nat.le_of_dvd h7 hd) (by omega)
      · rename_i h6
        split
        · rename_i h7
          have hb := mat_split s (by decide) (by omega) h7
          split
          · rename_i h8
            right
            refine ⟨trivial, .inr ?_, rfl⟩
            have : b.drop e.mb = [] := by
              rcases Nat.eq_zero_or_pos (b.drop e.mb).length with h9 | h9
              · exact List.length_eq_zero_iff.1 h9
              · rw [List.length_append, l, Nat.dvd_add_right (Nat.dvd_refl _), hb, List.length_append, l, Nat.dvd_add_right (Nat.dvd_refl _)] at hd
                exact absurd (Nat.le_of_dvd h9 hd) (by omega)
            rw [this, List.append_nil] at hb
            exact hb
          · rename_i h8
            split
            · left; exact sh
            · rename_i h9
              exfalso
              have h10 : e.charMatches (b.drop e.mb) 0x3E = true := by simpa using h9
              have hb2 := mat_split s (by decide) (by omega) h10
              apply h5
              refine ⟨(b.drop e.mb).drop e.mb, ?_⟩
              rw [← hb2, ← hb]
        · left; exact sh
    · left
      have n1 : e.bt (w ++ b) ≠ .LT := fun h => h1 ((char_bt s hw rfl b).1 h)
      have n2 : e.bt (w ++ b) ≠ .AMP := fun h => h2 ((char_bt s hw rfl b).1 h)
      have n3 : e.bt (w ++ b) ≠ .LF := fun h => h3 ((char_bt s hw rfl b).1 h)
      have n4 : e.bt (w ++ b) ≠ .RSQB := fun h => hr ((char_bt s hw rfl b).1 h)
      have n5 : e.bt (w ++ b) ≠ .CR := by rw [s.ok.bt_app w b hl]; exact h4
      generalize e.bt (w ++ b) = t at *
      cases t <;> simp only at * <;> first | exact sh | contradiction

theorem cdata_char {w b : Buf} (hw : e.IsChar w) (h3 : w ≠ asc 0x0A)
    (h4 : e.bt w ≠ .CR) (h5 : ¬ StartsClose asc (w ++ b)) (hd : e.mb ∣ (w ++ b).length) :
    cdataSectionTok e (w ++ b) = (cdataLoop e b 0).shift w.length ∨
      w = asc 0x5D ∧ (b = [] ∨ b = asc 0x5D) ∧ cdataSectionTok e (w ++ b) = ⟨.PARTIAL, 0⟩ := by
  have hl := e.isChar_len s.mb hw
  have l (c) := s.asc.len c
  have hm : e.mb = e.m + 1 := rfl
  rw [cdataSectionTok_eq (by rw [List.length_append]; omega), trunc_whole s hd, cdataTokBody]
  have sh := cdataLoop_shift (e := e) b 0 w.length
  rw [Nat.add_zero] at sh
  by_cases hlead : e.isLead w = true
  · obtain ⟨i1, i2⟩ := invalidCases_lead s.ok s.mb hw hlead b 0
    left
    rw [i1]
    simp only
    rw [show w.length - 1 + 1 = w.length by omega, List.drop_left' rfl, sh]
  · have hlead : e.isLead w = false := by simpa using hlead
    have hlen := e.isChar_len_nl hw hlead
    rw [invalidCases_nl s.ok s.mb hw hlead b 0]
    simp only
    rw [← hlen, List.drop_left' rfl, Nat.two_mul, ← List.drop_drop, List.drop_left' rfl]
    by_cases hr : w = asc 0x5D
    · subst hr
      simp only [asc_bt s (t := .RSQB) rfl]
      rw [l] at *
      split
      · rename_i h6
        right
        refine ⟨trivial, .inl ?_, rfl⟩
        rcases Nat.eq_zero_or_pos b.length with h7 | h7
        · exact List.length_eq_zero_iff.1 h7
        · rw [List.length_append, l, Nat.dvd_add_right (Nat.dvd_refl _)] at hd
          exact absurd (Nat.le_of_dvd h7 hd) (by omega)
      · rename_i h6
        split
        · rename_i h7
          have hb := mat_split s (by decide) (by omega) h7
          split
          · rename_i h8
            right
            refine ⟨trivial, .inr ?_, rfl⟩
            have : b.drop e.mb = [] := by
              rcases Nat.eq_zero_or_pos (b.drop e.mb).length with h9 | h9
              · exact List.length_eq_zero_iff.1 h9
              · rw [List.length_append, l, Nat.dvd_add_right (Nat.dvd_refl _), hb, List.length_append, l, Nat.dvd_add_right (Nat.dvd_refl _)] at hd
                exact absurd (Nat.le_of_dvd h9 hd) (by omega)
            rw [this, List.append_nil] at hb
            exact hb
          · rename_i h8
            split
            · left; exact sh
            · rename_i h9
              exfalso
              have h10 : e.charMatches (b.drop e.mb) 0x3E = true := by simpa using h9
              have hb2 := mat_split s (by decide) (by omega) h10
              apply h5
              refine ⟨(b.drop e.mb).drop e.mb, ?_⟩
              rw [← hb2, ← hb]
        · left; exact sh
    · left
      have n3 : e.bt (w ++ b) ≠ .LF := fun h => h3 ((char_bt s hw rfl b).1 h)
      have n4 : e.bt (w ++ b) ≠ .RSQB := fun h => hr ((char_bt s hw rfl b).1 h)
      have n5 : e.bt (w ++ b) ≠ .CR := by rw [s.ok.bt_app w b hl]; exact h4
      generalize e.bt (w ++ b) = t at *
      cases t <;> simp only at * <;> first | exact sh | contradiction

/-! Line ends. -/

theorem content_lf {b : Buf} (hd : e.mb ∣ (asc 0x0A ++ b).length) :
    contentTok e (asc 0x0A ++ b) = ⟨.DATA_NEWLINE, e.mb⟩ := by
  have l (c) := s.asc.len c
  rw [contentTok_eq (by rw [List.length_append, l]; omega), trunc_whole s hd, contentTokBody,
      invalidCases_asc s (t := .LF) rfl]
  simp only [asc_bt s (t := .LF) rfl]

theorem cdata_lf {b : Buf} (hd : e.mb ∣ (asc 0x0A ++ b).length) :
    cdataSectionTok e (asc 0x0A ++ b) = ⟨.DATA_NEWLINE, e.mb⟩ := by
  have l (c) := s.asc.len c
  rw [cdataSectionTok_eq (by rw [List.length_append, l]; omega), trunc_whole s hd, cdataTokBody,
      invalidCases_asc s (t := .LF) rfl]
  simp only [asc_bt s (t := .LF) rfl]

theorem cr_other {b : Buf} (hx : e.lineEnds asc = true) : invalidCases e (asc 0x0D ++ b) 0 = .other ∧ e.bt (asc 0x0D ++ b) = .CR := by
  have l (c) := s.asc.len c
  have h1 : e.bt (asc 0x0D) = .CR := by simpa [Enc.lineEnds] using hx
  have h2 : e.bt (asc 0x0D ++ b) = .CR := by rw [s.ok.bt_app _ _ (by rw [l]; omega), h1]
  exact ⟨by simp only [invalidCases, h2], h2⟩

theorem content_cr {b : Buf} (hx : e.lineEnds asc = true) (hd : e.mb ∣ (asc 0x0D ++ b).length) (hn : ∀ r, b ≠ asc 0x0A ++ r) :
    b = [] ∧ contentTok e (asc 0x0D ++ b) = ⟨.TRAILING_CR, 0⟩ ∨ contentTok e (asc 0x0D ++ b) = ⟨.DATA_NEWLINE, e.mb⟩ := by
  have l (c) := s.asc.len c
  obtain ⟨i1, i2⟩ := cr_other s (b := b) hx
  rw [contentTok_eq (by rw [List.length_append, l]; omega), trunc_whole s hd, contentTokBody, i1]
  simp only [i2, drop_char (l _)]
  split
  · rename_i h
    left
    refine ⟨?_, rfl⟩
    rcases Nat.eq_zero_or_pos b.length with h7 | h7
    · exact List.length_eq_zero_iff.1 h7
    · rw [List.length_append, l, Nat.dvd_add_right (Nat.dvd_refl _)] at hd
      exact absurd (Nat.le_of_dvd h7 hd) (by omega)
  · rename_i h
    rw [if_neg]
    · exact .inr rfl
    · intro h2
      exact hn _ (single_split s rfl (by omega) h2)

theorem cdata_cr {b : Buf} (hx : e.lineEnds asc = true) (hd : e.mb ∣ (asc 0x0D ++ b).length) (hn : ∀ r, b ≠ asc 0x0A ++ r) :
    b = [] ∧ cdataSectionTok e (asc 0x0D ++ b) = ⟨.PARTIAL, 0⟩ ∨ cdataSectionTok e (asc 0x0D ++ b) = ⟨.DATA_NEWLINE, e.mb⟩ := by
  have l (c) := s.asc.len c
  obtain ⟨i1, i2⟩ := cr_other s (b := b) hx
  rw [cdataSectionTok_eq (by rw [List.length_append, l]; omega), trunc_whole s hd, cdataTokBody, i1]
  simp only [i2, drop_char (l _)]
  split
  · rename_i h
    left
    refine ⟨?_, rfl⟩
    rcases Nat.eq_zero_or_pos b.length with h7 | h7
    · exact List.length_eq_zero_iff.1 h7
    · rw [List.length_append, l, Nat.dvd_add_right (Nat.dvd_refl _)] at hd
      exact absurd (Nat.le_of_dvd h7 hd) (by omega)
  · rename_i h
    rw [if_neg]
    · exact .inr rfl
    · intro h2
      exact hn _ (single_split s rfl (by omega) h2)

theorem content_crlf {b : Buf} (hx : e.lineEnds asc = true) (hd : e.mb ∣ (asc 0x0D ++ (asc 0x0A ++ b)).length) :
    contentTok e (asc 0x0D ++ (asc 0x0A ++ b)) = ⟨.DATA_NEWLINE, 2 * e.mb⟩ := by
  have l (c) := s.asc.len c
  obtain ⟨i1, i2⟩ := cr_other s (b := asc 0x0A ++ b) hx
  rw [contentTok_eq (by rw [List.length_append, l]; omega), trunc_whole s hd, contentTokBody, i1]
  simp only [i2, drop_char (l _), asc_bt s (t := .LF) rfl, if_true]
  rw [if_neg (asc_len_ok s _ _)]

theorem cdata_crlf {b : Buf} (hx : e.lineEnds asc = true) (hd : e.mb ∣ (asc 0x0D ++ (asc 0x0A ++ b)).length) :
    cdataSectionTok e (asc 0x0D ++ (asc 0x0A ++ b)) = ⟨.DATA_NEWLINE, 2 * e.mb⟩ := by
  have l (c) := s.asc.len c
  obtain ⟨i1, i2⟩ := cr_other s (b := asc 0x0A ++ b) hx
  rw [cdataSectionTok_eq (by rw [List.length_append, l]; omega), trunc_whole s hd, cdataTokBody, i1]
  simp only [i2, drop_char (l _), asc_bt s (t := .LF) rfl, if_true]
  rw [if_neg (asc_len_ok s _ _)]

theorem cdata_close {b : Buf} (hd : e.mb ∣ (spell asc [0x5D, 0x5D, 0x3E] ++ b).length) :
    cdataSectionTok e (spell asc [0x5D, 0x5D, 0x3E] ++ b) = ⟨.CDATA_SECT_CLOSE, 3 * e.mb⟩ := by
  have l (c) := s.asc.len c
  simp only [spell, List.map_cons, List.map_nil, List.flatten_cons, List.flatten_nil, List.append_nil, List.append_assoc] at hd ⊢
  rw [cdataSectionTok_eq (by rw [List.length_append, l]; omega), trunc_whole s hd, cdataTokBody,
    invalidCases_asc s (t := .RSQB) rfl]
  simp only [asc_bt s (t := .RSQB) rfl, Nat.two_mul, ← List.drop_drop, drop_char (l _)]
  rw [if_neg (asc_len_ok s _ _), if_pos (asc_mat s _ (by decide) _), if_neg (asc_len_ok s _ _), if_neg (by rw [asc_mat s _ (by decide)]; decide)]

/-- What the first token of content says about its text. -/
theorem content_first {b : Buf} (hd : e.mb ∣ b.length) {t : Tok} {n : Nat} (h : contentTok e b = ⟨t, n⟩)
    (ht : t = .DATA_CHARS ∨ t = .DATA_NEWLINE ∨ t = .TRAILING_CR ∨ t = .TRAILING_RSQB) :
    (∃ w r, b = w ++ r ∧ e.Plain asc w ∧ w ≠ asc 0x3C ∧ w ≠ asc 0x26 ∧ ¬ StartsClose asc b) ∨
    (∃ r, b = asc 0x0A ++ r) ∨ (e.lineEnds asc = true ∧ ∃ r, b = asc 0x0D ++ r) := by
  have l (c) := s.asc.len c
  by_cases hdc : t = .DATA_CHARS
  · subst hdc
    obtain ⟨ws, r, i1, i2, i3, -, i5⟩ := C05.data_token s _ _ h
    left
    cases ws with
    | nil => exact absurd rfl i1
    | cons w ws =>
      obtain ⟨j1, j2, j3, j4, j5⟩ := i2 w (by simp)
      refine ⟨w, ws.flatten ++ r, by rw [i3]; simp, ⟨j1, j4, fun hw => ?_⟩, j2, j3, ?_⟩
      · subst hw
        simpa [Enc.lineEnds] using j5
      · rintro ⟨r', hr⟩
        exact i5 [] (w :: ws) [] r' rfl (by simp) (by rw [List.append_nil, ← i3, hr])
  by_cases hb : e.mb ≤ b.length
  · rw [contentTok_eq hb, trunc_whole s hd, contentTokBody] at h
    have lp : ∀ b p, contentLoop e b p = ⟨t, n⟩ → False := by
      intro b p h
      rcases contentLoop_tok e b p with h5 | h5
      · rw [h] at h5; exact hdc h5
      · rw [h] at h5; grind
    have fl : ∀ {r : Res}, r.tok.fail → r = ⟨t, n⟩ → False := by
      rintro r h1 rfl
      simp only [Tok.fail] at h1; grind
    split at h
    · rename_i h5; exact (fl (invalidCases_fail h5) h).elim
    · exact (lp _ _ h).elim
    · split at h
      · rcases scanLt_tok e (b.drop e.mb) e.mb with h6 | h6
        · exact (fl h6 h).elim
        · rw [h] at h6; simp only [Tok.markup] at h6; grind
      · rcases scanRef_tok e (b.drop e.mb) e.mb with h6 | h6 | h6
        · exact (fl h6 h).elim
        · rw [h] at h6; grind
        · rw [h] at h6; grind
      · rename_i h6
        obtain ⟨i1, i2⟩ := cr_split s hb h6
        exact .inr (.inr ⟨i2, _, i1⟩)
      · rename_i h6
        exact .inr (.inl ⟨_, single_split s rfl hb h6⟩)
      · rename_i h6
        have hs := single_split s (c := 0x5D) rfl hb h6
        left
        refine ⟨_, _, hs, ⟨asc_char s (t := .RSQB) rfl, fun h => absurd (s.asc_inj h) (by decide), fun h => absurd (s.asc_inj h) (by decide)⟩,
          fun h => absurd (s.asc_inj h) (by decide), fun h => absurd (s.asc_inj h) (by decide), ?_⟩
        rintro ⟨r, rfl⟩
        simp only [Nat.two_mul, ← List.drop_drop, drop_char (l _)] at h
        rw [if_neg (asc_len_ok s _ _), if_pos (asc_mat s _ (by decide) _), if_neg (asc_len_ok s _ _), if_neg (by rw [asc_mat s _ (by decide)]; decide)] at h
        cases h; grind
      · exact (lp _ _ h).elim
  · have : b = [] := by
      rcases Nat.eq_zero_or_pos b.length with h5 | h5
      · exact List.length_eq_zero_iff.1 h5
      · exact absurd (Nat.le_of_dvd h5 hd) hb
    subst this
    rw [contentTok] at h
    simp at h
    grind

theorem cdata_first {b : Buf} (hd : e.mb ∣ b.length) {t : Tok} {n : Nat} (h : cdataSectionTok e b = ⟨t, n⟩)
    (ht : t.isError = false) :
    (∃ r, b = spell asc [0x5D, 0x5D, 0x3E] ++ r) ∨
    (∃ w r, b = w ++ r ∧ e.Plain asc w ∧ ¬ StartsClose asc b) ∨
    (∃ r, b = asc 0x0A ++ r) ∨ (e.lineEnds asc = true ∧ ∃ r, b = asc 0x0D ++ r) := by
  have l (c) := s.asc.len c
  by_cases hb : e.mb ≤ b.length
  · rw [cdataSectionTok_eq hb, trunc_whole s hd] at h
    by_cases hdc : t = .DATA_CHARS
    · subst hdc
      obtain ⟨w, ws, r, i1, i2, i3, i4, i5⟩ := cdataTokBody_data s b n hb h
      obtain ⟨j1, j2, j3⟩ := i1 w (by simp)
      refine .inr (.inl ⟨w, ws.flatten ++ r, by rw [i4]; simp, ⟨j1, j2, fun hw => ?_⟩, ?_⟩)
      · subst hw
        simpa [Enc.lineEnds] using j3
      · rintro ⟨r', hr⟩
        exact i3 [] r' (by rw [List.append_nil, hr])
    rw [cdataTokBody] at h
    have lp : ∀ b p, cdataLoop e b p = ⟨t, n⟩ → False := by
      intro b p h
      have h5 := cdataLoop_tok e b p
      rw [h] at h5; exact hdc h5
    split at h
    · rename_i h5; exact (not_fail ht (invalidCases_fail h5) h).elim
    · exact (lp _ _ h).elim
    · split at h
      · rename_i h6
        have hs := single_split s (c := 0x5D) rfl hb h6
        left
        split at h
        · exact (not_fail ht (by simp [Tok.fail]) h).elim
        split at h
        · rename_i h7 h8
          have hs2 := mat_split s (by decide) (by omega) h8
          split at h
          · exact (not_fail ht (by simp [Tok.fail]) h).elim
          split at h
          · exact (lp _ _ h).elim
          · rename_i h9 h10
            have h10 : e.charMatches (b.drop (2 * e.mb)) 0x3E = true := by simpa using h10
            have hs3 := mat_split s (by decide) (by omega) h10
            rw [Nat.two_mul, ← List.drop_drop] at hs3
            refine ⟨((b.drop e.mb).drop e.mb).drop e.mb, ?_⟩
            simp only [spell, List.map_cons, List.map_nil, List.flatten_cons, List.flatten_nil, List.append_nil, List.append_assoc]
            rw [← hs3, ← hs2, ← hs]
        · exact (lp _ _ h).elim
      · rename_i h6
        obtain ⟨i1, i2⟩ := cr_split s hb h6
        exact .inr (.inr (.inr ⟨i2, _, i1⟩))
      · rename_i h6
        exact .inr (.inr (.inl ⟨_, single_split s rfl hb h6⟩))
      · exact (lp _ _ h).elim
  · have : b = [] := by
      rcases Nat.eq_zero_or_pos b.length with h5 | h5
      · exact List.length_eq_zero_iff.1 h5
      · exact absurd (Nat.le_of_dvd h5 hd) hb
    subst this
    rw [cdataSectionTok] at h
    simp at h
    rw [← h.1] at ht; cases ht

end
end Verif
