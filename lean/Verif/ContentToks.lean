import Verif.Props.C33
import Verif.Props.C05
import Verif.Props.C06
import Verif.Props.C07
import Verif.Props.C53

/-! What text the remaining tokens of content have: references, comments, processing instructions,
CDATA section starts, line ends and single characters. -/

set_option autoImplicit false

namespace Verif
open C43 C53
open Spec
open C07 (Tail target_sound target_complete checkPiTarget_spec XmlAnyCase)

section
variable {e : Enc} {asc : UInt8 → Buf} (s : Supported e asc)
include s

/-- `pi_iff` at any position. -/
theorem pi_at (b : Buf) (p n : Nat) (t : Tok) (ht : t.isError = false) :
    scanPi e b p = ⟨t, n⟩ ↔ ∃ (target : List Buf) (r : Buf) (m : Nat), e.Name target ∧
      b = target.flatten ++ r ∧ Tail e asc r m ∧ n = p + target.flatten.length + m ∧
      checkPiTarget e target.flatten = some t := by
  constructor
  · intro h
    rw [scanPi] at h
    split at h
    · cases h; cases ht
    · split at h
      · rename_i h2
        have := C07.fail_err (nmstrtCases_fail h2)
        rw [h, ht] at this; cases this
      · rename_i k h2
        obtain ⟨hc, hl⟩ := nmstrtCases_split s.ok s.mb (by omega) h2
        obtain ⟨ws, r, m, i1, i2, i3, i4, i5⟩ := target_sound s b p _ _ n t ht (b.take (k + 1))
          (List.take_append_drop _ _).symm
          (by rw [List.length_take, Nat.min_eq_left hl]) h
        refine ⟨b.take (k + 1) :: ws, r, m, ⟨_, _, rfl, hc, i1⟩, ?_, i4, ?_, ?_⟩
        · rw [List.flatten_cons, List.append_assoc, ← i2, List.take_append_drop]
        · rw [i5, List.flatten_cons, List.length_append, List.length_take, Nat.min_eq_left hl]; omega
        · rw [List.flatten_cons]; exact i3
      · cases h; cases ht
  · rintro ⟨target, r, m, ⟨w, vs, rfl, h1, h2⟩, rfl, h3, rfl, h4⟩
    rw [List.flatten_cons, List.append_assoc]
    obtain ⟨k, hk, hk2⟩ := nmstrtCases_char s.ok s.mb h1 (vs.flatten ++ r) p
    have := h1.len s.mb
    rw [scanPi, if_neg (by rw [List.length_append]; omega), hk]
    simp only
    rw [← hk2, List.drop_left' rfl,
      target_complete s _ p vs r m _ t w rfl rfl h2 (by simpa using h4) h3, List.length_append]
    congr 1; omega

/-- The data of a processing instruction: nothing, or white space and text without `?>`. -/
inductive PiBody (e : Enc) (asc : UInt8 → Buf) : Buf → Prop
  | none : PiBody e asc []
  | data (c : UInt8) (ws : List Buf) : isWS c = true → e.Chars ws →
      NoPair (asc 0x3F) (asc 0x3E) (ws ++ [asc 0x3F]) → PiBody e asc (asc c ++ ws.flatten)

theorem tail_iff (b : Buf) (m : Nat) : Tail e asc b m ↔ ∃ d r, PiBody e asc d ∧
    b = d ++ (asc 0x3F ++ (asc 0x3E ++ r)) ∧ m = d.length + 2 * e.mb := by
  have l (c) := s.asc.len c
  constructor
  · intro h
    cases h with
    | close r => exact ⟨[], r, .none, rfl, by simp⟩
    | data c ws r h1 h2 h3 => exact ⟨_, r, .data c ws h1 h2 h3, by simp, by simp [l]; omega⟩
  · rintro ⟨d, r, h, rfl, rfl⟩
    cases h with
    | none => simpa using Tail.close r
    | data c ws h1 h2 h3 =>
      have := Tail.data (e := e) (asc := asc) c ws r h1 h2 h3
      rw [List.append_assoc, List.length_append, l, show e.mb + ws.flatten.length + 2 * e.mb = ws.flatten.length + 3 * e.mb by omega]
      exact this

theorem mismatch_none (cs : List UInt8) (hs : ∀ c ∈ cs, c < 0x80) (b : Buf) (p : Nat) (hl : cs.length * e.mb ≤ b.length) :
    cdataMismatch e cs b p = none ↔ ∃ r, b = spell asc cs ++ r := by
  induction cs generalizing b p with
  | nil => simp [cdataMismatch, spell]
  | cons c cs ih =>
    have l := s.asc.len c
    have hm : (c :: cs).length * e.mb = cs.length * e.mb + e.mb := by
      rw [List.length_cons, Nat.succ_mul]
    have hc := hs c (by simp)
    have ih := ih (fun c h => hs c (by simp [h])) (b.drop e.mb) (p + e.mb) (by rw [List.length_drop]; omega)
    have hmat := s.asc.mat b c hc (by omega)
    rw [cdataMismatch]
    by_cases h : e.charMatches b c = true
    · rw [h]
      simp only [Bool.not_true, Bool.false_eq_true, if_false]
      have h2 := hmat.1 h
      have hb : b = asc c ++ b.drop e.mb := by rw [← h2, List.take_append_drop]
      rw [ih]
      constructor
      · rintro ⟨r, hr⟩
        refine ⟨r, ?_⟩
        conv => lhs; rw [hb, hr]
        simp [spell]
      · rintro ⟨r, hr⟩
        refine ⟨r, ?_⟩
        rw [hr]; simp only [spell, List.map_cons, List.flatten_cons, List.append_assoc]
        rw [drop_char l]
    · have h' : e.charMatches b c = false := by simpa using h
      rw [h']
      simp only [Bool.not_false, if_true, reduceCtorEq, false_iff]
      rintro ⟨r, rfl⟩
      apply h
      simp only [spell, List.map_cons, List.flatten_cons, List.append_assoc]
      exact asc_mat s _ hc _

/-- The text of a token of content which is markup. -/
inductive Markup (e : Enc) (asc : UInt8 → Buf) : Tok → Buf → Prop
  | ref {t w} : Ref e asc t w → Markup e asc t (asc 0x26 ++ w)
  | tag {name : List Buf} {as : List AttrSrc} {ws : List UInt8} (empty : Bool) : QName e asc name →
      (∀ a ∈ as, AttrSrc.Valid e asc a) → AllWS ws →
      Markup e asc (tagTok empty as.isEmpty) (asc 0x3C ++ (name.flatten ++ (attsText asc as ++ closeText asc ws empty)))
  | endTag {name : List Buf} {sp : List UInt8} : EndName e asc name → AllWS sp →
      Markup e asc .END_TAG (asc 0x3C ++ (asc 0x2F ++ (name.flatten ++ (spell asc sp ++ asc 0x3E))))
  | comment {ws : List Buf} : e.Chars ws → NoPair (asc 0x2D) (asc 0x2D) (ws ++ [asc 0x2D]) →
      Markup e asc .COMMENT (spell asc [0x3C, 0x21, 0x2D, 0x2D] ++ (ws.flatten ++ spell asc [0x2D, 0x2D, 0x3E]))
  | pi {target : List Buf} {d : Buf} {t : Tok} : e.Name target → PiBody e asc d →
      checkPiTarget e target.flatten = some t →
      Markup e asc t (spell asc [0x3C, 0x3F] ++ (target.flatten ++ (d ++ spell asc [0x3F, 0x3E])))
  | cdata : Markup e asc .CDATA_SECT_OPEN (spell asc ([0x3C, 0x21, 0x5B] ++ CDATA_LSQB))

omit s in
theorem pi_tok {target : Buf} {t : Tok} (h : checkPiTarget e target = some t) : t = .PI ∨ t = .XML_DECL := by
  unfold checkPiTarget at h
  grind

omit s in
theorem not_fail {r : Res} {t : Tok} {n : Nat} (ht : t.isError = false) (h : r.tok.fail) : r ≠ ⟨t, n⟩ := by
  rintro rfl
  have := Tok.fail_err h
  rw [ht] at this; cases this

/-- Markup tokens are markup. -/
theorem lt_sound (b : Buf) (n : Nat) (t : Tok) (ht : t.isError = false) (h : scanLt e b e.mb = ⟨t, n⟩) :
    ∃ w r, Markup e asc t (asc 0x3C ++ w) ∧ b = w ++ r ∧ n = e.mb + w.length := by
  have l (c) := s.asc.len c
  have h0 := h
  rw [scanLt] at h
  split at h
  · exact (not_fail ht (by simp [Tok.fail]) h).elim
  rename_i hb
  split at h
  · rename_i h1; exact (not_fail ht (nmstrtCases_fail h1) h).elim
  · have h2 := scanStartTag_tok e (.name false)
    have : ∃ emp no, t = tagTok emp no := by
      rename_i k _
      rcases h2 (b.drop (k + 1)) (e.mb + (k + 1)) with h3 | h3 | h3 | h3 | h3
      · exact (not_fail ht h3 h).elim
      all_goals rw [h] at h3; simp only at h3; subst h3
      · exact ⟨false, false, rfl⟩
      · exact ⟨true, false, rfl⟩
      · exact ⟨false, true, rfl⟩
      · exact ⟨true, true, rfl⟩
    obtain ⟨emp, no, rfl⟩ := this
    obtain ⟨name, as, ws, r, i1, i2, i3, i4, rfl, i6⟩ := lt_tag_sound s h0
    exact ⟨_, r, .tag emp i1 i2 i3, by rw [i4]; simp, by rw [i6]; simp⟩
  · split at h
    · rename_i h1
      have hb1 := single_split s (c := 0x21) rfl (by omega) h1
      split at h
      · exact (not_fail ht (by simp [Tok.fail]) h).elim
      rename_i hb2
      split at h
      · rename_i h2
        have hb3 := single_split s (c := 0x2D) rfl (by omega) h2
        rw [List.drop_drop, ← Nat.two_mul] at hb3
        rw [scanComment] at h
        split at h
        · split at h
          · exact (not_fail ht (by simp [Tok.fail]) h).elim
          · rename_i h3 h4
            have h5 := (s.asc.mat _ 0x2D (by decide) (by omega)).1 (by simpa using h4)
            have h6 : b.drop (2 * e.mb) = asc 0x2D ++ (b.drop (2 * e.mb)).drop e.mb := by
              rw [← h5, List.take_append_drop]
            have ht2 : t = .COMMENT := by
              rcases scanCommentLoop_tok e (List.drop e.mb (List.drop (2 * e.mb) b)) (e.mb + 2 * e.mb + e.mb) with h7 | h7
              · exact (not_fail ht h7 h).elim
              · rw [h] at h7; exact h7
            subst ht2
            obtain ⟨ws, r, i1, i2, i3, i4⟩ := C06.scanCommentLoop_sound s _ _ _ h
            have hm := Markup.comment (e := e) (asc := asc) i1 i2
            simp only [spell, List.map_cons, List.map_nil, List.flatten_cons, List.flatten_nil, List.append_nil, List.append_assoc] at hm
            refine ⟨_, r, hm, ?_, ?_⟩
            · rw [hb1, hb3, h6, i3]; simp only [List.append_assoc]
            · simp only [i4, List.length_append, l]; omega
        · exact (not_fail ht (by simp [Tok.fail]) h).elim
      · rename_i h2
        have hb3 := single_split s (c := 0x5B) rfl (by omega) h2
        rw [List.drop_drop, ← Nat.two_mul] at hb3
        rw [scanCdataSection] at h
        split at h
        · exact (not_fail ht (by simp [Tok.fail]) h).elim
        rename_i h3
        split at h
        · exact (not_fail ht (by simp [Tok.fail]) h).elim
        · rename_i h4
          rw [mismatch_none s _ (by decide) _ _ (by simpa [CDATA_LSQB] using Nat.le_of_not_lt h3)] at h4
          obtain ⟨r, hr⟩ := h4
          cases h
          have hm := Markup.cdata (e := e) (asc := asc)
          rw [List.cons_append, spell, List.map_cons, List.flatten_cons] at hm
          refine ⟨_, r, hm, ?_, ?_⟩
          · rw [hb1, hb3, hr]; simp [spell]
          · have := spell_length s ([0x21, 0x5B] ++ CDATA_LSQB)
            rw [this]
            have : ([0x21, 0x5B] ++ CDATA_LSQB).length = 8 := rfl
            rw [this]; omega
      · exact (not_fail ht (by simp [Tok.fail]) h).elim
    · rename_i h1
      have hb1 := single_split s (c := 0x3F) rfl (by omega) h1
      obtain ⟨target, r, m, i1, i2, i3, i4, i5⟩ := (pi_at s _ _ _ _ ht).1 h
      obtain ⟨d, r2, j1, rfl, rfl⟩ := (tail_iff s _ _).1 i3
      have hm := Markup.pi (e := e) (asc := asc) i1 j1 i5
      simp only [spell, List.map_cons, List.map_nil, List.flatten_cons, List.flatten_nil, List.append_nil, List.append_assoc] at hm
      refine ⟨_, r2, hm, ?_, ?_⟩
      · rw [hb1, i2]; simp only [List.append_assoc]
      · simp only [i4, List.length_append, l]; omega
    · rename_i h1
      have hb1 := single_split s (c := 0x2F) rfl (by omega) h1
      have ht2 : t = .END_TAG := by
        rcases scanEndTag_tok e (b.drop e.mb) (e.mb + e.mb) with h7 | h7
        · exact (not_fail ht h7 h).elim
        · rw [h] at h7; exact h7
      subst ht2
      obtain ⟨name, sp, r, i1, i2, i3, i4⟩ := (scanEndTag_iff s _ _ _).1 h
      refine ⟨_, r, .endTag i1 i2, ?_, ?_⟩
      · rw [hb1, i3]; simp only [List.append_assoc]
      · simp only [i4, List.length_append, l]; omega
    · exact (not_fail ht (by simp [Tok.fail]) h).elim

theorem content_sound {b : Buf} {n : Nat} {t : Tok} (hd : e.mb ∣ b.length) (ht : t.isError = false)
    (h1 : t ≠ .DATA_CHARS) (h2 : t ≠ .DATA_NEWLINE) (h : contentTok e b = ⟨t, n⟩) :
    ∃ w r, Markup e asc t w ∧ b = w ++ r ∧ n = w.length := by
  have l (c) := s.asc.len c
  have refs : ∀ r, b = asc 0x26 ++ r → scanRef e r e.mb = ⟨t, n⟩ →
      ∃ w r, Markup e asc t w ∧ b = w ++ r ∧ n = w.length := by
    rintro r rfl h
    obtain ⟨w, r, i1, rfl, rfl⟩ := (scanRef_iff s _ _ _ _ ht).1 h
    exact ⟨_, r, .ref i1, by simp, by simp [l]⟩
  by_cases hr : t = .CHAR_REF ∨ t = .ENTITY_REF
  · by_cases hb : e.mb ≤ b.length
    · rw [contentTok_eq hb, trunc_whole s hd, contentTokBody] at h
      have lp : ∀ b p, contentLoop e b p = ⟨t, n⟩ → False := by
        intro b p h
        rcases contentLoop_tok e b p with h5 | h5
        · rw [h] at h5; exact h1 h5
        · exact not_fail ht (.inl h5) h
      have lt : ∀ b p, scanLt e b p = ⟨t, n⟩ → False := by
        intro b p h
        have := scanLt_tok e b p
        rw [h] at this
        rcases hr with rfl | rfl <;> simp [Tok.fail, Tok.markup] at this
      split at h
      · rename_i h5; exact (not_fail ht (invalidCases_fail h5) h).elim
      · exact (lp _ _ h).elim
      · split at h
        · exact (lt _ _ h).elim
        · rename_i h6
          exact refs _ (single_split s rfl hb h6) h
        · split at h
          · cases h; cases ht
          · split at h <;> cases h <;> exact absurd rfl h2
        · cases h; exact absurd rfl h2
        · split at h
          · cases h; cases ht
          · split at h
            · split at h
              · cases h; cases ht
              · split at h
                · exact (lp _ _ h).elim
                · cases h; cases ht
            · exact (lp _ _ h).elim
        · exact (lp _ _ h).elim
    · have : b = [] := by
        rcases Nat.eq_zero_or_pos b.length with h5 | h5
        · exact List.length_eq_zero_iff.1 h5
        · exact absurd (Nat.le_of_dvd h5 hd) hb
      subst this
      rw [contentTok] at h
      simp at h
      rw [← h.1] at ht; cases ht
  · simp only [not_or] at hr
    obtain ⟨r, rfl, h'⟩ := (content_lt s hd ht h1 h2 hr.1 hr.2).1 h
    obtain ⟨w, r, i1, rfl, rfl⟩ := lt_sound s _ _ _ ht h'
    exact ⟨_, r, i1, by simp, by simp [l]⟩

theorem content_of_lt {t : Tok} {w r : Buf} {n : Nat} (hd : e.mb ∣ (asc 0x3C ++ (w ++ r)).length)
    (h : scanLt e (w ++ r) e.mb = ⟨t, n⟩) : contentTok e (asc 0x3C ++ (w ++ r)) = ⟨t, n⟩ := by
  have l (c) := s.asc.len c
  rw [contentTok_eq (by rw [List.length_append, l]; omega), trunc_whole s hd, contentTokBody,
      invalidCases_asc s (t := .LT) rfl]
  simp only [asc_bt s (t := .LT) rfl, drop_char (l _), h]

theorem content_complete {t : Tok} {w : Buf} (h : Markup e asc t w) (r : Buf) (hd : e.mb ∣ (w ++ r).length) :
    contentTok e (w ++ r) = ⟨t, w.length⟩ := by
  have l (c) := s.asc.len c
  cases h with
  | @ref t w h =>
    have ht : t.isError = false := by cases h <;> rfl
    rw [List.append_assoc] at hd ⊢
    rw [contentTok_eq (by rw [List.length_append, l]; omega), trunc_whole s hd, contentTokBody,
      invalidCases_asc s (t := .AMP) rfl]
    simp only [asc_bt s (t := .AMP) rfl, drop_char (l _)]
    rw [(scanRef_iff s _ _ _ _ ht).2 ⟨w, r, h, rfl, rfl⟩, List.length_append, l]
  | @tag name as ws empty h1 h2 h3 =>
    rw [List.append_assoc] at hd ⊢
    have := lt_tag_complete s h1 as h2 ws h3 empty r e.mb
    rw [content_of_lt s hd (n := (asc 0x3C ++ (name.flatten ++ (attsText asc as ++ closeText asc ws empty))).length)]
    rw [List.append_assoc, List.append_assoc, this]
    simp [l]
  | @endTag name sp h1 h2 =>
    rw [(end_tag s _ hd _).2]
    exact ⟨name, sp, r, h1, h2, by simp, by simp; omega⟩
  | @comment ws h1 h2 =>
    simp only [spell, List.map_cons, List.map_nil, List.flatten_cons, List.flatten_nil, List.append_nil, List.append_assoc] at hd ⊢
    have hc := content_of_lt s (w := asc 0x21) (r := asc 0x2D ++ (asc 0x2D ++ (ws.flatten ++ (asc 0x2D ++ (asc 0x2D ++ (asc 0x3E ++ r))))))
      hd (t := .COMMENT) (n := ws.flatten.length + 7 * e.mb)
    rw [hc]
    · simp only [List.length_append, l, Res.mk.injEq, true_and]; omega
    rw [scanLt, if_neg (asc_len_ok s _ _), nmstrtCases_other _ (by rw [asc_bt s (t := .EXCL) rfl]; rfl)]
    simp only [asc_bt s (t := .EXCL) rfl, drop_char (l _), asc_bt s (t := .MINUS) rfl]
    rw [if_neg (asc_len_ok s _ _), Nat.two_mul, ← List.drop_drop, drop_char (l _), drop_char (l _), scanComment,
      if_pos (by rw [List.length_append, l]; omega), asc_mat s _ (by decide)]
    simp only [Bool.not_true, Bool.false_eq_true, if_false, drop_char (l _)]
    rw [C06.scanCommentLoop_complete s ws r _ h1 h2]
    congr 1; omega
  | @pi target d t h1 h2 h3 =>
    have ht : t.isError = false := by rcases pi_tok h3 with rfl | rfl <;> rfl
    simp only [spell, List.map_cons, List.map_nil, List.flatten_cons, List.flatten_nil, List.append_nil, List.append_assoc] at hd ⊢
    have hc := content_of_lt s (w := asc 0x3F) (r := target.flatten ++ (d ++ (asc 0x3F ++ (asc 0x3E ++ r))))
      hd (t := t) (n := target.flatten.length + (d.length + 4 * e.mb))
    rw [hc]
    · simp only [List.length_append, l, Res.mk.injEq, true_and]; omega
    rw [scanLt, if_neg (asc_len_ok s _ _), nmstrtCases_other _ (by rw [asc_bt s (t := .QUEST) rfl]; rfl)]
    simp only [asc_bt s (t := .QUEST) rfl, drop_char (l _)]
    rw [(pi_at s _ _ _ _ ht).2 ⟨target, _, _, h1, rfl, (tail_iff s _ _).2 ⟨d, r, h2, rfl, rfl⟩, rfl, h3⟩]
    congr 1; omega
  | cdata =>
    have hl : (spell asc ([0x3C, 0x21, 0x5B] ++ CDATA_LSQB)).length = 9 * e.mb := by
      rw [spell, spell_length s]; rfl
    rw [hl]
    simp only [List.cons_append, List.nil_append, spell, List.map_cons, List.flatten_cons, List.append_assoc] at hd ⊢
    rw [content_of_lt s (w := asc 0x21) (r := asc 0x5B ++ ((CDATA_LSQB.map asc).flatten ++ r)) hd (t := .CDATA_SECT_OPEN)]
    rw [scanLt, if_neg (asc_len_ok s _ _), nmstrtCases_other _ (by rw [asc_bt s (t := .EXCL) rfl]; rfl)]
    simp only [asc_bt s (t := .EXCL) rfl, drop_char (l _), asc_bt s (t := .LSQB) rfl]
    have h6 : ((CDATA_LSQB.map asc).flatten).length = 6 * e.mb := by rw [spell_length s]; rfl
    rw [if_neg (asc_len_ok s _ _), Nat.two_mul, ← List.drop_drop, drop_char (l _), drop_char (l _), scanCdataSection,
      if_neg (by rw [List.length_append, h6]; omega), (mismatch_none s CDATA_LSQB (by decide) ((CDATA_LSQB.map asc).flatten ++ r) _ (by rw [List.length_append, h6]; simp [CDATA_LSQB])).2 ⟨r, rfl⟩]
    simp only [Res.mk.injEq, true_and]; omega

end
end Verif
