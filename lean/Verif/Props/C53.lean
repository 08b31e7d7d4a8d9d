import Verif.Tags

/-! C53: start tags, empty-element tags and end tags are exactly the XML productions. -/

namespace Verif.C53
open Verif

section
variable {e : Enc} {asc : UInt8 → Buf} (s : Supported e asc)
include s

/-- A buffer of whole code units is not truncated. -/
theorem trunc_whole {b : Buf} (h : e.mb ∣ b.length) : truncBuf e b = b := by
  have := truncBuf_dvd e b [] h
  simpa [truncBuf] using this

/-- `contentTok` on a buffer of whole units giving a tag token comes from `scanLt`. -/
theorem content_lt {b : Buf} {n : Nat} {t : Tok} (hd : e.mb ∣ b.length) (ht : t.isError = false)
    (h1 : t ≠ .DATA_CHARS) (h2 : t ≠ .DATA_NEWLINE) (h3 : t ≠ .CHAR_REF) (h4 : t ≠ .ENTITY_REF) :
    contentTok e b = ⟨t, n⟩ ↔ ∃ r, b = asc 0x3C ++ r ∧ scanLt e r e.mb = ⟨t, n⟩ := by
  have l := s.asc.len 0x3C
  have h0 : 0 < e.mb := Nat.succ_pos _
  have bad : ∀ {r : Res}, r.tok.fail → r = ⟨t, n⟩ → False := by
    intro r h1 h2
    have := Tok.fail_err h1
    rw [h2, ht] at this; cases this
  constructor
  · intro h
    by_cases hb : e.mb ≤ b.length
    · rw [contentTok_eq hb, trunc_whole s hd, contentTokBody] at h
      have lp : ∀ b p, contentLoop e b p = ⟨t, n⟩ → False := by
        intro b p h
        rcases contentLoop_tok e b p with h5 | h5
        · rw [h] at h5; exact h1 h5
        · exact bad (.inl h5) h
      split at h
      · rename_i h5; exact (bad (invalidCases_fail h5) h).elim
      · exact (lp _ _ h).elim
      · split at h
        · rename_i h6
          exact ⟨_, single_split s rfl hb h6, h⟩
        · rcases scanRef_tok e (b.drop e.mb) e.mb with h5 | h5 | h5
          · exact (bad h5 h).elim
          · rw [h] at h5; exact absurd h5 h3
          · rw [h] at h5; exact absurd h5 h4
        · split at h
          · cases h; cases ht
          · split at h <;> cases h <;> exact absurd rfl h2
        · cases h; exact absurd rfl h2
        · split at h
          · cases h; cases ht
          · split at h
            · split at h
              · cases h; cases ht
              · split at h
                · exact (lp _ _ h).elim
                · cases h; cases ht
            · exact (lp _ _ h).elim
        · exact (lp _ _ h).elim
    · have : b = [] := by
        rcases Nat.eq_zero_or_pos b.length with h5 | h5
        · exact List.length_eq_zero_iff.1 h5
        · exact absurd (Nat.le_of_dvd h5 hd) hb
      subst this
      rw [contentTok] at h
      simp at h
      rw [← h.1] at ht; cases ht
  · rintro ⟨r, rfl, h⟩
    rw [contentTok_eq (by rw [List.length_append]; omega), trunc_whole s hd, contentTokBody,
      invalidCases_asc s (t := .LT) rfl]
    simp only [asc_bt s (t := .LT) rfl, drop_char l, h]

/-- **Start tags and empty-element tags.**  At the head of a buffer of whole code units the content
tokenizer reports a tag exactly when the buffer starts with `'<' Name (S Attribute)* S? '/'? '>'`
where `Attribute` is `Name S? '=' S? '"' ([^<&"] | Reference)* '"'` (or with apostrophes); the token
says whether there are attributes and whether the element is empty, and ends right after the `>`. -/
theorem start_tag (b : Buf) (hd : e.mb ∣ b.length) (n : Nat) (empty noAtts : Bool) :
    contentTok e b = ⟨tagTok empty noAtts, n⟩ ↔
      ∃ name as ws r, QName e asc name ∧ (∀ a ∈ as, AttrSrc.Valid e asc a) ∧ AllWS ws ∧
        b = asc 0x3C ++ (name.flatten ++ (attsText asc as ++ (closeText asc ws empty ++ r))) ∧
        as.isEmpty = noAtts ∧ n = b.length - r.length := by
  have l := s.asc.len 0x3C
  rw [content_lt s hd (by cases empty <;> cases noAtts <;> rfl) (by cases empty <;> cases noAtts <;> decide)
    (by cases empty <;> cases noAtts <;> decide) (by cases empty <;> cases noAtts <;> decide)
    (by cases empty <;> cases noAtts <;> decide)]
  constructor
  · rintro ⟨r, rfl, h⟩
    obtain ⟨name, as, ws, r', h1, h2, h3, rfl, h5, rfl⟩ := lt_tag_sound s h
    refine ⟨name, as, ws, r', h1, h2, h3, rfl, h5, ?_⟩
    simp only [List.length_append, l]; omega
  · rintro ⟨name, as, ws, r, h1, h2, h3, rfl, rfl, rfl⟩
    refine ⟨_, rfl, ?_⟩
    rw [lt_tag_complete s h1 as h2 ws h3]
    simp only [List.length_append, l, Res.mk.injEq, true_and]; omega

/-- **End tags**: exactly `'</' Name S? '>'` (further colons are let through here; they are caught
because the raw name must equal that of the start tag). -/
theorem end_tag (b : Buf) (hd : e.mb ∣ b.length) (n : Nat) :
    contentTok e b = ⟨.END_TAG, n⟩ ↔
      ∃ name sp r, EndName e asc name ∧ AllWS sp ∧
        b = asc 0x3C ++ (asc 0x2F ++ (name.flatten ++ (spell asc sp ++ (asc 0x3E ++ r)))) ∧
        n = b.length - r.length := by
  have l (c) := s.asc.len c
  rw [content_lt s hd rfl (by decide) (by decide) (by decide) (by decide)]
  have bad : ∀ {r : Res}, (r.tok.fail ∨ r.tok = .COMMENT ∨ r.tok = .CDATA_SECT_OPEN ∨ r.tok = .PI ∨
      r.tok = .XML_DECL ∨ r.tok = .START_TAG_WITH_ATTS ∨ r.tok = .EMPTY_ELEMENT_WITH_ATTS ∨
      r.tok = .START_TAG_NO_ATTS ∨ r.tok = .EMPTY_ELEMENT_NO_ATTS) → r = ⟨.END_TAG, n⟩ → False := by
    rintro r h1 rfl
    simp [Tok.fail] at h1
  constructor
  · rintro ⟨r, rfl, h⟩
    rw [scanLt] at h
    split at h
    · cases h
    rename_i hb
    split at h
    · rename_i h1; exact (bad (.inl (nmstrtCases_fail h1)) h).elim
    · refine (bad ?_ h).elim
      have := scanStartTag_tok e (.name false)
      grind
    · split at h
      · split at h
        · cases h
        split at h
        · have := scanComment_tok e (r.drop (2 * e.mb)) (e.mb + 2 * e.mb)
          exact (bad (by grind) h).elim
        · have := scanCdataSection_tok e (r.drop (2 * e.mb)) (e.mb + 2 * e.mb)
          exact (bad (by grind) h).elim
        · cases h
      · have := scanPi_tok e (r.drop e.mb) (e.mb + e.mb)
        exact (bad (by grind) h).elim
      · rename_i h1
        obtain ⟨name, sp, r', i1, i2, i3, i4⟩ := (scanEndTag_iff s _ _ _).1 h
        have h2 := single_split s (c := 0x2F) rfl (by omega) h1
        rw [i3] at h2
        subst h2
        refine ⟨name, sp, r', i1, i2, rfl, ?_⟩
        simp only [List.length_append, l]; omega
      · cases h
  · rintro ⟨name, sp, r, h1, h2, rfl, rfl⟩
    refine ⟨_, rfl, ?_⟩
    have hb := asc_bt s (t := .SOL) rfl (name.flatten ++ (spell asc sp ++ (asc 0x3E ++ r)))
    rw [scanLt, if_neg (asc_len_ok s _ _), nmstrtCases_other _ (by rw [hb]; rfl)]
    simp only [hb, drop_char (l 0x2F)]
    rw [(scanEndTag_iff s _ _ _).2 ⟨name, sp, r, h1, h2, rfl, rfl⟩]
    simp only [List.length_append, l, Res.mk.injEq, true_and]; omega

end

/-- `<a b="&lt;" >` in UTF-8 and in UTF-16LE. -/
example : contentTok (utf8Enc false) "<a b=\"&lt;\" >x".toUTF8.toList = ⟨.START_TAG_WITH_ATTS, 13⟩ := by
  decide +kernel
example : ∃ a : AttrSrc, a.Valid (utf8Enc false) asc1 ∧ a.text asc1 = " b=\"&lt;\"".toUTF8.toList := by
  refine ⟨⟨[0x20], [[0x62]], [], [], 0x22, [0x26, 0x6C, 0x74, 0x3B]⟩, ⟨by simp, ?_, ?_, allWS_nil, allWS_nil,
    .inl rfl, ?_⟩, by decide +kernel⟩
  · intro c hc; simp at hc; subst hc; rfl
  · exact .plain _ ⟨[0x62], [], rfl, by decide +kernel, by simp⟩
  · have h : (utf8Enc false).Name [[0x6C], [0x74]] :=
      ⟨[0x6C], [[0x74]], rfl, by decide +kernel, by decide +kernel⟩
    have h2 : Ref (utf8Enc false) asc1 .ENTITY_REF [0x6C, 0x74, 0x3B] := .entity _ h
    have h3 : Value (utf8Enc false) asc1 0x22 (asc1 0x26 ++ ([0x6C, 0x74, 0x3B] ++ [])) :=
      .ref _ _ _ h2 .nil
    exact h3
/-- `</a:b >` with namespace tables. -/
example : contentTok (utf8Enc true) "</a:b >".toUTF8.toList = ⟨.END_TAG, 7⟩ := by decide +kernel
/-- No `<` in attribute values, white space required between attributes. -/
example : contentTok (utf8Enc false) "<a b='<'>".toUTF8.toList = ⟨.INVALID, 6⟩ := by decide +kernel
example : contentTok (utf8Enc false) "<a b=''c=''>".toUTF8.toList = ⟨.INVALID, 7⟩ := by decide +kernel

end Verif.C53
