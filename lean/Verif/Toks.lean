import Verif.Utf8Chars

/-! Which tokens each scanner can return. -/

namespace Verif

/-- The three answers by which a scanner gives up. -/
def Tok.fail (t : Tok) : Prop := t = .INVALID ∨ t = .PARTIAL ∨ t = .PARTIAL_CHAR

@[simp] theorem Tok.fail_invalid : Tok.fail .INVALID := .inl rfl
@[simp] theorem Tok.fail_partial : Tok.fail .PARTIAL := .inr (.inl rfl)
@[simp] theorem Tok.fail_partial_char : Tok.fail .PARTIAL_CHAR := .inr (.inr rfl)

theorem invalidCases_fail {e : Enc} {b p r} (h : invalidCases e b p = .ret r) : r.tok.fail := by
  revert h
  fun_cases invalidCases e b p <;> grind [Tok.fail]
theorem nameCases_fail {e : Enc} {b p r} (h : nameCases e b p = .ret r) : r.tok.fail := by
  revert h
  fun_cases nameCases e b p <;> grind [Tok.fail]
theorem nmstrtCases_fail {e : Enc} {b p r} (h : nmstrtCases e b p = .ret r) : r.tok.fail := by
  revert h
  fun_cases nmstrtCases e b p <;> grind [Tok.fail]

theorem scanCommentLoop_tok (e b p) :
    (scanCommentLoop e b p).tok.fail ∨ (scanCommentLoop e b p).tok = .COMMENT := by
  fun_induction scanCommentLoop e b p <;> grind [Tok.fail, → invalidCases_fail]
theorem scanComment_tok (e b p) :
    (scanComment e b p).tok.fail ∨ (scanComment e b p).tok = .COMMENT := by
  fun_cases scanComment e b p <;> grind [Tok.fail, scanCommentLoop_tok]
theorem checkPiTarget_tok {e b t} (h : checkPiTarget e b = some t) : t = .PI ∨ t = .XML_DECL := by
  revert h
  simp only [checkPiTarget]
  grind
theorem scanPiData_tok (e t b p) :
    (scanPiData e t b p).tok.fail ∨ (scanPiData e t b p).tok = t := by
  fun_induction scanPiData e t b p <;> grind [Tok.fail, → invalidCases_fail]
theorem scanPiTarget_tok (e t p0 b p) : (scanPiTarget e t p0 b p).tok.fail
    ∨ (scanPiTarget e t p0 b p).tok = .PI ∨ (scanPiTarget e t p0 b p).tok = .XML_DECL := by
  fun_induction scanPiTarget e t p0 b p <;>
    grind [Tok.fail, → nameCases_fail, → checkPiTarget_tok, scanPiData_tok]
theorem scanPi_tok (e b p) : (scanPi e b p).tok.fail
    ∨ (scanPi e b p).tok = .PI ∨ (scanPi e b p).tok = .XML_DECL := by
  fun_cases scanPi e b p <;>
    grind [Tok.fail, → nmstrtCases_fail, scanPiTarget_tok]
theorem scanCdataSection_tok (e b p) :
    (scanCdataSection e b p).tok.fail ∨ (scanCdataSection e b p).tok = .CDATA_SECT_OPEN := by
  fun_cases scanCdataSection e b p <;> grind [Tok.fail]
theorem scanEndTagLoop_tok (e w b p) :
    (scanEndTagLoop e w b p).tok.fail ∨ (scanEndTagLoop e w b p).tok = .END_TAG := by
  fun_induction scanEndTagLoop e w b p <;> grind [Tok.fail, → nameCases_fail]
theorem scanEndTag_tok (e b p) :
    (scanEndTag e b p).tok.fail ∨ (scanEndTag e b p).tok = .END_TAG := by
  fun_cases scanEndTag e b p <;> grind [Tok.fail, → nmstrtCases_fail, scanEndTagLoop_tok]
theorem scanHexLoop_tok (e b p) :
    (scanHexLoop e b p).tok.fail ∨ (scanHexLoop e b p).tok = .CHAR_REF := by
  fun_induction scanHexLoop e b p <;> grind [Tok.fail]
theorem scanDecLoop_tok (e b p) :
    (scanDecLoop e b p).tok.fail ∨ (scanDecLoop e b p).tok = .CHAR_REF := by
  fun_induction scanDecLoop e b p <;> grind [Tok.fail]
theorem scanCharRef_tok (e b p) :
    (scanCharRef e b p).tok.fail ∨ (scanCharRef e b p).tok = .CHAR_REF := by
  fun_cases scanCharRef e b p <;>
    grind [Tok.fail, scanHexLoop_tok, scanDecLoop_tok, scanHexCharRef]
theorem scanNameSemi_tok (e t b p) :
    (scanNameSemi e t b p).tok.fail ∨ (scanNameSemi e t b p).tok = t := by
  fun_induction scanNameSemi e t b p <;> grind [Tok.fail, → nameCases_fail]
theorem scanRef_tok (e b p) : (scanRef e b p).tok.fail ∨ (scanRef e b p).tok = .CHAR_REF
    ∨ (scanRef e b p).tok = .ENTITY_REF := by
  fun_cases scanRef e b p <;>
    grind [Tok.fail, → nmstrtCases_fail, scanCharRef_tok, scanNameSemi_tok]
theorem scanAtts_tok (e st b p) : (scanAtts e st b p).tok.fail
    ∨ (scanAtts e st b p).tok = .START_TAG_WITH_ATTS
    ∨ (scanAtts e st b p).tok = .EMPTY_ELEMENT_WITH_ATTS := by
  fun_induction scanAtts e st b p <;>
    grind [Tok.fail, → nmstrtCases_fail, → nameCases_fail, → invalidCases_fail, scanRef_tok,
      Tok.isError, Tok.toInt]
theorem scanStartTag_tok (e st b p) : (scanStartTag e st b p).tok.fail
    ∨ (scanStartTag e st b p).tok = .START_TAG_WITH_ATTS
    ∨ (scanStartTag e st b p).tok = .EMPTY_ELEMENT_WITH_ATTS
    ∨ (scanStartTag e st b p).tok = .START_TAG_NO_ATTS
    ∨ (scanStartTag e st b p).tok = .EMPTY_ELEMENT_NO_ATTS := by
  fun_induction scanStartTag e st b p <;>
    grind [Tok.fail, → nmstrtCases_fail, → nameCases_fail, scanAtts_tok, scanLtHelper]

/-- The tokens `scanLt` can produce. -/
def Tok.markup (t : Tok) : Prop :=
  t = .START_TAG_WITH_ATTS ∨ t = .EMPTY_ELEMENT_WITH_ATTS ∨ t = .START_TAG_NO_ATTS
  ∨ t = .EMPTY_ELEMENT_NO_ATTS ∨ t = .END_TAG ∨ t = .PI ∨ t = .XML_DECL ∨ t = .COMMENT
  ∨ t = .CDATA_SECT_OPEN

theorem scanLt_tok (e b p) : (scanLt e b p).tok.fail ∨ (scanLt e b p).tok.markup := by
  have h1 := scanStartTag_tok e
  fun_cases scanLt e b p <;>
    grind [Tok.fail, Tok.markup, → nmstrtCases_fail, scanComment_tok, scanCdataSection_tok,
      scanPi_tok, scanEndTag_tok]

theorem scanRef_not_data (e : Enc) (b p n) : scanRef e b p ≠ ⟨.DATA_CHARS, n⟩ := by
  have h := scanRef_tok e b p
  intro h2; rw [h2] at h; simp [Tok.fail] at h

theorem scanLt_not_data (e : Enc) (b p n) : scanLt e b p ≠ ⟨.DATA_CHARS, n⟩ := by
  have h := scanLt_tok e b p
  intro h2; rw [h2] at h; simp [Tok.fail, Tok.markup] at h

theorem contentLoop_tok (e b p) :
    (contentLoop e b p).tok = .DATA_CHARS ∨ (contentLoop e b p).tok = .INVALID := by
  fun_induction contentLoop e b p <;> grind [contentStep]

theorem cdataSectionTok_tok (e b) : (cdataSectionTok e b).tok.fail
    ∨ (cdataSectionTok e b).tok = .NONE ∨ (cdataSectionTok e b).tok = .CDATA_SECT_CLOSE
    ∨ (cdataSectionTok e b).tok = .DATA_NEWLINE ∨ (cdataSectionTok e b).tok = .DATA_CHARS := by
  have h : ∀ b, (cdataTokBody e b).tok.fail ∨ (cdataTokBody e b).tok = .CDATA_SECT_CLOSE
      ∨ (cdataTokBody e b).tok = .DATA_NEWLINE ∨ (cdataTokBody e b).tok = .DATA_CHARS := by
    intro b
    fun_cases cdataTokBody e b <;> grind [Tok.fail, → invalidCases_fail, cdataLoop_tok]
  simp only [cdataSectionTok]
  grind [Tok.fail]

/-- The tokens `contentTok` can produce. -/
theorem contentTok_tok (e b) : (contentTok e b).tok.fail ∨ (contentTok e b).tok.markup
    ∨ (contentTok e b).tok = .NONE ∨ (contentTok e b).tok = .TRAILING_CR
    ∨ (contentTok e b).tok = .TRAILING_RSQB ∨ (contentTok e b).tok = .CHAR_REF
    ∨ (contentTok e b).tok = .ENTITY_REF
    ∨ (contentTok e b).tok = .DATA_NEWLINE ∨ (contentTok e b).tok = .DATA_CHARS := by
  have h : ∀ b, (contentTokBody e b).tok.fail ∨ (contentTokBody e b).tok.markup
      ∨ (contentTokBody e b).tok = .TRAILING_CR ∨ (contentTokBody e b).tok = .TRAILING_RSQB
      ∨ (contentTokBody e b).tok = .CHAR_REF ∨ (contentTokBody e b).tok = .ENTITY_REF
      ∨ (contentTokBody e b).tok = .DATA_NEWLINE ∨ (contentTokBody e b).tok = .DATA_CHARS := by
    intro b
    have h1 := scanLt_tok e
    have h2 := scanRef_tok e
    fun_cases contentTokBody e b <;> grind [Tok.fail, → invalidCases_fail, contentLoop_tok]
  simp only [contentTok]
  grind [Tok.fail]

end Verif
