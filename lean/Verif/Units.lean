import Verif.Chunks

/-! Lemmas: in an encoding of two-byte units every scanner moves by whole units. -/

namespace Verif

section
variable {e : Enc} (h2 : e.mb = 2) (ev : e.Even)
include h2 ev

theorem lead3 (b) : e.bt b ≠ .LEAD3 := by
  intro h
  have := ev b
  simp only [Enc.charLen, h, h2] at this
  omega

theorem invalidCases_adv2 {b p k} (h : invalidCases e b p = .adv k) : (k + 1) % 2 = 0 := by
  have := lead3 h2 ev b
  revert h
  simp only [invalidCases]
  generalize e.bt b = t at *
  cases t <;> simp only <;> grind [Enc.mb]

theorem invalidCases_ret2 {b p r} (hp : p % 2 = 0) (h : invalidCases e b p = .ret r) : r.next % 2 = 0 := by
  have := lead3 h2 ev b
  revert h
  simp only [invalidCases]
  generalize e.bt b = t at *
  cases t <;> simp only <;> grind [Enc.mb]

theorem nameCases_adv2 {b p k} (h : nameCases e b p = .adv k) : (k + 1) % 2 = 0 := by
  have := lead3 h2 ev b
  revert h
  simp only [nameCases]
  generalize e.bt b = t at *
  cases t <;> simp only <;> grind [Enc.mb]

theorem nameCases_ret2 {b p r} (hp : p % 2 = 0) (h : nameCases e b p = .ret r) : r.next % 2 = 0 := by
  have := lead3 h2 ev b
  revert h
  simp only [nameCases]
  generalize e.bt b = t at *
  cases t <;> simp only <;> grind [Enc.mb]

theorem nmstrtCases_adv2 {b p k} (h : nmstrtCases e b p = .adv k) : (k + 1) % 2 = 0 := by
  have := lead3 h2 ev b
  revert h
  simp only [nmstrtCases]
  generalize e.bt b = t at *
  cases t <;> simp only <;> grind [Enc.mb]

theorem nmstrtCases_ret2 {b p r} (hp : p % 2 = 0) (h : nmstrtCases e b p = .ret r) : r.next % 2 = 0 := by
  have := lead3 h2 ev b
  revert h
  simp only [nmstrtCases]
  generalize e.bt b = t at *
  cases t <;> simp only <;> grind [Enc.mb]

macro "unit" "[" ls:Lean.Parser.Tactic.grindParam,* "]" : tactic =>
  `(tactic| grind [→ invalidCases_adv2, → nameCases_adv2, → nmstrtCases_adv2, → invalidCases_ret2, → nameCases_ret2, → nmstrtCases_ret2, $ls,*])

theorem scanCommentLoop_unit (b p) (hp : p % 2 = 0) : (scanCommentLoop e b p).next % 2 = 0 := by
  fun_induction scanCommentLoop e b p <;> unit []

theorem scanComment_unit (b p) (hp : p % 2 = 0) : (scanComment e b p).next % 2 = 0 := by
  fun_cases scanComment e b p <;> unit [scanCommentLoop_unit]

theorem scanDeclLoop_unit (b p) (hp : p % 2 = 0) : (scanDeclLoop e b p).next % 2 = 0 := by
  fun_induction scanDeclLoop e b p <;> unit []

theorem scanDecl_unit (b p) (hp : p % 2 = 0) : (scanDecl e b p).next % 2 = 0 := by
  fun_cases scanDecl e b p <;> unit [scanDeclLoop_unit, scanComment_unit]

theorem scanPiData_unit (t b p) (hp : p % 2 = 0) : (scanPiData e t b p).next % 2 = 0 := by
  fun_induction scanPiData e t b p <;> unit []

theorem scanPiTarget_unit (t p0 b p) (hp : p % 2 = 0) : (scanPiTarget e t p0 b p).next % 2 = 0 := by
  fun_induction scanPiTarget e t p0 b p <;> unit [scanPiData_unit]

theorem scanPi_unit (b p) (hp : p % 2 = 0) : (scanPi e b p).next % 2 = 0 := by
  fun_cases scanPi e b p <;> unit [scanPiTarget_unit]

theorem cdataMismatch_unit (cs b p q) (hp : p % 2 = 0) (h : cdataMismatch e cs b p = some q) : q % 2 = 0 := by
  induction cs generalizing b p with
  | nil => simp [cdataMismatch] at h
  | cons c cs ih =>
    simp only [cdataMismatch] at h
    split at h
    · injection h with h; omega
    · exact ih _ _ (by omega) h

theorem scanCdataSection_unit (b p) (hp : p % 2 = 0) : (scanCdataSection e b p).next % 2 = 0 := by
  have := cdataMismatch_unit h2 ev CDATA_LSQB b p
  fun_cases scanCdataSection e b p <;> grind

theorem scanEndTagLoop_unit (w b p) (hp : p % 2 = 0) : (scanEndTagLoop e w b p).next % 2 = 0 := by
  fun_induction scanEndTagLoop e w b p <;> unit []

theorem scanEndTag_unit (b p) (hp : p % 2 = 0) : (scanEndTag e b p).next % 2 = 0 := by
  fun_cases scanEndTag e b p <;> unit [scanEndTagLoop_unit]

theorem scanHexLoop_unit (b p) (hp : p % 2 = 0) : (scanHexLoop e b p).next % 2 = 0 := by
  fun_induction scanHexLoop e b p <;> unit []

theorem scanHexCharRef_unit (b p) (hp : p % 2 = 0) : (scanHexCharRef e b p).next % 2 = 0 := by
  fun_cases scanHexCharRef e b p <;> unit [scanHexLoop_unit]

theorem scanDecLoop_unit (b p) (hp : p % 2 = 0) : (scanDecLoop e b p).next % 2 = 0 := by
  fun_induction scanDecLoop e b p <;> unit []

theorem scanCharRef_unit (b p) (hp : p % 2 = 0) : (scanCharRef e b p).next % 2 = 0 := by
  fun_cases scanCharRef e b p <;> unit [scanHexCharRef_unit, scanDecLoop_unit]

theorem scanNameSemi_unit (t b p) (hp : p % 2 = 0) : (scanNameSemi e t b p).next % 2 = 0 := by
  fun_induction scanNameSemi e t b p <;> unit []

theorem scanRef_unit (b p) (hp : p % 2 = 0) : (scanRef e b p).next % 2 = 0 := by
  fun_cases scanRef e b p <;> unit [scanNameSemi_unit, scanCharRef_unit]

theorem scanAtts_unit (st b p) (hp : p % 2 = 0) : (scanAtts e st b p).next % 2 = 0 := by
  fun_induction scanAtts e st b p <;> unit [scanRef_unit]

theorem scanLtHelper_unit (b p) (hp : p % 2 = 0) : (scanLtHelper e b p).next % 2 = 0 := by
  fun_cases scanLtHelper e b p <;> unit []

theorem scanStartTag_unit (st b p) (hp : p % 2 = 0) : (scanStartTag e st b p).next % 2 = 0 := by
  fun_induction scanStartTag e st b p <;> unit [scanAtts_unit, scanLtHelper_unit]

theorem scanLt_unit (b p) (hp : p % 2 = 0) : (scanLt e b p).next % 2 = 0 := by
  fun_cases scanLt e b p <;> unit [scanStartTag_unit, scanEndTag_unit, scanPi_unit, scanComment_unit, scanCdataSection_unit]

theorem scanPercent_unit (b p) (hp : p % 2 = 0) : (scanPercent e b p).next % 2 = 0 := by
  fun_cases scanPercent e b p <;> unit [scanNameSemi_unit]

theorem scanPoundNameLoop_unit (b p) (hp : p % 2 = 0) : (scanPoundNameLoop e b p).next % 2 = 0 := by
  fun_induction scanPoundNameLoop e b p <;> unit []

theorem scanPoundName_unit (b p) (hp : p % 2 = 0) : (scanPoundName e b p).next % 2 = 0 := by
  fun_cases scanPoundName e b p <;> unit [scanPoundNameLoop_unit]

theorem scanLit_unit (op b p) (hp : p % 2 = 0) : (scanLit e op b p).next % 2 = 0 := by
  fun_induction scanLit e op b p <;> unit []

theorem contentStep_unit {b p k} (h : contentStep e b p = .adv k) : (k + 1) % 2 = 0 := by
  have h3 := ev b
  rw [← contentStep_len h, h2] at h3
  omega

theorem cdataStep_unit {b p k} (h : cdataStep e b p = .adv k) : (k + 1) % 2 = 0 := by
  have h3 := ev b
  rw [← cdataStep_len h, h2] at h3
  omega

theorem contentLoop_unit (b p) (hp : p % 2 = 0) : (contentLoop e b p).next % 2 = 0 := by
  fun_induction contentLoop e b p <;> grind [contentStep_unit, → contentStep_ret]

theorem cdataLoop_unit (b p) (hp : p % 2 = 0) : (cdataLoop e b p).next % 2 = 0 := by
  fun_induction cdataLoop e b p <;> grind [cdataStep_unit, → cdataStep_ret]

theorem prologSpace_unit (b p) (hp : p % 2 = 0) : (prologSpace e b p).next % 2 = 0 := by
  fun_induction prologSpace e b p <;> unit []

theorem prologName_unit (t c b p) (hp : p % 2 = 0) : (prologName e t c b p).next % 2 = 0 := by
  fun_induction prologName e t c b p <;> unit []

theorem prologLead_unit (k b) (hk : (k + 1) % 2 = 0) : (prologLead e k b).next % 2 = 0 := by
  fun_cases prologLead e k b <;> unit [prologName_unit]

theorem contentTokBody_unit (b) : (contentTokBody e b).next % 2 = 0 := by
  fun_cases contentTokBody e b <;> unit [contentLoop_unit, scanLt_unit, scanRef_unit]

theorem cdataTokBody_unit (b) : (cdataTokBody e b).next % 2 = 0 := by
  fun_cases cdataTokBody e b <;> unit [cdataLoop_unit]

theorem prologTokBody_unit (b) : (prologTokBody e b).next % 2 = 0 := by
  have := lead3 h2 ev b
  fun_cases prologTokBody e b <;> unit [prologName_unit, prologLead_unit, prologSpace_unit, scanDecl_unit,
    scanPi_unit, scanLit_unit, scanPercent_unit, scanPoundName_unit]

theorem Mode.tok_unit (m : Mode) (b) : (m.tok e b).next % 2 = 0 := by
  cases m <;> simp only [Mode.tok, contentTok, cdataSectionTok, prologTok] <;> (repeat' split) <;>
    first | rfl | exact contentTokBody_unit h2 ev _ | exact cdataTokBody_unit h2 ev _ |
      exact prologTokBody_unit h2 ev _

end

/-- Every token consists of whole units. -/
theorem Mode.tok_dvd {e : Enc} (hm : e.mb ≤ 2) (ev : e.Even) (m : Mode) (b) : e.mb ∣ (m.tok e b).next := by
  have h1 : e.mb = e.m + 1 := rfl
  by_cases h : e.mb = 2
  · rw [h]; exact Nat.dvd_of_mod_eq_zero (m.tok_unit h ev b)
  · rw [show e.mb = 1 by omega]; exact Nat.one_dvd _

end Verif
