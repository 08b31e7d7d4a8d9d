import Verif.ScanStable

/-! Lemmas: the scanners consult the encoding only on characters that lie wholly inside the
buffer.  Stated as non-interference: two encodings whose tests agree on such arguments drive
every scanner to the same result, whatever the tests would answer when asked about bytes
beyond the buffer. -/

namespace Verif

/-- `e` and `e'` have the same unit width and give the same answer to every test that is
asked about a character lying wholly inside the buffer. -/
structure Agree (e e' : Enc) : Prop where
  mb : e'.m = e.m
  bt : ∀ b, e.mb ≤ b.length → e'.bt b = e.bt b
  mat : ∀ b c, e.mb ≤ b.length → e'.charMatches b c = e.charMatches b c
  asc : ∀ b, e.mb ≤ b.length → e'.toAscii b = e.toAscii b
  name : ∀ n b, n ≤ b.length → e'.isName n b = e.isName n b
  nmstrt : ∀ n b, n ≤ b.length → e'.isNmstrt n b = e.isNmstrt n b
  invalid : ∀ n b, n ≤ b.length → e'.isInvalid n b = e.isInvalid n b
  nameMin : ∀ b, e.mb ≤ b.length → e'.isNameMin b = e.isNameMin b
  nmstrtMin : ∀ b, e.mb ≤ b.length → e'.isNmstrtMin b = e.isNmstrtMin b

section
variable {e e' : Enc} (ag : Agree e e')
include ag

theorem Agree.mb' : e'.mb = e.mb := by rw [Enc.mb, Enc.mb, ag.mb]

theorem invalidCases_loc (b p) (h : e.mb ≤ b.length) :
    invalidCases e' b p = invalidCases e b p := by
  have h3 := ag.bt b h
  have h6 := ag.mb
  have h4 := ag.invalid
  simp only [invalidCases]
  rw [h3]
  generalize e.bt b = t at *
  cases t <;> simp only <;> grind

theorem nameCases_loc (b p) (h : e.mb ≤ b.length) :
    nameCases e' b p = nameCases e b p := by
  have h3 := ag.bt b h
  have h6 := ag.mb
  have h4 := ag.name
  have h5 := ag.nameMin b h
  simp only [nameCases]
  rw [h3]
  generalize e.bt b = t at *
  cases t <;> simp only <;> grind

theorem nmstrtCases_loc (b p) (h : e.mb ≤ b.length) :
    nmstrtCases e' b p = nmstrtCases e b p := by
  have h3 := ag.bt b h
  have h6 := ag.mb
  have h4 := ag.nmstrt
  have h5 := ag.nmstrtMin b h
  simp only [nmstrtCases]
  rw [h3]
  generalize e.bt b = t at *
  cases t <;> simp only <;> grind

omit ag in
theorem mb_loc (h : e'.m = e.m) : e'.mb = e.mb := by rw [Enc.mb, Enc.mb, h]

macro "loc" "[" ls:Lean.Parser.Tactic.grindParam,* "]" : tactic =>
  `(tactic| grind [invalidCases_loc, nameCases_loc, nmstrtCases_loc, Agree.bt, Agree.mat, Agree.mb',
      Agree.asc, List.length_drop, $ls,*])

theorem scanCommentLoop_loc (b p) :
    scanCommentLoop e' b p = scanCommentLoop e b p := by
  fun_induction scanCommentLoop e b p <;> (conv => lhs; rw [scanCommentLoop.eq_def]) <;>
    loc []

theorem scanComment_loc (b p) :
    scanComment e' b p = scanComment e b p := by
  fun_cases scanComment e b p <;> (conv => lhs; rw [scanComment.eq_def]) <;>
    loc [scanCommentLoop_loc ag]

theorem scanDeclLoop_loc (b p) :
    scanDeclLoop e' b p = scanDeclLoop e b p := by
  fun_induction scanDeclLoop e b p <;> (conv => lhs; rw [scanDeclLoop.eq_def]) <;>
    loc []

theorem scanDecl_loc (b p) :
    scanDecl e' b p = scanDecl e b p := by
  fun_cases scanDecl e b p <;> (conv => lhs; rw [scanDecl.eq_def]) <;>
    loc [scanDeclLoop_loc ag, scanComment_loc ag]

theorem scanPiData_loc {t} (b p) :
    scanPiData e' t b p = scanPiData e t b p := by
  fun_induction scanPiData e t b p <;> (conv => lhs; rw [scanPiData.eq_def]) <;>
    loc []

theorem checkPiTarget_loc (tgt) : checkPiTarget e' tgt = checkPiTarget e tgt := by
  have h6 := ag.mb
  have h7 := ag.mb'
  have h := ag.asc
  simp only [checkPiTarget, h7]
  split
  · rfl
  · rw [h _ (by omega), h _ (by simp only [List.length_drop]; omega),
      h _ (by simp only [List.length_drop]; omega)]

theorem scanPiTarget_loc (tgt p0 b p) :
    scanPiTarget e' tgt p0 b p = scanPiTarget e tgt p0 b p := by
  fun_induction scanPiTarget e tgt p0 b p <;> (conv => lhs; rw [scanPiTarget.eq_def]) <;>
    loc [checkPiTarget_loc ag, scanPiData_loc ag]

theorem scanPi_loc (b p) : scanPi e' b p = scanPi e b p := by
  fun_cases scanPi e b p <;> (conv => lhs; rw [scanPi.eq_def]) <;> loc [scanPiTarget_loc ag]

theorem cdataMismatch_loc (cs b p) (h : cs.length * e.mb ≤ b.length) :
    cdataMismatch e' cs b p = cdataMismatch e cs b p := by
  induction cs generalizing b p with
  | nil => simp [cdataMismatch]
  | cons c cs ih =>
    have hm : (c :: cs).length * e.mb = cs.length * e.mb + e.mb := by
      rw [List.length_cons, Nat.succ_mul]
    simp only [cdataMismatch]
    rw [ag.mat b c (by omega), ag.mb', ih _ _ (by simp only [List.length_drop]; omega)]

theorem scanCdataSection_loc (b p) : scanCdataSection e' b p = scanCdataSection e b p := by
  have := cdataMismatch_loc ag CDATA_LSQB b p
  simp only [CDATA_LSQB, List.length] at this
  fun_cases scanCdataSection e b p <;> (conv => lhs; rw [scanCdataSection]) <;>
    loc [CDATA_LSQB]

theorem scanEndTagLoop_loc {ws} (b p) :
    scanEndTagLoop e' ws b p = scanEndTagLoop e ws b p := by
  fun_induction scanEndTagLoop e ws b p <;> (conv => lhs; rw [scanEndTagLoop.eq_def]) <;>
    loc []

theorem scanEndTag_loc (b p) :
    scanEndTag e' b p = scanEndTag e b p := by
  fun_cases scanEndTag e b p <;> (conv => lhs; rw [scanEndTag.eq_def]) <;>
    loc [scanEndTagLoop_loc ag]

theorem scanHexLoop_loc (b p) :
    scanHexLoop e' b p = scanHexLoop e b p := by
  fun_induction scanHexLoop e b p <;> (conv => lhs; rw [scanHexLoop.eq_def]) <;>
    loc []

theorem scanHexCharRef_loc (b p) :
    scanHexCharRef e' b p = scanHexCharRef e b p := by
  fun_cases scanHexCharRef e b p <;> (conv => lhs; rw [scanHexCharRef.eq_def]) <;>
    loc [scanHexLoop_loc ag]

theorem scanDecLoop_loc (b p) :
    scanDecLoop e' b p = scanDecLoop e b p := by
  fun_induction scanDecLoop e b p <;> (conv => lhs; rw [scanDecLoop.eq_def]) <;>
    loc []

theorem scanCharRef_loc (b p) :
    scanCharRef e' b p = scanCharRef e b p := by
  fun_cases scanCharRef e b p <;> (conv => lhs; rw [scanCharRef.eq_def]) <;>
    loc [scanHexCharRef_loc ag, scanDecLoop_loc ag]

theorem scanNameSemi_loc {t} (b p) :
    scanNameSemi e' t b p = scanNameSemi e t b p := by
  fun_induction scanNameSemi e t b p <;> (conv => lhs; rw [scanNameSemi.eq_def]) <;>
    loc []

theorem scanRef_loc (b p) :
    scanRef e' b p = scanRef e b p := by
  fun_cases scanRef e b p <;> (conv => lhs; rw [scanRef.eq_def]) <;>
    loc [scanNameSemi_loc ag, scanCharRef_loc ag]

theorem scanAtts_loc {st} (b p) :
    scanAtts e' st b p = scanAtts e st b p := by
  fun_induction scanAtts e st b p <;> (conv => lhs; rw [scanAtts.eq_def]) <;>
    loc [scanRef_loc ag]

theorem scanLtHelper_loc (b p) (hb : e.mb ≤ b.length) :
    scanLtHelper e' b p = scanLtHelper e b p := by
  fun_cases scanLtHelper e b p <;> (conv => lhs; rw [scanLtHelper.eq_def]) <;>
    loc []

theorem scanStartTag_loc {st} (b p) :
    scanStartTag e' st b p = scanStartTag e st b p := by
  fun_induction scanStartTag e st b p <;> (conv => lhs; rw [scanStartTag.eq_def]) <;>
    loc [scanAtts_loc ag, scanLtHelper_loc ag]

theorem scanLt_loc (b p) :
    scanLt e' b p = scanLt e b p := by
  fun_cases scanLt e b p <;> (conv => lhs; rw [scanLt.eq_def]) <;>
    loc [scanStartTag_loc ag, scanEndTag_loc ag, scanPi_loc ag, scanComment_loc ag, scanCdataSection_loc ag]

theorem scanPercent_loc (b p) :
    scanPercent e' b p = scanPercent e b p := by
  fun_cases scanPercent e b p <;> (conv => lhs; rw [scanPercent.eq_def]) <;>
    loc [scanNameSemi_loc ag]

theorem scanPoundNameLoop_loc (b p) :
    scanPoundNameLoop e' b p = scanPoundNameLoop e b p := by
  fun_induction scanPoundNameLoop e b p <;> (conv => lhs; rw [scanPoundNameLoop.eq_def]) <;>
    loc []

theorem scanPoundName_loc (b p) :
    scanPoundName e' b p = scanPoundName e b p := by
  fun_cases scanPoundName e b p <;> (conv => lhs; rw [scanPoundName.eq_def]) <;>
    loc [scanPoundNameLoop_loc ag]

theorem scanLit_loc {op} (b p) :
    scanLit e' op b p = scanLit e op b p := by
  fun_induction scanLit e op b p <;> (conv => lhs; rw [scanLit.eq_def]) <;>
    loc []

theorem cdataStep_loc (b p) (h : e.mb ≤ b.length) :
    cdataStep e' b p = cdataStep e b p := by
  have h3 := ag.bt b h
  have h6 := ag.mb
  have h7 := ag.mb'
  have h4 := ag.invalid
  have h5 := ag.mat
  simp only [cdataStep]
  rw [h3]
  generalize e.bt b = t at *
  cases t <;> simp only <;> grind

theorem cdataLoop_loc (b p) :
    cdataLoop e' b p = cdataLoop e b p := by
  fun_induction cdataLoop e b p <;> (conv => lhs; rw [cdataLoop.eq_def]) <;>
    loc [cdataStep_loc ag]

theorem contentStep_loc (b p) (h : e.mb ≤ b.length) :
    contentStep e' b p = contentStep e b p := by
  have h3 := ag.bt b h
  have h6 := ag.mb
  have h7 := ag.mb'
  have h4 := ag.invalid
  have h5 := ag.mat
  simp only [contentStep]
  rw [h3]
  generalize e.bt b = t at *
  cases t <;> simp only <;> grind

theorem contentLoop_loc (b p) :
    contentLoop e' b p = contentLoop e b p := by
  fun_induction contentLoop e b p <;> (conv => lhs; rw [contentLoop.eq_def]) <;>
    loc [contentStep_loc ag]

theorem prologSpace_loc (b p) :
    prologSpace e' b p = prologSpace e b p := by
  fun_induction prologSpace e b p <;> (conv => lhs; rw [prologSpace.eq_def]) <;>
    loc []

theorem prologName_loc {t c} (b p) :
    prologName e' t c b p = prologName e t c b p := by
  fun_induction prologName e t c b p <;> (conv => lhs; rw [prologName.eq_def]) <;>
    loc []

theorem ignoreLoop_loc {l} (b p) :
    ignoreLoop e' l b p = ignoreLoop e l b p := by
  fun_induction ignoreLoop e l b p <;> (conv => lhs; rw [ignoreLoop.eq_def]) <;>
    loc []

theorem attValLoop_loc (b p) :
    attValLoop e' b p = attValLoop e b p := by
  fun_induction attValLoop e b p <;> (conv => lhs; rw [attValLoop.eq_def]) <;>
    loc [scanRef_loc ag]

theorem entValLoop_loc (b p) :
    entValLoop e' b p = entValLoop e b p := by
  fun_induction entValLoop e b p <;> (conv => lhs; rw [entValLoop.eq_def]) <;>
    loc [scanRef_loc ag, scanPercent_loc ag]

theorem isPublicIdLoop_loc (b p) :
    isPublicIdLoop e' b p = isPublicIdLoop e b p := by
  fun_induction isPublicIdLoop e b p <;> (conv => lhs; rw [isPublicIdLoop.eq_def]) <;>
    loc []

theorem cdataTokBody_loc (b) (hb : e.mb ≤ b.length) : cdataTokBody e' b = cdataTokBody e b := by
  fun_cases cdataTokBody e b <;> (conv => lhs; rw [cdataTokBody.eq_def]) <;>
    loc [cdataLoop_loc ag]

theorem contentTokBody_loc (b) (hb : e.mb ≤ b.length) :
    contentTokBody e' b = contentTokBody e b := by
  fun_cases contentTokBody e b <;> (conv => lhs; rw [contentTokBody.eq_def]) <;>
    loc [contentLoop_loc ag, scanLt_loc ag, scanRef_loc ag]

theorem prologLead_loc (k b) : prologLead e' k b = prologLead e k b := by
  fun_cases prologLead e k b <;> (conv => lhs; rw [prologLead.eq_def]) <;>
    loc [prologName_loc ag, Agree.name, Agree.nmstrt]

theorem prologTokBody_loc (b) (hb : e.mb ≤ b.length) :
    prologTokBody e' b = prologTokBody e b := by
  have hbt := ag.bt b hb
  have hn := ag.nameMin b hb
  have hs := ag.nmstrtMin b hb
  have hm := ag.mb'
  have hlen := List.length_drop (i := e.mb) (l := b)
  simp only [prologTokBody]
  rw [hbt, hm]
  generalize e.bt b = t at *
  cases t <;> simp only [hn, hs] <;>
    loc [prologName_loc ag, prologLead_loc ag, scanDecl_loc ag, prologSpace_loc ag,
      scanPi_loc ag, scanLit_loc ag, scanPercent_loc ag, scanPoundName_loc ag]

theorem truncBuf_loc (b) : truncBuf e' b = truncBuf e b := by rw [truncBuf, truncBuf, ag.mb']

end

end Verif
