import Verif.ScanBounds

/-! Lemmas: a scanner's verdict does not change when more input follows, unless the verdict
itself was a request for more input.  Property theorems built from these are in
`Verif/Props/`. -/

namespace Verif

/-- The tokens by which a scanner says that it has seen the end of the buffer. -/
def Tok.needMore : Tok → Bool
  | .PARTIAL | .PARTIAL_CHAR | .NONE | .TRAILING_CR | .TRAILING_RSQB | .PROLOG_S_NEG | .NAME_NEG
  | .NMTOKEN_NEG | .PREFIXED_NAME_NEG | .POUND_NAME_NEG | .LITERAL_NEG | .CLOSE_PAREN_NEG
  | .CLOSE_BRACKET_NEG => true
  | _ => false

theorem invalidCases_app {e : Enc} (ok : e.Ok) {b : Buf} (x p) (h : e.mb ≤ b.length) 
   (h2 : ∀ r, invalidCases e b p = .ret r → r.tok ≠ .PARTIAL_CHAR) : 
    invalidCases e (b ++ x) p = invalidCases e b p := by
  have h3 := ok.bt_app b x h
  have h4 := ok.invalid_app
  simp only [invalidCases] at h2 ⊢
  rw [h3]
  generalize e.bt b = t at *
  cases t <;> simp only at h2 ⊢ <;> grind

theorem nameCases_app {e : Enc} (ok : e.Ok) {b : Buf} (x p) (h : e.mb ≤ b.length) 
   (h2 : ∀ r, nameCases e b p = .ret r → r.tok ≠ .PARTIAL_CHAR) : 
    nameCases e (b ++ x) p = nameCases e b p := by
  have h3 := ok.bt_app b x h
  have h4 := ok.name_app
  have h5 := ok.nameMin_app b x h
  simp only [nameCases] at h2 ⊢
  rw [h3]
  generalize e.bt b = t at *
  cases t <;> simp only at h2 ⊢ <;> grind

theorem nmstrtCases_app {e : Enc} (ok : e.Ok) {b : Buf} (x p) (h : e.mb ≤ b.length) 
   (h2 : ∀ r, nmstrtCases e b p = .ret r → r.tok ≠ .PARTIAL_CHAR) : 
    nmstrtCases e (b ++ x) p = nmstrtCases e b p := by
  have h3 := ok.bt_app b x h
  have h4 := ok.nmstrt_app
  have h5 := ok.nmstrtMin_app b x h
  simp only [nmstrtCases] at h2 ⊢
  rw [h3]
  generalize e.bt b = t at *
  cases t <;> simp only at h2 ⊢ <;> grind

theorem drop_app (b x : Buf) (k : Nat) (h : k ≤ b.length) : (b ++ x).drop k = b.drop k ++ x := 
  List.drop_append_of_le_length h


macro "app" "[" ls:Lean.Parser.Tactic.grindParam,* "]" : tactic =>
  `(tactic| grind [invalidCases_app, nameCases_app, nmstrtCases_app, drop_app, invalidCases_adv,
      nameCases_adv, nmstrtCases_adv, Tok.needMore, Enc.mb, $ls,*])

section
variable {e : Enc} (ok : e.Ok)
include ok

theorem scanCommentLoop_app (b p x) (h : (scanCommentLoop e b p).tok.needMore = false) :
    scanCommentLoop e (b ++ x) p = scanCommentLoop e b p := by
  fun_induction scanCommentLoop e b p <;> (conv => lhs; rw [scanCommentLoop.eq_def]) <;> app [ok.bt_app, ok.matches_app]

theorem scanComment_app (b p x) (h : (scanComment e b p).tok.needMore = false) :
    scanComment e (b ++ x) p = scanComment e b p := by
  revert h
  fun_cases scanComment e b p <;> intro h <;> (conv => lhs; rw [scanComment.eq_def]) <;> app [ok.bt_app, ok.matches_app, scanCommentLoop_app ok]

theorem scanDeclLoop_app (b p x) (h : (scanDeclLoop e b p).tok.needMore = false) :
    scanDeclLoop e (b ++ x) p = scanDeclLoop e b p := by
  fun_induction scanDeclLoop e b p <;> (conv => lhs; rw [scanDeclLoop.eq_def]) <;> app [ok.bt_app, ok.matches_app]

theorem scanDecl_app (b p x) (h : (scanDecl e b p).tok.needMore = false) :
    scanDecl e (b ++ x) p = scanDecl e b p := by
  revert h
  fun_cases scanDecl e b p <;> intro h <;> (conv => lhs; rw [scanDecl.eq_def]) <;> app [ok.bt_app, ok.matches_app, scanDeclLoop_app ok, scanComment_app ok]

theorem scanPiData_app {t} (b p x) (h : (scanPiData e t b p).tok.needMore = false) :
    scanPiData e t (b ++ x) p = scanPiData e t b p := by
  fun_induction scanPiData e t b p <;> (conv => lhs; rw [scanPiData.eq_def]) <;> app [ok.bt_app, ok.matches_app]

theorem scanPiTarget_app (tgt p0 b p x) (h0 : p0 ≤ p) (h1 : p - p0 + b.length ≤ tgt.length)
    (h : (scanPiTarget e tgt p0 b p).tok.needMore = false) :
    scanPiTarget e (tgt ++ x) p0 (b ++ x) p = scanPiTarget e tgt p0 b p := by
  have ht : (tgt ++ x).take (p - p0) = tgt.take (p - p0) :=
    List.take_append_of_le_length (by omega)
  fun_induction scanPiTarget e tgt p0 b p <;> (conv => lhs; rw [scanPiTarget]) <;>
    app [ok.bt_app, ok.matches_app, scanPiData_app ok, List.length_drop]

theorem scanPi_app (b p x) (h : (scanPi e b p).tok.needMore = false) :
    scanPi e (b ++ x) p = scanPi e b p := by
  revert h
  fun_cases scanPi e b p <;> intro h <;> (conv => lhs; rw [scanPi.eq_def]) <;> app [ok.bt_app, ok.matches_app, scanPiTarget_app ok, List.length_drop]

theorem cdataMismatch_app (cs b p x) (h : cs.length * e.mb ≤ b.length) :
    cdataMismatch e cs (b ++ x) p = cdataMismatch e cs b p := by
  induction cs generalizing b p with
  | nil => simp [cdataMismatch]
  | cons c cs ih =>
    have hm : (c :: cs).length * e.mb = cs.length * e.mb + e.mb := by
      rw [List.length_cons, Nat.succ_mul]
    simp only [cdataMismatch]
    rw [ok.matches_app b x c (by omega), drop_app b x _ (by omega),
      ih _ _ (by simp only [List.length_drop]; omega)]

theorem scanCdataSection_app (b p x) (h : (scanCdataSection e b p).tok.needMore = false) :
    scanCdataSection e (b ++ x) p = scanCdataSection e b p := by
  have := cdataMismatch_app ok CDATA_LSQB b p x
  simp only [CDATA_LSQB, List.length] at this
  revert h
  fun_cases scanCdataSection e b p <;> intro h <;> (conv => lhs; rw [scanCdataSection]) <;>
    app [CDATA_LSQB]

theorem scanEndTagLoop_app {ws} (b p x) (h : (scanEndTagLoop e ws b p).tok.needMore = false) :
    scanEndTagLoop e ws (b ++ x) p = scanEndTagLoop e ws b p := by
  fun_induction scanEndTagLoop e ws b p <;> (conv => lhs; rw [scanEndTagLoop.eq_def]) <;> app [ok.bt_app, ok.matches_app]

theorem scanEndTag_app (b p x) (h : (scanEndTag e b p).tok.needMore = false) :
    scanEndTag e (b ++ x) p = scanEndTag e b p := by
  revert h
  fun_cases scanEndTag e b p <;> intro h <;> (conv => lhs; rw [scanEndTag.eq_def]) <;> app [ok.bt_app, ok.matches_app, scanEndTagLoop_app ok]

theorem scanHexLoop_app (b p x) (h : (scanHexLoop e b p).tok.needMore = false) :
    scanHexLoop e (b ++ x) p = scanHexLoop e b p := by
  fun_induction scanHexLoop e b p <;> (conv => lhs; rw [scanHexLoop.eq_def]) <;> app [ok.bt_app, ok.matches_app]

theorem scanHexCharRef_app (b p x) (h : (scanHexCharRef e b p).tok.needMore = false) :
    scanHexCharRef e (b ++ x) p = scanHexCharRef e b p := by
  revert h
  fun_cases scanHexCharRef e b p <;> intro h <;> (conv => lhs; rw [scanHexCharRef.eq_def]) <;> app [ok.bt_app, ok.matches_app, scanHexLoop_app ok]

theorem scanDecLoop_app (b p x) (h : (scanDecLoop e b p).tok.needMore = false) :
    scanDecLoop e (b ++ x) p = scanDecLoop e b p := by
  fun_induction scanDecLoop e b p <;> (conv => lhs; rw [scanDecLoop.eq_def]) <;> app [ok.bt_app, ok.matches_app]

theorem scanCharRef_app (b p x) (h : (scanCharRef e b p).tok.needMore = false) :
    scanCharRef e (b ++ x) p = scanCharRef e b p := by
  revert h
  fun_cases scanCharRef e b p <;> intro h <;> (conv => lhs; rw [scanCharRef.eq_def]) <;> app [ok.bt_app, ok.matches_app, scanHexCharRef_app ok, scanDecLoop_app ok]

theorem scanNameSemi_app {t} (b p x) (h : (scanNameSemi e t b p).tok.needMore = false) :
    scanNameSemi e t (b ++ x) p = scanNameSemi e t b p := by
  fun_induction scanNameSemi e t b p <;> (conv => lhs; rw [scanNameSemi.eq_def]) <;> app [ok.bt_app, ok.matches_app]

theorem scanRef_app (b p x) (h : (scanRef e b p).tok.needMore = false) :
    scanRef e (b ++ x) p = scanRef e b p := by
  revert h
  fun_cases scanRef e b p <;> intro h <;> (conv => lhs; rw [scanRef.eq_def]) <;> app [ok.bt_app, ok.matches_app, scanNameSemi_app ok, scanCharRef_app ok]

omit ok in
theorem isError_of_needMore {t : Tok} (h : t.needMore = true) : t.isError = true := by
  cases t <;> simp_all [Tok.needMore, Tok.isError, Tok.toInt]

theorem scanAtts_app {st} (b p x) (h : (scanAtts e st b p).tok.needMore = false) :
    scanAtts e st (b ++ x) p = scanAtts e st b p := by
  fun_induction scanAtts e st b p <;> (conv => lhs; rw [scanAtts.eq_def]) <;> app [ok.bt_app, ok.matches_app, scanRef_app ok, isError_of_needMore, scanRef_bnd, Bnd, List.length_drop]

theorem scanLtHelper_app (b p x) (h : (scanLtHelper e b p).tok.needMore = false) :
    scanLtHelper e (b ++ x) p = scanLtHelper e b p := by
  revert h
  fun_cases scanLtHelper e b p <;> intro h <;> (conv => lhs; rw [scanLtHelper.eq_def]) <;> app [ok.bt_app, ok.matches_app]

theorem scanStartTag_app {st} (b p x) (h : (scanStartTag e st b p).tok.needMore = false) :
    scanStartTag e st (b ++ x) p = scanStartTag e st b p := by
  fun_induction scanStartTag e st b p <;> (conv => lhs; rw [scanStartTag.eq_def]) <;> app [ok.bt_app, ok.matches_app, scanAtts_app ok, scanLtHelper_app ok]

theorem scanLt_app (b p x) (h : (scanLt e b p).tok.needMore = false) :
    scanLt e (b ++ x) p = scanLt e b p := by
  revert h
  fun_cases scanLt e b p <;> intro h <;> (conv => lhs; rw [scanLt.eq_def]) <;> app [ok.bt_app, ok.matches_app, scanStartTag_app ok, scanEndTag_app ok, scanPi_app ok, scanComment_app ok, scanCdataSection_app ok]

theorem scanPercent_app (b p x) (h : (scanPercent e b p).tok.needMore = false) :
    scanPercent e (b ++ x) p = scanPercent e b p := by
  revert h
  fun_cases scanPercent e b p <;> intro h <;> (conv => lhs; rw [scanPercent.eq_def]) <;> app [ok.bt_app, ok.matches_app, scanNameSemi_app ok]

theorem scanPoundNameLoop_app (b p x) (h : (scanPoundNameLoop e b p).tok.needMore = false) :
    scanPoundNameLoop e (b ++ x) p = scanPoundNameLoop e b p := by
  fun_induction scanPoundNameLoop e b p <;> (conv => lhs; rw [scanPoundNameLoop.eq_def]) <;> app [ok.bt_app, ok.matches_app]

theorem scanPoundName_app (b p x) (h : (scanPoundName e b p).tok.needMore = false) :
    scanPoundName e (b ++ x) p = scanPoundName e b p := by
  revert h
  fun_cases scanPoundName e b p <;> intro h <;> (conv => lhs; rw [scanPoundName.eq_def]) <;> app [ok.bt_app, ok.matches_app, scanPoundNameLoop_app ok]

theorem scanLit_app {op} (b p x) (h : (scanLit e op b p).tok.needMore = false) :
    scanLit e op (b ++ x) p = scanLit e op b p := by
  fun_induction scanLit e op b p <;> (conv => lhs; rw [scanLit.eq_def]) <;> app [ok.bt_app, ok.matches_app]

theorem prologName_app (t c) (b p x) (h : (prologName e t c b p).tok.needMore = false)
    (ht : t = .NAME ∨ t = .NMTOKEN ∨ t = .PREFIXED_NAME) :
    prologName e t c (b ++ x) p = prologName e t c b p := by
  fun_induction prologName e t c b p <;> (conv => lhs; rw [prologName.eq_def]) <;>
    app [ok.bt_app, ok.matches_app, Tok.negate, prologNameTok]

theorem ignoreLoop_app {l} (b p x) (h : (ignoreLoop e l b p).tok.needMore = false) :
    ignoreLoop e l (b ++ x) p = ignoreLoop e l b p := by
  fun_induction ignoreLoop e l b p <;> (conv => lhs; rw [ignoreLoop.eq_def]) <;> app [ok.bt_app, ok.matches_app]

omit ok in
theorem cdataLoop_tok (e : Enc) (b p) : (cdataLoop e b p).tok = .DATA_CHARS := by
  fun_induction cdataLoop e b p <;> grind [→ cdataStep_ret]

omit ok in
theorem prologSpace_tok (e : Enc) (b p) : (prologSpace e b p).tok = .PROLOG_S := by
  fun_induction prologSpace e b p <;> grind

theorem cdataTokBody_app (b x) (hb : e.mb ≤ b.length)
    (h : (cdataTokBody e b).tok.needMore = false) (hd : (cdataTokBody e b).tok ≠ .DATA_CHARS) :
    cdataTokBody e (b ++ x) = cdataTokBody e b := by
  have hl := cdataLoop_tok e
  revert h hd
  fun_cases cdataTokBody e b <;> intro h hd <;> (conv => lhs; rw [cdataTokBody.eq_def]) <;>
    app [ok.bt_app, ok.matches_app]

theorem contentStep_app (b p x) (hb : e.mb ≤ b.length)
    (h : ∀ r, contentStep e b p = .ret r → r.tok ≠ .DATA_CHARS) :
    contentStep e (b ++ x) p = contentStep e b p := by
  have h3 := ok.bt_app b x hb
  have h4 := ok.invalid_app
  have h5 := ok.matches_app
  simp only [contentStep] at h ⊢
  rw [h3]
  generalize e.bt b = t at *
  cases t <;> simp only at h ⊢ <;> grind [drop_app]

theorem contentLoop_app (b p x) (h : (contentLoop e b p).tok ≠ .DATA_CHARS) :
    contentLoop e (b ++ x) p = contentLoop e b p := by
  fun_induction contentLoop e b p <;> (conv => lhs; rw [contentLoop.eq_def]) <;>
    app [contentStep_app ok, → contentStep_ret, contentStep_adv]

theorem contentTokBody_app (b x) (hb : e.mb ≤ b.length)
    (h : (contentTokBody e b).tok.needMore = false)
    (hd : (contentTokBody e b).tok ≠ .DATA_CHARS) :
    contentTokBody e (b ++ x) = contentTokBody e b := by
  revert h hd
  fun_cases contentTokBody e b <;> intro h hd <;> (conv => lhs; rw [contentTokBody.eq_def]) <;>
    app [ok.bt_app, ok.matches_app, scanLt_app ok, scanRef_app ok, contentLoop_app ok]

theorem prologLead_app (k b x) (h : (prologLead e k b).tok.needMore = false) :
    prologLead e k (b ++ x) = prologLead e k b := by
  revert h
  fun_cases prologLead e k b <;> intro h <;> (conv => lhs; rw [prologLead.eq_def]) <;>
    app [ok.name_app, ok.nmstrt_app, prologName_app ok]

theorem prologTokBody_app (b x) (hb : e.mb ≤ b.length)
    (h : (prologTokBody e b).tok.needMore = false)
    (hd : (prologTokBody e b).tok ≠ .PROLOG_S) :
    prologTokBody e (b ++ x) = prologTokBody e b := by
  have hl := prologSpace_tok e
  have hbt := ok.bt_app b x hb
  have hn := ok.nameMin_app b x hb
  have hs := ok.nmstrtMin_app b x hb
  have hdr := drop_app b x e.mb hb
  have hlen := List.length_drop (i := e.mb) (l := b)
  simp only [prologTokBody] at h hd ⊢
  rw [hbt]
  generalize e.bt b = t at *
  cases t <;> simp only [hdr, hn, hs] at h hd ⊢ <;>
    app [ok.bt_app, ok.matches_app, prologName_app ok, prologLead_app ok, scanDecl_app ok,
      scanPi_app ok, scanLit_app ok, scanPercent_app ok, scanPoundName_app ok]

omit ok in
theorem truncBuf_app (e : Enc) (b x : Buf) : ∃ y, truncBuf e (b ++ x) = truncBuf e b ++ y := by
  have hm : 0 < e.mb := Nat.succ_pos _
  have h1 := Nat.div_add_mod b.length e.mb
  have h2 := Nat.div_add_mod (b ++ x).length e.mb
  have h3 : b.length / e.mb ≤ (b ++ x).length / e.mb :=
    Nat.div_le_div_right (by simp)
  have h4 : e.mb * (b.length / e.mb) ≤ e.mb * ((b ++ x).length / e.mb) := Nat.mul_le_mul_left _ h3
  have h5 : (b ++ x).length - (b ++ x).length % e.mb = e.mb * ((b ++ x).length / e.mb) := by omega
  have h6 : b.length - b.length % e.mb = e.mb * (b.length / e.mb) := by omega
  refine ⟨((b ++ x).take ((b ++ x).length - (b ++ x).length % e.mb)).drop
    (b.length - b.length % e.mb), ?_⟩
  have h7 : truncBuf e b
      = (truncBuf e (b ++ x)).take (b.length - b.length % e.mb) := by
    rw [truncBuf, truncBuf, List.take_take, Nat.min_eq_left (by omega),
      List.take_append_of_le_length (by omega)]
  rw [h7]
  exact (List.take_append_drop _ _).symm

end

end Verif
