import Verif.Encodings

/-! Lemmas: every scanner returns a pointer inside the buffer it was given, and advances.
Property theorems built from these are in `Verif/Props/`. -/

namespace Verif

/-- Bounds on a scanner result: the reported pointer lies in the `n` bytes following offset
`p`, and (unless the scanner asks for more input) not before `p`. -/
structure Bnd (p n : Nat) (r : Res) : Prop where
  hi : r.next ≤ p + n
  lo : r.tok.isError = false ∨ r.tok = .INVALID → p ≤ r.next

theorem invalidCases_adv {e b p k} (hk : invalidCases e b p = .adv k) :
    k + 1 ≤ b.length := by
  simp only [invalidCases] at hk
  grind

theorem invalidCases_ret {e b p r} (hk : invalidCases e b p = .ret r) : Bnd p b.length r := by
  simp only [invalidCases] at hk
  constructor <;> grind [Tok.isError, Tok.toInt]

theorem nameCases_adv {e b p k} (h : e.mb ≤ b.length) (hk : nameCases e b p = .adv k) :
    k + 1 ≤ b.length := by
  simp only [nameCases] at hk
  grind [Enc.mb]

theorem nameCases_ret {e b p r} (hk : nameCases e b p = .ret r) : Bnd p b.length r := by
  simp only [nameCases] at hk
  constructor <;> grind [Tok.isError, Tok.toInt]

theorem nmstrtCases_adv {e b p k} (h : e.mb ≤ b.length) (hk : nmstrtCases e b p = .adv k) :
    k + 1 ≤ b.length := by
  simp only [nmstrtCases] at hk
  grind [Enc.mb]

theorem nmstrtCases_ret {e b p r} (hk : nmstrtCases e b p = .ret r) : Bnd p b.length r := by
  simp only [nmstrtCases] at hk
  constructor <;> grind [Tok.isError, Tok.toInt]

theorem Bnd.drop {p k : Nat} {b : Buf} {r} (h : Bnd (p + k) (b.drop k).length r)
    (hk : k ≤ b.length) : Bnd p b.length r := by
  obtain ⟨h1, h2⟩ := h
  simp only [List.length_drop] at *
  constructor <;> grind

theorem bnd_partial (p n) : Bnd p n ⟨.PARTIAL, 0⟩ := by
  constructor <;> simp [Tok.isError, Tok.toInt]
theorem bnd_neg (p n) (t : Tok) (h : t.isError = true) (h2 : t ≠ .INVALID) : Bnd p n ⟨t, 0⟩ := by
  constructor <;> simp [h, h2]
theorem bnd_mk (p n q) (t : Tok) (h : p ≤ q) (h2 : q ≤ p + n) : Bnd p n ⟨t, q⟩ := by
  constructor <;> grind

/-- The tactic used for every loop. -/
macro "bnd" "[" ls:Lean.Parser.Tactic.grindParam,* "]" : tactic =>
  `(tactic| grind [Bnd.drop, bnd_partial, bnd_mk, Enc.mb, invalidCases_ret, invalidCases_adv,
      nameCases_ret, nameCases_adv, nmstrtCases_ret, nmstrtCases_adv, List.length_drop, $ls,*])

theorem scanCommentLoop_bnd (e b p) : Bnd p b.length (scanCommentLoop e b p) := by
  fun_induction scanCommentLoop e b p <;> bnd []

theorem scanComment_bnd (e b p) : Bnd p b.length (scanComment e b p) := by
  fun_cases scanComment e b p <;> bnd [scanCommentLoop_bnd]

theorem scanDeclLoop_bnd (e b p) : Bnd p b.length (scanDeclLoop e b p) := by
  fun_induction scanDeclLoop e b p <;> bnd []

theorem scanDecl_bnd (e b p) : Bnd p b.length (scanDecl e b p) := by
  fun_cases scanDecl e b p <;> bnd [scanDeclLoop_bnd, scanComment_bnd]

theorem scanPiData_bnd (e t b p) : Bnd p b.length (scanPiData e t b p) := by
  fun_induction scanPiData e t b p <;> bnd []

theorem scanPiTarget_bnd (e tgt p0 b p) : Bnd p b.length (scanPiTarget e tgt p0 b p) := by
  fun_induction scanPiTarget e tgt p0 b p <;> bnd [scanPiData_bnd]

theorem scanPi_bnd (e b p) : Bnd p b.length (scanPi e b p) := by
  fun_cases scanPi e b p <;> bnd [scanPiTarget_bnd]

theorem cdataMismatch_bnd (e cs b p q) (h : cdataMismatch e cs b p = some q) :
    p ≤ q ∧ q + e.mb ≤ p + cs.length * e.mb := by
  induction cs generalizing b p with
  | nil => simp [cdataMismatch] at h
  | cons c cs ih =>
    simp only [cdataMismatch] at h
    have hm : (c :: cs).length * e.mb = cs.length * e.mb + e.mb := by
      rw [List.length_cons, Nat.succ_mul]
    rw [hm]
    split at h
    · injection h with h; omega
    · have := ih _ _ h; omega

theorem scanCdataSection_bnd (e b p) : Bnd p b.length (scanCdataSection e b p) := by
  have := cdataMismatch_bnd e CDATA_LSQB b p
  simp only [CDATA_LSQB, List.length] at this
  fun_cases scanCdataSection e b p <;> bnd [CDATA_LSQB]

theorem scanEndTagLoop_bnd (e ws b p) : Bnd p b.length (scanEndTagLoop e ws b p) := by
  fun_induction scanEndTagLoop e ws b p <;> bnd []

theorem scanEndTag_bnd (e b p) : Bnd p b.length (scanEndTag e b p) := by
  fun_cases scanEndTag e b p <;> bnd [scanEndTagLoop_bnd]

theorem scanHexLoop_bnd (e b p) : Bnd p b.length (scanHexLoop e b p) := by
  fun_induction scanHexLoop e b p <;> bnd []

theorem scanHexCharRef_bnd (e b p) : Bnd p b.length (scanHexCharRef e b p) := by
  fun_cases scanHexCharRef e b p <;> bnd [scanHexLoop_bnd]

theorem scanDecLoop_bnd (e b p) : Bnd p b.length (scanDecLoop e b p) := by
  fun_induction scanDecLoop e b p <;> bnd []

theorem scanCharRef_bnd (e b p) : Bnd p b.length (scanCharRef e b p) := by
  fun_cases scanCharRef e b p <;> bnd [scanHexCharRef_bnd, scanDecLoop_bnd]

theorem scanNameSemi_bnd (e t b p) : Bnd p b.length (scanNameSemi e t b p) := by
  fun_induction scanNameSemi e t b p <;> bnd []

theorem scanRef_bnd (e b p) : Bnd p b.length (scanRef e b p) := by
  fun_cases scanRef e b p <;> bnd [scanNameSemi_bnd, scanCharRef_bnd]

theorem scanAtts_bnd (e st b p) : Bnd p b.length (scanAtts e st b p) := by
  fun_induction scanAtts e st b p <;> bnd [scanRef_bnd, Bnd]

theorem scanLtHelper_bnd (e b p) (h : e.mb ≤ b.length) : Bnd p b.length (scanLtHelper e b p) := by
  fun_cases scanLtHelper e b p <;> bnd []

theorem scanStartTag_bnd (e st b p) : Bnd p b.length (scanStartTag e st b p) := by
  fun_induction scanStartTag e st b p <;> bnd [scanAtts_bnd, scanLtHelper_bnd]

theorem scanLt_bnd (e b p) : Bnd p b.length (scanLt e b p) := by
  fun_cases scanLt e b p <;>
    bnd [scanStartTag_bnd, scanEndTag_bnd, scanPi_bnd, scanComment_bnd, scanCdataSection_bnd]

theorem scanPercent_bnd (e b p) : Bnd p b.length (scanPercent e b p) := by
  fun_cases scanPercent e b p <;> bnd [scanNameSemi_bnd]

theorem scanPoundNameLoop_bnd (e b p) : Bnd p b.length (scanPoundNameLoop e b p) := by
  fun_induction scanPoundNameLoop e b p <;> bnd [bnd_neg, Tok.isError, Tok.toInt]

theorem scanPoundName_bnd (e b p) : Bnd p b.length (scanPoundName e b p) := by
  fun_cases scanPoundName e b p <;> bnd [scanPoundNameLoop_bnd]

theorem scanLit_bnd (e op b p) : Bnd p b.length (scanLit e op b p) := by
  fun_induction scanLit e op b p <;> bnd [bnd_neg, Tok.isError, Tok.toInt]

theorem cdataStep_adv {e b p k} (h : e.mb ≤ b.length) (hk : cdataStep e b p = .adv k) :
    k + 1 ≤ b.length := by
  simp only [cdataStep] at hk
  generalize e.bt b = t at *
  cases t <;> simp only at hk <;> grind [Enc.mb]

theorem cdataStep_ret {e b p r} (hk : cdataStep e b p = .ret r) : r = ⟨.DATA_CHARS, p⟩ := by
  simp only [cdataStep] at hk
  generalize e.bt b = t at *
  cases t <;> simp only at hk <;> grind

theorem cdataLoop_bnd (e b p) : Bnd p b.length (cdataLoop e b p) := by
  fun_induction cdataLoop e b p <;> bnd [cdataStep_adv, → cdataStep_ret]

theorem contentStep_adv {e b p k} (h : e.mb ≤ b.length) (hk : contentStep e b p = .adv k) :
    k + 1 ≤ b.length := by
  simp only [contentStep] at hk
  generalize e.bt b = t at *
  cases t <;> simp only at hk <;> grind [Enc.mb]

theorem contentStep_ret {e b p r} (hk : contentStep e b p = .ret r) :
    r = ⟨.DATA_CHARS, p⟩ ∨ r = ⟨.INVALID, p + 2 * e.mb⟩ ∧ 3 * e.mb ≤ b.length := by
  simp only [contentStep] at hk
  generalize e.bt b = t at *
  cases t <;> simp only at hk <;> grind

theorem contentLoop_bnd (e b p) : Bnd p b.length (contentLoop e b p) := by
  fun_induction contentLoop e b p <;> bnd [contentStep_adv, → contentStep_ret]

theorem prologSpace_bnd (e b p) : Bnd p b.length (prologSpace e b p) := by
  fun_induction prologSpace e b p <;> bnd []

theorem negate_getD (t : Tok) (h : t = .NAME ∨ t = .NMTOKEN ∨ t = .PREFIXED_NAME) :
    ((t.negate).getD .INVALID).isError = true ∧ (t.negate).getD .INVALID ≠ .INVALID := by
  rcases h with h | h | h <;> subst h <;> decide

theorem prologName_bnd (e t c b p) (h : t = .NAME ∨ t = .NMTOKEN ∨ t = .PREFIXED_NAME) :
    Bnd p b.length (prologName e t c b p) := by
  fun_induction prologName e t c b p <;> bnd [bnd_neg, negate_getD, prologNameTok]

theorem cdataTokBody_bnd (e b) (h : e.mb ≤ b.length) : Bnd 0 b.length (cdataTokBody e b) := by
  fun_cases cdataTokBody e b <;> bnd [cdataLoop_bnd]

theorem contentTokBody_bnd (e b) (h : e.mb ≤ b.length) : Bnd 0 b.length (contentTokBody e b) := by
  fun_cases contentTokBody e b <;>
    bnd [contentLoop_bnd, bnd_neg, scanLt_bnd, scanRef_bnd, Tok.isError, Tok.toInt]

theorem prologLead_bnd (e k b) : Bnd 0 b.length (prologLead e k b) := by
  fun_cases prologLead e k b <;> bnd [prologName_bnd, bnd_neg, Tok.isError, Tok.toInt]

theorem prologTokBody_bnd (e b) (h : e.mb ≤ b.length) : Bnd 0 b.length (prologTokBody e b) := by
  fun_cases prologTokBody e b <;>
    bnd [prologName_bnd, prologLead_bnd, prologSpace_bnd, bnd_neg, scanDecl_bnd, scanPi_bnd, scanLit_bnd,
      scanPercent_bnd, scanPoundName_bnd, Tok.isError, Tok.toInt]

theorem ignoreLoop_bnd (e l b p) : Bnd p b.length (ignoreLoop e l b p) := by
  fun_induction ignoreLoop e l b p <;> bnd []

/-! Strict progress. -/

theorem invalidCases_err {e b p r} (hk : invalidCases e b p = .ret r) : r.tok.isError = true := by
  simp only [invalidCases] at hk
  grind [Tok.isError, Tok.toInt]

theorem cdataTokBody_pos (e b) (h : (cdataTokBody e b).tok.isError = false) :
    0 < (cdataTokBody e b).next := by
  have h1 := fun b p => (cdataLoop_bnd e b p).lo
  revert h
  fun_cases cdataTokBody e b <;> intro h <;> grind [Enc.mb, → invalidCases_err, Tok.isError, Tok.toInt]

theorem contentTokBody_pos (e b) (h : (contentTokBody e b).tok.isError = false) :
    0 < (contentTokBody e b).next := by
  have h1 := fun b p => (contentLoop_bnd e b p).lo
  have h2 := fun b p => (scanLt_bnd e b p).lo
  have h3 := fun b p => (scanRef_bnd e b p).lo
  revert h
  fun_cases contentTokBody e b <;> intro h <;>
    grind [Enc.mb, → invalidCases_err, Tok.isError, Tok.toInt]

theorem prologLead_pos (e k b) (h : (prologLead e k b).tok.isError = false) :
    0 < (prologLead e k b).next := by
  have h1 := fun t b p h => (prologName_bnd e t false b p h).lo
  revert h
  fun_cases prologLead e k b <;> intro h <;> grind [Tok.isError, Tok.toInt]

theorem prologTokBody_pos (e b) (h : (prologTokBody e b).tok.isError = false)
    (h2 : (prologTokBody e b).tok ≠ .INSTANCE_START) : 0 < (prologTokBody e b).next := by
  have h1 := fun t b p h => (prologName_bnd e t false b p h).lo
  have h3 := fun b p => (prologSpace_bnd e b p).lo
  have h4 := fun b p => (scanDecl_bnd e b p).lo
  have h5 := fun b p => (scanPi_bnd e b p).lo
  have h6 := fun t b p => (scanLit_bnd e t b p).lo
  have h7 := fun b p => (scanPercent_bnd e b p).lo
  have h8 := fun b p => (scanPoundName_bnd e b p).lo
  revert h h2
  fun_cases prologTokBody e b <;> intro h h2 <;>
    grind [Enc.mb, prologLead_pos, Tok.isError, Tok.toInt]

theorem ignoreLoop_pos (e l b p) (h : (ignoreLoop e l b p).tok.isError = false) :
    p < (ignoreLoop e l b p).next := by
  fun_induction ignoreLoop e l b p <;>
    grind [Enc.mb, → invalidCases_err, Tok.isError, Tok.toInt]

theorem truncBuf_length (e : Enc) (b : Buf) (h : truncBuf e b ≠ []) :
    e.mb ≤ (truncBuf e b).length := by
  have hm : 0 < e.mb := Nat.succ_pos _
  have h1 := Nat.div_add_mod b.length e.mb
  have h2 : (truncBuf e b).length = e.mb * (b.length / e.mb) := by
    rw [truncBuf, List.length_take]; omega
  have h3 : 0 < (truncBuf e b).length := List.length_pos_iff.2 h
  have h4 : 0 < b.length / e.mb := by
    rcases Nat.eq_zero_or_pos (b.length / e.mb) with h | h
    · rw [h] at h2; omega
    · exact h
  have h5 : e.mb * 1 ≤ e.mb * (b.length / e.mb) := Nat.mul_le_mul_left _ h4
  omega

end Verif
