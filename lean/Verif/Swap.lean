import Verif.Props.C48

/-! Lemmas: the scanners under exchange of the two bytes of every unit. -/

set_option autoImplicit true

namespace Verif

/-- The two bytes of every unit exchanged (an odd last byte stays). -/
def swap : Buf → Buf
  | x :: y :: r => y :: x :: swap r
  | b => b

/-- No unit is one of U+0080 - U+00FF, read low byte first. -/
def Clear (b : Buf) : Prop := ∀ i, 2 * i + 1 < b.length → ¬ (byteAt b (2 * i + 1) = 0 ∧ 0x80 ≤ (byteAt b (2 * i)).toNat)

theorem swap_length (b : Buf) : (swap b).length = b.length := by
  fun_induction swap b <;> simp_all

theorem swap_drop2 (b : Buf) : swap (b.drop 2) = (swap b).drop 2 := by
  match b with
  | [] => rfl
  | [x] => rfl
  | x :: y :: r => rfl

theorem swap_dropN (n : Nat) (b : Buf) : swap (b.drop (2 * n)) = (swap b).drop (2 * n) := by
  induction n generalizing b with
  | zero => simp
  | succ n ih =>
    rw [show 2 * (n + 1) = 2 + 2 * n by omega, ← List.drop_drop, ← List.drop_drop, ih, swap_drop2]

theorem swap_drop (k : Nat) (b : Buf) (h : k % 2 = 0) : swap (b.drop k) = (swap b).drop k := by
  have := swap_dropN (k / 2) b
  rwa [show 2 * (k / 2) = k by omega] at this

theorem drop_swap {k : Nat} {b : Buf} (h : k % 2 = 0) : (swap b).drop k = swap (b.drop k) := (swap_drop k b h).symm

theorem swap_take (k : Nat) (b : Buf) (h : k % 2 = 0) : swap (b.take k) = (swap b).take k := by
  match b with
  | [] => simp [swap]
  | [x] =>
    rcases k with _ | _ | k
    · rfl
    · omega
    · simp [swap]
  | x :: y :: r =>
    rcases k with _ | _ | k
    · rfl
    · omega
    · simp only [List.take_succ_cons, swap]
      rw [swap_take k r (by omega)]

theorem take_swap {k : Nat} {b : Buf} (h : k % 2 = 0) : (swap b).take k = swap (b.take k) := (swap_take k b h).symm

theorem swap_swap (b : Buf) : swap (swap b) = b := by
  fun_induction swap b with
  | case1 x y r ih => simp [swap, ih]
  | case2 b h =>
    match b with
    | [] => rfl
    | [x] => rfl
    | x :: y :: r => exact absurd rfl (h x y r)

theorem swap_at (b : Buf) (h : 2 ≤ b.length) : byteAt (swap b) 0 = byteAt b 1 ∧ byteAt (swap b) 1 = byteAt b 0 := by
  match b with
  | [] => simp at h
  | [x] => simp at h
  | x :: y :: r => exact ⟨rfl, rfl⟩

theorem Clear.drop {b : Buf} (g : Clear b) (k : Nat) (h : k % 2 = 0) : Clear (b.drop k) := by
  intro i hi
  rw [List.length_drop] at hi
  have := g (i + k / 2) (by omega)
  simp only [byteAt, List.getD_eq_getElem?_getD, List.getElem?_drop] at this ⊢
  rwa [show k + (2 * i + 1) = 2 * (i + k / 2) + 1 by omega, show k + 2 * i = 2 * (i + k / 2) by omega]

theorem Clear.take {b : Buf} (g : Clear b) (k : Nat) : Clear (b.take k) := by
  intro i hi
  rw [List.length_take] at hi
  have := g i (by omega)
  simp only [byteAt, List.getD_eq_getElem?_getD] at this ⊢
  rwa [List.getElem?_take_of_lt (by omega), List.getElem?_take_of_lt (by omega)]

/-- `e'` on exchanged bytes answers every test as `e`. -/
structure Mirror (e e' : Enc) : Prop where
  two : e.mb = 2
  mb : e'.m = e.m
  ev : e.Even
  lead2 : ∀ b, e.bt b ≠ .LEAD2
  bt : ∀ b, Clear b → e.mb ≤ b.length → e'.bt (swap b) = e.bt b
  mat : ∀ b c, e.mb ≤ b.length → e'.charMatches (swap b) c = e.charMatches b c
  asc : ∀ b, e.mb ≤ b.length → e'.toAscii (swap b) = e.toAscii b
  btNil : e'.bt [] = e.bt []
  ascNil : e'.toAscii [] = e.toAscii []
  name : ∀ n b, e'.isName n (swap b) = e.isName n b
  nmstrt : ∀ n b, e'.isNmstrt n (swap b) = e.isNmstrt n b
  invalid : ∀ n b, e'.isInvalid n (swap b) = e.isInvalid n b
  nameMin : ∀ b, e.mb ≤ b.length → e'.isNameMin (swap b) = e.isNameMin b
  nmstrtMin : ∀ b, e.mb ≤ b.length → e'.isNmstrtMin (swap b) = e.isNmstrtMin b

section
variable {e e' : Enc} (ag : Mirror e e')
include ag

theorem Mirror.mb' : e'.mb = e.mb := by rw [Enc.mb, Enc.mb, ag.mb]
theorem Mirror.adv1 {b p k} (h : invalidCases e b p = .adv k) : (k + 1) % 2 = 0 := invalidCases_adv2 ag.two ag.ev h
theorem Mirror.adv2 {b p k} (h : nameCases e b p = .adv k) : (k + 1) % 2 = 0 := nameCases_adv2 ag.two ag.ev h
theorem Mirror.adv3 {b p k} (h : nmstrtCases e b p = .adv k) : (k + 1) % 2 = 0 := nmstrtCases_adv2 ag.two ag.ev h
theorem Mirror.lead3 (b) : e.bt b ≠ .LEAD3 := Verif.lead3 ag.two ag.ev b

theorem invalidCases_mir (b p) (h : e.mb ≤ b.length)  (g : Clear b):
    invalidCases e' (swap b) p = invalidCases e b p := by
  have hl := swap_length b
  have hd := fun k => @drop_swap k b
  have h8 := ag.two
  have h9 := ag.mb'
  have h3 := ag.bt b g h
  have h6 := ag.mb
  have h4 := ag.invalid
  simp only [invalidCases]
  rw [h3]
  generalize e.bt b = t at *
  cases t <;> simp only <;> grind

theorem nameCases_mir (b p) (h : e.mb ≤ b.length)  (g : Clear b):
    nameCases e' (swap b) p = nameCases e b p := by
  have hl := swap_length b
  have hd := fun k => @drop_swap k b
  have h8 := ag.two
  have h9 := ag.mb'
  have h3 := ag.bt b g h
  have h6 := ag.mb
  have h4 := ag.name
  have h5 := ag.nameMin b h
  simp only [nameCases]
  rw [h3]
  generalize e.bt b = t at *
  cases t <;> simp only <;> grind

theorem nmstrtCases_mir (b p) (h : e.mb ≤ b.length)  (g : Clear b):
    nmstrtCases e' (swap b) p = nmstrtCases e b p := by
  have hl := swap_length b
  have hd := fun k => @drop_swap k b
  have h8 := ag.two
  have h9 := ag.mb'
  have h3 := ag.bt b g h
  have h6 := ag.mb
  have h4 := ag.nmstrt
  have h5 := ag.nmstrtMin b h
  simp only [nmstrtCases]
  rw [h3]
  generalize e.bt b = t at *
  cases t <;> simp only <;> grind

macro "mir" "[" ls:Lean.Parser.Tactic.grindParam,* "]" : tactic =>
  `(tactic| grind [invalidCases_mir, nameCases_mir, nmstrtCases_mir, Mirror.bt, Mirror.mat, Mirror.mb', Mirror.two,
      Mirror.asc, List.length_drop, swap_length, drop_swap, Clear.drop, → Mirror.adv1, → Mirror.adv2, → Mirror.adv3,
      Mirror.lead2, Mirror.lead3, $ls,*])

theorem scanCommentLoop_mir (b p)  (g : Clear b):
    scanCommentLoop e' (swap b) p = scanCommentLoop e b p := by
  fun_induction scanCommentLoop e b p <;> (conv => lhs; rw [scanCommentLoop.eq_def]) <;>
    mir []

theorem scanComment_mir (b p)  (g : Clear b):
    scanComment e' (swap b) p = scanComment e b p := by
  fun_cases scanComment e b p <;> (conv => lhs; rw [scanComment.eq_def]) <;>
    mir [scanCommentLoop_mir ag]

theorem scanDeclLoop_mir (b p)  (g : Clear b):
    scanDeclLoop e' (swap b) p = scanDeclLoop e b p := by
  fun_induction scanDeclLoop e b p <;> (conv => lhs; rw [scanDeclLoop.eq_def]) <;>
    mir []

theorem scanDecl_mir (b p)  (g : Clear b):
    scanDecl e' (swap b) p = scanDecl e b p := by
  fun_cases scanDecl e b p <;> (conv => lhs; rw [scanDecl.eq_def]) <;>
    mir [scanDeclLoop_mir ag, scanComment_mir ag]

theorem scanPiData_mir {t} (b p)  (g : Clear b):
    scanPiData e' t (swap b) p = scanPiData e t b p := by
  fun_induction scanPiData e t b p <;> (conv => lhs; rw [scanPiData.eq_def]) <;>
    mir []

theorem checkPiTarget_mir (tgt) : checkPiTarget e' (swap tgt) = checkPiTarget e tgt := by
  have h7 := ag.mb'
  have h8 := ag.two
  have h := ag.asc
  simp only [checkPiTarget, h7, swap_length]
  split
  · rfl
  · rw [h _ (by omega), drop_swap (by omega), drop_swap (by omega), h _ (by simp only [List.length_drop]; omega),
      h _ (by simp only [List.length_drop]; omega)]

theorem scanPiTarget_mir (tgt p0 b p)  (g0 : Clear tgt) (hp : (p - p0) % 2 = 0) (h0 : p0 ≤ p) (g : Clear b):
    scanPiTarget e' (swap tgt) p0 (swap b) p = scanPiTarget e tgt p0 b p := by
  fun_induction scanPiTarget e tgt p0 b p <;> (conv => lhs; rw [scanPiTarget.eq_def]) <;>
    mir [checkPiTarget_mir ag, scanPiData_mir ag, take_swap]

theorem scanPi_mir (b p)  (g : Clear b): scanPi e' (swap b) p = scanPi e b p := by
  fun_cases scanPi e b p <;> (conv => lhs; rw [scanPi.eq_def]) <;> mir [scanPiTarget_mir ag]

theorem cdataMismatch_mir (cs b p) (h : cs.length * e.mb ≤ b.length)  (g : Clear b):
    cdataMismatch e' cs (swap b) p = cdataMismatch e cs b p := by
  induction cs generalizing b p with
  | nil => simp [cdataMismatch]
  | cons c cs ih =>
    have hm : (c :: cs).length * e.mb = cs.length * e.mb + e.mb := by
      rw [List.length_cons, Nat.succ_mul]
    simp only [cdataMismatch]
    have h2 := ag.two
    rw [ag.mat b c (by omega), ag.mb', drop_swap (by omega), ih _ _ (by simp only [List.length_drop]; omega) (g.drop _ (by omega))]

theorem scanCdataSection_mir (b p)  (g : Clear b): scanCdataSection e' (swap b) p = scanCdataSection e b p := by
  have := cdataMismatch_mir ag CDATA_LSQB b p
  simp only [CDATA_LSQB, List.length] at this
  fun_cases scanCdataSection e b p <;> (conv => lhs; rw [scanCdataSection]) <;>
    mir [CDATA_LSQB]

theorem scanEndTagLoop_mir {ws} (b p)  (g : Clear b):
    scanEndTagLoop e' ws (swap b) p = scanEndTagLoop e ws b p := by
  fun_induction scanEndTagLoop e ws b p <;> (conv => lhs; rw [scanEndTagLoop.eq_def]) <;>
    mir []

theorem scanEndTag_mir (b p)  (g : Clear b):
    scanEndTag e' (swap b) p = scanEndTag e b p := by
  fun_cases scanEndTag e b p <;> (conv => lhs; rw [scanEndTag.eq_def]) <;>
    mir [scanEndTagLoop_mir ag]

theorem scanHexLoop_mir (b p)  (g : Clear b):
    scanHexLoop e' (swap b) p = scanHexLoop e b p := by
  fun_induction scanHexLoop e b p <;> (conv => lhs; rw [scanHexLoop.eq_def]) <;>
    mir []

theorem scanHexCharRef_mir (b p)  (g : Clear b):
    scanHexCharRef e' (swap b) p = scanHexCharRef e b p := by
  fun_cases scanHexCharRef e b p <;> (conv => lhs; rw [scanHexCharRef.eq_def]) <;>
    mir [scanHexLoop_mir ag]

theorem scanDecLoop_mir (b p)  (g : Clear b):
    scanDecLoop e' (swap b) p = scanDecLoop e b p := by
  fun_induction scanDecLoop e b p <;> (conv => lhs; rw [scanDecLoop.eq_def]) <;>
    mir []

theorem scanCharRef_mir (b p)  (g : Clear b):
    scanCharRef e' (swap b) p = scanCharRef e b p := by
  fun_cases scanCharRef e b p <;> (conv => lhs; rw [scanCharRef.eq_def]) <;>
    mir [scanHexCharRef_mir ag, scanDecLoop_mir ag]

theorem scanNameSemi_mir {t} (b p)  (g : Clear b):
    scanNameSemi e' t (swap b) p = scanNameSemi e t b p := by
  fun_induction scanNameSemi e t b p <;> (conv => lhs; rw [scanNameSemi.eq_def]) <;>
    mir []

theorem scanRef_mir (b p)  (g : Clear b):
    scanRef e' (swap b) p = scanRef e b p := by
  fun_cases scanRef e b p <;> (conv => lhs; rw [scanRef.eq_def]) <;>
    mir [scanNameSemi_mir ag, scanCharRef_mir ag]

theorem scanAtts_mir {st} (b p)  (g : Clear b) (hp : p % 2 = 0):
    scanAtts e' st (swap b) p = scanAtts e st b p := by
  fun_induction scanAtts e st b p <;> (conv => lhs; rw [scanAtts.eq_def]) <;>
    mir [scanRef_mir ag, scanRef_unit ag.two ag.ev]

theorem scanLtHelper_mir (b p) (hb : e.mb ≤ b.length)  (g : Clear b):
    scanLtHelper e' (swap b) p = scanLtHelper e b p := by
  fun_cases scanLtHelper e b p <;> (conv => lhs; rw [scanLtHelper.eq_def]) <;>
    mir []

theorem scanStartTag_mir {st} (b p)  (g : Clear b) (hp : p % 2 = 0):
    scanStartTag e' st (swap b) p = scanStartTag e st b p := by
  fun_induction scanStartTag e st b p <;> (conv => lhs; rw [scanStartTag.eq_def]) <;>
    mir [scanAtts_mir ag, scanLtHelper_mir ag]

theorem scanLt_mir (b p)  (g : Clear b) (hp : p % 2 = 0):
    scanLt e' (swap b) p = scanLt e b p := by
  fun_cases scanLt e b p <;> (conv => lhs; rw [scanLt.eq_def]) <;>
    mir [scanStartTag_mir ag, scanEndTag_mir ag, scanPi_mir ag, scanComment_mir ag, scanCdataSection_mir ag]

theorem scanPercent_mir (b p)  (g : Clear b):
    scanPercent e' (swap b) p = scanPercent e b p := by
  fun_cases scanPercent e b p <;> (conv => lhs; rw [scanPercent.eq_def]) <;>
    mir [scanNameSemi_mir ag]

theorem scanPoundNameLoop_mir (b p)  (g : Clear b):
    scanPoundNameLoop e' (swap b) p = scanPoundNameLoop e b p := by
  fun_induction scanPoundNameLoop e b p <;> (conv => lhs; rw [scanPoundNameLoop.eq_def]) <;>
    mir []

theorem scanPoundName_mir (b p)  (g : Clear b):
    scanPoundName e' (swap b) p = scanPoundName e b p := by
  fun_cases scanPoundName e b p <;> (conv => lhs; rw [scanPoundName.eq_def]) <;>
    mir [scanPoundNameLoop_mir ag]

theorem scanLit_mir {op} (b p)  (g : Clear b):
    scanLit e' op (swap b) p = scanLit e op b p := by
  fun_induction scanLit e op b p <;> (conv => lhs; rw [scanLit.eq_def]) <;>
    mir []

theorem cdataStep_mir (b p) (h : e.mb ≤ b.length)  (g : Clear b):
    cdataStep e' (swap b) p = cdataStep e b p := by
  have hl := swap_length b
  have hd := fun k => @drop_swap k b
  have h8 := ag.two
  have h9 := ag.mb'
  have h3 := ag.bt b g h
  have h6 := ag.mb
  have h7 := ag.mb'
  have h4 := ag.invalid
  have h5 := ag.mat
  simp only [cdataStep]
  rw [h3]
  generalize e.bt b = t at *
  cases t <;> simp only <;> grind

theorem cdataLoop_mir (b p)  (g : Clear b):
    cdataLoop e' (swap b) p = cdataLoop e b p := by
  fun_induction cdataLoop e b p <;> (conv => lhs; rw [cdataLoop.eq_def]) <;>
    mir [cdataStep_mir ag, → cdataStep_unit, Mirror.ev]

theorem contentStep_mir (b p) (h : e.mb ≤ b.length)  (g : Clear b):
    contentStep e' (swap b) p = contentStep e b p := by
  have hl := swap_length b
  have hd := fun k => @drop_swap k b
  have h8 := ag.two
  have h9 := ag.mb'
  have h3 := ag.bt b g h
  have h6 := ag.mb
  have h7 := ag.mb'
  have h4 := ag.invalid
  have h5 := ag.mat
  simp only [contentStep]
  rw [h3]
  generalize e.bt b = t at *
  cases t <;> simp only <;> grind

theorem contentLoop_mir (b p)  (g : Clear b):
    contentLoop e' (swap b) p = contentLoop e b p := by
  fun_induction contentLoop e b p <;> (conv => lhs; rw [contentLoop.eq_def]) <;>
    mir [contentStep_mir ag, → contentStep_unit, Mirror.ev]

theorem prologSpace_mir (b p)  (g : Clear b):
    prologSpace e' (swap b) p = prologSpace e b p := by
  fun_induction prologSpace e b p <;> (conv => lhs; rw [prologSpace.eq_def]) <;>
    mir []

theorem prologName_mir {t c} (b p)  (g : Clear b):
    prologName e' t c (swap b) p = prologName e t c b p := by
  fun_induction prologName e t c b p <;> (conv => lhs; rw [prologName.eq_def]) <;>
    mir []

theorem ignoreLoop_mir {l} (b p)  (g : Clear b):
    ignoreLoop e' l (swap b) p = ignoreLoop e l b p := by
  fun_induction ignoreLoop e l b p <;> (conv => lhs; rw [ignoreLoop.eq_def]) <;>
    mir []

theorem attValLoop_mir (b p)  (g : Clear b):
    attValLoop e' (swap b) p = attValLoop e b p := by
  fun_induction attValLoop e b p <;> (conv => lhs; rw [attValLoop.eq_def]) <;>
    mir [scanRef_mir ag]

theorem entValLoop_mir (b p)  (g : Clear b):
    entValLoop e' (swap b) p = entValLoop e b p := by
  fun_induction entValLoop e b p <;> (conv => lhs; rw [entValLoop.eq_def]) <;>
    mir [scanRef_mir ag, scanPercent_mir ag]

theorem isPublicIdLoop_mir (b p)  (g : Clear b):
    isPublicIdLoop e' (swap b) p = isPublicIdLoop e b p := by
  fun_induction isPublicIdLoop e b p <;> (conv => lhs; rw [isPublicIdLoop.eq_def]) <;>
    mir []

theorem cdataTokBody_mir (b) (hb : e.mb ≤ b.length)  (g : Clear b): cdataTokBody e' (swap b) = cdataTokBody e b := by
  fun_cases cdataTokBody e b <;> (conv => lhs; rw [cdataTokBody.eq_def]) <;>
    mir [cdataLoop_mir ag]

theorem contentTokBody_mir (b) (hb : e.mb ≤ b.length)  (g : Clear b):
    contentTokBody e' (swap b) = contentTokBody e b := by
  fun_cases contentTokBody e b <;> (conv => lhs; rw [contentTokBody.eq_def]) <;>
    mir [contentLoop_mir ag, scanLt_mir ag, scanRef_mir ag]

theorem prologLead_mir (k b)  (g : Clear b) (hk : (k + 1) % 2 = 0): prologLead e' k (swap b) = prologLead e k b := by
  fun_cases prologLead e k b <;> (conv => lhs; rw [prologLead.eq_def]) <;>
    mir [prologName_mir ag, Mirror.name, Mirror.nmstrt]

theorem prologTokBody_mir (b) (hb : e.mb ≤ b.length)  (g : Clear b):
    prologTokBody e' (swap b) = prologTokBody e b := by
  have hbt := ag.bt b g hb
  have hl2 := ag.lead2 b
  have hl3 := ag.lead3 b
  have hn := ag.nameMin b hb
  have hs := ag.nmstrtMin b hb
  have hm := ag.mb'
  have hlen := List.length_drop (i := e.mb) (l := b)
  simp only [prologTokBody]
  rw [hbt, hm]
  generalize e.bt b = t at *
  cases t <;> simp only [hn, hs] <;>
    mir [prologName_mir ag, prologLead_mir ag, scanDecl_mir ag, prologSpace_mir ag,
      scanPi_mir ag, scanLit_mir ag, scanPercent_mir ag, scanPoundName_mir ag]


omit ag in
theorem truncBuf_mod (b : Buf) (h : e.mb = 2) : (b.length - b.length % e.mb) % 2 = 0 := by rw [h]; omega

theorem truncBuf_mir (b) : truncBuf e' (swap b) = swap (truncBuf e b) := by
  rw [truncBuf, truncBuf, ag.mb', swap_length, take_swap (truncBuf_mod b ag.two)]

theorem truncBuf_clear (b) (g : Clear b) : Clear (truncBuf e b) := g.take _

omit ag in
theorem swap_isEmpty (b) : (swap b).isEmpty = b.isEmpty := by
  match b with
  | [] => rfl
  | [x] => rfl
  | x :: y :: r => rfl

theorem truncBuf_unit (b) (h : (truncBuf e b).isEmpty = false) : e.mb ≤ (truncBuf e b).length := by
  have h2 := ag.two
  rw [truncBuf] at h ⊢
  rw [List.length_take]
  have : (List.take (b.length - b.length % e.mb) b).length ≠ 0 := by
    intro h1; rw [List.length_eq_zero_iff.1 h1] at h; cases h
  rw [List.length_take] at this
  rw [h2] at this ⊢
  omega

theorem contentTok_mir (b) (g : Clear b) : contentTok e' (swap b) = contentTok e b := by
  rw [contentTok, contentTok, truncBuf_mir ag, swap_isEmpty, swap_isEmpty]
  split
  · rfl
  split
  · rfl
  · exact contentTokBody_mir ag _ (truncBuf_unit ag b (by simpa using ‹¬ (truncBuf e b).isEmpty = true›)) (g.take _)

theorem cdataSectionTok_mir (b) (g : Clear b) : cdataSectionTok e' (swap b) = cdataSectionTok e b := by
  rw [cdataSectionTok, cdataSectionTok, truncBuf_mir ag, swap_isEmpty, swap_isEmpty]
  split
  · rfl
  split
  · rfl
  · exact cdataTokBody_mir ag _ (truncBuf_unit ag b (by simpa using ‹¬ (truncBuf e b).isEmpty = true›)) (g.take _)

theorem prologTok_mir (b) (g : Clear b) : prologTok e' (swap b) = prologTok e b := by
  rw [prologTok, prologTok, truncBuf_mir ag, swap_isEmpty, swap_isEmpty]
  split
  · rfl
  split
  · rfl
  · exact prologTokBody_mir ag _ (truncBuf_unit ag b (by simpa using ‹¬ (truncBuf e b).isEmpty = true›)) (g.take _)

theorem ignoreSectionTok_mir (b) (g : Clear b) : ignoreSectionTok e' (swap b) = ignoreSectionTok e b := by
  rw [ignoreSectionTok, ignoreSectionTok, truncBuf_mir ag]
  exact ignoreLoop_mir ag _ _ (g.take _)

theorem attributeValueTok_mir (b) (g : Clear b) : attributeValueTok e' (swap b) = attributeValueTok e b := by
  rw [attributeValueTok, attributeValueTok, swap_isEmpty, swap_length, ag.mb', attValLoop_mir ag _ _ g]

theorem entityValueTok_mir (b) (g : Clear b) : entityValueTok e' (swap b) = entityValueTok e b := by
  rw [entityValueTok, entityValueTok, swap_isEmpty, swap_length, ag.mb', entValLoop_mir ag _ _ g]

theorem isPublicId_mir (b) (g : Clear b) (hb : b.length % 2 = 0) : isPublicId e' (swap b) = isPublicId e b := by
  have h2 := ag.two
  rw [isPublicId, isPublicId, ag.mb', swap_length, drop_swap (by omega), take_swap (by omega),
    isPublicIdLoop_mir ag _ _ ((g.drop _ (by omega)).take _)]

/-! ### The functions applied to the text of a token -/

theorem charRefHex_mir (b r) : charRefHex e' (swap b) r = charRefHex e b r := by
  have h9 := ag.mb'
  have h8 := ag.two
  have hm := ag.mat
  have ha := ag.asc
  fun_induction charRefHex e b r <;> (conv => lhs; rw [charRefHex.eq_def]) <;> grind [swap_length, drop_swap]

theorem charRefDec_mir (b r) : charRefDec e' (swap b) r = charRefDec e b r := by
  have h9 := ag.mb'
  have h8 := ag.two
  have hm := ag.mat
  have ha := ag.asc
  fun_induction charRefDec e b r <;> (conv => lhs; rw [charRefDec.eq_def]) <;> grind [swap_length, drop_swap]

theorem charRefNumber_mir (b) (hb : 3 * e.mb ≤ b.length) : charRefNumber e' (swap b) = charRefNumber e b := by
  have h8 := ag.two
  rw [charRefNumber, charRefNumber, ag.mb', drop_swap (by omega), drop_swap (by omega), charRefHex_mir ag, charRefDec_mir ag,
    ag.mat _ _ (by rw [List.length_drop]; omega)]

theorem predefinedEntityName_mir (b) : predefinedEntityName e' (swap b) = predefinedEntityName e b := by
  have h8 := ag.two
  have h9 := ag.mb'
  have hm := ag.mat
  have ha := ag.asc
  have hl := swap_length b
  have hd : ∀ i, (swap b).drop (i * e.mb) = swap (b.drop (i * e.mb)) := fun i => drop_swap (by rw [h8]; omega)
  have hi : ∀ i c, (i + 1) * 2 ≤ b.length → e'.charMatches (swap (b.drop (i * e.mb))) c = e.charMatches (b.drop (i * e.mb)) c :=
    fun i c h => hm _ _ (by rw [List.length_drop, h8]; omega)
  simp only [predefinedEntityName, h9, hl, hd]
  split
  · rw [ha b (by rw [h8] at *; omega), hi 1 _ (by rw [h8] at *; omega)]
  · rw [hm b _ (by rw [h8] at *; omega), hi 1 _ (by rw [h8] at *; omega), hi 2 _ (by rw [h8] at *; omega)]
  · rw [ha b (by rw [h8] at *; omega), hi 1 _ (by rw [h8] at *; omega), hi 1 _ (by rw [h8] at *; omega),
      hi 2 _ (by rw [h8] at *; omega), hi 3 _ (by rw [h8] at *; omega), hi 3 _ (by rw [h8] at *; omega)]
  · rfl

theorem nameMatchesAscii_mir (b cs) : nameMatchesAscii e' (swap b) cs = nameMatchesAscii e b cs := by
  have h8 := ag.two
  have h9 := ag.mb'
  have hm := ag.mat
  induction cs generalizing b with
  | nil => simp only [nameMatchesAscii, swap_isEmpty]
  | cons c cs ih =>
    simp only [nameMatchesAscii, h9, swap_length]
    split
    · rfl
    · rw [hm _ _ (by omega), drop_swap (by omega), ih]

theorem nameLength_mir (b) (g : Clear b) : nameLength e' (swap b) = nameLength e b := by
  fun_induction nameLength e b <;> (conv => lhs; rw [nameLength.eq_def]) <;> mir []

theorem skipS_mir (b) (g : Clear b) : skipS e' (swap b) = swap (skipS e b) := by
  fun_induction skipS e b <;> (conv => lhs; rw [skipS.eq_def]) <;> mir []

theorem updatePosition_mir (b pos) (g : Clear b) : updatePosition e' (swap b) pos = updatePosition e b pos := by
  fun_induction updatePosition e b pos <;> (conv => lhs; rw [updatePosition.eq_def]) <;> mir []

theorem gaSpace_mir (st a b p) (g : Clear b) (hb : b.length % 2 = 0) : gaSpace e' st a (swap b) p = gaSpace e st a b p := by
  have h8 := ag.two
  have h9 := ag.mb'
  have hd : e'.toAscii (swap (b.drop e.mb)) = e.toAscii (b.drop e.mb) ∧ e'.bt (swap (b.drop e.mb)) = e.bt (b.drop e.mb) := by
    by_cases h : b.drop e.mb = []
    · rw [h]; exact ⟨ag.ascNil, ag.btNil⟩
    · have hl : (b.drop e.mb).length ≠ 0 := fun h1 => h (List.length_eq_zero_iff.1 h1)
      rw [List.length_drop] at hl
      have : e.mb ≤ (b.drop e.mb).length := by rw [List.length_drop]; omega
      exact ⟨ag.asc _ this, ag.bt _ (g.drop _ (by omega)) this⟩
  have h0 : e'.toAscii (swap b) = e.toAscii b := by
    by_cases h : b = []
    · rw [h]; exact ag.ascNil
    · have hl : b.length ≠ 0 := fun h1 => h (List.length_eq_zero_iff.1 h1)
      exact ag.asc _ (by omega)
  simp only [gaSpace, h9, drop_swap (k := e.mb) (b := b) (by omega), hd.1, hd.2, h0]

theorem gaQuote_mir (q st a p) : gaQuote e' q st a p = gaQuote e q st a p := by
  simp only [gaQuote, ag.mb']

theorem getAttsLoop_mir (st a b p) (g : Clear b) (hb : b.length % 2 = 0) :
    getAttsLoop e' st a (swap b) p = getAttsLoop e st a b p := by
  fun_induction getAttsLoop e st a b p <;> (conv => lhs; rw [getAttsLoop.eq_def]) <;>
    mir [gaSpace_mir ag, gaQuote_mir ag]

theorem getAtts_mir (b) (g : Clear b) (hb : b.length % 2 = 0) : getAtts e' (swap b) = getAtts e b := by
  have h8 := ag.two
  rw [getAtts, getAtts, ag.mb', drop_swap (by omega), getAttsLoop_mir ag _ _ _ _ (g.drop _ (by omega))
    (by rw [List.length_drop]; omega)]

end

end Verif
