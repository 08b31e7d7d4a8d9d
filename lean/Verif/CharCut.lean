import Verif.Units
import Verif.Classes

/-! Where scanners stop: at the boundary of two characters, and not between `\r` and `\n` (C74). -/

set_option autoImplicit false

namespace Verif

/-- `CharCut e cr b n`: the first `n` bytes of `b` are whole characters, and the character after them is known not to be `\n` if the last of
them is `\r`; `cr` says that the character before `b` is `\r`. -/
inductive CharCut (e : Enc) : Bool → Buf → Nat → Prop where
  | here {cr : Bool} {b : Buf} (h : cr = true → e.mb ≤ b.length ∧ e.bt b ≠ .LF) : CharCut e cr b 0
  | char {cr : Bool} {b : Buf} {n : Nat} (h1 : e.mb ≤ b.length) (h2 : e.charLen b ≤ b.length)
      (h : CharCut e (decide (e.bt b = .CR)) (b.drop (e.charLen b)) n) : CharCut e cr b (e.charLen b + n)

/-- The result of a scanner that looks at `b` at the offset `p`. -/
def Lands (e : Enc) (cr : Bool) (b : Buf) (p : Nat) (r : Res) : Prop := r.next = 0 ∨ ∃ n, r.next = p + n ∧ CharCut e cr b n

section
variable {e : Enc}

theorem CharCut.weaken {cr : Bool} {b : Buf} {n : Nat} (h : CharCut e cr b n) : CharCut e false b n := by
  cases h with
  | here h => exact .here (by simp)
  | char h1 h2 h => exact .char h1 h2 h

theorem CharCut.any {cr : Bool} {b : Buf} {n : Nat} (h : CharCut e cr b n) (hn : 0 < n) (cr' : Bool) : CharCut e cr' b n := by
  cases h with
  | here h => omega
  | char h1 h2 h => exact .char h1 h2 h

theorem CharCut.of_true {b : Buf} {n : Nat} (h : CharCut e true b n) (cr : Bool) : CharCut e cr b n := by
  cases h with
  | here h => exact .here fun _ => h rfl
  | char h1 h2 h => exact .char h1 h2 h

theorem CharCut.trans {cr : Bool} {b : Buf} {n m : Nat} (h : CharCut e cr b n) (g : CharCut e true (b.drop n) m) : CharCut e cr b (n + m) := by
  induction h with
  | here h => rw [Nat.zero_add]; exact g.of_true _
  | char h1 h2 h ih => rw [Nat.add_assoc]; exact .char h1 h2 (ih (by rwa [List.drop_drop]))

theorem CharCut.le {cr : Bool} {b : Buf} {n : Nat} (h : CharCut e cr b n) : n ≤ b.length := by
  induction h with
  | here => omega
  | char h1 h2 _ ih => rw [List.length_drop] at ih; omega

theorem lands_zero {cr : Bool} {b : Buf} {p : Nat} {t : Tok} : Lands e cr b p ⟨t, 0⟩ := .inl rfl

theorem lands_here {cr : Bool} {b : Buf} {p : Nat} {t : Tok} (h : cr = true → e.mb ≤ b.length ∧ e.bt b ≠ .LF) : Lands e cr b p ⟨t, p⟩ :=
  .inr ⟨0, rfl, .here h⟩

theorem lands_false {b : Buf} {p : Nat} {t : Tok} : Lands e false b p ⟨t, p⟩ := lands_here (by simp)

theorem lands_char {cr : Bool} {b : Buf} {p : Nat} {r : Res} (k : Nat) (hk : e.charLen b = k) (h1 : e.mb ≤ b.length) (h2 : k ≤ b.length)
    (h : Lands e (decide (e.bt b = .CR)) (b.drop k) (p + k) r) : Lands e cr b p r := by
  subst hk
  rcases h with h | ⟨n, h, g⟩
  · exact .inl h
  · exact .inr ⟨_, by rw [h, Nat.add_assoc], .char h1 h2 g⟩

/-- The classes of the characters of one unit. -/
def ByteType.isLead : ByteType → Bool
  | .LEAD2 | .LEAD3 | .LEAD4 => true
  | _ => false

theorem charLen_unit {b : Buf} (h : (e.bt b).isLead = false) : e.charLen b = e.mb := by
  simp only [Enc.charLen]
  generalize e.bt b = t at *
  cases t <;> simp_all [ByteType.isLead]

theorem lands_unit {cr : Bool} {b : Buf} {p : Nat} {r : Res} (hl : (e.bt b).isLead = false) (h1 : e.mb ≤ b.length)
    (h : Lands e (decide (e.bt b = .CR)) (b.drop e.mb) (p + e.mb) r) : Lands e cr b p r :=
  lands_char e.mb (charLen_unit hl) h1 h1 h

theorem cases_here {cr : Bool} {b : Buf} {p : Nat} {t : Tok} (hb : e.mb ≤ b.length) (h : e.bt b ≠ .LF) : Lands e cr b p ⟨t, p⟩ :=
  lands_here fun _ => ⟨hb, h⟩

section
variable {cr : Bool} {b : Buf} {p : Nat} (hb : ¬ b.length < e.mb)
include hb

theorem invalidCases_ret_lands {r : Res} (h : invalidCases e b p = .ret r) : Lands e cr b p r := by
  have hb : e.mb ≤ b.length := by omega
  have := cases_here (e := e) (cr := cr) (b := b) (p := p) (t := .INVALID) hb
  simp only [invalidCases] at h
  generalize e.bt b = t at *
  cases t <;> simp only at h <;> grind [lands_zero]

theorem nameCases_ret_lands {r : Res} (h : nameCases e b p = .ret r) : Lands e cr b p r := by
  have hb : e.mb ≤ b.length := by omega
  have := cases_here (e := e) (cr := cr) (b := b) (p := p) (t := .INVALID) hb
  simp only [nameCases] at h
  generalize e.bt b = t at *
  cases t <;> simp only at h <;> grind [lands_zero]

theorem nmstrtCases_ret_lands {r : Res} (h : nmstrtCases e b p = .ret r) : Lands e cr b p r := by
  have hb : e.mb ≤ b.length := by omega
  have := cases_here (e := e) (cr := cr) (b := b) (p := p) (t := .INVALID) hb
  simp only [nmstrtCases] at h
  generalize e.bt b = t at *
  cases t <;> simp only at h <;> grind [lands_zero]

theorem invalidCases_adv_lands {k : Nat} {r : Res} (h : invalidCases e b p = .adv k) (g : Lands e false (b.drop (k + 1)) (p + (k + 1)) r) :
    Lands e cr b p r := by
  have hb : e.mb ≤ b.length := by omega
  have hc : e.bt b ≠ .CR := by intro hc; simp [invalidCases, hc] at h
  refine lands_char (k + 1) ?_ hb ?_ (by simpa [hc] using g) <;>
  · simp only [invalidCases, Enc.charLen] at h ⊢
    generalize e.bt b = t at *
    cases t <;> simp only at h <;> grind

theorem nameCases_adv_lands {k : Nat} {r : Res} (h : nameCases e b p = .adv k) (g : Lands e false (b.drop (k + 1)) (p + (k + 1)) r) :
    Lands e cr b p r := by
  have hb : e.mb ≤ b.length := by omega
  have hc : e.bt b ≠ .CR := by intro hc; simp [nameCases, hc] at h
  refine lands_char (k + 1) ?_ hb ?_ (by simpa [hc] using g) <;>
  · simp only [nameCases, Enc.charLen] at h ⊢
    generalize e.bt b = t at *
    cases t <;> simp only at h <;> grind [Enc.mb]

theorem nmstrtCases_adv_lands {k : Nat} {r : Res} (h : nmstrtCases e b p = .adv k) (g : Lands e false (b.drop (k + 1)) (p + (k + 1)) r) :
    Lands e cr b p r := by
  have hb : e.mb ≤ b.length := by omega
  have hc : e.bt b ≠ .CR := by intro hc; simp [nmstrtCases, hc] at h
  refine lands_char (k + 1) ?_ hb ?_ (by simpa [hc] using g) <;>
  · simp only [nmstrtCases, Enc.charLen] at h ⊢
    generalize e.bt b = t at *
    cases t <;> simp only at h <;> grind [Enc.mb]

omit hb in
theorem invalidCases_other_lead (h : invalidCases e b p = .other) : (e.bt b).isLead = false := by
  simp only [invalidCases] at h
  generalize e.bt b = t at *
  cases t <;> simp only at h <;> grind [ByteType.isLead]

omit hb in
theorem nameCases_other_lead (h : nameCases e b p = .other) : (e.bt b).isLead = false := by
  simp only [nameCases] at h
  generalize e.bt b = t at *
  cases t <;> simp only at h <;> grind [ByteType.isLead]

omit hb in
theorem nmstrtCases_other_lead (h : nmstrtCases e b p = .other) : (e.bt b).isLead = false := by
  simp only [nmstrtCases] at h
  generalize e.bt b = t at *
  cases t <;> simp only at h <;> grind [ByteType.isLead]

end

/-- Matching a printable character: it is one unit and not `\r`. -/
def Enc.Marks (e : Enc) : Prop := ∀ (b : Buf) (c : UInt8), 0x20 ≤ c → c < 0x80 → e.mb ≤ b.length → e.charMatches b c = true →
  (e.bt b).isLead = false ∧ e.bt b ≠ .CR

theorem asc_plain {asc : UInt8 → Buf} (s : Supported e asc) (c : UInt8) (h1 : 0x20 ≤ c) (h2 : c < 0x80) :
    (e.bt (asc c)).isLead = false ∧ e.bt (asc c) ≠ .CR := by
  revert c
  cases s with
  | utf8 ns => cases ns <;> exact UInt8.forall_dec (by decide +kernel)
  | internalUtf8 ns => cases ns <;> exact UInt8.forall_dec (by decide +kernel)
  | latin1 ns => cases ns <;> exact UInt8.forall_dec (by decide +kernel)
  | ascii ns => cases ns <;> exact UInt8.forall_dec (by decide +kernel)
  | utf16le ns => cases ns <;> exact UInt8.forall_dec (by decide +kernel)
  | utf16be ns => cases ns <;> exact UInt8.forall_dec (by decide +kernel)

theorem Supported.marks {asc : UInt8 → Buf} (s : Supported e asc) : e.Marks := by
  intro b c h1 h2 hb h
  have := (s.asc.mat b c h2 hb).1 h
  have hb' : b = asc c ++ b.drop e.mb := by rw [← this, List.take_append_drop]
  rw [hb', s.ok.bt_app _ _ (by rw [s.asc.len]; exact Nat.le_refl _)]
  exact asc_plain s c h1 h2

theorem lands_mark (hm : e.Marks) {cr : Bool} {b : Buf} {p : Nat} {r : Res} (c : UInt8) (h1 : 0x20 ≤ c) (h2 : c < 0x80)
    (hb : e.mb ≤ b.length) (h : e.charMatches b c = true) (g : Lands e false (b.drop e.mb) (p + e.mb) r) : Lands e cr b p r := by
  have := hm b c h1 h2 hb h
  exact lands_unit this.1 hb (by simpa [this.2] using g)

theorem lands_next {b : Buf} {p : Nat} {r : Res} (h : r.next = p) : Lands e false b p r := .inr ⟨0, h, .here (by simp)⟩

theorem lands_unit2 {cr : Bool} {b : Buf} {p : Nat} {r : Res} (hl : (e.bt b).isLead = false) (h1 : e.mb ≤ (b.drop e.mb).length)
    (hl2 : (e.bt (b.drop e.mb)).isLead = false)
    (h : Lands e (decide (e.bt (b.drop e.mb) = .CR)) (b.drop (2 * e.mb)) (p + 2 * e.mb) r) : Lands e cr b p r := by
  refine lands_unit hl (by rw [List.length_drop] at h1; omega) (lands_unit hl2 h1 ?_)
  rw [List.drop_drop, Nat.add_assoc, ← Nat.two_mul]
  exact h

theorem not_cr {b : Buf} {p : Nat} {r : Res} (hc : e.bt b ≠ .CR) {b' : Buf} (h : Lands e false b' p r) :
    Lands e (decide (e.bt b = .CR)) b' p r := by simpa [hc] using h

macro "lead" : tactic => `(tactic| first
  | exact invalidCases_other_lead (by assumption) | exact nameCases_other_lead (by assumption) | exact nmstrtCases_other_lead (by assumption)
  | (simp [*, ByteType.isLead]; done) | (grind [ByteType.isLead]; done))

macro "land0" : tactic => `(tactic| first
  | exact lands_zero | exact lands_false
  | exact cases_here (by omega) (by grind)
  | exact invalidCases_ret_lands (by assumption) (by assumption)
  | exact nameCases_ret_lands (by assumption) (by assumption)
  | exact nmstrtCases_ret_lands (by assumption) (by assumption))

macro "land1" "(" t:tacticSeq ")" : tactic => `(tactic| first
  | land0
  | (refine invalidCases_adv_lands (by assumption) (by assumption) ?_; ($t); done)
  | (refine nameCases_adv_lands (by assumption) (by assumption) ?_; ($t); done)
  | (refine nmstrtCases_adv_lands (by assumption) (by assumption) ?_; ($t); done)
  | (refine lands_unit (by lead) (by omega) ?_; ($t); done)
  | (refine lands_unit (by lead) (by omega) (not_cr (by grind) ?_); first | exact lands_next rfl | exact lands_next (by simp; omega) | (($t); done)))

theorem scanDecLoop_lands (b : Buf) (p : Nat) : Lands e false b p (scanDecLoop e b p) := by
  fun_induction scanDecLoop e b p <;> land1 (assumption)

theorem scanHexLoop_lands (b : Buf) (p : Nat) : Lands e false b p (scanHexLoop e b p) := by
  fun_induction scanHexLoop e b p <;> land1 (assumption)

theorem scanHexCharRef_lands (b : Buf) (p : Nat) : Lands e false b p (scanHexCharRef e b p) := by
  fun_cases scanHexCharRef e b p <;> land1 (exact scanHexLoop_lands _ _)

theorem scanEndTagLoop_lands (w : Bool) (cr : Bool) (b : Buf) (p : Nat) : Lands e cr b p (scanEndTagLoop e w b p) := by
  fun_induction scanEndTagLoop e w b p generalizing cr <;> land1 (apply_assumption)

theorem scanEndTag_lands (b : Buf) (p : Nat) : Lands e false b p (scanEndTag e b p) := by
  fun_cases scanEndTag e b p <;> land1 (exact scanEndTagLoop_lands _ _ _ _)

theorem scanNameSemi_lands (t : Tok) (b : Buf) (p : Nat) : Lands e false b p (scanNameSemi e t b p) := by
  fun_induction scanNameSemi e t b p <;> land1 (assumption)

theorem scanPoundNameLoop_lands (b : Buf) (p : Nat) : Lands e false b p (scanPoundNameLoop e b p) := by
  fun_induction scanPoundNameLoop e b p <;> land1 (assumption)

theorem scanPoundName_lands (b : Buf) (p : Nat) : Lands e false b p (scanPoundName e b p) := by
  fun_cases scanPoundName e b p <;> land1 (exact scanPoundNameLoop_lands _ _)

theorem scanPercent_lands (b : Buf) (p : Nat) : Lands e false b p (scanPercent e b p) := by
  fun_cases scanPercent e b p <;> land1 (exact scanNameSemi_lands _ _ _)

theorem scanDeclLoop_lands (b : Buf) (p : Nat) : Lands e false b p (scanDeclLoop e b p) := by
  fun_induction scanDeclLoop e b p <;> land1 (assumption)


section
variable (hm : e.Marks)
include hm

theorem mark_lead {b : Buf} {c : UInt8} (hb : e.mb ≤ b.length) (h : e.charMatches b c = true) (h1 : 0x20 ≤ c := by decide)
    (h2 : c < 0x80 := by decide) : (e.bt b).isLead = false ∧ e.bt b ≠ .CR := hm b c h1 h2 hb h

theorem scanCharRef_lands (b : Buf) (p : Nat) : Lands e false b p (scanCharRef e b p) := by
  fun_cases scanCharRef e b p with
  | case1 hb h => exact lands_mark hm 0x78 (by decide) (by decide) hb h (scanHexCharRef_lands _ _)
  | _ => land1 (exact scanDecLoop_lands _ _)

theorem scanRef_lands (b : Buf) (p : Nat) : Lands e false b p (scanRef e b p) := by
  fun_cases scanRef e b p <;> first | land1 (exact scanNameSemi_lands _ _ _) | land1 (exact scanCharRef_lands hm _ _)

theorem lands_m2 {cr : Bool} {b : Buf} {p : Nat} {r : Res} {c : UInt8} (hl : (e.bt b).isLead = false) (hb : e.mb ≤ (b.drop e.mb).length)
    (h : e.charMatches (b.drop e.mb) c = true) (h1 : 0x20 ≤ c) (h2 : c < 0x80) (hr : r.next = p + 2 * e.mb) : Lands e cr b p r := by
  have := hm _ c h1 h2 hb h
  exact lands_unit2 hl hb this.1 (not_cr this.2 (lands_next hr))

theorem lands_m3 {cr : Bool} {b : Buf} {p : Nat} {r : Res} {c d : UInt8} (hl : (e.bt b).isLead = false) (hb : e.mb ≤ (b.drop e.mb).length)
    (h : e.charMatches (b.drop e.mb) c = true) (h1 : 0x20 ≤ c) (h2 : c < 0x80) (hb2 : e.mb ≤ (b.drop (2 * e.mb)).length)
    (h' : e.charMatches (b.drop (2 * e.mb)) d = true) (h1' : 0x20 ≤ d) (h2' : d < 0x80) (hr : r.next = p + 3 * e.mb) : Lands e cr b p r := by
  have := hm _ c h1 h2 hb h
  have h3 := hm _ d h1' h2' hb2 h'
  exact lands_unit2 hl hb this.1 (not_cr this.2 (lands_unit h3.1 hb2 (not_cr h3.2 (lands_next (by rw [hr]; omega)))))

macro "land2" h:ident : tactic => `(tactic| first
  | exact lands_m2 $h (by lead) (by omega) (by assumption) (by decide) (by decide) (by first | rfl | (simp; done) | (simp; omega))
  | exact lands_m3 $h (by lead) (by omega) (by assumption) (by decide) (by decide) (d := 0x3E) (by omega) (by simp_all; done) (by decide) (by decide) (by first | rfl | (simp; done) | (simp; omega)))

theorem scanCommentLoop_lands (cr : Bool) (b : Buf) (p : Nat) : Lands e cr b p (scanCommentLoop e b p) := by
  fun_induction scanCommentLoop e b p generalizing cr <;> first | land1 (apply_assumption) | land2 hm

theorem scanComment_lands (b : Buf) (p : Nat) : Lands e false b p (scanComment e b p) := by
  fun_cases scanComment e b p with
  | case2 hb h => exact lands_mark hm 0x2D (by decide) (by decide) hb (by simpa using h) (scanCommentLoop_lands hm _ _ _)
  | _ => land0

theorem scanDecl_lands (b : Buf) (p : Nat) : Lands e false b p (scanDecl e b p) := by
  fun_cases scanDecl e b p <;> first | land1 (exact scanDeclLoop_lands _ _) | land1 (exact scanComment_lands hm _ _)

theorem scanPiData_lands (t : Tok) (cr : Bool) (b : Buf) (p : Nat) : Lands e cr b p (scanPiData e t b p) := by
  fun_induction scanPiData e t b p generalizing cr <;> first | land1 (apply_assumption) | land2 hm

theorem scanPiTarget_lands (t : Buf) (p0 : Nat) (b : Buf) (p : Nat) : Lands e false b p (scanPiTarget e t p0 b p) := by
  fun_induction scanPiTarget e t p0 b p <;> first | land1 (first | assumption | exact scanPiData_lands hm _ _ _ _) | land2 hm

theorem scanPi_lands (b : Buf) (p : Nat) : Lands e false b p (scanPi e b p) := by
  fun_cases scanPi e b p <;> land1 (exact scanPiTarget_lands hm _ _ _ _)

theorem scanLtHelper_lands (cr : Bool) (b : Buf) (p : Nat) (h : e.bt b = .SOL) : Lands e cr b p (scanLtHelper e b p) := by
  have hb : 0 < e.mb := Nat.succ_pos _
  fun_cases scanLtHelper e b p with
  | case1 => land0
  | case2 h1 h2 => exact lands_unit (by lead) (by rw [List.length_drop] at h1; omega) (not_cr (by simp [h]) (lands_next rfl))
  | case3 h1 h2 => exact lands_m2 hm (by lead) (by omega) (by simpa using h2) (by decide) (by decide) rfl

theorem scanCdata_lands (cs : List UInt8) (hc : ∀ c ∈ cs, 0x20 ≤ c ∧ c < 0x80) (b : Buf) (p : Nat) (hb : cs.length * e.mb ≤ b.length) :
    Lands e false b p (match cdataMismatch e cs b p with
      | some q => ⟨.INVALID, q⟩
      | none => ⟨.CDATA_SECT_OPEN, p + cs.length * e.mb⟩) := by
  induction cs generalizing b p with
  | nil => exact lands_next (by simp [cdataMismatch])
  | cons c cs ih =>
    have h1 : (c :: cs).length * e.mb = cs.length * e.mb + e.mb := by rw [List.length_cons, Nat.add_mul, Nat.one_mul]
    rw [cdataMismatch]
    by_cases h : e.charMatches b c = true
    · simp only [h, Bool.not_true, Bool.false_eq_true, if_false]
      have := hc c (by simp)
      refine lands_mark hm c this.1 this.2 (by omega) h ?_
      have := ih (fun d hd => hc d (by simp [hd])) (b.drop e.mb) (p + e.mb) (by rw [List.length_drop]; omega)
      rwa [h1, show p + (cs.length * e.mb + e.mb) = p + e.mb + cs.length * e.mb by omega]
    · simp only [h, Bool.not_false, if_true]
      exact lands_false

theorem scanCdataSection_lands (b : Buf) (p : Nat) : Lands e false b p (scanCdataSection e b p) := by
  unfold scanCdataSection
  split
  · land0
  · exact scanCdata_lands hm CDATA_LSQB (by decide) b p (by simp only [CDATA_LSQB, List.length_cons, List.length_nil]; omega)

theorem scanAtts_lands (st : AttSt) (cr : Bool) (b : Buf) (p : Nat) (hs : st = .colon ∨ st = .sol → cr = false)
    (hv : ∀ op, st = .value op → op = .QUOT ∨ op = .APOS) : Lands e cr b p (scanAtts e st b p) := by
  fun_induction scanAtts e st b p generalizing cr <;> try land1 (apply_assumption <;> simp <;> done)
  case case13 => rw [hs (by simp)]; land0
  case case27 => land1 (apply_assumption <;> first | assumption | (simp; done))
  case case28 => land1 (exact scanRef_lands hm _ _)
  case case29 b p hb op ho hi ha he hp ih =>
    have h := scanRef_lands hm (b.drop e.mb) (p + e.mb)
    generalize hr : scanRef e (b.drop e.mb) (p + e.mb) = r at *
    rcases h with h | ⟨n, h, g⟩
    · omega
    · have h3 := ih true (by simp) hv
      rw [show r.next - p = e.mb + n by omega] at h3 ⊢
      generalize scanAtts e _ _ _ = z at *
      rcases h3 with h3 | ⟨m, h3, g3⟩
      · exact .inl h3
      · refine lands_unit (by lead) (by omega) (not_cr (by simp [ha]) (.inr ⟨n + m, by omega, g.trans ?_⟩))
        rwa [List.drop_drop]
  case case32 => land1 (apply_assumption <;> first | assumption | (simp; done))
  case case47 => rw [hs (by simp)]; land0
  case case48 b p hb h => exact lands_mark hm 0x3E (by decide) (by decide) (by omega) (by simpa using h) (lands_next rfl)

theorem scanStartTag_lands (st : LtSt) (cr : Bool) (b : Buf) (p : Nat) (hs : st = .colon → cr = false) :
    Lands e cr b p (scanStartTag e st b p) := by
  fun_induction scanStartTag e st b p generalizing cr <;> try first
    | land1 (apply_assumption <;> simp <;> done)
    | land1 (exact scanAtts_lands hm _ _ _ _ (by simp) (by simp))
    | exact scanLtHelper_lands hm _ _ _ (by assumption)
  case case14 => rw [hs rfl]; land0

theorem scanLt_lands (b : Buf) (p : Nat) : Lands e false b p (scanLt e b p) := by
  fun_cases scanLt e b p <;> try first
    | land1 (first | exact scanStartTag_lands hm _ _ _ _ (by simp) | exact scanPi_lands hm _ _ | exact scanEndTag_lands _ _)
    | exact lands_unit2 (by lead) (by omega) (by lead) (not_cr (by grind) (scanComment_lands hm _ _))
    | exact lands_unit2 (by lead) (by omega) (by lead) (not_cr (by grind) (scanCdataSection_lands hm _ _))

omit hm in
theorem scanLit_lands (op : ByteType) (cr : Bool) (b : Buf) (p : Nat) : Lands e cr b p (scanLit e op b p) := by
  fun_induction scanLit e op b p generalizing cr <;> land1 (apply_assumption)

theorem contentStep_ret_lands {b : Buf} {p : Nat} {r : Res} (hb : ¬ b.length < e.mb) (h : contentStep e b p = .ret r) : Lands e false b p r := by
  simp only [contentStep] at h
  split at h <;> (repeat' split at h) <;> first
    | (cases h; done)
    | (cases h; land0; done)
    | (cases h; exact lands_m2 hm (by lead) (by rw [List.length_drop]; omega) (c := 0x5D) (by simp_all; done) (by decide) (by decide) rfl)

omit hm in
theorem contentStep_adv_lands {b : Buf} {p k : Nat} {r : Res} (hb : ¬ b.length < e.mb) (h : contentStep e b p = .adv k)
    (g : Lands e false (b.drop (k + 1)) (p + (k + 1)) r) : Lands e false b p r := by
  have hc : e.bt b ≠ .CR := by intro hc; simp [contentStep, hc] at h
  refine lands_char (k + 1) (contentStep_len h).symm (by omega) ?_ (by simpa [hc] using g)
  simp only [contentStep] at h
  generalize e.bt b = t at *
  cases t <;> simp only at h <;> grind [Enc.mb]

omit hm in
theorem cdataStep_ret_lands {b : Buf} {p : Nat} {r : Res} (h : cdataStep e b p = .ret r) : Lands e false b p r := by
  simp only [cdataStep] at h
  split at h <;> (repeat' split at h) <;> first | (cases h; done) | (cases h; land0)

omit hm in
theorem cdataStep_adv_lands {b : Buf} {p k : Nat} {r : Res} (hb : ¬ b.length < e.mb) (h : cdataStep e b p = .adv k)
    (g : Lands e false (b.drop (k + 1)) (p + (k + 1)) r) : Lands e false b p r := by
  have hc : e.bt b ≠ .CR := by intro hc; simp [cdataStep, hc] at h
  refine lands_char (k + 1) (cdataStep_len h).symm (by omega) ?_ (by simpa [hc] using g)
  simp only [cdataStep] at h
  generalize e.bt b = t at *
  cases t <;> simp only at h <;> grind [Enc.mb]

theorem contentLoop_lands (b : Buf) (p : Nat) : Lands e false b p (contentLoop e b p) := by
  fun_induction contentLoop e b p with
  | case2 b p hb r h => exact contentStep_ret_lands hm hb h
  | case3 b p hb k h ih => exact contentStep_adv_lands hb h ih
  | _ => land0

omit hm in
theorem cdataLoop_lands (b : Buf) (p : Nat) : Lands e false b p (cdataLoop e b p) := by
  fun_induction cdataLoop e b p with
  | case2 b p hb r h => exact cdataStep_ret_lands h
  | case3 b p hb k h ih => exact cdataStep_adv_lands hb h ih
  | _ => land0

omit hm in
theorem newline_lands {b : Buf} (hb : ¬ b.length < e.mb) (h : e.bt b = .CR) (h1 : ¬ (b.drop e.mb).length < e.mb) :
    Lands e false b 0 (if e.bt (b.drop e.mb) = .LF then ⟨.DATA_NEWLINE, 2 * e.mb⟩ else ⟨.DATA_NEWLINE, e.mb⟩) := by
  split
  · rename_i h2
    exact lands_unit2 (by lead) (by omega) (by lead) (not_cr (by simp [h2]) (lands_next (by simp)))
  · rename_i h2
    refine lands_unit (by lead) (by omega) ?_
    rw [Nat.zero_add]
    exact lands_here fun _ => ⟨by omega, h2⟩

theorem contentTokBody_lands (b : Buf) (hb : ¬ b.length < e.mb) : Lands e false b 0 (contentTokBody e b) := by
  fun_cases contentTokBody e b
  case case6 => have := newline_lands hb (by assumption) (by assumption); simpa [*] using this
  case case7 => have := newline_lands hb (by assumption) (by assumption); simpa [*] using this
  case case12 => exact lands_m2 hm (by lead) (by omega) (c := 0x5D) (by assumption) (by decide) (by decide) (by simp)
  all_goals first
    | land1 (simp only [Nat.zero_add]; first | exact contentLoop_lands hm _ _ | exact scanLt_lands hm _ _ | exact scanRef_lands hm _ _)
    | exact lands_unit (by lead) (by omega) (not_cr (by grind) (lands_next (by simp)))

theorem cdataTokBody_lands (b : Buf) (hb : ¬ b.length < e.mb) : Lands e false b 0 (cdataTokBody e b) := by
  fun_cases cdataTokBody e b
  case case6 => exact lands_m3 hm (by lead) (by omega) (c := 0x5D) (by assumption) (by decide) (by decide) (d := 0x3E) (by omega) (by simp_all) (by decide) (by decide) (by simp)
  case case9 => have := newline_lands hb (by assumption) (by assumption); simpa [*] using this
  case case10 => have := newline_lands hb (by assumption) (by assumption); simpa [*] using this
  all_goals first
    | land1 (simp only [Nat.zero_add]; exact cdataLoop_lands _ _)
    | exact lands_unit (by lead) (by omega) (not_cr (by grind) (lands_next (by simp)))

omit hm in
theorem prologSpace_lands (cr : Bool) (b : Buf) (p : Nat) (hd : e.mb ∣ b.length) (hc : cr = true → e.mb ≤ b.length) :
    Lands e cr b p (prologSpace e b p) := by
  have hpos : 0 < e.mb := Nat.succ_pos _
  have hd' : ∀ {b : Buf}, e.mb ∣ b.length → e.mb ∣ (b.drop e.mb).length := by
    intro b h; rw [List.length_drop]; exact (Nat.dvd_sub h (Nat.dvd_refl _))
  fun_induction prologSpace e b p generalizing cr with
  | case1 b p hb =>
    have : cr = false := by cases cr <;> simp_all; omega
    subst this; land0
  | case2 b p hb h hl => land0
  | case3 b p hb h hl ih =>
    refine lands_unit (by lead) (by omega) (ih _ (hd' hd) fun _ => ?_)
    have h1 := hd' hd
    rcases Nat.eq_zero_or_pos (b.drop e.mb).length with h2 | h2
    · rw [List.length_drop] at h2; omega
    · exact Nat.le_of_dvd h2 h1
  | case4 b p hb h ih => exact lands_unit (by lead) (by omega) (ih _ (hd' hd) (by simp [h]))
  | case5 b p hb h ih => exact lands_unit (by lead) (by omega) (ih _ (hd' hd) (by simp [h]))
  | case6 => land0

omit hm in
theorem prologName_lands (t : Tok) (c : Bool) (b : Buf) (p : Nat) : Lands e false b p (prologName e t c b p) := by
  fun_induction prologName e t c b p <;> land1 (assumption)

omit hm in
theorem prologLead_lands (k : Nat) (b : Buf) (hb : e.mb ≤ b.length) (hk : e.charLen b = k + 1) (hc : e.bt b ≠ .CR) :
    Lands e false b 0 (prologLead e k b) := by
  fun_cases prologLead e k b <;> first
    | land0
    | exact lands_char (k + 1) hk hb (by omega) (not_cr hc (by rw [Nat.zero_add]; exact prologName_lands _ _ _ _))

theorem prologTokBody_lands (b : Buf) (hb : ¬ b.length < e.mb) (hd : e.mb ∣ b.length) :
    Lands e false b 0 (prologTokBody e b) ∨ (prologTokBody e b).tok = .PROLOG_S_NEG := by
  have hd' : e.mb ∣ (b.drop e.mb).length := by rw [List.length_drop]; exact (Nat.dvd_sub hd (Nat.dvd_refl _))
  have hle : b.length ≠ e.mb → e.mb ≤ (b.drop e.mb).length := by
    intro h
    rcases Nat.eq_zero_or_pos (b.drop e.mb).length with h2 | h2
    · rw [List.length_drop] at h2; omega
    · exact Nat.le_of_dvd h2 hd'
  fun_cases prologTokBody e b
  all_goals first
    | (right; rfl)
    | (left; exact prologLead_lands _ _ (by omega) (by simp [Enc.charLen, *]) (by simp [*]))
    | (left; land1 (simp only [Nat.zero_add]; first
        | exact scanLit_lands _ _ _ _ | exact scanPercent_lands _ _ | exact scanPoundName_lands _ _ | exact prologName_lands _ _ _ _
        | exact prologSpace_lands _ _ _ hd' (fun _ => hle (by assumption)) | exact prologSpace_lands _ _ _ hd' (by simp [*])); done)
    | (left; refine lands_unit (by lead) (by omega) (not_cr (by grind) (lands_next ?_)); simp; done)
    | (left; exact lands_unit2 (by lead) (by omega) (by lead) (not_cr (by grind) (by simp only [Nat.zero_add]; exact scanDecl_lands hm _ _)))
    | (left; exact lands_unit2 (by lead) (by omega) (by lead) (not_cr (by grind) (by simp only [Nat.zero_add]; exact scanPi_lands hm _ _)))
    | (left; refine lands_unit2 (by lead) (by omega) (by lead) (not_cr (by grind) (lands_next ?_)); simp; done)
    | (left; exact lands_m3 hm (by lead) (by omega) (c := 0x5D) (by assumption) (by decide) (by decide) (d := 0x3E)
        (by simp only [List.length_drop] at *; omega) (by assumption) (by decide) (by decide) (by simp))

omit hm in
theorem Lands.cut {b : Buf} {r : Res} (h : Lands e false b 0 r) : CharCut e false b r.next := by
  rcases h with h | ⟨n, h, g⟩
  · rw [h]; exact .here (by simp)
  · rw [h, Nat.zero_add]; exact g

end

theorem CharCut.app (ok : e.Ok) {cr : Bool} {b : Buf} {n : Nat} (h : CharCut e cr b n) (x : Buf) : CharCut e cr (b ++ x) n := by
  induction h with
  | here h =>
    refine .here fun hc => ?_
    obtain ⟨h1, h2⟩ := h hc
    exact ⟨by rw [List.length_append]; omega, by rwa [ok.bt_app _ _ h1]⟩
  | @char cr b n h1 h2 h ih =>
    have hl := charLen_app ok b x h1
    rw [← hl]
    refine .char (by rw [List.length_append]; omega) (by rw [hl, List.length_append]; omega) ?_
    rw [ok.bt_app _ _ h1, hl, List.drop_append_of_le_length h2]
    exact ih

/-- **Every token ends at the boundary of two characters which is not between `\r` and `\n`**, but for a `\r` that ends the
text outside of content. -/
theorem Mode.tok_cut (hm : e.Marks) (ok : e.Ok) (m : Mode) (b : Buf) (h : m = .epilog → (m.tok e b).tok ≠ .PROLOG_S_NEG) :
    CharCut e false b (m.tok e b).next := by
  have hpos : 0 < e.mb := Nat.succ_pos _
  have htr : b = truncBuf e b ++ b.drop (b.length - b.length % e.mb) := (List.take_append_drop ..).symm
  have hdv : e.mb ∣ (truncBuf e b).length := by
    rw [truncBuf, List.length_take, Nat.min_eq_left (Nat.sub_le _ _)]
    exact Nat.dvd_sub_mod _
  have hlen : (truncBuf e b).isEmpty = false → ¬ (truncBuf e b).length < e.mb := by
    intro h
    have : 0 < (truncBuf e b).length := by
      revert h; cases truncBuf e b <;> simp
    have := Nat.le_of_dvd this hdv
    omega
  have zero (t) : CharCut e false b (⟨t, 0⟩ : Res).next := .here (by simp)
  have lift : ∀ {n}, CharCut e false (truncBuf e b) n → CharCut e false b n := by
    intro n h
    have := h.app ok (b.drop (b.length - b.length % e.mb))
    rwa [← htr] at this
  cases m <;> simp only [Mode.tok, contentTok, cdataSectionTok, prologTok] at h ⊢ <;> split <;> try exact zero _
  all_goals split <;> try exact zero _
  · rename_i h1 h2; exact lift (contentTokBody_lands hm _ (hlen (by simpa using h2))).cut
  · rename_i h1 h2; exact lift (cdataTokBody_lands hm _ (hlen (by simpa using h2))).cut
  · rename_i h1 h2
    rcases prologTokBody_lands hm _ (hlen (by simpa using h2)) hdv with h3 | h3
    · exact lift h3.cut
    · simp [h1, h2, h3] at h

end
end Verif
