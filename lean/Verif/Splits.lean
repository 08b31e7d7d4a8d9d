import Verif.Content
import Verif.Props.C03

/-! Lemmas: how a run of character data or white space found in a buffer relates to the run found
when the buffer is longer. -/

namespace Verif

def Res.shift (n : Nat) (r : Res) : Res := ⟨r.tok, n + r.next⟩

/-- The length of every character is a whole number of units. -/
def Enc.Even (e : Enc) : Prop := ∀ b, e.mb ∣ e.charLen b

section
variable {e : Enc} (ok : e.Ok)

theorem contentStep_len {b p k} (h : contentStep e b p = .adv k) : k + 1 = e.charLen b := by
  simp only [contentStep] at h
  simp only [Enc.charLen, Enc.mb]
  generalize e.bt b = t at *
  cases t <;> simp only at h ⊢ <;> grind

theorem cdataStep_len {b p k} (h : cdataStep e b p = .adv k) : k + 1 = e.charLen b := by
  simp only [cdataStep] at h
  simp only [Enc.charLen, Enc.mb]
  generalize e.bt b = t at *
  cases t <;> simp only at h ⊢ <;> grind

theorem contentStep_shift (b p q) : contentStep e b (q + p) =
    match contentStep e b p with
    | .ret r => .ret (r.shift q)
    | .adv k => .adv k
    | .other => .other := by
  simp only [contentStep]
  generalize e.bt b = t at *
  cases t <;> simp only <;> grind [Res.shift]

theorem contentLoop_shift (b p q) : contentLoop e b (q + p) = (contentLoop e b p).shift q := by
  fun_induction contentLoop e b p with
  | case1 b p h => rw [contentLoop, if_pos h]; rfl
  | case2 b p h r h2 =>
    rw [contentLoop, if_neg h, contentStep_shift b p q, h2]
  | case3 b p h k h2 ih =>
    rw [contentLoop, if_neg h, contentStep_shift b p q, h2]
    simp only
    rw [← ih, Nat.add_assoc]
  | case4 b p h h2 =>
    rw [contentLoop, if_neg h, contentStep_shift b p q, h2]
    rfl

theorem cdataStep_shift (b p q) : cdataStep e b (q + p) =
    match cdataStep e b p with
    | .ret r => .ret (r.shift q)
    | .adv k => .adv k
    | .other => .other := by
  simp only [cdataStep]
  generalize e.bt b = t at *
  cases t <;> simp only <;> grind [Res.shift]

theorem cdataLoop_shift (b p q) : cdataLoop e b (q + p) = (cdataLoop e b p).shift q := by
  fun_induction cdataLoop e b p with
  | case1 b p h => rw [cdataLoop, if_pos h]; rfl
  | case2 b p h r h2 =>
    rw [cdataLoop, if_neg h, cdataStep_shift b p q, h2]
  | case3 b p h k h2 ih =>
    rw [cdataLoop, if_neg h, cdataStep_shift b p q, h2]
    simp only
    rw [← ih, Nat.add_assoc]
  | case4 b p h h2 =>
    rw [cdataLoop, if_neg h, cdataStep_shift b p q, h2]
    rfl

theorem prologSpace_shift (b p q) : prologSpace e b (q + p) = (prologSpace e b p).shift q := by
  fun_induction prologSpace e b p <;> (conv => lhs; rw [prologSpace.eq_def]) <;>
    grind [Res.shift]

include ok in
theorem cdataStep_app {b p k} (x) (hb : e.mb ≤ b.length) (h : cdataStep e b p = .adv k) :
    cdataStep e (b ++ x) p = .adv k := by
  have h3 := ok.bt_app b x hb
  have h4 := ok.invalid_app
  simp only [cdataStep] at h ⊢
  rw [h3]
  generalize e.bt b = t at *
  cases t <;> simp only at h ⊢ <;> grind

/-- The loop on a longer buffer goes on where it stopped on the shorter one; where it stopped is a
whole number of units away. -/
def Cut (e : Enc) (b : Buf) (p n : Nat) (P : Buf → Nat → Res) (x : Buf) : Prop :=
  p ≤ n ∧ n - p ≤ b.length ∧ (e.Even → e.mb ∣ n - p) ∧
    P (b ++ x) p = P ((b ++ x).drop (n - p)) n

include ok in
theorem contentLoop_cut (b p n x) (h : contentLoop e b p = ⟨.DATA_CHARS, n⟩) :
    Cut e b p n (contentLoop e) x := by
  fun_induction contentLoop e b p with
  | case1 b p h1 =>
    injection h with _ h; subst h
    simp [Cut]
  | case2 b p h1 r h2 =>
    rcases contentStep_ret h2 with rfl | ⟨rfl, _⟩
    · injection h with _ h; subst h; simp [Cut]
    · cases h
  | case3 b p h1 k h2 ih =>
    obtain ⟨i1, i2, i3, i4⟩ := ih h
    have hk := contentStep_adv (Nat.le_of_not_lt h1) h2
    have hl := contentStep_len h2
    rw [List.length_drop] at i2
    refine ⟨by omega, by omega, ?_, ?_⟩
    · intro he
      have := Nat.dvd_add (i3 he) (hl ▸ he b)
      rwa [show n - (p + (k + 1)) + (k + 1) = n - p by omega] at this
    · rw [contentLoop, if_neg (by rw [List.length_append]; omega),
        contentStep_app ok b p x (by omega) (by rw [h2]; intro r hr; cases hr), h2]
      simp only
      rw [drop_app _ _ _ (by omega), i4, ← drop_app _ _ _ (by omega), List.drop_drop,
        show k + 1 + (n - (p + (k + 1))) = n - p by omega]
  | case4 b p h1 h2 =>
    injection h with _ h; subst h; simp [Cut]

include ok in
theorem cdataLoop_cut (b p n x) (h : cdataLoop e b p = ⟨.DATA_CHARS, n⟩) :
    Cut e b p n (cdataLoop e) x := by
  fun_induction cdataLoop e b p with
  | case1 b p h1 =>
    injection h with _ h; subst h
    simp [Cut]
  | case2 b p h1 r h2 =>
    have := cdataStep_ret h2
    subst this
    injection h with _ h; subst h; simp [Cut]
  | case3 b p h1 k h2 ih =>
    obtain ⟨i1, i2, i3, i4⟩ := ih h
    have hk := cdataStep_adv (Nat.le_of_not_lt h1) h2
    have hl := cdataStep_len h2
    rw [List.length_drop] at i2
    refine ⟨by omega, by omega, ?_, ?_⟩
    · intro he
      have := Nat.dvd_add (i3 he) (hl ▸ he b)
      rwa [show n - (p + (k + 1)) + (k + 1) = n - p by omega] at this
    · rw [cdataLoop, if_neg (by rw [List.length_append]; omega),
        cdataStep_app ok x (by omega) h2]
      simp only
      rw [drop_app _ _ _ (by omega), i4, ← drop_app _ _ _ (by omega), List.drop_drop,
        show k + 1 + (n - (p + (k + 1))) = n - p by omega]
  | case4 b p h1 h2 =>
    injection h with _ h; subst h; simp [Cut]

include ok in
theorem prologSpace_cut (b p n x) (h : prologSpace e b p = ⟨.PROLOG_S, n⟩) :
    Cut e b p n (prologSpace e) x := by
  have hcl : ∀ b : Buf, ∀ n p, p + e.mb ≤ n → (e.mb ∣ n - (p + e.mb)) → e.mb ∣ n - p := by
    intro b n p h1 h2
    have := Nat.dvd_add h2 (Nat.dvd_refl e.mb)
    rwa [show n - (p + e.mb) + e.mb = n - p by omega] at this
  have step : ∀ b p n, ¬ b.length < e.mb → (e.bt b = .CR ∧ b.length ≠ e.mb ∨ e.bt b = .S ∨ e.bt b = .LF) →
      Cut e (b.drop e.mb) (p + e.mb) n (prologSpace e) x → Cut e b p n (prologSpace e) x := by
    intro b p n h1 h2 hc
    obtain ⟨i1, i2, i3, i4⟩ := hc
    rw [List.length_drop] at i2
    refine ⟨by omega, by omega, fun he => hcl b _ _ i1 (i3 he), ?_⟩
    rw [prologSpace, if_neg (by rw [List.length_append]; omega), ok.bt_app b x (by omega)]
    have h3 : prologSpace e ((b ++ x).drop e.mb) (p + e.mb) = prologSpace e ((b ++ x).drop (n - p)) n := by
      rw [drop_app _ _ _ (by omega), i4, ← drop_app _ _ _ (by omega), List.drop_drop,
        show e.mb + (n - (p + e.mb)) = n - p by omega]
    rcases h2 with ⟨h2, h4⟩ | h2 | h2
    · rw [h2]; simp only
      rw [if_neg (by rw [List.length_append]; omega), h3]
    · rw [h2]; exact h3
    · rw [h2]; exact h3
  fun_induction prologSpace e b p with
  | case1 b p h1 => injection h with _ h; subst h; simp [Cut]
  | case2 b p h1 h2 h3 => injection h with _ h; subst h; simp [Cut]
  | case3 b p h1 h2 h3 ih => exact step b p n h1 (.inl ⟨h2, h3⟩) (ih h)
  | case4 b p h1 h2 ih => exact step b p n h1 (.inr (.inl h2)) (ih h)
  | case5 b p h1 h2 ih => exact step b p n h1 (.inr (.inr h2)) (ih h)
  | case6 b p h1 => injection h with _ h; subst h; simp [Cut]

/-! ### The tokenizers -/

theorem contentTokBody_adv {b p k} (hb : e.mb ≤ b.length) (h : contentStep e b p = .adv k) :
    contentTokBody e b = contentLoop e b 0 := by
  have hm : e.mb = e.m + 1 := rfl
  rw [contentLoop, if_neg (by omega)]
  have h0 : contentStep e b 0 = .adv k := by
    have := contentStep_shift (e := e) b 0 p
    rw [Nat.add_zero, h] at this
    generalize contentStep e b 0 = u at *
    cases u <;> simp_all
  rw [h0]
  simp only [contentStep] at h0
  simp only [contentTokBody, invalidCases]
  generalize e.bt b = t at *
  cases t <;> simp only at h0 ⊢ <;> grind

theorem cdataTokBody_adv {b p k} (hb : e.mb ≤ b.length) (h : cdataStep e b p = .adv k) :
    cdataTokBody e b = cdataLoop e b 0 := by
  have hm : e.mb = e.m + 1 := rfl
  rw [cdataLoop, if_neg (by omega)]
  have h0 : cdataStep e b 0 = .adv k := by
    have := cdataStep_shift (e := e) b 0 p
    rw [Nat.add_zero, h] at this
    generalize cdataStep e b 0 = u at *
    cases u <;> simp_all
  rw [h0]
  simp only [cdataStep] at h0
  simp only [cdataTokBody, invalidCases]
  generalize e.bt b = t at *
  cases t <;> simp only at h0 ⊢ <;> grind

theorem contentTokBody_step {b n} (hb : e.mb ≤ b.length) (h : contentTokBody e b = ⟨.DATA_CHARS, n⟩) :
    ∃ k, contentStep e b 0 = .adv k := by
  have hm : e.mb = e.m + 1 := rfl
  have h1 := scanLt_not_data e (b.drop e.mb) e.mb n
  have h2 := scanRef_not_data e (b.drop e.mb) e.mb n
  simp only [contentStep]
  simp only [contentTokBody, invalidCases, List.length_drop] at h
  generalize e.bt b = t at *
  cases t <;> simp only at h ⊢ <;> first
    | grind
    | (revert h
       repeat' split
       all_goals first
         | exact fun _ => ⟨_, rfl⟩
         | (intro h; cases h; done)
         | (exfalso; omega)
         | simp_all)

include ok in
theorem contentTokBody_cut (b n x) (hb : e.mb ≤ b.length) (h : contentTokBody e b = ⟨.DATA_CHARS, n⟩) :
    n ≤ b.length ∧ (e.Even → e.mb ∣ n) ∧
      contentTokBody e (b ++ x) = contentLoop e ((b ++ x).drop n) n := by
  obtain ⟨k, hk⟩ := contentTokBody_step hb h
  have hx := contentStep_app ok b 0 x hb (by rw [hk]; intro r hr; cases hr)
  rw [contentTokBody_adv hb hk] at h
  obtain ⟨_, i2, i3, i4⟩ := contentLoop_cut ok _ _ _ x h
  exact ⟨by omega, by simpa using i3,
    (contentTokBody_adv (by rw [List.length_append]; omega) (hx.trans hk)).trans i4⟩

include ok in
theorem cdataTokBody_cut (b n x) (hb : e.mb ≤ b.length) (h : cdataTokBody e b = ⟨.DATA_CHARS, n⟩) :
    n ≤ b.length ∧ (e.Even → e.mb ∣ n) ∧
      cdataTokBody e (b ++ x) = cdataLoop e ((b ++ x).drop n) n := by
  have hm : e.mb = e.m + 1 := rfl
  by_cases hr : e.bt b = .RSQB
  · have hbx := ok.bt_app b x hb
    have h1 : cdataTokBody e b = cdataLoop e (b.drop e.mb) e.mb ∧
        cdataTokBody e (b ++ x) = cdataLoop e ((b ++ x).drop e.mb) e.mb := by
      simp only [cdataTokBody, invalidCases, hbx, hr] at h ⊢
      have h4 := ok.matches_app (b.drop e.mb) x 0x5D
      have h5 := ok.matches_app (b.drop (2 * e.mb)) x 0x3E
      have d1 := drop_app b x e.mb hb
      grind [drop_app]
    rw [h1.1] at h
    obtain ⟨i1, i2, i3, i4⟩ := cdataLoop_cut ok _ _ _ x h
    rw [List.length_drop] at i2
    refine ⟨by omega, ?_, ?_⟩
    · intro he
      have := Nat.dvd_add (i3 he) (Nat.dvd_refl e.mb)
      rwa [show n - e.mb + e.mb = n by omega] at this
    · rw [h1.2, drop_app _ _ _ hb, i4, ← drop_app _ _ _ hb, List.drop_drop,
        show e.mb + (n - e.mb) = n by omega]
  · have hk : ∃ k, cdataStep e b 0 = .adv k := by
      simp only [cdataStep]
      simp only [cdataTokBody, invalidCases] at h
      generalize e.bt b = t at *
      cases t <;> simp only at h ⊢ <;> grind
    obtain ⟨k, hk⟩ := hk
    have hx := cdataStep_app ok x hb hk
    rw [cdataTokBody_adv hb hk] at h
    obtain ⟨_, i2, i3, i4⟩ := cdataLoop_cut ok _ _ _ x h
    exact ⟨by omega, by simpa using i3,
      (cdataTokBody_adv (by rw [List.length_append]; omega) hx).trans i4⟩

theorem prologSpace_long {c : Buf} {n} (h : e.bt c = .CR ∧ c.length ≠ e.mb ∨ e.bt c = .S ∨ e.bt c = .LF)
    (hc : e.mb ≤ c.length) : prologSpace e c n = (prologTokBody e c).shift n ∧
      (prologTokBody e c).tok = .PROLOG_S := by
  have h1 : prologTokBody e c = prologSpace e (c.drop e.mb) e.mb := by
    simp only [prologTokBody]
    rcases h with ⟨h, h2⟩ | h | h <;> simp only [h]
    rw [if_neg h2]
  rw [h1, ← prologSpace_shift, prologSpace, if_neg (by omega)]
  refine ⟨?_, prologSpace_tok e _ _⟩
  rcases h with ⟨h, h2⟩ | h | h <;> simp only [h]
  rw [if_neg h2]

/-- The tokens the epilog accepts. -/
def Tok.misc (t : Tok) : Bool :=
  match t with
  | .PROLOG_S | .PROLOG_S_NEG | .PI | .COMMENT | .NONE => true
  | _ => false

theorem fail_misc {t : Tok} (h : t.fail) : t.misc = false := by
  rcases h with rfl | rfl | rfl <;> rfl

theorem prologName_misc (t c b p) (ht : t = .NAME ∨ t = .NMTOKEN ∨ t = .PREFIXED_NAME) :
    (prologName e t c b p).tok.misc = false := by
  fun_induction prologName e t c b p <;>
    grind [fail_misc, nameCases_fail, Tok.misc, prologNameTok, Tok.negate]

theorem prologLead_misc (k b) : (prologLead e k b).tok.misc = false := by
  fun_cases prologLead e k b <;> grind [Tok.misc, prologName_misc]

theorem scanLit_misc (op b p) : (scanLit e op b p).tok.misc = false := by
  fun_induction scanLit e op b p <;> grind [fail_misc, invalidCases_fail, Tok.misc]

theorem scanNameSemi_misc (t b p) (ht : t.misc = false) : (scanNameSemi e t b p).tok.misc = false := by
  fun_induction scanNameSemi e t b p <;> grind [fail_misc, nameCases_fail, Tok.misc]

theorem scanPercent_misc (b p) : (scanPercent e b p).tok.misc = false := by
  fun_cases scanPercent e b p <;> grind [fail_misc, nmstrtCases_fail, Tok.misc, scanNameSemi_misc]

theorem scanPoundNameLoop_misc (b p) : (scanPoundNameLoop e b p).tok.misc = false := by
  fun_induction scanPoundNameLoop e b p <;> grind [fail_misc, nameCases_fail, Tok.misc]

theorem scanPoundName_misc (b p) : (scanPoundName e b p).tok.misc = false := by
  fun_cases scanPoundName e b p <;> grind [fail_misc, nmstrtCases_fail, Tok.misc, scanPoundNameLoop_misc]

def Tok.space (t : Tok) : Bool :=
  match t with
  | .PROLOG_S | .PROLOG_S_NEG | .NONE => true
  | _ => false

theorem scanDeclLoop_space (b p) : (scanDeclLoop e b p).tok.space = false := by
  fun_induction scanDeclLoop e b p <;> grind [Tok.space]

theorem scanDecl_space (b p) : (scanDecl e b p).tok.space = false := by
  fun_cases scanDecl e b p <;>
    grind [Tok.space, scanDeclLoop_space, scanComment_tok, Tok.fail]

theorem scanPi_space (b p) : (scanPi e b p).tok.space = false := by
  grind [Tok.space, scanPi_tok, Tok.fail]

theorem misc_space {t : Tok} (h : t.misc = false) : t.space = false := by
  cases t <;> first | rfl | cases h

/-- Unless the first character is `<` or white space, the token is junk in the epilog. -/
theorem prologTokBody_misc {b} (h1 : e.bt b ≠ .LT) (h2 : e.bt b ≠ .CR) (h3 : e.bt b ≠ .S)
    (h4 : e.bt b ≠ .LF) : (prologTokBody e b).tok.misc = false := by
  have a1 := fun k => prologLead_misc (e := e) k b
  have a2 := fun k => scanLit_misc (e := e) k (b.drop e.mb) e.mb
  have a3 := scanPercent_misc (e := e) (b.drop e.mb) e.mb
  have a4 := scanPoundName_misc (e := e) (b.drop e.mb) e.mb
  have a5 := fun t => prologName_misc (e := e) t false (b.drop e.mb) e.mb
  simp only [prologTokBody]
  generalize e.bt b = t at *
  cases t <;> simp only <;> grind [Tok.misc]

theorem prologTokBody_space {b n t} (ht : t = .PROLOG_S ∨ t = .PROLOG_S_NEG)
    (h : prologTokBody e b = ⟨t, n⟩) :
    (t = .PROLOG_S ∧ (e.bt b = .CR ∧ b.length ≠ e.mb ∨ e.bt b = .S ∨ e.bt b = .LF)) ∨
      (t = .PROLOG_S_NEG ∧ n = e.mb ∧ e.bt b = .CR ∧ b.length = e.mb) := by
  have hs := prologSpace_tok e (b.drop e.mb) e.mb
  by_cases h1 : e.bt b = .LT
  · exfalso
    have a1 := scanDecl_space (e := e) (b.drop (2 * e.mb)) (2 * e.mb)
    have a2 := scanPi_space (e := e) (b.drop (2 * e.mb)) (2 * e.mb)
    have h' : (prologTokBody e b).tok.space = false := by
      simp only [prologTokBody, h1]
      (repeat' split) <;> first | exact a1 | exact a2 | rfl
    rw [h] at h'
    rcases ht with rfl | rfl <;> cases h'
  · by_cases h2 : e.bt b = .CR
    · simp only [prologTokBody, h2] at h
      split at h
      · rename_i h3
        injection h with h4 h5
        exact .inr ⟨h4.symm, h5.symm, h2, h3⟩
      · rw [h] at hs; exact .inl ⟨hs, .inl ⟨h2, by assumption⟩⟩
    · by_cases h3 : e.bt b = .S
      · simp only [prologTokBody, h3] at h
        rw [h] at hs; exact .inl ⟨hs, .inr (.inl h3)⟩
      · by_cases h4 : e.bt b = .LF
        · simp only [prologTokBody, h4] at h
          rw [h] at hs; exact .inl ⟨hs, .inr (.inr h4)⟩
        · exfalso
          have := prologTokBody_misc h1 h2 h3 h4
          rw [h] at this
          rcases ht with rfl | rfl <;> cases this

include ok in
theorem prologTokBody_cut (b n x t) (ht : t = .PROLOG_S ∨ t = .PROLOG_S_NEG) (hb : e.mb ≤ b.length)
    (h : prologTokBody e b = ⟨t, n⟩) :
    n ≤ b.length ∧ (e.Even → e.mb ∣ n) ∧
      (prologTokBody e (b ++ x) = prologSpace e ((b ++ x).drop n) n ∨
        (prologTokBody e (b ++ x) = ⟨.PROLOG_S_NEG, n⟩ ∧ (b ++ x).length = n)) := by
  have hm : e.mb = e.m + 1 := rfl
  have hbt := ok.bt_app b x hb
  rcases prologTokBody_space ht h with ⟨rfl, h1⟩ | ⟨rfl, rfl, h1, h2⟩
  · have h2 := (prologSpace_long (n := 0) h1 hb).1
    rw [h, Res.shift] at h2
    simp only [Nat.zero_add] at h2
    obtain ⟨i1, i2, i3, i4⟩ := prologSpace_cut ok _ _ _ x h2
    refine ⟨by omega, by simpa using i3, .inl ?_⟩
    rw [Nat.sub_zero] at i4
    rw [← i4]
    have h3 := (prologSpace_long (n := 0) (c := b ++ x) (by
      rw [hbt, List.length_append]
      rcases h1 with h1 | h1
      · left; exact ⟨h1.1, by omega⟩
      · right; exact h1) (by rw [List.length_append]; omega)).1
    rw [h3, Res.shift]
    simp
  · refine ⟨by omega, fun _ => Nat.dvd_refl _, ?_⟩
    by_cases hx : x = []
    · subst hx
      right
      rw [List.append_nil]
      exact ⟨h, h2⟩
    · left
      simp only [prologTokBody, hbt, h1]
      rw [if_neg]
      have := List.length_pos_iff.2 hx
      rw [List.length_append]; omega

/-! ### With the truncation to whole units -/

theorem truncBuf_drop {b : Buf} {n} (hn : n ≤ b.length) (hd : e.mb ∣ n) :
    (truncBuf e b).drop n = truncBuf e (b.drop n) := by
  have h1 : b = b.take n ++ b.drop n := (List.take_append_drop _ _).symm
  have h2 : (b.take n).length = n := by simp [hn]
  conv => lhs; rw [h1, truncBuf_dvd e (b.take n) (b.drop n) (by rw [h2]; exact hd)]
  exact drop_char h2

theorem cdataSectionTok_eq {b : Buf} (h : e.mb ≤ b.length) :
    cdataSectionTok e b = cdataTokBody e (truncBuf e b) := by
  have hm : e.mb = e.m + 1 := rfl
  have hl : (truncBuf e b).length ≠ 0 := by
    have h1 := Nat.mod_lt b.length (show 0 < e.mb by omega)
    simp only [truncBuf, List.length_take]; omega
  rw [cdataSectionTok, if_neg, if_neg]
  · simpa using hl
  · intro h2
    have : b = [] := by simpa using h2
    subst this; simp at h; omega

theorem prologTok_eq {b : Buf} (h : e.mb ≤ b.length) :
    prologTok e b = prologTokBody e (truncBuf e b) := by
  have hm : e.mb = e.m + 1 := rfl
  have hl : (truncBuf e b).length ≠ 0 := by
    have h1 := Nat.mod_lt b.length (show 0 < e.mb by omega)
    simp only [truncBuf, List.length_take]; omega
  rw [prologTok, if_neg, if_neg]
  · simpa using hl
  · intro h2
    have : b = [] := by simpa using h2
    subst this; simp at h; omega

theorem truncBuf_short {b : Buf} (h : b.length < e.mb) : truncBuf e b = [] := by
  rw [truncBuf, Nat.mod_eq_of_lt h, Nat.sub_self, List.take_zero]

theorem tok_long {b : Buf} {m : Mode} {r} (h : m.tok e b = r) (h1 : r.tok ≠ .NONE) (h2 : r.tok ≠ .PARTIAL) :
    e.mb ≤ b.length := by
  apply Classical.byContradiction
  intro h3
  have h4 := truncBuf_short (e := e) (b := b) (by omega)
  subst h
  cases m <;> simp only [Mode.tok, contentTok, cdataSectionTok, prologTok, h4] at h1 h2 <;> grind

theorem truncBuf_len {b : Buf} (h : e.mb ≤ b.length) : e.mb ≤ (truncBuf e b).length := by
  have hm : e.mb = e.m + 1 := rfl
  have h1 := Nat.mod_lt b.length (show 0 < e.mb by omega)
  have h2 := Nat.div_add_mod b.length e.mb
  have h3 : 1 ≤ b.length / e.mb := (Nat.le_div_iff_mul_le (by omega)).2 (by omega)
  have h4 := Nat.mul_le_mul_left e.mb h3
  simp only [truncBuf, List.length_take]; omega

/-- Character data in content: on a longer buffer the run is the same, or it goes on with what the
tokenizer finds at its end; or both find "]]>" there. -/
theorem content_cut (ok : e.Ok) (ev : e.Even) {b n} (x) (h : contentTok e b = ⟨.DATA_CHARS, n⟩) :
    n ≤ b.length ∧ (contentTok e (b ++ x) = ⟨.DATA_CHARS, n⟩ ∨
    (∃ m, contentTok e (b ++ x) = ⟨.DATA_CHARS, n + m⟩ ∧
      contentTok e ((b ++ x).drop n) = ⟨.DATA_CHARS, m⟩) ∨
    (∃ m k, contentTok e (b ++ x) = ⟨.INVALID, m⟩ ∧
      contentTok e ((b ++ x).drop n) = ⟨.INVALID, k⟩)) := by
  have hb := tok_long (m := .content) h (by simp) (by simp)
  have hm : e.mb = e.m + 1 := rfl
  rw [contentTok_eq hb] at h
  obtain ⟨y, hy⟩ := truncBuf_app e b x
  obtain ⟨i1, i2, i3⟩ := contentTokBody_cut ok _ _ y (truncBuf_len hb) h
  have hle := C02.truncBuf_le e b
  refine ⟨by omega, ?_⟩
  rw [contentTok_eq (by rw [List.length_append]; omega), hy, i3, ← hy,
    truncBuf_drop (by rw [List.length_append]; omega) (i2 ev)]
  by_cases hl : ((b ++ x).drop n).length < e.mb
  · left
    rw [truncBuf_short hl, contentLoop, if_pos (by simp [hm])]
  · rw [contentTok_eq (by omega)]
    have hl2 := truncBuf_len (e := e) (b := (b ++ x).drop n) (by omega)
    generalize truncBuf e ((b ++ x).drop n) = c at *
    cases hs : contentStep e c n with
    | ret r =>
      rw [contentLoop, if_neg (by omega), hs]
      rcases contentStep_ret hs with rfl | ⟨rfl, h5⟩
      · left; rfl
      · right; right
        refine ⟨_, 2 * e.mb, rfl, ?_⟩
        simp only [contentStep] at hs
        simp only [contentTokBody, invalidCases]
        generalize e.bt c = t at *
        cases t <;> simp only at hs ⊢ <;> grind
    | adv k =>
      have h1 := contentTokBody_adv hl2 hs
      have h2 := contentLoop_shift (e := e) c 0 n
      rw [Nat.add_zero] at h2
      rw [h2, h1]
      rcases contentLoop_tok e c 0 with h3 | h3
      · right; left
        generalize contentLoop e c 0 = u at *
        obtain ⟨_, q⟩ := u
        exact ⟨q, by rw [Res.shift, h3], by cases h3; rfl⟩
      · right; right
        generalize contentLoop e c 0 = u at *
        obtain ⟨_, q⟩ := u
        exact ⟨n + q, q, by rw [Res.shift, h3], by cases h3; rfl⟩
    | other =>
      left
      rw [contentLoop, if_neg (by omega), hs]

theorem cdata_cut (ok : e.Ok) (ev : e.Even) {b n} (x) (h : cdataSectionTok e b = ⟨.DATA_CHARS, n⟩) :
    n ≤ b.length ∧ (cdataSectionTok e (b ++ x) = ⟨.DATA_CHARS, n⟩ ∨
    (∃ m, cdataSectionTok e (b ++ x) = ⟨.DATA_CHARS, n + m⟩ ∧
      cdataSectionTok e ((b ++ x).drop n) = ⟨.DATA_CHARS, m⟩)) := by
  have hb := tok_long (m := .cdata) h (by simp) (by simp)
  have hm : e.mb = e.m + 1 := rfl
  rw [cdataSectionTok_eq hb] at h
  obtain ⟨y, hy⟩ := truncBuf_app e b x
  obtain ⟨i1, i2, i3⟩ := cdataTokBody_cut ok _ _ y (truncBuf_len hb) h
  have hle := C02.truncBuf_le e b
  refine ⟨by omega, ?_⟩
  rw [cdataSectionTok_eq (by rw [List.length_append]; omega), hy, i3, ← hy,
    truncBuf_drop (by rw [List.length_append]; omega) (i2 ev)]
  by_cases hl : ((b ++ x).drop n).length < e.mb
  · left
    rw [truncBuf_short hl, cdataLoop, if_pos (by simp [hm])]
  · rw [cdataSectionTok_eq (by omega)]
    have hl2 := truncBuf_len (e := e) (b := (b ++ x).drop n) (by omega)
    generalize truncBuf e ((b ++ x).drop n) = c at *
    cases hs : cdataStep e c n with
    | ret r =>
      rw [cdataLoop, if_neg (by omega), hs, cdataStep_ret hs]
      left; rfl
    | adv k =>
      have h1 := cdataTokBody_adv hl2 hs
      have h2 := cdataLoop_shift (e := e) c 0 n
      rw [Nat.add_zero] at h2
      rw [h2, h1]
      have h3 := cdataLoop_tok e c 0
      right
      generalize cdataLoop e c 0 = u at *
      obtain ⟨_, q⟩ := u
      exact ⟨q, by rw [Res.shift, h3], by cases h3; rfl⟩
    | other =>
      left
      rw [cdataLoop, if_neg (by omega), hs]

theorem space_cut (ok : e.Ok) (ev : e.Even) {b n t} (x) (ht : t = .PROLOG_S ∨ t = .PROLOG_S_NEG)
    (h : prologTok e b = ⟨t, n⟩) :
    n ≤ b.length ∧ e.mb ∣ n ∧ (prologTok e (b ++ x) = ⟨.PROLOG_S, n⟩ ∨
    (∃ m, prologTok e (b ++ x) = ⟨.PROLOG_S, n + m⟩ ∧
      prologTok e ((b ++ x).drop n) = ⟨.PROLOG_S, m⟩) ∨
    (prologTok e (b ++ x) = ⟨.PROLOG_S_NEG, n⟩ ∧ ((b ++ x).drop n).length < e.mb)) := by
  have hb := tok_long (m := .epilog) h (by rcases ht with rfl | rfl <;> simp)
    (by rcases ht with rfl | rfl <;> simp)
  have hm : e.mb = e.m + 1 := rfl
  rw [prologTok_eq hb] at h
  obtain ⟨y, hy⟩ := truncBuf_app e b x
  obtain ⟨i1, i2, i3⟩ := prologTokBody_cut ok _ _ y _ ht (truncBuf_len hb) h
  have hle := C02.truncBuf_le e b
  refine ⟨by omega, i2 ev, ?_⟩
  have hd := truncBuf_drop (e := e) (b := b ++ x) (n := n) (by rw [List.length_append]; omega) (i2 ev)
  rw [prologTok_eq (by rw [List.length_append]; omega), hy]
  rcases i3 with i3 | ⟨i3, i4⟩
  · rw [i3, ← hy, hd]
    by_cases hl : ((b ++ x).drop n).length < e.mb
    · left
      rw [truncBuf_short hl, prologSpace, if_pos (by simp [hm])]
    · rw [prologTok_eq (by omega)]
      have hl2 := truncBuf_len (e := e) (b := (b ++ x).drop n) (by omega)
      generalize truncBuf e ((b ++ x).drop n) = c at *
      by_cases hs : e.bt c = .CR ∧ c.length ≠ e.mb ∨ e.bt c = .S ∨ e.bt c = .LF
      · obtain ⟨j1, j2⟩ := prologSpace_long (n := n) hs hl2
        rw [j1]
        right; left
        generalize prologTokBody e c = u at *
        obtain ⟨_, q⟩ := u
        exact ⟨q, by rw [Res.shift, j2], by cases j2; rfl⟩
      · left
        rw [prologSpace, if_neg (by omega)]
        generalize e.bt c = t at *
        cases t <;> simp only <;> simp_all
  · right; right
    refine ⟨i3, ?_⟩
    apply Classical.byContradiction
    intro hl
    have hl2 := truncBuf_len (e := e) (b := (b ++ x).drop n) (by omega)
    rw [← hd, hy, List.length_drop] at hl2
    omega

end

end Verif
