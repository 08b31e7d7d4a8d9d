import Verif.Decl

/-! Lemmas about `toAscii`, white space and pseudo-attributes. -/

namespace Verif
open Tables Spec

/-- The built-in encodings with their converters, and the spelling of ASCII characters. -/
inductive XSupported : XEnc → (UInt8 → Buf) → Prop
  | utf8 (ns) : XSupported (utf8X ns) asc1
  | internalUtf8 (ns) : XSupported (internalUtf8X ns) asc1
  | latin1 (ns) : XSupported (latin1X ns) asc1
  | ascii (ns) : XSupported (asciiX ns) asc1
  | utf16le (ns) : XSupported (little2X ns) ascL
  | utf16be (ns) : XSupported (big2X ns) ascB

theorem XSupported.s {x asc} (h : XSupported x asc) : Supported x.e asc := by
  cases h
  · exact .utf8 _
  · exact .internalUtf8 _
  · exact .latin1 _
  · exact .ascii _
  · exact .utf16le _
  · exact .utf16be _

theorem i8 (c : UInt8) (h : c < 0x80) : c.toInt8.toInt = c.toNat := by
  have : ∀ c : UInt8, c < 0x80 → c.toInt8.toInt = c.toNat := by
    intro c; revert c; exact UInt8.forall_dec (by decide +kernel)
  exact this c h

theorem convLoop_head {step : Buf → Nat → CStep} {b : Buf} {cap w k} (hb : b ≠ [])
    (hs : step b cap = .emit w k) : ∃ t, (convLoop step b cap).out = w ++ t := by
  rw [convLoop, dif_neg hb, hs]; exact ⟨_, rfl⟩

theorem convLoop_stop {step : Buf → Nat → CStep} {b : Buf} {cap r} (hb : b ≠ [])
    (hs : step b cap = .stop r) : (convLoop step b cap).out = [] := by
  rw [convLoop, dif_neg hb, hs]

theorem convLoop_nil {step : Buf → Nat → CStep} {cap} : (convLoop step [] cap).out = [] := by
  rw [convLoop, dif_pos rfl]

theorem toAscii_out {x : XEnc} {b : Buf} {c : UInt8} {t} (h : (x.conv b 1).out = c :: t) :
    toAscii x b = c.toInt8.toInt := by
  simp only [toAscii, h]

theorem toAscii_none {x : XEnc} {b : Buf} (h : (x.conv b 1).out = []) : toAscii x b = -1 := by
  simp only [toAscii, h]

/-- The bytes `toAscii` is reliable on: all for every encoding but US-ASCII, whose converter passes
bytes from 0x80 on through (they never get past the tokenizer). -/
def XEnc.Clean (x : XEnc) (b : Buf) : Prop := (∃ ns, x = asciiX ns) → ∀ c ∈ b, c < 0x80

theorem Clean.tail {x : XEnc} {w b : Buf} (h : x.Clean (w ++ b)) : x.Clean b :=
  fun hx c hc => h hx c (by simp [hc])

theorem Clean.drop {x : XEnc} {b : Buf} (h : x.Clean b) (n : Nat) : x.Clean (b.drop n) :=
  fun hx c hc => h hx c (List.mem_of_mem_drop hc)

theorem trim1 (a : UInt8) : trimUtf8 [a] = if a < 0x80 then [a] else [] := by
  revert a; exact UInt8.forall_dec (by decide +kernel)

theorem utf8_take1 (a : UInt8) (r : Buf) : (utf8Convert (a :: r) 1).out =
    if a < 0x80 then [a] else [] := by
  simp only [utf8Convert]
  cases r with
  | nil => simp [trim1]
  | cons b r => simp [trim1]

theorem lt80 {a : UInt8} : a < 0x80 ↔ a.toNat < 128 := by
  rw [UInt8.lt_iff_toNat_lt]; rfl

theorem utf16_ascii (hi lo : Buf → Nat) (b : Buf) (c : UInt8) (hh : hi b = 0)
    (hl : lo b = c.toNat) (hc : c < 0x80) : utf16ConvStep hi lo b 1 = .emit [c] 1 := by
  simp only [utf16ConvStep, hh, hl]
  rw [if_pos (by omega), if_pos ⟨trivial, lt80.1 hc⟩]
  simp

theorem utf16_none (hi lo : Buf → Nat) (b : Buf) (h : ¬ (hi b = 0 ∧ lo b < 128)) :
    ∃ r, utf16ConvStep hi lo b 1 = .stop r := by
  simp only [utf16ConvStep]
  by_cases h1 : hi b ≤ 7
  · rw [if_pos h1, if_neg h, if_pos (by omega)]; exact ⟨_, rfl⟩
  · rw [if_neg h1]
    by_cases h2 : 216 ≤ hi b ∧ hi b ≤ 219
    · rw [if_pos h2, if_pos (by omega)]; exact ⟨_, rfl⟩
    · rw [if_neg h2, if_pos (by omega)]; exact ⟨_, rfl⟩

theorem even_cons2 (a b : UInt8) (r : Buf) :
    (a :: b :: r).take ((a :: b :: r).length / 2 * 2) = a :: b :: r.take (r.length / 2 * 2) := by
  have : (a :: b :: r).length / 2 * 2 = r.length / 2 * 2 + 2 := by simp; omega
  rw [this]; rfl

theorem even_one (a : UInt8) : ([a] : Buf).take (([a] : Buf).length / 2 * 2) = [] := by simp

/-- An ASCII character is read as such, whatever follows. -/
theorem toAscii_asc {x asc} (s : XSupported x asc) {c : UInt8} (hc : c < 0x80) (r : Buf) :
    toAscii x (asc c ++ r) = c.toNat := by
  rw [← i8 c hc]
  cases s with
  | utf8 ns => exact toAscii_out (t := []) (by
      show (utf8Convert (c :: r) 1).out = _; rw [utf8_take1, if_pos hc])
  | internalUtf8 ns => exact toAscii_out (t := []) (by
      show (utf8Convert (c :: r) 1).out = _; rw [utf8_take1, if_pos hc])
  | latin1 ns =>
    have hs : latin1ConvStep (c :: r) 1 = .emit [c] 0 := by
      have h1 : ¬ (c.toNat &&& 0x80 ≠ 0) := by
        rw [C12.and80n c.toNat c.toNat_lt]; have := lt80.1 hc; omega
      have h0 : byteAt (c :: r) 0 = c := rfl
      simp only [latin1ConvStep, h0, if_neg h1]; rfl
    obtain ⟨t, ht⟩ := convLoop_head (by simp) hs
    exact toAscii_out (t := t) ht
  | ascii ns =>
    obtain ⟨t, ht⟩ := convLoop_head (step := asciiConvStep) (b := c :: r) (cap := 1) (by simp) rfl
    exact toAscii_out (t := t) ht
  | utf16le ns =>
    obtain ⟨t, ht⟩ := convLoop_head (b := c :: 0 :: r.take (r.length / 2 * 2)) (cap := 1) (by simp)
      (utf16_ascii (fun b => (byteAt b 1).toNat) (fun b => (byteAt b 0).toNat) _ c rfl rfl hc)
    refine toAscii_out (t := t) ?_
    show (little2Convert (c :: 0 :: r) 1).out = _
    rw [little2Convert, even_cons2]
    exact ht
  | utf16be ns =>
    obtain ⟨t, ht⟩ := convLoop_head (b := 0 :: c :: r.take (r.length / 2 * 2)) (cap := 1) (by simp)
      (utf16_ascii (fun b => (byteAt b 0).toNat) (fun b => (byteAt b 1).toNat) _ c rfl rfl hc)
    refine toAscii_out (t := t) ?_
    show (big2Convert (0 :: c :: r) 1).out = _
    rw [big2Convert, even_cons2]
    exact ht

/-- `toAscii` gives -1 or there is an ASCII character. -/
theorem toAscii_cases {x asc} (s : XSupported x asc) {b : Buf} (hb : x.Clean b) :
    toAscii x b = -1 ∨ ∃ c r, c < 0x80 ∧ b = asc c ++ r := by
  cases s with
  | utf8 ns =>
    cases b with
    | nil => exact .inl rfl
    | cons c r =>
      by_cases hc : c < 0x80
      · exact .inr ⟨c, r, hc, rfl⟩
      · exact .inl (toAscii_none (by
          show (utf8Convert (c :: r) 1).out = _; rw [utf8_take1, if_neg hc]))
  | internalUtf8 ns =>
    cases b with
    | nil => exact .inl rfl
    | cons c r =>
      by_cases hc : c < 0x80
      · exact .inr ⟨c, r, hc, rfl⟩
      · exact .inl (toAscii_none (by
          show (utf8Convert (c :: r) 1).out = _; rw [utf8_take1, if_neg hc]))
  | latin1 ns =>
    cases b with
    | nil => exact .inl (toAscii_none convLoop_nil)
    | cons c r =>
      by_cases hc : c < 0x80
      · exact .inr ⟨c, r, hc, rfl⟩
      · refine .inl (toAscii_none (convLoop_stop (r := .outputExhausted) (by simp) ?_))
        have h1 : (c.toNat &&& 0x80 ≠ 0) := by
          rw [C12.and80n c.toNat c.toNat_lt]; rw [lt80] at hc; omega
        have h0 : byteAt (c :: r) 0 = c := rfl
        simp only [latin1ConvStep, h0, if_pos h1]; rfl
  | ascii ns =>
    cases b with
    | nil => exact .inl (toAscii_none convLoop_nil)
    | cons c r => exact .inr ⟨c, r, hb ⟨ns, rfl⟩ c (by simp), rfl⟩
  | utf16le ns =>
    match b with
    | [] => exact .inl (toAscii_none convLoop_nil)
    | [a] => exact .inl (toAscii_none (by
        show (little2Convert [a] 1).out = _; rw [little2Convert, even_one]; exact convLoop_nil))
    | a :: b :: r =>
      by_cases h : b.toNat = 0 ∧ a.toNat < 128
      · have : b = 0 := UInt8.toNat_inj.1 h.1
        exact .inr ⟨a, r, lt80.2 h.2, by rw [this]; rfl⟩
      · refine .inl (toAscii_none ?_)
        show (little2Convert (a :: b :: r) 1).out = _
        rw [little2Convert, even_cons2]
        obtain ⟨q, hq⟩ := utf16_none (fun b => (byteAt b 1).toNat) (fun b => (byteAt b 0).toNat)
          (a :: b :: r.take (r.length / 2 * 2)) h
        exact convLoop_stop (by simp) hq
  | utf16be ns =>
    match b with
    | [] => exact .inl (toAscii_none convLoop_nil)
    | [a] => exact .inl (toAscii_none (by
        show (big2Convert [a] 1).out = _; rw [big2Convert, even_one]; exact convLoop_nil))
    | a :: b :: r =>
      by_cases h : a.toNat = 0 ∧ b.toNat < 128
      · have : a = 0 := UInt8.toNat_inj.1 h.1
        exact .inr ⟨b, r, lt80.2 h.2, by rw [this]; rfl⟩
      · refine .inl (toAscii_none ?_)
        show (big2Convert (a :: b :: r) 1).out = _
        rw [big2Convert, even_cons2]
        obtain ⟨q, hq⟩ := utf16_none (fun b => (byteAt b 0).toNat) (fun b => (byteAt b 1).toNat)
          (a :: b :: r.take (r.length / 2 * 2)) h
        exact convLoop_stop (by simp) hq

theorem toAscii_nil {x asc} (s : XSupported x asc) : toAscii x [] = -1 := by
  rcases toAscii_cases s (b := []) (fun _ => by simp) with h | ⟨c, r, hc, h⟩
  · exact h
  · have := congrArg List.length h
    simp [s.s.asc.len, Enc.mb] at this
    omega

theorem spell_cons (asc : UInt8 → Buf) (c : UInt8) (cs) : spell asc (c :: cs) = asc c ++ spell asc cs := by
  simp [spell]
theorem spell_nil (asc : UInt8 → Buf) : spell asc [] = [] := rfl
theorem spell_append (asc : UInt8 → Buf) (a b) : spell asc (a ++ b) = spell asc a ++ spell asc b := by
  simp [spell]

variable {x : XEnc} {asc : UInt8 → Buf}

theorem asc_drop (s : XSupported x asc) (c : UInt8) (r : Buf) : (asc c ++ r).drop x.e.mb = r :=
  drop_char (s.s.asc.len c)
theorem asc_take (s : XSupported x asc) (c : UInt8) (r : Buf) : (asc c ++ r).take x.e.mb = asc c := by
  have := s.s.asc.len c
  rw [← this, List.take_left]
theorem asc_mb (s : XSupported x asc) (c : UInt8) (r : Buf) : ¬ (asc c ++ r).length < x.e.mb := by
  have := s.s.asc.len c
  rw [List.length_append]; omega

theorem isSpace_iff (c : UInt8) (hc : c < 0x80) : isSpace (c.toNat : Int) = isWS c := by
  have : ∀ c : UInt8, c < 0x80 → isSpace (c.toNat : Int) = isWS c := by
    intro c; revert c; exact UInt8.forall_dec (by decide +kernel)
  exact this c hc

theorem isWS_lt {c : UInt8} (h : isWS c = true) : c < 0x80 := by
  revert h; revert c
  exact fun {c} => (UInt8.forall_dec (P := fun c => isWS c = true → c < 0x80) (by decide +kernel)) c

theorem space_inv (s : XSupported x asc) {b : Buf} (hb : x.Clean b)
    (h : isSpace (toAscii x b) = true) : ∃ c r, isWS c = true ∧ b = asc c ++ r := by
  rcases toAscii_cases s hb with h1 | ⟨c, r, hc, rfl⟩
  · rw [h1] at h; exact absurd h (by decide)
  · rw [toAscii_asc s hc, isSpace_iff c hc] at h
    exact ⟨c, r, h, rfl⟩

theorem skipSp_space (s : XSupported x asc) {c : UInt8} (hc : isWS c = true) (r : Buf) :
    skipSp x (asc c ++ r) = skipSp x r := by
  conv => lhs; rw [skipSp]
  rw [if_neg (asc_mb s c r), toAscii_asc s (isWS_lt hc), isSpace_iff c (isWS_lt hc), if_pos hc,
    asc_drop s]

theorem skipSp_stop {b : Buf} (h : isSpace (toAscii x b) = false) :
    skipSp x b = b := by
  rw [skipSp]; split
  · rfl
  · simp [h]

theorem skipSp_spell (s : XSupported x asc) {cs : List UInt8} (hc : AllWS cs) {r : Buf}
    (hr : isSpace (toAscii x r) = false) : skipSp x (spell asc cs ++ r) = r := by
  induction cs with
  | nil => exact skipSp_stop hr
  | cons c cs ih =>
    rw [spell_cons, List.append_assoc, skipSp_space s (hc c (by simp))]
    exact ih fun c h => hc c (by simp [h])

theorem skipSp_inv (s : XSupported x asc) (b : Buf) (hb : x.Clean b) :
    ∃ cs, AllWS cs ∧ b = spell asc cs ++ skipSp x b ∧ isSpace (toAscii x (skipSp x b)) = false ∧
      x.Clean (skipSp x b) := by
  fun_induction skipSp x b with
  | case1 b h =>
    refine ⟨[], by simp [AllWS], rfl, ?_, hb⟩
    refine Classical.byContradiction fun hn => ?_
    obtain ⟨c, r, _, rfl⟩ := space_inv s hb (by simpa using hn)
    exact asc_mb s c r h
  | case2 b h hs ih =>
    obtain ⟨c, r, hc, rfl⟩ := space_inv s hb hs
    rw [asc_drop s] at ih ⊢
    obtain ⟨cs, h1, h2, h3, h4⟩ := ih (Clean.tail hb)
    refine ⟨c :: cs, ?_, ?_, h3, h4⟩
    · intro d hd; rcases List.mem_cons.1 hd with rfl | hd
      · exact hc
      · exact h1 d hd
    · rw [spell_cons, List.append_assoc, ← h2]
  | case3 b h hs => exact ⟨[], by simp [AllWS], rfl, by simpa using hs, hb⟩

/-- A pseudo-attribute name as written: ASCII, no white space and no '='. -/
def PName (cs : List UInt8) : Prop := ∀ c ∈ cs, c < 0x80 ∧ isWS c = false ∧ c ≠ 0x3D

theorem eq_iff {c : UInt8} (d : UInt8) : ((c.toNat : Int) = (d.toNat : Int)) ↔ c = d := by
  rw [Int.natCast_inj, UInt8.toNat_inj]

theorem eq3d {c : UInt8} : ((c.toNat : Int) = 0x3D) ↔ c = 0x3D := eq_iff 0x3D

theorem pseudoName_complete (s : XSupported x asc) {cs : List UInt8} (hc : PName cs)
    {ws : List UInt8} (hw : AllWS ws) (r : Buf) :
    pseudoName x (spell asc cs ++ spell asc ws ++ asc 0x3D ++ r) =
      some (spell asc cs, asc 0x3D ++ r) := by
  have h3d : toAscii x (asc 0x3D ++ r) = 0x3D := toAscii_asc s (by decide) r
  have hsp : isSpace (toAscii x (asc 0x3D ++ r)) = false := by rw [h3d]; decide
  induction cs with
  | nil =>
    cases ws with
    | nil =>
      rw [pseudoName]; simp only [spell_nil, List.nil_append, h3d]; rfl
    | cons w ws =>
      have hww := hw w (by simp)
      have hl := isWS_lt hww
      have h1 : toAscii x (asc w ++ (spell asc ws ++ (asc 0x3D ++ r))) = w.toNat := toAscii_asc s hl _
      have hw' : AllWS ws := fun c h => hw c (by simp [h])
      have hne : w ≠ 0x3D := by rintro rfl; exact absurd hww (by decide)
      rw [pseudoName]
      simp only [spell_nil, spell_cons, List.nil_append, List.append_assoc]
      rw [h1, if_neg (by omega), if_neg (by rw [eq3d]; exact hne), isSpace_iff w hl, if_pos hww,
        asc_drop s, skipSp_spell s hw' hsp, h3d]
      simp
  | cons c cs ih =>
    obtain ⟨h1, h2, h3⟩ := hc c (by simp)
    have ht : toAscii x (asc c ++ (spell asc cs ++ (spell asc ws ++ (asc 0x3D ++ r)))) = c.toNat :=
      toAscii_asc s h1 _
    have ih := ih fun c h => hc c (by simp [h])
    rw [pseudoName]
    simp only [spell_cons, List.append_assoc] at ih ⊢
    rw [ht, if_neg (by omega), if_neg (by rw [eq3d]; exact h3), isSpace_iff c h1, h2]
    rw [if_neg (by decide), if_neg (asc_mb s _ _), asc_drop s, ih, asc_take s]
    rfl

theorem pseudoName_sound (s : XSupported x asc) (b : Buf) (hb : x.Clean b) {n r}
    (h : pseudoName x b = some (n, r)) : ∃ cs ws r', PName cs ∧ AllWS ws ∧ n = spell asc cs ∧
      r = asc 0x3D ++ r' ∧ b = spell asc cs ++ spell asc ws ++ asc 0x3D ++ r' := by
  have at3d : ∀ b, x.Clean b → toAscii x b = 0x3D → ∃ r', b = asc 0x3D ++ r' := by
    intro b hb h
    rcases toAscii_cases s hb with h1 | ⟨c, r, hc, rfl⟩
    · rw [h1] at h; exact absurd h (by decide)
    · rw [toAscii_asc s hc, eq3d] at h; subst h; exact ⟨r, rfl⟩
  fun_induction pseudoName x b generalizing n r with
  | case1 b h1 => simp at h
  | case2 b h1 h2 =>
    obtain ⟨r', rfl⟩ := at3d b hb h2
    simp only [Option.some.injEq, Prod.mk.injEq] at h
    obtain ⟨rfl, rfl⟩ := h
    exact ⟨[], [], r', by simp [PName], by simp [AllWS], rfl, rfl, rfl⟩
  | case3 => simp at h
  | case4 b h1 h2 h3 h4 =>
    obtain ⟨c, r1, hc, rfl⟩ := space_inv s hb h3
    rw [asc_drop s] at h4 h
    obtain ⟨cs, g1, g2, g3, g4⟩ := skipSp_inv s r1 (Clean.tail hb)
    obtain ⟨r', hr'⟩ := at3d _ g4 (by simpa using h4)
    simp only [Option.some.injEq, Prod.mk.injEq] at h
    obtain ⟨rfl, rfl⟩ := h
    refine ⟨[], c :: cs, r', by simp [PName], ?_, rfl, hr', ?_⟩
    · intro d hd; rcases List.mem_cons.1 hd with rfl | hd
      · exact hc
      · exact g1 d hd
    · simp only [spell_nil, spell_cons, List.nil_append, List.append_assoc]
      rw [← hr', ← g2]
  | case5 => simp at h
  | case6 b h1 h2 h3 h4 ih =>
    rcases toAscii_cases s hb with h5 | ⟨c, r1, hc, rfl⟩
    · exact absurd h5 h1
    rw [toAscii_asc s hc] at h1 h2 h3
    rw [asc_drop s] at ih h
    rw [asc_take s] at h
    cases hp : pseudoName x r1 with
    | none => rw [hp] at h; simp at h
    | some nr =>
      rw [hp] at h
      obtain ⟨cs, ws, r', g1, g2, g3, g4, g5⟩ := ih (Clean.tail hb) hp
      simp only [Option.map_some, Option.some.injEq, Prod.mk.injEq] at h
      obtain ⟨rfl, rfl⟩ := h
      refine ⟨c :: cs, ws, r', ?_, g2, by rw [spell_cons, g3], g4, ?_⟩
      · intro d hd; rcases List.mem_cons.1 hd with rfl | hd
        · exact ⟨hc, by rw [← isSpace_iff d hc]; simpa using h3, by rw [eq3d] at h2; exact h2⟩
        · exact g1 d hd
      · rw [g5]; simp only [spell_cons, List.append_assoc]

/-- The characters of pseudo-attribute values: letters, digits, '.', '-', '_'. -/
def isVal (c : UInt8) : Bool :=
  decide (0x61 ≤ c ∧ c ≤ 0x7A) || decide (0x41 ≤ c ∧ c ≤ 0x5A) || decide (0x30 ≤ c ∧ c ≤ 0x39)
    || c == 0x2E || c == 0x2D || c == 0x5F

theorem isVal_lt {c : UInt8} (h : isVal c = true) : c < 0x80 := by
  revert h; revert c
  exact fun {c} => (UInt8.forall_dec (P := fun c => isVal c = true → c < 0x80) (by decide +kernel)) c

theorem valueChar_iff (c : UInt8) (hc : c < 0x80) : valueChar (c.toNat : Int) = isVal c := by
  have : ∀ c : UInt8, c < 0x80 → valueChar (c.toNat : Int) = isVal c := by
    intro c; revert c; exact UInt8.forall_dec (by decide +kernel)
  exact this c hc

theorem pseudoValue_complete (s : XSupported x asc) {q : UInt8} (hq : q = 0x22 ∨ q = 0x27)
    {cs : List UInt8} (hc : ∀ c ∈ cs, isVal c = true) (r : Buf) :
    pseudoValue x (q.toNat : Int) (spell asc cs ++ asc q ++ r) = some (spell asc cs, r) := by
  have hq8 : q < 0x80 := by rcases hq with rfl | rfl <;> decide
  induction cs with
  | nil =>
    rw [pseudoValue]
    simp only [spell_nil, List.nil_append, toAscii_asc s hq8, if_true, asc_drop s]
  | cons c cs ih =>
    have h1 := hc c (by simp)
    have h8 := isVal_lt h1
    have hne : c ≠ q := by rintro rfl; rcases hq with rfl | rfl <;> exact absurd h1 (by decide)
    have ih := ih fun c h => hc c (by simp [h])
    have ht : toAscii x (asc c ++ (spell asc cs ++ (asc q ++ r))) = c.toNat := toAscii_asc s h8 _
    rw [pseudoValue]
    simp only [spell_cons, List.append_assoc] at ih ⊢
    rw [ht, if_neg (by rw [eq_iff]; exact hne), valueChar_iff c h8, h1]
    rw [if_neg (by decide), if_neg (asc_mb s _ _), asc_drop s, ih, asc_take s]
    rfl

theorem pseudoValue_sound (s : XSupported x asc) {q : UInt8} (hq : q = 0x22 ∨ q = 0x27)
    (b : Buf) (hb : x.Clean b) {v r} (h : pseudoValue x (q.toNat : Int) b = some (v, r)) :
    ∃ cs, (∀ c ∈ cs, isVal c = true) ∧ v = spell asc cs ∧ b = spell asc cs ++ asc q ++ r := by
  fun_induction pseudoValue x (q.toNat : Int) b generalizing v r with
  | case1 b h1 =>
    rcases toAscii_cases s hb with h5 | ⟨c, r1, hc, rfl⟩
    · rw [h5] at h1; exact absurd h1 (by omega)
    rw [toAscii_asc s hc, eq_iff] at h1
    subst h1
    simp only [asc_drop s, Option.some.injEq, Prod.mk.injEq] at h
    obtain ⟨rfl, rfl⟩ := h
    exact ⟨[], by simp, rfl, rfl⟩
  | case2 => simp at h
  | case3 => simp at h
  | case4 b h1 h2 h3 ih =>
    rcases toAscii_cases s hb with h5 | ⟨c, r1, hc, rfl⟩
    · rw [h5] at h2; exact absurd h2 (by decide)
    rw [toAscii_asc s hc] at h1 h2
    rw [asc_drop s] at ih h
    rw [asc_take s] at h
    cases hp : pseudoValue x (q.toNat : Int) r1 with
    | none => rw [hp] at h; simp at h
    | some nr =>
      rw [hp] at h
      obtain ⟨cs, g1, g2, g3⟩ := ih (Clean.tail hb) hp
      simp only [Option.map_some, Option.some.injEq, Prod.mk.injEq] at h
      obtain ⟨rfl, rfl⟩ := h
      refine ⟨c :: cs, ?_, by rw [spell_cons, g2], ?_⟩
      · intro d hd; rcases List.mem_cons.1 hd with rfl | hd
        · rw [← valueChar_iff d hc]; simpa using h2
        · exact g1 d hd
      · conv => lhs; rw [g3]
        simp only [spell_cons, List.append_assoc]

/-- A pseudo-attribute as written. -/
structure PAttr where
  ws : List UInt8
  name : List UInt8
  s1 : List UInt8
  s2 : List UInt8
  q : UInt8
  value : List UInt8

structure PAttr.Valid (a : PAttr) : Prop where
  ws : AllWS a.ws
  ws_ne : a.ws ≠ []
  name : PName a.name
  name_ne : a.name ≠ []
  s1 : AllWS a.s1
  s2 : AllWS a.s2
  q : a.q = 0x22 ∨ a.q = 0x27
  value : ∀ c ∈ a.value, isVal c = true

/-- The characters of a pseudo-attribute: S Name S? '=' S? quote value quote. -/
def PAttr.text (a : PAttr) : List UInt8 :=
  a.ws ++ a.name ++ a.s1 ++ [0x3D] ++ a.s2 ++ [a.q] ++ a.value ++ [a.q]

theorem PAttr.q_lt {a : PAttr} (h : a.Valid) : a.q < 0x80 := by
  rcases h.q with h | h <;> rw [h] <;> decide

theorem spell_isEmpty (s : XSupported x asc) (cs : List UInt8) (r : Buf) (h : cs ≠ []) :
    (spell asc cs ++ r).isEmpty = false := by
  cases cs with
  | nil => exact absurd rfl h
  | cons c cs =>
    rw [spell_cons, List.append_assoc]
    have := asc_mb s c (spell asc cs ++ r)
    cases hh : asc c ++ (spell asc cs ++ r) with
    | nil => rw [hh] at this; simp [Enc.mb] at this
    | cons _ _ => rfl

theorem spell_eq_nil (s : XSupported x asc) {cs : List UInt8} (h : spell asc cs = []) : cs = [] := by
  refine Classical.byContradiction fun hn => ?_
  have := spell_isEmpty s cs [] hn
  rw [h] at this; simp at this

theorem parsePseudo_complete (s : XSupported x asc) {a : PAttr} (ha : a.Valid) (r : Buf) :
    parsePseudo x (spell asc a.text ++ r) = .attr (spell asc a.name) (spell asc a.value)
      (spell asc a.value ++ asc a.q ++ r) r := by
  obtain ⟨w, ws, hw⟩ := List.exists_cons_of_ne_nil ha.ws_ne
  obtain ⟨n, ns, hn⟩ := List.exists_cons_of_ne_nil ha.name_ne
  have hww : isWS w = true := ha.ws w (by rw [hw]; simp)
  have hws : AllWS ws := fun c h => ha.ws c (by rw [hw]; simp [h])
  have hnn := ha.name n (by rw [hn]; simp)
  have hq := PAttr.q_lt ha
  let tl : Buf := spell asc a.value ++ asc a.q ++ r
  let body : Buf := spell asc a.name ++ spell asc a.s1 ++ asc 0x3D ++ (spell asc a.s2 ++ (asc a.q ++ tl))
  have e : spell asc a.text ++ r = asc w ++ (spell asc ws ++ body) := by
    simp only [PAttr.text, spell_append, hw, spell_cons, spell_nil, body, tl, List.append_assoc,
      List.append_nil, List.nil_append]
  have hbody : isSpace (toAscii x body) = false := by
    have : body = asc n ++ (spell asc ns ++ spell asc a.s1 ++ asc 0x3D ++
        (spell asc a.s2 ++ (asc a.q ++ tl))) := by
      simp only [body, hn, spell_cons, List.append_assoc]
    rw [this, toAscii_asc s hnn.1, isSpace_iff n hnn.1]; exact hnn.2.1
  have hne : body.isEmpty = false := by
    simp only [body, List.append_assoc]
    exact spell_isEmpty s a.name _ ha.name_ne
  have hqs : isSpace (toAscii x (asc a.q ++ tl)) = false := by
    rw [toAscii_asc s hq, isSpace_iff _ hq]
    rcases ha.q with h | h <;> rw [h] <;> decide
  have hnempty : (spell asc a.name).isEmpty = false := by
    have := spell_isEmpty s a.name [] ha.name_ne
    rwa [List.append_nil] at this
  have hqq : ¬ ((a.q.toNat : Int) ≠ 0x22 ∧ (a.q.toNat : Int) ≠ 0x27) := by
    rcases ha.q with h | h <;> rw [h] <;> decide
  have h0 : (asc w ++ (spell asc ws ++ body)).isEmpty = false := by
    have := spell_isEmpty s [w] (spell asc ws ++ body) (by simp)
    rwa [spell_cons, spell_nil, List.append_nil] at this
  rw [e, parsePseudo, h0, toAscii_asc s (isWS_lt hww), isSpace_iff w (isWS_lt hww), hww, asc_drop s]
  simp only [skipSp_spell s hws hbody, hne]
  rw [pseudoName_complete s ha.name ha.s1]
  simp only [hnempty, asc_drop s, skipSp_spell s ha.s2 hqs, toAscii_asc s hq, if_neg hqq]
  rw [pseudoValue_complete s ha.q ha.value]
  rfl

theorem parsePseudo_sound (s : XSupported x asc) {b : Buf} (hb : x.Clean b) {n v on r}
    (h : parsePseudo x b = .attr n v on r) : ∃ a : PAttr, a.Valid ∧ b = spell asc a.text ++ r ∧
      n = spell asc a.name ∧ v = spell asc a.value ∧ on = spell asc a.value ++ asc a.q ++ r := by
  unfold parsePseudo at h
  split at h
  · simp at h
  rename_i h1
  split at h
  · simp at h
  rename_i h2
  obtain ⟨w, r1, hw, rfl⟩ := space_inv s hb (by simpa using h2)
  simp only [asc_drop s] at h
  obtain ⟨ws, g1, g2, g3, g4⟩ := skipSp_inv s r1 (Clean.tail hb)
  split at h
  · simp at h
  split at h
  · simp at h
  rename_i nn b2 hpn
  obtain ⟨cs, w1, r', k1, k2, k3, k4, k5⟩ := pseudoName_sound s _ g4 hpn
  split at h
  · simp at h
  rename_i hne
  rw [k4, asc_drop s] at h
  have hcl : x.Clean r' := by rw [k5] at g4; exact Clean.tail g4
  obtain ⟨w2, l1, l2, l3, l4⟩ := skipSp_inv s r' hcl
  split at h
  · simp at h
  rename_i hqq
  obtain ⟨q, r3, hq8, hq3⟩ : ∃ q r3, q < 0x80 ∧ skipSp x r' = asc q ++ r3 := by
    rcases toAscii_cases s l4 with h5 | ⟨c, r3, hc, h6⟩
    · rw [h5] at hqq; exact absurd hqq (by decide)
    · exact ⟨c, r3, hc, h6⟩
  rw [hq3, toAscii_asc s hq8] at hqq h
  rw [asc_drop s] at h
  have hq : q = 0x22 ∨ q = 0x27 := by
    have e1 : ((q.toNat : Int) = 0x22) ↔ q = 0x22 := eq_iff 0x22
    have e2 : ((q.toNat : Int) = 0x27) ↔ q = 0x27 := eq_iff 0x27
    rw [← e1, ← e2]
    by_cases a : (q.toNat : Int) = 0x22
    · exact .inl a
    · refine .inr ?_
      refine Classical.byContradiction fun hb' => ?_
      exact hqq ⟨a, hb'⟩
  split at h
  · simp at h
  rename_i vv rr hpv
  rw [hq3] at l4
  obtain ⟨vs, m1, m2, m3⟩ := pseudoValue_sound s hq _ (Clean.tail l4) hpv
  simp only [Pseudo.attr.injEq] at h
  obtain ⟨rfl, rfl, rfl, rfl⟩ := h
  have hcs : cs ≠ [] := by
    rintro rfl; rw [k3] at hne; simp [spell_nil] at hne
  refine ⟨⟨w :: ws, cs, w1, w2, q, vs⟩, ⟨?_, by simp, k1, hcs, k2, l1, hq, m1⟩, ?_, k3, m2, m3⟩
  · intro d hd; rcases List.mem_cons.1 hd with rfl | hd
    · exact hw
    · exact g1 d hd
  · conv => lhs; rw [g2, k5, l2, hq3, m3]
    simp only [PAttr.text, spell_append, spell_cons, spell_nil, List.append_assoc,
      List.append_nil, List.nil_append]

theorem parsePseudo_stop (s : XSupported x asc) {b : Buf} (hb : x.Clean b) :
    parsePseudo x b = .stop ↔ ∃ ws, AllWS ws ∧ b = spell asc ws := by
  constructor
  · intro h
    unfold parsePseudo at h
    split at h
    · rename_i h1
      exact ⟨[], by simp [AllWS], by rw [spell_nil]; simpa using h1⟩
    split at h
    · simp at h
    rename_i h2
    obtain ⟨w, r1, hw, rfl⟩ := space_inv s hb (by simpa using h2)
    simp only [asc_drop s] at h
    obtain ⟨ws, g1, g2, g3, g4⟩ := skipSp_inv s r1 (Clean.tail hb)
    split at h
    · rename_i h3
      refine ⟨w :: ws, ?_, ?_⟩
      · intro d hd; rcases List.mem_cons.1 hd with rfl | hd
        · exact hw
        · exact g1 d hd
      · rw [spell_cons]
        have : skipSp x r1 = [] := by simpa using h3
        rw [this, List.append_nil] at g2
        rw [← g2]
    · split at h
      · simp at h
      split at h
      · simp at h
      split at h
      · simp at h
      split at h <;> simp at h
  · rintro ⟨ws, hw, rfl⟩
    cases ws with
    | nil => rw [spell_nil]; rfl
    | cons w ws =>
      have hww := hw w (by simp)
      have h0 : (asc w ++ spell asc ws).isEmpty = false := by
        have := spell_isEmpty s [w] (spell asc ws) (by simp)
        rwa [spell_cons, spell_nil, List.append_nil] at this
      have hsk : skipSp x (spell asc ws) = [] := by
        have := skipSp_spell s (cs := ws) (fun c h => hw c (by simp [h])) (r := [])
          (by rw [toAscii_nil s]; decide)
        rwa [List.append_nil] at this
      rw [parsePseudo, spell_cons, h0, toAscii_asc s (isWS_lt hww), isSpace_iff w (isWS_lt hww),
        hww, asc_drop s]
      simp only [hsk]
      rfl

/-! Name tests on ASCII spellings -/

theorem asc_inj (s : XSupported x asc) {a b : UInt8} (h : asc a = asc b) : a = b := by
  cases s <;> simp_all [asc1, ascL, ascB]

theorem nameMatches_spell (s : XSupported x asc) (n kw : List UInt8) (hk : ∀ c ∈ kw, c < 0x80) :
    nameMatchesAscii x.e (spell asc n) kw = decide (n = kw) := by
  induction kw generalizing n with
  | nil =>
    cases n with
    | nil => rfl
    | cons c n =>
      have := spell_isEmpty s (c :: n) [] (by simp)
      rw [List.append_nil] at this
      rw [nameMatchesAscii, this]; simp
  | cons k kw ih =>
    cases n with
    | nil => rw [spell_nil, nameMatchesAscii, if_pos (by simp [Enc.mb])]; simp
    | cons c n =>
      have e := mat_iff s.s (w := asc c) (spell asc n) (s.s.asc.len c) (hk k (by simp))
      have : asc c = asc k ↔ c = k := ⟨asc_inj s, fun h => by rw [h]⟩
      rw [this] at e
      rw [spell_cons, nameMatchesAscii, if_neg (asc_mb s c _), asc_drop s,
        ih n fun c h => hk c (by simp [h])]
      by_cases hck : c = k
      · rw [e.2 hck]; simp [hck]
      · have : x.e.charMatches (asc c ++ spell asc n) k = false := by
          simpa using fun h => hck (e.1 h)
        rw [this]; simp [hck]

/-- Converting ASCII text: the characters themselves, as many as fit. -/
theorem conv_ascii (s : XSupported x asc) (n : List UInt8) (hn : ∀ c ∈ n, c < 0x80) (cap : Nat) :
    (x.conv (spell asc n) cap).out = n.take cap ∧
    (x.conv (spell asc n) cap).rest = spell asc (n.drop cap) := by
  have key : ∀ (enc : Nat → List UInt8) (ok : Nat → Prop), C12.Faithful x.conv enc ok →
      (∀ c : UInt8, c < 0x80 → ok c.toNat ∧ enc c.toNat = asc c) →
      (x.conv (spell asc n) cap).out = n.take cap ∧
      (x.conv (spell asc n) cap).rest = spell asc (n.drop cap) := by
    intro enc ok hf he
    have et : ∀ m : List UInt8, (∀ c ∈ m, c < 0x80) →
        C12.text enc (m.map UInt8.toNat) = spell asc m := by
      intro m hm
      induction m with
      | nil => rfl
      | cons c m ih =>
        rw [List.map_cons, C12.text_cons, spell_cons, (he c (hm c (by simp))).2,
          ih fun c h => hm c (by simp [h])]
    have eu : ∀ m : List UInt8, (∀ c ∈ m, c < 0x80) → utf8s (m.map UInt8.toNat) = m := by
      intro m hm
      induction m with
      | nil => rfl
      | cons c m ih =>
        have : utf8 c.toNat = [c] := by
          rw [utf8, if_pos (lt80.1 (hm c (by simp)))]; simp
        rw [List.map_cons, C51.utf8s_cons, this, ih fun c h => hm c (by simp [h])]
        rfl
    have hmem : ∀ {m : List UInt8} {k}, (∀ c ∈ m, c < 0x80) → ∀ c ∈ m.take k, c < 0x80 :=
      fun h c hc => h c (List.mem_of_mem_take hc)
    obtain ⟨k, h0, h1, h2, h3, h4, h5⟩ := hf (n.map UInt8.toNat) (by
      intro c hc
      obtain ⟨d, hd, rfl⟩ := List.mem_map.1 hc
      exact (he d (hn d hd)).1) cap
    rw [et n hn] at h1 h2
    rw [← List.map_take, eu _ (hmem hn)] at h1 h3
    rw [← List.map_drop, et _ fun c hc => hn c (List.mem_of_mem_drop hc)] at h2
    rw [List.length_map] at h0 h5
    have hk : n.take k = n.take cap ∧ n.drop k = n.drop cap := by
      rcases Nat.lt_or_ge k n.length with hlt | hge
      · have := (h5 hlt).2
        rw [← List.map_take, eu _ (hmem hn)] at this
        rw [List.length_take] at this h3
        have : k = cap := by omega
        subst this; exact ⟨rfl, rfl⟩
      · have hkn : k = n.length := by omega
        rw [hkn, List.take_length] at h3
        rw [hkn, List.take_length, List.drop_length]
        exact ⟨(List.take_of_length_le h3).symm, (List.drop_of_length_le h3).symm⟩
    rw [h1, h2, hk.1, hk.2]
    exact ⟨rfl, rfl⟩
  have sc : ∀ c : UInt8, c < 0x80 → Scalar c.toNat := fun c hc => by
    have := lt80.1 hc; unfold Scalar; omega
  have b1 : ∀ c : UInt8, C12.byte1 c.toNat = asc1 c := fun c => by simp [C12.byte1, asc1]
  cases s with
  | utf8 => exact key _ _ C12.utf8_faithful fun c hc => ⟨sc c hc, by
      rw [utf8, if_pos (lt80.1 hc)]; simp [asc1]⟩
  | internalUtf8 => exact key _ _ C12.utf8_faithful fun c hc => ⟨sc c hc, by
      rw [utf8, if_pos (lt80.1 hc)]; simp [asc1]⟩
  | latin1 => exact key _ _ C12.latin1_faithful fun c hc => ⟨c.toNat_lt, b1 c⟩
  | ascii => exact key _ _ C12.ascii_faithful fun c hc => ⟨lt80.1 hc, b1 c⟩
  | utf16le => exact key _ _ C12.utf16le_faithful fun c hc => ⟨sc c hc, by
      have := lt80.1 hc
      have h1 : c.toNat % 256 = c.toNat := by omega
      have h2 : c.toNat / 256 = 0 := by omega
      simp only [C12.utf16le, utf16, if_pos (show c.toNat < 0x10000 by omega), List.map, le16, h1, h2,
        List.flatten, ascL]
      simp⟩
  | utf16be => exact key _ _ C12.utf16be_faithful fun c hc => ⟨sc c hc, by
      have := lt80.1 hc
      have h1 : c.toNat % 256 = c.toNat := by omega
      have h2 : c.toNat / 256 = 0 := by omega
      simp only [C12.utf16be, utf16, if_pos (show c.toNat < 0x10000 by omega), List.map, be16, h1, h2,
        List.flatten, ascB]
      simp⟩

end Verif
