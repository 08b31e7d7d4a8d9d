import Verif.Props.C09

/-! Names: the name-character cases of the scanners read as predicates on single characters. -/

namespace Verif
open Tables Spec

/-- `w` is exactly one name character (as the scanners test it). -/
def Enc.NameChar (e : Enc) (w : Buf) : Prop :=
  match e.bt w with
  | .LEAD2 => w.length = 2 ∧ e.isName 2 w = true
  | .LEAD3 => w.length = 3 ∧ e.isName 3 w = true
  | .LEAD4 => w.length = 4 ∧ e.isName 4 w = true
  | .NONASCII => w.length = e.mb ∧ e.isNameMin w = true
  | .NMSTRT | .HEX | .DIGIT | .NAME | .MINUS => w.length = e.mb
  | _ => False

instance (e : Enc) (w : Buf) : Decidable (e.NameChar w) := by
  unfold Enc.NameChar; split <;> infer_instance

/-- `w` is exactly one name-start character. -/
def Enc.NmstrtChar (e : Enc) (w : Buf) : Prop :=
  match e.bt w with
  | .LEAD2 => w.length = 2 ∧ e.isNmstrt 2 w = true
  | .LEAD3 => w.length = 3 ∧ e.isNmstrt 3 w = true
  | .LEAD4 => w.length = 4 ∧ e.isNmstrt 4 w = true
  | .NONASCII => w.length = e.mb ∧ e.isNmstrtMin w = true
  | .NMSTRT | .HEX => w.length = e.mb
  | _ => False

instance (e : Enc) (w : Buf) : Decidable (e.NmstrtChar w) := by
  unfold Enc.NmstrtChar; split <;> infer_instance

theorem Enc.NameChar.len {e : Enc} (hm : e.mb ≤ 2) {w} (h : e.NameChar w) : e.mb ≤ w.length := by
  simp only [Enc.NameChar] at h
  generalize e.bt w = t at *
  cases t <;> simp only at h <;> omega

theorem Enc.NmstrtChar.len {e : Enc} (hm : e.mb ≤ 2) {w} (h : e.NmstrtChar w) :
    e.mb ≤ w.length := by
  simp only [Enc.NmstrtChar] at h
  generalize e.bt w = t at *
  cases t <;> simp only at h <;> omega

theorem nameCases_char {e : Enc} (ok : e.Ok) (hm : e.mb ≤ 2) {w} (h : e.NameChar w) (r p) :
    ∃ k, nameCases e (w ++ r) p = .adv k ∧ w.length = k + 1 := by
  have h2 := h.len hm
  have h3 := ok.name_app
  have h4 := ok.nameMin_app w r h2
  simp only [Enc.NameChar, nameCases, ok.bt_app w r h2, h4] at h ⊢
  clear h2 h4
  generalize e.bt w = t at *
  cases t <;> simp only at h ⊢
  case LEAD2 | LEAD3 | LEAD4 =>
    rw [if_neg (by simp only [List.length_append]; omega), h3 _ _ _ (by omega), h.2]
    exact ⟨_, rfl, h.1⟩
  case NONASCII => rw [h.2]; exact ⟨_, rfl, h.1⟩
  all_goals exact ⟨_, rfl, h⟩

theorem nmstrtCases_char {e : Enc} (ok : e.Ok) (hm : e.mb ≤ 2) {w} (h : e.NmstrtChar w) (r p) :
    ∃ k, nmstrtCases e (w ++ r) p = .adv k ∧ w.length = k + 1 := by
  have h2 := h.len hm
  have h3 := ok.nmstrt_app
  have h4 := ok.nmstrtMin_app w r h2
  simp only [Enc.NmstrtChar, nmstrtCases, ok.bt_app w r h2, h4] at h ⊢
  clear h2 h4
  generalize e.bt w = t at *
  cases t <;> simp only at h ⊢
  case LEAD2 | LEAD3 | LEAD4 =>
    rw [if_neg (by simp only [List.length_append]; omega), h3 _ _ _ (by omega), h.2]
    exact ⟨_, rfl, h.1⟩
  case NONASCII => rw [h.2]; exact ⟨_, rfl, h.1⟩
  all_goals exact ⟨_, rfl, h⟩

theorem nameCases_split {e : Enc} (ok : e.Ok) (hm : e.mb ≤ 2) {b : Buf} {p k}
    (hb : e.mb ≤ b.length) (h : nameCases e b p = .adv k) :
    e.NameChar (b.take (k + 1)) ∧ k + 1 ≤ b.length := by
  have h1 : k + 1 ≤ b.length ∧ e.mb ≤ k + 1 := by
    simp only [nameCases] at h
    generalize e.bt b = t at *
    cases t <;> simp only at h <;> grind [Enc.mb]
  refine ⟨?_, h1.1⟩
  have h2 : b = b.take (k + 1) ++ b.drop (k + 1) := (List.take_append_drop _ _).symm
  have hlen : (b.take (k + 1)).length = k + 1 := by simp [h1.1]
  have h3 := ok.bt_app (b.take (k + 1)) (b.drop (k + 1)) (by omega)
  have h4 := ok.nameMin_app (b.take (k + 1)) (b.drop (k + 1)) (by omega)
  have h5 := ok.name_app (k + 1) (b.take (k + 1)) (b.drop (k + 1)) (by omega)
  rw [← h2] at h3 h4 h5
  simp only [Enc.NameChar, nameCases, ← h3, hlen, ← h4] at h ⊢
  clear h2 h3 h4 hlen
  generalize e.bt b = t at *
  cases t <;> simp only at h ⊢ <;> grind [Enc.mb]

theorem nmstrtCases_split {e : Enc} (ok : e.Ok) (hm : e.mb ≤ 2) {b : Buf} {p k}
    (hb : e.mb ≤ b.length) (h : nmstrtCases e b p = .adv k) :
    e.NmstrtChar (b.take (k + 1)) ∧ k + 1 ≤ b.length := by
  have h1 : k + 1 ≤ b.length ∧ e.mb ≤ k + 1 := by
    simp only [nmstrtCases] at h
    generalize e.bt b = t at *
    cases t <;> simp only at h <;> grind [Enc.mb]
  refine ⟨?_, h1.1⟩
  have h2 : b = b.take (k + 1) ++ b.drop (k + 1) := (List.take_append_drop _ _).symm
  have hlen : (b.take (k + 1)).length = k + 1 := by simp [h1.1]
  have h3 := ok.bt_app (b.take (k + 1)) (b.drop (k + 1)) (by omega)
  have h4 := ok.nmstrtMin_app (b.take (k + 1)) (b.drop (k + 1)) (by omega)
  have h5 := ok.nmstrt_app (k + 1) (b.take (k + 1)) (b.drop (k + 1)) (by omega)
  rw [← h2] at h3 h4 h5
  simp only [Enc.NmstrtChar, nmstrtCases, ← h3, hlen, ← h4] at h ⊢
  clear h2 h3 h4 hlen
  generalize e.bt b = t at *
  cases t <;> simp only at h ⊢ <;> grind [Enc.mb]

/-- The ASCII value of a piece of one minimal character. -/
theorem toAscii_iff {e asc} (s : Supported e asc) {w : Buf} (r : Buf) (hw : w.length = e.mb)
    {c : UInt8} (hc : c < 0x80) : e.toAscii (w ++ r) = c ↔ w = asc c := by
  have h7 : (255 : UInt8) ≠ c := by rintro rfl; revert hc; decide
  cases s with
  | utf16le ns =>
    match w, hw with
    | [x, y], _ =>
      show (if y = 0 then x else 0xFF) = c ↔ [x, y] = [c, 0]
      split <;> simp_all
  | utf16be ns =>
    match w, hw with
    | [x, y], _ =>
      show (if x = 0 then y else 0xFF) = c ↔ [x, y] = [0, c]
      split <;> simp_all
  | _ =>
    match w, hw with
    | [x], _ => show x = c ↔ [x] = [c]; simp

/-- The test for an ASCII character at a piece of one minimal character. -/
theorem mat_iff {e asc} (s : Supported e asc) {w : Buf} (r : Buf) (hw : w.length = e.mb)
    {c : UInt8} (hc : c < 0x80) : e.charMatches (w ++ r) c = true ↔ w = asc c := by
  rw [s.asc.mat _ _ hc (by rw [List.length_append]; omega),
    List.take_append_of_le_length (by omega), List.take_of_length_le (by omega)]

/-- A buffer of `k` minimal characters, cut up. -/
theorem cut (m : Nat) : ∀ (k : Nat) (b : Buf), b.length = k * m →
    ∃ ws : List Buf, ws.length = k ∧ (∀ w ∈ ws, w.length = m) ∧ b = ws.flatten
  | 0, b, h => ⟨[], rfl, by simp, by rw [Nat.zero_mul] at h; simpa using h⟩
  | k + 1, b, h => by
    rw [Nat.add_mul, Nat.one_mul] at h
    obtain ⟨ws, h1, h2, h3⟩ := cut m k (b.drop m) (by rw [List.length_drop]; omega)
    refine ⟨b.take m :: ws, by simp [h1], ?_, by simp [← h3]⟩
    simp only [List.mem_cons]
    rintro w (rfl | hw)
    · rw [List.length_take]; omega
    · exact h2 w hw

/-- The classes of which no character is a name character. -/
def ByteType.nonName : ByteType → Bool
  | .LEAD2 | .LEAD3 | .LEAD4 | .NONASCII | .NMSTRT | .HEX | .DIGIT | .NAME | .MINUS => false
  | _ => true

theorem nameCases_other {e : Enc} {b : Buf} (p) (h : (e.bt b).nonName = true) :
    nameCases e b p = .other := by
  simp only [nameCases]
  generalize e.bt b = t at *
  cases t <;> simp_all [ByteType.nonName]

theorem nonName_of_other {e : Enc} {b : Buf} {p} (h : nameCases e b p = .other) :
    (e.bt b).nonName = true := by
  simp only [nameCases] at h
  generalize e.bt b = t at *
  cases t <;> simp only [ByteType.nonName] at h ⊢ <;> grind

theorem nmstrtCases_other {e : Enc} {b : Buf} (p) (h : (e.bt b).nonName = true) :
    nmstrtCases e b p = .other := by
  simp only [nmstrtCases]
  generalize e.bt b = t at *
  cases t <;> simp_all [ByteType.nonName]

/-- A name without colons: a name-start character and name characters. -/
def Enc.Name (e : Enc) (ws : List Buf) : Prop :=
  ∃ w vs, ws = w :: vs ∧ e.NmstrtChar w ∧ ∀ v ∈ vs, e.NameChar v

/-- `scanNameSemi`: name characters, then `;`. -/
theorem scanNameSemi_iff {e asc} (s : Supported e asc) (t : Tok) (ht : t.isError = false)
    (b : Buf) (p n : Nat) :
    scanNameSemi e t b p = ⟨t, n⟩ ↔ ∃ (ws : List Buf) (r : Buf), (∀ w ∈ ws, e.NameChar w) ∧
      b = ws.flatten ++ (asc 0x3B ++ r) ∧ n = p + ws.flatten.length + e.mb := by
  have l (c) := s.asc.len c
  constructor
  · intro h
    fun_induction scanNameSemi e t b p with
    | case1 => injection h with h _; subst h; simp [Tok.isError, Tok.toInt] at ht
    | case2 b p h1 r h2 =>
      have := nameCases_fail h2
      rw [h] at this
      exfalso; revert ht this; cases t <;> simp [Tok.fail, Tok.isError, Tok.toInt]
    | case3 b p h1 k h2 ih =>
      obtain ⟨hc, hl⟩ := nameCases_split s.ok s.mb (by omega) h2
      obtain ⟨ws, r, i1, i2, i3⟩ := ih h
      refine ⟨b.take (k + 1) :: ws, r, ?_, ?_, ?_⟩
      · intro w hw
        rcases List.mem_cons.1 hw with rfl | hw
        · exact hc
        · exact i1 w hw
      · rw [List.flatten_cons, List.append_assoc, ← i2, List.take_append_drop]
      · rw [i3, List.flatten_cons, List.length_append, List.length_take, Nat.min_eq_left hl]; omega
    | case4 b p h1 h2 h3 =>
      refine ⟨[], b.drop e.mb, by simp, ?_, ?_⟩
      · exact bt_split s (t := .SEMI) rfl (by omega) h3
      · injection h with _ h; simp [← h]
    | case5 => injection h with h _; subst h; simp [Tok.isError, Tok.toInt] at ht
  · rintro ⟨ws, r, h1, rfl, rfl⟩
    induction ws generalizing p with
    | nil =>
      have hb := asc_bt s (t := .SEMI) rfl r
      rw [List.flatten_nil, List.nil_append, scanNameSemi,
        if_neg (by have := l 0x3B; rw [List.length_append]; omega), nameCases_other _ (by rw [hb]; rfl)]
      simp only [hb, List.length_nil, Nat.add_zero]
    | cons w ws ih =>
      have hw := h1 w (by simp)
      obtain ⟨k, hk, hk2⟩ := nameCases_char s.ok s.mb hw (ws.flatten ++ (asc 0x3B ++ r)) p
      have := hw.len s.mb
      rw [List.flatten_cons, List.append_assoc, scanNameSemi,
        if_neg (by rw [List.length_append]; omega), hk]
      simp only
      rw [← hk2, List.drop_left' rfl, ih _ (fun w h => h1 w (by simp [h])), List.length_append]
      congr 1; omega

end Verif
