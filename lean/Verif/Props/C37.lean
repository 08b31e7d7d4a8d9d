import Verif.Props.C14

/-! # C37: public identifiers -/

namespace Verif.C37
open Verif

/-! ### Legal characters -/

/-- PubidChar of the XML recommendation: #x20 | #xD | #xA | [a-zA-Z0-9] | [-'()+,./:=?;!*#@$_%]. -/
def PubidChar (c : UInt8) : Bool :=
  c == 0x20 || c == 0x0D || c == 0x0A || (0x61 ≤ c && c ≤ 0x7A) || (0x41 ≤ c && c ≤ 0x5A) ||
  (0x30 ≤ c && c ≤ 0x39) || [0x2D, 0x27, 0x28, 0x29, 0x2B, 0x2C, 0x2E, 0x2F, 0x3A, 0x3D, 0x3F, 0x3B, 0x21,
    0x2A, 0x23, 0x40, 0x24, 0x5F, 0x25].contains c

/-- The verdict of `isPublicIdLoop` on the first character. -/
def pubStep (e : Enc) (b : Buf) : Bool :=
  match e.bt b with
  | .DIGIT | .HEX | .MINUS | .APOS | .LPAR | .RPAR | .PLUS | .COMMA | .SOL | .EQUALS
  | .QUEST | .CR | .LF | .SEMI | .EXCL | .AST | .PERCNT | .NUM | .COLON => true
  | .S => !e.charMatches b 0x09
  | .NAME | .NMSTRT => e.toAscii b &&& 0x80 = 0 || (e.toAscii b = 0x24 || e.toAscii b = 0x40)
  | _ => e.toAscii b = 0x24 || e.toAscii b = 0x40

theorem loop_step (e : Enc) (b : Buf) (p : Nat) (hb : ¬ b.length < e.mb) :
    isPublicIdLoop e b p =
      if pubStep e b then isPublicIdLoop e (b.drop e.mb) (p + e.mb) else some p := by
  rw [isPublicIdLoop, if_neg hb, pubStep]
  generalize e.bt b = t
  cases t <;> simp only [if_true] <;> (repeat' split) <;> simp_all

theorem byte_step {e : Enc} (he : e = utf8Enc false ∨ e = utf8Enc true ∨ e = internalUtf8Enc false ∨
    e = internalUtf8Enc true ∨ e = latin1Enc false ∨ e = latin1Enc true ∨ e = asciiEnc false ∨ e = asciiEnc true)
    (a : UInt8) : pubStep e [a] = PubidChar a := by
  rcases he with rfl | rfl | rfl | rfl | rfl | rfl | rfl | rfl <;>
    exact UInt8.forall_dec (P := fun a => pubStep _ [a] = PubidChar a) (by decide +kernel) a

theorem le_zero (ns : Bool) (a : UInt8) : pubStep (little2Enc ns) [a, 0] = PubidChar a := by
  cases ns <;> exact UInt8.forall_dec (P := fun a => pubStep _ [a, 0] = PubidChar a) (by decide +kernel) a
theorem be_zero (ns : Bool) (a : UInt8) : pubStep (big2Enc ns) [0, a] = PubidChar a := by
  cases ns <;> exact UInt8.forall_dec (P := fun a => pubStep _ [0, a] = PubidChar a) (by decide +kernel) a

theorem unicode_step (hi lo : UInt8) : (match unicodeByteType hi lo with
    | .DIGIT | .HEX | .MINUS | .APOS | .LPAR | .RPAR | .PLUS | .COMMA | .SOL | .EQUALS
    | .QUEST | .CR | .LF | .SEMI | .EXCL | .AST | .PERCNT | .NUM | .COLON | .S | .NAME | .NMSTRT => true
    | _ => false) = false := by
  have h : unicodeByteType hi lo = .LEAD4 ∨ unicodeByteType hi lo = .TRAIL ∨
      unicodeByteType hi lo = .NONXML ∨ unicodeByteType hi lo = .NONASCII := by
    unfold unicodeByteType
    split
    · simp
    · split
      · simp
      · split <;> simp
  rcases h with h | h | h | h <;> rw [h]

theorem pubStep_high {e : Enc} {b : Buf} (h1 : (match e.bt b with
    | .DIGIT | .HEX | .MINUS | .APOS | .LPAR | .RPAR | .PLUS | .COMMA | .SOL | .EQUALS
    | .QUEST | .CR | .LF | .SEMI | .EXCL | .AST | .PERCNT | .NUM | .COLON | .S | .NAME | .NMSTRT => true
    | _ => false) = false) (h2 : e.toAscii b = 0xFF) : pubStep e b = false := by
  unfold pubStep
  rw [h2]
  generalize e.bt b = t at h1
  cases t <;> simp_all

theorem pubStep_app {e : Enc} (ok : e.Ok) {b : Buf} (hb : e.mb ≤ b.length) (r : Buf) :
    pubStep e (b ++ r) = pubStep e b := by
  simp only [pubStep, ok.bt_app b r hb, ok.ascii_app b r hb, ok.matches_app b r _ hb]

theorem pubid_ascii (c : UInt8) : PubidChar c = true → c < 0x80 :=
  UInt8.forall_dec (P := fun c => PubidChar c = true → c < 0x80) (by decide +kernel) c

/-- One character is accepted exactly if it is a PubidChar, in every encoding. -/
theorem step_iff {e asc} (s : Supported e asc) {b : Buf} (hb : e.mb ≤ b.length) :
    pubStep e b = true ↔ ∃ c, PubidChar c = true ∧ b.take e.mb = asc c := by
  have hsplit : pubStep e b = pubStep e (b.take e.mb) := by
    conv => lhs; rw [← List.take_append_drop e.mb b]
    exact pubStep_app s.ok (by rw [List.length_take]; omega) _
  rw [hsplit]
  have one : e.mb = 1 → asc = asc1 → (∀ a, pubStep e [a] = PubidChar a) →
      (pubStep e (b.take e.mb) = true ↔ ∃ c, PubidChar c = true ∧ b.take e.mb = asc c) := by
    rintro hm rfl h
    rw [hm] at hb ⊢
    match b, hb with
    | a :: r, _ =>
      rw [show (a :: r).take 1 = [a] from by simp, h a]
      constructor
      · intro h; exact ⟨a, h, rfl⟩
      · rintro ⟨c, h, h2⟩; cases h2; exact h
  cases s with
  | utf8 ns => exact one rfl rfl (byte_step (by cases ns <;> simp))
  | internalUtf8 ns => exact one rfl rfl (byte_step (by cases ns <;> simp))
  | latin1 ns => exact one rfl rfl (byte_step (by cases ns <;> simp))
  | ascii ns => exact one rfl rfl (byte_step (by cases ns <;> simp))
  | utf16le ns =>
    have hm : (little2Enc ns).mb = 2 := rfl
    rw [hm] at hb ⊢
    match b, hb with
    | a :: h :: r, _ =>
      rw [show (a :: h :: r).take 2 = [a, h] from by simp]
      by_cases h0 : h = 0
      · subst h0
        rw [le_zero]
        constructor
        · intro h; exact ⟨a, h, rfl⟩
        · rintro ⟨c, h, h2⟩; cases h2; exact h
      · have : pubStep (little2Enc ns) [a, h] = false := by
          refine pubStep_high ?_ ?_
          · have hbt : (little2Enc ns).bt [a, h] = unicodeByteType h a := by
              simp [little2Enc, little2EncOf, byteAt, h0]
            rw [hbt]; exact unicode_step h a
          · simp [little2Enc, little2EncOf, byteAt, h0]
        rw [this]
        simp only [Bool.false_eq_true, false_iff]
        rintro ⟨c, h, h2⟩; cases h2; exact h0 rfl
  | utf16be ns =>
    have hm : (big2Enc ns).mb = 2 := rfl
    rw [hm] at hb ⊢
    match b, hb with
    | h :: a :: r, _ =>
      rw [show (h :: a :: r).take 2 = [h, a] from by simp]
      by_cases h0 : h = 0
      · subst h0
        rw [be_zero]
        constructor
        · intro h; exact ⟨a, h, rfl⟩
        · rintro ⟨c, h, h2⟩; cases h2; exact h
      · have : pubStep (big2Enc ns) [h, a] = false := by
          refine pubStep_high ?_ ?_
          · have hbt : (big2Enc ns).bt [h, a] = unicodeByteType h a := by
              simp [big2Enc, big2EncOf, big2Bt?, byteAt, h0]
            rw [hbt]; exact unicode_step h a
          · simp [big2Enc, big2EncOf, byteAt, h0]
        rw [this]
        simp only [Bool.false_eq_true, false_iff]
        rintro ⟨c, h, h2⟩; cases h2; exact h0 rfl

theorem loop_iff {e asc} (s : Supported e asc) (b : Buf) (p : Nat) (hb : e.mb ∣ b.length) :
    isPublicIdLoop e b p = none ↔ ∃ cs, (∀ c ∈ cs, PubidChar c = true) ∧ b = spell asc cs := by
  have hmb := s.mb_pos
  induction hn : b.length using Nat.strongRecOn generalizing b p with
  | _ n ih =>
  by_cases hl : b.length < e.mb
  · have : b = [] := by
      obtain ⟨k, hk⟩ := hb
      have : k = 0 := by
        rcases Nat.eq_zero_or_pos k with h | h
        · exact h
        · have := Nat.mul_le_mul_left e.mb h; omega
      subst this
      exact List.length_eq_zero_iff.1 (by simpa using hk)
    subst this
    rw [isPublicIdLoop, if_pos hl]
    simp only [true_iff]
    exact ⟨[], by simp, rfl⟩
  · rw [loop_step e b p hl]
    have hl' : e.mb ≤ b.length := by omega
    have hst := step_iff s hl'
    have hlen := fun c => s.asc.len c
    have hd : e.mb ∣ (b.drop e.mb).length := by
      rw [List.length_drop]; exact Nat.dvd_sub hb (Nat.dvd_refl _)
    have hi := ih (b.drop e.mb).length (by rw [List.length_drop]; omega) (b.drop e.mb) (p + e.mb) hd rfl
    constructor
    · intro h
      split at h
      · rename_i h1
        obtain ⟨c, g1, g2⟩ := hst.1 h1
        obtain ⟨cs, g3, g4⟩ := hi.1 h
        refine ⟨c :: cs, by simpa [g1] using g3, ?_⟩
        rw [show spell asc (c :: cs) = asc c ++ spell asc cs by simp [spell], ← g2, ← g4, List.take_append_drop]
      · cases h
    · rintro ⟨cs, g1, g2⟩
      cases cs with
      | nil => subst g2; simp [spell] at hl; omega
      | cons c cs =>
        rw [show spell asc (c :: cs) = asc c ++ spell asc cs by simp [spell]] at g2
        have g3 : b.take e.mb = asc c := by rw [g2, List.take_left' (hlen c)]
        rw [if_pos (hst.2 ⟨c, g1 c (by simp), g3⟩)]
        exact hi.2 ⟨cs, fun d hd => g1 d (by simp [hd]), by rw [g2, List.drop_left' (hlen c)]⟩

/-- **C37**, legality: a quoted public identifier passes exactly if all its characters are
PubidChars, in every encoding. -/
theorem legal_iff {e asc} (s : Supported e asc) (q : UInt8) (content : Buf) (hd : e.mb ∣ content.length) :
    isPublicId e (asc q ++ (content ++ asc q)) = none ↔
      ∃ cs, (∀ c ∈ cs, PubidChar c = true) ∧ content = spell asc cs := by
  have hlen := s.asc.len q
  rw [isPublicId, List.drop_left' hlen, List.take_left']
  · exact loop_iff s content _ hd
  · simp only [List.length_append, hlen]; omega

/-! ### Normalisation -/

def blank (c : UInt8) : Bool := c == 0x20 || c == 0x0D || c == 0x0A

/-- The text cut at every blank. -/
def split : List UInt8 → List (List UInt8)
  | [] => [[]]
  | c :: t =>
    if blank c then [] :: split t
    else match split t with
      | [] => [[c]]
      | w :: ws => (c :: w) :: ws

/-- The words of a text: its maximal runs of non-blanks. -/
def words (t : List UInt8) : List (List UInt8) := (split t).filter (· ≠ [])

/-- The specification: the words, separated by single spaces. -/
def normal (t : List UInt8) : List UInt8 := List.intercalate [0x20] (words t)

/-- What the loop computes, apart from memory: `out` is what has been written. -/
def collapse (out : List UInt8) : List UInt8 → List UInt8
  | [] => out
  | c :: t =>
    if blank c then
      if out ≠ [] ∧ out.getLast? ≠ some 0x20 then collapse (out ++ [0x20]) t else collapse out t
    else collapse (out ++ [c]) t

def strip (out : List UInt8) : List UInt8 := if out.getLast? = some 0x20 then out.dropLast else out

/-- Each word with a space before it. -/
def joined (ws : List (List UInt8)) : List UInt8 := (ws.map (0x20 :: ·)).flatten

theorem split_ne (t : List UInt8) : split t ≠ [] := by
  induction t with
  | nil => simp [split]
  | cons c t ih =>
    simp only [split]
    split
    · simp
    · split <;> simp

theorem split_blank {c : UInt8} (h : blank c = true) (t) : split (c :: t) = [] :: split t := by
  rw [split, if_pos h]

theorem split_char {c : UInt8} (h : blank c = false) {t w ws} (ht : split t = w :: ws) :
    split (c :: t) = (c :: w) :: ws := by
  rw [split, if_neg (by simp [h]), ht]

theorem nb_ne {c : UInt8} (h : blank c = false) : c ≠ 0x20 := by rintro rfl; cases h

def inWord (out : List UInt8) : Prop := out ≠ [] ∧ out.getLast? ≠ some 0x20

theorem inWord_snoc (out : List UInt8) {c : UInt8} (h : blank c = false) : inWord (out ++ [c]) :=
  ⟨by simp, by simp [nb_ne h]⟩

/-- In a word / after a blank. -/
theorem collapse_spec (t : List UInt8) : ∀ out, inWord out →
    (∀ w ws, split t = w :: ws → strip (collapse out t) = out ++ (w ++ joined (ws.filter (· ≠ [])))) ∧
    strip (collapse (out ++ [0x20]) t) = out ++ joined (words t) := by
  induction t with
  | nil =>
    intro out ho
    constructor
    · intro w ws h
      cases h
      simp [collapse, strip, ho.2, joined]
    · simp [collapse, strip, words, split, joined]
  | cons c t ih =>
    intro out ho
    cases hb : blank c with
    | true =>
      constructor
      · intro w ws h
        rw [split_blank hb] at h
        cases h
        rw [collapse, if_pos hb, if_pos (show _ ∧ _ from ho), (ih out ho).2]
        rfl
      · rw [collapse, if_pos hb, if_neg (by simp), (ih out ho).2, words, words, split_blank hb]
        simp
    | false =>
      obtain ⟨w, ws, hs⟩ := List.exists_cons_of_ne_nil (split_ne t)
      constructor
      · intro w' ws' h
        rw [split_char hb hs] at h
        cases h
        rw [collapse, if_neg (by simp [hb]), (ih _ (inWord_snoc out hb)).1 w ws hs]
        simp
      · rw [collapse, if_neg (by simp [hb]), (ih _ (inWord_snoc (out ++ [0x20]) hb)).1 w ws hs, words,
          split_char hb hs]
        simp [joined]

theorem joined_tail (ws : List (List UInt8)) : (joined ws).drop 1 = List.intercalate [0x20] ws := by
  induction ws with
  | nil => rfl
  | cons w ws ih =>
    cases ws with
    | nil => simp [joined, List.intercalate]
    | cons v ws =>
      have h : joined (w :: v :: ws) = 0x20 :: (w ++ joined (v :: ws)) := by simp [joined]
      have h2 : joined (v :: ws) = 0x20 :: (joined (v :: ws)).drop 1 := by simp [joined]
      rw [h, List.drop_succ_cons, List.drop_zero, h2, ih]
      simp [List.intercalate, List.intersperse]

theorem collapse_normal (t : List UInt8) : strip (collapse [] t) = normal t := by
  induction t with
  | nil => rfl
  | cons c t ih =>
    cases hb : blank c with
    | true =>
      rw [collapse, if_pos hb, if_neg (by simp), ih, normal, normal, words, words, split_blank hb]
      simp
    | false =>
      obtain ⟨w, ws, hs⟩ := List.exists_cons_of_ne_nil (split_ne t)
      rw [collapse, if_neg (by simp [hb]), (collapse_spec t _ (inWord_snoc [] hb)).1 w ws hs, normal, words,
        split_char hb hs, ← joined_tail]
      simp [joined]

/-! The memory. -/

theorem getLast_take {m : List UInt8} {p : Nat} (hp : 0 < p) (hl : p ≤ m.length) :
    (m.take p).getLast? = some (m.getD (p - 1) 0) := by
  rw [List.getLast?_eq_getElem?, List.length_take, Nat.min_eq_left hl, List.getElem?_take_of_lt (by omega),
    List.getD_eq_getElem?_getD, List.getElem?_eq_getElem (by omega)]
  rfl

theorem loop_spec (m : List UInt8) (p s : Nat) (hps : p ≤ s) (t z : List UInt8) (hd : m.drop s = t ++ 0 :: z)
    (hz : 0 ∉ t) :
    ∃ m' p', npiLoop m p s = some (m', p') ∧ p' < m'.length ∧ m'.take p' = collapse (m.take p) t := by
  induction t generalizing m p s with
  | nil =>
    have hs : s < m.length := by
      apply Nat.lt_of_not_le; intro h; rw [List.drop_eq_nil_of_le h] at hd; cases hd
    have hm : m[s] = 0 := by
      rw [List.drop_eq_getElem_cons hs] at hd; injection hd
    rw [npiLoop, dif_pos hs, if_pos hm]
    exact ⟨m, p, rfl, by omega, rfl⟩
  | cons c t ih =>
    simp only [List.mem_cons, not_or] at hz
    have hs : s < m.length := by
      apply Nat.lt_of_not_le; intro h; rw [List.drop_eq_nil_of_le h] at hd; cases hd
    have hd' := hd
    rw [List.drop_eq_getElem_cons hs, List.cons_append, List.cons.injEq] at hd'
    obtain ⟨hm, hd1⟩ := hd'
    have hset : ∀ d, (m.set p d).drop (s + 1) = t ++ 0 :: z := by
      intro d; rw [C14.drop_set (by omega)]; exact hd1
    have hp : p < m.length := by omega
    have hc0 : ¬ m[s] = 0 := by rw [hm]; exact Ne.symm hz.1
    rw [npiLoop, dif_pos hs, if_neg hc0, hm]
    have hbl : (c = 0x20 ∨ c = 0x0D ∨ c = 0x0A) ↔ blank c = true := by simp [blank, or_assoc]
    have hlast : (p ≠ 0 ∧ m.getD (p - 1) 0 ≠ 0x20) ↔ (m.take p ≠ [] ∧ (m.take p).getLast? ≠ some 0x20) := by
      rcases Nat.eq_zero_or_pos p with rfl | h
      · simp
      · rw [getLast_take h (by omega)]
        have : m.take p ≠ [] := by
          intro h0; have := congrArg List.length h0; rw [List.length_take, List.length_nil] at this; omega
        simp [this, Nat.ne_of_gt h]
    by_cases hb : blank c = true
    · rw [if_pos (hbl.2 hb), collapse, if_pos hb]
      by_cases hl : p ≠ 0 ∧ m.getD (p - 1) 0 ≠ 0x20
      · rw [if_pos hl, if_pos (hlast.1 hl), ← C14.take_set hp]
        exact ih _ (p + 1) (s + 1) (by omega) (hset _) hz.2
      · rw [if_neg hl, if_neg (mt hlast.2 hl)]
        exact ih _ p (s + 1) (by omega) hd1 hz.2
    · rw [if_neg (mt hbl.1 hb), collapse, if_neg hb, ← C14.take_set hp]
      exact ih _ (p + 1) (s + 1) (by omega) (hset _) hz.2

theorem collapse_mem {x : UInt8} (t out : List UInt8) (h : x ∈ collapse out t) : x ∈ out ∨ x ∈ t ∨ x = 0x20 := by
  induction t generalizing out with
  | nil => exact .inl h
  | cons c t ih =>
    rw [collapse] at h
    split at h
    · split at h
      · rcases ih _ h with h | h | h
        · rcases List.mem_append.1 h with h | h
          · exact .inl h
          · exact .inr (.inr (by simpa using h))
        · exact .inr (.inl (by simp [h]))
        · exact .inr (.inr h)
      · rcases ih _ h with h | h | h
        · exact .inl h
        · exact .inr (.inl (by simp [h]))
        · exact .inr (.inr h)
    · rcases ih _ h with h | h | h
      · rcases List.mem_append.1 h with h | h
        · exact .inl h
        · exact .inr (.inl (by simp at h; simp [h]))
      · exact .inr (.inl (by simp [h]))
      · exact .inr (.inr h)

/-- **C37**, the algorithm: in place, on any NUL-terminated string, without leaving it, the result is
the words separated by single spaces. -/
theorem normalize_spec (t z : List UInt8) (hz : 0 ∉ t) :
    ∃ m, normalizePublicId (t ++ 0 :: z) = some m ∧ cstr m = normal t := by
  obtain ⟨m', p', h1, h2, h3⟩ := loop_spec (t ++ 0 :: z) 0 0 (Nat.le_refl _) t z rfl hz
  rw [List.take_zero] at h3
  unfold normalizePublicId
  rw [h1, Option.map_some]
  refine ⟨_, rfl, ?_⟩
  rw [← collapse_normal, ← h3]
  have h0 : 0 ∉ m'.take p' := by
    rw [h3]; intro h
    rcases collapse_mem t [] h with h | h | h
    · cases h
    · exact hz h
    · cases h
  have cut : ∀ k, k < m'.length → 0 ∉ m'.take k → cstr (m'.set k 0) = m'.take k := by
    intro k hk hk0
    rw [← List.take_append_drop (k + 1) (List.set _ _ _), C14.take_set hk, List.append_assoc,
      C14.cstr_append hk0]
    simp [cstr]
  simp only
  rcases Nat.eq_zero_or_pos p' with rfl | hp
  · rw [if_neg (by simp), cut 0 h2 h0]
    simp [strip]
  · have hg := getLast_take (m := m') hp (by omega)
    by_cases hl : p' ≠ 0 ∧ m'.getD (p' - 1) 0 = 0x20
    · rw [if_pos hl, strip, hg, if_pos (by rw [hl.2]), List.dropLast_take (l := m') (by omega)]
      exact cut (p' - 1) (by omega) (fun h => h0 (List.take_subset_take_left m' (show p' - 1 ≤ p' by omega) h))
    · rw [if_neg hl, strip, hg, if_neg (fun h => hl ⟨by omega, by simpa using h⟩), cut p' h2 h0]

/-! ### What the specification says -/

theorem split_no_blank {t w : List UInt8} (h : w ∈ split t) : ∀ c ∈ w, blank c = false := by
  induction t generalizing w with
  | nil => simp [split] at h; subst h; simp
  | cons c t ih =>
    cases hb : blank c with
    | true =>
      rw [split_blank hb, List.mem_cons] at h
      rcases h with rfl | h
      · simp
      · exact ih h
    | false =>
      obtain ⟨v, vs, hs⟩ := List.exists_cons_of_ne_nil (split_ne t)
      rw [split_char hb hs, List.mem_cons] at h
      rcases h with rfl | h
      · intro d hd
        rcases List.mem_cons.1 hd with rfl | hd
        · exact hb
        · exact ih (by rw [hs]; simp) d hd
      · exact ih (by rw [hs]; simp [h])

/-- Every blank of the result is a space. -/
theorem only_spaces (t : List UInt8) : ∀ c ∈ normal t, c ≠ 0x0D ∧ c ≠ 0x0A := by
  intro c hc
  rw [normal, ← joined_tail] at hc
  have hc := List.mem_of_mem_drop hc
  simp only [joined, List.mem_flatten, List.mem_map] at hc
  obtain ⟨l, ⟨w, hw, rfl⟩, hc⟩ := hc
  rcases List.mem_cons.1 hc with rfl | hc
  · decide
  · have := split_no_blank (List.mem_filter.1 hw).1 c hc
    constructor <;> rintro rfl <;> cases this

theorem split_word {w : List UInt8} (hw : ∀ c ∈ w, blank c = false) {r v : List UInt8} {vs} (hr : split r = v :: vs) :
    split (w ++ r) = (w ++ v) :: vs := by
  induction w with
  | nil => exact hr
  | cons c w ih =>
    exact split_char (hw c (by simp)) (ih (fun d hd => hw d (by simp [hd])))

theorem split_joined (ws : List (List UInt8)) (h : ∀ w ∈ ws, ∀ c ∈ w, blank c = false) :
    split (joined ws) = [] :: ws := by
  induction ws with
  | nil => rfl
  | cons w ws ih =>
    have ih := ih (fun v hv => h v (by simp [hv]))
    rw [show joined (w :: ws) = 0x20 :: (w ++ joined ws) by simp [joined], split_blank (by decide),
      split_word (h w (by simp)) ih, List.append_nil]

/-- The words of the result are the words of the text ... -/
theorem words_normal (t : List UInt8) : words (normal t) = words t := by
  have hnb : ∀ w ∈ words t, ∀ c ∈ w, blank c = false := fun w hw => split_no_blank (List.mem_filter.1 hw).1
  have hne : ∀ w ∈ words t, w ≠ [] := fun w hw => by simpa using (List.mem_filter.1 hw).2
  rw [normal, ← joined_tail]
  generalize words t = ws at *
  cases ws with
  | nil => rfl
  | cons w ws =>
    have hj := split_joined ws (fun v hv => hnb v (by simp [hv]))
    rw [show (joined (w :: ws)).drop 1 = w ++ joined ws by simp [joined], words,
      split_word (hnb w (by simp)) hj, List.append_nil]
    exact List.filter_eq_self.2 (fun v hv => by simpa using hne v hv)

/-- ... so normalising twice is the same as once. -/
theorem idempotent (t : List UInt8) : normal (normal t) = normal t := by
  rw [normal, words_normal, ← normal]

/-- No blank at either end, and no two adjacent. -/
theorem no_blank_ends (t : List UInt8) : (normal t).head? ≠ some 0x20 ∧ (normal t).getLast? ≠ some 0x20 := by
  have hnb : ∀ w ∈ words t, ∀ c ∈ w, blank c = false := fun w hw => split_no_blank (List.mem_filter.1 hw).1
  have hne : ∀ w ∈ words t, w ≠ [] := fun w hw => by simpa using (List.mem_filter.1 hw).2
  constructor
  · rw [normal, ← joined_tail]
    generalize words t = ws at *
    cases ws with
    | nil => simp [joined]
    | cons w ws =>
      rw [show (joined (w :: ws)).drop 1 = w ++ joined ws by simp [joined]]
      obtain ⟨c, w', rfl⟩ := List.exists_cons_of_ne_nil (hne w (by simp))
      intro h
      simp only [List.cons_append, List.head?_cons, Option.some.injEq] at h
      exact nb_ne (hnb (c :: w') (by simp) c (by simp)) h
  · intro h
    rw [normal, ← joined_tail] at h
    generalize words t = ws at *
    rcases List.eq_nil_or_concat ws with rfl | ⟨vs, w, rfl⟩
    · simp [joined] at h
    · rw [List.concat_eq_append] at *
      have hw := hne w (by simp)
      have hj : joined (vs ++ [w]) = joined vs ++ 0x20 :: w := by simp [joined]
      rw [hj] at h
      have hlast : ((joined vs ++ 0x20 :: w).drop 1).getLast? = w.getLast? := by
        cases hv : joined vs with
        | nil => simp
        | cons a l =>
          rw [List.cons_append, List.drop_succ_cons, List.drop_zero, List.getLast?_append,
            List.getLast?_cons]
          rw [List.getLast?_eq_some_getLast hw]
          rfl
      rw [hlast] at h
      exact nb_ne (hnb w (by simp) _ (List.mem_of_getLast? h)) rfl

/-! ### The identifier reported -/

/-- **C37.**  A public identifier made of PubidChars `cs` is reported as the words of `cs` separated
by single spaces (in every encoding; `pool` is the pool the string is stored in). -/
theorem reported (al : Allocator) {x asc} (s : XSupported x asc) {pool : Pool} (hp : C43.Inv pool)
    (h0 : pool.current = []) (cs : List UInt8) (hc : ∀ c ∈ cs, PubidChar c = true) :
    ∃ q m, pool.storeCString al x (spell asc cs) = some q ∧ normalizePublicId q.current = some m ∧
      cstr m = normal cs := by
  obtain ⟨q, h1, h2⟩ := C14.store_keeps al s hp (spell asc cs)
  have h3 := h2.cur
  rw [h0, List.nil_append, C19.converted_ascii s cs (fun c h => pubid_ascii c (hc c h))] at h3
  obtain ⟨m, h4, h5⟩ := normalize_spec cs [] (fun h => by have := hc 0 h; revert this; decide)
  exact ⟨q, m, h1, by rw [h3]; exact h4, h5⟩

/-- ` a  b\n` (quoted) is legal, and reported as `a b`. -/
example : isPublicId (utf8Enc false) [0x22, 0x20, 0x61, 0x20, 0x20, 0x62, 0x0A, 0x22] = none ∧
    (normalizePublicId [0x20, 0x61, 0x20, 0x20, 0x62, 0x0A, 0]).map cstr = some [0x61, 0x20, 0x62] ∧
    isPublicId (utf8Enc false) [0x22, 0x61, 0x7B, 0x22] = some 2 := by decide +kernel

end Verif.C37
