import Verif.Whole
import Verif.Utf8Lemmas

/-! Legal characters of an encoding as byte chunks, and how the scanners' character cases
relate to them. -/

namespace Verif
open Tables Spec

/-- `w` is exactly one legal character of the encoding. -/
def Enc.IsChar (e : Enc) (w : Buf) : Prop :=
  match e.bt w with
  | .NONXML | .MALFORM | .TRAIL => False
  | .LEAD2 => w.length = 2 ∧ e.isInvalid 2 w = false
  | .LEAD3 => w.length = 3 ∧ e.isInvalid 3 w = false
  | .LEAD4 => w.length = 4 ∧ e.isInvalid 4 w = false
  | _ => w.length = e.mb

/-- A character whose class is a lead byte's. -/
def Enc.isLead (e : Enc) (w : Buf) : Bool :=
  match e.bt w with
  | .LEAD2 | .LEAD3 | .LEAD4 => true
  | _ => false

theorem Enc.isChar_len {e : Enc} (hm : e.mb ≤ 2) {w} (h : e.IsChar w) : e.mb ≤ w.length := by
  simp only [Enc.IsChar] at h
  generalize e.bt w = t at *
  cases t <;> simp only at h <;> omega

theorem Enc.isChar_len_nl {e : Enc} {w} (h : e.IsChar w) (hl : e.isLead w = false) :
    w.length = e.mb := by
  simp only [Enc.IsChar, Enc.isLead] at h hl
  generalize e.bt w = t at *
  cases t <;> simp_all

theorem Enc.isChar_ne {e : Enc} (hm : e.mb ≤ 2) {w} (h : e.IsChar w) : w ≠ [] := by
  have := e.isChar_len hm h
  intro h2; subst h2; simp [Enc.mb] at this

/-- Scanning a legal character: the lead-byte case. -/
theorem invalidCases_lead {e : Enc} (ok : e.Ok) (hm : e.mb ≤ 2) {w} (h : e.IsChar w)
    (hl : e.isLead w = true) (r p) :
    invalidCases e (w ++ r) p = .adv (w.length - 1) ∧ 1 ≤ w.length := by
  have h2 := e.isChar_len hm h
  simp only [Enc.IsChar, Enc.isLead, invalidCases, ok.bt_app w r h2] at h hl ⊢
  have h3 := ok.invalid_app
  generalize e.bt w = t at *
  cases t <;> simp only [Bool.false_eq_true] at h hl ⊢
  all_goals
    rw [if_neg (by simp only [List.length_append]; omega), h3 _ _ _ (by omega), h.2, h.1]
    simp

/-- Scanning a legal character: the other cases. -/
theorem invalidCases_nl {e : Enc} (ok : e.Ok) (hm : e.mb ≤ 2) {w} (h : e.IsChar w)
    (hl : e.isLead w = false) (r p) : invalidCases e (w ++ r) p = .other := by
  have h2 := e.isChar_len hm h
  simp only [Enc.IsChar, Enc.isLead, invalidCases, ok.bt_app w r h2] at h hl ⊢
  generalize e.bt w = t at *
  cases t <;> simp_all

theorem isChar_of_adv {e : Enc} (ok : e.Ok) (hm : e.mb ≤ 2) {b : Buf} {p k}
    (h : invalidCases e b p = .adv k) :
    e.IsChar (b.take (k + 1)) ∧ e.isLead (b.take (k + 1)) = true ∧ k + 1 ≤ b.length ∧
      e.mb ≤ k + 1 := by
  have h1 := invalidCases_adv h
  have h0 := invalidCases_charLen h
  have h2 : b = b.take (k + 1) ++ b.drop (k + 1) := (List.take_append_drop _ _).symm
  have hlen : (b.take (k + 1)).length = k + 1 := by simp [h1]
  have h4 : e.mb ≤ (b.take (k + 1)).length := by omega
  have h3 := ok.bt_app (b.take (k + 1)) (b.drop (k + 1)) h4
  rw [← h2] at h3
  have h5 := ok.invalid_app (k + 1) (b.take (k + 1)) (b.drop (k + 1)) (by omega)
  rw [← h2] at h5
  refine ⟨?_, ?_, h1, by omega⟩ <;>
    simp only [Enc.IsChar, Enc.isLead, invalidCases, ← h3, hlen] at h ⊢
  all_goals
    generalize e.bt b = t at *
    cases t <;> simp only at h ⊢ <;> grind

theorem isChar_of_other {e : Enc} (ok : e.Ok) {b : Buf} {p}
    (hb : e.mb ≤ b.length) (h : invalidCases e b p = .other) :
    e.IsChar (b.take e.mb) ∧ e.isLead (b.take e.mb) = false ∧ e.bt (b.take e.mb) = e.bt b := by
  have h2 : b = b.take e.mb ++ b.drop e.mb := (List.take_append_drop _ _).symm
  have hlen : (b.take e.mb).length = e.mb := by simp [hb]
  have h3 := ok.bt_app (b.take e.mb) (b.drop e.mb) (by omega)
  rw [← h2] at h3
  refine ⟨?_, ?_, h3.symm⟩ <;>
    simp only [Enc.IsChar, Enc.isLead, invalidCases, ← h3, hlen] at h ⊢
  all_goals
    generalize e.bt b = t at *
    cases t <;> simp only at h ⊢ <;> grind

/-- The single-character byte classes. -/
def ByteType.single : ByteType → Option UInt8
  | .LT => some 0x3C | .AMP => some 0x26 | .RSQB => some 0x5D | .GT => some 0x3E
  | .QUOT => some 0x22 | .APOS => some 0x27 | .EQUALS => some 0x3D | .QUEST => some 0x3F
  | .EXCL => some 0x21 | .SOL => some 0x2F | .SEMI => some 0x3B | .NUM => some 0x23
  | .LSQB => some 0x5B | .MINUS => some 0x2D | .PERCNT => some 0x25 | .LPAR => some 0x28
  | .RPAR => some 0x29 | .AST => some 0x2A | .PLUS => some 0x2B | .COMMA => some 0x2C
  | .VERBAR => some 0x7C | .LF => some 0x0A
  | _ => none

/-- How the encoding writes the ASCII characters, and that its tests recognise them. -/
structure Enc.Asc (e : Enc) (asc : UInt8 → Buf) : Prop where
  len : ∀ c, (asc c).length = e.mb
  mat : ∀ b c, c < 0x80 → e.mb ≤ b.length → (e.charMatches b c = true ↔ b.take e.mb = asc c)
  cls : ∀ b t c, t.single = some c → e.mb ≤ b.length → (e.bt b = t ↔ b.take e.mb = asc c)

/-- The spelling of an ASCII character in the one-byte encodings, UTF-16LE and UTF-16BE. -/
def asc1 (c : UInt8) : Buf := [c]
def ascL (c : UInt8) : Buf := [c, 0]
def ascB (c : UInt8) : Buf := [0, c]

/-- Every single-character class of the table is at its own character and nowhere else. -/
def entryOk (x : ByteType) (n : Nat) : Bool :=
  match x.single with
  | some c => c == UInt8.ofNat n
  | none => true

def entriesOk : List ByteType → Nat → Bool
  | [], _ => true
  | x :: xs, n => entryOk x n && entriesOk xs (n + 1)

def singles : List ByteType :=
  [.LT, .AMP, .RSQB, .GT, .QUOT, .APOS, .EQUALS, .QUEST, .EXCL, .SOL, .SEMI, .NUM, .LSQB,
   .MINUS, .PERCNT, .LPAR, .RPAR, .AST, .PLUS, .COMMA, .VERBAR, .LF]

def tableAscOk (t : List ByteType) : Bool :=
  entriesOk t 0 && singles.all fun k =>
    match k.single with
    | some c => t.getD c.toNat .NONXML == k
    | none => true

theorem entriesOk_get (t : List ByteType) (m : Nat) (h : entriesOk t m = true) (n : Nat)
    (k : ByteType) (hk : t[n]? = some k) : entryOk k (m + n) = true := by
  induction t generalizing m n with
  | nil => simp at hk
  | cons x xs ih =>
    simp only [entriesOk, Bool.and_eq_true] at h
    cases n with
    | zero => simp at hk; subst hk; exact h.1
    | succ n =>
      have := ih (m + 1) h.2 n (by simpa using hk)
      rwa [show m + (n + 1) = m + 1 + n by omega]

theorem tableAsc {t} (h : tableAscOk t = true) (c : UInt8) (k : ByteType) (d : UInt8)
    (hk : k.single = some d) : tableBt t c = k ↔ c = d := by
  simp only [tableAscOk, Bool.and_eq_true] at h
  constructor
  · intro h1
    simp only [tableBt, List.getD] at h1
    have h2 : t[c.toNat]? = some k := by
      cases h3 : t[c.toNat]? with
      | none => rw [h3] at h1; simp at h1; subst h1; simp [ByteType.single] at hk
      | some x => rw [h3] at h1; simp at h1; rw [h1]
    have h4 := entriesOk_get t 0 h.1 _ _ h2
    simp only [entryOk, hk, Nat.zero_add, UInt8.ofNat_toNat, beq_iff_eq] at h4
    exact h4.symm
  · intro h1
    subst h1
    have h2 := List.all_eq_true.1 h.2 k (by cases k <;> simp_all [ByteType.single, singles])
    simp only [hk, beq_iff_eq] at h2
    exact h2

theorem take1 {b : Buf} (h : 1 ≤ b.length) : b.take 1 = [byteAt b 0] := by
  match b, h with
  | x :: xs, _ => simp [byteAt]
theorem take2 {b : Buf} (h : 2 ≤ b.length) : b.take 2 = [byteAt b 0, byteAt b 1] := by
  match b, h with
  | x :: y :: xs, _ => simp [byteAt]

theorem utf8EncOf_asc {t} (h : tableAscOk t = true) : (utf8EncOf t).Asc asc1 := by
  refine ⟨fun c => rfl, fun b c _ hb => ?_, fun b k c hk hb => ?_⟩ <;>
    simp only [utf8EncOf, Enc.mb] at hb ⊢ <;> rw [take1 hb]
  · simp [asc1]
  · rw [tableAsc h _ _ _ hk]; simp [asc1]

theorem byteEncOf_asc {t} (h : tableAscOk t = true) : (byteEncOf t).Asc asc1 := by
  refine ⟨fun c => rfl, fun b c _ hb => ?_, fun b k c hk hb => ?_⟩ <;>
    simp only [byteEncOf, Enc.mb] at hb ⊢ <;> rw [take1 hb]
  · simp [asc1]
  · rw [tableAsc h _ _ _ hk]; simp [asc1]

theorem unicodeByteType_single (a b : UInt8) (k : ByteType) (c) (hk : k.single = some c) :
    unicodeByteType a b ≠ k := by
  intro h
  have : unicodeByteType a b = .LEAD4 ∨ unicodeByteType a b = .TRAIL ∨
      unicodeByteType a b = .NONXML ∨ unicodeByteType a b = .NONASCII := by
    simp only [unicodeByteType]; grind
  rw [h] at this
  rcases this with h | h | h | h <;> subst h <;> simp [ByteType.single] at hk

theorem little2EncOf_asc {t} (h : tableAscOk t = true) : (little2EncOf t).Asc ascL := by
  refine ⟨fun c => rfl, fun b c _ hb => ?_, fun b k c hk hb => ?_⟩ <;>
    simp only [little2EncOf, Enc.mb] at hb ⊢ <;> rw [take2 hb]
  · simp [ascL, and_comm]
  · split
    · rename_i h0
      rw [tableAsc h _ _ _ hk]; simp [ascL, h0]
    · rename_i h0
      simp [ascL, h0, unicodeByteType_single _ _ _ _ hk]

theorem big2EncOf_asc {t} (h : tableAscOk t = true) : (big2EncOf t).Asc ascB := by
  refine ⟨fun c => rfl, fun b c _ hb => ?_, fun b k c hk hb => ?_⟩ <;>
    simp only [big2EncOf, Enc.mb, big2Bt?] at hb ⊢ <;> rw [take2 hb]
  · simp [ascB]
  · split
    · rename_i h0
      split
      · simp only [Option.getD_some]
        rw [tableAsc h _ _ _ hk]; simp [ascB, h0]
      · simp only [Option.getD_none, h0]
        rename_i h1
        constructor
        · intro h; subst h; simp [ByteType.single] at hk
        · intro h; simp [ascB] at h
          subst h
          exfalso
          apply h1
          cases k <;> simp [ByteType.single] at hk <;> rw [← hk] <;> decide
    · rename_i h0
      simp [ascB, h0, unicodeByteType_single _ _ _ _ hk]

/-- The supported encodings with their spelling of ASCII. -/
inductive Supported : Enc → (UInt8 → Buf) → Prop
  | utf8 (ns) : Supported (utf8Enc ns) asc1
  | internalUtf8 (ns) : Supported (internalUtf8Enc ns) asc1
  | latin1 (ns) : Supported (latin1Enc ns) asc1
  | ascii (ns) : Supported (asciiEnc ns) asc1
  | utf16le (ns) : Supported (little2Enc ns) ascL
  | utf16be (ns) : Supported (big2Enc ns) ascB

theorem Supported.ok {e asc} (h : Supported e asc) : e.Ok := by
  cases h
  · exact utf8EncOf_ok _
  · exact utf8EncOf_ok _
  · exact byteEncOf_ok _
  · exact byteEncOf_ok _
  · exact little2EncOf_ok _
  · exact big2EncOf_ok _

theorem Supported.asc {e asc} (h : Supported e asc) : e.Asc asc := by
  cases h <;> rename_i ns <;> cases ns
  · exact utf8EncOf_asc (by decide +kernel)
  · exact utf8EncOf_asc (by decide +kernel)
  · exact utf8EncOf_asc (by decide +kernel)
  · exact utf8EncOf_asc (by decide +kernel)
  · exact byteEncOf_asc (by decide +kernel)
  · exact byteEncOf_asc (by decide +kernel)
  · exact byteEncOf_asc (by decide +kernel)
  · exact byteEncOf_asc (by decide +kernel)
  · exact little2EncOf_asc (by decide +kernel)
  · exact little2EncOf_asc (by decide +kernel)
  · exact big2EncOf_asc (by decide +kernel)
  · exact big2EncOf_asc (by decide +kernel)

theorem Supported.mb {e asc} (h : Supported e asc) : e.mb ≤ 2 := by
  cases h <;> simp [Enc.mb, utf8Enc, internalUtf8Enc, latin1Enc, asciiEnc, little2Enc, big2Enc,
    utf8EncOf, byteEncOf, little2EncOf, big2EncOf]

section
variable {e : Enc} {asc : UInt8 → Buf} (s : Supported e asc)
include s

omit s in
theorem single_lt {t : ByteType} {c} (h : t.single = some c) : c < 0x80 := by
  cases t <;> simp [ByteType.single] at h <;> subst h <;> decide

/-- A legal character of a single-character class is that character. -/
theorem char_bt {w : Buf} (hw : e.IsChar w) {t : ByteType} {c} (ht : t.single = some c) (r : Buf) :
    e.bt (w ++ r) = t ↔ w = asc c := by
  have hl := e.isChar_len s.mb hw
  rw [s.ok.bt_app w r hl]
  have h1 := s.asc.cls w t c ht hl
  constructor
  · intro h
    have h2 : w.length = e.mb := by
      simp only [Enc.IsChar, h] at hw
      cases t <;> simp_all [ByteType.single]
    rw [← h1.1 h, List.take_of_length_le (by omega)]
  · intro h
    rw [h1, h, List.take_of_length_le (by rw [s.asc.len]; omega)]

theorem asc_bt {t : ByteType} {c} (ht : t.single = some c) (r : Buf) : e.bt (asc c ++ r) = t := by
  have h := s.asc.len c
  rw [s.asc.cls _ t c ht (by rw [List.length_append]; omega), List.take_append_of_le_length (by omega),
    List.take_of_length_le (by omega)]

theorem asc_char {t : ByteType} {c} (ht : t.single = some c) : e.IsChar (asc c) := by
  have h := asc_bt s ht []
  rw [List.append_nil] at h
  simp only [Enc.IsChar, h, s.asc.len]
  cases t <;> simp_all [ByteType.single]

theorem asc_nl {t : ByteType} {c} (ht : t.single = some c) : e.isLead (asc c) = false := by
  have h := asc_bt s ht []
  rw [List.append_nil] at h
  simp only [Enc.isLead, h]
  cases t <;> simp_all [ByteType.single]

/-- `char_matches` on a legal character. -/
theorem char_mat {w : Buf} (hw : e.IsChar w) {t : ByteType} {c} (ht : t.single = some c) (r : Buf) :
    e.charMatches (w ++ r) c = true ↔ w = asc c := by
  have hl := e.isChar_len s.mb hw
  have hc : c < 0x80 := single_lt ht
  rw [← char_bt s hw ht r, s.asc.mat _ c hc (by rw [List.length_append]; omega),
    s.asc.cls _ t c ht (by rw [List.length_append]; omega)]

theorem asc_mat (c : UInt8) (hc : c < 0x80) (r : Buf) : e.charMatches (asc c ++ r) c = true := by
  have h := s.asc.len c
  rw [s.asc.mat _ c hc (by rw [List.length_append]; omega), List.take_append_of_le_length (by omega),
    List.take_of_length_le (by omega)]

/-- Reading off the next character when `char_matches` succeeds. -/
theorem mat_split {b : Buf} {c} (hc : c < 0x80) (hb : e.mb ≤ b.length)
    (h : e.charMatches b c = true) : b = asc c ++ b.drop e.mb := by
  rw [← (s.asc.mat b c hc hb).1 h, List.take_append_drop]

theorem bt_split {b : Buf} {t : ByteType} {c} (ht : t.single = some c) (hb : e.mb ≤ b.length)
    (h : e.bt b = t) : b = asc c ++ b.drop e.mb := by
  rw [← (s.asc.cls b t c ht hb).1 h, List.take_append_drop]

theorem invalidCases_asc {t : ByteType} {c} (ht : t.single = some c) (r p) :
    invalidCases e (asc c ++ r) p = .other :=
  invalidCases_nl s.ok s.mb (asc_char s ht) (asc_nl s ht) r p

end

end Verif
