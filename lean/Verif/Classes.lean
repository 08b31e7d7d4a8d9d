import Verif.CdataRuns
import Verif.ScanAux

/-! Byte classes consisting of ASCII characters only (digits, white space, ...), read uniformly
over all built-in encodings. -/

namespace Verif
open Tables Spec

/-- The class tables of the built-in encodings. -/
def allTables : List (List ByteType) :=
  [utf8EncodingTable, utf8EncodingTableNS, internalUtf8EncodingTable, internalUtf8EncodingTableNS,
   latin1EncodingTable, latin1EncodingTableNS, asciiEncodingTable, asciiEncodingTableNS]

/-- Structural check that the table `t` has classes in `K` exactly at the bytes in `A`. -/
def classOk (K : ByteType → Bool) (A : UInt8 → Bool) : List ByteType → Nat → Bool
  | [], _ => true
  | x :: xs, n => (K x == A (UInt8.ofNat n)) && classOk K A xs (n + 1)

theorem classOk_get {K A} (t : List ByteType) (m : Nat) (h : classOk K A t m = true) (n : Nat)
    (k : ByteType) (hk : t[n]? = some k) : K k = A (UInt8.ofNat (m + n)) := by
  induction t generalizing m n with
  | nil => simp at hk
  | cons x xs ih =>
    simp only [classOk, Bool.and_eq_true, beq_iff_eq] at h
    cases n with
    | zero => simp at hk; subst hk; exact h.1
    | succ n =>
      have := ih (m + 1) h.2 n (by simpa using hk)
      rw [this]; congr 2; omega

theorem classOk_table {K A t} (h : classOk K A t 0 = true) (hl : t.length = 256) (c : UInt8) :
    K (tableBt t c) = A c := by
  have hc := c.toNat_lt
  have h1 : t[c.toNat]? = some (tableBt t c) := by
    simp only [tableBt, List.getD]
    rw [List.getElem?_eq_getElem (by omega)]; rfl
  have := classOk_get t 0 h _ _ h1
  simpa using this

/-- `K` is a set of byte classes that occurs exactly at the ASCII characters in `A`. -/
structure AsciiClass (K : ByteType → Bool) (A : UInt8 → Bool) : Prop where
  lead4 : K .LEAD4 = false
  trail : K .TRAIL = false
  nonxml : K .NONXML = false
  nonascii : K .NONASCII = false
  ascii : ∀ c, A c = true → c < 0x80
  tables : ∀ t ∈ allTables, classOk K A t 0 = true

theorem table_mem (ns : Bool) :
    (if ns then utf8EncodingTableNS else utf8EncodingTable) ∈ allTables ∧
    (if ns then internalUtf8EncodingTableNS else internalUtf8EncodingTable) ∈ allTables ∧
    (if ns then latin1EncodingTableNS else latin1EncodingTable) ∈ allTables ∧
    (if ns then asciiEncodingTableNS else asciiEncodingTable) ∈ allTables := by
  cases ns <;> simp [allTables]

theorem table_len : ∀ t ∈ allTables, t.length = 256 := by decide +kernel

theorem AsciiClass.table {K A} (h : AsciiClass K A) {t} (ht : t ∈ allTables) (c : UInt8) :
    K (tableBt t c) = A c := classOk_table (h.tables t ht) (table_len t ht) c

theorem AsciiClass.uni {K A} (h : AsciiClass K A) (a b : UInt8) : K (unicodeByteType a b) = false := by
  have : unicodeByteType a b = .LEAD4 ∨ unicodeByteType a b = .TRAIL ∨
      unicodeByteType a b = .NONXML ∨ unicodeByteType a b = .NONASCII := by
    simp only [unicodeByteType]; grind
  rcases this with h1 | h1 | h1 | h1 <;> rw [h1]
  · exact h.lead4
  · exact h.trail
  · exact h.nonxml
  · exact h.nonascii

/-- The class of the character at the head of the buffer is in `K` exactly when that character
is an ASCII character in `A`. -/
theorem Supported.class {e asc} (s : Supported e asc) {K A} (h : AsciiClass K A) {b : Buf}
    (hb : e.mb ≤ b.length) : K (e.bt b) = true ↔ ∃ c, A c = true ∧ b.take e.mb = asc c := by
  have one : ∀ t ∈ allTables, 1 ≤ b.length →
      (K (tableBt t (byteAt b 0)) = true ↔ ∃ c, A c = true ∧ b.take 1 = asc1 c) := by
    intro t ht hb
    rw [h.table ht, take1 hb]
    simp [asc1]
  cases s with
  | utf8 ns => exact one _ (table_mem ns).1 hb
  | internalUtf8 ns => exact one _ (table_mem ns).2.1 hb
  | latin1 ns => exact one _ (table_mem ns).2.2.1 hb
  | ascii ns => exact one _ (table_mem ns).2.2.2 hb
  | utf16le ns =>
    have hb : 2 ≤ b.length := hb
    show K (if byteAt b 1 = 0 then _ else _) = true ↔ ∃ c, A c = true ∧ b.take 2 = ascL c
    rw [take2 hb]
    split
    · rename_i h0
      rw [h.table (table_mem ns).2.2.1]; simp [ascL, h0]
    · rename_i h0
      rw [h.uni]; simp [ascL, h0]
  | utf16be ns =>
    have hb : 2 ≤ b.length := hb
    show K ((big2Bt? _ b).getD .NONXML) = true ↔ ∃ c, A c = true ∧ b.take 2 = ascB c
    rw [take2 hb, big2Bt?]
    split
    · rename_i h0
      split
      · rw [Option.getD_some, h.table (table_mem ns).2.2.1]; simp [ascB, h0]
      · rename_i h1
        rw [Option.getD_none, h.nonxml]
        simp only [ascB, h0, Bool.false_eq_true, false_iff]
        rintro ⟨c, h2, h3⟩
        simp at h3; subst h3
        exact h1 (UInt8.lt_iff_toNat_lt.1 (h.ascii _ h2))
    · rename_i h0
      rw [Option.getD_some, h.uni]; simp [ascB, h0]

theorem Supported.class_app {e asc} (s : Supported e asc) {K A} (h : AsciiClass K A) {c : UInt8}
    (hc : A c = true) (r : Buf) : K (e.bt (asc c ++ r)) = true := by
  have l := s.asc.len c
  rw [s.class h (by rw [List.length_append]; omega)]
  exact ⟨c, hc, by rw [List.take_append_of_le_length (by omega), List.take_of_length_le (by omega)]⟩

/-- Reading off the character. -/
theorem Supported.class_split {e asc} (s : Supported e asc) {K A} (h : AsciiClass K A) {b : Buf}
    (hb : e.mb ≤ b.length) (hk : K (e.bt b) = true) :
    ∃ c, A c = true ∧ b = asc c ++ b.drop e.mb := by
  obtain ⟨c, h1, h2⟩ := (s.class h hb).1 hk
  exact ⟨c, h1, by rw [← h2, List.take_append_drop]⟩

theorem Supported.toAscii {e asc} (s : Supported e asc) (c : UInt8) (r : Buf) :
    e.toAscii (asc c ++ r) = c := by
  cases s <;> simp [utf8Enc, internalUtf8Enc, latin1Enc, asciiEnc, little2Enc, big2Enc, utf8EncOf,
    byteEncOf, little2EncOf, big2EncOf, byteAt, asc1, ascL, ascB]

theorem Supported.asc_inj {e asc} (s : Supported e asc) {c d : UInt8} (h : asc c = asc d) :
    c = d := by
  have h1 := s.toAscii c []
  have h2 := s.toAscii d []
  rw [h] at h1
  exact h1.symm.trans h2

theorem Supported.matches_asc {e asc} (s : Supported e asc) {c d : UInt8} (hd : d < 0x80)
    (r : Buf) : e.charMatches (asc c ++ r) d = true ↔ c = d := by
  have l := s.asc.len c
  rw [s.asc.mat _ _ hd (by rw [List.length_append]; omega),
    List.take_append_of_le_length (by omega), List.take_of_length_le (by omega)]
  exact ⟨fun h => s.asc_inj h, fun h => by rw [h]⟩

/-- `0`..`9` -/
def isDec (c : UInt8) : Bool := decide (0x30 ≤ c ∧ c ≤ 0x39)
/-- `a`..`f`, `A`..`F` -/
def isHexLetter (c : UInt8) : Bool := decide (0x41 ≤ c ∧ c ≤ 0x46 ∨ 0x61 ≤ c ∧ c ≤ 0x66)
/-- white space -/
def isWS (c : UInt8) : Bool := c == 0x20 || c == 0x09 || c == 0x0A || c == 0x0D

theorem digitClass : AsciiClass (· == .DIGIT) isDec := by
  refine ⟨rfl, rfl, rfl, rfl, UInt8.forall_dec (by decide +kernel), by decide +kernel⟩
theorem hexClass : AsciiClass (· == .HEX) isHexLetter := by
  refine ⟨rfl, rfl, rfl, rfl, UInt8.forall_dec (by decide +kernel), by decide +kernel⟩
theorem hexDigitClass : AsciiClass (fun t => t == .DIGIT || t == .HEX)
    (fun c => isDec c || isHexLetter c) := by
  refine ⟨rfl, rfl, rfl, rfl, UInt8.forall_dec (by decide +kernel), by decide +kernel⟩
theorem spaceClass : AsciiClass (fun t => t == .S || t == .CR || t == .LF) isWS := by
  refine ⟨rfl, rfl, rfl, rfl, UInt8.forall_dec (by decide +kernel), by decide +kernel⟩
theorem semiClass : AsciiClass (· == .SEMI) (· == 0x3B) := by
  refine ⟨rfl, rfl, rfl, rfl, UInt8.forall_dec (by decide +kernel), by decide +kernel⟩

end Verif
