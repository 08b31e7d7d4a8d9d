import Verif.CdataRuns
import Verif.Props.C05
import Verif.Props.C06

/-! C01: only well-formed UTF-8 characters are accepted. -/

namespace Verif.C01
open Verif Spec

/-- A buffer that does not begin with the UTF-8 form of an XML character. -/
def IllFormed (b : Buf) : Prop := ∀ c r, XmlChar c → b ≠ utf8 c ++ r

theorem invalidCases_ill (ns : Bool) {b : Buf} (hb : 1 ≤ b.length) (h : IllFormed b) (p) :
    ∃ r, invalidCases (utf8Enc ns) b p = .ret r ∧ (r.tok = .INVALID ∨
      (r.tok = .PARTIAL_CHAR ∧ b.length < 4)) := by
  have s := Supported.utf8 ns
  have hmb : (utf8Enc ns).mb = 1 := rfl
  cases hi : invalidCases (utf8Enc ns) b p with
  | ret r =>
    refine ⟨r, rfl, ?_⟩
    revert hi
    simp only [invalidCases]
    split <;> intro hi <;> grind
  | adv k =>
    obtain ⟨w, w1, w2, w3, w4⟩ := adv_split s hi
    obtain ⟨c, hc, rfl⟩ := (utf8Enc_isChar ns w).1 w1
    exact absurd w4 (h c _ hc)
  | other =>
    obtain ⟨w, w1, w2, w3, w4, w5⟩ := other_split s (by omega) hi
    obtain ⟨c, hc, rfl⟩ := (utf8Enc_isChar ns w).1 w1
    exact absurd w4 (h c _ hc)

theorem truncBuf_one {e : Enc} (h : e.mb = 1) (b : Buf) : truncBuf e b = b := by
  rw [truncBuf, h, Nat.mod_one, Nat.sub_zero, List.take_length]

/-- C01, rejection: at a position where no well-formed character begins, the content and CDATA
tokenizers report INVALID (or, with fewer than four bytes at hand, an incomplete character). -/
theorem illformed_rejected (ns : Bool) (b : Buf) (hb : b ≠ []) (h : IllFormed b) :
    ((contentTok (utf8Enc ns) b).tok = .INVALID ∨
      (contentTok (utf8Enc ns) b).tok = .PARTIAL_CHAR ∧ b.length < 4) ∧
    ((cdataSectionTok (utf8Enc ns) b).tok = .INVALID ∨
      (cdataSectionTok (utf8Enc ns) b).tok = .PARTIAL_CHAR ∧ b.length < 4) := by
  have hl : 1 ≤ b.length := by cases b with
    | nil => exact absurd rfl hb
    | cons => simp
  have ht := truncBuf_one (e := utf8Enc ns) rfl b
  have he : b.isEmpty = false := by cases b with
    | nil => exact absurd rfl hb
    | cons => rfl
  obtain ⟨r, h1, h2⟩ := invalidCases_ill ns hl h 0
  rw [contentTok, cdataSectionTok, ht, he]
  simp only [Bool.false_eq_true, if_false, contentTokBody, cdataTokBody, h1]
  exact ⟨h2, h2⟩

/-- C01, content and CDATA: an accepted data token is the UTF-8 encoding of XML characters. -/
theorem data_wellformed (ns : Bool) (b : Buf) (n : Nat)
    (h : contentTok (utf8Enc ns) b = ⟨.DATA_CHARS, n⟩ ∨
      cdataSectionTok (utf8Enc ns) b = ⟨.DATA_CHARS, n⟩) :
    ∃ cs, cs ≠ [] ∧ (∀ c ∈ cs, XmlChar c) ∧ b.take n = utf8s cs ∧ n ≤ b.length := by
  rcases h with h | h
  · obtain ⟨cs, h1, h2, h3, h4, _⟩ := C05.data_utf8 ns b n h
    refine ⟨cs, h1, fun c hc => (h2 c hc).1, h3, ?_⟩
    have := congrArg List.length h3
    rw [List.length_take] at this; omega
  · have s := Supported.utf8 ns
    have hmb : (utf8Enc ns).mb = 1 := rfl
    rw [cdataSectionTok, truncBuf_one rfl] at h
    split at h
    · cases h
    · rename_i hb
      have hl : 1 ≤ b.length := by cases b with
        | nil => exact absurd rfl hb
        | cons => simp
      obtain ⟨w, ws, r, h1, _, _, h2, h3⟩ := cdataTokBody_data s b n hl h
      obtain ⟨cs, h4, h5⟩ := utf8_chars ns (w :: ws) (fun u hu => (h1 u hu).1)
      refine ⟨cs, ?_, h4, ?_, ?_⟩
      · rintro rfl; cases h5
      · rw [h3, h5, utf8s]
        conv => lhs; rw [h2, h5]
        exact List.take_left
      · conv => rhs; rw [h2]
        rw [h3, List.length_append]; omega

/-- C01, literals (attribute defaults, entity values, system identifiers): the text between the
quotes is the UTF-8 encoding of XML characters. -/
theorem literal_wellformed (ns : Bool) (q : ByteType) (hq : q = .QUOT ∨ q = .APOS) (b : Buf)
    (n : Nat) (h : scanLit (utf8Enc ns) q b 0 = ⟨.LITERAL, n⟩) :
    ∃ (cs : List Nat) (d : UInt8) (r : Buf), (∀ c ∈ cs, XmlChar c) ∧ q.single = some d ∧
      b = utf8s cs ++ d :: r ∧ n = (utf8s cs).length + 1 := by
  have hs : ∃ d, q.single = some d := by rcases hq with rfl | rfl <;> exact ⟨_, rfl⟩
  obtain ⟨d, hd⟩ := hs
  obtain ⟨ws, r, h1, _, h2, h3⟩ := scanLit_chars (Supported.utf8 ns) q d hd hq b 0 n h
  obtain ⟨cs, h4, rfl⟩ := utf8_chars ns ws h1
  exact ⟨cs, d, r, h4, hd, h2, by rw [h3, Nat.zero_add]; rfl⟩

/-- C01, processing instructions: the data is the UTF-8 encoding of XML characters. -/
theorem pi_wellformed (ns : Bool) (t : Tok) (ht : t = .PI ∨ t = .XML_DECL) (b : Buf) (n : Nat)
    (h : scanPiData (utf8Enc ns) t b 0 = ⟨t, n⟩) :
    ∃ (cs : List Nat) (r : Buf), (∀ c ∈ cs, XmlChar c) ∧
      b = utf8s cs ++ 0x3F :: 0x3E :: r ∧ n = (utf8s cs).length + 2 := by
  obtain ⟨ws, r, h1, _, h2, h3⟩ := scanPiData_sound (Supported.utf8 ns) t b 0 n
    (by rcases ht with rfl | rfl <;> rfl) h
  obtain ⟨cs, h4, rfl⟩ := utf8_chars ns ws h1
  exact ⟨cs, r, h4, h2, by rw [h3, Nat.zero_add]; rfl⟩

/-- C01, comments. -/
theorem comment_wellformed (ns : Bool) (b : Buf) (n : Nat)
    (h : scanComment (utf8Enc ns) (0x2D :: b) 0 = ⟨.COMMENT, 1 + n⟩) :
    ∃ (cs : List Nat) (r : Buf), (∀ c ∈ cs, XmlChar c) ∧
      b = utf8s cs ++ 0x2D :: 0x2D :: 0x3E :: r ∧ n = (utf8s cs).length + 3 := by
  obtain ⟨cs, r, h1, _, h2, h3⟩ := (C06.comment_utf8 ns b n).1 h
  exact ⟨cs, r, h1, h2, h3⟩

/-- An XML character that is ordinary character data. -/
def Ordinary (c : Nat) : Prop :=
  XmlChar c ∧ c ≠ 0x3C ∧ c ≠ 0x26 ∧ c ≠ 0x0A ∧ c ≠ 0x0D ∧ c ≠ 0x5D

theorem utf8Enc_cr (ns : Bool) {c : Nat} (h : (utf8Enc ns).bt (utf8 c) = .CR) (hx : XmlChar c) :
    c = 0x0D := by
  have ht : ∀ ns : Bool, ∀ x : UInt8, (utf8Enc ns).bt [x] = .CR → x = 0x0D := by
    intro ns
    cases ns <;> exact UInt8.forall_dec (by decide +kernel)
  have h0 : (utf8Enc ns).bt (utf8 c) = (utf8Enc ns).bt [byteAt (utf8 c) 0] := by
    simp [utf8Enc, utf8EncOf, byteAt]
  rw [h0] at h
  have h1 := ht ns _ h
  have hch : (utf8Enc ns).IsChar (utf8 c) := (utf8Enc_isChar ns _).2 ⟨c, hx, rfl⟩
  rw [← h0] at h
  simp only [Enc.IsChar, h] at hch
  have h2 := take1 (b := utf8 c) (by rw [hch]; exact Nat.le_refl _)
  rw [h1] at h2
  have h3 : utf8 c = [0x0D] := by
    rw [← h2]; exact (List.take_of_length_le (by rw [hch]; exact Nat.le_refl _)).symm
  exact (utf8_ascii 0x0D (by decide)).1 h3

theorem contentLoop_ordinary (ns : Bool) (cs : List Nat) (h : ∀ c ∈ cs, Ordinary c) (p) :
    contentLoop (utf8Enc ns) (utf8s cs) p = ⟨.DATA_CHARS, p + (utf8s cs).length⟩ := by
  have s := Supported.utf8 ns
  induction cs generalizing p with
  | nil => rw [utf8s, contentLoop]; rfl
  | cons c cs ih =>
    obtain ⟨h1, h2, h3, h4, h5, h6⟩ := h c (by simp)
    rw [show utf8s (c :: cs) = utf8 c ++ utf8s cs from rfl]
    rw [C01_step c h1 h2 h3 h4 h5 h6, ih (fun c hc => h c (by simp [hc])), List.length_append,
      Nat.add_assoc]
where
  C01_step {p} (c : Nat) (h1 : XmlChar c) (h2 : c ≠ 0x3C) (h3 : c ≠ 0x26) (h4 : c ≠ 0x0A)
      (h5 : c ≠ 0x0D) (h6 : c ≠ 0x5D) {r : Buf} :
      contentLoop (utf8Enc ns) (utf8 c ++ r) p
        = contentLoop (utf8Enc ns) r (p + (utf8 c).length) := by
    refine contentLoop_char (Supported.utf8 ns) ((utf8Enc_isChar ns _).2 ⟨c, h1, rfl⟩) ?_ ?_ ?_ ?_ _ _ ?_
    · intro h; exact h2 ((utf8_ascii 0x3C (by decide)).1 h)
    · intro h; exact h3 ((utf8_ascii 0x26 (by decide)).1 h)
    · intro h; exact h4 ((utf8_ascii 0x0A (by decide)).1 h)
    · intro h; exact h5 (utf8Enc_cr ns h h1)
    · intro h; exact absurd ((utf8_ascii 0x5D (by decide)).1 h) h6

/-- C01, acceptance: every string of ordinary XML characters is accepted as character data, in
one token, whatever the characters' UTF-8 lengths. -/
theorem data_accepted (ns : Bool) (cs : List Nat) (hne : cs ≠ []) (h : ∀ c ∈ cs, Ordinary c) :
    contentTok (utf8Enc ns) (utf8s cs) = ⟨.DATA_CHARS, (utf8s cs).length⟩ := by
  have s := Supported.utf8 ns
  cases cs with
  | nil => exact absurd rfl hne
  | cons c cs =>
    obtain ⟨h1, h2, h3, h4, h5, h6⟩ := h c (by simp)
    have hch : (utf8Enc ns).IsChar (utf8 c) := (utf8Enc_isChar ns _).2 ⟨c, h1, rfl⟩
    have hl := (utf8Enc ns).isChar_len s.mb hch
    rw [show utf8s (c :: cs) = utf8 c ++ utf8s cs from rfl,
      contentTok_eq (by rw [List.length_append]; omega), truncBuf_one rfl,
      contentTokBody_char s hch, contentLoop_ordinary ns cs (fun c hc => h c (by simp [hc])),
      List.length_append]
    · intro h; exact h2 ((utf8_ascii 0x3C (by decide)).1 h)
    · intro h; exact h3 ((utf8_ascii 0x26 (by decide)).1 h)
    · intro h; exact h4 ((utf8_ascii 0x0A (by decide)).1 h)
    · intro h; exact h5 (utf8Enc_cr ns h h1)
    · intro h; exact absurd ((utf8_ascii 0x5D (by decide)).1 h) h6

/-! Non-vacuity: an overlong slash, a surrogate, a truncated and an out-of-range sequence are
ill-formed and rejected; é, € and 😀 are ordinary characters. -/
example : contentTok (utf8Enc false) [0xC0, 0xAF, 0x61, 0x61] = ⟨.INVALID, 0⟩ := by decide +kernel
example : contentTok (utf8Enc false) [0xED, 0xA0, 0x80, 0x61] = ⟨.INVALID, 0⟩ := by decide +kernel
example : contentTok (utf8Enc false) [0xE2, 0x82] = ⟨.PARTIAL_CHAR, 0⟩ := by decide +kernel
example : contentTok (utf8Enc false) [0xF4, 0x90, 0x80, 0x80] = ⟨.INVALID, 0⟩ := by decide +kernel
example : ∀ c ∈ [0xE9, 0x20AC, 0x1F600], Ordinary c := by unfold Ordinary; decide
example : contentTok (utf8Enc false) (utf8s [0xE9, 0x20AC, 0x1F600]) = ⟨.DATA_CHARS, 9⟩ := by
  decide +kernel
example : scanLit (utf8Enc false) .QUOT [0xC3, 0xA9, 0x22, 0x3E] 0 = ⟨.LITERAL, 3⟩ := by
  decide +kernel
example : cdataSectionTok (utf8Enc false) [0xC3, 0xA9, 0x26] = ⟨.DATA_CHARS, 3⟩ := by
  decide +kernel

end Verif.C01
