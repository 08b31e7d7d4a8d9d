import Verif.Props.C47
import Verif.Props.C12
import Verif.Props.C11
import Verif.Refs
import Verif.UnknownEnc

/-! C20: encodings supplied by the application's unknown-encoding handler: which maps are accepted, and what a document
in an accepted encoding means. -/

set_option autoImplicit false

namespace Verif.C20
open Verif Spec Tables

/-! ### Specification -/

/-- The ASCII characters that every accepted encoding must write as in ASCII (expat.h, description of `XML_Encoding`:
the characters of well-formed documents other than `$@\^` and grave, braces and tilde). -/
def Fixed (c : Int) : Prop :=
  (c = 9 ∨ c = 10 ∨ c = 13 ∨ (0x20 ≤ c ∧ c ≤ 0x7E)) ∧ c ∉ [0x24, 0x40, 0x5C, 0x5E, 0x60, 0x7B, 0x7D, 0x7E]

instance (c : Int) : Decidable (Fixed c) := by unfold Fixed; infer_instance

/-- Entry `b` of the map. -/
def entry (m : List Int) (b : Nat) : Int := m.getD b (-1)

/-- The maps that are accepted; `conv`: the handler has also given a converter. -/
structure MapOk (m : List Int) (conv : Bool) : Prop where
  /-- The characters of `Fixed` are written as in ASCII. -/
  ascii : ∀ b : Nat, Fixed b → entry m b = b
  /-- A byte stands for nothing; or begins a sequence of two to four bytes; or stands for a character of the Basic
  Multilingual Plane, which is not one of `Fixed` in a second spelling. -/
  entries : ∀ b < 256, entry m b = -1 ∨ (-4 ≤ entry m b ∧ entry m b ≤ -2 ∧ conv = true) ∨
    (0 ≤ entry m b ∧ entry m b ≤ 0xFFFF ∧ (Fixed (entry m b) → entry m b = b))

/-- The byte sequence `w` stands for the code point `c`. -/
inductive Means (m : List Int) (f : Option (Buf → Int)) : Buf → Nat → Prop
  | one {b : UInt8} {c : Nat} : entry m b.toNat = c → Means m f [b] c
  | more {b : UInt8} {r : Buf} {g : Buf → Int} {c : Nat} : 1 ≤ r.length → entry m b.toNat = -((r.length : Int) + 1) →
      f = some g → g (b :: r) = c → Means m f (b :: r) c

/-! ### The tables -/

theorem fixed_iff {c : Nat} (h : c < 128) :
    (latin1EncodingTable.getD c .NONXML ≠ .OTHER ∧ latin1EncodingTable.getD c .NONXML ≠ .NONXML) ↔ Fixed c := by
  have : ∀ c < 128, (latin1EncodingTable.getD c .NONXML ≠ .OTHER ∧ latin1EncodingTable.getD c .NONXML ≠ .NONXML) ↔
      Fixed (c : Int) := by decide +kernel
  exact this c h

theorem fixed_lt {c : Int} (h : Fixed c) : 0 ≤ c ∧ c < 128 := by unfold Fixed at h; omega

theorem asciiOk_iff (m : List Int) (hl : m.length = 256) :
    unknownAsciiOk m = true ↔ ∀ b : Nat, Fixed b → entry m b = b := by
  have he : ∀ b < 128, m.getD b 0 = entry m b := by
    intro b hb
    rw [entry, List.getD_eq_getElem?_getD, List.getD_eq_getElem?_getD, List.getElem?_eq_getElem (by omega)]; rfl
  rw [unknownAsciiOk, List.all_eq_true]
  constructor
  · intro h b hb
    have h1 : b < 128 := by have := fixed_lt hb; omega
    have h2 := h b (by simpa using h1)
    have h3 := (fixed_iff h1).2 hb
    simp only [Bool.or_eq_true, beq_iff_eq] at h2
    rw [← he b h1]
    rcases h2 with (h2 | h2) | h2
    · exact absurd h2 h3.1
    · exact absurd h2 h3.2
    · exact h2
  · intro h b hb
    have h1 : b < 128 := by simpa using hb
    simp only [Bool.or_eq_true, beq_iff_eq]
    by_cases h2 : Fixed b
    · right; rw [he b h1]; exact h b h2
    · rw [← fixed_iff h1] at h2
      left
      by_cases h3 : latin1EncodingTable.getD b .NONXML = .OTHER
      · exact .inl h3
      · exact .inr (Classical.not_not.1 fun h4 => h2 ⟨h3, h4⟩)

theorem entries_some (hc : Bool) (cs : List Int) (i : Nat) :
    (unknownEntries hc i cs).isSome = true ↔ ∀ j < cs.length, (unknownEntry hc (i + j) (entry cs j)).isSome = true := by
  induction cs generalizing i with
  | nil => simp [unknownEntries]
  | cons c cs ih =>
    have hrec : (∀ j < (c :: cs).length, (unknownEntry hc (i + j) (entry (c :: cs) j)).isSome = true) ↔
        (unknownEntry hc i c).isSome = true ∧ ∀ j < cs.length, (unknownEntry hc (i + 1 + j) (entry cs j)).isSome = true := by
      constructor
      · intro h
        refine ⟨by simpa [entry] using h 0 (by simp), fun j hj => ?_⟩
        have := h (j + 1) (by simpa using hj)
        rw [show i + (j + 1) = i + 1 + j by omega] at this
        simpa [entry] using this
      · rintro ⟨h1, h2⟩ j hj
        cases j with
        | zero => simpa [entry] using h1
        | succ j =>
          have := h2 j (by simpa using hj)
          rw [show i + (j + 1) = i + 1 + j by omega]
          simpa [entry] using this
    rw [hrec, ← ih (i + 1), unknownEntries]
    cases h1 : unknownEntry hc i c with
    | none => simp
    | some x => cases h2 : unknownEntries hc (i + 1) cs <;> simp

theorem entries_get (hc : Bool) (cs : List Int) (i : Nat) {es} (h : unknownEntries hc i cs = some es) (j : Nat)
    (hj : j < cs.length) : ∃ x, es[j]? = some x ∧ unknownEntry hc (i + j) (entry cs j) = some x := by
  induction cs generalizing i es j with
  | nil => simp at hj
  | cons c cs ih =>
    rw [unknownEntries] at h
    cases h1 : unknownEntry hc i c with
    | none => rw [h1] at h; simp at h
    | some x =>
      cases h2 : unknownEntries hc (i + 1) cs with
      | none => rw [h1, h2] at h; simp at h
      | some xs =>
        rw [h1, h2] at h
        simp only [Option.bind_eq_bind, Option.bind_some, Option.pure_def, Option.some.injEq] at h
        subst h
        cases j with
        | zero => exact ⟨x, by simp, by simpa [entry] using h1⟩
        | succ j =>
          obtain ⟨y, h3, h4⟩ := ih (i + 1) h2 j (by simpa using hj)
          refine ⟨y, by simpa using h3, ?_⟩
          rw [show i + (j + 1) = i + 1 + j by omega]
          simpa [entry] using h4

/-- One entry is accepted exactly as specified. -/
theorem entry_iff (conv : Bool) (b : Nat) (c : Int) : (unknownEntry conv b c).isSome = true ↔
    c = -1 ∨ (-4 ≤ c ∧ c ≤ -2 ∧ conv = true) ∨ (0 ≤ c ∧ c ≤ 0xFFFF ∧ (Fixed c → c = b)) := by
  unfold unknownEntry
  by_cases h1 : c = -1
  · simp [h1]
  rw [if_neg h1]
  by_cases h2 : c < 0
  · rw [if_pos h2]
    by_cases h3 : c < -4
    · rw [if_pos h3]; simp; omega
    · rw [if_neg h3]; cases conv <;> simp <;> omega
  rw [if_neg h2]
  by_cases h3 : c < 0x80
  · rw [if_pos h3]
    obtain ⟨n, rfl⟩ := Int.eq_ofNat_of_zero_le (show 0 ≤ c by omega)
    have hf := fixed_iff (show n < 128 by omega)
    simp only [Int.toNat_natCast]
    split
    · rename_i h4
      have := hf.1 ⟨h4.1, h4.2.1⟩
      simp only [Option.isSome_none, Bool.false_eq_true, false_iff]
      rintro (h | h | h)
      · omega
      · omega
      · exact h4.2.2 (h.2.2 this)
    · rename_i h4
      simp only [Option.isSome_some, true_iff]
      refine .inr (.inr ⟨by omega, by omega, fun h5 => ?_⟩)
      have h6 := hf.2 h5
      exact Classical.not_not.1 fun h7 => h4 ⟨h6.1, h6.2, h7⟩
  rw [if_neg h3]
  have hnf : ¬ Fixed c := fun h => by have := fixed_lt h; omega
  split
  · rename_i h4
    simp only [Option.isSome_some, true_iff]
    refine .inr (.inr ⟨by omega, ?_, fun h => absurd h hnf⟩)
    unfold checkCharRefNumber at h4
    split at h4
    · omega
    · split at h4
      · omega
      · split at h4 <;> omega
  · split
    · simp; omega
    · simp only [Option.isSome_some, true_iff]
      exact .inr (.inr ⟨by omega, by omega, fun h => absurd h hnf⟩)

/-! ### Acceptance -/

/-- C20: a map (of 256 entries) is accepted exactly when it is as specified, with and without namespace
processing. -/
theorem accepted_iff (m : List Int) (hl : m.length = 256) (f : Option (Buf → Int)) (ns : Bool) :
    (unknownInit m f ns).isSome = true ↔ MapOk m f.isSome := by
  have h1 := asciiOk_iff m hl
  have h2 := entries_some f.isSome m 0
  have h3 : (unknownInit m f ns).isSome = true ↔
      unknownAsciiOk m = true ∧ (unknownEntries f.isSome 0 m).isSome = true := by
    rw [unknownInit]
    cases unknownAsciiOk m <;> simp
    cases unknownEntries f.isSome 0 m <;> simp
  rw [h3, h1, h2]
  constructor
  · rintro ⟨a, b⟩
    refine ⟨a, fun j hj => ?_⟩
    have := (entry_iff _ _ _).1 (b j (by omega))
    simpa using this
  · rintro ⟨a, b⟩
    refine ⟨a, fun j hj => (entry_iff _ _ _).2 ?_⟩
    have := b j (by omega)
    simpa using this

/-! ### What an accepted map means -/

theorem entry_char {conv : Bool} {b n : Nat} {x : ByteType × List UInt8} (h : unknownEntry conv b n = some x) :
    n ≤ 0xFFFF ∧ C47.plainClass x.1 = true ∧ x.1 ≠ .MALFORM ∧ x.1 ≠ .TRAIL ∧ (x.1 = .NONXML ↔ ¬ XmlChar n) ∧
    (XmlChar n → x.2 = utf8 n ∧ (C47.startClass x.1 = true ↔ InRanges nameStart n) ∧
      (C47.nameClass x.1 = true ↔ InRanges nameChar n)) := by
  unfold unknownEntry at h
  rw [if_neg (by omega), if_neg (by omega)] at h
  by_cases h3 : n < 0x80
  · rw [if_pos (by omega)] at h
    simp only [Int.toNat_natCast] at h
    split at h
    · cases h
    · simp only [Option.some.injEq] at h
      subst h
      have t1 : ∀ n < 128, latin1EncodingTable.getD n .NONXML ≠ .MALFORM ∧ latin1EncodingTable.getD n .NONXML ≠ .TRAIL ∧
          (latin1EncodingTable.getD n .NONXML = .NONXML ↔ ¬ XmlChar n) := by decide +kernel
      have t2 := C47.tableOk_get (ns := false) (ex := []) (lim := 0x80) latin1EncodingTable 0 (by decide +kernel) n
        (latin1EncodingTable.getD n .NONXML)
        (by
          have hl : latin1EncodingTable.length = 256 := by decide +kernel
          rw [List.getD_eq_getElem?_getD, List.getElem?_eq_getElem (by omega)]; rfl)
        (by omega) (by simp)
      simp only [Nat.zero_add, Bool.false_eq_true, false_and, not_false_eq_true, and_true] at t2
      obtain ⟨a1, a2, a3⟩ := t1 n h3
      exact ⟨by omega, t2.2.2, a1, a2, a3, fun _ => ⟨by rw [utf8, if_pos h3], t2.1, t2.2.1⟩⟩
  · rw [if_neg (by omega)] at h
    split at h
    · rename_i h4
      simp only [Option.some.injEq] at h
      subst h
      have h5 : n ≤ 0xFFFF := by
        unfold checkCharRefNumber at h4
        split at h4
        · omega
        · split at h4
          · omega
          · split at h4 <;> omega
      rw [checkCharRefNumber_spec n (by omega)] at h4
      have h6 : ¬ XmlChar n := by intro h6; rw [if_pos h6] at h4; omega
      exact ⟨h5, rfl, by simp, by simp, by simp [h6], fun h => absurd h h6⟩
    · rename_i h4
      split at h
      · cases h
      · have h5 : n ≤ 0xFFFF := by omega
        rw [checkCharRefNumber_spec n (by omega)] at h4
        have h6 : XmlChar n := Classical.not_not.1 fun h6 => by rw [if_neg h6] at h4; omega
        simp only [Int.toNat_natCast, Option.some.injEq, C11.encode_spec n (show n < 0x110000 by omega)] at h
        have e1 : n >>> 8 = n / 256 := by rw [Nat.shiftRight_eq_div_pow]
        have e2 : n &&& 0xff = n % 256 := Nat.and_two_pow_sub_one_eq_mod n 8
        have e3 : 256 * (n / 256) + n % 256 = n := Nat.div_add_mod n 256
        have n1 := nmstrt_ucs2 (n / 256) (n % 256) (by omega) (by omega)
        have n2 := name_ucs2 (n / 256) (n % 256) (by omega) (by omega)
        rw [e3] at n1 n2
        simp only [e1, e2] at h
        subst h
        have q := C47.start_is_name n
        generalize InRanges nameStart n = P at *
        generalize InRanges nameChar n = Q at *
        generalize ucs2Naming nmstrtPages (n / 256) (n % 256) = s at *
        generalize ucs2Naming namePages (n / 256) (n % 256) = t at *
        refine ⟨h5, ?_⟩
        cases s <;> cases t <;> simp_all [C47.plainClass, C47.startClass, C47.nameClass]

section
variable {m : List Int} {f : Option (Buf → Int)} {ns : Bool} {u : Unknown} (h : unknownInit m f ns = some u)
  (hl : m.length = 256)
include h hl

theorem tables (b : UInt8) : ∃ x, unknownEntry f.isSome b.toNat (entry m b.toNat) = some x ∧
    tableBt u.types b = (if ns = true ∧ b = 0x3A then .COLON else x.1) ∧ u.utf8.getD b.toNat [] = x.2 ∧ u.convert = f := by
  rw [unknownInit] at h
  split at h
  · cases h
  cases h1 : unknownEntries f.isSome 0 m with
  | none => rw [h1] at h; simp at h
  | some es =>
    rw [h1] at h
    simp only [Option.bind_eq_bind, Option.bind_some, Option.pure_def, Option.some.injEq] at h
    have hb : b.toNat < 256 := b.toNat_lt
    obtain ⟨x, h2, h3⟩ := entries_get _ _ _ h1 b.toNat (by omega)
    rw [Nat.zero_add] at h3
    refine ⟨x, h3, ?_, ?_, by rw [← h]⟩
    · rw [← h, tableBt]
      cases ns
      · simp [List.getD_eq_getElem?_getD, h2]
      · have hlt : b.toNat < es.length := (List.getElem?_eq_some_iff.1 h2).1
        simp only [↓reduceIte, true_and, List.getD_eq_getElem?_getD]
        by_cases hc : b = 0x3A
        · subst hc
          rw [if_pos rfl, show UInt8.toNat 0x3A = 0x3A from rfl, List.getElem?_set_self (by simpa using hlt)]; rfl
        · rw [if_neg hc, List.getElem?_set_ne (by intro h; apply hc; exact UInt8.toNat_inj.1 h.symm)]
          simp [h2]
    · rw [← h]; simp [List.getD_eq_getElem?_getD, h2]

/-- The colon stands for itself. -/
theorem colon : entry m 0x3A = 0x3A := by
  have := (accepted_iff m hl f ns).1 (by rw [h]; rfl)
  exact this.ascii 0x3A (by decide)

/-- The class of the byte `b` when it stands for the character `n`. -/
theorem class_one {b : UInt8} {n : Nat} (he : entry m b.toNat = n) :
    ∃ x, unknownEntry f.isSome b.toNat n = some x ∧
      (unknownEncOf u).bt [b] = (if ns = true ∧ b = 0x3A then .COLON else x.1) ∧ u.utf8.getD b.toNat [] = x.2 := by
  obtain ⟨x, h1, h2, h3, -⟩ := tables h hl b
  rw [he] at h1
  exact ⟨x, h1, h2, h3⟩

theorem class_lead {b : UInt8} {k : Nat} (he : entry m b.toNat = -((k : Int) + 2)) (r : Buf) :
    k ≤ 2 ∧ (∃ g, f = some g) ∧ (unknownEncOf u).bt (b :: r) = (if k = 0 then .LEAD2 else if k = 1 then .LEAD3 else .LEAD4) ∧
      u.utf8.getD b.toNat [] = [] := by
  obtain ⟨x, h1, h2, h3, -⟩ := tables h hl b
  rw [he] at h1
  have hb : ¬ (ns = true ∧ b = 0x3A) := by
    rintro ⟨-, rfl⟩
    have := colon h hl
    have he : entry m 0x3A = -((k : Int) + 2) := he
    omega
  rw [if_neg hb] at h2
  have h2 : (unknownEncOf u).bt (b :: r) = x.1 := h2
  unfold unknownEntry at h1
  rw [if_neg (by omega), if_pos (by omega)] at h1
  split at h1
  · cases h1
  · split at h1
    · cases h1
    · rename_i h5 h6
      simp only [Option.some.injEq] at h1
      subst h1
      refine ⟨by omega, ?_, ?_, h3⟩
      · cases f with
        | none => simp at h6
        | some g => exact ⟨g, rfl⟩
      · rw [h2]
        have : k = 0 ∨ k = 1 ∨ k = 2 := by omega
        rcases this with rfl | rfl | rfl <;> rfl

/-- C20: a byte sequence is taken for a legal character exactly when the map (and converter) make it stand for a
character of XML in the Basic Multilingual Plane. -/
theorem legal_iff (w : Buf) : (unknownEncOf u).IsChar w ↔ ∃ c ≤ 0xFFFF, Means m f w c ∧ XmlChar c := by
  cases w with
  | nil =>
    have : ¬ ∃ c ≤ 0xFFFF, Means m f [] c ∧ XmlChar c := by rintro ⟨c, -, hm, -⟩; cases hm
    simp only [this, iff_false, Enc.IsChar]
    generalize (unknownEncOf u).bt [] = t
    cases t <;> simp [Enc.mb]
  | cons b r =>
    have hbt : (unknownEncOf u).bt (b :: r) = (unknownEncOf u).bt [b] := rfl
    have hmb : (unknownEncOf u).mb = 1 := rfl
    by_cases h0 : 0 ≤ entry m b.toNat
    · obtain ⟨n, hn⟩ := Int.eq_ofNat_of_zero_le h0
      obtain ⟨x, h1, h2, -⟩ := class_one h hl hn
      obtain ⟨a1, a2, a3, a4, a5, -⟩ := entry_char h1
      have hmean : (∃ c ≤ 0xFFFF, Means m f (b :: r) c ∧ XmlChar c) ↔ r = [] ∧ XmlChar n := by
        constructor
        · rintro ⟨c, -, hm, hx⟩
          cases hm with
          | one he => rw [hn] at he; have : n = c := by omega
                      subst this; exact ⟨rfl, hx⟩
          | more h3 he _ _ => omega
        · rintro ⟨rfl, hx⟩; exact ⟨n, a1, .one hn, hx⟩
      rw [hmean]
      simp only [Enc.IsChar, hbt, h2]
      by_cases hc : ns = true ∧ b = 0x3A
      · rw [if_pos hc]
        have : n = 0x3A := by
          have := colon h hl
          rw [hc.2] at hn
          have hn : entry m 0x3A = n := hn
          omega
        subst this
        have : XmlChar 0x3A := by decide
        simp [hmb, this]
      · rw [if_neg hc]
        have hr : (b :: r).length = (unknownEncOf u).mb ↔ r = [] := by simp [hmb]
        generalize x.1 = t at *
        cases t <;> simp_all [C47.plainClass]
    · by_cases h1 : entry m b.toNat = -1
      · have hmean : ¬ ∃ c ≤ 0xFFFF, Means m f (b :: r) c ∧ XmlChar c := by
          rintro ⟨c, -, hm, -⟩
          cases hm with
          | one he => omega
          | more h3 he _ _ => omega
        simp only [hmean, iff_false, Enc.IsChar, hbt]
        obtain ⟨x, h2, h3, -⟩ := tables h hl b
        have hc : ¬ (ns = true ∧ b = 0x3A) := by
          rintro ⟨-, rfl⟩
          have := colon h hl
          have h1 : entry m 0x3A = -1 := h1
          omega
        rw [if_neg hc] at h3
        rw [h1, unknownEntry, if_pos rfl] at h2
        simp only [Option.some.injEq] at h2
        subst h2
        have h3 : (unknownEncOf u).bt [b] = .MALFORM := h3
        rw [h3]; simp
      · obtain ⟨k, hk⟩ : ∃ k : Nat, entry m b.toNat = -((k : Int) + 2) := ⟨(-(entry m b.toNat) - 2).toNat, by omega⟩
        obtain ⟨k2, ⟨g, rfl⟩, h2, -⟩ := class_lead h hl hk r
        have hconv : u.convert = some g := by obtain ⟨x, -, -, -, h3⟩ := tables h hl b; exact h3
        have hinv : (b :: r).length = k + 2 → ((unknownEncOf u).isInvalid (k + 2) (b :: r) = false ↔
            ∃ c : Nat, c ≤ 0xFFFF ∧ g (b :: r) = c ∧ XmlChar c) := by
          intro hlen
          simp only [unknownEncOf, hconv]
          rw [List.take_of_length_le (by omega)]
          simp only [Bool.or_eq_false_iff, Bool.not_eq_false', decide_eq_true_eq, decide_eq_false_iff_not]
          constructor
          · rintro ⟨⟨q1, q2⟩, q3⟩
            obtain ⟨c, hc⟩ := Int.eq_ofNat_of_zero_le q1
            rw [hc, checkCharRefNumber_spec c (by omega)] at q3
            exact ⟨c, by omega, hc, Classical.not_not.1 fun h6 => by rw [if_neg h6] at q3; omega⟩
          · rintro ⟨c, q1, q2, q3⟩
            rw [q2, checkCharRefNumber_spec c (by omega), if_pos q3]
            omega
        have hmean : (∃ c ≤ 0xFFFF, Means m (some g) (b :: r) c ∧ XmlChar c) ↔
            (b :: r).length = k + 2 ∧ (unknownEncOf u).isInvalid (k + 2) (b :: r) = false := by
          constructor
          · rintro ⟨c, hc, hm, hx⟩
            cases hm with
            | one he => omega
            | more h3 he h4 h5 =>
              have hlen : (b :: r).length = k + 2 := by simp only [List.length_cons]; omega
              cases h4
              exact ⟨hlen, (hinv hlen).2 ⟨c, hc, h5, hx⟩⟩
          · rintro ⟨hlen, h3⟩
            obtain ⟨c, q1, q2, q3⟩ := (hinv hlen).1 h3
            simp only [List.length_cons] at hlen
            exact ⟨c, q1, .more (by omega) (by rw [hk]; omega) rfl q2, q3⟩
        rw [hmean]
        simp only [Enc.IsChar, h2]
        have : k = 0 ∨ k = 1 ∨ k = 2 := by omega
        rcases this with rfl | rfl | rfl <;> rfl

/-- C20: it is taken for a name (start) character exactly when the character it stands for is one by XML 1.0; with
namespace processing the colon is set apart. -/
theorem names_iff {w : Buf} {c : Nat} (hm : Means m f w c) (hx : XmlChar c) (hc : c ≤ 0xFFFF) :
    ((unknownEncOf u).NmstrtChar w ↔ InRanges nameStart c ∧ ¬ (ns = true ∧ w = [0x3A])) ∧
    ((unknownEncOf u).NameChar w ↔ InRanges nameChar c ∧ ¬ (ns = true ∧ w = [0x3A])) := by
  cases hm with
  | @one b _ he =>
    obtain ⟨x, h1, h2, -⟩ := class_one h hl he
    obtain ⟨-, a2, -, -, -, a6⟩ := entry_char h1
    obtain ⟨-, a7, a8⟩ := a6 hx
    by_cases hcol : ns = true ∧ b = 0x3A
    · rw [if_pos hcol] at h2
      have : ns = true ∧ [b] = [0x3A] := by simpa using hcol
      exact ⟨⟨fun a => by simp [Enc.NmstrtChar, h2] at a, fun a => absurd this a.2⟩,
        ⟨fun a => by simp [Enc.NameChar, h2] at a, fun a => absurd this a.2⟩⟩
    · rw [if_neg hcol] at h2
      have : ¬ (ns = true ∧ [b] = [0x3A]) := by simpa using hcol
      simp only [this, not_false_eq_true, and_true]
      obtain ⟨i1, i2⟩ := C47.one_iff (e := unknownEncOf u) (w := [b]) h2 rfl a2
      rw [i1, i2]
      exact ⟨a7, a8⟩
  | @more b r g _ h3 he hf hg =>
    obtain ⟨k, hk⟩ : ∃ k : Nat, r.length = k + 1 := ⟨r.length - 1, by omega⟩
    rw [hk] at he
    obtain ⟨k2, -, h2, -⟩ := class_lead h hl (k := k) (by rw [he]; omega) r
    have hconv : u.convert = some g := by obtain ⟨x, -, -, -, h3⟩ := tables h hl b; rw [h3, hf]
    have hcol : ¬ (ns = true ∧ (b :: r) = [0x3A]) := by
      rintro ⟨-, h⟩; rw [List.cons.injEq] at h; rw [h.2] at h3; simp at h3
    simp only [hcol, not_false_eq_true, and_true]
    have e1 : c >>> 8 = c / 256 := by rw [Nat.shiftRight_eq_div_pow]
    have e2 : c &&& 0xff = c % 256 := Nat.and_two_pow_sub_one_eq_mod c 8
    have e3 : 256 * (c / 256) + c % 256 = c := Nat.div_add_mod c 256
    have n1 := nmstrt_ucs2 (c / 256) (c % 256) (by omega) (by omega)
    have n2 := name_ucs2 (c / 256) (c % 256) (by omega) (by omega)
    rw [e3] at n1 n2
    have hlen : (b :: r).length = k + 2 := by simp only [List.length_cons]; omega
    have m1 : (unknownEncOf u).isNmstrt (k + 2) (b :: r) = ucs2Naming nmstrtPages (c / 256) (c % 256) := by
      simp only [unknownEncOf, hconv]
      rw [List.take_of_length_le (by omega), hg, Int.toNat_natCast, e1, e2, decide_eq_true (by omega), Bool.true_and]
    have m2 : (unknownEncOf u).isName (k + 2) (b :: r) = ucs2Naming namePages (c / 256) (c % 256) := by
      simp only [unknownEncOf, hconv]
      rw [List.take_of_length_le (by omega), hg, Int.toNat_natCast, e1, e2, decide_eq_true (by omega), Bool.true_and]
    rw [← n1, ← n2, ← m1, ← m2]
    simp only [Enc.NmstrtChar, Enc.NameChar, h2]
    have : k = 0 ∨ k = 1 ∨ k = 2 := by omega
    rcases this with rfl | rfl | rfl <;> simp [hlen]

/-- One iteration of the converter on a legal character. -/
theorem step {w : Buf} {c : Nat} (hm : Means m f w c) (hx : XmlChar c) (hc : c ≤ 0xFFFF) (r : Buf) (cap : Nat) :
    unknownConvStep u (w ++ r) cap =
      if cap < (utf8 c).length then .stop .outputExhausted else .emit (utf8 c) (w.length - 1) := by
  cases hm with
  | @one b _ he =>
    obtain ⟨x, h1, -, h3⟩ := class_one h hl he
    have h2 := (entry_char h1).2.2.2.2.2 hx
    have hne : utf8 c ≠ [] := by rw [utf8]; split <;> (try split) <;> (try split) <;> simp
    unfold unknownConvStep
    have h4 : u.utf8.getD (byteAt ([b] ++ r) 0).toNat [] = utf8 c := by rw [← h2.1, ← h3]; rfl
    rw [h4]
    split
    · rename_i h5; exact absurd h5 hne
    · rfl
  | @more b s g _ h3 he hf hg =>
    obtain ⟨k, hk⟩ : ∃ k : Nat, s.length = k + 1 := ⟨s.length - 1, by omega⟩
    rw [hk] at he
    obtain ⟨k2, -, h2, h4⟩ := class_lead h hl (k := k) (by rw [he]; omega) s
    have hconv : u.convert = some g := by obtain ⟨x, -, -, -, h3⟩ := tables h hl b; rw [h3, hf]
    have h5 : u.utf8.getD (byteAt (b :: s ++ r) 0).toNat [] = [] := h4
    have h6 : tableBt u.types (byteAt (b :: s ++ r) 0) = (if k = 0 then .LEAD2 else if k = 1 then .LEAD3 else .LEAD4) := h2
    have hlen : (b :: s).length = k + 2 := by simp only [List.length_cons]; omega
    unfold unknownConvStep
    rw [h5, hlen]
    have ht : (b :: s ++ r).take (k + 2) = b :: s := by rw [← hlen, List.take_left]
    have : k = 0 ∨ k = 1 ∨ k = 2 := by omega
    rcases this with rfl | rfl | rfl <;> simp only [↓reduceIte, Nat.reduceEqDiff] at h6 <;>
      simp only [h6, hconv, ht, hg, C11.encode_spec c (show c < 0x110000 by omega)]

/-- C20: converting a text of legal characters (`ps`: the sequences with the characters they stand for) with any output
room writes the UTF-8 form of the first characters of the text and leaves the rest; it stops early only because the next
character does not fit, and says so. -/
theorem conversion (ps : List (Buf × Nat)) (hp : ∀ p ∈ ps, Means m f p.1 p.2 ∧ XmlChar p.2 ∧ p.2 ≤ 0xFFFF) (cap : Nat) :
    ∃ k, k ≤ ps.length ∧
      (unknownConvert u (ps.map Prod.fst).flatten cap).out = utf8s ((ps.take k).map Prod.snd) ∧
      (unknownConvert u (ps.map Prod.fst).flatten cap).rest = ((ps.drop k).map Prod.fst).flatten ∧
      (utf8s ((ps.take k).map Prod.snd)).length ≤ cap ∧
      (k = ps.length → (unknownConvert u (ps.map Prod.fst).flatten cap).res = .completed) ∧
      (k < ps.length → (unknownConvert u (ps.map Prod.fst).flatten cap).res = .outputExhausted ∧
        cap < (utf8s ((ps.take (k + 1)).map Prod.snd)).length) := by
  induction ps generalizing cap with
  | nil =>
    refine ⟨0, by simp, ?_⟩
    rw [List.map_nil, List.flatten_nil, unknownConvert, convLoop]
    simp [utf8s]
  | cons p ps ih =>
    obtain ⟨w, c⟩ := p
    obtain ⟨hm, hx, hc⟩ := hp (w, c) (by simp)
    simp only at hm hx hc
    have hw : w ≠ [] := by cases hm <;> simp
    have hnn : w ++ (ps.map Prod.fst).flatten ≠ [] := by simp [hw]
    have hlen : w.length - 1 + 1 = w.length := by have := List.length_pos_iff.2 hw; omega
    rw [List.map_cons, List.flatten_cons, unknownConvert, convLoop, dif_neg hnn, step h hl hm hx hc]
    by_cases hcap : cap < (utf8 c).length
    · rw [if_pos hcap]
      refine ⟨0, by simp, by simp [utf8s], by simp, by simp [utf8s], by simp, fun _ => ⟨rfl, ?_⟩⟩
      simpa [utf8s] using hcap
    · rw [if_neg hcap]
      simp only [hlen, List.drop_left]
      obtain ⟨k, h0, h1, h2, h3, h4, h5⟩ := ih (fun p hp' => hp p (by simp [hp'])) (cap - (utf8 c).length)
      rw [unknownConvert] at h1 h2 h4 h5
      refine ⟨k + 1, by simpa using h0, ?_, by simpa using h2, ?_, ?_, ?_⟩
      · rw [h1, List.take_succ_cons, List.map_cons, C51.utf8s_cons]
      · simp only [List.take_succ_cons, List.map_cons, C51.utf8s_cons, List.length_append]; omega
      · intro hk; exact h4 (by simpa using hk)
      · intro hk
        obtain ⟨a, b⟩ := h5 (by simpa using hk)
        refine ⟨a, ?_⟩
        simp only [List.take_succ_cons, List.map_cons, C51.utf8s_cons, List.length_append]; omega

end

/-! ### The handler -/

/-- C20: parsing goes on (in an encoding built from the map) exactly when a handler is set, it says that it knows the
encoding, and its map is as specified; otherwise the error is UNKNOWN_ENCODING. -/
theorem installed_iff (handler : Option (List UInt8 → Bool × EncInfo)) (name : List UInt8) (ns : Bool)
    (hl : ∀ h, handler = some h → (h name).2.map.length = 256) :
    (handleUnknownEncoding handler name ns).enc.isSome = true ↔
      ∃ h, handler = some h ∧ (h name).1 = true ∧ MapOk (h name).2.map (h name).2.convert.isSome := by
  cases handler with
  | none => simp [handleUnknownEncoding]
  | some h =>
    have ha := accepted_iff (h name).2.map (hl h rfl) (h name).2.convert ns
    simp only [handleUnknownEncoding, Option.some.injEq, exists_eq_left']
    cases h1 : (h name).1 with
    | false => simp
    | true =>
      rw [← ha]
      cases h2 : unknownInit (h name).2.map (h name).2.convert ns <;> simp

/-- The installed encoding is the one described by the map. -/
theorem installed_is {handler : Option (List UInt8 → Bool × EncInfo)} {name : List UInt8} {ns : Bool} {u : Unknown}
    (h : (handleUnknownEncoding handler name ns).enc = some u) :
    ∃ g, handler = some g ∧ unknownInit (g name).2.map (g name).2.convert ns = some u := by
  cases handler with
  | none => cases h
  | some g =>
    refine ⟨g, rfl, ?_⟩
    simp only [handleUnknownEncoding] at h
    split at h
    · split at h
      · rename_i h1; rw [h1]; exact h
      · cases h
    · cases h

/-- C20: a `release` function that the handler gave is called at once when the encoding is refused, and kept for later
when it is installed; never both. -/
theorem released_iff (g : List UInt8 → Bool × EncInfo) (name : List UInt8) (ns : Bool) :
    ((handleUnknownEncoding (some g) name ns).released =
      ((g name).2.release && !(handleUnknownEncoding (some g) name ns).enc.isSome)) ∧
    ((handleUnknownEncoding (some g) name ns).remembered =
      ((g name).2.release && (handleUnknownEncoding (some g) name ns).enc.isSome)) := by
  simp only [handleUnknownEncoding]
  split
  · split <;> simp
  · simp

/-! ### Cases -/

/-- Code page 437-like: ASCII, then two-byte sequences from 0x81 on, a Latin letter at 0xA0, a surrogate at 0xA1. -/
def sample : List Int :=
  (List.range 128).map Int.ofNat ++ [-1, -2] ++ List.replicate 30 (-1) ++ [0xC4, 0xD800] ++ List.replicate 94 (-1)
def sampleConv (w : Buf) : Int := if w = [0x81, 0x40] then 0x4E00 else -1

example : sample.length = 256 ∧ (unknownInit sample (some sampleConv) true).isSome = true ∧
    (unknownInit sample none true).isSome = false := by decide +kernel
example : (unknownInit (sample.set 0x3C 0x3E) (some sampleConv) true).isSome = false ∧
    (unknownInit (sample.set 0xFF 0x3C) (some sampleConv) true).isSome = false ∧
    (unknownInit (sample.set 0x7E 0x203E) (some sampleConv) true).isSome = true ∧
    (unknownInit (sample.set 0xFF 0x10000) (some sampleConv) true).isSome = false := by decide +kernel
example : Means sample (some sampleConv) [0x81, 0x40] 0x4E00 ∧ Means sample (some sampleConv) [0xA0] 0xC4 :=
  ⟨.more (by decide) (by decide +kernel) rfl (by decide), .one (by decide +kernel)⟩
example : ∃ u, unknownInit sample (some sampleConv) false = some u ∧
    (unknownConvert u [0x61, 0x81, 0x40, 0xA0] 20).out = [0x61, 0xE4, 0xB8, 0x80, 0xC3, 0x84] := by
  cases h : unknownInit sample (some sampleConv) false with
  | none => exact absurd h (by decide +kernel)
  | some u =>
    refine ⟨u, rfl, ?_⟩
    have h1 : ((unknownInit sample (some sampleConv) false).map fun u => (unknownConvert u [0x61, 0x81, 0x40, 0xA0] 20).out) =
      some [0x61, 0xE4, 0xB8, 0x80, 0xC3, 0x84] := by decide +kernel
    rw [h] at h1
    exact Option.some.inj h1

end Verif.C20
