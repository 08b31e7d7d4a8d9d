import Verif.Names

/-! C10: exactly five predefined entities. -/

namespace Verif.C10
open Verif Spec

/-- The predefined entities of XML 1.0 section 4.6: name and character. -/
def predefined : List (List UInt8 × UInt8) :=
  [([0x6C, 0x74], 0x3C),             -- lt   <
   ([0x67, 0x74], 0x3E),             -- gt   >
   ([0x61, 0x6D, 0x70], 0x26),       -- amp  &
   ([0x71, 0x75, 0x6F, 0x74], 0x22), -- quot "
   ([0x61, 0x70, 0x6F, 0x73], 0x27)] -- apos '

/-- C10: an entity name (a string of whole characters) resolves to a character exactly when it is
one of the five names, and then to that entity's character. -/
theorem predefined_iff {e asc} (s : Supported e asc) (b : Buf) (hb : e.mb ∣ b.length) (c : UInt8)
    (hc : c ≠ 0) : predefinedEntityName e b = c ↔
      ∃ n, (n, c) ∈ predefined ∧ b = (n.map asc).flatten := by
  obtain ⟨k, hk⟩ := hb
  have hpos : 0 < e.mb := by simp [Enc.mb]
  rw [Nat.mul_comm] at hk
  have hdiv : b.length / e.mb = k := by rw [hk, Nat.mul_div_cancel _ hpos]
  have l (c) := s.asc.len c
  have len : ∀ n : List UInt8, (n.map asc).flatten.length = n.length * e.mb := by
    intro n
    induction n with
    | nil => simp
    | cons x n ih => simp [ih, l, Nat.add_mul]; omega
  have hlen : ∀ n : List UInt8, b = (n.map asc).flatten → n.length = k := by
    intro n hn
    rw [hn, len] at hk
    exact Nat.eq_of_mul_eq_mul_right hpos hk
  obtain ⟨ws, h1, h2, rfl⟩ := cut e.mb k b hk
  have d0 : ∀ (w r : Buf), w.length = e.mb → (w ++ r).drop e.mb = r :=
    fun w r h => drop_char h
  have ne : ∀ a b : UInt8, a ≠ b → asc a ≠ asc b := fun a b h h2 => h (s.asc_inj h2)
  rw [predefinedEntityName, hdiv]
  -- equality with a spelled name, piece by piece
  have inj : ∀ (ws : List Buf) (n : List UInt8), ws.length = n.length →
      (∀ w ∈ ws, w.length = e.mb) → (ws.flatten = (n.map asc).flatten ↔ ws = n.map asc) := by
    intro ws
    induction ws with
    | nil => intro n hn _; cases n <;> simp_all
    | cons w ws ih =>
      intro n hn hw
      cases n with
      | nil => simp at hn
      | cons x n =>
        simp only [List.flatten_cons, List.map_cons, List.cons.injEq]
        rw [← ih n (by simpa using hn) (fun w h => hw w (by simp [h]))]
        constructor
        · intro h; exact List.append_inj h (by rw [hw w (by simp), l])
        · rintro ⟨rfl, h⟩; rw [h]
  have rhs : (∃ n, (n, c) ∈ predefined ∧ ws.flatten = (n.map asc).flatten) ↔
      ∃ n, (n, c) ∈ predefined ∧ ws = n.map asc := by
    constructor
    · rintro ⟨n, i1, i2⟩
      exact ⟨n, i1, (inj ws n (by rw [hlen n i2, h1]) h2).1 i2⟩
    · rintro ⟨n, i1, rfl⟩
      exact ⟨n, i1, rfl⟩
  have rhs2 : (∃ n, (n, c) ∈ predefined ∧ ws = n.map asc) ↔
      c = 0x3C ∧ ws = [asc 0x6C, asc 0x74] ∨ c = 0x3E ∧ ws = [asc 0x67, asc 0x74] ∨
      c = 0x26 ∧ ws = [asc 0x61, asc 0x6D, asc 0x70] ∨
      c = 0x22 ∧ ws = [asc 0x71, asc 0x75, asc 0x6F, asc 0x74] ∨
      c = 0x27 ∧ ws = [asc 0x61, asc 0x70, asc 0x6F, asc 0x73] := by
    simp [predefined, or_and_right, exists_or, and_assoc]
  rw [rhs, rhs2]
  clear rhs rhs2 inj hlen len hdiv
  have ca : ∀ (w r : Buf) (x : UInt8), w.length = e.mb → x < 0x80 →
      (e.toAscii (w ++ r) = x) = (w = asc x) := fun w r x h hx => propext (toAscii_iff s r h hx)
  have cm : ∀ (w r : Buf) (x : UInt8), w.length = e.mb → x < 0x80 →
      (e.charMatches (w ++ r) x = true) = (w = asc x) := fun w r x h hx => propext (mat_iff s r h hx)
  have hc' := hc.symm
  match ws, h1, h2 with
  | [], h1, _ => subst h1; simp [hc']
  | [w1], h1, h2 => subst h1; simp [hc']
  | [w1, w2], h1, h2 =>
    subst h1
    have l1 := h2 w1 (by simp)
    have l2 := h2 w2 (by simp)
    have := ne 0x6C 0x67 (by decide)
    simp only [List.length_cons, List.length_nil, Nat.zero_add, Nat.reduceAdd, List.flatten_cons,
      List.flatten_nil, Nat.one_mul, d0 _ _ l1,
      cm _ _ _ l2 (show (0x74 : UInt8) < 0x80 by decide),
      ca _ _ _ l1 (show (0x6C : UInt8) < 0x80 by decide),
      ca _ _ _ l1 (show (0x67 : UInt8) < 0x80 by decide), List.cons.injEq]
    clear ca cm d0 h2 l1 l2 ne hk hpos
    grind
  | [w1, w2, w3], h1, h2 =>
    subst h1
    have l1 := h2 w1 (by simp)
    have l2 := h2 w2 (by simp)
    have l3 := h2 w3 (by simp)
    simp only [List.length_cons, List.length_nil, Nat.zero_add, Nat.reduceAdd, List.flatten_cons,
      List.flatten_nil, Nat.one_mul, d0 _ _ l1,
      Nat.two_mul, ← List.drop_drop, d0 _ _ l2,
      cm _ _ _ l1 (show (0x61 : UInt8) < 0x80 by decide),
      cm _ _ _ l2 (show (0x6D : UInt8) < 0x80 by decide),
      cm _ _ _ l3 (show (0x70 : UInt8) < 0x80 by decide), List.cons.injEq]
    clear ca cm d0 h2 l1 l2 l3 ne hk hpos
    grind
  | [w1, w2, w3, w4], h1, h2 =>
    subst h1
    have l1 := h2 w1 (by simp)
    have l2 := h2 w2 (by simp)
    have l3 := h2 w3 (by simp)
    have l4 := h2 w4 (by simp)
    have h3 : 3 * e.mb = e.mb + (e.mb + e.mb) := by omega
    have := ne 0x71 0x61 (by decide)
    simp only [List.length_cons, List.length_nil, Nat.zero_add, Nat.reduceAdd, List.flatten_cons,
      List.flatten_nil, Nat.one_mul, d0 _ _ l1, List.cons.injEq,
      Nat.two_mul, ← List.drop_drop, d0 _ _ l2, h3, d0 _ _ l3,
      cm _ _ _ l2 (show (0x75 : UInt8) < 0x80 by decide),
      cm _ _ _ l2 (show (0x70 : UInt8) < 0x80 by decide),
      cm _ _ _ l3 (show (0x6F : UInt8) < 0x80 by decide),
      cm _ _ _ l4 (show (0x74 : UInt8) < 0x80 by decide),
      cm _ _ _ l4 (show (0x73 : UInt8) < 0x80 by decide),
      ca _ _ _ l1 (show (0x71 : UInt8) < 0x80 by decide),
      ca _ _ _ l1 (show (0x61 : UInt8) < 0x80 by decide)]
    clear ca cm d0 h2 l1 l2 l3 l4 ne hk hpos h3
    grind
  | w1 :: w2 :: w3 :: w4 :: w5 :: ws, h1, h2 => subst h1; simp [hc']

/-! Non-vacuity: `apos` in UTF-8 and UTF-16LE, and `ltx` which is none. -/
example : predefinedEntityName (utf8Enc false) [0x61, 0x70, 0x6F, 0x73] = 0x27 := by decide
example : predefinedEntityName (little2Enc false) [0x6C, 0, 0x74, 0] = 0x3C := by decide
example : predefinedEntityName (utf8Enc false) [0x6C, 0x74, 0x78] = 0 := by decide

end Verif.C10
