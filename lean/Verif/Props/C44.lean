import Verif.Props.C37

/-! C44: an IGNORE section skips exactly to the `]]>` that balances it. -/

namespace Verif.C44
open Verif Spec

/-- The specification, on the list of characters: `ws` runs from inside `d` nested sections (and the
outer one) to the end of the outermost.  A character is skipped when it begins neither `<![` nor
`]]>` (XML 1.0 productions 64 and 65). -/
inductive Sect (asc : UInt8 → Buf) : Nat → List Buf → Prop
  | done : Sect asc 0 [asc 0x5D, asc 0x5D, asc 0x3E]
  | close {d ws} : Sect asc d ws → Sect asc (d + 1) (asc 0x5D :: asc 0x5D :: asc 0x3E :: ws)
  | opn {d ws} : Sect asc (d + 1) ws → Sect asc d (asc 0x3C :: asc 0x21 :: asc 0x5B :: ws)
  | char {d w ws} : ¬ [asc 0x3C, asc 0x21, asc 0x5B] <+: w :: ws →
      ¬ [asc 0x5D, asc 0x5D, asc 0x3E] <+: w :: ws → Sect asc d ws → Sect asc d (w :: ws)

theorem tri_tail {α} {a b c x : α} {l} (h : NoTriple a b c (x :: l)) : NoTriple a b c l := by
  match l with
  | [] => trivial
  | [_] => trivial
  | _ :: _ :: _ => exact h.2

theorem tri_cons {α} {a b c x : α} {l} (hx : x ≠ a) (h : NoTriple a b c l) : NoTriple a b c (x :: l) := by
  match l, h with
  | [], _ => trivial
  | [_], _ => trivial
  | _ :: _ :: _, h => exact ⟨fun g => hx g.1, h⟩

theorem pre3 {α} {a b c x y z : α} {l} : [a, b, c] <+: x :: y :: z :: l ↔ x = a ∧ y = b ∧ z = c := by
  simp [eq_comm]

theorem pre1 {α} {a b c x : α} {l} (h : x ≠ a) : ¬ [a, b, c] <+: x :: l := by
  intro h2
  simp only [List.cons_prefix_cons] at h2
  exact h h2.1.symm

/-- A text is cut into characters in one way only. -/
theorem char_unique {e : Enc} (ok : e.Ok) (hm : e.mb ≤ 2) {u v a b : Buf} (hu : e.IsChar u) (hv : e.IsChar v)
    (h : u ++ a = v ++ b) : u = v := by
  have h1 := e.isChar_len hm hu
  have h2 := e.isChar_len hm hv
  have hb : e.bt u = e.bt v := by
    rw [← ok.bt_app u a h1, h, ok.bt_app v b h2]
  have hl : u.length = v.length := by
    simp only [Enc.IsChar, hb] at hu hv
    generalize e.bt v = t at *
    cases t <;> simp only at hu hv <;> omega
  exact List.append_inj_left h hl

theorem chars_unique {e : Enc} (ok : e.Ok) (hm : e.mb ≤ 2) {us vs : List Buf} {a b : Buf} (hu : ∀ w ∈ us, e.IsChar w)
    (hv : ∀ w ∈ vs, e.IsChar w) (h : us.flatten ++ a = vs.flatten ++ b)
    (hl : us.flatten.length = vs.flatten.length) : us = vs := by
  induction us generalizing vs with
  | nil =>
    cases vs with
    | nil => rfl
    | cons v vs =>
      have := e.isChar_len hm (hv v (by simp))
      rw [List.flatten_cons, List.length_append, List.flatten_nil, List.length_nil] at hl
      unfold Enc.mb at this; omega
  | cons u us ih =>
    cases vs with
    | nil =>
      have := e.isChar_len hm (hu u (by simp))
      rw [List.flatten_cons, List.length_append, List.flatten_nil, List.length_nil] at hl
      unfold Enc.mb at this; omega
    | cons v vs =>
      rw [List.flatten_cons, List.append_assoc, List.flatten_cons, List.append_assoc] at h
      have := char_unique ok hm (hu u (by simp)) (hv v (by simp)) h
      subst this
      rw [ih (fun w h => hu w (by simp [h])) (fun w h => hv w (by simp [h])) (List.append_cancel_left h)
        (by simpa using hl)]

/-- Every section ends in `]]>`. -/
theorem Sect.ends {asc d ws} (h : Sect asc d ws) : ∃ u, ws = u ++ [asc 0x5D, asc 0x5D, asc 0x3E] := by
  induction h with
  | done => exact ⟨[], rfl⟩
  | close _ ih => obtain ⟨u, rfl⟩ := ih; exact ⟨_ :: _ :: _ :: u, rfl⟩
  | opn _ ih => obtain ⟨u, rfl⟩ := ih; exact ⟨_ :: _ :: _ :: u, rfl⟩
  | char _ _ _ ih => obtain ⟨u, rfl⟩ := ih; exact ⟨_ :: u, rfl⟩

/-- A section of at least three characters. -/
theorem Sect.three {asc d ws} (h : Sect asc d ws) : ∃ x y z r, ws = x :: y :: z :: r := by
  obtain ⟨u, rfl⟩ := h.ends
  match u with
  | [] => exact ⟨_, _, _, _, rfl⟩
  | [_] => exact ⟨_, _, _, _, rfl⟩
  | [_, _] => exact ⟨_, _, _, _, rfl⟩
  | _ :: _ :: _ :: _ => exact ⟨_, _, _, _, rfl⟩

section
variable {e : Enc} {asc : UInt8 → Buf} (s : Supported e asc)
include s

theorem loop_sound (d : Nat) (b : Buf) (p n : Nat) (h : ignoreLoop e d b p = ⟨.IGNORE_SECT, n⟩) :
    ∃ ws r, (∀ w ∈ ws, e.IsChar w) ∧ b = ws.flatten ++ r ∧ n = p + ws.flatten.length ∧
      (NoTriple (asc 0x5D) (asc 0x5D) (asc 0x5D) ws → Sect asc d ws) := by
  have cl : e.IsChar (asc 0x3C) := asc_char s (t := .LT) rfl
  have cr : e.IsChar (asc 0x5D) := asc_char s (t := .RSQB) rfl
  have cg : e.IsChar (asc 0x3E) := asc_char s (t := .GT) rfl
  have cx : e.IsChar (asc 0x21) := asc_char s (t := .EXCL) rfl
  have cb : e.IsChar (asc 0x5B) := asc_char s (t := .LSQB) rfl
  have ne : ∀ {c d : UInt8}, c ≠ d → asc c ≠ asc d := fun h h2 => h (s.asc_inj h2)
  fun_induction ignoreLoop e d b p with
  | case2 d b p h1 r h2 =>
    have := invalidCases_err h2
    rw [h] at this; cases this
  | case3 d b p h1 k h2 ih =>
    obtain ⟨ws, r, i1, i2, i3, i4⟩ := ih h
    have hc := isChar_of_adv s.ok s.mb h2
    have hn : ∀ {t : ByteType} {c}, t.single = some c → b.take (k + 1) ≠ asc c := by
      intro t c ht h3
      have := asc_nl s ht
      rw [← h3, hc.2.1] at this; cases this
    refine ⟨b.take (k + 1) :: ws, r, ?_, ?_, ?_, ?_⟩
    · simp only [List.mem_cons]; rintro w (rfl | hw); exact hc.1; exact i1 w hw
    · rw [List.flatten_cons, List.append_assoc, ← i2, List.take_append_drop]
    · rw [i3, List.flatten_cons, List.length_append, List.length_take, Nat.min_eq_left hc.2.2.1]; omega
    · intro ht
      exact .char (pre1 (hn (t := .LT) rfl)) (pre1 (hn (t := .RSQB) rfl)) (i4 (tri_tail ht))
  | case6 d b p h1 h2 h3 h4 h5 h6 h7 ih =>
    obtain ⟨ws, r, i1, i2, i3, i4⟩ := ih h
    have e1 := bt_split s (t := .LT) rfl (by omega) h3
    have e2 := mat_split s (c := 0x21) (by decide) (by omega) h5
    have e3 := mat_split s (c := 0x5B) (b := b.drop (2 * e.mb)) (by decide) (by omega) h7
    refine ⟨asc 0x3C :: asc 0x21 :: asc 0x5B :: ws, r, ?_, ?_, ?_, ?_⟩
    · simp only [List.mem_cons]; rintro w (rfl | rfl | rfl | hw) <;> first | exact cl | exact cr | exact cg | exact cx | exact cb | (exact i1 w hw) | (cases hw)
    · simp only [List.flatten_cons, List.append_assoc]
      rw [← i2]
      conv => lhs; rw [e1, e2, List.drop_drop, ← Nat.two_mul, e3, List.drop_drop,
        show 2 * e.mb + e.mb = 3 * e.mb by omega]
    · simp only [i3, List.flatten_cons, List.length_append, s.asc.len]; omega
    · intro ht; exact .opn (i4 (tri_tail (tri_tail (tri_tail ht))))
  | case7 d b p h1 h2 h3 h4 h5 h6 h7 ih =>
    obtain ⟨ws, r, i1, i2, i3, i4⟩ := ih h
    have e1 := bt_split s (t := .LT) rfl (by omega) h3
    have e2 := mat_split s (c := 0x21) (by decide) (by omega) h5
    refine ⟨asc 0x3C :: asc 0x21 :: ws, r, ?_, ?_, ?_, ?_⟩
    · simp only [List.mem_cons]; rintro w (rfl | rfl | hw) <;> first | exact cl | exact cr | exact cg | exact cx | exact cb | (exact i1 w hw) | (cases hw)
    · simp only [List.flatten_cons, List.append_assoc]
      rw [← i2]
      conv => lhs; rw [e1, e2, List.drop_drop, ← Nat.two_mul]
    · simp only [i3, List.flatten_cons, List.length_append, s.asc.len]; omega
    · intro ht
      have i4 := i4 (tri_tail (tri_tail ht))
      refine .char ?_ (pre1 (ne (by decide))) (.char (pre1 (ne (by decide))) (pre1 (ne (by decide))) i4)
      obtain ⟨x, y, z, w, rfl⟩ := i4.three
      rw [pre3]
      rintro ⟨_, _, rfl⟩
      apply h7
      rw [i2, List.flatten_cons, List.append_assoc]
      exact asc_mat s _ (by decide) _
  | case8 d b p h1 h2 h3 h4 h5 ih =>
    obtain ⟨ws, r, i1, i2, i3, i4⟩ := ih h
    have e1 := bt_split s (t := .LT) rfl (by omega) h3
    refine ⟨asc 0x3C :: ws, r, ?_, ?_, ?_, ?_⟩
    · simp only [List.mem_cons]; rintro w (rfl | hw) <;> first | exact cl | exact cr | exact cg | exact cx | exact cb | (exact i1 w hw) | (cases hw)
    · simp only [List.flatten_cons, List.append_assoc]
      rw [← i2]; exact e1
    · simp only [i3, List.flatten_cons, List.length_append, s.asc.len]; omega
    · intro ht
      have i4 := i4 (tri_tail ht)
      refine .char ?_ (pre1 (ne (by decide))) i4
      obtain ⟨x, y, z, w, rfl⟩ := i4.three
      rw [pre3]
      rintro ⟨_, rfl, _⟩
      apply h5
      rw [i2, List.flatten_cons, List.append_assoc]
      exact asc_mat s _ (by decide) _
  | case11 b p h1 h2 h3 h4 h5 h6 h7 =>
    have e1 := bt_split s (t := .RSQB) rfl (by omega) h3
    have e2 := mat_split s (c := 0x5D) (by decide) (by omega) h5
    have e3 := mat_split s (c := 0x3E) (b := b.drop (2 * e.mb)) (by decide) (by omega) h7
    refine ⟨[asc 0x5D, asc 0x5D, asc 0x3E], b.drop (3 * e.mb), ?_, ?_, ?_, fun _ => .done⟩
    · simp only [List.mem_cons]; rintro w (rfl | rfl | rfl | hw) <;> first | exact cl | exact cr | exact cg | exact cx | exact cb | (exact i1 w hw) | (cases hw)
    · simp only [List.flatten_cons, List.append_assoc]
      conv => lhs; rw [e1, e2, List.drop_drop, ← Nat.two_mul, e3, List.drop_drop,
        show 2 * e.mb + e.mb = 3 * e.mb by omega]
      rfl
    · injection h with _ h
      rw [← h]; simp [s.asc.len]; omega
  | case12 b p h1 h2 h3 h4 h5 h6 h7 d ih =>
    obtain ⟨ws, r, i1, i2, i3, i4⟩ := ih h
    have e1 := bt_split s (t := .RSQB) rfl (by omega) h3
    have e2 := mat_split s (c := 0x5D) (by decide) (by omega) h5
    have e3 := mat_split s (c := 0x3E) (b := b.drop (2 * e.mb)) (by decide) (by omega) h7
    refine ⟨asc 0x5D :: asc 0x5D :: asc 0x3E :: ws, r, ?_, ?_, ?_, ?_⟩
    · simp only [List.mem_cons]; rintro w (rfl | rfl | rfl | hw) <;> first | exact cl | exact cr | exact cg | exact cx | exact cb | (exact i1 w hw) | (cases hw)
    · simp only [List.flatten_cons, List.append_assoc]
      rw [← i2]
      conv => lhs; rw [e1, e2, List.drop_drop, ← Nat.two_mul, e3, List.drop_drop,
        show 2 * e.mb + e.mb = 3 * e.mb by omega]
    · simp only [i3, List.flatten_cons, List.length_append, s.asc.len]; omega
    · intro ht; exact .close (i4 (tri_tail (tri_tail (tri_tail ht))))
  | case13 d b p h1 h2 h3 h4 h5 h6 h7 ih =>
    obtain ⟨ws, r, i1, i2, i3, i4⟩ := ih h
    have e1 := bt_split s (t := .RSQB) rfl (by omega) h3
    have e2 := mat_split s (c := 0x5D) (by decide) (by omega) h5
    refine ⟨asc 0x5D :: asc 0x5D :: ws, r, ?_, ?_, ?_, ?_⟩
    · simp only [List.mem_cons]; rintro w (rfl | rfl | hw) <;> first | exact cl | exact cr | exact cg | exact cx | exact cb | (exact i1 w hw) | (cases hw)
    · simp only [List.flatten_cons, List.append_assoc]
      rw [← i2]
      conv => lhs; rw [e1, e2, List.drop_drop, ← Nat.two_mul]
    · simp only [i3, List.flatten_cons, List.length_append, s.asc.len]; omega
    · intro ht
      have i4 := i4 (tri_tail (tri_tail ht))
      obtain ⟨x, y, z, w, rfl⟩ := i4.three
      refine .char (pre1 (ne (by decide))) ?_ (.char (pre1 (ne (by decide))) ?_ i4)
      · rw [pre3]
        rintro ⟨_, _, rfl⟩
        apply h7
        rw [i2, List.flatten_cons, List.append_assoc]
        exact asc_mat s _ (by decide) _
      · rw [pre3]
        rintro ⟨_, rfl, _⟩
        exact ht.1 ⟨rfl, rfl, rfl⟩
  | case14 d b p h1 h2 h3 h4 h5 ih =>
    obtain ⟨ws, r, i1, i2, i3, i4⟩ := ih h
    have e1 := bt_split s (t := .RSQB) rfl (by omega) h3
    refine ⟨asc 0x5D :: ws, r, ?_, ?_, ?_, ?_⟩
    · simp only [List.mem_cons]; rintro w (rfl | hw) <;> first | exact cl | exact cr | exact cg | exact cx | exact cb | (exact i1 w hw) | (cases hw)
    · simp only [List.flatten_cons, List.append_assoc]
      rw [← i2]; exact e1
    · simp only [i3, List.flatten_cons, List.length_append, s.asc.len]; omega
    · intro ht
      have i4 := i4 (tri_tail ht)
      refine .char (pre1 (ne (by decide))) ?_ i4
      obtain ⟨x, y, z, w, rfl⟩ := i4.three
      rw [pre3]
      rintro ⟨_, rfl, _⟩
      apply h5
      rw [i2, List.flatten_cons, List.append_assoc]
      exact asc_mat s _ (by decide) _
  | case15 d b p h1 h2 h3 h4 ih =>
    obtain ⟨ws, r, i1, i2, i3, i4⟩ := ih h
    have hc := isChar_of_other s.ok (by omega) h2
    have hn : ∀ {t : ByteType} {c}, t.single = some c → e.bt b ≠ t → b.take e.mb ≠ asc c := by
      intro t c ht h3 h4
      apply h3
      rw [← List.take_append_drop e.mb b, h4]
      exact asc_bt s ht _
    refine ⟨b.take e.mb :: ws, r, ?_, ?_, ?_, ?_⟩
    · simp only [List.mem_cons]; rintro w (rfl | hw); exact hc.1; exact i1 w hw
    · rw [List.flatten_cons, List.append_assoc, ← i2, List.take_append_drop]
    · rw [i3, List.flatten_cons, List.length_append, List.length_take, Nat.min_eq_left (by omega)]; omega
    · intro ht
      exact .char (pre1 (hn (t := .LT) rfl h3)) (pre1 (hn (t := .RSQB) rfl h4)) (i4 (tri_tail ht))
  | _ => cases h

/-- One legal character that is not `<` or `]`. -/
theorem loop_char (d : Nat) {w : Buf} (hw : e.IsChar w) (h1 : w ≠ asc 0x3C) (h2 : w ≠ asc 0x5D) (r : Buf) (p : Nat) :
    ignoreLoop e d (w ++ r) p = ignoreLoop e d r (p + w.length) := by
  have hlen := e.isChar_len s.mb hw
  rw [ignoreLoop.eq_def, if_neg (by rw [List.length_append]; omega)]
  by_cases hl : e.isLead w
  · obtain ⟨h3, h4⟩ := invalidCases_lead s.ok s.mb hw hl r p
    rw [h3]
    simp only [Nat.sub_add_cancel h4, List.drop_left]
  · have hl : e.isLead w = false := by simpa using hl
    have hlen := e.isChar_len_nl hw hl
    rw [invalidCases_nl s.ok s.mb hw hl]
    simp only [drop_char hlen]
    have g1 : e.bt (w ++ r) ≠ .LT := fun h => h1 ((char_bt s hw (t := .LT) rfl r).1 h)
    have g2 : e.bt (w ++ r) ≠ .RSQB := fun h => h2 ((char_bt s hw (t := .RSQB) rfl r).1 h)
    rw [hlen]
    generalize e.bt (w ++ r) = t at *
    cases t <;> first | rfl | exact absurd rfl g1 | exact absurd rfl g2

/-- What the code does after `<`. -/
theorem loop_lt (d : Nat) (r : Buf) (p : Nat) (hr : 2 * e.mb ≤ r.length) :
    ignoreLoop e d (asc 0x3C ++ r) p =
      if e.charMatches r 0x21 then
        if e.charMatches (r.drop e.mb) 0x5B then ignoreLoop e (d + 1) (r.drop (2 * e.mb)) (p + 3 * e.mb)
        else ignoreLoop e d (r.drop e.mb) (p + 2 * e.mb)
      else ignoreLoop e d r (p + e.mb) := by
  have l := s.asc.len 0x3C
  have d1 : (asc 0x3C ++ r).drop e.mb = r := drop_char l
  have d2 : (asc 0x3C ++ r).drop (2 * e.mb) = r.drop e.mb := by rw [Nat.two_mul, ← List.drop_drop, d1]
  have d3 : (asc 0x3C ++ r).drop (3 * e.mb) = r.drop (2 * e.mb) := by
    rw [show 3 * e.mb = e.mb + 2 * e.mb by omega, ← List.drop_drop, d1]
  rw [ignoreLoop.eq_def, if_neg (by rw [List.length_append]; omega), invalidCases_asc s (t := .LT) rfl,
    asc_bt s (t := .LT) rfl]
  simp only [d1, d2, d3]
  rw [if_neg (show ¬ r.length < e.mb by omega),
    if_neg (show ¬ (r.drop e.mb).length < e.mb by rw [List.length_drop]; omega)]

/-- What the code does after `]`. -/
theorem loop_rsqb (d : Nat) (r : Buf) (p : Nat) (hr : 2 * e.mb ≤ r.length) :
    ignoreLoop e d (asc 0x5D ++ r) p =
      if e.charMatches r 0x5D then
        if e.charMatches (r.drop e.mb) 0x3E then
          match d with
          | 0 => ⟨.IGNORE_SECT, p + 3 * e.mb⟩
          | l + 1 => ignoreLoop e l (r.drop (2 * e.mb)) (p + 3 * e.mb)
        else ignoreLoop e d (r.drop e.mb) (p + 2 * e.mb)
      else ignoreLoop e d r (p + e.mb) := by
  have l := s.asc.len 0x5D
  have d1 : (asc 0x5D ++ r).drop e.mb = r := drop_char l
  have d2 : (asc 0x5D ++ r).drop (2 * e.mb) = r.drop e.mb := by rw [Nat.two_mul, ← List.drop_drop, d1]
  have d3 : (asc 0x5D ++ r).drop (3 * e.mb) = r.drop (2 * e.mb) := by
    rw [show 3 * e.mb = e.mb + 2 * e.mb by omega, ← List.drop_drop, d1]
  rw [ignoreLoop.eq_def, if_neg (by rw [List.length_append]; omega), invalidCases_asc s (t := .RSQB) rfl,
    asc_bt s (t := .RSQB) rfl]
  simp only [d1, d2, d3]
  rw [if_neg (show ¬ r.length < e.mb by omega),
    if_neg (show ¬ (r.drop e.mb).length < e.mb by rw [List.length_drop]; omega)]
  cases d <;> rfl

theorem mat_ne {w : Buf} (hw : e.IsChar w) {t : ByteType} {c} (ht : t.single = some c) (hne : w ≠ asc c) (r : Buf) :
    e.charMatches (w ++ r) c = false := by
  rw [Bool.eq_false_iff]; intro h; exact hne ((char_mat s hw ht r).1 h)

theorem loop_complete (d : Nat) (ws : List Buf) (hS : Sect asc d ws) (r : Buf) (p : Nat)
    (hw : ∀ w ∈ ws, e.IsChar w) (ht : NoTriple (asc 0x5D) (asc 0x5D) (asc 0x5D) ws) :
    ignoreLoop e d (ws.flatten ++ r) p = ⟨.IGNORE_SECT, p + ws.flatten.length⟩ := by
  have ln := s.asc.len
  have dr : ∀ c (r : Buf), (asc c ++ r).drop e.mb = r := fun c r => drop_char (ln c)
  have dr2 : ∀ c c' (r : Buf), (asc c ++ (asc c' ++ r)).drop (2 * e.mb) = r := fun c c' r => by
    rw [Nat.two_mul, ← List.drop_drop, dr, dr]
  induction hS generalizing p with
  | done =>
    simp only [List.flatten_cons, List.append_assoc]
    rw [loop_rsqb s _ _ _ (by simp [ln]; omega), if_pos (asc_mat s _ (by decide) _), dr,
      if_pos (asc_mat s _ (by decide) _)]
    simp [ln]; omega
  | @close d ws h ih =>
    simp only [List.flatten_cons, List.append_assoc]
    rw [loop_rsqb s _ _ _ (by simp [ln]; omega), if_pos (asc_mat s _ (by decide) _), dr,
      if_pos (asc_mat s _ (by decide) _), dr2]
    simp only
    rw [ih _ (fun w h => hw w (by simp [h])) (tri_tail (tri_tail (tri_tail ht)))]
    simp [ln]; omega
  | @opn d ws h ih =>
    simp only [List.flatten_cons, List.append_assoc]
    rw [loop_lt s _ _ _ (by simp [ln]; omega), if_pos (asc_mat s _ (by decide) _), dr,
      if_pos (asc_mat s _ (by decide) _), dr2]
    rw [ih _ (fun w h => hw w (by simp [h])) (tri_tail (tri_tail (tri_tail ht)))]
    simp [ln]; omega
  | @char d w ws h1 h2 h3 ih =>
    have hw1 := hw w (by simp)
    have ih := ih (p + w.length) (fun w h => hw w (by simp [h])) (tri_tail ht)
    have goal : p + w.length + ws.flatten.length = p + (List.flatten (w :: ws)).length := by
      simp; omega
    rw [List.flatten_cons, List.append_assoc, ← List.flatten_cons, ← goal, ← ih]
    obtain ⟨x, y, z, u, rfl⟩ := h3.three
    have hx := hw x (by simp)
    have hy := hw y (by simp)
    have lx := e.isChar_len s.mb hx
    have ly := e.isChar_len s.mb hy
    by_cases hlt : w = asc 0x3C
    · subst hlt
      simp only [List.flatten_cons, List.append_assoc] at ih ⊢
      rw [loop_lt s _ _ _ (by simp; omega), ln]
      by_cases hex : x = asc 0x21
      · subst hex
        have hyb : y ≠ asc 0x5B := by rintro rfl; exact h1 (pre3.2 ⟨rfl, rfl, rfl⟩)
        rw [if_pos (asc_mat s _ (by decide) _), dr, mat_ne s hy (t := .LSQB) rfl hyb,
          loop_char s d hx (fun h => absurd (s.asc_inj h) (by decide)) (fun h => absurd (s.asc_inj h) (by decide)), ln,
          if_neg (by simp), show p + e.mb + e.mb = p + 2 * e.mb by omega]
      · rw [mat_ne s hx (t := .EXCL) rfl hex, if_neg (by simp)]
    · by_cases hrs : w = asc 0x5D
      · subst hrs
        simp only [List.flatten_cons, List.append_assoc] at ih ⊢
        rw [loop_rsqb s _ _ _ (by simp; omega), ln]
        by_cases hex : x = asc 0x5D
        · subst hex
          have hyg : y ≠ asc 0x3E := by rintro rfl; exact h2 (pre3.2 ⟨rfl, rfl, rfl⟩)
          have hyr : y ≠ asc 0x5D := by rintro rfl; exact ht.1 ⟨rfl, rfl, rfl⟩
          have lz := e.isChar_len s.mb (hw z (by simp))
          rw [if_pos (asc_mat s _ (by decide) _), dr, mat_ne s hy (t := .GT) rfl hyg, if_neg (by simp),
            loop_rsqb s _ _ _ (by simp; omega), mat_ne s hy (t := .RSQB) rfl hyr, if_neg (by simp),
            show p + e.mb + e.mb = p + 2 * e.mb by omega]
        · rw [mat_ne s hx (t := .RSQB) rfl hex, if_neg (by simp)]
      · exact loop_char s d hw1 hlt hrs _ _

end

/-- **C44** (partial: texts containing `]]]` excepted): the section ends exactly at the `]]>` that
balances it, in every encoding; `ws` is the section's text including that `]]>`. -/
theorem section_partial {e asc} (s : Supported e asc) (ws : List Buf) (r : Buf) (hw : ∀ w ∈ ws, e.IsChar w)
    (ht : NoTriple (asc 0x5D) (asc 0x5D) (asc 0x5D) ws) (hr : e.mb ∣ r.length) :
    ignoreSectionTok e (ws.flatten ++ r) = ⟨.IGNORE_SECT, ws.flatten.length⟩ ↔ Sect asc 0 ws := by
  have htr : truncBuf e (ws.flatten ++ r) = ws.flatten ++ r := by
    have := truncBuf_dvd e (ws.flatten ++ r) []
      (by rw [List.length_append]; exact Nat.dvd_add (s.dvds hw) hr)
    simpa [truncBuf] using this
  rw [ignoreSectionTok, htr]
  constructor
  · intro h
    obtain ⟨vs, r', h1, h2, h3, h4⟩ := loop_sound s _ _ _ _ h
    have : vs = ws := chars_unique s.ok s.mb h1 hw h2.symm (by omega)
    subst this
    exact h4 ht
  · intro h
    rw [loop_complete s 0 ws h r 0 hw ht, Nat.zero_add]

/-- The whole section is found whatever follows. -/
theorem accepted {e asc} (s : Supported e asc) (b : Buf) (n : Nat) (h : ignoreSectionTok e b = ⟨.IGNORE_SECT, n⟩) :
    ∃ ws r, (∀ w ∈ ws, e.IsChar w) ∧ b = ws.flatten ++ r ∧ n = ws.flatten.length ∧
      (NoTriple (asc 0x5D) (asc 0x5D) (asc 0x5D) ws → Sect asc 0 ws) := by
  obtain ⟨ws, r, h1, h2, h3, h4⟩ := loop_sound s _ _ _ _ h
  obtain ⟨y, hy⟩ := truncBuf_prefix e b
  exact ⟨ws, r ++ y, h1, by rw [hy, h2, List.append_assoc], by rw [h3, Nat.zero_add], h4⟩

/-- The property is false of the code: the section `]]]>` is complete, but its end is not found. -/
theorem missed_end (ns : Bool) : Sect asc1 0 [asc1 0x5D, asc1 0x5D, asc1 0x5D, asc1 0x3E] ∧
    ignoreSectionTok (utf8Enc ns) [0x5D, 0x5D, 0x5D, 0x3E] = ⟨.PARTIAL, 0⟩ := by
  refine ⟨.char (by decide) (by decide) .done, ?_⟩
  cases ns <;> decide +kernel

/-- `a<![b]]>c]]>`. -/
example : Sect asc1 0 ([0x61, 0x3C, 0x21, 0x5B, 0x62, 0x5D, 0x5D, 0x3E, 0x63, 0x5D, 0x5D, 0x3E].map asc1) ∧
    ignoreSectionTok (utf8Enc false) [0x61, 0x3C, 0x21, 0x5B, 0x62, 0x5D, 0x5D, 0x3E, 0x63, 0x5D, 0x5D, 0x3E, 0x64]
      = ⟨.IGNORE_SECT, 12⟩ := by
  refine ⟨?_, by decide +kernel⟩
  refine .char (by decide) (by decide) (.opn (.char (by decide) (by decide) (.close (.char (by decide) (by decide) .done))))

end Verif.C44
