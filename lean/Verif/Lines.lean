import Verif.CharCut
import Verif.Props.C15
import Verif.LocatedPlaces
import Verif.EventText

/-! Line and column numbers: `m_position` and `m_positionPtr` (C74). -/

set_option autoImplicit false

namespace Verif
open C04 C15

/-! ### Positions in a text -/

/-- The first `k` bytes of the text are whole characters, after which the position is `pos`. -/
def PosAt (e : Enc) (asc : UInt8 → Buf) (T : Buf) (k : Nat) (pos : Pos) : Prop :=
  ∃ (ws : List Buf) (r : Buf), T = ws.flatten ++ r ∧ ws.flatten.length = k ∧ (∀ w ∈ ws, Whole1 e w) ∧ pos = advance (asc 0x0D) (asc 0x0A) ⟨0, 0⟩ ws

/-- The first `k` bytes of the text are whole characters, and what follows does not separate `\r` from `\n`. -/
def LineCut (e : Enc) (asc : UInt8 → Buf) (T : Buf) (k : Nat) : Prop :=
  ∃ (ws : List Buf) (r : Buf), T = ws.flatten ++ r ∧ ws.flatten.length = k ∧ (∀ w ∈ ws, Whole1 e w) ∧
    (ws.getLast? = some (asc 0x0D) → ¬ ∃ r', r = asc 0x0A ++ r')

section
variable {e : Enc} {asc : UInt8 → Buf}

theorem LineCut.posAt {T : Buf} {k : Nat} (h : LineCut e asc T k) : ∃ pos, PosAt e asc T k pos := by
  obtain ⟨ws, r, h1, h2, h3, _⟩ := h
  exact ⟨_, ws, r, h1, h2, h3, rfl⟩

theorem LineCut.le {T : Buf} {k : Nat} (h : LineCut e asc T k) : k ≤ T.length := by
  obtain ⟨ws, r, h1, h2, _⟩ := h
  rw [h1, List.length_append]; omega

theorem LineCut.zero (T : Buf) : LineCut e asc T 0 := ⟨[], T, rfl, rfl, by simp, by simp⟩

variable (s : Supported e asc)
include s

/-- The characters of a text are determined. -/
theorem whole_prefix {ws vs : List Buf} {r r' : Buf} (h1 : ∀ w ∈ ws, Whole1 e w) (h2 : ∀ w ∈ vs, Whole1 e w)
    (h : ws.flatten ++ r = vs.flatten ++ r') (hl : ws.flatten.length ≤ vs.flatten.length) : ∃ us, vs = ws ++ us ∧ r = us.flatten ++ r' := by
  induction ws generalizing vs with
  | nil => exact ⟨vs, rfl, h⟩
  | cons w ws ih =>
    have hw := h1 w (by simp)
    have hp : 0 < e.mb := Nat.succ_pos _
    cases vs with
    | nil =>
      have := hw.1
      simp only [List.flatten_cons, List.length_append, List.flatten_nil, List.length_nil] at hl
      omega
    | cons v vs =>
      rw [List.flatten_cons, List.flatten_cons, List.append_assoc, List.append_assoc] at h
      obtain ⟨h3, h4⟩ := piece_unique s hw (h2 v (by simp)) h
      subst h3
      obtain ⟨us, h5, h6⟩ := ih (fun u hu => h1 u (by simp [hu])) (fun u hu => h2 u (by simp [hu])) h4 (by
        simp only [List.flatten_cons, List.length_append] at hl; omega)
      exact ⟨us, by rw [h5]; rfl, h6⟩

theorem PosAt.unique {T : Buf} {k : Nat} {p q : Pos} (h : PosAt e asc T k p) (g : PosAt e asc T k q) : p = q := by
  obtain ⟨ws, r, h1, h2, h3, rfl⟩ := h
  obtain ⟨vs, r', g1, g2, g3, rfl⟩ := g
  obtain ⟨us, rfl, h5⟩ := whole_prefix s h3 g3 (h1.symm.trans g1) (by omega)
  have : us = [] := by
    cases us with
    | nil => rfl
    | cons u us =>
      have := (g3 u (by simp)).1
      have hp : 0 < e.mb := Nat.succ_pos _
      simp only [List.flatten_append, List.flatten_cons, List.length_append] at g2
      omega
  rw [this, List.append_nil]

variable (hx : ∀ ns, e ≠ internalUtf8Enc ns)
include hx

/-- One more piece of the text: `updatePosition` from one place to another. -/
theorem update_posAt {T : Buf} {k k' : Nat} {p : Pos} (hc : LineCut e asc T k) (hp : PosAt e asc T k p) (hk : k ≤ k')
    {p' : Pos} (h : PosAt e asc T k' p') : updatePosition e ((T.drop k).take (k' - k)) p = some p' := by
  have hne : asc 0x0D ≠ asc 0x0A := fun h => absurd (s.asc_inj h) (by decide)
  obtain ⟨ws, r, h1, h2, h3, h4⟩ := hc
  obtain ⟨vs, r', g1, g2, g3, rfl⟩ := h
  have hq : p = advance (asc 0x0D) (asc 0x0A) ⟨0, 0⟩ ws := hp.unique s ⟨ws, r, h1, h2, h3, rfl⟩
  obtain ⟨us, rfl, h5⟩ := whole_prefix s h3 g3 (h1.symm.trans g1) (by omega)
  have hd : T.drop k = us.flatten ++ r' := by rw [h1, List.drop_left' h2, h5]
  have hl : us.flatten.length = k' - k := by
    rw [List.flatten_append, List.length_append] at g2; omega
  rw [hd, List.take_left' hl, update_spec s hx us (fun u hu => g3 u (by simp [hu])), advance_append hne, hq]
  rintro ⟨h6, h7⟩
  refine h4 h6 ?_
  cases us with
  | nil => cases h7
  | cons u us =>
    simp only [List.head?_cons, Option.some.injEq] at h7
    subst h7
    exact ⟨us.flatten ++ r', by rw [h5, List.flatten_cons, List.append_assoc]⟩

theorem cut_list {cr : Bool} {b : Buf} {n : Nat} (h : CharCut e cr b n) : ∃ (ws : List Buf) (r : Buf), b = ws.flatten ++ r ∧ ws.flatten.length = n ∧
    (∀ w ∈ ws, Whole1 e w) ∧ (((if cr = true then [asc 0x0D] else []) ++ ws).getLast? = some (asc 0x0D) → ¬ ∃ r', r = asc 0x0A ++ r') := by
  induction h with
  | @here cr b h =>
    refine ⟨[], b, rfl, rfl, by simp, ?_⟩
    cases cr
    · simp
    · rintro - ⟨r', rfl⟩
      obtain ⟨_, h2⟩ := h rfl
      exact h2 (asc_bt s (t := .LF) rfl r')
  | @char cr b n h1 h2 h ih =>
    obtain ⟨ws, r, i1, i2, i3, i4⟩ := ih
    have hb : b = b.take (e.charLen b) ++ b.drop (e.charLen b) := (List.take_append_drop ..).symm
    have hl : (b.take (e.charLen b)).length = e.charLen b := by rw [List.length_take]; omega
    have hpos : e.mb ≤ e.charLen b := by
      have := s.mb
      simp only [Enc.charLen]; split <;> omega
    generalize hw : b.take (e.charLen b) = w at *
    have hww : Whole1 e w := by
      refine ⟨by omega, ?_⟩
      rw [hl]
      have := charLen_app s.ok w (b.drop (e.charLen b)) (by omega)
      rw [← hb] at this
      exact this
    refine ⟨w :: ws, r, ?_, by rw [List.flatten_cons, List.length_append]; omega, ?_, ?_⟩
    · rw [List.flatten_cons, List.append_assoc, ← i1]; exact hb
    · intro u hu
      rcases List.mem_cons.1 hu with rfl | hu
      · exact hww
      · exact i3 u hu
    · intro hg
      apply i4
      have hcr := cr_iff s hx hww (b.drop (e.charLen b))
      rw [← hb] at hcr
      rw [List.getLast?_append] at hg
      cases ws with
      | nil =>
        simp at hg
        simp [hcr.2 hg]
      | cons v vs =>
        rw [List.getLast?_append]
        simpa using hg

theorem cut_line {b : Buf} {n : Nat} (h : CharCut e false b n) : LineCut e asc b n := by
  obtain ⟨ws, r, h1, h2, h3, h4⟩ := cut_list s hx h
  exact ⟨ws, r, h1, h2, h3, fun h => h4 (by simpa using h)⟩

theorem LineCut.step {T : Buf} {k n : Nat} (h : LineCut e asc T k) (g : CharCut e false (T.drop k) n) : LineCut e asc T (k + n) := by
  rcases Nat.eq_zero_or_pos n with rfl | hn
  · exact h
  · obtain ⟨ws, r, h1, h2, h3, _⟩ := h
    obtain ⟨vs, r', g1, g2, g3, g4⟩ := cut_line s hx g
    have hr : T.drop k = r := by rw [h1, List.drop_left' h2]
    refine ⟨ws ++ vs, r', ?_, by rw [List.flatten_append, List.length_append]; omega, ?_, ?_⟩
    · rw [List.flatten_append, List.append_assoc, ← g1, hr]; exact h1
    · intro w hw
      rcases List.mem_append.1 hw with hw | hw
      · exact h3 w hw
      · exact g3 w hw
    · intro hl
      apply g4
      rw [List.getLast?_append] at hl
      cases vs with
      | nil => simp at g2; omega
      | cons v vs =>
        cases hv : (v :: vs).getLast? with
        | none => simp at hv
        | some z => rw [hv] at hl; simpa using hl

end

end Verif
