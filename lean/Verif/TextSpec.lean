import Verif.Props.C55

/-! Text character by character against text as a whole: the events of the grammar's text rules add up to
the converted text with its line ends normalised. -/

set_option autoImplicit false

namespace Verif
open C43 C53 Spec C04

/-- Line ends normalised, in the encodings of documents; the text of internal entities is in the internal
encoding and has been normalised when it was stored. -/
def norm (x : XEnc) (asc : UInt8 → Buf) (t : Buf) : Buf := if x.e.lineEnds asc = true then C14.lineEnds t else t

theorem lineEnds_app {l r : Buf} (h : (0x0D : UInt8) ∉ l) : C14.lineEnds (l ++ r) = l ++ C14.lineEnds r := by
  induction l with
  | nil => rfl
  | cons c l ih =>
    simp only [List.mem_cons, not_or] at h
    rw [List.cons_append, C14.lineEnds_other (Ne.symm h.1), ih h.2, List.cons_append]

theorem textEvs_app (l r : Buf) : textEvs (l ++ r) = textEvs l ++ textEvs r := by simp [textEvs]

section
variable {x : XEnc} {asc : UInt8 → Buf} (S : XSupported x asc)
include S

theorem conv_lf : converted x (asc 0x0A) = [0x0A] := by cases S <;> rename_i ns <;> cases ns <;> decide +kernel
theorem conv_cr : converted x (asc 0x0D) = [0x0D] := by cases S <;> rename_i ns <;> cases ns <;> decide +kernel

theorem lf_char : x.e.IsChar (asc 0x0A) := asc_char S.s (t := .LF) rfl
theorem cr_char : x.e.IsChar (asc 0x0D) := by cases S <;> rename_i ns <;> cases ns <;> decide +kernel

theorem conv_cons {w : Buf} {ws : List Buf} (h : x.e.Chars (w :: ws)) :
    converted x (w :: ws).flatten = converted x w ++ converted x ws.flatten := by
  have := conv_app S (ws := [w]) (vs := ws) (.cons h.head .nil) h.tail
  simpa using this

/-- Converted text starts with LF only if the text does. -/
theorem conv_starts {ws : List Buf} (h : x.e.Chars ws) (h0 : (converted x ws.flatten).head? = some 0x0A) :
    ∃ vs, ws = asc 0x0A :: vs := by
  cases ws with
  | nil => rw [List.flatten_nil, conv_nil S] at h0; cases h0
  | cons w vs =>
    rw [conv_cons S h] at h0
    have hw := h.head
    cases hc : converted x w with
    | nil => exact absurd hc (conv_ne_nil S hw)
    | cons c t =>
      rw [hc] at h0
      simp only [List.cons_append, List.head?_cons, Option.some.injEq] at h0
      subst h0
      exact ⟨vs, by rw [conv_ascii_only S hw (d := 0x0A) (by decide) (by rw [hc]; simp)]⟩

theorem norm_plain {w : Buf} {ws : List Buf} (h : x.e.Chars (w :: ws)) (hw : x.e.Plain asc w) :
    norm x asc (converted x (w :: ws).flatten) = converted x w ++ norm x asc (converted x ws.flatten) := by
  rw [conv_cons S h, norm, norm]
  split
  · rename_i hl
    rw [lineEnds_app]
    intro h0
    have := hw.2.2 (conv_ascii_only S hw.1 (by decide) h0)
    rw [hl] at this
    cases this
  · rfl

theorem norm_lf {ws : List Buf} (h : x.e.Chars ws) :
    norm x asc (converted x (asc 0x0A :: ws).flatten) = 0x0A :: norm x asc (converted x ws.flatten) := by
  rw [conv_cons S (.cons (lf_char S) h), conv_lf S, norm, norm]
  split
  · rw [List.singleton_append, C14.lineEnds_other (by decide)]
  · rfl

theorem norm_crlf {ws : List Buf} (hl : x.e.lineEnds asc = true) (h : x.e.Chars ws) :
    norm x asc (converted x (asc 0x0D :: asc 0x0A :: ws).flatten) = 0x0A :: norm x asc (converted x ws.flatten) := by
  rw [conv_cons S (.cons (cr_char S) (.cons (lf_char S) h)), conv_cr S, conv_cons S (.cons (lf_char S) h), conv_lf S, norm, norm,
    if_pos hl, if_pos hl, List.singleton_append, C14.lineEnds_cr]
  rfl

theorem norm_cr {ws : List Buf} (hl : x.e.lineEnds asc = true) (h : x.e.Chars ws) (hn : ∀ vs, ws ≠ asc 0x0A :: vs) :
    norm x asc (converted x (asc 0x0D :: ws).flatten) = 0x0A :: norm x asc (converted x ws.flatten) := by
  rw [conv_cons S (.cons (cr_char S) h), conv_cr S, norm, norm, if_pos hl, if_pos hl, List.singleton_append, C14.lineEnds_cr,
    if_neg]
  intro h0
  obtain ⟨vs, h1⟩ := conv_starts S h h0
  exact hn vs h1

omit S in
/-- A character is a line end, or not. -/
theorem char_cases {w : Buf} (hw : x.e.IsChar w) : x.e.Plain asc w ∨ w = asc 0x0A ∨ (x.e.lineEnds asc = true ∧ w = asc 0x0D) := by
  by_cases h1 : w = asc 0x0A
  · exact .inr (.inl h1)
  · by_cases h2 : w = asc 0x0D
    · cases hl : x.e.lineEnds asc with
      | true => exact .inr (.inr ⟨rfl, h2⟩)
      | false => exact .inl ⟨hw, h1, fun _ => hl⟩
    · exact .inl ⟨hw, h1, fun h => absurd h h2⟩

end
end Verif
