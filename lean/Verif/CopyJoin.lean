import Verif.EchoRun
import Verif.NoPanicDoc

/-! Tokens are converted one by one (C65), in every encoding: they are made of whole characters. -/

set_option autoImplicit false

namespace Verif
open C43 C53 Spec C04 C65 C15

section
variable {e : Enc} (hm : e.Marks)
include hm

theorem lands_r2 {cr : Bool} {b : Buf} {p : Nat} {r : Res} {c : UInt8} (hl : (e.bt b).isLead = false) (hb : ¬ (b.drop e.mb).length < e.mb)
    (h : e.charMatches (b.drop e.mb) c = true) (h1 : 0x20 ≤ c) (h2 : c < 0x80) (hr : ∀ cr, Lands e cr (b.drop (2 * e.mb)) (p + 2 * e.mb) r) :
    Lands e cr b p r :=
  lands_unit2 hl (by omega) (hm _ c h1 h2 (by omega) h).1 (hr _)

theorem lands_r3 {cr : Bool} {b : Buf} {p : Nat} {r : Res} {c d : UInt8} (hl : (e.bt b).isLead = false) (hb : ¬ (b.drop e.mb).length < e.mb)
    (h : e.charMatches (b.drop e.mb) c = true) (h1 : 0x20 ≤ c) (h2 : c < 0x80) (hb2 : ¬ (b.drop (2 * e.mb)).length < e.mb)
    (h' : e.charMatches (b.drop (2 * e.mb)) d = true) (h1' : 0x20 ≤ d) (h2' : d < 0x80)
    (hr : ∀ cr, Lands e cr (b.drop (3 * e.mb)) (p + 3 * e.mb) r) : Lands e cr b p r := by
  refine lands_r2 hm hl hb h h1 h2 fun cr => lands_unit (hm _ d h1' h2' (by omega) h').1 (by omega) ?_
  have := hr (decide (e.bt (b.drop (2 * e.mb)) = .CR))
  rw [List.drop_drop, show 2 * e.mb + e.mb = 3 * e.mb by omega, show p + 2 * e.mb + e.mb = p + 3 * e.mb by omega]
  exact this

theorem ignoreLoop_lands (l : Nat) (b : Buf) (p : Nat) : ∀ cr, Lands e cr b p (ignoreLoop e l b p) := by
  fun_induction ignoreLoop e l b p <;> intro cr <;> first
    | exact lands_r3 hm (by lead) (by assumption) (by assumption) (by decide) (by decide) (by assumption) (by assumption) (by decide) (by decide) (by assumption)
    | exact lands_m3 hm (c := 0x5D) (d := 0x3E) (by lead) (by omega) (by assumption) (by decide) (by decide) (by omega) (by assumption) (by decide) (by decide) rfl
    | exact lands_r2 hm (by lead) (by assumption) (by assumption) (by decide) (by decide) (by assumption)
    | land1 (apply_assumption)
end

namespace C65

section
variable {x : XEnc} {asc : UInt8 → Buf} (S : XSupported x asc)
include S

theorem splits_wholes {ws : List Buf} (hw : ∀ w ∈ ws, Whole1 x.e w) : Splits x ws.flatten := ⟨wholes_unit S hw, fun v => raw_whole S hw v⟩

theorem splits_cut {cr : Bool} {b : Buf} {n : Nat} (h : CharCut x.e cr b n) : Splits x (b.take n) := by
  obtain ⟨ws, r, h1, h2, hw⟩ := cut_wholes S.s h
  have : b.take n = ws.flatten := by rw [h1, ← h2, List.take_left]
  rw [this]
  exact splits_wholes S hw

theorem joins_all : Joins x where
  nil := raw_nil S
  tok m b := by
    by_cases h : m = .epilog ∧ (m.tok x.e b).tok = .PROLOG_S_NEG
    · obtain ⟨rfl, h⟩ := h
      have htk : prologTok x.e b = ⟨.PROLOG_S_NEG, (Mode.tok .epilog x.e b).next⟩ := by rw [← h]; rfl
      obtain ⟨ws, hw, hwn⟩ := space_chars_ok S.s.ok (.inr rfl) htk
      rw [hwn]
      exact splits_wholes S fun w h => .of_char S.s.mb (hw w h)
    · exact splits_cut S (Mode.tok_cut S.s.marks S.s.ok m b fun h1 h2 => h ⟨h1, h2⟩)
  ign b := by
    have htr : b = truncBuf x.e b ++ b.drop (b.length - b.length % x.e.mb) := (List.take_append_drop ..).symm
    have hl := ignoreLoop_lands S.s.marks 0 (truncBuf x.e b) 0 false
    rw [ignoreSectionTok]
    generalize ignoreLoop x.e 0 (truncBuf x.e b) 0 = r at *
    rcases hl with h | ⟨n, h, hc⟩
    · rw [h]; rw [List.take_zero]; simpa using splits_wholes S (ws := []) (by simp)
    · rw [h, Nat.zero_add, htr, List.take_append_of_le_length hc.le]
      exact splits_cut S hc

end
end C65
end Verif
