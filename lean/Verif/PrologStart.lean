import Verif.DoctypeRun
import Verif.Props.C57
import Verif.Props.C55

/-! # The first token of a document -/

set_option autoImplicit false

namespace Verif.C59
open C43 C53 Spec Verif PState

/-- A BOM token comes from the detection of the encoding only. -/
theorem bom_name {t : Tok} (h : t.fail ∨ t.namey ∨ t.nameyNeg ∨ t.nameyOp) : t ≠ .BOM := by
  rintro rfl
  revert h
  unfold Tok.fail Tok.namey Tok.nameyNeg Tok.nameyOp
  simp

/-- A BOM token comes from the detection of the encoding only. -/
theorem prologTok_noBom (e : Enc) (b : Buf) : (prologTok e b).tok ≠ .BOM := by
  intro h
  unfold prologTok at h
  split at h
  · cases h
  · split at h
    · cases h
    · generalize truncBuf e b = b at h
      have hl := fun o => scanLit_tok e o (b.drop e.mb) e.mb
      have hn := fun t ht => bom_name (prologName_tok e t false (b.drop e.mb) e.mb ht)
      have hp := scanPercent_tok e (b.drop e.mb) e.mb
      have hd := scanDecl_toks e (b.drop (2 * e.mb)) (2 * e.mb)
      have hs := prologSpace_tok e (b.drop e.mb) e.mb
      have hpn := scanPoundName_tok e (b.drop e.mb) e.mb
      have hpi := scanPi_tok e (b.drop (2 * e.mb)) (2 * e.mb)
      have h1 : Tok.namey .NAME := .inl rfl
      have h2 : Tok.namey .NMTOKEN := .inr (.inl rfl)
      unfold prologTokBody at h
      split at h
      · exact absurd h (bom_name (prologLead_tok _ _ _))
      · exact absurd h (bom_name (prologLead_tok _ _ _))
      · exact absurd h (bom_name (prologLead_tok _ _ _))
      · have := hl .QUOT; rw [h] at this; simp [Tok.fail] at this
      · have := hl .APOS; rw [h] at this; simp [Tok.fail] at this
      · split at h
        · cases h
        · split at h
          · rw [h] at hd; simp [Tok.fail] at hd
          · rw [h] at hpi; simp [Tok.fail] at hpi
          all_goals cases h
      · split at h
        · cases h
        · rw [hs] at h; cases h
      · rw [hs] at h; cases h
      · rw [hs] at h; cases h
      · rw [h] at hp; simp [Tok.fail] at hp
      · cases h
      · cases h
      · (repeat' split at h) <;> cases h
      · cases h
      · (repeat' split at h) <;> cases h
      · cases h
      · cases h
      · rw [h] at hpn; simp [Tok.fail] at hpn
      · exact absurd h (hn _ h1)
      · exact absurd h (hn _ h1)
      · exact absurd h (hn _ h2)
      · exact absurd h (hn _ h2)
      · exact absurd h (hn _ h2)
      · exact absurd h (hn _ h2)
      · split at h
        · exact absurd h (hn _ h1)
        · split at h
          · exact absurd h (hn _ h2)
          · cases h
      · cases h

theorem seeToken_noBom {x : XEnc} {internal between more isPE : Bool} {b : Buf} {n : Nat} :
    seeToken x internal between more isPE b ≠ .tok .BOM n := by
  have h0 := prologTok_noBom x.e b
  rw [seeToken]
  generalize prologTok x.e b = q at h0
  obtain ⟨t, m⟩ := q
  intro h
  cases t <;> simp [seeRes, Tok.isError, Tok.negate] at h h0 <;> grind

section
variable {c : PCfg} {ext : Ext} {fuel : Nat} {expand : Bool → Buf → Buf → DState → Acted}
  {internal between allowClose more : Bool} {opened : List Buf}

theorem next_first {p : PState} (h0 : p.h = .prolog0) (h1 : p.documentEntity = true) (e : Enc) {t : Tok} (ht : t ≠ .XML_DECL)
    (ht' : t ≠ .BOM) (w : Buf) : p.next e t w = PState.next e { p with h := .prolog1 } t w := by
  cases t <;> first | exact absurd rfl ht | exact absurd rfl ht' | simp [PState.next, PState.handle, h0, h1, prolog0, prolog1, common, fall, PState.go, PState.stay]

theorem xmlDecl_late {p : PState} (h0 : p.h = .prolog1) (e : Enc) (w : Buf) : (p.next e .XML_DECL w).2 = .ERROR := by
  simp [PState.next, PState.handle, h0, prolog1, common, fall]

/-- Except for an XML declaration the first token is treated like the later ones. -/
theorem prun_first {s : DState} (h0 : s.el.p.h = .prolog0) (h1 : s.el.p.documentEntity = true) {b : Buf} {E : List PEv} {s' : DState} {r : Buf}
    (h : hear (prun c ext fuel expand internal between allowClose more opened (s.withP { s.el.p with h := .prolog1 }) b) = (E, s', .content r)) :
    hear (prun c ext fuel expand internal between allowClose more opened s b) = (E, s', .content r) := by
  have hx : (s.withP { s.el.p with h := .prolog1 }).x c internal = s.x c internal := rfl
  rw [← h]
  congr 1
  have hb := fun n => seeToken_noBom (x := s.x c internal) (internal := internal) (between := between) (more := more) (isPE := c.isPE) (b := b) (n := n)
  rw [prun.eq_def] at h
  rw [prun.eq_def, prun.eq_def (s := s.withP { s.el.p with h := .prolog1 })]
  simp only [hx] at h ⊢
  cases hq : seeToken (s.x c internal) internal between more c.isPE b with
  | wait => simp only [hq] at h; cases h
  | fail e => simp only [hq] at h; cases h
  | panic => simp only [hq] at h; cases h
  | endPE =>
    simp only [hq] at h
    split at h <;> cases h
  | tok t n =>
    simp only [hq] at h ⊢
    have ht : t ≠ .XML_DECL := by
      rintro rfl
      have h2 := xmlDecl_late (p := { s.el.p with h := .prolog1 }) rfl (s.x c internal).e (b.take n)
      rw [pround] at h
      simp only [hx] at h
      rw [show (s.withP { s.el.p with h := .prolog1 }).el.p = { s.el.p with h := .prolog1 } from rfl] at h
      simp only [h2, pact] at h
      cases h
    have ht' : t ≠ .BOM := by
      rintro rfl
      exact hb n hq
    have hp := next_first h0 h1 (s.x c internal).e ht ht' (b.take n)
    have key : pround c ext fuel expand internal allowClose opened (s.withP { s.el.p with h := .prolog1 }) t (b.take n) =
        pround c ext fuel expand internal allowClose opened s t (b.take n) := by
      rw [pround, pround]
      simp only [hx, hp]
      rfl
    rw [key]

end

end Verif.C59
