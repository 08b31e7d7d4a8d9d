import Verif.PrologStart

/-! Runs of the prolog that end with an error. -/

set_option autoImplicit false

namespace Verif.C59
open C43 C53 Spec Verif PState

section
variable {c : PCfg} {ext : Ext} {fuel : Nat} {expand : Bool → Buf → Buf → DState → Acted}
  {internal between allowClose more : Bool} {opened : List Buf} {x : XEnc} {asc : UInt8 → Buf}

/-- From `b` the loop comes to the error `e`, reporting `E` (calls of the default handler aside). -/
def Stops (c : PCfg) (ext : Ext) (fuel : Nat) (expand : Bool → Buf → Buf → DState → Acted)
    (internal between allowClose more : Bool) (opened : List Buf) (x : XEnc) (s : DState) (b : Buf) (E : List PEv) (e : XErr) : Prop :=
  s.x c internal = x → x.e.mb ∣ b.length →
    ∃ s', hear (prun c ext fuel expand internal between allowClose more opened s b) = (E, s', .err e)

theorem Stops.after {s t : DState} {a b : Buf} {E F : List PEv} {e : XErr}
    (h1 : Reach c ext fuel expand internal between allowClose more opened x s a E t b)
    (h2 : Stops c ext fuel expand internal between allowClose more opened x t b F e) :
    Stops c ext fuel expand internal between allowClose more opened x s a (E ++ F) e := by
  intro g1 g2
  obtain ⟨h3, h4, h5⟩ := h1 g1 g2
  obtain ⟨s', h6⟩ := h2 h4 h5
  exact ⟨s', by rw [h3, h6]; rfl⟩

/-- One token. -/
theorem Stops.tok (S : XSupported x asc) {s s' : DState} {t : Tok} {w r : Buf} {p : PState} {role : Role} {E : List PEv} {e : XErr}
    (hb : prologTokBody x.e (w ++ r) = ⟨t, w.length⟩) (hw : x.e.mb ≤ w.length) (ht : t.isError = false)
    (hp : s.el.p.next x.e t w = (p, role))
    (ha : s.x c internal = x → pact c ext fuel expand internal allowClose opened (s.withP p) role t w = (E, s', .fail e)) :
    Stops c ext fuel expand internal between allowClose more opened x s (w ++ r) (heard E) e := by
  intro h1 h2
  have hm : 0 < x.e.mb := Nat.succ_pos _
  have htok : prologTok x.e (w ++ r) = ⟨t, w.length⟩ := by
    rw [prologTok_eq (by rw [List.length_append]; omega), trunc_whole S.s h2, hb]
  have ha := ha h1
  have hsee : seeToken x internal between more c.isPE (w ++ r) = .tok t w.length := by
    rw [seeToken, htok, seeRes, if_pos (by simp [ht])]
  have hround : pround c ext fuel expand internal allowClose opened s t w = (E, s', .fail e) := by
    rw [pround_eq, h1]
    have : s.told x.e t w = s.withP p := by rw [DState.told, hp]; rfl
    rw [this, hp, ha]
    rfl
  refine ⟨s', ?_⟩
  rw [prun.eq_def]
  simp only [h1, hsee, List.take_left, hround, hear]

/-- Except for an XML declaration the first token is treated like the later ones. -/
theorem prun_first_err {s : DState} (h0 : s.el.p.h = .prolog0) (h1 : s.el.p.documentEntity = true) {b : Buf} {E : List PEv} {s' : DState} {e : XErr}
    (he : e ≠ .MISPLACED_XML_PI)
    (h : hear (prun c ext fuel expand internal between allowClose more opened (s.withP { s.el.p with h := .prolog1 }) b) = (E, s', .err e)) :
    ∃ s'', hear (prun c ext fuel expand internal between allowClose more opened s b) = (E, s'', .err e) := by
  have hx : (s.withP { s.el.p with h := .prolog1 }).x c internal = s.x c internal := rfl
  have hb := fun n => seeToken_noBom (x := s.x c internal) (internal := internal) (between := between) (more := more) (isPE := c.isPE) (b := b) (n := n)
  rw [prun.eq_def] at h
  rw [prun.eq_def]
  simp only [hx] at h ⊢
  cases hq : seeToken (s.x c internal) internal between more c.isPE b with
  | wait => simp only [hq, hear] at h; cases h
  | fail e' =>
    simp only [hq, hear] at h ⊢
    cases h
    exact ⟨_, rfl⟩
  | panic => simp only [hq, hear] at h; cases h
  | endPE =>
    have hp := next_first h0 h1 (s.x c internal).e (t := .NONE) (by simp) (by simp) []
    simp only [hq, hp] at h ⊢
    rw [show (s.withP { s.el.p with h := .prolog1 }).el.p = { s.el.p with h := .prolog1 } from rfl] at h
    split at h
    · rename_i hr
      rw [if_pos hr]
      simp only [hear] at h ⊢
      cases h
      exact ⟨_, rfl⟩
    · simp only [hear] at h; cases h
  | tok t n =>
    simp only [hq] at h ⊢
    have ht : t ≠ .XML_DECL := by
      rintro rfl
      have h2 := xmlDecl_late (p := { s.el.p with h := .prolog1 }) rfl (s.x c internal).e (b.take n)
      rw [pround] at h
      simp only [hx] at h
      rw [show (s.withP { s.el.p with h := .prolog1 }).el.p = { s.el.p with h := .prolog1 } from rfl] at h
      simp only [h2, pact, hear] at h
      injection h with _ h
      injection h with _ h
      injection h with h
      exact he h.symm
    have ht' : t ≠ .BOM := by
      rintro rfl
      exact hb n hq
    have hp := next_first h0 h1 (s.x c internal).e ht ht' (b.take n)
    have key : pround c ext fuel expand internal allowClose opened (s.withP { s.el.p with h := .prolog1 }) t (b.take n) =
        pround c ext fuel expand internal allowClose opened s t (b.take n) := by
      rw [pround, pround]
      simp only [hx, hp]
      rfl
    rw [key] at h
    exact ⟨_, h⟩

end

end Verif.C59
