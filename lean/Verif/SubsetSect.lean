import Verif.SubsetSpec

/-! # Conditional sections (C69) -/

set_option autoImplicit false

namespace Verif.C69
open C43 C53 C59 C60 Spec Verif PState

section
variable {e : Enc} {asc : UInt8 → Buf}

theorem drop3 (s : Supported e asc) (a b d : UInt8) (r : Buf) :
    (asc a ++ (asc b ++ (asc d ++ r))).drop (2 * e.mb) = asc d ++ r := by
  rw [Nat.two_mul, ← List.drop_drop, drop_char (s.asc.len _), drop_char (s.asc.len _)]

/-- `<![` -/
theorem pt_condOpen (s : Supported e asc) (r : Buf) :
    prologTokBody e (spell asc [0x3C, 0x21, 0x5B] ++ r) = ⟨.COND_SECT_OPEN, (spell asc [0x3C, 0x21, 0x5B]).length⟩ := by
  have l (c) := s.asc.len c
  have hl : (spell asc [0x3C, 0x21, 0x5B]).length = 2 * e.mb + e.mb := by
    rw [spell_len s]; simp only [List.length_cons, List.length_nil]; omega
  rw [hl]
  simp only [spell, List.map_cons, List.map_nil, List.flatten_cons, List.flatten_nil, List.append_nil, List.append_assoc]
  simp only [prologTokBody, asc_bt s (t := .LT) rfl, drop_char (l _), asc_bt s (t := .EXCL) rfl]
  rw [if_neg (asc_len_ok s _ _), drop3 s, scanDecl, if_neg (asc_len_ok s _ _)]
  simp only [asc_bt s (t := .LSQB) rfl]

/-- `]]>` -/
theorem pt_condClose (s : Supported e asc) (r : Buf) :
    prologTokBody e (spell asc [0x5D, 0x5D, 0x3E] ++ r) = ⟨.COND_SECT_CLOSE, (spell asc [0x5D, 0x5D, 0x3E]).length⟩ := by
  have l (c) := s.asc.len c
  have hl : (spell asc [0x5D, 0x5D, 0x3E]).length = 3 * e.mb := by
    rw [spell_len s]; simp only [List.length_cons, List.length_nil]; omega
  rw [hl]
  simp only [spell, List.map_cons, List.map_nil, List.flatten_cons, List.flatten_nil, List.append_nil, List.append_assoc]
  simp only [prologTokBody, asc_bt s (t := .RSQB) rfl, drop_char (l _)]
  rw [if_neg (asc_len_ok s _ _), if_pos ((s.matches_asc (by decide) _).2 rfl), if_neg (by simp only [List.length_append, l]; omega), drop3 s,
    if_pos ((s.matches_asc (by decide) _).2 rfl)]

end

section
variable {k : Ctx} {ext : Ext} {fuel : Nat} {expand : Bool → Buf → Buf → DState → Acted}
  {between allowClose more : Bool} {F : C59.Frame} {D : DTab} {s : DState} {h h' : Hd}

local notation "R" => Reach k.c ext fuel expand k.internal between allowClose more k.opened k.x

theorem next_open {p : PState} (h : p.h = .externalSubset1) (e : Enc) (w : Buf) :
    p.next e .COND_SECT_OPEN w = ({ p with h := .condSect0 }, .NONE) := by
  simp [PState.next, PState.handle, h, externalSubset1, PState.go]

/-- `<![ KEYWORD [` up to the bracket. -/
theorem cond_start (S : XSupported k.x k.asc) (a : At F .externalSubset1 D s) {kw sp1 sp2 : List UInt8} {h' : Hd}
    (hk : (kw, h') ∈ [(kwINCLUDE, Hd.condSect1), (kwIGNORE, .condSect2)]) (h1 : AllWS sp1) (h2 : AllWS sp2) (r : Buf) :
    R s (condOpen k.asc sp1 kw sp2 ++ r) [] (s.withP { s.el.p with h := h' }) (k.asc 0x5B ++ r) := by
  have hu : kw ≠ [] ∧ kw.all isUpper = true := by
    simp only [List.mem_cons, Prod.mk.injEq, List.not_mem_nil, or_false] at hk
    rcases hk with ⟨rfl, -⟩ | ⟨rfl, -⟩ <;> exact ⟨by decide, by decide⟩
  have hm {b : List UInt8} (hb : b.all isUpper = true) := matches_kw S.s kw hb
  simp only [condOpen, List.append_assoc]
  have r1 : R s (spell k.asc [0x3C, 0x21, 0x5B] ++ (spell k.asc sp1 ++ (spell k.asc kw ++ (spell k.asc sp2 ++ (k.asc 0x5B ++ r))))) []
      (s.withP { s.el.p with h := .condSect0 }) (spell k.asc sp1 ++ (spell k.asc kw ++ (spell k.asc sp2 ++ (k.asc 0x5B ++ r)))) :=
    quiet_tok S (pt_condOpen S.s _) (spell_min S.s (by simp)) rfl (next_open a.h _ _) rfl
  have b := a.go .condSect0
  have r2 := b.white (c := k.c) (ext := ext) (fuel := fuel) (expand := expand) (internal := k.internal) (between := between)
    (allowClose := allowClose) (more := more) (opened := k.opened) (r := spell k.asc kw ++ (spell k.asc sp2 ++ (k.asc 0x5B ++ r))) S rfl h1
    (kw_ne S hu.1 _)
  have hn : NextIn k.asc afterName (spell k.asc sp2 ++ (k.asc 0x5B ++ r)) := maybe_next (fun c hc => by simp [afterName, hc]) (by decide) h2 r
  have r3 : R (s.withP { s.el.p with h := .condSect0 }) (spell k.asc kw ++ (spell k.asc sp2 ++ (k.asc 0x5B ++ r))) []
      (s.withP { s.el.p with h := h' }) (spell k.asc sp2 ++ (k.asc 0x5B ++ r)) := by
    refine quiet_tok (s := s.withP { s.el.p with h := .condSect0 }) (p := { s.el.p with h := h' }) (role := .NONE) S (pt_kw S.s hu.1 hu.2 hn)
      (spell_min S.s hu.1) rfl ?_ rfl
    simp only [List.mem_cons, Prod.mk.injEq, List.not_mem_nil, or_false] at hk
    show PState.next k.x.e { s.el.p with h := .condSect0 } .NAME (spell k.asc kw) = _
    rcases hk with ⟨rfl, rfl⟩ | ⟨rfl, rfl⟩
    · simp only [PState.next, PState.handle, condSect0, hm (b := kwINCLUDE) (by decide)]; rfl
    · simp only [PState.next, PState.handle, condSect0, hm (b := kwINCLUDE) (by decide), hm (b := kwIGNORE) (by decide)]; rfl
  have b' := a.go h'
  have r4 := b'.white (c := k.c) (ext := ext) (fuel := fuel) (expand := expand) (internal := k.internal) (between := between)
    (allowClose := allowClose) (more := more) (opened := k.opened) (r := k.asc 0x5B ++ r) S (by
      simp only [List.mem_cons, Prod.mk.injEq, List.not_mem_nil, or_false] at hk
      rcases hk with ⟨-, rfl⟩ | ⟨-, rfl⟩ <;> rfl) h2 (asc_ne S _ _)
  exact r1.then (r2.then (r3.then r4))

/-- The frame inside an included section. -/
def deeper (F : C59.Frame) : C59.Frame := { F with includes := F.includes + 1 }

/-- The start of an included section. -/
theorem include_start (S : XSupported k.x k.asc) (a : At F .externalSubset1 D s) {sp1 sp2 : List UInt8} (h1 : AllWS sp1) (h2 : AllWS sp2) (r : Buf) :
    ∃ s', At (deeper F) .externalSubset1 D s' ∧ R s (condOpen k.asc sp1 kwINCLUDE sp2 ++ r) [] s' r := by
  have r1 := cond_start (ext := ext) (fuel := fuel) (expand := expand) (between := between) (allowClose := allowClose) (more := more)
    S a (kw := kwINCLUDE) (h' := .condSect1) (by simp) h1 h2 r
  refine ⟨s.withP { s.el.p with h := .externalSubset1, includeLevel := s.el.p.includeLevel + 1 }, ⟨rfl, a.none_, ?_, a.D, a.tmp, ⟨a.rest.eldecl, a.rest.len, a.rest.size⟩⟩,
    r1.then ?_⟩
  · show { frame s with includes := (frame s).includes + 1 } = _
    rw [a.frame]; rfl
  · refine quiet_tok (s := s.withP { s.el.p with h := .condSect1 }) (role := .NONE) S (by rw [pt_lsqb S.s, S.s.asc.len]) (by rw [S.s.asc.len]; exact Nat.le_refl _) rfl ?_ rfl
    rfl

/-- The end of an included section. -/
theorem include_end (S : XSupported k.x k.asc) (h0 : F.includes + 1 ≠ 0) (a : At (deeper F) .externalSubset1 D s) (r : Buf) :
    ∃ s', At F .externalSubset1 D s' ∧ R s (spell k.asc [0x5D, 0x5D, 0x3E] ++ r) [] s' r := by
  have hi : s.el.p.includeLevel = F.includes + 1 := congrArg C59.Frame.includes a.frame
  refine ⟨s.withP { s.el.p with includeLevel := s.el.p.includeLevel - 1 }, ⟨a.h, a.none_, ?_, a.D, a.tmp, ⟨a.rest.eldecl, a.rest.len, a.rest.size⟩⟩,
    quiet_tok (role := .NONE) S (pt_condClose S.s r) (spell_min S.s (by simp)) rfl ?_ rfl⟩
  · show { frame s with includes := (frame s).includes - 1 } = _
    rw [a.frame]
    show { F with includes := F.includes + 1 - 1 } = F
    rw [UInt32.add_sub_cancel]
  · simp [PState.next, PState.handle, a.h, externalSubset1, hi, h0]

theorem ignored_closed (S : XSupported k.x k.asc) {ws : List Buf} (h : Ignored k.x.e k.asc ws) {r : Buf} (hd : k.x.e.mb ∣ (ws.flatten ++ r).length) :
    ignoreSection k.x more (ws.flatten ++ r) = .closed ws.flatten.length := by
  have hw : k.x.e.mb ∣ ws.flatten.length := S.s.dvds h.chars
  have hr : k.x.e.mb ∣ r.length := by
    rw [List.length_append] at hd
    exact (Nat.dvd_add_right hw).1 hd
  rw [ignoreSection, (C44.section_partial S.s ws r h.chars h.ends hr).2 h.sect]

/-- An ignored section. -/
theorem run_ignore (S : XSupported k.x k.asc) (a : At F .externalSubset1 D s) {sp1 sp2 : List UInt8} {ws : List Buf} (h1 : AllWS sp1) (h2 : AllWS sp2)
    (h3 : Ignored k.x.e k.asc ws) (r : Buf) :
    ∃ s', At F .externalSubset1 D s' ∧ R s (condOpen k.asc sp1 kwIGNORE sp2 ++ (ws.flatten ++ r)) [] s' r := by
  have r1 := cond_start (ext := ext) (fuel := fuel) (expand := expand) (between := between) (allowClose := allowClose) (more := more)
    S a (kw := kwIGNORE) (h' := .condSect2) (by simp) h1 h2 (ws.flatten ++ r)
  refine ⟨_, a.go .externalSubset1, r1.then ?_⟩
  intro hx hd
  have l := S.s.asc.len 0x5B
  have hm : 0 < k.x.e.mb := Nat.succ_pos _
  have hd2 : k.x.e.mb ∣ (ws.flatten ++ r).length := by
    rw [List.length_append, l] at hd
    exact (Nat.dvd_add_right (Nat.dvd_refl _)).1 hd
  have hd3 : k.x.e.mb ∣ r.length := by
    rw [List.length_append] at hd2
    exact (Nat.dvd_add_right (S.s.dvds h3.chars)).1 hd2
  have hx' : (s.withP { s.el.p with h := .externalSubset1 }).x k.c k.internal = k.x := hx
  refine ⟨?_, hx', hd3⟩
  have htok : prologTok k.x.e (k.asc 0x5B ++ (ws.flatten ++ r)) = ⟨.OPEN_BRACKET, (k.asc 0x5B).length⟩ := by
    rw [prologTok_eq (by rw [List.length_append, l]; omega), trunc_whole S.s hd, pt_lsqb S.s, l]
  have hsee : seeToken k.x k.internal between more k.c.isPE (k.asc 0x5B ++ (ws.flatten ++ r)) = .tok .OPEN_BRACKET (k.asc 0x5B).length := by
    rw [seeToken, htok, seeRes, if_pos (by rfl)]
  have hp : (s.withP { s.el.p with h := .condSect2 }).el.p.next k.x.e .OPEN_BRACKET (k.asc 0x5B) = ({ s.el.p with h := .externalSubset1 }, .IGNORE_SECT) := rfl
  have hround : pround k.c ext fuel expand k.internal allowClose k.opened (s.withP { s.el.p with h := .condSect2 }) .OPEN_BRACKET (k.asc 0x5B) =
      ((toDefault k.c.c k.x (k.asc 0x5B)).map .ev, s.withP { s.el.p with h := .externalSubset1 }, .ignore) := by
    rw [pround, hx]
    simp only [hp, pact]
    have : DState.x ({ (s.withP { s.el.p with h := .condSect2 }) with el := { (s.withP { s.el.p with h := .condSect2 }).el with p := { s.el.p with h := .externalSubset1 } } } : DState) k.c k.internal = k.x := hx
    rw [this]
    rfl
  conv => lhs; rw [prun.eq_def]
  simp only [hx, hsee, List.take_left, hround, List.drop_left, hx', ignored_closed S h3 hd2]
  rw [if_pos (by simp only [List.length_append, l]; omega), hear_pre, heard_append, heard_dflt, heard_dflt]
  rfl

end

end Verif.C69
