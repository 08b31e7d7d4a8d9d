import Verif.DeclElem

/-! Whole sequences of declarations (C59). -/

set_option autoImplicit false

namespace Verif.C59
open C43 C53 Spec Verif PState

section
variable {k : Ctx} {ext : Ext} {fuel : Nat} {expand : Bool → Buf → Buf → DState → Acted}
  {between allowClose more : Bool} {F : Frame} {D : DTab} {s : DState}

local notation "R" => Reach k.c ext fuel expand k.internal between allowClose more k.opened k.x

theorem says_calls (E : List PEv) : Says (calls E) E := by
  induction E with
  | nil => exact .nil
  | cons v E ih => exact .cons rfl ih

theorem Says.append {A B : List Said} {E G : List PEv} (h1 : Says A E) (h2 : Says B G) : Says (A ++ B) (E ++ G) := by
  induction h1 with
  | nil => exact h2
  | cons g1 _ ih => exact .cons g1 ih

theorem home_ref {e : Enc} {p : PState} (h : p.h = home p.documentEntity) (w : Buf) :
    p.next e .PARAM_ENTITY_REF w = (p, .PARAM_ENTITY_REF) := by
  obtain ⟨hd, lv, rn, il, de, iv⟩ := p
  cases de
  · have h' : hd = .externalSubset1 := h
    subst h'; rfl
  · have h' : hd = .internalSubset := h
    subst h'; rfl

theorem home_none {e : Enc} {p : PState} (h : p.h = home p.documentEntity) (hl : p.includeLevel = 0) :
    p.next e .NONE [] = (p, .NONE) := by
  obtain ⟨hd, lv, rn, il, de, iv⟩ := p
  simp only at hl
  subst hl
  cases de
  · have h' : hd = .externalSubset1 := h
    subst h'; rfl
  · have h' : hd = .internalSubset := h
    subst h'; rfl

theorem peref_len (S : XSupported k.x k.asc) (name : List Buf) : (perefText k.asc name).length = k.x.e.mb + name.flatten.length + k.x.e.mb := by
  simp only [perefText, List.length_append, S.s.asc.len]; omega

theorem peref_name (S : XSupported k.x k.asc) (name : List Buf) : refName k.x.e (perefText k.asc name) = name.flatten := by
  rw [refName, peref_len S, perefText, List.drop_left' (S.s.asc.len _)]
  rw [show k.x.e.mb + name.flatten.length + k.x.e.mb - 2 * k.x.e.mb = name.flatten.length by omega, List.take_left]

/-- A reference between declarations. -/
theorem run_ref (S : XSupported k.x k.asc) (a : At F (home F.doc) D s) {name : List Buf} (h : k.x.e.Name name) {D' : DTab} {s' : DState} {E : List PEv}
    (a' : At F (home F.doc) D' s')
    (hp : ∃ hd, paramRef k.c ext expand k.opened { s with D := { D with hasPERefs := true } } k.x k.internal .PARAM_ENTITY_REF (perefText k.asc name)
      = (E, s', .go hd)) (r : Buf) : R s (perefText k.asc name ++ r) (heard E) s' r := by
  have hdoc : s.el.p.documentEntity = F.doc := congrArg Frame.doc a.frame
  obtain ⟨hd, hp⟩ := hp
  refine Reach.tok (t := .PARAM_ENTITY_REF) (p := s.el.p) (role := .PARAM_ENTITY_REF) (hd := hd) S ?_ ?_ rfl
    (home_ref (by rw [hdoc]; exact a.h) _) (frame_x (a'.frame.trans a.frame.symm)) fun hx => ?_
  · rw [peref_len S, perefText, List.append_assoc, List.append_assoc, pt_peref S.s h]
  · rw [peref_len S]; omega
  · simp only [pact, withP_self, hx, actParamRef, a.D]
    exact hp

theorem ask_ok {c : PCfg} {D : DTab} (k : Ctx) (hk : k.c = c) (h : Allowed k D) : askStandalone c D = (asked k D, false) := by
  subst hk
  rw [askStandalone, asked]
  cases hs : D.standalone with
  | true => simp
  | false =>
    rcases h with h | h
    · rw [hs] at h; exact absurd h (by simp)
    · cases hn : k.c.notStandalone with
      | none => simp
      | some ok =>
        cases ok with
        | true => simp
        | false => exact absurd hn h

theorem heard_asked (k : Ctx) (D : DTab) : heard (asked k D) = asked k D := by rw [asked]; split <;> rfl

theorem At.refs (a : At F (home F.doc) D s) : At F (home F.doc) { D with hasPERefs := true } { s with D := { D with hasPERefs := true } } :=
  ⟨a.h, a.none_, a.frame, rfl, a.tmp, a.rest⟩

theorem At.drop (a : At F (home F.doc) D s) : At F (home F.doc) (unread D) { s with D := unread D } :=
  ⟨a.h, a.none_, a.frame, rfl, a.tmp, a.rest⟩

theorem must_iff (a : At F (home F.doc) D s) (hdoc : k.doc = F.doc) :
    (s.el.p.documentEntity && (if D.standalone then !k.internal else !true)) = true ↔ MustKnow k D := by
  have : s.el.p.documentEntity = F.doc := congrArg Frame.doc a.frame
  rw [this, ← hdoc, MustKnow]
  cases k.doc <;> cases D.standalone <;> cases k.internal <;> simp

/-- The reference, for an entity that is known. -/
theorem ref_known (S : XSupported k.x k.asc) (a : At F (home F.doc) D s) (hdoc : k.doc = F.doc) (hpe : k.pe = F.pe) {name : List Buf} {ent : Entity}
    (h2 : k.pe ≠ .never) (h3 : tabGet D.par (converted k.x name.flatten) = some ent) (h4 : MustKnow k D → ent.isInternal = true)
    {D' : DTab} {E : List PEv} {s' : DState} {hd : Bool} (h8 : Allowed k D') (a' : At F (home F.doc) D' s')
    (hr : handleRef k.c ext expand k.opened { s with D := { D with hasPERefs := true } } .PARAM_ENTITY_REF (converted k.x name.flatten) ent = (E, s', .go hd)) :
    paramRef k.c ext expand k.opened { s with D := { D with hasPERefs := true } } k.x k.internal .PARAM_ENTITY_REF (perefText k.asc name)
      = (E ++ asked k D', s', .go hd) := by
  have hpe' : s.pe = k.pe := (congrArg Frame.pe a.frame).trans hpe.symm
  rw [paramRef, if_neg (by rw [show DState.pe { s with D := { D with hasPERefs := true } } = s.pe from rfl, hpe']; exact h2)]
  simp only [peref_name S, h3]
  rw [if_neg, handleRefCheck, hr]
  · simp only [standaloneCheck, a'.D, ask_ok k rfl h8, Acted.pre]
    rfl
  · intro h
    rw [Bool.and_eq_true] at h
    have := h4 ((must_iff a hdoc).1 h.1)
    rw [this] at h
    exact absurd h.2 (by simp)

/-- One declaration. -/
theorem run_decl (S : XSupported k.x k.asc) (hi : IntOk k) (hdoc : k.doc = F.doc) (hpe : k.pe = F.pe) (hf : D.par.length < fuel)
    (a : At F (home F.doc) D s) {w : Buf} {A : List Said} {D' : DTab} (h : Decl k D w A D') {r : Buf} (hr : r ≠ [] ∨ more = false) :
    ∃ s' E, Says A E ∧ At F (home F.doc) D' s' ∧ R s (w ++ r) E s' r := by
  cases h with
  | space d h => exact ⟨s, [], .nil, a, run_space S a h hr⟩
  | comment ws h =>
    obtain ⟨s', m, -, q⟩ := run_comment (ext := ext) (fuel := fuel) (expand := expand) (between := between) (allowClose := allowClose) (more := more) S a (home_miscy _) h r
    exact ⟨s', _, says_calls _, m, q⟩
  | pi target sp ws h =>
    obtain ⟨s', m, -, q⟩ := run_pi (ext := ext) (fuel := fuel) (expand := expand) (between := between) (allowClose := allowClose) (more := more) S a (home_miscy _) h r
    exact ⟨s', _, says_calls _, m, q⟩
  | entity sp1 name sp2 w d sp3 h1 h2 h3 h4 h5 E D' h6 h7 =>
    obtain ⟨s', m, q⟩ := run_entity (ext := ext) (fuel := fuel) (expand := expand) (between := between) (allowClose := allowClose) (more := more)
      S hi hf a h1 h2 h3 h4 h5 h6 h7 r
    exact ⟨s', _, says_calls _, m, by simpa only [List.append_assoc] using q⟩
  | paramEntity sp0 sp1 name sp2 w d sp3 h0 h1 h2 h3 h4 h5 E D' h6 h7 =>
    obtain ⟨s', m, q⟩ := run_param (ext := ext) (fuel := fuel) (expand := expand) (between := between) (allowClose := allowClose) (more := more)
      S hi hf a h0 h1 h2 h3 h4 h5 h6 h7 r
    exact ⟨s', _, says_calls _, m, by simpa only [List.append_assoc] using q⟩
  | notation_ sp1 name sp2 w pub sys sp3 h1 h2 h3 h4 h5 =>
    obtain ⟨s', m, q⟩ := run_notation (ext := ext) (fuel := fuel) (expand := expand) (between := between) (allowClose := allowClose) (more := more)
      S a h1 h2 h3 h4 h5 r
    exact ⟨s', _, says_calls _, m, by simpa only [List.append_assoc, sayNote] using q⟩
  | attlist sp1 name w sp2 E D' h1 h2 h3 h4 =>
    obtain ⟨s', m, q⟩ := run_attlist (ext := ext) (fuel := fuel) (expand := expand) (between := between) (allowClose := allowClose) (more := more)
      S hi hdoc a h1 h2 h3 h4 r
    exact ⟨s', _, says_calls _, m, by simpa only [List.append_assoc] using q⟩
  | element sp1 name sp2 m w sp3 h1 h2 h3 h4 h5 h6 =>
    obtain ⟨s', E, he, m, q⟩ := run_element (ext := ext) (fuel := fuel) (expand := expand) (between := between) (allowClose := allowClose) (more := more)
      S a h1 h2 h3 h4 h5 h6 r
    exact ⟨s', E, he, m, by simpa only [List.append_assoc] using q⟩
  | refUnread name h1 h2 h3 =>
    refine ⟨{ s with D := unread D }, asked k D, says_calls _, a.drop, ?_⟩
    rw [← heard_asked]
    refine run_ref S a h1 a.drop ⟨true, ?_⟩ r
    have hpe' : s.pe = k.pe := (congrArg Frame.pe a.frame).trans hpe.symm
    rw [paramRef, if_pos (by rw [show DState.pe { s with D := { D with hasPERefs := true } } = s.pe from rfl, hpe']; exact h2)]
    have := ask_ok (D := unread D) k rfl h3
    show standaloneCheck k.c { s with D := unread D } true = _
    simp only [standaloneCheck, this]
    rfl
  | refUnknown name h1 h2 h3 h4 =>
    refine ⟨{ s with D := unread D }, _, says_calls _, a.drop, ?_⟩
    rw [show (if k.c.c.skipped then [PEv.ev (.skippedEntity (converted k.x name.flatten) true)] else []) =
      heard (if k.c.c.skipped then [PEv.ev (.skippedEntity (converted k.x name.flatten) true)] else []) by split <;> rfl]
    have hpe' : s.pe = k.pe := (congrArg Frame.pe a.frame).trans hpe.symm
    have hmust := mt (must_iff a hdoc).1 h4
    refine run_ref S a h1 a.drop ?_ r
    rw [paramRef, if_neg (by rw [show DState.pe { s with D := { D with hasPERefs := true } } = s.pe from rfl, hpe']; exact h2)]
    simp only [peref_name S, h3]
    rw [if_neg (by exact hmust)]
    cases hs : k.c.c.skipped
    · exact ⟨true, by simp; rfl⟩
    · exact ⟨false, by simp; rfl⟩
  | refExternal name ent h1 h2 h3 h4 h5 h6 h7 h8 =>
    refine ⟨{ s with D := unread D }, asked k D, says_calls _, a.drop, ?_⟩
    rw [← heard_asked]
    refine run_ref S a h1 a.drop ⟨true, ?_⟩ r
    refine ref_known (E := []) (D' := unread D) S a hdoc hpe h2 h3 h4 h8 a.drop ?_
    rw [handleRef, if_neg h5, h6]
    simp only [h7, Bool.false_eq_true, if_false]
    rfl

end

/-! ### Sequences -/

theorem of_hear {q : Prolog} {E : List PEv} {s : DState} {o : PEnd} (h : hear q = (E, s, o)) : ∃ G, heard G = E ∧ q = (G, s, o) := by
  obtain ⟨G, s', o'⟩ := q
  simp only [hear, Prod.mk.injEq] at h
  obtain ⟨h1, rfl, rfl⟩ := h
  exact ⟨G, h1, rfl⟩

theorem hear_pre_nil (E : List PEv) (s : DState) (o : PEnd) : Prolog.pre E (hear ([], s, o)) = (E, s, o) := by
  simp [Prolog.pre, hear, heard]

/-- At the end of the text of a parameter entity between declarations. -/
theorem end_text {c : PCfg} {ext : Ext} {fuel : Nat} {expand : Bool → Buf → Buf → DState → Acted} {opened : List Buf} {F : Frame} {D : DTab} {s : DState}
    (a : At F (home F.doc) D s) (hl : F.includes = 0) : prun c ext fuel expand true true false false opened s [] = ([], s, .done []) := by
  have hdoc : s.el.p.documentEntity = F.doc := congrArg Frame.doc a.frame
  have hi : s.el.p.includeLevel = F.includes := congrArg Frame.includes a.frame
  rw [prun]
  have : seeToken (s.x c true) true true false c.isPE [] = .endPE := by
    rw [seeToken, show prologTok (s.x c true).e [] = ⟨.NONE, 0⟩ from by simp [prologTok]]
    simp [seeRes, Tok.isError]
    decide
  simp only [this]
  rw [home_none (by rw [hdoc]; exact a.h) (by rw [hi]; exact hl)]
  rfl

/-- Enough for the derivation. -/
theorem run_decls {k : Ctx} {D : DTab} {w : Buf} {A : List Said} {D' : DTab} (h : Decls k D w A D') : XSupported k.x k.asc → IntOk k →
    ∃ N, ∀ (ext : Ext) (fuel d : Nat), N ≤ fuel → N ≤ d → ∀ (between allowClose more : Bool) (F : Frame) (s : DState) (r : Buf),
      k.doc = F.doc → k.pe = F.pe → F.includes = 0 → At F (home F.doc) D s → r ≠ [] ∨ more = false →
      ∃ s' E, Says A E ∧ At F (home F.doc) D' s' ∧
        Reach k.c ext fuel (expandPE k.c ext fuel d k.opened) k.internal between allowClose more k.opened k.x s (w ++ r) E s' r := by
  induction h with
  | nil k D =>
    intro S hi
    exact ⟨0, fun ext fuel d _ _ between allowClose more F s r _ _ _ a _ => ⟨s, [], .nil, a, Reach.refl _ _⟩⟩
  | @cons k D D' D'' w w' A A' h1 h2 ih =>
    intro S hi
    obtain ⟨N, hN⟩ := ih S hi
    refine ⟨max N (D.par.length + 1), fun ext fuel d hf hd between allowClose more F s r hdoc hpe hl a hr => ?_⟩
    obtain ⟨s1, E1, e1, a1, r1⟩ := run_decl (ext := ext) (fuel := fuel) (expand := expandPE k.c ext fuel d k.opened) (between := between)
      (allowClose := allowClose) (more := more) (r := w' ++ r) S hi hdoc hpe (by omega) a h1 (by
        rcases hr with hr | hr
        · exact .inl fun h => hr (List.append_eq_nil_iff.1 h).2
        · exact .inr hr)
    obtain ⟨s2, E2, e2, a2, r2⟩ := hN ext fuel d (by omega) (by omega) between allowClose more F s1 r hdoc hpe hl a1 hr
    refine ⟨s2, E1 ++ E2, e1.append e2, a2, ?_⟩
    rw [List.append_assoc]
    exact r1.trans r2
  | @ref k D D' D'' w' t A A' name ent h1 h2 h3 h4 h5 h6 h7 h8 h9 ih1 ih2 =>
    intro S hi
    obtain ⟨N1, hN1⟩ := ih1 hi.int ⟨hi.int, hi.ends⟩
    obtain ⟨N2, hN2⟩ := ih2 S hi
    refine ⟨max (N1 + 1) N2, fun ext fuel d hf hd between allowClose more F s r hdoc hpe hl a hr => ?_⟩
    obtain ⟨d, rfl⟩ : ∃ d', d = d' + 1 := ⟨d - 1, by omega⟩
    obtain ⟨s1, E1, e1, a1, r1⟩ := hN1 ext fuel d (by omega) (by omega) true false false F { s with D := { D with hasPERefs := true } } []
      hdoc hpe hl a.refs (.inr rfl)
    have hmb : k.c.int.e.mb = 1 := by
      rw [← hi.int.s.asc.len 0]; rfl
    obtain ⟨r1, -, -⟩ := r1 rfl (by
      show k.c.int.e.mb ∣ _
      rw [hmb]; exact Nat.one_dvd _)
    rw [List.append_nil] at r1
    have he := end_text (c := k.c) (ext := ext) (fuel := fuel) (expand := expandPE k.c ext fuel d (converted k.x name.flatten :: k.opened))
      (opened := converted k.x name.flatten :: k.opened) a1 hl
    rw [show (k.inside (converted k.x name.flatten)).opened = converted k.x name.flatten :: k.opened from rfl,
      show (k.inside (converted k.x name.flatten)).c = k.c from rfl, show (k.inside (converted k.x name.flatten)).internal = true from rfl, he] at r1
    obtain ⟨G, hG, hq⟩ := of_hear (E := E1) (s := s1) (o := .done []) (by rw [r1, hear_pre_nil])
    have hp := ref_known (k := k) (ext := ext) (expand := expandPE k.c ext fuel (d + 1) k.opened) (E := G) (D' := D') (s' := s1) (hd := false)
      S a hdoc hpe h2 h3 h4 h8 a1 (by
        rw [handleRef, if_neg h5, h6]
        simp only [decide_true, expandPE, hq, Prolog.toActed])
    have r2 := run_ref (fuel := fuel) (between := between) (allowClose := allowClose) (more := more) S a h1 a1 ⟨false, hp⟩ (w' ++ r)
    rw [show heard (G ++ asked k D') = E1 ++ asked k D' by rw [heard_append, hG, heard_asked]] at r2
    obtain ⟨s2, E2, e2, a2, r3⟩ := hN2 ext fuel (d + 1) (by omega) (by omega) between allowClose more F s1 r hdoc hpe hl a1 hr
    refine ⟨s2, E1 ++ asked k D' ++ E2, (e1.append (says_calls _)).append e2, a2, ?_⟩
    rw [List.append_assoc]
    exact r2.trans r3

end Verif.C59
