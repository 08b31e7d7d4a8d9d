import Verif.DeclStop
import Verif.Props.C59

/-! # C68: references to parameter entities that are not allowed are refused

XML 1.0, 4.1: "A parsed entity MUST NOT contain a recursive reference to itself, either directly or indirectly" (WFC: No
Recursion); in a standalone document a parameter entity must be declared, and not in another parameter entity (WFC: Entity
Declared); 2.8: the replacement text of a parameter entity reference between declarations consists of whole declarations. -/

set_option autoImplicit false

namespace Verif.C68
open C43 C53 C59 Spec Verif PState

/-! ### Specification -/

/-- The declarations `w` (followed by whatever) cannot be read to the end, for the reason `e`; the application has been told
`A` before.  `k` says which parameter entities are open. -/
inductive Bad : Ctx → DTab → Buf → List Said → XErr → Prop where
  /-- a reference to an entity whose text is being read -/
  | recursive {k : Ctx} {D : DTab} (name : List Buf) (ent : Entity) (rest : Buf) (h1 : k.x.e.Name name) (h2 : k.pe ≠ .never)
      (h3 : tabGet D.par (converted k.x name.flatten) = some ent) (h4 : MustKnow k D → ent.isInternal = true)
      (h5 : converted k.x name.flatten ∈ k.opened) :
      Bad k D (perefText k.asc name ++ rest) [] .RECURSIVE_ENTITY_REF
  /-- in a document that says it is standalone: an entity that has not been declared -/
  | undeclared {k : Ctx} {D : DTab} (name : List Buf) (rest : Buf) (h1 : k.x.e.Name name) (h2 : k.pe ≠ .never)
      (h3 : tabGet D.par (converted k.x name.flatten) = none) (h4 : MustKnow k D) :
      Bad k D (perefText k.asc name ++ rest) [] .UNDEFINED_ENTITY
  /-- or has been declared in another entity -/
  | outside {k : Ctx} {D : DTab} (name : List Buf) (ent : Entity) (rest : Buf) (h1 : k.x.e.Name name) (h2 : k.pe ≠ .never)
      (h3 : tabGet D.par (converted k.x name.flatten) = some ent) (h4 : MustKnow k D) (h5 : ent.isInternal = false) :
      Bad k D (perefText k.asc name ++ rest) [] .ENTITY_DECLARED_IN_PE
  /-- the text of an entity would close the document type declaration -/
  | closing {k : Ctx} {D : DTab} (sp : List UInt8) (rest : Buf) (h1 : k.internal = true) (h2 : k.doc = true) (h3 : AllWS sp) :
      Bad k D (k.asc 0x5D ++ (spell k.asc sp ++ (k.asc 0x3E ++ rest))) [] .INVALID_TOKEN
  /-- or the internal subset -/
  | bracket {k : Ctx} {D : DTab} (sp : List UInt8) (h1 : k.internal = true) (h2 : k.doc = true) (h3 : White sp) :
      Bad k D (k.asc 0x5D ++ spell k.asc sp) [] .INCOMPLETE_PE
  /-- after declarations and references that are allowed -/
  | after {k : Ctx} {D D' : DTab} {w w' : Buf} {A A' : List Said} {e : XErr} (h1 : Decls k D w A D') (h2 : Bad k D' w' A' e) :
      Bad k D (w ++ w') (A ++ A') e
  /-- in the text of an entity -/
  | inside {k : Ctx} {D : DTab} {t : Buf} {A : List Said} {e : XErr} (name : List Buf) (ent : Entity) (rest : Buf) (h1 : k.x.e.Name name)
      (h2 : k.pe ≠ .never) (h3 : tabGet D.par (converted k.x name.flatten) = some ent) (h4 : MustKnow k D → ent.isInternal = true)
      (h5 : converted k.x name.flatten ∉ k.opened) (h6 : ent.text = some t)
      (h7 : Bad (k.inside (converted k.x name.flatten)) { D with hasPERefs := true } t A e) :
      Bad k D (perefText k.asc name ++ rest) A e

theorem Bad.ne_pi {k : Ctx} {D : DTab} {w : Buf} {A : List Said} {e : XErr} (h : Bad k D w A e) : e ≠ .MISPLACED_XML_PI := by
  induction h <;> first | assumption | simp

theorem Bad.ne_nil {k : Ctx} {D : DTab} {w : Buf} {A : List Said} {e : XErr} (h : Bad k D w A e) : XSupported k.x k.asc → w ≠ [] := by
  have ref {k : Ctx} (S : XSupported k.x k.asc) (name : List Buf) (rest : Buf) : perefText k.asc name ++ rest ≠ [] := by
    rw [perefText, List.append_assoc]; exact asc_ne S _ _
  induction h with
  | recursive name _ rest => exact fun S => ref S name rest
  | undeclared name rest => exact fun S => ref S name rest
  | outside name _ rest => exact fun S => ref S name rest
  | inside name _ rest => exact fun S => ref S name rest
  | closing => exact fun S => asc_ne S _ _
  | bracket => exact fun S => asc_ne S _ _
  | after h1 h2 ih => exact fun S h => ih S (List.append_eq_nil_iff.1 h).2

/-- A prolog (without XML declaration) with such an internal subset. -/
inductive BadProlog (k : Ctx) (D : DTab) : Buf → List Said → XErr → Prop where
  | mk (w0 : Buf) (E0 : List PEv) (sp1 : List UInt8) (name : List Buf) (w1 : Buf) (sp2 : List UInt8) (w2 : Buf) (pub sys : Option Buf)
      (E : List PEv) (A : List Said) (D1 : DTab) (e : XErr) (h0 : Miscs k w0 E0) (h1 : White sp1) (h2 : DName k.x.e k.asc name)
      (h3 : Outer k D w1 pub sys E D1) (h4 : AllWS sp2) (h5 : Bad k D1 w2 A e) :
      BadProlog k D (w0 ++ (declOpen k.asc kwDOCTYPE ++ (spell k.asc sp1 ++ (name.flatten ++ (w1 ++ (spell k.asc sp2 ++ (k.asc 0x5B ++ w2)))))))
        (calls E0 ++ calls (E ++ if k.c.startDoctype then [.startDoctype (some (converted k.x name.flatten)) sys pub true] else []) ++ A) e

/-! ### The run -/

section
variable {k : Ctx} {ext : Ext} {fuel : Nat} {expand : Bool → Buf → Buf → DState → Acted}
  {between allowClose more : Bool} {F : C59.Frame} {D : DTab} {s : DState}

theorem stop_ref (S : XSupported k.x k.asc) (a : At F (home F.doc) D s) {name : List Buf} (h : k.x.e.Name name) {s' : DState} {E : List PEv} {e : XErr}
    (hp : paramRef k.c ext expand k.opened { s with D := { D with hasPERefs := true } } k.x k.internal .PARAM_ENTITY_REF (perefText k.asc name)
      = (E, s', .fail e)) (r : Buf) :
    Stops k.c ext fuel expand k.internal between allowClose more k.opened k.x s (perefText k.asc name ++ r) (heard E) e := by
  have hdoc : s.el.p.documentEntity = F.doc := congrArg Frame.doc a.frame
  refine Stops.tok (s' := s') (t := .PARAM_ENTITY_REF) (p := s.el.p) (role := .PARAM_ENTITY_REF) S ?_ ?_ rfl
    (home_ref (by rw [hdoc]; exact a.h) _) fun hx => ?_
  · rw [peref_len S, perefText, List.append_assoc, List.append_assoc, pt_peref S.s h]
  · rw [peref_len S]; omega
  · simp only [pact, withP_self, hx, actParamRef, a.D]
    exact hp

theorem ref_fails (S : XSupported k.x k.asc) (a : At F (home F.doc) D s) (hdoc : k.doc = F.doc) (hpe : k.pe = F.pe) {name : List Buf} {ent : Entity}
    (h2 : k.pe ≠ .never) (h3 : tabGet D.par (converted k.x name.flatten) = some ent) (h4 : MustKnow k D → ent.isInternal = true)
    {E : List PEv} {s' : DState} {e : XErr}
    (hr : handleRef k.c ext expand k.opened { s with D := { D with hasPERefs := true } } .PARAM_ENTITY_REF (converted k.x name.flatten) ent = (E, s', .fail e)) :
    paramRef k.c ext expand k.opened { s with D := { D with hasPERefs := true } } k.x k.internal .PARAM_ENTITY_REF (perefText k.asc name)
      = (E, s', .fail e) := by
  have hpe' : s.pe = k.pe := (congrArg Frame.pe a.frame).trans hpe.symm
  rw [paramRef, if_neg (by rw [show DState.pe { s with D := { D with hasPERefs := true } } = s.pe from rfl, hpe']; exact h2)]
  simp only [peref_name S, h3]
  rw [if_neg, handleRefCheck, hr]
  intro h
  rw [Bool.and_eq_true] at h
  have := h4 ((must_iff a hdoc).1 h.1)
  rw [this] at h
  exact absurd h.2 (by simp)

theorem ref_must (S : XSupported k.x k.asc) (a : At F (home F.doc) D s) (hdoc : k.doc = F.doc) (hpe : k.pe = F.pe) {name : List Buf}
    (h2 : k.pe ≠ .never) (h4 : MustKnow k D) {e : XErr}
    (h3 : tabGet D.par (converted k.x name.flatten) = none ∧ e = .UNDEFINED_ENTITY ∨
      ∃ ent, tabGet D.par (converted k.x name.flatten) = some ent ∧ ent.isInternal = false ∧ e = .ENTITY_DECLARED_IN_PE) :
    ∃ s', paramRef k.c ext expand k.opened { s with D := { D with hasPERefs := true } } k.x k.internal .PARAM_ENTITY_REF (perefText k.asc name)
      = ([], s', .fail e) := by
  have hpe' : s.pe = k.pe := (congrArg Frame.pe a.frame).trans hpe.symm
  have hm := (must_iff a hdoc).2 h4
  rw [paramRef, if_neg (by rw [show DState.pe { s with D := { D with hasPERefs := true } } = s.pe from rfl, hpe']; exact h2)]
  rcases h3 with ⟨h3, rfl⟩ | ⟨ent, h3, h5, rfl⟩
  · simp only [peref_name S, h3]
    rw [if_pos hm]
    exact ⟨_, rfl⟩
  · simp only [peref_name S, h3, h5]
    rw [if_pos (by rw [hm]; rfl)]
    exact ⟨_, rfl⟩

/-- `]` in the text of an entity. -/
theorem run_rsqb (S : XSupported k.x k.asc) (a : At F .internalSubset D s) {sp : List UInt8} (hsp : AllWS sp) {r : Buf}
    (hr : NextIn k.asc (fun d => d != 0x5D) (spell k.asc sp ++ r)) (h0 : r ≠ [] ∨ more = false) :
    ∃ s', At F .doctype5 D s' ∧
      Reach k.c ext fuel expand k.internal between allowClose more k.opened k.x s (k.asc 0x5D ++ (spell k.asc sp ++ r)) [] s' r := by
  obtain ⟨d, r', h2, h1⟩ := hr
  have hd : d ≠ 0x5D := by simpa using h2
  obtain ⟨s', a', r1⟩ := doc_rsqb (ext := ext) (fuel := fuel) (expand := expand) (between := between) (allowClose := allowClose) (more := more) S a hd r'
  rw [← h1] at r1
  exact ⟨s', a', r1.then (Reach.spaces S (by rw [a'.h]; rfl) a'.none_ sp (maybe_all hsp) h0)⟩

end

/-- Enough for the derivation. -/
theorem run_bad {k : Ctx} {D : DTab} {w : Buf} {A : List Said} {e : XErr} (h : Bad k D w A e) : XSupported k.x k.asc → IntOk k →
    ∃ N, ∀ (ext : Ext) (fuel d : Nat), N ≤ fuel → N ≤ d → ∀ (between allowClose more : Bool) (F : C59.Frame) (s : DState),
      k.doc = F.doc → k.pe = F.pe → F.includes = 0 → (k.internal = true → between = true ∧ allowClose = false ∧ more = false) →
      At F (home F.doc) D s →
      ∃ E, Says A E ∧ Stops k.c ext fuel (expandPE k.c ext fuel d k.opened) k.internal between allowClose more k.opened k.x s w E e := by
  induction h with
  | recursive name ent rest h1 h2 h3 h4 h5 =>
    intro S hi
    refine ⟨0, fun ext fuel d _ _ between allowClose more F s hdoc hpe hl _ a => ⟨[], .nil, ?_⟩⟩
    exact stop_ref S a h1 (ref_fails (E := []) (e := .RECURSIVE_ENTITY_REF) S a hdoc hpe h2 h3 h4 (by rw [handleRef, if_pos h5])) rest
  | undeclared name rest h1 h2 h3 h4 =>
    intro S hi
    refine ⟨0, fun ext fuel d _ _ between allowClose more F s hdoc hpe hl _ a => ⟨[], .nil, ?_⟩⟩
    obtain ⟨s', hp⟩ := ref_must S a hdoc hpe h2 h4 (.inl ⟨h3, rfl⟩)
    exact stop_ref S a h1 hp rest
  | outside name ent rest h1 h2 h3 h4 h5 =>
    intro S hi
    refine ⟨0, fun ext fuel d _ _ between allowClose more F s hdoc hpe hl _ a => ⟨[], .nil, ?_⟩⟩
    obtain ⟨s', hp⟩ := ref_must S a hdoc hpe h2 h4 (.inr ⟨ent, h3, h5, rfl⟩)
    exact stop_ref S a h1 hp rest
  | @closing k D sp rest h1 h2 h3 =>
    intro S hi
    refine ⟨0, fun ext fuel d _ _ between allowClose more F s hdoc hpe hl hb a => ⟨[], .nil, ?_⟩⟩
    obtain ⟨-, hc, -⟩ := hb h1
    subst hc
    have hho : home F.doc = .internalSubset := by rw [← hdoc, h2]; rfl
    rw [hho] at a
    obtain ⟨s1, a1, r1⟩ := run_rsqb (ext := ext) (fuel := fuel) (expand := expandPE k.c ext fuel d k.opened) (between := between) (allowClose := false)
      (more := more) S a h3 (show NextIn k.asc (fun d => d != 0x5D) (spell k.asc sp ++ (k.asc 0x3E ++ rest)) from maybe_next (fun c hc => by
        rw [bne_iff_ne]
        rintro rfl
        exact absurd hc (by decide)) (by decide) h3 rest) (.inl (asc_ne S _ _))
    have hp : s1.el.p.next k.x.e .DECL_CLOSE (k.asc 0x3E) = ({ s1.el.p with h := .prolog2 }, .DOCTYPE_CLOSE) := by
      simp [PState.next, PState.handle, a1.h, doctype5, PState.go]
    exact Stops.after r1 (Stops.tok (E := []) S (by rw [pt_gt S.s, S.s.asc.len]) (by rw [S.s.asc.len]; exact Nat.le_refl _) rfl hp
      fun _ => by rw [pact]; rfl)
  | @bracket k D sp h1 h2 h3 =>
    intro S hi
    refine ⟨0, fun ext fuel d _ _ between allowClose more F s hdoc hpe hl hb a => ⟨[], .nil, ?_⟩⟩
    obtain ⟨hbt, hc, hm⟩ := hb h1
    subst hc hm hbt
    have hho : home F.doc = .internalSubset := by rw [← hdoc, h2]; rfl
    rw [hho] at a
    obtain ⟨d0, sp', rfl⟩ : ∃ d0 sp', sp = d0 :: sp' := by
      cases sp with
      | nil => exact absurd rfl h3.1
      | cons d0 sp' => exact ⟨_, _, rfl⟩
    obtain ⟨s1, a1, r1⟩ := run_rsqb (ext := ext) (fuel := fuel) (expand := expandPE k.c ext fuel d k.opened) (between := true) (allowClose := false)
      (more := false) (r := []) S a h3.2 ⟨d0, spell k.asc sp', by
        have := h3.2 d0 (by simp)
        rw [bne_iff_ne]
        rintro rfl
        exact absurd this (by decide), by simp [spell_cons]⟩ (.inr rfl)
    rw [List.append_nil] at r1
    refine Stops.after r1 fun hx _ => ?_
    have hsee : seeToken (s1.x k.c k.internal) k.internal true false k.c.isPE [] = .endPE := by
      rw [seeToken, show prologTok (s1.x k.c k.internal).e [] = ⟨.NONE, 0⟩ from by simp [prologTok]]
      simp [seeRes, Tok.isError, h1]
      decide
    have hn : (s1.el.p.next (s1.x k.c k.internal).e .NONE []).2 = .ERROR := by
      simp [PState.next, PState.handle, a1.h, doctype5, common, fall]
    rw [prun.eq_def]
    simp only [hsee]
    rw [if_pos hn]
    exact ⟨_, rfl⟩
  | after h1 h2 ih =>
    intro S hi
    obtain ⟨N1, hN1⟩ := run_decls h1 S hi
    obtain ⟨N2, hN2⟩ := ih S hi
    refine ⟨max N1 N2, fun ext fuel d hf hd between allowClose more F s hdoc hpe hl hb a => ?_⟩
    obtain ⟨s1, E1, e1, a1, r1⟩ := hN1 ext fuel d (by omega) (by omega) between allowClose more F s _ hdoc hpe hl a (.inl (h2.ne_nil S))
    obtain ⟨E2, e2, r2⟩ := hN2 ext fuel d (by omega) (by omega) between allowClose more F s1 hdoc hpe hl hb a1
    exact ⟨E1 ++ E2, e1.append e2, Stops.after r1 r2⟩
  | @inside k D t A e name ent rest h1 h2 h3 h4 h5 h6 h7 ih =>
    intro S hi
    obtain ⟨N, hN⟩ := ih hi.int ⟨hi.int, hi.ends⟩
    refine ⟨N + 1, fun ext fuel d hf hd between allowClose more F s hdoc hpe hl hb a => ?_⟩
    obtain ⟨d, rfl⟩ : ∃ d', d = d' + 1 := ⟨d - 1, by omega⟩
    obtain ⟨E1, e1, r1⟩ := hN ext fuel d (by omega) (by omega) true false false F { s with D := { D with hasPERefs := true } }
      hdoc hpe hl (fun _ => ⟨rfl, rfl, rfl⟩) a.refs
    have hmb : k.c.int.e.mb = 1 := by
      rw [← hi.int.s.asc.len 0]; rfl
    obtain ⟨s1, r1⟩ := r1 rfl (by
      show k.c.int.e.mb ∣ _
      rw [hmb]; exact Nat.one_dvd _)
    obtain ⟨G, hG, hq⟩ := of_hear r1
    rw [show (k.inside (converted k.x name.flatten)).opened = converted k.x name.flatten :: k.opened from rfl,
      show (k.inside (converted k.x name.flatten)).c = k.c from rfl, show (k.inside (converted k.x name.flatten)).internal = true from rfl] at hq
    refine ⟨E1, e1, ?_⟩
    rw [← hG]
    refine stop_ref S a h1 (s' := s1) (ref_fails S a hdoc hpe h2 h3 h4 ?_) rest
    rw [handleRef, if_neg h5, h6]
    simp only [decide_true, expandPE, hq, Prolog.toActed]

/-- A prolog. -/
theorem run_badProlog {k : Ctx} {D : DTab} {w : Buf} {A : List Said} {e : XErr} (h : BadProlog k D w A e) (S : XSupported k.x k.asc) (hi : IntOk k)
    (hk : k.internal = false) :
    ∃ N, ∀ (ext : Ext) (fuel d : Nat), N ≤ fuel → N ≤ d → ∀ (between more : Bool) (F : C59.Frame) (s : DState),
      Untyped k F D → At F .prolog1 D s → s.decl = none →
      ∃ E, Says A E ∧ Stops k.c ext fuel (expandPE k.c ext fuel d k.opened) k.internal between true more k.opened k.x s w E e := by
  cases h with
  | mk w0 E0 sp1 name w1 sp2 w2 pub sys E A D1 e h0 h1 h2 h3 h4 h5 =>
    obtain ⟨N, hN⟩ := run_bad h5 S hi
    refine ⟨N, fun ext fuel d hf hdd between more F s u a hd => ?_⟩
    obtain ⟨p1, p2, p3, p4, p5, p6⟩ := subF_keep k F pub sys
    have hgt : NextIn k.asc afterLit (spell k.asc sp2 ++ (k.asc 0x5B ++ w2)) := maybe_next (fun c hc => by simp [afterLit, hc]) (by decide) h4 _
    have hnn : NextIn k.asc afterName (w1 ++ (spell k.asc sp2 ++ (k.asc 0x5B ++ w2))) := by
      cases h3 with
      | none => exact maybe_next (fun c hc => by simp [afterName, hc]) (by decide) h4 _
      | some sp w pub sys g1 g2 g3 g4 => rw [List.append_assoc]; exact g1.nextName _
    obtain ⟨s0, m0, e0, r00⟩ := run_miscs (ext := ext) (fuel := fuel) (expand := expandPE k.c ext fuel d k.opened) (between := between) (allowClose := true)
      (more := more) (r := declOpen k.asc kwDOCTYPE ++ (spell k.asc sp1 ++ (name.flatten ++ (w1 ++ (spell k.asc sp2 ++ (k.asc 0x5B ++ w2)))))) S rfl h0
      (.inl fun h => qname_ne S h2 _ (List.append_eq_nil_iff.1 (List.append_eq_nil_iff.1 h).2).2) a
    have r0 := doc_open (ext := ext) (fuel := fuel) (expand := expandPE k.c ext fuel d k.opened) (between := between) (allowClose := true) (more := more)
      (r := name.flatten ++ (w1 ++ (spell k.asc sp2 ++ (k.asc 0x5B ++ w2)))) m0 S h1 (qname_ne S h2 _)
    obtain ⟨s1, m1, e1, r1⟩ := doc_name (ext := ext) (fuel := fuel) (expand := expandPE k.c ext fuel d k.opened) (between := between) (allowClose := true)
      (more := more) S (m0.go .doctype0) h2 hnn
    obtain ⟨s2, g, hg, m2, r2⟩ := doc_outer (ext := ext) (fuel := fuel) (expand := expandPE k.c ext fuel d k.opened) (between := between) (allowClose := true)
      (more := more) S u.foreign u.pe m1 (e1.trans (e0.trans hd)) u.keep u.hash h3 hgt
    have r3 := m2.white (c := k.c) (ext := ext) (fuel := fuel) (expand := expandPE k.c ext fuel d k.opened) (internal := k.internal) (between := between)
      (allowClose := true) (more := more) (opened := k.opened) (r := k.asc 0x5B ++ w2) S (by rcases hg with rfl | rfl <;> rfl) h4 (asc_ne S _ _)
    obtain ⟨s3, m3, r4⟩ := doc_lsqb (ext := ext) (fuel := fuel) (expand := expandPE k.c ext fuel d k.opened) (between := between) (allowClose := true)
      (more := more) S u.fdoc hg m2 w2
    obtain ⟨E4, e4, r5⟩ := hN ext fuel d hf hdd between true more (subF k F pub sys) s3
      (by rw [p4, u.doc, u.fdoc]) (by rw [p2]; exact u.pe) (by rw [p5]; exact u.includes) (by simp [hk]) m3
    refine ⟨E0 ++ (E ++ startE k (converted k.x name.flatten) sys pub true) ++ E4, ((says_calls _).append (says_calls _)).append e4, ?_⟩
    rw [List.append_assoc]
    exact Stops.after r00 (Stops.after (r0.then (r1.then (r2.trans (r3.then r4)))) r5)

section
variable {c : PCfg} {x : XEnc} {asc : UInt8 → Buf} {pe : PEParsing}

/-- **C68.**  A document with such a prolog, passed in any pieces: the application is told what comes before the place, and
parsing fails there, with the error of the specification. -/
theorem refused (S : XSupported x asc) (hi : XSupported c.int asc1) (he : c.int.e.lineEnds asc1 = false) (ho : c.OtherOk)
    {w : Buf} {A : List Said} {e : XErr} (h : BadProlog (reading c x asc pe) {} w A e) :
    ∃ N, ∀ (ext : Ext) (fuel : Nat), N ≤ fuel → ∀ (cur : CurEnc), cur.x c.c.ns = x → x.e.mb ∣ w.length →
      ∃ E, Says A E ∧ ∀ xs : List Buf, xs.flatten = w →
        ∃ s', hear (C57.feed c ext fuel [] (start cur pe) [] xs) = (E, s', .err e) := by
  have hpi : e ≠ .MISPLACED_XML_PI := by
    cases h with
    | mk w0 E0 sp1 name w1 sp2 w2 pub sys E A D1 e h0 h1 h2 h3 h4 h5 => exact h5.ne_pi
  obtain ⟨N, hN⟩ := run_badProlog h S ⟨hi, he⟩ rfl
  refine ⟨N, fun ext fuel hf cur hx hd => ?_⟩
  obtain ⟨E, h1, h2⟩ := hN ext fuel fuel hf hf false false (frame (start cur pe))
    ((start cur pe).withP { (start cur pe).el.p with h := .prolog1 }) (start_untyped cur) (start_at cur) rfl
  obtain ⟨s', h4⟩ := h2 hx hd
  obtain ⟨s'', h5⟩ := prun_first_err (s := start cur pe) rfl rfl hpi h4
  refine ⟨E, h1, fun xs hxs => ?_⟩
  have hcut : ((start cur pe).x c false).Cuts := by
    rw [show (start cur pe).x c false = x from hx]; exact S.cuts
  have key := C57.chunks (ext := ext) (fuel := fuel) (opened := []) ho xs (start cur pe) [] hcut rfl
  rw [List.nil_append, hxs, C57.call_loop rfl] at key
  rw [show C57.loop c ext fuel [] false (start cur pe) = prun c ext fuel (expandPE c ext fuel fuel []) false false true false [] (start cur pe) from rfl] at key
  change hear (prun c ext fuel (expandPE c ext fuel fuel []) false false true false [] (start cur pe) _) = _ at h5
  generalize prun c ext fuel (expandPE c ext fuel fuel []) false false true false [] (start cur pe) _ = q at h5 key
  generalize C57.feed c ext fuel [] (start cur pe) [] xs = p at key ⊢
  obtain ⟨Eq, sq, oq⟩ := q
  obtain ⟨Ep, sp, op⟩ := p
  obtain ⟨k1, k2⟩ := key
  simp only [hear, Prod.mk.injEq] at h5
  obtain ⟨rfl, rfl, rfl⟩ := h5
  simp only [hear]
  rw [← heard_pflat Ep, k1, heard_pflat]
  cases op <;> simp only at k2
  subst k2
  exact ⟨_, rfl⟩

/-- The same between declarations anywhere: with any declarations before, in the document or in the text of a parameter
entity, standalone or not. -/
theorem refused_between {k : Ctx} {D : DTab} {w : Buf} {A : List Said} {e : XErr} (h : Bad k D w A e) (S : XSupported k.x k.asc)
    (hi : XSupported k.c.int asc1) (he : k.c.int.e.lineEnds asc1 = false) (hk : k.internal = false) (ho : k.opened = []) :
    ∃ N, ∀ (ext : Ext) (fuel : Nat), N ≤ fuel → ∀ (more : Bool) (F : C59.Frame) (s : DState),
      k.doc = F.doc → k.pe = F.pe → F.includes = 0 → F.ignoring = false → At F (home F.doc) D s → s.x k.c false = k.x → k.x.e.mb ∣ w.length →
      ∃ E s', Says A E ∧ hear (prologCall k.c ext fuel [] more s w) = (E, s', .err e) := by
  obtain ⟨N, hN⟩ := run_bad h S ⟨hi, he⟩
  refine ⟨N, fun ext fuel hf more F s hdoc hpe hl hg a hx hd => ?_⟩
  obtain ⟨E, h1, h2⟩ := hN ext fuel fuel hf hf false true more F s hdoc hpe hl (by simp [hk]) a
  rw [hk, ho] at h2
  obtain ⟨s', h2⟩ := h2 hx hd
  refine ⟨E, s', h1, ?_⟩
  rw [← h2, prologCall]
  simp only []
  rw [if_neg (by rw [show s.ignoring = F.ignoring from congrArg Frame.ignoring a.frame, hg]; simp)]

end

/-! ### Examples -/

/-- `p` is declared as ` %p;`, `q` as `] >`. -/
def exD : DTab where
  par := [([0x70], ⟨some [0x20, 0x25, 0x70, 0x3B], true, none, none, none, none⟩), ([0x71], ⟨some [0x5D, 0x20, 0x3E], true, none, none, none, none⟩)]

/-- The text `%p;` is refused, because the text of `p` contains `%p;`, after a space. -/
theorem ex_recursive : Bad (reading C59.exCfg (utf8X false) asc1 .always) exD (perefText asc1 [[0x70]] ++ []) ([] ++ []) .RECURSIVE_ENTITY_REF := by
  have c1 : converted (utf8X false) [0x70] = [0x70] := by decide +kernel
  have c2 : converted (internalUtf8X false) [0x70] = [0x70] := by decide +kernel
  have d : Decls ((reading C59.exCfg (utf8X false) asc1 .always).inside [0x70]) { exD with hasPERefs := true } [0x20] [] { exD with hasPERefs := true } :=
    .cons (.space 0x20 rfl) (.nil _ _)
  refine .inside [[0x70]] ⟨some [0x20, 0x25, 0x70, 0x3B], true, none, none, none, none⟩ [] ⟨_, _, rfl, by decide +kernel, by simp⟩ (by simp [reading])
    (by simp [c1, reading, tabGet, exD]) (fun _ => rfl) (by simp [reading]) rfl (.after d ?_)
  exact .recursive (k := (reading C59.exCfg (utf8X false) asc1 .always).inside _) [[0x70]] _ [] ⟨_, _, rfl, by decide +kernel, by simp⟩ (by simp [reading, Ctx.inside])
    (by simp [c2, reading, tabGet, exD, Ctx.inside, C59.exCfg]; rfl) (fun _ => rfl) (by simp [c2, reading, Ctx.inside, C59.exCfg])

example := refused_between ex_recursive (.utf8 false) (.internalUtf8 false) (C33.line_ends_internal false) rfl rfl

/-- Whole documents: `<!DOCTYPE d [<!ENTITY % p "&#37;p;">%p;`, `<!DOCTYPE d [<!ENTITY % p "] >">%p;`,
`<!DOCTYPE d [<!ENTITY % p "] ">%p;>`. -/
def exOut (t : Buf) : Option XErr :=
  match (prologCall C59.exCfg (fun _ sh => ⟨[], sh, [], true⟩) 5 [] false (start (.builtin .utf8) .always) t).2.2 with
  | .err e => some e
  | _ => none

example : exOut "<!DOCTYPE d [<!ENTITY % p \"&#37;p;\">%p;".toUTF8.toList = some .RECURSIVE_ENTITY_REF ∧
    exOut "<!DOCTYPE d [<!ENTITY % p \"] >\">%p;".toUTF8.toList = some .INVALID_TOKEN ∧
    exOut "<!DOCTYPE d [<!ENTITY % p \"] \">%p;>".toUTF8.toList = some .INCOMPLETE_PE := by
  decide +kernel

end Verif.C68
