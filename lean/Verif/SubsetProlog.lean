import Verif.SubsetDoctype
import Verif.XmlDeclRun

/-! # The prolog when the external subset is read, or a foreign DTD (C69) -/

set_option autoImplicit false

namespace Verif.C69
open C43 C53 C59 C60 Spec Verif PState

/-- A document entity; nothing of a document type declaration has been read. -/
structure XUntyped (k : Ctx) (fo : Bool) (F : C59.Frame) (D : DTab) : Prop where
  doc : k.doc = true
  fdoc : F.doc = true
  pe : k.pe = F.pe
  foreign : F.foreign = fo
  includes : F.includes = 0
  value : F.inValue = false
  name : F.dName = none
  keep : D.keep = true
  hash : tabGet D.par hashName = none

theorem outF_keep (F : C59.Frame) (sys : Option Buf) :
    (outF F sys).pe = F.pe ∧ (outF F sys).doc = F.doc ∧ (outF F sys).includes = F.includes ∧ (outF F sys).inValue = F.inValue ∧
      (outF F sys).cur = F.cur ∧ (outF F sys).dName = F.dName := by
  rw [outF]; split <;> simp [plainF]

theorem docF_value (k : Ctx) (F : C59.Frame) (n : Buf) (pub sys : Option Buf) : (docF k F n pub sys).inValue = F.inValue := by
  rw [docF]; split <;> rfl

theorem subF_value (k : Ctx) (F : C59.Frame) (pub sys : Option Buf) : (subF k F pub sys).inValue = F.inValue := by
  rw [subF]; split <;> rfl

/-- The whole declaration. -/
theorem run_xdoctype {docs : ExtReq → Option ExtDoc} {fo : Bool} {k : Ctx} {D : DTab} {w : Buf} {A : List Said} {D' : DTab}
    (h : XDoctype docs k fo D w A D') (S : XSupported k.x k.asc) (hi : IntOk k) (ho : k.c.OtherOk) :
    ∃ N, ∀ (fuel d dd : Nat), N ≤ fuel → N ≤ d → N ≤ dd → ∀ (between more : Bool) (F : C59.Frame) (s : DState) (r : Buf),
      XUntyped k fo F D → At F .prolog1 D s → s.decl = none →
      ∃ s' E F', Says A E ∧ At F' .prolog2 D' s' ∧ F'.foreign = false ∧ F'.cur = F.cur ∧
        Reach k.c (resolver k.c docs fuel dd) fuel (expandPE k.c (resolver k.c docs fuel dd) fuel d k.opened) k.internal between true more k.opened k.x s (w ++ r) E s' r := by
  cases h with
  | mk sp1 name w1 sp2 w2 pub sys b E A B D1 D2 D3 h1 h2 h3 h4 h5 h6 =>
    obtain ⟨M, hM⟩ := xdoc_gt h6 S hi ho
    have hgiven (hk : tabGet D.par hashName = none) : sys.isSome = true → tabGet D1.par hashName = some (subsetEntity k pub sys) := by
      cases h3 with
      | none => intro h; cases h
      | some sp w pub sys g1 g2 g4 => exact fun _ => tabGet_new hk _
    cases h5 with
    | none =>
      refine ⟨M, fun fuel d dd hf hd' hdd between more F s r u a hd => ?_⟩
      let ext := resolver k.c docs fuel dd
      obtain ⟨o2, o3, o4, o5, o6, o7⟩ := outF_keep F sys
      obtain ⟨p1, p2, p3, p4, p5, p6⟩ := docF_keep k (outF F sys) (converted k.x name.flatten) pub sys
      have hgt : NextIn k.asc afterLit (spell k.asc sp2 ++ (k.asc 0x3E ++ r)) := maybe_next (fun c hc => by simp [afterLit, hc]) (by decide) h4 r
      have hnn : NextIn k.asc afterName (w1 ++ (spell k.asc sp2 ++ (k.asc 0x3E ++ r))) := by
        cases h3 with
        | none => exact maybe_next (fun c hc => by simp [afterName, hc]) (by decide) h4 r
        | some sp w pub sys g1 g2 g4 => rw [List.append_assoc]; exact g1.nextName _
      have r0 := doc_open (ext := ext) (fuel := fuel) (expand := expandPE k.c ext fuel d k.opened) (between := between) (allowClose := true) (more := more)
        (r := name.flatten ++ (w1 ++ (spell k.asc sp2 ++ (k.asc 0x3E ++ r)))) a S h1 (qname_ne S h2 _)
      obtain ⟨s1, m1, e1, r1⟩ := doc_name (ext := ext) (fuel := fuel) (expand := expandPE k.c ext fuel d k.opened) (between := between) (allowClose := true)
        (more := more) S (a.go .doctype0) h2 hnn
      obtain ⟨s2, g, hg, m2, r2⟩ := xdoc_outer (ext := ext) (fuel := fuel) (expand := expandPE k.c ext fuel d k.opened) (between := between) (allowClose := true)
        (more := more) S u.pe m1 (e1.trans hd) u.keep u.hash h3 hgt
      have r3 := m2.white (c := k.c) (ext := ext) (fuel := fuel) (expand := expandPE k.c ext fuel d k.opened) (internal := k.internal) (between := between)
        (allowClose := true) (more := more) (opened := k.opened) (r := k.asc 0x3E ++ r) S (by rcases hg with rfl | rfl <;> rfl) h4 (asc_ne S _ _)
      obtain ⟨s4, E4, e4, m4, r4⟩ := hM fuel dd hf hdd (expandPE k.c ext fuel d k.opened) between more _ _ s2 r (by rcases hg with rfl | rfl <;> simp)
        (by rw [p2, o2]; exact u.pe) (by rw [docF_value, o5]; exact u.value) p3 (by
          rw [p1]
          split
          · next hs => exact ⟨by rw [outF, if_pos hs]; rfl, hgiven u.hash hs⟩
          · next hs => rw [outF, if_neg hs]; exact u.foreign) m2
      have hev : (if (docF k (outF F sys) (converted k.x name.flatten) pub sys).dName.isSome then [PEv.startDoctype (docF k (outF F sys) (converted k.x name.flatten) pub sys).dName
          (docF k (outF F sys) (converted k.x name.flatten) pub sys).dSys (docF k (outF F sys) (converted k.x name.flatten) pub sys).dPub false] else []) =
          startE k (converted k.x name.flatten) sys pub false := by
        rw [docF, startE]
        cases hs : k.c.startDoctype
        · simp [o7, u.name]
        · simp
      rw [hev] at r4
      refine ⟨s4, (E ++ startE k (converted k.x name.flatten) sys pub false) ++ [] ++ (E4 ++ if k.c.endDoctype then [.endDoctype] else []), _,
        ((says_calls _).append .nil).append (e4.append (says_calls _)), m4, rfl, p6.trans o6, ?_⟩
      · simp only [List.append_assoc, List.nil_append]
        exact r0.then (r1.then (r2.trans (r3.then r4)))
    | some w A D' sp h5 h6' =>
      obtain ⟨N, hN⟩ := run_xdecls h5 S hi ho
      refine ⟨max N M, fun fuel d dd hf hd' hdd between more F s r u a hd => ?_⟩
      let ext := resolver k.c docs fuel dd
      obtain ⟨o2, o3, o4, o5, o6, o7⟩ := outF_keep F sys
      obtain ⟨p1, p2, p3, p4, p5, p6⟩ := subF_keep k (outF F sys) pub sys
      have hgt : NextIn k.asc afterLit (spell k.asc sp2 ++ (k.asc 0x5B ++ (w ++ (k.asc 0x5D ++ (spell k.asc sp ++ (k.asc 0x3E ++ r)))))) :=
        maybe_next (fun c hc => by simp [afterLit, hc]) (by decide) h4 _
      have hnn : NextIn k.asc afterName (w1 ++ (spell k.asc sp2 ++ (k.asc 0x5B ++ (w ++ (k.asc 0x5D ++ (spell k.asc sp ++ (k.asc 0x3E ++ r))))))) := by
        cases h3 with
        | none => exact maybe_next (fun c hc => by simp [afterName, hc]) (by decide) h4 _
        | some sp w pub sys g1 g2 g4 => rw [List.append_assoc]; exact g1.nextName _
      have r0 := doc_open (ext := ext) (fuel := fuel) (expand := expandPE k.c ext fuel d k.opened) (between := between) (allowClose := true) (more := more)
        (r := name.flatten ++ (w1 ++ (spell k.asc sp2 ++ (k.asc 0x5B ++ (w ++ (k.asc 0x5D ++ (spell k.asc sp ++ (k.asc 0x3E ++ r)))))))) a S h1 (qname_ne S h2 _)
      obtain ⟨s1, m1, e1, r1⟩ := doc_name (ext := ext) (fuel := fuel) (expand := expandPE k.c ext fuel d k.opened) (between := between) (allowClose := true)
        (more := more) S (a.go .doctype0) h2 hnn
      obtain ⟨s2, g, hg, m2, r2⟩ := xdoc_outer (ext := ext) (fuel := fuel) (expand := expandPE k.c ext fuel d k.opened) (between := between) (allowClose := true)
        (more := more) S u.pe m1 (e1.trans hd) u.keep u.hash h3 hgt
      have r3 := m2.white (c := k.c) (ext := ext) (fuel := fuel) (expand := expandPE k.c ext fuel d k.opened) (internal := k.internal) (between := between)
        (allowClose := true) (more := more) (opened := k.opened) (r := k.asc 0x5B ++ (w ++ (k.asc 0x5D ++ (spell k.asc sp ++ (k.asc 0x3E ++ r)))))
        S (by rcases hg with rfl | rfl <;> rfl) h4 (asc_ne S _ _)
      obtain ⟨s3, m3, r4⟩ := doc_lsqb (ext := ext) (fuel := fuel) (expand := expandPE k.c ext fuel d k.opened) (between := between) (allowClose := true)
        (more := more) S (by rw [o3]; exact u.fdoc) hg m2 (w ++ (k.asc 0x5D ++ (spell k.asc sp ++ (k.asc 0x3E ++ r))))
      obtain ⟨s4, E4, e4, m4, r5⟩ := hN fuel d dd (by omega) (by omega) (by omega) between true more (subF k (outF F sys) pub sys) s3
        (k.asc 0x5D ++ (spell k.asc sp ++ (k.asc 0x3E ++ r)))
        (by rw [p4, o3, u.doc, u.fdoc]) (by rw [p2, o2]; exact u.pe) (by rw [p5, o4]; exact u.includes) (by rw [subF_value, o5]; exact u.value) m3 (.inl (asc_ne S _ _))
      have hho : home (subF k (outF F sys) pub sys).doc = .internalSubset := by rw [p4, o3, u.fdoc]; rfl
      rw [hho] at m4
      obtain ⟨s5, m5, r6⟩ : ∃ s', At (subF k (outF F sys) pub sys) .doctype5 D2 s' ∧
          Reach k.c ext fuel (expandPE k.c ext fuel d k.opened) k.internal between true more k.opened k.x s4
            (k.asc 0x5D ++ (spell k.asc sp ++ (k.asc 0x3E ++ r))) [] s' (spell k.asc sp ++ (k.asc 0x3E ++ r)) := by
        cases sp with
        | nil => exact doc_rsqb S m4 (d := 0x3E) (by decide) r
        | cons d0 sp =>
          have := doc_rsqb (ext := ext) (fuel := fuel) (expand := expandPE k.c ext fuel d k.opened) (between := between) (allowClose := true)
            (more := more) S m4 (d := d0) (by
              intro h0
              have := h6' d0 (by simp)
              rw [h0] at this
              exact absurd this (by decide)) (spell k.asc sp ++ (k.asc 0x3E ++ r))
          simpa only [spell_cons, List.append_assoc] using this
      have r7 := m5.white (c := k.c) (ext := ext) (fuel := fuel) (expand := expandPE k.c ext fuel d k.opened) (internal := k.internal) (between := between)
        (allowClose := true) (more := more) (opened := k.opened) (r := k.asc 0x3E ++ r) S rfl h6' (asc_ne S _ _)
      obtain ⟨s6, E6, e6, m6, r8⟩ := hM fuel dd (by omega) (by omega) (expandPE k.c ext fuel d k.opened) between more _ _ s5 r (.inr (.inr rfl))
        (by rw [p2, o2]; exact u.pe) (by rw [subF_value, o5]; exact u.value) p3 (by
          rw [p1]
          split
          · next hs => exact ⟨by rw [outF, if_pos hs]; rfl, xdecls_par h5 (hgiven u.hash hs)⟩
          · next hs => rw [outF, if_neg hs]; exact u.foreign) m5
      have hev : (if (subF k (outF F sys) pub sys).dName.isSome then [PEv.startDoctype (subF k (outF F sys) pub sys).dName
          (subF k (outF F sys) pub sys).dSys (subF k (outF F sys) pub sys).dPub false] else []) = [] := by
        rw [subF]
        cases hs : k.c.startDoctype
        · simp [o7, u.name]
        · simp
      rw [hev, List.nil_append] at r8
      refine ⟨s6, (E ++ startE k (converted k.x name.flatten) sys pub true) ++ E4 ++ (E6 ++ if k.c.endDoctype then [.endDoctype] else []), _,
        ((says_calls _).append e4).append (e6.append (says_calls _)), m6, rfl, p6.trans o6, ?_⟩
      · simp only [List.append_assoc]
        exact r0.then (r1.then (r2.trans (r3.then (r4.trans (r5.trans (r6.then (r7.then r8)))))))

/-- Where the root element starts the prolog ends; when there is no document type declaration the foreign DTD is read there,
if the application uses one. -/
theorem run_xroot {docs : ExtReq → Option ExtDoc} {fo : Bool} {k : Ctx} {D D' : DTab} {B : List Said} (h : XClose docs k fo D none none B D') (hi : IntOk k)
    (ho : k.c.OtherOk) :
    ∃ N, ∀ (fuel dd : Nat), N ≤ fuel → N ≤ dd → ∀ (expand : Bool → Buf → Buf → DState → Acted) (between allowClose more : Bool) (F : C59.Frame) (s : DState)
      (r : Buf), F.foreign = fo → k.pe = F.pe → F.inValue = false → At F .prolog1 D s → s.x k.c k.internal = k.x →
      prologTok k.x.e r = ⟨.INSTANCE_START, 0⟩ →
      ∃ E s', Says B E ∧ s'.D = D' ∧ s'.cur = s.cur ∧
        hear (prun k.c (resolver k.c docs fuel dd) fuel expand k.internal between allowClose more k.opened s r) = (E, s', .content r) := by
  cases h with
  | nothing h1 h2 =>
    refine ⟨0, fun fuel dd _ _ expand between allowClose more F s r hF _ _ a hx hr => ?_⟩
    refine ⟨[], s.withP { s.el.p with h := .error }, .nil, a.D, rfl, ?_⟩
    rw [run_root (.inl rfl) (hF.trans h1) a hx hr]
    rfl
  | subset h1 h2 h3 =>
    obtain ⟨N, hN⟩ := run_subset h3 hi ho
    have hfo : fo = true := by
      rcases h1 with h1 | h1
      · cases h1
      · exact h1
    refine ⟨N, fun fuel dd hf hdd expand between allowClose more F s r hF hpe hv a hx hr => ?_⟩
    have b := a.go .error
    have hsf : s.foreign = true := (congrArg C59.Frame.foreign a.frame).trans (hF.trans hfo)
    obtain ⟨G, sh, e1, hD, hel, hle, hread⟩ := hN fuel dd hf hdd true (s.withP { s.el.p with h := .error })
      ⟨b.D, (congrArg C59.Frame.pe b.frame).trans hpe.symm, (congrArg C59.Frame.inValue b.frame).trans hv, b.rest.eldecl, b.rest.len,
        (fun h => by cases h), fun _ => ⟨(h2 rfl).1, rfl, .inl hsf, .inl rfl⟩⟩
    refine ⟨heard G, (s.withP { s.el.p with h := .error }).setSh sh, e1, hD, rfl, ?_⟩
    have hp : s.el.p.next k.x.e .INSTANCE_START [] = ({ s.el.p with h := .error }, .INSTANCE_START) := by
      simp [PState.next, PState.handle, a.h, prolog1, PState.go]
    have hsee : seeToken k.x k.internal between more k.c.isPE r = .tok .INSTANCE_START 0 := by
      rw [seeToken, hr]; rfl
    have hact : actInstanceStart k.c (resolver k.c docs fuel dd) k.opened (s.withP { s.el.p with h := .error }) =
        (G, (s.withP { s.el.p with h := .error }).setSh sh, .start) := by
      rw [actInstanceStart, if_pos (show (s.withP { s.el.p with h := .error }).foreign = true from hsf), hread]
    have hround : pround k.c (resolver k.c docs fuel dd) fuel expand k.internal allowClose k.opened s .INSTANCE_START [] =
        (G, (s.withP { s.el.p with h := .error }).setSh sh, .start) := by
      rw [pround, hx]
      simp only [hp, pact]
      rw [show ({ s with el := { s.el with p := { s.el.p with h := .error } } } : DState) = s.withP { s.el.p with h := .error } from rfl, hact]
    rw [prun.eq_def]
    simp only [hx, hsee, List.take_zero, hround]
    rfl

/-- The whole prolog, from the state after the XML declaration. -/
theorem run_xprolog {docs : ExtReq → Option ExtDoc} {fo : Bool} {k : Ctx} {D : DTab} {w : Buf} {A : List Said} {D' : DTab}
    (h : XPrologText docs k fo D w A D') (S : XSupported k.x k.asc) (hi : IntOk k) (ho : k.c.OtherOk) :
    ∃ N, ∀ (fuel d dd : Nat), N ≤ fuel → N ≤ d → N ≤ dd → ∀ (between more : Bool) (F : C59.Frame) (s : DState) (r : Buf),
      XUntyped k fo F D → At F .prolog1 D s → s.decl = none → s.x k.c k.internal = k.x → k.x.e.mb ∣ (w ++ r).length →
      r ≠ [] → (k.x.e.mb ∣ r.length → prologTok k.x.e r = ⟨.INSTANCE_START, 0⟩) →
      ∃ s' E, k.x.e.mb ∣ r.length ∧ Says A E ∧ s'.D = D' ∧ s'.cur = s.cur ∧
        hear (prun k.c (resolver k.c docs fuel dd) fuel (expandPE k.c (resolver k.c docs fuel dd) fuel d k.opened) k.internal between true more k.opened s (w ++ r)) =
          (E, s', .content r) := by
  cases h with
  | plain w E B D' h h2 =>
    obtain ⟨N, hN⟩ := run_xroot h2 hi ho
    refine ⟨N, fun fuel d dd hf _ hdd between more F s r u a hd hx hm hr0 hr => ?_⟩
    obtain ⟨s1, m1, -, r1⟩ := run_miscs (ext := resolver k.c docs fuel dd) (fuel := fuel) (expand := expandPE k.c (resolver k.c docs fuel dd) fuel d k.opened)
      (between := between) (allowClose := true) (more := more) S rfl h (.inl hr0) a
    obtain ⟨q1, q2, q3⟩ := r1 hx hm
    obtain ⟨E2, s2, e2, g1, g2, g3⟩ := hN fuel dd hf hdd (expandPE k.c (resolver k.c docs fuel dd) fuel d k.opened) between true more F s1 r
      u.foreign u.pe u.value m1 q2 (hr q3)
    refine ⟨s2, _, q3, (says_calls E).append e2, g1, ?_, ?_⟩
    · rw [g2]
      exact (congrArg C59.Frame.cur m1.frame).trans (congrArg C59.Frame.cur a.frame).symm
    · rw [q1, g3]
      rfl
  | typed w1 w2 w3 E1 E3 A D' h1 h2 h3 =>
    obtain ⟨N, hN⟩ := run_xdoctype h2 S hi ho
    refine ⟨N, fun fuel d dd hf hd' hdd between more F s r u a hd hx hm hr0 hr => ?_⟩
    have hne : w2 ++ (w3 ++ r) ≠ [] := fun h => hr0 (List.append_eq_nil_iff.1 (List.append_eq_nil_iff.1 h).2).2
    obtain ⟨s1, m1, e1, r1⟩ := run_miscs (ext := resolver k.c docs fuel dd) (fuel := fuel) (expand := expandPE k.c (resolver k.c docs fuel dd) fuel d k.opened)
      (between := between) (allowClose := true) (more := more) S rfl h1 (.inl hne) a
    obtain ⟨s2, E2, F', e2, m2, f1, f2, r2⟩ := hN fuel d dd hf hd' hdd between more F s1 (w3 ++ r) u m1 (e1.trans hd)
    obtain ⟨s3, m3, e3, r3⟩ := run_miscs (ext := resolver k.c docs fuel dd) (fuel := fuel) (expand := expandPE k.c (resolver k.c docs fuel dd) fuel d k.opened)
      (between := between) (allowClose := true) (more := more) S rfl h3 (.inl hr0) m2
    have r4 := (r1.trans r2).trans r3
    rw [← List.append_assoc, ← List.append_assoc] at r4
    rw [← List.append_assoc] at hm ⊢
    obtain ⟨q1, q2, q3⟩ := r4 hx hm
    refine ⟨s3.withP { s3.el.p with h := .error }, _, q3, ((says_calls _).append e2).append (says_calls _), m3.D, ?_, ?_⟩
    · exact (congrArg C59.Frame.cur m3.frame).trans (f2.trans (congrArg C59.Frame.cur a.frame).symm)
    · rw [q1, run_root (.inr rfl) f1 m3 q2 (hr q3), hear_pre_nil]

/-! ### The XML declaration -/

/-- A parser as XML_ParserCreate and the setters, of which XML_UseForeignDTD is one, leave it. -/
def startF (fo : Bool) (cur : CurEnc) (pe : PEParsing) : DState := { start cur pe with foreign := fo }

/-- The state after the XML declaration. -/
def begunF (fo : Bool) (cur : CurEnc) (pe : PEParsing) (b : Bool) : DState := { C60.begun cur pe b with foreign := fo }

theorem actXmlDecl_foreign (c : PCfg) (s : DState) (g fo : Bool) (w : Buf) :
    actXmlDecl c { s with foreign := fo } g w =
      ((actXmlDecl c s g w).1, { (actXmlDecl c s g w).2.1 with foreign := fo }, (actXmlDecl c s g w).2.2) := by
  unfold actXmlDecl
  dsimp only
  repeat' split
  all_goals simp_all

section
variable {c : PCfg} {ext : Ext} {fuel : Nat} {expand : Bool → Buf → Buf → DState → Acted} {between allowClose more : Bool}
  {opened : List Buf}

/-- The declaration is read, and then the rest in the encoding it names. -/
theorem decl_stepF {i j : EncId} {d : C18.Src} (h : d.Valid false) (h127 : ∀ a ∈ d.encoding, a.value.length ≠ 127)
    (hn : NextEnc c.protocol i d j) (fo : Bool) (pe : PEParsing) (r : Buf) (hd : (i.x c.c.ns).e.mb ∣ (xmlDeclText (C54.ascOf i) d ++ r).length) :
    ∃ V, Told c d V ∧
      hear (prun c ext fuel expand false between allowClose more opened (startF fo (.builtin i) pe) (xmlDeclText (C54.ascOf i) d ++ r)) =
        Prolog.pre V (hear (prun c ext fuel expand false between allowClose more opened (begunF fo (.builtin j) pe (alone d)) r)) := by
  have S := C54.supported c.c.ns i
  obtain ⟨E, h1, h2⟩ := decl_act (c := c) h h127 hn pe
  refine ⟨heard E, h2, ?_⟩
  have h1' : actXmlDecl c (begunF fo (.builtin i) pe false) false (xmlDeclText (C54.ascOf i) d) = (E, begunF fo (.builtin j) pe (alone d), .go false) := by
    rw [begunF, actXmlDecl_foreign, h1]; rfl
  have htok := decl_token S h r hd
  have hl : 0 < (xmlDeclText (C54.ascOf i) d).length := by
    rw [xmlDeclText, List.length_append, spell, spell_length S.s]
    have : 0 < (i.x c.c.ns).e.mb := Nat.succ_pos _
    simp only [List.length_cons, List.length_nil]
    omega
  have hsee : seeToken ((startF fo (.builtin i) pe).x c false) false between more c.isPE (xmlDeclText (C54.ascOf i) d ++ r) =
      .tok .XML_DECL (xmlDeclText (C54.ascOf i) d).length := by
    rw [seeToken, show (startF fo (.builtin i) pe).x c false = i.x c.c.ns from rfl, htok]
    rfl
  have hround : pround c ext fuel expand false allowClose opened (startF fo (.builtin i) pe) .XML_DECL (xmlDeclText (C54.ascOf i) d) =
      (E, begunF fo (.builtin j) pe (alone d), .go false) := by
    rw [pround]
    have hp : (startF fo (.builtin i) pe).el.p.next ((startF fo (.builtin i) pe).x c false).e .XML_DECL (xmlDeclText (C54.ascOf i) d) =
        ({ PState.init with h := .prolog1 }, .XML_DECL) := rfl
    have hs : ({ startF fo (.builtin i) pe with el := { (startF fo (.builtin i) pe).el with p := { PState.init with h := .prolog1 } } } : DState) =
        begunF fo (.builtin i) pe false := by
      simp [startF, begunF, start, C60.begun, peAfter]
    simp only [hp, hs, pact, h1']
  rw [prun.eq_def]
  simp only [hsee]
  rw [List.take_left' rfl, hround]
  simp only
  rw [List.drop_left' rfl, if_pos (by rw [List.length_append]; omega), hear_pre]

theorem begunF_at (fo : Bool) (cur : CurEnc) (pe : PEParsing) (b : Bool) :
    At (frame (begunF fo cur pe b)) .prolog1 { standalone := b } (begunF fo cur pe b) where
  h := rfl
  none_ := rfl
  frame := rfl
  D := rfl
  tmp := rfl
  rest := ⟨rfl, rfl, .inl rfl⟩

theorem begunF_untyped (fo : Bool) (cur : CurEnc) (pe : PEParsing) (b : Bool) (x : XEnc) (asc : UInt8 → Buf) :
    XUntyped (reading c x asc (peAfter b pe)) fo (frame (begunF fo cur pe b)) { standalone := b } where
  doc := rfl
  fdoc := rfl
  pe := rfl
  foreign := rfl
  includes := rfl
  value := rfl
  name := rfl
  keep := rfl
  hash := rfl

end

end Verif.C69
