import Verif.PrologInv
import Verif.PrologChunks

/-! # Parameter entities stay unread

Nothing in the prolog changes `m_paramEntityParsing`, the XML declaration excepted (XML_PARAM_ENTITY_PARSING_UNLESS_STANDALONE).  The proofs
are those of `PrologChunks` for the encoding. -/

set_option autoImplicit false

namespace Verif.Unread
open PState C43

/-- The treatment of parameter entities and the processor are the same. -/
def Still (s s' : DState) : Prop := s'.pe = s.pe ∧ s'.ignoring = s.ignoring

section
variable {c : PCfg} {ext : Ext} {fuel : Nat} {expand : Bool → Buf → Buf → DState → Acted}
  {internal allowClose : Bool} {opened : List Buf}

theorem setDecl_still (s : DState) (f : Entity → Entity) : Still s (s.setDecl f) := by
  unfold DState.setDecl; split <;> exact ⟨rfl, rfl⟩

theorem callExt_still (s : DState) (opened : List Buf) (ent : Entity) : Still s (callExt ext s opened ent).2.1 :=
  ⟨rfl, rfl⟩

theorem readSubset_still (atRoot : Bool) (s : DState) : Still s (readSubset c ext opened atRoot s).2.1 := by
  unfold readSubset
  simp only []
  (repeat' split) <;> exact ⟨rfl, rfl⟩

theorem actDoctypeClose_still (s : DState) : Still s (actDoctypeClose c ext opened allowClose s).2.1 := by
  unfold actDoctypeClose
  simp only []
  split
  · exact ⟨rfl, rfl⟩
  · have h : Still s (if s.dName.isSome then { s with tmp := [] } else s) := by split <;> exact ⟨rfl, rfl⟩
    generalize (if s.dName.isSome then { s with tmp := [] } else s) = u at h ⊢
    split
    · have h2 := readSubset_still (c := c) (ext := ext) (opened := opened) false u
      generalize readSubset c ext opened false u = q at h2
      obtain ⟨E, v, o⟩ := q
      cases o <;> exact ⟨h2.1.trans h.1, h2.2.trans h.2⟩
    · exact h

theorem actInstanceStart_still (s : DState) : Still s (actInstanceStart c ext opened s).2.1 := by
  unfold actInstanceStart
  split
  · have h2 := readSubset_still (c := c) (ext := ext) (opened := opened) true s
    generalize readSubset c ext opened true s = q at h2
    obtain ⟨E, v, o⟩ := q
    cases o <;> exact h2
  · exact ⟨rfl, rfl⟩

theorem actAttlist_still (s : DState) (x : XEnc) (r : Role) (w : Buf) : Still s (actAttlist c s x r w) := by
  unfold actAttlist
  split <;> first | exact ⟨rfl, rfl⟩ | (split <;> exact ⟨rfl, rfl⟩)

theorem reportAttribute_still (s : DState) (v : Option Buf) (b : Bool) : Still s (reportAttribute c s v b).2.1 := by
  unfold reportAttribute
  split
  · exact ⟨rfl, rfl⟩
  · split <;> exact ⟨rfl, rfl⟩

theorem actAttDefault_still (s : DState) (x : XEnc) (r : Role) (w : Buf) :
    Still s (actAttDefault c s x internal r w).2.1 := by
  unfold actAttDefault
  split
  · exact ⟨rfl, rfl⟩
  · split
    · exact reportAttribute_still _ _ _
    · exact reportAttribute_still _ _ _
    · split
      · exact ⟨rfl, rfl⟩
      · exact reportAttribute_still _ _ _

theorem actEntity_still (s : DState) (x : XEnc) (r : Role) (w : Buf) :
    Still s (actEntity c ext fuel opened s x internal r w).2.1 := by
  unfold actEntity
  split
  · (repeat' split) <;> exact ⟨rfl, rfl⟩
  · (repeat' split) <;> exact ⟨rfl, rfl⟩
  · split
    · exact ⟨rfl, rfl⟩
    · exact setDecl_still (s.setSh _) _
  · (repeat' split) <;> first | exact ⟨rfl, rfl⟩ | exact setDecl_still _ _
  · (repeat' split) <;> first | exact ⟨rfl, rfl⟩ | exact setDecl_still _ _
  · (repeat' split) <;> exact ⟨rfl, rfl⟩
  · simp only []
    (repeat' split) <;> first | exact ⟨rfl, rfl⟩ | exact setDecl_still _ _
  · exact ⟨rfl, rfl⟩

theorem actNotation_still (s : DState) (x : XEnc) (r : Role) (w : Buf) : Still s (actNotation c s x r w).2.1 := by
  unfold actNotation
  (repeat' split) <;> exact ⟨rfl, rfl⟩

theorem docEntry_still (s : DState) : Still s (docEntry s) := by
  unfold docEntry; split <;> exact ⟨rfl, rfl⟩

theorem docSystemSet_still (s : DState) (x : XEnc) (w : Buf) : Still s (docSystemSet c x w s) := by
  unfold docSystemSet; split
  · exact setDecl_still _ _
  · exact ⟨rfl, rfl⟩

theorem docPublicSet_still (s : DState) (x : XEnc) (w : Buf) : Still s (docPublic.docPublicSet x w s) := by
  unfold docPublic.docPublicSet; split
  · exact setDecl_still _ _
  · exact ⟨rfl, rfl⟩

theorem Still.trans {s t u : DState} (h : Still s t) (h' : Still t u) : Still s u :=
  ⟨h'.1.trans h.1, h'.2.trans h.2⟩

theorem docSystem_still (s : DState) (x : XEnc) (w : Buf) : Still s (docSystem c x w s).2.1 := by
  unfold docSystem
  simp only []
  generalize (if s.pe = .never then askStandalone c s.D else ([], false)) = a
  split
  · exact ⟨rfl, rfl⟩
  · exact (docEntry_still s).trans (docSystemSet_still _ _ _)

theorem docPublic_still (s : DState) (x : XEnc) (w : Buf) : Still s (docPublic c x w s).2.1 := by
  unfold docPublic
  split
  · exact ⟨rfl, rfl⟩
  · split
    · exact Still.trans (t := docPublic.docPublicId x w s) ⟨rfl, rfl⟩ (docPublicSet_still _ _ _)
    · exact docPublicSet_still _ _ _

theorem actDoctype_still (s : DState) (x : XEnc) (r : Role) (w : Buf) : Still s (actDoctype c s x r w).2.1 := by
  unfold actDoctype
  split
  · split <;> exact ⟨rfl, rfl⟩
  · split <;> exact ⟨rfl, rfl⟩
  · refine Still.trans ?_ (docPublic_still _ _ _)
    exact ⟨rfl, rfl⟩
  · refine Still.trans ?_ (docSystem_still _ _ _)
    split <;> exact ⟨rfl, rfl⟩
  · exact ⟨rfl, rfl⟩

theorem actComment_still (s : DState) (x : XEnc) (w : Buf) : Still s (actComment c s x w).2.1 := by
  unfold actComment
  (repeat' split) <;> exact ⟨rfl, rfl⟩

theorem actPI_still (s : DState) (x : XEnc) (w : Buf) : Still s (actPI c s x w).2.1 := by
  unfold actPI
  simp only []
  (repeat' split) <;> exact ⟨rfl, rfl⟩

theorem actElement_still (s : DState) (x : XEnc) (r : Role) (t : Tok) (w : Buf) :
    Still s (actElement c s x r t w).2.1 := by
  unfold actElement
  split <;> exact ⟨rfl, rfl⟩

/-- What a reference does to the encoding and the processor is what the entity's text does. -/
def StillExpand (P : DState → DState → Prop) (expand : Bool → Buf → Buf → DState → Acted) : Prop :=
  ∀ b n t s, P s (expand b n t s).2.1

theorem standaloneCheck_still (s : DState) (b : Bool) : Still s (standaloneCheck c s b).2.1 := ⟨rfl, rfl⟩

/-- Relations coarser than `Still`. -/
structure StillRel (P : DState → DState → Prop) : Prop where
  still : ∀ {s s'}, Still s s' → P s s'
  trans : ∀ {s t u}, P s t → P t u → P s u

theorem handleRef_still {P : DState → DState → Prop} (H : StillRel P) (he : StillExpand P expand) (s : DState)
    (r : Role) (name : Buf) (ent : Entity) : P s (handleRef c ext expand opened s r name ent).2.1 := by
  unfold handleRef
  split
  · exact H.still ⟨rfl, rfl⟩
  · split
    · rename_i t _
      have h := he (r = .PARAM_ENTITY_REF) name t s
      generalize expand _ name t s = q at h ⊢
      obtain ⟨E, u, o⟩ := q
      cases o <;> exact h
    · simp only []
      apply H.still
      (repeat' split) <;> exact ⟨rfl, rfl⟩

theorem actParamRef_still {P : DState → DState → Prop} (H : StillRel P) (he : StillExpand P expand) (s : DState)
    (x : XEnc) (r : Role) (w : Buf) : P s (actParamRef c ext expand opened s x internal r w).2.1 := by
  unfold actParamRef
  refine H.trans (t := { s with D := { s.D with hasPERefs := true } }) (H.still ⟨rfl, rfl⟩) ?_
  generalize ({ s with D := { s.D with hasPERefs := true } } : DState) = s
  unfold paramRef
  split
  · exact H.still ⟨rfl, rfl⟩
  · simp only []
    generalize (s.el.p.documentEntity && if s.D.standalone then !internal else !s.D.hasPERefs) = must
    split
    · apply H.still; (repeat' split) <;> exact ⟨rfl, rfl⟩
    · rename_i ent _
      split
      · exact H.still ⟨rfl, rfl⟩
      · unfold handleRefCheck
        have h := handleRef_still (c := c) (ext := ext) (opened := opened) H he s r (converted x (refName x.e w)) ent
        generalize handleRef c ext expand opened s r (converted x (refName x.e w)) ent = q at h ⊢
        obtain ⟨E, u, o⟩ := q
        cases o with
        | go hd => exact H.trans h (H.still ⟨rfl, rfl⟩)
        | _ => exact h

theorem pact_still {P : DState → DState → Prop} (H : StillRel P) (he : StillExpand P expand)
    (hx : ∀ s b w, P s (actXmlDecl c s b w).2.1) (s : DState) (r : Role) (t : Tok) (w : Buf) :
    P s (pact c ext fuel expand internal allowClose opened s r t w).2.1 := by
  unfold pact
  simp only []
  split
  all_goals first
    | with_reducible exact hx _ _ _
    | with_reducible exact H.still (actDoctype_still _ _ _ _)
    | with_reducible exact H.still (actDoctypeClose_still _)
    | with_reducible exact H.still (actInstanceStart_still _)
    | with_reducible exact H.still (actAttDefault_still _ _ _ _)
    | with_reducible exact H.still (actEntity_still _ _ _ _)
    | with_reducible exact H.still (actNotation_still _ _ _ _)
    | with_reducible exact actParamRef_still H he _ _ _ _
    | with_reducible exact H.still (actPI_still _ _ _)
    | with_reducible exact H.still (actComment_still _ _ _)
    | with_reducible exact H.still (actElement_still _ _ _ _ _)
    | with_reducible exact H.still (actAttlist_still _ _ _ _)
    | exact H.still ⟨rfl, rfl⟩

theorem pround_still {P : DState → DState → Prop} (H : StillRel P) (he : StillExpand P expand)
    (hx : ∀ s b w, P s (actXmlDecl c s b w).2.1) (s : DState) (t : Tok) (w : Buf) :
    P s (pround c ext fuel expand internal allowClose opened s t w).2.1 := by
  rw [pround_eq]
  refine H.trans (t := s.told (s.x c internal).e t w) (H.still ⟨rfl, rfl⟩) ?_
  have h := pact_still (c := c) (ext := ext) (fuel := fuel) (internal := internal) (allowClose := allowClose)
    (opened := opened) H he hx (s.told (s.x c internal).e t w) (s.el.p.next (s.x c internal).e t w).2 t w
  generalize pact c ext fuel expand internal allowClose opened _ _ t w = q at h ⊢
  obtain ⟨E, u, o⟩ := q
  cases o with
  | go d => cases d <;> exact h
  | _ => exact h

end

/-- Parameter entities that are not read stay unread. -/
def Unread (s s' : DState) : Prop := s.pe = .never → s'.pe = .never

section
variable {c : PCfg} {ext : Ext} {fuel : Nat} {expand : Bool → Buf → Buf → DState → Acted}
  {internal between allowClose more : Bool} {opened : List Buf}

theorem unread_rel : StillRel Unread where
  still h hs := h.1.trans hs
  trans h h' hs := h' (h hs)

theorem actXmlDecl_unread (s : DState) (b : Bool) (w : Buf) : Unread s (actXmlDecl c s b w).2.1 := by
  intro hs
  unfold actXmlDecl
  simp only [hs]
  split
  · exact hs
  · exact hs
  · (repeat' split) <;> simp_all

theorem pround_unread (he : StillExpand Unread expand) (s : DState) (t : Tok) (w : Buf) :
    Unread s (pround c ext fuel expand internal allowClose opened s t w).2.1 :=
  pround_still unread_rel he actXmlDecl_unread s t w

/-- A run on a final buffer. -/
theorem prun_unread (he : StillExpand Unread expand) (s : DState) (b : Buf) :
    Unread s (prun c ext fuel expand internal between allowClose false opened s b).2.1 := by
  induction hn : b.length using Nat.strongRecOn generalizing s b with
  | _ n ih =>
    subst hn
    rw [prun.eq_def]
    simp only []
    cases seeToken (s.x c internal) internal between false c.isPE b with
    | wait => exact unread_rel.still ⟨rfl, rfl⟩
    | fail e => exact unread_rel.still ⟨rfl, rfl⟩
    | panic => exact unread_rel.still ⟨rfl, rfl⟩
    | endPE =>
      simp only []
      split
      · exact unread_rel.still ⟨rfl, rfl⟩
      · exact unread_rel.still ⟨rfl, rfl⟩
    | tok t n =>
      simp only []
      have hr := pround_unread (c := c) (ext := ext) (fuel := fuel) (internal := internal) (allowClose := allowClose)
        (opened := opened) he s t (b.take n)
      generalize pround c ext fuel expand internal allowClose opened s t (b.take n) = r at hr
      obtain ⟨E, s', o⟩ := r
      cases o with
      | fail e => exact hr
      | panic => exact hr
      | start => exact hr
      | go d =>
        simp only []
        split
        · rename_i hlt
          exact unread_rel.trans hr (ih _ hlt s' _ rfl)
        · exact hr
      | ignore =>
        simp only []
        have hf := ignoreSection_final (x := s'.x c internal) (b := b.drop n)
        generalize ignoreSection (s'.x c internal) false (b.drop n) = q at hf
        cases q with
        | wait => exact absurd rfl hf
        | err e => exact hr
        | closed k =>
          simp only []
          split
          · rename_i hlt
            exact unread_rel.trans hr (ih _ hlt s' _ rfl)
          · exact hr

theorem expandPE_unread (k : Nat) (opened : List Buf) :
    StillExpand Unread (expandPE c ext fuel k opened) := by
  induction k generalizing opened with
  | zero => intro b n t s; exact unread_rel.still ⟨rfl, rfl⟩
  | succ k ih =>
    intro b n t s
    have h := prun_unread (c := c) (ext := ext) (fuel := fuel) (internal := true) (between := b) (allowClose := false)
      (opened := n :: opened) (ih (n :: opened)) s t
    unfold expandPE
    generalize prun c ext fuel (expandPE c ext fuel k (n :: opened)) true b false false (n :: opened) s t = q at h ⊢
    obtain ⟨E, u, o⟩ := q
    cases o <;> exact h

/-- When the root element starts no handler is called. -/
theorem start_silent {s s' : DState} (hpe : s.pe = .never) {t : Tok} {w : Buf} {E : List PEv}
    (h : pround c ext fuel expand internal allowClose opened s t w = (E, s', .start)) : E = [] := by
  unfold pround at h
  simp only at h
  have hp := (Verif.C61.pact_out (c := c) (ext := ext) (fuel := fuel) (expand := expand) (internal := internal) (allowClose := allowClose) (opened := opened)
    (s := { s with el := { s.el with p := (s.el.p.next (s.x c internal).e t w).1 } }) hpe (s.el.p.next (s.x c internal).e t w).2 t w).1
  split at h
  · cases h
  · rw [h] at hp
    rw [hp rfl] at h
    simp only [pact, actInstanceStart] at h
    split at h
    · obtain ⟨s2, h2⟩ := Verif.C61.subset_go (c := c) (ext := ext) (opened := opened) (s := { s with el := { s.el with p := (s.el.p.next (s.x c internal).e t w).1 } }) hpe true
      rw [h2] at h
      cases h; rfl
    · cases h; rfl

end

end Verif.Unread
