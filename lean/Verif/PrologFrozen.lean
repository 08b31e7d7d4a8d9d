import Verif.PrologKeeps

/-!
# Declarations that are no longer processed

The invariant behind C67: when `keepProcessing` is false and the document has not said that it is
standalone, no step of the prolog changes what has been declared, or reports a declaration of an entity
or an attribute.
-/

set_option autoImplicit false

namespace Verif
open PState C43

/-- The XML declaration can no longer come. -/
def PState.Past (p : PState) : Prop := p.h ≠ .prolog0 ∧ p.roleNone ≠ .XML_DECL

theorem past_handle {e : Enc} {s s' : PState} {t : Tok} {b : Buf} {r : Role} (hl : s.Past) (h : s.handle e t b = some (s', r)) :
    s'.Past ∧ r ≠ .XML_DECL ∧ s'.inEntityValue = s.inEntityValue := by
  obtain ⟨h1, h2⟩ := hl
  obtain ⟨q, lv, rn, il, de, iv⟩ := s
  unfold handle at h
  cases q <;>
  simp only [prolog1, prolog2, doctype0, doctype1, doctype2, doctype3, doctype4, doctype5, externalSubset0,
    internalSubset, externalSubset1, condSect0, condSect1, condSect2, entity0, entity1, entity2, entity3, entity4,
    entity5, entity6, entity7, entity8, entity9, entity10, notation0, notation1, notation2, notation3,
    notation4, attlist0, attlist1, attlist2, attlist3, attlist4, attlist5, attlist6, attlist7,
    attlist8, attlist9, element0, element1, element2, element3, element4, element5, element6,
    element7, declClose, go, stay, top, close, closeGroup] at h <;>
  (try (exfalso; simp at h1; done)) <;>
  (repeat' split at h) <;> simp only [Option.some.injEq, Prod.mk.injEq, reduceCtorEq] at h <;>
  (try (obtain ⟨rfl, rfl⟩ := h)) <;> simp_all [PState.Past]

theorem past_next {e : Enc} {s : PState} {t : Tok} {b : Buf} (hl : s.Past) :
    (s.next e t b).1.Past ∧ (s.next e t b).2 ≠ .XML_DECL ∧ (s.next e t b).1.inEntityValue = s.inEntityValue := by
  unfold PState.next
  cases hh : s.handle e t b with
  | some r => exact past_handle hl hh
  | none =>
    rw [Option.getD_none]
    have hf : s.fall.Past ∧ s.fall.inEntityValue = s.inEntityValue := by
      unfold PState.fall
      split
      · exact ⟨⟨by simp, hl.2⟩, rfl⟩
      · exact ⟨hl, rfl⟩
    rw [common]
    split
    · exact ⟨hf.1, by simp, hf.2⟩
    · exact ⟨⟨by simp, hf.1.2⟩, by simp, hf.2⟩

/-- The declaration of an entity or of an attribute is reported. -/
def PEv.declaring : PEv → Bool
  | .entityDecl .. | .unparsed .. | .attlistDecl .. => true
  | _ => false

/-- Nothing has been declared.  (The entry `#` is not an entity, it holds the identifiers of the external
subset.) -/
structure Unchanged (D D' : DTab) : Prop where
  gen : D'.gen = D.gen
  elems : D'.elems = D.elems
  toks : D'.maybeTok = D.maybeTok
  par : ∀ n, n ≠ hashName → tabGet D'.par n = tabGet D.par n

theorem Unchanged.refl (D : DTab) : Unchanged D D := ⟨rfl, rfl, rfl, fun _ _ => rfl⟩

theorem Unchanged.trans {D D' D'' : DTab} (h : Unchanged D D') (h' : Unchanged D' D'') : Unchanged D D'' :=
  ⟨h'.gen.trans h.gen, h'.elems.trans h.elems, h'.toks.trans h.toks, fun n hn => (h'.par n hn).trans (h.par n hn)⟩

/-- Declarations are not processed. -/
structure DTab.Over (D : DTab) : Prop where
  keep : D.keep = false
  alone : D.standalone = false

/-- The tables of a document whose declarations are no longer processed stay. -/
structure Frozen (D : DTab) (E : List PEv) (D' : DTab) : Prop where
  over : D'.Over
  same : Unchanged D D'
  quiet : ∀ v ∈ E, v.declaring = false

theorem Frozen.refl {D : DTab} (h : D.Over) : Frozen D [] D := ⟨h, .refl _, fun _ h => nomatch h⟩

theorem Frozen.trans {D D' D'' : DTab} {E F : List PEv} (h : Frozen D E D') (h' : Frozen D' F D'') : Frozen D (E ++ F) D'' :=
  ⟨h'.over, h.same.trans h'.same, fun v hv => (List.mem_append.1 hv).elim (h.quiet v) (h'.quiet v)⟩

/-- The external entity handler, called between or in declarations, respects that. -/
def Ext.Freezes (ext : Ext) : Prop :=
  ∀ req sh, req.inValue = false → sh.D.Over → Frozen sh.D (ext req sh).calls (ext req sh).sh.D

/-- The parser is past the point where it could be told otherwise. -/
structure DState.Fixed (s : DState) : Prop where
  over : s.D.Over
  past : s.el.p.Past
  value : s.el.p.inEntityValue = false

/-- One step. -/
def Freeze (s : DState) (E : List PEv) (s' : DState) : Prop := s.Fixed → s'.Fixed ∧ Frozen s.D E s'.D

variable {c : PCfg} {ext : Ext} {fuel : Nat} {expand : Bool → Buf → Buf → DState → Acted} {opened : List Buf}

theorem Freeze.trans {s t u : DState} {E F : List PEv} (h : Freeze s E t) (h' : Freeze t F u) : Freeze s (E ++ F) u := fun hs =>
  have g := h hs
  have g' := h' g.1
  ⟨g'.1, g.2.trans g'.2⟩

theorem Freeze.of {s s' : DState} {E : List PEv} (hD : s.D.Over → s'.D.Over ∧ Unchanged s.D s'.D) (hp : s'.el.p = s.el.p)
    (hq : ∀ v ∈ E, v.declaring = false) : Freeze s E s' := fun hs =>
  ⟨⟨(hD hs.over).1, hp ▸ hs.past, hp ▸ hs.value⟩, (hD hs.over).1, (hD hs.over).2, hq⟩

theorem Freeze.same {s s' : DState} {E : List PEv} (hD : s'.D = s.D) (hp : s'.el.p = s.el.p) (hq : ∀ v ∈ E, v.declaring = false) :
    Freeze s E s' := .of (fun h => by rw [hD]; exact ⟨h, .refl _⟩) hp hq

theorem Freeze.refl (s : DState) : Freeze s [] s := .same rfl rfl fun _ h => nomatch h

theorem ev_plain (L : List Ev) : ∀ v ∈ L.map PEv.ev, v.declaring = false := by
  intro v hv
  obtain ⟨w, _, rfl⟩ := List.mem_map.1 hv
  rfl

theorem unchanged_put {D : DTab} (v : Entity) : Unchanged D { D with par := tabPut D.par hashName v } :=
  ⟨rfl, rfl, rfl, fun _ hn => tabGet_tabPut_ne hn⟩

theorem unchanged_set {D : DTab} (f : Entity → Entity) : Unchanged D { D with par := tabSet D.par hashName f } :=
  ⟨rfl, rfl, rfl, fun _ hn => tabGet_tabSet_ne hn⟩

theorem hash_other {t : List (Buf × Entity)} {v : Entity} {f : Entity → Entity} {n : Buf} (hn : n ≠ hashName) :
    tabGet (tabSet (tabPut t hashName v) hashName f) n = tabGet t n := (tabGet_tabSet_ne hn).trans (tabGet_tabPut_ne hn)

/-- Steps that concern only the notes about parameter entities. -/
theorem Freeze.notes {s : DState} (D' : DTab) (h : s.D.Over → D'.Over ∧ Unchanged s.D D') : Freeze s [] { s with D := D' } :=
  .of h rfl fun _ h => nomatch h

theorem freeze_drop (s : DState) : Freeze s [] { s with D := s.D.drop } :=
  .notes _ fun h => ⟨⟨h.alone, h.alone⟩, rfl, rfl, rfl, fun _ _ => rfl⟩

theorem askStandalone_plain (D : DTab) : ∀ v ∈ (askStandalone c D).1, v.declaring = false := by
  unfold askStandalone
  split
  · intro v h; cases h
  · split
    · intro v h; cases h
    · intro v h; rw [List.mem_singleton.1 h]; rfl

theorem standaloneCheck_freeze (s : DState) (hd : Bool) : Freeze s (standaloneCheck c s hd).1 (standaloneCheck c s hd).2.1 :=
  .same rfl rfl (askStandalone_plain _)

theorem callExt_freeze (hext : ext.Freezes) (s : DState) (ent : Entity) :
    Freeze s (callExt ext s opened ent).1 (callExt ext s opened ent).2.1 := by
  intro hs
  have h := hext ⟨s.el.p.inEntityValue, opened, s.pe, ent.base, ent.systemId, ent.publicId⟩
    { s.sh with D := { s.D with peRead := false } } hs.value ⟨hs.over.keep, hs.over.alone⟩
  refine ⟨⟨h.over, hs.past, hs.value⟩, h.over, ⟨h.same.gen, h.same.elems, h.same.toks, h.same.par⟩, ?_⟩
  intro v hv
  rcases List.mem_cons.1 hv with rfl | hv
  · rfl
  · exact h.quiet v hv

theorem Freeze.pre {s t : DState} {E : List PEv} {q : Acted} (h : Freeze s E t) (h' : Freeze t q.1 q.2.1) :
    Freeze s (q.pre E).1 (q.pre E).2.1 := h.trans h'

theorem readSubset_freeze (hext : ext.Freezes) (atRoot : Bool) (s : DState) :
    Freeze s (readSubset c ext opened atRoot s).1 (readSubset c ext opened atRoot s).2.1 := by
  have h0 : Freeze s [] { s with D := { s.D with hasPERefs := true } } :=
    .notes _ fun h => ⟨⟨h.keep, h.alone⟩, rfl, rfl, rfl, fun _ _ => rfl⟩
  unfold readSubset
  simp only []
  split
  · have h1 : Freeze s [] { s with D := { s.D with hasPERefs := true, par := tabPut s.D.par hashName .zero } } :=
      .notes _ fun h => ⟨⟨h.keep, h.alone⟩, rfl, rfl, rfl, fun _ hn => tabGet_tabPut_ne hn⟩
    have h2 : Freeze s [] (if s.foreign = true ∨ atRoot = true then
        { s with D := { s.D with hasPERefs := true, par := tabSet (tabPut s.D.par hashName .zero) hashName fun e => { e with base := c.base } } }
        else { s with D := { s.D with hasPERefs := true, par := tabPut s.D.par hashName .zero } }) := by
      split
      · exact .notes _ fun h => ⟨⟨h.keep, h.alone⟩, rfl, rfl, rfl, fun n hn => by dsimp only; exact hash_other hn⟩
      · exact h1
    generalize (if s.foreign = true ∨ atRoot = true then
        { s with D := { s.D with hasPERefs := true, par := tabSet (tabPut s.D.par hashName .zero) hashName fun e => { e with base := c.base } } }
        else { s with D := { s.D with hasPERefs := true, par := tabPut s.D.par hashName .zero } }) = s1 at *
    have h3 := h2.trans (callExt_freeze (opened := opened) hext s1 ((tabGet s1.D.par hashName).getD .zero))
    rw [List.nil_append] at h3
    generalize callExt ext s1 opened ((tabGet s1.D.par hashName).getD .zero) = q at *
    split
    · exact h3
    · split
      · exact h3.pre (standaloneCheck_freeze _ _)
      · split
        · have := h3.trans (Freeze.notes (s := q.2.1) { q.2.1.D with hasPERefs := s.D.hasPERefs }
            fun h => ⟨⟨h.keep, h.alone⟩, rfl, rfl, rfl, fun _ _ => rfl⟩)
          simpa using this
        · exact h3
  · exact h0

theorem plain_app {E F : List PEv} (h : ∀ v ∈ E, v.declaring = false) (h' : ∀ v ∈ F, v.declaring = false) :
    ∀ v ∈ E ++ F, v.declaring = false := fun v hv => (List.mem_append.1 hv).elim (h v) (h' v)

theorem Freeze.said {s s' : DState} {E : List PEv} (F G : List PEv) (h : Freeze s E s') (hF : ∀ v ∈ F, v.declaring = false)
    (hG : ∀ v ∈ G, v.declaring = false) : Freeze s (F ++ E ++ G) s' := fun hs =>
  have g := h hs
  ⟨g.1, g.2.over, g.2.same, plain_app (plain_app hF g.2.quiet) hG⟩

theorem Freeze.after {s s' t : DState} {E : List PEv} (h : Freeze s E s') (hD : t.D = s'.D) (hp : t.el.p = s'.el.p) : Freeze s E t := by
  have := h.trans (Freeze.same (s' := t) (E := []) hD hp fun _ h => nomatch h)
  simpa using this

theorem Freeze.before {s s' t : DState} {E : List PEv} (h : Freeze t E s') (hD : t.D = s.D) (hp : t.el.p = s.el.p) : Freeze s E s' := by
  have := (Freeze.same (s := s) (s' := t) (E := []) hD hp fun _ h => nomatch h).trans h
  simpa using this

theorem actDoctypeClose_freeze (hext : ext.Freezes) (allowClose : Bool) (s : DState) :
    Freeze s (actDoctypeClose c ext opened allowClose s).1 (actDoctypeClose c ext opened allowClose s).2.1 := by
  unfold actDoctypeClose
  have hE : ∀ v ∈ (if s.dName.isSome then [PEv.startDoctype s.dName s.dSys s.dPub false] else []), v.declaring = false := by
    intro v hv; split at hv
    · rw [List.mem_singleton.1 hv]; rfl
    · cases hv
  have hE2 : ∀ v ∈ (if c.endDoctype then [PEv.endDoctype] else []), v.declaring = false := by
    intro v hv; split at hv
    · rw [List.mem_singleton.1 hv]; rfl
    · cases hv
  split
  · exact .refl s
  · simp only []
    generalize hs1 : (if s.dName.isSome then { s with tmp := [] } else s) = s1
    have h1 : s1.D = s.D ∧ s1.el = s.el := by rw [← hs1]; split <;> exact ⟨rfl, rfl⟩
    split
    · have h := readSubset_freeze (c := c) (opened := opened) hext false s1
      generalize readSubset c ext opened false s1 = q at h ⊢
      obtain ⟨E1, s2, o⟩ := q
      have h := h.before (s := s) h1.1 (by rw [h1.2])
      cases o with
      | go d => exact (h.said _ _ hE hE2).after rfl rfl
      | _ =>
        have := h.said _ [] hE (fun _ h => nomatch h)
        rwa [List.append_nil] at this
    · exact .same h1.1 (by rw [h1.2]) (plain_app hE hE2)

theorem actInstanceStart_freeze (hext : ext.Freezes) (s : DState) :
    Freeze s (actInstanceStart c ext opened s).1 (actInstanceStart c ext opened s).2.1 := by
  unfold actInstanceStart
  split
  · have h := readSubset_freeze (c := c) (opened := opened) hext true s
    generalize readSubset c ext opened true s = q at h ⊢
    obtain ⟨E1, s2, o⟩ := q
    cases o <;> exact h
  · exact .refl s

theorem one_plain {v : PEv} (h : v.declaring = false) : ∀ u ∈ [v], u.declaring = false := by
  intro u hu; rw [List.mem_singleton.1 hu]; exact h

theorem actAttlist_freeze (s : DState) (x : XEnc) (r : Role) (w : Buf) : Freeze s [] (actAttlist c s x r w) := by
  unfold actAttlist
  split <;> (try split) <;> exact .same rfl rfl fun _ h => nomatch h

theorem actAttDefault_freeze (s : DState) (x : XEnc) (internal : Bool) (r : Role) (w : Buf) :
    Freeze s (actAttDefault c s x internal r w).1 (actAttDefault c s x internal r w).2.1 := by
  intro hs
  have : actAttDefault c s x internal r w = ([], s, .go true) := by
    unfold actAttDefault
    rw [if_pos (by rw [hs.over.keep]; rfl)]
  rw [this]
  exact Freeze.refl s hs

theorem actEntity_freeze (s : DState) (x : XEnc) (internal : Bool) (r : Role) (w : Buf) :
    Freeze s (actEntity c ext fuel opened s x internal r w).1 (actEntity c ext fuel opened s x internal r w).2.1 := by
  intro hs
  have hk := hs.over.keep
  have key : (actEntity c ext fuel opened s x internal r w).1 = [] ∧ (actEntity c ext fuel opened s x internal r w).2.1.D = s.D ∧
      (actEntity c ext fuel opened s x internal r w).2.1.el = s.el := by
    unfold actEntity
    simp only [hk, Bool.false_eq_true, if_false, Bool.not_false, if_true, Bool.false_and]
    split <;> (repeat' split) <;> exact ⟨rfl, rfl, rfl⟩
  refine Freeze.same key.2.1 (by rw [key.2.2]) ?_ hs
  rw [key.1]
  intro _ h; cases h

theorem actNotation_freeze (s : DState) (x : XEnc) (r : Role) (w : Buf) :
    Freeze s (actNotation c s x r w).1 (actNotation c s x r w).2.1 := by
  unfold actNotation
  split <;> (repeat' split) <;> first
    | exact .same rfl rfl (one_plain rfl)
    | exact .same rfl rfl (fun _ h => by cases h)

theorem docEntry_freeze (s : DState) : Freeze s [] (docEntry s) := by
  unfold docEntry
  split
  · exact .of (fun h => ⟨⟨h.keep, h.alone⟩, rfl, rfl, rfl, fun n hn => by dsimp only; exact hash_other hn⟩) rfl
      fun _ h => nomatch h
  · exact .refl s

theorem docSystemSet_freeze (s : DState) (x : XEnc) (w : Buf) : Freeze s [] (docSystemSet c x w s) := by
  intro hs
  rw [docSystemSet, if_neg (by rw [hs.over.keep]; simp)]
  exact Freeze.refl s hs

theorem docSystem_freeze (s : DState) (x : XEnc) (w : Buf) : Freeze s (docSystem c x w s).1 (docSystem c x w s).2.1 := by
  unfold docSystem
  simp only []
  have hq : ∀ v ∈ (if s.pe = .never then askStandalone c s.D else ([], false)).1, v.declaring = false := by
    split
    · exact askStandalone_plain _
    · intro v h; cases h
  generalize (if s.pe = .never then askStandalone c s.D else ([], false)) = a at hq ⊢
  split
  · exact .same rfl rfl hq
  · have := ((docEntry_freeze s).trans (docSystemSet_freeze (c := c) (docEntry s) x w)).said _ [] hq (fun _ h => nomatch h)
    simpa using this

theorem docPublic_freeze (s : DState) (x : XEnc) (w : Buf) : Freeze s (docPublic c x w s).1 (docPublic c x w s).2.1 := by
  intro hs
  unfold docPublic
  split
  · exact Freeze.refl s hs
  · split
    · rw [docPublic.docPublicSet, if_neg (by show ¬ s.D.keep = true; rw [hs.over.keep]; simp)]
      exact Freeze.same (s' := docPublic.docPublicId x w s) rfl rfl (fun _ h => nomatch h) hs
    · rw [docPublic.docPublicSet, if_neg (by rw [hs.over.keep]; simp)]
      exact Freeze.refl s hs

theorem actDoctype_freeze (s : DState) (x : XEnc) (r : Role) (w : Buf) :
    Freeze s (actDoctype c s x r w).1 (actDoctype c s x r w).2.1 := by
  unfold actDoctype
  split
  · split <;> exact .same rfl rfl fun _ h => nomatch h
  · split
    · exact .same rfl rfl (one_plain rfl)
    · exact .refl s
  · refine Freeze.trans (E := []) ?_ (docPublic_freeze _ x w)
    exact .of (fun h => ⟨⟨h.keep, h.alone⟩, rfl, rfl, rfl, fun _ hn => tabGet_tabPut_ne hn⟩) rfl fun _ h => nomatch h
  · refine Freeze.trans (E := []) ?_ (docSystem_freeze _ x w)
    split <;> exact .of (fun h => ⟨⟨h.keep, h.alone⟩, rfl, rfl, rfl, fun _ _ => rfl⟩) rfl fun _ h => nomatch h
  · exact .refl s

/-- A text declaration says nothing about being standalone. -/
theorem actXmlDecl_freeze (s : DState) (w : Buf) : Freeze s (actXmlDecl c s true w).1 (actXmlDecl c s true w).2.1 := by
  unfold actXmlDecl
  simp only [Bool.not_true, Bool.false_and, Bool.false_eq_true, if_false]
  split
  · exact .refl s
  · exact .refl s
  · rename_i o _
    have hE : ∀ E, (if c.xmlDecl = true then (xmlDeclCall c.c.al (s.cur.x c.c.ns) Pool.new o).map fun d => [PEv.xmlDecl d]
        else some ((toDefault c.c (s.cur.x c.c.ns) w).map .ev)) = some E → ∀ v ∈ E, v.declaring = false := by
      intro E h
      split at h
      · cases h' : xmlDeclCall c.c.al (s.cur.x c.c.ns) Pool.new o with
        | none => rw [h'] at h; cases h
        | some d =>
          rw [h'] at h
          cases h
          exact one_plain rfl
      · cases h
        exact ev_plain _
    split
    · exact .refl s
    · rename_i E h
      have hE := hE E h
      split
      · exact .same rfl rfl hE
      · split <;> (try split) <;> exact .same rfl rfl hE

theorem handleRef_freeze (hext : ext.Freezes) (he : ExpandRel Freeze expand) (s : DState) (r : Role) (name : Buf) (ent : Entity) :
    Freeze s (handleRef c ext expand opened s r name ent).1 (handleRef c ext expand opened s r name ent).2.1 := by
  unfold handleRef
  split
  · exact .refl s
  · split
    · rename_i t _
      have h := he (decide (r = .PARAM_ENTITY_REF)) name t s
      generalize expand (decide (r = .PARAM_ENTITY_REF)) name t s = q at h ⊢
      obtain ⟨E, s', o⟩ := q
      cases o <;> exact h
    · split
      · have h := callExt_freeze (opened := name :: opened) hext s ent
        simp only []
        generalize callExt ext s (name :: opened) ent = q at h ⊢
        split
        · exact h
        · split
          · have := h.trans (freeze_drop q.2.1)
            simpa using this
          · exact h.pre (standaloneCheck_freeze _ _)
      · exact freeze_drop s

theorem paramRef_freeze (hext : ext.Freezes) (he : ExpandRel Freeze expand) (s : DState) (x : XEnc) (internal : Bool) (r : Role) (w : Buf) :
    Freeze s (paramRef c ext expand opened s x internal r w).1 (paramRef c ext expand opened s x internal r w).2.1 := by
  unfold paramRef
  split
  · exact (freeze_drop s).trans (standaloneCheck_freeze _ _)
  · simp only []
    generalize (s.el.p.documentEntity && if s.D.standalone = true then !internal else !s.D.hasPERefs) = must
    split
    · split
      · exact .refl s
      · split
        · have := (freeze_drop s).said [.ev (.skippedEntity (converted x (refName x.e w)) true)] [] (one_plain rfl) (fun _ h => nomatch h)
          exact this
        · exact freeze_drop s
    · rename_i ent _
      split
      · exact .refl s
      · unfold handleRefCheck
        have h := handleRef_freeze (c := c) (opened := opened) hext he s r (converted x (refName x.e w)) ent
        generalize handleRef c ext expand opened s r (converted x (refName x.e w)) ent = q at h ⊢
        obtain ⟨E, s', o⟩ := q
        cases o with
        | go hd => exact h.pre (standaloneCheck_freeze _ _)
        | _ => exact h

theorem actParamRef_freeze (hext : ext.Freezes) (he : ExpandRel Freeze expand) (s : DState) (x : XEnc) (internal : Bool) (r : Role) (w : Buf) :
    Freeze s (actParamRef c ext expand opened s x internal r w).1 (actParamRef c ext expand opened s x internal r w).2.1 :=
  Freeze.trans (E := []) (t := { s with D := { s.D with hasPERefs := true } })
    (.notes _ fun h => ⟨⟨h.keep, h.alone⟩, rfl, rfl, rfl, fun _ _ => rfl⟩) (paramRef_freeze hext he _ x internal r w)

theorem actElement_freeze (s : DState) (x : XEnc) (r' : Role) (t : Tok) (w : Buf) :
    Freeze s (actElement c s x r' t w).1 (actElement c s x r' t w).2.1 := by
  unfold actElement
  have h := EState.act_p (decl := c.elementDecl) (nm := converted x) (e := x.e) (s := { s.el with calls := [] })
    (t := t) (b := w) (r := r')
  generalize EState.act c.elementDecl (converted x) x.e { s.el with calls := [] } t w r' = q at h ⊢
  cases q with
  | err e => exact .refl s
  | fault => exact .refl s
  | start el => exact .same rfl h fun _ h => nomatch h
  | ok el =>
    refine .same rfl h ?_
    intro v hv
    obtain ⟨w, _, rfl⟩ := List.mem_map.1 hv
    rfl

theorem pact_freeze (hext : ext.Freezes) (he : ExpandRel Freeze expand) (internal allowClose : Bool) (s : DState) (r : Role) (hr : r ≠ .XML_DECL)
    (t : Tok) (w : Buf) :
    Freeze s (pact c ext fuel expand internal allowClose opened s r t w).1
      (pact c ext fuel expand internal allowClose opened s r t w).2.1 := by
  unfold pact
  simp only []
  split
  all_goals try (dsimp only; exact actAttlist_freeze (c := c) s (s.x c internal) _ w; done)
  all_goals first
    | exact absurd rfl hr
    | exact actXmlDecl_freeze s w
    | exact actEntity_freeze s _ internal _ w
    | exact actDoctype_freeze s _ _ w
    | exact actDoctypeClose_freeze hext allowClose s
    | exact actInstanceStart_freeze hext s
    | exact actAttDefault_freeze s _ internal _ w
    | exact actNotation_freeze s _ _ w
    | exact actParamRef_freeze hext he s _ internal _ w
    | exact .same rfl rfl (ev_plain _)
    | (unfold actPI; simp only []; split
       · split
         · exact .same rfl rfl (one_plain rfl)
         · exact .refl s
       · exact .same rfl rfl (ev_plain _))
    | (unfold actComment; split
       · split
         · exact .same rfl rfl (one_plain rfl)
         · exact .refl s
       · exact .same rfl rfl (ev_plain _))
    | exact .refl s
    | exact actElement_freeze s _ _ t w

/-- Every run of `doProlog` is made of such steps. -/
theorem freeze_runRel (hext : ext.Freezes) : RunRel c ext fuel Freeze where
  refl s := .refl s
  trans := Freeze.trans
  ignoring s b := .same rfl rfl fun _ h => nomatch h
  dflt s L := .same rfl rfl (ev_plain L)
  ended s e := by
    intro hs
    have h := past_next (e := e) (t := .NONE) (b := []) hs.past
    exact ⟨⟨hs.over, h.1, h.2.2.trans hs.value⟩, .refl hs.over⟩
  act expand internal allowClose opened s t w he := by
    intro hs
    have h := past_next (e := (s.x c internal).e) (t := t) (b := w) hs.past
    have hs' : (s.told (s.x c internal).e t w).Fixed := ⟨hs.over, h.1, h.2.2.trans hs.value⟩
    exact pact_freeze hext he internal allowClose (s.told (s.x c internal).e t w) _ h.2.1 t w hs'

/-! ### Child parsers -/

variable {more : Bool}

/-- The child parser reads declarations, not an entity value. -/
def Child.Outside (ch : Child) : Prop := ch.phase ≠ .evInit ∧ ch.phase ≠ .ev

theorem parEntCall_freeze (hext : ext.Freezes) (ch : Child) (b : Buf) (hs : ch.s.Fixed) :
    ((parEntCall c ext fuel opened more ch b).ch.s.Fixed ∧
      Frozen ch.s.D (parEntCall c ext fuel opened more ch b).E (parEntCall c ext fuel opened more ch b).ch.s.D) ∧
    (ch.Outside → (parEntCall c ext fuel opened more ch b).ch.Outside) := by
  unfold parEntCall
  simp only []
  generalize firstTok c.c.ns ch.enc ch.s.cur b = q
  have hset : (ch.set q).s.Fixed := ⟨hs.over, hs.past, hs.value⟩
  have hgo (b : Buf) := (freeze_runRel (c := c) (fuel := fuel) hext).call (opened := opened) (more := more) (ch.set q).s b hset
  split
  · split
    · exact ⟨⟨hset, .refl hs.over⟩, id⟩
    · exact ⟨⟨hset, .refl hs.over⟩, id⟩
    · exact ⟨hgo b, fun _ => ⟨by simp, by simp⟩⟩
  · split
    · exact ⟨hgo _, fun _ => ⟨by simp, by simp⟩⟩
    · exact ⟨hgo _, fun _ => ⟨by simp, by simp⟩⟩

theorem childCall_freeze (hext : ext.Freezes) (ch : Child) (ho : ch.Outside) (b : Buf) (hs : ch.s.Fixed) :
    ((childCall c ext fuel opened more ch b).ch.s.Fixed ∧
      Frozen ch.s.D (childCall c ext fuel opened more ch b).E (childCall c ext fuel opened more ch b).ch.s.D) ∧
    (childCall c ext fuel opened more ch b).ch.Outside := by
  unfold childCall
  cases hp : ch.phase with
  | init =>
    simp only []
    rw [if_neg (by rw [hs.value]; simp)]
    have h := parEntCall_freeze (c := c) (fuel := fuel) (opened := opened) (more := more) hext
      { ch with s := { ch.s with D := { ch.s.D with peRead := true } }, phase := .parEnt } b
      ⟨⟨hs.over.keep, hs.over.alone⟩, hs.past, hs.value⟩
    exact ⟨⟨h.1.1, h.1.2.over, ⟨h.1.2.same.gen, h.1.2.same.elems, h.1.2.same.toks, h.1.2.same.par⟩, h.1.2.quiet⟩,
      h.2 ⟨by simp, by simp⟩⟩
  | evInit => exact absurd hp ho.1
  | ev => exact absurd hp ho.2
  | parEnt =>
    have h := parEntCall_freeze (c := c) (fuel := fuel) (opened := opened) (more := more) hext ch b hs
    exact ⟨h.1, h.2 ho⟩
  | prolog =>
    exact ⟨(freeze_runRel (c := c) (fuel := fuel) hext).call (opened := opened) (more := more) ch.s b hs,
      by simp [Child.Outside]⟩

theorem childParse_freeze (hext : ext.Freezes) (bs : List Buf) : ∀ (ch : Child) (left : Buf), ch.Outside → ch.s.Fixed →
    (childParse c ext fuel opened ch left bs).ch.s.Fixed ∧
      Frozen ch.s.D (childParse c ext fuel opened ch left bs).E (childParse c ext fuel opened ch left bs).ch.s.D := by
  induction bs with
  | nil => exact fun ch left _ hs => ⟨hs, .refl hs.over⟩
  | cons b bs ih =>
    intro ch left ho hs
    unfold childParse
    have h := childCall_freeze (c := c) (fuel := fuel) (opened := opened) (more := !bs.isEmpty) hext ch ho (left ++ b) hs
    generalize childCall c ext fuel opened (!bs.isEmpty) ch (left ++ b) = r at h ⊢
    simp only []
    split
    · rename_i rest _
      have g := ih r.ch rest h.2 h.1.1
      exact ⟨g.1, h.1.2.trans g.2⟩
    · exact h.1

/-- An application whose external entity handler creates parsers for the entities. -/
theorem resolver_freezes (c : PCfg) (docs : ExtReq → Option ExtDoc) (fuel d : Nat) : (resolver c docs fuel d).Freezes := by
  induction d with
  | zero => intro req sh _ h; exact .refl h
  | succ d ih =>
    intro req sh hv h
    unfold resolver
    split
    · exact .refl h
    · rename_i doc _
      have g := childParse_freeze (c := c.toChild doc.enc) (fuel := fuel) (opened := req.opened) ih doc.pieces (childNew doc.enc req sh) []
        ⟨by simp [childNew], by simp [childNew]⟩ ⟨h, ⟨by simp [childNew, PState.initExternal], by simp [childNew, PState.initExternal]⟩, hv⟩
      exact g.2

end Verif
