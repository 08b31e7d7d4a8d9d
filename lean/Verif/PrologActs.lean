import Verif.PrologInd

/-!
# What the arms of the `match` in `doProlog` are made of

`Act r` is the closure of the few kinds of change of the DTD that occur; `pact_acts` says that what is
done for a token of role `r` is such a change, possibly followed by the report of a declared entity.
-/

set_option autoImplicit false

namespace Verif
open C43

/-! ### Tables -/

section
variable {α : Type} {t : List (Buf × α)} {n m : Buf} {f : α → α} {v : α}

theorem tabGet_tabSet_ne (h : m ≠ n) : tabGet (tabSet t n f) m = tabGet t m := by
  unfold tabGet tabSet
  induction t with
  | nil => rfl
  | cons p t ih =>
    simp only [List.map_cons, List.find?_cons]
    by_cases hp : p.1 = n
    · have : ¬ p.1 = m := fun h' => h (h'.symm.trans hp)
      simpa [hp, this, Ne.symm h] using ih
    · simp only [if_neg hp]
      by_cases hm : p.1 = m
      · simp [hm]
      · simpa [hm] using ih

theorem tabGet_tabSet_eq : tabGet (tabSet t n f) n = (tabGet t n).map f := by
  unfold tabGet tabSet
  induction t with
  | nil => rfl
  | cons p t ih =>
    simp only [List.map_cons, List.find?_cons]
    by_cases hp : p.1 = n
    · simp [hp]
    · simpa [hp] using ih

theorem tabGet_tabPut_ne (h : m ≠ n) : tabGet (tabPut t n v) m = tabGet t m := by
  unfold tabPut
  split
  · rfl
  · unfold tabGet
    have : ¬ n = m := fun h' => h h'.symm
    rw [List.find?_append]
    cases hh : List.find? (fun x => decide (x.1 = m)) t with
    | none => simp [this]
    | some p => simp

theorem tabGet_tabPut_eq : tabGet (tabPut t n v) n = some ((tabGet t n).getD v) := by
  unfold tabPut
  split
  · rename_i h
    obtain ⟨w, hw⟩ := Option.isSome_iff_exists.1 h
    simp [hw]
  · rename_i h
    have h : tabGet t n = none := by simpa using h
    rw [h]
    unfold tabGet at h ⊢
    rw [List.find?_append]
    have : List.find? (fun x => decide (x.1 = n)) t = none := by simpa using h
    rw [this]
    simp

theorem tabGet_tabPut_some {w : α} (h : tabGet t m = some w) : tabGet (tabPut t n v) m = some w := by
  by_cases hm : m = n
  · subst hm; rw [tabGet_tabPut_eq, h]; rfl
  · rw [tabGet_tabPut_ne hm, h]
end

/-! ### Entities -/

/-- The key of a declared entity: parameter entity or not, and the name. -/
abbrev EKey := Bool × Buf

/-- Its entry. -/
def DTab.ent (D : DTab) (k : EKey) : Option Entity := tabGet (if k.1 then D.par else D.gen) k.2

/-- The key of the external subset. -/
def hashKey : EKey := (true, hashName)

/-- The handler call reports the declaration of entity `k`. -/
def PEv.declares (v : PEv) (k : EKey) : Bool :=
  match v with
  | .entityDecl n p _ _ _ _ _ => (p, n) = k
  | .unparsed n _ _ _ _ => (false, n) = k
  | _ => false

/-- The change of the entry of `k`. -/
def DTab.setEnt (D : DTab) (k : EKey) (f : Entity → Entity) : DTab :=
  if k.1 then { D with par := tabSet D.par k.2 f } else { D with gen := tabSet D.gen k.2 f }

/-- A new entry for `k`. -/
def DTab.putEnt (D : DTab) (k : EKey) (v : Entity) : DTab :=
  if k.1 then { D with par := tabPut D.par k.2 v } else { D with gen := tabPut D.gen k.2 v }

theorem DTab.ent_setEnt_ne {D : DTab} {k k' : EKey} {f : Entity → Entity} (h : k ≠ k') :
    (D.setEnt k' f).ent k = D.ent k := by
  obtain ⟨p, n⟩ := k
  obtain ⟨p', n'⟩ := k'
  cases p <;> cases p' <;> simp only [setEnt, ent] <;> simp <;>
    exact tabGet_tabSet_ne (fun h' => h (by rw [h']))

theorem DTab.ent_setEnt_eq {D : DTab} {k : EKey} {f : Entity → Entity} :
    (D.setEnt k f).ent k = (D.ent k).map f := by
  obtain ⟨p, n⟩ := k
  cases p <;> simp [setEnt, ent, tabGet_tabSet_eq]

theorem DTab.ent_putEnt_ne {D : DTab} {k k' : EKey} {v : Entity} (h : k ≠ k') :
    (D.putEnt k' v).ent k = D.ent k := by
  obtain ⟨p, n⟩ := k
  obtain ⟨p', n'⟩ := k'
  cases p <;> cases p' <;> simp only [putEnt, ent] <;> simp <;>
    exact tabGet_tabPut_ne (fun h' => h (by rw [h']))

theorem DTab.ent_putEnt_eq {D : DTab} {k : EKey} {v : Entity} :
    (D.putEnt k v).ent k = some ((D.ent k).getD v) := by
  obtain ⟨p, n⟩ := k
  cases p <;> simp [putEnt, ent, tabGet_tabPut_eq]

theorem DState.setDecl_eq (s : DState) (f : Entity → Entity) :
    s.setDecl f = match s.decl with
      | none => s
      | some k => { s with D := s.D.setEnt k f } := by
  unfold setDecl
  split <;> simp_all [DTab.setEnt]

theorem DState.declEnt_eq (s : DState) :
    s.declEnt = s.decl.bind fun k => (s.D.ent k).map fun e => (k.1, k.2, e) := by
  unfold declEnt
  split <;> simp_all [DTab.ent]

/-! ### The kinds of change -/

/-- The tables are the same. -/
structure SameTabs (D D' : DTab) : Prop where
  gen : D'.gen = D.gen
  par : D'.par = D.par
  elems : D'.elems = D.elems
  maybeTok : D'.maybeTok = D.maybeTok

theorem SameTabs.ent {D D' : DTab} (h : SameTabs D D') (k : EKey) : D'.ent k = D.ent k := by
  unfold DTab.ent; rw [h.gen, h.par]

inductive Act (c : PCfg) (ext : Ext) (expand : Bool → Buf → Buf → DState → Acted) (r : Role) :
    DState → List PEv → DState → Prop
  | trans {s E t F u} : Act c ext expand r s E t → Act c ext expand r t F u → Act c ext expand r s (E ++ F) u
  /-- nothing that matters -/
  | frame (s s' : DState) (E : List PEv) (htab : SameTabs s.D s'.D) (hdecl : s'.decl = s.decl)
      (hp : s'.el.p = s.el.p) (hE : ∀ v ∈ E, ∀ k, v.declares k = false) : Act c ext expand r s E s'
  /-- the external entity handler -/
  | ext (s : DState) (req : ExtReq) : Act c ext expand r s (ext req s.sh).calls (s.setSh (ext req s.sh).sh)
  /-- an internal parameter entity -/
  | expand (hr : r = .PARAM_ENTITY_REF ∨ r = .INNER_PARAM_ENTITY_REF) (s : DState) (b : Bool) (n t : Buf) :
      Act c ext expand r s (expand b n t s).1 (expand b n t s).2.1
  /-- the entity being declared is changed -/
  | set (hr : r.sets = true) (s : DState) (f : Entity → Entity) : Act c ext expand r s [] (s.setDecl f)
  /-- the external subset is being declared -/
  | doctype (hr : r = .DOCTYPE_PUBLIC_ID ∨ r = .DOCTYPE_SYSTEM_ID) (s : DState) :
      Act c ext expand r s [] { s with decl := some hashKey, D := s.D.putEnt hashKey .zero }
  /-- the entry of the external subset -/
  | hashPut (s : DState) : Act c ext expand r s [] { s with D := s.D.putEnt hashKey .zero }
  | hashSet (s : DState) (f : Entity → Entity) : Act c ext expand r s [] { s with D := s.D.setEnt hashKey f }
  /-- an attribute declaration -/
  | att (s : DState) (a b : Buf) (isCdata isId : Bool) (v : Option Buf) :
      Act c ext expand r s [] { s with D := defineAttribute c.c.ns s.D a b isCdata isId v }

/-- The report of entity `k`, whose entry is `e`. -/
def reportOf (c : PCfg) (r : Role) (k : EKey) (e : Entity) (v : PEv) : Prop :=
  match r with
  | .ENTITY_VALUE => v = .entityDecl k.2 k.1 e.text c.base none none none ∧ e.text.isSome = true
  | .ENTITY_COMPLETE => v = .entityDecl k.2 k.1 none e.base e.systemId e.publicId none
  | _ =>
    v = .unparsed k.2 e.base e.systemId e.publicId e.notation_ ∨
    v = .entityDecl k.2 false none e.base e.systemId e.publicId e.notation_

/-! ### The arms -/

variable {c : PCfg} {ext : Ext} {expand : Bool → Buf → Buf → DState → Acted} {r : Role}

theorem Act.refl (s : DState) : Act c ext expand r s [] s :=
  .frame s s [] ⟨rfl, rfl, rfl, rfl⟩ rfl rfl (by simp)

theorem Act.same {s s' : DState} (htab : SameTabs s.D s'.D) (hdecl : s'.decl = s.decl)
    (hp : s'.el.p = s.el.p) : Act c ext expand r s [] s' := .frame s s' [] htab hdecl hp (by simp)

theorem Act.cons {s s' : DState} {E : List PEv} {v : PEv} (hv : ∀ k, v.declares k = false)
    (h : Act c ext expand r s E s') : Act c ext expand r s (v :: E) s' :=
  .trans (E := [v]) (.frame s s [v] ⟨rfl, rfl, rfl, rfl⟩ rfl rfl (by simpa using hv)) h

theorem Act.snoc {s s' : DState} {E : List PEv} {v : PEv} (hv : ∀ k, v.declares k = false)
    (h : Act c ext expand r s E s') : Act c ext expand r s (E ++ [v]) s' :=
  .trans h (.frame s' s' [v] ⟨rfl, rfl, rfl, rfl⟩ rfl rfl (by simpa using hv))

/-- First a change that does not matter. -/
theorem Act.before {s t u : DState} {E : List PEv} (h : Act c ext expand r t E u) (htab : SameTabs s.D t.D)
    (hdecl : t.decl = s.decl) (hp : t.el.p = s.el.p) : Act c ext expand r s E u :=
  .trans (E := []) (.same htab hdecl hp) h

/-- Then a change that does not matter. -/
theorem Act.after {s t u : DState} {E : List PEv} (h : Act c ext expand r s E t) (htab : SameTabs t.D u.D)
    (hdecl : u.decl = t.decl) (hp : u.el.p = t.el.p) : Act c ext expand r s E u := by
  have := Act.trans h (.same (r := r) htab hdecl hp)
  simpa using this

theorem setSh_sh (s : DState) (t : Shared) : (s.setSh t).sh = t := rfl

theorem setSh_setSh (s : DState) (t u : Shared) : (s.setSh t).setSh u = s.setSh u := rfl

theorem setSh_self (s : DState) : s.setSh s.sh = s := rfl

/-- The handlers that are asked about standalone documents report no entity. -/
theorem standaloneCheck_act (s : DState) (hd : Bool) :
    Act c ext expand r s (standaloneCheck c s hd).1 (standaloneCheck c s hd).2.1 := by
  refine .frame s s _ ⟨rfl, rfl, rfl, rfl⟩ rfl rfl ?_
  unfold standaloneCheck askStandalone
  simp only []
  split
  · simp
  · split
    · simp
    · intro v hv k; simp at hv; subst hv; rfl

theorem askStandalone_quiet (D : DTab) : ∀ v ∈ (askStandalone c D).1, ∀ k, v.declares k = false := by
  unfold askStandalone
  split
  · simp
  · split
    · simp
    · intro v hv k; simp at hv; subst hv; rfl

theorem callExt_act (s : DState) (opened : List Buf) (ent : Entity) :
    Act c ext expand r s (callExt ext s opened ent).1 (callExt ext s opened ent).2.1 := by
  unfold callExt
  simp only []
  refine .cons (fun _ => rfl) ?_
  exact .before (t := { s with D := { s.D with peRead := false } }) (.ext _ _) ⟨rfl, rfl, rfl, rfl⟩ rfl rfl

/-- The state in which the external subset is asked for. -/
def subsetState (c : PCfg) (atRoot : Bool) (s : DState) : DState :=
  if s.foreign ∨ atRoot then
    { s with D := { s.D with hasPERefs := true
                             par := tabSet (tabPut s.D.par hashName .zero) hashName fun e => { e with base := c.base } } }
  else { s with D := { s.D with hasPERefs := true, par := tabPut s.D.par hashName .zero } }

theorem subsetState_act (atRoot : Bool) (s : DState) :
    Act c ext expand r s [] (subsetState c atRoot s) := by
  have h1 : Act c ext expand r s [] { s with D := { s.D with hasPERefs := true, par := tabPut s.D.par hashName .zero } } :=
    .before (t := { s with D := { s.D with hasPERefs := true } }) (.hashPut _) ⟨rfl, rfl, rfl, rfl⟩ rfl rfl
  unfold subsetState
  split
  · exact .trans (E := []) h1 (.hashSet _ _)
  · exact h1

theorem Acted.pre_act {s t : DState} {E : List PEv} {q : Acted} (h : Act c ext expand r s E t)
    (hq : Act c ext expand r t q.1 q.2.1) : Act c ext expand r s (q.pre E).1 (q.pre E).2.1 := .trans h hq

theorem readSubset_act (opened : List Buf) (atRoot : Bool) (s : DState) :
    Act c ext expand r s (readSubset c ext opened atRoot s).1 (readSubset c ext opened atRoot s).2.1 := by
  unfold readSubset
  simp only []
  split
  · have h1 : Act c ext expand r s [] (subsetState c atRoot s) := subsetState_act atRoot s
    have e1 : (if ({ s with D := { s.D with hasPERefs := true } } : DState).foreign ∨ atRoot = true then
        ({ s with D := { s.D with hasPERefs := true
                                  par := tabSet (tabPut s.D.par hashName .zero) hashName fun e => { e with base := c.base } } } : DState)
      else { s with D := { s.D with hasPERefs := true, par := tabPut s.D.par hashName .zero } }) = subsetState c atRoot s := rfl
    simp only [] at e1
    rw [e1]
    have h2 := Act.trans h1 (callExt_act (r := r) (expand := expand) (c := c) (ext := ext) (subsetState c atRoot s) opened
      ((tabGet (subsetState c atRoot s).D.par hashName).getD .zero))
    simp only [List.nil_append] at h2
    generalize callExt ext (subsetState c atRoot s) opened _ = q at h2 ⊢
    split
    · exact h2
    · split
      · exact Acted.pre_act h2 (standaloneCheck_act _ _)
      · split
        · exact h2.after ⟨rfl, rfl, rfl, rfl⟩ rfl rfl
        · exact h2
  · exact .same ⟨rfl, rfl, rfl, rfl⟩ rfl rfl

theorem actDoctypeClose_act (opened : List Buf) (allowClose : Bool) (s : DState) :
    Act c ext expand r s (actDoctypeClose c ext opened allowClose s).1
      (actDoctypeClose c ext opened allowClose s).2.1 := by
  unfold actDoctypeClose
  split
  · exact .refl s
  · simp only []
    have h1 : Act c ext expand r s (if s.dName.isSome = true then [.startDoctype s.dName s.dSys s.dPub false] else [])
        (if s.dName.isSome = true then { s with tmp := [] } else s) := by
      split
      · exact .cons (fun _ => rfl) (.same ⟨rfl, rfl, rfl, rfl⟩ rfl rfl)
      · exact .refl s
    generalize (if s.dName.isSome = true then [PEv.startDoctype s.dName s.dSys s.dPub false] else []) = E at h1 ⊢
    generalize (if s.dName.isSome = true then ({ s with tmp := [] } : DState) else s) = s1 at h1 ⊢
    have h3 : ∀ v ∈ (if c.endDoctype = true then [PEv.endDoctype] else []), ∀ k, v.declares k = false := by
      split <;> simp [PEv.declares]
    split
    · have h2 := Act.trans h1 (readSubset_act (r := r) (expand := expand) (c := c) (ext := ext) opened false s1)
      generalize readSubset c ext opened false s1 = q at h2 ⊢
      obtain ⟨E1, s2, o⟩ := q
      cases o with
      | go d => exact .trans h2 (.frame _ _ _ ⟨rfl, rfl, rfl, rfl⟩ rfl rfl h3)
      | _ => exact h2
    · exact .trans h1 (.frame _ _ _ ⟨rfl, rfl, rfl, rfl⟩ rfl rfl h3)

theorem actInstanceStart_act (opened : List Buf) (s : DState) :
    Act c ext expand r s (actInstanceStart c ext opened s).1 (actInstanceStart c ext opened s).2.1 := by
  unfold actInstanceStart
  split
  · have h2 := readSubset_act (r := r) (expand := expand) (c := c) (ext := ext) opened true s
    generalize readSubset c ext opened true s = q at h2 ⊢
    obtain ⟨E1, s2, o⟩ := q
    cases o <;> exact h2
  · exact .refl s

theorem reportAttribute_act (s : DState) (v : Option Buf) (req : Bool) :
    Act c ext expand r s (reportAttribute c s v req).1 (reportAttribute c s v req).2.1 := by
  unfold reportAttribute
  split
  · exact .refl s
  · split
    · exact .refl s
    · exact .cons (fun _ => rfl) (.same ⟨rfl, rfl, rfl, rfl⟩ rfl rfl)
    · exact .cons (fun _ => rfl) (.same ⟨rfl, rfl, rfl, rfl⟩ rfl rfl)

theorem actAttlist_act (s : DState) (x : XEnc) (w : Buf) (o : AOut) :
    Act c ext expand r s (([], actAttlist c s x r w, o) : Acted).1 (([], actAttlist c s x r w, o) : Acted).2.1 := by
  unfold actAttlist
  split <;> (try split) <;> exact .same ⟨rfl, rfl, rfl, rfl⟩ rfl rfl

theorem actAttDefault_act (s : DState) (x : XEnc) (internal : Bool) (r' : Role) (w : Buf) :
    Act c ext expand r s (actAttDefault c s x internal r' w).1 (actAttDefault c s x internal r' w).2.1 := by
  unfold actAttDefault
  split
  · exact .refl s
  · split
    · exact .trans (E := []) (.att s _ _ _ _ _) (reportAttribute_act _ _ _)
    · exact .trans (E := []) (.att s _ _ _ _ _) (reportAttribute_act _ _ _)
    · split
      · exact .refl s
      · exact .trans (E := []) (.att s _ _ _ _ _) (reportAttribute_act _ _ _)

/-! ### Entity values -/

/-- A change of the shared data. -/
def ActS (c : PCfg) (ext : Ext) (expand : Bool → Buf → Buf → DState → Acted) (r : Role)
    (sh : Shared) (E : List PEv) (sh' : Shared) : Prop :=
  ∀ s : DState, Act c ext expand r (s.setSh sh) E (s.setSh sh')

theorem ActS.refl (sh : Shared) : ActS c ext expand r sh [] sh := fun _ => .refl _

theorem ActS.drop (sh : Shared) : ActS c ext expand r sh [] { sh with D := sh.D.drop } :=
  fun _ => .same ⟨rfl, rfl, rfl, rfl⟩ rfl rfl

theorem ActS.trans {sh sh' sh'' : Shared} {E F : List PEv} (h : ActS c ext expand r sh E sh')
    (h' : ActS c ext expand r sh' F sh'') : ActS c ext expand r sh (E ++ F) sh'' :=
  fun s => .trans (h s) (h' s)

/-- The shared data and the handler calls at the end of a round. -/
def EVStep.out : EVStep → List PEv × Shared
  | .stop v => (v.E, v.sh)
  | .next _ E sh _ => (E, sh)

theorem evParamRef_act (pe : PEParsing) {rec : Buf → Shared → Buf → Buf → EVal}
    (hrec : ∀ n sh p t, ActS c ext expand r sh (rec n sh p t).E (rec n sh p t).sh)
    (opened : List Buf) (sh : Shared) (pool name : Buf) (n : Nat) :
    ActS c ext expand r sh (evParamRef c ext pe rec opened sh pool name n).out.1
      (evParamRef c ext pe rec opened sh pool name n).out.2 := by
  unfold evParamRef
  split
  · exact .drop sh
  · rename_i ent _
    split
    · exact .refl sh
    · split
      · split
        · simp only []
          have h1 : ActS c ext expand r sh
              (PEv.extRef ent.base ent.systemId ent.publicId :: (ext ⟨true, name :: opened, pe, ent.base, ent.systemId, ent.publicId⟩
                { sh with D := { sh.D with peRead := false } }).calls)
              (ext ⟨true, name :: opened, pe, ent.base, ent.systemId, ent.publicId⟩
                { sh with D := { sh.D with peRead := false } }).sh := by
            intro s
            refine .cons (fun _ => rfl) ?_
            exact .before (t := s.setSh { sh with D := { sh.D with peRead := false } }) (.ext _ _)
              ⟨rfl, rfl, rfl, rfl⟩ rfl rfl
          generalize ext _ _ = a at h1 ⊢
          split
          · exact h1
          · simp only [EVStep.out]
            split
            · exact h1
            · have := h1.trans (.drop (r := r) a.sh)
              simpa using this
        · exact .drop sh
      · simp only []
        have h1 := hrec name sh pool (ent.text.getD [])
        generalize rec name sh pool (ent.text.getD []) = v at h1 ⊢
        split <;> exact h1

theorem evStep_act (pe : PEParsing) (x : XEnc) (internal : Bool) {rec : Buf → Shared → Buf → Buf → EVal}
    (hrec : ∀ n sh p t, ActS c ext expand r sh (rec n sh p t).E (rec n sh p t).sh)
    (opened : List Buf) (sh : Shared) (pool b : Buf) :
    ActS c ext expand r sh (evStep c ext pe x internal rec opened sh pool b).out.1
      (evStep c ext pe x internal rec opened sh pool b).out.2 := by
  unfold evStep
  simp only []
  split
  · split
    · exact evParamRef_act pe hrec opened sh pool _ _
    · exact .refl sh
  all_goals (try split) <;> exact .refl sh

theorem evLoop_act (pe : PEParsing) (x : XEnc) (internal : Bool) {rec : Buf → Shared → Buf → Buf → EVal}
    (hrec : ∀ n sh p t, ActS c ext expand r sh (rec n sh p t).E (rec n sh p t).sh)
    (opened : List Buf) (sh : Shared) (pool b : Buf) :
    ActS c ext expand r sh (evLoop c ext pe x internal rec opened sh pool b).E
      (evLoop c ext pe x internal rec opened sh pool b).sh := by
  induction hn : b.length using Nat.strongRecOn generalizing sh pool b with
  | _ n ih =>
    subst hn
    rw [evLoop.eq_def]
    have h1 := evStep_act pe x internal hrec opened sh pool b
    generalize evStep c ext pe x internal rec opened sh pool b = q at h1 ⊢
    cases q with
    | stop v => exact h1
    | next k E sh' pool' =>
      simp only []
      split
      · rename_i hlt
        exact h1.trans (ih _ hlt sh' pool' _ rfl)
      · exact h1

theorem storeEntityValue_act (pe : PEParsing) (k : Nat) (x : XEnc) (internal : Bool) (opened : List Buf)
    (sh : Shared) (pool b : Buf) :
    ActS c ext expand r sh (storeEntityValue c ext pe k x internal opened sh pool b).E
      (storeEntityValue c ext pe k x internal opened sh pool b).sh := by
  induction k generalizing x internal opened sh pool b with
  | zero => exact evLoop_act pe x internal (fun _ _ _ _ => .refl _) opened sh pool b
  | succ k ih => exact evLoop_act pe x internal (fun _ _ _ _ => ih _ _ _ _ _ _) opened sh pool b

/-! ### Declarations -/

/-- The name of an entity to be declared has been read: it is not to be stored, or there is a new entry. -/
def Named (r : Role) (s s' : DState) : Prop :=
  s' = { s with decl := none } ∨
  ∃ k v, r = (if k.1 then .PARAM_ENTITY_NAME else .GENERAL_ENTITY_NAME) ∧ s.D.ent k = none ∧
    s' = { s with decl := some k, D := s.D.putEnt k v }

/-- A change; or a change and the report of the entity that has been declared; or a name. -/
inductive ActR (c : PCfg) (ext : Ext) (expand : Bool → Buf → Buf → DState → Acted) (r : Role) (s : DState) :
    List PEv → DState → Prop
  | plain {E s'} (hr : r.names = false) (h : Act c ext expand r s E s') : ActR c ext expand r s E s'
  | report {E s' k v} (h : Act c ext expand r s E s') (hr : r.reports = true) (hd : s'.decl = some k)
      (he : ∀ e, s'.D.ent k = some e → reportOf c r k e v) : ActR c ext expand r s (E ++ [v]) s'
  | name {s'} (hr : r.names = true) (h : Named r s s') : ActR c ext expand r s [] s'

theorem actEntity_act (fuel : Nat) (opened : List Buf) (s : DState) (x : XEnc) (internal : Bool) (w : Buf) :
    ActR c ext expand r s (actEntity c ext fuel opened s x internal r w).1
      (actEntity c ext fuel opened s x internal r w).2.1 := by
  unfold actEntity
  split
  · -- GENERAL_ENTITY_NAME
    split
    · exact .name rfl (.inl rfl)
    · split
      · split
        · exact .name rfl (.inl rfl)
        · rename_i h
          exact .name rfl (.inr ⟨(false, converted x w), _, rfl, by simpa [DTab.ent] using h, rfl⟩)
      · exact .name rfl (.inl rfl)
  · split
    · split
      · exact .name rfl (.inl rfl)
      · rename_i h
        exact .name rfl (.inr ⟨(true, converted x w), _, rfl, by simpa [DTab.ent] using h, rfl⟩)
    · exact .name rfl (.inl rfl)
  · -- ENTITY_VALUE
    split
    · exact .plain rfl (.refl s)
    · simp only []
      have h1 := storeEntityValue_act (c := c) (ext := ext) (expand := expand) (r := .ENTITY_VALUE) s.pe fuel x internal
        opened s.sh [] (refName x.e w) s
      rw [setSh_self] at h1
      generalize storeEntityValue c ext s.pe fuel x internal opened s.sh [] (refName x.e w) = v at h1 ⊢
      have h2 := Act.trans h1 (.set rfl _ fun e => { e with text := some v.pool })
      rw [List.append_nil] at h2
      split
      · exact .plain rfl h2
      · rename_i p n hd
        split
        · refine .report (k := (p, n)) h2 rfl hd ?_
          intro e he
          have hd' : (s.setSh v.sh).decl = some (p, n) := by
            rw [DState.setDecl_eq] at hd
            revert hd
            cases hh : (s.setSh v.sh).decl <;> simp [hh]
          rw [DState.setDecl_eq, hd'] at he
          simp only [DTab.ent_setEnt_eq] at he
          cases hh : (s.setSh v.sh).D.ent (p, n) with
          | none => rw [hh] at he; cases he
          | some e0 =>
            rw [hh] at he
            cases he
            exact ⟨rfl, rfl⟩
        · exact .plain rfl h2
  · -- ENTITY_PUBLIC_ID
    split
    · exact .plain rfl (.refl s)
    · split
      · exact .plain rfl (.set rfl _ _)
      · exact .plain rfl (.refl s)
  · split
    · exact .plain rfl (.set rfl _ _)
    · exact .plain rfl (.refl s)
  · -- ENTITY_COMPLETE
    rw [DState.declEnt_eq]
    split
    · exact .plain rfl (.refl s)
    · rename_i p n e h
      split
      · cases hd : s.decl with
        | none => rw [hd] at h; cases h
        | some k =>
          rw [hd] at h
          cases he : s.D.ent k with
          | none => simp [he] at h
          | some e' =>
            simp [he] at h
            obtain ⟨h1, h2, h3⟩ := h
            subst h1; subst h2; subst h3
            refine .report (E := []) (k := k) (.refl s) rfl hd ?_
            intro e he'
            rw [he] at he'; cases he'
            rfl
      · exact .plain rfl (.refl s)
  · -- ENTITY_NOTATION_NAME
    split
    · simp only []
      have h2 : Act c ext expand .ENTITY_NOTATION_NAME s []
          (s.setDecl fun e => { e with notation_ := some (converted x w) }) := .set rfl _ _
      generalize (s.setDecl fun e => { e with notation_ := some (converted x w) }) = s1 at h2 ⊢
      rw [DState.declEnt_eq]
      split
      · exact .plain rfl h2
      · rename_i p n e h
        cases hd : s1.decl with
        | none => rw [hd] at h; cases h
        | some k =>
          rw [hd] at h
          cases he : s1.D.ent k with
          | none => simp [he] at h
          | some e' =>
            simp [he] at h
            obtain ⟨h1, h3, h4⟩ := h
            subst h1; subst h3; subst h4
            split
            · refine .report (E := []) (k := k) h2 rfl hd ?_
              intro e he'
              rw [he] at he'; cases he'
              exact .inl rfl
            · split
              · refine .report (E := []) (k := k) h2 rfl hd ?_
                intro e he'
                rw [he] at he'; cases he'
                exact .inr rfl
              · exact .plain rfl h2
    · exact .plain rfl (.refl s)
  · exact .plain (by cases r <;> first | rfl | simp_all) (.refl s)

theorem actNotation_act (s : DState) (x : XEnc) (r' : Role) (w : Buf) :
    Act c ext expand r s (actNotation c s x r' w).1 (actNotation c s x r' w).2.1 := by
  unfold actNotation
  split
  · split <;> exact .same ⟨rfl, rfl, rfl, rfl⟩ rfl rfl
  · split
    · exact .refl s
    · split <;> exact .same ⟨rfl, rfl, rfl, rfl⟩ rfl rfl
  · split
    · exact .cons (fun _ => rfl) (.same ⟨rfl, rfl, rfl, rfl⟩ rfl rfl)
    · exact .same ⟨rfl, rfl, rfl, rfl⟩ rfl rfl
  · split
    · exact .cons (fun _ => rfl) (.same ⟨rfl, rfl, rfl, rfl⟩ rfl rfl)
    · exact .same ⟨rfl, rfl, rfl, rfl⟩ rfl rfl

theorem docPublic_act (s : DState) (x : XEnc) (w : Buf) :
    Act c ext expand .DOCTYPE_PUBLIC_ID s (docPublic c x w s).1 (docPublic c x w s).2.1 := by
  have h : ∀ s, Act c ext expand .DOCTYPE_PUBLIC_ID s [] (docPublic.docPublicSet x w s) := by
    intro s
    unfold docPublic.docPublicSet
    split
    · exact .set rfl _ _
    · exact .refl s
  unfold docPublic
  split
  · exact .refl s
  · split
    · exact .before (h _) ⟨rfl, rfl, rfl, rfl⟩ rfl rfl
    · exact h s

theorem docEntry_act (s : DState) : Act c ext expand .DOCTYPE_SYSTEM_ID s [] (docEntry s) := by
  unfold docEntry
  split
  · exact .trans (E := []) (.doctype (.inr rfl) s) (.hashSet _ fun e => { e with publicId := none })
  · exact .refl s

theorem docSystemSet_act (s : DState) (x : XEnc) (w : Buf) :
    Act c ext expand .DOCTYPE_SYSTEM_ID s [] (docSystemSet c x w s) := by
  unfold docSystemSet
  split
  · exact .set rfl _ _
  · exact .refl s

theorem docSystem_act (s : DState) (x : XEnc) (w : Buf) :
    Act c ext expand .DOCTYPE_SYSTEM_ID s (docSystem c x w s).1 (docSystem c x w s).2.1 := by
  unfold docSystem
  simp only []
  have hq : ∀ v ∈ (if s.pe = .never then askStandalone c s.D else ([], false)).1, ∀ k, v.declares k = false := by
    split
    · exact askStandalone_quiet _
    · simp
  generalize (if s.pe = .never then askStandalone c s.D else ([], false)) = a at hq ⊢
  have h2 : Act c ext expand .DOCTYPE_SYSTEM_ID s a.1 s := .frame _ _ _ ⟨rfl, rfl, rfl, rfl⟩ rfl rfl hq
  split
  · exact h2
  · have := Act.trans h2 (.trans (docEntry_act s) (docSystemSet_act (docEntry s) x w))
    simpa using this

theorem actDoctype_act (s : DState) (x : XEnc) (w : Buf) :
    Act c ext expand r s (actDoctype c s x r w).1 (actDoctype c s x r w).2.1 := by
  unfold actDoctype
  split
  · split <;> exact .same ⟨rfl, rfl, rfl, rfl⟩ rfl rfl
  · split
    · exact .cons (fun _ => rfl) (.same ⟨rfl, rfl, rfl, rfl⟩ rfl rfl)
    · exact .refl s
  · have h1 : Act c ext expand .DOCTYPE_PUBLIC_ID s []
        { s with foreign := false, decl := some (true, hashName)
                 D := { s.D with par := tabPut s.D.par hashName .zero, hasPERefs := true } } :=
      .after (t := { s with decl := some hashKey, D := s.D.putEnt hashKey .zero }) (.doctype (.inl rfl) s)
        ⟨rfl, rfl, rfl, rfl⟩ rfl rfl
    exact .trans (E := []) h1 (docPublic_act _ _ _)
  · refine .trans (E := []) ?_ (docSystem_act _ _ _)
    split <;> exact .same ⟨rfl, rfl, rfl, rfl⟩ rfl rfl
  · exact .refl s

theorem actXmlDecl_act (s : DState) (isText : Bool) (w : Buf) :
    Act c ext expand r s (actXmlDecl c s isText w).1 (actXmlDecl c s isText w).2.1 := by
  unfold actXmlDecl
  simp only []
  split
  · exact .refl s
  · exact .refl s
  · rename_i o _
    have h1 : Act c ext expand r s [] (if (!isText && o.standalone == some true) = true then
        { s with D := { s.D with standalone := true }
                 pe := if s.pe = .unlessStandalone then .never else s.pe }
      else s) := by
      split
      · exact .same ⟨rfl, rfl, rfl, rfl⟩ rfl rfl
      · exact .refl s
    generalize (if (!isText && o.standalone == some true) = true then
        ({ s with D := { s.D with standalone := true }
                  pe := if s.pe = .unlessStandalone then .never else s.pe } : DState)
      else s) = s1 at h1 ⊢
    split
    · exact h1
    · rename_i E hE
      have hq : ∀ v ∈ E, ∀ k, v.declares k = false := by
        split at hE
        · cases hd : xmlDeclCall c.c.al (s.cur.x c.c.ns) Pool.new o with
          | none => rw [hd] at hE; cases hE
          | some d => rw [hd] at hE; cases hE; intro v hv k; simp at hv; subst hv; rfl
        · cases hE
          intro v hv k
          obtain ⟨w, _, rfl⟩ := List.mem_map.1 hv
          rfl
      have h2 : Act c ext expand r s E s1 := .trans (E := []) h1 (.frame _ _ _ ⟨rfl, rfl, rfl, rfl⟩ rfl rfl hq)
      split
      · exact h2
      · split
        · exact h2
        · exact h2
        · exact h2
        · exact h2.after ⟨rfl, rfl, rfl, rfl⟩ rfl rfl
        · split
          · exact h2
          · exact h2.after ⟨rfl, rfl, rfl, rfl⟩ rfl rfl

theorem handleRef_act (hr : r = .PARAM_ENTITY_REF ∨ r = .INNER_PARAM_ENTITY_REF) (opened : List Buf) (s : DState)
    (name : Buf) (ent : Entity) :
    Act c ext expand r s (handleRef c ext expand opened s r name ent).1
      (handleRef c ext expand opened s r name ent).2.1 := by
  unfold handleRef
  split
  · exact .refl s
  · split
    · rename_i t _
      have h := Act.expand (c := c) (ext := ext) (expand := expand) hr s (decide (r = .PARAM_ENTITY_REF)) name t
      generalize expand (decide (r = .PARAM_ENTITY_REF)) name t s = q at h ⊢
      obtain ⟨E, s', o⟩ := q
      cases o <;> exact h
    · split
      · simp only []
        have h := callExt_act (c := c) (ext := ext) (expand := expand) (r := r) s (name :: opened) ent
        generalize callExt ext s (name :: opened) ent = q at h ⊢
        split
        · exact h
        · split
          · exact h.after ⟨rfl, rfl, rfl, rfl⟩ rfl rfl
          · exact Acted.pre_act h (standaloneCheck_act _ _)
      · exact .same ⟨rfl, rfl, rfl, rfl⟩ rfl rfl

theorem paramRef_act (hr : r = .PARAM_ENTITY_REF ∨ r = .INNER_PARAM_ENTITY_REF) (opened : List Buf) (s : DState)
    (x : XEnc) (internal : Bool) (w : Buf) :
    Act c ext expand r s (paramRef c ext expand opened s x internal r w).1
      (paramRef c ext expand opened s x internal r w).2.1 := by
  unfold paramRef
  split
  · exact .before (standaloneCheck_act _ _) ⟨rfl, rfl, rfl, rfl⟩ rfl rfl
  · simp only []
    generalize (s.el.p.documentEntity && if s.D.standalone = true then !internal else !s.D.hasPERefs) = must
    split
    · split
      · exact .refl s
      · split
        · exact .cons (fun _ => rfl) (.same ⟨rfl, rfl, rfl, rfl⟩ rfl rfl)
        · exact .same ⟨rfl, rfl, rfl, rfl⟩ rfl rfl
    · rename_i ent _
      split
      · exact .refl s
      · unfold handleRefCheck
        have h2 := handleRef_act (c := c) (ext := ext) (expand := expand) hr opened s
          (converted x (refName x.e w)) ent
        generalize handleRef c ext expand opened s r (converted x (refName x.e w)) ent = q at h2 ⊢
        obtain ⟨E, s2, o⟩ := q
        cases o with
        | go d => exact Acted.pre_act h2 (standaloneCheck_act _ _)
        | _ => exact h2

theorem actParamRef_act (hr : r = .PARAM_ENTITY_REF ∨ r = .INNER_PARAM_ENTITY_REF) (opened : List Buf) (s : DState)
    (x : XEnc) (internal : Bool) (w : Buf) :
    Act c ext expand r s (actParamRef c ext expand opened s x internal r w).1
      (actParamRef c ext expand opened s x internal r w).2.1 := by
  unfold actParamRef
  exact .before (paramRef_act hr opened _ x internal w) ⟨rfl, rfl, rfl, rfl⟩ rfl rfl

theorem ev_quiet (L : List Ev) : ∀ v ∈ L.map PEv.ev, ∀ k, v.declares k = false := by
  intro v hv k
  obtain ⟨w, _, rfl⟩ := List.mem_map.1 hv
  rfl

theorem actComment_act (s : DState) (x : XEnc) (w : Buf) :
    Act c ext expand r s (actComment c s x w).1 (actComment c s x w).2.1 := by
  unfold actComment
  split
  · split
    · exact .cons (fun _ => rfl) (.same ⟨rfl, rfl, rfl, rfl⟩ rfl rfl)
    · exact .refl s
  · exact .frame _ _ _ ⟨rfl, rfl, rfl, rfl⟩ rfl rfl (ev_quiet _)

theorem actPI_act (s : DState) (x : XEnc) (w : Buf) :
    Act c ext expand r s (actPI c s x w).1 (actPI c s x w).2.1 := by
  unfold actPI
  split
  · simp only []
    split
    · exact .cons (fun _ => rfl) (.same ⟨rfl, rfl, rfl, rfl⟩ rfl rfl)
    · exact .refl s
  · exact .frame _ _ _ ⟨rfl, rfl, rfl, rfl⟩ rfl rfl (ev_quiet _)

/-- The state of the grammar machine in an outcome, if it is one that goes on. -/
def ElemRes.keepsP (p : PState) : ElemRes → Prop
  | .ok el => el.p = p
  | .start el => el.p = p
  | _ => True

/-- The roles of element declarations leave the grammar machine alone. -/
theorem EState.act_p {decl : Bool} {nm : Buf → List UInt8} {e : Enc} {s : EState} {t : Tok} {b : Buf} {r : Role} :
    (s.act decl nm e t b r).keepsP s.p := by
  have hmod : ∀ (s : EState) f, (s.modTop f).keepsP s.p := by
    intro s f
    unfold modTop
    split
    · trivial
    · split <;> trivial
  have hconn : ∀ (s : EState) x, (s.setConn x).keepsP s.p := by
    intro s x
    unfold setConn
    split <;> trivial
  have hgrow : s.grow.p = s.p := by unfold grow; split <;> rfl
  have hel : ∀ (s : EState) q n, (s.contentElement q n).keepsP s.p := by
    intro s q n
    unfold contentElement
    split
    · split <;> trivial
    · trivial
  have hleaf : ∀ (s : EState) d ty, (s.contentLeaf d ty).keepsP s.p := by
    intro s d ty
    unfold contentLeaf
    split <;> trivial
  have hclose : ∀ (s : EState) d q, (s.groupClose d q).keepsP s.p := by
    intro s d q
    unfold groupClose
    split
    · have := hmod s fun p => { p with quant := q }
      generalize s.modTop _ = m at this ⊢
      cases m with
      | ok s' =>
        simp only []
        split
        · split
          · split <;> trivial
          · trivial
        · trivial
      | _ => trivial
    · trivial
  unfold EState.act
  split
  · trivial
  · trivial
  · unfold groupOpen
    have := hconn s.grow 0
    rw [hgrow] at this
    generalize s.grow.setConn 0 = m at this ⊢
    cases m with
    | ok s' =>
      simp only [ElemRes.keepsP] at this
      simp only []
      split
      · split
        · trivial
        · rw [← this]; exact hmod _ _
      · exact this
    | _ => trivial
  · unfold groupSequence
    split
    · trivial
    · split
      · trivial
      · exact hconn _ _
  · unfold groupChoice
    split
    · trivial
    · split
      · trivial
      · split
        · have := hmod s fun p => if p.type ≠ .MIXED then { p with type := .CHOICE } else p
          generalize s.modTop _ = m at this ⊢
          cases m with
          | ok s' =>
            simp only [ElemRes.keepsP] at this
            rw [← this]
            exact hconn _ _
          | _ => trivial
        · exact hconn _ _
  · unfold elementName
    split <;> trivial
  · exact hleaf _ _ _
  · exact hleaf _ _ _
  · unfold contentPcdata
    split
    · exact hmod _ _
    · trivial
  · exact hel _ _ _
  · exact hel _ _ _
  · exact hel _ _ _
  · exact hel _ _ _
  · exact hclose _ _ _
  · exact hclose _ _ _
  · exact hclose _ _ _
  · exact hclose _ _ _
  · trivial

theorem actElement_act (s : DState) (x : XEnc) (r' : Role) (t : Tok) (w : Buf) :
    Act c ext expand r s (actElement c s x r' t w).1 (actElement c s x r' t w).2.1 := by
  unfold actElement
  have h := EState.act_p (decl := c.elementDecl) (nm := converted x) (e := x.e) (s := { s.el with calls := [] })
    (t := t) (b := w) (r := r')
  generalize EState.act c.elementDecl (converted x) x.e { s.el with calls := [] } t w r' = q at h ⊢
  cases q with
  | err e => exact .refl s
  | fault => exact .refl s
  | start el => exact .same ⟨rfl, rfl, rfl, rfl⟩ rfl h
  | ok el =>
    refine .frame _ _ _ ⟨rfl, rfl, rfl, rfl⟩ rfl h ?_
    intro v hv k
    obtain ⟨w, _, rfl⟩ := List.mem_map.1 hv
    rfl

theorem pact_acts (fuel : Nat) (internal allowClose : Bool) (opened : List Buf) (s : DState) (t : Tok) (w : Buf) :
    ActR c ext expand r s (pact c ext fuel expand internal allowClose opened s r t w).1
      (pact c ext fuel expand internal allowClose opened s r t w).2.1 := by
  unfold pact
  simp only []
  split
  all_goals first
    | exact actEntity_act fuel opened s _ internal w
    | exact .plain rfl (actXmlDecl_act s _ w)
    | exact .plain rfl (actDoctype_act s _ w)
    | exact .plain rfl (actDoctypeClose_act opened allowClose s)
    | exact .plain rfl (actInstanceStart_act opened s)
    | exact .plain rfl (actAttlist_act s _ w _)
    | exact .plain rfl (actAttDefault_act s _ internal _ w)
    | exact .plain rfl (actNotation_act s _ _ w)
    | exact .plain rfl (actParamRef_act (.inl rfl) opened s _ internal w)
    | exact .plain rfl (actParamRef_act (.inr rfl) opened s _ internal w)
    | exact .plain rfl (.frame _ _ _ ⟨rfl, rfl, rfl, rfl⟩ rfl rfl (ev_quiet _))
    | exact .plain rfl (actPI_act s _ w)
    | exact .plain rfl (actComment_act s _ w)
    | exact .plain rfl (.refl s)
    | exact .plain (by cases r <;> first | rfl | simp_all) (actElement_act s _ _ t w)

end Verif
