import Verif.PrologActs

/-!
# Declarations stay

The invariants behind C36: an entity's entry is changed only by the declaration that made it, and it is
reported at most once.
-/

set_option autoImplicit false

namespace Verif

/-- Number of reports of the declaration of `k`. -/
def declCount (k : EKey) (E : List PEv) : Nat := E.countP (·.declares k)

/-- What a report says of the entity. -/
def PEv.tells (v : PEv) (e : Entity) : Prop :=
  match v with
  | .entityDecl _ _ (some t) _ _ _ _ => e.text = some t
  | .entityDecl _ _ none base sys pub nt =>
    e.base = base ∧ e.systemId = sys ∧ e.publicId = pub ∧ (nt = none ∨ e.notation_ = nt)
  | .unparsed _ base sys pub nt => e.base = base ∧ e.systemId = sys ∧ e.publicId = pub ∧ e.notation_ = nt
  | _ => True

/-- The element type of a name (one not in the table has no attributes). -/
def DTab.elem (D : DTab) (n : Buf) : ElemType := (tabGet D.elems n).getD ⟨[], none⟩

/-- The attribute has been declared for the element type. -/
def DTab.declared (D : DTab) (el a : Buf) : Bool := (D.elem el).atts.any (·.name = a)

/-- A declaration after the first one for the same attribute has no default value. -/
def DTab.DupOk (D : DTab) : Prop :=
  ∀ el pre d post, (D.elem el).atts = pre ++ d :: post → pre.any (·.name = d.name) = true → d.value = none

/-- Attributes stay as they were declared: the first declaration, the default value, and whether it is the
ID attribute; and attributes with a type other than CDATA are known to be such. -/
structure AttGrows (D D' : DTab) : Prop where
  declared : ∀ el a, D.declared el a = true → D'.declared el a = true
  first : ∀ el a, D.declared el a = true → (D'.elem el).atts.find? (·.name = a) = (D.elem el).atts.find? (·.name = a)
  dflt : ∀ el a, D.declared el a = true →
    (D'.elem el).atts.find? (fun d => d.name = a ∧ d.value.isSome) = (D.elem el).atts.find? (fun d => d.name = a ∧ d.value.isSome)
  id_ : ∀ el a, D.declared el a = true → ((D'.elem el).idAtt = some a ↔ (D.elem el).idAtt = some a)
  tok : (∀ el d, d ∈ (D.elem el).atts → d.isCdata = false → d.name ∈ D.maybeTok) →
    ∀ el d, d ∈ (D'.elem el).atts → d.isCdata = false → d.name ∈ D'.maybeTok
  dup : D.DupOk → D'.DupOk

/-- What a child parser may do to the shared tables: entries stay as they are; an entity is reported at
most once, and only if it was not there before; the report is true. -/
structure Kept (D : DTab) (E : List PEv) (D' : DTab) : Prop where
  stays : ∀ k, (D.ent k).isSome = true → (D'.ent k).isSome = true
  keep : ∀ k, k ≠ hashKey → ∀ e, D.ent k = some e → D'.ent k = some e
  once : ∀ k, k ≠ hashKey → declCount k E ≤ 1 ∧
    ((D.ent k).isSome = true ∨ (D'.ent k) = none → declCount k E = 0)
  tells : ∀ k, k ≠ hashKey → ∀ v ∈ E, v.declares k = true → ∃ e, D'.ent k = some e ∧ v.tells e
  atts : AttGrows D D'

/-- The application's external entity handler does no more than that. -/
def Ext.Keeps (ext : Ext) : Prop := ∀ req sh, Kept sh.D (ext req sh).calls (ext req sh).sh.D

/-- Invariant of the parser. -/
structure DState.Ok (s : DState) : Prop where
  none_ : s.el.p.roleNone.none_ = true
  entry : ∀ k, s.decl = some k → (s.D.ent k).isSome = true
  gen : s.el.p.h.gmid = true → ∀ k, s.decl = some k → k.1 = false

/-- The entry of `k` is not being changed (`m`: not even if the machine has left the declaration). -/
def FrozenM (m : Bool) (k : EKey) (s : DState) : Prop := s.decl ≠ some k ∨ (m = false ∧ s.el.p.h.mid = false)

/-- How many reports of `k` can still come. -/
def budget (m : Bool) (k : EKey) (s : DState) : Nat :=
  if s.D.ent k = none ∨ (s.decl = some k ∧ (m = true ∨ s.el.p.h.mid = true)) then 1 else 0

/-- A step of the parser, as far as entity `k` is concerned. -/
def StepM (m : Bool) (k : EKey) (s : DState) (E : List PEv) (s' : DState) : Prop :=
  s.Ok → s'.Ok ∧
    (∀ e, s.D.ent k = some e → FrozenM m k s → s'.D.ent k = some e ∧ FrozenM m k s') ∧
    declCount k E + budget m k s' ≤ budget m k s ∧
    ∀ v ∈ E, v.declares k = true → ∃ e, s'.D.ent k = some e ∧ v.tells e ∧ FrozenM m k s'

theorem StepM.trans {m : Bool} {k : EKey} {s t u : DState} {E F : List PEv} (h : StepM m k s E t)
    (h' : StepM m k t F u) : StepM m k s (E ++ F) u := by
  intro hs
  obtain ⟨ht, hk, hc, hv⟩ := h hs
  obtain ⟨hu, hk', hc', hv'⟩ := h' ht
  refine ⟨hu, ?_, ?_, ?_⟩
  · intro e he hf
    obtain ⟨h1, h2⟩ := hk e he hf
    exact hk' e h1 h2
  · unfold declCount at *
    rw [List.countP_append]
    omega
  · intro v hvm hd
    rcases List.mem_append.1 hvm with h1 | h1
    · obtain ⟨e, he, ht, hf⟩ := hv v h1 hd
      obtain ⟨h2, h3⟩ := hk' e he hf
      exact ⟨e, h2, ht, h3⟩
    · exact hv' v h1 hd

theorem declCount_quiet {k : EKey} {E : List PEv} (h : ∀ v ∈ E, ∀ k, v.declares k = false) : declCount k E = 0 := by
  unfold declCount
  rw [List.countP_eq_zero]
  intro v hv
  simp [h v hv k]

theorem declCount_mem {k : EKey} {E : List PEv} {v : PEv} (hv : v ∈ E) (h : v.declares k = true) :
    0 < declCount k E := List.countP_pos_iff.2 ⟨v, hv, h⟩

/-- Nothing of interest happens to `k`. -/
theorem StepM.same {m : Bool} {k : EKey} {s s' : DState} {E : List PEv} (hent : ∀ k, s'.D.ent k = s.D.ent k)
    (hdecl : s'.decl = s.decl) (hp : s'.el.p = s.el.p) (hE : ∀ v ∈ E, ∀ k, v.declares k = false) :
    StepM m k s E s' := by
  intro hs
  refine ⟨⟨by rw [hp]; exact hs.none_, ?_, ?_⟩, ?_, ?_, ?_⟩
  · intro k hk; rw [hent]; exact hs.entry k (hdecl ▸ hk)
  · rw [hp, hdecl]; exact hs.gen
  · intro e he hf
    refine ⟨by rw [hent]; exact he, ?_⟩
    unfold FrozenM at *
    rw [hdecl, hp]; exact hf
  · rw [declCount_quiet hE]
    unfold budget
    rw [hent, hdecl, hp]
    omega
  · intro v hv hd
    rw [hE v hv k] at hd
    cases hd

/-- A change of an entry other than `k`. -/
theorem StepM.other {m : Bool} {k k' : EKey} {s : DState} {f : Entity → Entity} (hk : k ≠ k') :
    StepM m k s [] { s with D := s.D.setEnt k' f } := by
  intro hs
  refine ⟨⟨hs.none_, ?_, hs.gen⟩, ?_, ?_, by simp⟩
  · intro j hj
    have := hs.entry j hj
    by_cases h : j = k'
    · subst h
      rw [DTab.ent_setEnt_eq]
      simpa using this
    · rw [DTab.ent_setEnt_ne h]; exact this
  · intro e he hf
    exact ⟨by rw [DTab.ent_setEnt_ne hk]; exact he, hf⟩
  · unfold budget
    simp only [DTab.ent_setEnt_ne hk]
    simp [declCount]

/-- A change of the entry of `k` while it is being declared. -/
theorem StepM.own {k : EKey} {s : DState} {f : Entity → Entity} (hd : s.decl = some k) :
    StepM true k s [] { s with D := s.D.setEnt k f } := by
  intro hs
  have h0 := hs.entry k hd
  obtain ⟨e0, he0⟩ := Option.isSome_iff_exists.1 h0
  refine ⟨⟨hs.none_, ?_, hs.gen⟩, ?_, ?_, by simp⟩
  · intro j hj
    have : j = k := by have := hj.symm.trans hd; simpa using this
    subst this
    rw [DTab.ent_setEnt_eq]
    simpa using h0
  · intro e he hf
    rcases hf with hf | hf
    · exact absurd hd hf
    · cases hf.1
  · unfold budget
    simp [declCount, hd]

theorem StepM.hashPut {m : Bool} {k : EKey} {s : DState} (hk : k ≠ hashKey) :
    StepM m k s [] { s with D := s.D.putEnt hashKey .zero } := by
  intro hs
  refine ⟨⟨hs.none_, ?_, hs.gen⟩, ?_, ?_, by simp⟩
  · intro j hj
    have := hs.entry j hj
    by_cases h : j = hashKey
    · subst h
      rw [DTab.ent_putEnt_eq]
      rfl
    · rw [DTab.ent_putEnt_ne h]; exact this
  · intro e he hf
    exact ⟨by rw [DTab.ent_putEnt_ne hk]; exact he, hf⟩
  · unfold budget
    simp only [DTab.ent_putEnt_ne hk]
    simp [declCount]

theorem StepM.doctype {m : Bool} {k : EKey} {s : DState} (hk : k ≠ hashKey) (hg : s.el.p.h.gmid = false) :
    StepM m k s [] { s with decl := some hashKey, D := s.D.putEnt hashKey .zero } := by
  intro hs
  refine ⟨⟨hs.none_, ?_, ?_⟩, ?_, ?_, by simp⟩
  · intro j hj
    have : hashKey = j := by simpa using hj
    subst this
    simp only [DTab.ent_putEnt_eq]
    rfl
  · intro h
    rw [show s.el.p.h.gmid = true from h] at hg
    cases hg
  · intro e he hf
    refine ⟨by rw [DTab.ent_putEnt_ne hk]; exact he, .inl ?_⟩
    simpa using Ne.symm hk
  · unfold budget
    simp only [DTab.ent_putEnt_ne hk]
    have : ¬ some hashKey = some k := by simpa using Ne.symm hk
    simp only [declCount, List.countP_nil, this, false_and, or_false, Nat.zero_add]
    by_cases h : s.D.ent k = none
    · simp [h]
    · simp [h]

theorem StepM.ext {m : Bool} {k : EKey} {ext : Ext} (hext : ext.Keeps) (hk : k ≠ hashKey) (s : DState) (req : ExtReq) :
    StepM m k s (ext req s.sh).calls (s.setSh (ext req s.sh).sh) := by
  intro hs
  have H := hext req s.sh
  generalize ext req s.sh = a at H ⊢
  refine ⟨⟨hs.none_, ?_, hs.gen⟩, ?_, ?_, ?_⟩
  · intro j hj
    exact H.stays j (hs.entry j hj)
  · intro e he hf
    exact ⟨H.keep k hk e he, hf⟩
  · obtain ⟨h1, h2⟩ := H.once k hk
    unfold budget
    rw [show (s.setSh a.sh).D = a.sh.D from rfl, show (s.setSh a.sh).decl = s.decl from rfl,
      show (s.setSh a.sh).el.p = s.el.p from rfl]
    cases h : s.D.ent k with
    | none =>
      have hd : s.decl ≠ some k := by
        intro hd
        have := hs.entry k hd
        rw [h] at this
        cases this
      cases h' : a.sh.D.ent k with
      | none =>
        have := h2 (.inr h')
        simp [this]
      | some e =>
        simp only [hd, false_and, or_false, reduceCtorEq]
        simpa using h1
    | some e =>
      have h3 := h2 (.inl (by rw [show s.sh.D.ent k = some e from h]; rfl))
      have h4 : a.sh.D.ent k = some e := H.keep k hk e h
      simp [h3, h4]
  · intro v hv hd
    obtain ⟨e, he, ht⟩ := H.tells k hk v hv hd
    refine ⟨e, he, ht, .inl ?_⟩
    intro hdk
    have h2 := (H.once k hk).2 (.inl (hs.entry k hdk))
    have h3 := declCount_mem hv hd
    omega

theorem defineAttribute_ent (ns : Bool) (D : DTab) (a b : Buf) (isCdata isId : Bool) (v : Option Buf) (k : EKey) :
    (defineAttribute ns D a b isCdata isId v).ent k = D.ent k := by
  unfold defineAttribute
  simp only []
  split <;> rfl

variable {c : PCfg} {ext : Ext} {expand : Bool → Buf → Buf → DState → Acted} {r : Role}

/-- Roles of references. -/
def Role.refs (r : Role) : Prop := r = .PARAM_ENTITY_REF ∨ r = .INNER_PARAM_ENTITY_REF

theorem Role.refs.sets {r : Role} (h : r.refs) : r.sets = false := by rcases h with rfl | rfl <;> rfl

theorem Act.p {s s' : DState} {E : List PEv} (h : Act c ext expand r s E s') (hr : ¬ r.refs) :
    s'.el.p = s.el.p := by
  induction h with
  | trans _ _ ih1 ih2 => exact ih2.trans ih1
  | frame _ _ _ _ _ hp _ => exact hp
  | ext => rfl
  | expand h => exact absurd h hr
  | set _ s f =>
    rw [DState.setDecl_eq]
    split <;> rfl
  | doctype => rfl
  | hashPut => rfl
  | hashSet => rfl
  | att => rfl

theorem Act.decl {s s' : DState} {E : List PEv} (h : Act c ext expand r s E s') (hr : ¬ r.refs)
    (hr' : ¬ (r = .DOCTYPE_PUBLIC_ID ∨ r = .DOCTYPE_SYSTEM_ID)) : s'.decl = s.decl := by
  induction h with
  | trans _ _ ih1 ih2 => exact ih2.trans ih1
  | frame _ _ _ _ hd _ _ => exact hd
  | ext => rfl
  | expand h => exact absurd h hr
  | set _ s f =>
    rw [DState.setDecl_eq]
    split <;> rfl
  | doctype h => exact absurd h hr'
  | hashPut => rfl
  | hashSet => rfl
  | att => rfl

theorem Act.step {k : EKey} (hk : k ≠ hashKey) (hext : ext.Keeps) (he : ExpandRel (StepM false k) expand)
    {s s' : DState} {E : List PEv} (h : Act c ext expand r s E s')
    (hg : r = .DOCTYPE_PUBLIC_ID ∨ r = .DOCTYPE_SYSTEM_ID → s.el.p.h.gmid = false) :
    StepM r.sets k s E s' := by
  induction h with
  | trans h1 h2 ih1 ih2 =>
    refine (ih1 hg).trans (ih2 ?_)
    intro hr
    rw [h1.p (by rcases hr with rfl | rfl <;> simp [Role.refs])]
    exact hg hr
  | frame s s' E htab hdecl hp hE => exact .same htab.ent hdecl hp hE
  | ext s req => exact .ext hext hk s req
  | expand hr s b n t =>
    rw [Role.refs.sets hr]
    exact he b n t s
  | set hr s f =>
    rw [DState.setDecl_eq, hr]
    split
    · exact .same (fun _ => rfl) rfl rfl (by simp)
    · rename_i k' hd
      by_cases hkk : k = k'
      · subst hkk
        exact .own hd
      · exact .other hkk
  | doctype hr s => exact .doctype hk (hg hr)
  | hashPut s => exact .hashPut hk
  | hashSet s f => exact .other hk
  | att s a b isCdata isId v => exact .same (defineAttribute_ent _ _ _ _ _ _ _) rfl rfl (by simp)

/-- The grammar machine is given a token. -/
theorem told_ok {s : DState} {p' : PState} (hf : NextFacts s.el.p p' r) (hr : r.names = false) (hs : s.Ok) :
    ({ s with el := { s.el with p := p' } } : DState).Ok := by
  refine ⟨hf.none_, hs.entry, ?_⟩
  intro hg j hj
  rcases hf.gstays hg with h | h
  · subst h; cases hr
  · exact hs.gen h j hj

theorem ActR.step {k : EKey} (hk : k ≠ hashKey) (hext : ext.Keeps) (he : ExpandRel (StepM false k) expand)
    {s s' : DState} {E : List PEv} {p' : PState} (hf : NextFacts s.el.p p' r)
    (h : ActR c ext expand r { s with el := { s.el with p := p' } } E s') : StepM false k s E s' := by
  have plain : ∀ {E s'}, r.names = false → Act c ext expand r { s with el := { s.el with p := p' } } E s' →
      s.Ok → s'.Ok ∧
        (∀ e, s.D.ent k = some e → FrozenM false k s → s'.D.ent k = some e ∧ FrozenM r.sets k s') ∧
        declCount k E + budget r.sets k s' ≤ budget false k s ∧
        ∀ v ∈ E, v.declares k = true → ∃ e, s'.D.ent k = some e ∧ v.tells e ∧ FrozenM r.sets k s' := by
    intro E s' hr h hs
    have h1 := Act.step hk hext he h (fun hr => hf.doc hr) (told_ok hf hr hs)
    obtain ⟨h1, h2, h3, h4⟩ := h1
    refine ⟨h1, ?_, ?_, h4⟩
    · intro e he hfr
      apply h2 e he
      by_cases hd : s.decl = some k
      · rcases hfr with hfr | hfr
        · exact absurd hd hfr
        · refine .inr ⟨?_, ?_⟩
          · cases hset : r.sets with
            | false => rfl
            | true => have := hf.sets hset; rw [hfr.2] at this; cases this
          · cases hmid : p'.h.mid with
            | false => rfl
            | true =>
              rcases hf.stays hmid with h5 | h5
              · rw [hr] at h5; cases h5
              · rw [hfr.2] at h5; cases h5
      · exact .inl hd
    · refine Nat.le_trans h3 ?_
      unfold budget
      simp only []
      split
      · rename_i h5
        rw [if_pos]
        · exact Nat.le_refl _
        · rcases h5 with h5 | ⟨h5, h6⟩
          · exact .inl h5
          · refine .inr ⟨h5, .inr ?_⟩
            rcases h6 with h6 | h6
            · exact hf.sets h6
            · rcases hf.stays h6 with h7 | h7
              · rw [hr] at h7; cases h7
              · exact h7
      · exact Nat.zero_le _
  have weaken : ∀ {s' : DState}, FrozenM r.sets k s' → FrozenM false k s' := by
    intro s' h
    rcases h with h | h
    · exact .inl h
    · exact .inr ⟨rfl, h.2⟩
  have less : ∀ s' : DState, budget false k s' ≤ budget r.sets k s' := by
    intro s'
    unfold budget
    split
    · rename_i h
      rw [if_pos]
      · exact Nat.le_refl _
      · rcases h with h | h
        · exact .inl h
        · refine .inr ⟨h.1, .inr ?_⟩
          simpa using h.2
    · exact Nat.zero_le _
  intro hs
  cases h with
  | plain hr h =>
    obtain ⟨h1, h2, h3, h4⟩ := plain hr h hs
    refine ⟨h1, ?_, Nat.le_trans (Nat.add_le_add_left (less s') _) h3, ?_⟩
    · intro e he hfr
      obtain ⟨h5, h6⟩ := h2 e he hfr
      exact ⟨h5, weaken h6⟩
    · intro v hv hd
      obtain ⟨e, h5, h6, h7⟩ := h4 v hv hd
      exact ⟨e, h5, h6, weaken h7⟩
  | @report E s' k0 v h hr hd hrep =>
    have hrn : r.names = false := by cases r <;> first | rfl | cases hr
    have hrs : r.sets = true := by cases r <;> first | rfl | cases hr
    have hrr : ¬ r.refs := by rintro (rfl | rfl) <;> cases hr
    have hrd : ¬ (r = .DOCTYPE_PUBLIC_ID ∨ r = .DOCTYPE_SYSTEM_ID) := by rintro (rfl | rfl) <;> cases hr
    obtain ⟨h1, h2, h3, h4⟩ := plain hrn h hs
    have hp := h.p hrr
    have hdecl := h.decl hrr hrd
    have hmid : s'.el.p.h.mid = false := by rw [hp]; exact hf.reports hr
    obtain ⟨e0, he0⟩ := Option.isSome_iff_exists.1 (h1.entry k0 hd)
    have hrep := hrep e0 he0
    have hs0 : s.decl = some k0 := by rw [← hd, hdecl]
    have hv : ∀ j, v.declares j = decide (k0 = j) ∧ v.tells e0 := by
      intro j
      obtain ⟨p0, n0⟩ := k0
      cases r <;> first | (cases hr; done) | skip
      · obtain ⟨h5, h6⟩ := hrep
        subst h5
        obtain ⟨t, ht⟩ := Option.isSome_iff_exists.1 h6
        refine ⟨rfl, ?_⟩
        simp only [PEv.tells, ht]
      · subst hrep
        exact ⟨rfl, rfl, rfl, rfl, .inl rfl⟩
      · have : p0 = false := hs.gen (hf.notat rfl) (p0, n0) hs0
        subst this
        rcases hrep with h5 | h5
        · subst h5
          exact ⟨rfl, rfl, rfl, rfl, rfl⟩
        · subst h5
          refine ⟨rfl, rfl, rfl, rfl, .inr rfl⟩
    refine ⟨h1, ?_, ?_, ?_⟩
    · intro e he hfr
      obtain ⟨h5, h6⟩ := h2 e he hfr
      exact ⟨h5, weaken h6⟩
    · unfold declCount at *
      rw [List.countP_append, List.countP_singleton, (hv k).1]
      by_cases hkk : k0 = k
      · subst hkk
        have e1 : budget false k0 s' = 0 := by
          unfold budget; simp [he0, hmid]
        have e2 : budget r.sets k0 s' = 1 := by
          unfold budget; simp [hd, hrs]
        rw [e2] at h3
        simp only [decide_true, if_true]
        omega
      · have := less s'
        simp only [hkk, decide_false]
        simp
        omega
    · intro u hu hud
      rcases List.mem_append.1 hu with h5 | h5
      · obtain ⟨e, h6, h7, h8⟩ := h4 u h5 hud
        exact ⟨e, h6, h7, weaken h8⟩
      · simp at h5
        subst h5
        rw [(hv k).1] at hud
        have : k0 = k := by simpa using hud
        subst this
        exact ⟨e0, he0, (hv k0).2, .inr ⟨rfl, hmid⟩⟩
  | name hr h =>
    rcases h with rfl | ⟨k0, v, hr0, hk0, rfl⟩
    · refine ⟨⟨hf.none_, (fun j hj => by cases hj), (fun _ j hj => by cases hj)⟩, ?_, ?_, by simp⟩
      · intro e he _
        exact ⟨he, .inl (by simp)⟩
      · unfold budget
        simp [declCount]
        by_cases h : s.D.ent k = none <;> simp [h]
    · refine ⟨⟨hf.none_, ?_, ?_⟩, ?_, ?_, by simp⟩
      · intro j hj
        have : k0 = j := by simpa using hj
        subst this
        simp only [DTab.ent_putEnt_eq]
        rfl
      · intro hg j hj
        have : k0 = j := by simpa using hj
        subst this
        cases hp : k0.1 with
        | false => rfl
        | true =>
          rw [hp] at hr0
          have := hf.par hr0
          rw [show p'.h.gmid = true from hg] at this
          cases this
      · intro e he _
        have hne : k ≠ k0 := by
          intro h
          subst h
          rw [show s.D.ent k = none from hk0] at he
          cases he
        refine ⟨?_, .inl ?_⟩
        · simp only [DTab.ent_putEnt_ne hne]; exact he
        · simpa using Ne.symm hne
      · by_cases hkk : k = k0
        · subst hkk
          have e1 : budget false k s = 1 := by
            unfold budget
            rw [if_pos (.inl hk0)]
          rw [e1]
          unfold budget
          simp only [declCount, List.countP_nil]
          split <;> omega
        · have hd : ¬ some k0 = some k := by simpa using Ne.symm hkk
          unfold budget
          simp only [DTab.ent_putEnt_ne hkk, declCount, List.countP_nil, hd, false_and, or_false, Nat.zero_add]
          by_cases h : s.D.ent k = none <;> simp [h]

/-- Every run of `doProlog` is made of such steps. -/
theorem stepM_runRel {fuel : Nat} {k : EKey} (hk : k ≠ hashKey) (hext : ext.Keeps) :
    RunRel c ext fuel (StepM false k) where
  refl s := .same (fun _ => rfl) rfl rfl (by simp)
  trans := StepM.trans
  ignoring s b := .same (fun _ => rfl) rfl rfl (by simp)
  dflt s L := .same (fun _ => rfl) rfl rfl (ev_quiet L)
  ended s e := by
    intro hs
    have hf := next_facts (e := e) (p := s.el.p) (t := .NONE) (b := []) hs.none_
    exact ActR.step (c := c) (expand := fun _ _ _ s => ([], s, .panic)) hk hext
      (fun _ _ _ s => .same (fun _ => rfl) rfl rfl (by simp)) hf (.plain (next_end_names hs.none_) (.refl _)) hs
  act expand internal allowClose opened s t w he := by
    intro hs
    have hf := next_facts (e := (s.x c internal).e) (p := s.el.p) (t := t) (b := w) hs.none_
    exact ActR.step hk hext he hf (pact_acts fuel internal allowClose opened _ t w) hs

/-! ### Attributes -/

theorem AttGrows.refl (D : DTab) : AttGrows D D :=
  ⟨fun _ _ h => h, fun _ _ _ => rfl, fun _ _ _ => rfl, fun _ _ _ => Iff.rfl, fun h => h, fun h => h⟩

theorem AttGrows.trans {D D' D'' : DTab} (h : AttGrows D D') (h' : AttGrows D' D'') : AttGrows D D'' where
  declared el a hd := h'.declared el a (h.declared el a hd)
  first el a hd := (h'.first el a (h.declared el a hd)).trans (h.first el a hd)
  dflt el a hd := (h'.dflt el a (h.declared el a hd)).trans (h.dflt el a hd)
  id_ el a hd := (h'.id_ el a (h.declared el a hd)).trans (h.id_ el a hd)
  tok ht := h'.tok (h.tok ht)
  dup ht := h'.dup (h.dup ht)

theorem AttGrows.same {D D' : DTab} (he : D'.elems = D.elems) (hm : D'.maybeTok = D.maybeTok) : AttGrows D D' := by
  have h1 : ∀ el, D'.elem el = D.elem el := fun el => by unfold DTab.elem; rw [he]
  have h2 : ∀ el a, D'.declared el a = D.declared el a := fun el a => by unfold DTab.declared; rw [h1]
  constructor
  · intro el a h; rw [h2]; exact h
  · intro el a _; rw [h1]
  · intro el a _; rw [h1]
  · intro el a _; rw [h1]
  · intro h el d hd hc
    rw [hm]
    rw [h1] at hd
    exact h el d hd hc
  · intro h el
    rw [h1]
    exact h el

theorem defineAttribute_grows (ns : Bool) (D : DTab) (elem att : Buf) (isCdata isId : Bool) (v : Option Buf) :
    AttGrows D (defineAttribute ns D elem att isCdata isId v) := by
  unfold defineAttribute
  simp only []
  by_cases hg : (v.isSome = true ∨ isId = true) ∧ ((tabGet D.elems elem).getD ⟨[], none⟩).atts.any (·.name = att) = true
  · rw [if_pos hg]; exact .refl D
  · rw [if_neg hg]
    generalize hid : newIdAtt ns ((tabGet D.elems elem).getD ⟨[], none⟩) att isId = id'
    generalize hD' : ({ D with elems := _, maybeTok := _ } : DTab) = D'
    have hne : ∀ el, el ≠ elem → D'.elem el = D.elem el := by
      intro el h
      subst hD'
      unfold DTab.elem
      simp only [tabGet_tabSet_ne h, tabGet_tabPut_ne h]
    have heq : D'.elem elem = ⟨(D.elem elem).atts ++ [⟨att, isCdata, v⟩], id'⟩ := by
      subst hD'
      unfold DTab.elem
      simp only [tabGet_tabSet_eq, tabGet_tabPut_eq, Option.map_some, Option.getD_some]
    have hnot : D.declared elem att = true → v.isSome = false ∧ isId = false := by
      intro hd
      have h1 : ¬ (v.isSome = true ∨ isId = true) := fun h => hg ⟨h, hd⟩
      simpa using h1
    have hdecl : ∀ a, D.declared elem a = true → ∃ d, d ∈ (D.elem elem).atts ∧ d.name = a := by
      intro a ha
      unfold DTab.declared at ha
      rw [List.any_eq_true] at ha
      obtain ⟨d, h1, h2⟩ := ha
      exact ⟨d, h1, by simpa using h2⟩
    constructor
    · intro el a hd
      by_cases h : el = elem
      · subst h
        unfold DTab.declared at hd ⊢
        rw [heq]
        simp only [List.any_append, hd, Bool.true_or]
      · unfold DTab.declared at hd ⊢
        rw [hne el h]; exact hd
    · intro el a hd
      by_cases h : el = elem
      · subst h
        rw [heq]
        obtain ⟨d, h1, h2⟩ := hdecl a hd
        simp only [List.find?_append]
        cases hf : List.find? (fun x => decide (x.name = a)) (D.elem el).atts with
        | some _ => rfl
        | none =>
          rw [List.find?_eq_none] at hf
          have := hf d h1
          simp [h2] at this
      · rw [hne el h]
    · intro el a hd
      by_cases h : el = elem
      · subst h
        rw [heq]
        simp only [List.find?_append]
        cases hf : List.find? (fun x => decide (x.name = a ∧ x.value.isSome = true)) (D.elem el).atts with
        | some _ => rfl
        | none =>
          simp only [Option.none_or, List.find?_cons, List.find?_nil]
          by_cases hatt : att = a
          · subst hatt
            simp [(hnot hd).1]
          · simp [hatt]
      · rw [hne el h]
    · intro el a hd
      by_cases h : el = elem
      · subst h
        rw [heq]
        simp only
        rw [← hid]
        unfold newIdAtt
        have hel : (tabGet D.elems el).getD ⟨[], none⟩ = D.elem el := rfl
        rw [hel]
        split
        · rename_i h1
          have h2 : (D.elem el).idAtt = none := by simpa using h1.2.1
          rw [h2]
          constructor
          · intro h3
            have : att = a := by simpa using h3
            subst this
            have := (hnot hd).2
            rw [h1.1] at this
            cases this
          · intro h3; cases h3
        · exact Iff.rfl
      · rw [hne el h]
    · intro ht el d hd hc
      have hmt : D'.maybeTok = if isCdata = true then D.maybeTok else att :: D.maybeTok := by subst hD'; rfl
      have hmono : ∀ n, n ∈ D.maybeTok → n ∈ D'.maybeTok := by
        intro n hn
        rw [hmt]
        split
        · exact hn
        · exact List.mem_cons_of_mem _ hn
      by_cases h : el = elem
      · subst h
        rw [heq] at hd
        rcases List.mem_append.1 hd with h1 | h1
        · exact hmono _ (ht el d h1 hc)
        · simp at h1
          subst h1
          rw [hmt]
          simp only at hc
          subst hc
          simp
      · rw [hne el h] at hd
        exact hmono _ (ht el d hd hc)
    · intro ht el pre d post hd hp
      by_cases h : el = elem
      · subst h
        rw [heq] at hd
        simp only at hd
        rcases List.eq_nil_or_concat post with rfl | ⟨post', z, rfl⟩
        · obtain ⟨rfl, hz⟩ := List.append_inj' hd rfl
          simp only [List.cons.injEq, and_true] at hz
          subst hz
          have := (hnot hp).1
          simpa using this
        · have hd' : (D.elem el).atts ++ [⟨att, isCdata, v⟩] = (pre ++ d :: post') ++ [z] := by
            rw [hd]; simp
          exact ht el pre d post' (List.append_inj' hd' rfl).1 hp
      · rw [hne el h] at hd
        exact ht el pre d post hd hp

/-! ### Entries stay, attributes stay -/

/-- No entry is removed; attributes stay as they were declared. -/
def Grow (s : DState) (_ : List PEv) (s' : DState) : Prop :=
  (∀ k, (s.D.ent k).isSome = true → (s'.D.ent k).isSome = true) ∧ AttGrows s.D s'.D

theorem Grow.same {s s' : DState} {E : List PEv} (h : SameTabs s.D s'.D) : Grow s E s' :=
  ⟨fun k hk => by rw [h.ent]; exact hk, .same h.elems h.maybeTok⟩

theorem setEnt_some {D : DTab} {k j : EKey} {f : Entity → Entity} (h : (D.ent j).isSome = true) :
    ((D.setEnt k f).ent j).isSome = true := by
  by_cases hk : j = k
  · subst hk; rw [DTab.ent_setEnt_eq]; simpa using h
  · rw [DTab.ent_setEnt_ne hk]; exact h

theorem putEnt_some {D : DTab} {k j : EKey} {v : Entity} (h : (D.ent j).isSome = true) :
    ((D.putEnt k v).ent j).isSome = true := by
  by_cases hk : j = k
  · subst hk; rw [DTab.ent_putEnt_eq]; rfl
  · rw [DTab.ent_putEnt_ne hk]; exact h

theorem setEnt_atts {D : DTab} {k : EKey} {f : Entity → Entity} : AttGrows D (D.setEnt k f) := by
  unfold DTab.setEnt
  split <;> exact .same rfl rfl

theorem putEnt_atts {D : DTab} {k : EKey} {v : Entity} : AttGrows D (D.putEnt k v) := by
  unfold DTab.putEnt
  split <;> exact .same rfl rfl

theorem Act.grow (hext : ext.Keeps) (he : ExpandRel Grow expand)
    {s s' : DState} {E : List PEv} (h : Act c ext expand r s E s') : Grow s E s' := by
  induction h with
  | trans _ _ ih1 ih2 => exact ⟨fun k hk => ih2.1 k (ih1.1 k hk), ih1.2.trans ih2.2⟩
  | frame s s' E htab _ _ _ => exact .same htab
  | ext s req => exact ⟨(hext req s.sh).stays, (hext req s.sh).atts⟩
  | expand hr s b n t => exact he b n t s
  | set hr s f =>
    rw [DState.setDecl_eq]
    split
    · exact .same ⟨rfl, rfl, rfl, rfl⟩
    · exact ⟨fun _ => setEnt_some, setEnt_atts⟩
  | doctype hr s => exact ⟨fun _ => putEnt_some (D := s.D), putEnt_atts (D := s.D) (k := hashKey) (v := Entity.zero)⟩
  | hashPut s => exact ⟨fun _ => putEnt_some (D := s.D), putEnt_atts (D := s.D) (k := hashKey) (v := Entity.zero)⟩
  | hashSet s f => exact ⟨fun _ => setEnt_some (D := s.D), setEnt_atts (D := s.D) (k := hashKey) (f := f)⟩
  | att s a b isCdata isId v =>
    exact ⟨fun k hk => by rw [defineAttribute_ent]; exact hk, defineAttribute_grows _ _ _ _ _ _ _⟩

theorem grow_runRel {fuel : Nat} (hext : ext.Keeps) : RunRel c ext fuel Grow where
  refl s := .same ⟨rfl, rfl, rfl, rfl⟩
  trans h h' := ⟨fun k hk => h'.1 k (h.1 k hk), h.2.trans h'.2⟩
  ignoring s b := .same ⟨rfl, rfl, rfl, rfl⟩
  dflt s L := .same ⟨rfl, rfl, rfl, rfl⟩
  ended s e := .same ⟨rfl, rfl, rfl, rfl⟩
  act expand internal allowClose opened s t w he := by
    have h := pact_acts (c := c) (ext := ext) (expand := expand) (r := (s.el.p.next (s.x c internal).e t w).2) fuel internal
      allowClose opened (s.told (s.x c internal).e t w) t w
    generalize pact c ext fuel expand internal allowClose opened (s.told (s.x c internal).e t w)
      (s.el.p.next (s.x c internal).e t w).2 t w = q at h ⊢
    obtain ⟨E, s', o⟩ := q
    simp only at h ⊢
    cases h with
    | plain _ h => exact Act.grow (s := s.told (s.x c internal).e t w) (E := E) hext he h
    | report h => exact Act.grow (s := s.told (s.x c internal).e t w) hext he h
    | name hr h =>
      rcases h with rfl | ⟨k0, v, _, _, rfl⟩
      · exact .same ⟨rfl, rfl, rfl, rfl⟩
      · exact ⟨fun k hk => putEnt_some (D := s.D) hk, putEnt_atts (D := s.D)⟩

end Verif
