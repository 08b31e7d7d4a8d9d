import Verif.Runs

/-! An induction principle for the content parser, and which events its parts can produce. -/

namespace Verif
open C43

/-! ### Induction over executions, including those of entities -/

/-- A property `R start s E s'` of successful executions and a property `F start s E` of failing ones
which are composed from those of single actions. -/
structure Compositional (c : Cfg) (D : Dtd) (int : XEnc) (R : Nat → CState → List Ev → CState → Prop)
    (F : Nat → CState → List Ev → XErr → Prop) : Prop where
  refl : ∀ start s, R start s [] s
  trans : ∀ {start s E s' E' s''}, R start s E s' → R start s' E' s'' → R start s (E ++ E') s''
  stop : ∀ start s c, c ≠ .DIVERGED → F start s [] c
  err : ∀ {start s E s' E' c}, R start s E s' → F start s' E' c → F start s (E ++ E') c
  act_ok : ∀ {x opened start expand s t w E s'},
    (∀ n u s E s', expand n u s = (E, .ok s') →
      R s.level s E s' ∧ (s'.mode = .epilog ∨ s.level ≠ 0 ∧ s'.level = s.level)) →
    s.mode.verdict t = .act → act c D int x opened start expand s t w = (E, .ok s') → R start s E s'
  act_err : ∀ {x opened start expand s t w E err},
    (∀ n u s E err, expand n u s = (E, .error err) → F s.level s E err) →
    s.mode.verdict t = .act → act c D int x opened start expand s t w = (E, .error err) → F start s E err

/-- All executions have the property. -/
def Holds (R : Nat → CState → List Ev → CState → Prop) (F : Nat → CState → List Ev → XErr → Prop)
    (M : Sem CState) (e : Enc) (start : Nat) : Prop :=
  ∀ s b more v E o, run M e more v s b = (E, o) →
    match o with
    | .ok s' _ => R start s E s'
    | .err c => F start s E c

section
variable {c : Cfg} {D : Dtd} {int : XEnc} {R : Nat → CState → List Ev → CState → Prop}
  {F : Nat → CState → List Ev → XErr → Prop}

theorem steps_hold (C : Compositional c D int R F) {x opened start expand}
    (hok : ∀ n u s E s', expand n u s = (E, .ok s') →
      R s.level s E s' ∧ (s'.mode = .epilog ∨ s.level ≠ 0 ∧ s'.level = s.level))
    {s E s'} (h : Steps (semOf c D int x opened start expand) s E s') : R start s E s' := by
  induction h with
  | nil => exact C.refl _ _
  | cons hm ha _ ih => exact C.trans (C.act_ok hok hm ha) ih

theorem verdict_wait_ne {m : Mode} {t : Tok} {c : XErr} (h : m.verdict t = .wait c) : c ≠ .DIVERGED := by
  cases m <;> cases t <;> simp_all [Mode.verdict] <;> subst h <;> simp

theorem verdict_fail_ne {m : Mode} {t : Tok} {c : XErr} (h : m.verdict t = .fail c) : c ≠ .DIVERGED := by
  cases m <;> cases t <;> simp_all [Mode.verdict] <;> subst h <;> simp

theorem fin_ne {c : Cfg} {D int x opened start expand} {s : CState} {err : XErr}
    (h : (semOf c D int x opened start expand).fin s = some err) : err ≠ .DIVERGED := by
  simp only [semOf] at h
  split at h
  · injection h with h; subst h; simp
  · split at h
    · injection h with h; subst h; simp
    · cases h

theorem semOf_holds (C : Compositional c D int R F) {x opened start expand}
    (hok : ∀ n u s E s', expand n u s = (E, .ok s') →
      R s.level s E s' ∧ (s'.mode = .epilog ∨ s.level ≠ 0 ∧ s'.level = s.level))
    (herr : ∀ n u s E err, expand n u s = (E, .error err) → F s.level s E err) (e : Enc) :
    Holds R F (semOf c D int x opened start expand) e start := by
  intro s b more v E o h
  cases o with
  | ok s' r => exact steps_hold C hok (run_steps (fun _ => rfl) h)
  | err err =>
    obtain ⟨E1, s1, b1, E2, h1, h2, rfl⟩ := run_err (fun _ => rfl) h
    refine C.err (steps_hold C hok h1.steps) ?_
    cases h2 with
    | wait _ h => exact C.stop _ _ _ (verdict_wait_ne h)
    | fail h => exact C.stop _ _ _ (verdict_fail_ne h)
    | fin _ _ h => exact C.stop _ _ _ (fin_ne h)
    | last _ ht ha hf =>
      have := C.err (C.act_ok hok (verdict_last ht).2 ha) (C.stop start _ _ (fin_ne hf))
      simpa using this
    | act hm ha => exact C.act_err herr hm ha

theorem Ends.final {x opened start expand} {e : Enc} {s b E s' r}
    (h : Ends (semOf c D int x opened start expand) e false s b E s' r) :
    (s'.mode = .epilog) ∨ (start ≠ 0 ∧ s'.level = start) := by
  have hs : ∀ s, (semOf c D int x opened start expand).fin s = none → start ≠ 0 ∧ s.level = start := by
    intro s h
    simp only [semOf] at h
    split at h
    · cases h
    · split at h
      · cases h
      · exact ⟨by assumption, Classical.byContradiction fun hn => by contradiction⟩
  cases h with
  | wait h => cases h
  | fin _ _ h => exact .inr (hs _ h)
  | last _ _ _ h => exact .inr (hs _ h)
  | epilog ht =>
    left
    change (s.mode.verdict (s.mode.tok e b).tok = .stop) at ht
    revert ht
    generalize (s.mode.tok e b).tok = t
    cases s.mode <;> cases t <;> simp [Mode.verdict]
  | space ht ha =>
    left
    have hm := (verdict_actStop ht).1
    simp only [semOf, act, Prod.mk.injEq, Except.ok.injEq] at ha
    rw [← ha.2]; exact hm

theorem run_final {x opened start expand} {e : Enc} {v s b E s' r}
    (h : run (semOf c D int x opened start expand) e false v s b = (E, .ok s' r)) :
    s'.mode = .epilog ∨ start ≠ 0 ∧ s'.level = start := by
  obtain ⟨E1, s1, b1, E2, _, h2, _⟩ := run_ok (fun _ => rfl) h
  exact h2.final

theorem sem_semOf (c : Cfg) (D : Dtd) (int : XEnc) (k : Nat) (x opened start) :
    ∃ ex, sem c D int k x opened start = semOf c D int x opened start ex := by
  cases k <;> exact ⟨_, rfl⟩

/-- The principle: what composes holds of all executions, at any depth of entities, provided it allows
for the model's recursion bound being exceeded. -/
theorem sem_holds (C : Compositional c D int R F) (hd : ∀ start s, F start s [] .DIVERGED) (k : Nat) :
    ∀ x opened start e, Holds R F (sem c D int k x opened start) e start := by
  induction k with
  | zero =>
    intro x opened start e
    refine semOf_holds C (fun n u s E s' h => ?_) (fun n u s E err h => ?_) e
    · cases h
    · cases h; exact hd _ _
  | succ k ih =>
    intro x opened start e
    refine semOf_holds C (fun n u s E s' h => ?_) (fun n u s E err h => ?_) e
    · simp only [Ran.toAct] at h
      split at h
      · rename_i F s2 r hr
        cases h
        refine ⟨ih _ _ _ _ _ _ _ _ _ _ hr, ?_⟩
        obtain ⟨ex, he⟩ := sem_semOf c D int k int (n :: opened) s.level
        rw [he] at hr
        have := run_final hr
        grind
      · cases h
    · simp only [Ran.toAct] at h
      split at h
      · cases h
      · rename_i hr; cases h; exact ih _ _ _ _ _ _ _ _ _ _ hr

/-- For executions in several calls. -/
theorem feed_holds (C : Compositional c D int R F) (hd : ∀ start s, F start s [] .DIVERGED) (k : Nat)
    (x opened start) (e : Enc) (xs : List Buf) : ∀ {s rest E o},
    feed (sem c D int k x opened start) e s rest xs = (E, o) →
      match o with
      | .ok s' _ => R start s E s'
      | .err c => F start s E c := by
  induction xs with
  | nil => intro s rest E o h; exact sem_holds C hd k _ _ _ _ _ _ _ _ _ _ h
  | cons y xs ih =>
    intro s rest E o h
    cases xs with
    | nil => exact sem_holds C hd k _ _ _ _ _ _ _ _ _ _ h
    | cons z zs =>
      rw [feed] at h
      · split at h
        · rename_i F s2 q hq
          generalize hr : feed (sem c D int k x opened start) e s2 q (z :: zs) = w at h
          obtain ⟨G, o⟩ := w
          simp only [pre] at h
          injection h with h h'
          subst h h'
          have h1 := sem_holds C hd k _ _ _ _ _ _ _ _ _ _ hq
          have h2 := ih hr
          cases o with
          | ok => exact C.trans h1 h2
          | err => exact C.err h1 h2
        · rename_i F c' hq
          injection h with h h'
          subst h h'
          exact sem_holds C hd k _ _ _ _ _ _ _ _ _ _ hq
      · simp
end

/-! ### Events of the parts -/

def isStartNs : Ev → Bool
  | .startNs .. => true
  | _ => false

def isEndNs : Ev → Bool
  | .endNs .. => true
  | _ => false

theorem chain_events {α σ ε : Type} {f : σ → α → List Ev × Except ε σ} {P : Ev → Prop}
    (hf : ∀ s a, ∀ v ∈ (f s a).1, P v) (l : List α) : ∀ s, ∀ v ∈ (chain f s l).1, P v := by
  induction l with
  | nil => intro s v h; cases h
  | cons a l ih =>
    intro s v h
    rw [chain] at h
    have := hf s a
    split at h
    · rename_i h2; rw [h2] at this; exact this v h
    · rename_i h2; rw [h2] at this
      simp only [List.mem_append] at h
      rcases h with h | h
      · exact this v h
      · exact ih _ v h

theorem addBinding_events (c v bs p att uri) : ∀ w ∈ (addBinding c v bs p att uri).1, isStartNs w = true := by
  intro w h
  rw [addBinding] at h
  split at h
  · cases h
  · simp only at h
    split at h
    · simp only [List.mem_singleton] at h; subst h; rfl
    · cases h

theorem attOne_events (c D int x opened et b s a) :
    ∀ w ∈ (attOne c D int x opened et b s a).1, isStartNs w = true := by
  intro w h
  simp only [attOne] at h
  repeat' split at h
  all_goals first
    | (cases h; done)
    | (rename_i h2; have := addBinding_events c s.env s.binds _ _ _ w (by rw [h2]; exact h); exact this)

theorem defOne_events (c s d) : ∀ w ∈ (defOne c s d).1, isStartNs w = true := by
  intro w h
  rw [defOne] at h
  repeat' split at h
  all_goals first
    | (cases h; done)
    | (rename_i h2; have := addBinding_events c s.env s.binds _ _ _ w (by rw [h2]; exact h); exact this)

theorem storeAtts_events (c D int x opened flags env raw b) :
    ∀ w ∈ (storeAtts c D int x opened flags env raw b).1, isStartNs w = true := by
  intro w h
  have h1 := fun s => chain_events (P := fun w => isStartNs w = true)
    (fun s a => attOne_events c D int x opened (D.elem raw) b s a) (getAtts x.e b) s w
  have h2 := fun s => chain_events (P := fun w => isStartNs w = true)
    (fun s a => defOne_events c s a) (D.elem raw).atts s w
  have h3 : ∀ {s s' E E2 o o2}, chain (attOne c D int x opened (D.elem raw) b) s (getAtts x.e b) = (E, o) →
      chain (defOne c) s' (D.elem raw).atts = (E2, o2) → w ∈ E ++ E2 → isStartNs w = true := by
    intro s s' E E2 o o2 h3 h4 h
    rcases List.mem_append.1 h with h | h
    · exact h1 s (by rw [h3]; exact h)
    · exact h2 s' (by rw [h4]; exact h)
  rw [storeAtts] at h
  simp only at h
  split at h
  · rename_i h3; exact h1 _ (by rw [h3]; exact h)
  · repeat' split at h
    all_goals exact h3 (by assumption) (by assumption) h

theorem freeBindings_events (c : Cfg) (bs : List Binding) :
    ∀ v, ∀ w ∈ (freeBindings c v bs).1, isEndNs w = true := by
  induction bs with
  | nil => intro v w h; cases h
  | cons b bs ih =>
    intro v w h
    simp only [freeBindings, List.mem_append] at h
    rcases h with h | h
    · split at h
      · simp only [List.mem_singleton] at h; subst h; rfl
      · cases h
    · exact ih _ _ h

theorem toDefault_events (c x b) : ∀ w ∈ toDefault c x b, ∃ s, w = Ev.dflt s := by
  intro w h
  rw [toDefault] at h
  split at h
  · simp only [List.mem_map] at h
    obtain ⟨s, _, rfl⟩ := h
    exact ⟨_, rfl⟩
  · cases h

theorem toChars_events (c x ps b) : ∀ w ∈ toChars c x ps b, C04.isData w = true := by
  intro w h
  rw [toChars] at h
  split at h
  · simp only [List.mem_map] at h
    obtain ⟨s, _, rfl⟩ := h
    rfl
  · obtain ⟨s, rfl⟩ := toDefault_events _ _ _ _ h; rfl

/-! ### What a token can do -/

/-- Events which are not about elements or namespaces. -/
def plainEv : Ev → Bool
  | .startElement .. | .endElement .. | .startNs .. | .endNs .. => false
  | _ => true

theorem plain_data {w} (h : C04.isData w = true) : plainEv w = true := by
  cases w <;> simp_all [C04.isData, plainEv]
theorem plain_toDefault (c x b) : ∀ w ∈ toDefault c x b, plainEv w = true := by
  intro w h; obtain ⟨_, rfl⟩ := toDefault_events c x b w h; rfl
theorem plain_toChars (c x ps b) : ∀ w ∈ toChars c x ps b, plainEv w = true :=
  fun w h => plain_data (toChars_events c x ps b w h)
theorem plain_orDefault {c x set v b} (hv : plainEv v = true) : ∀ w ∈ orDefault c x set v b, plainEv w = true := by
  intro w h
  rw [orDefault] at h
  split at h
  · simp only [List.mem_singleton] at h; subst h; exact hv
  · exact plain_toDefault _ _ _ _ h

/-- The successful actions, sorted by their effect on the state. -/
inductive ActOk (c : Cfg) (D : Dtd) (int x : XEnc) (opened : List Buf) (start : Nat)
    (expand : Buf → Buf → CState → List Ev × Except XErr CState) (s : CState) (t : Tok) (w : Buf) :
    List Ev → CState → Prop where
  /-- text, references to characters, comments, PIs, unexpanded references, CDATA brackets -/
  | plain {E m} (h : ∀ v ∈ E, plainEv v = true)
      (hm : m = s.mode ∨ m = .cdata ∧ t = .CDATA_SECT_OPEN ∨ m = .content ∧ t = .CDATA_SECT_CLOSE)
      (hr : t = .ENTITY_REF → E = toChars c x [[predefinedEntityName x.e (refName x.e w)]] w ∧
          predefinedEntityName x.e (refName x.e w) ≠ 0 ∨
        predefinedEntityName x.e (refName x.e w) = 0 ∧ D.entity (converted x (refName x.e w)) = none ∧
          D.mustDeclare = false ∧ E = orDefault c x c.skipped (.skippedEntity (converted x (refName x.e w)) false) w ∨
        predefinedEntityName x.e (refName x.e w) = 0 ∧
          ∃ ent, D.entity (converted x (refName x.e w)) = some ent ∧ ent.notation_ = none ∧
            (ent.text ≠ none → c.expandInternal = false)) :
      ActOk c D int x opened start expand s t w E { s with mode := m }
  | expand {n u E s'} (ht : t = .ENTITY_REF) (h0 : predefinedEntityName x.e (refName x.e w) = 0)
      (hn : n = converted x (refName x.e w)) {ent : Entity} (he : D.entity n = some ent) (hu : ent.text = some u)
      (ho : n ∉ opened) (hb : ent.notation_ = none) (hx : c.expandInternal = true)
      (h : expand n u s = (E, .ok s')) : ActOk c D int x opened start expand s t w E s'
  | start {E r} (ht : t = .START_TAG_NO_ATTS ∨ t = .START_TAG_WITH_ATTS)
      (h : storeAtts c D int x opened s.flags s.env (converted x (rawName x x.e.mb w)) w = (E, .ok r)) :
      ActOk c D int x opened start expand s t w
        (E ++ orDefault c x c.startElement (.startElement (r.name.full c) r.atts r.specified r.idIndex) w)
        { s with tags := ⟨rawName x x.e.mb w, r.name, r.binds⟩ :: s.tags, level := s.level + 1, env := r.env,
                 flags := r.flags }
  | empty {E r} (ht : t = .EMPTY_ELEMENT_NO_ATTS ∨ t = .EMPTY_ELEMENT_WITH_ATTS)
      (h : storeAtts c D int x opened s.flags s.env (converted x (rawName x x.e.mb w)) w = (E, .ok r)) :
      ActOk c D int x opened start expand s t w
        (E ++ (if c.startElement then [.startElement (r.name.full c) r.atts r.specified r.idIndex] else []) ++
          (if c.endElement then [.endElement (r.name.full c)] else []) ++
          (if !c.startElement && !c.endElement then toDefault c x w else []) ++ (freeBindings c r.env r.binds).1)
        { s with env := (freeBindings c r.env r.binds).2, flags := r.flags,
                 mode := if s.level = 0 then .epilog else s.mode }
  | end_ {tag tags} (ht : t = .END_TAG) (hl : s.level ≠ start) (htags : s.tags = tag :: tags)
      (hn : rawName x (2 * x.e.mb) w = tag.rawName) :
      ActOk c D int x opened start expand s t w
        (orDefault c x c.endElement (.endElement (tag.name.full c)) w ++ (freeBindings c s.env tag.binds).1)
        { s with tags := tags, level := s.level - 1, env := (freeBindings c s.env tag.binds).2,
                 mode := if s.level - 1 = 0 then .epilog else s.mode }

theorem act_ok {c : Cfg} {D : Dtd} {int x : XEnc} {opened start expand s t w E s'}
    (h : act c D int x opened start expand s t w = (E, .ok s')) :
    ActOk c D int x opened start expand s t w E s' := by
  have same : ∀ {E' : List Ev} {o : Except XErr CState}, t ≠ .ENTITY_REF → (E', Except.ok s) = (E, o) → o = .ok s' →
      (∀ v ∈ E', plainEv v = true) → ActOk c D int x opened start expand s t w E s' := by
    intro E' o ht h1 h2 hp
    cases h1; cases h2
    exact .plain (m := s.mode) hp (.inl rfl) (fun h => absurd h ht)
  have pchars := plain_toChars c x
  have pdef := plain_toDefault c x
  cases t with
  | ENTITY_REF =>
    simp only [act, actEntityRef] at h
    split at h
    · cases h; exact .plain (m := s.mode) (pchars _ _) (.inl rfl) fun _ => .inl ⟨rfl, by assumption⟩
    · rename_i h0
      have h0 : predefinedEntityName x.e (refName x.e w) = 0 := by simpa using h0
      split at h
      · rename_i hnone
        split at h
        · cases h
        · rename_i hmd
          cases h
          exact .plain (m := s.mode) (plain_orDefault rfl) (.inl rfl)
            fun _ => .inr (.inl ⟨h0, hnone, by simpa using hmd, rfl⟩)
      · rename_i ent he
        split at h
        · cases h
        · split at h
          · cases h
          · rename_i ho
            split at h
            · cases h
            · rename_i hb
              have hb : ent.notation_ = none := by simpa using hb
              split at h
              · rename_i u hu
                split at h
                · rename_i hx
                  cases h
                  exact .plain (m := s.mode) (plain_orDefault rfl) (.inl rfl)
                    fun _ => .inr (.inr ⟨h0, _, he, hb, fun _ => by simpa using hx⟩)
                · rename_i hx
                  exact .expand rfl h0 rfl he hu ho hb (by simpa using hx) h
              · rename_i hu
                have hr : c.externalRef = true ∨ c.externalRef = false := by cases c.externalRef <;> simp
                rcases hr with hr | hr <;> simp only [hr, if_true, Bool.false_eq_true, if_false] at h
                · split at h
                  · cases h
                    exact .plain (m := s.mode) (by simp [plainEv]) (.inl rfl)
                      fun _ => .inr (.inr ⟨h0, _, he, hb, fun h => absurd hu h⟩)
                  · cases h
                · cases h
                  exact .plain (m := s.mode) (pdef _) (.inl rfl)
                    fun _ => .inr (.inr ⟨h0, _, he, hb, fun h => absurd hu h⟩)
  | START_TAG_NO_ATTS | START_TAG_WITH_ATTS =>
    simp only [act, actStart] at h
    split at h
    · cases h
    · cases h; exact .start (by simp) (by assumption)
  | EMPTY_ELEMENT_NO_ATTS | EMPTY_ELEMENT_WITH_ATTS =>
    simp only [act, actEmpty] at h
    split at h
    · cases h
    · cases h; exact .empty (by simp) (by assumption)
  | END_TAG =>
    simp only [act, actEnd] at h
    split at h
    · cases h
    · split at h
      · cases h
      · split at h
        · cases h
        · rename_i hne
          cases h
          exact .end_ rfl (by assumption) (by assumption) (by simpa using hne)
  | CHAR_REF =>
    simp only [act] at h
    split at h
    · cases h
    · exact same (by simp) h rfl (pchars _ _)
  | XML_DECL => cases h
  | DATA_NEWLINE | DATA_CHARS => exact same (by simp) h rfl (pchars _ _)
  | CDATA_SECT_OPEN => cases h; exact .plain (plain_orDefault rfl) (.inr (.inl ⟨rfl, rfl⟩)) (by simp)
  | CDATA_SECT_CLOSE => cases h; exact .plain (plain_orDefault rfl) (.inr (.inr ⟨rfl, rfl⟩)) (by simp)
  | PI =>
    simp only [act] at h
    split at h
    · split at h
      · exact same (by simp) h rfl (by simp [plainEv])
      · cases h
    · exact same (by simp) h rfl (pdef _)
  | COMMENT =>
    simp only [act] at h
    split at h
    · split at h
      · exact same (by simp) h rfl (by simp [plainEv])
      · cases h
    · exact same (by simp) h rfl (pdef _)
  | _ => exact same (by simp) h rfl (pdef _)

/-- The events of an action that fails. -/
inductive ActErr (c : Cfg) (D : Dtd) (int x : XEnc) (opened : List Buf)
    (expand : Buf → Buf → CState → List Ev × Except XErr CState) (s : CState) (w : Buf) :
    List Ev → XErr → Prop where
  | plain {E err} (h : ∀ v ∈ E, plainEv v = true) (he : err ≠ .DIVERGED) : ActErr c D int x opened expand s w E err
  | expand {n u E err} (ho : n ∉ opened) (he : ∃ ent, D.entity n = some ent ∧ ent.text = some u)
      (h : expand n u s = (E, .error err)) : ActErr c D int x opened expand s w E err
  | start {E err bs}
      (h : storeAtts c D int x opened s.flags s.env (converted x (rawName x x.e.mb w)) w = (E, .error (err, bs))) :
      ActErr c D int x opened expand s w E err
  | empty {E err bs}
      (h : storeAtts c D int x opened s.flags s.env (converted x (rawName x x.e.mb w)) w = (E, .error (err, bs))) :
      ActErr c D int x opened expand s w (E ++ (freeBindings c s.env bs).1) err

theorem act_err {c : Cfg} {D : Dtd} {int x : XEnc} {opened start expand s t w E err}
    (h : act c D int x opened start expand s t w = (E, .error err)) : ActErr c D int x opened expand s w E err := by
  cases t with
  | ENTITY_REF =>
    simp only [act, actEntityRef] at h
    split at h
    · cases h
    · split at h
      · split at h <;> cases h
        exact .plain (by simp) (by simp)
      · split at h
        · cases h; exact .plain (by simp) (by simp)
        · split at h
          · cases h; exact .plain (by simp) (by simp)
          · split at h
            · cases h; exact .plain (by simp) (by simp)
            · split at h
              · split at h
                · cases h
                · exact .expand (by assumption) ⟨_, by assumption, by assumption⟩ h
              · have hr : c.externalRef = true ∨ c.externalRef = false := by cases c.externalRef <;> simp
                rcases hr with hr | hr <;> simp only [hr, if_true, Bool.false_eq_true, if_false] at h
                · split at h <;> cases h
                  exact .plain (by simp [plainEv]) (by simp)
                · cases h
  | START_TAG_NO_ATTS | START_TAG_WITH_ATTS =>
    simp only [act, actStart] at h
    split at h <;> cases h
    exact .start (by assumption)
  | EMPTY_ELEMENT_NO_ATTS | EMPTY_ELEMENT_WITH_ATTS =>
    simp only [act, actEmpty] at h
    split at h <;> cases h
    exact .empty (by assumption)
  | END_TAG =>
    simp only [act, actEnd] at h
    repeat' split at h
    all_goals cases h
    all_goals exact .plain (by simp) (by simp)
  | CHAR_REF =>
    simp only [act] at h
    split at h <;> cases h
    exact .plain (by simp) (by simp)
  | XML_DECL => cases h; exact .plain (by simp) (by simp)
  | PI =>
    simp only [act] at h
    repeat' split at h
    all_goals cases h
    exact .plain (by simp) (by simp)
  | COMMENT =>
    simp only [act] at h
    repeat' split at h
    all_goals cases h
    exact .plain (by simp) (by simp)
  | _ => cases h

end Verif
