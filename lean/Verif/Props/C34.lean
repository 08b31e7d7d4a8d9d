import Verif.Props.C29

/-! # C34: recursive entities are detected and expansion terminates

The model bounds the depth of entity expansion by a number (`fuel`), the code does not.  Shown here, for
any set of entity definitions: the bound is never reached, so the functions of the model satisfy the
unbounded recursive equations of the code (`attr_recursion`, `content_recursion`) and never report its
exhaustion (`attr_terminates`, `content_terminates`).  Hence expansion as the code does it terminates.
And text is only accepted if no chain of references starting in it is infinite (`attr_acyclic`,
`content_acyclic`). -/

namespace Verif.C34
open C43 Verif

/-! ### Specification: which entities a text refers to -/

/-- An attribute value literal cites the entity `m`: one of its tokens is a reference to it. -/
inductive CitesA (x : XEnc) : Buf → Buf → Prop where
  | here {b n} (h : attributeValueTok x.e b = ⟨.ENTITY_REF, n⟩)
      (hp : predefinedEntityName x.e (refName x.e (b.take n)) = 0) : CitesA x b (converted x (refName x.e (b.take n)))
  | next {b t n m} (h : attributeValueTok x.e b = ⟨t, n⟩) (hn : t ≠ .NONE) (ht : t ≠ .TRAILING_CR)
      (hc : CitesA x (b.drop n) m) : CitesA x b m

/-- Content cites the entity `m`; in CDATA sections there are no references. -/
inductive Cites (x : XEnc) : Mode → Buf → Buf → Prop where
  | here {b n} (h : contentTok x.e b = ⟨.ENTITY_REF, n⟩)
      (hp : predefinedEntityName x.e (refName x.e (b.take n)) = 0) :
      Cites x .content b (converted x (refName x.e (b.take n)))
  | next {md b t n m} (h : md.tok x.e b = ⟨t, n⟩) (hv : md.verdict t = .act)
      (hc : Cites x (if t = .CDATA_SECT_OPEN then .cdata else if t = .CDATA_SECT_CLOSE then .content else md) (b.drop n) m) :
      Cites x md b m

/-- The text of entity `n` cites `m`, in an attribute value or in content. -/
def LeadsA (D : Dtd) (int : XEnc) (m n : Buf) : Prop :=
  ∃ ent t, D.entity n = some ent ∧ ent.text = some t ∧ CitesA int t m
def Leads (D : Dtd) (int : XEnc) (m n : Buf) : Prop :=
  ∃ ent t, D.entity n = some ent ∧ ent.text = some t ∧ Cites int .content t m

/-! ### The bound -/

/-- Number of entities that are not being expanded. -/
def avail (D : Dtd) (opened : List Buf) : Nat := D.ents.countP (fun p => decide (p.1 ∉ opened))

theorem avail_le (D : Dtd) (opened) : avail D opened ≤ D.fuel := List.countP_le_length

theorem avail_lt {D : Dtd} {opened n ent} (h : D.entity n = some ent) (ho : n ∉ opened) :
    avail D (n :: opened) < avail D opened := by
  have hm : ∃ p ∈ D.ents, p.1 = n := by
    rw [Dtd.entity] at h
    cases hf : D.ents.find? (·.1 = n) with
    | none => rw [hf] at h; cases h
    | some p => exact ⟨p, List.mem_of_find?_eq_some hf, by simpa using List.find?_some hf⟩
  unfold avail
  generalize D.ents = l at hm
  induction l with
  | nil => obtain ⟨p, h, _⟩ := hm; cases h
  | cons q l ih =>
    have hmono : ∀ l : List (Buf × Entity), l.countP (fun p => decide (p.1 ∉ n :: opened)) ≤
        l.countP (fun p => decide (p.1 ∉ opened)) := by
      intro l
      apply List.countP_mono_left
      intro p _ h
      simp only [List.mem_cons, not_or, decide_eq_true_eq] at h ⊢
      exact h.2
    rw [List.countP_cons, List.countP_cons]
    by_cases hq : q.1 = n
    · have := hmono l
      rw [if_neg (by simp [hq]), if_pos (by simpa [hq] using ho)]
      omega
    · have hm' : ∃ p ∈ l, p.1 = n := by
        obtain ⟨p, h, hp⟩ := hm
        rcases List.mem_cons.1 h with rfl | h
        · exact absurd hp hq
        · exact ⟨p, h, hp⟩
      have := ih hm'
      by_cases hqo : q.1 ∈ opened
      · rw [if_neg (by simp [hqo]), if_neg (by simp [hqo])]; omega
      · rw [if_pos (by simp [hqo, hq]), if_pos (by simp [hqo])]; omega

/-! ### Attribute values -/

theorem attrStep_congr {D : Dtd} {check x isCdata opened} {ex ex' : Buf → Buf → Buf → Except XErr Buf}
    (h : ∀ n p t ent, D.entity n = some ent → n ∉ opened → ex n p t = ex' n p t) (pool b) :
    attrStep D check x isCdata ex opened pool b = attrStep D check x isCdata ex' opened pool b := by
  unfold attrStep
  simp only
  cases (attributeValueTok x.e b).tok <;> try rfl
  simp only
  split
  · rfl
  · split
    · rfl
    · split
      · rfl
      · split
        · rfl
        · split
          · rfl
          · split
            · rfl
            · rw [h _ _ _ _ (by assumption) (by assumption)]

theorem attrStep_done {D : Dtd} {check x isCdata opened ex pool b}
    (h : attrStep D check x isCdata ex opened pool b = .done) : (attributeValueTok x.e b).tok = .NONE := by
  unfold attrStep at h
  simp only at h
  generalize (attributeValueTok x.e b).tok = t at *
  cases t <;> simp only at h <;> first | rfl | (repeat' split at h) <;> cases h

theorem attrStep_next {D : Dtd} {check x isCdata opened ex pool b k p}
    (h : attrStep D check x isCdata ex opened pool b = .next k p) (ht : (attributeValueTok x.e b).tok ≠ .TRAILING_CR) :
    k = (attributeValueTok x.e b).next := by
  unfold attrStep at h
  simp only at h
  generalize (attributeValueTok x.e b).tok = t at *
  cases t <;> simp only at h <;> first | exact absurd rfl ht | (repeat' split at h) <;> cases h <;> rfl

theorem attrStep_ref {D : Dtd} {check x isCdata opened} {ex : Buf → Buf → Buf → Except XErr Buf} {pool b k p}
    (h : attrStep D check x isCdata ex opened pool b = .next k p) (ht : (attributeValueTok x.e b).tok = .ENTITY_REF)
    (hp : predefinedEntityName x.e (refName x.e (b.take (attributeValueTok x.e b).next)) = 0) :
    D.entity (converted x (refName x.e (b.take (attributeValueTok x.e b).next))) = none ∨
    ∃ ent u, D.entity (converted x (refName x.e (b.take (attributeValueTok x.e b).next))) = some ent ∧ ent.text = some u ∧
      converted x (refName x.e (b.take (attributeValueTok x.e b).next)) ∉ opened ∧
      ex (converted x (refName x.e (b.take (attributeValueTok x.e b).next))) pool u = .ok p := by
  unfold attrStep at h
  simp only [ht, hp, ne_eq, not_true_eq_false, if_false] at h
  split at h
  · left; assumption
  · right
    repeat' split at h
    all_goals try (cases h; done)
    cases h
    exact ⟨_, _, by assumption, by assumption, by assumption, by assumption⟩

theorem attrLoop_congr {D : Dtd} {check x isCdata opened} {ex ex' : Buf → Buf → Buf → Except XErr Buf}
    (h : ∀ n p t ent, D.entity n = some ent → n ∉ opened → ex n p t = ex' n p t) (n : Nat) :
    ∀ b, b.length = n → ∀ pool,
    attrLoop D check x isCdata ex opened pool b = attrLoop D check x isCdata ex' opened pool b := by
  induction n using Nat.strongRecOn with
  | _ n ih =>
    intro b hb pool
    rw [attrLoop.eq_def, attrLoop.eq_def D check x isCdata ex', attrStep_congr h]
    split
    · rfl
    · rfl
    · split
      · exact ih _ (by omega) _ rfl _
      · rfl

theorem attr_fuel (D : Dtd) (check int isCdata) (k : Nat) : ∀ k' x opened pool b, avail D opened ≤ k →
    avail D opened ≤ k' →
    appendAttributeValue D check int isCdata k x opened pool b = appendAttributeValue D check int isCdata k' x opened pool b := by
  induction k with
  | zero =>
    intro k' x opened pool b h h'
    cases k' with
    | zero => rfl
    | succ k' =>
      rw [appendAttributeValue, appendAttributeValue]
      refine attrLoop_congr (fun n p t ent he ho => ?_) _ _ rfl _
      have := avail_lt he ho
      omega
  | succ k ih =>
    intro k' x opened pool b h h'
    cases k' with
    | zero =>
      rw [appendAttributeValue, appendAttributeValue]
      refine attrLoop_congr (fun n p t ent he ho => ?_) _ _ rfl _
      have := avail_lt he ho
      omega
    | succ k' =>
      rw [appendAttributeValue, appendAttributeValue]
      refine attrLoop_congr (fun n p t ent he ho => ?_) _ _ rfl _
      have := avail_lt he ho
      exact ih _ _ _ _ _ (by omega) (by omega)

theorem attrLoop_terminates {D : Dtd} {check x isCdata opened} {ex : Buf → Buf → Buf → Except XErr Buf}
    (h : ∀ n p t ent, D.entity n = some ent → n ∉ opened → ex n p t ≠ .error .DIVERGED) (n : Nat) :
    ∀ b, b.length = n → ∀ pool, attrLoop D check x isCdata ex opened pool b ≠ .error .DIVERGED := by
  induction n using Nat.strongRecOn with
  | _ n ih =>
    intro b hb pool
    rw [attrLoop.eq_def]
    split
    · simp
    · rename_i c hc
      intro hd
      injection hd with hd
      subst hd
      revert hc
      unfold attrStep
      simp only
      repeat' split
      all_goals try (simp; done)
      rename_i hx
      intro hc
      injection hc with hc
      subst hc
      exact h _ _ _ _ (by assumption) (by assumption) hx
    · split
      · exact ih _ (by omega) _ rfl _
      · simp

theorem attr_terminates_fuel (D : Dtd) (check int isCdata) (k : Nat) : ∀ x opened pool b, avail D opened ≤ k →
    appendAttributeValue D check int isCdata k x opened pool b ≠ .error .DIVERGED := by
  induction k with
  | zero =>
    intro x opened pool b h
    rw [appendAttributeValue]
    refine attrLoop_terminates (fun n p t ent he ho => ?_) _ _ rfl _
    have := avail_lt he ho
    omega
  | succ k ih =>
    intro x opened pool b h
    rw [appendAttributeValue]
    refine attrLoop_terminates (fun n p t ent he ho => ?_) _ _ rfl _
    have := avail_lt he ho
    exact ih _ _ _ _ (by omega)

/-! ### Content -/

theorem act_congr {c : Cfg} {D : Dtd} {int x opened start}
    {ex ex' : Buf → Buf → CState → List Ev × Except XErr CState}
    (h : ∀ n t s ent, D.entity n = some ent → n ∉ opened → ex n t s = ex' n t s) :
    semOf c D int x opened start ex = semOf c D int x opened start ex' := by
  have : act c D int x opened start ex = act c D int x opened start ex' := by
    funext s t w
    cases t <;> try rfl
    simp only [act, actEntityRef]
    split
    · rfl
    · split
      · rfl
      · split
        · rfl
        · split
          · rfl
          · split
            · rfl
            · split
              · split
                · rfl
                · exact h _ _ _ _ (by assumption) (by assumption)
              · rfl
  simp only [semOf, this]

theorem sem_fuel (c : Cfg) (D : Dtd) (int) (k : Nat) : ∀ k' x opened start, avail D opened ≤ k → avail D opened ≤ k' →
    sem c D int k x opened start = sem c D int k' x opened start := by
  induction k with
  | zero =>
    intro k' x opened start h h'
    cases k' with
    | zero => rfl
    | succ k' =>
      rw [sem, sem]
      refine act_congr fun n t s ent he ho => ?_
      have := avail_lt he ho
      omega
  | succ k ih =>
    intro k' x opened start h h'
    cases k' with
    | zero =>
      rw [sem, sem]
      refine act_congr fun n t s ent he ho => ?_
      have := avail_lt he ho
      omega
    | succ k' =>
      rw [sem, sem]
      refine act_congr fun n t s ent he ho => ?_
      have := avail_lt he ho
      rw [ih k' int (n :: opened) s.level (by omega) (by omega)]

theorem store_ne (D : Dtd) (check int x isCdata opened b) :
    storeAttributeValue D check int x isCdata opened b ≠ .error .DIVERGED := by
  rw [storeAttributeValue]
  split
  · rename_i h
    intro hd
    injection hd with hd
    subst hd
    exact attr_terminates_fuel D check int isCdata D.fuel x opened [] b (avail_le D opened) h
  · simp

theorem bindingError_ne (p uri) : bindingError p uri ≠ some .DIVERGED := by
  unfold bindingError
  split
  · simp
  · split
    · simp
    · simp only
      split
      · split <;> simp
      · split <;> simp

theorem chain_error {α σ ε : Type} {f : σ → α → List Ev × Except ε σ} {P : ε → Prop}
    (hf : ∀ s a E e, f s a = (E, .error e) → P e) (l : List α) : ∀ s E e, chain f s l = (E, .error e) → P e := by
  induction l with
  | nil => intro s E e h; cases h
  | cons a l ih =>
    intro s E e h
    rw [chain] at h
    split at h
    · cases h; exact hf _ _ _ _ (by assumption)
    · rename_i s' _
      simp only [Prod.mk.injEq] at h
      exact ih s' _ e (Prod.ext rfl h.2)

theorem addBinding_ne {c v bs p att uri E e} (h : addBinding c v bs p att uri = (E, .error e)) : e ≠ .DIVERGED := by
  rw [addBinding] at h
  split at h
  · rename_i hb
    cases h
    intro hd
    subst hd
    exact bindingError_ne _ _ hb
  · cases h

theorem expandNames_ne (c : Cfg) (env : Env) (l : List (Buf × Buf)) : ∀ n f seen,
    expandNames c env n f seen l ≠ .error .DIVERGED := by
  induction l with
  | nil => intro n f seen; simp [expandNames]
  | cons a l ih =>
    intro n f seen
    obtain ⟨name, v⟩ := a
    rw [expandNames]
    simp only
    repeat' split
    all_goals try (simp; done)
    all_goals
      rename_i h
      intro hd
      injection hd with hd
      subst hd
      exact ih _ _ _ h

theorem storeAtts_ne {c : Cfg} {D int x opened flags env raw b E e bs}
    (h : storeAtts c D int x opened flags env raw b = (E, .error (e, bs))) : e ≠ .DIVERGED := by
  rw [storeAtts] at h
  simp only at h
  split at h
  · rename_i h1
    cases h
    refine chain_error (P := fun e => e.1 ≠ .DIVERGED) (fun s a E e he => ?_) _ _ _ _ h1
    simp only [attOne] at he
    split at he
    · cases he; simp
    · split at he
      · rename_i hv
        cases he
        intro hd
        simp only at hd
        subst hd
        rw [attValue] at hv
        split at hv
        · exact store_ne _ _ _ _ _ _ _ hv
        · cases hv
      · split at he
        · cases he
        · cases he
        · split at he
          · rename_i hb; cases he; exact addBinding_ne hb
          · cases he
  · split at h
    · rename_i h1
      cases h
      refine chain_error (P := fun e => e.1 ≠ .DIVERGED) (fun s a E e he => ?_) _ _ _ _ h1
      simp only [defOne] at he
      repeat' split at he
      all_goals try (cases he; done)
      rename_i hb; cases he; exact addBinding_ne hb
    · split at h
      · rename_i hn
        cases h
        intro hd
        subst hd
        exact expandNames_ne _ _ _ _ _ _ hn
      · split at h
        · rename_i hn
          cases h
          intro hd
          subst hd
          unfold elemName at hn
          repeat' split at hn
          all_goals cases hn
        · cases h

theorem semOf_terminates {c : Cfg} {D : Dtd} {int x opened start}
    {ex : Buf → Buf → CState → List Ev × Except XErr CState}
    (h : ∀ n t s E ent, D.entity n = some ent → n ∉ opened → ex n t s ≠ (E, .error .DIVERGED)) {e more v s b E} :
    run (semOf c D int x opened start ex) e more v s b ≠ (E, .err .DIVERGED) := by
  intro hr
  obtain ⟨E1, s1, b1, E2, h1, h2, rfl⟩ := run_err (fun _ => rfl) hr
  generalize hc : XErr.DIVERGED = err at h2
  cases h2 with
  | wait _ h => exact verdict_wait_ne h hc.symm
  | fail h => exact verdict_fail_ne h hc.symm
  | fin _ _ h => exact fin_ne h hc.symm
  | last _ ht ha hf => exact fin_ne hf hc.symm
  | act hm ha =>
    subst hc
    cases act_err ha with
    | plain _ h => exact h rfl
    | expand ho he h' => obtain ⟨ent, he, _⟩ := he; exact h _ _ _ _ _ he ho h'
    | start h => exact storeAtts_ne h rfl
    | empty h => exact storeAtts_ne h rfl

theorem sem_terminates (c : Cfg) (D : Dtd) (int) (k : Nat) : ∀ x opened start, avail D opened ≤ k →
    ∀ e more v s b E, run (sem c D int k x opened start) e more v s b ≠ (E, .err .DIVERGED) := by
  induction k with
  | zero =>
    intro x opened start h e more v s b E
    refine semOf_terminates fun n t s E ent he ho => ?_
    have := avail_lt he ho
    omega
  | succ k ih =>
    intro x opened start h e more v s b E
    refine semOf_terminates fun n t s E ent he ho hr => ?_
    have := avail_lt he ho
    simp only [Ran.toAct] at hr
    split at hr
    · cases hr
    · rename_i hrun; cases hr
      exact ih int (n :: opened) s.level (by omega) _ _ _ _ _ _ hrun

/-! ### Acyclicity -/

theorem loop_acyclic {D : Dtd} {check x isCdata opened} {ex : Buf → Buf → Buf → Except XErr Buf} {P : Buf → Prop}
    (h : ∀ n p t ent q, D.entity n = some ent → ent.text = some t → n ∉ opened → ex n p t = .ok q → P n)
    (hu : ∀ n, D.entity n = none → P n) {b m} (hc : CitesA x b m) : ∀ {pool q},
    attrLoop D check x isCdata ex opened pool b = .ok q → P m := by
  induction hc with
  | @here b n ht hp =>
    intro pool q hq
    rw [attrLoop.eq_def] at hq
    split at hq
    · rename_i h1
      have := attrStep_done h1
      rw [ht] at this; cases this
    · cases hq
    · rename_i h1
      have := attrStep_ref h1 (by rw [ht]) (by rw [ht]; exact hp)
      rw [ht] at this
      rcases this with h2 | ⟨ent, u, h2, h3, h4, h5⟩
      · exact hu _ h2
      · exact h _ _ _ _ _ h2 h3 h4 h5
  | @next b t n m ht hn htr _ ih =>
    intro pool q hq
    rw [attrLoop.eq_def] at hq
    split at hq
    · rename_i h1
      have := attrStep_done h1
      rw [ht] at this; exact absurd this hn
    · cases hq
    · rename_i h1
      have := attrStep_next h1 (by rw [ht]; exact htr)
      rw [ht] at this
      simp only at this
      subst this
      split at hq
      · exact ih hq
      · cases hq

theorem attr_acc (D : Dtd) (check int isCdata) (k : Nat) : ∀ x opened pool b q, 
    appendAttributeValue D check int isCdata k x opened pool b = .ok q → ∀ m, CitesA x b m → Acc (LeadsA D int) m := by
  have hu : ∀ n, D.entity n = none → Acc (LeadsA D int) n := by
    intro n h
    constructor
    rintro m ⟨ent, t, h1, _⟩
    rw [h] at h1; cases h1
  induction k with
  | zero =>
    intro x opened pool b q h m hm
    rw [appendAttributeValue] at h
    exact loop_acyclic (fun n p t ent q he ht ho hx => by cases hx) hu hm h
  | succ k ih =>
    intro x opened pool b q h m hm
    rw [appendAttributeValue] at h
    refine loop_acyclic (fun n p t ent q he ht ho hx => ?_) hu hm h
    constructor
    rintro m ⟨ent', t', h1, h2, h3⟩
    rw [he] at h1; cases h1
    rw [ht] at h2; cases h2
    exact ih _ _ _ _ _ hx _ h3

/-- What expanding an entity does to mode and level. -/
def Nice (start : Nat) (ex : Buf → Buf → CState → List Ev × Except XErr CState) : Prop :=
  ∀ n u s E s', s.mode = .content → start ≤ s.level → ex n u s = (E, .ok s') → s'.mode = .content ∧ s'.level = s.level

/-- The mode after a token, inside the root element. -/
theorem act_mode {c : Cfg} {D int x opened start ex s t w E s'} (hs : start ≠ 0) (hl : start ≤ s.level)
    (hx : Nice start ex) (hv : s.mode.verdict t = .act)
    (h : act c D int x opened start ex s t w = (E, .ok s')) :
    s'.mode = (if t = .CDATA_SECT_OPEN then .cdata else if t = .CDATA_SECT_CLOSE then .content else s.mode) ∧
      start ≤ s'.level := by
  by_cases h1 : t = .CDATA_SECT_OPEN
  · subst h1; cases h; exact ⟨rfl, hl⟩
  by_cases h2 : t = .CDATA_SECT_CLOSE
  · subst h2; cases h; exact ⟨rfl, hl⟩
  rw [if_neg h1, if_neg h2]
  cases act_ok h with
  | plain _ hm =>
    refine ⟨?_, hl⟩
    rcases hm with hm | ⟨_, hm⟩ | ⟨_, hm⟩
    · exact hm
    · exact absurd hm h1
    · exact absurd hm h2
  | expand ht _ hn he hu ho _ _ h5 =>
    subst ht
    have hm : s.mode = .content := by
      revert hv; cases s.mode <;> simp [Mode.verdict]
    obtain ⟨h3, h4⟩ := hx _ _ _ _ _ hm hl h5
    exact ⟨by rw [h3, hm], by omega⟩
  | start => exact ⟨rfl, by simp only; omega⟩
  | empty => exact ⟨if_neg (by omega), hl⟩
  | end_ ht hl' => exact ⟨if_neg (by omega), by simp only; omega⟩

theorem lexed_mode {c : Cfg} {D int x opened start ex e s b E s' b'} (hs : start ≠ 0) (hx : Nice start ex)
    (h : Lexed (semOf c D int x opened start ex) e s b E s' b') (hm : s.mode ≠ .epilog) (hl : start ≤ s.level) :
    s'.mode ≠ .epilog ∧ start ≤ s'.level := by
  induction h with
  | nil => exact ⟨hm, hl⟩
  | cons _ hv ha _ ih =>
    obtain ⟨h1, h2⟩ := act_mode hs hl hx hv ha
    refine ih ?_ h2
    rw [h1]
    split
    · simp
    · split
      · simp
      · exact hm

theorem inner_final {c : Cfg} {D int x opened start ex e v s b E s' r} (hs : start ≠ 0) (hx : Nice start ex)
    (hm : s.mode ≠ .epilog) (hl : start ≤ s.level)
    (h : run (semOf c D int x opened start ex) e false v s b = (E, .ok s' r)) :
    s'.mode = .content ∧ s'.level = start := by
  have hf := run_final h
  obtain ⟨E1, s1, b1, E2, h1, h2, _⟩ := run_ok (fun _ => rfl) h
  obtain ⟨h3, h4⟩ := lexed_mode hs hx h1 hm hl
  have hc : s'.mode = .content := by
    cases h2 with
    | wait h => cases h
    | fin _ ht _ =>
      change s'.mode.verdict (s'.mode.tok e r).tok = .done at ht
      revert ht
      generalize (s'.mode.tok e r).tok = t
      cases s'.mode <;> cases t <;> simp [Mode.verdict]
    | last _ ht ha _ =>
      have hcm := (verdict_last ht).1
      have := (act_mode hs h4 hx (verdict_last ht).2 ha).1
      rw [this]
      split
      · rename_i hb; subst hb; exact absurd ht (by
          generalize ((semOf c D int x opened start ex).mode s1) = m
          generalize (m.tok e b1).tok = t
          cases m <;> cases t <;> simp [Mode.verdict])
      · split
        · rfl
        · exact hcm
    | epilog ht =>
      change s'.mode.verdict (s'.mode.tok e r).tok = .stop at ht
      revert ht h3
      generalize (s'.mode.tok e r).tok = t
      cases s'.mode <;> cases t <;> simp [Mode.verdict]
    | space ht _ => exact absurd (verdict_actStop ht).1 h3
  refine ⟨hc, ?_⟩
  rcases hf with hf | hf
  · rw [hc] at hf; cases hf
  · exact hf.2

theorem sem_nice (c : Cfg) (D : Dtd) (int) (k : Nat) : ∀ opened start, start ≠ 0 →
    Nice start fun n t s => Ran.toAct (run (sem c D int k int (n :: opened) s.level) int.e false false s t) := by
  induction k with
  | zero =>
    intro opened start hs n u s E s' hm hl h
    simp only [Ran.toAct] at h
    split at h
    · rename_i hr
      cases h
      exact inner_final (by omega) (by intro _ _ _ _ _ _ _ h; cases h) (by rw [hm]; simp) (Nat.le_refl _) hr
    · cases h
  | succ k ih =>
    intro opened start hs n u s E s' hm hl h
    simp only [Ran.toAct] at h
    split at h
    · rename_i hr
      cases h
      exact inner_final (by omega) (ih _ _ (by omega)) (by rw [hm]; simp) (Nat.le_refl _) hr
    · cases h

/-- One token of a successful run. -/
theorem run_step {σ : Type} {M : Sem σ} {e : Enc} (go : ∀ s, M.stop s = .go) {more v s b E s' r}
    (h : run M e more v s b = (E, .ok s' r)) (hv : (M.mode s).verdict ((M.mode s).tok e b).tok = .act) :
    ∃ E1 s1 E2, M.act s ((M.mode s).tok e b).tok (b.take ((M.mode s).tok e b).next) = (E1, .ok s1) ∧
      (∃ v', run M e more v' s1 (b.drop ((M.mode s).tok e b).next) = (E2, .ok s' r)) ∧ E = E1 ++ E2 := by
  rw [C04.run_go go] at h
  simp only [hv] at h
  split at h
  · cases h
  · rename_i E1 s1 ha
    have hp := verdict_progress hv
    split at h <;> first | contradiction | skip
    all_goals
      generalize hr : run M e more _ s1 (b.drop ((M.mode s).tok e b).next) = w at h
      obtain ⟨E2, o⟩ := w
      simp only [pre, Prod.mk.injEq] at h
      exact ⟨E1, s1, E2, ha, ⟨_, by rw [hr, h.2]⟩, h.1.symm⟩

theorem run_acyclic {c : Cfg} {D : Dtd} {int x opened start ex} {P : Buf → Prop} (hs : start ≠ 0) (hx : Nice start ex)
    (hi : c.expandInternal = true)
    (h : ∀ n t s E s' ent, D.entity n = some ent → ent.text = some t → n ∉ opened → s.mode = .content → start ≤ s.level →
      ex n t s = (E, .ok s') → P n)
    (hu : ∀ n, (∀ ent t, D.entity n = some ent → ent.text ≠ some t) → P n) {md b m} (hc : Cites x md b m) :
    ∀ {v s E s' r}, s.mode = md → start ≤ s.level →
    run (semOf c D int x opened start ex) x.e false v s b = (E, .ok s' r) → P m := by
  induction hc with
  | @here b n ht hp =>
    intro v s E s' r hm hl hr
    have htok : ((semOf c D int x opened start ex).mode s).tok x.e b = ⟨.ENTITY_REF, n⟩ := by
      change s.mode.tok x.e b = _
      rw [hm]; exact ht
    obtain ⟨E1, s1, E2, ha, _⟩ := run_step (fun _ => rfl) hr (by
      rw [htok]; change s.mode.verdict _ = _; rw [hm]; rfl)
    rw [htok] at ha
    change act c D int x opened start ex s .ENTITY_REF (b.take n) = _ at ha
    cases act_ok ha with
    | plain _ _ hr =>
      rcases hr rfl with ⟨_, h1⟩ | ⟨_, h1, _⟩ | ⟨_, ent, h1, _, h2⟩
      · exact absurd hp h1
      · exact hu _ fun ent t he => by rw [h1] at he; cases he
      · refine hu _ fun ent' t he ht' => ?_
        rw [h1] at he; cases he
        have := h2 (by rw [ht']; simp)
        rw [hi] at this; cases this
    | expand _ _ hn he hu' ho _ _ h' => subst hn; exact h _ _ _ _ _ _ he hu' ho hm hl h'
    | start ht => rcases ht with ht | ht <;> cases ht
    | empty ht => rcases ht with ht | ht <;> cases ht
    | end_ ht => cases ht
  | @next md b t n m ht hv _ ih =>
    intro v s E s' r hm hl hr
    have htok : ((semOf c D int x opened start ex).mode s).tok x.e b = ⟨t, n⟩ := by
      change s.mode.tok x.e b = _
      rw [hm]; exact ht
    have hv' : s.mode.verdict t = .act := by rw [hm]; exact hv
    obtain ⟨E1, s1, E2, ha, ⟨v', hr'⟩, _⟩ := run_step (fun _ => rfl) hr (by
      rw [htok]; exact hv')
    rw [htok] at ha hr'
    obtain ⟨h1, h2⟩ := act_mode hs hl hx hv' ha
    exact ih (by rw [h1, hm]) h2 hr'

theorem sem_acc (c : Cfg) (D : Dtd) (int) (hi : c.expandInternal = true) (k : Nat) : ∀ x opened start v s b E s' r,
    start ≠ 0 → start ≤ s.level →
    run (sem c D int k x opened start) x.e false v s b = (E, .ok s' r) → ∀ m, Cites x s.mode b m →
    Acc (Leads D int) m := by
  have hu : ∀ n, (∀ ent t, D.entity n = some ent → ent.text ≠ some t) → Acc (Leads D int) n := by
    intro n h
    constructor
    rintro m ⟨ent, t, h1, h2, _⟩
    exact absurd h2 (h _ _ h1)
  induction k with
  | zero =>
    intro x opened start v s b E s' r hs hl h m hm
    exact run_acyclic hs (by intro _ _ _ _ _ _ _ h; cases h) hi (by intro _ _ _ _ _ _ _ _ _ _ _ h; cases h) hu hm rfl hl h
  | succ k ih =>
    intro x opened start v s b E s' r hs hl h m hm
    refine run_acyclic hs (sem_nice c D int k opened start hs) hi ?_ hu hm rfl hl h
    intro n t s E s' ent he ht _ hmode hl h
    simp only [Ran.toAct] at h
    split at h
    · rename_i hr
      constructor
      rintro m ⟨ent', t', h1, h2, h3⟩
      rw [he] at h1; cases h1
      rw [ht] at h2; cases h2
      exact ih _ _ _ _ _ _ _ _ _ (by omega) (Nat.le_refl _) hr m (by rw [hmode]; exact h3)
    · cases h

/-! ### Theorems -/

/-- The value of an attribute literal as the model computes it (`storeAttributeValue`). -/
def attr (D : Dtd) (check : Bool) (int : XEnc) (isCdata : Bool) (x : XEnc) (opened : List Buf) (pool b : Buf) :
    Except XErr Buf := appendAttributeValue D check int isCdata D.fuel x opened pool b

/-- The content parser as the model computes it (`parser`). -/
def content (c : Cfg) (D : Dtd) (int x : XEnc) (opened : List Buf) (start : Nat) : Sem CState :=
  sem c D int D.fuel x opened start

/-- **C34, attribute values: the recursion is the one of the code.**  The evaluation of a reference is
the evaluation of the entity's text by the same function, with the entity marked as open: no bound on the
depth. -/
theorem attr_recursion (D : Dtd) (check : Bool) (int : XEnc) (isCdata : Bool) (x : XEnc) (opened : List Buf) (pool b : Buf) :
    attr D check int isCdata x opened pool b =
      attrLoop D check x isCdata (fun n p t => attr D check int isCdata int (n :: opened) p t) opened pool b := by
  have hle := avail_le D opened
  rw [attr, attr_fuel D check int isCdata D.fuel (D.fuel + 1) x opened pool b hle (by omega), appendAttributeValue]
  rfl

/-- **C34, attribute values: the evaluation ends**, whatever the entities refer to. -/
theorem attr_terminates (D : Dtd) (check : Bool) (int : XEnc) (isCdata : Bool) (x : XEnc) (opened : List Buf) (pool b : Buf) :
    attr D check int isCdata x opened pool b ≠ .error .DIVERGED :=
  attr_terminates_fuel D check int isCdata _ x opened pool b (avail_le D opened)

/-- **C34, attribute values: a literal is accepted only if none of its references leads into a cycle**
(or any infinite chain). -/
theorem attr_acyclic (D : Dtd) (check : Bool) (int : XEnc) (isCdata : Bool) (x : XEnc) (opened : List Buf) (pool b q : Buf)
    (h : attr D check int isCdata x opened pool b = .ok q) (m : Buf) (hm : CitesA x b m) : Acc (LeadsA D int) m :=
  attr_acc D check int isCdata _ x opened pool b q h m hm

/-- **C34, content: the recursion is the one of the code.** -/
theorem content_recursion (c : Cfg) (D : Dtd) (int x : XEnc) (opened : List Buf) (start : Nat) :
    content c D int x opened start =
      semOf c D int x opened start fun n t s =>
        Ran.toAct (run (content c D int int (n :: opened) s.level) int.e false false s t) := by
  have hle := avail_le D opened
  rw [content, sem_fuel c D int D.fuel (D.fuel + 1) x opened start hle (by omega), sem]
  rfl

/-- **C34, content: the parse of a document ends**, whatever the entities refer to. -/
theorem content_terminates (c : Cfg) (D : Dtd) (int x : XEnc) (e : Enc) (xs : List Buf) : ∀ s rest E,
    feed (parser c D int x) e s rest xs ≠ (E, .err .DIVERGED) := by
  have h1 : ∀ more v s b E, run (parser c D int x) e more v s b ≠ (E, .err .DIVERGED) :=
    fun more v s b E => sem_terminates c D int _ x [] 0 (avail_le D []) e more v s b E
  induction xs with
  | nil => intro s rest E; exact h1 _ _ _ _ _
  | cons y xs ih =>
    intro s rest E
    cases xs with
    | nil => exact h1 _ _ _ _ _
    | cons z zs =>
      rw [feed]
      · split
        · rename_i F s2 q hq
          generalize hr : feed (parser c D int x) e s2 q (z :: zs) = w
          obtain ⟨G, o⟩ := w
          intro h
          simp only [pre, Prod.mk.injEq] at h
          rw [h.2] at hr
          exact ih _ _ _ hr
        · rename_i hq
          intro h
          cases h
          exact h1 _ _ _ _ _ hq
      · simp

/-- **C34, content: a text is accepted only if none of its references leads into a cycle** (or any
infinite chain).  The text is that of an element's content or of an entity: it is parsed at a level of
at least 1. -/
theorem content_acyclic (c : Cfg) (D : Dtd) (int : XEnc) (hi : c.expandInternal = true) (x : XEnc) (opened : List Buf)
    (start : Nat) (v : Bool) (s : CState) (b : Buf) (E : List Ev) (s' : CState) (r : Buf) (hs : start ≠ 0) (hl : start ≤ s.level)
    (h : run (content c D int x opened start) x.e false v s b = (E, .ok s' r)) (m : Buf) (hm : Cites x s.mode b m) :
    Acc (Leads D int) m :=
  sem_acc c D int hi _ x opened start v s b E s' r hs hl h m hm

theorem run_after {σ : Type} {M : Sem σ} {e : Enc} (go : ∀ s, M.stop s = .go) {s b E1 s1 b1}
    (h1 : Lexed M e s b E1 s1 b1) : ∀ {more v E s' r}, run M e more v s b = (E, .ok s' r) →
    ∃ v' E2, run M e more v' s1 b1 = (E2, .ok s' r) ∧ E = E1 ++ E2 := by
  induction h1 with
  | nil => intro more v E s' r h; exact ⟨_, _, h, rfl⟩
  | cons ht hv ha _ ih =>
    intro more v E s' r h
    obtain ⟨F, s2, G, h1, ⟨v', h2⟩, rfl⟩ := run_step go h (by rw [ht]; exact hv)
    rw [ht] at h1 h2
    simp only at h1
    rw [ha] at h1
    cases h1
    obtain ⟨v2, E2, h3, rfl⟩ := ih h2
    exact ⟨v2, E2, h3, (List.append_assoc ..).symm⟩

/-- The same for a whole document: if it is accepted, every reference the parser meets is to an entity that
leads into no cycle. -/
theorem document_acyclic (c : Cfg) (D : Dtd) (int : XEnc) (hi : c.expandInternal = true) (x : XEnc) (b : Buf) (E : List Ev)
    (s' : CState) (r : Buf) (h : feed (parser c D int x) x.e CState.init [] [b] = (E, .ok s' r))
    (E1 : List Ev) (s1 : CState) (b1 : Buf) (h1 : Lexed (parser c D int x) x.e CState.init b E1 s1 b1)
    (hm : s1.mode = .content) (hl : s1.level ≠ 0) (n : Nat) (ht : contentTok x.e b1 = ⟨.ENTITY_REF, n⟩)
    (hp : predefinedEntityName x.e (refName x.e (b1.take n)) = 0) :
    Acc (Leads D int) (converted x (refName x.e (b1.take n))) := by
  rw [parser, ← content, content_recursion] at h h1
  obtain ⟨v', E2, h2, rfl⟩ := run_after (fun _ => rfl) h1 h
  generalize hg : (fun n t (s : CState) =>
    Ran.toAct (run (content c D int int (n :: []) s.level) int.e false false s t)) = ex at *
  have htok : ((semOf c D int x [] 0 ex).mode s1).tok x.e b1 = ⟨.ENTITY_REF, n⟩ := by
    change s1.mode.tok x.e b1 = _
    rw [hm]; exact ht
  obtain ⟨F, s2, G, ha, _, _⟩ := run_step (fun _ => rfl) h2 (by
    rw [htok]; change s1.mode.verdict _ = _; rw [hm]; rfl)
  rw [htok] at ha
  change act c D int x [] 0 ex s1 .ENTITY_REF (b1.take n) = _ at ha
  have hu : ∀ n, (∀ ent t, D.entity n = some ent → ent.text ≠ some t) → Acc (Leads D int) n := by
    intro n h
    constructor
    rintro m ⟨ent, t, h1, h2, _⟩
    exact absurd h2 (h _ _ h1)
  cases act_ok ha with
  | plain _ _ hr =>
    rcases hr rfl with ⟨_, h1⟩ | ⟨_, h1, _⟩ | ⟨_, ent, h1, _, h2⟩
    · exact absurd hp h1
    · exact hu _ fun ent t he => by rw [h1] at he; cases he
    · refine hu _ fun ent' t he ht' => ?_
      rw [h1] at he; cases he
      have := h2 (by rw [ht']; simp)
      rw [hi] at this; cases this
  | expand _ _ hn he hu' ho _ _ h' =>
    subst hn hg
    simp only [Ran.toAct] at h'
    split at h'
    · rename_i hr
      constructor
      rintro m ⟨ent', t', h1, h2, h3⟩
      rw [he] at h1; cases h1
      rw [hu'] at h2; cases h2
      exact content_acyclic c D int hi int _ _ _ _ _ _ _ _ hl (Nat.le_refl _) hr m (by rw [hm]; exact h3)
    · cases h'
  | start ht => rcases ht with ht | ht <;> cases ht
  | empty ht => rcases ht with ht | ht <;> cases ht
  | end_ ht => cases ht

/-! Non-vacuity: entities `a = "&b;&b;"`, `b = "x"`, `c = "&d;"`, `d = "y&c;"`. -/

def exDtd : Dtd where
  ents := [([0x61], ⟨some "&b;&b;".toUTF8.toList, true, none, none, none, none⟩),
    ([0x62], ⟨some "x".toUTF8.toList, true, none, none, none, none⟩),
    ([0x63], ⟨some "&d;".toUTF8.toList, true, none, none, none, none⟩),
    ([0x64], ⟨some "y&c;".toUTF8.toList, true, none, none, none, none⟩)]
  elems := []
  maybeTok := []
  hasPERefs := false
  standalone := false

example : (feed (parser {} exDtd (internalUtf8X false) (utf8X false)) (utf8Enc false) CState.init []
    ["<r q='&a;'>&a;</r>".toUTF8.toList]).1 =
      [.startElement [0x72] [([0x71], "xx".toUTF8.toList)] 1 none, .chars [0x78], .chars [0x78], .endElement [0x72]] := by
  decide +kernel
example : (feed (parser {} exDtd (internalUtf8X false) (utf8X false)) (utf8Enc false) CState.init []
    ["<r>&c;</r>".toUTF8.toList]).2.code = some .RECURSIVE_ENTITY_REF := by
  decide +kernel
example : (feed (parser {} exDtd (internalUtf8X false) (utf8X false)) (utf8Enc false) CState.init []
    ["<r q='&d;'/>".toUTF8.toList]).2.code = some .RECURSIVE_ENTITY_REF := by
  decide +kernel
/-- `&a;` in content cites `a`, whose text cites `b`. -/
example : Cites (utf8X false) .content "&a;</r>".toUTF8.toList [0x61] :=
  (show converted (utf8X false) (refName (utf8X false).e (List.take 3 "&a;</r>".toUTF8.toList)) = [0x61] by
    decide +kernel) ▸
  Cites.here (x := utf8X false) (b := "&a;</r>".toUTF8.toList) (n := 3) (by decide +kernel) (by decide +kernel)
example : Leads exDtd (internalUtf8X false) [0x62] [0x61] :=
  ⟨_, _, rfl, rfl, 
    (show converted (internalUtf8X false) (refName (internalUtf8X false).e (List.take 3 "&b;&b;".toUTF8.toList)) = [0x62] by
      decide +kernel) ▸
    Cites.here (x := internalUtf8X false) (b := "&b;&b;".toUTF8.toList) (n := 3) (by decide +kernel) (by decide +kernel)⟩

end Verif.C34
