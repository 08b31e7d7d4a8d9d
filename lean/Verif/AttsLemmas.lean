import Verif.Props.C30

/-! The attribute list built by `storeAtts`: lemmas for C28 and C29. -/

namespace Verif
open C43

theorem chain_inv_list {α σ ε : Type} {f : σ → α → List Ev × Except ε σ} {I : List α → σ → Prop}
    (hf : ∀ as s a E s', I as s → f s a = (E, .ok s') → I (as ++ [a]) s') (l : List α) :
    ∀ {as s E s'}, I as s → chain f s l = (E, .ok s') → I (as ++ l) s' := by
  induction l with
  | nil => intro as s E s' hi h; cases h; simpa using hi
  | cons a l ih =>
    intro as s E s' hi h
    rw [chain] at h
    split at h
    · cases h
    · rename_i E1 s1 h1
      cases hc : chain f s1 l with
      | mk G o =>
        rw [hc] at h
        cases h
        have := ih (hf _ _ _ _ _ hi h1) hc
        simpa using this

/-- The flag an attribute gets when it is met. -/
def flagOf : AKind → AFlag
  | .prefixed _ => .prefixed
  | _ => .normal

theorem flagOf_ne (k : AKind) : flagOf k ≠ .unset := by cases k <;> simp [flagOf]

def AKind.isDecl : AKind → Bool
  | .xmlns _ => true
  | _ => false
def AKind.isPrefixed : AKind → Bool
  | .prefixed _ => true
  | _ => false

/-- What the attribute flags say at any time. -/
structure AInv (c : Cfg) (s : AState) : Prop where
  kinds : ∀ a ∈ s.atts, (attKind c.ns a.1).isDecl = false ∧ s.flags a.1 = flagOf (attKind c.ns a.1)
  set : ∀ n, s.flags n ≠ .unset → n ∈ s.atts.map (·.1) ∨ n ∈ s.binds.map (·.att)
  nodup : (s.atts.map (·.1)).Nodup
  nPre : s.nPre = s.atts.countP fun a => (attKind c.ns a.1).isPrefixed
  binds : ∀ b ∈ s.binds, (attKind c.ns b.att).isDecl = true

theorem AInv.add {c : Cfg} {s : AState} (h : AInv c s) {n v : Buf} (hf : s.flags n = .unset)
    (hk : (attKind c.ns n).isDecl = false) {m} (hm : m = if (attKind c.ns n).isPrefixed then s.nPre + 1 else s.nPre) :
    AInv c { s with flags := setFlag s.flags n (flagOf (attKind c.ns n)), atts := s.atts ++ [(n, v)], nPre := m } := by
  have hn : n ∉ s.atts.map (·.1) := by
    intro hn
    obtain ⟨a, ha, rfl⟩ := List.mem_map.1 hn
    rw [(h.kinds a ha).2] at hf
    exact flagOf_ne _ hf
  refine ⟨?_, ?_, ?_, ?_, h.binds⟩
  · intro a ha
    rcases List.mem_append.1 ha with ha | ha
    · have : a.1 ≠ n := fun e => hn (e ▸ List.mem_map_of_mem ha)
      simp only [setFlag, this, if_false]
      exact h.kinds a ha
    · simp only [List.mem_singleton] at ha
      subst ha
      exact ⟨hk, by simp [setFlag]⟩
  · intro m hm
    simp only [setFlag] at hm
    by_cases he : m = n
    · left; simp [he]
    · rw [if_neg he] at hm
      rcases h.set m hm with h | h
      · left; simp only [List.map_append, List.mem_append]; exact .inl h
      · exact .inr h
  · simp only [List.map_append, List.map_cons, List.map_nil]
    rw [List.nodup_append]
    exact ⟨h.nodup, by simp, by rintro a ha b hb rfl; simp at hb; exact hn (hb ▸ ha)⟩
  · rw [hm, h.nPre]
    cases hp : (attKind c.ns n).isPrefixed <;> simp [List.countP_append, hp]

theorem AInv.decl {c : Cfg} {s : AState} (h : AInv c s) {n : Buf} (hk : (attKind c.ns n).isDecl = true)
    {env bs f} (hb : bs.map Binding.att = n :: s.binds.map (·.att)) (hf : f = s.flags ∨ f = setFlag s.flags n .normal) :
    AInv c { s with flags := f, env := env, binds := bs } := by
  have hn : n ∉ s.atts.map (·.1) := by
    intro hn
    obtain ⟨a, ha, rfl⟩ := List.mem_map.1 hn
    rw [(h.kinds a ha).1] at hk
    cases hk
  refine ⟨?_, ?_, h.nodup, h.nPre, ?_⟩
  · intro a ha
    have : a.1 ≠ n := fun e => hn (e ▸ List.mem_map_of_mem ha)
    rcases hf with rfl | rfl
    · exact h.kinds a ha
    · simp only [setFlag, this, if_false]
      exact h.kinds a ha
  · intro m hm
    simp only at hm ⊢
    rw [hb]
    by_cases he : m = n
    · right; simp [he]
    · have : s.flags m ≠ .unset := by
        rcases hf with rfl | rfl
        · exact hm
        · simpa only [setFlag, if_neg he] using hm
      rcases h.set m this with h | h
      · exact .inl h
      · exact .inr (List.mem_cons_of_mem _ h)
  · intro b hb'
    have : b.att ∈ bs.map (·.att) := List.mem_map_of_mem hb'
    rw [hb] at this
    rcases List.mem_cons.1 this with h1 | h1
    · rw [h1]; exact hk
    · obtain ⟨b', hb', h1⟩ := List.mem_map.1 h1
      rw [← h1]; exact h.binds b' hb'

/-- The expanded name of an attribute. -/
def expanded (c : Cfg) (env : Env) (n : Buf) : Option Buf :=
  match attKind c.ns n, splitColon n with
  | .prefixed _, some (p, l) => (env (some p)).map fun u => u ++ c.sepB ++ l ++ c.suffix p
  | _, _ => some n

/-- The string by which duplicates are looked for. -/
def dupKey (c : Cfg) (env : Env) (n : Buf) : Option Buf :=
  match attKind c.ns n, splitColon n with
  | .prefixed _, some (p, l) => (env (some p)).map fun u => u ++ c.sepB ++ l
  | _, _ => none

theorem attKind_prefixed {ns : Bool} {n : Buf} {p} (h : attKind ns n = .prefixed p) : ∃ l, splitColon n = some (p, l) := by
  rw [attKind] at h
  repeat' split at h
  all_goals first | (cases h; done) | skip
  injection h with h
  subst h
  exact ⟨_, by assumption⟩

theorem flagOf_prefixed {k : AKind} : flagOf k = .prefixed ↔ k.isPrefixed = true := by
  cases k <;> simp [flagOf, AKind.isPrefixed]

/-- What `expandNames` leaves. -/
theorem expandNames_ok (c : Cfg) (env : Env) (atts : List (Buf × Buf)) :
    ∀ n f seen atts' g, (∀ a ∈ atts, f a.1 = flagOf (attKind c.ns a.1)) → (atts.map (·.1)).Nodup →
      n = atts.countP (fun a => (attKind c.ns a.1).isPrefixed) →
      expandNames c env n f seen atts = .ok (atts', g) →
      atts.map (fun a => (expanded c env a.1, a.2)) = atts'.map (fun a => (some a.1, a.2)) ∧
      ∀ m, g m = if m ∈ atts.map (·.1) then .unset else f m := by
  induction atts with
  | nil =>
    intro n f seen atts' g _ _ _ h
    cases h
    exact ⟨rfl, fun m => by simp⟩
  | cons a rest ih =>
    obtain ⟨name, v⟩ := a
    intro n f seen atts' g hf hnd hn h
    simp only [List.map_cons, List.nodup_cons] at hnd
    have hf0 := hf (name, v) (by simp)
    have hrest : ∀ a ∈ rest, setFlag f name .unset a.1 = flagOf (attKind c.ns a.1) := by
      intro a ha
      have : a.1 ≠ name := fun e => hnd.1 (e ▸ List.mem_map_of_mem ha)
      simp only [setFlag, if_neg this]
      exact hf a (by simp [ha])
    simp only at hf0
    have hflags : ∀ g : Buf → AFlag, (∀ m, g m = if m ∈ rest.map (·.1) then .unset else setFlag f name .unset m) →
        ∀ m, g m = if m ∈ ((name, v) :: rest).map (·.1) then .unset else f m := by
      intro g hg m
      rw [hg]
      simp only [setFlag, List.map_cons, List.mem_cons]
      by_cases h1 : m = name <;> by_cases h2 : m ∈ rest.map (·.1) <;> simp [h1, h2]
    rw [expandNames] at h
    simp only at h
    split at h
    · rename_i hp
      obtain ⟨hn0, hp⟩ := hp
      rw [hf0, flagOf_prefixed] at hp
      obtain ⟨p, hk⟩ : ∃ p, attKind c.ns name = .prefixed p := by
        cases hk : attKind c.ns name <;> simp [hk, AKind.isPrefixed] at hp
        exact ⟨_, rfl⟩
      obtain ⟨l, hl⟩ := attKind_prefixed hk
      rw [hl] at h
      simp only at h
      split at h
      · cases h
      · rename_i uri hu
        split at h
        · cases h
        · split at h
          · cases h
          · rename_i as g' hr
            cases h
            have hn' : n - 1 = rest.countP (fun a => (attKind c.ns a.1).isPrefixed) := by
              rw [hn, List.countP_cons, if_pos hp]; omega
            obtain ⟨h1, h2⟩ := ih _ _ _ _ _ hrest hnd.2 hn' hr
            refine ⟨?_, hflags _ h2⟩
            rw [List.map_cons, List.map_cons, h1]
            simp only [expanded, hk, hl, hu, Option.map_some]
    · rename_i hp
      have hk : (attKind c.ns name).isPrefixed = false := by
        rw [hf0, flagOf_prefixed] at hp
        cases h0 : (attKind c.ns name).isPrefixed
        · rfl
        · refine absurd ⟨?_, h0⟩ hp
          rw [hn, List.countP_cons, if_pos h0]; omega
      split at h
      · cases h
      · rename_i as g' hr
        cases h
        have hn' : n = rest.countP (fun a => (attKind c.ns a.1).isPrefixed) := by
          rw [hn, List.countP_cons, if_neg (by simp [hk])]; rfl
        obtain ⟨h1, h2⟩ := ih _ _ _ _ _ hrest hnd.2 hn' hr
        refine ⟨?_, hflags _ h2⟩
        have : expanded c env name = some name := by
          rw [expanded]
          cases hk' : attKind c.ns name <;> first | rfl | (rw [hk'] at hk; cases hk)
        simp [h1, this]

theorem clear_flags (bs : List Binding) : ∀ (f : Buf → AFlag) (n : Buf),
    (f n = .unset ∨ n ∈ bs.map (·.att)) → bs.foldl (fun f b => setFlag f b.att .unset) f n = .unset := by
  induction bs with
  | nil => intro f n h; simpa using h
  | cons b bs ih =>
    intro f n h
    rw [List.foldl_cons]
    apply ih
    by_cases hn : n = b.att
    · left; simp [setFlag, hn]
    · rcases h with h | h
      · left; simp [setFlag, hn, h]
      · right; simpa [hn] using h

end Verif
