import Verif.Coding

/-! Textual substitution of entity references, as a rewriting system on strings of symbols. -/

set_option autoImplicit false

namespace Verif.C35
open Verif C43 C53 Spec C04

/-- A text with references: characters, and references to entities by name. -/
inductive Sym
  | ch (c : Nat)
  | ref (name : List Nat)
deriving DecidableEq, Repr

/-- The replacement texts of the entities. -/
abbrev Defs := List Nat → Option (List Sym)

/-- One reference, anywhere in the text, is replaced by its replacement text. -/
inductive Step (d : Defs) : List Sym → List Sym → Prop
  | mk (u v t : List Sym) (n : List Nat) : d n = some t → Step d (u ++ .ref n :: v) (u ++ (t ++ v))

/-- Any number of references are replaced, one after the other. -/
inductive Steps (d : Defs) : List Sym → List Sym → Prop
  | refl (t : List Sym) : Steps d t t
  | step {t u v : List Sym} : Step d t u → Steps d u v → Steps d t v

/-- A text without references. -/
def chars (cs : List Nat) : List Sym := cs.map .ch

theorem Steps.trans {d : Defs} {t u v : List Sym} (h : Steps d t u) (h2 : Steps d u v) : Steps d t v := by
  induction h with
  | refl => exact h2
  | step h _ ih => exact .step h (ih h2)

theorem Steps.ctx {d : Defs} {t u : List Sym} (h : Steps d t u) (a b : List Sym) : Steps d (a ++ (t ++ b)) (a ++ (u ++ b)) := by
  induction h with
  | refl => exact .refl _
  | step h _ ih =>
    refine .step ?_ ih
    cases h with
    | mk u v t n hn =>
      have := Step.mk (d := d) (a ++ u) (v ++ b) t n hn
      simpa using this

/-- Replacing all references at once; `k` counts the replacements. -/
inductive Ex (d : Defs) : Nat → List Sym → List Nat → Prop
  | nil : Ex d 0 [] []
  | ch {k : Nat} {t : List Sym} {cs : List Nat} (c : Nat) : Ex d k t cs → Ex d k (.ch c :: t) (c :: cs)
  | ref {k k1 : Nat} {t t1 : List Sym} {cs c1 : List Nat} {n : List Nat} : d n = some t1 → Ex d k1 t1 c1 → Ex d k t cs →
      Ex d (k1 + k + 1) (.ref n :: t) (c1 ++ cs)

theorem Ex.append {d : Defs} {k k' : Nat} {t u : List Sym} {cs ds : List Nat} (h : Ex d k t cs) (h2 : Ex d k' u ds) :
    Ex d (k + k') (t ++ u) (cs ++ ds) := by
  induction h with
  | nil => simpa using h2
  | ch c _ ih => exact .ch c ih
  | @ref k k1 t t1 cs c1 n h1 h3 _ _ ih =>
    have := Ex.ref h1 h3 ih
    rw [List.append_assoc, show k1 + k + 1 + k' = k1 + (k + k') + 1 by omega]
    exact this

theorem Ex.split {d : Defs} {t u : List Sym} : ∀ {k : Nat} {cs : List Nat}, Ex d k (t ++ u) cs → ∃ k1 k2 c1 c2, Ex d k1 t c1 ∧ Ex d k2 u c2 ∧
    cs = c1 ++ c2 ∧ k = k1 + k2 := by
  induction t with
  | nil => intro k cs h; exact ⟨0, k, [], cs, .nil, h, rfl, by omega⟩
  | cons a t ih =>
    intro k cs h
    cases h with
    | ch c h =>
      obtain ⟨k1, k2, c1, c2, h1, h2, rfl, rfl⟩ := ih h
      exact ⟨k1, k2, c :: c1, c2, .ch c h1, h2, rfl, rfl⟩
    | @ref k k' _ t1 _ c' n h1 h2 h3 =>
      obtain ⟨k1, k2, c1, c2, i1, i2, rfl, rfl⟩ := ih h3
      exact ⟨k' + k1 + 1, k2, c' ++ c1, c2, .ref h1 h2 i1, i2, by simp, by omega⟩

theorem Ex.unique {d : Defs} {k : Nat} {t : List Sym} {cs : List Nat} (h : Ex d k t cs) : ∀ {k' : Nat} {cs' : List Nat}, Ex d k' t cs' →
    k = k' ∧ cs = cs' := by
  induction h with
  | nil => intro k' cs' h; cases h; exact ⟨rfl, rfl⟩
  | ch c _ ih =>
    intro k' cs' h
    cases h with
    | ch _ h => obtain ⟨rfl, rfl⟩ := ih h; exact ⟨rfl, rfl⟩
  | ref h1 _ _ ih1 ih2 =>
    intro k' cs' h
    cases h with
    | ref i1 i2 i3 =>
      rw [h1] at i1
      cases i1
      obtain ⟨rfl, rfl⟩ := ih1 i2
      obtain ⟨rfl, rfl⟩ := ih2 i3
      exact ⟨rfl, rfl⟩

theorem ex_chars (d : Defs) (cs : List Nat) : Ex d 0 (chars cs) cs := by
  induction cs with
  | nil => exact .nil
  | cons c cs ih => exact .ch c ih

theorem Ex.steps {d : Defs} {k : Nat} {t : List Sym} {cs : List Nat} (h : Ex d k t cs) : Steps d t (chars cs) := by
  induction h with
  | nil => exact .refl _
  | ch c _ ih =>
    have := ih.ctx [.ch c] []
    simpa [chars] using this
  | @ref k k1 t t1 cs c1 n h1 _ _ ih1 ih2 =>
    refine .step (.mk [] t t1 n h1) ?_
    have i1 := ih1.ctx [] t
    have i2 := ih2.ctx (chars c1) []
    simp only [List.nil_append, List.append_nil] at i1 i2 ⊢
    have := i1.trans i2
    simpa [chars] using this

/-- Rewriting to a text without references is replacing all at once. -/
theorem steps_iff {d : Defs} {t : List Sym} {cs : List Nat} : Steps d t (chars cs) ↔ ∃ k, Ex d k t cs := by
  constructor
  · intro h
    generalize hu : chars cs = u at h
    induction h with
    | refl => subst hu; exact ⟨0, ex_chars d cs⟩
    | step h _ ih =>
      obtain ⟨k, hk⟩ := ih hu
      cases h with
      | mk u v t n hn =>
        obtain ⟨k1, k2, c1, c2, h1, h2, rfl, rfl⟩ := hk.split
        obtain ⟨k3, k4, c3, c4, h3, h4, rfl, rfl⟩ := h2.split
        exact ⟨_, h1.append (.ref hn h3 h4)⟩
  · rintro ⟨k, hk⟩; exact hk.steps

/-- The order of the replacements does not matter. -/
theorem steps_unique {d : Defs} {t : List Sym} {cs ds : List Nat} (h : Steps d t (chars cs)) (h2 : Steps d t (chars ds)) : cs = ds := by
  obtain ⟨k, h⟩ := steps_iff.1 h
  obtain ⟨k', h2⟩ := steps_iff.1 h2
  exact (h.unique h2).2

/-- If references do not go in circles and all are defined, every text can be rewritten to one without
references. -/
theorem acyclic_ex {d : Defs} (rank : List Nat → Nat)
    (h : ∀ n t, d n = some t → ∀ m, .ref m ∈ t → (d m).isSome ∧ rank m < rank n) (r : Nat) :
    ∀ t : List Sym, (∀ m, .ref m ∈ t → (d m).isSome ∧ rank m < r) → ∃ k cs, Ex d k t cs := by
  induction r using Nat.strongRecOn with
  | _ r ih =>
    intro t
    induction t with
    | nil => exact fun _ => ⟨0, [], .nil⟩
    | cons a t iht =>
      intro ht
      obtain ⟨k, cs, h1⟩ := iht fun m hm => ht m (by simp [hm])
      cases a with
      | ch c => exact ⟨k, _, .ch c h1⟩
      | ref n =>
        have h2 := ht n (by simp)
        obtain ⟨t1, h3⟩ := Option.isSome_iff_exists.1 h2.1
        obtain ⟨k1, c1, h4⟩ := ih (rank n) h2.2 t1 (h n t1 h3)
        exact ⟨_, _, .ref h3 h4 h1⟩

theorem acyclic_rewrites {d : Defs} (rank : List Nat → Nat)
    (h : ∀ n t, d n = some t → ∀ m, .ref m ∈ t → (d m).isSome ∧ rank m < rank n) (t : List Sym)
    (ht : ∀ m, .ref m ∈ t → (d m).isSome) : ∃ cs, Steps d t (chars cs) := by
  have hb : ∃ r, ∀ m, Sym.ref m ∈ t → rank m < r := by
    clear ht
    induction t with
    | nil => exact ⟨0, by simp⟩
    | cons a t ih =>
      obtain ⟨r, hr⟩ := ih
      cases a with
      | ch c => exact ⟨r, fun m hm => hr m (by simpa using hm)⟩
      | ref n =>
        refine ⟨r + rank n + 1, fun m hm => ?_⟩
        simp only [List.mem_cons, Sym.ref.injEq] at hm
        rcases hm with rfl | hm
        · omega
        · have := hr m hm; omega
  obtain ⟨r, hr⟩ := hb
  obtain ⟨k, cs, hk⟩ := acyclic_ex rank h r t fun m hm => ⟨ht m hm, hr m hm⟩
  exact ⟨cs, steps_iff.2 ⟨k, hk⟩⟩

end Verif.C35
