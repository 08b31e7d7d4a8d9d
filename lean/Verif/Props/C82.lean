import Verif.UriBufThm

/-! C82: names in namespaces are right although they share buffers. -/

set_option autoImplicit false

namespace Verif.C82
open Verif Verif.Uri

/-- **C82.**  Whatever tags are read, in whatever namespaces, with any context, any allocator and any handlers
for end tags: the names of elements and attributes that handlers are given are those of the namespaces in
force, and parsing stops where it would without memory. -/
theorem names (H : Heap) (c : Cfg) (ctx : List (Option Buf × Buf)) (hc : CleanD ctx) (os : List Op) (ho : ∀ o ∈ os, o.Clean) :
    runFrom H c ctx os = SState.run c ⟨declared (fun _ => none) ctx, []⟩ os :=
  runFrom_ok H c ctx hc os ho

/-! What the program without memory does, said without it. -/

theorem srun_safe (c : Cfg) (os : List Op) : ∀ s : SState, (s.run c os).2 ≠ some .overflow := by
  induction os with
  | nil => intro s; simp [SState.run]
  | cons o os ih =>
    intro s
    simp only [SState.run]
    have hop : ∀ ds as raw e, s.opened c ds as raw = .error e → e = .unbound := by
      intro ds as raw e h
      unfold SState.opened at h
      split at h
      · cases h; rfl
      · split at h
        · cases h; rfl
        · cases h
    have : ∀ e, s.step c o = .error e → e ≠ .overflow := by
      intro e h
      cases o with
      | start ds as raw =>
        simp only [SState.step] at h
        split at h
        · rename_i e' he; cases h; rw [hop _ _ _ _ he]; simp
        · cases h
      | empty ds as raw =>
        simp only [SState.step] at h
        split at h
        · rename_i e' he; cases h; rw [hop _ _ _ _ he]; simp
        · cases h
      | stop told =>
        simp only [SState.step] at h
        split at h
        · cases h; simp
        · cases h
    cases hs : s.step c o with
    | error e => simpa using this e hs
    | ok x => exact ih x.1

/-- **C82: no buffer is overrun.**  There is room in the buffer of the URI at every end tag ("don't need to check
for space"), and in every new or recycled buffer. -/
theorem no_overrun (H : Heap) (c : Cfg) (ctx : List (Option Buf × Buf)) (hc : CleanD ctx) (os : List Op) (ho : ∀ o ∈ os, o.Clean) :
    (runFrom H c ctx os).2 ≠ some .overflow := by
  rw [names H c ctx hc os ho]
  exact srun_safe c os _

/-- The names of elements whose end is told, each with that of its start; `open_` are those that are open. -/
def Paired : List Buf → List Told → Prop
  | _, [] => True
  | open_, .start n _ :: E => Paired (n :: open_) E
  | n :: open_, .stop m :: E => m = n ∧ Paired open_ E
  | [], .stop _ :: _ => False

theorem srun_paired (c : Cfg) (os : List Op) : ∀ s : SState, (∀ t, .stop t ∈ os → t = true) →
    Paired (s.stack.map fun x => x.1.full c) (s.run c os).1 := by
  induction os with
  | nil => intro s _; simp [SState.run, Paired]
  | cons o os ih =>
    intro s ho
    have ho' : ∀ t, Op.stop t ∈ os → t = true := fun t ht => ho t (by simp [ht])
    simp only [SState.run]
    cases o with
    | start ds as raw =>
      simp only [SState.step]
      cases s.opened c ds as raw with
      | error e => simp [Paired]
      | ok x =>
        obtain ⟨env, n, as'⟩ := x
        exact ih ⟨env, (n, s.env) :: s.stack⟩ ho'
    | empty ds as raw =>
      simp only [SState.step]
      cases s.opened c ds as raw with
      | error e => simp [Paired]
      | ok x =>
        obtain ⟨env, n, as'⟩ := x
        exact ⟨rfl, ih s ho'⟩
    | stop told =>
      have ht := ho told (by simp)
      subst ht
      simp only [SState.step]
      cases hs : s.stack with
      | nil => simp [Paired]
      | cons x st =>
        obtain ⟨n, env⟩ := x
        exact ⟨rfl, ih ⟨env, st⟩ ho'⟩

/-- **C82: the end handler is told the name the start handler was told**, in the order of nesting. -/
theorem paired (H : Heap) (c : Cfg) (ctx : List (Option Buf × Buf)) (hc : CleanD ctx) (os : List Op) (ho : ∀ o ∈ os, o.Clean)
    (ht : ∀ t, .stop t ∈ os → t = true) : Paired [] (runFrom H c ctx os).1 := by
  rw [names H c ctx hc os ho]
  exact srun_paired c os ⟨_, []⟩ ht

/-! ### Why the end of an element writes the name again -/

/-- The program without it. -/
def UState.lazyStop (s : UState) : Option (UState × Told) :=
  match s.tags with
  | [] => none
  | t :: ts => some (release { s with tags := ts } t.binds, .stop (s.shows t))

/-- An allocator: addresses above all that are in use. -/
def above (bs : List PBind) : Nat := bs.foldl (fun m b => max m (b.uri + 1)) 0

theorem above_start (bs : List PBind) : ∀ m, m ≤ bs.foldl (fun m b => max m (b.uri + 1)) m := by
  induction bs with
  | nil => intro m; exact Nat.le_refl _
  | cons b bs ih => intro m; exact Nat.le_trans (Nat.le_max_left _ _) (ih _)

theorem above_lt (bs : List PBind) : ∀ m, ∀ b ∈ bs, b.uri < bs.foldl (fun m b => max m (b.uri + 1)) m := by
  induction bs with
  | nil => intro m b hb; cases hb
  | cons d bs ih =>
    intro m b hb
    rcases List.mem_cons.1 hb with h | h
    · subst h
      have h1 := above_start bs (max m (b.uri + 1))
      have h2 := Nat.le_max_right m (b.uri + 1)
      simp only [List.foldl_cons]
      omega
    · exact ih _ b h

def exHeap : Heap where
  malloc s _ := above s.binds
  malloc_new s _ i b h := by
    have := above_lt s.binds 0 b (List.mem_of_getElem? h)
    simp only [above]; omega
  realloc s _ _ := above s.binds
  realloc_new s _ _ j b _ h := by
    have := above_lt s.binds 0 b (List.mem_of_getElem? h)
    simp only [above]; omega
  junk _ n := List.replicate n 0x3F
  junk_length _ n := by simp

def exC : Cfg := { ns := true, sep := 0x7C, triplets := true }

/-- `<a:r xmlns:a="u"><a:s a:k="" xmlns="v"><t/></a:s></a:r>` with names long enough to move the buffer. -/
def exOps : List Op :=
  [.start [(some [0x61], [0x75])] [] [0x61, 0x3A, 0x72],
   .start [(none, [0x76])] [[0x61, 0x3A, 0x6B]] ([0x61, 0x3A] ++ List.replicate 30 0x73),
   .empty [] [] [0x74],
   .stop true, .stop true]

theorem exClean : (∀ o ∈ exOps, o.Clean) ∧ ∀ t, .stop t ∈ exOps → t = true := by
  constructor
  · intro o ho
    simp only [exOps, List.mem_cons, List.not_mem_nil, or_false] at ho
    rcases ho with rfl | rfl | rfl | rfl | rfl <;> simp [Op.Clean, CleanD]
  · intro t ht
    simpa [exOps] using ht

example : runFrom exHeap exC [(some xmlName, [0x78])] exOps =
    ([.start [0x75, 0x7C, 0x72, 0x7C, 0x61] [],
      .start ([0x75, 0x7C] ++ List.replicate 30 0x73 ++ [0x7C, 0x61]) [[0x75, 0x7C, 0x6B, 0x7C, 0x61]],
      .start [0x76, 0x7C, 0x74] [], .stop [0x76, 0x7C, 0x74],
      .stop ([0x75, 0x7C] ++ List.replicate 30 0x73 ++ [0x7C, 0x61]),
      .stop [0x75, 0x7C, 0x72, 0x7C, 0x61]], none) := by
  decide +kernel

/-- Without writing it again the end handler would be told the name of the last element in the namespace. -/
theorem needed : ∃ s : UState, ((UState.empty.step exHeap exC (.start [(some [0x61], [0x75])] [] [0x61, 0x3A, 0x72])).toOption.bind fun x =>
      (x.1.step exHeap exC (.empty [] [] [0x61, 0x3A, 0x73])).toOption).map (·.1) = some s ∧
    (UState.lazyStop s).map (·.2) = some (.stop [0x75, 0x7C, 0x73, 0x7C, 0x61]) ∧
    (s.step exHeap exC (.stop true)).toOption.map (·.2) = some [.stop [0x75, 0x7C, 0x72, 0x7C, 0x61]] :=
  ⟨_, rfl, by decide +kernel, by decide +kernel⟩

end Verif.C82
