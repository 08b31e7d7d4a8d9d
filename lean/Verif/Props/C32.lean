import Verif.Context
import Verif.Props.C31

/-! C32: the context string is faithful. -/

set_option autoImplicit false

namespace Verif.C32
open Verif C43

/-- What may stand in the name of a prefix or entity: anything but the two characters with a meaning in
the context. -/
def NameOk (n : Buf) : Prop := n ≠ [] ∧ ∀ c ∈ n, c ≠ contextSep ∧ c ≠ 0x3D

/-- What may stand in a namespace name: form feed is not an XML character. -/
def UriOk (u : Buf) : Prop := ∀ c ∈ u, c ≠ contextSep

/-- One entry of the context. -/
inductive Item where
  | bind (p : Option Buf) (uri : Buf)
  | ent (n : Buf)
deriving DecidableEq

def Item.text : Item → Buf
  | .bind p uri => p.getD [] ++ [0x3D] ++ uri
  | .ent n => n

def Item.Ok : Item → Prop
  | .bind p uri => (∀ n, p = some n → NameOk n) ∧ UriOk uri ∧ bindingError p uri = none ∧ uri ≠ []
  | .ent n => NameOk n

/-- Entries with separators between them. -/
def join : List Item → Buf
  | [] => []
  | [i] => i.text
  | i :: is => i.text ++ [contextSep] ++ join is

def joinAfter (need : Bool) (is : List Item) : Buf := if is = [] then [] else sepIf need ++ join is

theorem join_cons (i : Item) (is : List Item) : join (i :: is) = i.text ++ joinAfter true is := by
  cases is <;> simp [join, joinAfter, sepIf]

/-- What the entries mean. -/
def apply (known : Buf → Bool) (i : Inherited) : Item → Inherited
  | .bind p uri => { i with env := i.env.set p (some uri) }
  | .ent n => i.open known n

theorem setContext_name (known : Buf → Bool) (i : Inherited) (n : Buf) (h : ∀ c ∈ n, c ≠ contextSep ∧ c ≠ 0x3D) :
    ∀ (acc r : Buf), setContext known i acc (n ++ r) = setContext known i (acc ++ n) r := by
  induction n with
  | nil => intro acc r; simp
  | cons c n ih =>
    intro acc r
    have hc := h c (by simp)
    rw [List.cons_append, setContext.eq_def]
    simp only
    rw [if_neg hc.1, if_neg hc.2, ih (fun d hd => h d (by simp [hd]))]
    simp

theorem span_uri (u r : Buf) (hu : UriOk u) (hr : r = [] ∨ ∃ r', r = contextSep :: r') :
    (u ++ r).takeWhile (· ≠ contextSep) = u ∧ (u ++ r).dropWhile (· ≠ contextSep) = r := by
  induction u with
  | nil => rcases hr with rfl | ⟨r', rfl⟩ <;> simp
  | cons c u ih =>
    have hc := hu c (by simp)
    obtain ⟨i1, i2⟩ := ih (fun d hd => hu d (by simp [hd]))
    have hd : decide (c ≠ contextSep) = true := by simpa using hc
    rw [List.cons_append, List.takeWhile_cons, List.dropWhile_cons, if_pos hd, if_pos hd, i1, i2]
    exact ⟨rfl, rfl⟩

theorem setContext_item (known : Buf → Bool) (i : Inherited) (x : Item) (hx : x.Ok) (xs : List Item) :
    setContext known i [] (join (x :: xs)) = setContext known (apply known i x) [] (join xs) := by
  have hnil : ∀ i, setContext known i [] [] = some i := by intro i; rw [setContext]; simp
  have hafter : joinAfter true xs = [] ∨ joinAfter true xs = contextSep :: join xs := by
    cases xs <;> simp [joinAfter, sepIf]
  have hafter0 : joinAfter true xs = [] → join xs = [] := by
    cases xs <;> simp [joinAfter, sepIf, join]
  rw [join_cons]
  cases x with
  | ent n =>
    obtain ⟨h1, h2⟩ := hx
    simp only [Item.text]
    rw [setContext_name known i n h2]
    rcases hafter with h | h
    · rw [h, hafter0 h, setContext, hnil]
      simp [h1, apply]
    · rw [h, setContext.eq_def]
      simp [apply]
  | bind p uri =>
    obtain ⟨h1, h2, h3, h4⟩ := hx
    simp only [Item.text, List.append_assoc]
    have hp : (p.getD [] = [] ↔ p = none) := by
      cases p with
      | none => simp
      | some n => simp [(h1 n rfl).1]
    have hn : ∀ c ∈ p.getD [], c ≠ contextSep ∧ c ≠ 0x3D := by
      cases p with
      | none => simp
      | some n => exact (h1 n rfl).2
    rw [setContext_name known i _ hn, List.singleton_append, setContext.eq_def]
    simp only [List.nil_append]
    rw [if_neg (by decide), if_pos trivial]
    have hpp : (if p.getD [] = [] then none else some (p.getD [])) = p := by
      cases p with
      | none => simp
      | some n => simp [(h1 n rfl).1]
    obtain ⟨s1, s2⟩ := span_uri uri (joinAfter true xs) h2 (by
      rcases hafter with h | h
      · exact .inl h
      · exact .inr ⟨_, h⟩)
    rw [hpp, s1, s2, inheritBinding, h3]
    simp only [h4, false_and, if_false]
    rcases hafter with h | h
    · rw [h, hafter0 h]; rfl
    · rw [h]; rfl

/-- A context made of proper entries is read as these entries. -/
theorem setContext_join (known : Buf → Bool) (xs : List Item) : ∀ (i : Inherited), (∀ x ∈ xs, x.Ok) →
    setContext known i [] (join xs) = some (xs.foldl (apply known) i) := by
  induction xs with
  | nil => intro i _; rw [join, setContext]; simp
  | cons x xs ih =>
    intro i h
    rw [setContext_item known i x (h x (by simp)), ih _ (fun y hy => h y (by simp [hy]))]
    rfl

/-- The entries the tables stand for. -/
def binds (ps : List (Buf × Option Buf)) : List Item := ps.filterMap fun x => x.2.map fun u => .bind (some x.1) u
def opens (es : List (Buf × Bool)) : List Item := (es.filter (·.2)).map fun x => .ent x.1
def items (dflt : Option Buf) (ps : List (Buf × Option Buf)) (es : List (Buf × Bool)) : List Item :=
  (dflt.map (Item.bind none)).toList ++ binds ps ++ opens es

theorem contextEntities_eq (es : List (Buf × Bool)) : ∀ need, contextEntities need es = joinAfter need (opens es) := by
  induction es with
  | nil => intro need; simp [contextEntities, joinAfter, opens]
  | cons x es ih =>
    intro need
    obtain ⟨n, b⟩ := x
    cases b with
    | false => rw [contextEntities, ih]; simp [opens]
    | true =>
      have : opens ((n, true) :: es) = .ent n :: opens es := by simp [opens]
      rw [contextEntities, ih, this]
      conv => rhs; rw [joinAfter, if_neg (by simp), join_cons]
      simp [Item.text]

theorem joinAfter_append (need : Bool) (xs ys : List Item) :
    joinAfter need (xs ++ ys) = joinAfter need xs ++ joinAfter (need || !xs.isEmpty) ys := by
  induction xs generalizing need with
  | nil => simp [joinAfter]
  | cons x xs ih =>
    have : ∀ zs, joinAfter need (x :: zs) = sepIf need ++ x.text ++ joinAfter true zs := by
      intro zs; rw [joinAfter, if_neg (by simp), join_cons, List.append_assoc]
    rw [List.cons_append, this, this, ih]
    simp

theorem contextPrefixes_eq (ps : List (Buf × Option Buf)) : ∀ need,
    contextPrefixes need ps = (joinAfter need (binds ps), need || !(binds ps).isEmpty) := by
  induction ps with
  | nil => intro need; simp [contextPrefixes, joinAfter, binds]
  | cons x ps ih =>
    intro need
    obtain ⟨n, b⟩ := x
    cases b with
    | none =>
      have : binds ((n, none) :: ps) = binds ps := by simp [binds]
      rw [contextPrefixes, ih, this]
    | some u =>
      have : binds ((n, some u) :: ps) = .bind (some n) u :: binds ps := by simp [binds]
      rw [contextPrefixes, ih, this]
      simp only [joinAfter, join_cons]
      simp [Item.text, joinAfter]

theorem getContext_eq (dflt : Option Buf) (ps : List (Buf × Option Buf)) (es : List (Buf × Bool)) :
    getContext dflt ps es = join (items dflt ps es) := by
  have h0 : ∀ xs, join xs = joinAfter false xs := by intro xs; cases xs <;> simp [join, joinAfter, sepIf]
  rw [h0, items, joinAfter_append, joinAfter_append]
  simp only [getContext, contextPrefixes_eq, contextEntities_eq]
  cases dflt <;> simp [joinAfter, join, Item.text, sepIf]

/-- `ps` lists the prefix table: every prefix once, in any order, with its binding. -/
structure Lists (v : Env) (ps : List (Buf × Option Buf)) : Prop where
  once : (ps.map (·.1)).Nodup
  all : ∀ n u, v (some n) = some u ↔ (n, some u) ∈ ps

theorem lookup_ne {m n : Buf} (h : m ≠ n) {b : Option Buf} {ps : List (Buf × Option Buf)} :
    ((n, b) :: ps).lookup m = ps.lookup m := by
  rw [List.lookup, beq_false_of_ne h]

theorem fold_env (known : Buf → Bool) (ps : List (Buf × Option Buf)) (h : (ps.map (·.1)).Nodup) : ∀ (i : Inherited) (q : Option Buf),
    ((binds ps).foldl (apply known) i).env q =
      match q with
      | none => i.env none
      | some n => match ps.lookup n with
        | some (some u) => some u
        | _ => i.env (some n) := by
  induction ps with
  | nil => intro i q; cases q <;> rfl
  | cons x ps ih =>
    intro i q
    obtain ⟨n, b⟩ := x
    simp only [List.map_cons, List.nodup_cons] at h
    have hl : ps.lookup n = none := by
      rw [List.lookup_eq_none_iff]
      intro p hp
      have : n ≠ p.1 := fun he => h.1 (by rw [he]; exact List.mem_map_of_mem hp)
      simpa using this
    cases b with
    | none =>
      have : binds ((n, none) :: ps) = binds ps := by simp [binds]
      rw [this, ih h.2]
      cases q with
      | none => rfl
      | some m =>
        by_cases hm : m = n
        · subst hm; simp [hl]
        · simp only [lookup_ne hm]
    | some u =>
      have : binds ((n, some u) :: ps) = .bind (some n) u :: binds ps := by simp [binds]
      rw [this, List.foldl_cons, ih h.2]
      cases q with
      | none => simp [apply, Env.set]
      | some m =>
        by_cases hm : m = n
        · subst hm; simp [hl, apply, Env.set]
        · simp only [lookup_ne hm, apply, Env.set, Option.some.injEq, hm, if_false]

theorem fold_opens (known : Buf → Bool) (xs : List Item) (i : Inherited) (n : Buf) :
    (xs.foldl (apply known) i).opened n = (i.opened n || (known n && decide (.ent n ∈ xs))) := by
  induction xs generalizing i with
  | nil => simp
  | cons x xs ih =>
    rw [List.foldl_cons, ih]
    cases x with
    | bind p u => simp [apply]
    | ent m =>
      simp only [apply, Inherited.open, List.mem_cons, Item.ent.injEq]
      by_cases h : n = m
      · subst h; cases known n <;> simp
      · simp [h]

theorem fold_opens_env (known : Buf → Bool) (es : List (Buf × Bool)) (i : Inherited) :
    ((opens es).foldl (apply known) i).env = i.env := by
  have : ∀ xs : List Item, (∀ x ∈ xs, ∃ n, x = .ent n) → ∀ i : Inherited, (xs.foldl (apply known) i).env = i.env := by
    intro xs
    induction xs with
    | nil => intro _ i; rfl
    | cons x xs ih =>
      intro h i
      obtain ⟨n, rfl⟩ := h x (by simp)
      rw [List.foldl_cons, ih (fun y hy => h y (by simp [hy]))]
      rfl
  exact this _ (by simp [opens]) i

/-- **C32.**  Let `v` be the namespace bindings of the parent, `ps` its prefix table and `es` its table of
general entities with the flags of those being expanded, each in any order.  The parser created from the
context string has exactly the bindings `v`, and has exactly the same entities marked as open.
Names of prefixes and entities may contain anything but `=` and form feed, namespace names anything but form feed,
which are no XML (name) characters; bindings are such as `addBinding` allows. -/
theorem faithful {v : Env} {ps : List (Buf × Option Buf)} {es : List (Buf × Bool)} (hl : Lists v ps)
    (hv : ∀ p u, v p = some u → Item.Ok (.bind p u)) (he : ∀ n, (n, true) ∈ es → NameOk n)
    {known : Buf → Bool} (hk : ∀ n, (n, true) ∈ es → known n = true) :
    ∃ i, setContext known .none [] (getContext (v none) ps es) = some i ∧ i.env = v ∧
      ∀ n, i.opened n = true ↔ (n, true) ∈ es := by
  have hbind : ∀ x ∈ binds ps, ∃ n u, x = .bind (some n) u ∧ v (some n) = some u := by
    intro x hx
    simp only [binds, List.mem_filterMap, Option.map_eq_some_iff] at hx
    obtain ⟨⟨n, b⟩, h1, u, h2, rfl⟩ := hx
    simp only at h2
    subst h2
    exact ⟨n, u, rfl, (hl.all n u).2 h1⟩
  have hok : ∀ x ∈ items (v none) ps es, x.Ok := by
    intro x hx
    simp only [items, List.mem_append, Option.mem_toList, Option.map_eq_some_iff] at hx
    rcases hx with (⟨u, hu, rfl⟩ | hx) | hx
    · exact hv _ _ hu
    · obtain ⟨n, u, rfl, h⟩ := hbind x hx
      exact hv _ _ h
    · simp only [opens, List.mem_map, List.mem_filter] at hx
      obtain ⟨⟨n, b⟩, ⟨h1, h2⟩, rfl⟩ := hx
      simp only at h2
      subst h2
      exact he n h1
  refine ⟨_, by rw [getContext_eq, setContext_join known _ _ hok], ?_, ?_⟩
  · simp only [items, List.foldl_append]
    rw [fold_opens_env]
    funext q
    rw [fold_env known ps hl.once]
    have hd : ∀ q, (((v none).map (Item.bind none)).toList.foldl (apply known) .none).env q = if q = none then v none else none := by
      intro q
      cases h : v none with
      | none => simp [Inherited.none]
      | some u => simp only [Option.map_some, Option.toList_some, List.foldl_cons, List.foldl_nil, apply, Env.set, Inherited.none]
    cases q with
    | none => simp only [hd, if_true]
    | some n =>
      simp only [hd, reduceCtorEq, if_false]
      cases hu : v (some n) with
      | some u =>
        have hm := (hl.all n u).1 hu
        have : ps.lookup n = some (some u) := by
          have hn := hl.once
          clear hu hbind hok hl
          induction ps with
          | nil => simp at hm
          | cons x ps ih =>
            simp only [List.map_cons, List.nodup_cons] at hn
            rcases List.mem_cons.1 hm with rfl | hm
            · simp
            · have : n ≠ x.1 := fun he => hn.1 (by rw [← he]; exact List.mem_map_of_mem hm)
              obtain ⟨a, b⟩ := x
              rw [lookup_ne this, ih ‹_› hn.2]
        rw [this]
      | none =>
        cases hx : ps.lookup n with
        | none => rfl
        | some b =>
          cases b with
          | none => rfl
          | some u =>
            have : (n, some u) ∈ ps := by
              clear hu hbind hok hl
              induction ps with
              | nil => simp at hx
              | cons x ps ih =>
                obtain ⟨a, b⟩ := x
                by_cases ha : n = a
                · subst ha; simp at hx; simp [hx]
                · rw [lookup_ne ha] at hx; exact List.mem_cons_of_mem _ (ih hx)
            rw [(hl.all n u).2 this] at hu
            cases hu
  · intro n
    rw [fold_opens]
    simp only [Inherited.none, Bool.false_or, Bool.and_eq_true, decide_eq_true_eq]
    have : Item.ent n ∈ items (v none) ps es ↔ (n, true) ∈ es := by
      simp only [items, List.mem_append, Option.mem_toList, Option.map_eq_some_iff]
      constructor
      · rintro ((⟨u, _, h⟩ | h) | h)
        · cases h
        · obtain ⟨_, _, h, _⟩ := hbind _ h; cases h
        · simp only [opens, List.mem_map, List.mem_filter, Item.ent.injEq] at h
          obtain ⟨⟨m, b⟩, ⟨h1, h2⟩, h3⟩ := h
          simp only at h2 h3
          subst h2 h3
          exact h1
      · intro h
        exact .inr (by simp only [opens, List.mem_map, List.mem_filter]; exact ⟨(n, true), ⟨h, rfl⟩, rfl⟩)
    rw [this]
    exact ⟨fun h => h.2, fun h => ⟨hk _ h, h⟩⟩

/-! ### The bindings of a parser -/

/-- What `addBinding` lets through. -/
def Bound (p : Option Buf) (u : Option Buf) : Prop := ∀ x, u = some x → bindingError p x = none ∧ x ≠ []

structure EnvOk (s : CState) : Prop where
  env : ∀ p, Bound p (s.env p)
  saved : ∀ t ∈ s.tags, ∀ b ∈ t.binds, Bound b.pre b.prev

def AOk (s : AState) : Prop := (∀ p, Bound p (s.env p)) ∧ ∀ b ∈ s.binds, Bound b.pre b.prev

theorem bound_set {v : Env} {p : Option Buf} {u : Option Buf} (hv : ∀ q, Bound q (v q)) (hu : Bound p u) :
    ∀ q, Bound q (v.set p u q) := by
  intro q
  rw [Env.set]
  split
  · rename_i h; subst h; exact hu
  · exact hv q

theorem addBinding_ok {c : Cfg} {s : AState} {p : Option Buf} {att uri : Buf} {E : List Ev} {env : Env} {bs : List Binding}
    (hs : AOk s) (h : addBinding c s.env s.binds p att uri = (E, .ok (env, bs))) :
    (∀ p, Bound p (env p)) ∧ ∀ b ∈ bs, Bound b.pre b.prev := by
  rw [addBinding] at h
  split at h
  · cases h
  · rename_i hb
    simp only [Prod.mk.injEq, Except.ok.injEq] at h
    obtain ⟨_, rfl, rfl⟩ := h
    refine ⟨bound_set hs.1 ?_, ?_⟩
    · intro x hx
      split at hx
      · cases hx
      · rename_i hn
        cases hx
        refine ⟨hb, fun h0 => ?_⟩
        subst h0
        cases p with
        | none => simp at hn
        | some p => simp [bindingError] at hb
    · intro b hb
      rcases List.mem_cons.1 hb with rfl | hb
      · exact hs.1 p
      · exact hs.2 b hb

theorem attOne_ok {c : Cfg} {D : Dtd} {int x : XEnc} {opened et b} {s : AState} {a E s'} (hs : AOk s)
    (h : attOne c D int x opened et b s a = (E, .ok s')) : AOk s' := by
  simp only [attOne] at h
  split at h
  · cases h
  · split at h
    · cases h
    · split at h
      · cases h; exact hs
      · cases h; exact hs
      · split at h
        · cases h
        · rename_i hb; cases h; exact addBinding_ok hs hb

theorem defOne_ok {c : Cfg} {s : AState} {d E s'} (hs : AOk s) (h : defOne c s d = (E, .ok s')) : AOk s' := by
  rw [defOne] at h
  split at h
  · cases h; exact hs
  · split at h
    · cases h; exact hs
    · split at h
      · cases h; exact hs
      · cases h; exact hs
      · split at h
        · cases h
        · rename_i hb; cases h; exact addBinding_ok hs hb

theorem storeAtts_ok {c : Cfg} {D : Dtd} {int x : XEnc} {opened flags env raw b E r} (hs : ∀ p, Bound p (env p))
    (h : storeAtts c D int x opened flags env raw b = (E, .ok r)) :
    (∀ p, Bound p (r.env p)) ∧ ∀ b ∈ r.binds, Bound b.pre b.prev := by
  rw [storeAtts] at h
  simp only at h
  split at h
  · cases h
  · rename_i h1
    have i1 := C31.chain_inv (I := fun _ s => AOk s) (fun E s a E' s' hi h => attOne_ok hi h) _ (E := [])
      (s := ⟨[], flags, env, [], 0⟩) ⟨hs, by simp⟩ h1
    split at h
    · cases h
    · rename_i h2
      have i2 := C31.chain_inv (I := fun _ s => AOk s) (fun E s a E' s' hi h => defOne_ok hi h) _ (E := []) i1 h2
      split at h
      · cases h
      · split at h
        · cases h
        · cases h; exact i2

theorem freeBindings_ok (c : Cfg) (bs : List Binding) : ∀ v : Env, (∀ p, Bound p (v p)) → (∀ b ∈ bs, Bound b.pre b.prev) →
    ∀ p, Bound p ((freeBindings c v bs).2 p) := by
  induction bs with
  | nil => intro v hv _ p; exact hv p
  | cons b bs ih =>
    intro v hv hb p
    rw [freeBindings]
    exact ih _ (bound_set hv (hb b (by simp))) (fun b' h => hb b' (by simp [h])) p

theorem composes (c : Cfg) (D : Dtd) (int : XEnc) :
    Compositional c D int (fun _ s _ s' => EnvOk s → EnvOk s') (fun _ _ _ _ => True) :=
  ⟨fun _ _ h => h, fun h h' hf => h' (h hf), fun _ _ _ _ => trivial, fun _ _ => trivial, by
    intro x opened start expand s t w E s' hex hm ha hf
    cases act_ok ha with
    | plain => exact ⟨hf.env, hf.saved⟩
    | expand _ _ _ _ _ _ _ _ h => exact (hex _ _ _ _ _ h).1 hf
    | start _ h =>
      have := storeAtts_ok hf.env h
      refine ⟨this.1, fun t ht => ?_⟩
      rcases List.mem_cons.1 ht with rfl | ht
      · exact this.2
      · exact hf.saved t ht
    | empty _ h =>
      have := storeAtts_ok hf.env h
      exact ⟨freeBindings_ok c _ _ this.1 this.2, hf.saved⟩
    | @end_ tag tags _ _ htags _ =>
      have h0 : ∀ t ∈ tag :: tags, ∀ b ∈ t.binds, Bound b.pre b.prev := htags ▸ hf.saved
      exact ⟨freeBindings_ok c _ _ hf.env (h0 tag (by simp)), fun t ht => h0 t (by simp [ht])⟩, fun _ _ _ => trivial⟩

theorem init_ok : EnvOk CState.init := by
  refine ⟨fun p x hx => ?_, fun t ht => by cases ht⟩
  simp only [CState.init] at hx
  split at hx
  · rename_i hp
    subst hp
    cases hx
    decide
  · cases hx

/-- The states of a parser for a document, while the entities `opened` are being expanded: after some tokens
of the document, or of the text of an entity referred to in such a state. -/
inductive Reach (c : Cfg) (D : Dtd) (int x : XEnc) : Nat → XEnc → List Buf → Nat → CState → Prop where
  | document {E s} (h : Steps (parser c D int x) CState.init E s) : Reach c D int x D.fuel x [] 0 s
  | entity {k y opened start s n ent u E s'} (h : Reach c D int x (k + 1) y opened start s) (hn : D.entity n = some ent)
      (hu : ent.text = some u) (ho : n ∉ opened) (h' : Steps (sem c D int k int (n :: opened) s.level) s E s') :
      Reach c D int x k int (n :: opened) s.level s'

theorem steps_ok {c : Cfg} {D : Dtd} {int y : XEnc} (k : Nat) {opened : List Buf} {start : Nat} {s E s'}
    (hs : EnvOk s) (h : Steps (sem c D int k y opened start) s E s') : EnvOk s' := by
  cases k with
  | zero =>
    rw [sem] at h
    exact steps_hold (composes c D int) (fun n u s E s' h => by cases h) h hs
  | succ k =>
    rw [sem] at h
    refine steps_hold (composes c D int) (fun n u s E s' h => ?_) h hs
    simp only [Ran.toAct] at h
    split at h
    · rename_i F s2 r hr
      cases h
      refine ⟨sem_holds (composes c D int) (fun _ _ => trivial) k _ _ _ _ _ _ _ _ _ _ hr, ?_⟩
      obtain ⟨ex, he⟩ := sem_semOf c D int k int (n :: opened) s.level
      rw [he] at hr
      have := run_final hr
      grind
    · cases h

/-- In every state the parser can reach, inside entities or not, the bindings are such as `addBinding` allows. -/
theorem bindings_ok {c : Cfg} {D : Dtd} {int x : XEnc} {k y opened start s} (h : Reach c D int x k y opened start s) :
    EnvOk s := by
  induction h with
  | document h => exact steps_ok _ init_ok h
  | entity _ _ _ _ h' ih => exact steps_ok _ ih h'

theorem opened_known {c : Cfg} {D : Dtd} {int x : XEnc} {k y opened start s} (h : Reach c D int x k y opened start s) :
    ∀ n ∈ opened, ∃ ent, D.entity n = some ent := by
  induction h with
  | document => intro n h; cases h
  | entity _ hn _ _ _ ih =>
    intro m hm
    rcases List.mem_cons.1 hm with rfl | hm
    · exact ⟨_, hn⟩
    · exact ih m hm

/-- **C32** for a parser: in whatever state it is, inside whatever entities, the context made of the
bindings in force and of the entities being expanded restores both, given the parent's entities. -/
theorem of_parser {c : Cfg} {D : Dtd} {int x : XEnc} {k y opened start s} (h : Reach c D int x k y opened start s)
    {ps : List (Buf × Option Buf)} (hl : Lists s.env ps)
    (hn : ∀ n u, s.env (some n) = some u → NameOk n) (hu : ∀ p u, s.env p = some u → UriOk u)
    {es : List (Buf × Bool)} (ho : ∀ n, n ∈ opened ↔ (n, true) ∈ es) (he : ∀ n ∈ opened, NameOk n) :
    ∃ i, setContext (fun n => (D.entity n).isSome) .none [] (getContext (s.env none) ps es) = some i ∧ i.env = s.env ∧
      ∀ n, i.opened n = true ↔ n ∈ opened := by
  have hok := bindings_ok h
  obtain ⟨i, h1, h2, h3⟩ := faithful hl (known := fun n => (D.entity n).isSome) (es := es)
    (fun p u hp => ⟨fun n e => by subst e; exact hn n u hp, hu p u hp, (hok.env p u hp).1, (hok.env p u hp).2⟩)
    (fun n hm => he n ((ho n).2 hm)) (fun n hm => by
      obtain ⟨ent, h⟩ := opened_known h n ((ho n).2 hm)
      rw [h]; rfl)
  exact ⟨i, h1, h2, fun n => by rw [h3, ho]⟩

/-! Non-vacuity: the default namespace `d`, the prefix `p` bound to `u=`, `q` not bound, `xml`; entities `e` open,
`f` not. -/
def exPs : List (Buf × Option Buf) := [([0x71], none), (xmlName, some xmlNamespace), ([0x70], some [0x75, 0x3D])]
def exEs : List (Buf × Bool) := [([0x66], false), ([0x65], true)]

example : getContext (some [0x64]) exPs exEs =
    [0x3D, 0x64, 0x0C] ++ xmlName ++ [0x3D] ++ xmlNamespace ++ [0x0C, 0x70, 0x3D, 0x75, 0x3D, 0x0C, 0x65] := by decide
example : (setContext (fun n => n == [0x65] || n == [0x66]) .none [] (getContext (some [0x64]) exPs exEs)).map
    (fun i => (i.env none, i.env (some [0x70]), i.env (some [0x71]), i.opened [0x65], i.opened [0x66])) =
    some (some [0x64], some [0x75, 0x3D], none, true, false) := by decide +kernel
example : Lists (fun p => if p = none then some [0x64] else if p = some [0x70] then some [0x75, 0x3D]
    else if p = some xmlName then some xmlNamespace else none) exPs := by
  refine ⟨by decide, fun n u => ?_⟩
  by_cases h1 : n = [0x70]
  · subst h1
    have h3 : xmlName ≠ [0x70] := by decide
    simp [exPs, h3, eq_comm]
  · by_cases h2 : n = xmlName
    · subst h2
      have h3 : xmlName ≠ [0x70] := by decide
      have h4 : xmlName ≠ [0x71] := by decide
      simp [exPs, h3, eq_comm]
    · simp [exPs, h1, h2]
example : Item.Ok (.bind (some [0x70]) [0x75, 0x3D]) := by
  simp only [Item.Ok, NameOk, UriOk]
  refine ⟨?_, by decide, by decide, by decide⟩
  intro n h; cases h; exact ⟨by decide, by decide⟩
/-- `<a xmlns='d' xmlns:p='u'><b/>`: a reachable state with bindings. -/
example : ∃ E s, Steps (parser { ns := true } default (internalUtf8X true) (utf8X true)) CState.init E s ∧
    (s.env none, s.env (some [0x70]), s.env (some xmlName)) = (some [0x64], some [0x75], some xmlNamespace) := by
  have h : ((parser { ns := true } default (internalUtf8X true) (utf8X true)).act CState.init .START_TAG_WITH_ATTS
      "<a xmlns='d' xmlns:p='u'>".toUTF8.toList).2.toOption.map
      (fun s => (s.env none, s.env (some [0x70]), s.env (some xmlName))) = some (some [0x64], some [0x75], some xmlNamespace) := by
    decide +kernel
  generalize ha : (parser { ns := true } default (internalUtf8X true) (utf8X true)).act CState.init .START_TAG_WITH_ATTS
      "<a xmlns='d' xmlns:p='u'>".toUTF8.toList = r at h
  obtain ⟨E, o⟩ := r
  cases o with
  | error => simp [Except.toOption] at h
  | ok s => exact ⟨E, s, .one (by decide) ha, by simpa [Except.toOption] using h⟩

end Verif.C32
