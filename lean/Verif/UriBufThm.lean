import Verif.UriBuf
import Verif.RawNamesThm
import Verif.Props.C73

/-! Lemmas for C82: the pointer program of `UriBuf.lean` does what the program without memory does. -/

set_option autoImplicit false

namespace Verif.Uri
open Verif

/-! ### Strings -/

theorem cstr_append {a b : Buf} (h : (0 : UInt8) ∉ a) : cstr (a ++ 0 :: b) = a := by
  induction a with
  | nil => simp [cstr]
  | cons x a ih =>
    have hx : x ≠ 0 := fun e => h (by simp [e])
    have := ih (fun e => h (by simp [e]))
    simp only [cstr, List.cons_append, List.takeWhile_cons] at this ⊢
    rw [if_pos (by simpa using hx), this]

theorem take_drop_of {a b c : Buf} {n : Nat} (h : a.take n = b) (h2 : (a.drop n).take c.length = c) :
    ∃ d, a = b ++ c ++ d := by
  refine ⟨(a.drop n).drop c.length, ?_⟩
  have h3 : a = a.take n ++ ((a.drop n).take c.length ++ (a.drop n).drop c.length) := by
    rw [List.take_append_drop, List.take_append_drop]
  rw [h, h2] at h3
  rw [List.append_assoc]
  exact h3

/-- Bytes after a point are replaced. -/
theorem poke_split (a v : Buf) (n : Nat) : ∃ d, Raw.poke a n v = a.take n ++ v ++ d :=
  ⟨_, rfl⟩

/-! ### What is kept -/

def used (inh : List Nat) (ts : List UTag) : List Nat := ts.flatMap UTag.binds ++ inh

/-- The binding `i` of the prefix `p` holds the URI `u` (with the separator). -/
def Holds (c : Cfg) (s : UState) (i : Nat) (p : Option Buf) (u : Buf) : Prop :=
  (0 : UInt8) ∉ u ∧ (∀ q, p = some q → (0 : UInt8) ∉ q) ∧
    ∃ b, s.binds[i]? = some b ∧ b.pre = p ∧ b.uriLen = (u ++ c.sepB).length ∧ (s.mem b.uri).take b.uriLen = u ++ c.sepB

/-- The pointers of the prefixes lead to bindings in use, with the right URIs. -/
def Level (c : Cfg) (s : UState) (us : List Nat) (e : Option Buf → Option Nat) (env : Env) : Prop :=
  ∀ p, (e p = none ∧ env p = none) ∨ ∃ i u, e p = some i ∧ env p = some u ∧ i ∈ us ∧ Holds c s i p u

/-- A tag is named so: there is room for the name in the buffer. -/
def Named (c : Cfg) (s : UState) (us : List Nat) (t : UTag) (n : TagName) : Prop :=
  t.raw = n.raw ∧
  ((n.ns = none ∧ t.str = none ∧ t.loc = none) ∨
    ∃ i p u l b, n.ns = some (u, l, p) ∧ i ∈ us ∧ Holds c s i p u ∧ s.binds[i]? = some b ∧ t.str = some b.uri ∧
      t.loc = some l ∧ t.uriLen = b.uriLen ∧ t.pre = p ∧ (0 : UInt8) ∉ l ∧ l.length + 1 + b.uriLen + preLen c p ≤ b.uriAlloc ∧ c.ns = true)

/-- The pointers when the bindings `is` are undone. -/
def undo (bs : List PBind) (e : Option Buf → Option Nat) : List Nat → Option Buf → Option Nat
  | [] => e
  | i :: is =>
    match bs[i]? with
    | none => undo bs e is
    | some b => undo bs (setPtr e b.pre b.prev) is

def Stack (c : Cfg) (s : UState) (inh : List Nat) : (Option Buf → Option Nat) → List UTag → List (TagName × Env) → Prop
  | _, [], [] => True
  | e, t :: ts, (n, env) :: st =>
    Named c s (used inh (t :: ts)) t n ∧ Level c s (used inh ts) (undo s.binds e t.binds) env ∧
      Stack c s inh (undo s.binds e t.binds) ts st
  | _, _, _ => False

/-- The state while a tag with the bindings `pend` is read, inside of which `env` is in force, and `env0` around it. -/
structure Inv (c : Cfg) (s : UState) (inh pend : List Nat) (env env0 : Env) (st : List (TagName × Env)) : Prop where
  nodup : (s.free ++ (pend ++ used inh s.tags)).Nodup
  bound : ∀ i ∈ s.free ++ (pend ++ used inh s.tags), i < s.binds.length
  addrs : ∀ (i j : Nat) (b b' : PBind), s.binds[i]? = some b → s.binds[j]? = some b' → b.uri = b'.uri → i = j
  sizes : ∀ (i : Nat) (b : PBind), s.binds[i]? = some b → (s.mem b.uri).length = b.uriAlloc
  cur : Level c s (pend ++ used inh s.tags) s.env env
  base : Level c s (used inh s.tags) (undo s.binds s.env pend) env0
  stack : Stack c s inh (undo s.binds s.env pend) s.tags st

/-! ### Changes that do not matter -/

/-- The bindings `us` keep what they hold, perhaps at another address. -/
def Frame (us : List Nat) (s s' : UState) (f : Nat → Nat) : Prop :=
  ∀ i ∈ us, ∃ b b', s.binds[i]? = some b ∧ s'.binds[i]? = some b' ∧ b'.pre = b.pre ∧ b'.prev = b.prev ∧ b'.uriLen = b.uriLen ∧
    b.uriAlloc ≤ b'.uriAlloc ∧ b'.uri = f b.uri ∧ (s'.mem b'.uri).take b.uriLen = (s.mem b.uri).take b.uriLen

theorem Frame.sub {us vs : List Nat} {s s' : UState} {f : Nat → Nat} (h : Frame us s s' f) (hs : ∀ i ∈ vs, i ∈ us) : Frame vs s s' f :=
  fun i hi => h i (hs i hi)

theorem Holds.frame {c : Cfg} {us : List Nat} {s s' : UState} {f : Nat → Nat} (h : Frame us s s' f) {i : Nat} (hi : i ∈ us)
    {p : Option Buf} {u : Buf} (hh : Holds c s i p u) : Holds c s' i p u := by
  obtain ⟨h1, h2, b, hb, h3, h4, h5⟩ := hh
  obtain ⟨b0, b', k1, k2, k3, k4, k5, k6, k7, k8⟩ := h i hi
  rw [hb] at k1
  cases k1
  exact ⟨h1, h2, b', k2, by rw [k3, h3], by rw [k5, h4], by rw [k5, k8, h5]⟩

theorem Level.frame {c : Cfg} {us : List Nat} {s s' : UState} {f : Nat → Nat} (h : Frame us s s' f)
    {e : Option Buf → Option Nat} {env : Env} (hl : Level c s us e env) : Level c s' us e env := by
  intro p
  rcases hl p with h0 | ⟨i, u, h1, h2, h3, h4⟩
  · exact .inl h0
  · exact .inr ⟨i, u, h1, h2, h3, h4.frame h h3⟩

theorem Level.sub {c : Cfg} {us vs : List Nat} {s : UState} (hs : ∀ i ∈ us, i ∈ vs)
    {e : Option Buf → Option Nat} {env : Env} (hl : Level c s us e env) : Level c s vs e env := by
  intro p
  rcases hl p with h0 | ⟨i, u, h1, h2, h3, h4⟩
  · exact .inl h0
  · exact .inr ⟨i, u, h1, h2, hs i h3, h4⟩

def redirect (f : Nat → Nat) (t : UTag) : UTag := { t with str := t.str.map f }

theorem used_redirect (inh : List Nat) (f : Nat → Nat) (ts : List UTag) : used inh (ts.map (redirect f)) = used inh ts := by
  simp only [used, List.flatMap_map]
  rfl

theorem Named.frame {c : Cfg} {us : List Nat} {s s' : UState} {f : Nat → Nat} (h : Frame us s s' f) {t : UTag} {n : TagName}
    (hn : Named c s us t n) : Named c s' us (redirect f t) n := by
  obtain ⟨h0, h1⟩ := hn
  refine ⟨h0, ?_⟩
  rcases h1 with ⟨h1, h2, h3⟩ | ⟨i, p, u, l, b, h1, h2, h3, h4, h5, h6, h7, h8, h9, h10, h11⟩
  · exact .inl ⟨h1, by simp [redirect, h2], h3⟩
  · obtain ⟨b0, b', k1, k2, k3, k4, k5, k6, k7, k8⟩ := h i h2
    rw [h4] at k1
    cases k1
    exact .inr ⟨i, p, u, l, b', h1, h2, h3.frame h h2, k2, by simp [redirect, h5, k7], h6, by rw [k5]; exact h7, h8, h9,
      by rw [k5]; omega, h11⟩

theorem undo_frame {us : List Nat} {s s' : UState} {f : Nat → Nat} (h : Frame us s s' f) (is : List Nat) : ∀ e, (∀ i ∈ is, i ∈ us) →
    undo s'.binds e is = undo s.binds e is := by
  induction is with
  | nil => intro e _; rfl
  | cons i is ih =>
    intro e hs
    obtain ⟨b, b', k1, k2, k3, k4, _⟩ := h i (hs i (by simp))
    simp only [undo, k1, k2, k3, k4]
    exact ih _ (fun j hj => hs j (by simp [hj]))

theorem Stack.frame {c : Cfg} {us inh : List Nat} {s s' : UState} {f : Nat → Nat} (h : Frame us s s' f) (ts : List UTag) :
    ∀ {e st}, (∀ i ∈ used inh ts, i ∈ us) → Stack c s inh e ts st → Stack c s' inh e (ts.map (redirect f)) st := by
  induction ts with
  | nil => intro e st _ hs; cases st <;> exact hs
  | cons t ts ih =>
    intro e st hu hs
    cases st with
    | nil => exact hs
    | cons x st =>
      obtain ⟨n, env⟩ := x
      obtain ⟨h1, h2, h3⟩ := hs
      have hu2 : ∀ i ∈ used inh ts, i ∈ us := fun i hi => hu i (by
        simp only [used, List.flatMap_cons, List.mem_append] at hi ⊢
        grind)
      have hu3 : undo s'.binds e t.binds = undo s.binds e t.binds := undo_frame h _ _ (fun i hi => hu i (by
        simp [used, hi]))
      simp only [List.map_cons, Stack]
      have hr : used inh (redirect f t :: ts.map (redirect f)) = used inh (t :: ts) := by
        have := used_redirect inh f (t :: ts)
        simpa using this
      rw [hr, used_redirect]
      have hb : (redirect f t).binds = t.binds := rfl
      rw [hb, hu3]
      exact ⟨h1.frame (h.sub hu), h2.frame (h.sub hu2), ih hu2 h3⟩

theorem redirect_id (ts : List UTag) : ts.map (redirect id) = ts := by
  rw [List.map_congr_left (g := id)]
  · simp
  · intro t _; simp [redirect]

/-- A change of the memory beyond the URIs. -/
theorem Inv.write {c : Cfg} {s : UState} {inh pend : List Nat} {env env0 : Env} {st} (h : Inv c s inh pend env env0 st)
    {i : Nat} {b : PBind} (hb : s.binds[i]? = some b) {off : Nat} {v : Buf} (hoff : b.uriLen ≤ off)
    (hsz : off + v.length ≤ b.uriAlloc) :
    s.write b.uri off v = .ok (s.put b.uri (Raw.poke (s.mem b.uri) off v)) ∧
      Inv c (s.put b.uri (Raw.poke (s.mem b.uri) off v)) inh pend env env0 st := by
  have hl := h.sizes i b hb
  have hlen : (Raw.poke (s.mem b.uri) off v).length = b.uriAlloc := by rw [Raw.poke_length (by omega)]; exact hl
  have hf : Frame (pend ++ used inh s.tags) s (s.put b.uri (Raw.poke (s.mem b.uri) off v)) id := by
    intro j hj
    have hj2 := h.bound j (by simp only [List.mem_append] at hj ⊢; grind)
    refine ⟨s.binds[j], s.binds[j], List.getElem?_eq_getElem hj2, List.getElem?_eq_getElem hj2, rfl, rfl, rfl, Nat.le_refl _, rfl, ?_⟩
    simp only [UState.put]
    split
    · rename_i he
      have := h.addrs j i _ _ (List.getElem?_eq_getElem hj2) hb he
      subst this
      have hbj : s.binds[j] = b := by
        rw [List.getElem?_eq_getElem hj2] at hb
        simpa using hb
      rw [hbj]
      exact Raw.poke_take hoff (by omega)
    · rfl
  refine ⟨by simp [UState.write, hl, hsz], ?_⟩
  exact {
    nodup := h.nodup
    bound := h.bound
    addrs := h.addrs
    sizes := fun j b' hb' => by
      simp only [UState.put]
      split
      · rename_i he
        have := h.addrs j i b' b hb' hb he
        subst this
        have : b' = b := by
          have h1 : some b' = some b := by rw [← hb, ← hb']; rfl
          simpa using h1
        rw [this]
        exact hlen
      · exact h.sizes j b' hb'
    cur := h.cur.frame hf
    base := h.base.frame (hf.sub (fun i hi => by simp [hi]))
    stack := by
      have := Stack.frame (c := c) (inh := inh) (s := s) hf s.tags (fun i hi => by simp [hi]) h.stack
      rw [redirect_id] at this
      exact this }

/-! ### Declarations -/

structure Basic (s : UState) (us : List Nat) : Prop where
  nodup : (s.free ++ us).Nodup
  bound : ∀ i ∈ s.free ++ us, i < s.binds.length
  addrs : ∀ (i j : Nat) (b b' : PBind), s.binds[i]? = some b → s.binds[j]? = some b' → b.uri = b'.uri → i = j
  sizes : ∀ (i : Nat) (b : PBind), s.binds[i]? = some b → (s.mem b.uri).length = b.uriAlloc

theorem Inv.basic {c : Cfg} {s : UState} {inh pend : List Nat} {env env0 : Env} {st} (h : Inv c s inh pend env env0 st) :
    Basic s (pend ++ used inh s.tags) := ⟨h.nodup, h.bound, h.addrs, h.sizes⟩

theorem Frame.refl {us : List Nat} {s : UState} (h : ∀ i ∈ us, i < s.binds.length) : Frame us s s id :=
  fun i hi => ⟨s.binds[i]'(h i hi), s.binds[i]'(h i hi), by simp [h i hi], by simp [h i hi], rfl, rfl, rfl, Nat.le_refl _, rfl, rfl⟩

theorem Frame.trans {us : List Nat} {s s' s'' : UState} (h1 : Frame us s s' id) (h2 : Frame us s' s'' id) : Frame us s s'' id := by
  intro i hi
  obtain ⟨b, b', k1, k2, k3, k4, k5, k6, k7, k8⟩ := h1 i hi
  obtain ⟨c, c', l1, l2, l3, l4, l5, l6, l7, l8⟩ := h2 i hi
  rw [k2] at l1
  cases l1
  refine ⟨b, c', k1, l2, by rw [l3, k3], by rw [l4, k4], by rw [l5, k5], by omega, by rw [l7, k7]; rfl, ?_⟩
  rw [k5] at l8
  rw [l8, k8]

theorem getBinding_ok (H : Heap) {s : UState} {us : List Nat} (h : Basic s us) (len : Nat) :
    ∃ s' i b, getBinding H s len = (s', i) ∧ s'.binds[i]? = some b ∧ len ≤ b.uriAlloc ∧ i ∉ us ∧ Basic s' (i :: us) ∧
      s'.env = s.env ∧ s'.tags = s.tags ∧ Frame us s s' id := by
  unfold getBinding
  cases hf : s.free with
  | cons i is =>
    have hnd := h.nodup
    rw [hf] at hnd
    have hi : i < s.binds.length := h.bound i (by simp [hf])
    have hib : s.binds[i]? = some s.binds[i] := List.getElem?_eq_getElem hi
    have hnot : i ∉ us := by
      simp only [List.cons_append, List.nodup_cons, List.mem_append] at hnd
      exact fun e => hnd.1 (.inr e)
    have hnd2 : (is ++ i :: us).Nodup := by
      rw [List.nodup_append] at hnd ⊢
      simp only [List.nodup_cons, List.mem_cons] at hnd ⊢
      refine ⟨hnd.1.2, ⟨hnot, hnd.2.1⟩, ?_⟩
      intro a ha b hb e
      subst e
      rcases hb with hb | hb
      · subst hb; exact hnd.1.1 ha
      · exact hnd.2.2 a (.inr ha) a hb rfl
    have hbd : ∀ j ∈ is ++ i :: us, j < s.binds.length := by
      intro j hj
      apply h.bound
      rw [hf]
      simp only [List.mem_append, List.mem_cons] at hj ⊢
      grind
    simp only [hib]
    split
    · rename_i hgt
      have hset : ∀ (j : Nat) (b : PBind), (s.binds.set i { s.binds[i] with uri := H.realloc s i (len + spare), uriAlloc := len + spare })[j]? = some b →
          (j = i ∧ b = { s.binds[i] with uri := H.realloc s i (len + spare), uriAlloc := len + spare }) ∨ (j ≠ i ∧ s.binds[j]? = some b) := by
        intro j b hb
        rw [List.getElem?_set] at hb
        split at hb
        · rename_i he
          simp only [hi, if_true, Option.some.injEq] at hb
          exact .inl ⟨he.symm, hb.symm⟩
        · rename_i he; exact .inr ⟨fun e => he e.symm, hb⟩
      refine ⟨_, _, _, rfl, by rw [List.getElem?_set]; simp [hi]; rfl, by simp only; omega, hnot, ⟨hnd2, ?_, ?_, ?_⟩, rfl, rfl, ?_⟩
      · intro j hj; simp only [List.length_set]; exact hbd j hj
      · intro j k b b' hb hb' he
        rcases hset j b hb with ⟨h1, h2⟩ | ⟨h1, h2⟩ <;> rcases hset k b' hb' with ⟨h3, h4⟩ | ⟨h3, h4⟩
        · rw [h1, h3]
        · subst h2; exact absurd he (H.realloc_new s i _ k b' h3 h4)
        · subst h4; exact absurd he.symm (H.realloc_new s i _ j b h1 h2)
        · exact h.addrs j k b b' h2 h4 he
      · intro j b hb
        rcases hset j b hb with ⟨h1, h2⟩ | ⟨h1, h2⟩
        · subst h2; simp [UState.put, H.junk_length]
        · have := H.realloc_new s i (len + spare) j b h1 h2
          simp only [UState.put]
          rw [if_neg (fun e => this e.symm)]
          exact h.sizes j b h2
      · intro j hj
        have hji : j ≠ i := fun e => hnot (e ▸ hj)
        have hjl := h.bound j (by simp [hj])
        have hjb : s.binds[j]? = some s.binds[j] := List.getElem?_eq_getElem hjl
        refine ⟨s.binds[j], s.binds[j], hjb, ?_, rfl, rfl, rfl, Nat.le_refl _, rfl, ?_⟩
        · simp only; rw [List.getElem?_set, if_neg (fun e => hji e.symm)]; exact hjb
        · have := H.realloc_new s i (len + spare) j _ hji hjb
          simp only [UState.put]
          rw [if_neg (fun e => this e.symm)]
    · rename_i hgt
      refine ⟨_, _, _, rfl, hib, by omega, hnot, ⟨hnd2, hbd, h.addrs, h.sizes⟩, rfl, rfl, ?_⟩
      exact Frame.refl (s := s) (fun j hj => h.bound j (by simp [hj]))
  | nil =>
    have hnd := h.nodup
    have hbd := h.bound
    rw [hf] at hnd hbd
    have hnot : s.binds.length ∉ us := fun e => absurd (hbd s.binds.length (by simpa using e)) (by omega)
    have hget : ∀ (j : Nat) (b : PBind), (s.binds ++ [⟨none, H.malloc s (len + spare), 0, len + spare, none⟩])[j]? = some b →
        (j = s.binds.length ∧ b = ⟨none, H.malloc s (len + spare), 0, len + spare, none⟩) ∨ (s.binds[j]? = some b) := by
      intro j b hb
      rw [List.getElem?_append] at hb
      split at hb
      · exact .inr hb
      · rename_i hlt
        have : j - s.binds.length = 0 := by
          cases hj : j - s.binds.length with
          | zero => rfl
          | succ k => rw [hj] at hb; simp at hb
        rw [this] at hb
        simp only [List.getElem?_cons_zero, Option.some.injEq] at hb
        exact .inl ⟨by omega, hb.symm⟩
    refine ⟨_, _, _, rfl, by simp; rfl, by simp only; omega, hnot, ⟨?_, ?_, ?_, ?_⟩, rfl, rfl, ?_⟩
    · simp only [UState.put, hf, List.nil_append, List.nodup_cons] at hnd ⊢
      exact ⟨hnot, hnd⟩
    · intro j hj
      simp only [UState.put, hf, List.nil_append, List.mem_cons, List.length_append, List.length_cons, List.length_nil] at hj ⊢
      rcases hj with hj | hj
      · omega
      · have := hbd j (by simp [hj]); omega
    · intro j k b b' hb hb' he
      rcases hget j b hb with ⟨h1, h2⟩ | h2 <;> rcases hget k b' hb' with ⟨h3, h4⟩ | h4
      · rw [h1, h3]
      · subst h2; exact absurd he (H.malloc_new s _ k b' h4)
      · subst h4; exact absurd he.symm (H.malloc_new s _ j b h2)
      · exact h.addrs j k b b' h2 h4 he
    · intro j b hb
      rcases hget j b hb with ⟨h1, h2⟩ | h2
      · subst h2; simp [UState.put, H.junk_length]
      · have := H.malloc_new s (len + spare) j b h2
        simp only [UState.put]
        rw [if_neg (fun e => this e.symm)]
        exact h.sizes j b h2
    · intro j hj
      have hjl := hbd j (by simp [hj])
      have hjb : s.binds[j]? = some s.binds[j] := List.getElem?_eq_getElem hjl
      refine ⟨s.binds[j], s.binds[j], hjb, ?_, rfl, rfl, rfl, Nat.le_refl _, rfl, ?_⟩
      · simp only; rw [List.getElem?_append_left hjl]; exact hjb
      · have := H.malloc_new s (len + spare) j _ hjb
        simp only [UState.put]
        rw [if_neg (fun e => this e.symm)]

/-- Writing to the buffer of a binding that is not among `us`. -/
theorem Basic.write {s : UState} {us vs : List Nat} (h : Basic s vs) {i : Nat} {b : PBind} (hb : s.binds[i]? = some b)
    (hu : ∀ j ∈ us, j < s.binds.length) (hi : i ∉ us) {off : Nat} {v : Buf} (hsz : off + v.length ≤ b.uriAlloc) :
    s.write b.uri off v = .ok (s.put b.uri (Raw.poke (s.mem b.uri) off v)) ∧
      Basic (s.put b.uri (Raw.poke (s.mem b.uri) off v)) vs ∧ Frame us s (s.put b.uri (Raw.poke (s.mem b.uri) off v)) id := by
  have hl := h.sizes i b hb
  refine ⟨by simp [UState.write, hl, hsz], ⟨h.nodup, h.bound, h.addrs, ?_⟩, ?_⟩
  · intro j b' hb'
    simp only [UState.put]
    split
    · rename_i he
      have := h.addrs j i b' b hb' hb he
      subst this
      have : b' = b := by
        have h1 : some b' = some b := by rw [← hb, ← hb']; rfl
        simpa using h1
      rw [this, Raw.poke_length (by omega)]
      exact hl
    · exact h.sizes j b' hb'
  · intro j hj
    have hjb : s.binds[j]? = some (s.binds[j]'(hu j hj)) := List.getElem?_eq_getElem (hu j hj)
    refine ⟨_, _, hjb, hjb, rfl, rfl, rfl, Nat.le_refl _, rfl, ?_⟩
    simp only [UState.put]
    rw [if_neg]
    intro e
    exact hi (h.addrs j i _ _ hjb hb e ▸ hj)

theorem addBind_ok (H : Heap) {c : Cfg} {s : UState} {inh pend : List Nat} {env env0 : Env} {st}
    (h : Inv c s inh pend env env0 st) (p : Option Buf) (u : Buf) (hu : (0 : UInt8) ∉ u) (hp : ∀ q, p = some q → (0 : UInt8) ∉ q) :
    ∃ s' i, addBind H c s p u = .ok (s', i) ∧ s'.tags = s.tags ∧
      Inv c s' inh (i :: pend) (env.set p (if p = none ∧ u = [] then none else some u)) env0 st := by
  obtain ⟨s1, i, b, e1, hb, hlen, hnot, hB, henv, htags, hF⟩ := getBinding_ok H h.basic (u.length + (if c.sep = 0 then 0 else 1))
  have hus : ∀ j ∈ pend ++ used inh s.tags, j < s1.binds.length := fun j hj => hB.bound j (by simp only [List.mem_append, List.mem_cons] at hj ⊢; grind)
  -- the writes
  have hw : ∃ s2, (match s1.write b.uri 0 ((u ++ [0]).take (u.length + (if c.sep = 0 then 0 else 1))) with
      | .error e => Except.error e
      | .ok s => if c.sep = 0 then .ok s else s.write b.uri (u.length + (if c.sep = 0 then 0 else 1) - 1) [c.sep]) = .ok s2 ∧
      Basic s2 (i :: (pend ++ used inh s.tags)) ∧ Frame (pend ++ used inh s.tags) s1 s2 id ∧ s2.binds = s1.binds ∧ s2.env = s1.env ∧
      s2.tags = s1.tags ∧ s2.free = s1.free ∧
      (s2.mem b.uri).take (u ++ c.sepB).length = u ++ c.sepB := by
    by_cases hsep : c.sep = 0
    · simp only [hsep, if_true, Nat.add_zero] at hlen ⊢
      have ht : (u ++ [0]).take u.length = u := by simp
      rw [ht]
      obtain ⟨w1, w2, w3⟩ := hB.write hb hus hnot (off := 0) (v := u) (by omega)
      rw [w1]
      refine ⟨_, rfl, w2, w3, rfl, rfl, rfl, rfl, ?_⟩
      simp [UState.put, Raw.poke, Cfg.sepB, hsep]
    · simp only [hsep, if_false] at hlen ⊢
      have ht : (u ++ [0]).take (u.length + 1) = u ++ [0] := by rw [List.take_of_length_le (by simp)]
      rw [ht]
      obtain ⟨w1, w2, w3⟩ := hB.write hb hus hnot (off := 0) (v := u ++ [0]) (by simp; omega)
      rw [w1]
      simp only
      obtain ⟨x1, x2, x3⟩ := w2.write (i := i) (b := b) hb hus hnot (off := u.length + 1 - 1) (v := [c.sep]) (by simp; omega)
      rw [x1]
      refine ⟨_, rfl, x2, w3.trans x3, rfl, rfl, rfl, rfl, ?_⟩
      simp [UState.put, Raw.poke, Cfg.sepB, hsep]
      rw [List.take_append, List.take_of_length_le (by omega)]
      simp
  obtain ⟨s2, e2, hB2, hF2, hbinds, henv2, htags2, hfree2, htake⟩ := hw
  have hFa := hF.trans hF2
  have hil : i < s2.binds.length := hB2.bound i (by simp)
  generalize hb' : ({ b with pre := p, uriLen := u.length + (if c.sep = 0 then 0 else 1), prev := s2.env p } : PBind) = b'
  generalize hs3 : ({ s2 with
          binds := s2.binds.set i b'
          env := setPtr s2.env p (if p = none ∧ u = [] then none else some i) } : UState) = s3
  have hget : ∀ (j : Nat) (d : PBind), s3.binds[j]? = some d → (j = i ∧ d = b') ∨ (j ≠ i ∧ s2.binds[j]? = some d) := by
    intro j d hd
    subst hs3
    simp only at hd
    rw [List.getElem?_set] at hd
    split at hd
    · rename_i he
      simp only [hil, if_true, Option.some.injEq] at hd
      exact .inl ⟨he.symm, hd.symm⟩
    · rename_i he; exact .inr ⟨fun e => he e.symm, hd⟩
  have hgi : s3.binds[i]? = some b' := by subst hs3; simp [hil]
  have hbi : s2.binds[i]? = some b := by rw [hbinds]; exact hb
  have huri : b'.uri = b.uri := by subst hb'; rfl
  have hF3 : Frame (pend ++ used inh s.tags) s2 s3 id := by
    intro j hj
    have hji : j ≠ i := fun e => hnot (e ▸ hj)
    have hjb : s2.binds[j]? = some (s2.binds[j]'(by rw [hbinds]; exact hus j hj)) := List.getElem?_eq_getElem _
    refine ⟨_, _, hjb, ?_, rfl, rfl, rfl, Nat.le_refl _, rfl, by subst hs3; rfl⟩
    subst hs3
    simp only
    rw [List.getElem?_set, if_neg (fun e => hji e.symm)]
    exact hjb
  have hFt := hFa.trans hF3
  have hmem : s3.mem = s2.mem := by subst hs3; rfl
  have htg : s3.tags = s.tags := by subst hs3; rw [← htags, ← htags2]
  have hfr : s3.free = s2.free := by subst hs3; rfl
  have hen : s3.env = setPtr s.env p (if p = none ∧ u = [] then none else some i) := by subst hs3; simp only; rw [henv2, henv]
  have hH : Holds c s3 i p u := by
    refine ⟨hu, hp, b', hgi, by subst hb'; rfl, ?_, ?_⟩
    · subst hb'; simp only [Cfg.sepB]; split <;> simp
    · rw [hmem, huri]
      have : b'.uriLen = (u ++ c.sepB).length := by subst hb'; simp only [Cfg.sepB]; split <;> simp
      rw [this]; exact htake
  have hundo : undo s3.binds s3.env (i :: pend) = undo s.binds s.env pend := by
    simp only [undo, hgi]
    have h1 : setPtr s3.env b'.pre b'.prev = s.env := by
      have : b'.pre = p ∧ b'.prev = s.env p := by subst hb'; exact ⟨rfl, by simp only; rw [henv2, henv]⟩
      rw [this.1, this.2, hen]
      funext q
      simp only [setPtr]
      split
      · rename_i e; rw [e]
      · rfl
    rw [h1]
    exact undo_frame hFt _ _ (fun j hj => by simp [hj])
  refine ⟨s3, i, ?_, htg, ?_⟩
  · unfold addBind
    simp only [e1, hb]
    generalize s1.write b.uri 0 ((u ++ [0]).take (u.length + (if c.sep = 0 then 0 else 1))) = w1 at e2 ⊢
    cases w1 with
    | error e => cases e2
    | ok x =>
      simp only at e2 ⊢
      rw [e2]
      simp only [hb', hs3]
  · exact {
      nodup := by rw [htg, hfr]; exact hB2.nodup
      bound := by
        rw [htg, hfr]
        intro j hj
        have := hB2.bound j hj
        subst hs3
        simpa using this
      addrs := by
        intro j k d d' hd hd' he
        rcases hget j d hd with ⟨h1, h2⟩ | ⟨h1, h2⟩ <;> rcases hget k d' hd' with ⟨h3, h4⟩ | ⟨h3, h4⟩
        · rw [h1, h3]
        · rw [h1]; rw [h2, huri] at he; exact hB2.addrs i k _ _ hbi h4 he
        · rw [h3]; rw [h4, huri] at he; exact hB2.addrs j i _ _ h2 hbi he
        · exact hB2.addrs j k _ _ h2 h4 he
      sizes := by
        intro j d hd
        rw [hmem]
        rcases hget j d hd with ⟨h1, h2⟩ | ⟨h1, h2⟩
        · rw [h2, huri, hB2.sizes i b hbi]; subst hb'; rfl
        · exact hB2.sizes j d h2
      cur := by
        rw [htg, hen]
        intro q
        by_cases hq : q = p
        · subst hq
          by_cases hun : q = none ∧ u = []
          · exact .inl ⟨by simp [setPtr, hun], by simp [Env.set, hun]⟩
          · exact .inr ⟨i, u, by simp [setPtr, hun], by simp [Env.set, hun], by simp, hH⟩
        · rcases h.cur q with h0 | ⟨j, v, h1, h2, h3, h4⟩
          · exact .inl (by simpa [setPtr, Env.set, hq] using h0)
          · exact .inr ⟨j, v, by simpa [setPtr, hq] using h1, by simpa [Env.set, hq] using h2, by
              simp only [List.cons_append, List.mem_cons]; exact .inr h3, h4.frame hFt h3⟩
      base := by
        rw [hundo, htg]
        exact h.base.frame (hFt.sub (fun j hj => by simp [hj]))
      stack := by
        rw [hundo, htg]
        have := Stack.frame (c := c) (inh := inh) hFt s.tags (fun j hj => by simp [hj]) h.stack
        rw [redirect_id] at this
        exact this }

/-- No NUL in declarations. -/
def CleanD (ds : List (Option Buf × Buf)) : Prop := ∀ d ∈ ds, (0 : UInt8) ∉ d.2 ∧ ∀ q, d.1 = some q → (0 : UInt8) ∉ q

theorem addBinds_ok (H : Heap) {c : Cfg} {inh : List Nat} {env0 : Env} {st} (ds : List (Option Buf × Buf)) : ∀ {s : UState} {pend : List Nat} {env : Env},
    CleanD ds → Inv c s inh pend env env0 st →
    ∃ s' bs, addBinds H c s pend ds = .ok (s', bs) ∧ s'.tags = s.tags ∧ Inv c s' inh bs (declared env ds) env0 st := by
  induction ds with
  | nil => intro s pend env _ h; exact ⟨s, pend, rfl, rfl, h⟩
  | cons d ds ih =>
    intro s pend env hc h
    obtain ⟨p, u⟩ := d
    have h0 := hc (p, u) (by simp)
    obtain ⟨s1, i, e1, ht, h1⟩ := addBind_ok H h p u h0.1 h0.2
    obtain ⟨s2, bs, e2, ht2, h2⟩ := ih (fun d hd => hc d (by simp [hd])) h1
    exact ⟨s2, bs, by simp only [addBinds, e1, e2], by rw [ht2, ht], h2⟩

/-! ### Names -/

/-- The bytes that are written give the name. -/
theorem full_of {c : Cfg} {u l d raw : Buf} {p : Option Buf} (hu : (0 : UInt8) ∉ u) (hl : (0 : UInt8) ∉ l)
    (hp : ∀ q, p = some q → (0 : UInt8) ∉ q) :
    cstr (u ++ c.sepB ++ l ++ (if c.triplets && p.isSome then c.sep :: p.getD [] else []) ++ 0 :: d) =
      TagName.full c ⟨raw, some (u, l, p)⟩ := by
  have hs : (0 : UInt8) ∉ c.sepB := by
    simp only [Cfg.sepB]
    split
    · simp
    · rename_i h; simp only [List.mem_singleton]; exact fun e => h e.symm
  have h3 : (0 : UInt8) ∉ u ++ c.sepB ++ l := by simp [hu, hl, hs]
  cases p with
  | none =>
    have := cstr_append (b := d) h3
    simpa [TagName.full] using this
  | some p =>
    have hp := hp p rfl
    by_cases ht : c.triplets = true
    · by_cases hz : c.sep = 0
      · have := cstr_append (b := p ++ 0 :: d) h3
        simpa [TagName.full, ht, Cfg.suffix, hz] using this
      · have h4 : (0 : UInt8) ∉ u ++ c.sepB ++ l ++ c.sep :: p := by
          simp only [List.mem_append, List.mem_cons] at h3 ⊢
          have := Ne.symm hz
          grind
        have := cstr_append (b := d) h4
        simpa [TagName.full, ht, Cfg.suffix, hz] using this
    · have := cstr_append (b := d) h3
      simpa [TagName.full, ht, Cfg.suffix] using this

theorem preLen_eq (c : Cfg) (p : Option Buf) : preLen c p = (if c.triplets && p.isSome then (p.getD []).length + 1 else 0) := by
  unfold preLen
  cases c.triplets <;> cases p <;> simp

theorem redirect_eq (x a : Nat) (ts : List UTag) :
    (ts.map fun t => if t.str = some x then { t with str := some a } else t) = ts.map (redirect fun y => if y = x then a else y) := by
  apply List.map_congr_left
  intro t _
  obtain ⟨str, raw, loc, n, p, bs⟩ := t
  cases str with
  | none => simp [redirect]
  | some y =>
    by_cases h : y = x
    · simp [redirect, h]
    · simp [redirect, h]

theorem grow_ok (H : Heap) {c : Cfg} {s : UState} {inh pend : List Nat} {env env0 : Env} {st} (h : Inv c s inh pend env env0 st)
    {i : Nat} {b : PBind} (hb : s.binds[i]? = some b) {n : Nat} (hn : b.uriAlloc ≤ n) (hul : b.uriLen ≤ b.uriAlloc) :
    (growUri H s i b n).binds[i]? = some { b with uri := H.malloc s (n + spare), uriAlloc := n + spare } ∧
      ((growUri H s i b n).mem (H.malloc s (n + spare))).take b.uriLen = (s.mem b.uri).take b.uriLen ∧
      (growUri H s i b n).env = s.env ∧
      used inh (growUri H s i b n).tags = used inh s.tags ∧ Inv c (growUri H s i b n) inh pend env env0 st := by
  generalize ha : H.malloc s (n + spare) = a
  have hnew : ∀ (j : Nat) (d : PBind), s.binds[j]? = some d → d.uri ≠ a := fun j d hd e => H.malloc_new s (n + spare) j d hd (by rw [ha, e])
  have hil : i < s.binds.length := by
    rw [List.getElem?_eq_some_iff] at hb
    exact hb.1
  have hsz := h.sizes i b hb
  have hpk : (Raw.poke (H.junk s (n + spare)) 0 ((s.mem b.uri).take b.uriLen)).take b.uriLen = (s.mem b.uri).take b.uriLen := by
    simp only [Raw.poke, List.take_zero, List.nil_append]
    rw [List.take_append_of_le_length (by rw [List.length_take]; omega), List.take_take, Nat.min_self]
  have hpl : (Raw.poke (H.junk s (n + spare)) 0 ((s.mem b.uri).take b.uriLen)).length = n + spare := by
    rw [Raw.poke_length (by simp [H.junk_length]; omega), H.junk_length]
  generalize hs' : growUri H s i b n = s'
  unfold growUri at hs'
  simp only [ha] at hs'
  rw [redirect_eq] at hs'
  generalize hf : (fun y => if y = b.uri then a else y) = f at hs'
  have hgi : s'.binds[i]? = some { b with uri := a, uriAlloc := n + spare } := by subst hs'; simp [hil]
  have hma : s'.mem a = Raw.poke (H.junk s (n + spare)) 0 ((s.mem b.uri).take b.uriLen) := by subst hs'; simp [UState.put]
  have hmo : ∀ x, x ≠ a → s'.mem x = s.mem x := by intro x hx; subst hs'; simp [UState.put, hx]
  have htg : s'.tags = s.tags.map (redirect f) := by subst hs'; rfl
  have hut : used inh s'.tags = used inh s.tags := by rw [htg, used_redirect]
  have hfr : s'.free = s.free := by subst hs'; rfl
  have hen : s'.env = s.env := by subst hs'; rfl
  have hget : ∀ (j : Nat) (d : PBind), s'.binds[j]? = some d → (j = i ∧ d = { b with uri := a, uriAlloc := n + spare }) ∨ (j ≠ i ∧ s.binds[j]? = some d) := by
    intro j d hd
    by_cases hj : j = i
    · subst hj; rw [hgi] at hd; exact .inl ⟨rfl, by simpa using hd.symm⟩
    · refine .inr ⟨hj, ?_⟩
      subst hs'
      simp only at hd
      rwa [List.getElem?_set, if_neg (fun e => hj e.symm)] at hd
  have hF : Frame (pend ++ used inh s.tags) s s' f := by
    intro j hj
    have hjl := h.bound j (by simp only [List.mem_append] at hj ⊢; grind)
    by_cases hji : j = i
    · subst hji
      refine ⟨_, _, hb, hgi, rfl, rfl, rfl, by simp only; omega, by subst hf; simp, ?_⟩
      simp only [hma]
      exact hpk
    · have hjb : s.binds[j]? = some s.binds[j] := List.getElem?_eq_getElem hjl
      have hne : s.binds[j].uri ≠ b.uri := fun e => hji (h.addrs j i _ _ hjb hb e)
      refine ⟨_, _, hjb, ?_, rfl, rfl, rfl, Nat.le_refl _, by subst hf; simp [hne], ?_⟩
      · subst hs'; simp only; rw [List.getElem?_set, if_neg (fun e => hji e.symm)]; exact hjb
      · rw [hmo _ (hnew j _ hjb)]
  have hundo : undo s'.binds s'.env pend = undo s.binds s.env pend := by
    rw [hen]; exact undo_frame hF _ _ (fun j hj => by simp [hj])
  refine ⟨hgi, by rw [hma]; exact hpk, hen, hut, ?_⟩
  exact {
    nodup := by rw [hut, hfr]; exact h.nodup
    bound := by
      rw [hut, hfr]
      intro j hj
      have := h.bound j hj
      subst hs'
      simpa using this
    addrs := by
      intro j k d d' hd hd' he
      rcases hget j d hd with ⟨h1, h2⟩ | ⟨h1, h2⟩ <;> rcases hget k d' hd' with ⟨h3, h4⟩ | ⟨h3, h4⟩
      · rw [h1, h3]
      · subst h2; exact absurd he.symm (hnew k d' h4)
      · subst h4; exact absurd he (hnew j d h2)
      · exact h.addrs j k d d' h2 h4 he
    sizes := by
      intro j d hd
      rcases hget j d hd with ⟨h1, h2⟩ | ⟨h1, h2⟩
      · subst h2; simp only [hma]; exact hpl
      · rw [hmo _ (hnew j d h2)]; exact h.sizes j d h2
    cur := by rw [hut, hen]; exact h.cur.frame hF
    base := by rw [hut, hundo]; exact h.base.frame (hF.sub (fun j hj => by simp [hj]))
    stack := by
      rw [hundo, htg]
      exact Stack.frame (c := c) (inh := inh) hF s.tags (fun j hj => by simp [hj]) h.stack }

theorem place_ok (H : Heap) {c : Cfg} (hns : c.ns = true) {s : UState} {inh pend : List Nat} {env env0 : Env} {st} (h : Inv c s inh pend env env0 st)
    {i : Nat} {p : Option Buf} {u l : Buf} (hi : i ∈ pend ++ used inh s.tags) (hh : Holds c s i p u) (hl : (0 : UInt8) ∉ l) (raw : Buf) (bs : List Nat) :
    ∃ s' t, place H c s bs i raw l = .ok (s', t) ∧ Inv c s' inh pend env env0 st ∧ t.binds = bs ∧
      Named c s' (pend ++ used inh s'.tags) t ⟨raw, some (u, l, p)⟩ ∧ s'.shows t = TagName.full c ⟨raw, some (u, l, p)⟩ := by
  obtain ⟨hu, hp, b, hb, hpre, hlen, htake⟩ := hh
  have hul : b.uriLen ≤ b.uriAlloc := by
    rw [← h.sizes i b hb]
    have := congrArg List.length htake
    rw [List.length_take] at this
    omega
  -- with room
  have main : ∀ (s1 : UState) (b1 : PBind), Inv c s1 inh pend env env0 st → s1.binds[i]? = some b1 → b1.pre = p → b1.uriLen = (u ++ c.sepB).length →
      (s1.mem b1.uri).take b1.uriLen = u ++ c.sepB → l.length + 1 + b1.uriLen + preLen c b1.pre ≤ b1.uriAlloc → i ∈ pend ++ used inh s1.tags →
      ∃ s2, (match s1.write b1.uri b1.uriLen (l ++ [0]) with
        | .error e => Except.error e
        | .ok s => if preLen c b1.pre ≠ 0 then s.write b1.uri (b1.uriLen + l.length) (c.sep :: b1.pre.getD [] ++ [0]) else .ok s) = .ok s2 ∧
        Inv c s2 inh pend env env0 st ∧
        Named c s2 (pend ++ used inh s2.tags) ⟨some b1.uri, raw, some l, b1.uriLen, b1.pre, bs⟩ ⟨raw, some (u, l, p)⟩ ∧
        cstr (s2.mem b1.uri) = TagName.full c ⟨raw, some (u, l, p)⟩ := by
    intro s1 b1 h1 hb1 hpre1 hlen1 htake1 hroom hi1
    obtain ⟨w1, w2⟩ := h1.write hb1 (off := b1.uriLen) (v := l ++ [0]) (Nat.le_refl _) (by simp; omega)
    rw [w1]
    simp only
    have hnamed : ∀ s2 : UState, s2.binds = s1.binds → s2.tags = s1.tags → (s2.mem b1.uri).take b1.uriLen = u ++ c.sepB →
        Named c s2 (pend ++ used inh s2.tags) ⟨some b1.uri, raw, some l, b1.uriLen, b1.pre, bs⟩ ⟨raw, some (u, l, p)⟩ := by
      intro s2 e1 e2 e3
      rw [e2]
      refine ⟨rfl, .inr ⟨i, p, u, l, b1, rfl, hi1, ⟨hu, hp, b1, by rw [e1]; exact hb1, hpre1, hlen1, e3⟩, by rw [e1]; exact hb1, rfl, rfl, rfl, hpre1, hl, ?_, hns⟩⟩
      rw [← hpre1]; exact hroom
    have hm1 : Raw.poke (s1.mem b1.uri) b1.uriLen (l ++ [0]) = u ++ c.sepB ++ (l ++ [0]) ++ (s1.mem b1.uri).drop (b1.uriLen + (l ++ [0]).length) := by
      rw [Raw.poke, htake1]
    by_cases hz : preLen c b1.pre = 0
    · simp only [hz, ne_eq, not_true_eq_false, if_false]
      refine ⟨_, rfl, w2, hnamed _ rfl rfl ?_, ?_⟩
      · simp only [UState.put, if_true]
        rw [hm1, hlen1, List.append_assoc, List.take_left]
      · simp only [UState.put, if_true, hm1]
        rw [preLen_eq, hpre1] at hz
        have := full_of (c := c) (raw := raw) (d := (s1.mem b1.uri).drop (b1.uriLen + (l ++ [0]).length)) hu hl hp
        rw [← this]
        split at hz
        · omega
        · rename_i hc; rw [if_neg hc]; simp
    · simp only [ne_eq, hz, not_false_eq_true, if_true]
      have hpl : preLen c b1.pre = (b1.pre.getD []).length + 1 := by
        rw [preLen_eq] at hz ⊢
        split
        · rfl
        · rename_i hc; rw [if_neg hc] at hz; exact absurd rfl hz
      obtain ⟨x1, x2⟩ := w2.write (i := i) (b := b1) hb1 (off := b1.uriLen + l.length) (v := c.sep :: b1.pre.getD [] ++ [0]) (by omega) (by
        simp only [List.length_append, List.length_cons, List.length_nil]; omega)
      rw [x1]
      refine ⟨_, rfl, x2, hnamed _ rfl rfl ?_, ?_⟩
      · simp only [UState.put, if_true]
        rw [Raw.poke_take (by omega) (by rw [hm1, hlen1]; simp only [List.length_append]; omega), hm1, hlen1, List.append_assoc, List.take_left]
      · simp only [UState.put, if_true, hm1]
        rw [Raw.poke]
        have ht : (u ++ c.sepB ++ (l ++ [(0 : UInt8)]) ++ (s1.mem b1.uri).drop (b1.uriLen + (l ++ [(0 : UInt8)]).length)).take (b1.uriLen + l.length) = u ++ c.sepB ++ l := by
          rw [hlen1]
          generalize List.drop _ _ = d
          have : u ++ c.sepB ++ (l ++ [0]) ++ d = (u ++ c.sepB ++ l) ++ (0 :: d) := by simp
          rw [this, ← List.length_append, List.take_left]
        rw [ht]
        generalize List.drop _ _ = d
        have := full_of (c := c) (raw := raw) (d := d) hu hl hp
        rw [← this]
        have hc : (c.triplets && p.isSome) = true := by
          rw [preLen_eq, hpre1] at hz
          by_cases hc : (c.triplets && p.isSome) = true
          · exact hc
          · rw [if_neg hc] at hz; exact absurd rfl hz
        rw [if_pos hc, hpre1]
        simp
  unfold place
  simp only [hb]
  by_cases hg : l.length + 1 + b.uriLen + preLen c b.pre > b.uriAlloc
  · simp only [hg, if_true]
    obtain ⟨g1, g2, g3, g4, g5⟩ := grow_ok H h hb (Nat.le_of_lt hg) hul
    obtain ⟨s2, m1, m2, m3, m4⟩ := main _ _ g5 g1 hpre hlen (by simp only; rw [g2]; exact htake) (by simp only; omega) (by rw [g4]; exact hi)
    simp only [g1]
    simp only at m1
    generalize UState.write _ _ b.uriLen (l ++ [0]) = w at m1 ⊢
    cases w with
    | error e => cases m1
    | ok x =>
      simp only at m1 ⊢
      rw [m1]
      exact ⟨s2, _, rfl, m2, rfl, m3, m4⟩
  · simp only [hg, if_false, hb]
    obtain ⟨s2, m1, m2, m3, m4⟩ := main s b h hb hpre hlen htake (by omega) hi
    generalize UState.write _ _ b.uriLen (l ++ [0]) = w at m1 ⊢
    cases w with
    | error e => cases m1
    | ok x =>
      simp only at m1 ⊢
      rw [m1]
      exact ⟨s2, _, rfl, m2, rfl, m3, m4⟩

theorem splitColon_clean {raw p l : Buf} (h : splitColon raw = some (p, l)) (hr : (0 : UInt8) ∉ raw) : (0 : UInt8) ∉ p ∧ (0 : UInt8) ∉ l := by
  rw [C73.splitColon_some h] at hr
  simp only [List.mem_append, List.mem_cons] at hr
  exact ⟨fun e => hr (.inl e), fun e => hr (.inr (.inr e))⟩

theorem attName_ok {c : Cfg} {s : UState} {us : List Nat} {env : Env} (h : Level c s us s.env env) {n : Buf} (hn : (0 : UInt8) ∉ n) :
    attName c s n = expanded c env n := by
  unfold attName expanded
  cases hk : attKind c.ns n with
  | plain => rfl
  | xmlns p => rfl
  | prefixed q =>
    cases hs : splitColon n with
    | none => rfl
    | some x =>
      obtain ⟨p, l⟩ := x
      have hc := splitColon_clean hs hn
      simp only
      rcases h (some p) with ⟨h1, h2⟩ | ⟨i, u, h1, h2, _, hu, hp, b, hb, hpre, hlen, htake⟩
      · simp [h1, h2]
      · simp only [h1, hb, h2, Option.map_some, Option.some.injEq, htake, hpre]
        have := full_of (c := c) (raw := []) (d := []) hu hc.2 hp
        simpa [TagName.full] using this

theorem attNames_ok {c : Cfg} {s : UState} {us : List Nat} {env : Env} (h : Level c s us s.env env) (ns : List Buf) :
    (∀ n ∈ ns, (0 : UInt8) ∉ n) → attNames c s ns = expandAll c env ns := by
  induction ns with
  | nil => intro _; rfl
  | cons n ns ih =>
    intro hn
    simp only [attNames, expandAll]
    rw [attName_ok h (hn n (by simp)), ih (fun m hm => hn m (by simp [hm]))]

/-- The name of a tag: what `elemName` says. -/
def NamedAs (H : Heap) (c : Cfg) (s : UState) (inh pend : List Nat) (env env0 : Env) (st : List (TagName × Env)) (raw : Buf) : Except XErr TagName → Prop
  | .error _ => nameTag H c s pend raw = .error .unbound
  | .ok n => ∃ s' t, nameTag H c s pend raw = .ok (s', t) ∧ Inv c s' inh pend env env0 st ∧ t.binds = pend ∧
      Named c s' (pend ++ used inh s'.tags) t n ∧ s'.shows t = n.full c

theorem nameTag_ok (H : Heap) {c : Cfg} {s : UState} {inh pend : List Nat} {env env0 : Env} {st} (h : Inv c s inh pend env env0 st)
    {raw : Buf} (hr : (0 : UInt8) ∉ raw) : NamedAs H c s inh pend env env0 st raw (elemName c env raw) := by
  have hown : ∃ s' t, (Except.ok (s, ⟨none, raw, none, 0, none, pend⟩) : Except Stop (UState × UTag)) = .ok (s', t) ∧ Inv c s' inh pend env env0 st ∧ t.binds = pend ∧
      Named c s' (pend ++ used inh s'.tags) t ⟨raw, none⟩ ∧ s'.shows t = TagName.full c ⟨raw, none⟩ :=
    ⟨_, _, rfl, h, rfl, ⟨rfl, .inl ⟨rfl, rfl, rfl⟩⟩, rfl⟩
  unfold elemName
  by_cases hns : c.ns = true
  · simp only [hns, Bool.not_true, Bool.false_eq_true, if_false]
    cases hs : splitColon raw with
    | none =>
      simp only
      rcases h.cur none with ⟨h1, h2⟩ | ⟨i, u, h1, h2, h3, h4⟩
      · simp only [h2, NamedAs, nameTag, hns, Bool.not_true, Bool.false_eq_true, if_false, hs, h1]
        exact hown
      · simp only [h2, NamedAs, nameTag, hns, Bool.not_true, Bool.false_eq_true, if_false, hs, h1]
        exact place_ok H hns h h3 h4 hr raw pend
    | some x =>
      obtain ⟨p, l⟩ := x
      have hc := splitColon_clean hs hr
      simp only
      rcases h.cur (some p) with ⟨h1, h2⟩ | ⟨i, u, h1, h2, h3, h4⟩
      · simp only [h2, NamedAs, nameTag, hns, Bool.not_true, Bool.false_eq_true, if_false, hs, h1]
      · simp only [h2, NamedAs, nameTag, hns, Bool.not_true, Bool.false_eq_true, if_false, hs, h1]
        exact place_ok H hns h h3 h4 hc.2 raw pend
  · have hns : c.ns = false := by simpa using hns
    simp only [hns, Bool.not_false, if_true, NamedAs, nameTag]
    exact hown

/-! ### The end of elements -/

theorem release_eq (is : List Nat) : ∀ s : UState, (∀ i ∈ is, i < s.binds.length) →
    release s is = { s with free := is.reverse ++ s.free, env := undo s.binds s.env is } := by
  induction is with
  | nil => intro s _; rfl
  | cons i is ih =>
    intro s h
    have hi := h i (by simp)
    have hb : s.binds[i]? = some s.binds[i] := List.getElem?_eq_getElem hi
    simp only [release, undo, hb]
    exact (ih { s with free := i :: s.free, env := setPtr s.env s.binds[i].pre s.binds[i].prev } (fun j hj => h j (by simp [hj]))).trans (by simp)

theorem Stack.same {c : Cfg} {s s' : UState} {inh : List Nat} (hb : s'.binds = s.binds) (hm : s'.mem = s.mem) (ts : List UTag) :
    ∀ {e st}, Stack c s inh e ts st → Stack c s' inh e ts st := by
  induction ts with
  | nil => intro e st h; cases st <;> exact h
  | cons t ts ih =>
    intro e st h
    cases st with
    | nil => exact h
    | cons x st =>
      obtain ⟨h1, h2, h3⟩ := h
      refine ⟨?_, ?_, ?_⟩
      · simpa [Named, Holds, hb, hm] using h1
      · simpa [Level, Holds, hb, hm] using h2
      · rw [hb]; exact ih h3

theorem release_ok {c : Cfg} {s : UState} {inh pend : List Nat} {env env0 : Env} {st} (h : Inv c s inh pend env env0 st) :
    Inv c (release s pend) inh [] env0 env0 st := by
  rw [release_eq pend s (fun i hi => h.bound i (by simp [hi]))]
  have hp : ((pend.reverse ++ s.free) ++ used inh s.tags).Perm (s.free ++ (pend ++ used inh s.tags)) := by
    rw [← List.append_assoc]
    apply List.Perm.append_right
    exact (List.perm_append_comm).trans ((List.Perm.append_left s.free (List.reverse_perm pend)))
  exact {
    nodup := by simp only [List.nil_append]; exact hp.nodup_iff.2 h.nodup
    bound := by
      simp only [List.nil_append]
      intro i hi
      exact h.bound i (hp.mem_iff.1 hi)
    addrs := h.addrs
    sizes := h.sizes
    cur := h.base
    base := h.base
    stack := by refine Stack.same (s := s) ?_ ?_ _ ?_ <;> first | exact h.stack | rfl }

theorem used_cons (inh : List Nat) (t : UTag) (ts : List UTag) : used inh (t :: ts) = t.binds ++ used inh ts := by
  simp [used]

/-- A tag is put on the stack. -/
theorem push_ok {c : Cfg} {s : UState} {inh : List Nat} {t : UTag} {env env0 : Env} {st} {n : TagName} (h : Inv c s inh t.binds env env0 st)
    (hn : Named c s (t.binds ++ used inh s.tags) t n) : Inv c { s with tags := t :: s.tags } inh [] env env ((n, env0) :: st) := by
  have hu := used_cons inh t s.tags
  exact {
    nodup := by simp only [hu, List.nil_append]; exact h.nodup
    bound := by simp only [hu, List.nil_append]; exact h.bound
    addrs := h.addrs
    sizes := h.sizes
    cur := by simp only [hu, List.nil_append]; exact h.cur
    base := by simp only [hu]; exact h.cur
    stack := ⟨by simp only [hu]; exact hn, h.base, (by refine Stack.same (s := s) ?_ ?_ _ ?_ <;> first | exact h.stack | rfl)⟩ }

/-- A tag is taken from the stack. -/
theorem pop_ok {c : Cfg} {s : UState} {inh : List Nat} {t : UTag} {ts : List UTag} {env env0 env1 : Env} {st} {n : TagName}
    (h : Inv c s inh [] env env1 ((n, env0) :: st)) (ht : s.tags = t :: ts) :
    Inv c { s with tags := ts } inh t.binds env env0 st ∧ Named c { s with tags := ts } (t.binds ++ used inh ts) t n := by
  have hu := used_cons inh t ts
  obtain ⟨h1, h2, h3, h4, h5, h6, h7⟩ := h
  rw [ht] at h1 h2 h5 h6 h7
  rw [hu] at h1 h2 h5 h6
  obtain ⟨k1, k2, k3⟩ := h7
  rw [hu] at k1
  exact ⟨⟨h1, h2, h3, h4, h5, k2, (by refine Stack.same (s := s) ?_ ?_ _ ?_ <;> first | exact k3 | rfl)⟩, k1⟩

theorem rewrite_ok {c : Cfg} {s : UState} {inh pend : List Nat} {env env0 : Env} {st} (h : Inv c s inh pend env env0 st)
    {t : UTag} {n : TagName} (hn : Named c s (pend ++ used inh s.tags) t n) :
    ∃ s', rewrite c s t = .ok s' ∧ Inv c s' inh pend env env0 st ∧ s'.shows t = n.full c := by
  obtain ⟨hraw, hn⟩ := hn
  obtain ⟨nraw, nns⟩ := n
  simp only at hraw hn
  rcases hn with ⟨h1, h2, h3⟩ | ⟨i, p, u, l, b, h1, h2, ⟨hu, hp, b0, hb0, hpre, hlen, htake⟩, h4, h5, h6, h7, h8, h9, h10, h11⟩
  · refine ⟨s, by simp [rewrite, h3], h, ?_⟩
    simp [UState.shows, h2, TagName.full, h1, hraw]
  · rw [h4] at hb0
    cases hb0
    have hv : (l ++ (if c.triplets && p.isSome then c.sep :: p.getD [] else []) ++ [0]).length ≤ l.length + 1 + preLen c p := by
      rw [preLen_eq]
      split <;> simp <;> omega
    obtain ⟨w1, w2⟩ := h.write h4 (off := b.uriLen) (v := l ++ (if c.triplets && p.isSome then c.sep :: p.getD [] else []) ++ [0]) (Nat.le_refl _) (by omega)
    refine ⟨_, ?_, w2, ?_⟩
    · simp only [rewrite, h6, h11, Bool.not_true, Bool.false_eq_true, if_false, h5, h7, h8]
      exact w1
    · simp only [UState.shows, h5, UState.put, if_true, Raw.poke, htake]
      generalize List.drop _ _ = d
      have := full_of (c := c) (raw := nraw) (d := d) hu h9 hp
      rw [h1, ← this]
      simp

/-! ### The run -/

/-- No NUL in what tags say: there is none in XML. -/
def Op.Clean : Op → Prop
  | .start ds as raw => CleanD ds ∧ (∀ n ∈ as, (0 : UInt8) ∉ n) ∧ (0 : UInt8) ∉ raw
  | .empty ds as raw => CleanD ds ∧ (∀ n ∈ as, (0 : UInt8) ∉ n) ∧ (0 : UInt8) ∉ raw
  | .stop _ => True

theorem openTag_ok (H : Heap) {c : Cfg} {s : UState} {inh : List Nat} {env : Env} {st} (h : Inv c s inh [] env env st)
    {ds : List (Option Buf × Buf)} {as : List Buf} {raw : Buf} (hd : CleanD ds) (ha : ∀ n ∈ as, (0 : UInt8) ∉ n) (hr : (0 : UInt8) ∉ raw) :
    (∃ e, SState.opened c ⟨env, st⟩ ds as raw = .error e ∧ openTag H c s ds as raw = .error e) ∨
    ∃ s' t n as', SState.opened c ⟨env, st⟩ ds as raw = .ok (declared env ds, n, as') ∧ openTag H c s ds as raw = .ok (s', t, as') ∧
      Inv c s' inh t.binds (declared env ds) env st ∧ Named c s' (t.binds ++ used inh s'.tags) t n ∧ s'.shows t = n.full c := by
  obtain ⟨s1, bs, e1, _, h1⟩ := addBinds_ok H ds hd h
  have e2 := attNames_ok h1.cur as ha
  have e3 := nameTag_ok H h1 hr
  simp only [SState.opened, openTag, e1, e2]
  cases expandAll c (declared env ds) as with
  | none => exact .inl ⟨_, rfl, rfl⟩
  | some as' =>
    simp only
    generalize elemName c (declared env ds) raw = r at e3 ⊢
    cases r with
    | error e =>
      have e3 : nameTag H c s1 bs raw = .error .unbound := e3
      simp only [e3]
      exact .inl ⟨_, rfl, rfl⟩
    | ok n =>
      obtain ⟨s2, t, e4, h4, hb, h5, h6⟩ := e3
      simp only [e4]
      exact .inr ⟨s2, t, n, as', rfl, rfl, by rw [hb]; exact h4, by rw [hb]; exact h5, h6⟩

theorem step_ok (H : Heap) {c : Cfg} {s : UState} {inh : List Nat} {env : Env} {st} (h : Inv c s inh [] env env st) {o : Op} (ho : o.Clean) :
    (∃ e, SState.step c ⟨env, st⟩ o = .error e ∧ s.step H c o = .error e) ∨
    ∃ s' env' st' E, SState.step c ⟨env, st⟩ o = .ok (⟨env', st'⟩, E) ∧ s.step H c o = .ok (s', E) ∧ Inv c s' inh [] env' env' st' := by
  cases o with
  | start ds as raw =>
    obtain ⟨h1, h2, h3⟩ := ho
    rcases openTag_ok H h h1 h2 h3 with ⟨e, k1, k2⟩ | ⟨s', t, n, as', k1, k2, k3, k4, k5⟩
    · exact .inl ⟨e, by simp only [SState.step, k1], by simp only [UState.step, k2]⟩
    · exact .inr ⟨_, _, _, [.start (n.full c) as'], by simp only [SState.step, k1], by simp only [UState.step, k2, k5], push_ok k3 k4⟩
  | empty ds as raw =>
    obtain ⟨h1, h2, h3⟩ := ho
    rcases openTag_ok H h h1 h2 h3 with ⟨e, k1, k2⟩ | ⟨s', t, n, as', k1, k2, k3, k4, k5⟩
    · exact .inl ⟨e, by simp only [SState.step, k1], by simp only [UState.step, k2]⟩
    · exact .inr ⟨_, _, _, [.start (n.full c) as', .stop (n.full c)], by simp only [SState.step, k1], by simp only [UState.step, k2, k5], release_ok k3⟩
  | stop told =>
    cases ht : s.tags with
    | nil =>
      have hst := h.stack
      rw [ht] at hst
      cases st with
      | cons x st => exact absurd hst (by simp [Stack])
      | nil => exact .inl ⟨.async, rfl, by simp only [UState.step, ht]⟩
    | cons t ts =>
      have hst := h.stack
      rw [ht] at hst
      cases st with
      | nil => exact absurd hst (by simp [Stack])
      | cons x st =>
        obtain ⟨n, env0⟩ := x
        obtain ⟨k1, k2⟩ := pop_ok h ht
        cases told with
        | false => exact .inr ⟨_, _, _, [], by simp only [SState.step]; rfl, by simp only [UState.step, ht]; rfl, release_ok k1⟩
        | true =>
          obtain ⟨s', m1, m2, m3⟩ := rewrite_ok k1 k2
          exact .inr ⟨_, _, _, [.stop (n.full c)], by simp only [SState.step]; rfl, by simp only [UState.step, ht, m1, if_true, m3], release_ok m2⟩

theorem run_ok (H : Heap) {c : Cfg} {inh : List Nat} (os : List Op) : ∀ {s : UState} {env : Env} {st}, (∀ o ∈ os, o.Clean) → Inv c s inh [] env env st →
    s.run H c os = SState.run c ⟨env, st⟩ os := by
  induction os with
  | nil => intro s env st _ _; rfl
  | cons o os ih =>
    intro s env st ho h
    rcases step_ok H h (ho o (by simp)) with ⟨e, k1, k2⟩ | ⟨s', env', st', E, k1, k2, k3⟩
    · simp only [UState.run, SState.run, k1, k2]
    · simp only [UState.run, SState.run, k1, k2]
      rw [ih (fun o ho' => ho o (by simp [ho'])) k3]

theorem init_ok (c : Cfg) : Inv c .empty [] [] (fun _ => none) (fun _ => none) [] where
  nodup := by simp [UState.empty, used]
  bound := by simp [UState.empty, used]
  addrs := by simp [UState.empty]
  sizes := by simp [UState.empty]
  cur := fun _ => .inl ⟨rfl, rfl⟩
  base := fun _ => .inl ⟨rfl, rfl⟩
  stack := trivial

theorem runFrom_ok (H : Heap) (c : Cfg) (ctx : List (Option Buf × Buf)) (hc : CleanD ctx) (os : List Op) (ho : ∀ o ∈ os, o.Clean) :
    runFrom H c ctx os = SState.run c ⟨declared (fun _ => none) ctx, []⟩ os := by
  obtain ⟨s, bs, e1, ht, h⟩ := addBinds_ok H ctx hc (init_ok c)
  simp only [runFrom, e1]
  apply run_ok (inh := bs) H os ho
  obtain ⟨h1, h2, h3, h4, h5, h6, h7⟩ := h
  have ht : s.tags = [] := ht
  rw [ht] at h1 h2 h5
  have hu : used bs s.tags = bs := by rw [ht]; simp [used]
  have hu0 : bs ++ used [] [] = bs := by simp [used]
  rw [hu0] at h1 h2 h5
  refine ⟨by rw [hu]; exact h1, by rw [hu]; exact h2, h3, h4, by rw [hu]; exact h5, by rw [hu]; exact h5, ?_⟩
  rw [ht]
  trivial

end Verif.Uri
