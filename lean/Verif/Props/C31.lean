import Verif.Props.C26

/-! C31: namespace declarations are scoped to their element. -/

namespace Verif.C31
open Verif C43

/-! ### Specification -/

/-- A reader of events which keeps the namespaces in force by scoping: `env` is in force now,
`declared` are the prefixes declared for the element about to start (last first), `before` what was in
force before them; for every open element `scopes` has its declared prefixes and what was in force
before it; `closing` are the prefixes whose end must be reported next. -/
structure Reader where
  env : Env
  declared : List (Option Buf)
  before : Env
  scopes : List (List (Option Buf) × Env)
  closing : List (Option Buf)

/-- One event; `none`: not allowed here. -/
def Reader.read (m : Reader) : Ev → Option Reader
  | .startNs p u => if m.closing = [] then some { m with env := m.env.set p u, declared := p :: m.declared } else none
  | .startElement .. =>
    if m.closing = [] then some ⟨m.env, [], m.env, (m.declared, m.before) :: m.scopes, []⟩ else none
  | .endElement _ =>
    match m.scopes with
    | [] => none
    | (ps, v) :: rest => if m.declared = [] ∧ m.closing = [] then some ⟨v, [], v, rest, ps⟩ else none
  | .endNs p =>
    match m.closing with
    | [] => none
    | q :: qs => if q = p then some { m with closing := qs } else none
  | _ => if m.declared = [] ∧ m.closing = [] then some m else none

def Reader.reads : Reader → List Ev → Option Reader
  | m, [] => some m
  | m, v :: E => (m.read v).bind fun m' => m'.reads E

/-- Between elements. -/
def Reader.at (v : Env) (o : List (List (Option Buf) × Env)) : Reader := ⟨v, [], v, o, []⟩

/-! ### Lemmas -/

theorem reads_append (E E' : List Ev) : ∀ m : Reader, m.reads (E ++ E') = (m.reads E).bind fun m' => m'.reads E' := by
  induction E with
  | nil => intro m; rfl
  | cons v E ih =>
    intro m
    simp only [List.cons_append, Reader.reads]
    cases m.read v with
    | none => rfl
    | some m' => exact ih m'

theorem reads_plain {E : List Ev} (h : ∀ w ∈ E, plainEv w = true) (v o) : (Reader.at v o).reads E = some (.at v o) := by
  induction E with
  | nil => rfl
  | cons w E ih =>
    have hw := h w (by simp)
    have ih := ih fun w hw => h w (by simp [hw])
    have : (Reader.at v o).read w = some (.at v o) := by
      cases w <;> first | rfl | (cases hw; done)
    simp only [Reader.reads, this]
    exact ih

/-- What was in force before the outermost open element. -/
def Reader.bottom (m : Reader) : Env := (m.scopes.map (·.2)).getLast?.getD m.before

theorem bottom_read {m m' : Reader} {v : Ev} (h : m.read v = some m') : m'.bottom = m.bottom := by
  obtain ⟨env, declared, before, scopes, closing⟩ := m
  cases v <;> simp only [Reader.read] at h
  case startElement =>
    split at h <;> cases h
    simp [Reader.bottom, List.getLast?_cons]
  case endElement =>
    split at h
    · cases h
    · split at h <;> cases h
      simp [Reader.bottom, List.getLast?_cons]
  case endNs =>
    split at h
    · cases h
    · split at h <;> cases h
      rfl
  all_goals
    split at h <;> cases h
    rfl

theorem bottom_reads (E : List Ev) : ∀ m m' : Reader, m.reads E = some m' → m'.bottom = m.bottom := by
  induction E with
  | nil => intro m m' h; cases h; rfl
  | cons v E ih =>
    intro m m' h
    simp only [Reader.reads] at h
    cases hv : m.read v with
    | none => rw [hv] at h; cases h
    | some m1 => rw [hv] at h; rw [ih _ _ h, bottom_read hv]

/-- The environment after `freeBindings`. -/
def undo (v : Env) : List Binding → Env
  | [] => v
  | b :: bs => undo (v.set b.pre b.prev) bs

theorem freeBindings_env (c : Cfg) (bs : List Binding) : ∀ v, (freeBindings c v bs).2 = undo v bs := by
  induction bs with
  | nil => intro v; rfl
  | cons b bs ih => intro v; exact ih _

theorem freeBindings_reads {c : Cfg} (he : c.endNs = true) (bs : List Binding) :
    ∀ v u o, (Reader.mk u [] u o (bs.map (·.pre))).reads (freeBindings c v bs).1 = some (.at u o) := by
  induction bs with
  | nil => intro v u o; rfl
  | cons b bs ih =>
    intro v u o
    simp only [freeBindings, he, if_true, List.singleton_append, Reader.reads, Reader.read, List.map_cons]
    exact ih _ _ _

theorem Env.set_set (v : Env) (p a) : (v.set p a).set p (v p) = v := by
  funext q
  simp only [Env.set]
  split
  · rename_i h; rw [h]
  · rfl

theorem chain_inv {α σ ε : Type} {f : σ → α → List Ev × Except ε σ} {I : List Ev → σ → Prop}
    (hf : ∀ E s a E' s', I E s → f s a = (E', .ok s') → I (E ++ E') s') (l : List α) :
    ∀ {E s E' s'}, I E s → chain f s l = (E', .ok s') → I (E ++ E') s' := by
  induction l with
  | nil => intro E s E' s' hi h; cases h; simpa using hi
  | cons a l ih =>
    intro E s E' s' hi h
    rw [chain] at h
    split at h
    · cases h
    · rename_i E1 s1 h1
      cases hc : chain f s1 l with
      | mk G o =>
        rw [hc] at h
        cases h
        rw [← List.append_assoc]
        exact ih (hf _ _ _ _ _ hi h1) hc

/-- Declarations made so far for an element, when `v` was in force before. -/
def Declared (v : Env) (E : List Ev) (s : AState) : Prop :=
  undo s.env s.binds = v ∧
    ∀ o, (Reader.at v o).reads E = some ⟨s.env, s.binds.map (·.pre), v, o, []⟩

theorem addBinding_declared {c : Cfg} (hs : c.startNs = true) {v E s p att uri E' env bs} (hi : Declared v E s)
    (h : addBinding c s.env s.binds p att uri = (E', .ok (env, bs))) {s' : AState} (h1 : s'.env = env) (h2 : s'.binds = bs) :
    Declared v (E ++ E') s' := by
  rw [addBinding] at h
  split at h
  · cases h
  · simp only [hs, if_true] at h
    cases h
    refine ⟨?_, fun o => ?_⟩
    · rw [h1, h2]
      simp only [undo]
      rw [Env.set_set]
      exact hi.1
    · rw [reads_append, hi.2 o, h1, h2]
      simp only [Option.bind_some, Reader.reads, Reader.read, if_true, List.map_cons]

theorem Declared.keep {v E s} (hi : Declared v E s) {s' : AState} (h1 : s'.env = s.env) (h2 : s'.binds = s.binds) :
    Declared v (E ++ []) s' := by
  rw [List.append_nil]
  exact ⟨by rw [h1, h2]; exact hi.1, fun o => by rw [h1, h2]; exact hi.2 o⟩

theorem attOne_declared {c : Cfg} (hs : c.startNs = true) {D int x opened et b v E s a E' s'} (hi : Declared v E s)
    (h : attOne c D int x opened et b s a = (E', .ok s')) : Declared v (E ++ E') s' := by
  simp only [attOne] at h
  split at h
  · cases h
  · split at h
    · cases h
    · split at h
      · cases h; exact hi.keep rfl rfl
      · cases h; exact hi.keep rfl rfl
      · split at h
        · cases h
        · rename_i h2; cases h; exact addBinding_declared hs hi h2 rfl rfl

theorem defOne_declared {c : Cfg} (hs : c.startNs = true) {v E s d E' s'} (hi : Declared v E s)
    (h : defOne c s d = (E', .ok s')) : Declared v (E ++ E') s' := by
  rw [defOne] at h
  split at h
  · cases h; exact hi.keep rfl rfl
  · split at h
    · cases h; exact hi.keep rfl rfl
    · split at h
      · cases h; exact hi.keep rfl rfl
      · cases h; exact hi.keep rfl rfl
      · split at h
        · cases h
        · rename_i h2; cases h; exact addBinding_declared hs hi h2 rfl rfl

/-- What `storeAtts` does, when it succeeds. -/
theorem storeAtts_ok {c : Cfg} {D int x opened flags env raw b E r}
    (h : storeAtts c D int x opened flags env raw b = (E, .ok r)) :
    ∃ E1 E2 s1 s2, chain (attOne c D int x opened (D.elem raw) b) ⟨[], flags, env, [], 0⟩ (getAtts x.e b) = (E1, .ok s1) ∧
      chain (defOne c) s1 (D.elem raw).atts = (E2, .ok s2) ∧ E = E1 ++ E2 ∧
      (∃ f, expandNames c s2.env s2.nPre s2.flags [] s2.atts = .ok (r.atts, f) ∧
        r.flags = s2.binds.foldl (fun f b => setFlag f b.att .unset) f) ∧
      elemName c s2.env raw = .ok r.name ∧ r.env = s2.env ∧ r.binds = s2.binds ∧ r.specified = s1.atts.length ∧
      r.idIndex = (match (D.elem raw).idAtt with
        | none => none
        | some i => if s1.flags i ≠ .unset then s1.atts.findIdx? (·.1 = i) else none) := by
  rw [storeAtts] at h
  simp only at h
  split at h
  · cases h
  · rename_i E1 s1 h1
    split at h
    · cases h
    · rename_i E2 s2 h2
      split at h
      · cases h
      · rename_i atts f h3
        split at h
        · cases h
        · rename_i n h4
          injection h with hE h
          injection h with h
          subst h
          exact ⟨_, _, _, _, h1, h2, hE.symm, ⟨_, h3, rfl⟩, h4, rfl, rfl, rfl, rfl⟩

theorem storeAtts_declared {c : Cfg} (hs : c.startNs = true) {D int x opened flags env raw b E r}
    (h : storeAtts c D int x opened flags env raw b = (E, .ok r)) :
    undo r.env r.binds = env ∧
      ∀ o, (Reader.at env o).reads E = some ⟨r.env, r.binds.map (·.pre), env, o, []⟩ := by
  obtain ⟨E1, E2, s1, s2, h1, h2, rfl, _, _, h5, h6, _, _⟩ := storeAtts_ok h
  have i0 : Declared env [] ⟨[], flags, env, [], 0⟩ := ⟨rfl, fun o => rfl⟩
  have i1 := chain_inv (I := Declared env) (fun _ _ _ _ _ hi h => attOne_declared hs hi h) _ i0 h1
  have i2 := chain_inv (I := Declared env) (fun _ _ _ _ _ hi h => defOne_declared hs hi h) _ i1 h2
  rw [h5, h6]
  exact i2

/-- The open tags and the reader's scopes agree: the bindings kept with the tags lead back to what was
in force before. -/
def Scoped (v : Env) : List Tag → List (List (Option Buf) × Env) → Prop
  | [], o => o = []
  | t :: ts, o => ∃ u o', o = (t.binds.map (·.pre), u) :: o' ∧ undo v t.binds = u ∧ Scoped u ts o'

def R (_ : Nat) (s : CState) (E : List Ev) (s' : CState) : Prop :=
  ∀ o, Scoped s.env s.tags o → ∃ o', (Reader.at s.env o).reads E = some (.at s'.env o') ∧ Scoped s'.env s'.tags o'

def F (_ : Nat) (s : CState) (E : List Ev) (_ : XErr) : Prop :=
  ∀ o, Scoped s.env s.tags o → ∃ E1 E2 v o', E = E1 ++ E2 ∧ (Reader.at s.env o).reads E1 = some (.at v o') ∧
    ∀ w ∈ E2, isStartNs w = true ∨ isEndNs w = true

theorem F.plain {start s E err} (h : ∀ w ∈ E, plainEv w = true) : F start s E err :=
  fun o _ => ⟨E, [], _, _, by simp, reads_plain h _ _, by simp⟩

theorem F.ns {start s E err} (h : ∀ w ∈ E, isStartNs w = true ∨ isEndNs w = true) : F start s E err :=
  fun _ _ => ⟨[], E, _, _, rfl, rfl, h⟩

theorem compositional {c : Cfg} (D int) (hs : c.startElement = true) (he : c.endElement = true)
    (hsn : c.startNs = true) (hen : c.endNs = true) : Compositional c D int R F where
  refl start s := fun o h => ⟨o, rfl, h⟩
  trans h h' := fun o hi => by
    obtain ⟨o1, a, b⟩ := h o hi
    obtain ⟨o2, a', b'⟩ := h' o1 b
    exact ⟨o2, by rw [reads_append, a]; exact a', b'⟩
  stop _ _ _ _ := .plain (by simp)
  err h h' := fun o hi => by
    obtain ⟨o1, a, b⟩ := h o hi
    obtain ⟨E1, E2, v, o2, rfl, a', b'⟩ := h' o1 b
    exact ⟨_, E2, v, o2, (List.append_assoc ..).symm, by rw [reads_append, a]; exact a', b'⟩
  act_ok := by
    intro x opened start expand s t w E s' hex hm ha
    cases act_ok ha with
    | plain h hmode _ => exact fun o hi => ⟨o, reads_plain h _ _, hi⟩
    | expand _ _ _ _ _ _ _ _ h => exact (hex _ _ _ _ _ h).1
    | @start E r ht h =>
      intro o hi
      obtain ⟨h1, h2⟩ := storeAtts_declared hsn h
      refine ⟨(r.binds.map (·.pre), s.env) :: o, ?_, _, _, rfl, h1, hi⟩
      rw [reads_append, h2, orDefault, if_pos hs]
      rfl
    | @empty E r ht h =>
      intro o hi
      obtain ⟨h1, h2⟩ := storeAtts_declared hsn h
      refine ⟨o, ?_, ?_⟩
      · simp only [hs, he, if_true, Bool.not_true, Bool.false_and, Bool.false_eq_true, if_false, List.append_nil,
          List.append_assoc, List.singleton_append]
        rw [reads_append, h2]
        simp only [Option.bind_some, List.cons_append, List.nil_append, Reader.reads, Reader.read, if_true, and_self]
        rw [freeBindings_reads hen, freeBindings_env, h1]
      · simp only [freeBindings_env, h1]
        exact hi
    | @end_ tag tags ht hl htags hn =>
      intro o hi
      rw [htags] at hi
      obtain ⟨u, o', rfl, h1, h2⟩ := hi
      refine ⟨o', ?_, ?_⟩
      · simp only [orDefault, he, if_true, List.singleton_append, Reader.reads, Reader.at, Reader.read, and_self,
          Option.bind_some]
        rw [freeBindings_reads hen, freeBindings_env, h1]
        rfl
      · simp only [freeBindings_env, h1]
        exact h2
  act_err := by
    intro x opened start expand s t w E err hex hm ha
    cases act_err ha with
    | plain h _ => exact .plain h
    | expand _ _ h => exact hex _ _ _ _ _ h
    | start h =>
      have hE := storeAtts_events c D int x opened s.flags s.env (converted x (rawName x x.e.mb w)) w
      rw [h] at hE
      exact .ns fun w hw => .inl (hE w hw)
    | empty h =>
      have hE := storeAtts_events c D int x opened s.flags s.env (converted x (rawName x x.e.mb w)) w
      rw [h] at hE
      refine .ns fun w hw => ?_
      rcases List.mem_append.1 hw with hw | hw
      · exact .inl (hE w hw)
      · exact .inr (freeBindings_events _ _ _ w hw)

/-! ### Theorems -/

/-- **C31.**  With the element and namespace handlers set, whatever document (in whatever pieces) is
parsed: the events are as the reader requires, i.e. declarations come directly before their element,
after the end of each element the ends of its declarations are reported in reverse order; and the
parser's bindings are those the reader keeps by scoping: after an element they are what they were
before it.  If the document is accepted, only the initial binding of `xml` is left.  If it is refused,
the events are as required, up to declarations of the element at which the error was found. -/
theorem scoping {c : Cfg} (hs : c.startElement = true) (he : c.endElement = true) (hsn : c.startNs = true)
    (hen : c.endNs = true) (D : Dtd) (int x : XEnc) (xs : List Buf) {E o}
    (h : feed (parser c D int x) x.e CState.init [] xs = (E, o)) :
    match o with
    | .ok s _ => (Reader.at CState.init.env []).reads E = some (.at CState.init.env []) ∧ s.env = CState.init.env
    | .err _ => ∃ E1 E2 v o', E = E1 ++ E2 ∧ (Reader.at CState.init.env []).reads E1 = some (.at v o') ∧
        ∀ w ∈ E2, isStartNs w = true ∨ isEndNs w = true := by
  have := feed_holds (compositional D int hs he hsn hen) (fun _ _ => .plain (by simp)) D.fuel x [] 0 x.e xs h
  cases o with
  | err => exact this [] rfl
  | ok s r =>
    obtain ⟨o', a, b⟩ := this [] rfl
    have ht : s.tags = [] := (C26.balanced hs he D int x xs h).2
    rw [ht] at b
    have hb : o' = [] := b
    subst hb
    have hinit : s.env = CState.init.env := bottom_reads E _ _ a
    exact ⟨by rw [a, hinit], hinit⟩

/-- The bindings in force at any moment are the reader's: for the content of any entity, from any
state whose tags lead back to the scopes `o`. -/
theorem in_force {c : Cfg} (hs : c.startElement = true) (he : c.endElement = true) (hsn : c.startNs = true)
    (hen : c.endNs = true) (D : Dtd) (int x : XEnc) (k opened start more via) (s : CState) (b : Buf)
    {o} (hi : Scoped s.env s.tags o) {E s' r}
    (h : run (sem c D int k x opened start) x.e more via s b = (E, .ok s' r)) :
    ∃ o', (Reader.at s.env o).reads E = some (.at s'.env o') ∧ Scoped s'.env s'.tags o' :=
  sem_holds (compositional D int hs he hsn hen) (fun _ _ => .plain (by simp)) k _ _ _ _ _ _ _ _ _ _ h o hi

/-! Non-vacuity: `<a xmlns='u' xmlns:p='v'><p:b xmlns:p='w'/><p:c/></a>`. -/
example : (feed (parser { ns := true, sep := 0x7C } default (internalUtf8X true) (utf8X true)) (utf8Enc true) CState.init []
      ["<a xmlns='u' xmlns:p='v'><p:b xmlns:p='w'/><p:c/></a>".toUTF8.toList]).1 =
    [.startNs none (some [0x75]), .startNs (some [0x70]) (some [0x76]), .startElement [0x75, 0x7C, 0x61] [] 0 none,
     .startNs (some [0x70]) (some [0x77]), .startElement [0x77, 0x7C, 0x62] [] 0 none, .endElement [0x77, 0x7C, 0x62],
     .endNs (some [0x70]), .startElement [0x76, 0x7C, 0x63] [] 0 none, .endElement [0x76, 0x7C, 0x63],
     .endElement [0x75, 0x7C, 0x61], .endNs (some [0x70]), .endNs none] := by
  decide +kernel

end Verif.C31
