import Verif.Clone

/-! Lemmas about the copy of a DTD. -/

set_option autoImplicit false

namespace Verif.Clone
open Verif

section
variable {α γ : Type} {β : Type}

/-! ### Tables -/

theorem find_append (key : α → Buf) (t u : List α) (n : Buf) : find key (t ++ u) n = (find key t n).or (find key u n) := by
  simp [find, List.find?_append]

theorem find_none {key : α → Buf} {t : List α} {n : Buf} : find key t n = none ↔ n ∉ t.map key := by
  simp only [find, List.find?_eq_none, decide_eq_true_eq, List.mem_map, not_exists, not_and]

theorem find_some {key : α → Buf} {t : List α} {n : Buf} {a : α} (h : find key t n = some a) : a ∈ t ∧ key a = n := by
  have h2 := List.find?_some h
  exact ⟨List.mem_of_find?_eq_some h, by simpa using h2⟩

theorem find_mem {key : α → Buf} {t : List α} {n : Buf} (h : n ∈ t.map key) : ∃ a, find key t n = some a := by
  cases hf : find key t n with
  | none => exact absurd h (find_none.1 hf)
  | some a => exact ⟨a, rfl⟩

theorem find_map {key : α → Buf} {key' : γ → Buf} {f : α → γ} (hk : ∀ a, key' (f a) = key a) (t : List α) (n : Buf) :
    find key' (t.map f) n = (find key t n).map f := by
  induction t with
  | nil => rfl
  | cons a t ih =>
    simp only [find, List.map_cons, List.find?_cons, hk] at ih ⊢
    split
    · rfl
    · exact ih

theorem insert_new {key : α → Buf} {t : List α} {a : α} (h : key a ∉ t.map key) : insert key t a = (t ++ [a], true) := by
  unfold insert; rw [find_none.2 h]

theorem prefixes_eq (ps : List Buf) : ∀ acc : List Buf, (acc ++ ps).Nodup →
    ps.foldl (fun t p => (insert id t p).1) acc = acc ++ ps := by
  induction ps with
  | nil => intro acc _; simp
  | cons p ps ih =>
    intro acc h
    have hp : p ∉ acc := by
      intro hm
      rw [List.nodup_append] at h
      exact h.2.2 p hm p (by simp) rfl
    rw [List.foldl_cons, insert_new (by simpa using hp)]
    rw [ih (acc ++ [p]) (by simpa using h)]
    simp

/-- A step of a copy finds a new name. -/
theorem fresh {key : α → Buf} {key' : γ → Buf} {f : α → γ} (hk : ∀ a, key' (f a) = key a) {new : List γ} {a : α} {as : List α}
    (h : (new.map key' ++ (a :: as).map key).Nodup) :
    key' (f a) ∉ new.map key' ∧ ((new ++ [f a]).map key' ++ as.map key).Nodup := by
  constructor
  · rw [hk]
    intro hm
    rw [List.nodup_append] at h
    exact h.2.2 _ hm (key a) (by simp) rfl
  · simp only [List.map_append, List.map_cons, List.map_nil, hk]
    simpa using h

/-! ### What the copies are -/

def attCopy (old here : Nat) (prefixes : List Buf) (a : AttId) : AttId :=
  { name := a.name
    maybeTokenized := a.maybeTokenized
    xmlns := if a.pre = none then false else a.xmlns
    pre := match a.pre with
      | none => none
      | some (.field x) => if x = old then some (.field here) else none
      | some (.named p) => (find id prefixes p).map .named }

theorem copyAtts_eq (old here : Nat) (prefixes : List Buf) (as : List AttId) : ∀ new : List AttId,
    (new.map AttId.name ++ as.map AttId.name).Nodup →
    copyAtts old here prefixes new as = some (new ++ as.map (attCopy old here prefixes)) := by
  induction as with
  | nil => intro new _; simp [copyAtts]
  | cons a as ih =>
    intro new h
    obtain ⟨h1, h2⟩ := fresh (f := attCopy old here prefixes) (key' := AttId.name) (fun _ => rfl) h
    have hi := insert_new h1
    rw [copyAtts]
    change (match insert AttId.name new (attCopy old here prefixes a) with
      | (_, false) => none
      | (new, true) => copyAtts old here prefixes new as) = _
    rw [hi]
    simp only
    rw [ih _ h2]
    simp

def elemCopy (prefixes : List Buf) (atts : List AttId) (e : ElemType) : ElemType :=
  { name := e.name
    idAtt := e.idAtt.bind fun i => (find AttId.name atts i).map (·.name)
    pre := e.pre.bind fun p => find id prefixes p
    defaults := e.defaults.map fun d =>
      { d with id := match find AttId.name atts d.id with | some a => a.name | none => [] } }

theorem copyElems_eq (prefixes : List Buf) (atts : List AttId) (es : List ElemType) : ∀ new : List ElemType,
    (new.map ElemType.name ++ es.map ElemType.name).Nodup →
    copyElems prefixes atts new es = some (new ++ es.map (elemCopy prefixes atts)) := by
  induction es with
  | nil => intro new _; simp [copyElems]
  | cons a as ih =>
    intro new h
    obtain ⟨h1, h2⟩ := fresh (f := elemCopy prefixes atts) (key' := ElemType.name) (fun _ => rfl) h
    have hi := insert_new h1
    rw [copyElems]
    change (match insert ElemType.name new (elemCopy prefixes atts a) with
      | (_, false) => none
      | (new, true) => copyElems prefixes atts new as) = _
    rw [hi]
    simp only
    rw [ih _ h2]
    simp

def entCopy (str : β → Buf) (e : Ent β) : Ent Buf :=
  { name := e.name
    text := if e.systemId.isSome then none else some (e.text.getD [])
    systemId := e.systemId
    base := if e.systemId.isSome then e.base.map str else none
    publicId := if e.systemId.isSome then e.publicId else none
    notation_ := e.notation_
    isParam := e.isParam
    isInternal := e.isInternal }

theorem copyBase_ok [DecidableEq β] (str : β → Buf) {cached : Option (β × Buf)} (hc : ∀ b s, cached = some (b, s) → s = str b)
    (o : Option β) : (copyBase str cached o).1 = o.map str ∧ ∀ b s, (copyBase str cached o).2 = some (b, s) → s = str b := by
  cases o with
  | none => exact ⟨rfl, hc⟩
  | some b =>
    cases cached with
    | none =>
      refine ⟨rfl, ?_⟩
      intro b' s h
      simp only [copyBase, Option.some.injEq, Prod.mk.injEq] at h
      rw [← h.1, ← h.2]
    | some y =>
      obtain ⟨b', s⟩ := y
      have := hc b' s rfl
      simp only [copyBase]
      split
      · rename_i e
        subst e
        refine ⟨by simp [this], ?_⟩
        intro b2 s2 h2
        simp only [Option.some.injEq, Prod.mk.injEq] at h2
        rw [← h2.1, ← h2.2, this]
      · refine ⟨rfl, ?_⟩
        intro b2 s2 h2
        simp only [Option.some.injEq, Prod.mk.injEq] at h2
        rw [← h2.1, ← h2.2]

theorem copyEntities_eq [DecidableEq β] (str : β → Buf) (es : List (Ent β)) : ∀ (cached : Option (β × Buf)) (new : List (Ent Buf)),
    (∀ b s, cached = some (b, s) → s = str b) → (new.map Ent.name ++ es.map Ent.name).Nodup →
    copyEntities str cached new es = some (new ++ es.map (entCopy str)) := by
  induction es with
  | nil => intro cached new _ _; simp [copyEntities]
  | cons a as ih =>
    intro cached new hc h
    obtain ⟨h1, h2⟩ := fresh (f := entCopy str) (key' := Ent.name) (fun _ => rfl) h
    have hi := insert_new h1
    rw [copyEntities]
    obtain ⟨hb1, hb2⟩ := copyBase_ok str hc a.base
    generalize copyBase str cached a.base = base at hb1 hb2
    have he : ({ name := a.name
                 text := if a.systemId.isSome then none else some (a.text.getD [])
                 systemId := a.systemId
                 base := if a.systemId.isSome then base.1 else none
                 publicId := if a.systemId.isSome then a.publicId else none
                 notation_ := a.notation_
                 isParam := a.isParam
                 isInternal := a.isInternal } : Ent Buf) = entCopy str a := by
      rw [hb1]; rfl
    simp only [he, hi]
    rw [ih _ _ _ h2]
    · simp
    · split
      · exact hb2
      · exact hc

/-! ### Tables that have been filled by a parser -/

/-- An entity is internal, or it has a system identifier. -/
structure Complete (e : Ent β) : Prop where
  external : e.systemId ≠ none → e.text = none
  internal : e.systemId = none → e.text ≠ none ∧ e.base = none ∧ e.publicId = none

/-- The DTDs a parser at work can have; `ns` is its `m_ns`. -/
inductive Built (ns : Bool) : {β : Type} → Nat → DTD β → Prop where
  | empty {β : Type} (addr : Nat) : Built ns addr (.empty (β := β) addr)
  /-- an attribute is met, in a declaration or in a tag -/
  | att {β : Type} {addr : Nat} {D : DTD β} (h : Built ns addr D) (n : Buf) : Built ns addr (D.getAttributeId ns n)
  /-- an element type is declared, or met in a tag when names have prefixes -/
  | elem {β : Type} {addr : Nat} {D : DTD β} (h : Built ns addr D) (n : Buf) : Built ns addr (D.getElementType n)
  /-- an element type is met in a tag when names have no prefixes -/
  | plainElem {β : Type} {addr : Nat} {D : DTD β} (h : Built ns addr D) (n : Buf) (hn : D.elem n = none) (h0 : ns = false) :
      Built ns addr { D with elems := D.elems ++ [⟨n, none, none, []⟩] }
  | define {β : Type} {addr : Nat} {D : DTD β} (h : Built ns addr D) (n m : Buf) (isCdata isId : Bool) (value : Option Buf) :
      Built ns addr (D.defineAttribute n m isCdata isId value)
  | general {β : Type} {addr : Nat} {D : DTD β} (h : Built ns addr D) (e : Ent β) (hn : D.general e.name = none) (hc : Complete e) :
      Built ns addr { D with gen := D.gen ++ [e] }
  | param {β : Type} {addr : Nat} {D : DTD β} (h : Built ns addr D) (e : Ent β) (hn : D.param e.name = none) (hc : Complete e) :
      Built ns addr { D with par := D.par ++ [e] }
  /-- a prefix of the context of an entity -/
  | pre {β : Type} {addr : Nat} {D : DTD β} (h : Built ns addr D) (p : Buf) : Built ns addr (D.addPrefix p)
  | cells {β : Type} {addr : Nat} {D : DTD β} (h : Built ns addr D) (c : Cells) : Built ns addr { D with cells := c }
  /-- a parser for an external general entity inherits the DTD of its parent, which has not met `xmlns`
  (otherwise the copy has a dangling pointer) -/
  | inherited {β : Type} {addr : Nat} {D : DTD β} (h : Built ns addr D) (hx : ∀ n a, D.att n = some a → D.scope a ≠ some none)
      [DecidableEq β] (str : β → Buf) (stack heap : Nat) {D' : DTD Buf} (hd : child str stack heap D = some D') : Built ns heap D'

/-- All pointers lead to entries of the tables, or to this DTD. -/
structure Closed (addr : Nat) (D : DTD β) : Prop where
  here : D.addr = addr
  pkeys : D.prefixes.Nodup
  akeys : (D.atts.map AttId.name).Nodup
  ekeys : (D.elems.map ElemType.name).Nodup
  gkeys : (D.gen.map Ent.name).Nodup
  qkeys : (D.par.map Ent.name).Nodup
  apre : ∀ a ∈ D.atts, ∀ p, a.pre = some (.named p) → p ∈ D.prefixes
  afield : ∀ a ∈ D.atts, ∀ x, a.pre = some (.field x) → x = addr
  axmlns : ∀ a ∈ D.atts, a.pre = none → a.xmlns = false
  epre : ∀ e ∈ D.elems, ∀ p, e.pre = some p → p ∈ D.prefixes
  eid : ∀ e ∈ D.elems, ∀ i, e.idAtt = some i → i ∈ D.atts.map AttId.name
  edef : ∀ e ∈ D.elems, ∀ d ∈ e.defaults, d.id ∈ D.atts.map AttId.name
  gen : ∀ e ∈ D.gen, Complete e
  par : ∀ e ∈ D.par, Complete e

theorem insert_keys {key : α → Buf} {t : List α} {a : α} (h : (t.map key).Nodup) : ((insert key t a).1.map key).Nodup := by
  unfold insert
  split
  · exact h
  · rename_i hn
    have := find_none.1 hn
    rw [List.map_append, List.nodup_append]
    exact ⟨h, by simp, fun x hx y hy => by
      simp only [List.map_cons, List.map_nil, List.mem_singleton] at hy
      subst hy
      intro e
      subst e
      exact this hx⟩

theorem insert_sub {key : α → Buf} {t : List α} {a : α} : ∀ b ∈ t, b ∈ (insert key t a).1 := by
  intro b hb
  unfold insert
  split
  · exact hb
  · simp [hb]

theorem insert_self {t : List Buf} {a : Buf} : a ∈ (insert id t a).1 := by
  unfold insert
  split
  · rename_i b hb
    have := find_some hb
    simp only [id] at this
    rw [← this.2]; exact this.1
  · simp

theorem Closed.addPrefix {addr : Nat} {D : DTD β} (h : Closed addr D) (p : Buf) : Closed addr (D.addPrefix p) where
  here := h.here
  pkeys := by
    have := insert_keys (key := id) (a := p) (t := D.prefixes) (by simpa using h.pkeys)
    simpa [DTD.addPrefix] using this
  akeys := h.akeys
  ekeys := h.ekeys
  gkeys := h.gkeys
  qkeys := h.qkeys
  apre := fun a ha q hq => insert_sub _ (h.apre a ha q hq)
  afield := h.afield
  axmlns := h.axmlns
  epre := fun e he q hq => insert_sub _ (h.epre e he q hq)
  eid := h.eid
  edef := h.edef
  gen := h.gen
  par := h.par

theorem nodup_add {l : List Buf} {n : Buf} (h : l.Nodup) (hn : n ∉ l) : (l ++ [n]).Nodup := by
  rw [List.nodup_append]
  exact ⟨h, by simp, fun x hx y hy => by
    simp only [List.mem_singleton] at hy
    subst hy
    intro e
    subst e
    exact hn hx⟩

theorem Closed.addAtt {addr : Nat} {D : DTD β} (h : Closed addr D) {a : AttId} (hn : D.att a.name = none)
    (h1 : ∀ p, a.pre = some (.named p) → p ∈ D.prefixes) (h2 : ∀ x, a.pre = some (.field x) → x = addr)
    (h3 : a.pre = none → a.xmlns = false) : Closed addr { D with atts := D.atts ++ [a] } where
  here := h.here
  pkeys := h.pkeys
  akeys := by
    rw [List.map_append]
    exact nodup_add h.akeys (find_none.1 hn)
  ekeys := h.ekeys
  gkeys := h.gkeys
  qkeys := h.qkeys
  apre := by
    intro b hb
    rcases List.mem_append.1 hb with hb | hb
    · exact h.apre b hb
    · simp only [List.mem_singleton] at hb; subst hb; exact h1
  afield := by
    intro b hb
    rcases List.mem_append.1 hb with hb | hb
    · exact h.afield b hb
    · simp only [List.mem_singleton] at hb; subst hb; exact h2
  axmlns := by
    intro b hb
    rcases List.mem_append.1 hb with hb | hb
    · exact h.axmlns b hb
    · simp only [List.mem_singleton] at hb; subst hb; exact h3
  epre := h.epre
  eid := fun e he i hi => by rw [List.map_append]; exact List.mem_append_left _ (h.eid e he i hi)
  edef := fun e he d hd => by rw [List.map_append]; exact List.mem_append_left _ (h.edef e he d hd)
  gen := h.gen
  par := h.par

theorem Closed.addElem {addr : Nat} {D : DTD β} (h : Closed addr D) {n : Buf} {pre : Option Buf} (hn : D.elem n = none)
    (h1 : ∀ p, pre = some p → p ∈ D.prefixes) : Closed addr { D with elems := D.elems ++ [⟨n, none, pre, []⟩] } where
  here := h.here
  pkeys := h.pkeys
  akeys := h.akeys
  ekeys := by
    rw [List.map_append]
    exact nodup_add h.ekeys (find_none.1 hn)
  gkeys := h.gkeys
  qkeys := h.qkeys
  apre := h.apre
  afield := h.afield
  axmlns := h.axmlns
  epre := by
    intro b hb
    rcases List.mem_append.1 hb with hb | hb
    · exact h.epre b hb
    · simp only [List.mem_singleton] at hb; subst hb; exact h1
  eid := by
    intro b hb
    rcases List.mem_append.1 hb with hb | hb
    · exact h.eid b hb
    · simp only [List.mem_singleton] at hb; subst hb; intro i hi; cases hi
  edef := by
    intro b hb
    rcases List.mem_append.1 hb with hb | hb
    · exact h.edef b hb
    · simp only [List.mem_singleton] at hb; subst hb; intro d hd; cases hd
  gen := h.gen
  par := h.par

theorem map_if_keys {key : α → Buf} {f : α → α} (hf : ∀ a, key (f a) = key a) (t : List α) : (t.map f).map key = t.map key := by
  simp [List.map_map, Function.comp_def, hf]

theorem define_ok {e : ElemType} {a : AttId} {c i v} : (e.define a c i v).name = e.name ∧ (e.define a c i v).pre = e.pre ∧
    (∀ j, (e.define a c i v).idAtt = some j → e.idAtt = some j ∨ j = a.name) ∧
    ∀ d ∈ (e.define a c i v).defaults, d ∈ e.defaults ∨ d.id = a.name := by
  unfold ElemType.define
  split
  · exact ⟨rfl, rfl, fun _ h => .inl h, fun _ h => .inl h⟩
  · refine ⟨rfl, rfl, ?_, ?_⟩
    · intro j hj
      simp only at hj
      split at hj
      · cases hj; exact .inr rfl
      · exact .inl hj
    · intro d hd
      rcases List.mem_append.1 hd with hd | hd
      · exact .inl hd
      · simp only [List.mem_singleton] at hd; subst hd; exact .inr rfl

theorem attCopy_name (old here : Nat) (ps : List Buf) (a : AttId) : (attCopy old here ps a).name = a.name := rfl

theorem find_pre {ps : List Buf} {p : Buf} (h : p ∈ ps) : find id ps p = some p := by
  obtain ⟨q, hq⟩ := find_mem (key := id) (t := ps) (n := p) (by simpa using h)
  have := (find_some hq).2
  simp only [id] at this
  rw [hq, this]

theorem elemCopy_eq {addr stack : Nat} {D : DTD β} (h : Closed addr D) {e : ElemType} (he : e ∈ D.elems) :
    elemCopy D.prefixes (D.atts.map (attCopy addr stack D.prefixes)) e = e := by
  have key : ∀ i, i ∈ D.atts.map AttId.name → ∃ a, find AttId.name (D.atts.map (attCopy addr stack D.prefixes)) i = some a ∧ a.name = i := by
    intro i hi
    obtain ⟨a, ha⟩ := find_mem hi
    rw [find_map (key := AttId.name) (attCopy_name _ _ _), ha]
    exact ⟨_, rfl, (find_some ha).2⟩
  obtain ⟨n, i, p, ds⟩ := e
  have h1 := h.eid _ he
  have h2 := h.epre _ he
  have h3 := h.edef _ he
  simp only at h1 h2 h3
  simp only [elemCopy, ElemType.mk.injEq, true_and]
  refine ⟨?_, ?_, ?_⟩
  · cases i with
    | none => rfl
    | some i =>
      obtain ⟨a, ha, hn⟩ := key i (h1 i rfl)
      simp [ha, hn]
  · cases p with
    | none => rfl
    | some p => simp [find_pre (h2 p rfl)]
  · rw [List.map_congr_left (g := id)]
    · simp
    · intro d hd
      obtain ⟨a, ha, hn⟩ := key d.id (h3 d hd)
      simp [ha, hn]

/-- The copy, spelled out. -/
theorem child_eq [DecidableEq β] (str : β → Buf) {addr stack heap : Nat} {D : DTD β} (h : Closed addr D) :
    child str stack heap D = some ⟨heap, D.prefixes, D.atts.map (attCopy addr stack D.prefixes),
      D.elems.map (elemCopy D.prefixes (D.atts.map (attCopy addr stack D.prefixes))), D.gen.map (entCopy str),
      D.par.map (entCopy str), D.cells⟩ := by
  unfold child DTD.tryClone
  have hp : D.prefixes.foldl (fun t p => (insert id t p).1) [] = D.prefixes := by
    have := prefixes_eq D.prefixes [] (by simpa using h.pkeys)
    simpa using this
  simp only [hp, h.here]
  rw [copyAtts_eq _ _ _ _ _ (by simpa using h.akeys)]
  simp only [List.nil_append]
  rw [copyElems_eq _ _ _ _ (by simpa using h.ekeys)]
  simp only [List.nil_append]
  rw [copyEntities_eq str _ none [] (by simp) (by simpa using h.gkeys)]
  simp only [List.nil_append]
  rw [copyEntities_eq str _ none [] (by simp) (by simpa using h.qkeys)]
  rfl

theorem nodup_inj {key : α → Buf} {t : List α} (h : (t.map key).Nodup) {a b : α} (ha : a ∈ t) (hb : b ∈ t) (hk : key a = key b) : a = b := by
  induction t with
  | nil => cases ha
  | cons c t ih =>
    simp only [List.map_cons, List.nodup_cons] at h
    rcases List.mem_cons.1 ha with h1 | h1 <;> rcases List.mem_cons.1 hb with h2 | h2
    · rw [h1, h2]
    · rw [h1] at hk
      exact absurd (List.mem_map.2 ⟨b, h2, hk.symm⟩) h.1
    · rw [h2] at hk
      exact absurd (List.mem_map.2 ⟨a, h1, hk⟩) h.1
    · exact ih h.2 h1 h2

/-- The copy is closed unless an attribute stands for the default prefix. -/
theorem Closed.child [DecidableEq β] (str : β → Buf) {addr stack heap : Nat} {D : DTD β} (h : Closed addr D)
    (hx : ∀ n a, D.att n = some a → D.scope a ≠ some none) {D' : DTD Buf} (hd : child str stack heap D = some D') : Closed heap D' := by
  rw [child_eq str h] at hd
  simp only [Option.some.injEq] at hd
  subst hd
  have hk : (D.atts.map (attCopy addr stack D.prefixes)).map AttId.name = D.atts.map AttId.name := by
    rw [List.map_map]; rfl
  have he : D.elems.map (elemCopy D.prefixes (D.atts.map (attCopy addr stack D.prefixes))) = D.elems := by
    rw [List.map_congr_left (g := id)]
    · simp
    · intro e he; exact elemCopy_eq h he
  have hc : ∀ e, Complete e → Complete (entCopy str e) := by
    intro e he
    refine ⟨fun h => ?_, fun h => ?_⟩
    · simp only [entCopy] at h ⊢
      rw [if_pos (by cases hs : e.systemId <;> simp_all)]
    · simp only [entCopy] at h ⊢
      rw [h]
      simp
  have hf : ∀ a ∈ D.atts, ∀ x, a.pre ≠ some (.field x) := by
    intro a ha x hp
    obtain ⟨b, hb⟩ := find_mem (key := AttId.name) (t := D.atts) (n := a.name) (List.mem_map.2 ⟨a, ha, rfl⟩)
    have hb' := find_some hb
    have hab : b = a := nodup_inj h.akeys hb'.1 ha hb'.2
    subst hab
    have := hx _ _ hb
    rw [DTD.scope, hp] at this
    have hx := h.afield b ha x hp
    rw [hx, h.here] at this
    simp at this
  exact {
    here := rfl
    pkeys := h.pkeys
    akeys := by simp only; rw [hk]; exact h.akeys
    ekeys := by simp only; rw [he]; exact h.ekeys
    gkeys := by simp only; rw [List.map_map]; exact h.gkeys
    qkeys := by simp only; rw [List.map_map]; exact h.qkeys
    apre := fun a ha p hp => by
      obtain ⟨b, hb, rfl⟩ := List.mem_map.1 ha
      simp only [attCopy] at hp
      cases hq : b.pre with
      | none => rw [hq] at hp; cases hp
      | some q =>
        cases q with
        | field x => exact absurd hq (hf b hb x)
        | named q =>
          rw [hq] at hp
          simp only [find_pre (h.apre b hb q hq), Option.map_some, Option.some.injEq, PRef.named.injEq] at hp
          rw [← hp]
          exact h.apre b hb q hq
    afield := fun a ha x hp => by
      obtain ⟨b, hb, rfl⟩ := List.mem_map.1 ha
      simp only [attCopy] at hp
      cases hq : b.pre with
      | none => rw [hq] at hp; cases hp
      | some q =>
        cases q with
        | field x => exact absurd hq (hf b hb x)
        | named q =>
          rw [hq] at hp
          simp [find_pre (h.apre b hb q hq)] at hp
    axmlns := fun a ha hp => by
      obtain ⟨b, hb, rfl⟩ := List.mem_map.1 ha
      simp only [attCopy] at hp ⊢
      cases hq : b.pre with
      | none => simp
      | some q =>
        cases q with
        | field x => exact absurd hq (hf b hb x)
        | named q =>
          rw [hq] at hp
          simp [find_pre (h.apre b hb q hq)] at hp
    epre := by simp only; rw [he]; exact h.epre
    eid := by simp only; rw [he, hk]; exact h.eid
    edef := by simp only; rw [he, hk]; exact h.edef
    gen := fun e he => by
      obtain ⟨e0, h0, rfl⟩ := List.mem_map.1 he
      exact hc e0 (h.gen e0 h0)
    par := fun e he => by
      obtain ⟨e0, h0, rfl⟩ := List.mem_map.1 he
      exact hc e0 (h.par e0 h0) }

theorem Built.closed {ns : Bool} {addr : Nat} {D : DTD β} (h : Built ns addr D) : Closed addr D := by
  induction h with
  | empty addr =>
    constructor <;> simp [DTD.empty]
  | @att β addr D h n ih =>
    unfold DTD.getAttributeId
    split
    · exact ih
    · rename_i hn
      split
      · exact ih.addAtt hn (by simp) (by simp) (by simp)
      · exact ih.addAtt hn (by simp) (by intro x hx; simp only [Option.some.injEq, PRef.field.injEq] at hx; rw [← hx]; exact ih.here) (by simp)
      · rename_i p _
        refine (ih.addPrefix p).addAtt hn ?_ (by simp) (by simp)
        intro q hq
        simp only [Option.some.injEq, PRef.named.injEq] at hq
        subst hq
        exact insert_self
      · rename_i p _
        refine (ih.addPrefix p).addAtt hn ?_ (by simp) (by simp)
        intro q hq
        simp only [Option.some.injEq, PRef.named.injEq] at hq
        subst hq
        exact insert_self
  | @elem β addr D h n ih =>
    unfold DTD.getElementType
    split
    · exact ih
    · rename_i hn
      split
      · exact ih.addElem hn (by simp)
      · rename_i p _ _
        refine (ih.addPrefix p).addElem hn ?_
        intro q hq
        simp only [Option.some.injEq] at hq
        subst hq
        exact insert_self
  | plainElem h n hn h0 ih => exact ih.addElem hn (by simp)
  | @define β addr D h n m c i v ih =>
    unfold DTD.defineAttribute
    split
    · exact ih
    · rename_i a ha
      have ham := find_some ha
      have hk : (if c = true then D.atts else D.atts.map fun b => if b.name = m then { b with maybeTokenized := true } else b).map
          AttId.name = D.atts.map AttId.name := by
        split
        · rfl
        · exact map_if_keys (fun b => by split <;> rfl) _
      have hmem : ∀ b ∈ (if c = true then D.atts else D.atts.map fun b => if b.name = m then { b with maybeTokenized := true } else b),
          ∃ b0 ∈ D.atts, b.pre = b0.pre ∧ b.xmlns = b0.xmlns := by
        intro b hb
        split at hb
        · exact ⟨b, hb, rfl, rfl⟩
        · obtain ⟨b0, hb0, rfl⟩ := List.mem_map.1 hb
          exact ⟨b0, hb0, by split <;> exact ⟨rfl, rfl⟩⟩
      have hel : ∀ e ∈ D.elems.map (fun e => if e.name = n then e.define a c i v else e), ∃ e0 ∈ D.elems,
          e.pre = e0.pre ∧ (∀ j, e.idAtt = some j → e0.idAtt = some j ∨ j = a.name) ∧
            ∀ d ∈ e.defaults, d ∈ e0.defaults ∨ d.id = a.name := by
        intro e he
        obtain ⟨e0, he0, rfl⟩ := List.mem_map.1 he
        refine ⟨e0, he0, ?_⟩
        split
        · exact define_ok.2
        · exact ⟨rfl, fun _ h => .inl h, fun _ h => .inl h⟩
      have hname : a.name ∈ D.atts.map AttId.name := List.mem_map.2 ⟨a, ham.1, rfl⟩
      exact {
        here := ih.here
        pkeys := ih.pkeys
        akeys := by simp only; rw [hk]; exact ih.akeys
        ekeys := by
          simp only
          rw [map_if_keys (fun e => by split; exact define_ok.1; rfl)]
          exact ih.ekeys
        gkeys := ih.gkeys
        qkeys := ih.qkeys
        apre := fun b hb p hp => by
          obtain ⟨b0, h0, h1, _⟩ := hmem b hb
          exact ih.apre b0 h0 p (h1 ▸ hp)
        afield := fun b hb x hx => by
          obtain ⟨b0, h0, h1, _⟩ := hmem b hb
          exact ih.afield b0 h0 x (h1 ▸ hx)
        axmlns := fun b hb hx => by
          obtain ⟨b0, h0, h1, h2⟩ := hmem b hb
          rw [h2]
          exact ih.axmlns b0 h0 (h1 ▸ hx)
        epre := fun e he p hp => by
          obtain ⟨e0, h0, h1, _⟩ := hel e he
          exact ih.epre e0 h0 p (h1 ▸ hp)
        eid := fun e he j hj => by
          obtain ⟨e0, h0, _, h1, _⟩ := hel e he
          simp only
          rw [hk]
          rcases h1 j hj with h1 | h1
          · exact ih.eid e0 h0 j h1
          · rw [h1]; exact hname
        edef := fun e he d hd => by
          obtain ⟨e0, h0, _, _, h1⟩ := hel e he
          simp only
          rw [hk]
          rcases h1 d hd with h1 | h1
          · exact ih.edef e0 h0 d h1
          · rw [h1]; exact hname
        gen := ih.gen
        par := ih.par }
  | @general β addr D h e hn hc ih =>
    exact { ih with
      gkeys := by rw [List.map_append]; exact nodup_add ih.gkeys (find_none.1 hn)
      gen := fun x hx => by
        rcases List.mem_append.1 hx with hx | hx
        · exact ih.gen x hx
        · simp only [List.mem_singleton] at hx; subst hx; exact hc }
  | @param β addr D h e hn hc ih =>
    exact { ih with
      qkeys := by rw [List.map_append]; exact nodup_add ih.qkeys (find_none.1 hn)
      par := fun x hx => by
        rcases List.mem_append.1 hx with hx | hx
        · exact ih.par x hx
        · simp only [List.mem_singleton] at hx; subst hx; exact hc }
  | pre h p ih => exact ih.addPrefix p
  | cells h c ih => exact { ih with }
  | inherited h hx str stack heap hd ih => exact ih.child str hx hd

end

end Verif.Clone
