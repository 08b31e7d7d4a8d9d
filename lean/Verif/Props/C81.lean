import Verif.CloneThm
import Verif.Parser

/-! C81: a parser for an external general entity knows what its parent has been told.

False of the code for the default namespace: `DTD::try_clone` stores the address of a local variable
(`default_lost`, `wrong_namespace`). -/

set_option autoImplicit false

namespace Verif.C81
open Verif Verif.Clone

section
variable {β : Type}

/-- An entity with the text of its base in place of the pointer to it. -/
def shown (str : β → Buf) (e : Ent β) : Ent Buf :=
  ⟨e.name, e.text, e.systemId, e.base.map str, e.publicId, e.notation_, e.isParam, e.isInternal⟩

/-- Everything but what namespace declarations do: entities, parameter entities, element types with their
default and ID attributes, attributes, prefixes, and the state of the DTD are the same. -/
structure Declares (str : β → Buf) (D : DTD β) (D' : DTD Buf) : Prop where
  general : ∀ n, D'.general n = (D.general n).map (shown str)
  param : ∀ n, D'.param n = (D.param n).map (shown str)
  elem : ∀ n, D'.elem n = D.elem n
  att : ∀ n, (D'.att n).map (fun a => (a.name, a.maybeTokenized, a.xmlns)) =
    (D.att n).map (fun a => (a.name, a.maybeTokenized, a.xmlns))
  prefixes : ∀ p, p ∈ D'.prefixes ↔ p ∈ D.prefixes
  cells : D'.cells = D.cells

/-- The full claim: also, each attribute stands for the same prefix. -/
structure Knows (str : β → Buf) (D : DTD β) (D' : DTD Buf) : Prop extends Declares str D D' where
  scopes : ∀ n, (D'.att n).map D'.scope = (D.att n).map D.scope

theorem entCopy_eq (str : β → Buf) {e : Ent β} (h : Complete e) : entCopy str e = shown str e := by
  obtain ⟨n, t, s, b, p, nt, ip, ii⟩ := e
  cases s with
  | none =>
    obtain ⟨h1, h2, h3⟩ := h.internal rfl
    simp only at h1 h2 h3
    subst h2 h3
    cases t with
    | none => exact absurd rfl h1
    | some t => rfl
  | some s =>
    have h1 := h.external (by simp)
    simp only at h1
    subst h1
    rfl

theorem declares [DecidableEq β] (str : β → Buf) {ns : Bool} {addr : Nat} (stack heap : Nat) {D : DTD β} (h : Built ns addr D) :
    ∃ D', child str stack heap D = some D' ∧ Declares str D D' ∧ D'.addr = heap ∧
      ∀ n, D'.att n = (D.att n).map (attCopy addr stack D.prefixes) := by
  have hc := h.closed
  refine ⟨_, child_eq str hc, ⟨?_, ?_, ?_, ?_, fun _ => Iff.rfl, rfl⟩, rfl, ?_⟩
  · intro n
    simp only [DTD.general]
    rw [find_map (f := entCopy str) (key := Ent.name) (key' := Ent.name) (fun _ => rfl)]
    cases hf : find Ent.name D.gen n with
    | none => rfl
    | some e => simp [entCopy_eq str (hc.gen e (find_some hf).1)]
  · intro n
    simp only [DTD.param]
    rw [find_map (f := entCopy str) (key := Ent.name) (key' := Ent.name) (fun _ => rfl)]
    cases hf : find Ent.name D.par n with
    | none => rfl
    | some e => simp [entCopy_eq str (hc.par e (find_some hf).1)]
  · intro n
    simp only [DTD.elem]
    rw [find_map (f := elemCopy D.prefixes (D.atts.map (attCopy addr stack D.prefixes))) (key := Clone.ElemType.name) (fun _ => rfl)]
    cases hf : find Clone.ElemType.name D.elems n with
    | none => rfl
    | some e => simp [elemCopy_eq hc (find_some hf).1]
  · intro n
    simp only [DTD.att]
    rw [find_map (key := AttId.name) (attCopy_name _ _ _)]
    cases hf : find AttId.name D.atts n with
    | none => rfl
    | some a =>
      have := hc.axmlns a (find_some hf).1
      simp only [attCopy, Option.map_some, Option.some.injEq, Prod.mk.injEq, true_and]
      split
      · rename_i h0; exact (this h0).symm
      · rfl
  · intro n
    simp only [DTD.att]
    rw [find_map (key := AttId.name) (attCopy_name _ _ _)]

/-- What the copy of an attribute stands for. -/
theorem scope_copy {addr stack heap : Nat} {D : DTD β} {D' : DTD Buf} (hc : Closed addr D) (ha : D'.addr = heap) {a : AttId} (hm : a ∈ D.atts) :
    D'.scope (attCopy addr stack D.prefixes a) =
      if D.scope a = some none then (if stack = heap then some none else none) else D.scope a := by
  have h1 := hc.apre a hm
  have h2 := hc.afield a hm
  obtain ⟨n, t, x, p⟩ := a
  simp only at h1 h2
  cases p with
  | none => simp [DTD.scope, attCopy]
  | some p =>
    cases p with
    | named p => simp [DTD.scope, attCopy, find_pre (h1 p rfl)]
    | field y =>
      have := h2 y rfl
      subst this
      simp [DTD.scope, attCopy, hc.here, ha]

/-! ### Theorems -/

/-- **C81, as far as it is true.**  Whatever the parent has declared, met or inherited: the parser for the
external general entity is made without a panic and has the same entities, element types, attributes and
prefixes, and the same state; every attribute that stands for a prefix that has a name stands for the same
one.  What is missing: the attribute `xmlns` (`default_lost`). -/
theorem knows_partial [DecidableEq β] (str : β → Buf) {ns : Bool} {addr : Nat} (stack heap : Nat) {D : DTD β} (h : Built ns addr D) :
    ∃ D', child str stack heap D = some D' ∧ Declares str D D' ∧
      ∀ n a, D.att n = some a → D.scope a ≠ some none → (D'.att n).map D'.scope = some (D.scope a) := by
  obtain ⟨D', h1, h2, h3, h4⟩ := declares str stack heap h
  refine ⟨D', h1, h2, fun n a ha hs => ?_⟩
  rw [h4, ha]
  simp only [Option.map_some, Option.some.injEq]
  rw [scope_copy h.closed h3 (find_some ha).1, if_neg hs]

/-- **C81, if the copy stayed where it is made.**  Then the full claim would hold. -/
theorem knows_unmoved [DecidableEq β] (str : β → Buf) {ns : Bool} {addr : Nat} (here : Nat) {D : DTD β} (h : Built ns addr D) :
    ∃ D', child str here here D = some D' ∧ Knows str D D' := by
  obtain ⟨D', h1, h2, h3, h4⟩ := declares str here here h
  refine ⟨D', h1, { h2 with scopes := fun n => ?_ }⟩
  rw [h4]
  cases ha : D.att n with
  | none => rfl
  | some a =>
    simp only [Option.map_some, Option.some.injEq]
    rw [scope_copy h.closed h3 (find_some ha).1]
    split
    · rename_i hs; rw [hs]; simp
    · rfl

/-- **C81 is false.**  Whenever the parent has met the attribute `xmlns` and the copy is moved (as it is),
the attribute stands for nothing in the copy: its pointer leads to where the copy was made. -/
theorem default_lost [DecidableEq β] (str : β → Buf) {ns : Bool} {addr : Nat} {stack heap : Nat} (hne : stack ≠ heap) {D : DTD β}
    (h : Built ns addr D) {n : Buf} {a : AttId} (ha : D.att n = some a) (hs : D.scope a = some none) :
    ∃ D', child str stack heap D = some D' ∧ (D'.att n).map D'.scope = some none ∧ ¬ Knows str D D' := by
  obtain ⟨D', h1, h2, h3, h4⟩ := declares str stack heap h
  have hl : (D'.att n).map D'.scope = some none := by
    rw [h4, ha]
    simp only [Option.map_some, Option.some.injEq]
    rw [scope_copy h.closed h3 (find_some ha).1, if_pos hs, if_neg hne]
  refine ⟨D', h1, hl, fun hk => ?_⟩
  have := hk.scopes n
  rw [hl, ha] at this
  simp [hs] at this

/-- The attribute `xmlns` of a parser with namespaces stands for the default one. -/
theorem xmlns_scope (addr : Nat) : ((DTD.empty (β := β) addr).getAttributeId true xmlnsName).att xmlnsName =
    some ⟨xmlnsName, false, true, some (.field addr)⟩ := rfl

/-- **What a user sees.**  The root element of the document has the attribute `xmlns`; an element of the
external entity declares another default namespace `v`.  Its name and those of the elements in it are still
reported in the namespace `u` that was in force around the reference, although in the document the same
tag would put them in `v`. -/
theorem wrong_namespace [DecidableEq β] (str : β → Buf) {addr stack heap : Nat} (hne : stack ≠ heap) {D : DTD β}
    (h : Built true addr D) {a : AttId} (ha : D.att xmlnsName = some a) (hx : a.xmlns = true) (hs : D.scope a = some none)
    (c : Cfg) (hc : c.ns = true) (env : Env) (u v raw : Buf) (he : env none = some u) (hv : v ≠ []) (hr : splitColon raw = none) :
    ∃ D', child str stack heap D = some D' ∧
      elemName c (declare true D' env xmlnsName v) raw = .ok ⟨raw, some (u, raw, none)⟩ ∧
      elemName c (declare true D env xmlnsName v) raw = .ok ⟨raw, some (v, raw, none)⟩ := by
  obtain ⟨D', h1, h2, h3, h4⟩ := declares str stack heap h
  have ha' := h4 xmlnsName
  rw [ha, Option.map_some] at ha'
  refine ⟨D', h1, ?_, ?_⟩
  · have hd : declare true D' env xmlnsName v = env := by
      simp only [declare, DTD.getAttributeId, ha']
      rw [scope_copy h.closed h3 (find_some ha).1, if_pos hs, if_neg hne]
      simp
    rw [hd, elemName, hc]
    simp [hr, he]
  · have hd : declare true D env xmlnsName v none = some v := by
      simp only [declare, DTD.getAttributeId, ha, hx, hs, if_true]
      simp [hv]
    rw [elemName, hc]
    simp [hr, hd]

end

/-! ### Non-vacuity -/

/-- `<!DOCTYPE p:d [<!ENTITY e SYSTEM "e.xml"> <!ENTITY i "t"> <!ATTLIST p:d id ID "1" xml:a NMTOKEN "x" xmlns CDATA "u">]>`. -/
def exDtd : DTD Nat :=
  ((((((((DTD.empty 7).getElementType [0x70, 0x3A, 0x64]).getAttributeId true [0x69, 0x64]).defineAttribute
    [0x70, 0x3A, 0x64] [0x69, 0x64] false true (some [0x31])).getAttributeId true [0x78, 0x6D, 0x6C, 0x3A, 0x61]).defineAttribute
    [0x70, 0x3A, 0x64] [0x78, 0x6D, 0x6C, 0x3A, 0x61] false false (some [0x78])).getAttributeId true xmlnsName).defineAttribute
    [0x70, 0x3A, 0x64] xmlnsName true false (some [0x75]))
def exEnt : Ent Nat := ⟨[0x65], none, some [0x65, 0x2E, 0x78], some 3, none, none, false, false⟩
def exDtd2 : DTD Nat := { exDtd with gen := exDtd.gen ++ [exEnt] }

theorem exBuilt : Built true 7 exDtd2 :=
  .general (.define (.att (.define (.att (.define (.att (.elem (.empty 7) _) _) _ _ _ _ _) _) _ _ _ _ _) _) _ _ _ _ _) exEnt rfl
    ⟨fun _ => rfl, fun h => by cases h⟩

/-- The hypotheses of all theorems hold of it, and the copy is what they say. -/
example : ∃ a, exDtd2.att xmlnsName = some a ∧ a.xmlns = true ∧ exDtd2.scope a = some none := ⟨_, rfl, rfl, rfl⟩
example : (child (fun _ => [0x2F]) 1 2 exDtd2).map (fun D => (D.general [0x65], D.elem [0x70, 0x3A, 0x64],
      (D.att xmlnsName).map D.scope, (D.att [0x78, 0x6D, 0x6C, 0x3A, 0x61]).map D.scope)) =
    some (some ⟨[0x65], none, some [0x65, 0x2E, 0x78], some [0x2F], none, none, false, false⟩,
      some ⟨[0x70, 0x3A, 0x64], some [0x69, 0x64], some [0x70], [⟨[0x69, 0x64], false, some [0x31]⟩,
        ⟨[0x78, 0x6D, 0x6C, 0x3A, 0x61], false, some [0x78]⟩, ⟨xmlnsName, true, some [0x75]⟩]⟩,
      some none, some (some (some xmlName))) := by
  rfl

/-- A parser for an entity in an entity. -/
example : ∃ D', child (fun _ : Nat => [0x2F]) 1 2 ((DTD.empty 7).getElementType [0x70, 0x3A, 0x64]) = some D' ∧ Built true 2 D' ∧
    D'.prefixes = [[0x70]] :=
  ⟨_, rfl, .inherited (.elem (.empty 7) [0x70, 0x3A, 0x64]) (fun n a h => absurd (show none = some a from h) (by simp)) (fun _ => [0x2F]) 1 2 rfl, rfl⟩

end Verif.C81
