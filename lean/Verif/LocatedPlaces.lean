import Verif.LocatedToks
import Verif.ContentThm
import Verif.Handlers
import Verif.DocThm

/-! The event pointers within a token of content. -/

set_option autoImplicit false

namespace Verif
open C43 C53 Spec C04

/-- The calls of one token that is carried out, when `*eventPP` and `*eventEndPP` are at `a`; `z` is the place at the end of the token, with
no bytes.  For an empty-element tag whose start has been reported, `*eventPP = *eventEndPP` before the end is (3902-3904); the default
handler in an encoding that is converted leaves `*eventPP` at the end (7729).  Text, which moves the pointers from one piece to the next
(4154-4165, 4991-5003, 7717-7729), has no place here. -/
def placeTok (conv : Bool) (a z : Nat × Nat) : Bool → List Ev → List Placed
  | _, [] => []
  | _, .startElement n as k id :: E => ⟨some a, .startElement n as k id⟩ :: placeTok conv a z true E
  | true, .endElement n :: E => ⟨some z, .endElement n⟩ :: placeTok conv z z true E
  | st, .dflt d :: E => ⟨none, .dflt d⟩ :: placeTok conv (if conv then z else a) z st E
  | st, .chars d :: E => ⟨none, .chars d⟩ :: placeTok conv a z st E
  | st, v :: E => ⟨some a, v⟩ :: placeTok conv a z st E

/-- The places of the calls in content.  While an internal entity is being expanded the pointers of its own text move
(`internalEventPtr`, 3594-3600), so `m_eventPtr` stays at the reference.  If a tag is at fault the pointer may have been moved to an attribute
before `endNamespaceDecl` is called (4311, 7180-7373, 3891-3893), which is not modelled. -/
def places (x : XEnc) : Places CState where
  put ok t i w E :=
    if t = .ENTITY_REF then E.map fun v => ⟨if isData v then none else some (i, w.length), v⟩
    else if ok then placeTok (!x.isUtf8) (i, w.length) (i + w.length, 0) false E
    else E.map fun v => ⟨if isData v || isEndNs v then none else some (i, w.length), v⟩
  fault _ t i _ c :=
    match t with
    | .START_TAG_NO_ATTS | .START_TAG_WITH_ATTS | .EMPTY_ELEMENT_NO_ATTS | .EMPTY_ELEMENT_WITH_ATTS => none
    | .END_TAG => if c = .TAG_MISMATCH then some (i + 2 * x.e.mb) else some i   -- 3979
    | _ => some i

theorem placeTok_lists (conv : Bool) (z : Nat × Nat) (E : List Ev) : ∀ a st, (placeTok conv a z st E).map (·.ev) = E := by
  induction E with
  | nil => intro a st; rfl
  | cons v E ih => intro a st; cases v <;> cases st <;> simp [placeTok, ih]

theorem places_lists (x : XEnc) : (places x).Lists := by
  intro ok t i w E
  simp only [places]
  split
  · simp [Function.comp_def]
  · split
    · exact placeTok_lists ..
    · simp [Function.comp_def]

theorem placeTok_cons (conv : Bool) (a z : Nat × Nat) (st : Bool) (v : Ev) (E : List Ev) :
    ∃ o a' st', placeTok conv a z st (v :: E) = ⟨o, v⟩ :: placeTok conv a' z st' E ∧
      (a' = a ∨ a' = z) ∧ (o = none ∨ o = some a ∨ o = some z ∧ a' = z) := by
  cases v <;> cases st <;> cases conv <;> simp only [placeTok, Bool.false_eq_true, if_true, if_false] <;>
    first
    | exact ⟨_, _, _, rfl, .inl rfl, .inl rfl⟩
    | exact ⟨_, _, _, rfl, .inr rfl, .inl rfl⟩
    | exact ⟨_, _, _, rfl, .inl rfl, .inr (.inl rfl)⟩
    | exact ⟨_, _, _, rfl, .inr rfl, .inr (.inr ⟨rfl, rfl⟩)⟩

theorem placeTok_within (conv : Bool) (z : Nat × Nat) (E : List Ev) : ∀ a : Nat × Nat, a.1 ≤ z.1 → ∀ st,
    (∀ p ∈ placeTok conv a z st E, ∀ q ∈ p.pos, (q = a ∨ q = z) ∧ a.1 ≤ q.1) ∧
    (placeTok conv a z st E).Pairwise fun p q => ∀ a ∈ p.pos, ∀ b ∈ q.pos, a.1 ≤ b.1 := by
  induction E with
  | nil => intro a ha st; simp [placeTok]
  | cons v E ih =>
    intro a ha st
    obtain ⟨o, a', st', h, h1, h2⟩ := placeTok_cons conv a z st v E
    have ih := ih a' (by rcases h1 with rfl | rfl <;> omega) st'
    have hle : a.1 ≤ a'.1 := by rcases h1 with rfl | rfl <;> omega
    rw [h]
    refine ⟨?_, List.pairwise_cons.2 ⟨?_, ih.2⟩⟩
    · intro p hp q hq
      rcases List.mem_cons.1 hp with rfl | hp
      · rcases h2 with rfl | rfl | ⟨rfl, _⟩ <;> simp at hq <;> subst hq
        · exact ⟨.inl rfl, Nat.le_refl _⟩
        · exact ⟨.inr rfl, ha⟩
      · have := ih.1 p hp q hq
        refine ⟨?_, by omega⟩
        rcases this.1 with rfl | rfl
        · exact h1
        · exact .inr rfl
    · intro p hp q hq b hb
      have := ih.1 p hp b hb
      rcases h2 with rfl | rfl | ⟨rfl, h3⟩ <;> simp at hq <;> subst hq
      · omega
      · rw [← h3]; exact this.2

theorem places_within (x : XEnc) : (places x).Within := by
  intro ok t i w E
  simp only [places]
  have flat : ∀ f : Ev → Bool, (∀ p ∈ E.map fun v => (⟨if f v then none else some (i, w.length), v⟩ : Placed), ∀ q ∈ p.pos,
        i ≤ q.1 ∧ q.1 + q.2 ≤ i + w.length) ∧
      (E.map fun v => (⟨if f v then none else some (i, w.length), v⟩ : Placed)).Pairwise fun p q => ∀ a ∈ p.pos, ∀ b ∈ q.pos, a.1 ≤ b.1 := by
    intro f
    refine ⟨?_, ?_⟩
    · intro p hp q hq
      obtain ⟨v, _, rfl⟩ := List.mem_map.1 hp
      simp only at hq
      split at hq <;> simp at hq
      subst hq
      simp
    · rw [List.pairwise_map]
      refine List.pairwise_of_forall ?_
      intro p q a ha b hb
      simp only at ha hb
      split at ha <;> simp at ha
      split at hb <;> simp at hb
      subst ha hb
      simp
  split
  · exact flat _
  · split
    · have := placeTok_within (!x.isUtf8) (i + w.length, 0) E (i, w.length) (by simp) false
      refine ⟨fun p hp q hq => ?_, this.2⟩
      obtain ⟨h1, h2⟩ := this.1 p hp q hq
      rcases h1 with rfl | rfl <;> simp
    · exact flat _

/-- Calls that report the beginning or the end of a namespace declaration. -/
def isNs (v : Ev) : Bool := isStartNs v || isEndNs v

theorem placeTok_ns {conv : Bool} {z : Nat × Nat} {E : List Ev} (h : ∀ v ∈ E, isNs v = true) (F : List Ev) : ∀ a st,
    placeTok conv a z st (E ++ F) = E.map (fun v => ⟨some a, v⟩) ++ placeTok conv a z st F := by
  induction E with
  | nil => intro a st; rfl
  | cons v E ih =>
    intro a st
    have hv := h v (by simp)
    have ih := ih (fun v hv => h v (by simp [hv])) a
    cases v <;> simp [isNs, isStartNs, isEndNs] at hv <;> cases st <;> simp [placeTok, ih]

theorem placeTok_dflt {conv : Bool} {z : Nat × Nat} {L : List Buf} (F : List Ev) : ∀ a st,
    placeTok conv a z st (L.map .dflt ++ F) =
      L.map (fun d => ⟨none, .dflt d⟩) ++ placeTok conv (if conv && !L.isEmpty then z else a) z st F := by
  induction L with
  | nil => intro a st; simp
  | cons d L ih => intro a st; cases st <;> cases conv <;> cases L <;> simp_all [placeTok]

theorem placeTok_toDefault {c : Cfg} {x : XEnc} {conv : Bool} {z : Nat × Nat} {w : Buf} (F : List Ev) (a st) :
    placeTok conv a z st (toDefault c x w ++ F) = (toDefault c x w).map (fun v => ⟨none, v⟩) ++
      placeTok conv (if conv && c.dflt then z else a) z st F := by
  have hp : pieces x w ≠ [] := by
    rw [pieces]
    split
    · simp
    · rw [deliver]; split <;> simp
  rw [toDefault]
  split
  · rename_i hd
    rw [placeTok_dflt]
    have : (pieces x w).isEmpty = false := by cases h : pieces x w <;> simp_all
    simp [this, hd, Function.comp_def]
  · rename_i hd
    simp [hd]

end Verif
