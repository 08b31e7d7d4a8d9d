import Verif.PrologRoles

/-!
# Induction over the prolog

A relation between the state before, the handler calls made and the state after holds of every run of
`doProlog` if it holds of every round of its loop.
-/

set_option autoImplicit false

namespace Verif

/-- Steps can be put together. -/
structure TraceRel (R : DState → List PEv → DState → Prop) : Prop where
  refl : ∀ s, R s [] s
  trans : ∀ {s E t F u}, R s E t → R t F u → R s (E ++ F) u

/-- `R` holds of every call of `expand`. -/
def ExpandRel (R : DState → List PEv → DState → Prop) (expand : Bool → Buf → Buf → DState → Acted) : Prop :=
  ∀ b n t s, R s (expand b n t s).1 (expand b n t s).2.1

/-- The grammar machine is told of the end of the entity. -/
def DState.atEnd (s : DState) (e : Enc) : DState :=
  { s with el := { s.el with p := (s.el.p.next e .NONE []).1 } }

/-- The grammar machine is given the token. -/
def DState.told (s : DState) (e : Enc) (t : Tok) (w : Buf) : DState :=
  { s with el := { s.el with p := (s.el.p.next e t w).1 } }

/-- What has to be shown of a relation. -/
structure RunRel (c : PCfg) (ext : Ext) (fuel : Nat) (R : DState → List PEv → DState → Prop) : Prop
    extends TraceRel R where
  ended : ∀ s e, R s [] (s.atEnd e)
  ignoring : ∀ s b, R s [] { s with ignoring := b }
  dflt : ∀ s (L : List Ev), R s (L.map .ev) s
  act : ∀ expand internal allowClose opened s t w, ExpandRel R expand →
    R s (pact c ext fuel expand internal allowClose opened (s.told (s.x c internal).e t w)
        (s.el.p.next (s.x c internal).e t w).2 t w).1
      (pact c ext fuel expand internal allowClose opened (s.told (s.x c internal).e t w)
        (s.el.p.next (s.x c internal).e t w).2 t w).2.1

variable {c : PCfg} {ext : Ext} {fuel : Nat} {R : DState → List PEv → DState → Prop}
  {expand : Bool → Buf → Buf → DState → Acted} {internal between allowClose more : Bool} {opened : List Buf}

/-- The default handler is told of the token (6863-6865). -/
def Acted.told (c : PCfg) (internal : Bool) (w : Buf) (r : Acted) : Acted :=
  match r with
  | (E, s, .go true) => (E ++ (toDefault c.c (s.x c internal) w).map .ev, s, .go true)
  | r => r

theorem pround_eq (s : DState) (t : Tok) (w : Buf) :
    pround c ext fuel expand internal allowClose opened s t w =
      (pact c ext fuel expand internal allowClose opened (s.told (s.x c internal).e t w)
        (s.el.p.next (s.x c internal).e t w).2 t w).told c internal w := rfl

theorem RunRel.round (H : RunRel c ext fuel R) (he : ExpandRel R expand) (s : DState) (t : Tok) (w : Buf) :
    R s (pround c ext fuel expand internal allowClose opened s t w).1
      (pround c ext fuel expand internal allowClose opened s t w).2.1 := by
  have h := H.act expand internal allowClose opened s t w he
  rw [pround_eq]
  generalize pact c ext fuel expand internal allowClose opened _ _ t w = r at h
  obtain ⟨E, s', o⟩ := r
  cases o with
  | go d =>
    cases d with
    | true => exact H.trans h (H.dflt _ _)
    | false => exact h
  | _ => exact h

theorem RunRel.run (H : RunRel c ext fuel R) (he : ExpandRel R expand) (s : DState) (b : Buf) :
    R s (prun c ext fuel expand internal between allowClose more opened s b).1
      (prun c ext fuel expand internal between allowClose more opened s b).2.1 := by
  induction hn : b.length using Nat.strongRecOn generalizing s b with
  | _ n ih =>
    subst hn
    rw [prun.eq_def]
    simp only []
    cases seeToken (s.x c internal) internal between more c.isPE b with
    | wait => exact H.refl s
    | fail e => exact H.refl s
    | panic => exact H.refl s
    | endPE =>
      simp only []
      split
      · exact H.ended s _
      · exact H.ended s _
    | tok t n =>
      simp only []
      have hr := H.round (internal := internal) (allowClose := allowClose) (opened := opened) he s t (b.take n)
      generalize pround c ext fuel expand internal allowClose opened s t (b.take n) = r at hr
      obtain ⟨E, s', o⟩ := r
      cases o with
      | fail e => exact hr
      | panic => exact hr
      | start => exact hr
      | go d =>
        simp only []
        split
        · rename_i hlt
          exact H.trans hr (ih _ hlt s' _ rfl)
        · exact hr
      | ignore =>
        simp only []
        cases ignoreSection (s'.x c internal) more (b.drop n) with
        | wait =>
          have := H.trans hr (H.ignoring s' true)
          simpa using this
        | err e => exact hr
        | closed k =>
          simp only []
          split
          · rename_i hlt
            exact H.trans (H.trans hr (H.dflt _ _)) (ih _ hlt s' _ rfl)
          · exact hr

theorem toActed_rel {r : Prolog} {s : DState} (h : R s r.1 r.2.1) : R s r.toActed.1 r.toActed.2.1 := by
  obtain ⟨E, s', o⟩ := r
  cases o <;> exact h

theorem RunRel.expandPE (H : RunRel c ext fuel R) (k : Nat) (opened : List Buf) :
    ExpandRel R (Verif.expandPE c ext fuel k opened) := by
  induction k generalizing opened with
  | zero => intro b n t s; exact H.refl s
  | succ k ih =>
    intro b n t s
    exact toActed_rel (H.run (ih (n :: opened)) s t)

theorem RunRel.call (H : RunRel c ext fuel R) (s : DState) (b : Buf) :
    R s (prologCall c ext fuel opened more s b).1 (prologCall c ext fuel opened more s b).2.1 := by
  unfold prologCall
  simp only []
  split
  · cases ignoreSection (s.x c false) more b with
    | wait => exact H.refl s
    | err e => exact H.refl s
    | closed k =>
      exact H.trans (H.dflt s _) (H.trans (H.ignoring s false) (H.run (H.expandPE fuel opened) _ _))
  · exact H.run (H.expandPE fuel opened) s b

end Verif
