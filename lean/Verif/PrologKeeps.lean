import Verif.PrologKeep
import Verif.PrologChild

/-!
# Child parsers do no more to the DTD than declare what is not there

`resolver` satisfies `Ext.Keeps`, the hypothesis on the external entity handler in `PrologKeep`.
-/

set_option autoImplicit false

namespace Verif

variable {c : PCfg} {ext : Ext} {fuel : Nat} {opened : List Buf} {more : Bool} {R : DState → List PEv → DState → Prop}

/-- No parameter entity is expanded. -/
def noExpand (_ : Bool) (_ _ : Buf) (s : DState) : Acted := ([], s, .panic)

/-- A relation that holds of runs and of the changes a child parser makes outside of them. -/
structure ChildRel (c : PCfg) (ext : Ext) (fuel : Nat) (R : DState → List PEv → DState → Prop) : Prop where
  run : RunRel c ext fuel R
  act : ∀ s E s', Act c ext noExpand .NONE s E s' → R s E s'

theorem ChildRel.same (H : ChildRel c ext fuel R) {s s' : DState} (h : SameTabs s.D s'.D) (hd : s'.decl = s.decl)
    (hp : s'.el.p = s.el.p) : R s [] s' := H.act _ _ _ (.same h hd hp)

theorem ChildRel.before (H : ChildRel c ext fuel R) {s t u : DState} {E : List PEv} (h : R t E u) (ht : SameTabs s.D t.D)
    (hd : t.decl = s.decl) (hp : t.el.p = s.el.p) : R s E u := by
  have := H.run.trans (H.same ht hd hp) h
  simpa using this

theorem ChildRel.store (H : ChildRel c ext fuel R) (ch : Child) (b : Buf) :
    R ch.s (childStore c ext fuel opened ch b).E (childStore c ext fuel opened ch b).ch.s :=
  H.act _ _ _ (storeEntityValue_act ch.s.pe fuel (ch.s.cur.x c.c.ns) false opened ch.s.sh [] b ch.s)

theorem ChildRel.ev (H : ChildRel c ext fuel R) (ch : Child) (b : Buf) :
    R ch.s (evCall c ext fuel opened more ch b).E (evCall c ext fuel opened more ch b).ch.s := by
  unfold evCall
  split
  · exact H.run.refl _
  · exact H.run.refl _
  · exact H.store ch _
  · exact H.run.refl _

theorem ChildRel.evInitRun (H : ChildRel c ext fuel R) (ch : Child) (b0 b : Buf) :
    R ch.s (evInitRun c ext fuel opened more ch b0 b).E (evInitRun c ext fuel opened more ch b0 b).ch.s := by
  unfold Verif.evInitRun
  split
  · exact H.run.refl _
  · exact H.run.refl _
  · exact H.store ch _
  · rename_i w rest _
    have h := H.act _ _ _ (actXmlDecl_act (c := c) (ext := ext) (expand := noExpand) (r := .NONE) ch.s false w)
    generalize actXmlDecl c ch.s false w = q at h ⊢
    obtain ⟨E, s, o⟩ := q
    cases o with
    | go => exact H.run.trans h (H.ev { ch with s := s, phase := .ev } rest)
    | _ => exact h

theorem ChildRel.evInit (H : ChildRel c ext fuel R) (ch : Child) (b : Buf) :
    R ch.s (evInitCall c ext fuel opened more ch b).E (evInitCall c ext fuel opened more ch b).ch.s := by
  unfold evInitCall
  simp only []
  generalize firstTok c.c.ns ch.enc ch.s.cur b = q
  have hs : ∀ {E : List PEv} {u : DState}, R (ch.set q).s E u → R ch.s E u := fun h =>
    H.before h ⟨rfl, rfl, rfl, rfl⟩ rfl rfl
  split
  · split
    · exact hs (H.run.refl _)
    · exact hs (H.evInitRun _ _ _)
  · split
    · split
      · exact hs (H.run.refl _)
      · exact hs (H.store _ _)
      · exact hs (H.run.refl _)
    · exact hs (H.evInitRun _ _ _)

theorem ChildRel.parEnt (H : ChildRel c ext fuel R) (ch : Child) (b : Buf) :
    R ch.s (parEntCall c ext fuel opened more ch b).E (parEntCall c ext fuel opened more ch b).ch.s := by
  unfold parEntCall
  simp only []
  generalize firstTok c.c.ns ch.enc ch.s.cur b = q
  have hs : ∀ {E : List PEv} {u : DState}, R (ch.set q).s E u → R ch.s E u := fun h =>
    H.before h ⟨rfl, rfl, rfl, rfl⟩ rfl rfl
  split
  · split
    · exact hs (H.run.refl _)
    · exact hs (H.run.refl _)
    · exact hs (H.run.call _ _)
  · split
    · exact hs (H.run.call _ _)
    · exact hs (H.run.call _ _)

theorem ChildRel.call (H : ChildRel c ext fuel R) (ch : Child) (b : Buf) :
    R ch.s (childCall c ext fuel opened more ch b).E (childCall c ext fuel opened more ch b).ch.s := by
  unfold childCall
  split
  · simp only []
    split
    · exact H.before (H.evInit { ch with s := { ch.s with D := { ch.s.D with peRead := true } }, phase := .evInit } b)
        ⟨rfl, rfl, rfl, rfl⟩ rfl rfl
    · exact H.before (H.parEnt { ch with s := { ch.s with D := { ch.s.D with peRead := true } }, phase := .parEnt } b)
        ⟨rfl, rfl, rfl, rfl⟩ rfl rfl
  · exact H.evInit ch b
  · exact H.ev ch b
  · exact H.parEnt ch b
  · exact H.run.call _ _

theorem ChildRel.parse (H : ChildRel c ext fuel R) (ch : Child) (left : Buf) (bs : List Buf) :
    R ch.s (childParse c ext fuel opened ch left bs).E (childParse c ext fuel opened ch left bs).ch.s := by
  induction bs generalizing ch left with
  | nil => exact H.run.refl _
  | cons b bs ih =>
    unfold childParse
    have h := H.call (more := !bs.isEmpty) (opened := opened) ch (left ++ b)
    generalize childCall c ext fuel opened (!bs.isEmpty) ch (left ++ b) = r at h ⊢
    simp only []
    split
    · exact H.run.trans h (ih _ _)
    · exact h

theorem noExpand_rel (H : RunRel c ext fuel R) : ExpandRel R noExpand := fun _ _ _ s => H.refl s

theorem stepM_childRel {k : EKey} (hk : k ≠ hashKey) (hext : ext.Keeps) : ChildRel c ext fuel (StepM false k) :=
  ⟨stepM_runRel hk hext, fun _ _ _ h => Act.step hk hext (noExpand_rel (stepM_runRel (c := c) (fuel := fuel) hk hext)) h
    (by intro h; rcases h with h | h <;> cases h)⟩

theorem grow_childRel (hext : ext.Keeps) : ChildRel c ext fuel Grow :=
  ⟨grow_runRel hext, fun _ _ _ h => Act.grow hext (noExpand_rel (grow_runRel (c := c) (fuel := fuel) hext)) h⟩

theorem childNew_ok (enc : EncIndex) (req : ExtReq) (sh : Shared) : (childNew enc req sh).s.Ok where
  none_ := rfl
  entry := by intro k h; cases h
  gen := by intro _ k h; cases h

/-- A child parser keeps what is in the tables. -/
theorem childParse_kept (hext : ext.Keeps) (enc : EncIndex) (req : ExtReq) (sh : Shared) (left : Buf) (bs : List Buf) :
    Kept sh.D (childParse c ext fuel opened (childNew enc req sh) left bs).E
      (childParse c ext fuel opened (childNew enc req sh) left bs).ch.s.D := by
  have hg := (grow_childRel (c := c) (fuel := fuel) hext).parse (opened := opened) (childNew enc req sh) left bs
  have hm : ∀ k, k ≠ hashKey → _ := fun k hk =>
    (stepM_childRel (c := c) (fuel := fuel) hk hext).parse (opened := opened) (childNew enc req sh) left bs (childNew_ok _ _ _)
  generalize childParse c ext fuel opened (childNew enc req sh) left bs = r at hg hm ⊢
  constructor
  · exact hg.1
  · intro k hk e he
    exact ((hm k hk).2.1 e he (.inl (fun h => by cases h))).1
  · intro k hk
    have hb := (hm k hk).2.2.1
    have h1 : budget false k (childNew enc req sh).s ≤ 1 := by unfold budget; split <;> omega
    refine ⟨by omega, ?_⟩
    intro h
    rcases h with h | h
    · have h2 : budget false k (childNew enc req sh).s = 0 := by
        unfold budget
        rw [if_neg]
        rintro (h2 | ⟨h2, _⟩)
        · rw [show (childNew enc req sh).s.D = sh.D from rfl] at h2
          rw [h2] at h
          cases h
        · cases h2
      omega
    · have h2 : budget false k r.ch.s = 1 := by
        unfold budget
        rw [if_pos (.inl h)]
      omega
  · intro k hk v hv hd
    obtain ⟨e, h1, h2, _⟩ := (hm k hk).2.2.2 v hv hd
    exact ⟨e, h1, h2⟩
  · exact hg.2

/-- An application whose external entity handler creates parsers for the entities. -/
theorem resolver_keeps (c : PCfg) (docs : ExtReq → Option ExtDoc) (fuel d : Nat) : (resolver c docs fuel d).Keeps := by
  have hnone : ∀ (sh : Shared), Kept sh.D [] sh.D := fun sh =>
    ⟨fun _ h => h, fun _ _ _ h => h, fun _ _ => ⟨Nat.zero_le _, fun _ => rfl⟩, fun _ _ _ h => (by cases h), .refl _⟩
  induction d with
  | zero => intro req sh; exact hnone sh
  | succ d ih =>
    intro req sh
    unfold resolver
    split
    · exact hnone sh
    · exact childParse_kept ih _ _ _ _ _

end Verif
