import Verif.PrologFrozen
import Verif.Props.C59
import Verif.Props.C36

/-! # C67: after a parameter entity that has not been read, declarations have no effect

XML 1.0, 5.1: "... they MUST NOT process entity declarations or attribute-list declarations encountered
after the reference [to a parameter entity they do not read], since the entity might have contained
overriding declarations; when standalone="yes", processors MUST process these declarations." -/

set_option autoImplicit false

namespace Verif.C67
open C43 C53 C59 Spec Verif PState

/-! ### Specification -/

/-- The reference to the parameter entity `n` is not followed: the application has not asked for parameter
entities, or the entity has not been declared, or it is external and there is no external entity handler,
or that returns 1 without having read it. -/
inductive Unread (c : PCfg) (pe : PEParsing) (opened : List Buf) (ext : Ext) (par : Buf → Option Entity) (n : Buf) : Prop where
  | never (h : pe = .never)
  | undeclared (h : par n = none)
  | noHandler (e : Entity) (h1 : par n = some e) (h2 : e.text = none) (h3 : n ∉ opened) (h4 : c.c.externalRef = false)
  | notRead (e : Entity) (h1 : par n = some e) (h2 : e.text = none) (h3 : n ∉ opened)
      (h4 : ∀ req sh, req.base = e.base → req.sys = e.systemId → req.pub = e.publicId → ext req sh = ⟨[], sh, [], true⟩)

/-- The declaration of an entity or of an attribute is reported. -/
def reportsDeclaration : PEv → Prop
  | .entityDecl .. => True
  | .unparsed .. => True
  | .attlistDecl .. => True
  | _ => False

/-- What the content of the document and later declarations can see of the declarations: the entities (the
entry `#` stands for the external subset, it cannot be referred to) and the attributes. -/
structure SameDeclarations (D D' : DTab) : Prop where
  general : ∀ n, tabGet D'.gen n = tabGet D.gen n
  parameter : ∀ n, n ≠ [0x23] → tabGet D'.par n = tabGet D.par n
  attributes : ∀ n, tabGet D'.elems n = tabGet D.elems n
  types : ∀ a, a ∈ D'.maybeTok ↔ a ∈ D.maybeTok

theorem reports_iff (v : PEv) : ¬ reportsDeclaration v ↔ v.declaring = false := by
  cases v <;> simp [reportsDeclaration, PEv.declaring]

theorem same_of {D D' : DTab} (h : Unchanged D D') : SameDeclarations D D' :=
  ⟨fun n => by rw [h.gen], h.par, fun n => by rw [h.elems], fun a => by rw [h.toks]⟩

/-! ### The reference -/

section
variable {c : PCfg} {ext : Ext} {fuel : Nat} {expand : Bool → Buf → Buf → DState → Acted} {opened : List Buf}

/-- Whatever comes of the reference. -/
def Dropped (s : DState) (q : Acted) : Prop :=
  q.2.1.D.Over ∧ Unchanged s.D q.2.1.D ∧ q.2.1.el.p = s.el.p ∧ ∀ v ∈ q.1, v.declaring = false

theorem drop_over {D : DTab} (h : D.standalone = false) : D.drop.Over := ⟨h, h⟩

theorem drop_same (D : DTab) : Unchanged D D.drop := ⟨rfl, rfl, rfl, fun _ _ => rfl⟩

theorem Dropped.check {s s' : DState} {E : List PEv} {hd hd' : Bool} (h : Dropped s (E, s', .go hd)) : Dropped s ((standaloneCheck c s' hd').pre E) :=
  ⟨h.1, h.2.1, h.2.2.1, plain_app h.2.2.2 (askStandalone_plain _)⟩

theorem ref_dropped {s : DState} (ha : s.D.standalone = false) (hp : s.D.hasPERefs = true) (x : XEnc) (internal : Bool) (r : Role) (w : Buf)
    (hu : Unread c s.pe opened ext (tabGet s.D.par) (converted x (refName x.e w))) :
    Dropped s (paramRef c ext expand opened s x internal r w) := by
  have d0 : Dropped s ([], { s with D := s.D.drop }, .go true) := ⟨drop_over ha, drop_same _, rfl, fun _ h => nomatch h⟩
  unfold paramRef
  split
  · exact d0.check
  · rename_i hne
    simp only []
    have hm : (s.el.p.documentEntity && if s.D.standalone = true then !internal else !s.D.hasPERefs) = false := by
      rw [ha, hp]; simp
    rw [hm]
    cases hu with
    | never h => exact absurd h hne
    | undeclared h =>
      rw [h]
      simp only [Bool.false_eq_true, if_false]
      split
      · exact ⟨drop_over ha, drop_same _, rfl, one_plain rfl⟩
      · exact d0
    | noHandler e h1 h2 h3 h4 =>
      rw [h1]
      simp only [Bool.false_and, Bool.false_eq_true, if_false]
      unfold handleRefCheck handleRef
      rw [if_neg h3, h2]
      simp only [h4, Bool.false_eq_true, if_false]
      exact d0.check
    | notRead e h1 h2 h3 h4 =>
      rw [h1]
      simp only [Bool.false_and, Bool.false_eq_true, if_false]
      unfold handleRefCheck handleRef
      rw [if_neg h3, h2]
      simp only []
      cases hx : c.c.externalRef with
      | false =>
        simp only [Bool.false_eq_true, if_false]
        exact d0.check
      | true =>
        have hc : callExt ext s (converted x (refName x.e w) :: opened) e =
            ([.extRef e.base e.systemId e.publicId], { s with D := { s.D with peRead := false } }, true) := by
          unfold callExt
          have := h4 ⟨s.el.p.inEntityValue, converted x (refName x.e w) :: opened, s.pe, e.base, e.systemId, e.publicId⟩
            ({ s with D := { s.D with peRead := false } } : DState).sh rfl rfl rfl
          simp only [this]
          rfl
        simp only [if_true, hc, Bool.not_true, Bool.false_eq_true, if_false, Bool.not_false]
        exact Dropped.check (hd := true) ⟨drop_over ha, ⟨rfl, rfl, rfl, fun _ _ => rfl⟩, rfl, one_plain rfl⟩

/-- A run whose first token leads to a state from which `R` goes on. -/
theorem run_from {R : DState → List PEv → DState → Prop} (H : RunRel c ext fuel R) (he : ExpandRel R expand)
    {internal between allowClose more : Bool} {s : DState} {b : Buf} {t : Tok} {n : Nat}
    (hsee : seeToken (s.x c internal) internal between more c.isPE b = .tok t n) (Q : List PEv → DState → Prop)
    (h0 : Q (pround c ext fuel expand internal allowClose opened s t (b.take n)).1
      (pround c ext fuel expand internal allowClose opened s t (b.take n)).2.1)
    (hstep : ∀ E s' F u, Q E s' → R s' F u → Q (E ++ F) u) :
    Q (prun c ext fuel expand internal between allowClose more opened s b).1
      (prun c ext fuel expand internal between allowClose more opened s b).2.1 := by
  rw [prun.eq_def]
  simp only [hsee]
  generalize pround c ext fuel expand internal allowClose opened s t (b.take n) = r at h0 ⊢
  obtain ⟨E, s', o⟩ := r
  cases o with
  | fail e => exact h0
  | panic => exact h0
  | start => exact h0
  | go d =>
    simp only []
    split
    · exact hstep _ _ _ _ h0 (H.run he s' _)
    · exact h0
  | ignore =>
    simp only []
    cases ignoreSection (s'.x c internal) more (b.drop n) with
    | wait =>
      have := hstep _ _ _ _ h0 (H.ignoring s' true)
      simpa using this
    | err e => exact h0
    | closed k =>
      simp only []
      split
      · exact hstep _ _ _ _ (hstep _ _ _ _ h0 (H.dflt _ _)) (H.run he s' _)
      · exact h0

end

/-! ### Declarations after it -/

section
variable {c : PCfg} {ext : Ext} {fuel : Nat}

/-- Once declarations are not processed they never are again, in whatever pieces the rest of the prolog comes,
and whatever parameter entities it refers to. -/
theorem over_stays (hext : ext.Freezes) {s s' : DState} {E : List PEv} (h : C36.Calls c ext fuel s E s') (hs : s.Fixed) :
    s'.Fixed ∧ SameDeclarations s.D s'.D ∧ ∀ v ∈ E, ¬ reportsDeclaration v := by
  obtain ⟨h1, h2⟩ := h.rel (freeze_runRel hext) hs
  exact ⟨h1, same_of h2.same, fun v hv => (reports_iff v).2 (h2.quiet v hv)⟩

variable {k : Ctx} {F : C59.Frame} {D : DTab} {s : DState}

theorem at_ref (S : XSupported k.x k.asc) (a : At F (home F.doc) D s) {name : List Buf} (hn : k.x.e.Name name) (rest : Buf)
    (hx : s.x k.c false = k.x) (hd : k.x.e.mb ∣ (perefText k.asc name ++ rest).length) (more : Bool) :
    seeToken (s.x k.c false) false false more k.c.isPE (perefText k.asc name ++ rest) =
      .tok .PARAM_ENTITY_REF (perefText k.asc name).length ∧
    s.el.p.next k.x.e .PARAM_ENTITY_REF (perefText k.asc name) = (s.el.p, .PARAM_ENTITY_REF) := by
  have hdoc : s.el.p.documentEntity = F.doc := congrArg Frame.doc a.frame
  refine ⟨?_, home_ref (by rw [hdoc]; exact a.h) _⟩
  have hm : 0 < k.x.e.mb := Nat.succ_pos _
  have hl := peref_len S name
  have hb : prologTokBody k.x.e (perefText k.asc name ++ rest) = ⟨.PARAM_ENTITY_REF, (perefText k.asc name).length⟩ := by
    rw [hl, perefText, List.append_assoc, List.append_assoc, pt_peref S.s hn]
  rw [hx, seeToken, prologTok_eq (by rw [List.length_append]; omega), trunc_whole S.s hd, hb, seeRes, if_pos (by show (!Tok.isError .PARAM_ENTITY_REF) = true; decide)]

/-- In a document that does not say it is standalone, after a reference between declarations to a parameter entity that
is not read, neither entities nor attributes are declared or reported any more, whatever comes later, in the
document or in other parameter entities (`hext`: in external ones too, see `resolver_freezes`). -/
theorem later_ignored (S : XSupported k.x k.asc) (hext : ext.Freezes) (a : At F (home F.doc) D s) (hv : F.inValue = false)
    (hi : F.ignoring = false) (ha : D.standalone = false) {name : List Buf} (hn : k.x.e.Name name)
    (hu : Unread k.c F.pe k.opened ext (tabGet D.par) (converted k.x name.flatten)) (rest : Buf) (more : Bool)
    (hx : s.x k.c false = k.x) (hd : k.x.e.mb ∣ (perefText k.asc name ++ rest).length) {E : List PEv} {s' : DState}
    (h : C36.Calls k.c ext fuel (prologCall k.c ext fuel k.opened more s (perefText k.asc name ++ rest)).2.1 E s') :
    SameDeclarations D s'.D ∧
    ∀ v ∈ (prologCall k.c ext fuel k.opened more s (perefText k.asc name ++ rest)).1 ++ E, ¬ reportsDeclaration v := by
  obtain ⟨g1, g2⟩ := at_ref S a hn rest hx hd more
  have key : (prologCall k.c ext fuel k.opened more s (perefText k.asc name ++ rest)).2.1.Fixed ∧
      Unchanged D (prologCall k.c ext fuel k.opened more s (perefText k.asc name ++ rest)).2.1.D ∧
      ∀ v ∈ (prologCall k.c ext fuel k.opened more s (perefText k.asc name ++ rest)).1, v.declaring = false := by
    unfold prologCall
    simp only []
    rw [if_neg (by rw [show s.ignoring = F.ignoring from congrArg Frame.ignoring a.frame, hi]; simp)]
    refine run_from (freeze_runRel hext) ((freeze_runRel (c := k.c) (fuel := fuel) hext).expandPE fuel k.opened) g1
      (fun E s' => s'.Fixed ∧ Unchanged D s'.D ∧ ∀ v ∈ E, v.declaring = false) ?_ ?_
    · have hdr := ref_dropped (c := k.c) (ext := ext) (expand := expandPE k.c ext fuel fuel k.opened) (opened := k.opened)
        (s := { s with D := { s.D with hasPERefs := true } }) (by rw [a.D]; exact ha) rfl k.x false .PARAM_ENTITY_REF
        (perefText k.asc name) (by
          rw [peref_name S]
          have hpe : s.pe = F.pe := congrArg Frame.pe a.frame
          show Unread k.c s.pe k.opened ext (tabGet s.D.par) _
          rw [hpe, a.D]
          exact hu)
      rw [List.take_left, pround_eq, hx, g2]
      have hs : s.told k.x.e .PARAM_ENTITY_REF (perefText k.asc name) = s := by
        unfold DState.told
        rw [g2]
      rw [hs]
      have hp : pact k.c ext fuel (expandPE k.c ext fuel fuel k.opened) false true k.opened s .PARAM_ENTITY_REF .PARAM_ENTITY_REF
          (perefText k.asc name) = actParamRef k.c ext (expandPE k.c ext fuel fuel k.opened) k.opened s (s.x k.c false) false
            .PARAM_ENTITY_REF (perefText k.asc name) := by
        unfold pact
        rfl
      dsimp only
      rw [hp, hx, actParamRef]
      generalize paramRef k.c ext _ k.opened { s with D := { s.D with hasPERefs := true } } k.x false .PARAM_ENTITY_REF _ = q at hdr ⊢
      obtain ⟨E1, s1, o⟩ := q
      obtain ⟨d1, d2, d3, d4⟩ := hdr
      have hf : s1.Fixed ∧ Unchanged D s1.D := by
        refine ⟨⟨d1, ?_, ?_⟩, ?_⟩
        · have d3 : s1.el.p = s.el.p := d3
          rw [d3]
          refine ⟨?_, ?_⟩
          · rw [a.h]; cases F.doc <;> simp [home]
          · intro h0
            have := a.none_
            rw [h0] at this
            cases this
        · have d3 : s1.el.p = s.el.p := d3
          rw [d3]
          exact (congrArg Frame.inValue a.frame).trans hv
        · have d2 : Unchanged s.D s1.D := ⟨d2.gen, d2.elems, d2.toks, d2.par⟩
          rw [a.D] at d2
          exact d2
      have hE : ∀ L : List Ev, ∀ v ∈ E1 ++ L.map .ev, v.declaring = false := fun L => plain_app d4 (ev_plain L)
      cases o with
      | go d => cases d with
        | true => exact ⟨hf.1, hf.2, hE _⟩
        | false => exact ⟨hf.1, hf.2, d4⟩
      | _ => exact ⟨hf.1, hf.2, d4⟩
    · intro E s' F' u hq hr
      obtain ⟨r1, r2⟩ := hr hq.1
      exact ⟨r1, hq.2.1.trans r2.same, plain_app hq.2.2 r2.quiet⟩
  obtain ⟨k1, k2, k3⟩ := key
  obtain ⟨-, m2⟩ := h.rel (freeze_runRel hext) k1
  exact ⟨same_of (k2.trans m2.same), fun v hv => (reports_iff v).2 (plain_app k3 m2.quiet v hv)⟩

end

/-! ### Example -/

/-- After `<!DOCTYPE d [<!ENTITY a '1'>` in a parser that has been asked for parameter entities, without an
external entity handler. -/
def exBefore : DState :=
  (prologCall C36.exCfg C36.exExt 5 [] true C36.exStart
    [60, 33, 68, 79, 67, 84, 89, 80, 69, 32, 100, 32, 91, 60, 33, 69, 78, 84, 73, 84, 89, 32, 97, 32, 39, 49, 39, 62]).2.1

/-- `<!ENTITY b '2'><!ATTLIST d x CDATA 'v'>` -/
def exRest : Buf :=
  [60, 33, 69, 78, 84, 73, 84, 89, 32, 98, 32, 39, 50, 39, 62, 60, 33, 65, 84, 84, 76, 73, 83, 84, 32, 100, 32, 120, 32, 67,
   68, 65, 84, 65, 32, 39, 118, 39, 62]

theorem ex_at : At (frame exBefore) (home (frame exBefore).doc) exBefore.D exBefore where
  h := by decide +kernel
  none_ := by decide +kernel
  frame := rfl
  D := rfl
  tmp := by decide +kernel
  rest := ⟨by decide +kernel, by decide +kernel, .inl (by decide +kernel)⟩

theorem ex_cur : exBefore.cur = .builtin .utf8 := by
  have h : (match exBefore.cur with | .builtin .utf8 => true | _ => false) = true := by decide +kernel
  split at h
  · assumption
  · cases h

/-- `%u;` follows, `u` has not been declared; then `b` and the attribute are not known either. -/
example {E : List PEv} {s' : DState}
    (h : C36.Calls C36.exCfg C36.exExt 5
      (prologCall C36.exCfg C36.exExt 5 [] true exBefore (perefText asc1 [[0x75]] ++ exRest)).2.1 E s') :=
  later_ignored (k := reading C36.exCfg (utf8X false) asc1 .always) (.utf8 false) (resolver_freezes _ _ _ _) ex_at
    (by decide +kernel) (by decide +kernel) (by decide +kernel) (name := [[0x75]]) ⟨_, _, rfl, by decide +kernel, by simp⟩
    (.undeclared (by decide +kernel)) exRest true (by rw [DState.x, ex_cur]; rfl) ⟨_, (Nat.one_mul _).symm⟩ h

/-- Without the reference both are declared; with it the parser goes on without error. -/
example :
    tabGet (prologCall C36.exCfg C36.exExt 5 [] true exBefore exRest).2.1.D.gen [98] ≠ none ∧
    tabGet (prologCall C36.exCfg C36.exExt 5 [] true exBefore (perefText asc1 [[0x75]] ++ exRest)).2.1.D.gen [98] = none ∧
    (prologCall C36.exCfg C36.exExt 5 [] true exBefore (perefText asc1 [[0x75]] ++ exRest)).2.2 = .done [] ∧
    tabGet exBefore.D.gen [97] ≠ none := by
  decide +kernel

end Verif.C67
