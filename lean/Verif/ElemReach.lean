import Verif.ElemSim

/-! Element declarations anywhere in a prolog: what holds between declarations. -/

namespace Verif
namespace ElemSim

open EState PState

/-- Roles that make `doProlog` touch none of the variables of `EState`. -/
def quietRole : Role → Bool
  | .ERROR | .INSTANCE_START | .GROUP_OPEN | .GROUP_SEQUENCE | .GROUP_CHOICE | .ELEMENT_NAME | .CONTENT_ANY | .CONTENT_EMPTY
  | .CONTENT_PCDATA | .CONTENT_ELEMENT | .CONTENT_ELEMENT_OPT | .CONTENT_ELEMENT_REP
  | .CONTENT_ELEMENT_PLUS | .GROUP_CLOSE | .GROUP_CLOSE_OPT | .GROUP_CLOSE_REP | .GROUP_CLOSE_PLUS => false
  | _ => true

/-- Inside an element declaration, after the name. -/
def inElem : Hd → Bool
  | .element1 | .element2 | .element3 | .element4 | .element5 | .element6 | .element7 => true
  | _ => false

theorem handle_quiet {e : Enc} {s s' : PState} {t : Tok} {b : Buf} {r : Role} (hn : quietRole s.roleNone = true)
    (hh : inElem s.h = false) (h0 : s.h = .element0 → t ≠ .NAME ∧ t ≠ .PREFIXED_NAME)
    (h : s.handle e t b = some (s', r)) :
    (quietRole r = true ∨ r = .INSTANCE_START) ∧ inElem s'.h = false ∧
      (s'.h = .error → s.h = .error ∨ r = .INSTANCE_START) := by
  obtain ⟨hd, lv, rn, il, de, iv⟩ := s
  unfold handle at h
  cases hd <;>
  simp only [prolog0, prolog1, prolog2, doctype0, doctype1, doctype2, doctype3, doctype4, doctype5,
    internalSubset, externalSubset0, externalSubset1, entity0, entity1, entity2, entity3, entity4,
    entity5, entity6, entity7, entity8, entity9, entity10, notation0, notation1, notation2, notation3,
    notation4, attlist0, attlist1, attlist2, attlist3, attlist4, attlist5, attlist6, attlist7,
    attlist8, attlist9, element0, element1, element2, element3, element4, element5, element6,
    element7, condSect0, condSect1, condSect2, declClose, go, stay, top, close, closeGroup] at h <;>
  (repeat' split at h) <;> simp only [Option.some.injEq, Prod.mk.injEq, reduceCtorEq] at h <;>
  (try (obtain ⟨rfl, rfl⟩ := h)) <;> simp_all [quietRole, inElem, apply_ite]

theorem handle_roleNone {e : Enc} {s s' : PState} {t : Tok} {b : Buf} {r : Role} (hn : quietRole s.roleNone = true)
    (h : s.handle e t b = some (s', r)) :
    quietRole s'.roleNone = true ∧ s'.documentEntity = s.documentEntity := by
  obtain ⟨hd, lv, rn, il, de, iv⟩ := s
  unfold handle at h
  cases hd <;>
  simp only [prolog0, prolog1, prolog2, doctype0, doctype1, doctype2, doctype3, doctype4, doctype5,
    internalSubset, externalSubset0, externalSubset1, entity0, entity1, entity2, entity3, entity4,
    entity5, entity6, entity7, entity8, entity9, entity10, notation0, notation1, notation2, notation3,
    notation4, attlist0, attlist1, attlist2, attlist3, attlist4, attlist5, attlist6, attlist7,
    attlist8, attlist9, element0, element1, element2, element3, element4, element5, element6,
    element7, condSect0, condSect1, condSect2, declClose, go, stay, top, close, closeGroup] at h <;>
  (repeat' split at h) <;> simp only [Option.some.injEq, Prod.mk.injEq, reduceCtorEq] at h <;>
  (try (obtain ⟨rfl, rfl⟩ := h)) <;> simp_all [quietRole, inElem, apply_ite]

/-- After `<!ELEMENT` was accepted. -/
theorem handle_element {e : Enc} {asc : UInt8 → Buf} (hs : Supported e asc) {s s' : PState} {b : Buf} {r : Role}
    (hb : b.drop (2 * e.mb) = spell asc kwELEMENT)
    (h : s.handle e .DECL_OPEN b = some (s', r)) : s'.h = .element0 ∨ s.h = .error := by
  have hk : ∀ kw : List UInt8, (∀ c ∈ kw, c < 0x80) → (kw.length ≠ 7 ∨ kw = kwELEMENT ∨ kw.head? ≠ some 0x45) →
      nameMatchesAscii e (b.drop (2 * e.mb)) kw = decide (kw = kwELEMENT) := by
    intro kw h1 h2
    rw [nameMatches_iff hs kw h1, hb]
    by_cases h3 : kw = kwELEMENT
    · simp [h3]
    · simp only [h3, decide_false, decide_eq_false_iff_not]
      intro h4
      rcases h2 with h2 | h2 | h2
      · have h5 := congrArg List.length h4
        rw [spell, spell, spell_length hs, spell_length hs] at h5
        exact h2 (Nat.eq_of_mul_eq_mul_right hs.mb_pos h5).symm
      · exact h3 h2
      · cases kw with
        | nil =>
          have h5 := congrArg List.length h4
          rw [spell, spell, spell_length hs, spell_length hs] at h5
          have := hs.mb_pos
          simp only [kwELEMENT, List.length_cons, List.length_nil] at h5
          omega
        | cons k ks =>
          apply h2
          simp only [List.head?_cons, Option.some.injEq]
          have h5 : asc 0x45 = asc k := by
            have h6 := congrArg (List.take e.mb) h4
            simp only [spell, kwELEMENT, List.map_cons, List.flatten_cons] at h6
            rw [← hs.asc.len 0x45, List.take_left, hs.asc.len, ← hs.asc.len k, List.take_left] at h6
            exact h6
          have h7 := (hs.asc.mat (asc k) k (h1 k (by simp)) (by rw [hs.asc.len]; exact Nat.le_refl _)).2 (by
            rw [← hs.asc.len k, List.take_length])
          have h8 := (hs.asc.mat (asc k) 0x45 (by decide) (by rw [hs.asc.len]; exact Nat.le_refl _)).2 (by
            rw [h5, ← hs.asc.len k, List.take_length])
          cases hs <;> simp_all [asc1, ascL, ascB]
  revert h
  unfold handle
  have e1 := hk kwDOCTYPE (by decide) (by decide)
  have e2 := hk kwENTITY (by decide) (by decide)
  have e3 := hk kwATTLIST (by decide) (by decide)
  have e4 := hk kwELEMENT (by decide) (by decide)
  have e5 := hk kwNOTATION (by decide) (by decide)
  have f1 : kwDOCTYPE ≠ kwELEMENT := by decide
  have f2 : kwENTITY ≠ kwELEMENT := by decide
  have f3 : kwATTLIST ≠ kwELEMENT := by decide
  have f5 : kwNOTATION ≠ kwELEMENT := by decide
  simp only [f1, f2, f3, f5, decide_false, decide_true] at e1 e2 e3 e4 e5
  cases hsh : s.h <;>
  simp only [prolog0, prolog1, prolog2, doctype0, doctype1, doctype2, doctype3, doctype4, doctype5,
    internalSubset, externalSubset0, externalSubset1, entity0, entity1, entity2, entity3, entity4,
    entity5, entity6, entity7, entity8, entity9, entity10, notation0, notation1, notation2, notation3,
    notation4, attlist0, attlist1, attlist2, attlist3, attlist4, attlist5, attlist6, attlist7,
    attlist8, attlist9, element0, element1, element2, element3, element4, element5, element6,
    element7, condSect0, condSect1, condSect2, declClose, go, stay, top, close, closeGroup, e1, e2, e3, e4, e5] <;>
  grind

/-- Outside element declarations: nothing of a content model is lying about. -/
def Idle (s : EState) : Prop :=
  inElem s.p.h = false ∧ s.p.h ≠ .error ∧ s.inEldecl = false ∧ s.strLen = 0 ∧ SizeOk s.groupSize

/-- What holds between any two tokens, `k` tokens into the prolog. -/
def Inv (decl doc : Bool) (s : EState) (k : Nat) : Prop :=
  s.p.documentEntity = doc ∧ quietRole s.p.roleNone = true ∧
    (Idle s ∨ ∃ n c0 z, Rel decl doc n c0 s z ∧ z.depth ≤ k)

variable {decl doc : Bool} {nm : Buf → List UInt8} {e : Enc} {asc : UInt8 → Buf} {s : EState}

theorem act_quiet {t : Tok} {b : Buf} {r : Role} (h : quietRole r = true) :
    s.act decl nm e t b r = .ok s := by
  cases r <;> first | rfl | simp [quietRole] at h

theorem step_p {s' : EState} {t : Tok} {b : Buf} (h : s.step decl nm e t b = .ok s') :
    s'.p = (s.p.next e t b).1 := by
  revert h
  unfold EState.step
  generalize hx : ({ s with p := (s.p.next e t b).1 } : EState) = x
  have : (s.p.next e t b).1 = x.p := by rw [← hx]
  rw [this]
  generalize (s.p.next e t b).2 = r
  unfold act groupOpen groupSequence groupChoice elementName contentLeaf contentPcdata contentElement
    groupClose modTop setConn grow
  grind (splits := 30)

theorem idle_step {t : Tok} {b : Buf} (hn : quietRole s.p.roleNone = true) (hi : Idle s) :
    (∃ s', s.step decl nm e t b = .ok s' ∧ Idle s' ∧ s'.calls = s.calls ∧
        ¬ (s.p.h = .element0 ∧ (t = .NAME ∨ t = .PREFIXED_NAME))) ∨
    (∃ c, s.step decl nm e t b = .err c) ∨
    (∃ s', s.step decl nm e t b = .start s') ∨
    (s.p.h = .element0 ∧ (t = .NAME ∨ t = .PREFIXED_NAME) ∧
      ∃ s', s.step decl nm e t b = .ok s' ∧ Rel decl s.p.documentEntity (nm b) s.calls s' .e1) := by
  obtain ⟨h1, h5, h2, h3, h4⟩ := hi
  by_cases h0 : s.p.h = .element0 ∧ (t = .NAME ∨ t = .PREFIXED_NAME)
  · right; right; right
    refine ⟨h0.1, h0.2, ?_⟩
    have : s.p.handle e t b = some ({ s.p with h := .element1 }, .ELEMENT_NAME) := by
      simp only [handle, h0.1]
      rcases h0.2 with rfl | rfl <;> rfl
    rw [step_some this]
    simp only [act, elementName]
    cases decl with
    | true => exact ⟨_, rfl, ⟨rfl, h4, rfl, fun _ => rfl⟩, rfl, rfl, h3, fun _ => ⟨rfl, rfl⟩⟩
    | false => exact ⟨_, rfl, ⟨rfl, h4, rfl, by simp⟩, rfl, h2, h3, by simp⟩
  · cases hh : s.p.handle e t b with
    | some x =>
      obtain ⟨p', r⟩ := x
      obtain ⟨g1, g2, g3⟩ := handle_quiet hn h1 (fun h => by
        refine ⟨fun ht => h0 ⟨h, .inl ht⟩, fun ht => h0 ⟨h, .inr ht⟩⟩) hh
      rcases g1 with g1 | rfl
      · left
        rw [step_some hh, act_quiet g1]
        refine ⟨_, rfl, ⟨g2, fun he => ?_, h2, h3, h4⟩, rfl, h0⟩
        rcases g3 he with h | rfl
        · exact h5 h
        · simp [quietRole] at g1
      · right; right; left
        exact ⟨_, by rw [step_some hh]; rfl⟩
    | none =>
      by_cases hq : isQuiet s.p.documentEntity (t, b) = true
      · left
        have hS : t ≠ .PROLOG_S ∨ t = .PROLOG_S := by cases t <;> simp
        simp only [isQuiet, Bool.or_eq_true, beq_iff_eq, Bool.and_eq_true, Bool.not_eq_true'] at hq
        by_cases hpe : s.p.documentEntity = false ∧ t = .PARAM_ENTITY_REF
        · have hfd : s.p.fall.documentEntity = s.p.documentEntity := by
            unfold PState.fall; split <;> rfl
          have hf : inElem s.p.fall.h = false ∧ s.p.fall.h ≠ .error := by
            unfold PState.fall; split
            · simp [inElem]
            · exact ⟨h1, h5⟩
          have hstep : s.step decl nm e t b = .ok { s with p := s.p.fall } := by
            have hnx : s.p.next e t b = (s.p.fall, .INNER_PARAM_ENTITY_REF) := by
              rw [PState.next, hh, Option.getD_none, PState.common, hfd, hpe.1, hpe.2]; rfl
            simp only [EState.step, hnx]; rfl
          exact ⟨_, hstep, ⟨hf.1, hf.2, h2, h3, h4⟩, rfl, h0⟩
        · rcases hq with rfl | hq
          · exfalso
            revert hh h1 h5
            unfold handle
            cases s.p.h <;> simp [prolog0, prolog1, prolog2, doctype0, doctype1, doctype2, doctype3, doctype4, doctype5,
              internalSubset, externalSubset0, externalSubset1, entity0, entity1, entity2, entity3, entity4,
              entity5, entity6, entity7, entity8, entity9, entity10, notation0, notation1, notation2, notation3,
              notation4, attlist0, attlist1, attlist2, attlist3, attlist4, attlist5, attlist6, attlist7,
              attlist8, attlist9, element0, element1, element2, element3, element4, element5, element6,
              element7, condSect0, condSect1, condSect2, declClose, go, stay, top, close, closeGroup]
          · exact absurd hq hpe
      · right; left
        exact ⟨_, step_err (by simpa using hq) hh⟩

theorem next_roleNone {p : PState} {t : Tok} {b : Buf} (hn : quietRole p.roleNone = true) :
    quietRole (p.next e t b).1.roleNone = true ∧ (p.next e t b).1.documentEntity = p.documentEntity := by
  cases h : p.handle e t b with
  | some x =>
    obtain ⟨p', r⟩ := x
    rw [PState.next, h]
    exact handle_roleNone hn h
  | none =>
    have h1 : p.fall.roleNone = p.roleNone ∧ p.fall.documentEntity = p.documentEntity := by
      unfold PState.fall; split <;> simp
    rw [PState.next, h, Option.getD_none, PState.common]
    split <;> simp [h1, hn]

/-- One token keeps the invariant, and never runs into a wild memory access. -/
theorem inv_step (hs : Supported e asc) {k : Nat} (hk : k + 2 < 2 ^ 31) (hi : Inv decl doc s k)
    (t : Tok) (b : Buf) :
    (∃ s', s.step decl nm e t b = .ok s' ∧ Inv decl doc s' (k + 1)) ∨
    (∃ s', s.step decl nm e t b = .start s') ∨ ∃ c, s.step decl nm e t b = .err c := by
  obtain ⟨hd, hn, hi⟩ := hi
  have key : ∀ s', s.step decl nm e t b = .ok s' →
      (Idle s' ∨ ∃ n c0 z, Rel decl doc n c0 s' z ∧ z.depth ≤ k + 1) → Inv decl doc s' (k + 1) := by
    intro s' h1 h2
    have := next_roleNone (e := e) (t := t) (b := b) hn
    rw [← step_p h1, hd] at this
    exact ⟨this.2, this.1, h2⟩
  have keyR : ∀ {n c0 z}, Sim decl doc n c0 nm e asc s z (t, b) → z.depth ≤ k →
      (∃ s', s.step decl nm e t b = .ok s' ∧ Inv decl doc s' (k + 1)) ∨
      (∃ s', s.step decl nm e t b = .start s') ∨ ∃ c, s.step decl nm e t b = .err c := by
    intro n c0 z h hz
    unfold Sim at h
    cases h2 : (symOf asc e.mb nm (t, b)).bind (zstep z) with
    | none => rw [h2] at h; exact .inr (.inr h)
    | some z' =>
      rw [h2] at h
      obtain ⟨s', h, hr⟩ := h
      obtain ⟨y, -, hy⟩ := Option.bind_eq_some_iff.1 h2
      have := zstep_depth hy
      exact .inl ⟨s', h, key s' h (.inr ⟨n, c0, z', hr, by omega⟩)⟩
  rcases hi with hi | ⟨n, c0, z, hr, hz⟩
  · rcases idle_step (decl := decl) (nm := nm) (e := e) (t := t) (b := b) hn hi with
      ⟨s', h, h1, -⟩ | h | h | ⟨-, -, s', h, h1⟩
    · exact .inl ⟨s', h, key s' h (.inl h1)⟩
    · exact .inr (.inr h)
    · exact .inr (.inl h)
    · rw [hd] at h1
      exact .inl ⟨s', h, key s' h (.inr ⟨_, _, _, h1, Nat.zero_le _⟩)⟩
  · by_cases hq : isQuiet doc (t, b) = true
    · have h := hr.quiet (nm := nm) (e := e) hq
      exact .inl ⟨s, h, key s h (.inr ⟨n, c0, z, hr, by omega⟩)⟩
    · have hq' : isQuiet doc (t, b) = false := by simpa using hq
      by_cases hc : t = .DECL_CLOSE
      · subst hc
        have hcl := close_decl (nm := nm) (e := e) hr b
        cases z
        case fin c =>
          simp only at hcl
          obtain ⟨h1, h2, h3, h4, h5, h6, -⟩ := hr
          exact .inl ⟨_, hcl, key _ hcl (.inl ⟨by dsimp only; split <;> rfl, by dsimp only; split <;> simp, h5, h6, h2⟩)⟩
        all_goals exact .inr (.inr hcl)
      · cases z
        case e1 =>
          obtain ⟨h1, h2, h3⟩ := sim_e1 (nm := nm) hs hr hq'
          by_cases hE : (t, b) = (.NAME, spell asc [0x45, 0x4D, 0x50, 0x54, 0x59])
          · obtain ⟨s', h, h1⟩ := h1 hE
            exact .inl ⟨s', h, key s' h (.inr ⟨_, _, _, h1, Nat.zero_le _⟩)⟩
          · by_cases hA : (t, b) = (.NAME, spell asc [0x41, 0x4E, 0x59])
            · obtain ⟨s', h, h1⟩ := h2 hA
              exact .inl ⟨s', h, key s' h (.inr ⟨_, _, _, h1, Nat.zero_le _⟩)⟩
            · exact keyR (h3 hE hA) hz
        all_goals exact keyR (sim hs (by simp) (by omega) hr hq' hc) hz

/-- The variables as a new parser has them (`XML_ParserCreate`, `XML_ParserReset` and, for an
external subset, `XML_ExternalEntityParserCreate`). -/
def Fresh (s : EState) : Prop :=
  (s.p = PState.init ∨ s.p = PState.initExternal) ∧ s.groupSize = 0 ∧ s.inEldecl = false ∧ s.strLen = 0

theorem Fresh.inv (h : Fresh s) : Inv decl s.p.documentEntity s 0 := by
  obtain ⟨h1, h2, h3, h4⟩ := h
  refine ⟨rfl, ?_, .inl ⟨?_, ?_, h3, h4, .inl h2⟩⟩ <;> rcases h1 with h | h <;> rw [h] <;> decide

theorem inv_run (hs : Supported e asc) {k : Nat} (hi : Inv decl doc s k) {ts : List (Tok × Buf)}
    (hk : k + ts.length + 2 < 2 ^ 31) :
    (∃ s', s.run decl nm e ts = .ok s' ∧ Inv decl doc s' (k + ts.length)) ∨
    (∃ s', s.run decl nm e ts = .start s') ∨ ∃ c, s.run decl nm e ts = .err c := by
  induction ts generalizing s k with
  | nil => exact .inl ⟨s, rfl, hi⟩
  | cons x ts ih =>
    obtain ⟨t, b⟩ := x
    simp only [List.length_cons] at hk
    rcases inv_step (nm := nm) hs (by omega) hi t b with ⟨s', h, h'⟩ | ⟨s', h⟩ | ⟨c, h⟩
    · simp only [EState.run, h, List.length_cons]
      rw [Nat.add_comm ts.length, ← Nat.add_assoc]
      exact ih h' (by omega)
    · exact .inr (.inl ⟨s', by simp only [EState.run, h]⟩)
    · exact .inr (.inr ⟨c, by simp only [EState.run, h]⟩)

/-- After an accepted `<!ELEMENT` the parser is ready for the element's name. -/
theorem after_open (hs : Supported e asc) {ts : List (Tok × Buf)} {o : Buf} {s' : EState} (hf : Fresh s)
    (hk : ts.length + 3 < 2 ^ 31) (ho : o.drop (2 * e.mb) = spell asc PState.kwELEMENT)
    (h : s.run decl nm e (ts ++ [(.DECL_OPEN, o)]) = .ok s') :
    s'.p.h = .element0 ∧ s'.p.documentEntity = s.p.documentEntity ∧
      quietRole s'.p.roleNone = true ∧ Idle s' := by
  rw [run_append] at h
  rcases inv_run (nm := nm) (decl := decl) hs hf.inv (ts := ts) (by omega) with ⟨s1, h1, hi⟩ | ⟨s1, h1⟩ | ⟨c, h1⟩
  · rw [h1] at h
    simp only [EState.run] at h
    rcases inv_step (nm := nm) hs (by omega) hi .DECL_OPEN o with ⟨s2, h2, hi2⟩ | ⟨s2, h2⟩ | ⟨c, h2⟩
    · rw [h2] at h
      simp only [ElemRes.ok.injEq] at h
      subst h
      have hne : s1.p.h ≠ .error := by
        rcases hi.2.2 with h | ⟨n, c0, z, h, -⟩
        · exact h.2.1
        · cases z
          case fin c => rw [h.2.2.1]; simp
          all_goals rw [h.2.1]; simp
      have hh : s2.p.h = .element0 := by
        cases hq : s1.p.handle e .DECL_OPEN o with
        | none =>
          have := step_err (decl := decl) (nm := nm) (s := s1) (by simp [isQuiet]) hq
          rw [h2] at this
          cases this
        | some x =>
          obtain ⟨p', r⟩ := x
          rw [step_p h2, PState.next, hq, Option.getD_some]
          exact (handle_element hs ho hq).resolve_right hne
      refine ⟨hh, hi2.1, hi2.2.1, ?_⟩
      rcases hi2.2.2 with h | ⟨n, c0, z, h, -⟩
      · exact h
      · exfalso
        cases z
        case fin c => rw [h.2.2.1] at hh; simp at hh
        all_goals rw [h.2.1] at hh; simp at hh
    · rw [h2] at h; cases h
    · rw [h2] at h; cases h
  · rw [h1] at h; cases h
  · rw [h1] at h; cases h

/-- The body of an element declaration: name, content specification, `>`. -/
theorem body_run (hs : Supported e asc) {xs : List (Tok × Buf)} (cl : Buf) (hb : xs.length + 2 < 2 ^ 31)
    (h0 : s.p.h = .element0) (hi : Idle s) (hn : quietRole s.p.roleNone = true)
    (hd : ∀ x ∈ xs, x.1 ≠ .DECL_CLOSE) :
    (∃ x ys c s', strip s.p.documentEntity xs = x :: ys ∧ (x.1 = .NAME ∨ x.1 = .PREFIXED_NAME) ∧
      IsContent asc e.mb nm c ys ∧ s.run decl nm e (xs ++ [(.DECL_CLOSE, cl)]) = .ok s' ∧
      (if decl then ∃ m, s'.calls = s.calls ++ [(nm x.2, m)] ∧ Denotes m 0 c else s'.calls = s.calls) ∧
      Idle s') ∨
    (∃ c, s.run decl nm e (xs ++ [(.DECL_CLOSE, cl)]) = .err c) ∧
      ¬ ∃ x ys c, strip s.p.documentEntity xs = x :: ys ∧ (x.1 = .NAME ∨ x.1 = .PREFIXED_NAME) ∧
        IsContent asc e.mb nm c ys := by
  have hq : ∀ y, isQuiet s.p.documentEntity y = true → s.step decl nm e y.1 y.2 = .ok s :=
    fun y hy => quiet_step rfl hy (.inl h0)
  rcases strip_nil_or s.p.documentEntity xs with h | ⟨q, x, r, rfl, h1, h2⟩
  · right
    refine ⟨?_, by rw [h]; simp⟩
    have : ∀ y ∈ xs, isQuiet s.p.documentEntity y = true := by
      simpa [strip, List.filter_eq_nil_iff] using h
    rw [run_append, run_quiet this hq]
    have hh : s.p.handle e .DECL_CLOSE cl = none := by simp only [PState.handle, h0]; rfl
    refine ⟨errorCode .DECL_CLOSE, ?_⟩
    simp only [EState.run, step_err (decl := decl) (nm := nm) (s := s) (by simp [isQuiet]) hh]
  · have hst : strip s.p.documentEntity (q ++ x :: r) = x :: strip s.p.documentEntity r := by
      rw [strip_quiet_append h1, strip_cons h2]
    obtain ⟨t, b⟩ := x
    have hrun : s.run decl nm e (q ++ (t, b) :: r ++ [(.DECL_CLOSE, cl)]) =
        s.run decl nm e ((t, b) :: r ++ [(.DECL_CLOSE, cl)]) := by
      rw [List.append_assoc, run_append, run_quiet h1 hq]
    rw [hrun, hst]
    by_cases hx : t = .NAME ∨ t = .PREFIXED_NAME
    · have : ∃ s', s.step decl nm e t b = .ok s' ∧ Rel decl s.p.documentEntity (nm b) s.calls s' .e1 := by
        rcases idle_step (decl := decl) (nm := nm) (e := e) (t := t) (b := b) hn hi with
          ⟨s', -, -, -, h⟩ | ⟨c, h⟩ | ⟨s', h⟩ | ⟨-, -, h⟩
        · exact absurd ⟨h0, hx⟩ h
        · exfalso
          have : s.p.handle e t b = some ({ s.p with h := .element1 }, .ELEMENT_NAME) := by
            simp only [handle, h0]
            rcases hx with rfl | rfl <;> rfl
          rw [step_some this, act, elementName] at h
          split at h <;> cases h
        · exfalso
          have : s.p.handle e t b = some ({ s.p with h := .element1 }, .ELEMENT_NAME) := by
            simp only [handle, h0]
            rcases hx with rfl | rfl <;> rfl
          rw [step_some this, act, elementName] at h
          split at h <;> cases h
        · exact h
      obtain ⟨s1, h3, hr⟩ := this
      simp only [List.length_append, List.length_cons] at hb
      simp only [List.cons_append, EState.run, h3]
      rw [run_append]
      rcases content_run (nm := nm) hs (xs := r) (by omega) hr
        (fun y hy => hd y (by simp [hy])) with ⟨c, h4, h5⟩ | ⟨s2, z, h4, hr2, h5⟩
      · right
        rw [h4]
        refine ⟨⟨c, rfl⟩, ?_⟩
        rintro ⟨x, ys, c, h6, -, h7⟩
        cases h6
        exact h5 c h7
      · rw [h4]
        simp only [EState.run]
        have h6 := close_decl (nm := nm) (e := e) hr2 cl
        cases z
        case fin c =>
          left
          simp only at h6
          rw [h6]
          obtain ⟨g1, g2, g3, g4, g5, g6, g7⟩ := hr2
          exact ⟨_, _, c, _, rfl, hx, (h5 c).2 rfl, rfl, g7, by dsimp only; split <;> rfl,
            by dsimp only; split <;> simp, g5, g6, g2⟩
        all_goals
          right
          obtain ⟨c, h6⟩ := h6
          rw [h6]
          refine ⟨⟨c, rfl⟩, ?_⟩
          rintro ⟨x, ys, c, h7, -, h8⟩
          cases h7
          have := (h5 c).1 h8
          cases this
    · right
      refine ⟨?_, ?_⟩
      · have hh : s.p.handle e t b = none := by
          simp only [PState.handle, h0]
          cases t <;> first | rfl | (simp [isQuiet] at h2; done) | (simp at hx; done)
        refine ⟨errorCode t, ?_⟩
        simp only [List.cons_append, EState.run, step_err (decl := decl) (nm := nm) (s := s) h2 hh]
      · rintro ⟨x, ys, c, h6, h7, -⟩
        cases h6
        exact hx h7

end ElemSim
end Verif
