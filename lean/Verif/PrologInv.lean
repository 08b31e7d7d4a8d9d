import Verif.PrologLex
import Verif.DoctypeRun

/-! The loop of the prolog, backwards: what a run that comes to the root element has read. -/

set_option autoImplicit false

namespace Verif.C61
open C43 C53 C59 Spec Verif PState

/-! ### Outcomes -/

section
variable {c : PCfg} {ext : Ext} {fuel : Nat} {expand : Bool → Buf → Buf → DState → Acted}
  {internal between allowClose more : Bool} {opened : List Buf}

theorem check_go (s : DState) (hd : Bool) : (standaloneCheck c s hd).2.2 ≠ .start ∧ (standaloneCheck c s hd).2.2 ≠ .ignore := by
  simp only [standaloneCheck]
  split <;> simp

theorem subset_go {s : DState} (hpe : s.pe = .never) (atRoot : Bool) : ∃ s', readSubset c ext opened atRoot s = ([], s', .go true) := by
  simp only [readSubset]
  rw [if_neg (by simp [hpe])]
  exact ⟨_, rfl⟩

theorem act_start {decl : Bool} {nm : Buf → List UInt8} {e : Enc} {s s' : EState} {t : Tok} {b : Buf} {r : Role}
    (h : s.act decl nm e t b r = .start s') : r = .INSTANCE_START := by
  cases r <;> first | rfl | skip
  all_goals
    simp only [EState.act, EState.groupOpen, EState.groupSequence, EState.groupChoice, EState.elementName, EState.contentLeaf,
      EState.contentPcdata, EState.contentElement, EState.groupClose, reduceCtorEq] at h
  all_goals grind [EState.modTop, EState.setConn]

theorem elem_out {s : DState} {x : XEnc} {r : Role} {t : Tok} {w : Buf} (hr : r ≠ .INSTANCE_START) :
    (actElement c s x r t w).2.2 ≠ .start ∧ (actElement c s x r t w).2.2 ≠ .ignore := by
  simp only [actElement]
  cases h : ({ s.el with calls := [] } : EState).act c.elementDecl (converted x) x.e t w r with
  | start s' => exact absurd (act_start h) hr
  | _ => simp

/-- Only the root element starts the content, and only an IGNORE section is ignored. -/
theorem pact_out {s : DState} (hpe : s.pe = .never) (r : Role) (t : Tok) (w : Buf) :
    ((pact c ext fuel expand internal allowClose opened s r t w).2.2 = .start → r = .INSTANCE_START) ∧
    ((pact c ext fuel expand internal allowClose opened s r t w).2.2 = .ignore → r = .IGNORE_SECT) := by
  cases r
  case INSTANCE_START =>
    refine ⟨fun _ => rfl, ?_⟩
    simp only [pact, actInstanceStart]
    split
    · obtain ⟨s', h⟩ := subset_go (c := c) (ext := ext) (opened := opened) hpe true
      rw [h]; simp
    · simp
  case IGNORE_SECT => simp [pact]
  case DOCTYPE_CLOSE =>
    simp only [pact, actDoctypeClose]
    split
    · simp
    · generalize hs : (if s.dName.isSome then ({ s with tmp := [] } : DState) else s) = s1
      have hpe : s1.pe = .never := by rw [← hs]; split <;> exact hpe
      split
      · obtain ⟨s', h⟩ := subset_go (c := c) (ext := ext) (opened := opened) hpe false
        rw [h]; simp
      · simp
  all_goals simp only [pact, reduceCtorEq, imp_false]
  all_goals first
    | (refine ⟨?_, ?_⟩ <;> simp <;> done)
    | (simp only [actParamRef, paramRef, hpe, if_true]; exact check_go _ _)
    | (simp only [actComment]; (repeat' split) <;> simp <;> done)
    | (simp only [actPI]; (repeat' split) <;> simp <;> done)
    | (simp only [actNotation]; (repeat' split) <;> simp <;> done)
    | (simp only [actXmlDecl]; (repeat' split) <;> simp <;> done)
    | (simp only [actDoctype, docPublic, docSystem]; (repeat' split) <;> simp <;> done)
    | (simp only [actAttDefault, reportAttribute]; (repeat' split) <;> simp <;> done)
    | (simp only [actEntity]; (repeat' split) <;> simp <;> done)
    | exact elem_out (by simp)
end

theorem handle_start {e : Enc} {p : PState} (hn : p.roleNone.none_ = true) {t : Tok} {w : Buf} {q : PState × Role} (h : p.handle e t w = some q) :
    (q.2 = .INSTANCE_START → t = .INSTANCE_START) ∧ (q.2 = .IGNORE_SECT → p.h = .condSect2) := by
  obtain ⟨g, lv, rn, il, de, iv⟩ := p
  cases g <;>
    simp only [handle, prolog0, prolog1, prolog2, doctype0, doctype1, doctype2, doctype3, doctype4, doctype5, internalSubset, externalSubset0,
      externalSubset1, entity0, entity1, entity2, entity3, entity4, entity5, entity6, entity7, entity8, entity9, entity10, notation0, notation1,
      notation2, notation3, notation4, attlist0, attlist1, attlist2, attlist3, attlist4, attlist5, attlist6, attlist7, attlist8, attlist9, element0,
      element1, element2, element3, element4, element5, element6, element7, condSect0, condSect1, condSect2, declClose, go, stay, close, top, closeGroup] at h <;>
    (repeat' split at h) <;> first
      | (cases h; done)
      | (injection h with h; subst h; simp; done)
      | (injection h with h; subst h; revert hn; cases rn <;> simp [Role.none_]; done)

theorem next_start {e : Enc} {p : PState} (hn : p.roleNone.none_ = true) {t : Tok} {w : Buf} :
    ((p.next e t w).2 = .INSTANCE_START → t = .INSTANCE_START) ∧ ((p.next e t w).2 = .IGNORE_SECT → p.h = .condSect2) := by
  rw [next]
  cases h : p.handle e t w with
  | some q => exact handle_start hn h
  | none =>
    simp only [Option.getD_none, common]
    split <;> simp

/-! ### Runs that come to the root element -/

/-- The document entity, with the settings a parser has after creation as far as parameter entities go: they are not
read. -/
structure Plain (k : Ctx) : Prop where
  internal : k.internal = false
  isPE : k.c.isPE = false
  doc : k.doc = true
  pe : k.pe = .never
  opened : k.opened = []
  S : XSupported k.x k.asc

/-- The run from here comes to the root element, which begins with `r`, in state `z`. -/
def Ends (k : Ctx) (ext : Ext) (fuel : Nat) (expand : Bool → Buf → Buf → DState → Acted) (z s : DState) (b r : Buf) : Prop :=
  s.x k.c k.internal = k.x ∧ k.x.e.mb ∣ b.length ∧
    (prun k.c ext fuel expand k.internal false true false k.opened s b).2.2 = .content r ∧
    (prun k.c ext fuel expand k.internal false true false k.opened s b).2.1 = z

/-- The outcome of the actions for a token. -/
def Good (k : Ctx) (ext : Ext) (fuel : Nat) (expand : Bool → Buf → Buf → DState → Acted) (s : DState) (t : Tok) (w b' r : Buf) : Prop :=
  (∃ hd, (pact k.c ext fuel expand k.internal true k.opened (s.withP (s.el.p.next k.x.e t w).1) (s.el.p.next k.x.e t w).2 t w).2.2 = .go hd) ∨
    t = .INSTANCE_START ∧ r = w ++ b' ∧
      (pact k.c ext fuel expand k.internal true k.opened (s.withP (s.el.p.next k.x.e t w).1) (s.el.p.next k.x.e t w).2 t w).2.2 = .start

/-- What is read next. -/
structure Look (k : Ctx) (ext : Ext) (fuel : Nat) (expand : Bool → Buf → Buf → DState → Acted) (z s : DState) (t : Tok) (w b' r : Buf) : Prop where
  tok : prologTok k.x.e (w ++ b') = ⟨t, w.length⟩
  ok : t.isError = false
  lex : Lexeme k.x.e k.asc t w b'
  ends : Ends k ext fuel expand z s (w ++ b') r
  good : Good k ext fuel expand s t w b' r

section
variable {k : Ctx} {z : DState} {ext : Ext} {fuel : Nat} {expand : Bool → Buf → Buf → DState → Acted}

local notation "R" => Reach k.c ext fuel expand k.internal false true false k.opened k.x
local notation "En" => Ends k ext fuel expand z

theorem Ends.step {s s' : DState} {b b' r : Buf} {E : List PEv} (h : En s b r) (g : R s b E s' b') : En s' b' r := by
  obtain ⟨h1, h2, h3, h4⟩ := h
  obtain ⟨g1, g2, g3⟩ := g h1 h2
  refine ⟨g2, g3, ?_, ?_⟩
  · have := congrArg (fun p : Prolog => p.2.2) g1
    simp only [hear, Prolog.pre] at this
    rw [← this, h3]
  · have := congrArg (fun p : Prolog => p.2.1) g1
    simp only [hear, Prolog.pre] at this
    rw [← this, h4]

theorem told_withP (s : DState) (e : Enc) (t : Tok) (w : Buf) : s.told e t w = s.withP (s.el.p.next e t w).1 := rfl

theorem told_out (c : PCfg) (internal : Bool) (w : Buf) (a : Acted) : (a.told c internal w).2.2 = a.2.2 := by
  obtain ⟨E, s, o⟩ := a
  cases o <;> try rfl
  rename_i d
  cases d <;> rfl

theorem prologTok_nil (e : Enc) : prologTok e [] = ⟨.NONE, 0⟩ := by
  rw [prologTok]
  simp

theorem end_nil (P : Plain k) {s : DState} {r : Buf} :
    (prun k.c ext fuel expand k.internal false true false k.opened s []).2.2 ≠ .content r := by
  rw [prun.eq_def]
  simp [seeToken, prologTok_nil, seeRes, P.internal, P.isPE, Tok.isError, Tok.toInt]

theorem told_told (c : PCfg) (internal : Bool) (w : Buf) (a : Acted) : (a.told c internal w).2.1 = a.2.1 := by
  obtain ⟨E, s, o⟩ := a
  cases o <;> try rfl
  rename_i d
  cases d <;> rfl

theorem prun_tok {s : DState} {b r : Buf} {t : Tok} {n : Nat} (hx : s.x k.c k.internal = k.x)
    (hsee : seeToken k.x k.internal false false k.c.isPE b = .tok t n)
    (h : (prun k.c ext fuel expand k.internal false true false k.opened s b).2.2 = .content r) :
    (∃ hd, (pact k.c ext fuel expand k.internal true k.opened (s.withP (s.el.p.next k.x.e t (b.take n)).1) (s.el.p.next k.x.e t (b.take n)).2 t (b.take n)).2.2 = .go hd ∧
      (prun k.c ext fuel expand k.internal false true false k.opened
        (pact k.c ext fuel expand k.internal true k.opened (s.withP (s.el.p.next k.x.e t (b.take n)).1) (s.el.p.next k.x.e t (b.take n)).2 t (b.take n)).2.1
        (b.drop n)).2.2 = .content r ∧ (b.drop n).length < b.length) ∨
    ((pact k.c ext fuel expand k.internal true k.opened (s.withP (s.el.p.next k.x.e t (b.take n)).1) (s.el.p.next k.x.e t (b.take n)).2 t (b.take n)).2.2 = .start ∧
      r = b) ∨
    (pact k.c ext fuel expand k.internal true k.opened (s.withP (s.el.p.next k.x.e t (b.take n)).1) (s.el.p.next k.x.e t (b.take n)).2 t (b.take n)).2.2 = .ignore := by
  rw [prun.eq_def] at h
  simp only [hx, hsee, pround_eq, told_withP] at h
  generalize pact k.c ext fuel expand k.internal true k.opened (s.withP (s.el.p.next k.x.e t (b.take n)).1) (s.el.p.next k.x.e t (b.take n)).2 t (b.take n) = a at *
  have h1 := told_out k.c k.internal (b.take n) a
  have h2 := told_told k.c k.internal (b.take n) a
  generalize a.told k.c k.internal (b.take n) = a' at *
  obtain ⟨E, s', o⟩ := a'
  simp only at h1 h2
  rw [← h1, ← h2]
  cases o with
  | go d =>
    simp only at h
    split at h
    · exact .inl ⟨d, rfl, h, by assumption⟩
    · cases h
  | start => simp only at h; injection h with h; exact .inr (.inl ⟨rfl, h.symm⟩)
  | ignore => exact .inr (.inr rfl)
  | fail e => cases h
  | panic => cases h

theorem Ends.tok (P : Plain k) {s : DState} {b r : Buf} (hn : s.el.p.roleNone.none_ = true) (hpe : s.pe = .never)
    (hh : s.el.p.h ≠ .condSect2) (h : En s b r) : ∃ t w b', b = w ++ b' ∧ Look k ext fuel expand z s t w b' r := by
  obtain ⟨h1, h2, h3, -⟩ := id h
  cases hq : prologTok k.x.e b with
  | mk t n =>
  have hign : ∀ u v, (pact k.c ext fuel expand k.internal true k.opened (s.withP (s.el.p.next k.x.e u v).1) (s.el.p.next k.x.e u v).2 u v).2.2 ≠ .ignore :=
    fun u v h' => hh ((next_start hn).2 ((pact_out (s := s.withP (s.el.p.next k.x.e u v).1) hpe _ u v).2 h'))
  have hst : ∀ u v, (pact k.c ext fuel expand k.internal true k.opened (s.withP (s.el.p.next k.x.e u v).1) (s.el.p.next k.x.e u v).2 u v).2.2 = .start →
      u = .INSTANCE_START := fun u v h' => (next_start hn).1 ((pact_out (s := s.withP (s.el.p.next k.x.e u v).1) hpe _ u v).1 h')
  by_cases ht : t.isError = true
  · exfalso
    have key : ∀ (u : Tok) (m : Nat), u ≠ .INSTANCE_START → b.drop m = [] →
        seeToken k.x k.internal false false k.c.isPE b ≠ .tok u m := by
      intro u m hu hm hs
      rcases prun_tok h1 hs h3 with ⟨hd, g1, g2, g3⟩ | ⟨g1, -⟩ | g
      · rw [hm] at g2; exact end_nil P g2
      · exact hu (hst _ _ g1)
      · exact hign _ _ g
    have hsee : seeToken k.x k.internal false false k.c.isPE b = seeRes false false false false ⟨t, n⟩ b := by
      rw [seeToken, hq, P.internal, P.isPE]
    have hneg : t = .PROLOG_S_NEG → b.drop n = [] := by
      rintro rfl
      have hm : k.x.e.mb ≤ b.length := by
        refine Decidable.byContradiction fun hm => ?_
        obtain ⟨j, hj⟩ := h2
        rcases j with _ | j
        · have hb : b = [] := List.length_eq_zero_iff.1 (by simpa using hj)
          subst hb
          rw [prologTok_nil] at hq
          cases hq
        · rw [Nat.mul_add] at hj; omega
      rw [prologTok_eq hm, trunc_whole P.S.s h2] at hq
      rcases prologTokBody_space (.inr rfl) hq with ⟨h4, -⟩ | ⟨-, h4, -, h5⟩
      · cases h4
      · rw [h4, ← h5, List.drop_length]
    rw [prun.eq_def] at h3
    simp only [h1] at h3
    have hl := List.drop_length (l := b)
    cases t <;> first
      | (cases ht; done)
      | (rw [hsee] at h3; cases h3; done)
      | exact key .PROLOG_S n (by simp) (hneg rfl) hsee
      | exact key _ b.length (by simp) hl hsee
  · have ht : t.isError = false := by simpa using ht
    obtain ⟨w, b', hl, rfl, rfl⟩ := lex_sound P.S.s h2 ht hq
    refine ⟨t, w, b', rfl, hq, ht, hl, h, ?_⟩
    have hs : seeToken k.x k.internal false false k.c.isPE (w ++ b') = .tok t w.length := by
      rw [seeToken, hq, seeRes, if_pos (by simp [ht])]
    have := prun_tok h1 hs h3
    rw [List.take_left] at this
    rcases this with ⟨hd, g1, -, -⟩ | ⟨g1, g2⟩ | g
    · exact .inl ⟨hd, g1⟩
    · exact .inr ⟨hst _ _ g1, g2, g1⟩
    · exact absurd g (hign _ _)

/-- The grammar machine does something with the token. -/
theorem Look.handled {s : DState} {t : Tok} {w b' r : Buf} (L : Look k ext fuel expand z s t w b' r) (hd : s.el.p.documentEntity = true) :
    ∃ q, s.el.p.handle k.x.e t w = some q ∧ q.2 ≠ .ERROR ∧
      ((∃ hd, (pact k.c ext fuel expand k.internal true k.opened (s.withP q.1) q.2 t w).2.2 = .go hd) ∨ t = .INSTANCE_START ∧ r = w ++ b') := by
  have g := L.good
  have hr : (s.el.p.next k.x.e t w).2 ≠ .ERROR := by
    intro he
    simp only [Good, he] at g
    simp [pact] at g
  cases hq : s.el.p.handle k.x.e t w with
  | none =>
    exfalso
    apply hr
    rw [next, hq]
    simp [common, fall, hd]
    split <;> simp_all
  | some q =>
    have hn : s.el.p.next k.x.e t w = q := by rw [next, hq]; rfl
    rw [hn] at hr
    refine ⟨q, rfl, hr, ?_⟩
    simp only [Good, hn] at g
    rcases g with g | ⟨g1, g2, -⟩
    · exact .inl g
    · exact .inr ⟨g1, g2⟩

theorem Look.body {s : DState} {t : Tok} {w b' r : Buf} (P : Plain k) (L : Look k ext fuel expand z s t w b' r) :
    prologTokBody k.x.e (w ++ b') = ⟨t, w.length⟩ := by
  have h1 := L.tok
  have h2 := L.ends.2.1
  have hl : k.x.e.mb ≤ (w ++ b').length := by
    refine Decidable.byContradiction fun hm => ?_
    obtain ⟨j, hj⟩ := h2
    rcases j with _ | j
    · have h0 : w ++ b' = [] := List.length_eq_zero_iff.1 (by rw [hj]; rfl)
      rw [h0, prologTok_nil] at h1
      injection h1 with h1
      have := L.ok
      rw [← h1] at this
      cases this
    · rw [Nat.mul_add] at hj; omega
  rwa [prologTok_eq hl, trunc_whole P.S.s h2] at h1

theorem Look.mb {s : DState} {t : Tok} {w b' r : Buf} (P : Plain k) (L : Look k ext fuel expand z s t w b' r) (ht : t ≠ .INSTANCE_START) :
    k.x.e.mb ≤ w.length := by
  have h1 := L.tok
  have h2 := L.body P
  have hp := prologTokBody_pos k.x.e (w ++ b') (by rw [h2]; exact L.ok) (by rw [h2]; exact ht)
  rw [h2] at hp
  have := Mode.tok_dvd P.S.s.mb P.S.s.even .epilog (w ++ b')
  rw [show Mode.tok .epilog k.x.e (w ++ b') = prologTok k.x.e (w ++ b') from rfl, h1] at this
  exact Nat.le_of_dvd hp this

/-- A token without an action. -/
theorem Look.quiet {s : DState} {t : Tok} {w b' r : Buf} (P : Plain k) (L : Look k ext fuel expand z s t w b' r) (ht : t ≠ .INSTANCE_START)
    {q : PState × Role} (hq : s.el.p.handle k.x.e t w = some q) (hr : q.2.none_ = true) : En (s.withP q.1) b' r := by
  have hn : s.el.p.next k.x.e t w = q := by rw [next, hq]; rfl
  exact L.ends.step (quiet_tok (between := false) (more := false) (allowClose := true) P.S (L.body P) (L.mb P ht) L.ok hn hr)

end

/-! ### Inversion -/

section
variable {e : Enc} {asc : UInt8 → Buf} {w r : Buf}

theorem lex_space (h : Lexeme e asc .PROLOG_S w r) : ∃ sp, sp ≠ [] ∧ AllWS sp ∧ w = spell asc sp := by
  cases h with
  | space sp _ h0 h => exact ⟨sp, h0, h, rfl⟩
  | _ => simp_all [nameOps, charToks, parenOps]

theorem lex_name (h : Lexeme e asc .NAME w r) : ∃ ws, w = ws.flatten ∧ e.Name ws ∧ NextIn asc afterName r := by
  cases h with
  | name ws _ h hr => exact ⟨ws, rfl, h, hr⟩
  | _ => simp_all [nameOps, charToks, parenOps]

theorem lex_qname {t : Tok} (ht : t = .NAME ∨ t = .PREFIXED_NAME) (h : Lexeme e asc t w r) :
    ∃ ws, w = ws.flatten ∧ DName e asc ws ∧ NextIn asc afterName r := by
  rcases ht with rfl | rfl
  · cases h with
    | name ws _ h hr => exact ⟨ws, rfl, .plain _ h, hr⟩
    | _ => simp_all [nameOps, charToks, parenOps]
  · cases h with
    | pname us vs _ h1 h2 h3 h4 hr => exact ⟨_, rfl, .pair us vs h1 h2 h3 h4, hr⟩
    | _ => simp_all [nameOps, charToks, parenOps]

theorem lex_nmtoken (h : Lexeme e asc .NMTOKEN w r) : ∃ ws, w = ws.flatten ∧ e.Nmtoken asc ws ∧ NextIn asc afterName r := by
  cases h with
  | nmtoken ws _ h hr => exact ⟨ws, rfl, h, hr⟩
  | _ => simp_all [nameOps, charToks, parenOps]

theorem lex_lit (h : Lexeme e asc .LITERAL w r) : ∃ q ws, w = litText asc q ws ∧ Quoted e asc q ws ∧ NextIn asc afterLit r := by
  cases h with
  | lit q ws _ h hr => exact ⟨q, ws, rfl, h, hr⟩
  | _ => simp_all [nameOps, charToks, parenOps]

theorem lex_pound (h : Lexeme e asc .POUND_NAME w r) : ∃ ws, w = asc 0x23 ++ ws.flatten ∧ e.Name ws ∧ NextIn asc afterPound r := by
  cases h with
  | pound ws _ h hr => exact ⟨ws, rfl, h, hr⟩
  | _ => simp_all [nameOps, charToks, parenOps]

theorem lex_open (h : Lexeme e asc .DECL_OPEN w r) : ∃ v, w = asc 0x3C ++ (asc 0x21 ++ v) ∧
    (NextIn asc isWS r ∨ NextIn asc (· == 0x25) r ∧ ∀ m, prologTokBody e r ≠ ⟨.PERCENT, m⟩) := by
  cases h with
  | declOpen v _ hr => exact ⟨v, rfl, hr⟩
  | _ => simp_all [nameOps, charToks, parenOps]

theorem lex_percent (h : Lexeme e asc .PERCENT w r) : w = asc 0x25 ∧ NextIn asc afterPct r := by
  cases h with
  | percent _ hr => exact ⟨rfl, hr⟩
  | _ => simp_all [nameOps, charToks, parenOps]

theorem lex_peref (h : Lexeme e asc .PARAM_ENTITY_REF w r) : ∃ ws, w = perefText asc ws ∧ e.Name ws := by
  cases h with
  | peref ws _ h => exact ⟨ws, rfl, h⟩
  | _ => simp_all [nameOps, charToks, parenOps]

theorem lex_rpar (h : Lexeme e asc .CLOSE_PAREN w r) : w = asc 0x29 ∧ NextIn asc afterParen r := by
  cases h with
  | rpar _ hr => exact ⟨rfl, hr⟩
  | _ => simp_all [nameOps, charToks, parenOps]

theorem lex_gt (h : Lexeme e asc .DECL_CLOSE w r) : w = asc 0x3E := by
  cases h with
  | char c t _ h => simp [charToks] at h; rw [h]
  | _ => simp_all [nameOps, charToks, parenOps]
theorem lex_lsqb (h : Lexeme e asc .OPEN_BRACKET w r) : w = asc 0x5B := by
  cases h with
  | char c t _ h => simp [charToks] at h; rw [h]
  | _ => simp_all [nameOps, charToks, parenOps]
theorem lex_rsqb (h : Lexeme e asc .CLOSE_BRACKET w r) : w = asc 0x5D := by
  cases h with
  | char c t _ h => simp [charToks] at h; rw [h]
  | _ => simp_all [nameOps, charToks, parenOps]
theorem lex_lpar (h : Lexeme e asc .OPEN_PAREN w r) : w = asc 0x28 := by
  cases h with
  | char c t _ h => simp [charToks] at h; rw [h]
  | _ => simp_all [nameOps, charToks, parenOps]
theorem lex_or (h : Lexeme e asc .OR w r) : w = asc 0x7C := by
  cases h with
  | char c t _ h => simp [charToks] at h; rw [h]
  | _ => simp_all [nameOps, charToks, parenOps]
theorem lex_comma (h : Lexeme e asc .COMMA w r) : w = asc 0x2C := by
  cases h with
  | char c t _ h => simp [charToks] at h; rw [h]
  | _ => simp_all [nameOps, charToks, parenOps]

theorem lex_nameOp {t : Tok} {c : UInt8} (ht : (c, t) ∈ nameOps) (h : Lexeme e asc t w r) :
    ∃ ws, w = ws.flatten ++ asc c ∧ DName e asc ws := by
  simp only [nameOps, List.mem_cons, Prod.mk.injEq, List.not_mem_nil, or_false] at ht
  rcases ht with ⟨rfl, rfl⟩ | ⟨rfl, rfl⟩ | ⟨rfl, rfl⟩ <;>
  · cases h with
    | nameOp d t hd ws _ h => simp [nameOps] at hd; subst hd; exact ⟨ws, rfl, h⟩
    | _ => simp_all [charToks, parenOps]

theorem lex_rparOp {t : Tok} {c : UInt8} (ht : (c, t) ∈ parenOps) (h : Lexeme e asc t w r) : w = asc 0x29 ++ asc c := by
  simp only [parenOps, List.mem_cons, Prod.mk.injEq, List.not_mem_nil, or_false] at ht
  rcases ht with ⟨rfl, rfl⟩ | ⟨rfl, rfl⟩ | ⟨rfl, rfl⟩ <;>
  · cases h with
    | rparOp d t _ hd => simp [parenOps] at hd; subst hd; rfl
    | _ => simp_all [charToks, nameOps]

theorem lex_misc {t : Tok} (ht : t = .COMMENT ∨ t = .PI ∨ t = .XML_DECL) (h : Lexeme e asc t w r) : Markup e asc t w := by
  rcases ht with rfl | rfl | rfl <;>
  · cases h with
    | misc _ _ _ _ h => exact h
    | _ => simp_all [nameOps, charToks, parenOps]

theorem lex_inst (h : Lexeme e asc .INSTANCE_START w r) : w = [] := by
  cases h with
  | other _ _ _ h => simpa using h
  | _ => simp_all [nameOps, charToks, parenOps]

/-! ### Gaps -/

/-- Tokens that may follow a name, a literal etc. without white space. -/
def punctTok : Tok → Bool
  | .PROLOG_S | .DECL_CLOSE | .CLOSE_PAREN | .CLOSE_PAREN_QUESTION | .CLOSE_PAREN_ASTERISK | .CLOSE_PAREN_PLUS | .COMMA | .OR | .OPEN_BRACKET
  | .PERCENT | .PARAM_ENTITY_REF => true
  | _ => false

theorem fail_not {t : Tok} (ht : t.isError = false) : ¬ t.fail := by
  cases t <;> simp [Tok.fail, Tok.isError, Tok.toInt] at *

theorem punct (s : Supported e asc) {b : Buf} (hb : NextIn asc afterName b) {t : Tok} {n : Nat} (ht : t.isError = false)
    (h : prologTokBody e b = ⟨t, n⟩) : punctTok t = true := by
  obtain ⟨c, r, hc, rfl⟩ := hb
  have hk := s.class_app afterNameClass hc r
  have a1 := scanPercent_tok e ((asc c ++ r).drop e.mb) e.mb
  have a2 := prologSpace_tok e ((asc c ++ r).drop e.mb) e.mb
  simp only [prologTokBody] at h
  generalize e.bt (asc c ++ r) = u at hk h
  cases u <;> first | (cases hk; done) | skip
  all_goals simp only at h
  all_goals first
    | (injection h with h _; subst h; rfl)
    | (rw [h] at a2; simp only at a2; rw [a2]; rfl)
    | (rw [h] at a1; rcases a1 with a | a | a
       · simp only at a; exact absurd a (fail_not ht)
       · simp only at a; rw [a]; rfl
       · simp only at a; rw [a]; rfl)
    | (split at h
       · cases h; cases ht
       · first
         | (rw [h] at a2; simp only at a2; rw [a2]; rfl)
         | (split at h <;> (injection h with h _; subst h; first | rfl | cases ht)))

theorem space_first (s : Supported e asc) {b : Buf} (hb : NextIn asc isWS b) {t : Tok} {n : Nat} (ht : t.isError = false)
    (h : prologTokBody e b = ⟨t, n⟩) : t = .PROLOG_S := by
  obtain ⟨c, r, hc, rfl⟩ := hb
  have a2 := prologSpace_tok e ((asc c ++ r).drop e.mb) e.mb
  simp only [prologTokBody] at h
  rcases sp_bt s hc r with hk | hk | hk <;> simp only [hk] at h
  · rw [h] at a2; exact a2
  · split at h
    · cases h; cases ht
    · rw [h] at a2; exact a2
  · rw [h] at a2; exact a2

theorem gap (s : Supported e asc) {sp : List UInt8} {t : Tok} {w b' : Buf} {n : Nat} (hb : NextIn asc afterName (spell asc sp ++ (w ++ b')))
    (hsp : AllWS sp) (ht : t.isError = false) (h : prologTokBody e (w ++ b') = ⟨t, n⟩) (hp : punctTok t = false) : White sp := by
  refine ⟨?_, hsp⟩
  rintro rfl
  have := punct s (b := w ++ b') (by simpa [spell] using hb) ht h
  rw [hp] at this
  cases this

theorem gap_open (s : Supported e asc) {sp : List UInt8} {t : Tok} {w b' : Buf} {n : Nat}
    (hb : NextIn asc isWS (spell asc sp ++ (w ++ b')) ∨
      NextIn asc (· == 0x25) (spell asc sp ++ (w ++ b')) ∧ ∀ m, prologTokBody e (spell asc sp ++ (w ++ b')) ≠ ⟨.PERCENT, m⟩)
    (hsp : AllWS sp) (ht : t.isError = false) (h : prologTokBody e (w ++ b') = ⟨t, n⟩) (h1 : t ≠ .PROLOG_S) (h2 : t ≠ .PARAM_ENTITY_REF) : White sp := by
  refine ⟨?_, hsp⟩
  rintro rfl
  simp only [spell, List.map_nil, List.flatten_nil, List.nil_append] at hb
  rcases hb with hb | ⟨⟨c, r, hc, hb⟩, hb2⟩
  · exact h1 (space_first s hb ht h)
  · have hc : c = 0x25 := by simpa using hc
    subst hc
    have a1 := scanPercent_tok e r e.mb
    rw [← body_pct s, ← hb, h] at a1
    rcases a1 with a | a | a
    · simp only at a; exact absurd a (fail_not ht)
    · simp only at a; subst a; exact hb2 _ h
    · exact h2 a

end

section
variable {k : Ctx} {z : DState} {ext : Ext} {fuel : Nat} {expand : Bool → Buf → Buf → DState → Acted}
local notation "R" => Reach k.c ext fuel expand k.internal false true false k.opened k.x
local notation "En" => Ends k ext fuel expand z

/-- White space aside. -/
theorem Ends.look (P : Plain k) {s : DState} {b r : Buf} (hn : s.el.p.roleNone.none_ = true) (hpe : s.pe = .never)
    (hs : s.el.p.h.spacy = true) (hh : s.el.p.h ≠ .condSect2) (h : En s b r) :
    ∃ sp t w b', AllWS sp ∧ b = spell k.asc sp ++ (w ++ b') ∧ t ≠ .PROLOG_S ∧ Look k ext fuel expand z s t w b' r := by
  generalize hl : b.length = l
  induction l using Nat.strongRecOn generalizing b with
  | _ l ih =>
  obtain ⟨t, w, b', rfl, L⟩ := h.tok P hn hpe hh
  by_cases ht : t = .PROLOG_S
  · subst ht
    obtain ⟨sp, h0, h1, rfl⟩ := lex_space L.lex
    have g : R s (spell k.asc sp ++ b') [] s b' := Reach.spaces P.S hs hn sp (maybe_all h1) (.inr rfl)
    have hm := L.mb P (by simp)
    have := P.S.s.mb
    obtain ⟨sp', t, w, b'', h2, rfl, h3, h4⟩ := ih b'.length (by rw [← hl, List.length_append]; have : 0 < k.x.e.mb := Nat.succ_pos _; omega)
      (h.step g) rfl
    refine ⟨sp ++ sp', t, w, b'', ?_, by simp [spell], h3, h4⟩
    intro c hc
    rcases List.mem_append.1 hc with hc | hc
    · exact h1 c hc
    · exact h2 c hc
  · exact ⟨[], t, w, b', by simp [AllWS], by simp [spell], ht, L⟩

/-- The next token of a declaration. -/
theorem Ends.at (P : Plain k) {F : C59.Frame} {D : DTab} {h : Hd} {s : DState} {b r : Buf} (hdoc : k.doc = F.doc) (hpe : k.pe = F.pe)
    (a : At F h D s) (hs : h.spacy = true) (hh : h ≠ .condSect2) (e : En s b r) :
    ∃ sp t w b' q, AllWS sp ∧ b = spell k.asc sp ++ (w ++ b') ∧ t ≠ .PROLOG_S ∧ Look k ext fuel expand z s t w b' r ∧
      s.el.p.handle k.x.e t w = some q ∧ q.2 ≠ .ERROR ∧
      ((∃ hd, (pact k.c ext fuel expand k.internal true k.opened (s.withP q.1) q.2 t w).2.2 = .go hd) ∨ t = .INSTANCE_START ∧ r = w ++ b') := by
  have h1 : s.pe = .never := by rw [← P.pe, hpe]; exact congrArg C59.Frame.pe a.frame
  have h2 : s.el.p.documentEntity = true := by rw [← P.doc, hdoc]; exact congrArg C59.Frame.doc a.frame
  obtain ⟨sp, t, w, b', g1, g2, g3, g4⟩ := e.look P a.none_ h1 (by rw [a.h]; exact hs) (by rw [a.h]; exact hh)
  obtain ⟨q, g5, g6, g7⟩ := g4.handled h2
  exact ⟨sp, t, w, b', q, g1, g2, g3, g4, g5, g6, g7⟩

end
end Verif.C61
