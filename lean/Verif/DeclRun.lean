import Verif.DeclSpec

/-! The parser reads declarations as specified: entities, notations, comments, processing instructions. -/

set_option autoImplicit false

namespace Verif.C59
open C43 C53 Spec Verif PState

/-! ### Lexical facts -/

section
variable {e : Enc} {asc : UInt8 → Buf}

theorem next_mono {A B : UInt8 → Bool} (h : ∀ c, A c = true → B c = true) {r : Buf} (hr : NextIn asc A r) : NextIn asc B r := by
  obtain ⟨c, r', h1, h2⟩ := hr
  exact ⟨c, r', h c h1, h2⟩

theorem White.next {sp : List UInt8} (h : White sp) (r : Buf) : NextIn asc isWS (spell asc sp ++ r) := by
  obtain ⟨h0, h⟩ := h
  cases sp with
  | nil => exact absurd rfl h0
  | cons c sp => exact ⟨c, spell asc sp ++ r, h c (by simp), by simp [spell]⟩

theorem White.nextName {sp : List UInt8} (h : White sp) (r : Buf) : NextIn asc afterName (spell asc sp ++ r) :=
  next_mono (fun c hc => by simp [afterName, hc]) (h.next r)

theorem White.nextLit {sp : List UInt8} (h : White sp) (r : Buf) : NextIn asc afterLit (spell asc sp ++ r) :=
  next_mono (fun c hc => by simp [afterLit, hc]) (h.next r)

theorem maybe_next {A : UInt8 → Bool} (hA : ∀ c, isWS c = true → A c = true) {d : UInt8} (hd : A d = true)
    {sp : List UInt8} (h : AllWS sp) (r : Buf) : NextIn asc A (spell asc sp ++ (asc d ++ r)) := by
  cases sp with
  | nil => exact ⟨d, r, hd, rfl⟩
  | cons c sp => exact ⟨c, spell asc sp ++ (asc d ++ r), hA c (h c (by simp)), by simp [spell]⟩

theorem maybe_all {sp : List UInt8} (h : AllWS sp) : sp.all isWS = true := by simpa [AllWS] using h

theorem spell_ne {sp : List UInt8} {mb : Nat} (hl : ∀ c, (asc c).length = mb) (hm : 0 < mb) (h : sp ≠ []) : spell asc sp ≠ [] := by
  cases sp with
  | nil => exact absurd rfl h
  | cons c sp =>
    intro h'
    have := congrArg List.length h'
    simp [spell] at this
    have := hl c
    simp_all

theorem ws_afterLit (c : UInt8) (h : isWS c = true) : afterLit c = true := by simp [afterLit, h]

theorem ws_afterName (c : UInt8) (h : isWS c = true) : afterName c = true := by simp [afterName, h]

theorem pt_kw (s : Supported e asc) {kw : List UInt8} (h0 : kw ≠ []) (h : kw.all isUpper = true) {r : Buf}
    (hr : NextIn asc afterName r) : prologTokBody e (spell asc kw ++ r) = ⟨.NAME, (spell asc kw).length⟩ :=
  pt_name s (upper_isName s h0 h) hr

theorem spell_len (s : Supported e asc) (kw : List UInt8) : (spell asc kw).length = e.mb * kw.length := by
  induction kw with
  | nil => simp [spell]
  | cons c kw ih =>
    have l := s.asc.len c
    simp only [spell, List.map_cons, List.flatten_cons, List.length_append, List.length_cons] at ih ⊢
    rw [ih, l, Nat.mul_succ, Nat.add_comm]

theorem spell_min (s : Supported e asc) {kw : List UInt8} (h0 : kw ≠ []) : e.mb ≤ (spell asc kw).length := by
  rw [spell_len s]
  cases kw with
  | nil => exact absurd rfl h0
  | cons c kw => rw [List.length_cons, Nat.mul_succ]; omega

theorem name_min (s : Supported e asc) {name : List Buf} (h : e.Name name) : e.mb ≤ name.flatten.length := by
  obtain ⟨w, vs, rfl, h1, h2⟩ := h
  have := h1.len s.mb
  simp only [List.flatten_cons, List.length_append]
  omega

theorem refName_lit (s : Supported e asc) (q : UInt8) (ws : List Buf) : refName e (litText asc q ws) = ws.flatten := by
  have l := s.asc.len q
  have h : (litText asc q ws).length - 2 * e.mb = ws.flatten.length := by
    simp only [litText, List.length_append]; omega
  rw [refName, h, litText, List.drop_left' l, List.take_left]

theorem lit_min (s : Supported e asc) (q : UInt8) (ws : List Buf) : e.mb ≤ (litText asc q ws).length := by
  have l := s.asc.len q
  simp only [litText, List.length_append]; omega

theorem upper_ascii {kw : List UInt8} (h : kw.all isUpper = true) : ∀ c ∈ kw, c < 0x80 := by
  intro c hc
  have := List.all_eq_true.1 h c hc
  revert this
  exact UInt8.forall_dec (P := fun c => isUpper c = true → c < 0x80) (by decide +kernel) c

theorem spell_inj (s : Supported e asc) {a b : List UInt8} (h : spell asc a = spell asc b) : a = b := by
  induction a generalizing b with
  | nil =>
    cases b with
    | nil => rfl
    | cons c b =>
      have := congrArg List.length h
      rw [spell_len s, spell_len s] at this
      simp [Enc.mb] at this
  | cons c a ih =>
    cases b with
    | nil =>
      have := congrArg List.length h
      rw [spell_len s, spell_len s] at this
      simp [Enc.mb] at this
    | cons d b =>
      have l1 := s.asc.len c
      have l2 := s.asc.len d
      rw [show spell asc (c :: a) = asc c ++ spell asc a by simp [spell], show spell asc (d :: b) = asc d ++ spell asc b by simp [spell]] at h
      have h1 := List.append_inj h (by rw [l1, l2])
      rw [ih h1.2, s.asc_inj h1.1]

/-- Comparing two keywords. -/
theorem matches_kw (s : Supported e asc) (a : List UInt8) {b : List UInt8} (hb : b.all isUpper = true) :
    nameMatchesAscii e (spell asc a) b = decide (a = b) := by
  rw [nameMatches_iff s b (upper_ascii hb)]
  by_cases h : a = b
  · rw [h]; simp
  · rw [decide_eq_false h, decide_eq_false fun h' => h (spell_inj s h')]

end

/-! ### States of the loop -/

/-- What no declaration changes. -/
structure Frame where
  cur : CurEnc
  pe : PEParsing
  dName : Option Buf
  dSys : Option Buf
  dPub : Option Buf
  foreign : Bool
  ignoring : Bool
  doc : Bool
  includes : UInt32
  inValue : Bool

def frame (s : DState) : Frame :=
  ⟨s.cur, s.pe, s.dName, s.dSys, s.dPub, s.foreign, s.ignoring, s.el.p.documentEntity, s.el.p.includeLevel, s.el.p.inEntityValue⟩

/-- No element declaration is in progress. -/
structure Resting (el : EState) : Prop where
  eldecl : el.inEldecl = false
  len : el.strLen = 0
  size : ElemSim.SizeOk el.groupSize

/-- Between two tokens. -/
structure At (F : Frame) (h : Hd) (D : DTab) (s : DState) : Prop where
  h : s.el.p.h = h
  none_ : s.el.p.roleNone.none_ = true
  frame : frame s = F
  D : s.D = D
  tmp : s.tmp = []
  rest : Resting s.el

/-- The handler between declarations. -/
def home (doc : Bool) : Hd := if doc then .internalSubset else .externalSubset1

section
variable {c : PCfg} {ext : Ext} {fuel : Nat} {expand : Bool → Buf → Buf → DState → Acted}
  {internal between allowClose more : Bool} {opened : List Buf} {x : XEnc} {asc : UInt8 → Buf}
  {F : Frame} {D : DTab} {s : DState} {h h' : Hd}

local notation "R" => Reach c ext fuel expand internal between allowClose more opened x

theorem frame_x {s s' : DState} (h : frame s' = frame s) : s'.x c internal = s.x c internal := by
  have : s'.cur = s.cur := congrArg Frame.cur h
  rw [DState.x, DState.x, this]

theorem At.go (a : At F h D s) (h' : Hd) : At F h' D (s.withP { s.el.p with h := h' }) :=
  ⟨rfl, a.none_, a.frame, a.D, a.tmp, ⟨a.rest.eldecl, a.rest.len, a.rest.size⟩⟩

theorem At.close (a : At F h D s) {n : Role} (hn : n.none_ = true) :
    At F .declClose D (s.withP { s.el.p with h := .declClose, roleNone := n }) :=
  ⟨rfl, hn, a.frame, a.D, a.tmp, ⟨a.rest.eldecl, a.rest.len, a.rest.size⟩⟩

theorem At.top (a : At F h D s) :
    At F (home F.doc) D (s.withP { s.el.p with h := if s.el.p.documentEntity then .internalSubset else .externalSubset1 }) := by
  have : s.el.p.documentEntity = F.doc := congrArg Frame.doc a.frame
  exact ⟨by rw [← this]; rfl, a.none_, a.frame, a.D, a.tmp, ⟨a.rest.eldecl, a.rest.len, a.rest.size⟩⟩

/-- A token that only moves the grammar machine. -/
theorem quiet_tok (S : XSupported x asc) {t : Tok} {w r : Buf} {p : PState} {role : Role}
    (hb : prologTokBody x.e (w ++ r) = ⟨t, w.length⟩) (hw : x.e.mb ≤ w.length) (ht : t.isError = false)
    (hp : s.el.p.next x.e t w = (p, role)) (hr : role.none_ = true) : R s (w ++ r) [] (s.withP p) r := by
  obtain ⟨hd, h3⟩ := pact_none (c := c) (ext := ext) (fuel := fuel) (expand := expand) (internal := internal)
    (allowClose := allowClose) (opened := opened) (s := s.withP p) hr t w
  exact Reach.tok (s' := s.withP p) S hb hw ht hp rfl fun _ => h3

/-- White space. -/
theorem At.white (a : At F h D s) (S : XSupported x asc) (hh : h.spacy = true) {sp : List UInt8} (hsp : AllWS sp) {r : Buf}
    (hr : r ≠ []) : R s (spell asc sp ++ r) [] s r :=
  Reach.spaces S (by rw [a.h]; exact hh) a.none_ sp (maybe_all hsp) (.inl hr)

theorem asc_ne (S : XSupported x asc) (d : UInt8) (r : Buf) : asc d ++ r ≠ [] := by
  have := S.s.asc.len d
  intro h
  have h := congrArg List.length h
  rw [List.length_append, this] at h
  simp [Enc.mb] at h

theorem name_ne (S : XSupported x asc) {name : List Buf} (h : x.e.Name name) (r : Buf) : name.flatten ++ r ≠ [] := by
  have := name_min S.s h
  intro h
  have h := congrArg List.length h
  rw [List.length_append] at h
  simp [Enc.mb] at h this
  omega

theorem kw_ne (S : XSupported x asc) {kw : List UInt8} (h : kw ≠ []) (r : Buf) : spell asc kw ++ r ≠ [] := by
  have := spell_min S.s h
  intro h
  have h := congrArg List.length h
  rw [List.length_append] at h
  have hm : 0 < x.e.mb := Nat.succ_pos _
  simp only [List.length_nil] at h
  omega

theorem lit_ne (S : XSupported x asc) (q : UInt8) (ws : List Buf) (r : Buf) : litText asc q ws ++ r ≠ [] := by
  rw [litText, List.append_assoc]
  exact asc_ne S q _

/-- `<!NAME` and the white space behind it. -/
theorem At.open (a : At F (home F.doc) D s) (S : XSupported x asc) {kw : List UInt8} {h' : Hd}
    (hk : (kw, h') ∈ [(kwENTITY, Hd.entity0), (kwATTLIST, .attlist0), (kwELEMENT, .element0), (kwNOTATION, .notation0)])
    {sp : List UInt8} (hsp : White sp) {r : Buf} (hr : r ≠ []) :
    R s (declOpen asc kw ++ (spell asc sp ++ r)) [] (s.withP { s.el.p with h := h' }) r := by
  have l (d) := S.s.asc.len d
  have hu : kw ≠ [] ∧ kw.all isUpper = true := by
    simp only [List.mem_cons, Prod.mk.injEq, List.not_mem_nil, or_false] at hk
    rcases hk with ⟨rfl, -⟩ | ⟨rfl, -⟩ | ⟨rfl, -⟩ | ⟨rfl, -⟩ <;> exact ⟨by decide, by decide⟩
  have hlen : (declOpen asc kw).length = x.e.mb + x.e.mb + (spell asc kw).length := by
    simp only [declOpen, List.length_append, l]; omega
  have hdrop : (declOpen asc kw).drop (2 * x.e.mb) = spell asc kw := by
    rw [declOpen, Nat.two_mul, ← List.drop_drop, List.drop_left' (l _), List.drop_left' (l _)]
  have hb : prologTokBody x.e (declOpen asc kw ++ (spell asc sp ++ r)) = ⟨.DECL_OPEN, (declOpen asc kw).length⟩ := by
    rw [hlen, ← pt_decl S.s hu.1 hu.2 (hsp.next r)]
    simp only [declOpen, List.append_assoc]
  have hm {b : List UInt8} (hb : b.all isUpper = true) := matches_kw S.s kw hb
  have hp : ∃ role, role.none_ = true ∧ s.el.p.next x.e .DECL_OPEN (declOpen asc kw) = ({ s.el.p with h := h' }, role) := by
    have h1 : s.el.p.handle x.e .DECL_OPEN (declOpen asc kw) = internalSubset x.e s.el.p .DECL_OPEN (declOpen asc kw) := by
      have := a.h
      cases hF : F.doc <;> rw [hF] at this <;> simp [home] at this <;> simp [PState.handle, this, externalSubset1]
    simp only [List.mem_cons, Prod.mk.injEq, List.not_mem_nil, or_false] at hk
    rcases hk with ⟨rfl, rfl⟩ | ⟨rfl, rfl⟩ | ⟨rfl, rfl⟩ | ⟨rfl, rfl⟩
    · refine ⟨.ENTITY_NONE, rfl, ?_⟩
      rw [PState.next, h1, internalSubset, hdrop, hm (by decide)]; rfl
    · refine ⟨.ATTLIST_NONE, rfl, ?_⟩
      rw [PState.next, h1, internalSubset, hdrop, hm (by decide), hm (by decide)]; rfl
    · refine ⟨.ELEMENT_NONE, rfl, ?_⟩
      rw [PState.next, h1, internalSubset, hdrop, hm (by decide), hm (by decide), hm (by decide)]; rfl
    · refine ⟨.NOTATION_NONE, rfl, ?_⟩
      rw [PState.next, h1, internalSubset, hdrop, hm (by decide), hm (by decide), hm (by decide), hm (by decide)]; rfl
  obtain ⟨role, hr1, hp⟩ := hp
  refine (quiet_tok S hb (by rw [hlen]; omega) rfl hp hr1).then ((a.go h').white S ?_ hsp.2 hr)
  simp only [List.mem_cons, Prod.mk.injEq, List.not_mem_nil, or_false] at hk
  rcases hk with ⟨-, rfl⟩ | ⟨-, rfl⟩ | ⟨-, rfl⟩ | ⟨-, rfl⟩ <;> rfl

/-- White space and the closing bracket of a declaration. -/
theorem At.end (a : At F .declClose D s) (S : XSupported x asc) {sp : List UInt8} (hsp : AllWS sp) (r : Buf) :
    ∃ s', At F (home F.doc) D s' ∧ R s (spell asc sp ++ (asc 0x3E ++ r)) [] s' r := by
  refine ⟨_, a.top, (a.white S rfl hsp (asc_ne S _ _)).then (quiet_tok (t := .DECL_CLOSE) (role := s.el.p.roleNone) S ?_ ?_ rfl ?_ a.none_)⟩
  · rw [pt_gt S.s, S.s.asc.len]
  · rw [S.s.asc.len]; exact Nat.le_refl _
  · simp [PState.next, PState.handle, a.h, declClose, PState.top]

end

/-! ### Entities -/

section
variable {k : Ctx} {ext : Ext} {fuel : Nat} {expand : Bool → Buf → Buf → DState → Acted}
  {between allowClose more : Bool} {F : Frame} {D : DTab} {s : DState} {h h' : Hd} {l : Option (Bool × Buf × Entity)} {p : Bool}

local notation "R" => Reach k.c ext fuel expand k.internal between allowClose more k.opened k.x

/-- The table while an entity is being declared. -/
def withEnt (D : DTab) : Option (Bool × Buf × Entity) → DTab
  | none => D
  | some (p, n, e) => addEntity D p n e

/-- The name is not in the table. -/
def isFresh (D : DTab) (p : Bool) (n : Buf) : Prop := (if p then tabGet D.par n else tabGet D.gen n) = none

/-- In the middle of an entity declaration. -/
structure Mid (F : Frame) (h : Hd) (D : DTab) (l : Option (Bool × Buf × Entity)) (s : DState) : Prop where
  at_ : At F h (withEnt D l) s
  decl : s.decl = l.map fun q => (q.1, q.2.1)
  fresh : ∀ p n e, l = some (p, n, e) → isFresh D p n ∧ D.keep = true

theorem Mid.go (m : Mid F h D l s) (h' : Hd) : Mid F h' D l (s.withP { s.el.p with h := h' }) :=
  ⟨m.at_.go h', m.decl, m.fresh⟩

theorem Mid.close (m : Mid F h D l s) {n : Role} (hn : n.none_ = true) :
    Mid F .declClose D l (s.withP { s.el.p with h := .declClose, roleNone := n }) :=
  ⟨m.at_.close hn, m.decl, m.fresh⟩

theorem Mid.keep (m : Mid F h D l s) : s.D.keep = D.keep := by
  rw [m.at_.D]
  cases l with
  | none => rfl
  | some q => rw [withEnt, addEntity]; split <;> rfl

theorem tabSet_fresh {α : Type} {t : List (Buf × α)} {n : Buf} (h : tabGet t n = none) (v : α) (f : α → α) :
    tabSet (t ++ [(n, v)]) n f = t ++ [(n, f v)] := by
  have h1 : ∀ p ∈ t, p.1 ≠ n := by simpa [tabGet] using h
  rw [tabSet, List.map_append]
  congr 1
  · conv => rhs; rw [← List.map_id t]
    apply List.map_congr_left
    intro p hp
    rw [if_neg (h1 p hp)]; rfl
  · simp

theorem tabGet_fresh {α : Type} {t : List (Buf × α)} {n : Buf} (h : tabGet t n = none) (v : α) :
    tabGet (t ++ [(n, v)]) n = some v := by
  have h1 : t.find? (·.1 = n) = none := by simpa [tabGet] using h
  rw [tabGet, List.find?_append, h1]
  simp

theorem tabPut_fresh {α : Type} {t : List (Buf × α)} {n : Buf} (h : tabGet t n = none) (v : α) :
    tabPut t n v = t ++ [(n, v)] := by
  rw [tabPut, h]; rfl

/-- Fields of the entity are assigned. -/
def setL (l : Option (Bool × Buf × Entity)) (f : Entity → Entity) : Option (Bool × Buf × Entity) :=
  l.map fun q => (q.1, q.2.1, f q.2.2)

theorem Mid.set (m : Mid F h D l s) (f : Entity → Entity) : Mid F h D (setL l f) (s.setDecl f) := by
  obtain ⟨⟨h1, h2, h3, h4, h5, h6⟩, hd, hf⟩ := m
  cases l with
  | none =>
    have : s.setDecl f = s := by rw [DState.setDecl, hd]; rfl
    rw [this]
    exact ⟨⟨h1, h2, h3, h4, h5, h6⟩, hd, hf⟩
  | some q =>
    obtain ⟨p, n, e⟩ := q
    have hfr := (hf p n e rfl).1
    cases p with
    | true =>
      have : s.setDecl f = { s with D := { s.D with par := tabSet s.D.par n f } } := by rw [DState.setDecl, hd]; rfl
      rw [this]
      refine ⟨⟨h1, h2, h3, ?_, h5, h6⟩, hd, ?_⟩
      · simp only [h4, setL, Option.map_some, withEnt, addEntity, if_true]
        rw [tabSet_fresh (by simpa [isFresh] using hfr)]
      · intro p n' e' he; cases he; exact hf _ _ _ rfl
    | false =>
      have : s.setDecl f = { s with D := { s.D with gen := tabSet s.D.gen n f } } := by rw [DState.setDecl, hd]; rfl
      rw [this]
      refine ⟨⟨h1, h2, h3, ?_, h5, h6⟩, hd, ?_⟩
      · simp only [h4, setL, Option.map_some, withEnt, addEntity, Bool.false_eq_true, if_false]
        rw [tabSet_fresh (by simpa [isFresh] using hfr)]
      · intro p n' e' he; cases he; exact hf _ _ _ rfl

theorem Mid.ent (m : Mid F h D l s) : s.declEnt = l := by
  obtain ⟨⟨h1, h2, h3, h4, h5, h6⟩, hd, hf⟩ := m
  cases l with
  | none => rw [DState.declEnt, hd]; rfl
  | some q =>
    obtain ⟨p, n, e⟩ := q
    have hfr := (hf p n e rfl).1
    rw [DState.declEnt, hd]
    cases p with
    | true =>
      simp only [Option.map_some, h4, withEnt, addEntity, if_true]
      rw [tabGet_fresh (by simpa [isFresh] using hfr)]; rfl
    | false =>
      simp only [Option.map_some, h4, withEnt, addEntity, Bool.false_eq_true, if_false]
      rw [tabGet_fresh (by simpa [isFresh] using hfr)]; rfl

theorem predefined_name {e : Enc} {asc : UInt8 → Buf} (S : Supported e asc) {w : Buf} (hw : e.mb ∣ w.length) :
    predefinedEntityName e w ≠ 0 ↔ isPredefined asc w := by
  constructor
  · intro h
    obtain ⟨n, h1, h2⟩ := (C10.predefined_iff S w hw _ h).1 rfl
    refine ⟨n, ?_, h2⟩
    simp only [C10.predefined, List.mem_cons, Prod.mk.injEq, List.not_mem_nil, or_false] at h1
    simp only [List.mem_cons, List.not_mem_nil, or_false]
    rcases h1 with ⟨h1, -⟩ | ⟨h1, -⟩ | ⟨h1, -⟩ | ⟨h1, -⟩ | ⟨h1, -⟩ <;> simp [h1]
  · rintro ⟨n, h1, h2⟩
    have : ∃ d, d ≠ 0 ∧ (n, d) ∈ C10.predefined := by
      simp only [List.mem_cons, List.not_mem_nil, or_false] at h1
      rcases h1 with rfl | rfl | rfl | rfl | rfl
      · exact ⟨0x3C, by decide, by decide⟩
      · exact ⟨0x3E, by decide, by decide⟩
      · exact ⟨0x26, by decide, by decide⟩
      · exact ⟨0x22, by decide, by decide⟩
      · exact ⟨0x27, by decide, by decide⟩
    obtain ⟨d, hd, hm⟩ := this
    rw [(C10.predefined_iff S w hw d hd).2 ⟨n, hm, h2⟩]
    exact hd

/-- The entity while nothing but its name is known. -/
def newEnt (k : Ctx) : Entity :=
  { text := none, isInternal := !(k.c.child || k.internal), notation_ := none, systemId := none, publicId := none, base := none }

/-- What is being declared after the name of an entity. -/
def Named (k : Ctx) (D : DTab) (p : Bool) (name : Buf) (l : Option (Bool × Buf × Entity)) : Prop :=
  (Counts k D p name ∧ l = some (p, converted k.x name, newEnt k)) ∨ (¬ Counts k D p name ∧ l = none)

theorem entity_name (S : XSupported k.x k.asc) (a : At F .entity0 D s) {name : List Buf} (hn : k.x.e.Name name) {r : Buf}
    (hr : NextIn k.asc afterName r) :
    ∃ l s', Mid F .entity2 D l s' ∧ R s (name.flatten ++ r) [] s' r ∧ Named k D false name.flatten l := by
  have hp : s.el.p.next k.x.e .NAME name.flatten = ({ s.el.p with h := .entity2 }, .GENERAL_ENTITY_NAME) := by
    simp [PState.next, PState.handle, a.h, entity0, PState.go]
  have b := a.go .entity2
  have hpre := predefined_name S.s (name_dvd S.s hn)
  by_cases hc : Counts k D false name.flatten
  · obtain ⟨h1, h2, h3⟩ := hc
    refine ⟨some (false, converted k.x name.flatten, newEnt k),
      { s.withP { s.el.p with h := .entity2 } with
        decl := some (false, converted k.x name.flatten)
        D := { s.D with gen := tabPut s.D.gen (converted k.x name.flatten) (newEntity k.c k.internal) } },
      ⟨⟨b.h, b.none_, b.frame, ?_, b.tmp, b.rest⟩, rfl, ?_⟩,
      Reach.tok (E := []) (hd := !k.c.entityDecl) S (pt_name S.s hn hr) (name_min S.s hn) rfl hp ?_ fun hx => ?_, .inl ⟨⟨h1, h2, h3⟩, rfl⟩⟩
    rotate_left 3
    · have hx' : (s.withP { s.el.p with h := .entity2 }).x k.c k.internal = k.x := hx
      simp only [pact, hx', actEntity]
      rw [if_neg (fun h => h3 (hpre.1 h)), if_pos (by rw [b.D]; exact h1), if_neg (by rw [b.D, h2]; simp)]
      rfl
    · simp only [a.D, withEnt, addEntity, Bool.false_eq_true, if_false]
      rw [tabPut_fresh h2]; rfl
    · intro p n e he; cases he
      exact ⟨by simpa [isFresh] using h2, h1⟩
    · rfl
  · refine ⟨none, { s.withP { s.el.p with h := .entity2 } with decl := none }, ⟨⟨b.h, b.none_, b.frame, b.D, b.tmp, b.rest⟩, rfl, by simp⟩,
      Reach.tok (E := []) (hd := true) S (pt_name S.s hn hr) (name_min S.s hn) rfl hp ?_ fun hx => ?_, .inr ⟨hc, rfl⟩⟩
    · rfl
    · have hx' : (s.withP { s.el.p with h := .entity2 }).x k.c k.internal = k.x := hx
      simp only [pact, hx', actEntity]
      by_cases h3 : predefinedEntityName k.x.e name.flatten ≠ 0
      · rw [if_pos h3]
      · rw [if_neg h3]
        by_cases h1 : (s.withP { s.el.p with h := .entity2 }).D.keep = true
        · rw [if_pos h1, if_pos]
          rw [b.D] at h1 ⊢
          cases h2 : tabGet D.gen (converted k.x name.flatten) with
          | some _ => rfl
          | none => exact absurd ⟨h1, h2, fun h => h3 (hpre.2 h)⟩ hc
        · rw [if_neg h1]

theorem param_name (S : XSupported k.x k.asc) (a : At F .entity1 D s) {name : List Buf} (hn : k.x.e.Name name) {r : Buf}
    (hr : NextIn k.asc afterName r) :
    ∃ l s', Mid F .entity7 D l s' ∧ R s (name.flatten ++ r) [] s' r ∧ Named k D true name.flatten l := by
  have hp : s.el.p.next k.x.e .NAME name.flatten = ({ s.el.p with h := .entity7 }, .PARAM_ENTITY_NAME) := by
    simp [PState.next, PState.handle, a.h, entity1, PState.go]
  have b := a.go .entity7
  by_cases hc : Counts k D true name.flatten
  · obtain ⟨h1, h2⟩ := hc
    rw [if_pos rfl] at h2
    refine ⟨some (true, converted k.x name.flatten, newEnt k),
      { s.withP { s.el.p with h := .entity7 } with
        decl := some (true, converted k.x name.flatten)
        D := { s.D with par := tabPut s.D.par (converted k.x name.flatten) (newEntity k.c k.internal) } },
      ⟨⟨b.h, b.none_, b.frame, ?_, b.tmp, b.rest⟩, rfl, ?_⟩,
      Reach.tok (E := []) (hd := !k.c.entityDecl) S (pt_name S.s hn hr) (name_min S.s hn) rfl hp ?_ fun hx => ?_, .inl ⟨⟨h1, h2⟩, rfl⟩⟩
    rotate_left 3
    · have hx' : (s.withP { s.el.p with h := .entity7 }).x k.c k.internal = k.x := hx
      simp only [pact, hx', actEntity]
      rw [if_pos (by rw [b.D]; exact h1), if_neg (by rw [b.D, h2]; simp)]
      rfl
    · simp only [a.D, withEnt, addEntity, if_true]
      rw [tabPut_fresh h2]; rfl
    · intro p n e he; cases he
      exact ⟨by simpa [isFresh] using h2, h1⟩
    · rfl
  · refine ⟨none, { s.withP { s.el.p with h := .entity7 } with decl := none }, ⟨⟨b.h, b.none_, b.frame, b.D, b.tmp, b.rest⟩, rfl, by simp⟩,
      Reach.tok (E := []) (hd := true) S (pt_name S.s hn hr) (name_min S.s hn) rfl hp ?_ fun hx => ?_, .inr ⟨hc, rfl⟩⟩
    · rfl
    · have hx' : (s.withP { s.el.p with h := .entity7 }).x k.c k.internal = k.x := hx
      simp only [pact, hx', actEntity]
      by_cases h1 : (s.withP { s.el.p with h := .entity7 }).D.keep = true
      · rw [if_pos h1, if_pos]
        rw [b.D] at h1 ⊢
        cases h2 : tabGet D.par (converted k.x name.flatten) with
        | some _ => rfl
        | none => exact absurd ⟨h1, h2⟩ hc
      · rw [if_neg h1]

/-- One token that does something. -/
theorem step {s s' : DState} (S : XSupported k.x k.asc) {t : Tok} {w r : Buf} {p : PState} {role : Role} {E : List PEv}
    (hb : prologTokBody k.x.e (w ++ r) = ⟨t, w.length⟩) (hw : k.x.e.mb ≤ w.length) (ht : t.isError = false)
    (hp : s.el.p.next k.x.e t w = (p, role)) (hf : frame s' = frame s) (hE : heard E = E)
    (ha : (s.withP p).x k.c k.internal = k.x → ∃ hd, pact k.c ext fuel expand k.internal allowClose k.opened (s.withP p) role t w = (E, s', .go hd)) :
    R s (w ++ r) E s' r := by
  intro hx hd
  obtain ⟨d, ha⟩ := ha hx
  have := Reach.tok (between := between) (more := more) (r := r) S hb hw ht hp (frame_x hf) fun _ => ha
  rw [hE] at this
  exact this hx hd

/-- The calls for an entity value. -/
def sayValue (k : Ctx) (l : Option (Bool × Buf × Entity)) (v : Buf) : List PEv :=
  match l with
  | none => []
  | some (p, n, _) => if k.c.entityDecl then [.entityDecl n p (some v) k.c.base none none none] else []

theorem repl_mono {par par' : Buf → Option Entity} {int x : XEnc} {asc : UInt8 → Buf} {le pes : Bool} {op : List Buf} {b out : Buf}
    (hm : ∀ n e, par n = some e → par' n = some e) (h : C58.Repl par int x asc le pes op b out) :
    C58.Repl par' int x asc le pes op b out := by
  induction h with
  | nil => exact .nil
  | crlf h ih => exact .crlf ih
  | cr hr h ih => exact .cr hr ih
  | lf h ih => exact .lf ih
  | char w hw h1 h2 h3 h4 h ih => exact .char w hw h1 h2 h3 h4 ih
  | dec ds h0 hd hx h ih => exact .dec ds h0 hd hx ih
  | hex ds h0 hd hx h ih => exact .hex ds h0 hd hx ih
  | entity ws hn h ih => exact .entity ws hn ih
  | param ws ent t out' hn hd ho hs ht hin h ihin ih => exact .param ws ent t out' hn (hm _ _ hd) ho hs ht ihin ih

theorem tabGet_more {α : Type} {t : List (Buf × α)} {n m : Buf} {e : α} (u : List (Buf × α)) (h : tabGet t n = some e) : tabGet (t ++ u) n = some e := by
  rw [tabGet] at h ⊢
  rw [List.find?_append]
  cases h1 : t.find? (·.1 = n) with
  | none => rw [h1] at h; cases h
  | some q => rw [h1] at h; simpa using h

theorem withEnt_par (D : DTab) (l : Option (Bool × Buf × Entity)) :
    (withEnt D l).par.length ≤ D.par.length + 1 ∧ ∀ n e, tabGet D.par n = some e → tabGet (withEnt D l).par n = some e := by
  cases l with
  | none => exact ⟨by simp [withEnt], fun n e h => h⟩
  | some q =>
    obtain ⟨p, n, e⟩ := q
    cases p with
    | false => exact ⟨by simp [withEnt, addEntity], fun n e h => h⟩
    | true => exact ⟨by simp [withEnt, addEntity], fun n e h => by simpa [withEnt, addEntity] using tabGet_more (m := n) _ h⟩

theorem setSh_self (s : DState) : s.setSh s.sh = s := rfl

theorem frame_setDecl (s : DState) (f : Entity → Entity) : frame (s.setDecl f) = frame s := by
  rw [DState.setDecl]
  split <;> rfl

/-- Hypotheses about the internal encoding. -/
structure IntOk (k : Ctx) : Prop where
  int : XSupported k.c.int asc1
  ends : k.c.int.e.lineEnds asc1 = false

theorem ent_value (S : XSupported k.x k.asc) (hi : IntOk k) (m : Mid F h D l s) (hh : h = .entity2 ∨ h = .entity7)
    {q : UInt8} {ws : List Buf} {v : Buf} (hq : Quoted k.x.e k.asc q ws)
    (hv : D.keep = true → C58.Repl (tabGet D.par) k.c.int k.x k.asc (k.x.e.lineEnds k.asc) (k.c.isPE || k.internal)
        k.opened ws.flatten v) (hf : D.par.length < fuel) {r : Buf} (hr : NextIn k.asc afterLit r) :
    ∃ s', Mid F .declClose D (setL l fun e => { e with text := some v }) s' ∧
      R s (litText k.asc q ws ++ r) (sayValue k l v) s' r := by
  have hp : s.el.p.next k.x.e .LITERAL (litText k.asc q ws) =
      ({ s.el.p with h := .declClose, roleNone := .ENTITY_NONE }, .ENTITY_VALUE) := by
    rcases hh with rfl | rfl <;> simp [PState.next, PState.handle, m.at_.h, entity2, entity7, PState.close]
  have m' := m.close (n := .ENTITY_NONE) rfl
  generalize hs1 : s.withP { s.el.p with h := .declClose, roleNone := .ENTITY_NONE } = s1 at m'
  have hfr : frame s1 = frame s := by rw [← hs1]; rfl
  by_cases hk : D.keep = true
  · refine ⟨s1.setDecl fun e => { e with text := some v }, m'.set _,
      step S (pt_lit S.s hq hr) (lit_min S.s _ _) rfl hp ((frame_setDecl _ _).trans hfr) ?_ fun hx => ?_⟩
    · cases l with
      | none => rfl
      | some q => simp only [sayValue]; split <;> rfl
    · have hk' : s1.D.keep = true := by rw [m'.keep]; exact hk
      have hpar := withEnt_par D l
      have hD : s1.sh.D = withEnt D l := m'.at_.D
      have hval : storeEntityValue k.c ext s1.pe fuel k.x k.internal k.opened s1.sh [] ws.flatten = ⟨[], s1.sh, v, none⟩ := by
        refine C58.value S hi.int hi.ends _ _ ?_ _ ?_
        · rw [hD]; omega
        · rw [hD]; exact repl_mono hpar.2 (hv hk)
      rw [hs1] at hx ⊢
      simp only [pact, hx, actEntity, hk', Bool.not_true, Bool.false_eq_true, if_false, refName_lit S.s, hval, setSh_self]
      have hd : (s1.setDecl fun e => { e with text := some v }).decl = l.map fun q => (q.1, q.2.1) := by
        rw [(m'.set _).decl]; cases l <;> rfl
      rw [hd]
      cases l with
      | none => exact ⟨_, rfl⟩
      | some q =>
        simp only [Option.map_some, sayValue]
        cases k.c.entityDecl <;> exact ⟨_, rfl⟩
  · have hl : l = none := by
      cases l with
      | none => rfl
      | some q => exact absurd (m.fresh _ _ _ rfl).2 hk
    subst hl
    refine ⟨s1, m', step S (pt_lit S.s hq hr) (lit_min S.s _ _) rfl hp hfr rfl fun hx => ⟨true, ?_⟩⟩
    rw [hs1]
    have hk' : s1.D.keep = false := by rw [m'.keep]; simpa using hk
    simp only [pact, actEntity, hk', Bool.not_false, if_true]
    rfl

theorem pub_ok (S : XSupported k.x k.asc) {q : UInt8} {cs : List UInt8}
    (hc : ∀ d ∈ cs, C37.PubidChar d = true) :
    isPublicId k.x.e (litText k.asc q (cs.map k.asc)) = none ∧ pubNorm (converted k.x (spell k.asc cs)) = C37.normal cs := by
  constructor
  · refine (C37.legal_iff S.s q _ ?_).2 ⟨cs, hc, rfl⟩
    exact ⟨_, spell_len S.s cs⟩
  · rw [C19.converted_ascii S cs fun d hd => C37.pubid_ascii d (hc d hd), pubNorm]
    obtain ⟨m, h4, h5⟩ := C37.normalize_spec cs [] (fun h => by have := hc 0 h; revert this; decide)
    rw [h4]
    exact h5

/-- The handlers of the external identifier of an entity. -/
def extH (p : Bool) : Hd × Hd × Hd × Hd := if p then (.entity7, .entity8, .entity9, .entity10) else (.entity2, .entity3, .entity4, .entity5)

theorem ent_kw (S : XSupported k.x k.asc) (m : Mid F (extH p).1 D l s) {kw : List UInt8} {h' : Hd}
    (hk : (kw, h') = (kwSYSTEM, (extH p).2.2.1) ∨ (kw, h') = (kwPUBLIC, (extH p).2.1)) {sp : List UInt8} (hsp : White sp) {r : Buf} (hr : r ≠ []) :
    Mid F h' D l (s.withP { s.el.p with h := h' }) ∧ R s (spell k.asc kw ++ (spell k.asc sp ++ r)) [] (s.withP { s.el.p with h := h' }) r := by
  have hu : kw ≠ [] ∧ kw.all isUpper = true ∧ h'.spacy = true := by
    cases p <;> rcases hk with h | h <;> cases h <;> exact ⟨by decide, by decide, rfl⟩
  refine ⟨m.go h', (quiet_tok (role := .ENTITY_NONE) S (pt_kw S.s hu.1 hu.2.1 (hsp.nextName r)) (spell_min S.s hu.1) rfl ?_ rfl).then
    ((m.go h').at_.white S hu.2.2 hsp.2 hr)⟩
  have hm {b : List UInt8} (hb : b.all isUpper = true) := matches_kw S.s kw hb
  have mh := m.at_.h
  cases p <;> rcases hk with h | h <;> cases h <;>
    (simp only [extH] at mh
     simp [PState.next, PState.handle, mh, entity2, entity7, PState.go, hm (b := kwSYSTEM) (by decide), hm (b := kwPUBLIC) (by decide), extH])
  all_goals rfl

def setPub (v : Buf) (e : Entity) : Entity := { e with publicId := some v }
def setSys (k : Ctx) (v : Buf) (e : Entity) : Entity := { e with systemId := some v, base := k.c.base }

theorem Mid.some_keep (m : Mid F h D l s) : (s.D.keep && s.decl.isSome) = l.isSome := by
  rw [m.decl, m.keep]
  cases l with
  | none => simp
  | some q => simp [(m.fresh _ _ _ rfl).2]

theorem ent_pub1 (S : XSupported k.x k.asc) (m : Mid F (extH p).2.1 D l s) {q : UInt8} {cs : List UInt8}
    (hq : Quoted k.x.e k.asc q (cs.map k.asc)) (hc : ∀ d ∈ cs, C37.PubidChar d = true) {r : Buf} (hr : NextIn k.asc afterLit r) :
    ∃ s', Mid F (extH p).2.2.1 D (setL l (setPub (C37.normal cs))) s' ∧ R s (litText k.asc q (cs.map k.asc) ++ r) [] s' r := by
  have hp : s.el.p.next k.x.e .LITERAL (litText k.asc q (cs.map k.asc)) = ({ s.el.p with h := (extH p).2.2.1 }, .ENTITY_PUBLIC_ID) := by
    have mh := m.at_.h
    cases p <;> simp only [extH] at mh <;> simp [PState.next, PState.handle, mh, entity3, entity8, PState.go, extH]
  have m' := m.go (extH p).2.2.1
  generalize hs1 : s.withP { s.el.p with h := (extH p).2.2.1 } = s1 at m'
  have hfr : frame s1 = frame s := by rw [← hs1]; rfl
  have hpub := pub_ok (q := q) S hc
  refine ⟨s1.setDecl (setPub (C37.normal cs)), m'.set _, step S (pt_lit S.s hq hr) (lit_min S.s _ _) rfl hp
    ((frame_setDecl _ _).trans hfr) rfl fun hx => ?_⟩
  rw [hs1] at hx ⊢
  simp only [pact, hx, actEntity, hpub.1, refName_lit S.s, Option.isSome_none, Bool.false_eq_true, if_false, m'.some_keep]
  rw [show (cs.map k.asc).flatten = spell k.asc cs from rfl, hpub.2]
  cases l with
  | none =>
    have : s1.setDecl (setPub (C37.normal cs)) = s1 := by rw [DState.setDecl, m'.decl]; rfl
    rw [this]
    exact ⟨_, rfl⟩
  | some q => exact ⟨_, rfl⟩

theorem ent_pub (S : XSupported k.x k.asc) (m : Mid F (extH p).2.1 D l s) {q : UInt8} {cs : List UInt8}
    (hq : Quoted k.x.e k.asc q (cs.map k.asc)) (hc : ∀ d ∈ cs, C37.PubidChar d = true) {sp : List UInt8} (hsp : White sp)
    {r : Buf} (hr : r ≠ []) :
    ∃ s', Mid F (extH p).2.2.1 D (setL l (setPub (C37.normal cs))) s' ∧
      R s (litText k.asc q (cs.map k.asc) ++ (spell k.asc sp ++ r)) [] s' r := by
  obtain ⟨s', h1, h2⟩ := ent_pub1 (ext := ext) (fuel := fuel) (expand := expand) (between := between) (allowClose := allowClose) (more := more)
    S m hq hc (hsp.nextLit r)
  refine ⟨s', h1, h2.then (h1.at_.white S ?_ hsp.2 hr)⟩
  cases p <;> rfl

theorem ent_sys (S : XSupported k.x k.asc) (m : Mid F (extH p).2.2.1 D l s) {q : UInt8} {ws : List Buf}
    (hq : Quoted k.x.e k.asc q ws) {r : Buf} (hr : NextIn k.asc afterLit r) :
    ∃ s', Mid F (extH p).2.2.2 D (setL l (setSys k (converted k.x ws.flatten))) s' ∧ R s (litText k.asc q ws ++ r) [] s' r := by
  have hp : s.el.p.next k.x.e .LITERAL (litText k.asc q ws) = ({ s.el.p with h := (extH p).2.2.2 }, .ENTITY_SYSTEM_ID) := by
    have mh := m.at_.h
    cases p <;> simp only [extH] at mh <;> simp [PState.next, PState.handle, mh, entity4, entity9, PState.go, extH]
  have m' := m.go (extH p).2.2.2
  generalize hs1 : s.withP { s.el.p with h := (extH p).2.2.2 } = s1 at m'
  have hfr : frame s1 = frame s := by rw [← hs1]; rfl
  refine ⟨s1.setDecl (setSys k (converted k.x ws.flatten)), m'.set _, step S (pt_lit S.s hq hr) (lit_min S.s _ _) rfl hp
    ((frame_setDecl _ _).trans hfr) rfl fun hx => ?_⟩
  rw [hs1] at hx ⊢
  simp only [pact, hx, actEntity, refName_lit S.s, m'.some_keep]
  cases l with
  | none =>
    have : s1.setDecl (setSys k (converted k.x ws.flatten)) = s1 := by rw [DState.setDecl, m'.decl]; rfl
    rw [this]
    exact ⟨_, rfl⟩
  | some q => exact ⟨_, rfl⟩

/-- The external identifier of an entity. -/
theorem ent_external (S : XSupported k.x k.asc) (m : Mid F (extH p).1 D l s) {w : Buf} {pub : Option Buf} {sys : Buf}
    (hw : ExternalID k.x k.asc w pub sys) {r : Buf} (hr : NextIn k.asc afterLit r) :
    ∃ f s', f (newEnt k) = (EntityDef.external pub sys).entity k ∧ Mid F (extH p).2.2.2 D (setL l f) s' ∧ R s (w ++ r) [] s' r := by
  cases hw with
  | system sp q ws h1 h2 =>
    simp only [List.append_assoc]
    obtain ⟨m1, r1⟩ := ent_kw (ext := ext) (fuel := fuel) (expand := expand) (between := between) (allowClose := allowClose) (more := more)
      S m (.inl rfl) h1 (lit_ne S q ws r)
    obtain ⟨s', m2, r2⟩ := ent_sys (ext := ext) (fuel := fuel) (expand := expand) (between := between) (allowClose := allowClose) (more := more)
      S m1 h2 hr
    exact ⟨_, s', rfl, m2, r1.then r2⟩
  | pub sp1 q1 cs sp2 q2 ws h1 h2 h3 h4 h5 =>
    simp only [List.append_assoc]
    obtain ⟨m1, r1⟩ := ent_kw (ext := ext) (fuel := fuel) (expand := expand) (between := between) (allowClose := allowClose) (more := more)
      S m (.inr rfl) h1 (lit_ne S q1 (cs.map k.asc) (spell k.asc sp2 ++ (litText k.asc q2 ws ++ r)))
    obtain ⟨s2, m2, r2⟩ := ent_pub (ext := ext) (fuel := fuel) (expand := expand) (between := between) (allowClose := allowClose) (more := more)
      S m1 h2 h3 h4 (lit_ne S q2 ws r)
    obtain ⟨s3, m3, r3⟩ := ent_sys (ext := ext) (fuel := fuel) (expand := expand) (between := between) (allowClose := allowClose) (more := more)
      S m2 h5 hr
    refine ⟨fun e => setSys k (converted k.x ws.flatten) (setPub (C37.normal cs) e), s3, rfl, ?_, r1.then (r2.then r3)⟩
    have : setL l (fun e => setSys k (converted k.x ws.flatten) (setPub (C37.normal cs) e)) =
      setL (setL l (setPub (C37.normal cs))) (setSys k (converted k.x ws.flatten)) := by cases l <;> rfl
    rw [this]
    exact m3

/-- The closing bracket after an external identifier. -/
def sayExternal (k : Ctx) : Option (Bool × Buf × Entity) → List PEv
  | none => []
  | some (p, n, e) => if k.c.entityDecl then [.entityDecl n p none e.base e.systemId e.publicId none] else []

theorem ent_complete (S : XSupported k.x k.asc) (m : Mid F (extH p).2.2.2 D l s) {sp : List UInt8} (hsp : AllWS sp) (r : Buf) :
    ∃ s', At F (home F.doc) (withEnt D l) s' ∧ R s (spell k.asc sp ++ (k.asc 0x3E ++ r)) (sayExternal k l) s' r := by
  have hd : s.el.p.documentEntity = F.doc := congrArg Frame.doc m.at_.frame
  have m' := m.go (home F.doc)
  have hp : s.el.p.next k.x.e .DECL_CLOSE (k.asc 0x3E) = ({ s.el.p with h := home F.doc }, .ENTITY_COMPLETE) := by
    have mh := m.at_.h
    cases p <;> simp only [extH] at mh <;> simp [PState.next, PState.handle, mh, entity5, entity10, PState.top, hd, home]
  generalize hs1 : s.withP { s.el.p with h := home F.doc } = s1 at m'
  have hfr : frame s1 = frame s := by rw [← hs1]; rfl
  refine ⟨s1, m'.at_, (m.at_.white S (by cases p <;> rfl) hsp (asc_ne S _ _)).then (step (t := .DECL_CLOSE) S ?_ ?_ rfl hp hfr ?_ fun hx => ?_)⟩
  · rw [pt_gt S.s, S.s.asc.len]
  · rw [S.s.asc.len]; exact Nat.le_refl _
  · cases l with
    | none => rfl
    | some q => simp only [sayExternal]; split <;> rfl
  · rw [hs1]
    simp only [pact, actEntity, m'.ent]
    cases l with
    | none => exact ⟨_, rfl⟩
    | some q =>
      have hk := m'.keep
      rw [(m'.fresh _ _ _ rfl).2] at hk
      simp only [hk, Bool.true_and, sayExternal]
      cases k.c.entityDecl <;> exact ⟨_, rfl⟩

/-- `NDATA name` -/
def sayUnparsed (k : Ctx) (nt : Buf) : Option (Bool × Buf × Entity) → List PEv
  | none => []
  | some (_, n, e) =>
    if k.c.unparsed then [.unparsed n e.base e.systemId e.publicId (some nt)]
    else if k.c.entityDecl then [.entityDecl n false none e.base e.systemId e.publicId (some nt)] else []

theorem ent_ndata (S : XSupported k.x k.asc) (m : Mid F .entity5 D l s) {sp1 sp2 : List UInt8} (hs1 : White sp1) (hs2 : White sp2)
    {name : List Buf} (hn : k.x.e.Name name) {r : Buf} (hr : NextIn k.asc afterName r) :
    ∃ s', Mid F .declClose D (setL l fun e => { e with notation_ := some (converted k.x name.flatten) }) s' ∧
      R s (spell k.asc sp1 ++ (spell k.asc kwNDATA ++ (spell k.asc sp2 ++ (name.flatten ++ r)))) (sayUnparsed k (converted k.x name.flatten) l) s' r := by
  have r1 : R s (spell k.asc sp1 ++ (spell k.asc kwNDATA ++ (spell k.asc sp2 ++ (name.flatten ++ r)))) [] s _ :=
    m.at_.white S rfl hs1.2 (kw_ne S (by decide) _)
  have m1 := m.go .entity6
  have r2 : R s (spell k.asc kwNDATA ++ (spell k.asc sp2 ++ (name.flatten ++ r))) [] (s.withP { s.el.p with h := .entity6 }) (spell k.asc sp2 ++ (name.flatten ++ r)) := by
    refine quiet_tok (t := .NAME) (role := .ENTITY_NONE) S (pt_kw S.s (by decide) (by decide) (hs2.nextName _)) (spell_min S.s (by decide)) rfl ?_ rfl
    simp [PState.next, PState.handle, m.at_.h, entity5, PState.go, matches_kw S.s kwNDATA (b := kwNDATA) (by decide)]
  have r3 := m1.at_.white (c := k.c) (ext := ext) (fuel := fuel) (expand := expand) (internal := k.internal) (between := between) (allowClose := allowClose)
    (more := more) (opened := k.opened) S rfl hs2.2 (name_ne S hn r)
  have m2 := m1.close (n := .ENTITY_NONE) rfl
  generalize hq1 : s.withP { s.el.p with h := .entity6 } = s1 at m1 m2 r2 r3
  generalize hq2 : s1.withP { s1.el.p with h := .declClose, roleNone := .ENTITY_NONE } = s2 at m2
  have hfr : frame s2 = frame s1 := by rw [← hq2]; rfl
  have hp : s1.el.p.next k.x.e .NAME name.flatten = ({ s1.el.p with h := .declClose, roleNone := .ENTITY_NONE }, .ENTITY_NOTATION_NAME) := by
    simp [PState.next, PState.handle, m1.at_.h, entity6, PState.close]
  have m3 := m2.set fun e => { e with notation_ := some (converted k.x name.flatten) }
  refine ⟨_, m3, r1.then (r2.then (r3.then (step S (pt_name S.s hn hr) (name_min S.s hn) rfl hp ((frame_setDecl _ _).trans hfr) ?_ fun hx => ?_)))⟩
  · cases l with
    | none => rfl
    | some q => simp only [sayUnparsed]; (repeat' split) <;> rfl
  · rw [hq2] at hx ⊢
    cases l with
    | none =>
      have hd : s2.decl = none := m2.decl
      have h1 : ∀ f, s2.setDecl f = s2 := fun f => by rw [DState.setDecl, hd]
      have h2 : s2.declEnt = none := by rw [DState.declEnt, hd]
      simp only [pact, actEntity, h1, h2]
      cases s2.D.keep <;> exact ⟨_, rfl⟩
    | some q =>
      have hk := m2.keep
      rw [(m2.fresh _ _ _ rfl).2] at hk
      simp only [pact, actEntity, hk, if_true, hx, m3.ent, setL, Option.map_some, sayUnparsed]
      cases k.c.unparsed
      · cases k.c.entityDecl <;> exact ⟨_, rfl⟩
      · exact ⟨_, rfl⟩

/-- The calls for what is said about an entity. -/
def sayDef (k : Ctx) (d : EntityDef) : Option (Bool × Buf × Entity) → List PEv
  | none => []
  | some (p, n, _) => d.report k p n

/-- From the name of an entity to the end of its declaration. -/
theorem ent_def (S : XSupported k.x k.asc) (hi : IntOk k) (hf : D.par.length < fuel) (m : Mid F (extH p).1 D l s)
    (hl : ∀ q, l = some q → q.1 = p ∧ q.2.2 = newEnt k)
    {w : Buf} {d : EntityDef} (hw : EntityDefText k D p w d) {sp : List UInt8} (hsp : AllWS sp) (r : Buf) :
    ∃ s', At F (home F.doc) (withEnt D (setL l fun _ => d.entity k)) s' ∧
      R s (w ++ (spell k.asc sp ++ (k.asc 0x3E ++ r))) (sayDef k d l) s' r := by
  cases hw with
  | value _ q ws v h1 h2 =>
    obtain ⟨s1, m1, r1⟩ := ent_value (ext := ext) (fuel := fuel) (expand := expand) (between := between) (allowClose := allowClose) (more := more)
      (r := spell k.asc sp ++ (k.asc 0x3E ++ r)) S hi m (by cases p <;> simp [extH]) h1 h2 hf (maybe_next ws_afterLit (by decide) hsp r)
    obtain ⟨s2, a2, r2⟩ := m1.at_.end (c := k.c) (ext := ext) (fuel := fuel) (expand := expand) (internal := k.internal) (between := between) (allowClose := allowClose)
      (more := more) (opened := k.opened) S hsp r
    refine ⟨s2, ?_, ?_⟩
    · have : (setL l fun e => { e with text := some v }) = setL l fun _ => (EntityDef.value v).entity k := by
        cases l with
        | none => rfl
        | some q => obtain ⟨-, h⟩ := hl q rfl; simp only [setL, Option.map_some, h]; rfl
      rw [← this]; exact a2
    · have : sayDef k (.value v) l = sayValue k l v ++ [] := by
        cases l <;> simp [sayDef, sayValue, EntityDef.report]
      rw [this]
      exact r1.trans r2
  | external _ _ pub sys h1 =>
    obtain ⟨f, s1, hfe, m1, r1⟩ := ent_external (ext := ext) (fuel := fuel) (expand := expand) (between := between) (allowClose := allowClose) (more := more)
      (r := spell k.asc sp ++ (k.asc 0x3E ++ r)) S m h1 (maybe_next ws_afterLit (by decide) hsp r)
    obtain ⟨s2, a2, r2⟩ := ent_complete (ext := ext) (fuel := fuel) (expand := expand) (between := between) (allowClose := allowClose) (more := more)
      S m1 hsp r
    have : setL l f = setL l fun _ => (EntityDef.external pub sys).entity k := by
      cases l with
      | none => rfl
      | some q => obtain ⟨-, h⟩ := hl q rfl; simp only [setL, Option.map_some, h, hfe]
    rw [this] at a2 r2
    refine ⟨s2, a2, ?_⟩
    have : sayDef k (.external pub sys) l = [] ++ sayExternal k (setL l fun _ => (EntityDef.external pub sys).entity k) := by
      cases l <;> simp [sayDef, sayExternal, EntityDef.report, setL, EntityDef.entity]
    rw [this]
    exact r1.trans r2
  | unparsed w pub sys sp1 sp2 name h1 h2 h3 h4 =>
    simp only [List.append_assoc]
    obtain ⟨f, s1, hfe, m1, r1⟩ := ent_external (p := false) (ext := ext) (fuel := fuel) (expand := expand) (between := between) (allowClose := allowClose) (more := more)
      (r := spell k.asc sp1 ++ (spell k.asc kwNDATA ++ (spell k.asc sp2 ++ (name.flatten ++ (spell k.asc sp ++ (k.asc 0x3E ++ r))))))
      S m h1 (h2.nextLit _)
    obtain ⟨s2, m2, r2⟩ := ent_ndata (ext := ext) (fuel := fuel) (expand := expand) (between := between) (allowClose := allowClose) (more := more)
      (r := spell k.asc sp ++ (k.asc 0x3E ++ r)) S m1 h2 h3 h4 (maybe_next ws_afterName (by decide) hsp r)
    obtain ⟨s3, a3, r3⟩ := m2.at_.end (c := k.c) (ext := ext) (fuel := fuel) (expand := expand) (internal := k.internal) (between := between) (allowClose := allowClose)
      (more := more) (opened := k.opened) S hsp r
    refine ⟨s3, ?_, ?_⟩
    · have : (setL (setL l f) fun e => { e with notation_ := some (converted k.x name.flatten) }) =
          setL l fun _ => (EntityDef.unparsed pub sys (converted k.x name.flatten)).entity k := by
        cases l with
        | none => rfl
        | some q => obtain ⟨-, h⟩ := hl q rfl; simp only [setL, Option.map_some, h, hfe]; rfl
      rw [← this]; exact a3
    · have : sayDef k (.unparsed pub sys (converted k.x name.flatten)) l =
          [] ++ (sayUnparsed k (converted k.x name.flatten) (setL l f) ++ []) := by
        cases l with
        | none => rfl
        | some q =>
          obtain ⟨hp, h⟩ := hl q rfl
          simp [sayDef, sayUnparsed, EntityDef.report, setL, h, hfe, EntityDef.entity, hp]
      rw [this]
      exact r1.trans (r2.trans r3)

theorem Named.fields {name : Buf} (h : Named k D p name l) : ∀ q, l = some q → q.1 = p ∧ q.2.2 = newEnt k := by
  intro q hq
  rcases h with ⟨-, h⟩ | ⟨-, h⟩ <;> rw [h] at hq <;> cases hq
  exact ⟨rfl, rfl⟩

theorem run_entity (S : XSupported k.x k.asc) (hi : IntOk k) (hf : D.par.length < fuel) (a : At F (home F.doc) D s)
    {sp1 sp2 sp3 : List UInt8} {name : List Buf} {w : Buf} {d : EntityDef}
    (h1 : White sp1) (h2 : k.x.e.Name name) (h3 : White sp2) (h4 : EntityDefText k D false w d) (h5 : AllWS sp3)
    {E : List PEv} {D' : DTab}
    (h6 : Counts k D false name.flatten → E = d.report k false (converted k.x name.flatten) ∧
      D' = addEntity D false (converted k.x name.flatten) (d.entity k))
    (h7 : ¬ Counts k D false name.flatten → E = [] ∧ D' = D) (r : Buf) :
    ∃ s', At F (home F.doc) D' s' ∧ R s (declOpen k.asc kwENTITY ++ (spell k.asc sp1 ++ (name.flatten ++ (spell k.asc sp2 ++ (w ++
        (spell k.asc sp3 ++ (k.asc 0x3E ++ r))))))) E s' r := by
  have r0 := a.open (c := k.c) (ext := ext) (fuel := fuel) (expand := expand) (internal := k.internal) (between := between) (allowClose := allowClose)
    (more := more) (opened := k.opened) (kw := kwENTITY) (h' := .entity0) (r := name.flatten ++ (spell k.asc sp2 ++ (w ++
        (spell k.asc sp3 ++ (k.asc 0x3E ++ r))))) S (by simp) h1 (name_ne S h2 _)
  obtain ⟨l, s2, m2, r2, hl⟩ := entity_name (ext := ext) (fuel := fuel) (expand := expand) (between := between) (allowClose := allowClose) (more := more)
    (r := spell k.asc sp2 ++ (w ++ (spell k.asc sp3 ++ (k.asc 0x3E ++ r)))) S (a.go .entity0) h2 (h3.nextName _)
  have hne : w ++ (spell k.asc sp3 ++ (k.asc 0x3E ++ r)) ≠ [] := by
    intro h
    have h := (List.append_eq_nil_iff.1 (List.append_eq_nil_iff.1 h).2).2
    exact asc_ne S _ _ h
  have r3 := m2.at_.white (c := k.c) (ext := ext) (fuel := fuel) (expand := expand) (internal := k.internal) (between := between) (allowClose := allowClose)
    (more := more) (opened := k.opened) S rfl h3.2 hne
  obtain ⟨s4, a4, r4⟩ := ent_def (p := false) (ext := ext) (fuel := fuel) (expand := expand) (between := between) (allowClose := allowClose) (more := more)
    S hi hf m2 hl.fields h4 h5 r
  rcases hl with ⟨hc, rfl⟩ | ⟨hc, rfl⟩
  · obtain ⟨rfl, rfl⟩ := h6 hc
    exact ⟨s4, a4, r0.then (r2.then (r3.then r4))⟩
  · obtain ⟨rfl, rfl⟩ := h7 hc
    exact ⟨s4, a4, r0.then (r2.then (r3.then r4))⟩

theorem run_param (S : XSupported k.x k.asc) (hi : IntOk k) (hf : D.par.length < fuel) (a : At F (home F.doc) D s)
    {sp0 sp1 sp2 sp3 : List UInt8} {name : List Buf} {w : Buf} {d : EntityDef} (h0 : White sp0)
    (h1 : White sp1) (h2 : k.x.e.Name name) (h3 : White sp2) (h4 : EntityDefText k D true w d) (h5 : AllWS sp3)
    {E : List PEv} {D' : DTab}
    (h6 : Counts k D true name.flatten → E = d.report k true (converted k.x name.flatten) ∧
      D' = addEntity D true (converted k.x name.flatten) (d.entity k))
    (h7 : ¬ Counts k D true name.flatten → E = [] ∧ D' = D) (r : Buf) :
    ∃ s', At F (home F.doc) D' s' ∧ R s (declOpen k.asc kwENTITY ++ (spell k.asc sp0 ++ (k.asc 0x25 ++ (spell k.asc sp1 ++ (name.flatten ++
        (spell k.asc sp2 ++ (w ++ (spell k.asc sp3 ++ (k.asc 0x3E ++ r))))))))) E s' r := by
  have r0 := a.open (c := k.c) (ext := ext) (fuel := fuel) (expand := expand) (internal := k.internal) (between := between) (allowClose := allowClose)
    (more := more) (opened := k.opened) (kw := kwENTITY) (h' := .entity0) (r := k.asc 0x25 ++ (spell k.asc sp1 ++ (name.flatten ++ (spell k.asc sp2 ++ (w ++
        (spell k.asc sp3 ++ (k.asc 0x3E ++ r))))))) S (by simp) h0 (asc_ne S _ _)
  have a0 := a.go .entity0
  generalize hs0 : s.withP { s.el.p with h := .entity0 } = s0 at r0 a0
  have a1 := a0.go .entity1
  have hp : s0.el.p.next k.x.e .PERCENT (k.asc 0x25) = ({ s0.el.p with h := .entity1 }, .ENTITY_NONE) := by
    simp [PState.next, PState.handle, a0.h, entity0, PState.go]
  have r1 : R s0 (k.asc 0x25 ++ (spell k.asc sp1 ++ (name.flatten ++ (spell k.asc sp2 ++ (w ++
        (spell k.asc sp3 ++ (k.asc 0x3E ++ r))))))) [] (s0.withP { s0.el.p with h := .entity1 }) (spell k.asc sp1 ++ (name.flatten ++ (spell k.asc sp2 ++ (w ++
        (spell k.asc sp3 ++ (k.asc 0x3E ++ r)))))) := by
    refine quiet_tok (t := .PERCENT) (role := .ENTITY_NONE) S ?_ ?_ rfl hp rfl
    · rw [pt_percent S.s (h1.next _), S.s.asc.len]
    · rw [S.s.asc.len]; exact Nat.le_refl _
  have r1' := a1.white (c := k.c) (ext := ext) (fuel := fuel) (expand := expand) (internal := k.internal) (between := between) (allowClose := allowClose)
    (more := more) (opened := k.opened) S rfl h1.2 (name_ne S h2 (spell k.asc sp2 ++ (w ++ (spell k.asc sp3 ++ (k.asc 0x3E ++ r)))))
  obtain ⟨l, s2, m2, r2, hl⟩ := param_name (ext := ext) (fuel := fuel) (expand := expand) (between := between) (allowClose := allowClose) (more := more)
    (r := spell k.asc sp2 ++ (w ++ (spell k.asc sp3 ++ (k.asc 0x3E ++ r)))) S a1 h2 (h3.nextName _)
  have hne : w ++ (spell k.asc sp3 ++ (k.asc 0x3E ++ r)) ≠ [] := by
    intro h
    have h := (List.append_eq_nil_iff.1 (List.append_eq_nil_iff.1 h).2).2
    exact asc_ne S _ _ h
  have r3 := m2.at_.white (c := k.c) (ext := ext) (fuel := fuel) (expand := expand) (internal := k.internal) (between := between) (allowClose := allowClose)
    (more := more) (opened := k.opened) S rfl h3.2 hne
  obtain ⟨s4, a4, r4⟩ := ent_def (p := true) (ext := ext) (fuel := fuel) (expand := expand) (between := between) (allowClose := allowClose) (more := more)
    S hi hf m2 hl.fields h4 h5 r
  rcases hl with ⟨hc, rfl⟩ | ⟨hc, rfl⟩
  · obtain ⟨rfl, rfl⟩ := h6 hc
    exact ⟨s4, a4, r0.then (r1.then (r1'.then (r2.then (r3.then r4))))⟩
  · obtain ⟨rfl, rfl⟩ := h7 hc
    exact ⟨s4, a4, r0.then (r1.then (r1'.then (r2.then (r3.then r4))))⟩

/-! ### Notations -/

/-- The name of a notation being declared, and its public identifier. -/
structure Noting (F : Frame) (h : Hd) (D : DTab) (n pub : Option Buf) (s : DState) : Prop where
  at_ : At F h D s
  name : s.nName = n
  pub_ : s.nPub = pub

theorem Noting.go {n pub : Option Buf} (m : Noting F h D n pub s) (h' : Hd) : Noting F h' D n pub (s.withP { s.el.p with h := h' }) :=
  ⟨m.at_.go h', m.name, m.pub_⟩

/-- The name of a notation as it is kept. -/
def noteName (k : Ctx) (v : Buf) : Option Buf := if k.c.notationDecl then some v else none

theorem note_name (S : XSupported k.x k.asc) (a : At F .notation0 D s) {name : List Buf} (hn : k.x.e.Name name) {r : Buf}
    (hr : NextIn k.asc afterName r) :
    ∃ s', Noting F .notation1 D (noteName k (converted k.x name.flatten)) none s' ∧ R s (name.flatten ++ r) [] s' r := by
  have hp : s.el.p.next k.x.e .NAME name.flatten = ({ s.el.p with h := .notation1 }, .NOTATION_NAME) := by
    simp [PState.next, PState.handle, a.h, notation0, PState.go]
  have b := a.go .notation1
  generalize hs1 : s.withP { s.el.p with h := .notation1 } = s1 at b
  have hfr : frame s1 = frame s := by rw [← hs1]; rfl
  cases hc : k.c.notationDecl with
  | true =>
    refine ⟨{ s1 with nPub := none, nName := some (s1.tmp ++ converted k.x name.flatten), tmp := [] },
      ⟨⟨b.h, b.none_, b.frame, b.D, rfl, b.rest⟩, ?_, rfl⟩, step S (pt_name S.s hn hr) (name_min S.s hn) rfl hp hfr rfl fun hx => ?_⟩
    · simp [noteName, hc, b.tmp]
    · rw [hs1] at hx ⊢
      simp only [pact, actNotation, hx, hc]
      exact ⟨_, rfl⟩
  | false =>
    refine ⟨{ s1 with nPub := none, nName := none },
      ⟨⟨b.h, b.none_, b.frame, b.D, b.tmp, b.rest⟩, ?_, rfl⟩, step S (pt_name S.s hn hr) (name_min S.s hn) rfl hp hfr rfl fun hx => ?_⟩
    · simp [noteName, hc]
    · rw [hs1] at hx ⊢
      simp only [pact, actNotation, hx, hc]
      exact ⟨_, rfl⟩

theorem note_kw {n pub : Option Buf} (S : XSupported k.x k.asc) (m : Noting F .notation1 D n pub s) {kw : List UInt8} {h' : Hd}
    (hk : (kw, h') = (kwSYSTEM, Hd.notation3) ∨ (kw, h') = (kwPUBLIC, Hd.notation2)) {sp : List UInt8} (hsp : White sp)
    {r : Buf} (hr : r ≠ []) :
    ∃ s', Noting F h' D n pub s' ∧ R s (spell k.asc kw ++ (spell k.asc sp ++ r)) [] s' r := by
  have hm {b : List UInt8} (hb : b.all isUpper = true) := matches_kw S.s kw hb
  have m1 := m.go h'
  have hp : s.el.p.next k.x.e .NAME (spell k.asc kw) = ({ s.el.p with h := h' }, .NOTATION_NONE) := by
    rcases hk with hk | hk <;> cases hk
    · simp [PState.next, PState.handle, m.at_.h, notation1, PState.go, hm (b := kwSYSTEM) (by decide), hm (b := kwPUBLIC) (by decide)]
    · simp only [PState.next, PState.handle, m.at_.h, notation1, hm (b := kwSYSTEM) (by decide), hm (b := kwPUBLIC) (by decide)]
      rfl
  have hu : kw ≠ [] ∧ kw.all isUpper = true := by
    rcases hk with hk | hk <;> cases hk <;> exact ⟨by decide, by decide⟩
  refine ⟨_, m1, (quiet_tok (t := .NAME) (role := .NOTATION_NONE) S (pt_kw S.s hu.1 hu.2 (hsp.nextName _)) (spell_min S.s hu.1) rfl hp rfl).then
    (m1.at_.white S ?_ hsp.2 hr)⟩
  rcases hk with hk | hk <;> cases hk <;> rfl

/-- The calls at the end of a notation declaration. -/
def sayNote (k : Ctx) (name : Buf) (pub sys : Option Buf) : List PEv :=
  if k.c.notationDecl then [.notationDecl (some name) k.c.base sys pub] else []

theorem note_sys {v : Buf} {pub pub' : Option Buf} (S : XSupported k.x k.asc)
    (m : Noting F h D (noteName k v) pub s) (hh : h = .notation3 ∨ h = .notation4) (hpp : k.c.notationDecl = true → pub = pub')
    {q : UInt8} {ws : List Buf} (hq : Quoted k.x.e k.asc q ws) {r : Buf} (hr : NextIn k.asc afterLit r) :
    ∃ s', At F .declClose D s' ∧ R s (litText k.asc q ws ++ r) (sayNote k v pub' (some (converted k.x ws.flatten))) s' r := by
  have hp : s.el.p.next k.x.e .LITERAL (litText k.asc q ws) =
      ({ s.el.p with h := .declClose, roleNone := .NOTATION_NONE }, .NOTATION_SYSTEM_ID) := by
    rcases hh with rfl | rfl <;> simp [PState.next, PState.handle, m.at_.h, notation3, notation4, PState.close]
  have b := m.at_.close (n := .NOTATION_NONE) rfl
  have hn : (s.withP { s.el.p with h := .declClose, roleNone := .NOTATION_NONE }).nName = noteName k v := m.name
  have hpb : (s.withP { s.el.p with h := .declClose, roleNone := .NOTATION_NONE }).nPub = pub := m.pub_
  generalize hs1 : s.withP { s.el.p with h := .declClose, roleNone := .NOTATION_NONE } = s1 at b hn hpb
  have hfr : frame s1 = frame s := by rw [← hs1]; rfl
  refine ⟨{ s1 with tmp := [] }, ⟨b.h, b.none_, b.frame, b.D, rfl, b.rest⟩,
    step S (pt_lit S.s hq hr) (lit_min S.s _ _) rfl hp hfr ?_ fun hx => ?_⟩
  · rw [sayNote]; split <;> rfl
  · rw [hs1] at hx ⊢
    simp only [pact, actNotation, hx, hn, refName_lit S.s, hpb, b.tmp, noteName, sayNote]
    cases hc : k.c.notationDecl with
    | true => rw [hpp hc]; exact ⟨_, rfl⟩
    | false => exact ⟨_, rfl⟩

theorem note_pub {v : Buf} {pub : Option Buf} (S : XSupported k.x k.asc) (m : Noting F .notation2 D (noteName k v) pub s) {q : UInt8} {cs : List UInt8}
    (hq : Quoted k.x.e k.asc q (cs.map k.asc)) (hc : ∀ d ∈ cs, C37.PubidChar d = true) {r : Buf} (hr : NextIn k.asc afterLit r) :
    ∃ s' pub', Noting F .notation4 D (noteName k v) pub' s' ∧ (k.c.notationDecl = true → pub' = some (C37.normal cs)) ∧
      (k.c.notationDecl = false → pub' = pub) ∧
      R s (litText k.asc q (cs.map k.asc) ++ r) [] s' r := by
  have hp : s.el.p.next k.x.e .LITERAL (litText k.asc q (cs.map k.asc)) = ({ s.el.p with h := .notation4 }, .NOTATION_PUBLIC_ID) := by
    simp [PState.next, PState.handle, m.at_.h, notation2, PState.go]
  have m1 := m.go .notation4
  generalize hs1 : s.withP { s.el.p with h := .notation4 } = s1 at m1
  have hfr : frame s1 = frame s := by rw [← hs1]; rfl
  have hpub := pub_ok (q := q) S hc
  have b := m1.at_
  cases hn : k.c.notationDecl with
  | true =>
    refine ⟨{ s1 with nPub := some (C37.normal cs), tmp := [] }, some (C37.normal cs),
      ⟨⟨b.h, b.none_, b.frame, b.D, rfl, b.rest⟩, m1.name, rfl⟩, fun _ => rfl, fun h => (by cases h),
      step S (pt_lit S.s hq hr) (lit_min S.s _ _) rfl hp hfr rfl fun hx => ?_⟩
    rw [hs1] at hx ⊢
    simp only [pact, actNotation, hx, hpub.1, refName_lit S.s, m1.name, b.tmp, List.nil_append, noteName, hn, if_true]
    rw [show (cs.map k.asc).flatten = spell k.asc cs from rfl, hpub.2]
    exact ⟨_, rfl⟩
  | false =>
    refine ⟨s1, pub, m1, fun h => (by cases h), fun _ => rfl, step S (pt_lit S.s hq hr) (lit_min S.s _ _) rfl hp hfr rfl fun hx => ?_⟩
    rw [hs1] at hx ⊢
    simp only [pact, actNotation, hx, hpub.1, m1.name, noteName, hn]
    exact ⟨_, rfl⟩

/-- The closing bracket after a public identifier. -/
theorem note_end {v : Buf} {pub : Option Buf} {pv : Buf} (S : XSupported k.x k.asc) (m : Noting F .notation4 D (noteName k v) pub s)
    (hpp : k.c.notationDecl = true → pub = some pv) {sp : List UInt8} (hsp : AllWS sp) (r : Buf) :
    ∃ s', At F (home F.doc) D s' ∧ R s (spell k.asc sp ++ (k.asc 0x3E ++ r)) (sayNote k v (some pv) none) s' r := by
  have hd : s.el.p.documentEntity = F.doc := congrArg Frame.doc m.at_.frame
  have m' := m.go (home F.doc)
  have hp : s.el.p.next k.x.e .DECL_CLOSE (k.asc 0x3E) = ({ s.el.p with h := home F.doc }, .NOTATION_NO_SYSTEM_ID) := by
    simp [PState.next, PState.handle, m.at_.h, notation4, PState.top, hd, home]
  generalize hs1 : s.withP { s.el.p with h := home F.doc } = s1 at m'
  have hfr : frame s1 = frame s := by rw [← hs1]; rfl
  have b := m'.at_
  refine ⟨{ s1 with tmp := [] }, ⟨b.h, b.none_, b.frame, b.D, rfl, b.rest⟩,
    (m.at_.white S rfl hsp (asc_ne S _ _)).then (step (t := .DECL_CLOSE) S ?_ ?_ rfl hp hfr ?_ fun hx => ?_)⟩
  · rw [pt_gt S.s, S.s.asc.len]
  · rw [S.s.asc.len]; exact Nat.le_refl _
  · rw [sayNote]; split <;> rfl
  · rw [hs1] at hx ⊢
    simp only [pact, actNotation, hx, m'.name, m'.pub_, noteName, sayNote]
    cases hc : k.c.notationDecl with
    | true => rw [hpp hc]; exact ⟨_, rfl⟩
    | false => simp only [Bool.and_false, Bool.false_eq_true, if_false]; exact ⟨_, rfl⟩

theorem run_notation (S : XSupported k.x k.asc) (a : At F (home F.doc) D s) {sp1 sp2 sp3 : List UInt8} {name : List Buf} {w : Buf}
    {pub sys : Option Buf} (h1 : White sp1) (h2 : k.x.e.Name name) (h3 : White sp2) (h4 : NotationID k.x k.asc w pub sys) (h5 : AllWS sp3)
    (r : Buf) :
    ∃ s', At F (home F.doc) D s' ∧ R s (declOpen k.asc kwNOTATION ++ (spell k.asc sp1 ++ (name.flatten ++ (spell k.asc sp2 ++ (w ++
        (spell k.asc sp3 ++ (k.asc 0x3E ++ r))))))) (sayNote k (converted k.x name.flatten) pub sys) s' r := by
  have r0 := a.open (c := k.c) (ext := ext) (fuel := fuel) (expand := expand) (internal := k.internal) (between := between) (allowClose := allowClose)
    (more := more) (opened := k.opened) (kw := kwNOTATION) (h' := .notation0) (r := name.flatten ++ (spell k.asc sp2 ++ (w ++
        (spell k.asc sp3 ++ (k.asc 0x3E ++ r))))) S (by simp) h1 (name_ne S h2 _)
  obtain ⟨s2, m2, r2⟩ := note_name (ext := ext) (fuel := fuel) (expand := expand) (between := between) (allowClose := allowClose) (more := more)
    (r := spell k.asc sp2 ++ (w ++ (spell k.asc sp3 ++ (k.asc 0x3E ++ r)))) S (a.go .notation0) h2 (h3.nextName _)
  have hne : w ++ (spell k.asc sp3 ++ (k.asc 0x3E ++ r)) ≠ [] := by
    intro h
    have h := (List.append_eq_nil_iff.1 (List.append_eq_nil_iff.1 h).2).2
    exact asc_ne S _ _ h
  have r3 := m2.at_.white (c := k.c) (ext := ext) (fuel := fuel) (expand := expand) (internal := k.internal) (between := between) (allowClose := allowClose)
    (more := more) (opened := k.opened) S rfl h3.2 hne
  have hend : NextIn k.asc afterLit (spell k.asc sp3 ++ (k.asc 0x3E ++ r)) := maybe_next ws_afterLit (by decide) h5 r
  suffices h : ∃ s', At F (home F.doc) D s' ∧ R s2 (w ++ (spell k.asc sp3 ++ (k.asc 0x3E ++ r))) (sayNote k (converted k.x name.flatten) pub sys) s' r by
    obtain ⟨s', a', r'⟩ := h
    exact ⟨s', a', r0.then (r2.then (r3.then r'))⟩
  cases h4 with
  | external w pub sys h =>
    cases h with
    | system sp q ws g1 g2 =>
      simp only [List.append_assoc]
      obtain ⟨s4, m4, r4⟩ := note_kw (ext := ext) (fuel := fuel) (expand := expand) (between := between) (allowClose := allowClose) (more := more)
        S m2 (.inl rfl) g1 (lit_ne S q ws (spell k.asc sp3 ++ (k.asc 0x3E ++ r)))
      obtain ⟨s5, a5, r5⟩ := note_sys (ext := ext) (fuel := fuel) (expand := expand) (between := between) (allowClose := allowClose) (more := more)
        S m4 (.inl rfl) (fun _ => rfl) g2 hend
      obtain ⟨s6, a6, r6⟩ := a5.end (c := k.c) (ext := ext) (fuel := fuel) (expand := expand) (internal := k.internal) (between := between) (allowClose := allowClose)
        (more := more) (opened := k.opened) S h5 r
      exact ⟨s6, a6, by simpa using r4.trans (r5.trans r6)⟩
    | pub sp1 q1 cs sp2 q2 ws g1 g2 g3 g4 g5 =>
      simp only [List.append_assoc]
      obtain ⟨s4, m4, r4⟩ := note_kw (ext := ext) (fuel := fuel) (expand := expand) (between := between) (allowClose := allowClose) (more := more)
        S m2 (.inr rfl) g1 (lit_ne S q1 (cs.map k.asc) (spell k.asc sp2 ++ (litText k.asc q2 ws ++ (spell k.asc sp3 ++ (k.asc 0x3E ++ r)))))
      obtain ⟨s5, pub', m5, hp1, -, r5⟩ := note_pub (ext := ext) (fuel := fuel) (expand := expand) (between := between) (allowClose := allowClose) (more := more)
        S m4 g2 g3 (g4.nextLit (litText k.asc q2 ws ++ (spell k.asc sp3 ++ (k.asc 0x3E ++ r))))
      have r5' := m5.at_.white (c := k.c) (ext := ext) (fuel := fuel) (expand := expand) (internal := k.internal) (between := between) (allowClose := allowClose)
        (more := more) (opened := k.opened) S rfl g4.2 (lit_ne S q2 ws (spell k.asc sp3 ++ (k.asc 0x3E ++ r)))
      obtain ⟨s6, a6, r6⟩ := note_sys (ext := ext) (fuel := fuel) (expand := expand) (between := between) (allowClose := allowClose) (more := more)
        S m5 (.inr rfl) hp1 g5 hend
      obtain ⟨s7, a7, r7⟩ := a6.end (c := k.c) (ext := ext) (fuel := fuel) (expand := expand) (internal := k.internal) (between := between) (allowClose := allowClose)
        (more := more) (opened := k.opened) S h5 r
      exact ⟨s7, a7, by simpa using r4.trans (r5.trans (r5'.trans (r6.trans r7)))⟩
  | pubOnly sp q cs g1 g2 g3 =>
    simp only [List.append_assoc]
    obtain ⟨s4, m4, r4⟩ := note_kw (ext := ext) (fuel := fuel) (expand := expand) (between := between) (allowClose := allowClose) (more := more)
      S m2 (.inr rfl) g1 (lit_ne S q (cs.map k.asc) (spell k.asc sp3 ++ (k.asc 0x3E ++ r)))
    obtain ⟨s5, pub', m5, hp1, -, r5⟩ := note_pub (ext := ext) (fuel := fuel) (expand := expand) (between := between) (allowClose := allowClose) (more := more)
      S m4 g2 g3 hend
    obtain ⟨s6, a6, r6⟩ := note_end (ext := ext) (fuel := fuel) (expand := expand) (between := between) (allowClose := allowClose) (more := more)
      S m5 hp1 h5 r
    exact ⟨s6, a6, by simpa using r4.trans (r5.trans r6)⟩

end

end Verif.C59
