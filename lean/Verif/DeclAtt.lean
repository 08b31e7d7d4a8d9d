import Verif.DeclRun

/-! Comments, processing instructions and attribute-list declarations. -/

set_option autoImplicit false

namespace Verif.C59
open C43 C53 Spec Verif PState

section
variable {k : Ctx} {ext : Ext} {fuel : Nat} {expand : Bool → Buf → Buf → DState → Acted}
  {between allowClose more : Bool} {F : Frame} {D : DTab} {s : DState} {h h' : Hd}

local notation "R" => Reach k.c ext fuel expand k.internal between allowClose more k.opened k.x

/-! ### White space, comments, processing instructions -/

theorem home_spacy (d : Bool) : (home d).spacy = true := by cases d <;> rfl

theorem run_space (S : XSupported k.x k.asc) (a : At F (home F.doc) D s) {d : UInt8} (hd : isWS d = true) {r : Buf}
    (hr : r ≠ [] ∨ more = false) : R s (k.asc d ++ r) [] s r := by
  have := Reach.spaces (c := k.c) (ext := ext) (fuel := fuel) (expand := expand) (internal := k.internal) (between := between)
    (allowClose := allowClose) (more := more) (opened := k.opened) (s := s) (b := r) S (by rw [a.h]; exact home_spacy _) a.none_ [d] (by simp [hd]) hr
  simpa [spell] using this

/-- `C14.comment_text` without the pool. -/
theorem comment_value (S : XSupported k.x k.asc) {ws : List Buf} (h : CommentOk k.x.e k.asc ws) :
    ∃ d, normalizeLines (converted k.x (((commentText k.asc ws).drop (4 * k.x.e.mb)).take
      ((commentText k.asc ws).length - 4 * k.x.e.mb - 3 * k.x.e.mb)) ++ [0]) = some d ∧ cstr d = C14.lineEnds (converted k.x ws.flatten) := by
  have h1 := C14.comment_text k.c.c.al S new_inv rfl ws.flatten
  rw [cstr_chars S h.chars, reportComment] at h1
  obtain ⟨q, g1, g2⟩ := C14.store_keeps k.c.c.al S new_inv (((commentText k.asc ws).drop (4 * k.x.e.mb)).take
      ((commentText k.asc ws).length - 4 * k.x.e.mb - 3 * k.x.e.mb))
  rw [commentText] at g1 g2 ⊢
  rw [g1, Option.bind_some, g2.cur] at h1
  simpa [Pool.new, Pool.current, read] using h1

theorem pi_value (S : XSupported k.x k.asc) {target : List Buf} {sp : List UInt8} {ws : List Buf} (h : PiOk k.x.e k.asc target sp ws) :
    ∃ d, normalizeLines (converted k.x ((skipS k.x.e (((piText k.asc target sp ws).drop (2 * k.x.e.mb)).drop
        (nameLength k.x.e ((piText k.asc target sp ws).drop (2 * k.x.e.mb))))).take
      ((skipS k.x.e (((piText k.asc target sp ws).drop (2 * k.x.e.mb)).drop
        (nameLength k.x.e ((piText k.asc target sp ws).drop (2 * k.x.e.mb))))).length - 2 * k.x.e.mb)) ++ [0]) = some d ∧
      cstr d = C14.lineEnds (converted k.x ws.flatten) ∧
      ((piText k.asc target sp ws).drop (2 * k.x.e.mb)).take (nameLength k.x.e ((piText k.asc target sp ws).drop (2 * k.x.e.mb))) =
        target.flatten := by
  have hr : reportPI k.c.c.al k.x Pool.new (piText k.asc target sp ws) =
      some (cstr (converted k.x target.flatten), C14.lineEnds (converted k.x ws.flatten)) := by
    cases sp with
    | nil =>
      have := h.sep rfl
      subst this
      have := C14.pi_bare k.c.c.al S new_inv rfl h.name
      rw [List.flatten_nil, conv_nil S]
      simpa [piText, spell, C14.lineEnds_nil] using this
    | cons d sp =>
      have h1 : AllWS sp := fun c hc => h.space c (by simp [hc])
      have hc : k.x.e.Chars (sp.map k.asc ++ ws) := by
        intro w hw
        rcases List.mem_append.1 hw with hw | hw
        · exact chars_asc_ws S h1 w hw
        · exact h.chars w hw
      have := C14.pi_text k.c.c.al S new_inv rfl h.name (h.space d (by simp)) hc
      rw [drop_spaces S h1 h.chars h.first, cstr_chars S h.chars] at this
      simpa [piText, spell] using this
  have hn : ((piText k.asc target sp ws).drop (2 * k.x.e.mb)).take (nameLength k.x.e ((piText k.asc target sp ws).drop (2 * k.x.e.mb))) =
        target.flatten := by
    have h1 : (piText k.asc target sp ws).drop (2 * k.x.e.mb) = target.flatten ++ (spell k.asc sp ++ (ws.flatten ++ spell k.asc [0x3F, 0x3E])) := by
      rw [piText, List.drop_left']
      rw [spell_len S.s, Nat.mul_comm]; rfl
    rw [h1, C14.nameLength_name S.s.ok S.s.mb h.name, List.take_left]
    cases sp with
    | nil =>
      have := h.sep rfl
      subst this
      refine C14.nameLength_stop (.inl ?_)
      have := asc_bt S.s (c := 0x3F) (t := .QUEST) rfl (k.asc 0x3E)
      simpa [spell] using this
    | cons d sp =>
      refine C14.nameLength_stop (.inr ?_)
      have := sp_bt S.s (h.space d (by simp)) (spell k.asc sp ++ (ws.flatten ++ spell k.asc [0x3F, 0x3E]))
      simpa [spell] using this
  generalize hb : (piText k.asc target sp ws).drop (2 * k.x.e.mb) = b at *
  simp only [reportPI, hb] at hr
  obtain ⟨q, g1, g2⟩ := C14.store_keeps k.c.c.al S new_inv (b.take (nameLength k.x.e b))
  rw [g1, Option.bind_some] at hr
  generalize hd : (skipS k.x.e (b.drop (nameLength k.x.e b))).take ((skipS k.x.e (b.drop (nameLength k.x.e b))).length - 2 * k.x.e.mb) = d at *
  obtain ⟨q2, g3, g4⟩ := C14.store_keeps k.c.c.al S (finish_inv (p := q)) d
  rw [g3, Option.bind_some, g4.cur, show q.finish.current = [] by simp [Pool.finish, Pool.current, read], List.nil_append] at hr
  cases hm : normalizeLines (converted k.x d ++ [0]) with
  | none => rw [hm] at hr; cases hr
  | some m =>
    rw [hm] at hr
    simp only [Option.map_some, Option.some.injEq, Prod.mk.injEq] at hr
    exact ⟨m, rfl, hr.2, hn⟩

/-- Handlers which comments and processing instructions leave as they are. -/
def _root_.Verif.Hd.miscy : Hd → Bool
  | .prolog1 | .prolog2 | .internalSubset | .externalSubset1 => true
  | _ => false

theorem home_miscy (d : Bool) : (home d).miscy = true := by cases d <;> rfl

theorem miscy_next {e : Enc} {p : PState} {t : Tok} (hh : p.h.miscy = true) (ht : t = .COMMENT ∨ t = .PI) (w : Buf) :
    p.next e t w = (p, if t = .PI then .PI else .COMMENT) := by
  obtain ⟨h, lv, rn, il, de, iv⟩ := p
  rcases ht with rfl | rfl <;> cases h <;> first | rfl | (cases hh; done)

/-- A comment or processing instruction. -/
theorem misc_tok {s s' : DState} (S : XSupported k.x k.asc) (a : At F h D s) (hy : h.miscy = true) {t : Tok} {w r : Buf} {role : Role} {E : List PEv} {hd : Bool}
    (ht : t = .COMMENT ∧ role = .COMMENT ∨ t = .PI ∧ role = .PI) (hm : Markup k.x.e k.asc t w) (hw : k.x.e.mb ≤ w.length)
    (hx : s'.x k.c k.internal = s.x k.c k.internal) (hE : heard E = E)
    (ha : s.x k.c k.internal = k.x → pact k.c ext fuel expand k.internal allowClose k.opened s role t w = (E, s', .go hd)) :
    R s (w ++ r) E s' r := by
  have := Reach.tokD (c := k.c) (ext := ext) (fuel := fuel) (expand := expand) (internal := k.internal) (between := between)
    (allowClose := allowClose) (more := more) (opened := k.opened) (r := r) (t := t) (s' := s') (p := s.el.p) (role := role) (E := E) (hd := hd) S
    (fun hdv => (prolog_misc S.s hdv (by rcases ht with ⟨h, -⟩ | ⟨h, -⟩ <;> simp [h])).2 (content_complete S.s hm r hdv)) hw
    (by rcases ht with ⟨h, -⟩ | ⟨h, -⟩ <;> rw [h] <;> rfl)
    (by rw [miscy_next (by rw [a.h]; exact hy) (by rcases ht with ⟨h, -⟩ | ⟨h, -⟩ <;> simp [h])]; rcases ht with ⟨rfl, rfl⟩ | ⟨rfl, rfl⟩ <;> rfl)
    hx ha
  rw [hE] at this
  exact this

theorem run_comment (S : XSupported k.x k.asc) {g : Hd} (a : At F g D s) (hy : g.miscy = true) {ws : List Buf} (h : CommentOk k.x.e k.asc ws) (r : Buf) :
    ∃ s', At F g D s' ∧ s'.decl = s.decl ∧
      R s (commentText k.asc ws ++ r) (if k.c.c.comment then [.ev (.comment (C14.lineEnds (converted k.x ws.flatten)))] else []) s' r := by
  have hm : Markup k.x.e k.asc .COMMENT (commentText k.asc ws) := .comment h.chars h.hyphens
  have hw : k.x.e.mb ≤ (commentText k.asc ws).length := by
    rw [commentText, List.length_append, spell_len S.s]
    simp only [List.length_cons, List.length_nil]; omega
  obtain ⟨d, h1, h2⟩ := comment_value S h
  cases hc : k.c.c.comment with
  | true =>
    refine ⟨{ s with tmp := [] }, ⟨a.h, a.none_, a.frame, a.D, rfl, a.rest⟩, rfl, ?_⟩
    refine misc_tok (hd := false) (s' := { s with tmp := [] }) S a hy (.inl ⟨rfl, rfl⟩) hm hw rfl rfl fun hx => ?_
    simp only [pact, hx, actComment, hc, if_true, a.tmp, List.nil_append, h1, h2]
  | false =>
    refine ⟨s, a, rfl, ?_⟩
    intro hx hdv
    have := Reach.tokD (c := k.c) (ext := ext) (fuel := fuel) (expand := expand) (internal := k.internal) (between := between)
      (allowClose := allowClose) (more := more) (opened := k.opened) (r := r) (t := .COMMENT) (s' := s) (p := s.el.p) (role := .COMMENT)
      (E := (toDefault k.c.c k.x (commentText k.asc ws)).map .ev) (hd := false) S
      (fun hdv => (prolog_misc S.s hdv (.inl rfl)).2 (content_complete S.s hm r hdv)) hw rfl
      (by rw [miscy_next (by rw [a.h]; exact hy) (by simp)]; rfl)
      rfl (fun hx => by
        rw [withP_self]
        simp only [pact, hx, actComment, hc, Bool.false_eq_true, if_false])
    rw [heard_dflt] at this
    exact this hx hdv

theorem run_pi (S : XSupported k.x k.asc) {g : Hd} (a : At F g D s) (hy : g.miscy = true) {target : List Buf} {sp : List UInt8} {ws : List Buf}
    (h : PiOk k.x.e k.asc target sp ws) (r : Buf) :
    ∃ s', At F g D s' ∧ s'.decl = s.decl ∧
      R s (piText k.asc target sp ws ++ r)
        (if k.c.c.pi then [.ev (.pi (cstr (converted k.x target.flatten)) (C14.lineEnds (converted k.x ws.flatten)))] else []) s' r := by
  have hm := pi_markup S h
  have hw : k.x.e.mb ≤ (piText k.asc target sp ws).length := by
    rw [piText, List.length_append, spell_len S.s]
    simp only [List.length_cons, List.length_nil]; omega
  obtain ⟨d, h1, h2, h3⟩ := pi_value S h
  cases hc : k.c.c.pi with
  | true =>
    refine ⟨{ s with tmp := [] }, ⟨a.h, a.none_, a.frame, a.D, rfl, a.rest⟩, rfl, ?_⟩
    refine misc_tok (hd := false) (s' := { s with tmp := [] }) S a hy (.inr ⟨rfl, rfl⟩) hm hw rfl rfl fun hx => ?_
    simp only [pact, hx, actPI, hc, if_true, a.tmp, List.nil_append, h1, h2, h3]
  | false =>
    refine ⟨s, a, rfl, ?_⟩
    intro hx hdv
    have := Reach.tokD (c := k.c) (ext := ext) (fuel := fuel) (expand := expand) (internal := k.internal) (between := between)
      (allowClose := allowClose) (more := more) (opened := k.opened) (r := r) (t := .PI) (s' := s) (p := s.el.p) (role := .PI)
      (E := (toDefault k.c.c k.x (piText k.asc target sp ws)).map .ev) (hd := false) S
      (fun hdv => (prolog_misc S.s hdv (.inr rfl)).2 (content_complete S.s hm r hdv)) hw rfl
      (by rw [miscy_next (by rw [a.h]; exact hy) (by simp)]; rfl)
      rfl (fun hx => by
        rw [withP_self]
        simp only [pact, hx, actPI, hc, Bool.false_eq_true, if_false])
    rw [heard_dflt] at this
    exact this hx hdv

/-! ### Attribute lists -/

variable {elem att : Buf} {cd id : Bool}

/-- Inside a declaration of an attribute. -/
structure Lst (F : Frame) (h : Hd) (D : DTab) (elem att : Buf) (cd id : Bool) (s : DState) : Prop where
  h : s.el.p.h = h
  none_ : s.el.p.roleNone.none_ = true
  frame : frame s = F
  D : s.D = D
  rest : Resting s.el
  elem : s.el.declName = elem
  att : s.att = att
  cdata : s.isCdata = cd
  id : s.isId = id

theorem Lst.go (a : Lst F h D elem att cd id s) (h' : Hd) : Lst F h' D elem att cd id (s.withP { s.el.p with h := h' }) :=
  ⟨rfl, a.none_, a.frame, a.D, ⟨a.rest.eldecl, a.rest.len, a.rest.size⟩, a.elem, a.att, a.cdata, a.id⟩

theorem Lst.white (a : Lst F h D elem att cd id s) (S : XSupported k.x k.asc) (hh : h.spacy = true) {sp : List UInt8} (hsp : AllWS sp) {r : Buf}
    (hr : r ≠ []) : R s (spell k.asc sp ++ r) [] s r :=
  Reach.spaces S (by rw [a.h]; exact hh) a.none_ sp (maybe_all hsp) (.inl hr)

/-- Types are recorded. -/
def recording (k : Ctx) (D : DTab) : Bool := D.keep && k.c.attlistDecl

/-- The type as it would be reported. -/
def typeSeen (s : DState) : Option Buf :=
  match s.ty with
  | .null => none
  | .known t => some (if isEnumType t then s.tmp ++ [0x29] else t)
  | .built => some (if isEnumType s.tmp then s.tmp ++ [0x29] else s.tmp)

def Typed (k : Ctx) (D : DTab) (ty : Buf) (s : DState) : Prop :=
  (recording k D = true → typeSeen s = some ty) ∧ (recording k D = false → s.tmp = [])

/-- An enumeration so far. -/
def Enumd (k : Ctx) (D : DTab) (acc : Option Buf) (s : DState) : Prop :=
  (recording k D = true → (acc = none → s.ty = .null ∧ s.tmp = []) ∧ ∀ t, acc = some t → s.ty = .built ∧ s.tmp = t) ∧
    (recording k D = false → s.tmp = [])

/-- One more member. -/
def enumJoin (pre : Buf) (acc : Option Buf) (v : Buf) : Buf :=
  match acc with
  | none => pre ++ v
  | some t => t ++ [0x7C] ++ v

def enumGrow (x : XEnc) (pre : Buf) : Option Buf → List (List UInt8 × List Buf × List UInt8) → Option Buf
  | acc, [] => acc
  | acc, m :: ms => enumGrow x pre (some (enumJoin pre acc (converted x m.2.1.flatten))) ms

theorem enumGrow_some (x : XEnc) (pre t : Buf) (ms : List (List UInt8 × List Buf × List UInt8)) :
    enumGrow x pre (some t) ms = some (t ++ (ms.map fun m => 0x7C :: converted x m.2.1.flatten).flatten) := by
  induction ms generalizing t with
  | nil => simp [enumGrow]
  | cons m ms ih => rw [enumGrow, ih]; simp [enumJoin]

theorem intercalate_bar (v : Buf) (vs : List Buf) : List.intercalate [0x7C] (v :: vs) = v ++ (vs.map fun u => 0x7C :: u).flatten := by
  induction vs generalizing v with
  | nil => simp [List.intercalate]
  | cons u vs ih =>
    have := ih u
    rw [List.intercalate] at this ⊢
    simp [List.intersperse] at this ⊢
    exact this

theorem enumGrow_none (x : XEnc) (pre : Buf) (ms : List (List UInt8 × List Buf × List UInt8)) (h : ms ≠ []) :
    enumGrow x pre none ms = some (pre ++ enumType x ms) := by
  obtain ⟨m, ms, rfl⟩ := List.exists_cons_of_ne_nil h
  rw [enumGrow, enumGrow_some, enumType, List.map_cons, intercalate_bar]
  simp [enumJoin, Function.comp_def]

/-- The handlers of an enumeration and of a list of notations. -/
def enumH (nt : Bool) : Hd × Hd := if nt then (.attlist6, .attlist7) else (.attlist3, .attlist4)

def enumPre (nt : Bool) : Buf := if nt then kwNOTATION ++ [0x28] else [0x28]

def memberOk (k : Ctx) (nt : Bool) (ws : List Buf) : Prop := if nt then k.x.e.Name ws else k.x.e.Nmtoken k.asc ws

theorem nmtoken_min {e : Enc} {asc : UInt8 → Buf} (s : Supported e asc) {ws : List Buf} (h : e.Nmtoken asc ws) : e.mb ≤ ws.flatten.length := by
  obtain ⟨h0, h⟩ := h
  obtain ⟨w, ws, rfl⟩ := List.exists_cons_of_ne_nil h0
  have : e.mb ≤ w.length := by
    rcases h w (by simp) with h | ⟨rfl, -⟩
    · exact h.len s.mb
    · rw [s.asc.len]; exact Nat.le_refl _
  rw [List.flatten_cons, List.length_append]; omega

theorem enum_member {nt : Bool} {acc : Option Buf} (S : XSupported k.x k.asc) (a : Lst F (enumH nt).1 D elem att cd id s) (he : Enumd k D acc s)
    {ws : List Buf} (hw : memberOk k nt ws) {r : Buf} (hr : NextIn k.asc afterName r) :
    ∃ s', Lst F (enumH nt).2 D elem att cd id s' ∧ Enumd k D (some (enumJoin (enumPre nt) acc (converted k.x ws.flatten))) s' ∧
      R s (ws.flatten ++ r) [] s' r := by
  have b := a.go (enumH nt).2
  have heb : Enumd k D acc (s.withP { s.el.p with h := (enumH nt).2 }) := he
  have htok : ∃ t : Tok, prologTokBody k.x.e (ws.flatten ++ r) = ⟨t, ws.flatten.length⟩ ∧ t.isError = false ∧
      s.el.p.next k.x.e t ws.flatten = ({ s.el.p with h := (enumH nt).2 }, if nt then .ATTRIBUTE_NOTATION_VALUE else .ATTRIBUTE_ENUM_VALUE) := by
    have ah := a.h
    cases nt with
    | true =>
      refine ⟨.NAME, pt_name S.s hw hr, rfl, ?_⟩
      simp only [enumH] at ah
      simp [PState.next, PState.handle, ah, attlist6, PState.go, enumH]
    | false =>
      obtain ⟨t, h1, h2⟩ := pt_nmtoken S.s hw hr
      simp only [enumH] at ah
      have : t = .NAME ∨ t = .NMTOKEN ∨ t = .PREFIXED_NAME := by simpa [Tok.namey] using h1
      refine ⟨t, h2, ?_, ?_⟩
      · rcases this with rfl | rfl | rfl <;> rfl
      · rcases this with rfl | rfl | rfl <;> simp [PState.next, PState.handle, ah, attlist3, PState.go, enumH]
  have hmin : k.x.e.mb ≤ ws.flatten.length := by
    cases nt with
    | true => exact name_min S.s hw
    | false => exact nmtoken_min S.s hw
  obtain ⟨t, h1, h2, h3⟩ := htok
  generalize hs1 : s.withP { s.el.p with h := (enumH nt).2 } = s1 at b heb
  have hfr : Verif.C59.frame s1 = Verif.C59.frame s := by rw [← hs1]; rfl
  cases hk : recording k D with
  | false =>
    refine ⟨s1, b, ⟨fun h => (by rw [hk] at h; cases h), heb.2⟩, step S h1 hmin h2 h3 hfr rfl fun hx => ?_⟩
    rw [hs1] at hx ⊢
    have hk' : (s1.D.keep && k.c.attlistDecl) = false := by rw [b.D]; exact hk
    cases nt <;> simp only [pact, if_true, Bool.false_eq_true, if_false, actAttlist, hk'] <;> exact ⟨_, rfl⟩
  | true =>
    obtain ⟨g1, g2⟩ := heb.1 hk
    have hk' : (s1.D.keep && k.c.attlistDecl) = true := by rw [b.D]; exact hk
    refine ⟨{ s1 with tmp := enumJoin (enumPre nt) acc (converted k.x ws.flatten), ty := .built },
      ⟨b.h, b.none_, b.frame, b.D, b.rest, b.elem, b.att, b.cdata, b.id⟩,
      ⟨fun _ => ⟨fun h => (by cases h), fun t h => ?_⟩, fun h => (by rw [hk] at h; cases h)⟩, step S h1 hmin h2 h3 hfr rfl fun hx => ?_⟩
    · cases h; exact ⟨rfl, rfl⟩
    · rw [hs1] at hx ⊢
      cases acc with
      | none =>
        obtain ⟨q1, q2⟩ := g1 rfl
        cases nt <;> simp only [pact, if_true, Bool.false_eq_true, if_false, actAttlist, hk', hx, q1, q2] <;> exact ⟨_, rfl⟩
      | some t =>
        obtain ⟨q1, q2⟩ := g2 t rfl
        cases nt <;> simp only [pact, if_true, Bool.false_eq_true, if_false, actAttlist, hk', hx, q1, q2] <;> exact ⟨_, rfl⟩

theorem ws_afterParen (c : UInt8) (h : isWS c = true) : afterParen c = true := by simp [afterParen, h]

theorem enum_ne (S : XSupported k.x k.asc) {nt : Bool} {ms : List (List UInt8 × List Buf × List UInt8)} (h0 : ms ≠ [])
    (hm : ∀ m ∈ ms, AllWS m.1 ∧ memberOk k nt m.2.1 ∧ AllWS m.2.2) (r : Buf) : enumText k.asc ms ++ r ≠ [] := by
  obtain ⟨m, ms, rfl⟩ := List.exists_cons_of_ne_nil h0
  have h := (hm m (by simp)).2.1
  have hmin : k.x.e.mb ≤ m.2.1.flatten.length := by
    cases nt with
    | true => exact name_min S.s h
    | false => exact nmtoken_min S.s h
  have h1 : 0 < k.x.e.mb := Nat.succ_pos _
  intro hn
  have hn := congrArg List.length hn
  cases ms <;> simp only [enumText, List.length_append, List.length_nil] at hn <;> omega

/-- The members of an enumeration and the parenthesis at the end. -/
theorem enum_members {nt : Bool} (S : XSupported k.x k.asc) {ms : List (List UInt8 × List Buf × List UInt8)} (h0 : ms ≠ [])
    (hm : ∀ m ∈ ms, AllWS m.1 ∧ memberOk k nt m.2.1 ∧ AllWS m.2.2) {r : Buf} (hr : NextIn k.asc afterParen r) :
    ∀ (acc : Option Buf) (s : DState), Lst F (enumH nt).1 D elem att cd id s → Enumd k D acc s →
    ∃ s', Lst F .attlist8 D elem att cd id s' ∧ Enumd k D (enumGrow k.x (enumPre nt) acc ms) s' ∧
      R s (enumText k.asc ms ++ (k.asc 0x29 ++ r)) [] s' r := by
  induction ms with
  | nil => exact absurd rfl h0
  | cons m ms ih =>
    intro acc s a he
    obtain ⟨g1, g2, g3⟩ := hm m (by simp)
    have hsp1 : (enumH nt).1.spacy = true := by cases nt <;> rfl
    have hsp2 : (enumH nt).2.spacy = true := by cases nt <;> rfl
    have hmne : ∀ r, m.2.1.flatten ++ r ≠ [] := by
      intro r hn
      have hmin : k.x.e.mb ≤ m.2.1.flatten.length := by
        cases nt with
        | true => exact name_min S.s g2
        | false => exact nmtoken_min S.s g2
      have h1 : 0 < k.x.e.mb := Nat.succ_pos _
      have hn := congrArg List.length hn
      rw [List.length_append] at hn
      simp only [List.length_nil] at hn
      omega
    cases ms with
    | nil =>
      simp only [enumText, List.append_assoc]
      have r1 := a.white (ext := ext) (fuel := fuel) (expand := expand) (between := between) (allowClose := allowClose) (more := more)
        S hsp1 g1 (hmne (spell k.asc m.2.2 ++ (k.asc 0x29 ++ r)))
      obtain ⟨s2, a2, e2, r2⟩ := enum_member (ext := ext) (fuel := fuel) (expand := expand) (between := between) (allowClose := allowClose) (more := more)
        S a he g2 (r := spell k.asc m.2.2 ++ (k.asc 0x29 ++ r)) (maybe_next ws_afterName (by decide) g3 r)
      have r3 := a2.white (ext := ext) (fuel := fuel) (expand := expand) (between := between) (allowClose := allowClose) (more := more)
        S hsp2 g3 (asc_ne S 0x29 r)
      have hp : s2.el.p.next k.x.e .CLOSE_PAREN (k.asc 0x29) = ({ s2.el.p with h := .attlist8 }, .ATTLIST_NONE) := by
        have ah := a2.h
        cases nt <;> simp only [enumH] at ah <;> simp [PState.next, PState.handle, ah, attlist4, attlist7, PState.go]
      have r4 : R s2 (k.asc 0x29 ++ r) [] (s2.withP { s2.el.p with h := .attlist8 }) r := by
        refine quiet_tok (t := .CLOSE_PAREN) (role := .ATTLIST_NONE) S ?_ ?_ rfl hp rfl
        · rw [pt_rpar S.s hr, S.s.asc.len]
        · rw [S.s.asc.len]; exact Nat.le_refl _
      exact ⟨_, a2.go .attlist8, e2, r1.then (r2.then (r3.then r4))⟩
    | cons m' ms =>
      simp only [enumText, List.append_assoc] at ih ⊢
      have htail := enum_ne (nt := nt) S (ms := m' :: ms) (by simp) (fun n hn => hm n (by simp [hn])) (k.asc 0x29 ++ r)
      have r1 := a.white (ext := ext) (fuel := fuel) (expand := expand) (between := between) (allowClose := allowClose) (more := more)
        S hsp1 g1 (hmne (spell k.asc m.2.2 ++ (k.asc 0x7C ++ (enumText k.asc (m' :: ms) ++ (k.asc 0x29 ++ r)))))
      obtain ⟨s2, a2, e2, r2⟩ := enum_member (ext := ext) (fuel := fuel) (expand := expand) (between := between) (allowClose := allowClose) (more := more)
        S a he g2 (r := spell k.asc m.2.2 ++ (k.asc 0x7C ++ (enumText k.asc (m' :: ms) ++ (k.asc 0x29 ++ r)))) (maybe_next ws_afterName (by decide) g3 _)
      have r3 := a2.white (ext := ext) (fuel := fuel) (expand := expand) (between := between) (allowClose := allowClose) (more := more)
        S hsp2 g3 (asc_ne S 0x7C (enumText k.asc (m' :: ms) ++ (k.asc 0x29 ++ r)))
      have hp : s2.el.p.next k.x.e .OR (k.asc 0x7C) = ({ s2.el.p with h := (enumH nt).1 }, .ATTLIST_NONE) := by
        have ah := a2.h
        cases nt <;> simp only [enumH] at ah <;> simp [PState.next, PState.handle, ah, attlist4, attlist7, PState.go, enumH]
      have r4 : R s2 (k.asc 0x7C ++ (enumText k.asc (m' :: ms) ++ (k.asc 0x29 ++ r))) [] (s2.withP { s2.el.p with h := (enumH nt).1 })
          (enumText k.asc (m' :: ms) ++ (k.asc 0x29 ++ r)) := by
        refine quiet_tok (t := .OR) (role := .ATTLIST_NONE) S ?_ ?_ rfl hp rfl
        · rw [pt_or S.s, S.s.asc.len]
        · rw [S.s.asc.len]; exact Nat.le_refl _
      obtain ⟨s5, a5, e5, r5⟩ := ih (by simp) (fun n hn => hm n (by simp [hn])) _ _ (a2.go (enumH nt).1) e2
      exact ⟨s5, a5, e5, r1.then (r2.then (r3.then (r4.then r5)))⟩

theorem Enumd.typed {nt : Bool} {t : Buf} {s : DState} (h : Enumd k D (some (enumPre nt ++ t)) s) : Typed k D (enumPre nt ++ t ++ [0x29]) s := by
  refine ⟨fun hk => ?_, h.2⟩
  obtain ⟨h1, h2⟩ := (h.1 hk).2 _ rfl
  have : isEnumType (enumPre nt ++ t) = true := by cases nt <;> rfl
  simp only [typeSeen, h1, h2, this, if_true]

/-- The handler calls and role for the keyword types. -/
def typeRole : List (List UInt8 × Role) :=
  [(kwCDATA, .ATTRIBUTE_TYPE_CDATA), (kwID, .ATTRIBUTE_TYPE_ID), (kwIDREF, .ATTRIBUTE_TYPE_IDREF), (kwIDREFS, .ATTRIBUTE_TYPE_IDREFS),
   (kwENTITY, .ATTRIBUTE_TYPE_ENTITY), (kwENTITIES, .ATTRIBUTE_TYPE_ENTITIES), (kwNMTOKEN, .ATTRIBUTE_TYPE_NMTOKEN), (kwNMTOKENS, .ATTRIBUTE_TYPE_NMTOKENS)]

/-- A type which is a keyword. -/
theorem att_kw (S : XSupported k.x k.asc) (a : Lst F .attlist2 D elem att false false s) (htmp : s.tmp = [])
    {ty : List UInt8} (hk : ty ∈ typeKeywords) {r : Buf} (hr : NextIn k.asc afterName r) :
    ∃ s', Lst F .attlist8 D elem att (decide (ty = kwCDATA)) (decide (ty = kwID)) s' ∧ Typed k D ty s' ∧ R s (spell k.asc ty ++ r) [] s' r := by
  have hm {b : List UInt8} (hb : b.all isUpper = true) := matches_kw S.s ty hb
  have hu : ty ≠ [] ∧ ty.all isUpper = true := by
    simp only [typeKeywords, List.mem_cons, List.not_mem_nil, or_false] at hk
    rcases hk with rfl | rfl | rfl | rfl | rfl | rfl | rfl | rfl <;> exact ⟨by decide, by decide⟩
  have b := a.go .attlist8
  have hty' : (s.withP { s.el.p with h := .attlist8 }).tmp = [] := htmp
  have hp : ∃ role, (ty, role) ∈ typeRole ∧
      s.el.p.next k.x.e .NAME (spell k.asc ty) = ({ s.el.p with h := .attlist8 }, role) := by
    simp only [typeKeywords, List.mem_cons, List.not_mem_nil, or_false] at hk
    have e1 : s.el.p.handle k.x.e .NAME (spell k.asc ty) = attlist2 k.x.e s.el.p .NAME (spell k.asc ty) := by
      simp only [PState.handle, a.h]
    rw [PState.next, e1]
    simp only [attlist2, hm (b := kwCDATA) (by decide), hm (b := kwID) (by decide), hm (b := kwIDREF) (by decide), hm (b := kwIDREFS) (by decide),
      hm (b := kwENTITY) (by decide), hm (b := kwENTITIES) (by decide), hm (b := kwNMTOKEN) (by decide), hm (b := kwNMTOKENS) (by decide)]
    rcases hk with rfl | rfl | rfl | rfl | rfl | rfl | rfl | rfl
    · exact ⟨.ATTRIBUTE_TYPE_CDATA, by simp [typeRole], rfl⟩
    · exact ⟨.ATTRIBUTE_TYPE_ID, by simp [typeRole], rfl⟩
    · exact ⟨.ATTRIBUTE_TYPE_IDREF, by simp [typeRole], rfl⟩
    · exact ⟨.ATTRIBUTE_TYPE_IDREFS, by simp [typeRole], rfl⟩
    · exact ⟨.ATTRIBUTE_TYPE_ENTITY, by simp [typeRole], rfl⟩
    · exact ⟨.ATTRIBUTE_TYPE_ENTITIES, by simp [typeRole], rfl⟩
    · exact ⟨.ATTRIBUTE_TYPE_NMTOKEN, by simp [typeRole], rfl⟩
    · exact ⟨.ATTRIBUTE_TYPE_NMTOKENS, by simp [typeRole], rfl⟩
  obtain ⟨role, hrole, hp⟩ := hp
  generalize hs1 : s.withP { s.el.p with h := .attlist8 } = s1 at b hty'
  have hfr : Verif.C59.frame s1 = Verif.C59.frame s := by rw [← hs1]; rfl
  refine ⟨{ s1 with isCdata := decide (ty = kwCDATA), isId := decide (ty = kwID), ty := .known ty },
    ⟨b.h, b.none_, b.frame, b.D, b.rest, b.elem, b.att, rfl, rfl⟩, ⟨fun _ => ?_, fun _ => hty'⟩,
    step S (pt_kw S.s hu.1 hu.2 hr) (spell_min S.s hu.1) rfl hp hfr rfl fun hx => ?_⟩
  · simp only [typeSeen]
    rw [if_neg]
    simp only [typeKeywords, List.mem_cons, List.not_mem_nil, or_false] at hk
    rcases hk with rfl | rfl | rfl | rfl | rfl | rfl | rfl | rfl <;> decide
  · rw [hs1]
    have hc := b.cdata
    have hi := b.id
    refine ⟨!(s1.D.keep && k.c.attlistDecl), ?_⟩
    have : actAttlist k.c s1 (s1.x k.c k.internal) role (spell k.asc ty) =
        { s1 with isCdata := decide (ty = kwCDATA), isId := decide (ty = kwID), ty := .known ty } := by
      simp only [typeRole, List.mem_cons, Prod.mk.injEq, List.not_mem_nil, or_false] at hrole
      rcases hrole with ⟨rfl, rfl⟩ | ⟨rfl, rfl⟩ | ⟨rfl, rfl⟩ | ⟨rfl, rfl⟩ | ⟨rfl, rfl⟩ | ⟨rfl, rfl⟩ | ⟨rfl, rfl⟩ | ⟨rfl, rfl⟩ <;>
        simp only [actAttlist, hc, hi] <;> rfl
    rw [← this]
    simp only [typeRole, List.mem_cons, Prod.mk.injEq, List.not_mem_nil, or_false] at hrole
    rcases hrole with ⟨-, rfl⟩ | ⟨-, rfl⟩ | ⟨-, rfl⟩ | ⟨-, rfl⟩ | ⟨-, rfl⟩ | ⟨-, rfl⟩ | ⟨-, rfl⟩ | ⟨-, rfl⟩ <;> rfl

/-- The type of an attribute. -/
theorem att_type (S : XSupported k.x k.asc) (a : Lst F .attlist2 D elem att false false s) (hty : s.ty = .null) (htmp : s.tmp = [])
    {w ty : Buf} (hw : AttTypeText k.x k.asc w cd id ty) {sp : List UInt8} (hsp : White sp) {r : Buf} (hr : r ≠ []) :
    ∃ s', Lst F .attlist8 D elem att cd id s' ∧ Typed k D ty s' ∧ R s (w ++ (spell k.asc sp ++ r)) [] s' r := by
  suffices h : ∃ s', Lst F .attlist8 D elem att cd id s' ∧ Typed k D ty s' ∧ R s (w ++ (spell k.asc sp ++ r)) [] s' (spell k.asc sp ++ r) by
    obtain ⟨s', h1, h2, h3⟩ := h
    exact ⟨s', h1, h2, h3.then (h1.white S rfl hsp.2 hr)⟩
  have hpar : NextIn k.asc afterParen (spell k.asc sp ++ r) := next_mono ws_afterParen (hsp.next r)
  cases hw with
  | keyword kw hk => exact att_kw S a htmp hk (hsp.nextName r)
  | enum ms h0 hm =>
    simp only [List.append_assoc]
    have he : Enumd k D none (s.withP { s.el.p with h := .attlist3 }) := ⟨fun _ => ⟨fun _ => ⟨hty, htmp⟩, fun t h => by cases h⟩, fun _ => htmp⟩
    have r1 : R s (k.asc 0x28 ++ (enumText k.asc ms ++ (k.asc 0x29 ++ (spell k.asc sp ++ r)))) [] (s.withP { s.el.p with h := .attlist3 })
        (enumText k.asc ms ++ (k.asc 0x29 ++ (spell k.asc sp ++ r))) := by
      refine quiet_tok (t := .OPEN_PAREN) (role := .ATTLIST_NONE) S ?_ ?_ rfl ?_ rfl
      · rw [pt_lpar S.s, S.s.asc.len]
      · rw [S.s.asc.len]; exact Nat.le_refl _
      · simp [PState.next, PState.handle, a.h, attlist2, PState.go]
    obtain ⟨s2, a2, e2, r2⟩ := enum_members (nt := false) (ext := ext) (fuel := fuel) (expand := expand) (between := between) (allowClose := allowClose) (more := more)
      S h0 hm hpar none _ (a.go .attlist3) he
    rw [enumGrow_none _ _ _ h0] at e2
    refine ⟨s2, a2, ?_, r1.then r2⟩
    have := e2.typed (nt := false)
    simpa [enumPre] using this
  | notations sp' ms h1 h0 hm =>
    simp only [List.append_assoc]
    have r0 : R s (spell k.asc kwNOTATION ++ (spell k.asc sp' ++ (k.asc 0x28 ++ (enumText k.asc ms ++ (k.asc 0x29 ++ (spell k.asc sp ++ r)))))) []
        (s.withP { s.el.p with h := .attlist5 }) (spell k.asc sp' ++ (k.asc 0x28 ++ (enumText k.asc ms ++ (k.asc 0x29 ++ (spell k.asc sp ++ r))))) := by
      refine quiet_tok (t := .NAME) (role := .ATTLIST_NONE) S (pt_kw S.s (by decide) (by decide) (h1.nextName _)) (spell_min S.s (by decide)) rfl ?_ rfl
      have hm {b : List UInt8} (hb : b.all isUpper = true) := matches_kw S.s kwNOTATION hb
      simp only [PState.next, PState.handle, a.h, attlist2, hm (b := kwCDATA) (by decide), hm (b := kwID) (by decide), hm (b := kwIDREF) (by decide), hm (b := kwIDREFS) (by decide),
        hm (b := kwENTITY) (by decide), hm (b := kwENTITIES) (by decide), hm (b := kwNMTOKEN) (by decide), hm (b := kwNMTOKENS) (by decide), hm (b := kwNOTATION) (by decide)]
      rfl
    have a5 := a.go .attlist5
    have hty5 : (s.withP { s.el.p with h := .attlist5 }).ty = .null := hty
    have htmp5 : (s.withP { s.el.p with h := .attlist5 }).tmp = [] := htmp
    generalize s.withP { s.el.p with h := .attlist5 } = s0 at r0 a5 hty5 htmp5
    have r0' := a5.white (ext := ext) (fuel := fuel) (expand := expand) (between := between) (allowClose := allowClose) (more := more)
      S rfl h1.2 (asc_ne S 0x28 (enumText k.asc ms ++ (k.asc 0x29 ++ (spell k.asc sp ++ r))))
    have he : Enumd k D none (s0.withP { s0.el.p with h := .attlist6 }) := ⟨fun _ => ⟨fun _ => ⟨hty5, htmp5⟩, fun t h => by cases h⟩, fun _ => htmp5⟩
    have r1 : R s0 (k.asc 0x28 ++ (enumText k.asc ms ++ (k.asc 0x29 ++ (spell k.asc sp ++ r)))) [] (s0.withP { s0.el.p with h := .attlist6 })
        (enumText k.asc ms ++ (k.asc 0x29 ++ (spell k.asc sp ++ r))) := by
      refine quiet_tok (t := .OPEN_PAREN) (role := .ATTLIST_NONE) S ?_ ?_ rfl ?_ rfl
      · rw [pt_lpar S.s, S.s.asc.len]
      · rw [S.s.asc.len]; exact Nat.le_refl _
      · simp [PState.next, PState.handle, a5.h, attlist5, PState.go]
    obtain ⟨s2, a2, e2, r2⟩ := enum_members (nt := true) (ext := ext) (fuel := fuel) (expand := expand) (between := between) (allowClose := allowClose) (more := more)
      S h0 hm hpar none _ (a5.go .attlist6) he
    rw [enumGrow_none _ _ _ h0] at e2
    refine ⟨s2, a2, ?_, r0.then (r0'.then (r1.then r2))⟩
    have := e2.typed (nt := true)
    simpa [enumPre] using this

theorem tabSet_put {α : Type} (t : List (Buf × α)) (n : Buf) (v u : α) :
    tabSet (tabPut t n v) n (fun _ => u) =
      if (tabGet t n).isSome then t.map fun p => if p.1 = n then (p.1, u) else p else t ++ [(n, u)] := by
  rw [tabPut]
  split
  · rfl
  · rename_i h
    have : tabGet t n = none := by simpa using h
    rw [tabSet_fresh this]

theorem define_eq (ns : Bool) (D : DTab) (elem att : Buf) (cd id : Bool) (value : Option Buf) :
    defineAttribute ns D elem att cd (id && value.isNone) value = addAtt ns D elem att cd id value := by
  rw [defineAttribute, addAtt]
  simp only [tabSet_put, newIdAtt, Option.isNone_iff_eq_none]

/-- What is said about an attribute. -/
def sayAtt (k : Ctx) (D : DTab) (elem att ty : Buf) (value : Option Buf) (req : Bool) : List PEv :=
  if D.keep && k.c.attlistDecl then [.attlistDecl elem att ty value req] else []

/-- The table after an attribute. -/
def withAtt (k : Ctx) (D : DTab) (elem att : Buf) (cd id : Bool) (value : Option Buf) : DTab :=
  if D.keep then addAtt k.c.c.ns D elem att cd id value else D

theorem att_report {h : Hd} {ty : Buf} {value : Option Buf} {req : Bool} (a : Lst F h D elem att cd id s) (hk : D.keep = true) (ht : Typed k D ty s)
    (D' : DTab) :
    ∃ hd, reportAttribute k.c { s with D := D' } value req = (sayAtt k D elem att ty value req, { s with D := D', tmp := [] }, .go hd) := by
  cases hc : k.c.attlistDecl with
  | false =>
    have h1 := ht.2 (by simp [recording, hc])
    refine ⟨true, ?_⟩
    have h2 : { s with D := D', tmp := [] } = { s with D := D' } := by rw [← h1]
    rw [h2]
    simp only [reportAttribute, hc, sayAtt, Bool.and_false]
    rfl
  | true =>
    have h1 := ht.1 (by simp [recording, hc, hk])
    rw [typeSeen] at h1
    refine ⟨false, ?_⟩
    simp only [reportAttribute, hc, sayAtt, hk]
    cases h2 : s.ty with
    | null => rw [h2] at h1; cases h1
    | known t =>
      simp only [h2, Option.some.injEq] at h1
      simp only [h1, a.elem, a.att]; rfl
    | built =>
      simp only [h2, Option.some.injEq] at h1
      simp only [h1, a.elem, a.att]; rfl

/-- What follows the declaration of an attribute. -/
def afterDef (c : UInt8) : Bool := isWS c || c == 0x3E

theorem def_lit (c : UInt8) (h : afterDef c = true) : afterLit c = true := by
  simp only [afterDef, Bool.or_eq_true, beq_iff_eq] at h
  rcases h with h | rfl
  · exact ws_afterLit c h
  · decide

theorem def_pound (c : UInt8) (h : afterDef c = true) : afterPound c = true := by
  simp only [afterDef, Bool.or_eq_true, beq_iff_eq] at h
  rcases h with h | rfl
  · simp [afterPound, h]
  · decide

/-- The token that ends the declaration of an attribute. -/
theorem att_end {h : Hd} {ty : Buf} {t : Tok} {w r : Buf} {role : Role} {value : Option Buf} {req : Bool} (S : XSupported k.x k.asc) (a : Lst F h D elem att cd id s)
    (ht : Typed k D ty s)
    (hb : prologTokBody k.x.e (w ++ r) = ⟨t, w.length⟩) (hw : k.x.e.mb ≤ w.length) (hte : t.isError = false)
    (hp : s.el.p.next k.x.e t w = ({ s.el.p with h := .attlist1 }, role))
    (hrole : role = .IMPLIED_ATTRIBUTE_VALUE ∧ value = none ∧ req = false ∨ role = .REQUIRED_ATTRIBUTE_VALUE ∧ value = none ∧ req = true ∨
      (role = .DEFAULT_ATTRIBUTE_VALUE ∧ req = false ∨ role = .FIXED_ATTRIBUTE_VALUE ∧ req = true) ∧
        ∃ v, value = some v ∧ (D.keep = true → storeAttributeValue D.toDtd (F.doc && (if D.standalone then !k.internal else !D.hasPERefs))
          k.c.int k.x cd [] (refName k.x.e w) = .ok v)) :
    ∃ s', At F .attlist1 (withAtt k D elem att cd id value) s' ∧ s'.el.declName = elem ∧
      R s (w ++ r) (sayAtt k D elem att ty value req) s' r := by
  have b := a.go .attlist1
  have ht' : Typed k D ty (s.withP { s.el.p with h := .attlist1 }) := ht
  generalize hs1 : s.withP { s.el.p with h := .attlist1 } = s1 at b ht'
  have hfr : Verif.C59.frame s1 = Verif.C59.frame s := by rw [← hs1]; rfl
  have hdoc : s1.el.p.documentEntity = F.doc := congrArg Frame.doc b.frame
  have hpact : ∀ E s', (s1.x k.c k.internal = k.x → ∃ hd, actAttDefault k.c s1 k.x k.internal role w = (E, s', .go hd)) →
      s1.x k.c k.internal = k.x → ∃ hd, pact k.c ext fuel expand k.internal allowClose k.opened s1 role t w = (E, s', .go hd) := by
    intro E s' h hx
    obtain ⟨hd, h⟩ := h hx
    refine ⟨hd, ?_⟩
    rw [← h, ← hx]
    rcases hrole with ⟨rfl, -⟩ | ⟨rfl, -⟩ | ⟨⟨rfl, -⟩ | ⟨rfl, -⟩, -⟩ <;> rfl
  cases hk : D.keep with
  | false =>
    refine ⟨s1, ⟨b.h, b.none_, b.frame, by rw [withAtt, hk]; exact b.D, ht'.2 (by simp [recording, hk]), b.rest⟩, b.elem,
      step S hb hw hte hp hfr ?_ fun hx => ?_⟩
    · simp [sayAtt, hk, heard]
    · rw [hs1] at hx ⊢
      refine hpact _ _ (fun hx => ⟨true, ?_⟩) hx
      simp [actAttDefault, b.D, hk, sayAtt]
  | true =>
    refine ⟨{ s1 with D := addAtt k.c.c.ns D elem att cd id value, tmp := [] }, ⟨b.h, b.none_, b.frame, by rw [withAtt, hk]; rfl, rfl, b.rest⟩, b.elem,
      step S hb hw hte hp hfr ?_ fun hx => ?_⟩
    · rw [sayAtt]; split <;> rfl
    · rw [hs1] at hx ⊢
      refine hpact _ _ (fun hx => ?_) hx
      rcases hrole with ⟨rfl, rfl, rfl⟩ | ⟨rfl, rfl, rfl⟩ | ⟨hrole, v, rfl, hv⟩
      · obtain ⟨hd, h⟩ := att_report (value := none) (req := false) b hk ht' (addAtt k.c.c.ns D elem att cd id none)
        refine ⟨hd, ?_⟩
        rw [← h, ← define_eq]
        simp [actAttDefault, b.D, hk, b.elem, b.att, b.cdata, b.id]
      · obtain ⟨hd, h⟩ := att_report (value := none) (req := true) b hk ht' (addAtt k.c.c.ns D elem att cd id none)
        refine ⟨hd, ?_⟩
        rw [← h, ← define_eq]
        simp [actAttDefault, b.D, hk, b.elem, b.att, b.cdata, b.id]
      · have hv := hv hk
        obtain ⟨hd, h⟩ := att_report (value := some v) (req := req) b hk ht' (addAtt k.c.c.ns D elem att cd id (some v))
        refine ⟨hd, ?_⟩
        have hc : checkDefault s1 k.internal = (F.doc && (if D.standalone then !k.internal else !D.hasPERefs)) := by
          rw [checkDefault, hdoc, b.D]
        rw [← h, ← define_eq]
        rcases hrole with ⟨rfl, rfl⟩ | ⟨rfl, rfl⟩
        · simp only [actAttDefault, hc, b.D, hk, b.cdata, hv, b.elem, b.att]; simp
        · simp only [actAttDefault, hc, b.D, hk, b.cdata, hv, b.elem, b.att]; simp

theorem default_ok (S : XSupported k.x k.asc) (hi : IntOk k) {b v : Buf} (h : DefaultValue k D cd b v) :
    storeAttributeValue D.toDtd (k.must D) k.c.int k.x cd [] b = .ok v := by
  obtain ⟨out, h1, rfl⟩ := h
  have := C33.complete (isCdata := cd) hi.int hi.ends h1 S rfl []
  rw [C34.attr] at this
  rw [storeAttributeValue, this]
  cases cd with
  | true => simp [C33.put]
  | false => rw [← C33.collapse_eq]; simp

/-- `#NAME` -/
theorem pt_pound_kw {e : Enc} {asc : UInt8 → Buf} (s : Supported e asc) {kw : List UInt8} (h0 : kw ≠ []) (h : kw.all isUpper = true) {r : Buf}
    (hr : NextIn asc afterPound r) :
    prologTokBody e ((asc 0x23 ++ spell asc kw) ++ r) = ⟨.POUND_NAME, (asc 0x23 ++ spell asc kw).length⟩ := by
  rw [List.append_assoc, spell, pt_pound s (upper_isName s h0 h) hr, List.length_append, s.asc.len]

theorem att_default {ty w : Buf} {value : Option Buf} {req : Bool} (S : XSupported k.x k.asc) (hi : IntOk k) (hdoc : k.doc = F.doc)
    (a : Lst F .attlist8 D elem att cd id s) (ht : Typed k D ty s) (hw : DefaultText k D cd w value req) {r : Buf} (hr : NextIn k.asc afterDef r) :
    ∃ s', At F .attlist1 (withAtt k D elem att cd id value) s' ∧ s'.el.declName = elem ∧
      R s (w ++ r) (sayAtt k D elem att ty value req) s' r := by
  have hm (kw : List UInt8) {b : List UInt8} (hb : b.all isUpper = true) := matches_kw S.s kw hb
  have hdrop (kw : List UInt8) : (k.asc 0x23 ++ spell k.asc kw).drop k.x.e.mb = spell k.asc kw := List.drop_left' (S.s.asc.len _)
  have hmin (kw : List UInt8) : k.x.e.mb ≤ (k.asc 0x23 ++ spell k.asc kw).length := by
    rw [List.length_append, S.s.asc.len]; omega
  have hmust : k.must D = (F.doc && (if D.standalone then !k.internal else !D.hasPERefs)) := by rw [Ctx.must, hdoc]
  cases hw with
  | implied =>
    refine att_end S a ht (pt_pound_kw S.s (by decide) (by decide) (next_mono def_pound hr)) (hmin _) rfl ?_ (.inl ⟨rfl, rfl, rfl⟩)
    simp [PState.next, PState.handle, a.h, attlist8, PState.go, hdrop, hm _ (b := kwIMPLIED) (by decide)]
  | required =>
    refine att_end S a ht (pt_pound_kw S.s (by decide) (by decide) (next_mono def_pound hr)) (hmin _) rfl ?_ (.inr (.inl ⟨rfl, rfl, rfl⟩))
    simp only [PState.next, PState.handle, a.h, attlist8, hdrop, hm _ (b := kwIMPLIED) (by decide), hm _ (b := kwREQUIRED) (by decide)]
    rfl
  | value q ws v h1 h2 =>
    refine att_end S a ht (pt_lit S.s h1 (next_mono def_lit hr)) (lit_min S.s _ _) rfl ?_ (.inr (.inr ⟨.inl ⟨rfl, rfl⟩, v, rfl, fun hk => ?_⟩))
    · simp [PState.next, PState.handle, a.h, attlist8, PState.go]
    · rw [refName_lit S.s, ← hmust]; exact default_ok S hi (h2 hk)
  | fixed sp q ws v h0 h1 h2 =>
    simp only [List.append_assoc]
    have a9 := a.go .attlist9
    have ht9 : Typed k D ty (s.withP { s.el.p with h := .attlist9 }) := ht
    have r1 : R s (k.asc 0x23 ++ (spell k.asc kwFIXED ++ (spell k.asc sp ++ (litText k.asc q ws ++ r)))) [] (s.withP { s.el.p with h := .attlist9 })
        (spell k.asc sp ++ (litText k.asc q ws ++ r)) := by
      rw [← List.append_assoc (k.asc 0x23)]
      refine quiet_tok (t := .POUND_NAME) (role := .ATTLIST_NONE) S
        (pt_pound_kw S.s (by decide) (by decide) (next_mono (fun c hc => by simp [afterPound, hc]) (h0.next _))) (hmin _) rfl ?_ rfl
      simp only [PState.next, PState.handle, a.h, attlist8, hdrop, hm _ (b := kwIMPLIED) (by decide), hm _ (b := kwREQUIRED) (by decide), hm _ (b := kwFIXED) (by decide)]
      rfl
    have r2 := a9.white (ext := ext) (fuel := fuel) (expand := expand) (between := between) (allowClose := allowClose) (more := more)
      S rfl h0.2 (lit_ne S q ws r)
    generalize s.withP { s.el.p with h := .attlist9 } = s9 at a9 ht9 r1 r2
    obtain ⟨s', a', n', r'⟩ := att_end (ext := ext) (fuel := fuel) (expand := expand) (between := between) (allowClose := allowClose) (more := more)
      (value := some v) (req := true) (role := .FIXED_ATTRIBUTE_VALUE)
      S a9 ht9 (pt_lit S.s h1 (next_mono def_lit hr)) (lit_min S.s _ _) rfl
        (by simp [PState.next, PState.handle, a9.h, attlist9, PState.go])
        (.inr (.inr ⟨.inr ⟨rfl, rfl⟩, v, rfl, fun hk => by rw [refName_lit S.s, ← hmust]; exact default_ok S hi (h2 hk)⟩))
    exact ⟨s', a', n', r1.then (r2.then r')⟩

theorem qname_min {e : Enc} {asc : UInt8 → Buf} (s : Supported e asc) {name : List Buf} (h : DName e asc name) : e.mb ≤ name.flatten.length := by
  cases h with
  | plain ws h => exact name_min s h
  | pair us vs h1 h2 h3 h4 =>
    have := name_min s h1
    simp only [List.flatten_append, List.length_append]; omega

theorem qname_ne (S : XSupported k.x k.asc) {name : List Buf} (h : DName k.x.e k.asc name) (r : Buf) : name.flatten ++ r ≠ [] := by
  have := qname_min S.s h
  have h1 : 0 < k.x.e.mb := Nat.succ_pos _
  intro hn
  have hn := congrArg List.length hn
  rw [List.length_append] at hn
  simp only [List.length_nil] at hn
  omega

theorem type_ne (S : XSupported k.x k.asc) {w ty : Buf} (hw : AttTypeText k.x k.asc w cd id ty) (r : Buf) : w ++ r ≠ [] := by
  cases hw with
  | keyword kw hk =>
    refine kw_ne S ?_ _
    rintro rfl
    simp [typeKeywords, kwCDATA, kwID, kwIDREF, kwIDREFS, kwENTITY, kwENTITIES, kwNMTOKEN, kwNMTOKENS] at hk
  | enum ms h0 h => rw [List.append_assoc]; exact asc_ne S _ _
  | notations sp ms h1 h0 h => rw [List.append_assoc]; exact kw_ne S (by decide) _

theorem default_ne (S : XSupported k.x k.asc) {w : Buf} {value : Option Buf} {req : Bool} (hw : DefaultText k D cd w value req) (r : Buf) : w ++ r ≠ [] := by
  cases hw with
  | implied => rw [List.append_assoc]; exact asc_ne S _ _
  | required => rw [List.append_assoc]; exact asc_ne S _ _
  | value q ws v h1 h2 => exact lit_ne S q ws r
  | fixed sp q ws v h0 h1 h2 => rw [List.append_assoc]; exact asc_ne S _ _

/-- The name of an attribute. -/
theorem att_name (S : XSupported k.x k.asc) (a : At F .attlist1 D s) {name : List Buf} (hn : DName k.x.e k.asc name) (he : s.el.declName = elem) {r : Buf}
    (hr : NextIn k.asc afterName r) :
    ∃ s', Lst F .attlist2 D elem (converted k.x name.flatten) false false s' ∧ s'.ty = .null ∧ s'.tmp = [] ∧ R s (name.flatten ++ r) [] s' r := by
  obtain ⟨t, h1, h2⟩ := pt_qname S.s hn hr
  have b := a.go .attlist2
  have he' : (s.withP { s.el.p with h := .attlist2 }).el.declName = elem := he
  have hp : s.el.p.next k.x.e t name.flatten = ({ s.el.p with h := .attlist2 }, .ATTRIBUTE_NAME) := by
    rcases h1 with rfl | rfl <;> simp [PState.next, PState.handle, a.h, attlist1, PState.go]
  generalize hs1 : s.withP { s.el.p with h := .attlist2 } = s1 at b he'
  have hfr : Verif.C59.frame s1 = Verif.C59.frame s := by rw [← hs1]; rfl
  refine ⟨{ s1 with att := converted k.x name.flatten, isCdata := false, ty := .null, isId := false },
    ⟨b.h, b.none_, b.frame, b.D, b.rest, he', rfl, rfl, rfl⟩, rfl, b.tmp,
    step S h2 (qname_min S.s hn) (by rcases h1 with rfl | rfl <;> rfl) hp hfr rfl fun hx => ?_⟩
  rw [hs1] at hx ⊢
  simp only [pact, hx, actAttlist]
  exact ⟨_, rfl⟩

/-- One attribute. -/
theorem att_def {w : Buf} {E : List PEv} {D' : DTab} (S : XSupported k.x k.asc) (hi : IntOk k) (hdoc : k.doc = F.doc) (a : At F .attlist1 D s)
    (he : s.el.declName = elem) (hw : AttDef k elem D w E D') {r : Buf} (hr : NextIn k.asc afterDef r) :
    ∃ s', At F .attlist1 D' s' ∧ s'.el.declName = elem ∧ R s (w ++ r) E s' r := by
  cases hw with
  | mk sp1 sp2 sp3 name type dflt cd id ty value req h1 h2 h3 h4 h5 h6 =>
    simp only [List.append_assoc]
    have r1 := a.white (c := k.c) (ext := ext) (fuel := fuel) (expand := expand) (internal := k.internal) (between := between) (allowClose := allowClose)
      (more := more) (opened := k.opened) S rfl h1.2 (qname_ne S h2 (spell k.asc sp2 ++ (type ++ (spell k.asc sp3 ++ (dflt ++ r)))))
    obtain ⟨s2, a2, t2, m2, r2⟩ := att_name (ext := ext) (fuel := fuel) (expand := expand) (between := between) (allowClose := allowClose) (more := more)
      S a h2 he (h3.nextName (type ++ (spell k.asc sp3 ++ (dflt ++ r))))
    have r3 := a2.white (ext := ext) (fuel := fuel) (expand := expand) (between := between) (allowClose := allowClose) (more := more)
      S rfl h3.2 (type_ne S h4 (spell k.asc sp3 ++ (dflt ++ r)))
    obtain ⟨s4, a4, t4, r4⟩ := att_type (ext := ext) (fuel := fuel) (expand := expand) (between := between) (allowClose := allowClose) (more := more)
      S a2 t2 m2 h4 h5 (default_ne S h6 r)
    obtain ⟨s5, a5, n5, r5⟩ := att_default (ext := ext) (fuel := fuel) (expand := expand) (between := between) (allowClose := allowClose) (more := more)
      S hi hdoc a4 t4 h6 hr
    exact ⟨s5, a5, n5, r1.then (r2.then (r3.then (r4.then r5)))⟩

theorem att_defs_next {w : Buf} {E : List PEv} {D' : DTab} (hw : AttDefs k elem D w E D') {r : Buf} (hr : NextIn k.asc afterDef r) :
    NextIn k.asc afterDef (w ++ r) := by
  cases hw with
  | nil => exact hr
  | cons h1 h2 =>
    cases h1 with
    | mk sp1 sp2 sp3 name type dflt cd id ty value req h1 h2 h3 h4 h5 h6 =>
      simp only [List.append_assoc]
      exact next_mono (fun c hc => by simp [afterDef, hc]) (h1.next _)

theorem att_defs {w : Buf} {E : List PEv} {D D' : DTab} (S : XSupported k.x k.asc) (hi : IntOk k) (hdoc : k.doc = F.doc)
    (hw : AttDefs k elem D w E D') {r : Buf} (hr : NextIn k.asc afterDef r) : ∀ (s : DState), At F .attlist1 D s → s.el.declName = elem →
    ∃ s', At F .attlist1 D' s' ∧ R s (w ++ r) E s' r := by
  induction hw with
  | nil D => intro s a he; exact ⟨s, a, Reach.refl _ _⟩
  | cons h1 h2 ih =>
    intro s a he
    rw [List.append_assoc]
    obtain ⟨s1, a1, e1, r1⟩ := att_def (ext := ext) (fuel := fuel) (expand := expand) (between := between) (allowClose := allowClose) (more := more)
      S hi hdoc a he h1 (att_defs_next h2 hr)
    obtain ⟨s2, a2, r2⟩ := ih s1 a1 e1
    exact ⟨s2, a2, r1.trans r2⟩

theorem run_attlist {w : Buf} {E : List PEv} {D' : DTab} (S : XSupported k.x k.asc) (hi : IntOk k) (hdoc : k.doc = F.doc) (a : At F (home F.doc) D s)
    {sp1 sp2 : List UInt8} {name : List Buf} (h1 : White sp1) (h2 : DName k.x.e k.asc name) (h3 : AttDefs k (converted k.x name.flatten) D w E D')
    (h4 : AllWS sp2) (r : Buf) :
    ∃ s', At F (home F.doc) D' s' ∧
      R s (declOpen k.asc kwATTLIST ++ (spell k.asc sp1 ++ (name.flatten ++ (w ++ (spell k.asc sp2 ++ (k.asc 0x3E ++ r)))))) E s' r := by
  have hnext : NextIn k.asc afterDef (spell k.asc sp2 ++ (k.asc 0x3E ++ r)) :=
    maybe_next (fun c hc => by simp [afterDef, hc]) (by decide) h4 r
  have hnext2 : NextIn k.asc afterName (w ++ (spell k.asc sp2 ++ (k.asc 0x3E ++ r))) := by
    refine next_mono (fun c hc => ?_) (att_defs_next h3 hnext)
    simp only [afterDef, Bool.or_eq_true, beq_iff_eq] at hc
    rcases hc with hc | rfl
    · exact ws_afterName c hc
    · decide
  have r0 := a.open (c := k.c) (ext := ext) (fuel := fuel) (expand := expand) (internal := k.internal) (between := between) (allowClose := allowClose)
    (more := more) (opened := k.opened) (kw := kwATTLIST) (h' := .attlist0) S (by simp) h1
      (qname_ne S h2 (w ++ (spell k.asc sp2 ++ (k.asc 0x3E ++ r))))
  have a0 := a.go .attlist0
  generalize s.withP { s.el.p with h := .attlist0 } = s0 at r0 a0
  obtain ⟨t, g1, g2⟩ := pt_qname S.s h2 hnext2
  have b := a0.go .attlist1
  have hp : s0.el.p.next k.x.e t name.flatten = ({ s0.el.p with h := .attlist1 }, .ATTLIST_ELEMENT_NAME) := by
    rcases g1 with rfl | rfl <;> simp [PState.next, PState.handle, a0.h, attlist0, PState.go]
  generalize hs1 : s0.withP { s0.el.p with h := .attlist1 } = s1 at b
  have hfr : Verif.C59.frame s1 = Verif.C59.frame s0 := by rw [← hs1]; rfl
  have r1 : R s0 (name.flatten ++ (w ++ (spell k.asc sp2 ++ (k.asc 0x3E ++ r)))) [] { s1 with el := { s1.el with declName := converted k.x name.flatten } }
      (w ++ (spell k.asc sp2 ++ (k.asc 0x3E ++ r))) := by
    refine step S g2 (qname_min S.s h2) (by rcases g1 with rfl | rfl <;> rfl) hp hfr rfl fun hx => ?_
    rw [hs1] at hx ⊢
    simp only [pact, hx, actAttlist]
    exact ⟨_, rfl⟩
  have b1 : At F .attlist1 D { s1 with el := { s1.el with declName := converted k.x name.flatten } } :=
    ⟨b.h, b.none_, b.frame, b.D, b.tmp, ⟨b.rest.eldecl, b.rest.len, b.rest.size⟩⟩
  obtain ⟨s2, a2, r2⟩ := att_defs (ext := ext) (fuel := fuel) (expand := expand) (between := between) (allowClose := allowClose) (more := more)
    S hi hdoc h3 hnext _ b1 rfl
  have r3 := a2.white (c := k.c) (ext := ext) (fuel := fuel) (expand := expand) (internal := k.internal) (between := between) (allowClose := allowClose)
    (more := more) (opened := k.opened) S rfl h4 (asc_ne S 0x3E r)
  refine ⟨_, a2.top, ?_⟩
  have r4 := r0.then (r1.then (r2.trans (r3.then (quiet_tok (t := .DECL_CLOSE) (role := .ATTLIST_NONE) (r := r)
    (p := { s2.el.p with h := if s2.el.p.documentEntity then .internalSubset else .externalSubset1 }) S ?_ ?_ rfl ?_ rfl))))
  · simpa using r4
  · rw [pt_gt S.s, S.s.asc.len]
  · rw [S.s.asc.len]; exact Nat.le_refl _
  · simp [PState.next, PState.handle, a2.h, attlist1, PState.top]

end

end Verif.C59
