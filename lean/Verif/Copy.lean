import Verif.Props.C64

/-! # What the default handler is given (C65)

With no handler but the default handler, and entities not expanded, every token is passed to it, once. -/

set_option autoImplicit false

namespace Verif.C65
open C43 C53 C59 C60 C64 Spec Verif PState

/-- The only handler is the one set with XML_SetDefaultHandler. -/
structure Alone (c : PCfg) : Prop where
  content : c.c.startElement = false ∧ c.c.endElement = false ∧ c.c.chars = false ∧ c.c.pi = false ∧ c.c.comment = false ∧
    c.c.startCdata = false ∧ c.c.endCdata = false ∧ c.c.startNs = false ∧ c.c.endNs = false ∧ c.c.skipped = false ∧ c.c.externalRef = false
  dflt : c.c.dflt = true
  expand : c.c.expandInternal = false
  prolog : c.startDoctype = false ∧ c.endDoctype = false ∧ c.entityDecl = false ∧ c.unparsed = false ∧ c.notationDecl = false ∧
    c.attlistDecl = false ∧ c.elementDecl = false ∧ c.xmlDecl = false
  notStandalone : c.notStandalone = none
  unknown : c.unknown = fun _ => none
  isPE : c.isPE = false

/-- The strings passed to the default handler, joined. -/
def text (E : List Ev) : Buf := E.flatMap fun | .dflt b => b | _ => []

def ptext (E : List PEv) : Buf := E.flatMap fun | .ev (.dflt b) => b | _ => []

/-- Nothing but calls of the default handler. -/
def Only (E : List Ev) : Prop := ∀ v ∈ E, ∃ b, v = .dflt b
def POnly (E : List PEv) : Prop := ∀ v ∈ E, ∃ b, v = .ev (.dflt b)

theorem text_append (E F : List Ev) : text (E ++ F) = text E ++ text F := by simp [text]
theorem ptext_append (E F : List PEv) : ptext (E ++ F) = ptext E ++ ptext F := by simp [ptext]
theorem ptext_map (E : List Ev) : ptext (E.map .ev) = text E := by
  induction E with
  | nil => rfl
  | cons v E ih =>
    rw [List.map_cons, show (PEv.ev v :: E.map .ev) = [PEv.ev v] ++ E.map .ev from rfl, ptext_append, ih, show v :: E = [v] ++ E from rfl, text_append]
    cases v <;> rfl

theorem Only.append {E F : List Ev} (h : Only E) (h2 : Only F) : Only (E ++ F) := by
  intro v hv; rcases List.mem_append.1 hv with g | g
  · exact h v g
  · exact h2 v g
theorem POnly.append {E F : List PEv} (h : POnly E) (h2 : POnly F) : POnly (E ++ F) := by
  intro v hv; rcases List.mem_append.1 hv with g | g
  · exact h v g
  · exact h2 v g
theorem Only.nil : Only [] := by intro v hv; cases hv
theorem POnly.nil : POnly [] := by intro v hv; cases hv
theorem Only.map {E : List Ev} (h : Only E) : POnly (E.map .ev) := by
  intro v hv
  obtain ⟨u, hu, rfl⟩ := List.mem_map.1 hv
  obtain ⟨b, rfl⟩ := h u hu
  exact ⟨b, rfl⟩

/-- The text of a token as the default handler is given it. -/
def raw (x : XEnc) (w : Buf) : Buf := (pieces x w).flatten

/-- Text that can be converted apart from what follows it. -/
def Splits (x : XEnc) (a : Buf) : Prop := x.e.mb ∣ a.length ∧ ∀ v, raw x (a ++ v) = raw x a ++ raw x v

/-- Tokens are converted one by one. -/
structure Joins (x : XEnc) : Prop where
  nil : raw x [] = []
  tok : ∀ (m : Mode) (b : Buf), Splits x (b.take (m.tok x.e b).next)
  ign : ∀ b : Buf, Splits x (b.take (ignoreSectionTok x.e b).next)

theorem Joins.empty {x : XEnc} (h : Joins x) : Splits x [] := ⟨Nat.dvd_zero _, fun v => by rw [h.nil]; rfl⟩

theorem Splits.append {x : XEnc} {a b : Buf} (h : Splits x a) (g : Splits x b) : Splits x (a ++ b) :=
  ⟨by rw [List.length_append]; exact Nat.dvd_add h.1 g.1, fun v => by rw [List.append_assoc, h.2, g.2, h.2, List.append_assoc]⟩

theorem only_dflt (c : Cfg) (x : XEnc) (w : Buf) : Only (toDefault c x w) := by
  intro v hv
  unfold toDefault at hv
  split at hv
  · obtain ⟨b, -, rfl⟩ := List.mem_map.1 hv; exact ⟨b, rfl⟩
  · cases hv

theorem text_dflt {c : Cfg} (h : c.dflt = true) (x : XEnc) (w : Buf) : text (toDefault c x w) = raw x w := by
  rw [toDefault, if_pos h, raw]
  generalize pieces x w = ps
  induction ps with
  | nil => rfl
  | cons p ps ih => rw [List.map_cons, show (Ev.dflt p :: ps.map .dflt) = [Ev.dflt p] ++ ps.map .dflt from rfl, text_append, ih]; simp [text]

/-! ### Content -/

section
variable {c : PCfg} (A : Alone c) {D : Dtd} {int x : XEnc} {opened : List Buf} {start : Nat}
  {expand : Buf → Buf → CState → List Ev × Except XErr CState}
include A

/-- A step passes on its token, if it does not fail. -/
def Passes (x : XEnc) (w : Buf) (r : List Ev × Except XErr CState) : Prop :=
  Only r.1 ∧ match r.2 with | .ok _ => text r.1 = raw x w | .error _ => text r.1 = []

theorem pass_dflt (w : Buf) (s : CState) : Passes x w (toDefault c.c x w, .ok s) := ⟨only_dflt _ _ _, text_dflt A.dflt _ _⟩

theorem pass_or (w : Buf) (b : Bool) (hb : b = false) (v : Ev) (s : CState) : Passes x w (orDefault c.c x b v w, .ok s) := by
  rw [orDefault, hb]; exact pass_dflt A w s

theorem pass_chars (w : Buf) (ps : List Buf) (s : CState) : Passes x w (toChars c.c x ps w, .ok s) := by
  rw [toChars, A.content.2.2.1]; exact pass_dflt A w s

theorem pass_ref (s : CState) (w : Buf) : Passes x w (actEntityRef c.c D x opened expand s w) := by
  obtain ⟨h1, h2, h3, h4, h5, h6, h7, h8, h9, h10, h11⟩ := A.content
  unfold actEntityRef
  simp only
  split
  · exact pass_chars A _ _ _
  · cases D.entity (converted x (refName x.e w)) with
    | none =>
      simp only
      split
      · exact ⟨.nil, rfl⟩
      · exact pass_or A _ _ h10 _ _
    | some ent =>
      simp only
      split
      · exact ⟨.nil, rfl⟩
      · split
        · exact ⟨.nil, rfl⟩
        · split
          · exact ⟨.nil, rfl⟩
          · cases ent.text with
            | some t => simp only [A.expand, Bool.not_false, if_true]; exact pass_or A _ _ h10 _ _
            | none => simp only [h11, Bool.false_eq_true, if_false]; exact pass_dflt A _ _

omit A in
theorem quiet_chain {α σ ε : Type} {f : σ → α → List Ev × Except ε σ} (h : ∀ s a, (f s a).1 = []) (as : List α) : ∀ s, (chain f s as).1 = [] := by
  induction as with
  | nil => intro s; rfl
  | cons a as ih =>
    intro s
    rw [chain]
    have := h s a
    generalize f s a = r at *
    obtain ⟨E, o⟩ := r
    cases o with
    | error e => exact this
    | ok s' => simp only at this ⊢; rw [this, ih]; rfl

theorem quiet_binding (v : Env) (bs : List Binding) (p : Option Buf) (att uri : Buf) : (addBinding c.c v bs p att uri).1 = [] := by
  obtain ⟨h1, h2, h3, h4, h5, h6, h7, h8, h9, h10, h11⟩ := A.content
  unfold addBinding
  cases bindingError p uri <;> simp [h8]

/-- No namespace handler: nothing is reported while attributes are processed. -/
theorem quiet_store (flags : Buf → AFlag) (env : Env) (n w : Buf) : (storeAtts c.c D int x opened flags env n w).1 = [] := by
  have h1 (s : AState) (a : Att) : (attOne c.c D int x opened (D.elem n) w s a).1 = [] := by
    unfold attOne
    simp only
    split
    · rfl
    · split
      · rfl
      · split
        · rfl
        · rfl
        · rename_i p _
          have := quiet_binding A s.env s.binds p (attName x w a)
          rename_i v _ _ _
          have h := this v
          split <;> rename_i heq <;> (rw [heq] at h; exact h)
  have h2 (s : AState) (d : ADecl) : (defOne c.c s d).1 = [] := by
    unfold defOne
    split
    · rfl
    · split
      · rfl
      · split
        · rfl
        · rfl
        · rename_i p _
          have := quiet_binding A s.env s.binds p d.name
          rename_i v _ _ _ _
          have h := this v
          split <;> rename_i heq <;> (rw [heq] at h; exact h)
  unfold storeAtts
  simp only
  have g1 := quiet_chain h1 (getAtts x.e w) ⟨[], flags, env, [], 0⟩
  generalize chain (attOne c.c D int x opened (D.elem n) w) ⟨[], flags, env, [], 0⟩ (getAtts x.e w) = r at *
  obtain ⟨E, o⟩ := r
  simp only at g1
  subst g1
  cases o with
  | error e => rfl
  | ok s =>
    simp only
    have g2 := quiet_chain h2 (D.elem n).atts s
    generalize chain (defOne c.c) s (D.elem n).atts = r at *
    obtain ⟨E, o⟩ := r
    simp only at g2
    subst g2
    cases o with
    | error e => rfl
    | ok s =>
      simp only
      split
      · rfl
      · split <;> rfl

theorem quiet_free (bs : List Binding) : ∀ env : Env, (freeBindings c.c env bs).1 = [] := by
  obtain ⟨h1, h2, h3, h4, h5, h6, h7, h8, h9, h10, h11⟩ := A.content
  induction bs with
  | nil => intro env; rfl
  | cons b bs ih => intro env; rw [freeBindings]; simp only [h9, ih]; rfl

theorem pass_act (s : CState) (t : Tok) (w : Buf) : Passes x w (act c.c D int x opened start expand s t w) := by
  obtain ⟨h1, h2, h3, h4, h5, h6, h7, h8, h9, h10, h11⟩ := A.content
  have hs : Passes x w (actStart c.c D int x opened s w) := by
    unfold actStart
    simp only
    have := quiet_store A (D := D) (int := int) (x := x) (opened := opened) s.flags s.env (converted x (rawName x x.e.mb w)) w
    generalize storeAtts c.c D int x opened s.flags s.env (converted x (rawName x x.e.mb w)) w = r at *
    obtain ⟨E, o⟩ := r
    simp only at this
    subst this
    cases o with
    | error e => exact ⟨.nil, rfl⟩
    | ok r => simp only [List.nil_append]; exact pass_or A _ _ h1 _ _
  have hm : Passes x w (actEmpty c.c D int x opened s w) := by
    unfold actEmpty
    simp only
    have := quiet_store A (D := D) (int := int) (x := x) (opened := opened) s.flags s.env (converted x (rawName x x.e.mb w)) w
    generalize storeAtts c.c D int x opened s.flags s.env (converted x (rawName x x.e.mb w)) w = r at *
    obtain ⟨E, o⟩ := r
    simp only at this
    subst this
    cases o with
    | error e => simp only [quiet_free A]; exact ⟨.nil, rfl⟩
    | ok r =>
      simp only [quiet_free A, h1, h2, List.nil_append, List.append_nil, Bool.false_eq_true, if_false, Bool.not_false, Bool.and_self, if_true]
      exact pass_dflt A _ _
  have he : Passes x w (actEnd c.c x start s w) := by
    unfold actEnd
    split
    · exact ⟨.nil, rfl⟩
    · split
      · exact ⟨.nil, rfl⟩
      · split
        · exact ⟨.nil, rfl⟩
        · simp only [quiet_free A, List.append_nil]; exact pass_or A _ _ h2 _ _
  cases t
  case ENTITY_REF => exact pass_ref A _ _
  case START_TAG_NO_ATTS => exact hs
  case START_TAG_WITH_ATTS => exact hs
  case EMPTY_ELEMENT_NO_ATTS => exact hm
  case EMPTY_ELEMENT_WITH_ATTS => exact hm
  case END_TAG => exact he
  case CHAR_REF =>
    rw [act]
    split
    · exact ⟨.nil, rfl⟩
    · exact pass_chars A _ _ _
  case XML_DECL => exact ⟨.nil, rfl⟩
  case DATA_NEWLINE => exact pass_chars A _ _ _
  case DATA_CHARS => exact pass_chars A _ _ _
  case CDATA_SECT_OPEN => exact pass_or A _ _ h6 _ _
  case CDATA_SECT_CLOSE => exact pass_or A _ _ h7 _ _
  case PI => rw [act]; simp only [h4, Bool.false_eq_true, if_false]; exact pass_dflt A _ _
  case COMMENT => rw [act]; simp only [h5, Bool.false_eq_true, if_false]; exact pass_dflt A _ _
  all_goals exact pass_dflt A _ _

/-- A call passes on the bytes it consumes; if it fails, some of them. -/
def Eats (x : XEnc) (more : Bool) (b : Buf) (r : Ran CState) : Prop :=
  Only r.1 ∧ ∃ a q, b = a ++ q ∧ text r.1 = raw x a ∧ ∀ s' q', r.2 = .ok s' q' → q' = q ∧ (Splits x a ∨ (more = false ∧ q = []))

omit A in
theorem Eats.none {more : Bool} {b : Buf} (J : Joins x) {o : Out CState} (h : ∀ s' q', o = .ok s' q' → q' = b) : Eats x more b ([], o) :=
  ⟨.nil, [], b, rfl, J.nil.symm, fun s' q' g => ⟨h s' q' g, .inl J.empty⟩⟩

omit A in
theorem Eats.failed {more : Bool} {b : Buf} (J : Joins x) {E : List Ev} {e : XErr} (h : Only E) (h2 : text E = []) : Eats x more b (E, .err e) :=
  ⟨h, [], b, rfl, h2.trans J.nil.symm, fun _ _ h => by cases h⟩

theorem eats_run {M : Sem CState} (J : Joins x) (hact : ∀ s t w, Passes x w (M.act s t w)) (more : Bool) (n : Nat) :
    ∀ (via : Bool) (s : CState) (b : Buf), b.length = n → Eats x more b (run M x.e more via s b) := by
  induction n using Nat.strongRecOn with
  | _ n ih =>
    intro via s b hn
    rw [run.eq_def]
    simp only
    have hT := J.tok (M.mode s) b
    generalize (M.mode s).tok x.e b = r at hT
    obtain ⟨t, k⟩ := r
    simp only at hT ⊢
    cases (M.mode s).verdict t with
    | wait e =>
      simp only
      split
      · exact .none J (fun _ _ h => by cases h; rfl)
      · exact .none J (fun _ _ h => by cases h)
    | done =>
      simp only
      split
      · exact .none J (fun _ _ h => by cases h; rfl)
      · exact .none J (fun _ _ h => by unfold finish at h; split at h <;> cases h <;> rfl)
    | stop => exact .none J (fun _ _ h => by cases h; rfl)
    | fail e => exact .none J (fun _ _ h => by cases h)
    | last u =>
      simp only
      split
      · exact .none J (fun _ _ h => by cases h; rfl)
      · rename_i hmore
        obtain ⟨h1, h2⟩ := hact s u b
        generalize M.act s u b = p at *
        obtain ⟨E, o⟩ := p
        cases o with
        | error e => exact .failed J h1 h2
        | ok s' => exact ⟨h1, b, [], by simp, h2, fun _ _ h => ⟨by simp only at h; unfold finish at h; split at h <;> cases h <;> rfl, .inr ⟨by simpa using hmore, rfl⟩⟩⟩
    | actStop =>
      simp only
      obtain ⟨h1, h2⟩ := hact s .PROLOG_S (b.take k)
      generalize M.act s .PROLOG_S (b.take k) = p at *
      obtain ⟨E, o⟩ := p
      cases o with
      | error e => exact .failed J h1 h2
      | ok s' =>
        refine ⟨h1, b.take k, b.drop k, (List.take_append_drop ..).symm, h2, fun _ _ h => ⟨?_, .inl hT⟩⟩
        simp only at h
        split at h <;> cases h
        rfl
    | act =>
      simp only
      obtain ⟨h1, h2⟩ := hact s t (b.take k)
      generalize M.act s t (b.take k) = p at *
      obtain ⟨E, o⟩ := p
      cases o with
      | error e => exact .failed J h1 h2
      | ok s' =>
        simp only at h1 h2 ⊢
        have hb : b = b.take k ++ b.drop k := (List.take_append_drop ..).symm
        split
        · split
          · rename_i hlt
            obtain ⟨g1, a, q, g2, g3, g4⟩ := ih _ (by omega) (via && t != .CDATA_SECT_CLOSE) s' (b.drop k) rfl
            refine ⟨h1.append g1, b.take k ++ a, q, ?_, ?_, fun s' q' h => ⟨(g4 s' q' h).1, (g4 s' q' h).2.imp hT.append id⟩⟩
            · rw [List.append_assoc, ← g2]; exact hb
            · rw [pre]; simp only; rw [text_append, h2, g3, hT.2]
          · rename_i hlt
            refine ⟨h1, [], b, rfl, ?_, fun _ _ h => ⟨by cases h; rfl, .inl J.empty⟩⟩
            have : b.take k = [] := by
              rw [List.length_drop] at hlt
              by_cases hk : k = 0
              · rw [hk]; rfl
              · rw [show b = [] from List.length_eq_zero_iff.1 (by omega)]; exact List.take_nil
            rw [this] at h2; exact h2
        · split
          · exact ⟨h1, b.take k, b.drop k, hb, h2, fun _ _ h => ⟨by cases h; rfl, .inl hT⟩⟩
          · exact ⟨h1, b.take k, b.drop k, hb, h2, fun _ _ h => by cases h⟩

theorem eats_call (J : Joins x) (more : Bool) (s : CState) (b : Buf) : Eats x more b (call (parser c.c D int x) x.e more s b) := by
  refine eats_run A J (fun s t w => ?_) more _ _ _ _ rfl
  unfold parser
  cases D.fuel <;> exact pass_act A _ _ _

theorem eats_feed (J : Joins x) (xs : List Buf) : ∀ (s : CState) (r : Buf), Eats x false (r ++ xs.flatten) (feed (parser c.c D int x) x.e s r xs) := by
  induction xs with
  | nil => intro s r; rw [List.flatten_nil, List.append_nil]; exact eats_call A J _ _ _
  | cons y ys ih =>
    intro s r
    cases ys with
    | nil => rw [feed]; simp only [List.flatten_cons, List.flatten_nil, List.append_nil]; exact eats_call A J _ _ _
    | cons z zs =>
      rw [feed]
      · have h := eats_call A (D := D) (int := int) J true s (r ++ y)
        generalize call (parser c.c D int x) x.e true s (r ++ y) = p at *
        obtain ⟨E, o⟩ := p
        obtain ⟨h1, a, q, h2, h3, h4⟩ := h
        rw [List.flatten_cons, ← List.append_assoc, h2, List.append_assoc]
        cases o with
        | err e => exact ⟨h1, a, _, rfl, h3, fun _ _ h => by cases h⟩
        | ok s' r' =>
          obtain ⟨rfl, hT⟩ := h4 _ _ rfl
          have hT : Splits x a := hT.resolve_right (by simp)
          obtain ⟨g1, a', q', g2, g3, g4⟩ := ih s' r'
          refine ⟨h1.append g1, a ++ a', q', ?_, ?_, fun s' q' h => ⟨(g4 s' q' h).1, (g4 s' q' h).2.imp hT.append id⟩⟩
          · rw [g2, List.append_assoc]
          · simp only [pre]; rw [text_append, show text E = _ from h3, g3, hT.2]
      · simp

end

/-! ### The grammar machine -/

/-- The XML declaration can no longer come. -/
def Late (p : PState) : Prop :=
  p.h ≠ .prolog0 ∧ p.h ≠ .externalSubset0 ∧ p.roleNone ≠ .XML_DECL ∧ p.roleNone ≠ .TEXT_DECL

def NoDecl (r : Role) : Prop := r ≠ .XML_DECL ∧ r ≠ .TEXT_DECL

theorem late_handle {e : Enc} {s s' : PState} {t : Tok} {b : Buf} {r : Role} (hl : Late s) (h : s.handle e t b = some (s', r)) : Late s' ∧ NoDecl r := by
  obtain ⟨h1, h2, h3, h4⟩ := hl
  obtain ⟨q, lv, rn, il, de, iv⟩ := s
  unfold handle at h
  cases q <;>
  simp only [prolog1, prolog2, doctype0, doctype1, doctype2, doctype3, doctype4, doctype5,
    internalSubset, externalSubset1, condSect0, condSect1, condSect2, entity0, entity1, entity2, entity3, entity4,
    entity5, entity6, entity7, entity8, entity9, entity10, notation0, notation1, notation2, notation3,
    notation4, attlist0, attlist1, attlist2, attlist3, attlist4, attlist5, attlist6, attlist7,
    attlist8, attlist9, element0, element1, element2, element3, element4, element5, element6,
    element7, declClose, go, stay, top, close, closeGroup] at h <;>
  (try (exfalso; simp at h1 h2; done)) <;>
  (repeat' split at h) <;> simp only [Option.some.injEq, Prod.mk.injEq, reduceCtorEq] at h <;>
  (try (obtain ⟨rfl, rfl⟩ := h)) <;> simp_all [Late, NoDecl]

theorem late_next {e : Enc} {s : PState} {t : Tok} {b : Buf} (hl : Late s) : Late (s.next e t b).1 ∧ NoDecl (s.next e t b).2 := by
  unfold PState.next
  cases hh : s.handle e t b with
  | some r => exact late_handle hl hh
  | none =>
    have hf : s.fall = s := by unfold PState.fall; split <;> simp_all [Late]
    rw [Option.getD_none, hf, common]
    split
    · exact ⟨hl, by simp [NoDecl]⟩
    · exact ⟨⟨by simp, by simp, hl.2.2⟩, by simp [NoDecl]⟩

/-- The first token of a document. -/
theorem first_next {e : Enc} {s : PState} {t : Tok} {b : Buf} (h0 : s.h = .prolog0) (h1 : s.documentEntity = true) (hr : s.roleNone ≠ .XML_DECL ∧ s.roleNone ≠ .TEXT_DECL)
    (hb : t ≠ .BOM) : Late (s.next e t b).1 ∧ ((s.next e t b).2 = .XML_DECL ∨ NoDecl (s.next e t b).2) := by
  obtain ⟨q, lv, rn, il, de, iv⟩ := s
  simp only at h0 h1 hr
  subst h0 h1
  unfold PState.next handle
  simp only [prolog0, go, stay]
  split
  all_goals (try split)
  all_goals simp_all [Late, NoDecl, common, PState.fall, Option.getD]

/-! ### The prolog -/

/-- Nothing is being collected for a handler, and parameter entities are not read. -/
structure Quiet (s : DState) : Prop where
  doctype : s.dName = none
  notation_ : s.nName = none
  pe : s.pe = .never

theorem Quiet.setDecl {s : DState} (h : Quiet s) (f : Entity → Entity) : Quiet (s.setDecl f) ∧ (s.setDecl f).cur = s.cur ∧ (s.setDecl f).el = s.el := by
  unfold DState.setDecl
  split
  · exact ⟨h, rfl, rfl⟩
  · exact ⟨⟨h.1, h.2, h.3⟩, rfl, rfl⟩
  · exact ⟨⟨h.1, h.2, h.3⟩, rfl, rfl⟩

/-- The calls of the element-declaration handler in an outcome that goes on. -/
def _root_.Verif.ElemRes.keepsCalls (L : List (List UInt8 × Block)) : ElemRes → Prop
  | .ok el => el.calls = L
  | .start el => el.calls = L
  | _ => True

/-- Without a handler for element declarations none is called. -/
theorem calls_kept {nm : Buf → List UInt8} {e : Enc} {s : EState} {t : Tok} {b : Buf} {r : Role} :
    (s.act false nm e t b r).keepsCalls s.calls := by
  have hmod : ∀ (s : EState) f, (s.modTop f).keepsCalls s.calls := by
    intro s f
    unfold EState.modTop
    split
    · trivial
    · split <;> trivial
  have hconn : ∀ (s : EState) x, (s.setConn x).keepsCalls s.calls := by
    intro s x
    unfold EState.setConn
    split <;> trivial
  have hgrow : s.grow.calls = s.calls := by unfold EState.grow; split <;> rfl
  have hel : ∀ (s : EState) q n, (s.contentElement q n).keepsCalls s.calls := by
    intro s q n
    unfold EState.contentElement
    split
    · split <;> trivial
    · trivial
  have hleaf : ∀ (s : EState) ty, (s.contentLeaf false ty).keepsCalls s.calls := by
    intro s ty
    unfold EState.contentLeaf
    split <;> trivial
  have hclose : ∀ (s : EState) q, (s.groupClose false q).keepsCalls s.calls := by
    intro s q
    unfold EState.groupClose
    split
    · have := hmod s fun p => { p with quant := q }
      generalize s.modTop _ = m at this ⊢
      cases m with
      | ok s' =>
        simp only [ElemRes.keepsCalls] at this
        simp only []
        split
        · exact this
        · exact this
      | _ => trivial
    · trivial
  unfold EState.act
  split
  · trivial
  · trivial
  · unfold EState.groupOpen
    have := hconn s.grow 0
    rw [hgrow] at this
    generalize s.grow.setConn 0 = m at this ⊢
    cases m with
    | ok s' =>
      simp only [ElemRes.keepsCalls] at this
      simp only []
      split
      · split
        · trivial
        · rw [← this]; exact hmod _ _
      · exact this
    | _ => trivial
  · unfold EState.groupSequence
    split
    · trivial
    · split
      · trivial
      · exact hconn _ _
  · unfold EState.groupChoice
    split
    · trivial
    · split
      · trivial
      · split
        · have := hmod s fun p => if p.type ≠ .MIXED then { p with type := .CHOICE } else p
          generalize s.modTop _ = m at this ⊢
          cases m with
          | ok s' =>
            simp only [ElemRes.keepsCalls] at this
            rw [← this]
            exact hconn _ _
          | _ => trivial
        · exact hconn _ _
  · unfold EState.elementName
    split <;> trivial
  · exact hleaf _ _
  · exact hleaf _ _
  · unfold EState.contentPcdata
    split
    · exact hmod _ _
    · trivial
  · exact hel _ _ _
  · exact hel _ _ _
  · exact hel _ _ _
  · exact hel _ _ _
  · exact hclose _ _
  · exact hclose _ _
  · exact hclose _ _
  · exact hclose _ _
  · trivial

/-- What is done for a token comes to: it is passed on, or will be. -/
def Leaves (x : XEnc) (w : Buf) (fix : Prop) (s : DState) (r : Acted) : Prop :=
  POnly r.1 ∧ match r.2.2 with
    | .go hd => Quiet r.2.1 ∧ r.2.1.el.p = s.el.p ∧ (fix → r.2.1.cur = s.cur) ∧ ptext r.1 = (if hd then [] else raw x w)
    | .start => r.2.1.cur = s.cur ∧ r.1 = []
    | .ignore => Quiet r.2.1 ∧ r.2.1.el.p = s.el.p ∧ r.2.1.cur = s.cur ∧ ptext r.1 = raw x w
    | .fail _ | .panic => ptext r.1 = [] ∨ ptext r.1 = raw x w

section
variable {c : PCfg} (A : Alone c) {ext : Ext} {fuel : Nat} {expand : Bool → Buf → Buf → DState → Acted} {x : XEnc} {w : Buf} {s : DState} {fix : Prop}
include A

omit A in
theorem leave_go {s' : DState} (Q : Quiet s') (hp : s'.el.p = s.el.p) (hc : s'.cur = s.cur) : Leaves x w fix s ([], s', .go true) := ⟨.nil, Q, hp, fun _ => hc, rfl⟩

omit A in
theorem leave_fail {s' : DState} (e : XErr) : Leaves x w fix s ([], s', .fail e) := ⟨.nil, .inl rfl⟩

omit A in
theorem leave_panic {s' : DState} : Leaves x w fix s ([], s', .panic) := ⟨.nil, .inl rfl⟩

theorem leave_dflt (Q : Quiet s) : Leaves x w fix s ((toDefault c.c x w).map .ev, s, .go false) :=
  ⟨(only_dflt c.c x w).map, Q, rfl, fun _ => rfl, by rw [ptext_map, text_dflt A.dflt]; rfl⟩

theorem leave_check (hd : Bool) (s : DState) : standaloneCheck c s hd = ([], s, .go hd) := by
  simp only [standaloneCheck, askStandalone, A.notStandalone]
  split <;> rfl

theorem quiet_subset (Q : Quiet s) (atRoot : Bool) (opened : List Buf) : ∃ s', readSubset c ext opened atRoot s = ([], s', .go true) ∧ Quiet s' ∧
    s'.el = s.el ∧ s'.cur = s.cur := by
  simp only [readSubset]
  rw [if_neg (by simp [Q.pe])]
  exact ⟨_, rfl, ⟨Q.1, Q.2, Q.3⟩, rfl, rfl⟩

theorem leave_close (Q : Quiet s) (opened : List Buf) (ac : Bool) : Leaves x w fix s (actDoctypeClose c ext opened ac s) := by
  obtain ⟨-, he, -⟩ := A.prolog
  unfold actDoctypeClose
  split
  · exact leave_fail _
  · simp only [Q.doctype, Option.isSome_none, Bool.false_eq_true, if_false, Option.isNone_none, he, Bool.not_false, Bool.and_self]
    split
    · obtain ⟨s', h, q, h1, h2⟩ := quiet_subset A (ext := ext) Q false opened
      rw [h]
      exact leave_go ⟨q.1, q.2, q.3⟩ (by show s'.el.p = _; rw [h1]) h2
    · exact leave_go Q rfl rfl

theorem leave_start (Q : Quiet s) (opened : List Buf) : Leaves x w fix s (actInstanceStart c ext opened s) := by
  unfold actInstanceStart
  split
  · obtain ⟨s', h, q, h1, h2⟩ := quiet_subset A (ext := ext) Q true opened
    rw [h]
    exact ⟨.nil, h2, rfl⟩
  · exact ⟨.nil, rfl, rfl⟩

theorem leave_doctype (Q : Quiet s) (r : Role) : Leaves x w fix s (actDoctype c s x r w) := by
  obtain ⟨hs, -⟩ := A.prolog
  unfold actDoctype
  split
  · rw [if_neg (by simp [hs])]; exact leave_go ⟨Q.1, Q.2, Q.3⟩ rfl rfl
  · rw [if_neg (by simp [hs])]; exact leave_go Q rfl rfl
  · have key : ∀ s1 : DState, Quiet s1 → s1.el = s.el → s1.cur = s.cur → Leaves x w fix s (docPublic c x w s1) := by
      intro s1 q1 he hc
      unfold docPublic
      split
      · exact leave_fail _
      · rw [if_neg (by simp [hs])]
        unfold docPublic.docPublicSet
        split
        · have := Quiet.setDecl q1 fun e => { e with publicId := some (pubNorm (converted x (refName x.e w))) }
          exact leave_go this.1 (by rw [this.2.2, he]) (by rw [this.2.1, hc])
        · exact leave_go q1 (by rw [he]) hc
    exact key _ ⟨Q.1, Q.2, Q.3⟩ rfl rfl
  · rw [if_neg (by simp [hs])]
    have key : ∀ s1 : DState, Quiet s1 → s1.el = s.el → s1.cur = s.cur → Leaves x w fix s (docSystem c x w s1) := by
      intro s1 q1 he hc
      have ha : askStandalone c s1.D = ([], false) := by simp only [askStandalone, A.notStandalone]; split <;> rfl
      unfold docSystem
      simp only [ha, q1.pe, if_true, Bool.false_eq_true, if_false, hs, Bool.not_false]
      have q2 : Quiet (docEntry s1) ∧ (docEntry s1).el = s.el ∧ (docEntry s1).cur = s.cur := by
        unfold docEntry
        split
        · exact ⟨⟨q1.1, q1.2, q1.3⟩, he, hc⟩
        · exact ⟨q1, he, hc⟩
      unfold docSystemSet
      split
      · have := Quiet.setDecl q2.1 fun e => { e with systemId := some (converted x (refName x.e w)), base := c.base }
        exact leave_go this.1 (by rw [this.2.2, q2.2.1]) (by rw [this.2.1, q2.2.2])
      · exact leave_go q2.1 (by rw [q2.2.1]) q2.2.2
    exact key _ ⟨Q.1, Q.2, Q.3⟩ rfl rfl
  · exact leave_go Q rfl rfl

theorem leave_attlist (Q : Quiet s) (r : Role) : Leaves x w fix s ([], actAttlist c s x r w, .go (!(s.D.keep && c.attlistDecl))) := by
  obtain ⟨-, -, -, -, -, ha, -⟩ := A.prolog
  simp only [ha, Bool.and_false, Bool.not_false]
  refine leave_go ?_ ?_ ?_ <;> unfold actAttlist
  · split <;> first | exact ⟨Q.1, Q.2, Q.3⟩ | (split <;> exact ⟨Q.1, Q.2, Q.3⟩)
  · split <;> first | rfl | (split <;> rfl)
  · split <;> first | rfl | (split <;> rfl)

theorem leave_default (Q : Quiet s) (r : Role) (internal : Bool) : Leaves x w fix s (actAttDefault c s x internal r w) := by
  obtain ⟨-, -, -, -, -, ha, -⟩ := A.prolog
  unfold actAttDefault
  split
  · exact leave_go Q rfl rfl
  · have hr : ∀ s1 v q, reportAttribute c s1 v q = ([], s1, .go true) := by intro s1 v q; simp [reportAttribute, ha]
    split
    · simp only [hr]; exact leave_go ⟨Q.1, Q.2, Q.3⟩ rfl rfl
    · simp only [hr]; exact leave_go ⟨Q.1, Q.2, Q.3⟩ rfl rfl
    · split
      · exact leave_fail _
      · simp only [hr]; exact leave_go ⟨Q.1, Q.2, Q.3⟩ rfl rfl

def _root_.Verif.EVStep.calls : EVStep → List PEv
  | .stop v => v.E
  | .next _ E _ _ => E

/-- Values of entities are read without calls. -/
theorem quiet_value (pe : PEParsing) (rec : Buf → Shared → Buf → Buf → EVal) (opened : List Buf) (sh : Shared) (pool b : Buf) :
    (evLoop c ext pe x false rec opened sh pool b).E = [] := by
  have hst : ∀ sh pool b, (evStep c ext pe x false rec opened sh pool b).calls = [] := by
    intro sh pool b
    unfold evStep
    simp only [A.isPE, Bool.or_false, Bool.false_eq_true, if_false]
    split <;> first | rfl | (split <;> rfl)
  fun_induction evLoop c ext pe x false rec opened sh pool b
  case case1 sh pool b v h => have := hst sh pool b; rw [h] at this; exact this
  case case2 sh pool b n E sh' pool' h hl v ih =>
    have := hst sh pool b; rw [h] at this
    change E = [] at this
    show E ++ _ = _
    rw [this]; exact ih
  case case3 sh pool b n E sh' pool' h hl => have := hst sh pool b; rw [h] at this; exact this

theorem leave_entity (Q : Quiet s) (opened : List Buf) (r : Role) : Leaves x w fix s (actEntity c ext fuel opened s x false r w) := by
  obtain ⟨-, -, he, hu, -⟩ := A.prolog
  unfold actEntity
  simp only [he, hu, Bool.not_false, Bool.and_false, Bool.false_eq_true, if_false]
  split
  · split
    · exact leave_go ⟨Q.1, Q.2, Q.3⟩ rfl rfl
    · split
      · split <;> exact leave_go ⟨Q.1, Q.2, Q.3⟩ rfl rfl
      · exact leave_go ⟨Q.1, Q.2, Q.3⟩ rfl rfl
  · split
    · split <;> exact leave_go ⟨Q.1, Q.2, Q.3⟩ rfl rfl
    · exact leave_go ⟨Q.1, Q.2, Q.3⟩ rfl rfl
  · split
    · exact leave_go Q rfl rfl
    · have hE : (storeEntityValue c ext s.pe fuel x false opened s.sh [] (refName x.e w)).E = [] := by
        cases fuel <;> exact quiet_value A ..
      generalize storeEntityValue c ext s.pe fuel x false opened s.sh [] (refName x.e w) = v at hE ⊢
      have q := Quiet.setDecl (s := s.setSh v.sh) ⟨Q.1, Q.2, Q.3⟩ fun e => { e with text := some v.pool }
      generalize (s.setSh v.sh).setDecl (fun e => { e with text := some v.pool }) = s1 at q
      rw [hE]
      cases s1.decl <;> cases v.err <;>
        first | exact leave_fail _ | exact leave_go q.1 (by rw [q.2.2]; rfl) (by rw [q.2.1]; rfl)
  · split
    · exact leave_fail _
    · split
      · have q := Quiet.setDecl Q fun e => { e with publicId := some (pubNorm (converted x (refName x.e w))) }
        exact leave_go q.1 (by rw [q.2.2]) q.2.1
      · exact leave_go Q rfl rfl
  · split
    · have q := Quiet.setDecl Q fun e => { e with systemId := some (converted x (refName x.e w)), base := c.base }
      exact leave_go q.1 (by rw [q.2.2]) q.2.1
    · exact leave_go Q rfl rfl
  · split <;> exact leave_go Q rfl rfl
  · split
    · have q := Quiet.setDecl Q fun e => { e with notation_ := some (converted x w) }
      generalize s.setDecl (fun e => { e with notation_ := some (converted x w) }) = s1 at q
      split <;> exact leave_go q.1 (by rw [q.2.2]) q.2.1
    · exact leave_go Q rfl rfl
  · exact leave_go Q rfl rfl

theorem leave_notation (Q : Quiet s) (r : Role) : Leaves x w fix s (actNotation c s x r w) := by
  obtain ⟨-, -, -, -, hn, -⟩ := A.prolog
  unfold actNotation
  simp only [hn, Bool.and_false, Bool.false_eq_true, if_false, Q.notation_, Option.isSome_none]
  split
  · exact leave_go ⟨Q.1, rfl, Q.3⟩ rfl rfl
  · split
    · exact leave_fail _
    · exact leave_go Q rfl rfl
  · exact leave_go ⟨Q.1, rfl, Q.3⟩ rfl rfl
  · exact leave_go ⟨Q.1, rfl, Q.3⟩ rfl rfl

theorem leave_element (Q : Quiet s) (r : Role) (t : Tok) : Leaves x w fix s (actElement c s x r t w) := by
  obtain ⟨-, -, -, -, -, -, he, -⟩ := A.prolog
  unfold actElement
  have h1 := calls_kept (nm := converted x) (e := x.e) (s := { s.el with calls := [] }) (t := t) (b := w) (r := r)
  have h2 := EState.act_p (decl := false) (nm := converted x) (e := x.e) (s := { s.el with calls := [] }) (t := t) (b := w) (r := r)
  rw [he]
  generalize ({ s.el with calls := [] } : EState).act false (converted x) x.e t w r = m at h1 h2
  cases m with
  | err e => exact leave_fail _
  | fault => exact leave_panic
  | start el => exact ⟨.nil, rfl, rfl⟩
  | ok el =>
    simp only [ElemRes.keepsCalls] at h1
    simp only [ElemRes.keepsP] at h2
    simp only [h1, List.map_nil, Bool.and_false, Bool.false_and, Bool.not_false]
    cases r <;> exact leave_go ⟨Q.1, Q.2, Q.3⟩ h2 rfl

theorem leave_decl (Q : Quiet s) (isText : Bool) : Leaves (s.x c false) w False s (actXmlDecl c s isText w) := by
  obtain ⟨-, -, -, -, -, -, -, hx⟩ := A.prolog
  simp only [actXmlDecl, hx, Bool.false_eq_true, if_false]
  cases doParseXmlDecl (s.cur.x c.c.ns) isText (declText (s.cur.x c.c.ns).e w) with
  | panic => exact leave_panic
  | bad => exact leave_fail _
  | ok o =>
    simp only
    generalize hs1 : (if (!isText && o.standalone == some true) = true then _ else s) = s1
    have q1 : Quiet s1 ∧ s1.el = s.el ∧ s1.cur = s.cur := by
      rw [← hs1]
      split
      · exact ⟨⟨Q.1, Q.2, by simp [Q.pe]⟩, rfl, rfl⟩
      · exact ⟨Q, rfl, rfl⟩
    have hE := (only_dflt c.c (s.cur.x c.c.ns) w).map
    have ht : ptext ((toDefault c.c (s.cur.x c.c.ns) w).map .ev) = raw (s.cur.x c.c.ns) w := by rw [ptext_map, text_dflt A.dflt]
    have ok : ∀ s2 : DState, Quiet s2 → s2.el = s.el → Leaves (s.x c false) w False s ((toDefault c.c (s.cur.x c.c.ns) w).map .ev, s2, .go false) :=
      fun s2 q he => ⟨hE, q, by rw [he], False.elim, ht⟩
    cases hcur : s1.cur with
    | other y => exact ok _ q1.1 q1.2.1
    | builtin i =>
      simp only
      cases processXmlDecl c.c.ns i c.protocol isText (declText (s.cur.x c.c.ns).e w) with
      | panic => exact ⟨hE, .inr ht⟩
      | error => exact ⟨hE, .inr ht⟩
      | incorrectEncoding => exact ⟨hE, .inr ht⟩
      | proceed j => exact ok _ ⟨q1.1.1, q1.1.2, q1.1.3⟩ q1.2.1
      | askHandler =>
        simp only [A.unknown]
        exact ⟨hE, .inr ht⟩

theorem leave_param (Q : Quiet s) (opened : List Buf) (r : Role) : Leaves x w fix s (actParamRef c ext expand opened s x false r w) := by
  simp only [actParamRef, paramRef, Q.pe, if_true]
  rw [leave_check A true]
  exact leave_go ⟨Q.1, Q.2, rfl⟩ rfl rfl

/-- Every role leaves its token to the default handler, or passes it on. -/
theorem leave_pact (Q : Quiet s) (opened : List Buf) (ac : Bool) {r : Role} {t : Tok} (hb : t ≠ .BOM) :
    Leaves (s.x c false) w (NoDecl r) s (pact c ext fuel expand false ac opened s r t w) := by
  obtain ⟨hs, he, hed, hu, hn, ha, hel, hx⟩ := A.prolog
  obtain ⟨g1, g2, g3, hpi, hcm, -⟩ := A.content
  cases r
  case XML_DECL =>
    have := leave_decl A (w := w) Q false
    simp only [pact]
    unfold Leaves at *
    refine ⟨this.1, ?_⟩
    have h2 := this.2
    generalize actXmlDecl c s false w = y at *
    obtain ⟨E, s1, o⟩ := y
    cases o with
    | go hd => exact ⟨h2.1, h2.2.1, fun g => absurd rfl g.1, h2.2.2.2⟩
    | _ => exact h2
  case TEXT_DECL =>
    have := leave_decl A (w := w) Q true
    simp only [pact]
    unfold Leaves at *
    refine ⟨this.1, ?_⟩
    have h2 := this.2
    generalize actXmlDecl c s true w = y at *
    obtain ⟨E, s1, o⟩ := y
    cases o with
    | go hd => exact ⟨h2.1, h2.2.1, fun g => absurd rfl g.2, h2.2.2.2⟩
    | _ => exact h2
  case IGNORE_SECT => exact ⟨(only_dflt c.c _ w).map, Q, rfl, rfl, by show ptext ((toDefault ..).map .ev) = _; rw [ptext_map, text_dflt A.dflt]⟩
  all_goals simp only [pact, hs, hed, hn, ha, hel, Bool.and_false, Bool.not_false]
  all_goals first
    | exact leave_go Q rfl rfl
    | exact leave_fail _
    | exact leave_doctype A Q _
    | exact leave_close A Q _ _
    | exact leave_start A Q _
    | (have := fun fix r => leave_attlist A (x := s.x c false) (w := w) (fix := fix) Q r; simp only [ha, Bool.and_false, Bool.not_false] at this; exact this _ _)
    | exact leave_default A Q _ _
    | exact leave_entity A Q _ _
    | exact leave_notation A Q _
    | exact leave_element A Q _ _
    | (simp only [actPI, hpi, Bool.false_eq_true, if_false]; exact leave_dflt A Q)
    | (simp only [actComment, hcm, Bool.false_eq_true, if_false]; exact leave_dflt A Q)
    | exact leave_param A Q _ _
    | (rw [show (t != Tok.BOM) = true by simp [hb]]; exact leave_go Q rfl rfl)
    | skip


end

/-! ### Runs of the prolog -/

/-- The bytes of `b` before `q` have been passed on. -/
def Got (x : XEnc) (b : Buf) (E : List PEv) (q : Buf) : Prop := POnly E ∧ ∃ a, b = a ++ q ∧ ptext E = raw x a ∧ Splits x a

/-- Some of the bytes of `b` have been passed on. -/
def Some1 (x : XEnc) (b : Buf) (E : List PEv) : Prop := POnly E ∧ ∃ a q, b = a ++ q ∧ ptext E = raw x a

theorem Got.some {x : XEnc} {b q : Buf} {E : List PEv} (h : Got x b E q) : Some1 x b E := by
  obtain ⟨h1, a, h2, h3, -⟩ := h
  exact ⟨h1, a, q, h2, h3⟩

/-- A token after the first has been passed on. -/
structure Passed (c : PCfg) (x : XEnc) (w : Buf) (E : List PEv) (s : DState) : Prop where
  only : POnly E
  text : ptext E = raw x w
  quiet : Quiet s
  late : Late s.el.p
  enc : s.x c false = x

def Round (c : PCfg) (x : XEnc) (w : Buf) (r : Acted) : Prop :=
  match r.2.2 with
  | .go _ => Passed c x w r.1 r.2.1
  | .ignore => Passed c x w r.1 r.2.1
  | .start => r.1 = [] ∧ r.2.1.x c false = x
  | .fail _ | .panic => POnly r.1 ∧ (ptext r.1 = [] ∨ ptext r.1 = raw x w)

/-- What a call comes to. -/
def PEats (c : PCfg) (x : XEnc) (b : Buf) (r : Prolog) : Prop :=
  match r.2.2 with
  | .done q => Got x b r.1 q ∧ Quiet r.2.1 ∧ Late r.2.1.el.p ∧ r.2.1.x c false = x
  | .content q => Got x b r.1 q ∧ r.2.1.x c false = x
  | .err _ | .panic => Some1 x b r.1

section
variable {c : PCfg} (A : Alone c) {ext : Ext} {fuel : Nat} {expand : Bool → Buf → Buf → DState → Acted} {x : XEnc} {opened : List Buf}
include A

omit A in
theorem x_cur {s s' : DState} (h : s'.cur = s.cur) : s'.x c false = s.x c false := by simp [DState.x, h]

theorem round_of {s s1 : DState} {r : Role} {t : Tok} {w : Buf} (Q : Quiet s1) (hc : s1.cur = s.cur) (hl : Late s1.el.p) (hr : NoDecl r) (hb : t ≠ .BOM) (ac : Bool) :
    Round c (s.x c false) w (match pact c ext fuel expand false ac opened s1 r t w with
      | (E, s, .go true) => (E ++ (toDefault c.c (s.x c false) w).map .ev, s, .go true)
      | r => r) := by
  have h := leave_pact A (ext := ext) (fuel := fuel) (expand := expand) (w := w) (r := r) Q opened ac hb
  rw [x_cur hc] at h
  generalize pact c ext fuel expand false ac opened s1 r t w = y at h
  obtain ⟨E, s2, o⟩ := y
  obtain ⟨h1, h2⟩ := h
  cases o with
  | go hd =>
    obtain ⟨q, hp, hcc, ht⟩ := h2
    have hx : s2.x c false = s.x c false := x_cur ((hcc hr).trans hc)
    cases hd with
    | true =>
      refine ⟨h1.append (only_dflt c.c _ w).map, ?_, q, by rw [hp]; exact hl, hx⟩
      simp only at ht ⊢
      rw [ptext_append, ht, ptext_map, text_dflt A.dflt, hx]; rfl
    | false => exact ⟨h1, ht, q, by rw [hp]; exact hl, hx⟩
  | start => exact ⟨h2.2, x_cur (h2.1.trans hc)⟩
  | ignore => exact ⟨h1, h2.2.2.2, h2.1, by rw [h2.2.1]; exact hl, x_cur (h2.2.2.1.trans hc)⟩
  | fail e => exact ⟨h1, h2⟩
  | panic => exact ⟨h1, h2⟩

theorem late_round {s : DState} (Q : Quiet s) (hl : Late s.el.p) {t : Tok} (hb : t ≠ .BOM) (ac : Bool) (w : Buf) :
    Round c (s.x c false) w (pround c ext fuel expand false ac opened s t w) := by
  have h := late_next (e := (s.x c false).e) (t := t) (b := w) hl
  exact round_of A (s := s) (s1 := { s with el := { s.el with p := (s.el.p.next (s.x c false).e t w).1 } }) ⟨Q.1, Q.2, Q.3⟩ rfl h.1 h.2 hb ac

omit A in
theorem Got.nil (J : Joins x) (b : Buf) : Got x b [] b := ⟨.nil, [], rfl, J.nil.symm, J.empty⟩

omit A in
theorem Got.pre {a b' q : Buf} {E F : List PEv} (J : Splits x a) (h1 : POnly E) (h2 : ptext E = raw x a) (h : Got x b' F q) : Got x (a ++ b') (E ++ F) q := by
  obtain ⟨g1, a', rfl, g2, g3⟩ := h
  exact ⟨h1.append g1, a ++ a', by simp, by rw [ptext_append, h2, g2, J.2], J.append g3⟩

omit A in
theorem Some1.pre {a b' : Buf} {E F : List PEv} (J : Splits x a) (h1 : POnly E) (h2 : ptext E = raw x a) (h : Some1 x b' F) : Some1 x (a ++ b') (E ++ F) := by
  obtain ⟨g1, a', q, rfl, g2⟩ := h
  exact ⟨h1.append g1, a ++ a', q, by simp, by rw [ptext_append, h2, g2, J.2]⟩

omit A in
theorem PEats.pre {a b' : Buf} {E : List PEv} (J : Splits x a) (h1 : POnly E) (h2 : ptext E = raw x a) {r : Prolog} (h : PEats c x b' r) :
    PEats c x (a ++ b') (Prolog.pre E r) := by
  obtain ⟨F, s, o⟩ := r
  cases o with
  | done q => exact ⟨h.1.pre J h1 h2, h.2⟩
  | content q => exact ⟨h.1.pre J h1 h2, h.2⟩
  | err e => exact Some1.pre J h1 h2 h
  | panic => exact Some1.pre J h1 h2 h

omit A in
theorem got_some (J : Joins x) {b : Buf} {n : Nat} {E : List PEv} (h1 : POnly E) (h2 : ptext E = [] ∨ ptext E = raw x (b.take n)) : Some1 x b E := by
  rcases h2 with h2 | h2
  · exact ⟨h1, [], b, rfl, by rw [h2, J.nil]⟩
  · exact ⟨h1, b.take n, b.drop n, (List.take_append_drop ..).symm, h2⟩

omit A in
/-- The bytes of a token, which are whole characters unless they are all there will be. -/
theorem see_splits (J : Joins x) {more : Bool} {b : Buf} {t : Tok} {n : Nat} (h : seeToken x false false more false b = .tok t n) :
    Splits x (b.take n) ∨ (more = false ∧ b.drop n = []) := by
  have hT := J.tok .epilog b
  change Splits x (b.take (prologTok x.e b).next) at hT
  rw [seeToken, seeRes] at h
  split at h
  · injection h with _ h
    rw [← h]; exact .inl hT
  · split at h
    · cases h
    · rename_i he hw
      split at h <;> try cases h
      · exact .inl hT
      · rename_i hnI _ _ _ _
        split at h
        · injection h with _ h
          subst h
          refine .inr ⟨?_, List.drop_length⟩
          cases more
          · rfl
          · exact absurd ⟨rfl, hnI⟩ hw
        · cases h

omit A in
/-- At the end of the text there is nothing more to read. -/
theorem prun_nil (hp : c.isPE = false) (ac : Bool) (s : DState) : prun c ext fuel expand false false ac false opened s [] = ([], s, .err .NO_ELEMENTS) := by
  rw [prun.eq_def]
  have : seeToken (s.x c false) false false false c.isPE [] = .fail .NO_ELEMENTS := by
    rw [hp]; rfl
  simp only [this]

/-- What follows a token that is read. -/
def after (c : PCfg) (ext : Ext) (fuel : Nat) (expand : Bool → Buf → Buf → DState → Acted) (ac more : Bool) (opened : List Buf) (b : Buf) (n : Nat) (r : Acted) : Prolog :=
  match r with
  | (E, s, .fail e) => (E, s, .err e)
  | (E, s, .panic) => (E, s, .panic)
  | (E, s, .start) => (E, s, .content b)
  | (E, s, .go _) =>
    if (b.drop n).length < b.length then
      Prolog.pre E (prun c ext fuel expand false false ac more opened s (b.drop n))
    else (E, s, .panic)
  | (E, s, .ignore) =>
    match ignoreSection (s.x c false) more (b.drop n) with
    | .wait => (E, { s with ignoring := true }, .done (b.drop n))
    | .err e => (E, s, .err e)
    | .closed k =>
      if ((b.drop n).drop k).length < b.length then
        Prolog.pre (E ++ (toDefault c.c (s.x c false) ((b.drop n).take k)).map .ev)
          (prun c ext fuel expand false false ac more opened s ((b.drop n).drop k))
      else (E, s, .panic)

omit A in
theorem prun_after {s : DState} {b : Buf} {t : Tok} {n : Nat} {ac more : Bool} (h : seeToken (s.x c false) false false more c.isPE b = .tok t n) :
    prun c ext fuel expand false false ac more opened s b = after c ext fuel expand ac more opened b n (pround c ext fuel expand false ac opened s t (b.take n)) := by
  rw [prun.eq_def]
  simp only [h]
  generalize pround c ext fuel expand false ac opened s t (b.take n) = r
  obtain ⟨E, s', o⟩ := r
  cases o with
  | ignore => simp only [after]; cases ignoreSection (s'.x c false) more (b.drop n) <;> rfl
  | _ => rfl

omit A in
theorem see_pe {x : XEnc} {more : Bool} {b : Buf} : seeToken x false false more false b ≠ .endPE := by
  rw [seeToken, seeRes]
  split
  · simp
  · split
    · simp
    · split <;> simp
      split <;> simp

omit A in
theorem ignore_nil (x : XEnc) : ignoreSection x false [] = .err .SYNTAX := by
  have h : truncBuf x.e [] = [] := by simp [truncBuf]
  have : ignoreSectionTok x.e [] = ⟨.PARTIAL, 0⟩ := by
    rw [ignoreSectionTok, h, ignoreLoop, if_pos (show ([] : Buf).length < x.e.mb from Nat.succ_pos _)]
  simp [ignoreSection, this]

omit A in
theorem ignore_cut (J : Joins x) {more : Bool} {b : Buf} {k : Nat} (h : ignoreSection x more b = .closed k) : Splits x (b.take k) := by
  have hT := J.ign b
  simp only [ignoreSection] at h
  split at h <;> first | (cases h; assumption) | (split at h <;> cases h) | cases h

theorem after_eats (J : Joins x) {ac more : Bool} {b : Buf} {n : Nat} {r : Acted} (hT : Splits x (b.take n) ∨ (more = false ∧ b.drop n = []))
    (h : Round c x (b.take n) r)
    (ih : ∀ s b', b'.length < b.length → Quiet s → Late s.el.p → s.x c false = x → PEats c x b' (prun c ext fuel expand false false ac more opened s b')) :
    PEats c x b (after c ext fuel expand ac more opened b n r) := by
  have hb : b.take n ++ b.drop n = b := List.take_append_drop ..
  obtain ⟨E, s, o⟩ := r
  cases o with
  | fail e => exact got_some J h.1 h.2
  | panic => exact got_some J h.1 h.2
  | start =>
    obtain ⟨rfl, h2⟩ := h
    exact ⟨Got.nil J b, h2⟩
  | go hd =>
    simp only [after]
    split
    · rename_i hl
      rcases hT with hT | ⟨rfl, hT⟩
      · have := (ih s (b.drop n) hl h.quiet h.late h.enc).pre hT h.only h.text
        rwa [hb] at this
      · rw [hT, prun_nil A.isPE]
        exact ⟨by simpa [Prolog.pre] using h.only, b.take n, [], by rw [← hT, hb], by simpa [Prolog.pre] using h.text⟩
    · exact got_some J h.only (.inr h.text)
  | ignore =>
    have hx : s.x c false = x := h.enc
    simp only [after]
    cases hig : ignoreSection (s.x c false) more (b.drop n) with
    | wait =>
      rcases hT with hT | ⟨rfl, hT⟩
      · exact ⟨⟨h.only, b.take n, hb.symm, h.text, hT⟩, ⟨h.quiet.1, h.quiet.2, h.quiet.3⟩, h.late, h.enc⟩
      · rw [hT, ignore_nil] at hig; cases hig
    | err e => exact got_some J h.only (.inr h.text)
    | closed k =>
      have hT : Splits x (b.take n) := hT.resolve_right fun ⟨h1, h2⟩ => by subst h1; rw [h2, ignore_nil] at hig; cases hig
      have hk := ignore_cut J (hx ▸ hig)
      simp only
      split
      · rename_i hl
        have ht : ptext (E ++ (toDefault c.c (s.x c false) ((b.drop n).take k)).map .ev) = raw x (b.take n ++ (b.drop n).take k) := by
          rw [ptext_append, h.text, ptext_map, text_dflt A.dflt, hx, hT.2]
        have := (ih s ((b.drop n).drop k) hl h.quiet h.late h.enc).pre (hT.append hk) (h.only.append (only_dflt c.c _ _).map) ht
        rw [List.append_assoc, List.take_append_drop, hb] at this
        exact this
      · exact got_some J h.only (.inr h.text)

theorem late_run (J : Joins x) (ac more : Bool) (n : Nat) : ∀ (b : Buf), b.length = n → ∀ s : DState, Quiet s → Late s.el.p → s.x c false = x →
    PEats c x b (prun c ext fuel expand false false ac more opened s b) := by
  induction n using Nat.strongRecOn with
  | _ n ih =>
    intro b hb s Q hl hx
    cases hs : seeToken (s.x c false) false false more c.isPE b with
    | wait => rw [prun.eq_def]; simp only [hs]; exact ⟨Got.nil J b, Q, hl, hx⟩
    | fail e => rw [prun.eq_def]; simp only [hs]; exact (Got.nil J b).some
    | panic => rw [prun.eq_def]; simp only [hs]; exact (Got.nil J b).some
    | endPE => rw [A.isPE] at hs; exact absurd hs see_pe
    | tok t k =>
      rw [prun_after hs]
      refine after_eats A J (see_splits J (by rw [← hx]; rw [A.isPE] at hs; exact hs)) ?_ (fun s' b' hb' q l e => ih _ (by omega) b' rfl s' q l e)
      rw [← hx]
      exact late_round A Q hl (fun h => seeToken_noBom (h ▸ hs)) ac _

theorem late_call (J : Joins x) (more : Bool) {s : DState} (Q : Quiet s) (hl : Late s.el.p) (hx : s.x c false = x) (b : Buf) :
    PEats c x b (prologCall c ext fuel opened more s b) := by
  unfold prologCall
  simp only
  split
  · cases hig : ignoreSection (s.x c false) more b with
    | wait => exact ⟨Got.nil J b, Q, hl, hx⟩
    | err e => exact (Got.nil J b).some
    | closed k =>
      have := (late_run A (ext := ext) (fuel := fuel) (expand := expandPE c ext fuel fuel opened) (opened := opened) J true more _ (b.drop k) rfl { s with ignoring := false }
        ⟨Q.1, Q.2, Q.3⟩ hl hx).pre (ignore_cut J (hx ▸ hig)) (E := (toDefault c.c (s.x c false) (b.take k)).map .ev) (a := b.take k) (only_dflt c.c _ _).map
        (by rw [ptext_map, text_dflt A.dflt, hx])
      rwa [List.take_append_drop] at this
  · exact late_run A J true more _ b rfl s Q hl hx

end

/-! ### Nothing is left at the end -/

theorem prologTok_none {e : Enc} {b : Buf} (h : (prologTok e b).tok = .NONE) : b = [] := by
  have nm {t : Tok} (h : t.fail ∨ t.namey ∨ t.nameyNeg ∨ t.nameyOp) : t ≠ .NONE := by
    rintro rfl
    simp [Tok.fail, Tok.namey, Tok.nameyNeg, Tok.nameyOp] at h
  have hb : ∀ b, (prologTokBody e b).tok ≠ .NONE := by
    intro b
    have h1 : Tok.namey .NAME := .inl rfl
    have h2 : Tok.namey .NMTOKEN := .inr (.inl rfl)
    have hn := fun t ht => nm (prologName_tok e t false (b.drop e.mb) e.mb ht)
    have hl := fun o => scanLit_tok e o (b.drop e.mb) e.mb
    have hk := fun k => nm (prologLead_tok e k b)
    have hp := scanPi_tok e (b.drop (2 * e.mb)) (2 * e.mb)
    fun_cases prologTokBody e b <;> grind [Tok.fail, scanDecl_toks, scanPercent_tok, scanPoundName_tok, prologSpace_tok]
  rw [prologTok] at h
  split at h
  · rename_i hb'; simpa using hb'
  · split at h
    · cases h
    · exact absurd h (hb _)

end Verif.C65
