import Verif.DeclAtt
import Verif.ElemReach

/-! Element declarations as written (C59). -/

set_option autoImplicit false

namespace Verif.C59
open C43 C53 Spec Verif PState

/-- Tokens of a content specification, and `>`. -/
def elemTok : Tok → Bool
  | .NAME | .PREFIXED_NAME | .NAME_QUESTION | .NAME_ASTERISK | .NAME_PLUS | .OPEN_PAREN | .CLOSE_PAREN | .CLOSE_PAREN_QUESTION
  | .CLOSE_PAREN_ASTERISK | .CLOSE_PAREN_PLUS | .COMMA | .OR | .POUND_NAME | .DECL_CLOSE => true
  | _ => false

/-- Inside an element declaration. -/
structure ElemHd (p : PState) : Prop where
  none_ : p.roleNone.none_ = true
  h : p.h = .element0 ∨ ElemSim.inElem p.h = true ∨ p.h = .declClose ∧ p.roleNone = .ELEMENT_NONE

/-- The roles `EState.act` acts upon, and `ELEMENT_NONE`. -/
def elemRole : Role → Bool
  | .ELEMENT_NONE => true
  | .ERROR | .INSTANCE_START => false
  | r => !ElemSim.quietRole r

theorem elem_next {e : Enc} {p : PState} {t : Tok} {b : Buf} (hp : ElemHd p) (ht : elemTok t = true) :
    (p.next e t b).2 = .ERROR ∨
    elemRole (p.next e t b).2 = true ∧ (p.next e t b).1.documentEntity = p.documentEntity ∧
      (p.next e t b).1.includeLevel = p.includeLevel ∧ (p.next e t b).1.inEntityValue = p.inEntityValue ∧
      (if t = .DECL_CLOSE then (p.next e t b).1.h = home p.documentEntity ∧ (p.next e t b).1.roleNone.none_ = true else ElemHd (p.next e t b).1) := by
  obtain ⟨h1, h2⟩ := hp
  obtain ⟨h, lv, rn, il, de, iv⟩ := p
  cases h <;> simp [ElemSim.inElem] at h2 <;> cases t <;> first
    | (cases ht; done)
    | exact .inl rfl
    | exact .inr ⟨rfl, rfl, rfl, rfl, h1, .inr (.inl rfl)⟩
    | exact .inr ⟨rfl, rfl, rfl, rfl, rfl, .inr (.inr ⟨rfl, rfl⟩)⟩
    | (subst h2; exact .inr ⟨rfl, rfl, rfl, rfl, rfl, rfl⟩)
    | (simp only [next, handle, element1, element2, element3, element4, element5, element6, element7, closeGroup, go, close, common, fall]
       repeat' split
       all_goals first
         | exact .inl rfl
         | exact .inr ⟨rfl, rfl, rfl, rfl, h1, .inr (.inl rfl)⟩
         | exact .inr ⟨rfl, rfl, rfl, rfl, rfl, .inr (.inr ⟨rfl, rfl⟩)⟩
         | (cases de <;> exact .inl rfl)
         | contradiction)

/-- Calls of the handler apart. -/
def Same (a b : EState) : Prop := { a with calls := [] } = { b with calls := [] }

theorem groupOpen_calls {s s' : EState} (h : s.groupOpen = .ok s') :
    ∃ L, s'.calls = s.calls ++ L ∧ ({ s with calls := [] } : EState).groupOpen = .ok { s' with calls := L } := by
  obtain ⟨p, gs, cn, ie, scf, ix, sl, dn, cs⟩ := s
  have key : ∃ g, ∀ cs, EState.grow ⟨p, gs, cn, ie, scf, ix, sl, dn, cs⟩ = ⟨p, g, cn, ie, scf, ix, sl, dn, cs⟩ := by
    unfold EState.grow
    by_cases hg : p.level ≥ gs
    · refine ⟨if gs ≠ 0 then gs * 2 else 32, fun cs => ?_⟩
      simp only [if_pos hg]
    · refine ⟨gs, fun cs => ?_⟩
      simp only [if_neg hg]
  obtain ⟨g, key⟩ := key
  refine ⟨[], ?_⟩
  simp only [EState.groupOpen, key, EState.setConn, EState.modTop] at h ⊢
  by_cases hl : p.level < g
  · simp only [if_pos hl] at h ⊢
    cases ie with
    | false => simp at h ⊢; subst h; simp
    | true =>
      simp only [if_true] at h ⊢
      cases h1 : nextPart scf ix with
      | none => rw [h1] at h; cases h
      | some scf' =>
        simp only [h1] at h ⊢
        by_cases h2 : scf.length < scf'.length
        · rw [if_pos h2] at h ⊢
          cases h; simp
        · rw [if_neg h2] at h; cases h
  · simp only [if_neg hl] at h
    cases h

theorem act_calls {decl : Bool} {nm : Buf → List UInt8} {e : Enc} {s s' : EState} {t : Tok} {b : Buf} {r : Role}
    (h : s.act decl nm e t b r = .ok s') :
    ∃ L, s'.calls = s.calls ++ L ∧ ({ s with calls := [] } : EState).act decl nm e t b r = .ok { s' with calls := L } := by
  by_cases hr : r = .GROUP_OPEN
  · subst hr; exact groupOpen_calls h
  obtain ⟨p, gs, cn, ie, scf, ix, sl, dn, cs⟩ := s
  cases r <;> first | exact absurd rfl hr | skip
  all_goals
    simp only [EState.act, EState.groupSequence, EState.groupChoice, EState.elementName, EState.contentLeaf,
      EState.contentPcdata, EState.contentElement, EState.groupClose, EState.modTop, EState.setConn] at h ⊢
    grind

theorem step_same {decl : Bool} {nm : Buf → List UInt8} {e : Enc} {a el el' : EState} {t : Tok} {b : Buf} (hs : Same a el)
    (h : el.step decl nm e t b = .ok el') :
    ∃ L, el'.calls = el.calls ++ L ∧ ({ a with p := (a.p.next e t b).1, calls := [] } : EState).act decl nm e t b (a.p.next e t b).2 =
      .ok { el' with calls := L } := by
  obtain ⟨L, h1, h2⟩ := act_calls h
  have hp : a.p = el.p := by
    have h : ({ a with calls := [] } : EState).p = ({ el with calls := [] } : EState).p := by rw [show ({ a with calls := [] } : EState) = _ from hs]
    exact h
  refine ⟨L, h1, ?_⟩
  rw [← h2, hp]
  have := congrArg (fun u : EState => ({ u with p := (el.p.next e t b).1 } : EState).act decl nm e t b (el.p.next e t b).2) hs
  exact this

section
variable {k : Ctx} {ext : Ext} {fuel : Nat} {expand : Bool → Buf → Buf → DState → Acted}
  {between allowClose more : Bool} {F : Frame} {D : DTab} {s : DState}

local notation "R" => Reach k.c ext fuel expand k.internal between allowClose more k.opened k.x

/-- Inside an element declaration, with `el` up to the calls made. -/
structure InElem (F : Frame) (D : DTab) (el : EState) (s : DState) : Prop where
  hd : ElemHd s.el.p
  same : Same s.el el
  frame : Verif.C59.frame s = F
  D : s.D = D
  tmp : s.tmp = []

/-- What the handler is told. -/
def sayElem (L : List (List UInt8 × Block)) : List PEv := L.map fun p => .elementDecl p.1 p.2

theorem heard_elem (L : List (List UInt8 × Block)) : heard (sayElem L) = sayElem L := by
  rw [heard, sayElem, List.filter_eq_self]
  intro v hv
  obtain ⟨q, -, rfl⟩ := List.mem_map.1 hv
  rfl

/-- Leaving out an element of the state. -/
theorem elem_tok {t : Tok} {w r : Buf} {el el' : EState} (S : XSupported k.x k.asc) (a : InElem F D el s) (ht : elemTok t = true)
    (hb : prologTokBody k.x.e (w ++ r) = ⟨t, w.length⟩) (hw : k.x.e.mb ≤ w.length)
    (hst : el.step k.c.elementDecl (converted k.x) k.x.e t w = .ok el') :
    ∃ L s', el'.calls = el.calls ++ L ∧ (if t = .DECL_CLOSE then s'.el.p.h = home F.doc ∧ s'.el.p.roleNone.none_ = true else ElemHd s'.el.p) ∧
      Same s'.el el' ∧ Verif.C59.frame s' = F ∧ s'.D = D ∧ s'.tmp = [] ∧ R s (w ++ r) (sayElem L) s' r := by
  obtain ⟨L, h1, h2⟩ := step_same a.same hst
  have hdoc : s.el.p.documentEntity = F.doc := congrArg Frame.doc a.frame
  rcases elem_next (e := k.x.e) (b := w) a.hd ht with h3 | ⟨h3, h4, h5, h6, h7⟩
  · rw [h3] at h2; cases h2
  have hp' : (el'.p) = (s.el.p.next k.x.e t w).1 := by
    have := ElemSim.step_p hst
    have h : ({ s.el with calls := [] } : EState).p = ({ el with calls := [] } : EState).p := by
      rw [show ({ s.el with calls := [] } : EState) = _ from a.same]
    rw [this]
    exact congrArg (fun u : PState => (u.next k.x.e t w).1) h.symm
  have hte : t.isError = false := by cases t <;> first | rfl | cases ht
  generalize hrole : (s.el.p.next k.x.e t w).2 = role at h2 h3
  by_cases hn : role = .ELEMENT_NONE
  · subst hn
    simp only [EState.act, ElemRes.ok.injEq] at h2
    have hL : L = [] := (congrArg EState.calls h2).symm
    subst hL
    refine ⟨[], s.withP (s.el.p.next k.x.e t w).1, h1, ?_, h2, ?_, a.D, a.tmp, ?_⟩
    · rw [← hdoc]; exact h7
    · rw [← a.frame]
      simp only [Verif.C59.frame, DState.withP, h4, h5, h6]
    · refine step (p := (s.el.p.next k.x.e t w).1) (role := .ELEMENT_NONE) S hb hw hte (by rw [← hrole]) ?_ rfl fun hx => ⟨_, rfl⟩
      simp only [Verif.C59.frame, DState.withP, h4, h5, h6]
  refine ⟨L, { s with el := { el' with calls := [] } }, h1, ?_, rfl, ?_, a.D, a.tmp, ?_⟩
  · simp only [hp']; rw [← hdoc]; exact h7
  · rw [← a.frame]
    simp only [Verif.C59.frame, hp', h4, h5, h6]
  · refine step (p := (s.el.p.next k.x.e t w).1) (role := role) S hb hw hte (by rw [← hrole]) ?_ (heard_elem L) fun hx => ?_
    · simp only [Verif.C59.frame, hp', h4, h5, h6]
    · have hpact : pact k.c ext fuel expand k.internal allowClose k.opened (s.withP (s.el.p.next k.x.e t w).1) role t w =
          actElement k.c (s.withP (s.el.p.next k.x.e t w).1) k.x role t w := by
        rw [← hx]
        cases role <;> first | rfl | (cases h3; done) | exact absurd rfl hn
      rw [hpact]
      have : (({ (s.withP (s.el.p.next k.x.e t w).1).el with calls := [] } : EState).act k.c.elementDecl (converted k.x) k.x.e t w role) =
        .ok { el' with calls := L } := h2
      simp only [actElement, this]
      exact ⟨_, rfl⟩

/-- Tokens with white space between them, in the text `b`, up to `r`. -/
inductive Lexes (x : XEnc) (asc : UInt8 → Buf) : List (Tok × Buf) → Buf → Buf → Prop where
  | nil (r : Buf) : Lexes x asc [] r r
  | cons {ts : List (Tok × Buf)} {b r : Buf} (sp : List UInt8) (t : Tok) (w : Buf) (h1 : AllWS sp)
      (h2 : prologTokBody x.e (w ++ b) = ⟨t, w.length⟩) (h3 : x.e.mb ≤ w.length) (h4 : elemTok t = true) (h5 : Lexes x asc ts b r) :
      Lexes x asc ((t, w) :: ts) (spell asc sp ++ (w ++ b)) r

theorem Lexes.append {x : XEnc} {asc : UInt8 → Buf} {ts us : List (Tok × Buf)} {a b r : Buf} (h1 : Lexes x asc ts a b) (h2 : Lexes x asc us b r) :
    Lexes x asc (ts ++ us) a r := by
  induction h1 with
  | nil => exact h2
  | cons sp t w g1 g2 g3 g4 g5 ih => exact .cons sp t w g1 g2 g3 g4 (ih h2)

theorem Lexes.length {x : XEnc} {asc : UInt8 → Buf} {ts : List (Tok × Buf)} {a b : Buf} (h : Lexes x asc ts a b) :
    ts.length + b.length ≤ a.length := by
  induction h with
  | nil => simp
  | cons sp t w g1 g2 g3 g4 g5 ih =>
    have : 0 < x.e.mb := Nat.succ_pos _
    simp only [List.length_cons, List.length_append]; omega

theorem ElemHd.spacy {p : PState} (h : ElemHd p) : p.h.spacy = true := by
  rcases h.h with h | h | ⟨h, -⟩
  · rw [h]; rfl
  · revert h; cases p.h <;> simp [ElemSim.inElem, Hd.spacy]
  · rw [h]; rfl

theorem elem_toks {ts : List (Tok × Buf)} {b r : Buf} (S : XSupported k.x k.asc) (hl : Lexes k.x k.asc ts b r) :
    ∀ (el el' : EState) (s : DState), InElem F D el s → (∀ y ∈ ts, y.1 ≠ .DECL_CLOSE) →
      el.run k.c.elementDecl (converted k.x) k.x.e ts = .ok el' →
      ∃ L s', el'.calls = el.calls ++ L ∧ InElem F D el' s' ∧ R s b (sayElem L) s' r := by
  induction hl with
  | nil r =>
    intro el el' s a _ h
    simp only [EState.run, ElemRes.ok.injEq] at h
    subst h
    exact ⟨[], s, by simp, a, Reach.refl _ _⟩
  | @cons ts b r sp t w h1 h2 h3 h4 h5 ih =>
    intro el el' s a hc h
    simp only [EState.run] at h
    cases hst : el.step k.c.elementDecl (converted k.x) k.x.e t w with
    | ok el1 =>
      rw [hst] at h
      obtain ⟨L, s1, g1, g2, g3, g4, g5, g6, g7⟩ := elem_tok (ext := ext) (fuel := fuel) (expand := expand) (between := between)
        (allowClose := allowClose) (more := more) S a h4 h2 h3 hst
      rw [if_neg (hc (t, w) (by simp))] at g2
      obtain ⟨L', s2, f1, f2, f3⟩ := ih el1 el' s1 ⟨g2, g3, g4, g5, g6⟩ (fun y hy => hc y (by simp [hy])) h
      refine ⟨L ++ L', s2, by rw [f1, g1, List.append_assoc], f2, ?_⟩
      rw [sayElem, List.map_append]
      have hne : w ++ b ≠ [] := by
        have : 0 < k.x.e.mb := Nat.succ_pos _
        intro hn
        have := congrArg List.length hn
        rw [List.length_append] at this
        simp only [List.length_nil] at this
        omega
      exact (Reach.spaces S a.hd.spacy a.hd.none_ sp (maybe_all h1) (.inl hne)).then (g7.trans f3)
    | start _ => rw [hst] at h; cases h
    | err _ => rw [hst] at h; cases h
    | fault => rw [hst] at h; cases h

/-! ### The tokens of a content specification -/

theorem next_of {asc : UInt8 → Buf} {A : UInt8 → Bool} (hA : ∀ c, isWS c = true → A c = true) {sp : List UInt8} (h : AllWS sp) {r : Buf}
    (hr : NextIn asc A r) : NextIn asc A (spell asc sp ++ r) := by
  cases sp with
  | nil => exact hr
  | cons c sp => exact ⟨c, spell asc sp ++ r, hA c (h c (by simp)), by simp [spell]⟩

/-- What may follow a member of a group. -/
def afterItem (c : UInt8) : Bool := isWS c || c == 0x3E || c == 0x2C || c == 0x7C || c == 0x29

theorem item_name (c : UInt8) (h : afterItem c = true) : afterName c = true := by
  simp only [afterItem, Bool.or_eq_true, beq_iff_eq] at h
  rcases h with (((h | rfl) | rfl) | rfl) | rfl
  · exact ws_afterName c h
  all_goals decide

/-- What may follow `#PCDATA`. -/
def afterPc (c : UInt8) : Bool := isWS c || c == 0x7C || c == 0x29

theorem pc_pound (c : UInt8) (h : afterPc c = true) : afterPound c = true := by
  simp only [afterPc, Bool.or_eq_true, beq_iff_eq] at h
  rcases h with (h | rfl) | rfl
  · simp [afterPound, h]
  all_goals decide

/-- A member of a group is complete. -/
def _root_.Verif.ZS.full : ZS → Bool
  | .e5 _ | .e7 _ _ | .fin _ => true
  | _ => false

theorem full_next {z z' : ZS} {y : Sy} (hz : z.full = true) (h : zstep z y = some z') : (∃ q, y = .cls q) ∨ ∃ ch, y = .sep ch := by
  cases z <;> cases hz <;> cases y <;> first | exact .inl ⟨_, rfl⟩ | exact .inr ⟨_, rfl⟩ | cases h

theorem e3_next {z' : ZS} {y : Sy} (h : zstep .e3 y = some z') : (∃ q, y = .cls q) ∨ y = .sep true := by
  cases y with
  | cls q => exact .inl ⟨q, rfl⟩
  | sep ch => cases ch with
    | true => exact .inr rfl
    | false => cases h
  | _ => cases h

theorem step_full {z z' : ZS} {y : Sy} (h : zstep z y = some z') (hy : (∃ q, y = .cls q) ∨ ∃ q n, y = .nm q n) : z'.full = true := by
  revert h
  fun_cases zstep z y <;> intro h <;> first
    | (cases h; done)
    | (injection h with h; subst h; first | rfl | (rcases hy with ⟨_, hy⟩ | ⟨_, _, hy⟩ <;> cases hy))

theorem step_pcdata {z z' : ZS} (h : zstep z .pcdata = some z') : z' = .e3 := by
  cases z <;> first | (injection h with h; exact h.symm) | cases h

theorem sy_next {x : XEnc} {asc : UInt8 → Buf} {y : Sy} {w : Buf} (h : SyText x asc y w) (hy : (∃ q, y = .cls q) ∨ ∃ ch, y = .sep ch) (b : Buf) :
    NextIn asc afterItem (w ++ b) := by
  cases h with
  | cls q => exact ⟨0x29, _, by decide, List.append_assoc ..⟩
  | comma => exact ⟨0x2C, _, by decide, rfl⟩
  | bar => exact ⟨0x7C, _, by decide, rfl⟩
  | nm | opn | pcdata => rcases hy with ⟨_, hy⟩ | ⟨_, hy⟩ <;> cases hy

theorem sy_next_pc {x : XEnc} {asc : UInt8 → Buf} {y : Sy} {w : Buf} (h : SyText x asc y w) (hy : (∃ q, y = .cls q) ∨ y = .sep true) (b : Buf) :
    NextIn asc afterPc (w ++ b) := by
  cases h with
  | cls q => exact ⟨0x29, _, by decide, List.append_assoc ..⟩
  | bar => exact ⟨0x7C, _, by decide, rfl⟩
  | comma => rcases hy with ⟨_, hy⟩ | hy <;> cases hy
  | nm | opn | pcdata => rcases hy with ⟨_, hy⟩ | hy <;> cases hy

theorem ws_item (c : UInt8) (h : isWS c = true) : afterItem c = true := by simp [afterItem, h]
theorem ws_pc (c : UInt8) (h : isWS c = true) : afterPc c = true := by simp [afterPc, h]

/-- What follows in the text of the remaining symbols. -/
theorem texts_next {x : XEnc} {asc : UInt8 → Buf} {z : ZS} {c : CM} {ys : List Sy} {w r : Buf} (h : SyTexts x asc ys w)
    (hz : zrun z ys = some (.fin c)) (hr : NextIn asc afterItem r) :
    (z.full = true → NextIn asc afterItem (w ++ r)) ∧ (z = .e3 → NextIn asc afterPc (w ++ r)) := by
  cases h with
  | nil =>
    refine ⟨fun _ => hr, fun h => ?_⟩
    subst h; cases hz
  | cons sp h1 h2 h3 =>
    simp only [zrun] at hz
    obtain ⟨z1, hz1, -⟩ := Option.bind_eq_some_iff.1 hz
    simp only [List.append_assoc]
    refine ⟨fun h => next_of ws_item h1 (sy_next h2 (full_next h hz1) _), fun h => ?_⟩
    subst h
    exact next_of ws_pc h1 (sy_next_pc h2 (e3_next hz1) _)

/-- One symbol. -/
theorem sy_tok (S : XSupported k.x k.asc) {y : Sy} {w b : Buf} (h : SyText k.x k.asc y w)
    (h1 : (∃ q, y = .cls q) ∨ (∃ q n, y = .nm q n) → NextIn k.asc afterItem b) (h2 : y = .pcdata → NextIn k.asc afterPc b) :
    ∃ t, prologTokBody k.x.e (w ++ b) = ⟨t, w.length⟩ ∧ k.x.e.mb ≤ w.length ∧ elemTok t = true ∧ t ≠ .DECL_CLOSE ∧
      symOf k.asc k.x.e.mb (converted k.x) (t, w) = some y := by
  have l (c) := S.s.asc.len c
  cases h with
  | nm q name hn =>
    have hm := qname_min S.s hn
    have htake (d : UInt8) : (name.flatten ++ k.asc d).take ((name.flatten ++ k.asc d).length - k.x.e.mb) = name.flatten := by
      rw [List.length_append, l, Nat.add_sub_cancel]; exact List.take_left
    cases q with
    | NONE =>
      obtain ⟨t, g1, g2⟩ := pt_qname S.s hn (next_mono item_name (h1 (.inr ⟨_, _, rfl⟩)))
      refine ⟨t, ?_, ?_, ?_, ?_, ?_⟩
      · simpa [quantText] using g2
      · simpa [quantText] using hm
      · rcases g1 with rfl | rfl <;> rfl
      · rcases g1 with rfl | rfl <;> decide
      · rcases g1 with rfl | rfl <;> simp [symOf, quantText]
    | OPT =>
      refine ⟨.NAME_QUESTION, ?_, ?_, rfl, by decide, ?_⟩
      · rw [quantText, List.append_assoc, (pt_qname_op S.s hn b).1, List.length_append, l]
      · rw [List.length_append]; omega
      · simp only [symOf, quantText, htake]
    | REP =>
      refine ⟨.NAME_ASTERISK, ?_, ?_, rfl, by decide, ?_⟩
      · rw [quantText, List.append_assoc, (pt_qname_op S.s hn b).2.1, List.length_append, l]
      · rw [List.length_append]; omega
      · simp only [symOf, quantText, htake]
    | PLUS =>
      refine ⟨.NAME_PLUS, ?_, ?_, rfl, by decide, ?_⟩
      · rw [quantText, List.append_assoc, (pt_qname_op S.s hn b).2.2, List.length_append, l]
      · rw [List.length_append]; omega
      · simp only [symOf, quantText, htake]
  | opn => exact ⟨.OPEN_PAREN, by rw [pt_lpar S.s, l], by rw [l]; omega, rfl, by decide, rfl⟩
  | comma => exact ⟨.COMMA, by rw [pt_comma S.s, l], by rw [l]; omega, rfl, by decide, rfl⟩
  | bar => exact ⟨.OR, by rw [pt_or S.s, l], by rw [l]; omega, rfl, by decide, rfl⟩
  | pcdata =>
    refine ⟨.POUND_NAME, pt_pound_kw S.s (by decide) (by decide) (next_mono pc_pound (h2 rfl)), ?_, rfl, by decide, ?_⟩
    · rw [List.length_append, l]; omega
    · simp only [symOf, List.drop_left' (l _), kwPCDATA, if_true]
  | cls q =>
    cases q with
    | NONE =>
      refine ⟨.CLOSE_PAREN, ?_, ?_, rfl, by decide, rfl⟩
      · rw [quantText, List.append_nil, pt_rpar S.s (h1 (.inl ⟨_, rfl⟩)), l]
      · rw [List.length_append, l]; omega
    | OPT =>
      refine ⟨.CLOSE_PAREN_QUESTION, ?_, ?_, rfl, by decide, rfl⟩
      · rw [quantText, List.append_assoc, (pt_rpar_op S.s b).1, List.length_append, l, l]
      · rw [List.length_append, l]; omega
    | REP =>
      refine ⟨.CLOSE_PAREN_ASTERISK, ?_, ?_, rfl, by decide, rfl⟩
      · rw [quantText, List.append_assoc, (pt_rpar_op S.s b).2.1, List.length_append, l, l]
      · rw [List.length_append, l]; omega
    | PLUS =>
      refine ⟨.CLOSE_PAREN_PLUS, ?_, ?_, rfl, by decide, rfl⟩
      · rw [quantText, List.append_assoc, (pt_rpar_op S.s b).2.2, List.length_append, l, l]
      · rw [List.length_append, l]; omega

theorem lex_texts (S : XSupported k.x k.asc) {ys : List Sy} {w : Buf} (h : SyTexts k.x k.asc ys w) {c : CM} {r : Buf} (hr : NextIn k.asc afterItem r) :
    ∀ z : ZS, zrun z ys = some (.fin c) → ∃ ts, Lexes k.x k.asc ts (w ++ r) r ∧ ts.map (symOf k.asc k.x.e.mb (converted k.x)) = ys.map some ∧
      ∀ y ∈ ts, y.1 ≠ .DECL_CLOSE := by
  induction h with
  | nil => intro z _; exact ⟨[], .nil _, rfl, by simp⟩
  | @cons y ys w w' sp h1 h2 h3 ih =>
    intro z hz
    simp only [zrun] at hz
    obtain ⟨z1, hz1, hz2⟩ := Option.bind_eq_some_iff.1 hz
    obtain ⟨ts, g1, g2, g3⟩ := ih z1 hz2
    have hn := texts_next h3 hz2 hr
    obtain ⟨t, f1, f2, f3, f4, f5⟩ := sy_tok S h2 (b := w' ++ r) (fun hy => hn.1 (step_full hz1 hy))
      (fun hy => hn.2 (by subst hy; exact step_pcdata hz1))
    refine ⟨(t, w) :: ts, ?_, by rw [List.map_cons, List.map_cons, f5, g2], ?_⟩
    · simp only [List.append_assoc]
      exact .cons sp t w h1 f1 f2 f3 g1
    · intro y hy
      rcases List.mem_cons.1 hy with rfl | hy
      · exact f4
      · exact g3 y hy

theorem lex_content (S : XSupported k.x k.asc) {m : CM} {w : Buf} (h : ContentSpecText k.x k.asc m w) {r : Buf} (hr : NextIn k.asc afterItem r) :
    ∃ ts, Lexes k.x k.asc ts (w ++ r) r ∧ IsContent k.asc k.x.e.mb (converted k.x) m ts ∧ ∀ y ∈ ts, y.1 ≠ .DECL_CLOSE := by
  cases h with
  | empty =>
    refine ⟨[(.NAME, spell k.asc kwEMPTY)], ?_, .empty, by simp⟩
    exact .cons [] _ _ (by simp [AllWS]) (pt_kw S.s (by decide) (by decide) (next_mono item_name hr)) (spell_min S.s (by decide)) rfl (.nil _)
  | any =>
    refine ⟨[(.NAME, spell k.asc kwANY)], ?_, .any, by simp⟩
    exact .cons [] _ _ (by simp [AllWS]) (pt_kw S.s (by decide) (by decide) (next_mono item_name hr)) (spell_min S.s (by decide)) rfl (.nil _)
  | mixed q ks w h1 h2 =>
    obtain ⟨ts, g1, g2, g3⟩ := lex_texts S h2 (c := .group .MIXED q ks) hr .e1 ((zrun_iff _ _).2 (.inl ⟨q, ks, rfl, h1, rfl⟩))
    exact ⟨ts, g1, .mixed q ks ts h1 g2, g3⟩
  | children ty q ks w h1 h2 =>
    obtain ⟨ts, g1, g2, g3⟩ := lex_texts S h2 (c := .group ty q ks) hr .e1 ((zrun_iff _ _).2 (.inr ⟨ty, q, ks, rfl, h1, rfl⟩))
    exact ⟨ts, g1, .children ty q ks ts h1 g2, g3⟩

theorem none_quiet {r : Role} (h : r.none_ = true) : ElemSim.quietRole r = true := by
  cases r <;> first | rfl | cases h

theorem strip_id (doc : Bool) {ts : List (Tok × Buf)} (h : ∀ y ∈ ts, elemTok y.1 = true) : strip doc ts = ts := by
  rw [strip, List.filter_eq_self]
  intro y hy
  have := h y hy
  obtain ⟨t, b⟩ := y
  cases t <;> simp [elemTok] at this <;> simp [isQuiet]

theorem Lexes.toks {x : XEnc} {asc : UInt8 → Buf} {ts : List (Tok × Buf)} {a b : Buf} (h : Lexes x asc ts a b) : ∀ y ∈ ts, elemTok y.1 = true := by
  induction h with
  | nil => simp
  | cons sp t w g1 g2 g3 g4 g5 ih =>
    intro y hy
    rcases List.mem_cons.1 hy with rfl | hy
    · exact g4
    · exact ih y hy

theorem Lexes.pre {x : XEnc} {asc : UInt8 → Buf} {ts : List (Tok × Buf)} {a b : Buf} (h : Lexes x asc ts a b) {sp : List UInt8} (hsp : AllWS sp)
    (hne : ts ≠ []) : Lexes x asc ts (spell asc sp ++ a) b := by
  cases h with
  | nil => exact absurd rfl hne
  | cons sp' t w g1 g2 g3 g4 g5 =>
    have : ∀ r, spell asc sp ++ (spell asc sp' ++ r) = spell asc (sp ++ sp') ++ r := by simp [spell]
    rw [this]
    refine .cons (sp ++ sp') t w ?_ g2 g3 g4 g5
    intro c hc
    rcases List.mem_append.1 hc with hc | hc
    · exact hsp c hc
    · exact g1 c hc

theorem content_ne {asc : UInt8 → Buf} {mb : Nat} {nm : Buf → List UInt8} {m : CM} {ts : List (Tok × Buf)} (h : IsContent asc mb nm m ts) : ts ≠ [] := by
  rintro rfl
  cases h with
  | mixed q ks _ h1 h2 => simp [CM.mixedText] at h2
  | children ty q ks _ h1 h2 => rw [text_group] at h2; simp at h2

theorem content_unique {e : Enc} {asc : UInt8 → Buf} (s : Supported e asc) {nm : Buf → List UInt8} {m m' : CM} {ts : List (Tok × Buf)}
    (h : IsContent asc e.mb nm m ts) (h' : IsContent asc e.mb nm m' ts) : m = m' := by
  have hl : spell asc [0x45, 0x4D, 0x50, 0x54, 0x59] ≠ spell asc [0x41, 0x4E, 0x59] := by
    have hm : 0 < e.mb := Nat.succ_pos _
    intro h
    have h := congrArg List.length h
    simp only [spell, List.map_cons, List.map_nil, List.flatten_cons, List.flatten_nil, List.length_append, s.asc.len, List.length_nil] at h
    omega
  have hn (b : Buf) (c : CM) : ElemSim.zruns asc e.mb nm .e1 [(.NAME, b)] ≠ some (.fin c) := by simp [ElemSim.zruns, symOf, zstep]
  rw [ElemSim.isContent_iff] at h h'
  rcases h with ⟨rfl, rfl⟩ | ⟨rfl, rfl⟩ | h <;> rcases h' with ⟨rfl, h'⟩ | ⟨rfl, h'⟩ | h'
  · rfl
  · simp only [List.cons.injEq, Prod.mk.injEq, true_and, and_true] at h'
    exact absurd h' hl
  · exact absurd h' (hn _ _)
  · simp only [List.cons.injEq, Prod.mk.injEq, true_and, and_true] at h'
    exact absurd h'.symm hl
  · rfl
  · exact absurd h' (hn _ _)
  · subst h'; exact absurd h (hn _ _)
  · subst h'; exact absurd h (hn _ _)
  · rw [h] at h'; injection h' with h'; injection h'

/-- An element declaration. -/
theorem run_element (S : XSupported k.x k.asc) (a : At F (home F.doc) D s) {sp1 sp2 sp3 : List UInt8} {name : List Buf} {m : CM} {w : Buf}
    (h1 : White sp1) (h2 : DName k.x.e k.asc name) (h3 : White sp2) (h4 : ContentSpecText k.x k.asc m w) (h5 : AllWS sp3)
    (hsz : w.length + 3 < 2 ^ 31) (r : Buf) :
    ∃ s' E, Says (if k.c.elementDecl then [.model (converted k.x name.flatten) m] else []) E ∧ At F (home F.doc) D s' ∧
      R s (declOpen k.asc kwELEMENT ++ (spell k.asc sp1 ++ (name.flatten ++ (spell k.asc sp2 ++ (w ++ (spell k.asc sp3 ++ (k.asc 0x3E ++ r)))))))
        E s' r := by
  have hnext : NextIn k.asc afterItem (spell k.asc sp3 ++ (k.asc 0x3E ++ r)) := maybe_next ws_item (by decide) h5 r
  obtain ⟨ts, g1, g2, g3⟩ := lex_content S h4 hnext
  have r0 := a.open (c := k.c) (ext := ext) (fuel := fuel) (expand := expand) (internal := k.internal) (between := between) (allowClose := allowClose)
    (more := more) (opened := k.opened) (kw := kwELEMENT) (h' := .element0) S (by simp) h1
      (qname_ne S h2 (spell k.asc sp2 ++ (w ++ (spell k.asc sp3 ++ (k.asc 0x3E ++ r)))))
  have a0 := a.go .element0
  generalize s.withP { s.el.p with h := .element0 } = s0 at r0 a0
  obtain ⟨t, f1, f2⟩ := pt_qname S.s h2 (h3.nextName (w ++ (spell k.asc sp3 ++ (k.asc 0x3E ++ r))))
  have hte : elemTok t = true := by rcases f1 with rfl | rfl <;> rfl
  have hne : t ≠ .DECL_CLOSE := by rcases f1 with rfl | rfl <;> decide
  have hlx : Lexes k.x k.asc ((t, name.flatten) :: ts) (name.flatten ++ (spell k.asc sp2 ++ (w ++ (spell k.asc sp3 ++ (k.asc 0x3E ++ r)))))
      (spell k.asc sp3 ++ (k.asc 0x3E ++ r)) := by
    refine .cons [] t name.flatten (by simp [AllWS]) f2 (qname_min S.s h2) hte ?_
    exact g1.pre h3.2 (content_ne g2)
  have hts : ∀ y ∈ (t, name.flatten) :: ts, y.1 ≠ .DECL_CLOSE := by
    intro y hy
    rcases List.mem_cons.1 hy with rfl | hy
    · exact hne
    · exact g3 y hy
  have hlen : ((t, name.flatten) :: ts).length + 2 < 2 ^ 31 := by
    have := g1.length
    simp only [List.length_append] at this
    rw [List.length_cons]; omega
  have hidle : ElemSim.Idle s0.el := ⟨by rw [a0.h]; rfl, by rw [a0.h]; decide, a0.rest.eldecl, a0.rest.len, a0.rest.size⟩
  rcases ElemSim.body_run (decl := k.c.elementDecl) (nm := converted k.x) S.s (k.asc 0x3E) hlen a0.h hidle (none_quiet a0.none_) hts with
    ⟨x, ys, c, el, e1, e2, e3, e4, e5, e6⟩ | ⟨-, e2⟩
  · rw [strip_id _ hlx.toks] at e1
    obtain ⟨rfl, rfl⟩ := List.cons.inj e1
    rw [ElemSim.run_append] at e4
    cases hrun : s0.el.run k.c.elementDecl (converted k.x) k.x.e ((t, name.flatten) :: ts) with
    | ok el1 =>
      rw [hrun] at e4
      simp only [EState.run] at e4
      cases hst : el1.step k.c.elementDecl (converted k.x) k.x.e .DECL_CLOSE (k.asc 0x3E) with
      | ok el2 =>
        rw [hst] at e4
        cases e4
        obtain ⟨L1, s1, d1, d2, d3⟩ := elem_toks (ext := ext) (fuel := fuel) (expand := expand) (between := between) (allowClose := allowClose)
          (more := more) S hlx s0.el el1 s0 ⟨⟨a0.none_, .inl a0.h⟩, rfl, a0.frame, a0.D, a0.tmp⟩ hts hrun
        have r3 : R s1 (spell k.asc sp3 ++ (k.asc 0x3E ++ r)) [] s1 (k.asc 0x3E ++ r) :=
          Reach.spaces S d2.hd.spacy d2.hd.none_ sp3 (maybe_all h5) (.inl (asc_ne S _ _))
        obtain ⟨L2, s2, c1, c2, c3, c4, c5, c6, c7⟩ := elem_tok (ext := ext) (fuel := fuel) (expand := expand) (between := between)
          (allowClose := allowClose) (more := more) (t := .DECL_CLOSE) (w := k.asc 0x3E) (r := r) S d2 rfl (by rw [pt_gt S.s, S.s.asc.len])
            (by rw [S.s.asc.len]; exact Nat.le_refl _) hst
        rw [if_pos rfl] at c2
        have hc3 : ({ s2.el with calls := [] } : EState) = { el with calls := [] } := c3
        refine ⟨s2, sayElem (L1 ++ L2), ?_, ⟨c2.1, c2.2, c4, c5, c6, ?_⟩, ?_⟩
        · rw [c1, d1, List.append_assoc] at e5
          have huniq : c = m := content_unique S.s e3 g2
          subst huniq
          cases hdecl : k.c.elementDecl with
          | true =>
            rw [hdecl, if_pos rfl] at e5
            obtain ⟨bl, e5, e7⟩ := e5
            rw [List.append_cancel_left e5]
            exact .cons ⟨bl, rfl, e7⟩ .nil
          | false =>
            rw [hdecl, if_neg (by simp)] at e5
            have : L1 ++ L2 = [] := by
              have := congrArg List.length e5
              rw [List.length_append] at this
              exact List.length_eq_zero_iff.1 (by omega)
            rw [this]
            exact .nil
        · obtain ⟨-, -, i3, i4, i5⟩ := e6
          have q1 := congrArg EState.inEldecl hc3
          have q2 := congrArg EState.strLen hc3
          have q3 := congrArg EState.groupSize hc3
          exact ⟨q1.trans i3, q2.trans i4, by rw [show s2.el.groupSize = el.groupSize from q3]; exact i5⟩
        · rw [sayElem, List.map_append]
          exact r0.then (d3.trans (r3.then c7))
      | start _ => rw [hst] at e4; cases e4
      | err _ => rw [hst] at e4; cases e4
      | fault => rw [hst] at e4; cases e4
    | start _ => rw [hrun] at e4; cases e4
    | err _ => rw [hrun] at e4; cases e4
    | fault => rw [hrun] at e4; cases e4
  · exact absurd ⟨(t, name.flatten), ts, m, strip_id _ hlx.toks, f1, g2⟩ e2

end

end Verif.C59
