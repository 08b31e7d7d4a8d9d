import Verif.AttInv

/-! Element declarations, backwards. -/

set_option autoImplicit false

namespace Verif.C61
open C43 C53 C59 Spec Verif PState

theorem elem_handle {e : Enc} {p : PState} {t : Tok} {b : Buf} {q : PState × Role} (hp : ElemHd p) (h : p.handle e t b = some q) (ht : t ≠ .PROLOG_S) :
    elemTok t = true := by
  obtain ⟨h1, h2⟩ := hp
  obtain ⟨hh, lv, rn, il, de, iv⟩ := p
  cases hh <;> simp [ElemSim.inElem] at h2 <;> cases t <;> first
    | rfl
    | exact absurd rfl ht
    | (cases h; done)

theorem groupOpen_back {s s' : EState} (h : ({ s with calls := [] } : EState).groupOpen = .ok s') : ∃ s'', s.groupOpen = .ok s'' := by
  obtain ⟨p, gs, cn, ie, scf, ix, sl, dn, cs⟩ := s
  have key : ∃ g, ∀ cs, EState.grow ⟨p, gs, cn, ie, scf, ix, sl, dn, cs⟩ = ⟨p, g, cn, ie, scf, ix, sl, dn, cs⟩ := by
    unfold EState.grow
    by_cases hg : p.level ≥ gs
    · refine ⟨if gs ≠ 0 then gs * 2 else 32, fun cs => ?_⟩
      simp only [if_pos hg]
    · refine ⟨gs, fun cs => ?_⟩
      simp only [if_neg hg]
  obtain ⟨g, key⟩ := key
  simp only [EState.groupOpen, key, EState.setConn, EState.modTop] at h ⊢
  by_cases hl : p.level < g
  · simp only [if_pos hl] at h ⊢
    cases ie with
    | false => exact ⟨_, rfl⟩
    | true =>
      simp only [if_true] at h ⊢
      cases h1 : nextPart scf ix with
      | none => rw [h1] at h; cases h
      | some scf' =>
        simp only [h1] at h ⊢
        by_cases h2 : scf.length < scf'.length
        · rw [if_pos h2]; exact ⟨_, rfl⟩
        · rw [if_neg h2] at h; cases h
  · simp only [if_neg hl] at h
    cases h

theorem act_back {decl : Bool} {nm : Buf → List UInt8} {e : Enc} {s s' : EState} {t : Tok} {b : Buf} {r : Role}
    (h : ({ s with calls := [] } : EState).act decl nm e t b r = .ok s') : ∃ s'', s.act decl nm e t b r = .ok s'' := by
  by_cases hr : r = .GROUP_OPEN
  · subst hr; exact groupOpen_back h
  obtain ⟨p, gs, cn, ie, scf, ix, sl, dn, cs⟩ := s
  cases r <;> first | exact absurd rfl hr | skip
  all_goals
    simp only [EState.act, EState.groupSequence, EState.groupChoice, EState.elementName, EState.contentLeaf,
      EState.contentPcdata, EState.contentElement, EState.groupClose, EState.modTop, EState.setConn] at h ⊢
    grind

theorem step_back {decl : Bool} {nm : Buf → List UInt8} {e : Enc} {a el s' : EState} {t : Tok} {b : Buf} (hs : Same a el)
    (h : ({ a with p := (a.p.next e t b).1, calls := [] } : EState).act decl nm e t b (a.p.next e t b).2 = .ok s') :
    ∃ el', el.step decl nm e t b = .ok el' := by
  have hp : a.p = el.p := by
    have h : ({ a with calls := [] } : EState).p = ({ el with calls := [] } : EState).p := by rw [show ({ a with calls := [] } : EState) = _ from hs]
    exact h
  have h2 : ({ a with p := (a.p.next e t b).1, calls := [] } : EState) = { el with p := (el.p.next e t b).1, calls := [] } := by
    rw [hp]
    exact congrArg (fun u : EState => ({ u with p := (el.p.next e t b).1 } : EState)) hs
  rw [h2, hp] at h
  exact act_back h

/-- Tokens with white space between them, in the text `b`, up to `r`. -/
inductive Toks (x : XEnc) (asc : UInt8 → Buf) : List (Tok × Buf) → Buf → Buf → Prop where
  | nil (r : Buf) : Toks x asc [] r r
  | cons {ts : List (Tok × Buf)} {b r : Buf} (sp : List UInt8) (t : Tok) (w : Buf) (h1 : AllWS sp)
      (h2 : prologTokBody x.e (w ++ b) = ⟨t, w.length⟩) (h3 : x.e.mb ≤ w.length) (h4 : elemTok t = true) (h5 : Lexeme x.e asc t w b)
      (h6 : Toks x asc ts b r) :
      Toks x asc ((t, w) :: ts) (spell asc sp ++ (w ++ b)) r

theorem Toks.lexes {x : XEnc} {asc : UInt8 → Buf} {ts : List (Tok × Buf)} {a b : Buf} (h : Toks x asc ts a b) : Lexes x asc ts a b := by
  induction h with
  | nil => exact .nil _
  | cons sp t w h1 h2 h3 h4 h5 h6 ih => exact .cons sp t w h1 h2 h3 h4 ih

/-- A symbol as written. -/
theorem sy_back {x : XEnc} {asc : UInt8 → Buf} (S : XSupported x asc) {t : Tok} {w b : Buf} {y : Sy} (h : Lexeme x.e asc t w b)
    (hy : symOf asc x.e.mb (converted x) (t, w) = some y) : SyText x asc y w := by
  have htake (name : List Buf) (d : UInt8) : (name.flatten ++ asc d).take ((name.flatten ++ asc d).length - x.e.mb) = name.flatten := by
    rw [List.length_append, S.s.asc.len, Nat.add_sub_cancel]; exact List.take_left
  simp only [symOf] at hy
  split at hy <;> (first | (cases hy; done) | skip)
  · rename_i heq; cases heq
    obtain ⟨ws, rfl, h1, -⟩ := lex_qname (.inl rfl) h
    cases hy
    have := SyText.nm (x := x) .NONE ws h1
    simpa [quantText] using this
  · rename_i heq; cases heq
    obtain ⟨ws, rfl, h1, -⟩ := lex_qname (.inr rfl) h
    cases hy
    have := SyText.nm (x := x) .NONE ws h1
    simpa [quantText] using this
  · rename_i heq; cases heq
    obtain ⟨ws, rfl, h1⟩ := lex_nameOp (c := 0x3F) (by simp [nameOps]) h
    rw [htake] at hy; cases hy
    exact .nm .OPT ws h1
  · rename_i heq; cases heq
    obtain ⟨ws, rfl, h1⟩ := lex_nameOp (c := 0x2A) (by simp [nameOps]) h
    rw [htake] at hy; cases hy
    exact .nm .REP ws h1
  · rename_i heq; cases heq
    obtain ⟨ws, rfl, h1⟩ := lex_nameOp (c := 0x2B) (by simp [nameOps]) h
    rw [htake] at hy; cases hy
    exact .nm .PLUS ws h1
  · rename_i heq; cases heq
    cases hy; rw [lex_lpar h]; exact .opn
  · rename_i heq; cases heq
    cases hy
    obtain ⟨rfl, -⟩ := lex_rpar h
    have := SyText.cls (x := x) (asc := asc) .NONE
    simpa [quantText] using this
  · rename_i heq; cases heq
    cases hy; rw [lex_rparOp (c := 0x3F) (by simp [parenOps]) h]; exact .cls .OPT
  · rename_i heq; cases heq
    cases hy; rw [lex_rparOp (c := 0x2A) (by simp [parenOps]) h]; exact .cls .REP
  · rename_i heq; cases heq
    cases hy; rw [lex_rparOp (c := 0x2B) (by simp [parenOps]) h]; exact .cls .PLUS
  · rename_i heq; cases heq
    cases hy; rw [lex_comma h]; exact .comma
  · rename_i heq; cases heq
    cases hy; rw [lex_or h]; exact .bar
  · rename_i heq; cases heq
    split at hy
    · rename_i hd
      cases hy
      obtain ⟨ws, rfl, -, -⟩ := lex_pound h
      rw [List.drop_left' (S.s.asc.len _)] at hd
      rw [hd]
      exact .pcdata
    · cases hy

theorem texts_back {x : XEnc} {asc : UInt8 → Buf} (S : XSupported x asc) {ts : List (Tok × Buf)} {a b : Buf} (h : Toks x asc ts a b) :
    ∀ ys : List Sy, ts.map (symOf asc x.e.mb (converted x)) = ys.map some → ∃ w, SyTexts x asc ys w ∧ a = w ++ b := by
  induction h with
  | nil => intro ys hy; cases ys with
    | nil => exact ⟨[], .nil, rfl⟩
    | cons y ys => simp at hy
  | cons sp t w h1 h2 h3 h4 h5 h6 ih =>
    intro ys hy
    cases ys with
    | nil => simp at hy
    | cons y ys =>
      simp only [List.map_cons, List.cons.injEq] at hy
      obtain ⟨w', g1, rfl⟩ := ih ys hy.2
      exact ⟨_, .cons sp h1 (sy_back S h5 hy.1) g1, by simp only [List.append_assoc]⟩

theorem sy_opn {asc : UInt8 → Buf} {mb : Nat} {nm : Buf → List UInt8} {t : Tok} {w : Buf} (h : symOf asc mb nm (t, w) = some .opn) : t = .OPEN_PAREN := by
  simp only [symOf] at h
  split at h <;> (first | (cases h; done) | skip)
  · rename_i heq; cases heq; rfl
  · split at h <;> cases h

theorem content_back {x : XEnc} {asc : UInt8 → Buf} (S : XSupported x asc) {ts : List (Tok × Buf)} {a b : Buf} {m : CM} (h : Toks x asc ts a b)
    (hc : IsContent asc x.e.mb (converted x) m ts) :
    ∃ sp w, AllWS sp ∧ (NextIn asc afterName a → White sp) ∧ ContentSpecText x asc m w ∧ a = spell asc sp ++ (w ++ b) := by
  have nows : AllWS ([] : List UInt8) := by simp [AllWS]
  have empty (r : Buf) : spell asc [] ++ r = r := by simp [spell]
  cases hc with
  | empty =>
    cases h with
    | cons sp t w h1 h2 h3 h4 h5 h6 => cases h6; exact ⟨sp, _, h1, fun hn => gap S.s hn h1 rfl h2 rfl, .empty, rfl⟩
  | any =>
    cases h with
    | cons sp t w h1 h2 h3 h4 h5 h6 => cases h6; exact ⟨sp, _, h1, fun hn => gap S.s hn h1 rfl h2 rfl, .any, rfl⟩
  | mixed q ks _ g1 g2 =>
    cases h with
    | nil => simp [CM.mixedText] at g2
    | cons sp t w h1 h2 h3 h4 h5 h6 =>
      obtain ⟨v, i1, i2⟩ := texts_back S (.cons [] t w nows h2 h3 h4 h5 h6) _ g2
      rw [empty] at i2
      have ht : t = .OPEN_PAREN := by
        rw [CM.mixedText] at g2
        simp only [List.map_cons, List.cons_append, List.cons.injEq] at g2
        exact sy_opn g2.1
      subst ht
      exact ⟨sp, v, h1, fun hn => gap S.s hn h1 rfl h2 rfl, .mixed q ks v g1 i1, by rw [i2]⟩
  | children ty q ks _ g1 g2 =>
    cases h with
    | nil => rw [text_group] at g2; simp at g2
    | cons sp t w h1 h2 h3 h4 h5 h6 =>
      obtain ⟨v, i1, i2⟩ := texts_back S (.cons [] t w nows h2 h3 h4 h5 h6) _ g2
      rw [empty] at i2
      have ht : t = .OPEN_PAREN := by
        rw [text_group] at g2
        simp only [List.map_cons, List.cons_append, List.cons.injEq] at g2
        exact sy_opn g2.1
      subst ht
      exact ⟨sp, v, h1, fun hn => gap S.s hn h1 rfl h2 rfl, .children ty q ks v g1 i1, by rw [i2]⟩

section
variable {k : Ctx} {z : DState} {ext : Ext} {fuel : Nat} {expand : Bool → Buf → Buf → DState → Acted} {F : C59.Frame} {D : DTab} {s : DState} {h : Hd} {ns : Bool}
  {b r : Buf}

local notation "R" => Reach k.c ext fuel expand k.internal false true false k.opened k.x
local notation "En" => Ends k ext fuel expand z

/-- One token of an element declaration. -/
theorem elem_tok_back (H : Here k F ns) {el : EState} (a : InElem F D el s) (e : En s b r) :
    ∃ sp t w b' el' s', AllWS sp ∧ b = spell k.asc sp ++ (w ++ b') ∧ t ≠ .PROLOG_S ∧ elemTok t = true ∧ Look k ext fuel expand z s t w b' r ∧
      el.step k.c.elementDecl (converted k.x) k.x.e t w = .ok el' ∧ (t ≠ .DECL_CLOSE → InElem F D el' s' ∧ En s' b' r) := by
  have h1 : s.pe = .never := by rw [← H.plain.pe, H.pe]; exact congrArg C59.Frame.pe a.frame
  have h2 : s.el.p.documentEntity = true := by rw [← H.plain.doc, H.doc]; exact congrArg C59.Frame.doc a.frame
  have hcs : s.el.p.h ≠ .condSect2 := by
    rcases a.hd.h with h | h | ⟨h, -⟩
    · rw [h]; simp
    · intro hc; rw [hc] at h; cases h
    · rw [h]; simp
  obtain ⟨sp, t, w, b', g1, rfl, g3, g4⟩ := e.look H.plain a.hd.none_ h1 a.hd.spacy hcs
  obtain ⟨q, g5, g6, g7⟩ := g4.handled h2
  have ht := elem_handle a.hd g5 g3
  have hnx : s.el.p.next k.x.e t w = q := by rw [next, g5]; rfl
  have hst : ∃ el', el.step k.c.elementDecl (converted k.x) k.x.e t w = .ok el' := by
    rcases elem_next (e := k.x.e) (b := w) a.hd ht with h3 | ⟨h3, -⟩
    · rw [hnx] at h3; exact absurd h3 g6
    · rcases g7 with ⟨hd, g7⟩ | ⟨rfl, -⟩
      · rw [hnx] at h3
        by_cases hn : q.2 = .ELEMENT_NONE
        · refine step_back a.same (s' := { s.el with p := (s.el.p.next k.x.e t w).1, calls := [] }) ?_
          rw [hnx, hn]; rfl
        · have hx : (s.withP q.1).x k.c k.internal = k.x := g4.ends.1
          have hpact : pact k.c ext fuel expand k.internal true k.opened (s.withP q.1) q.2 t w = actElement k.c (s.withP q.1) k.x q.2 t w := by
            rw [← hx]
            revert h3 hn
            generalize q.2 = role
            intro h3 hn
            cases role <;> first | rfl | (cases h3; done) | exact absurd rfl hn
          rw [hpact] at g7
          simp only [actElement] at g7
          have hs : (({ (s.withP q.1).el with calls := [] } : EState).act k.c.elementDecl (converted k.x) k.x.e t w q.2) =
            (({ s.el with p := (s.el.p.next k.x.e t w).1, calls := [] } : EState).act k.c.elementDecl (converted k.x) k.x.e t w (s.el.p.next k.x.e t w).2) := by
            rw [hnx]; rfl
          rw [hs] at g7
          cases hres : ({ s.el with p := (s.el.p.next k.x.e t w).1, calls := [] } : EState).act k.c.elementDecl (converted k.x) k.x.e t w (s.el.p.next k.x.e t w).2 with
          | ok el' => exact step_back a.same hres
          | err _ => rw [hres] at g7; cases g7
          | start _ => rw [hres] at g7; cases g7
          | fault => rw [hres] at g7; cases g7
      · cases ht
  obtain ⟨el', hst⟩ := hst
  have hti : t ≠ .INSTANCE_START := by rintro rfl; cases ht
  obtain ⟨L, s', f1, f2, f3, f4, f5, f6, f7⟩ := elem_tok (ext := ext) (fuel := fuel) (expand := expand) (between := false) (allowClose := true) (more := false)
    H.plain.S a ht (g4.body H.plain) (g4.mb H.plain hti) hst
  refine ⟨sp, t, w, b', el', s', g1, rfl, g3, ht, g4, hst, fun hn => ?_⟩
  rw [if_neg hn] at f2
  exact ⟨⟨f2, f3, f4, f5, f6⟩, g4.ends.step f7⟩

/-- All tokens up to the end. -/
theorem elem_collect (H : Here k F ns) : ∀ (n : Nat) (b : Buf) (el : EState) (s : DState), b.length = n → InElem F D el s → En s b r →
    ∃ ts sp b' el1 el2, Toks k.x k.asc ts b (spell k.asc sp ++ (k.asc 0x3E ++ b')) ∧ AllWS sp ∧ (∀ y ∈ ts, y.1 ≠ .DECL_CLOSE) ∧
      el.run k.c.elementDecl (converted k.x) k.x.e ts = .ok el1 ∧ el1.step k.c.elementDecl (converted k.x) k.x.e .DECL_CLOSE (k.asc 0x3E) = .ok el2 := by
  intro n
  induction n using Nat.strongRecOn with
  | _ n ih =>
  intro b el s hl a e
  obtain ⟨sp, t, w, b', el', s', g1, rfl, g3, g4, g5, g6, g7⟩ := elem_tok_back H a e
  by_cases ht : t = .DECL_CLOSE
  · subst ht
    have hw := lex_gt g5.lex
    subst hw
    exact ⟨[], sp, b', el, el', .nil _, g1, by simp, rfl, g6⟩
  · have hti : t ≠ .INSTANCE_START := by rintro rfl; cases g4
    have hm := g5.mb H.plain hti
    have h1 : 0 < k.x.e.mb := Nat.succ_pos _
    obtain ⟨a', e'⟩ := g7 ht
    obtain ⟨ts, sp', b'', el1, el2, i1, i2, i3, i4, i5⟩ := ih b'.length (by rw [← hl]; simp only [List.length_append]; omega) b' el' s' rfl a' e'
    refine ⟨(t, w) :: ts, sp', b'', el1, el2, .cons sp t w g1 (g5.body H.plain) hm g4 g5.lex i1, i2, ?_, ?_, i5⟩
    · intro y hy
      rcases List.mem_cons.1 hy with rfl | hy
      · exact ht
      · exact i3 y hy
    · simp only [EState.run, g6, i4]

/-- `<!ELEMENT` is followed by the rest of a declaration. -/
theorem element_back (H : Here k F ns) (hlen : b.length + 3 < 2 ^ 31) (a : At F .element0 D s)
    (hb : NextIn k.asc isWS b ∨ NextIn k.asc (· == 0x25) b ∧ ∀ m, prologTokBody k.x.e b ≠ ⟨.PERCENT, m⟩) (e : En s b r) :
    ∃ w b' A D', b = w ++ b' ∧ Decl k D (declOpen k.asc kwELEMENT ++ w) A D' := by
  obtain ⟨ts, sp3, b3, el1, el2, i1, i2, i3, i4, i5⟩ := elem_collect H _ b s.el s rfl ⟨⟨a.none_, .inl a.h⟩, rfl, a.frame, a.D, a.tmp⟩ e
  have hidle : ElemSim.Idle s.el := ⟨by rw [a.h]; rfl, by rw [a.h]; decide, a.rest.eldecl, a.rest.len, a.rest.size⟩
  have hl := i1.lexes.length
  rcases ElemSim.body_run (decl := k.c.elementDecl) (nm := converted k.x) H.plain.S.s (k.asc 0x3E) (by omega) a.h hidle (none_quiet a.none_) i3 with
    ⟨x, ys, c, el, e1, e2, e3, -⟩ | ⟨⟨c, e2⟩, -⟩
  · rw [strip_id _ i1.lexes.toks] at e1
    subst e1
    cases i1 with
    | cons sp t w h1 h2 h3 h4 h5 h6 =>
      obtain ⟨name, rfl, hn, hr⟩ := lex_qname e2 h5
      obtain ⟨sp2, v, j1, j0, j2, rfl⟩ := content_back H.plain.S h6 e3
      have hte : t.isError = false := by rcases e2 with rfl | rfl <;> rfl
      have w1 : White sp := gap_open H.plain.S.s hb h1 hte h2 (by rcases e2 with rfl | rfl <;> simp) (by rcases e2 with rfl | rfl <;> simp)
      refine ⟨_, b3, _, D, ?_, .element sp name sp2 c v sp3 w1 hn (j0 hr) j2 i2 ?_⟩
      · simp only [List.append_assoc]
      · simp only [List.length_append] at hlen; omega
  · rw [ElemSim.run_append, i4] at e2
    simp only [EState.run, i5] at e2
    cases e2

end

end Verif.C61
