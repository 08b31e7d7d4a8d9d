import Verif.DeclInv

/-! Attribute-list declarations, backwards. -/

set_option autoImplicit false

namespace Verif.C61
open C43 C53 C59 Spec Verif PState

section
variable {k : Ctx} {z : DState} {ext : Ext} {fuel : Nat} {expand : Bool → Buf → Buf → DState → Acted} {F : C59.Frame} {D : DTab} {s : DState} {h : Hd} {ns : Bool}
  {b r elem att : Buf} {cd id : Bool}

local notation "R" => Reach k.c ext fuel expand k.internal false true false k.opened k.x
local notation "En" => Ends k ext fuel expand z

theorem Ends.lst (H : Here k F ns) (a : Lst F h D elem att cd id s) (hs : h.spacy = true) (hh : h ≠ .condSect2) (e : En s b r) :
    ∃ sp t w b' q, AllWS sp ∧ b = spell k.asc sp ++ (w ++ b') ∧ t ≠ .PROLOG_S ∧
      (NextIn k.asc afterName b → punctTok t = false → White sp) ∧ Look k ext fuel expand z s t w b' r ∧
      s.el.p.handle k.x.e t w = some q ∧ q.2 ≠ .ERROR ∧
      ((∃ hd, (pact k.c ext fuel expand k.internal true k.opened (s.withP q.1) q.2 t w).2.2 = .go hd) ∨ t = .INSTANCE_START ∧ r = w ++ b') := by
  have h1 : s.pe = .never := by rw [← H.plain.pe, H.pe]; exact congrArg C59.Frame.pe a.frame
  have h2 : s.el.p.documentEntity = true := by rw [← H.plain.doc, H.doc]; exact congrArg C59.Frame.doc a.frame
  obtain ⟨sp, t, w, b', g1, rfl, g3, g4⟩ := e.look H.plain a.none_ h1 (by rw [a.h]; exact hs) (by rw [a.h]; exact hh)
  obtain ⟨q, g5, g6, g7⟩ := g4.handled h2
  exact ⟨sp, t, w, b', q, g1, rfl, g3, fun hb => gap H.plain.S.s hb g1 g4.ok (g4.body H.plain), g4, g5, g6, g7⟩

theorem paren_name (h : NextIn k.asc afterParen b) : NextIn k.asc afterName b :=
  next_mono (UInt8.forall_dec (P := fun c => afterParen c = true → afterName c = true) (by decide +kernel)) h

theorem pound_name (h : NextIn k.asc afterPound b) : NextIn k.asc afterName b :=
  next_mono (UInt8.forall_dec (P := fun c => afterPound c = true → afterName c = true) (by decide +kernel)) h

omit k F in
theorem nmtoken_of_name {e : Enc} {asc : UInt8 → Buf} (s : Supported e asc) {ws : List Buf} (h : e.Name ws) : e.Nmtoken asc ws := by
  obtain ⟨v, vs, rfl, h5, h6⟩ := h
  refine ⟨by simp, fun w hw => .inl ?_⟩
  rcases List.mem_cons.1 hw with rfl | hw
  · exact nmstrt_nameChar s h5
  · exact h6 w hw

omit k F in
theorem nmtoken_of_dname {e : Enc} {asc : UInt8 → Buf} (s : Supported e asc) {ws : List Buf} (h : DName e asc ws) : e.Nmtoken asc ws := by
  cases h with
  | plain _ h => exact nmtoken_of_name s h
  | pair us vs h1 h2 h3 h4 =>
    refine ⟨by simp, fun w hw => ?_⟩
    rcases List.mem_append.1 hw with hw | hw
    · exact (nmtoken_of_name s h1).2 w hw
    · rcases List.mem_cons.1 hw with rfl | hw
      · exact .inr ⟨rfl, h4⟩
      · exact .inl (h3 w hw)

/-- A member of an enumeration. -/
theorem member_back (H : Here k F ns) {nt : Bool} {acc : Option Buf} (a : Lst F (enumH nt).1 D elem att cd id s) (he : Enumd k D acc s) (e : En s b r) :
    ∃ sp ws b' acc' s', AllWS sp ∧ memberOk k nt ws ∧ b = spell k.asc sp ++ (ws.flatten ++ b') ∧ Lst F (enumH nt).2 D elem att cd id s' ∧
      Enumd k D (some acc') s' ∧ En s' b' r := by
  obtain ⟨sp, t, w, b', q, g1, rfl, g3, -, g4, g5, -, g7⟩ := e.lst H a (by cases nt <;> rfl) (by cases nt <;> simp [enumH])
  have ah := a.h
  have hm : ∃ ws, w = ws.flatten ∧ memberOk k nt ws ∧ NextIn k.asc afterName b' := by
    cases nt
    · simp only [enumH, Bool.false_eq_true, if_false] at ah
      simp only [handle, ah, attlist3] at g5
      split at g5
      · exact absurd rfl g3
      · exact lex_nmtoken g4.lex
      · obtain ⟨ws, h1, h2, h3⟩ := lex_name g4.lex
        exact ⟨ws, h1, nmtoken_of_name H.plain.S.s h2, h3⟩
      · obtain ⟨ws, h1, h2, h3⟩ := lex_qname (.inr rfl) g4.lex
        exact ⟨ws, h1, nmtoken_of_dname H.plain.S.s h2, h3⟩
      · cases g5
    · simp only [enumH, if_true] at ah
      simp only [handle, ah, attlist6] at g5
      split at g5
      · exact absurd rfl g3
      · exact lex_name g4.lex
      · cases g5
  obtain ⟨ws, rfl, h2, h3⟩ := hm
  obtain ⟨s', a', e', r'⟩ := enum_member (ext := ext) (fuel := fuel) (expand := expand) (between := false) (allowClose := true) (more := false) H.plain.S a he h2 h3
  exact ⟨sp, ws, b', _, s', g1, h2, rfl, a', e', g4.ends.step r'⟩

theorem enum_back (H : Here k F ns) {nt : Bool} : ∀ (n : Nat) (b : Buf) (acc : Option Buf) (s : DState), b.length = n →
    Lst F (enumH nt).1 D elem att cd id s → Enumd k D acc s → En s b r →
    ∃ ms b', ms ≠ [] ∧ (∀ m ∈ ms, AllWS m.1 ∧ memberOk k nt m.2.1 ∧ AllWS m.2.2) ∧ b = enumText k.asc ms ++ (k.asc 0x29 ++ b') ∧
      NextIn k.asc afterParen b' := by
  intro n
  induction n using Nat.strongRecOn with
  | _ n ih =>
  intro b acc s hl a he e
  obtain ⟨sp, ws, b1, acc1, s1, g1, g2, rfl, a1, e1, e2⟩ := member_back H a he e
  obtain ⟨sp2, t, w, b2, q, j1, rfl, j3, -, j4, j5, -, j7⟩ := e2.lst H a1 (by cases nt <;> rfl) (by cases nt <;> simp [enumH])
  have ah := a1.h
  have key : t = .CLOSE_PAREN ∨ t = .OR ∧ q = ({ s1.el.p with h := (enumH nt).1 }, .ATTLIST_NONE) := by
    cases nt
    · simp only [enumH, Bool.false_eq_true, if_false] at ah
      simp only [handle, ah, attlist4, go] at j5
      split at j5
      · exact absurd rfl j3
      · exact .inl rfl
      · exact .inr ⟨rfl, by simpa [enumH] using j5.symm⟩
      · cases j5
    · simp only [enumH, if_true] at ah
      simp only [handle, ah, attlist7, go] at j5
      split at j5
      · exact absurd rfl j3
      · exact .inl rfl
      · exact .inr ⟨rfl, by simpa [enumH] using j5.symm⟩
      · cases j5
  rcases key with rfl | ⟨rfl, rfl⟩
  · obtain ⟨rfl, hr⟩ := lex_rpar j4.lex
    refine ⟨[(sp, ws, sp2)], b2, by simp, ?_, ?_, hr⟩
    · intro m hm
      rw [List.mem_singleton] at hm
      subst hm
      exact ⟨g1, g2, j1⟩
    · simp only [enumText, List.append_assoc]
  · have hw := lex_or j4.lex
    subst hw
    have e3 := j4.quiet H.plain (by simp) j5 rfl
    have hlen : b2.length < n := by
      rw [← hl]
      have := H.plain.S.s.asc.len 0x7C
      have h1 : 0 < k.x.e.mb := Nat.succ_pos _
      simp only [List.length_append]
      omega
    obtain ⟨ms, b3, i1, i2, rfl, i4⟩ := ih _ hlen b2 (some acc1) _ rfl (a1.go (enumH nt).1) e1 e3
    refine ⟨(sp, ws, sp2) :: ms, b3, by simp, ?_, ?_, i4⟩
    · intro m hm
      rcases List.mem_cons.1 hm with rfl | hm
      · exact ⟨g1, g2, j1⟩
      · exact i2 m hm
    · obtain ⟨m, ms, rfl⟩ := List.exists_cons_of_ne_nil i1
      simp only [enumText, List.append_assoc]

/-- The type of an attribute. -/
theorem type_back (H : Here k F ns) (a : Lst F .attlist2 D elem att false false s) (hty : s.ty = .null) (htmp : s.tmp = [])
    (hb : NextIn k.asc afterName b) (e : En s b r) :
    ∃ sp w cd id ty b' s', White sp ∧ b = spell k.asc sp ++ (w ++ b') ∧ AttTypeText k.x k.asc w cd id ty ∧ Lst F .attlist8 D elem att cd id s' ∧
      Typed k D ty s' ∧ NextIn k.asc afterName b' ∧ En s' b' r := by
  obtain ⟨sp, t, w, b', q, g1, rfl, g3, gw, g4, g5, -, g7⟩ := e.lst H a rfl (by simp)
  have ht : (t = .NAME ∧ ((∃ kw ∈ typeKeywords, w = spell k.asc kw) ∨ w = spell k.asc kwNOTATION ∧ q = ({ s.el.p with h := .attlist5 }, .ATTLIST_NONE))) ∨
      t = .OPEN_PAREN ∧ q = ({ s.el.p with h := .attlist3 }, .ATTLIST_NONE) := by
    have g5' := g5
    simp only [handle, a.h, attlist2] at g5'
    split at g5'
    · exact absurd rfl g3
    · refine .inl ⟨rfl, ?_⟩
      repeat' split at g5'
      all_goals first
        | (cases g5'; done)
        | (rename_i hk; refine .inl ⟨_, ?_, kw_eq H ?_ hk⟩; (· simp [typeKeywords]); (· decide))
        | (rename_i hk; exact .inr ⟨kw_eq H (by decide) hk, by simpa [go] using g5'.symm⟩)
    · exact .inr ⟨rfl, by simpa [go] using g5'.symm⟩
    · cases g5'
  rcases ht with ⟨rfl, ⟨kw, hk, rfl⟩ | ⟨rfl, rfl⟩⟩ | ⟨rfl, rfl⟩
  · obtain ⟨-, -, -, hr⟩ := lex_name g4.lex
    obtain ⟨s', a', t', r'⟩ := att_kw (ext := ext) (fuel := fuel) (expand := expand) (between := false) (allowClose := true) (more := false) H.plain.S a htmp hk hr
    exact ⟨sp, _, _, _, _, b', s', gw hb rfl, rfl, .keyword kw hk, a', t', hr, g4.ends.step r'⟩
  · obtain ⟨-, -, -, hr⟩ := lex_name g4.lex
    have e1 := g4.quiet H.plain (by simp) g5 rfl
    have a5 := a.go .attlist5
    have hty5 : (s.withP { s.el.p with h := .attlist5 }).ty = .null := hty
    have htmp5 : (s.withP { s.el.p with h := .attlist5 }).tmp = [] := htmp
    generalize s.withP { s.el.p with h := .attlist5 } = s0 at e1 a5 hty5 htmp5
    obtain ⟨sp2, t2, w2, b2, q2, j1, rfl, j3, jw, j4, j5, -, j7⟩ := e1.lst H a5 rfl (by simp)
    have j5' := j5
    simp only [handle, a5.h, attlist5] at j5
    split at j5
    · exact absurd rfl j3
    · have hw := lex_lpar j4.lex
      subst hw
      have e2 := j4.quiet H.plain (by simp) j5' (by cases j5; rfl)
      cases j5
      have a6 := a5.go .attlist6
      have he : Enumd k D none (s0.withP { s0.el.p with h := .attlist6 }) := ⟨fun _ => ⟨fun _ => ⟨hty5, htmp5⟩, fun t h => by cases h⟩, fun _ => htmp5⟩
      obtain ⟨ms, b3, i1, i2, rfl, i4⟩ := enum_back (nt := true) H _ b2 none _ rfl a6 he e2
      obtain ⟨s3, a3, e3, r3⟩ := enum_members (nt := true) (ext := ext) (fuel := fuel) (expand := expand) (between := false) (allowClose := true) (more := false)
        H.plain.S i1 i2 i4 none _ a6 he
      rw [enumGrow_none _ _ _ i1] at e3
      refine ⟨sp, _, _, _, _, b3, s3, gw hb rfl, ?_, .notations sp2 ms (jw hr rfl) i1 i2, a3, ?_, paren_name i4, e2.step r3⟩
      · simp only [List.append_assoc]
      · have := e3.typed (nt := true)
        simpa [enumPre] using this
    · cases j5
  · have hw := lex_lpar g4.lex
    subst hw
    have e2 := g4.quiet H.plain (by simp) g5 rfl
    have a3 := a.go .attlist3
    have he : Enumd k D none (s.withP { s.el.p with h := .attlist3 }) := ⟨fun _ => ⟨fun _ => ⟨hty, htmp⟩, fun t h => by cases h⟩, fun _ => htmp⟩
    obtain ⟨ms, b3, i1, i2, rfl, i4⟩ := enum_back (nt := false) H _ b' none _ rfl a3 he e2
    obtain ⟨s3, a4, e3, r3⟩ := enum_members (nt := false) (ext := ext) (fuel := fuel) (expand := expand) (between := false) (allowClose := true) (more := false)
      H.plain.S i1 i2 i4 none _ a3 he
    rw [enumGrow_none _ _ _ i1] at e3
    refine ⟨sp, _, _, _, _, b3, s3, gw hb rfl, ?_, .enum ms i1 i2, a4, ?_, paren_name i4, e2.step r3⟩
    · simp only [List.append_assoc]
    · have := e3.typed (nt := false)
      simpa [enumPre] using this

/-- A default value. -/
theorem value_back (H : Here k F ns) (hT : C33.TextsOk D.toDtd (internalUtf8X ns)) {ty : Buf} (a : Lst F h D elem att cd id s) (ht : Typed k D ty s)
    {w b' : Buf} (L : Look k ext fuel expand z s .LITERAL w b' r) {q : PState × Role} (hq : s.el.p.handle k.x.e .LITERAL w = some q) {req : Bool}
    (hrole : q.1 = { s.el.p with h := .attlist1 } ∧ (q.2 = .DEFAULT_ATTRIBUTE_VALUE ∧ req = false ∨ q.2 = .FIXED_ATTRIBUTE_VALUE ∧ req = true))
    (hg : ∃ hd, (pact k.c ext fuel expand k.internal true k.opened (s.withP q.1) q.2 .LITERAL w).2.2 = .go hd) :
    ∃ q ws v s', w = litText k.asc q ws ∧ Quoted k.x.e k.asc q ws ∧ (D.keep = true → DefaultValue k D cd ws.flatten v) ∧ NextIn k.asc afterLit b' ∧
      At F .attlist1 (withAtt k D elem att cd id (some v)) s' ∧ s'.el.declName = elem ∧ En s' b' r := by
  obtain ⟨q1, ws, rfl, hq1, hr⟩ := lex_lit L.lex
  have hdoc : (s.withP q.1).el.p.documentEntity = F.doc := by
    rw [hrole.1]; exact congrArg C59.Frame.doc a.frame
  have hmust : k.must D = (F.doc && (if D.standalone then !k.internal else !D.hasPERefs)) := by rw [Ctx.must, H.doc]
  have hv : ∃ v, D.keep = true → storeAttributeValue D.toDtd (k.must D) k.c.int k.x cd [] ws.flatten = .ok v := by
    by_cases hk : D.keep = true
    · obtain ⟨hd, hg⟩ := hg
      have hx : (s.withP q.1).x k.c k.internal = k.x := L.ends.1
      have hD : (s.withP q.1).D = D := a.D
      have hcd : (s.withP q.1).isCdata = cd := a.cdata
      have hc : checkDefault (s.withP q.1) k.internal = k.must D := by rw [checkDefault, hdoc, hD, hmust]
      have hg' : (actAttDefault k.c (s.withP q.1) k.x k.internal q.2 (litText k.asc q1 ws)).2.2 = .go hd := by
        rcases hrole.2 with ⟨h, -⟩ | ⟨h, -⟩ <;> (rw [h] at hg ⊢; simp only [pact, hx] at hg; exact hg)
      have hst : ∀ er, storeAttributeValue D.toDtd (k.must D) k.c.int k.x cd [] ws.flatten = .error er → False := by
        intro er her
        rcases hrole.2 with ⟨h, -⟩ | ⟨h, -⟩ <;>
          (rw [h] at hg'; simp only [actAttDefault, hD, hk, Bool.not_true, Bool.false_eq_true, if_false, hc, hcd, refName_lit H.plain.S.s, her] at hg'; cases hg')
      cases hs : storeAttributeValue D.toDtd (k.must D) k.c.int k.x cd [] ws.flatten with
      | ok v => exact ⟨v, fun _ => rfl⟩
      | error er => exact absurd hs (fun h => hst er h)
    · exact ⟨[], fun h => absurd h hk⟩
  obtain ⟨v, hv⟩ := hv
  obtain ⟨s', a', n', r'⟩ := att_end (ext := ext) (fuel := fuel) (expand := expand) (between := false) (allowClose := true) (more := false) (t := .LITERAL)
    (value := some v) (req := req) (role := q.2) H.plain.S a ht (L.body H.plain) (lit_min H.plain.S.s _ _) rfl
    (by rw [next, hq, ← hrole.1]; rfl)
    (.inr (.inr ⟨hrole.2, v, rfl, fun hk => by rw [refName_lit H.plain.S.s, ← hmust]; exact hv hk⟩))
  refine ⟨q1, ws, v, s', rfl, hq1, fun hk => ?_, hr, a', n', L.ends.step r'⟩
  have := hv hk
  rw [H.int] at this
  have := (C33.literal_value H.plain.S hT cd [] hq1.chars.lit v).1 this
  rw [DefaultValue, H.int]
  exact this

theorem default_back (H : Here k F ns) (hT : C33.TextsOk D.toDtd (internalUtf8X ns)) {ty : Buf} (a : Lst F .attlist8 D elem att cd id s) (ht : Typed k D ty s)
    (hb : NextIn k.asc afterName b) (e : En s b r) :
    ∃ sp w value req b' s', White sp ∧ b = spell k.asc sp ++ (w ++ b') ∧ DefaultText k D cd w value req ∧
      At F .attlist1 (withAtt k D elem att cd id value) s' ∧ s'.el.declName = elem ∧ NextIn k.asc afterName b' ∧ En s' b' r := by
  obtain ⟨sp, t, w, b', q, g1, rfl, g3, gw, g4, g5, -, g7⟩ := e.lst H a rfl (by simp)
  have hmin (kw : List UInt8) : k.x.e.mb ≤ (k.asc 0x23 ++ spell k.asc kw).length := by
    rw [List.length_append, H.plain.S.s.asc.len]; omega
  have g5' := g5
  simp only [handle, a.h, attlist8] at g5
  split at g5
  · exact absurd rfl g3
  · obtain ⟨ws, rfl, -, hr⟩ := lex_pound g4.lex
    have hd : (k.asc 0x23 ++ ws.flatten).drop k.x.e.mb = ws.flatten := List.drop_left' (H.plain.S.s.asc.len _)
    rw [hd] at g5
    split at g5
    · rename_i hk
      rw [kw_eq H (by decide) hk] at g4 g5' ⊢
      obtain ⟨s', a', n', r'⟩ := att_end (ext := ext) (fuel := fuel) (expand := expand) (between := false) (allowClose := true) (more := false) (t := .POUND_NAME)
        (value := none) (req := false) (role := .IMPLIED_ATTRIBUTE_VALUE) H.plain.S a ht (g4.body H.plain) (hmin _) rfl
        (by rw [next, g5', ← g5]; rfl) (.inl ⟨rfl, rfl, rfl⟩)
      exact ⟨sp, _, _, _, b', s', gw hb rfl, rfl, .implied, a', n', pound_name hr, g4.ends.step r'⟩
    · split at g5
      · rename_i hk
        rw [kw_eq H (by decide) hk] at g4 g5' ⊢
        obtain ⟨s', a', n', r'⟩ := att_end (ext := ext) (fuel := fuel) (expand := expand) (between := false) (allowClose := true) (more := false) (t := .POUND_NAME)
          (value := none) (req := true) (role := .REQUIRED_ATTRIBUTE_VALUE) H.plain.S a ht (g4.body H.plain) (hmin _) rfl
          (by rw [next, g5', ← g5]; rfl) (.inr (.inl ⟨rfl, rfl, rfl⟩))
        exact ⟨sp, _, _, _, b', s', gw hb rfl, rfl, .required, a', n', pound_name hr, g4.ends.step r'⟩
      · split at g5
        · rename_i hk
          have hw := kw_eq H (by decide) hk
          rw [hw] at g4 g5' hb gw ⊢
          have e1 := g4.quiet H.plain (by simp) g5' (by cases g5; rfl)
          cases g5
          have a9 := a.go .attlist9
          have ht9 : Typed k D ty (s.withP { s.el.p with h := .attlist9 }) := ht
          change En (s.withP { s.el.p with h := .attlist9 }) b' r at e1
          generalize s.withP { s.el.p with h := .attlist9 } = s9 at e1 a9 ht9
          obtain ⟨sp2, t2, w2, b2, q2, j1, rfl, j3, jw, j4, j5, -, j7⟩ := e1.lst H a9 rfl (by simp)
          have j5' := j5
          simp only [handle, a9.h, attlist9] at j5
          split at j5
          · exact absurd rfl j3
          · rcases j7 with j7 | ⟨j7, -⟩
            · obtain ⟨q3, ws3, v, s', rfl, i2, i3, i4, i5, i6, i7⟩ := value_back H hT a9 ht9 j4 j5' (req := true) (by cases j5; exact ⟨rfl, .inr ⟨rfl, rfl⟩⟩) j7
              exact ⟨sp, _, _, _, b2, s', gw hb rfl, by simp only [List.append_assoc], .fixed sp2 q3 ws3 v (jw (pound_name hr) rfl) i2 i3, i5, i6, lit_name i4, i7⟩
            · cases j7
          · cases j5
        · cases g5
  · rcases g7 with g7 | ⟨g7, -⟩
    · obtain ⟨q3, ws3, v, s', rfl, i2, i3, i4, i5, i6, i7⟩ := value_back H hT a ht g4 g5' (req := false) (by cases g5; exact ⟨rfl, .inl ⟨rfl, rfl⟩⟩) g7
      exact ⟨sp, _, _, _, b', s', gw hb rfl, rfl, .value q3 ws3 v i2 i3, i5, i6, lit_name i4, i7⟩
    · cases g7
  · cases g5

theorem withAtt_texts (hT : C33.TextsOk D.toDtd (internalUtf8X ns)) (value : Option Buf) :
    C33.TextsOk (withAtt k D elem att cd id value).toDtd (internalUtf8X ns) := by
  intro n ent t hn
  refine hT n ent t ?_
  rw [← hn, withAtt]
  split
  · rw [addAtt]
    split <;> rfl
  · rfl

theorem atts_back (H : Here k F ns) : ∀ (n : Nat) (b : Buf) (D : DTab) (s : DState), b.length = n → C33.TextsOk D.toDtd (internalUtf8X ns) →
    At F .attlist1 D s → s.el.declName = elem → NextIn k.asc afterName b → En s b r →
    ∃ w sp b' E D', AttDefs k elem D w E D' ∧ AllWS sp ∧ b = w ++ (spell k.asc sp ++ (k.asc 0x3E ++ b')) := by
  intro n
  induction n using Nat.strongRecOn with
  | _ n ih =>
  intro b D s hl hT a he hb e
  obtain ⟨sp, t, w, b', q, g1, rfl, g3, gw, g4, g5, -, g7⟩ := e.next H a rfl (by simp) hb
  simp only [handle, a.h, attlist1] at g5
  have hq : ∀ t, t = .NAME ∨ t = .PREFIXED_NAME → punctTok t = false → (punctTok t = false → White sp) → Look k ext fuel expand z s t w b' r →
      ∃ w_1 sp_1 b'_1 E D', AttDefs k elem D w_1 E D' ∧ AllWS sp_1 ∧ spell k.asc sp ++ (w ++ b') = w_1 ++ (spell k.asc sp_1 ++ (k.asc 0x3E ++ b'_1)) := by
    intro t ht hp gw g4
    obtain ⟨name, rfl, hn, hr⟩ := lex_qname ht g4.lex
    obtain ⟨s2, a2, t2, m2, r2⟩ := att_name (ext := ext) (fuel := fuel) (expand := expand) (between := false) (allowClose := true) (more := false)
      H.plain.S a hn he hr
    obtain ⟨sp2, w2, cd, id, ty, b2, s3, h1, rfl, h3, h4, h5, h6, h7⟩ := type_back H a2 t2 m2 hr (g4.ends.step r2)
    obtain ⟨sp3, w3, value, req, b3, s4, j1, rfl, j3, j4, j5, j6, j7⟩ := default_back H hT h4 h5 h6 h7
    have hlen : b3.length < n := by
      rw [← hl]
      have := qname_min H.plain.S.s hn
      have h1 : 0 < k.x.e.mb := Nat.succ_pos _
      simp only [List.length_append]
      omega
    obtain ⟨w4, sp4, b4, E, D', i1, i2, rfl⟩ := ih _ hlen b3 _ s4 rfl (withAtt_texts hT value) j4 j5 j6 j7
    refine ⟨_, sp4, b4, _, D', .cons (.mk sp sp2 sp3 name w2 w3 cd id ty value req (gw hp) hn h1 h3 j1 j3) i1, i2, ?_⟩
    simp only [List.append_assoc]
  split at g5
  · exact absurd rfl g3
  · rw [lex_gt g4.lex]; exact ⟨[], sp, b', [], D, .nil D, g1, rfl⟩
  · exact hq _ (.inl rfl) rfl gw g4
  · exact hq _ (.inr rfl) rfl gw g4
  · cases g5

theorem attlist_name (S : XSupported k.x k.asc) (a : At F .attlist0 D s) {name : List Buf} (hn : DName k.x.e k.asc name) {r : Buf} (hr : NextIn k.asc afterName r) :
    ∃ s', At F .attlist1 D s' ∧ s'.el.declName = converted k.x name.flatten ∧ R s (name.flatten ++ r) [] s' r := by
  obtain ⟨t, g1, g2⟩ := pt_qname S.s hn hr
  have b := a.go .attlist1
  have hp : s.el.p.next k.x.e t name.flatten = ({ s.el.p with h := .attlist1 }, .ATTLIST_ELEMENT_NAME) := by
    rcases g1 with rfl | rfl <;> simp [PState.next, PState.handle, a.h, attlist0, PState.go]
  generalize hs1 : s.withP { s.el.p with h := .attlist1 } = s1 at b
  have hfr : Verif.C59.frame s1 = Verif.C59.frame s := by rw [← hs1]; rfl
  refine ⟨{ s1 with el := { s1.el with declName := converted k.x name.flatten } }, ⟨b.h, b.none_, b.frame, b.D, b.tmp, ⟨b.rest.eldecl, b.rest.len, b.rest.size⟩⟩, rfl, ?_⟩
  refine C59.step S g2 (qname_min S.s hn) (by rcases g1 with rfl | rfl <;> rfl) hp hfr rfl fun hx => ?_
  rw [hs1] at hx ⊢
  simp only [pact, hx, actAttlist]
  exact ⟨_, rfl⟩

/-- `<!ATTLIST` is followed by the rest of a declaration. -/
theorem attlist_back (H : Here k F ns) (hT : C33.TextsOk D.toDtd (internalUtf8X ns)) (a : At F .attlist0 D s)
    (hb : NextIn k.asc isWS b ∨ NextIn k.asc (· == 0x25) b ∧ ∀ m, prologTokBody k.x.e b ≠ ⟨.PERCENT, m⟩) (e : En s b r) :
    ∃ w b' A D', b = w ++ b' ∧ Decl k D (declOpen k.asc kwATTLIST ++ w) A D' := by
  obtain ⟨sp, t, w, b', q, g1, rfl, gw, g4, g5, -, g3, g7⟩ := e.first H a rfl (by simp) hb
  simp only [handle, a.h, attlist0] at g5
  have ht : t = .NAME ∨ t = .PREFIXED_NAME := by split at g5 <;> simp_all
  obtain ⟨name, rfl, hn, hr⟩ := lex_qname ht g4.lex
  obtain ⟨s1, a1, n1, r1⟩ := attlist_name (ext := ext) (fuel := fuel) (expand := expand) H.plain.S a hn hr
  obtain ⟨w2, sp2, b2, E, D', i1, i2, rfl⟩ := atts_back H _ b' D s1 rfl hT a1 n1 hr (g4.ends.step r1)
  refine ⟨_, b2, _, D', ?_, .attlist sp name w2 sp2 E D' (gw (by rcases ht with rfl | rfl <;> simp)) hn i1 i2⟩
  simp only [List.append_assoc]

end

end Verif.C61
