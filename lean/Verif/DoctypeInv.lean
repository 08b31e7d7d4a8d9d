import Verif.SubsetInv

/-! The document type declaration and the prolog, backwards. -/

set_option autoImplicit false

namespace Verif.C61
open C43 C53 C59 Spec Verif PState

section
variable {k : Ctx} {z : DState} {ext : Ext} {fuel : Nat} {expand : Bool → Buf → Buf → DState → Acted} {F : C59.Frame} {D : DTab} {s : DState} {h : Hd} {ns : Bool}
  {b r n : Buf}

local notation "R" => Reach k.c ext fuel expand k.internal false true false k.opened k.x
local notation "En" => Ends k ext fuel expand z

theorem Here.docF (H : Here k F ns) (n : Buf) (pub sys : Option Buf) : Here k (docF k F n pub sys) ns := by
  obtain ⟨-, p2, -, p4, -, -⟩ := docF_keep k F n pub sys
  exact ⟨H.plain, by rw [p4]; exact H.doc, by rw [p2]; exact H.pe, H.int⟩

theorem Here.subF (H : Here k F ns) (pub sys : Option Buf) : Here k (subF k F pub sys) ns := by
  obtain ⟨-, p2, -, p4, -, -⟩ := subF_keep k F pub sys
  exact ⟨H.plain, by rw [p4]; exact H.doc, by rw [p2]; exact H.pe, H.int⟩

theorem docSystem_go {c : PCfg} {x : XEnc} {w : Buf} {s : DState} (hpe : s.pe = .never) {hd : Bool} (h : (docSystem c x w s).2.2 = .go hd) :
    s.D.standalone = true ∨ c.notStandalone ≠ some false := by
  rw [docSystem, hpe] at h
  simp only [if_true, askStandalone] at h
  cases hs : s.D.standalone with
  | true => exact .inl rfl
  | false =>
    right
    intro hno
    simp [hs, hno] at h

/-- The system identifier. -/
theorem doc_sys_back {pub : Option Buf} {decl : Option (Bool × Buf)} {D1 : DTab} (H : Here k F ns) (hF : F.foreign = false)
    (a : At (docF k F n pub none) .doctype3 D1 s) (hd : s.decl = decl) (hh : Half D pub decl D1) (hD : D.keep = true)
    (hH : tabGet D.par hashName = none) (hb : NextIn k.asc afterName b) (e : En s b r) :
    ∃ (sp : List UInt8) (q : UInt8) (ws : List Buf) (b' : Buf) (s' : DState), White sp ∧ b = spell k.asc sp ++ (litText k.asc q ws ++ b') ∧
      Quoted k.x.e k.asc q ws ∧ Allowed k D ∧
      At (docF k F n pub (some (converted k.x ws.flatten))) .doctype4 (addSubset k D pub (converted k.x ws.flatten)) s' ∧ En s' b' r := by
  obtain ⟨sp, t, w, b', q, g1, rfl, g3, gw, g4, g5, -, g7⟩ := e.next (H.docF n pub none) a rfl (by simp) hb
  have ht : t = .LITERAL ∧ q.2 = .DOCTYPE_SYSTEM_ID := by
    simp only [handle, a.h, doctype3, go] at g5
    split at g5
    · exact absurd rfl g3
    · cases g5; exact ⟨rfl, rfl⟩
    · cases g5
  obtain ⟨rfl, hq2⟩ := ht
  obtain ⟨q1, ws, rfl, hq, hr⟩ := lex_lit g4.lex
  have hal : Allowed k D := by
    rcases g7 with ⟨hd, g7⟩ | ⟨g7, -⟩
    · have h1 : (s.withP q.1).pe = .never := by
        rw [← H.plain.pe, H.pe, ← (docF_keep k F n pub none).2.1]; exact congrArg C59.Frame.pe a.frame
      simp only [hq2, pact, actDoctype] at g7
      rw [Allowed, ← (half_keep hh).2]
      have h2 : (s.withP q.1).D = D1 := a.D
      cases hs : k.c.startDoctype with
      | true =>
        simp only [hs, if_true] at g7
        have := docSystem_go (by exact h1) g7
        simpa only [h2] using this
      | false =>
        simp only [hs, Bool.false_eq_true, if_false] at g7
        have := docSystem_go (by exact h1) g7
        simpa only [h2] using this
    · cases g7
  obtain ⟨s', m', r'⟩ := doc_sys (ext := ext) (fuel := fuel) (expand := expand) (between := false) (allowClose := true) (more := false)
    H.plain.S hF H.pe a hd hh hD hH (fun _ => hal) hq hr
  exact ⟨sp, q1, ws, b', s', gw rfl, rfl, hq, hal, m', g4.ends.step r'⟩

/-- The public identifier. -/
theorem doc_pub_back (H : Here k F ns) (hF : F.foreign = false) (a : At (docF k F n none none) .doctype2 D s) (hD : D.keep = true)
    (hH : tabGet D.par hashName = none) (hb : NextIn k.asc afterName b) (e : En s b r) :
    ∃ (sp : List UInt8) (q : UInt8) (cs : List UInt8) (b' : Buf) (s' : DState), White sp ∧ b = spell k.asc sp ++ (litText k.asc q (cs.map k.asc) ++ b') ∧
      Quoted k.x.e k.asc q (cs.map k.asc) ∧ (∀ d ∈ cs, C37.PubidChar d = true) ∧ NextIn k.asc afterLit b' ∧
      At (docF k F n (some (C37.normal cs)) none) .doctype3 (halfSubset D (C37.normal cs)) s' ∧ s'.decl = some (true, hashName) ∧ En s' b' r := by
  obtain ⟨sp, t, w, b', q, g1, rfl, g3, gw, g4, g5, -, g7⟩ := e.next (H.docF n none none) a rfl (by simp) hb
  have ht : t = .LITERAL ∧ q.2 = .DOCTYPE_PUBLIC_ID := by
    simp only [handle, a.h, doctype2, go] at g5
    split at g5
    · exact absurd rfl g3
    · cases g5; exact ⟨rfl, rfl⟩
    · cases g5
  obtain ⟨rfl, hq2⟩ := ht
  obtain ⟨q1, ws, rfl, hq, hr⟩ := lex_lit g4.lex
  have hpub : isPublicId k.x.e (litText k.asc q1 ws) = none := by
    rcases g7 with ⟨hd, g7⟩ | ⟨g7, -⟩
    · have hx : (s.withP q.1).x k.c k.internal = k.x := g4.ends.1
      simp only [hq2, pact, hx, actDoctype, docPublic] at g7
      split at g7
      · cases g7
      · simp_all
    · cases g7
  obtain ⟨cs, rfl, hc⟩ := pub_chars H.plain.S.s hq hpub
  obtain ⟨s', m', e', r'⟩ := doc_pub (ext := ext) (fuel := fuel) (expand := expand) (between := false) (allowClose := true) (more := false)
    H.plain.S hF a hD hH hq hc hr
  exact ⟨sp, q1, cs, b', s', gw rfl, rfl, hq, hc, hr, m', e', g4.ends.step r'⟩

/-- `[` or `>` -/
def opener (c : UInt8) : Prop := c = 0x5B ∨ c = 0x3E

theorem doc4_back {pub sys : Option Buf} (H : Here k F ns) (a : At (docF k F n pub sys) .doctype4 D s) (e : En s b r) :
    ∃ sp c b', opener c ∧ AllWS sp ∧ b = spell k.asc sp ++ (k.asc c ++ b') := by
  obtain ⟨sp, t, w, b', q, g1, rfl, g3, g4, g5, -, g7⟩ := e.at H.plain (H.docF n pub sys).doc (H.docF n pub sys).pe a rfl (by simp)
  simp only [handle, a.h, doctype4] at g5
  split at g5
  · exact absurd rfl g3
  · rw [lex_lsqb g4.lex]; exact ⟨sp, _, b', .inl rfl, g1, rfl⟩
  · rw [lex_gt g4.lex]; exact ⟨sp, _, b', .inr rfl, g1, rfl⟩
  · cases g5

/-- The external identifier, or none. -/
theorem outer_back (H : Here k F ns) (hF : F.foreign = false) (a : At (docF k F n none none) .doctype1 D s) (hd : s.decl = none) (hD : D.keep = true)
    (hH : tabGet D.par hashName = none) (hb : NextIn k.asc afterName b) (e : En s b r) :
    ∃ w pub sys E D1 sp c b', b = w ++ (spell k.asc sp ++ (k.asc c ++ b')) ∧ Outer k D w pub sys E D1 ∧ AllWS sp ∧ opener c := by
  obtain ⟨sp, t, w, b', q, g1, rfl, g3, gw, g4, g5, -, g7⟩ := e.next (H.docF n none none) a rfl (by simp) hb
  have g5' := g5
  simp only [handle, a.h, doctype1] at g5
  split at g5
  · exact absurd rfl g3
  · rw [lex_lsqb g4.lex]; exact ⟨[], none, none, [], D, sp, _, b', rfl, .none, g1, .inl rfl⟩
  · rw [lex_gt g4.lex]; exact ⟨[], none, none, [], D, sp, _, b', rfl, .none, g1, .inr rfl⟩
  · have hq := lex_name g4.lex
    obtain ⟨-, -, -, hr⟩ := hq
    split at g5
    · have hw := kw_eq H (by decide) ‹nameMatchesAscii k.x.e w kwSYSTEM = true›
      subst hw
      cases g5
      obtain ⟨sp2, q2, ws, b2, s2, i1, rfl, i2, i3, i4, i5⟩ := doc_sys_back H hF (a.go .doctype3) hd .none hD hH hr (g4.quiet H.plain (by simp) g5' rfl)
      obtain ⟨sp3, c, b3, j1, j2, rfl⟩ := doc4_back H i4 i5
      exact ⟨_, none, some _, _, _, sp3, c, b3, by simp only [List.append_assoc],
        .some sp _ none _ (gw rfl) (.system sp2 q2 ws i1 i2) (.inl H.plain.pe) (fun _ => i3), j2, j1⟩
    split at g5
    · have hw := kw_eq H (by decide) ‹nameMatchesAscii k.x.e w kwPUBLIC = true›
      subst hw
      cases g5
      obtain ⟨sp1, q1, cs, b1, s1, p1, rfl, p2, p3, p4, p5, p6, p7⟩ := doc_pub_back H hF (a.go .doctype2) hD hH hr (g4.quiet H.plain (by simp) g5' rfl)
      obtain ⟨sp2, q2, ws, b2, s2, i1, rfl, i2, i3, i4, i5⟩ := doc_sys_back H hF p5 p6 (.pub _) hD hH (lit_name p4) p7
      obtain ⟨sp3, c, b3, j1, j2, rfl⟩ := doc4_back H i4 i5
      exact ⟨_, some _, some _, _, _, sp3, c, b3, by simp only [List.append_assoc],
        .some sp _ _ _ (gw rfl) (.pub sp1 q1 cs sp2 q2 ws p1 p2 p3 i1 i2) (.inl H.plain.pe) (fun _ => i3), j2, j1⟩
    · cases g5
  · cases g5

/-- The end. -/
theorem doc5_back (H : Here k F ns) (a : At F .doctype5 D s) (e : En s b r) :
    ∃ sp b', AllWS sp ∧ b = spell k.asc sp ++ (k.asc 0x3E ++ b') := by
  obtain ⟨sp, t, w, b', q, g1, rfl, g3, g4, g5, -, g7⟩ := e.at H.plain H.doc H.pe a rfl (by simp)
  simp only [handle, a.h, doctype5] at g5
  split at g5
  · exact absurd rfl g3
  · rw [lex_gt g4.lex]; exact ⟨sp, b', g1, rfl⟩
  · cases g5

theorem outer_keeps {w : Buf} {pub sys : Option Buf} {E : List PEv} {D1 : DTab} (h : Outer k D w pub sys E D1) :
    (C33.TextsOk D.toDtd (internalUtf8X ns) → C33.TextsOk D1.toDtd (internalUtf8X ns)) ∧ D1.par.length ≤ D.par.length + 1 := by
  cases h with
  | none => exact ⟨id, Nat.le_succ _⟩
  | some => exact ⟨fun hT => hT, by simp [addSubset]⟩

/-- After `<!DOCTYPE`. -/
theorem doctype_back (H : Here k F ns) (hd : F.doc = true) (hF : F.foreign = false) (a : At F .doctype0 D s) (hdl : s.decl = none) (hD : D.keep = true)
    (hH : tabGet D.par hashName = none) (hT : C33.TextsOk D.toDtd (internalUtf8X ns)) (hlen : b.length + 3 < 2 ^ 31) (hf : D.par.length + b.length < fuel)
    (hb : NextIn k.asc isWS b ∨ NextIn k.asc (· == 0x25) b ∧ ∀ m, prologTokBody k.x.e b ≠ ⟨.PERCENT, m⟩) (e : En s b r) :
    ∃ w b' A D' F' s', b = w ++ b' ∧ Doctype k D (declOpen k.asc kwDOCTYPE ++ w) A D' ∧ At F' .prolog2 D' s' ∧ Here k F' ns ∧ F'.foreign = false ∧ F'.cur = F.cur ∧ En s' b' r := by
  have S := H.plain.S
  obtain ⟨sp1, t, w, b1, q, g1, rfl, gw, g4, g5, -, g3, g7⟩ := e.first H a rfl (by simp) hb
  have ht : t = .NAME ∨ t = .PREFIXED_NAME := by
    simp only [handle, a.h, doctype0] at g5
    split at g5
    · exact absurd rfl g3
    · exact .inl rfl
    · exact .inr rfl
    · cases g5
  have w1 : White sp1 := gw (by rcases ht with rfl | rfl <;> simp)
  obtain ⟨name, rfl, hn, hr⟩ := lex_qname ht g4.lex
  obtain ⟨s1, m1, e1, r1⟩ := doc_name (ext := ext) (fuel := fuel) (expand := expand) (between := false) (allowClose := true) (more := false) S a hn hr
  have en1 := g4.ends.step r1
  obtain ⟨w1', pub, sys, E, D1, sp2, c, b2, rfl, hO, hsp2, hc⟩ := outer_back H hF m1 (e1.trans hdl) hD hH hr en1
  have hlit : NextIn k.asc afterLit (spell k.asc sp2 ++ (k.asc c ++ b2)) := by
    refine maybe_next (fun c hc => by simp [afterLit, hc]) ?_ hsp2 _
    rcases hc with rfl | rfl <;> rfl
  obtain ⟨s2, g, hg, m2, r2⟩ := doc_outer (ext := ext) (fuel := fuel) (expand := expand) (between := false) (allowClose := true) (more := false)
    S hF H.pe m1 (e1.trans hdl) hD hH hO hlit
  have r3 := m2.white (c := k.c) (ext := ext) (fuel := fuel) (expand := expand) (internal := k.internal) (between := false)
    (allowClose := true) (more := false) (opened := k.opened) (r := k.asc c ++ b2) S (by rcases hg with rfl | rfl <;> rfl) hsp2 (asc_ne S _ _)
  have en3 := (en1.step r2).step r3
  obtain ⟨o1, o2⟩ := outer_keeps (ns := ns) hO
  rcases hc with rfl | rfl
  · obtain ⟨p1, p2, p3, p4, p5, p6⟩ := subF_keep k F pub sys
    obtain ⟨s4, m4, r4⟩ := doc_lsqb (ext := ext) (fuel := fuel) (expand := expand) (between := false) (allowClose := true) (more := false) S hd hg m2 b2
    have hho : home (C59.subF k F pub sys).doc = .internalSubset := by rw [p4, hd]; rfl
    rw [hho] at m4
    have hl1 := S.s.asc.len 0x5B
    have h2 : 0 < k.x.e.mb := Nat.succ_pos _
    simp only [List.length_append] at hlen hf
    obtain ⟨w3, A, D', b3, s5, rfl, i2, i3, i4⟩ := subset_back (H.subF pub sys) (by rw [p4]; exact hd) _ b2 D1 s4 rfl (o1 hT) (by omega) (by omega) m4 (en3.step r4)
    obtain ⟨sp3, b4, j1, rfl⟩ := doc5_back (H.subF pub sys) i3 i4
    have r7 := i3.white (c := k.c) (ext := ext) (fuel := fuel) (expand := expand) (internal := k.internal) (between := false)
      (allowClose := true) (more := false) (opened := k.opened) (r := k.asc 0x3E ++ b4) S rfl j1 (asc_ne S _ _)
    obtain ⟨s6, m6, r8⟩ := doc_gt (ext := ext) (fuel := fuel) (expand := expand) (between := false) (allowClose := true)
        (more := false) S rfl (by rw [p1]; exact hF) (.inr (.inr rfl)) (by rw [p3]; exact outer_never hO) (by rw [p2]; exact H.pe) i3 b4
    rw [closed, p3] at m6
    exact ⟨_, b4, _, _, _, s6, by simp only [List.append_assoc],
      .mk sp1 name w1' sp2 _ pub sys true E A D1 D' w1 hn hO hsp2 (.some w3 A D' sp3 i2 j1), m6, H.subF pub sys, p1.trans hF, by rw [C59.subF]; split <;> rfl, (i4.step r7).step r8⟩
  · obtain ⟨p1, p2, p3, p4, p5, p6⟩ := docF_keep k F (converted k.x name.flatten) pub sys
    obtain ⟨s6, m6, r8⟩ := doc_gt (ext := ext) (fuel := fuel) (expand := expand) (between := false) (allowClose := true)
        (more := false) S rfl (by rw [p1]; exact hF) (by rcases hg with rfl | rfl <;> simp) (by rw [p3]; exact outer_never hO) (by rw [p2]; exact H.pe) m2 b2
    rw [closed, p3] at m6
    exact ⟨_, b2, _, _, _, s6, by simp only [List.append_assoc, List.nil_append],
      .mk sp1 name w1' sp2 [] pub sys false E [] D1 D1 w1 hn hO hsp2 .none, m6, H.docF _ pub sys, p1.trans hF, by rw [C59.docF]; split <;> rfl, en3.step r8⟩

/-! ### The prolog -/

/-- The root element begins with `r`; what the content is parsed with. -/
def Root (k : Ctx) (F : C59.Frame) (D : DTab) (z : DState) (r : Buf) : Prop :=
  prologTok k.x.e r = ⟨.INSTANCE_START, 0⟩ ∧ k.x.e.mb ∣ r.length ∧ z.D = D ∧ z.cur = F.cur

/-- What comes next outside the document type declaration. -/
theorem misc_back (H : Here k F ns) {g : Hd} (hg : g = .prolog1 ∨ g = .prolog2) (hF : F.foreign = false) : ∀ (n : Nat) (b : Buf) (s : DState), b.length = n → At F g D s → En s b r →
    ∃ w E s', Miscs k w E ∧ At F g D s' ∧ s'.decl = s.decl ∧
      (b = w ++ r ∧ Root k F D z r ∨ g = .prolog1 ∧ ∃ b', b = w ++ (declOpen k.asc kwDOCTYPE ++ b') ∧ En (s'.withP { s'.el.p with h := .doctype0 }) b' r ∧
        (NextIn k.asc isWS b' ∨ NextIn k.asc (· == 0x25) b' ∧ ∀ m, prologTokBody k.x.e b' ≠ ⟨.PERCENT, m⟩)) := by
  intro n
  have S := H.plain.S
  induction n using Nat.strongRecOn with
  | _ n ih =>
  intro b s hn a e
  have h1 : s.pe = .never := by rw [← H.plain.pe, H.pe]; exact congrArg C59.Frame.pe a.frame
  have h2 : s.el.p.documentEntity = true := by rw [← H.plain.doc, H.doc]; exact congrArg C59.Frame.doc a.frame
  obtain ⟨t, w, b', rfl, g4⟩ := e.tok H.plain a.none_ h1 (by rw [a.h]; rcases hg with rfl | rfl <;> simp)
  obtain ⟨q, g5, g6, g7⟩ := g4.handled h2
  have g5' := g5
  have hne (hti : t ≠ .INSTANCE_START) : 0 < w.length := by
    have := g4.mb H.plain hti
    have h2 : 0 < k.x.e.mb := Nat.succ_pos _
    omega
  have hmisc : g.miscy = true := by rcases hg with rfl | rfl <;> rfl
  -- white space, comments, processing instructions
  have key (hti : t ≠ .INSTANCE_START) {E : List PEv} {s1 : DState} (hM : ∀ {v : Buf} {G : List PEv}, Miscs k v G → Miscs k (w ++ v) (E ++ G)) (a1 : At F g D s1)
      (hd : s1.decl = s.decl) (q : R s (w ++ b') E s1 b') :
      ∃ v G s', Miscs k v G ∧ At F g D s' ∧ s'.decl = s.decl ∧
      (w ++ b' = v ++ r ∧ Root k F D z r ∨ g = .prolog1 ∧ ∃ b'', w ++ b' = v ++ (declOpen k.asc kwDOCTYPE ++ b'') ∧ En (s'.withP { s'.el.p with h := .doctype0 }) b'' r ∧
        (NextIn k.asc isWS b'' ∨ NextIn k.asc (· == 0x25) b'' ∧ ∀ m, prologTokBody k.x.e b'' ≠ ⟨.PERCENT, m⟩)) := by
    obtain ⟨v, G, s', i1, i2, i3, i4⟩ := ih b'.length (by rw [← hn, List.length_append]; have := hne hti; omega) b' s1 rfl a1 (e.step q)
    refine ⟨w ++ v, E ++ G, s', hM i1, i2, i3.trans hd, ?_⟩
    rcases i4 with ⟨rfl, i0⟩ | ⟨i4, b'', rfl, i5, i6⟩
    · exact .inl ⟨(List.append_assoc ..).symm, i0⟩
    · exact .inr ⟨i4, b'', (List.append_assoc ..).symm, i5, i6⟩
  have spaces (ht : t = .PROLOG_S) : ∃ v G s', Miscs k v G ∧ At F g D s' ∧ s'.decl = s.decl ∧
      (w ++ b' = v ++ r ∧ Root k F D z r ∨ g = .prolog1 ∧ ∃ b'', w ++ b' = v ++ (declOpen k.asc kwDOCTYPE ++ b'') ∧ En (s'.withP { s'.el.p with h := .doctype0 }) b'' r ∧
        (NextIn k.asc isWS b'' ∨ NextIn k.asc (· == 0x25) b'' ∧ ∀ m, prologTokBody k.x.e b'' ≠ ⟨.PERCENT, m⟩)) := by
    subst ht
    obtain ⟨sp, i1, i2, rfl⟩ := lex_space g4.lex
    refine key (by simp) (E := []) ?_ a rfl (Reach.spaces S (by rw [a.h]; rcases hg with rfl | rfl <;> rfl) a.none_ sp (maybe_all i2) (.inr rfl))
    intro v G hv
    clear hne key g4 e hn i1 g5 g5' g7
    induction sp with
    | nil => exact hv
    | cons d sp ih =>
      rw [spell_cons, List.append_assoc]
      exact .space d (i2 d (by simp)) (ih fun c hc => i2 c (by simp [hc]))
  have pis (ht : t = .PI) : ∃ v G s', Miscs k v G ∧ At F g D s' ∧ s'.decl = s.decl ∧
      (w ++ b' = v ++ r ∧ Root k F D z r ∨ g = .prolog1 ∧ ∃ b'', w ++ b' = v ++ (declOpen k.asc kwDOCTYPE ++ b'') ∧ En (s'.withP { s'.el.p with h := .doctype0 }) b'' r ∧
        (NextIn k.asc isWS b'' ∨ NextIn k.asc (· == 0x25) b'' ∧ ∀ m, prologTokBody k.x.e b'' ≠ ⟨.PERCENT, m⟩)) := by
    subst ht
    obtain ⟨tg, sp, ws, i1, rfl⟩ := pi_back S (lex_misc (.inr (.inl rfl)) g4.lex)
    obtain ⟨s1, m1, e1, q1⟩ := run_pi (ext := ext) (fuel := fuel) (expand := expand) (between := false) (allowClose := true) (more := false) S a hmisc i1 b'
    exact key (by simp) (fun hv => .pi tg sp ws i1 hv) m1 e1 q1
  have comments (ht : t = .COMMENT) : ∃ v G s', Miscs k v G ∧ At F g D s' ∧ s'.decl = s.decl ∧
      (w ++ b' = v ++ r ∧ Root k F D z r ∨ g = .prolog1 ∧ ∃ b'', w ++ b' = v ++ (declOpen k.asc kwDOCTYPE ++ b'') ∧ En (s'.withP { s'.el.p with h := .doctype0 }) b'' r ∧
        (NextIn k.asc isWS b'' ∨ NextIn k.asc (· == 0x25) b'' ∧ ∀ m, prologTokBody k.x.e b'' ≠ ⟨.PERCENT, m⟩)) := by
    subst ht
    obtain ⟨ws, i1, rfl⟩ := comment_back (lex_misc (.inl rfl) g4.lex)
    obtain ⟨s1, m1, e1, q1⟩ := run_comment (ext := ext) (fuel := fuel) (expand := expand) (between := false) (allowClose := true) (more := false) S a hmisc i1 b'
    exact key (by simp) (fun hv => .comment ws i1 hv) m1 e1 q1
  have root (ht : t = .INSTANCE_START) : w ++ b' = r ∧ Root k F D z r := by
    subst ht
    suffices h : r = w ++ b' by
      refine ⟨h.symm, ?_⟩
      have hw := lex_inst g4.lex
      subst hw h
      refine ⟨g4.tok, e.2.1, ?_⟩
      have := run_root (ext := ext) (fuel := fuel) (expand := expand) (between := false) (allowClose := true) (more := false) hg hF a e.1 g4.tok
      have hz := e.2.2.2
      simp only [List.nil_append] at this hz
      rw [this] at hz
      rw [← hz]
      exact ⟨a.D, congrArg C59.Frame.cur a.frame⟩
    rcases g4.good with ⟨hd, h⟩ | ⟨-, h, -⟩
    · exfalso
      have hp : s.el.p.next k.x.e .INSTANCE_START w = ({ s.el.p with h := .error }, .INSTANCE_START) := by
        rcases hg with rfl | rfl <;> simp [PState.next, PState.handle, a.h, prolog1, prolog2, PState.go]
      rw [hp] at h
      simp only [pact, actInstanceStart] at h
      split at h
      · split at h
        · cases h
        · rename_i hx
          exact hx _ _ _ (Prod.ext rfl (Prod.ext rfl h))
      · cases h
    · exact h
  rcases hg with rfl | rfl
  · simp only [handle, a.h, prolog1] at g5
    split at g5
    · exact spaces rfl
    · exact pis rfl
    · exact comments rfl
    · have := g4.lex
      cases this <;> simp_all [nameOps, charToks, parenOps]
    · obtain ⟨v, rfl, hr⟩ := lex_open g4.lex
      rw [kw_drop S] at g5
      split at g5
      · have hv := kw_eq H (by decide) ‹nameMatchesAscii k.x.e v kwDOCTYPE = true›
        subst hv
        cases g5
        exact ⟨[], [], s, .nil, a, rfl, .inr ⟨rfl, b', rfl, g4.quiet H.plain (by simp) g5' rfl, hr⟩⟩
      · cases g5
    · exact ⟨[], [], s, .nil, a, rfl, .inl (root rfl)⟩
    · cases g5
  · simp only [handle, a.h, prolog2] at g5
    split at g5
    · exact spaces rfl
    · exact pis rfl
    · exact comments rfl
    · exact ⟨[], [], s, .nil, a, rfl, .inl (root rfl)⟩
    · cases g5

/-- The whole prolog, from the state after the XML declaration. -/
theorem prolog_back (H : Here k F ns) (u : Untyped k F D) (hT : C33.TextsOk D.toDtd (internalUtf8X ns)) (hlen : b.length + 3 < 2 ^ 31)
    (hf : D.par.length + b.length < fuel) (a : At F .prolog1 D s) (hdl : s.decl = none) (e : En s b r) :
    ∃ w A D', b = w ++ r ∧ PrologText k D w A D' ∧ Root k F D' z r := by
  obtain ⟨w, E, s', i1, i2, i3, i4⟩ := misc_back H (.inl rfl) u.foreign _ b s rfl a e
  rcases i4 with ⟨rfl, i0⟩ | ⟨-, b', rfl, i5, i6⟩
  · exact ⟨w, _, D, rfl, .plain w E i1, i0⟩
  · simp only [List.length_append] at hlen hf
    obtain ⟨w2, b2, A, D', F', s2, rfl, j1, j2, j3, jf, jc, j4⟩ := doctype_back H u.fdoc u.foreign (i2.go .doctype0) (i3.trans hdl) u.keep u.hash hT
      (by omega) (by omega) i6 i5
    obtain ⟨w3, E3, s3, l1, -, -, l4⟩ := misc_back j3 (.inr rfl) jf _ b2 s2 rfl j2 j4
    rcases l4 with ⟨rfl, l0⟩ | ⟨l4, -⟩
    · exact ⟨_, _, D', by simp only [List.append_assoc], .typed w _ w3 E E3 A D' i1 j1 l1, l0.1, l0.2.1, l0.2.2.1, l0.2.2.2.trans jc⟩
    · cases l4

end

end Verif.C61
