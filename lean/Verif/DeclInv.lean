import Verif.PrologInv
import Verif.ConvLegal
import Verif.Props.C44

/-! Declarations of entities and notations, backwards. -/

set_option autoImplicit false

namespace Verif.C61
open C43 C53 C59 Spec Verif PState

/-! ### Literals -/

section
variable {e : Enc} {asc : UInt8 → Buf}

/-- Classes of bytes that are characters by themselves. -/
def lone : ByteType → Bool
  | .NONXML | .MALFORM | .TRAIL | .LEAD2 | .LEAD3 | .LEAD4 => false
  | _ => true

theorem pubid_class : ∀ t ∈ allTables, ∀ c : UInt8, C37.PubidChar c = true → lone (tableBt t c) = true := by
  intro t ht
  simp only [allTables, List.mem_cons, List.not_mem_nil, or_false] at ht
  rcases ht with rfl | rfl | rfl | rfl | rfl | rfl | rfl | rfl <;>
    exact UInt8.forall_dec (by decide +kernel)

theorem pubid_char (s : Supported e asc) {c : UInt8} (h : C37.PubidChar c = true) : e.IsChar (asc c) := by
  obtain ⟨t, ht, hb⟩ := C19.bt_asc s c (C37.pubid_ascii c h) []
  have hc := pubid_class t ht c h
  rw [List.append_nil] at hb
  rw [Enc.IsChar, hb]
  generalize tableBt t c = k at hc
  cases k <;> first | exact s.asc.len c | cases hc

/-- A literal that passes the test for public identifiers. -/
theorem pub_chars (s : Supported e asc) {q : UInt8} {ws : List Buf} (hq : Quoted e asc q ws) (h : isPublicId e (litText asc q ws) = none) :
    ∃ cs : List UInt8, ws = cs.map asc ∧ ∀ d ∈ cs, C37.PubidChar d = true := by
  have hd : e.mb ∣ ws.flatten.length := s.dvds hq.chars
  obtain ⟨cs, h1, h2⟩ := (C37.legal_iff s q _ hd).1 h
  refine ⟨cs, C44.chars_unique (a := []) (b := []) s.ok s.mb hq.chars ?_ ?_ ?_, h1⟩
  · intro w hw
    obtain ⟨c, hc, rfl⟩ := List.mem_map.1 hw
    exact pubid_char s (h1 c hc)
  · rw [h2]; rfl
  · rw [h2]; rfl

end

/-- What is fixed during the run. -/
structure Here (k : Ctx) (F : C59.Frame) (ns : Bool) : Prop where
  plain : Plain k
  doc : k.doc = F.doc
  pe : k.pe = F.pe
  int : k.c.int = internalUtf8X ns

section
variable {k : Ctx} {z : DState} {ext : Ext} {fuel : Nat} {expand : Bool → Buf → Buf → DState → Acted} {F : C59.Frame} {D : DTab} {s : DState} {h : Hd} {ns : Bool}
  {l : Option (Bool × Buf × Entity)} {p : Bool} {b r : Buf}

local notation "R" => Reach k.c ext fuel expand k.internal false true false k.opened k.x
local notation "En" => Ends k ext fuel expand z

/-- The next token of a declaration, and whether there is white space before it. -/
theorem Ends.next (H : Here k F ns) (a : At F h D s) (hs : h.spacy = true) (hh : h ≠ .condSect2) (hb : NextIn k.asc afterName b) (e : En s b r) :
    ∃ sp t w b' q, AllWS sp ∧ b = spell k.asc sp ++ (w ++ b') ∧ t ≠ .PROLOG_S ∧ (punctTok t = false → White sp) ∧ Look k ext fuel expand z s t w b' r ∧
      s.el.p.handle k.x.e t w = some q ∧ q.2 ≠ .ERROR ∧
      ((∃ hd, (pact k.c ext fuel expand k.internal true k.opened (s.withP q.1) q.2 t w).2.2 = .go hd) ∨ t = .INSTANCE_START ∧ r = w ++ b') := by
  obtain ⟨sp, t, w, b', q, g1, g2, g3, g4, g5⟩ := e.at H.plain H.doc H.pe a hs hh
  subst g2
  exact ⟨sp, t, w, b', q, g1, rfl, g3, gap H.plain.S.s hb g1 g4.ok (g4.body H.plain), g4, g5⟩

/-- The same after `<!NAME`. -/
theorem Ends.first (H : Here k F ns) (a : At F h D s) (hs : h.spacy = true) (hh : h ≠ .condSect2)
    (hb : NextIn k.asc isWS b ∨ NextIn k.asc (· == 0x25) b ∧ ∀ m, prologTokBody k.x.e b ≠ ⟨.PERCENT, m⟩) (e : En s b r) :
    ∃ sp t w b' q, AllWS sp ∧ b = spell k.asc sp ++ (w ++ b') ∧ (t ≠ .PARAM_ENTITY_REF → White sp) ∧ Look k ext fuel expand z s t w b' r ∧
      s.el.p.handle k.x.e t w = some q ∧ q.2 ≠ .ERROR ∧ t ≠ .PROLOG_S ∧
      ((∃ hd, (pact k.c ext fuel expand k.internal true k.opened (s.withP q.1) q.2 t w).2.2 = .go hd) ∨ t = .INSTANCE_START ∧ r = w ++ b') := by
  obtain ⟨sp, t, w, b', q, g1, g2, g3, g4, g5, g6, g7⟩ := e.at H.plain H.doc H.pe a hs hh
  subst g2
  exact ⟨sp, t, w, b', q, g1, rfl, gap_open H.plain.S.s hb g1 g4.ok (g4.body H.plain) g3, g4, g5, g6, g3, g7⟩

theorem lit_name (h : NextIn k.asc afterLit b) : NextIn k.asc afterName b :=
  next_mono (UInt8.forall_dec (P := fun c => afterLit c = true → afterName c = true) (by decide +kernel)) h

/-- The end of a declaration. -/
theorem close_back (H : Here k F ns) (a : At F .declClose D s) (e : En s b r) :
    ∃ sp b', AllWS sp ∧ b = spell k.asc sp ++ (k.asc 0x3E ++ b') := by
  obtain ⟨sp, t, w, b', q, g1, g2, g3, g4, g5, g6⟩ := e.at H.plain H.doc H.pe a rfl (by simp)
  simp only [handle, a.h, declClose] at g5
  split at g5
  · exact absurd rfl g3
  · rw [lex_gt g4.lex] at g2; exact ⟨sp, b', g1, g2⟩
  · cases g5

theorem ent_sys_back (H : Here k F ns) (m : Mid F (extH p).2.2.1 D l s) (hb : NextIn k.asc afterName b) (e : En s b r) :
    ∃ sp q ws b' l' s', White sp ∧ b = spell k.asc sp ++ (litText k.asc q ws ++ b') ∧ Quoted k.x.e k.asc q ws ∧ NextIn k.asc afterLit b' ∧
      Mid F (extH p).2.2.2 D l' s' ∧ En s' b' r := by
  obtain ⟨sp, t, w, b', q, g1, rfl, g3, gw, g4, g5, g6⟩ := e.next H m.at_ (by cases p <;> rfl) (by cases p <;> simp [extH]) hb
  have ht : t = .LITERAL := by
    have mh := m.at_.h
    cases p <;> simp only [extH, if_true, Bool.false_eq_true, if_false] at mh <;> simp only [handle, mh, entity4, entity9] at g5 <;> split at g5 <;> simp_all
  subst ht
  obtain ⟨q, ws, rfl, hq, hr⟩ := lex_lit g4.lex
  obtain ⟨s', m', r'⟩ := ent_sys (ext := ext) (fuel := fuel) (expand := expand) (between := false) (allowClose := true) (more := false) H.plain.S m hq hr
  exact ⟨sp, q, ws, b', _, s', gw rfl, rfl, hq, hr, m', g4.ends.step r'⟩

theorem ent_pub_back (H : Here k F ns) (m : Mid F (extH p).2.1 D l s) (hb : NextIn k.asc afterName b) (e : En s b r) :
    ∃ (sp : List UInt8) (q : UInt8) (cs : List UInt8) (b' : Buf) (l' : Option (Bool × Buf × Entity)) (s' : DState), White sp ∧ b = spell k.asc sp ++ (litText k.asc q (cs.map k.asc) ++ b') ∧ Quoted k.x.e k.asc q (cs.map k.asc) ∧
      (∀ d ∈ cs, C37.PubidChar d = true) ∧ NextIn k.asc afterLit b' ∧ Mid F (extH p).2.2.1 D l' s' ∧ En s' b' r := by
  obtain ⟨sp, t, w, b', q, g1, rfl, g3, gw, g4, g5, -, g7⟩ := e.next H m.at_ (by cases p <;> rfl) (by cases p <;> simp [extH]) hb
  have ht : t = .LITERAL ∧ q.2 = .ENTITY_PUBLIC_ID := by
    have mh := m.at_.h
    cases p <;> simp only [extH, if_true, Bool.false_eq_true, if_false] at mh <;> simp only [handle, mh, entity3, entity8, go] at g5 <;> split at g5 <;> simp_all
    all_goals rw [← g5]
  obtain ⟨rfl, hq2⟩ := ht
  obtain ⟨q1, ws, rfl, hq, hr⟩ := lex_lit g4.lex
  have hpub : isPublicId k.x.e (litText k.asc q1 ws) = none := by
    rcases g7 with ⟨hd, g7⟩ | ⟨g7, -⟩
    · have hx : (s.withP q.1).x k.c k.internal = k.x := g4.ends.1
      simp only [hq2, pact, hx, actEntity] at g7
      split at g7
      · cases g7
      · simp_all
    · cases g7
  obtain ⟨cs, rfl, hc⟩ := pub_chars H.plain.S.s hq hpub
  obtain ⟨s', m', r'⟩ := ent_pub1 (ext := ext) (fuel := fuel) (expand := expand) (between := false) (allowClose := true) (more := false) H.plain.S m hq hc hr
  exact ⟨sp, q1, cs, b', _, s', gw rfl, rfl, hq, hc, hr, m', g4.ends.step r'⟩

omit k F in
/-- Where parameter entities are not recognised it does not matter which there are. -/
theorem repl_any {par par' : Buf → Option Entity} {int x : XEnc} {asc : UInt8 → Buf} {le : Bool} {op : List Buf} {b out : Buf}
    (h : C58.Repl par int x asc le false op b out) : C58.Repl par' int x asc le false op b out := by
  generalize hp : false = pes at h
  induction h with
  | nil => exact .nil
  | crlf h ih => exact .crlf (ih hp)
  | cr hr h ih => exact .cr hr (ih hp)
  | lf h ih => exact .lf (ih hp)
  | char w hw h1 h2 h3 h4 h ih => exact .char w hw h1 h2 h3 h4 (ih hp)
  | dec ds h0 hd hx h ih => exact .dec ds h0 hd hx (ih hp)
  | hex ds h0 hd hx h ih => exact .hex ds h0 hd hx (ih hp)
  | entity ws hn h ih => exact .entity ws hn (ih hp)
  | param => cases hp

theorem Here.intOk (H : Here k F ns) : IntOk k := by
  refine ⟨?_, ?_⟩
  · rw [H.int]; exact .internalUtf8 ns
  · rw [H.int]; cases ns <;> decide +kernel

/-- A keyword among the tokens. -/
theorem kw_eq (H : Here k F ns) {kw : List UInt8} (hk : kw.all isUpper = true) {w : Buf} (h : nameMatchesAscii k.x.e w kw = true) : w = spell k.asc kw := by
  rw [nameMatches_iff H.plain.S.s kw (upper_ascii hk)] at h
  simpa using h

theorem ent_tail_back (H : Here k F ns) (m : Mid F (extH p).2.2.2 D l s) (hb : NextIn k.asc afterName b) (e : En s b r) :
    (∃ sp b', AllWS sp ∧ b = spell k.asc sp ++ (k.asc 0x3E ++ b')) ∨
    p = false ∧ ∃ sp1 sp2 name sp3 b', White sp1 ∧ White sp2 ∧ k.x.e.Name name ∧ AllWS sp3 ∧
      b = spell k.asc sp1 ++ (spell k.asc kwNDATA ++ (spell k.asc sp2 ++ (name.flatten ++ (spell k.asc sp3 ++ (k.asc 0x3E ++ b'))))) := by
  obtain ⟨sp, t, w, b', q, g1, rfl, g3, gw, g4, g5, -, g7⟩ := e.next H m.at_ (by cases p <;> rfl) (by cases p <;> simp [extH]) hb
  have mh := m.at_.h
  cases p
  · simp only [extH, Bool.false_eq_true, if_false] at mh m
    simp only [handle, mh, entity5] at g5
    split at g5
    · exact absurd rfl g3
    · rw [lex_gt g4.lex]; exact .inl ⟨sp, b', g1, rfl⟩
    · split at g5
      · rename_i hkw
        have hn := lex_name g4.lex
        have hw := kw_eq H (by decide) hkw
        subst hw
        obtain ⟨ws, -, -, hr⟩ := hn
        have g5' := g5
        simp only [go, Option.some.injEq] at g5
        have e1 := g4.quiet H.plain (by simp) (q := q) (by simp [handle, mh, entity5, hkw, g5']) (by rw [← g5]; rfl)
        rw [← g5] at e1
        have m1 := m.go .entity6
        obtain ⟨sp2, t2, w2, b2, q2, j1, j2, j3, jw, j4, j5, -, j7⟩ := e1.next H m1.at_ rfl (by simp) hr
        simp only [handle, m1.at_.h, entity6] at j5
        split at j5
        · exact absurd rfl j3
        · obtain ⟨name, rfl, hn, hr2⟩ := lex_name j4.lex
          have m2 := m1.close (n := .ENTITY_NONE) rfl
          subst j2
          have w1 := gw rfl
          have w2 := jw rfl
          have hd := ent_ndata (ext := ext) (fuel := fuel) (expand := expand) (between := false) (allowClose := true) (more := false) H.plain.S m w1 w2 hn hr2
          obtain ⟨s', m', r'⟩ := hd
          obtain ⟨sp3, b3, i1, i2⟩ := close_back H m'.at_ (e.step r')
          subst i2
          exact .inr ⟨rfl, sp, sp2, name, sp3, b3, w1, w2, hn, i1, rfl⟩
        · cases j5
      · cases g5
    · cases g5
  · simp only [extH, if_true] at mh m
    simp only [handle, mh, entity10] at g5
    split at g5
    · exact absurd rfl g3
    · rw [lex_gt g4.lex]; exact .inl ⟨sp, b', g1, rfl⟩
    · cases g5

theorem ent_value_back (H : Here k F ns) (hf : D.par.length < fuel) (m : Mid F (extH p).1 D l s) {b' : Buf} {w : Buf} (L : Look k ext fuel expand z s .LITERAL w b' r)
    {q : PState × Role} (hq : s.el.p.handle k.x.e .LITERAL w = some q)
    (hg : ∃ hd, (pact k.c ext fuel expand k.internal true k.opened (s.withP q.1) q.2 .LITERAL w).2.2 = .go hd) :
    ∃ d sp3 b3, EntityDefText k D p w d ∧ AllWS sp3 ∧ b' = spell k.asc sp3 ++ (k.asc 0x3E ++ b3) := by
  obtain ⟨q1, ws, rfl, hq1, hr⟩ := lex_lit L.lex
  have hrole : q.2 = .ENTITY_VALUE := by
    have mh := m.at_.h
    cases p <;> simp only [extH, if_true, Bool.false_eq_true, if_false] at mh <;> simp only [handle, mh, entity2, entity7, close] at hq <;> cases hq <;> rfl
  have hv : ∃ v, D.keep = true → C58.Repl (tabGet D.par) k.c.int k.x k.asc (k.x.e.lineEnds k.asc) (k.c.isPE || k.internal) k.opened ws.flatten v := by
    by_cases hk : D.keep = true
    · obtain ⟨hd, hg⟩ := hg
      have hx : (s.withP q.1).x k.c k.internal = k.x := L.ends.1
      have hk' : (s.withP q.1).D.keep = true := by rw [← hk]; exact m.keep
      simp only [hrole, pact, hx, actEntity, hk', Bool.not_true, Bool.false_eq_true, if_false, refName_lit H.plain.S.s] at hg
      split at hg
      · cases hg
      · rename_i herr
        rw [H.plain.internal] at herr
        obtain ⟨out, h1, -⟩ := C58.sound H.plain.S H.plain.isPE fuel k.opened _ rfl hq1.chars.lit herr
        refine ⟨out, fun _ => ?_⟩
        rw [H.plain.isPE, H.plain.internal]
        exact repl_any h1
    · exact ⟨[], fun h => absurd h hk⟩
  obtain ⟨v, hv⟩ := hv
  obtain ⟨s', m', r'⟩ := ent_value (ext := ext) (fuel := fuel) (expand := expand) (between := false) (allowClose := true) (more := false) H.plain.S H.intOk m
    (by cases p <;> simp [extH]) hq1 hv hf hr
  obtain ⟨sp3, b3, i1, i2⟩ := close_back H m'.at_ (L.ends.step r')
  exact ⟨_, sp3, b3, .value p q1 ws v hq1 hv, i1, i2⟩

theorem ent_kw_back (H : Here k F ns) (m : Mid F (extH p).1 D l s) {b' w : Buf} (L : Look k ext fuel expand z s .NAME w b' r)
    {q : PState × Role} (hq : s.el.p.handle k.x.e .NAME w = some q) :
    (∃ s', w = spell k.asc kwSYSTEM ∧ Mid F (extH p).2.2.1 D l s' ∧ En s' b' r) ∨
    (∃ s', w = spell k.asc kwPUBLIC ∧ Mid F (extH p).2.1 D l s' ∧ En s' b' r) := by
  have key : (w = spell k.asc kwSYSTEM ∧ q = ({ s.el.p with h := (extH p).2.2.1 }, .ENTITY_NONE)) ∨
      (w = spell k.asc kwPUBLIC ∧ q = ({ s.el.p with h := (extH p).2.1 }, .ENTITY_NONE)) := by
    have mh := m.at_.h
    have hq' := hq
    cases p <;> simp only [extH, if_true, Bool.false_eq_true, if_false] at mh <;> simp only [handle, mh, entity2, entity7, go] at hq' <;> split at hq'
    all_goals first
      | (rename_i hk; cases hq'; exact .inl ⟨kw_eq H (by decide) hk, rfl⟩)
      | (split at hq'
         · rename_i hk; cases hq'; exact .inr ⟨kw_eq H (by decide) hk, rfl⟩
         · cases hq')
  rcases key with ⟨h1, h2⟩ | ⟨h1, h2⟩
  · have e1 := L.quiet H.plain (by simp) hq (by rw [h2]; rfl)
    rw [h2] at e1
    exact .inl ⟨_, h1, m.go _, e1⟩
  · have e1 := L.quiet H.plain (by simp) hq (by rw [h2]; rfl)
    rw [h2] at e1
    exact .inr ⟨_, h1, m.go _, e1⟩

theorem ent_ext_back (H : Here k F ns) (m : Mid F (extH p).1 D l s) {b' w : Buf} (L : Look k ext fuel expand z s .NAME w b' r)
    {q : PState × Role} (hq : s.el.p.handle k.x.e .NAME w = some q) :
    ∃ v b'' pub sys l' s', w ++ b' = v ++ b'' ∧ ExternalID k.x k.asc v pub sys ∧ NextIn k.asc afterLit b'' ∧ Mid F (extH p).2.2.2 D l' s' ∧ En s' b'' r := by
  obtain ⟨-, -, -, hr⟩ := lex_name L.lex
  rcases ent_kw_back H m L hq with ⟨s', rfl, m', e'⟩ | ⟨s', rfl, m', e'⟩
  · obtain ⟨sp, q, ws, b2, l2, s2, h1, rfl, h3, h4, h5, h6⟩ := ent_sys_back H m' hr e'
    exact ⟨_, b2, _, _, l2, s2, by simp only [List.append_assoc], .system sp q ws h1 h3, h4, h5, h6⟩
  · obtain ⟨sp, q, cs, b2, l2, s2, h1, rfl, h3, hc, h4, h5, h6⟩ := ent_pub_back H m' hr e'
    obtain ⟨sp', q', ws, b3, l3, s3, j1, rfl, j3, j4, j5, j6⟩ := ent_sys_back H h5 (lit_name h4) h6
    exact ⟨_, b3, _, _, l3, s3, by simp only [List.append_assoc], .pub sp q cs sp' q' ws h1 h3 hc j1 j3, j4, j5, j6⟩

/-- From the name of an entity on. -/
theorem ent_def_back (H : Here k F ns) (hf : D.par.length < fuel) (m : Mid F (extH p).1 D l s) (hb : NextIn k.asc afterName b) (e : En s b r) :
    ∃ sp w d sp3 b', White sp ∧ b = spell k.asc sp ++ (w ++ (spell k.asc sp3 ++ (k.asc 0x3E ++ b'))) ∧ EntityDefText k D p w d ∧ AllWS sp3 := by
  obtain ⟨sp, t, w, b', q, g1, rfl, g3, gw, g4, g5, -, g7⟩ := e.next H m.at_ (by cases p <;> rfl) (by cases p <;> simp [extH]) hb
  have ht : t = .NAME ∨ t = .LITERAL := by
    have mh := m.at_.h
    cases p <;> simp only [extH, if_true, Bool.false_eq_true, if_false] at mh <;> simp only [handle, mh, entity2, entity7] at g5 <;> split at g5 <;> simp_all
  rcases ht with rfl | rfl
  · obtain ⟨v, b2, pub, sys, l2, s2, h1, h2, h3, h4, h5⟩ := ent_ext_back H m g4 g5
    rcases ent_tail_back H h4 (lit_name h3) h5 with ⟨sp3, b3, j1, rfl⟩ | ⟨rfl, sp1, sp2, name, sp3, b3, j1, j2, j3, j4, rfl⟩
    · exact ⟨sp, v, _, sp3, b3, gw rfl, by rw [h1], .external p v pub sys h2, j1⟩
    · exact ⟨sp, _, _, sp3, b3, gw rfl, by rw [h1]; simp only [List.append_assoc], .unparsed v pub sys sp1 sp2 name h2 j1 j2 j3, j4⟩
  · rcases g7 with g7 | ⟨g7, -⟩
    · obtain ⟨d, sp3, b3, h1, h2, rfl⟩ := ent_value_back H hf m g4 g5 g7
      exact ⟨sp, w, d, sp3, b3, gw rfl, rfl, h1, h2⟩
    · cases g7

/-- `<!ENTITY` is followed by the rest of a declaration. -/
theorem entity_back (H : Here k F ns) (hf : D.par.length < fuel) (a : At F .entity0 D s)
    (hb : NextIn k.asc isWS b ∨ NextIn k.asc (· == 0x25) b ∧ ∀ m, prologTokBody k.x.e b ≠ ⟨.PERCENT, m⟩) (e : En s b r) :
    ∃ w b' A D', b = w ++ b' ∧ Decl k D (declOpen k.asc kwENTITY ++ w) A D' := by
  obtain ⟨sp, t, w, b', q, g1, rfl, gw, g4, g5, -, g3, g7⟩ := e.first H a rfl (by simp) hb
  have g5' := g5
  simp only [handle, a.h, entity0] at g5
  split at g5
  · exact absurd rfl g3
  · have e1 := g4.quiet H.plain (by simp) (q := q) g5' (by cases g5; rfl)
    cases g5
    have a1 := a.go .entity1
    obtain ⟨rfl, hr⟩ := lex_percent g4.lex
    obtain ⟨sp2, t2, w2, b2, q2, j1, rfl, j3, jw, j4, j5, -, j7⟩ := e1.next H a1 rfl (by simp) 
      (next_mono (UInt8.forall_dec (P := fun c => afterPct c = true → afterName c = true) (by decide +kernel)) hr)
    simp only [handle, a1.h, entity1] at j5
    split at j5
    · exact absurd rfl j3
    · obtain ⟨name, rfl, hn, hr2⟩ := lex_name j4.lex
      obtain ⟨l, s', m', r', -⟩ := param_name (ext := ext) (fuel := fuel) (expand := expand) (between := false) (allowClose := true) (more := false) H.plain.S a1 hn hr2
      obtain ⟨sp3, w, d, sp4, b3, i1, rfl, i3, i4⟩ := ent_def_back (p := true) H hf m' hr2 (j4.ends.step r')
      by_cases hc : Counts k D true name.flatten
      · refine ⟨_, b3, _, _, ?_, .paramEntity sp sp2 name sp3 w d sp4 (gw (by simp)) (jw rfl) hn i1 i3 i4 _ _ (fun _ => ⟨rfl, rfl⟩) fun h => absurd hc h⟩
        simp only [List.append_assoc]
      · refine ⟨_, b3, _, _, ?_, .paramEntity sp sp2 name sp3 w d sp4 (gw (by simp)) (jw rfl) hn i1 i3 i4 _ _ (fun h => absurd h hc) fun _ => ⟨rfl, rfl⟩⟩
        simp only [List.append_assoc]
    · cases j5
  · obtain ⟨name, rfl, hn, hr2⟩ := lex_name g4.lex
    obtain ⟨l, s', m', r', -⟩ := entity_name (ext := ext) (fuel := fuel) (expand := expand) (between := false) (allowClose := true) (more := false) H.plain.S a hn hr2
    obtain ⟨sp3, w, d, sp4, b3, i1, rfl, i3, i4⟩ := ent_def_back (p := false) H hf m' hr2 (g4.ends.step r')
    by_cases hc : Counts k D false name.flatten
    · refine ⟨_, b3, _, _, ?_, .entity sp name sp3 w d sp4 (gw (by simp)) hn i1 i3 i4 _ _ (fun _ => ⟨rfl, rfl⟩) fun h => absurd hc h⟩
      simp only [List.append_assoc]
    · refine ⟨_, b3, _, _, ?_, .entity sp name sp3 w d sp4 (gw (by simp)) hn i1 i3 i4 _ _ (fun h => absurd h hc) fun _ => ⟨rfl, rfl⟩⟩
      simp only [List.append_assoc]
  · cases g5

/-! ### Notations -/

theorem note_id_back (H : Here k F ns) {n pub : Option Buf} {v : Buf} (hv : n = noteName k v) (m : Noting F .notation1 D n pub s) (hb : NextIn k.asc afterName b) (e : En s b r) :
    ∃ sp w pub sys sp3 b', White sp ∧ b = spell k.asc sp ++ (w ++ (spell k.asc sp3 ++ (k.asc 0x3E ++ b'))) ∧ NotationID k.x k.asc w pub sys ∧ AllWS sp3 := by
  subst hv
  obtain ⟨sp, t, w, b', q, g1, rfl, g3, gw, g4, g5, -, g7⟩ := e.next H m.at_ rfl (by simp) hb
  have g5' := g5
  simp only [handle, m.at_.h, notation1] at g5
  split at g5
  · exact absurd rfl g3
  · obtain ⟨-, -, -, hr⟩ := lex_name g4.lex
    split at g5
    · rename_i hk
      have hw := kw_eq H (by decide) hk
      subst hw
      have e1 := g4.quiet H.plain (by simp) (q := q) g5' (by cases g5; rfl)
      cases g5
      have m1 := m.go .notation3
      obtain ⟨sp2, t2, w2, b2, q2, j1, rfl, j3, jw, j4, j5, -, j7⟩ := e1.next H m1.at_ rfl (by simp) hr
      simp only [handle, m1.at_.h, notation3] at j5
      split at j5
      · exact absurd rfl j3
      · obtain ⟨q1, ws, rfl, hq, hr2⟩ := lex_lit j4.lex
        obtain ⟨s', a', r'⟩ := note_sys (ext := ext) (fuel := fuel) (expand := expand) (between := false) (allowClose := true) (more := false) H.plain.S m1 (.inl rfl)
          (fun _ => rfl) hq hr2
        obtain ⟨sp3, b3, i1, rfl⟩ := close_back H a' (j4.ends.step r')
        exact ⟨sp, _, _, _, sp3, b3, gw rfl, by simp only [List.append_assoc], .external _ _ _ (.system sp2 q1 ws (jw rfl) hq), i1⟩
      · cases j5
    · split at g5
      · rename_i hk
        have hw := kw_eq H (by decide) hk
        subst hw
        have e1 := g4.quiet H.plain (by simp) (q := q) g5' (by cases g5; rfl)
        cases g5
        have m1 := m.go .notation2
        obtain ⟨sp2, t2, w2, b2, q2, j1, rfl, j3, jw, j4, j5, -, j7⟩ := e1.next H m1.at_ rfl (by simp) hr
        have j5' := j5
        simp only [handle, m1.at_.h, notation2] at j5
        split at j5
        · exact absurd rfl j3
        · obtain ⟨q1, ws, rfl, hq, hr2⟩ := lex_lit j4.lex
          have hpub : isPublicId k.x.e (litText k.asc q1 ws) = none := by
            rcases j7 with ⟨hd, j7⟩ | ⟨j7, -⟩
            · cases j5
              have hx := j4.ends.1
              change ((s.withP { s.el.p with h := .notation2 }).withP _).x k.c k.internal = k.x at hx
              simp only [pact, hx, actNotation] at j7
              split at j7
              · cases j7
              · rename_i hh
                cases hi : isPublicId k.x.e (litText k.asc q1 ws) with
                | none => rfl
                | some z =>
                  have hz : (isPublicId k.x.e (litText k.asc q1 ws)).isSome = true := by rw [hi]; rfl
                  rw [← hx] at hz
                  exact absurd hz hh
            · cases j7
          obtain ⟨cs, rfl, hc⟩ := pub_chars H.plain.S.s hq hpub
          obtain ⟨s', pub', m2, hp', -, r'⟩ := note_pub (ext := ext) (fuel := fuel) (expand := expand) (between := false) (allowClose := true) (more := false) H.plain.S m1 hq hc hr2
          obtain ⟨sp3, t3, w3, b3, q3, i1, rfl, i3, iw, i4, i5, -, i7⟩ := (j4.ends.step r').next H m2.at_ rfl (by simp) (lit_name hr2)
          simp only [handle, m2.at_.h, notation4] at i5
          split at i5
          · exact absurd rfl i3
          · obtain ⟨q4, ws4, rfl, hq4, hr4⟩ := lex_lit i4.lex
            obtain ⟨s', a', r'⟩ := note_sys (ext := ext) (fuel := fuel) (expand := expand) (between := false) (allowClose := true) (more := false) H.plain.S m2 (.inr rfl)
              (fun _ => rfl) hq4 hr4
            obtain ⟨sp5, b5, f1, rfl⟩ := close_back H a' (i4.ends.step r')
            exact ⟨sp, _, _, _, sp5, b5, gw rfl, by simp only [List.append_assoc], .external _ _ _ (.pub sp2 q1 cs sp3 q4 ws4 (jw rfl) hq hc (iw rfl) hq4), f1⟩
          · rw [lex_gt i4.lex]
            exact ⟨sp, _, _, _, sp3, b3, gw rfl, by simp only [List.append_assoc], .pubOnly sp2 q1 cs (jw rfl) hq hc, i1⟩
          · cases i5
        · cases j5
      · cases g5
  · cases g5

theorem notation_back (H : Here k F ns) (a : At F .notation0 D s)
    (hb : NextIn k.asc isWS b ∨ NextIn k.asc (· == 0x25) b ∧ ∀ m, prologTokBody k.x.e b ≠ ⟨.PERCENT, m⟩) (e : En s b r) :
    ∃ w b' A D', b = w ++ b' ∧ Decl k D (declOpen k.asc kwNOTATION ++ w) A D' := by
  obtain ⟨sp, t, w, b', q, g1, rfl, gw, g4, g5, -, g3, g7⟩ := e.first H a rfl (by simp) hb
  simp only [handle, a.h, notation0] at g5
  split at g5
  · exact absurd rfl g3
  · obtain ⟨name, rfl, hn, hr2⟩ := lex_name g4.lex
    obtain ⟨s', m', r'⟩ := note_name (ext := ext) (fuel := fuel) (expand := expand) (between := false) (allowClose := true) (more := false) H.plain.S a hn hr2
    obtain ⟨sp3, w, pub, sys, sp4, b3, i1, rfl, i3, i4⟩ := note_id_back H rfl m' hr2 (g4.ends.step r')
    refine ⟨_, b3, _, _, ?_, .notation_ sp name sp3 w pub sys sp4 (gw (by simp)) hn i1 i3 i4⟩
    simp only [List.append_assoc]
  · cases g5

end

end Verif.C61
