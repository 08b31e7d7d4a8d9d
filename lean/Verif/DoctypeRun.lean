import Verif.DeclThm
import Verif.DoctypeSpec

/-! The document type declaration, and the prolog as a whole. -/

set_option autoImplicit false

namespace Verif.C59
open C43 C53 Spec Verif PState

section
variable {k : Ctx} {ext : Ext} {fuel : Nat} {expand : Bool → Buf → Buf → DState → Acted}
  {between allowClose more : Bool} {F : Frame} {D : DTab} {s : DState} {h h' : Hd}

local notation "R" => Reach k.c ext fuel expand k.internal between allowClose more k.opened k.x

/-- `step` where more than the common part of the state changes. -/
theorem stepc {s s' : DState} (S : XSupported k.x k.asc) {t : Tok} {w r : Buf} {p : PState} {role : Role} {E : List PEv}
    (hb : prologTokBody k.x.e (w ++ r) = ⟨t, w.length⟩) (hw : k.x.e.mb ≤ w.length) (ht : t.isError = false)
    (hp : s.el.p.next k.x.e t w = (p, role)) (hf : s'.cur = s.cur) (hE : heard E = E)
    (ha : (s.withP p).x k.c k.internal = k.x → ∃ hd, pact k.c ext fuel expand k.internal allowClose k.opened (s.withP p) role t w = (E, s', .go hd)) :
    R s (w ++ r) E s' r := by
  intro hx hd
  obtain ⟨d, ha⟩ := ha hx
  have := Reach.tok (between := between) (more := more) (r := r) S hb hw ht hp (by rw [DState.x, DState.x, hf]) fun _ => ha
  rw [hE] at this
  exact this hx hd

/-- `<!DOCTYPE` -/
theorem doc_open (a : At F .prolog1 D s) (S : XSupported k.x k.asc) {sp : List UInt8} (hsp : White sp) {r : Buf} (hr : r ≠ []) :
    R s (declOpen k.asc kwDOCTYPE ++ (spell k.asc sp ++ r)) [] (s.withP { s.el.p with h := .doctype0 }) r := by
  have l (d) := S.s.asc.len d
  have hlen : (declOpen k.asc kwDOCTYPE).length = k.x.e.mb + k.x.e.mb + (spell k.asc kwDOCTYPE).length := by
    simp only [declOpen, List.length_append, l]; omega
  have hdrop : (declOpen k.asc kwDOCTYPE).drop (2 * k.x.e.mb) = spell k.asc kwDOCTYPE := by
    rw [declOpen, Nat.two_mul, ← List.drop_drop, List.drop_left' (l _), List.drop_left' (l _)]
  have hb : prologTokBody k.x.e (declOpen k.asc kwDOCTYPE ++ (spell k.asc sp ++ r)) = ⟨.DECL_OPEN, (declOpen k.asc kwDOCTYPE).length⟩ := by
    rw [hlen, ← pt_decl S.s (by decide) (by decide) (hsp.next r)]
    simp only [declOpen, List.append_assoc]
  have hp : s.el.p.next k.x.e .DECL_OPEN (declOpen k.asc kwDOCTYPE) = ({ s.el.p with h := .doctype0 }, .DOCTYPE_NONE) := by
    have h1 : s.el.p.handle k.x.e .DECL_OPEN (declOpen k.asc kwDOCTYPE) = prolog1 k.x.e s.el.p .DECL_OPEN (declOpen k.asc kwDOCTYPE) := by
      simp [PState.handle, a.h]
    rw [PState.next, h1, prolog1, hdrop, matches_kw S.s kwDOCTYPE (by decide)]; rfl
  exact (quiet_tok S hb (by rw [hlen]; omega) rfl hp rfl).then ((a.go .doctype0).white S rfl hsp.2 hr)

/-- What is kept of the declaration. -/
def docF (k : Ctx) (F : Frame) (n : Buf) (pub sys : Option Buf) : Frame :=
  if k.c.startDoctype then { F with dName := some n, dPub := pub, dSys := sys } else { F with dSys := sys.map fun _ => hashName }

theorem doc_name (S : XSupported k.x k.asc) (a : At F .doctype0 D s) {name : List Buf} (hn : DName k.x.e k.asc name) {r : Buf}
    (hr : NextIn k.asc afterName r) :
    ∃ s', At (docF k F (converted k.x name.flatten) none none) .doctype1 D s' ∧ s'.decl = s.decl ∧ R s (name.flatten ++ r) [] s' r := by
  obtain ⟨t, ht, hb⟩ := pt_qname S.s hn hr
  have hp : s.el.p.next k.x.e t name.flatten = ({ s.el.p with h := .doctype1 }, .DOCTYPE_NAME) := by
    rcases ht with rfl | rfl <;> simp [PState.next, PState.handle, a.h, doctype0, PState.go]
  have b := a.go .doctype1
  have hd1 : (s.withP { s.el.p with h := .doctype1 }).decl = s.decl := rfl
  have hc1 : (s.withP { s.el.p with h := .doctype1 }).cur = s.cur := rfl
  generalize hs1 : s.withP { s.el.p with h := .doctype1 } = s1 at b hd1 hc1
  have he : t.isError = false := by rcases ht with rfl | rfl <;> rfl
  cases hc : k.c.startDoctype with
  | true =>
    refine ⟨{ s1 with dName := some (s1.tmp ++ converted k.x name.flatten), tmp := [], dPub := none, dSys := none },
      ⟨b.h, b.none_, ?_, b.D, rfl, b.rest⟩, hd1, stepc S hb (qname_min S.s hn) he hp hc1 rfl fun hx => ?_⟩
    · rw [docF, if_pos hc, b.tmp, ← b.frame]; rfl
    · rw [hs1] at hx ⊢
      simp only [pact, actDoctype, hx, hc]
      exact ⟨_, rfl⟩
  | false =>
    refine ⟨{ s1 with dSys := none }, ⟨b.h, b.none_, ?_, b.D, b.tmp, b.rest⟩, hd1, stepc S hb (qname_min S.s hn) he hp hc1 rfl fun hx => ?_⟩
    · rw [docF, if_neg (by simp [hc]), ← b.frame]; rfl
    · rw [hs1] at hx ⊢
      simp only [pact, actDoctype, hx, hc]
      exact ⟨_, rfl⟩

theorem doc_kw (S : XSupported k.x k.asc) (a : At F .doctype1 D s) {kw : List UInt8} {h' : Hd}
    (hk : (kw, h') = (kwSYSTEM, Hd.doctype3) ∨ (kw, h') = (kwPUBLIC, Hd.doctype2)) {sp : List UInt8} (hsp : White sp)
    {r : Buf} (hr : r ≠ []) :
    ∃ s', At F h' D s' ∧ s'.decl = s.decl ∧ R s (spell k.asc kw ++ (spell k.asc sp ++ r)) [] s' r := by
  have hm {b : List UInt8} (hb : b.all isUpper = true) := matches_kw S.s kw hb
  have m1 := a.go h'
  have hp : s.el.p.next k.x.e .NAME (spell k.asc kw) = ({ s.el.p with h := h' }, .DOCTYPE_NONE) := by
    rcases hk with hk | hk <;> cases hk
    · simp [PState.next, PState.handle, a.h, doctype1, PState.go, hm (b := kwSYSTEM) (by decide)]
    · simp only [PState.next, PState.handle, a.h, doctype1, hm (b := kwSYSTEM) (by decide), hm (b := kwPUBLIC) (by decide)]
      rfl
  have hu : kw ≠ [] ∧ kw.all isUpper = true := by
    rcases hk with hk | hk <;> cases hk <;> exact ⟨by decide, by decide⟩
  refine ⟨_, m1, rfl, (quiet_tok (t := .NAME) (role := .DOCTYPE_NONE) S (pt_kw S.s hu.1 hu.2 (hsp.nextName _)) (spell_min S.s hu.1) rfl hp rfl).then
    (m1.white S ?_ hsp.2 hr)⟩
  rcases hk with hk | hk <;> cases hk <;> rfl

/-- The entry of the external subset between the two identifiers. -/
def halfSubset (D : DTab) (pub : Buf) : DTab :=
  { D with hasPERefs := true, par := D.par ++ [(hashName, { Entity.zero with publicId := some pub })] }

theorem put_fresh {t : List (Buf × Entity)} {n : Buf} (h : tabGet t n = none) (v : Entity) : tabPut t n v = t ++ [(n, v)] := by
  rw [tabPut, h]; rfl

theorem doc_pub {n : Buf} (S : XSupported k.x k.asc) (hF : F.foreign = false) (a : At (docF k F n none none) .doctype2 D s) (hD : D.keep = true)
    (hH : tabGet D.par hashName = none) {q : UInt8} {cs : List UInt8}
    (hq : Quoted k.x.e k.asc q (cs.map k.asc)) (hc : ∀ d ∈ cs, C37.PubidChar d = true) {r : Buf} (hr : NextIn k.asc afterLit r) :
    ∃ s', At (docF k F n (some (C37.normal cs)) none) .doctype3 (halfSubset D (C37.normal cs)) s' ∧ s'.decl = some (true, hashName) ∧
      R s (litText k.asc q (cs.map k.asc) ++ r) [] s' r := by
  have hp : s.el.p.next k.x.e .LITERAL (litText k.asc q (cs.map k.asc)) = ({ s.el.p with h := .doctype3 }, .DOCTYPE_PUBLIC_ID) := by
    simp [PState.next, PState.handle, a.h, doctype2, PState.go]
  have b := a.go .doctype3
  have hc1 : (s.withP { s.el.p with h := .doctype3 }).cur = s.cur := rfl
  generalize hs1 : s.withP { s.el.p with h := .doctype3 } = s1 at b hc1
  have hpub := pub_ok (q := q) S hc
  have hfo : s1.foreign = false := by
    rw [show s1.foreign = (docF k F n none none).foreign from congrArg Frame.foreign b.frame, docF]
    split <;> exact hF
  have hset (u : DState) : (docPublic.docPublicSet k.x (litText k.asc q (cs.map k.asc)) { u with foreign := false, decl := some (true, hashName), D := { D with par := tabPut D.par hashName .zero, hasPERefs := true } }) =
      { u with decl := some (true, hashName), D := halfSubset D (C37.normal cs), foreign := false } := by
    rw [docPublic.docPublicSet, if_pos hD, DState.setDecl]
    simp only [refName_lit S.s]
    rw [show (cs.map k.asc).flatten = spell k.asc cs from rfl, hpub.2, put_fresh hH, tabSet_fresh hH]
    rfl
  cases hn : k.c.startDoctype with
  | true =>
    refine ⟨{ s1 with decl := some (true, hashName), D := halfSubset D (C37.normal cs), foreign := false, dPub := some (C37.normal cs), tmp := [] },
      ⟨b.h, b.none_, ?_, rfl, rfl, b.rest⟩, rfl, stepc S (pt_lit S.s hq hr) (lit_min S.s _ _) rfl hp hc1 rfl fun hx => ?_⟩
    · show { frame s1 with foreign := false, dPub := some (C37.normal cs) } = _
      rw [b.frame]
      obtain ⟨_, _, _, _, _, _, _, _, _, _⟩ := F
      simp only at hF
      subst hF
      simp [docF, hn]
    · rw [hs1] at hx ⊢
      have h1 : docPublic.docPublicId k.x (litText k.asc q (cs.map k.asc)) { s1 with foreign := false, decl := some (true, hashName), D := { D with par := tabPut D.par hashName .zero, hasPERefs := true } } =
          { { s1 with dPub := some (C37.normal cs), tmp := [] } with foreign := false, decl := some (true, hashName), D := { D with par := tabPut D.par hashName .zero, hasPERefs := true } } := by
        simp only [docPublic.docPublicId, refName_lit S.s, b.tmp, List.nil_append]
        rw [show (cs.map k.asc).flatten = spell k.asc cs from rfl, hpub.2]
      simp only [pact, actDoctype, hx, docPublic, hpub.1, hn, b.D, h1, if_true]
      have := hset { s1 with dPub := some (C37.normal cs), tmp := [] }
      simp only at this
      simp only [this]
      exact ⟨_, rfl⟩
  | false =>
    refine ⟨{ s1 with decl := some (true, hashName), D := halfSubset D (C37.normal cs), foreign := false },
      ⟨b.h, b.none_, ?_, rfl, b.tmp, b.rest⟩, rfl, stepc S (pt_lit S.s hq hr) (lit_min S.s _ _) rfl hp hc1 rfl fun hx => ?_⟩
    · show { frame s1 with foreign := false } = _
      rw [b.frame]
      obtain ⟨_, _, _, _, _, _, _, _, _, _⟩ := F
      simp only at hF
      subst hF
      simp [docF, hn]
    · rw [hs1] at hx ⊢
      simp only [pact, actDoctype, hx, docPublic, hpub.1, hn, b.D, Option.isSome_none, Bool.false_eq_true, if_false]
      rw [hset s1]
      exact ⟨_, rfl⟩

/-- Before the system identifier: without a public identifier, or with one. -/
inductive Half (D : DTab) : Option Buf → Option (Bool × Buf) → DTab → Prop where
  | none : Half D none none D
  | pub (p : Buf) : Half D (some p) (some (true, hashName)) (halfSubset D p)

theorem half_keep {pub : Option Buf} {decl : Option (Bool × Buf)} {D1 : DTab} (hh : Half D pub decl D1) :
    D1.keep = D.keep ∧ D1.standalone = D.standalone := by
  cases hh <;> exact ⟨rfl, rfl⟩

theorem half_set {pub : Option Buf} {decl : Option (Bool × Buf)} {D1 : DTab} (hh : Half D pub decl D1) (hD : D.keep = true)
    (hH : tabGet D.par hashName = none) (S : XSupported k.x k.asc) (q : UInt8) (ws : List Buf) {s : DState} (hd : s.decl = decl)
    (h1 : s.D = { D1 with hasPERefs := true }) :
    docSystemSet k.c k.x (litText k.asc q ws) (docEntry s) =
      { s with D := addSubset k D pub (converted k.x ws.flatten), decl := some (true, hashName) } := by
  have hk : s.D.keep = true := by rw [h1]; exact (half_keep hh).1.trans hD
  cases hh with
  | none =>
    have : docEntry s = { s with decl := some (true, hashName), D := { D with hasPERefs := true, par := D.par ++ [(hashName, .zero)] } } := by
      rw [docEntry, if_pos hd, h1]
      simp only [put_fresh hH, tabSet_fresh hH]
      rfl
    rw [this, docSystemSet, if_pos hD, DState.setDecl]
    simp only [refName_lit S.s, tabSet_fresh hH]
    rfl
  | pub p =>
    have : docEntry s = s := by rw [docEntry, if_neg (by rw [hd]; simp)]
    rw [this, docSystemSet, if_pos hk, DState.setDecl, hd, h1]
    simp only [refName_lit S.s, halfSubset, tabSet_fresh hH]
    cases s
    simp only at hd h1
    subst hd h1
    rfl

theorem doc_sys {n : Buf} {pub : Option Buf} {decl : Option (Bool × Buf)} {D1 : DTab} (S : XSupported k.x k.asc) (hF : F.foreign = false)
    (hpe : k.pe = F.pe) (a : At (docF k F n pub none) .doctype3 D1 s) (hd : s.decl = decl) (hh : Half D pub decl D1) (hD : D.keep = true)
    (hH : tabGet D.par hashName = none) (hal : k.pe = .never → Allowed k D) {q : UInt8} {ws : List Buf}
    (hq : Quoted k.x.e k.asc q ws) {r : Buf} (hr : NextIn k.asc afterLit r) :
    ∃ s', At (docF k F n pub (some (converted k.x ws.flatten))) .doctype4 (addSubset k D pub (converted k.x ws.flatten)) s' ∧
      R s (litText k.asc q ws ++ r) (if k.pe = .never then asked k D else []) s' r := by
  have hp : s.el.p.next k.x.e .LITERAL (litText k.asc q ws) = ({ s.el.p with h := .doctype4 }, .DOCTYPE_SYSTEM_ID) := by
    simp [PState.next, PState.handle, a.h, doctype3, PState.go]
  have b := a.go .doctype4
  have hc1 : (s.withP { s.el.p with h := .doctype4 }).cur = s.cur := rfl
  have hd1 : (s.withP { s.el.p with h := .doctype4 }).decl = decl := hd
  generalize hs1 : s.withP { s.el.p with h := .doctype4 } = s1 at b hc1 hd1
  have hpe1 : s1.pe = k.pe := by
    rw [show s1.pe = (docF k F n pub none).pe from congrArg Frame.pe b.frame, docF, hpe]
    split <;> rfl
  have hask : (if k.pe = .never then askStandalone k.c { D1 with hasPERefs := true } else ([], false)) =
      (if k.pe = .never then asked k D else [], false) := by
    by_cases hn : k.pe = .never
    · rw [if_pos hn, if_pos hn, ask_ok k rfl]
      · simp only [asked, (half_keep hh).2]
      · have := hal hn
        simpa only [Allowed, (half_keep hh).2] using this
    · rw [if_neg hn, if_neg hn]
  have hE : heard (if k.pe = .never then asked k D else []) = if k.pe = .never then asked k D else [] := by
    split
    · exact heard_asked k D
    · rfl
  have key (u : DState) (h1 : u.pe = k.pe) (h2 : u.decl = decl) (h3 : u.D = { D1 with hasPERefs := true }) :
      docSystem k.c k.x (litText k.asc q ws) u = (if k.pe = .never then asked k D else [],
        { u with D := addSubset k D pub (converted k.x ws.flatten), decl := some (true, hashName) }, .go (!k.c.startDoctype)) := by
    have h4 : (if u.pe = .never then askStandalone k.c u.D else ([], false)) = (if k.pe = .never then asked k D else [], false) := by
      rw [h1, h3]; exact hask
    rw [docSystem, h4, half_set hh hD hH S q ws h2 h3]
    rfl
  cases hn : k.c.startDoctype with
  | true =>
    refine ⟨{ s1 with foreign := false, D := addSubset k D pub (converted k.x ws.flatten), dSys := some (converted k.x ws.flatten), tmp := [],
                      decl := some (true, hashName) },
      ⟨b.h, b.none_, ?_, rfl, rfl, b.rest⟩, stepc S (pt_lit S.s hq hr) (lit_min S.s _ _) rfl hp hc1 hE fun hx => ?_⟩
    · show { frame s1 with foreign := false, dSys := some (converted k.x ws.flatten) } = _
      rw [b.frame]
      obtain ⟨_, _, _, _, _, _, _, _, _, _⟩ := F
      simp only at hF
      subst hF
      simp [docF, hn]
    · rw [hs1] at hx ⊢
      simp only [pact, actDoctype, hx, refName_lit S.s, hn, b.D, b.tmp, List.nil_append, if_true]
      exact ⟨_, key { s1 with foreign := false, D := { D1 with hasPERefs := true }, dSys := some (converted k.x ws.flatten), tmp := [] } hpe1 hd1 rfl⟩
  | false =>
    refine ⟨{ s1 with foreign := false, D := addSubset k D pub (converted k.x ws.flatten), dSys := some hashName,
                      decl := some (true, hashName) },
      ⟨b.h, b.none_, ?_, rfl, b.tmp, b.rest⟩, stepc S (pt_lit S.s hq hr) (lit_min S.s _ _) rfl hp hc1 hE fun hx => ?_⟩
    · show { frame s1 with foreign := false, dSys := some hashName } = _
      rw [b.frame]
      obtain ⟨_, _, _, _, _, _, _, _, _, _⟩ := F
      simp only at hF
      subst hF
      simp [docF, hn]
    · rw [hs1] at hx ⊢
      simp only [pact, actDoctype, hx, hn, b.D, Bool.false_eq_true, if_false]
      exact ⟨_, key { s1 with foreign := false, D := { D1 with hasPERefs := true }, dSys := some hashName } hpe1 hd1 rfl⟩

/-- The external identifier. -/
theorem doc_outer {n w : Buf} {pub sys : Option Buf} {E : List PEv} {D' : DTab} (S : XSupported k.x k.asc) (hF : F.foreign = false)
    (hpe : k.pe = F.pe) (a : At (docF k F n none none) .doctype1 D s) (hd : s.decl = none) (hD : D.keep = true)
    (hH : tabGet D.par hashName = none) (hw : Outer k D w pub sys E D') {r : Buf} (hr : NextIn k.asc afterLit r) :
    ∃ s' h', (h' = .doctype1 ∨ h' = .doctype4) ∧ At (docF k F n pub sys) h' D' s' ∧ R s (w ++ r) E s' r := by
  cases hw with
  | none => exact ⟨s, _, .inl rfl, a, Reach.refl _ _⟩
  | some sp w pub sys h1 h2 h3 h4 =>
    cases h2 with
    | system sp' q ws g1 g2 =>
      simp only [List.append_assoc]
      have r0 := a.white (c := k.c) (ext := ext) (fuel := fuel) (expand := expand) (internal := k.internal) (between := between) (allowClose := allowClose)
        (more := more) (opened := k.opened) (r := spell k.asc kwSYSTEM ++ (spell k.asc sp' ++ (litText k.asc q ws ++ r))) S rfl h1.2
        (fun h => lit_ne S q ws r (List.append_eq_nil_iff.1 (List.append_eq_nil_iff.1 h).2).2)
      obtain ⟨s1, m1, e1, r1⟩ := doc_kw (ext := ext) (fuel := fuel) (expand := expand) (between := between) (allowClose := allowClose) (more := more)
        S a (.inl rfl) g1 (lit_ne S q ws r)
      obtain ⟨s', m2, r2⟩ := doc_sys (ext := ext) (fuel := fuel) (expand := expand) (between := between) (allowClose := allowClose) (more := more)
        S hF hpe m1 (e1.trans hd) .none hD hH h4 g2 hr
      exact ⟨s', _, .inr rfl, m2, r0.then (r1.then r2)⟩
    | pub sp1 q1 cs sp2 q2 ws g1 g2 g3 g4 g5 =>
      simp only [List.append_assoc]
      have r0 := a.white (c := k.c) (ext := ext) (fuel := fuel) (expand := expand) (internal := k.internal) (between := between) (allowClose := allowClose)
        (more := more) (opened := k.opened) (r := spell k.asc kwPUBLIC ++ (spell k.asc sp1 ++ (litText k.asc q1 (cs.map k.asc) ++ (spell k.asc sp2 ++ (litText k.asc q2 ws ++ r))))) S rfl h1.2
        (fun h => lit_ne S q1 (cs.map k.asc) (spell k.asc sp2 ++ (litText k.asc q2 ws ++ r)) (List.append_eq_nil_iff.1 (List.append_eq_nil_iff.1 h).2).2)
      obtain ⟨s1, m1, e1, r1⟩ := doc_kw (ext := ext) (fuel := fuel) (expand := expand) (between := between) (allowClose := allowClose) (more := more)
        S a (.inr rfl) g1 (lit_ne S q1 (cs.map k.asc) (spell k.asc sp2 ++ (litText k.asc q2 ws ++ r)))
      obtain ⟨s2, m2, e2, r2⟩ := doc_pub (ext := ext) (fuel := fuel) (expand := expand) (between := between) (allowClose := allowClose) (more := more)
        S hF m1 hD hH g2 g3 (g4.nextLit (litText k.asc q2 ws ++ r))
      have r3 := m2.white (c := k.c) (ext := ext) (fuel := fuel) (expand := expand) (internal := k.internal) (between := between) (allowClose := allowClose)
        (more := more) (opened := k.opened) (r := litText k.asc q2 ws ++ r) S rfl g4.2 (lit_ne S q2 ws r)
      obtain ⟨s', m4, r4⟩ := doc_sys (ext := ext) (fuel := fuel) (expand := expand) (between := between) (allowClose := allowClose) (more := more)
        S hF hpe m2 e2 (.pub _) hD hH h4 g5 hr
      exact ⟨s', _, .inr rfl, m4, r0.then (r1.then (r2.then (r3.then r4)))⟩

/-- The document type declaration has begun. -/
def startE (k : Ctx) (n : Buf) (sys pub : Option Buf) (b : Bool) : List PEv := if k.c.startDoctype then [.startDoctype (some n) sys pub b] else []

/-- What is kept inside the internal subset. -/
def subF (k : Ctx) (F : Frame) (pub sys : Option Buf) : Frame :=
  if k.c.startDoctype then { F with dName := none, dPub := pub, dSys := sys } else { F with dSys := sys.map fun _ => hashName }

/-- `[` -/
theorem doc_lsqb {n : Buf} {pub sys : Option Buf} (S : XSupported k.x k.asc) (hdoc : F.doc = true) (hh : h = .doctype1 ∨ h = .doctype4)
    (a : At (docF k F n pub sys) h D s) (r : Buf) :
    ∃ s', At (subF k F pub sys) (home (subF k F pub sys).doc) D s' ∧ R s (k.asc 0x5B ++ r) (startE k n sys pub true) s' r := by
  have hp : s.el.p.next k.x.e .OPEN_BRACKET (k.asc 0x5B) = ({ s.el.p with h := .internalSubset }, .DOCTYPE_INTERNAL_SUBSET) := by
    rcases hh with rfl | rfl <;> simp [PState.next, PState.handle, a.h, doctype1, doctype4, PState.go]
  have b := a.go .internalSubset
  have hc1 : (s.withP { s.el.p with h := .internalSubset }).cur = s.cur := rfl
  generalize hs1 : s.withP { s.el.p with h := .internalSubset } = s1 at b hc1
  have hho : home (subF k F pub sys).doc = .internalSubset := by
    rw [show (subF k F pub sys).doc = true by rw [subF]; split <;> exact hdoc]; rfl
  have hb : prologTokBody k.x.e (k.asc 0x5B ++ r) = ⟨.OPEN_BRACKET, (k.asc 0x5B).length⟩ := by rw [pt_lsqb S.s, S.s.asc.len]
  have hw : k.x.e.mb ≤ (k.asc 0x5B).length := by rw [S.s.asc.len]; exact Nat.le_refl _
  rw [hho]
  cases hn : k.c.startDoctype with
  | true =>
    refine ⟨{ s1 with dName := none, tmp := [] }, ⟨b.h, b.none_, ?_, b.D, rfl, b.rest⟩, stepc S hb hw rfl hp hc1 (by simp [startE, hn, heard]) fun hx => ?_⟩
    · show { frame s1 with dName := none } = _
      rw [b.frame]
      simp [docF, subF, hn]
    · rw [hs1] at hx ⊢
      have h1 : s1.dName = some n := by
        rw [show s1.dName = (docF k F n pub sys).dName from congrArg Frame.dName b.frame, docF, if_pos hn]
      have h2 : s1.dSys = sys := by
        rw [show s1.dSys = (docF k F n pub sys).dSys from congrArg Frame.dSys b.frame, docF, if_pos hn]
      have h3 : s1.dPub = pub := by
        rw [show s1.dPub = (docF k F n pub sys).dPub from congrArg Frame.dPub b.frame, docF, if_pos hn]
      simp only [pact, actDoctype, hn, h1, h2, h3, startE, if_true]
      exact ⟨_, rfl⟩
  | false =>
    refine ⟨s1, ⟨b.h, b.none_, ?_, b.D, b.tmp, b.rest⟩, stepc S hb hw rfl hp hc1 (by simp [startE, hn, heard]) fun hx => ?_⟩
    · rw [b.frame]
      simp [docF, subF, hn]
    · rw [hs1] at hx ⊢
      simp only [pact, actDoctype, hn, startE, Bool.false_eq_true, if_false]
      exact ⟨_, rfl⟩

/-- `]` -/
theorem doc_rsqb (S : XSupported k.x k.asc) (a : At F .internalSubset D s) {d : UInt8} (hd : d ≠ 0x5D) (r : Buf) :
    ∃ s', At F .doctype5 D s' ∧ R s (k.asc 0x5D ++ (k.asc d ++ r)) [] s' (k.asc d ++ r) := by
  have hp : s.el.p.next k.x.e .CLOSE_BRACKET (k.asc 0x5D) = ({ s.el.p with h := .doctype5 }, .DOCTYPE_NONE) := by
    simp [PState.next, PState.handle, a.h, internalSubset, PState.go]
  exact ⟨_, a.go .doctype5, quiet_tok S (by rw [pt_rsqb S.s hd, S.s.asc.len]) (by rw [S.s.asc.len]; exact Nat.le_refl _) rfl hp rfl⟩

/-- `>` -/
theorem doc_gt (S : XSupported k.x k.asc) (hal : allowClose = true) (hF : F.foreign = false) (hh : h = .doctype1 ∨ h = .doctype4 ∨ h = .doctype5)
    (hu : F.dSys.isSome = true → k.pe = .never ∨ k.c.c.externalRef = false) (hpe : k.pe = F.pe) (a : At F h D s) (r : Buf) :
    ∃ s', At F .prolog2 (closed F.dSys D) s' ∧ R s (k.asc 0x3E ++ r)
      ((if F.dName.isSome then [.startDoctype F.dName F.dSys F.dPub false] else []) ++ if k.c.endDoctype then [.endDoctype] else []) s' r := by
  have hp : s.el.p.next k.x.e .DECL_CLOSE (k.asc 0x3E) = ({ s.el.p with h := .prolog2 }, .DOCTYPE_CLOSE) := by
    rcases hh with rfl | rfl | rfl <;> simp [PState.next, PState.handle, a.h, doctype1, doctype4, doctype5, PState.go]
  have b := a.go .prolog2
  have hc1 : (s.withP { s.el.p with h := .prolog2 }).cur = s.cur := rfl
  generalize hs1 : s.withP { s.el.p with h := .prolog2 } = s1 at b hc1
  have hb : prologTokBody k.x.e (k.asc 0x3E ++ r) = ⟨.DECL_CLOSE, (k.asc 0x3E).length⟩ := by rw [pt_gt S.s, S.s.asc.len]
  have hw : k.x.e.mb ≤ (k.asc 0x3E).length := by rw [S.s.asc.len]; exact Nat.le_refl _
  have hE : heard ((if F.dName.isSome then [PEv.startDoctype F.dName F.dSys F.dPub false] else []) ++ if k.c.endDoctype then [.endDoctype] else []) =
      (if F.dName.isSome then [PEv.startDoctype F.dName F.dSys F.dPub false] else []) ++ if k.c.endDoctype then [.endDoctype] else [] := by
    split <;> split <;> rfl
  have h1 : s1.dName = F.dName := congrArg Frame.dName b.frame
  have h2 : s1.dSys = F.dSys := congrArg Frame.dSys b.frame
  have h3 : s1.dPub = F.dPub := congrArg Frame.dPub b.frame
  have h4 : s1.foreign = false := (congrArg Frame.foreign b.frame).trans hF
  have h5 : s1.pe = k.pe := (congrArg Frame.pe b.frame).trans hpe.symm
  have hs2 : (if s1.dName.isSome then { s1 with tmp := [] } else s1) = s1 := by
    split
    · have := b.tmp
      cases s1; simp only at this; subst this; rfl
    · rfl
  have hEq : (if F.dName.isSome then [PEv.startDoctype F.dName F.dSys F.dPub false] else []) =
      if s1.dName.isSome then [PEv.startDoctype s1.dName s1.dSys s1.dPub false] else [] := by rw [h1, h2, h3]
  by_cases hd : F.dSys.isSome = true
  · refine ⟨{ s1 with D := { D with hasPERefs := true }, foreign := false }, ⟨b.h, b.none_, ?_, ?_, b.tmp, b.rest⟩,
      stepc S hb hw rfl hp hc1 hE fun hx => ?_⟩
    · show { frame s1 with foreign := false } = _
      rw [b.frame]
      obtain ⟨_, _, _, _, _, _, _, _, _, _⟩ := F
      simp only at hF
      subst hF
      rfl
    · rw [closed, if_pos hd]
    · rw [hs1] at hx ⊢
      have hrd : readSubset k.c ext k.opened false s1 = ([], { s1 with D := { D with hasPERefs := true } }, .go true) := by
        rw [readSubset]
        simp only [h5, b.D]
        rw [if_neg]
        rintro ⟨g1, g2⟩
        rcases hu hd with g | g
        · exact g1 g
        · rw [g] at g2; cases g2
      rw [hEq]
      simp only [pact, actDoctypeClose, hal, hs2, hrd, Bool.not_true, Bool.false_eq_true, if_false]
      rw [if_pos (.inl (by rw [h2]; exact hd)), List.append_nil]
      exact ⟨_, rfl⟩
  · refine ⟨s1, ⟨b.h, b.none_, b.frame, ?_, b.tmp, b.rest⟩, stepc S hb hw rfl hp hc1 hE fun hx => ?_⟩
    · rw [b.D, closed, if_neg hd]
    · rw [hs1] at hx ⊢
      rw [hEq]
      simp only [pact, actDoctypeClose, hal, hs2, Bool.not_true, Bool.false_eq_true, if_false]
      rw [if_neg (by rw [h2, h4]; simpa using hd)]
      exact ⟨_, rfl⟩

/-! ### The declaration and the prolog -/

theorem run_miscs (S : XSupported k.x k.asc) {g : Hd} (hy : g.miscy = true) {w : Buf} {E : List PEv} (hw : Miscs k w E) {r : Buf}
    (hr : r ≠ [] ∨ more = false) : ∀ {s : DState}, At F g D s → ∃ s', At F g D s' ∧ s'.decl = s.decl ∧ R s (w ++ r) E s' r := by
  induction hw with
  | nil => exact fun {s} a => ⟨s, a, rfl, Reach.refl _ _⟩
  | @space d h w E h' ih =>
    intro s a
    obtain ⟨s', m, e, q⟩ := ih a
    refine ⟨s', m, e, ?_⟩
    have hne : w ++ r ≠ [] ∨ more = false := by
      rcases hr with hr | hr
      · exact .inl fun h => hr (List.append_eq_nil_iff.1 h).2
      · exact .inr hr
    rw [List.append_assoc]
    exact (Reach.space S h (by rw [a.h]; cases g <;> first | rfl | cases hy) a.none_ hne).then q
  | @comment ws h w E h' ih =>
    intro s a
    obtain ⟨s1, m1, e1, q1⟩ := run_comment (ext := ext) (fuel := fuel) (expand := expand) (between := between) (allowClose := allowClose) (more := more) S a hy h (w ++ r)
    obtain ⟨s', m, e, q⟩ := ih m1
    rw [List.append_assoc]
    exact ⟨s', m, e.trans e1, q1.trans q⟩
  | @pi target sp ws h w E h' ih =>
    intro s a
    obtain ⟨s1, m1, e1, q1⟩ := run_pi (ext := ext) (fuel := fuel) (expand := expand) (between := between) (allowClose := allowClose) (more := more) S a hy h (w ++ r)
    obtain ⟨s', m, e, q⟩ := ih m1
    rw [List.append_assoc]
    exact ⟨s', m, e.trans e1, q1.trans q⟩

end

/-- A document entity; nothing of a document type declaration has been read. -/
structure Untyped (k : Ctx) (F : Frame) (D : DTab) : Prop where
  doc : k.doc = true
  fdoc : F.doc = true
  pe : k.pe = F.pe
  foreign : F.foreign = false
  includes : F.includes = 0
  name : F.dName = none
  keep : D.keep = true
  hash : tabGet D.par hashName = none

theorem outer_never {k : Ctx} {D D1 : DTab} {w : Buf} {pub sys : Option Buf} {E : List PEv} (h : Outer k D w pub sys E D1) :
    sys.isSome = true → k.pe = .never ∨ k.c.c.externalRef = false := by
  cases h with
  | none => intro h; cases h
  | some _ _ _ _ _ _ h3 _ => exact fun _ => h3

theorem docF_keep (k : Ctx) (F : Frame) (n : Buf) (pub sys : Option Buf) :
    (docF k F n pub sys).foreign = F.foreign ∧ (docF k F n pub sys).pe = F.pe ∧ (docF k F n pub sys).dSys.isSome = sys.isSome ∧
      (docF k F n pub sys).doc = F.doc ∧ (docF k F n pub sys).includes = F.includes ∧ (docF k F n pub sys).cur = F.cur := by
  rw [docF]; split <;> simp

theorem subF_keep (k : Ctx) (F : Frame) (pub sys : Option Buf) :
    (subF k F pub sys).foreign = F.foreign ∧ (subF k F pub sys).pe = F.pe ∧ (subF k F pub sys).dSys.isSome = sys.isSome ∧
      (subF k F pub sys).doc = F.doc ∧ (subF k F pub sys).includes = F.includes ∧ (subF k F pub sys).cur = F.cur := by
  rw [subF]; split <;> simp

/-- The whole declaration. -/
theorem run_doctype {k : Ctx} {D : DTab} {w : Buf} {A : List Said} {D' : DTab} (h : Doctype k D w A D') (S : XSupported k.x k.asc) (hi : IntOk k) :
    ∃ N, ∀ (ext : Ext) (fuel d : Nat), N ≤ fuel → N ≤ d → ∀ (between more : Bool) (F : Frame) (s : DState) (r : Buf),
      Untyped k F D → At F .prolog1 D s → s.decl = none →
      ∃ s' E F', Says A E ∧ At F' .prolog2 D' s' ∧ F'.foreign = false ∧ F'.cur = F.cur ∧
        Reach k.c ext fuel (expandPE k.c ext fuel d k.opened) k.internal between true more k.opened k.x s (w ++ r) E s' r := by
  cases h with
  | mk sp1 name w1 sp2 w2 pub sys b E A D1 D2 h1 h2 h3 h4 h5 =>
    cases h5 with
    | none =>
      refine ⟨0, fun ext fuel d _ _ between more F s r u a hd => ?_⟩
      obtain ⟨p1, p2, p3, p4, p5, p6⟩ := docF_keep k F (converted k.x name.flatten) pub sys
      have hgt : NextIn k.asc afterLit (spell k.asc sp2 ++ (k.asc 0x3E ++ r)) := maybe_next (fun c hc => by simp [afterLit, hc]) (by decide) h4 r
      have hnn : NextIn k.asc afterName (w1 ++ (spell k.asc sp2 ++ (k.asc 0x3E ++ r))) := by
        cases h3 with
        | none => exact maybe_next (fun c hc => by simp [afterName, hc]) (by decide) h4 r
        | some sp w pub sys g1 g2 g3 g4 => rw [List.append_assoc]; exact g1.nextName _
      have r0 := doc_open (ext := ext) (fuel := fuel) (expand := expandPE k.c ext fuel d k.opened) (between := between) (allowClose := true) (more := more)
        (r := name.flatten ++ (w1 ++ (spell k.asc sp2 ++ (k.asc 0x3E ++ r)))) a S h1 (qname_ne S h2 _)
      obtain ⟨s1, m1, e1, r1⟩ := doc_name (ext := ext) (fuel := fuel) (expand := expandPE k.c ext fuel d k.opened) (between := between) (allowClose := true)
        (more := more) S (a.go .doctype0) h2 hnn
      obtain ⟨s2, g, hg, m2, r2⟩ := doc_outer (ext := ext) (fuel := fuel) (expand := expandPE k.c ext fuel d k.opened) (between := between) (allowClose := true)
        (more := more) S u.foreign u.pe m1 (e1.trans hd) u.keep u.hash h3 hgt
      have r3 := m2.white (c := k.c) (ext := ext) (fuel := fuel) (expand := expandPE k.c ext fuel d k.opened) (internal := k.internal) (between := between)
        (allowClose := true) (more := more) (opened := k.opened) (r := k.asc 0x3E ++ r) S (by rcases hg with rfl | rfl <;> rfl) h4 (asc_ne S _ _)
      obtain ⟨s4, m4, r4⟩ := doc_gt (ext := ext) (fuel := fuel) (expand := expandPE k.c ext fuel d k.opened) (between := between) (allowClose := true)
        (more := more) S rfl (by rw [p1]; exact u.foreign) (by rcases hg with rfl | rfl <;> simp) (by rw [p3]; exact outer_never h3)
        (by rw [p2]; exact u.pe) m2 r
      have hev : (if (docF k F (converted k.x name.flatten) pub sys).dName.isSome then [PEv.startDoctype (docF k F (converted k.x name.flatten) pub sys).dName
          (docF k F (converted k.x name.flatten) pub sys).dSys (docF k F (converted k.x name.flatten) pub sys).dPub false] else []) =
          startE k (converted k.x name.flatten) sys pub false := by
        rw [docF, startE]
        cases hs : k.c.startDoctype
        · simp [u.name]
        · simp
      rw [hev] at r4
      refine ⟨s4, (E ++ startE k (converted k.x name.flatten) sys pub false) ++ [] ++ (if k.c.endDoctype then [.endDoctype] else []), _,
        ((says_calls _).append .nil).append (says_calls _), ?_, by rw [p1]; exact u.foreign, p6, ?_⟩
      · rw [closed] at m4 ⊢
        rw [p3] at m4
        exact m4
      · simp only [List.append_assoc, List.nil_append]
        exact r0.then (r1.then (r2.trans (r3.then r4)))
    | some w A D' sp h5 h6 =>
      obtain ⟨N, hN⟩ := run_decls h5 S hi
      refine ⟨N, fun ext fuel d hf hdd between more F s r u a hd => ?_⟩
      obtain ⟨p1, p2, p3, p4, p5, p6⟩ := subF_keep k F pub sys
      have hgt : NextIn k.asc afterLit (spell k.asc sp2 ++ (k.asc 0x5B ++ (w ++ (k.asc 0x5D ++ (spell k.asc sp ++ (k.asc 0x3E ++ r)))))) :=
        maybe_next (fun c hc => by simp [afterLit, hc]) (by decide) h4 _
      have hnn : NextIn k.asc afterName (w1 ++ (spell k.asc sp2 ++ (k.asc 0x5B ++ (w ++ (k.asc 0x5D ++ (spell k.asc sp ++ (k.asc 0x3E ++ r))))))) := by
        cases h3 with
        | none => exact maybe_next (fun c hc => by simp [afterName, hc]) (by decide) h4 _
        | some sp w pub sys g1 g2 g3 g4 => rw [List.append_assoc]; exact g1.nextName _
      have r0 := doc_open (ext := ext) (fuel := fuel) (expand := expandPE k.c ext fuel d k.opened) (between := between) (allowClose := true) (more := more)
        (r := name.flatten ++ (w1 ++ (spell k.asc sp2 ++ (k.asc 0x5B ++ (w ++ (k.asc 0x5D ++ (spell k.asc sp ++ (k.asc 0x3E ++ r)))))))) a S h1 (qname_ne S h2 _)
      obtain ⟨s1, m1, e1, r1⟩ := doc_name (ext := ext) (fuel := fuel) (expand := expandPE k.c ext fuel d k.opened) (between := between) (allowClose := true)
        (more := more) S (a.go .doctype0) h2 hnn
      obtain ⟨s2, g, hg, m2, r2⟩ := doc_outer (ext := ext) (fuel := fuel) (expand := expandPE k.c ext fuel d k.opened) (between := between) (allowClose := true)
        (more := more) S u.foreign u.pe m1 (e1.trans hd) u.keep u.hash h3 hgt
      have r3 := m2.white (c := k.c) (ext := ext) (fuel := fuel) (expand := expandPE k.c ext fuel d k.opened) (internal := k.internal) (between := between)
        (allowClose := true) (more := more) (opened := k.opened) (r := k.asc 0x5B ++ (w ++ (k.asc 0x5D ++ (spell k.asc sp ++ (k.asc 0x3E ++ r)))))
        S (by rcases hg with rfl | rfl <;> rfl) h4 (asc_ne S _ _)
      obtain ⟨s3, m3, r4⟩ := doc_lsqb (ext := ext) (fuel := fuel) (expand := expandPE k.c ext fuel d k.opened) (between := between) (allowClose := true)
        (more := more) S u.fdoc hg m2 (w ++ (k.asc 0x5D ++ (spell k.asc sp ++ (k.asc 0x3E ++ r))))
      obtain ⟨s4, E4, e4, m4, r5⟩ := hN ext fuel d hf hdd between true more (subF k F pub sys) s3 (k.asc 0x5D ++ (spell k.asc sp ++ (k.asc 0x3E ++ r)))
        (by rw [p4, u.doc, u.fdoc]) (by rw [p2]; exact u.pe) (by rw [p5]; exact u.includes) m3 (.inl (asc_ne S _ _))
      have hho : home (subF k F pub sys).doc = .internalSubset := by rw [p4, u.fdoc]; rfl
      rw [hho] at m4
      obtain ⟨s5, m5, r6⟩ : ∃ s', At (subF k F pub sys) .doctype5 D2 s' ∧
          Reach k.c ext fuel (expandPE k.c ext fuel d k.opened) k.internal between true more k.opened k.x s4
            (k.asc 0x5D ++ (spell k.asc sp ++ (k.asc 0x3E ++ r))) [] s' (spell k.asc sp ++ (k.asc 0x3E ++ r)) := by
        cases sp with
        | nil => exact doc_rsqb S m4 (d := 0x3E) (by decide) r
        | cons d0 sp =>
          have := doc_rsqb (ext := ext) (fuel := fuel) (expand := expandPE k.c ext fuel d k.opened) (between := between) (allowClose := true)
            (more := more) S m4 (d := d0) (by
              intro h0
              have := h6 d0 (by simp)
              rw [h0] at this
              exact absurd this (by decide)) (spell k.asc sp ++ (k.asc 0x3E ++ r))
          simpa only [spell_cons, List.append_assoc] using this
      have r7 := m5.white (c := k.c) (ext := ext) (fuel := fuel) (expand := expandPE k.c ext fuel d k.opened) (internal := k.internal) (between := between)
        (allowClose := true) (more := more) (opened := k.opened) (r := k.asc 0x3E ++ r) S rfl h6 (asc_ne S _ _)
      obtain ⟨s6, m6, r8⟩ := doc_gt (ext := ext) (fuel := fuel) (expand := expandPE k.c ext fuel d k.opened) (between := between) (allowClose := true)
        (more := more) S rfl (by rw [p1]; exact u.foreign) (.inr (.inr rfl)) (by rw [p3]; exact outer_never h3)
        (by rw [p2]; exact u.pe) m5 r
      have hev : (if (subF k F pub sys).dName.isSome then [PEv.startDoctype (subF k F pub sys).dName
          (subF k F pub sys).dSys (subF k F pub sys).dPub false] else []) = [] := by
        rw [subF]
        cases hs : k.c.startDoctype
        · simp [u.name]
        · simp
      rw [hev, List.nil_append] at r8
      refine ⟨s6, (E ++ startE k (converted k.x name.flatten) sys pub true) ++ E4 ++ (if k.c.endDoctype then [.endDoctype] else []), _,
        ((says_calls _).append e4).append (says_calls _), ?_, by rw [p1]; exact u.foreign, p6, ?_⟩
      · rw [closed] at m6 ⊢
        rw [p3] at m6
        exact m6
      · simp only [List.append_assoc]
        exact r0.then (r1.then (r2.trans (r3.then (r4.trans (r5.trans (r6.then (r7.then r8)))))))

/-- Where the root element starts the prolog ends. -/
theorem run_root {k : Ctx} {ext : Ext} {fuel : Nat} {expand : Bool → Buf → Buf → DState → Acted} {between allowClose more : Bool}
    {F : Frame} {D : DTab} {s : DState} {h : Hd} (hh : h = .prolog1 ∨ h = .prolog2) (hF : F.foreign = false) (a : At F h D s)
    (hx : s.x k.c k.internal = k.x) {r : Buf} (hr : prologTok k.x.e r = ⟨.INSTANCE_START, 0⟩) :
    prun k.c ext fuel expand k.internal between allowClose more k.opened s r = ([], s.withP { s.el.p with h := .error }, .content r) := by
  have hf : s.foreign = false := (congrArg Frame.foreign a.frame).trans hF
  have hp : s.el.p.next k.x.e .INSTANCE_START [] = ({ s.el.p with h := .error }, .INSTANCE_START) := by
    rcases hh with rfl | rfl <;> simp [PState.next, PState.handle, a.h, prolog1, prolog2, PState.go]
  have hsee : seeToken k.x k.internal between more k.c.isPE r = .tok .INSTANCE_START 0 := by
    rw [seeToken, hr]; rfl
  have hround : pround k.c ext fuel expand k.internal allowClose k.opened s .INSTANCE_START [] =
      ([], s.withP { s.el.p with h := .error }, .start) := by
    have hact : actInstanceStart k.c ext k.opened (s.withP { s.el.p with h := .error }) = ([], s.withP { s.el.p with h := .error }, .start) := by
      rw [actInstanceStart, if_neg]
      rw [show (s.withP { s.el.p with h := .error }).foreign = s.foreign from rfl, hf]
      simp
    rw [pround, hx]
    simp only [hp, pact]
    rw [show ({ s with el := { s.el with p := { s.el.p with h := .error } } } : DState) = s.withP { s.el.p with h := .error } from rfl, hact]
  rw [prun.eq_def]
  simp only [hx, hsee, List.take_zero, hround]

/-- The whole prolog, from the state after the XML declaration. -/
theorem run_prolog {k : Ctx} {D : DTab} {w : Buf} {A : List Said} {D' : DTab} (h : PrologText k D w A D') (S : XSupported k.x k.asc) (hi : IntOk k) :
    ∃ N, ∀ (ext : Ext) (fuel d : Nat), N ≤ fuel → N ≤ d → ∀ (between more : Bool) (F : Frame) (s : DState) (r : Buf),
      Untyped k F D → At F .prolog1 D s → s.decl = none → s.x k.c k.internal = k.x → k.x.e.mb ∣ (w ++ r).length →
      r ≠ [] → (k.x.e.mb ∣ r.length → prologTok k.x.e r = ⟨.INSTANCE_START, 0⟩) →
      ∃ s' E, k.x.e.mb ∣ r.length ∧ Says A E ∧ s'.D = D' ∧ s'.cur = s.cur ∧
        hear (prun k.c ext fuel (expandPE k.c ext fuel d k.opened) k.internal between true more k.opened s (w ++ r)) = (E, s', .content r) := by
  have fin {ext : Ext} {fuel d : Nat} {between more : Bool} {F : Frame} {s s1 : DState} {b r : Buf} {E : List PEv} {D' : DTab} {g : Hd}
      (hg : g = .prolog1 ∨ g = .prolog2) (hF : F.foreign = false) (a : At F g D' s1) (hc : F.cur = s.cur) (hx : s.x k.c k.internal = k.x)
      (hm : k.x.e.mb ∣ b.length) (hr : k.x.e.mb ∣ r.length → prologTok k.x.e r = ⟨.INSTANCE_START, 0⟩)
      (q : Reach k.c ext fuel (expandPE k.c ext fuel d k.opened) k.internal between true more k.opened k.x s b E s1 r) :
      ∃ s', k.x.e.mb ∣ r.length ∧ s'.D = D' ∧ s'.cur = s.cur ∧
        hear (prun k.c ext fuel (expandPE k.c ext fuel d k.opened) k.internal between true more k.opened s b) = (E, s', .content r) := by
    obtain ⟨q1, q2, q3⟩ := q hx hm
    refine ⟨s1.withP { s1.el.p with h := .error }, q3, a.D, (congrArg Frame.cur a.frame).trans hc, ?_⟩
    rw [q1, run_root hg hF a q2 (hr q3), hear_pre_nil]
  cases h with
  | plain w E h =>
    refine ⟨0, fun ext fuel d _ _ between more F s r u a hd hx hm hr0 hr => ?_⟩
    obtain ⟨s1, m1, -, r1⟩ := run_miscs (ext := ext) (fuel := fuel) (expand := expandPE k.c ext fuel d k.opened) (between := between) (allowClose := true)
      (more := more) S rfl h (.inl hr0) a
    obtain ⟨s', g0, g1, g2, g3⟩ := fin (.inl rfl) u.foreign m1 (congrArg Frame.cur a.frame).symm hx hm hr r1
    exact ⟨s', E, g0, says_calls E, g1, g2, g3⟩
  | typed w1 w2 w3 E1 E3 A D' h1 h2 h3 =>
    obtain ⟨N, hN⟩ := run_doctype h2 S hi
    refine ⟨N, fun ext fuel d hf hdd between more F s r u a hd hx hm hr0 hr => ?_⟩
    have hne : w2 ++ (w3 ++ r) ≠ [] := fun h => hr0 (List.append_eq_nil_iff.1 (List.append_eq_nil_iff.1 h).2).2
    obtain ⟨s1, m1, e1, r1⟩ := run_miscs (ext := ext) (fuel := fuel) (expand := expandPE k.c ext fuel d k.opened) (between := between) (allowClose := true)
      (more := more) S rfl h1 (.inl hne) a
    obtain ⟨s2, E2, F', e2, m2, f1, f2, r2⟩ := hN ext fuel d hf hdd between more F s1 (w3 ++ r) u m1 (e1.trans hd)
    obtain ⟨s3, m3, e3, r3⟩ := run_miscs (ext := ext) (fuel := fuel) (expand := expandPE k.c ext fuel d k.opened) (between := between) (allowClose := true)
      (more := more) S rfl h3 (.inl hr0) m2
    have r4 := (r1.trans r2).trans r3
    rw [← List.append_assoc, ← List.append_assoc] at r4
    rw [← List.append_assoc] at hm ⊢
    obtain ⟨s', g0, g1, g2, g3⟩ := fin (.inr rfl) f1 m3 (f2.trans (congrArg Frame.cur a.frame).symm) hx hm hr r4
    exact ⟨s', _, g0, ((says_calls _).append e2).append (says_calls _), g1, g2, g3⟩

end Verif.C59
