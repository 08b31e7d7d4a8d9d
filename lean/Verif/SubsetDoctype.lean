import Verif.SubsetThm
import Verif.DoctypeRun
import Verif.PrologActs

/-! # The document type declaration when the external subset is read, or a foreign DTD (C69) -/

set_option autoImplicit false

namespace Verif.C69
open C43 C53 C59 C60 Spec Verif PState

section
variable {k : Ctx} {ext : Ext} {fuel : Nat} {expand : Bool → Buf → Buf → DState → Acted}
  {between allowClose more : Bool} {F : C59.Frame} {D : DTab} {s : DState} {h h' : Hd}

local notation "R" => Reach k.c ext fuel expand k.internal between allowClose more k.opened k.x

/-- With an external identifier the foreign DTD is not asked for. -/
def plainF (F : C59.Frame) : C59.Frame := { F with foreign := false }

def outF (F : C59.Frame) (sys : Option Buf) : C59.Frame := if sys.isSome then plainF F else F

theorem xdoc_pub {n : Buf} (S : XSupported k.x k.asc) (a : At (docF k F n none none) .doctype2 D s) (hD : D.keep = true)
    (hH : tabGet D.par hashName = none) {q : UInt8} {cs : List UInt8}
    (hq : Quoted k.x.e k.asc q (cs.map k.asc)) (hc : ∀ d ∈ cs, C37.PubidChar d = true) {r : Buf} (hr : NextIn k.asc afterLit r) :
    ∃ s', At (docF k (plainF F) n (some (C37.normal cs)) none) .doctype3 (halfSubset D (C37.normal cs)) s' ∧ s'.decl = some (true, hashName) ∧
      R s (litText k.asc q (cs.map k.asc) ++ r) [] s' r := by
  have hp : s.el.p.next k.x.e .LITERAL (litText k.asc q (cs.map k.asc)) = ({ s.el.p with h := .doctype3 }, .DOCTYPE_PUBLIC_ID) := by
    simp [PState.next, PState.handle, a.h, doctype2, PState.go]
  have b := a.go .doctype3
  have hc1 : (s.withP { s.el.p with h := .doctype3 }).cur = s.cur := rfl
  generalize hs1 : s.withP { s.el.p with h := .doctype3 } = s1 at b hc1
  have hpub := pub_ok (q := q) S hc
  have hset (u : DState) : (docPublic.docPublicSet k.x (litText k.asc q (cs.map k.asc)) { u with foreign := false, decl := some (true, hashName), D := { D with par := tabPut D.par hashName .zero, hasPERefs := true } }) =
      { u with decl := some (true, hashName), D := halfSubset D (C37.normal cs), foreign := false } := by
    rw [docPublic.docPublicSet, if_pos hD, DState.setDecl]
    simp only [refName_lit S.s]
    rw [show (cs.map k.asc).flatten = spell k.asc cs from rfl, hpub.2, put_fresh hH, tabSet_fresh hH]
    rfl
  cases hn : k.c.startDoctype with
  | true =>
    refine ⟨{ s1 with decl := some (true, hashName), D := halfSubset D (C37.normal cs), foreign := false, dPub := some (C37.normal cs), tmp := [] },
      ⟨b.h, b.none_, ?_, rfl, rfl, b.rest⟩, rfl, stepc S (pt_lit S.s hq hr) (lit_min S.s _ _) rfl hp hc1 rfl fun hx => ?_⟩
    · show { frame s1 with foreign := false, dPub := some (C37.normal cs) } = _
      rw [b.frame]
      simp [docF, plainF, hn]
    · rw [hs1] at hx ⊢
      have h1 : docPublic.docPublicId k.x (litText k.asc q (cs.map k.asc)) { s1 with foreign := false, decl := some (true, hashName), D := { D with par := tabPut D.par hashName .zero, hasPERefs := true } } =
          { { s1 with dPub := some (C37.normal cs), tmp := [] } with foreign := false, decl := some (true, hashName), D := { D with par := tabPut D.par hashName .zero, hasPERefs := true } } := by
        simp only [docPublic.docPublicId, refName_lit S.s, b.tmp, List.nil_append]
        rw [show (cs.map k.asc).flatten = spell k.asc cs from rfl, hpub.2]
      simp only [pact, actDoctype, hx, docPublic, hpub.1, hn, b.D, h1, if_true]
      have := hset { s1 with dPub := some (C37.normal cs), tmp := [] }
      simp only at this
      simp only [this]
      exact ⟨_, rfl⟩
  | false =>
    refine ⟨{ s1 with decl := some (true, hashName), D := halfSubset D (C37.normal cs), foreign := false },
      ⟨b.h, b.none_, ?_, rfl, b.tmp, b.rest⟩, rfl, stepc S (pt_lit S.s hq hr) (lit_min S.s _ _) rfl hp hc1 rfl fun hx => ?_⟩
    · show { frame s1 with foreign := false } = _
      rw [b.frame]
      simp [docF, plainF, hn]
    · rw [hs1] at hx ⊢
      simp only [pact, actDoctype, hx, docPublic, hpub.1, hn, b.D, Option.isSome_none, Bool.false_eq_true, if_false]
      rw [hset s1]
      exact ⟨_, rfl⟩

theorem xdoc_sys {n : Buf} {pub : Option Buf} {decl : Option (Bool × Buf)} {D1 : DTab} (S : XSupported k.x k.asc)
    (hpe : k.pe = F.pe) (a : At (docF k F n pub none) .doctype3 D1 s) (hd : s.decl = decl) (hh : Half D pub decl D1) (hD : D.keep = true)
    (hH : tabGet D.par hashName = none) (hal : k.pe = .never → Allowed k D) {q : UInt8} {ws : List Buf}
    (hq : Quoted k.x.e k.asc q ws) {r : Buf} (hr : NextIn k.asc afterLit r) :
    ∃ s', At (docF k (plainF F) n pub (some (converted k.x ws.flatten))) .doctype4 (addSubset k D pub (converted k.x ws.flatten)) s' ∧
      R s (litText k.asc q ws ++ r) (if k.pe = .never then asked k D else []) s' r := by
  have hp : s.el.p.next k.x.e .LITERAL (litText k.asc q ws) = ({ s.el.p with h := .doctype4 }, .DOCTYPE_SYSTEM_ID) := by
    simp [PState.next, PState.handle, a.h, doctype3, PState.go]
  have b := a.go .doctype4
  have hc1 : (s.withP { s.el.p with h := .doctype4 }).cur = s.cur := rfl
  have hd1 : (s.withP { s.el.p with h := .doctype4 }).decl = decl := hd
  generalize hs1 : s.withP { s.el.p with h := .doctype4 } = s1 at b hc1 hd1
  have hpe1 : s1.pe = k.pe := by
    rw [show s1.pe = (docF k F n pub none).pe from congrArg C59.Frame.pe b.frame, docF, hpe]
    split <;> rfl
  have hask : (if k.pe = .never then askStandalone k.c { D1 with hasPERefs := true } else ([], false)) =
      (if k.pe = .never then asked k D else [], false) := by
    by_cases hn : k.pe = .never
    · rw [if_pos hn, if_pos hn, ask_ok k rfl]
      · simp only [asked, (half_keep hh).2]
      · have := hal hn
        simpa only [Allowed, (half_keep hh).2] using this
    · rw [if_neg hn, if_neg hn]
  have hE : heard (if k.pe = .never then asked k D else []) = if k.pe = .never then asked k D else [] := by
    split
    · exact heard_asked k D
    · rfl
  have key (u : DState) (h1 : u.pe = k.pe) (h2 : u.decl = decl) (h3 : u.D = { D1 with hasPERefs := true }) :
      docSystem k.c k.x (litText k.asc q ws) u = (if k.pe = .never then asked k D else [],
        { u with D := addSubset k D pub (converted k.x ws.flatten), decl := some (true, hashName) }, .go (!k.c.startDoctype)) := by
    have h4 : (if u.pe = .never then askStandalone k.c u.D else ([], false)) = (if k.pe = .never then asked k D else [], false) := by
      rw [h1, h3]; exact hask
    rw [docSystem, h4, half_set hh hD hH S q ws h2 h3]
    rfl
  cases hn : k.c.startDoctype with
  | true =>
    refine ⟨{ s1 with foreign := false, D := addSubset k D pub (converted k.x ws.flatten), dSys := some (converted k.x ws.flatten), tmp := [],
                      decl := some (true, hashName) },
      ⟨b.h, b.none_, ?_, rfl, rfl, b.rest⟩, stepc S (pt_lit S.s hq hr) (lit_min S.s _ _) rfl hp hc1 hE fun hx => ?_⟩
    · show { frame s1 with foreign := false, dSys := some (converted k.x ws.flatten) } = _
      rw [b.frame]
      simp [docF, plainF, hn]
    · rw [hs1] at hx ⊢
      simp only [pact, actDoctype, hx, refName_lit S.s, hn, b.D, b.tmp, List.nil_append, if_true]
      exact ⟨_, key { s1 with foreign := false, D := { D1 with hasPERefs := true }, dSys := some (converted k.x ws.flatten), tmp := [] } hpe1 hd1 rfl⟩
  | false =>
    refine ⟨{ s1 with foreign := false, D := addSubset k D pub (converted k.x ws.flatten), dSys := some hashName,
                      decl := some (true, hashName) },
      ⟨b.h, b.none_, ?_, rfl, b.tmp, b.rest⟩, stepc S (pt_lit S.s hq hr) (lit_min S.s _ _) rfl hp hc1 hE fun hx => ?_⟩
    · show { frame s1 with foreign := false, dSys := some hashName } = _
      rw [b.frame]
      simp [docF, plainF, hn]
    · rw [hs1] at hx ⊢
      simp only [pact, actDoctype, hx, hn, b.D, Bool.false_eq_true, if_false]
      exact ⟨_, key { s1 with foreign := false, D := { D1 with hasPERefs := true }, dSys := some hashName } hpe1 hd1 rfl⟩

/-- The external identifier. -/
theorem xdoc_outer {n w : Buf} {pub sys : Option Buf} {E : List PEv} {D' : DTab} (S : XSupported k.x k.asc)
    (hpe : k.pe = F.pe) (a : At (docF k F n none none) .doctype1 D s) (hd : s.decl = none) (hD : D.keep = true)
    (hH : tabGet D.par hashName = none) (hw : XOuter k D w pub sys E D') {r : Buf} (hr : NextIn k.asc afterLit r) :
    ∃ s' h', (h' = .doctype1 ∨ h' = .doctype4) ∧ At (docF k (outF F sys) n pub sys) h' D' s' ∧ R s (w ++ r) E s' r := by
  cases hw with
  | none => exact ⟨s, _, .inl rfl, a, Reach.refl _ _⟩
  | some sp w pub sys h1 h2 h4 =>
    cases h2 with
    | system sp' q ws g1 g2 =>
      simp only [List.append_assoc]
      have r0 := a.white (c := k.c) (ext := ext) (fuel := fuel) (expand := expand) (internal := k.internal) (between := between) (allowClose := allowClose)
        (more := more) (opened := k.opened) (r := spell k.asc kwSYSTEM ++ (spell k.asc sp' ++ (litText k.asc q ws ++ r))) S rfl h1.2
        (fun h => lit_ne S q ws r (List.append_eq_nil_iff.1 (List.append_eq_nil_iff.1 h).2).2)
      obtain ⟨s1, m1, e1, r1⟩ := doc_kw (ext := ext) (fuel := fuel) (expand := expand) (between := between) (allowClose := allowClose) (more := more)
        S a (.inl rfl) g1 (lit_ne S q ws r)
      obtain ⟨s', m2, r2⟩ := xdoc_sys (ext := ext) (fuel := fuel) (expand := expand) (between := between) (allowClose := allowClose) (more := more)
        S hpe m1 (e1.trans hd) .none hD hH h4 g2 hr
      exact ⟨s', _, .inr rfl, m2, r0.then (r1.then r2)⟩
    | pub sp1 q1 cs sp2 q2 ws g1 g2 g3 g4 g5 =>
      simp only [List.append_assoc]
      have r0 := a.white (c := k.c) (ext := ext) (fuel := fuel) (expand := expand) (internal := k.internal) (between := between) (allowClose := allowClose)
        (more := more) (opened := k.opened) (r := spell k.asc kwPUBLIC ++ (spell k.asc sp1 ++ (litText k.asc q1 (cs.map k.asc) ++ (spell k.asc sp2 ++ (litText k.asc q2 ws ++ r))))) S rfl h1.2
        (fun h => lit_ne S q1 (cs.map k.asc) (spell k.asc sp2 ++ (litText k.asc q2 ws ++ r)) (List.append_eq_nil_iff.1 (List.append_eq_nil_iff.1 h).2).2)
      obtain ⟨s1, m1, e1, r1⟩ := doc_kw (ext := ext) (fuel := fuel) (expand := expand) (between := between) (allowClose := allowClose) (more := more)
        S a (.inr rfl) g1 (lit_ne S q1 (cs.map k.asc) (spell k.asc sp2 ++ (litText k.asc q2 ws ++ r)))
      obtain ⟨s2, m2, e2, r2⟩ := xdoc_pub (ext := ext) (fuel := fuel) (expand := expand) (between := between) (allowClose := allowClose) (more := more)
        S m1 hD hH g2 g3 (g4.nextLit (litText k.asc q2 ws ++ r))
      have r3 := m2.white (c := k.c) (ext := ext) (fuel := fuel) (expand := expand) (internal := k.internal) (between := between) (allowClose := allowClose)
        (more := more) (opened := k.opened) (r := litText k.asc q2 ws ++ r) S rfl g4.2 (lit_ne S q2 ws r)
      obtain ⟨s', m4, r4⟩ := xdoc_sys (ext := ext) (fuel := fuel) (expand := expand) (between := between) (allowClose := allowClose) (more := more)
        (F := plainF F) S (show k.pe = (plainF F).pe from hpe) m2 e2 (.pub _) hD hH h4 g5 hr
      exact ⟨s', _, .inr rfl, m4, r0.then (r1.then (r2.then (r3.then r4)))⟩

/-- One token, with calls of the default handler. -/
theorem stepx {s s' : DState} (S : XSupported k.x k.asc) {t : Tok} {w r : Buf} {p : PState} {role : Role} {E : List PEv}
    (hb : prologTokBody k.x.e (w ++ r) = ⟨t, w.length⟩) (hw : k.x.e.mb ≤ w.length) (ht : t.isError = false)
    (hp : s.el.p.next k.x.e t w = (p, role)) (hf : s'.cur = s.cur)
    (ha : (s.withP p).x k.c k.internal = k.x → ∃ hd, pact k.c ext fuel expand k.internal allowClose k.opened (s.withP p) role t w = (E, s', .go hd)) :
    R s (w ++ r) (heard E) s' r := by
  intro hx hd
  obtain ⟨d, ha⟩ := ha hx
  exact Reach.tok (between := between) (more := more) (r := r) S hb hw ht hp (by rw [DState.x, DState.x, hf]) (fun _ => ha) hx hd

end

/-- Where the external subset or the foreign DTD is asked for. -/
structure Asking (k : Ctx) (D : DTab) (pub sys : Option Buf) (atRoot : Bool) (s : DState) : Prop where
  tab : s.D = D
  pe : s.pe = k.pe
  value : s.el.p.inEntityValue = false
  eldecl : s.el.inEldecl = false
  len : s.el.strLen = 0
  given : sys.isSome = true → tabGet D.par hashName = some (subsetEntity k pub sys) ∧ s.foreign = false ∧ atRoot = false ∧ s.dSys.isSome = true
  foreign : sys = none → tabGet D.par hashName = none ∧ pub = none ∧ (s.foreign = true ∨ atRoot = true) ∧ (atRoot = true ∨ s.dSys = none)

theorem tabGet_new {t : List (Buf × Entity)} {n : Buf} (h : tabGet t n = none) (e : Entity) : tabGet (t ++ [(n, e)]) n = some e := by
  rw [tabGet] at h ⊢
  rw [List.find?_append]
  cases hf : t.find? (·.1 = n) with
  | none => simp
  | some p => rw [hf] at h; cases h

/-- The state in which the handler is called. -/
theorem Asking.entity {k : Ctx} {D : DTab} {pub sys : Option Buf} {atRoot : Bool} {s : DState} (a : Asking k D pub sys atRoot s) :
    subsetState k.c atRoot s = { s with D := { withSubset k sys D with hasPERefs := true } } ∧
      tabGet (withSubset k sys D).par hashName = some (subsetEntity k pub sys) := by
  rw [subsetState, a.tab]
  cases sys with
  | some y =>
    obtain ⟨h1, h2, h3, -⟩ := a.given rfl
    have hput : tabPut D.par hashName .zero = D.par := by rw [tabPut, h1]; rfl
    rw [h2, h3, hput]
    exact ⟨by simp [withSubset], h1⟩
  | none =>
    obtain ⟨h1, rfl, h2, -⟩ := a.foreign rfl
    have hc : s.foreign ∨ atRoot := by rcases h2 with h | h <;> rw [h] <;> simp
    rw [if_pos hc, put_fresh h1, tabSet_fresh h1]
    exact ⟨rfl, tabGet_new h1 _⟩

theorem readSubset_eq {c : PCfg} {ext : Ext} {opened : List Buf} {atRoot : Bool} {s s1 : DState} {ent : Entity} (h1 : s.pe ≠ .never) (h2 : c.c.externalRef = true)
    (h3 : subsetState c atRoot s = s1) (h4 : tabGet s1.D.par hashName = some ent) :
    readSubset c ext opened atRoot s =
      (let r := callExt ext s1 opened ent
       if !r.2.2 then (r.1, r.2.1, .fail .EXTERNAL_ENTITY_HANDLING)
       else if r.2.1.D.peRead then (standaloneCheck c r.2.1 true).pre r.1
       else if atRoot ∨ r.2.1.dSys = none then
         (r.1, { r.2.1 with D := { r.2.1.D with hasPERefs := s.D.hasPERefs } }, .go true)
       else (r.1, r.2.1, .go true)) := by
  subst h3
  have e : ent = (tabGet (subsetState c atRoot s).D.par hashName).getD .zero := by rw [h4]; rfl
  subst e
  rw [readSubset]
  simp only
  rw [if_pos ⟨h1, h2⟩]
  rfl

/-- The external subset, or the foreign DTD. -/
theorem run_subset {docs : ExtReq → Option ExtDoc} {k : Ctx} {D D' : DTab} {pub sys : Option Buf} {A : List Said} (h : XSubset docs k D pub sys A D')
    (hi : IntOk k) (ho : k.c.OtherOk) :
    ∃ N, ∀ fuel dd, N ≤ fuel → N ≤ dd → ∀ (atRoot : Bool) (s : DState), Asking k D pub sys atRoot s →
      ∃ G sh, Says A (heard G) ∧ sh.D = D' ∧ sh.scaf.inEldecl = false ∧ sh.scaf.strLen = 0 ∧
        readSubset k.c (resolver k.c docs fuel dd) k.opened atRoot s = (G, s.setSh sh, .go true) := by
  cases h with
  | unread h =>
    refine ⟨0, fun fuel dd _ _ atRoot s a => ⟨[], { s.sh with D := { D with hasPERefs := true } }, .nil, rfl, a.eldecl, a.len, ?_⟩⟩
    rw [readSubset]
    simp only [a.tab]
    rw [if_neg (by
      rintro ⟨g1, g2⟩
      rcases h with h | h
      · exact g1 (a.pe.trans h)
      · rw [h] at g2; cases g2)]
    rfl
  | skip h1 h2 h3 =>
    refine ⟨1, fun fuel dd _ hdd atRoot s a => ?_⟩
    obtain ⟨dd, rfl⟩ : ∃ d', dd = d' + 1 := ⟨dd - 1, by omega⟩
    obtain ⟨e1, e2⟩ := a.entity
    have hcall := callExt_skip (fuel := fuel) (dd := dd) h3 (s := { s with D := { withSubset k sys D with hasPERefs := true } }) a.value a.pe
    refine ⟨[.extRef k.c.base sys pub], { s.sh with D := unlessRead sys D { withSubset k sys D with hasPERefs := true, peRead := false } },
      says_calls _, rfl, a.eldecl, a.len, ?_⟩
    rw [readSubset_eq (by rw [a.pe]; exact h1) h2 e1 e2, hcall]
    cases sys with
    | some y =>
      obtain ⟨-, -, h5, h6⟩ := a.given rfl
      obtain ⟨y', h6⟩ := Option.isSome_iff_exists.1 h6
      simp only [Bool.not_true, Bool.false_eq_true, if_false]
      rw [if_neg (by
        rintro (h | h)
        · rw [h5] at h; cases h
        · rw [h6] at h; cases h)]
      simp only [unlessRead, reduceCtorEq, and_false, if_false]
      rfl
    | none =>
      obtain ⟨-, -, -, h6⟩ := a.foreign rfl
      simp only [Bool.not_true, Bool.false_eq_true, if_false]
      rw [if_pos h6]
      simp only [unlessRead, and_self, if_true, a.tab]
      rfl
  | @read A D' h1 h2 h3 h4 =>
    cases h3 with
    | @mk _ m h t i j d A doc g1 g2 g3 g4 g5 g6 g7 =>
      obtain ⟨N, hN⟩ := run_xdecls g7 (C54.supported _ j) ⟨hi.int, hi.ends⟩ ho
      refine ⟨N + 1, fun fuel dd hf hdd atRoot s a => ?_⟩
      obtain ⟨dd, rfl⟩ : ∃ d', dd = d' + 1 := ⟨dd - 1, by omega⟩
      obtain ⟨e1, e2⟩ := a.entity
      obtain ⟨G, sh, e3, hD, hel, hle, hcall⟩ := read_entity ho g1 g2 g3 g4 g5 g6 hN (fuel := fuel) (dd := dd) (by omega) (by omega)
        (s := { s with D := { withSubset k sys D with hasPERefs := true } }) rfl a.value a.pe a.eldecl a.len
      refine ⟨G ++ (if D'.peRead then asked k D' else []), { sh with D := unlessRead sys D D' }, ?_, rfl, hel, hle, ?_⟩
      · rw [heard_append]
        refine e3.append ?_
        split
        · rw [heard_asked]; exact says_calls _
        · exact .nil
      · rw [readSubset_eq (by rw [a.pe]; exact h1) h2 e1 e2, hcall]
        simp only [Bool.not_true, Bool.false_eq_true, if_false]
        rw [show (DState.setSh { s with D := { withSubset k sys D with hasPERefs := true } } sh).D = D' from hD]
        cases hr : D'.peRead with
        | true =>
          simp only [if_true, standaloneCheck, Acted.pre]
          rw [show (DState.setSh { s with D := { withSubset k sys D with hasPERefs := true } } sh).D = D' from hD, ask_ok k rfl (h4 hr)]
          simp only [unlessRead, hr, Bool.true_eq_false, false_and, if_false, Bool.false_eq_true]
          rw [← hD]
          rfl
        | false =>
          simp only [Bool.false_eq_true, if_false, List.append_nil]
          cases sys with
          | some y =>
            obtain ⟨-, -, h5, h6⟩ := a.given rfl
            obtain ⟨y', h6⟩ := Option.isSome_iff_exists.1 h6
            rw [if_neg (by
              rintro (h | h)
              · rw [h5] at h; cases h
              · rw [show (DState.setSh { s with D := { withSubset k (some y) D with hasPERefs := true } } sh).dSys = s.dSys from rfl, h6] at h; cases h)]
            simp only [unlessRead, reduceCtorEq, and_false, if_false]
            rw [← hD]
            rfl
          | none =>
            obtain ⟨-, -, -, h6⟩ := a.foreign rfl
            rw [if_pos (show _ ∨ (DState.setSh { s with D := { withSubset k none D with hasPERefs := true } } sh).dSys = none from h6)]
            simp only [unlessRead, hr, and_self, if_true, a.tab]
            rfl

section
variable {k : Ctx} {fuel : Nat} {expand : Bool → Buf → Buf → DState → Acted}
  {between allowClose more : Bool} {F : C59.Frame} {D : DTab} {s : DState} {h h' : Hd}

/-- `>` -/
theorem xdoc_gt {docs : ExtReq → Option ExtDoc} {pub sys : Option Buf} {A : List Said} {D' : DTab} {fo : Bool}
    (hc : XClose docs k fo D pub sys A D') (S : XSupported k.x k.asc) (hi : IntOk k) (ho : k.c.OtherOk) :
    ∃ N, ∀ fuel dd, N ≤ fuel → N ≤ dd → ∀ (expand : Bool → Buf → Buf → DState → Acted) (between more : Bool) (F : C59.Frame) (h : Hd) (s : DState) (r : Buf),
      (h = .doctype1 ∨ h = .doctype4 ∨ h = .doctype5) → k.pe = F.pe → F.inValue = false → F.dSys.isSome = sys.isSome →
      (if sys.isSome then F.foreign = false ∧ tabGet D.par hashName = some (subsetEntity k pub sys) else F.foreign = fo) →
      At F h D s →
      ∃ s' E, Says A E ∧ At (plainF F) .prolog2 D' s' ∧
        Reach k.c (resolver k.c docs fuel dd) fuel expand k.internal between true more k.opened k.x s (k.asc 0x3E ++ r)
          ((if F.dName.isSome then [.startDoctype F.dName F.dSys F.dPub false] else []) ++ (E ++ if k.c.endDoctype then [.endDoctype] else [])) s' r := by
  have prep : ∀ {F : C59.Frame} {h : Hd} {s : DState}, (h = .doctype1 ∨ h = .doctype4 ∨ h = .doctype5) → At F h D s → k.pe = F.pe →
      s.el.p.next k.x.e .DECL_CLOSE (k.asc 0x3E) = ({ s.el.p with h := .prolog2 }, .DOCTYPE_CLOSE) ∧
      ∃ s1, s.withP { s.el.p with h := .prolog2 } = s1 ∧ At F .prolog2 D s1 ∧ s1.cur = s.cur ∧ s1.dName = F.dName ∧ s1.dSys = F.dSys ∧
        s1.dPub = F.dPub ∧ s1.foreign = F.foreign ∧ s1.pe = k.pe ∧ (if s1.dName.isSome then { s1 with tmp := [] } else s1) = s1 := by
    intro F h s hh a hpe
    refine ⟨?_, _, rfl, a.go .prolog2, rfl, ?_⟩
    · rcases hh with rfl | rfl | rfl <;> simp [PState.next, PState.handle, a.h, doctype1, doctype4, doctype5, PState.go]
    · have b := a.go .prolog2
      refine ⟨congrArg C59.Frame.dName b.frame, congrArg C59.Frame.dSys b.frame, congrArg C59.Frame.dPub b.frame, congrArg C59.Frame.foreign b.frame,
        (congrArg C59.Frame.pe b.frame).trans hpe.symm, ?_⟩
      generalize s.withP { s.el.p with h := .prolog2 } = s1 at b
      split
      · have := b.tmp
        cases s1; simp only at this; subst this; rfl
      · rfl
  have hb (r : Buf) : prologTokBody k.x.e (k.asc 0x3E ++ r) = ⟨.DECL_CLOSE, (k.asc 0x3E).length⟩ := by rw [pt_gt S.s, S.s.asc.len]
  have hw : k.x.e.mb ≤ (k.asc 0x3E).length := by rw [S.s.asc.len]; exact Nat.le_refl _
  have hE (F : C59.Frame) : heard (if F.dName.isSome then [PEv.startDoctype F.dName F.dSys F.dPub false] else []) =
      if F.dName.isSome then [PEv.startDoctype F.dName F.dSys F.dPub false] else [] := by split <;> rfl
  have hE2 : heard (if k.c.endDoctype then [PEv.endDoctype] else []) = if k.c.endDoctype then [PEv.endDoctype] else [] := by split <;> rfl
  cases hc with
  | nothing h1 h2 =>
    subst h1 h2
    refine ⟨0, fun fuel dd _ _ expand between more F h s r hh hpe hv hsys hg a => ?_⟩
    obtain ⟨hp, s1, hs1, b, hc1, q1, q2, q3, q4, q5, q6⟩ := prep hh a hpe
    have hfo : F.foreign = false := by simpa using hg
    have hpl : plainF F = F := by
      obtain ⟨_, _, _, _, _, _, _, _, _, _⟩ := F
      simp only at hfo
      subst hfo
      rfl
    refine ⟨s1, [], .nil, by rw [hpl]; exact b, ?_⟩
    have := stepx (ext := resolver k.c docs fuel dd) (fuel := fuel) (expand := expand) (between := between) (allowClose := true) (more := more) (s := s) (s' := s1)
      (r := r) (E := (if F.dName.isSome then [PEv.startDoctype F.dName F.dSys F.dPub false] else []) ++ if k.c.endDoctype then [PEv.endDoctype] else []) S (hb r) hw rfl hp hc1 (by
        intro hx
        rw [hs1]
        simp only [pact, actDoctypeClose, q6, Bool.not_true, Bool.false_eq_true, if_false]
        rw [if_neg (by rw [q2, q4, hfo]; simpa using hsys), q1, q2, q3]
        exact ⟨_, rfl⟩)
    rw [heard_append, hE, hE2] at this
    exact this
  | subset h1 h2 h3 =>
    obtain ⟨N, hN⟩ := run_subset h3 hi ho
    refine ⟨N, fun fuel dd hf hdd expand between more F h s r hh hpe hv hsys hg a => ?_⟩
    obtain ⟨hp, s1, hs1, b, hc1, q1, q2, q3, q4, q5, q6⟩ := prep hh a hpe
    have hsf : s1.dSys.isSome = true ∨ s1.foreign = true := by
      rw [q2, q4, hsys]
      rcases h1 with h1 | h1
      · exact .inl h1
      · cases hs : sys.isSome with
        | true => exact .inl rfl
        | false =>
          rw [hs] at hg
          right
          rw [← h1]
          simpa using hg
    have hask : Asking k D pub sys false s1 := by
      refine ⟨b.D, q5, (congrArg C59.Frame.inValue b.frame).trans hv, b.rest.eldecl, b.rest.len, fun hs => ?_, fun hs => ?_⟩
      · rw [hs] at hg
        simp only [if_true] at hg
        exact ⟨hg.2, by rw [q4]; exact hg.1, rfl, by rw [q2, hsys]; exact hs⟩
      · subst hs
        obtain ⟨g1, g2⟩ := h2 rfl
        have hd : s1.dSys = none := by rw [q2]; simpa using hsys
        refine ⟨g1, g2, .inl ?_, .inr hd⟩
        rcases hsf with h | h
        · rw [hd] at h; cases h
        · exact h
    obtain ⟨G, sh, e1, hD, hel, hle, hread⟩ := hN fuel dd hf hdd false s1 hask
    refine ⟨{ s1.setSh sh with foreign := false }, heard G, e1, ⟨b.h, b.none_, ?_, hD, b.tmp, ⟨hel, hle, b.rest.size⟩⟩, ?_⟩
    · show { frame s1 with foreign := false } = _
      rw [b.frame]
      rfl
    · have := stepx (ext := resolver k.c docs fuel dd) (fuel := fuel) (expand := expand) (between := between) (allowClose := true) (more := more) (s := s)
        (s' := { s1.setSh sh with foreign := false })
        (r := r) (E := (if F.dName.isSome then [PEv.startDoctype F.dName F.dSys F.dPub false] else []) ++ G ++ if k.c.endDoctype then [PEv.endDoctype] else []) S (hb r) hw rfl hp hc1 (by
          intro hx
          rw [hs1]
          simp only [pact, actDoctypeClose, q6, Bool.not_true, Bool.false_eq_true, if_false]
          rw [if_pos hsf, hread, q1, q2, q3]
          exact ⟨_, rfl⟩)
      rw [heard_append, heard_append, hE, hE2, List.append_assoc] at this
      exact this

end

end Verif.C69
