import Verif.ApiHeardThm

/-! # C83: a document whose handlers suspend the parser, the prolog included

As C40, for documents from their first byte on: the handlers for the XML declaration, the document type and the declarations may
suspend the parser too, and so may those for the content. -/

set_option autoImplicit false

namespace Verif.C83
open C43 C53 C59 C60 C63 Spec Verif PState Api Halt

variable {α : Type} {C : PCfg} {ext : Ext} {fuel : Nat} {app : PApp α} {a0 : α} {upd : Buf → Pos → Option Pos} {alloc : Nat → Bool}

local notation "En" => haltEngine C ext fuel app a0 upd alloc

/-- Calls of XML_Parse were made, or none, and no error found; the parser is not suspended. -/
structure Open (p : Parser (Inner × α)) : Prop where
  inv : Inv p
  parsing : p.parsing = .INITIALIZED ∨ p.parsing = .PARSING
  failed : p.failed = false
  child : p.child = false

theorem started_open (a : Queue (Inner × α)) (hp : a.parsing = .INITIALIZED ∨ a.parsing = .PARSING) (hc : a.child = false)
    (k : Queue (Inner × α) → QRet (Inner × α)) : Queue.started En a k = k { a with parsing := .PARSING } := by
  obtain ⟨_, _, _, _, _, ps, _, ch, _, _⟩ := a
  simp only at hc
  subst hc
  rcases hp with hp | hp <;> simp only at hp <;> subst hp <;> rfl

/-- What the processor is given and what comes of it. -/
theorem give_turn (a : Queue (Inner × α)) (hf : a.failed = false) (b : Buf) (keep : Nat → Buf) {t : Turn × (α × Stop)}
    (ht : hturn C ext fuel app a.conf a.inner.1.stage (a.inner.2, .go) a.final b = t) (ha : t.1.code = none → t.2.2 ≠ .abort) {r : QRet (Inner × α)}
    (hr : r = Queue.give En a b keep) :
    r.st.inner.1 = ⟨t.1.stage, a.inner.1.P ++ t.1.P, a.inner.1.F ++ t.1.F⟩ ∧ r.st.error = t.1.code ∧ r.st.conf = a.conf ∧ r.st.child = a.child ∧ r.st.final = a.final ∧
    (t.1.code ≠ none → r.val = .status .ERROR) ∧
    (t.1.code = none → t.2.2 = .go → r.val = .status .OK ∧ r.st.failed = false ∧ r.st.pending = keep (b.length - t.1.rest.length) ∧
      (a.final = false → r.st.parsing = .PARSING)) ∧
    (t.1.code = none → t.2.2 = .suspend → r.val = .status .SUSPENDED ∧ r.st.failed = false ∧ r.st.pending = keep (b.length - t.1.rest.length) ∧
      r.st.parsing = .SUSPENDED) := by
  subst hr
  simp only [Queue.give, Queue.work, hf, Bool.false_eq_true, if_false, haltEngine, ht]
  obtain ⟨⟨P, F, st, rest, code⟩, a', k⟩ := t
  cases code with
  | some e => simp [Queue.settle]
  | none =>
    cases k with
    | go => simp [Queue.settle, Stop.parsing]
    | suspend => simp [Queue.settle, Stop.parsing]
    | abort => exact absurd rfl (ha rfl)

theorem give_state (a : Queue (Inner × α)) (hf : a.failed = false) (b : Buf) (keep : Nat → Buf) :
    (Queue.give En a b keep).st.inner.2 = (hturn C ext fuel app a.conf a.inner.1.stage (a.inner.2, .go) a.final b).2.1 := by
  simp only [Queue.give, Queue.work, hf, Bool.false_eq_true, if_false, haltEngine]
  generalize hturn C ext fuel app a.conf a.inner.1.stage (a.inner.2, .go) a.final b = t
  obtain ⟨⟨P, F, st, rest, code⟩, a', k⟩ := t
  cases code with
  | some e => rfl
  | none => cases k <;> rfl

/-- A call of XML_Parse. -/
theorem parse_turn {p : Parser (Inner × α)} (O : Open p) {w : Buf} {fin : Bool} (hw : w ≠ [] ∨ fin = true)
    (hc : Contract p (.parse w fin)) {r : Ret (Inner × α) Val} (h : step En p (.parse w fin) = some r) (hv : r.val ≠ .status .ERROR) :
    Inv r.st ∧ r.q = Queue.give En { p.queue with parsing := .PARSING, total := p.queue.total + w.length, final := fin } (p.queue.pending ++ w)
      fun n => (p.queue.pending ++ w).drop n := by
  obtain ⟨J, m, hm, e⟩ := step_spec (haltEngine_lawful C ext fuel app a0 upd alloc) O.inv hc h
  refine ⟨J, ?_⟩
  rw [if_neg (by simp [Call.isQuery])] at e
  simp only [Queue.step, started_open p.queue O.parsing O.child] at e
  rw [if_neg (by rcases hw with hw | hw <;> simp [hw])] at e
  split at e
  · exact absurd (congrArg QRet.val e) hv
  · exact e

/-- The calls before the last, none of them interrupted. -/
theorem pieces_told (ho : ∀ f, (settings C f).OtherOk) (hpe : C.isPE = false) (hp : app.Patient) {idx : EncIndex} (w : Buf) (ws : List Buf) :
    ∀ {p q : Parser (Inner × α)} {rs : List (Ret (Inner × α) Val)}, Open p → getEncodingIndex p.conf.encoding = some idx →
    Able C ext fuel p.conf idx p.inner.1.stage p.queue.pending (ws.flatten ++ w) →
    Path En p (ws.map (.parse · false)) rs q → (∀ r ∈ rs, r.val = .status .OK) →
    Open q ∧ q.conf = p.conf ∧ Able C ext fuel p.conf idx q.inner.1.stage q.queue.pending w ∧
    ∃ P F, q.inner.1.P = p.inner.1.P ++ P ∧ q.inner.1.F = p.inner.1.F ++ F ∧
      docFrom C ext fuel p.conf idx p.inner.1.stage p.queue.pending (C63.pieces ws w) =
        before P F (docFrom C ext fuel p.conf idx q.inner.1.stage q.queue.pending [w]) ∧
      (F = [] ∨ InContent (docFrom C ext fuel p.conf idx q.inner.1.stage q.queue.pending [w])) := by
  induction ws with
  | nil =>
    intro p q rs O hi hA h _
    cases h
    exact ⟨O, rfl, hA, [], [], by simp, by simp, by rw [before_nil]; rfl, .inl rfl⟩
  | cons v ws ih =>
    intro p q rs O hi hA h hok
    cases h with
    | @cons _ _ _ r _ rs hc hst ht =>
      by_cases hv : v = []
      · subst hv
        obtain ⟨J, m, hm, e⟩ := step_spec (haltEngine_lawful C ext fuel app a0 upd alloc) O.inv hc hst
        rw [if_neg (by simp [Call.isQuery])] at e
        simp only [Queue.step, started_open p.queue O.parsing O.child, and_self, if_true] at e
        have k1 := congrArg QRet.st e
        have g1 : r.st.conf = p.conf := congrArg Queue.conf k1
        have g2 : r.st.inner = p.inner := congrArg Queue.inner k1
        have g3 : r.st.queue.pending = p.queue.pending := by have := congrArg Queue.pending k1; exact this
        have O' : Open r.st := ⟨J, .inr (congrArg Queue.parsing k1), (congrArg Queue.failed k1).trans O.failed, (congrArg Queue.child k1).trans O.child⟩
        have := ih O' (by rw [g1]; exact hi) (by rw [g1, g2, g3]; simpa using hA) ht (fun r hr => hok r (by simp [hr]))
        rw [g1, g2, g3] at this
        rw [show C63.pieces ([] :: ws) w = C63.pieces ws w by simp [C63.pieces]]
        exact this
      · have hrv := hok r (by simp)
        obtain ⟨J, e⟩ := parse_turn O (.inl hv) hc hst (by rw [hrv]; simp)
        rw [List.flatten_cons, List.append_assoc] at hA
        have hT := turn_able (app := app) (ho p.conf) hpe hp hi false (by simp) hA p.inner.2
        have hP := hturn_pending C ext fuel app p.conf p.inner.1.stage (p.inner.2, .go) false (p.queue.pending ++ v)
        generalize htt : hturn C ext fuel app p.conf p.inner.1.stage (p.inner.2, .go) false (p.queue.pending ++ v) = t at hT hP
        obtain ⟨i1, i2, i3, i4, i5, i6, i7, i8⟩ := give_turn
          { p.queue with parsing := .PARSING, total := p.queue.total + v.length, final := false } O.failed _ _ htt (fun _ => hT.patient) e
        have hcode : t.1.code = none := by
          cases h : t.1.code with
          | none => rfl
          | some c => have := i6 (by simp [h]); rw [show r.q.val = r.val from rfl, hrv] at this; cases this
        have hgo : t.2.2 = .go := by
          cases h : t.2.2 with
          | go => rfl
          | suspend => have := (i8 hcode h).1; rw [show r.q.val = r.val from rfl, hrv] at this; cases this
          | abort => exact absurd h hT.patient
        obtain ⟨-, j2, j3, j4⟩ := i7 hcode hgo
        have j4 := j4 rfl
        have hturn := hT.same (.inr hgo)
        have g1 : r.st.conf = p.conf := i3
        have g2 : r.st.inner.1 = ⟨t.1.stage, p.inner.1.P ++ t.1.P, p.inner.1.F ++ t.1.F⟩ := i1
        have g3 : r.st.queue.pending = t.1.rest := j3.trans hP
        have O' : Open r.st := ⟨J, .inr j4, j2, i4.trans O.child⟩
        have hA' := able_turn (ho p.conf) hi hA (by rw [hturn]; exact hcode)
        rw [hturn] at hA'
        have gs : r.st.inner.1.stage = t.1.stage := by rw [g2]
        obtain ⟨k1, k2, k3, P, F, k4, k5, k6, k7⟩ := ih O' (by rw [g1]; exact hi) (by rw [g1, gs, g3]; exact hA') ht (fun r hr => hok r (by simp [hr]))
        rw [g1] at k2 k3 k6 k7
        rw [gs, g3] at k6
        have hg := goes (C := C) (ext := ext) (fuel := fuel) hi p.inner.1.stage p.queue.pending v (C63.pieces ws w)
        rw [show ((C63.pieces ws w) == []) = false by simp [C63.pieces], hturn] at hg
        have hg := hg.more hcode (by simp [C63.pieces])
        refine ⟨k1, k2, k3, t.1.P ++ P, t.1.F ++ F, by rw [k4, g2]; simp, by rw [k5, g2]; simp, ?_, ?_⟩
        · rw [show C63.pieces (v :: ws) w = v :: C63.pieces ws w by simp [C63.pieces, hv], hg.1, k6]
          generalize docFrom C ext fuel p.conf idx q.inner.1.stage q.queue.pending [w] = d
          obtain ⟨P', z, o⟩ := d
          cases o <;> simp [before]
        · rcases hg.2 with hF | ⟨z, s, hz⟩
          · rcases k7 with hF' | k7
            · left; rw [hF, hF']; rfl
            · exact .inr k7
          · right
            rw [hz] at k6
            have k8 := congrArg (fun d => d.2.2) k6
            generalize docFrom C ext fuel p.conf idx q.inner.1.stage q.queue.pending [w] = d at k8
            obtain ⟨P', z', o⟩ := d
            cases o with
            | content F' o => exact ⟨F', o, rfl⟩
            | prolog o => simp [docFrom, before] at k8

theorem told_like {d : C57.Doc} {t u : Turn} (h : Told d u.P u.F u.stage u.code) (L : Like t u) : Told d t.P t.F t.stage t.code := by
  obtain ⟨h1, h2, h3, h4, h5⟩ := L
  rw [h1, h2, h3]
  obtain ⟨P', z, o⟩ := d
  rcases o with o | ⟨F', o⟩ <;> cases o <;> simp only [C63.Told] at h ⊢ <;> grind

/-- What a document tells is determined by it. -/
theorem told_unique {d : C57.Doc} {P P' : List PEv} {F F' : List Ev} {st st' : Stage} {code code' : Option XErr} (h : Told d P F st code)
    (h' : Told d P' F' st' code') : P = P' ∧ F = F' ∧ code = code' := by
  obtain ⟨P0, z, o⟩ := d
  rcases o with o | ⟨F0, o⟩ <;> cases o <;> simp only [C63.Told] at h h' <;> grind

/-- The calls before the last return OK, the last is interrupted, and so is not the resumption. -/
theorem resume_told (ho : ∀ f, (settings C f).OtherOk) (hpe : C.isPE = false) (hp : app.Patient) {idx : EncIndex} {w : Buf} {ws : List Buf}
    {p q : Parser (Inner × α)} {rs : List (Ret (Inner × α) Val)} {r1 r2 : Ret (Inner × α) Val} (O : Open p)
    (hi : getEncodingIndex p.conf.encoding = some idx)
    (hA : Able C ext fuel p.conf idx p.inner.1.stage p.queue.pending (ws.flatten ++ w))
    (h : Path En p (ws.map (.parse · false) ++ [.parse w true, .resume]) (rs ++ [r1, r2]) q) (hl : rs.length = ws.length)
    (hok : ∀ r ∈ rs, r.val = .status .OK) (h1 : r1.val = .status .SUSPENDED) (h2 : r2.val ≠ .status .SUSPENDED) :
    (∃ P F, q.inner.1.P = p.inner.1.P ++ P ∧ q.inner.1.F = p.inner.1.F ++ F ∧
      Told (docFrom C ext fuel p.conf idx p.inner.1.stage p.queue.pending (C63.pieces ws w)) P F q.inner.1.stage q.error) ∧
    (q.error = none → r2.val = .status .OK) ∧ (q.error ≠ none → r2.val = .status .ERROR) := by
  obtain ⟨ra, rb, m, hrs, hA1, hB⟩ := h.append
  have hlen : ∀ {p q : Parser (Inner × α)} {cs rs}, Path En p cs rs q → rs.length = cs.length := by
    intro p q cs rs h
    induction h with
    | nil => rfl
    | cons _ _ _ ih => simp [ih]
  have hra : ra.length = rs.length := by rw [hlen hA1, List.length_map, hl]
  obtain ⟨rfl, rfl⟩ := List.append_inj hrs hra.symm
  obtain ⟨Om, mc, mA, P0, F0, m1, m2, m3, m4⟩ := pieces_told ho hpe hp w ws O hi hA hA1 hok
  cases hB with
  | cons hc1 hs1 ht1 =>
    cases ht1 with
    | cons hc2 hs2 ht2 =>
      cases ht2
      -- the final call
      obtain ⟨J, e⟩ := parse_turn Om (.inr rfl) hc1 hs1 (by rw [h1]; simp)
      rw [← mc] at mA hi m3 m4 ⊢
      have hT := turn_able (app := app) (v := w) (R := []) (ho m.conf) hpe hp hi true (by simp) (by rw [List.append_nil]; exact mA) m.inner.2
      have hP := hturn_pending C ext fuel app m.conf m.inner.1.stage (m.inner.2, .go) true (m.queue.pending ++ w)
      generalize htt : hturn C ext fuel app m.conf m.inner.1.stage (m.inner.2, .go) true (m.queue.pending ++ w) = t at hT hP
      obtain ⟨i1, i2, i3, i4, i5, i6, i7, i8⟩ := give_turn
        { m.queue with parsing := .PARSING, total := m.queue.total + w.length, final := true } Om.failed _ _ htt (fun _ => hT.patient) e
      have hcode : t.1.code = none := by
        cases h : t.1.code with
        | none => rfl
        | some c => have := i6 (by simp [h]); rw [show r1.q.val = r1.val from rfl, h1] at this; cases this
      have hsus : t.2.2 = .suspend := by
        cases h : t.2.2 with
        | suspend => rfl
        | go => have := (i7 hcode h).1; rw [show r1.q.val = r1.val from rfl, h1] at this; cases this
        | abort => exact absurd h hT.patient
      obtain ⟨-, j2, j3, j4⟩ := i8 hcode hsus
      have hlike := hT.held hcode hsus rfl
      have g1 : r1.st.conf = m.conf := i3
      have g2 : r1.st.inner.1 = ⟨t.1.stage, m.inner.1.P ++ t.1.P, m.inner.1.F ++ t.1.F⟩ := i1
      have g3 : r1.st.queue.pending = t.1.rest := j3.trans hP
      have g4 : r1.st.queue.parsing = .SUSPENDED := j4
      have g5 : r1.st.queue.final = true := i5
      have g6 : r1.st.queue.failed = false := j2
      -- the resumption
      obtain ⟨J2, mem, -, e2⟩ := step_spec (haltEngine_lawful C ext fuel app a0 upd alloc) J hc2 hs2
      rw [if_neg (by simp [Call.isQuery])] at e2
      simp only [Queue.step, if_pos g4] at e2
      have gs : r1.st.queue.inner.1.stage = t.1.stage := by rw [show r1.st.queue.inner = r1.st.inner from rfl, g2]
      obtain ⟨D, hT2⟩ := turn_supp (app := app) (ho m.conf) hpe hp true (hT.again hcode hsus) r1.st.inner.2
      generalize htt2 : hturn C ext fuel app m.conf t.1.stage (r1.st.inner.2, .go) true t.1.rest = u at hT2
      have htt2' : hturn C ext fuel app r1.st.queue.conf r1.st.queue.inner.1.stage (r1.st.queue.inner.2, .go) r1.st.queue.final r1.st.queue.pending = u := by
        rw [show r1.st.queue.conf = m.conf from g1, gs, g5, g3]; exact htt2
      obtain ⟨n1, n2, n3, n4, n5, n6, n7, n8⟩ := give_turn { r1.st.queue with parsing := .PARSING } g6 _ _ htt2' (fun _ => hT2.patient) e2
      have hgo : u.1.code ≠ none ∨ u.2.2 = .go := by
        cases h : u.1.code with
        | some c => left; simp
        | none =>
          right
          cases h' : u.2.2 with
          | go => rfl
          | abort => exact absurd h' hT2.patient
          | suspend => exact absurd (n8 h h').1 h2
      have hw := hT2.same hgo
      rw [hw] at hlike
      have hg := goes (C := C) (ext := ext) (fuel := fuel) hi m.inner.1.stage m.queue.pending w []
      rw [show (([] : List Buf) == []) = true from rfl] at hg
      have htold := told_like hg.last hlike
      have q1 : r2.st.inner.1 = ⟨u.1.stage, r1.st.inner.1.P ++ u.1.P, r1.st.inner.1.F ++ u.1.F⟩ := n1
      have q2 : r2.st.error = u.1.code := n2
      have m3' := htold.before (P := P0) (F := F0) m4
      rw [← m3] at m3'
      refine ⟨⟨P0 ++ (t.1.P ++ u.1.P), F0 ++ (t.1.F ++ u.1.F), ?_, ?_, ?_⟩, ?_, ?_⟩
      · rw [q1, g2, m1]; simp
      · rw [q1, g2, m2]; simp
      · rw [q1, q2]; exact m3'
      · intro h
        rw [q2] at h
        exact (n7 h (hgo.resolve_left (by simp [h]))).1
      · intro h
        rw [q2] at h
        exact n6 h

/-! ### What the handlers ask for -/

/-- The application's state after handler calls. -/
def state (app : PApp α) (a : α) (E : List PEv) : α := E.foldl (fun a v => (app a v).1) a

/-- One of the handlers asks for the parser to be suspended. -/
def Asks (app : PApp α) (a : α) (E : List PEv) : Prop := ∃ E1 v E2, E = E1 ++ v :: E2 ∧ (app (state app a E1) v).2 = some true

theorem tell_state (app : PApp α) (E : List PEv) : ∀ y, (app.tell y E).1 = state app y.1 E := by
  induction E with
  | nil => intro y; rfl
  | cons v E ih => intro y; obtain ⟨a, k⟩ := y; exact ih _

theorem tell_suspended (hp : app.Patient) (E : List PEv) : ∀ a, (app.tell (a, .suspend) E).2 = .suspend := by
  induction E with
  | nil => intro a; rfl
  | cons v E ih =>
    intro a
    have := hp a v
    have h : Stop.ask .suspend (app a v).2 = .suspend := by
      generalize (app a v).2 = o at *
      rcases o with _ | _ | _ <;> simp_all [Stop.ask]
    simp only [PApp.tell, h]
    exact ih _

theorem tell_asks (hp : app.Patient) (E : List PEv) : ∀ a, (app.tell (a, .go) E).2 = .suspend ↔ Asks app a E := by
  induction E with
  | nil =>
    intro a
    constructor
    · intro h; cases h
    · rintro ⟨E1, v, E2, h, -⟩; simp at h
  | cons v E ih =>
    intro a
    have hv := hp a v
    simp only [PApp.tell]
    rcases ho : (app a v).2 with _ | _ | _
    · rw [show Stop.ask .go none = .go from rfl, ih]
      constructor
      · rintro ⟨E1, u, E2, rfl, h⟩; exact ⟨v :: E1, u, E2, rfl, h⟩
      · rintro ⟨E1, u, E2, h, h'⟩
        cases E1 with
        | nil => cases h; rw [show state app a [] = a from rfl, ho] at h'; cases h'
        | cons v' E1 => cases h; exact ⟨E1, u, E2, rfl, h'⟩
    · exact absurd ho hv
    · rw [show Stop.ask .go (some true) = .suspend from rfl, tell_suspended hp]
      simp only [true_iff]
      exact ⟨[], v, E, rfl, ho⟩

/-- **C83**, what suspends the parser: a call of XML_Parse in which no error is found returns XML_STATUS_SUSPENDED if one of the handlers
called in it, in the prolog or in the content, asked for that, and else XML_STATUS_OK; the handlers have been called one after the other,
each with what the one before left. -/
theorem asked (hp : app.Patient) {p : Parser (Inner × α)} (O : Open p) {w : Buf} {fin : Bool} (hw : w ≠ [] ∨ fin = true)
    (hc : Contract p (.parse w fin)) {r : Ret (Inner × α) Val} (h : step En p (.parse w fin) = some r) (hv : r.val ≠ .status .ERROR) :
    ∃ P F, r.st.inner.1.P = p.inner.1.P ++ P ∧ r.st.inner.1.F = p.inner.1.F ++ F ∧ r.st.inner.2 = state app p.inner.2 (P ++ F.map .ev) ∧
      (r.val = .status .SUSPENDED ↔ Asks app p.inner.2 (P ++ F.map .ev)) ∧ (r.val = .status .OK ↔ ¬ Asks app p.inner.2 (P ++ F.map .ev)) := by
  obtain ⟨-, e⟩ := parse_turn O hw hc h hv
  have hh := hturn_heard (ext := ext) (fuel := fuel) (app := app) C p.conf p.inner.1.stage (p.inner.2, .go) fin (p.queue.pending ++ w)
  generalize ht : hturn C ext fuel app p.conf p.inner.1.stage (p.inner.2, .go) fin (p.queue.pending ++ w) = t at hh
  have hin : r.st.inner.2 = t.2.1 := by
    rw [show r.st.inner.2 = r.q.st.inner.2 from rfl, e, give_state _ O.failed]
    exact congrArg (fun t => t.2.1) ht
  have hna : t.1.code = none → t.2.2 ≠ .abort := fun h => by
    rw [hh h]; exact app.tell_patient hp _ _ (by simp)
  obtain ⟨i1, i2, i3, i4, i5, i6, i7, i8⟩ := give_turn
    { p.queue with parsing := .PARSING, total := p.queue.total + w.length, final := fin } O.failed _ _ ht hna e
  have hcode : t.1.code = none := by
    cases h : t.1.code with
    | none => rfl
    | some c => exact absurd (i6 (by simp [h])) hv
  have hh := hh hcode
  have g2 : r.st.inner.1 = ⟨t.1.stage, p.inner.1.P ++ t.1.P, p.inner.1.F ++ t.1.F⟩ := i1
  refine ⟨t.1.P, t.1.F, by rw [g2], by rw [g2], ?_, ?_⟩
  · rw [hin, hh, tell_state]
  · rw [← tell_asks hp, ← hh]
    cases hk : t.2.2 with
    | go => have := (i7 hcode hk).1; rw [show r.q.val = r.val from rfl] at this; simp [this]
    | suspend => have := (i8 hcode hk).1; rw [show r.q.val = r.val from rfl] at this; simp [this]
    | abort => exact absurd hk (hna hcode)

/-- A parser that has not been used yet. -/
structure New (p : Parser (Inner × α)) : Prop where
  inv : Inv p
  parsing : p.parsing = .INITIALIZED
  failed : p.failed = false
  child : p.child = false
  inner : p.inner.1 = {}
  pending : p.queue.pending = []

theorem New.opens {p : Parser (Inner × α)} (h : New p) : Open p := ⟨h.inv, .inl h.parsing, h.failed, h.child⟩

theorem new_create (enc : Option Buf) : New (create En enc) :=
  ⟨.create enc, rfl, rfl, rfl, rfl, rfl⟩

/-- **C83**, as far as it holds.  The handlers (`app`) do what they like, except that they do not stop the parser for good; the text
comes in any pieces; one of the handlers, called for anything in the prolog or in the content, suspends the parser in the last call of
XML_Parse, the application calls XML_ResumeParser, and is not interrupted again.  Then the handlers have been called with what a parser
without interruption (`p'`, `q'`) calls them with, in the same order; and the same error is found, or none.

Missing, because it is false of the code (`rejected`, `stuck`): the parser suspended in a call which is not the last; suspended a second
time.  Missing too: handlers that suspend the parser within the text of an entity (no parameter entities are read: `NoDtd`, which the model
needs, not the proof).  The text consists of whole code units; the encoding
in use where the root element starts is a built-in one. -/
theorem resume_partial (ho : ∀ f, (settings C f).OtherOk) (hpe : C.isPE = false) (hp : app.Patient) {idx : EncIndex} {i : EncId} {m t w : Buf}
    {ws : List Buf} {p q : Parser (Inner × α)} {rs : List (Ret (Inner × α) Val)} {r1 r2 : Ret (Inner × α) Val} (hn : New p)
    (_ : NoDtd p.conf) (hi : getEncodingIndex p.conf.encoding = some idx) (h0 : C60.Found idx m t i) (hd : (i.x C.c.ns).e.mb ∣ t.length)
    (hx : ws.flatten ++ w = m ++ t)
    (hu : ∀ q, (prologCall (settings C p.conf) ext fuel [] false { first p.conf with cur := .builtin i } t).2.2 = .content q →
      ∃ j, (prologCall (settings C p.conf) ext fuel [] false { first p.conf with cur := .builtin i } t).2.1.cur = .builtin j)
    (h : Path En p (ws.map (.parse · false) ++ [.parse w true, .resume]) (rs ++ [r1, r2]) q) (hl : rs.length = ws.length)
    (hok : ∀ r ∈ rs, r.val = .status .OK) (h1 : r1.val = .status .SUSPENDED) (h2 : r2.val ≠ .status .SUSPENDED)
    {upd' : Buf → Pos → Option Pos} {alloc' : Nat → Bool} (ha : ∀ n, alloc' n = true) {p' q' : Parser Inner} {rs' : List (Ret Inner Val)} (hn' : C63.New p')
    (hcf : p'.conf = p.conf) (hs : ws.flatten.length + w.length + 1024 ≤ 2 ^ 30)
    (h' : Path (docEngine C ext fuel upd' alloc') p' (calls ws w) rs' q') :
    q.inner.1.P = q'.inner.P ∧ q.inner.1.F = q'.inner.F ∧ q.error = q'.error ∧
    (q'.error = none → r2.val = .status .OK) ∧ (q'.error ≠ none → r2.val = .status .ERROR) := by
  have hcut : (({ first p.conf with cur := .builtin i } : DState).x (settings C p.conf) false).Cuts := EncId.cuts i _
  have hA : Able C ext fuel p.conf idx p.inner.1.stage p.queue.pending (ws.flatten ++ w) := by
    rw [hn.inner, hn.pending]
    refine ⟨m, t, i, h0, by simpa using hx, ?_⟩
    intro q hq
    obtain ⟨j, hj⟩ := hu q hq
    refine ⟨?_, (prologCall_kept (ext := ext) (fuel := fuel) (opened := []) (more := false) (ho _) _ t).2 q hq hcut hd⟩
    simp only [DState.x, hj, CurEnc.x]
    exact C57.builtin_supported j _
  obtain ⟨⟨P, F, k1, k2, k3⟩, k4, k5⟩ := resume_told ho hpe hp hn.opens hi hA h hl hok h1 h2
  obtain ⟨j1, -⟩ := outcome ha hn' (by rw [hcf]; exact hi) hs h'
  rw [hn.inner, hn.pending] at k3
  rw [hcf] at j1
  obtain ⟨e1, e2, e3⟩ := told_unique k3 j1
  rw [hn.inner] at k1 k2
  rw [← e1, ← e2, ← e3]
  exact ⟨by simpa using k1, by simpa using k2, rfl, k4, k5⟩

/-! ### Examples -/

/-- Handlers which suspend the parser once they hear of an entity `b`, or of an element `b`. -/
def pause : PApp Unit := fun _ v => ((), match v with
  | .entityDecl n .. => if n = [0x62] then some true else none
  | .ev (.endElement n) => if n = [0x62] then some true else none
  | _ => none)

theorem pause_patient : pause.Patient := by
  intro a v
  unfold pause
  split <;> simp <;> split <;> simp

def exEngine : Engine (Inner × Unit) := haltEngine C59.exCfg C61.exExt 200 pause () C63.exUpd fun _ => true

/-- What calls on a new parser return, and what has been heard by then of entities, notations and elements. -/
def trace (cs : List Call) : Option (List (Val × List Buf × List Ev)) :=
  (steps exEngine (create exEngine none) cs).map fun x => x.1.map fun r =>
    (r.val, r.st.inner.1.P.filterMap (fun v => match v with | .entityDecl n .. => some n | .notationDecl n .. => n | _ => none), r.st.inner.1.F)

def exDoc : Buf := "<!DOCTYPE a [<!ENTITY b 'x'><!NOTATION c SYSTEM 'y'>]><a/>".toUTF8.toList

private def el (n : UInt8) : List Ev := [.startElement [n] [] 0 none, .endElement [n]]

/-- `resume_partial` at work: suspended at the entity `b`. -/
theorem ex_resumed : trace [.parse (exDoc.take 20) false, .parse (exDoc.drop 20) true, .resume] =
    some [(.status .OK, [], []), (.status .SUSPENDED, [[0x62]], []), (.status .OK, [[0x62], [0x63]], el 0x61)] := by decide +kernel

/-- `asked` at work: a handler asks in the second call, none in the first. -/
example : Asks pause () [.startDoctype (some [0x61]) none none true, .entityDecl [0x62] false (some [0x78]) none none none none] ∧
    ¬ Asks pause () [.startDoctype (some [0x61]) none none true] := by
  rw [← tell_asks pause_patient, ← tell_asks pause_patient]
  decide

/-- Without the suspension. -/
theorem ex_not_suspended : (C63.seen (calls [exDoc.take 20] (exDoc.drop 20))).map (fun x => (x.1, x.2.1, x.2.2.2)) =
    some ([.status .OK, .status .OK], none, el 0x61) := by decide +kernel

theorem path_of_steps {σ : Type} {E : Engine σ} (cs : List Call) : ∀ {p : Parser σ}, (∀ c ∈ cs, ∀ p : Parser σ, Contract p c) → ∀ {rs q},
    steps E p cs = some (rs, q) → Path E p cs rs q := by
  induction cs with
  | nil => intro p _ rs q h; cases h; exact .nil _
  | cons c cs ih =>
    intro p hc rs q h
    rw [steps] at h
    split at h
    · cases h
    · rename_i r hr
      split at h
      · cases h
      · rename_i rs' q' hr'
        cases h
        exact .cons (hc c (by simp) p) hr (ih (fun c h => hc c (by simp [h])) hr')

/-- The theorem applies. -/
example : ∃ rs r1 r2 q, Path exEngine (create exEngine none) ([exDoc.take 20].map (.parse · false) ++ [.parse (exDoc.drop 20) true, .resume]) (rs ++ [r1, r2]) q ∧
    rs.length = 1 ∧ (∀ r ∈ rs, r.val = .status .OK) ∧ r1.val = .status .SUSPENDED ∧ r2.val ≠ .status .SUSPENDED := by
  have h := ex_resumed
  unfold trace at h
  rw [Option.map_eq_some_iff] at h
  obtain ⟨⟨rs, q⟩, h, hm⟩ := h
  have hl := congrArg List.length hm
  simp only [List.length_map, List.length_cons, List.length_nil] at hl
  obtain ⟨r0, r1, r2, rfl⟩ : ∃ r0 r1 r2, rs = [r0, r1, r2] := by
    rcases rs with _ | ⟨r0, _ | ⟨r1, _ | ⟨r2, _ | ⟨r3, rs⟩⟩⟩⟩ <;> simp at hl
    exact ⟨_, _, _, rfl⟩
  · simp only [List.map_cons, List.map_nil, List.cons.injEq, Prod.mk.injEq, and_true] at hm
    refine ⟨[r0], r1, r2, q, path_of_steps _ ?_ h, rfl, by simp [hm.1.1], hm.2.1.1, by simp [hm.2.2.1]⟩
    intro c hc p
    have h1 : (exDoc.take 20).length < 2 ^ 31 ∧ (exDoc.drop 20).length < 2 ^ 31 := by decide +kernel
    simp at hc
    rcases hc with rfl | rfl | rfl
    · exact h1.1
    · exact h1.2
    · exact trivial

example : ∀ q, (prologCall (settings C59.exCfg (create exEngine none).conf) C61.exExt 200 [] false { first (create exEngine none).conf with cur := .builtin .utf8 } exDoc).2.2 = .content q →
    ∃ j, (prologCall (settings C59.exCfg (create exEngine none).conf) C61.exExt 200 [] false { first (create exEngine none).conf with cur := .builtin .utf8 } exDoc).2.1.cur = .builtin j :=
  by
  intro q _
  have h : (match (prologCall (settings C59.exCfg (create exEngine none).conf) C61.exExt 200 [] false { first (create exEngine none).conf with cur := .builtin .utf8 } exDoc).2.1.cur with
    | .builtin _ => true
    | _ => false) = true := by decide +kernel
  split at h
  · rename_i j hj; exact ⟨j, hj⟩
  · cases h

example : C60.Found .noEnc [] exDoc .utf8 := by
  have h : exDoc = 0x3C :: 0x21 :: exDoc.drop 2 := by decide +kernel
  rw [h]; exact .plain 0x3C 0x21 _ (by decide) (by decide)

/-- **C83 fails** if the call is not the last: `b` is heard of before the declaration of it is closed, the rest of what was passed is
read when the parser is resumed and read again in the next call, and `>` may not stand there.  The document is well-formed. -/
theorem rejected : trace [.parse (exDoc.take 52) false, .resume, .parse (exDoc.drop 52) true] =
    some [(.status .SUSPENDED, [[0x62]], []), (.status .OK, [[0x62], [0x63]], []), (.status .ERROR, [[0x62], [0x63]], [])] := by decide +kernel

/-- **C83 fails** if the parser is suspended twice: resumed, it reads the end of the prolog again, now as content (`>]>` is character
data), and the element `a` starts a second time; and so on for ever. -/
theorem stuck : trace [.parse "<!DOCTYPE a [<!ENTITY b 'x'>]><a><b></b></a>".toUTF8.toList true, .resume, .resume, .resume] =
    let again : List Ev := .startElement [0x61] [] 0 none :: el 0x62
    some [(.status .SUSPENDED, [[0x62]], []), (.status .SUSPENDED, [[0x62]], again),
      (.status .SUSPENDED, [[0x62]], again ++ .chars ">]>".toUTF8.toList :: again),
      (.status .SUSPENDED, [[0x62]], again ++ .chars ">]>".toUTF8.toList :: again ++ .chars ">]>".toUTF8.toList :: again)] := by decide +kernel

end Verif.C83
