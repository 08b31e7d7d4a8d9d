import Verif.Suspend

/-! Suspending in the text of an entity: one call of a processor. -/

set_option autoImplicit false

namespace Verif.Api
open Verif

variable {α : Type} {c : Cfg} {D : Dtd} {int x : XEnc} {app : App α}

theorem entityRef_expands (opened : List Buf) (ex : Buf → Buf → CState → List Ev × Except XErr CState) (s : CState) (w : Buf) :
    actEntityRef c D x opened ex s w =
      match expands c D x opened w with
      | some (n, t) => ex n t s
      | none => actEntityRef c D x opened (fun _ _ _ => ([], .error .DIVERGED)) s w := by
  unfold actEntityRef expands
  by_cases h1 : predefinedEntityName x.e (refName x.e w) ≠ 0
  · simp only [if_pos h1]
  simp only [if_neg h1]
  cases D.entity (C43.converted x (refName x.e w)) with
  | none => rfl
  | some ent =>
    simp only
    split
    · rfl
    split
    · rfl
    split
    · rfl
    cases ent.text with
    | none => rfl
    | some t => cases h : c.expandInternal <;> simp

theorem act_other {opened : List Buf} {start : Nat} {ex ex' : Buf → Buf → CState → List Ev × Except XErr CState} {s : CState} {t : Tok} {w : Buf}
    (h : t ≠ .ENTITY_REF) : act c D int x opened start ex s t w = act c D int x opened start ex' s t w := by
  cases t <;> first | rfl | exact absurd rfl h

theorem expands_fewer {opened : List Buf} {w : Buf} (h : expands c D x [] w = none) : expands c D x opened w = none := by
  revert h
  unfold expands
  by_cases h1 : predefinedEntityName x.e (refName x.e w) ≠ 0
  · simp only [if_pos h1]; exact id
  simp only [if_neg h1]
  cases D.entity (C43.converted x (refName x.e w)) with
  | none => exact id
  | some ent =>
    simp only
    split
    · exact id
    simp only [List.not_mem_nil, if_false]
    intro h
    split
    · rfl
    · exact h

/-- No reference in the text is to an internal entity (that would be expanded). -/
def PlainText (c : Cfg) (D : Dtd) (int : XEnc) (t : Buf) : Prop :=
  ∀ i, (contentTok int.e (t.drop i)).tok = .ENTITY_REF → expands c D int [] ((t.drop i).take (contentTok int.e (t.drop i)).next) = none

theorem PlainText.drop {t : Buf} (h : PlainText c D int t) (i : Nat) : PlainText c D int (t.drop i) := by
  intro j hj
  rw [List.drop_drop] at hj ⊢
  exact h _ hj

/-- A run that leaves the open entities alone. -/
def lift (u : Ents) : Verif.Ran (CState × α × Stop) → Verif.Ran (SState α)
  | (E, .ok (s, a, k) rest) => (E, .ok (s, a, k, u) rest)
  | (E, .err c) => (E, .err c)

theorem lift_pre (u : Ents) (E : List Ev) (r : Verif.Ran (CState × α × Stop)) : lift u (pre E r) = pre E (lift u r) := by
  obtain ⟨F, o⟩ := r
  cases o <;> rfl

theorem semS_stop (k : Nat) (start : Nat) (s : SState α) : (semS c D int app k x start).stop s = s.2.2.1 := by cases k <;> rfl
theorem semS_mode (k : Nat) (start : Nat) (s : SState α) : (semS c D int app k x start).mode s = s.1.mode := by cases k <;> rfl
theorem semS_fin (k : Nat) (start : Nat) (s : SState α) (opened : List Buf) : (semS c D int app k x start).fin s = (sem c D int k x opened start).fin s.1 := by
  cases k <;> rfl
theorem sem_mode (k : Nat) (start : Nat) (opened : List Buf) (s : CState) : (sem c D int k x opened start).mode s = s.mode := by cases k <;> rfl
theorem sem_act (k : Nat) (start : Nat) (opened : List Buf) (s : CState) {t : Tok} {w : Buf} (h : t = .ENTITY_REF → expands c D x opened w = none) :
    (sem c D int k x opened start).act s t w = act c D int x opened start (fun _ _ _ => ([], .error .DIVERGED)) s t w := by
  cases k with
  | zero => rfl
  | succ k =>
    by_cases ht : t = .ENTITY_REF
    · subst ht
      simp only [sem, semOf, act]
      rw [entityRef_expands, h rfl]
    · exact act_other ht

/-- What is done for a token that is not a reference to an internal entity. -/
theorem semS_act (k : Nat) (start : Nat) (s : CState) (a : α) (st : Stop) (u : Ents) {t : Tok} {w : Buf} (h : t = .ENTITY_REF → expands c D x u.opened w = none) :
    (semS c D int app k x start).act (s, a, st, u) t w =
      match (heard (sem c D int k x u.opened start) app).act (s, a, st) t w with
      | (E, .error c) => (E, .error c)
      | (E, .ok (s', a', k')) => (E, .ok (s', a', k', u)) := by
  simp only [heard, sem_act k start u.opened s h]
  cases k with
  | zero =>
    simp only [semS]
    generalize act c D int x u.opened start _ s t w = y
    obtain ⟨E, o⟩ := y
    cases o <;> rfl
  | succ k =>
    simp only [semS]
    rw [show (if t = .ENTITY_REF then expands c D x u.opened w else none) = none by split <;> simp_all]
    simp only
    generalize act c D int x u.opened start _ s t w = y
    obtain ⟨E, o⟩ := y
    cases o <;> rfl

theorem run_lift (k : Nat) (start : Nat) (u : Ents) (more : Bool) (N : Nat) : ∀ (b : Buf), b.length = N → PlainText c D int b → ∀ v s a st,
    run (semS c D int app k int start) int.e more v (s, a, st, u) b = lift u (run (heard (sem c D int k int u.opened start) app) int.e more v (s, a, st) b) := by
  induction N using Nat.strongRecOn with
  | _ N ih =>
    intro b hb hp v s a st
    have hact : ∀ t w, (t = .ENTITY_REF → expands c D int u.opened w = none) → (semS c D int app k int start).act (s, a, st, u) t w =
      match (heard (sem c D int k int u.opened start) app).act (s, a, st) t w with
      | (E, .error c) => (E, .error c)
      | (E, .ok (s', a', k')) => (E, .ok (s', a', k', u)) := fun t w h => semS_act k start s a st u h
    have hfin : ∀ (y : CState × α × Stop) r, finish (semS c D int app k int start) (y.1, y.2.1, y.2.2, u) r =
        match finish (heard (sem c D int k int u.opened start) app) y r with
        | .ok (s', a', k') q => .ok (s', a', k', u) q
        | .err c => .err c := by
      intro y r
      unfold finish
      rw [semS_fin (opened := u.opened)]
      simp only [heard]
      split <;> rfl
    rw [run.eq_def, run.eq_def (heard _ app)]
    simp only [semS_mode, semS_stop, show (heard (sem c D int k int u.opened start) app).mode (s, a, st) = s.mode from sem_mode ..]
    cases hv : s.mode.verdict (s.mode.tok int.e b).tok with
    | wait c => cases more <;> rfl
    | stop => rfl
    | fail c => rfl
    | done =>
      simp only
      cases more
      · simp only [Bool.false_eq_true, if_false]
        rw [hfin (s, a, st)]
        generalize finish (heard _ app) (s, a, st) b = z
        cases z <;> rfl
      · rfl
    | last t =>
      simp only
      cases more
      · simp only [Bool.false_eq_true, if_false]
        have ht : t ≠ .ENTITY_REF := by
          intro ht
          subst ht
          revert hv
          cases s.mode <;> cases (Mode.tok _ int.e b).tok <;> simp [Mode.verdict]
        rw [hact _ _ (fun h => absurd h ht)]
        generalize (heard _ app).act (s, a, st) t b = y
        obtain ⟨E, o⟩ := y
        cases o with
        | error c => rfl
        | ok y =>
          obtain ⟨s', a', k'⟩ := y
          simp only
          rw [hfin (s', a', k')]
          generalize finish (heard _ app) (s', a', k') [] = z
          cases z <;> rfl
      · rfl
    | actStop =>
      simp only
      rw [hact _ _ (fun h => by cases h)]
      generalize (heard _ app).act (s, a, st) .PROLOG_S _ = y
      obtain ⟨E, o⟩ := y
      cases o with
      | error c => rfl
      | ok y =>
        obtain ⟨s', a', k'⟩ := y
        simp only [show (heard (sem c D int k int u.opened start) app).stop (s', a', k') = k' from rfl]
        split <;> rfl
    | act =>
      simp only
      have hx : (s.mode.tok int.e b).tok = .ENTITY_REF → expands c D int u.opened (b.take (s.mode.tok int.e b).next) = none := by
        intro ht
        have hm : s.mode = .content := by
          revert hv
          rw [ht]
          cases s.mode <;> simp [Mode.verdict]
        rw [hm] at ht ⊢
        have := hp 0
        simp only [List.drop_zero] at this
        exact expands_fewer (this ht)
      rw [hact _ _ hx]
      generalize (heard _ app).act (s, a, st) _ _ = y
      obtain ⟨E, o⟩ := y
      cases o with
      | error c => rfl
      | ok y =>
        obtain ⟨s', a', k'⟩ := y
        simp only [show (heard (sem c D int k int u.opened start) app).stop (s', a', k') = k' from rfl]
        split
        · split
          · rename_i hl
            rw [ih _ (by omega) _ rfl (hp.drop _), lift_pre]
          · rfl
        · split <;> rfl

/-! ### One call of a processor -/

/-- Entities do not refer to internal entities. -/
def Flat (c : Cfg) (D : Dtd) (int : XEnc) : Prop := ∀ n ent t, D.entity n = some ent → ent.text = some t → PlainText c D int t

theorem expands_text {opened : List Buf} {w n t : Buf} (h : expands c D x opened w = some (n, t)) : ∃ ent, D.entity n = some ent ∧ ent.text = some t := by
  revert h
  unfold expands
  split
  · intro h; cases h
  simp only
  cases he : D.entity (C43.converted x (refName x.e w)) with
  | none => intro h; cases h
  | some ent =>
    simp only
    split
    · intro h; cases h
    split
    · intro h; cases h
    split
    · intro h; cases h
    cases ht : ent.text with
    | none => intro h; cases h
    | some t' =>
      simp only
      split
      · intro h; cases h; exact ⟨ent, he, ht⟩
      · intro h; cases h

/-- What remains to be done, without handlers that interfere, when the parser was suspended with the entities `u` open. -/
def onward (c : Cfg) (D : Dtd) (int x : XEnc) (K : Nat) (more : Bool) (u : Ents) (s : CState) (rest : Buf) : Verif.Ran CState :=
  match u.stack with
  | [] => run (sem c D int (K + 1) x [] 0) x.e more false s rest
  | o :: _ =>
    match run (sem c D int K int u.opened o.level) int.e false false s o.rest with
    | (F, .err c) => (F, .err c)
    | (F, .ok s2 _) => pre F (run (sem c D int (K + 1) x [] 0) x.e more false s2 rest)

/-- No entity is open, or one. -/
inductive Shallow (c : Cfg) (D : Dtd) (int : XEnc) : Ents → Prop
  | closed : Shallow c D int .closed
  | one {n r : Buf} {l : Nat} : PlainText c D int r → Shallow c D int ⟨[⟨n, r, l⟩], [n], true⟩

/-- As `Tells`. -/
def TellsS (c : Cfg) (D : Dtd) (int x : XEnc) (K : Nat) (more : Bool) (P : Prop) (r : Verif.Ran (SState α)) (w : Verif.Ran CState) : Prop :=
  match r with
  | (E, .ok (s', _, .go, u) rest) => u = .closed ∧ w = (E, .ok s' rest)
  | (E, .ok (s', _, .suspend, u) rest) => Shallow c D int u ∧ (P → w = pre E (onward c D int x K more u s' rest))
  | (_, .ok (_, _, .abort, _) _) => False
  | (E, .err c) => w = (E, .err c)

/-- Or the parser would have failed. -/
def TellsF (c : Cfg) (D : Dtd) (int x : XEnc) (K : Nat) (more : Bool) (P : Prop) (r : Verif.Ran (SState α)) (w : Verif.Ran CState) : Prop :=
  TellsS c D int x K more P r w ∨ ((∃ E e, w = (E, .err e) ∧ E <+: r.1) ∧
    ∃ s a u q, r.2 = .ok (s, a, .suspend, u) q ∧ Shallow c D int u)

theorem TellsF.pre {K : Nat} {more : Bool} {P : Prop} {r : Verif.Ran (SState α)} {w : Verif.Ran CState} (E : List Ev) (h : TellsF c D int x K more P r w) :
    TellsF c D int x K more P (pre E r) (Verif.pre E w) := by
  rcases h with h | ⟨h, h2⟩
  · left
    obtain ⟨F, o⟩ := r
    cases o with
    | err c =>
      simp only [TellsS, Verif.pre] at h ⊢
      rw [h]
    | ok s rest =>
      obtain ⟨s, a, k, u⟩ := s
      cases k <;> simp only [TellsS, Verif.pre] at h ⊢
      · rw [h.2]; exact ⟨h.1, rfl⟩
      · refine ⟨h.1, fun hd => ?_⟩
        rw [h.2 hd]; simp
  · right
    obtain ⟨F, e, rfl, hp⟩ := h
    refine ⟨?_, h2⟩
    exact ⟨E ++ F, e, rfl, (List.prefix_append_right_inj E).2 hp⟩

/-- At the end of an entity's text. -/
theorem run_at_end (k : Nat) (opened : List Buf) (l : Nat) (s : CState) :
    run (sem c D int k int opened l) int.e false false s [] = ([], .ok s []) ∨ ∃ e, run (sem c D int k int opened l) int.e false false s [] = ([], .err e) := by
  have hg : ∀ s, (sem c D int k int opened l).stop s = .go := by intro s; cases k <;> rfl
  rw [C04.run_go hg, sem_mode]
  cases s.mode with
  | content =>
    show ([], finish _ s []) = _ ∨ ∃ e, ([], finish _ s []) = _
    unfold finish
    split
    · exact .inr ⟨_, rfl⟩
    · exact .inl rfl
  | cdata => exact .inr ⟨_, rfl⟩
  | epilog => exact .inl rfl

/-- `processInternalEntity`, for a reference in the document. -/
theorem enter_tells {iasc : UInt8 → Buf} (I : XSupported int iasc) (hi : int.e.mb = 1) (hp : app.Patient) (fl : Flat c D int)
    (K : Nat) (s : CState) (a : α) (k : Stop) (hk : k ≠ .abort) {w n t : Buf} (h : expands c D x [] w = some (n, t)) :
    (∃ E e, (semS c D int app (K + 1) x 0).act (s, a, k, .closed) .ENTITY_REF w = (E, .error e) ∧ (sem c D int (K + 1) x [] 0).act s .ENTITY_REF w = (E, .error e)) ∨
    (∃ E s' a' k', (semS c D int app (K + 1) x 0).act (s, a, k, .closed) .ENTITY_REF w = (E, .ok (s', a', k', .closed)) ∧ k' ≠ .abort ∧
      ((sem c D int (K + 1) x [] 0).act s .ENTITY_REF w = (E, .ok s') ∨ k' = .suspend ∧ ∃ e, (sem c D int (K + 1) x [] 0).act s .ENTITY_REF w = (E, .error e))) ∨
    (∃ E s' a' r, (semS c D int app (K + 1) x 0).act (s, a, k, .closed) .ENTITY_REF w = (E, .ok (s', a', .suspend, ⟨[⟨n, r, s.level⟩], [n], true⟩)) ∧
      PlainText c D int r ∧
      (sem c D int (K + 1) x [] 0).act s .ENTITY_REF w = Ran.toAct (pre E (run (sem c D int K int [n] s.level) int.e false false s' r))) := by
  obtain ⟨ent, he, htx⟩ := expands_text h
  have hpl := fl n ent t he htx
  have hA : (sem c D int (K + 1) x [] 0).act s .ENTITY_REF w = Ran.toAct (run (sem c D int K int [n] s.level) int.e false false s t) := by
    simp only [sem, semOf, act]
    rw [entityRef_expands, h]
  have hB : (semS c D int app (K + 1) x 0).act (s, a, k, .closed) .ENTITY_REF w =
      enter (fun s' => run (semS c D int app K int s.level) int.e false false s' t) n t (s, a, k, .closed) := by
    simp only [semS, if_true, Ents.closed]
    rw [h]
  have ht := run_tells (C04.sem_lawful I c D int K [n] s.level) I.s.ok I.s.mb I.s.even (by
      intro s w E s' h
      have : (sem c D int K int [n] s.level).act s .DATA_NEWLINE w = (toChars c int [[0x0A]] w, .ok s) := by cases K <;> rfl
      cases K <;> · cases h; rfl) hp false True _ t rfl (fun _ => by rw [hi]; exact Nat.one_dvd _) false s a k hk
  have hrest := run_rest (heard (sem c D int K int [n] s.level) app) int.e false _ t rfl false (s, a, k)
  rw [hA, hB]
  simp only [enter]
  rw [run_lift K s.level _ false _ t rfl hpl]
  simp only [Ents.closed]
  generalize run (heard (sem c D int K int [n] s.level) app) int.e false false (s, a, k) t = r at *
  obtain ⟨E, o⟩ := r
  cases o with
  | err e =>
    simp only [Tells] at ht
    rw [ht]
    exact .inl ⟨E, e, rfl, rfl⟩
  | ok y rest =>
    obtain ⟨s', a', k'⟩ := y
    obtain ⟨i, _, hq⟩ := hrest _ _ _ rfl
    cases k' with
    | abort => exact absurd ht (by simp [Tells])
    | go =>
      simp only [Tells] at ht
      rw [ht]
      refine .inr (.inl ⟨E, s', a', .go, ?_, by simp, .inl rfl⟩)
      simp [lift]
    | suspend =>
      simp only [Tells, forall_const] at ht
      by_cases hr : rest = []
      · refine .inr (.inl ⟨E, s', a', .suspend, ?_, by simp, ?_⟩)
        · subst hr; simp [lift]
        · rw [ht, hr]
          rcases run_at_end (c := c) (D := D) (int := int) K [n] s.level s' with g | ⟨e, g⟩
          · left; rw [g]; simp [pre, Ran.toAct]
          · right; rw [g]; exact ⟨rfl, e, by simp [pre, Ran.toAct]⟩
      · refine .inr (.inr ⟨E, s', a', rest, ?_, hq ▸ hpl.drop i, ?_⟩)
        · simp [lift, hr, Ents.keep]
        · rw [ht]

/-- Stopping and going on, inside an entity or outside: one call of a processor on the document. -/
theorem run_tellsS {asc iasc : UInt8 → Buf} (S : XSupported x asc) (I : XSupported int iasc) (hi : int.e.mb = 1) (hp : app.Patient) (fl : Flat c D int)
    (K : Nat) (more : Bool) (P : Prop) (N : Nat) :
    ∀ (b : Buf), b.length = N → (P → x.e.mb ∣ b.length) → ∀ v s a k, k ≠ .abort →
      TellsF c D int x K more P (run (semS c D int app (K + 1) x 0) x.e more v (s, a, k, .closed) b) (run (sem c D int (K + 1) x [] 0) x.e more false s b) := by
  have L := C04.sem_lawful S c D int (K + 1) [] 0
  have ok := S.s.ok
  have hmb := S.s.mb
  have ev := S.s.even
  generalize hM : sem c D int (K + 1) x [] 0 = M at L
  have hmode : ∀ s, M.mode s = s.mode := by intro s; rw [← hM]; rfl
  have hfin : ∀ s : SState α, (semS c D int app (K + 1) x 0).fin s = M.fin s.1 := by intro s; rw [← hM]; rfl
  have hon : ∀ s rest, onward c D int x K more .closed s rest = run M x.e more false s rest := by intro s rest; rw [← hM]; rfl
  induction N using Nat.strongRecOn with
  | _ N ih =>
    intro b hb hdv v s a k hk
    have hdn := s.mode.tok_dvd hmb ev b
    have hn : (s.mode.tok x.e b).next ≤ b.length := by
      rw [s.mode.tok_eq]; exact C02.next_in_buffer _ x.e b
    have hact : ∀ t w, (t = .ENTITY_REF → expands c D x [] w = none) → (semS c D int app (K + 1) x 0).act (s, a, k, .closed) t w =
      match M.act s t w with
      | (E, .error c) => (E, .error c)
      | (E, .ok s') => (E, .ok (s', (app.tell (a, k) E).1, (app.tell (a, k) E).2, .closed)) := by
      intro t w h
      rw [semS_act (K + 1) 0 s a k .closed h, ← hM]
      simp only [heard, Ents.closed]
      generalize (sem c D int (K + 1) x [] 0).act s t w = y
      obtain ⟨E, o⟩ := y
      cases o <;> rfl
    -- the parser stops where it is
    have stay : ∀ (w : Verif.Ran CState), w = run M x.e more false s b → (k = .go → w = ([], .ok s b)) →
        TellsF c D int x K more P ([], .ok (s, a, k, .closed) b) w := by
      intro w hw hg
      left
      cases k with
      | go => exact ⟨rfl, hg rfl⟩
      | suspend => exact ⟨.closed, fun _ => by rw [hon, hw]; simp [C04.pre_nil]⟩
      | abort => exact absurd rfl hk
    rw [run.eq_def (semS c D int app (K + 1) x 0)]
    have hw := C04.run_go (e := x.e) L.go more false s b
    rw [hmode] at hw
    simp only [semS_mode, semS_stop]
    generalize hr : s.mode.tok x.e b = r at *
    obtain ⟨t, m⟩ := r
    simp only at hw hdn hn ⊢
    cases hv : s.mode.verdict t with
    | wait e =>
      rw [hv] at hw
      simp only at hw ⊢
      cases more with
      | true => exact stay _ rfl (fun _ => by simpa using hw)
      | false => left; simpa [TellsS] using hw
    | stop =>
      rw [hv] at hw
      exact stay _ rfl (fun _ => hw)
    | fail e =>
      rw [hv] at hw
      left; simpa [TellsS] using hw
    | done =>
      rw [hv] at hw
      simp only at hw ⊢
      cases more with
      | true => exact stay _ rfl (fun _ => by simpa using hw)
      | false =>
        simp only [Bool.false_eq_true, if_false, finish, hfin] at hw ⊢
        cases hf : M.fin s with
        | none => rw [hf] at hw; exact stay _ rfl (fun _ => hw)
        | some e => rw [hf] at hw; exact .inl hw
    | last t' =>
      rw [hv] at hw
      simp only at hw ⊢
      cases more with
      | true => exact stay _ rfl (fun _ => by simpa using hw)
      | false =>
        simp only [Bool.false_eq_true, if_false] at hw ⊢
        have hc : s.mode = .content ∧ (t' = .DATA_NEWLINE ∨ t' = .DATA_CHARS) := by
          revert hv
          cases s.mode <;> cases t <;> simp [Mode.verdict] <;> intro h <;> simp [← h]
        rw [hact _ _ (fun h => by rcases hc.2 with g | g <;> (rw [g] at h; cases h))]
        generalize ha : M.act s t' b = y at hw
        obtain ⟨E, o⟩ := y
        cases o with
        | error e => exact .inl hw
        | ok s' =>
          have hs : s' = s := by
            rcases hc.2 with rfl | rfl
            · rw [← hM] at ha; cases ha; rfl
            · obtain ⟨F, hF, _⟩ := L.data s b
              rw [hF] at ha
              cases ha
              rfl
          subst hs
          simp only [finish, hfin] at hw ⊢
          have hk' := tell_patient hp E (a, k) hk
          generalize app.tell (a, k) E = y at hk'
          obtain ⟨a', k'⟩ := y
          have h0 : run M x.e false false s' [] = ([], finish M s' []) := by
            rw [C04.run_go L.go, hmode, hc.1]
            rfl
          cases hf : M.fin s' with
          | some e => rw [hf] at hw; exact .inl hw
          | none =>
            rw [hf] at hw
            simp only [finish, hf] at h0
            left
            cases k' with
            | go => exact ⟨rfl, hw⟩
            | suspend => exact ⟨.closed, fun _ => by rw [hon, h0, pre, List.append_nil]; exact hw⟩
            | abort => exact absurd rfl hk'
    | actStop =>
      rw [hv] at hw
      simp only at hw ⊢
      have hc : s.mode = .epilog ∧ t = .PROLOG_S_NEG := by
        revert hv
        cases s.mode <;> cases t <;> simp [Mode.verdict]
      obtain ⟨hm, rfl⟩ := hc
      obtain ⟨E, hE, _⟩ := L.space s (b.take m)
      rw [hact _ _ (fun h => by cases h), hE]
      rw [hE] at hw
      simp only at hw ⊢
      have h1 : run M x.e more false s [] = ([], .ok s []) := by rw [C04.run_go L.go, hmode, hm]; rfl
      have hk' := tell_patient hp E (a, k) hk
      generalize app.tell (a, k) E = y at hk'
      obtain ⟨a', k'⟩ := y
      left
      cases k' with
      | go => exact ⟨rfl, hw⟩
      | suspend =>
        simp only [reduceCtorEq, if_false, TellsS]
        refine ⟨.closed, fun hD => ?_⟩
        have h0 : b.drop m = [] := spaceNeg_next ok ev (by rw [hm] at hr; exact hr) (hdv hD)
        rw [hon, h0, h1, pre, List.append_nil, hw, h0]
      | abort => exact absurd rfl hk'
    | act =>
      rw [hv] at hw
      simp only at hw ⊢
      have hpg : (b.drop m).length < b.length := by
        have := act_progress (e := x.e) (b := b) (m := s.mode) (by rw [hr]; exact hv)
        rwa [hr] at this
      have hdd : P → x.e.mb ∣ (b.drop m).length := by
        intro hD
        rw [List.length_drop]
        exact (Nat.dvd_sub_iff_left hn hdn).2 (hdv hD)
      simp only [if_pos hpg] at hw
      by_cases hx : t = .ENTITY_REF → expands c D x [] (b.take m) = none
      · rw [hact _ _ hx]
        generalize ha : M.act s t (b.take m) = y at hw
        obtain ⟨E, o⟩ := y
        cases o with
        | error e => exact .inl hw
        | ok s' =>
          simp only at hw ⊢
          have hk' := tell_patient hp E (a, k) hk
          generalize app.tell (a, k) E = y at hk'
          obtain ⟨a', k'⟩ := y
          rw [hw]
          split
          · exact TellsF.pre _ (ih _ (by omega) _ rfl hdd _ _ _ _ hk')
          · rename_i hno
            left
            cases k' with
            | go => exact absurd (.inr (.inr rfl)) hno
            | suspend => exact ⟨.closed, fun _ => by rw [hon]⟩
            | abort => exact absurd rfl hk'
      · have ht : t = .ENTITY_REF := by
          false_or_by_contra
          rename_i h
          exact hx (fun g => absurd g h)
        subst ht
        obtain ⟨⟨n, txt⟩, hex⟩ := Option.ne_none_iff_exists'.1 (fun h => hx (fun _ => h))
        have hent := enter_tells (x := x) I hi hp fl K s a k hk hex
        rw [hM] at hent
        rcases hent with ⟨E, e, h1, h2⟩ | ⟨E, s', a', k', h1, hk', h2⟩ | ⟨E, s', a', r, h1, hpl, h2⟩
        · rw [h1]; rw [h2] at hw; exact .inl hw
        · rw [h1]
          rcases h2 with h2 | ⟨rfl, e, h2⟩
          · rw [h2] at hw
            simp only at hw ⊢
            rw [hw]
            split
            · exact TellsF.pre _ (ih _ (by omega) _ rfl hdd _ _ _ _ hk')
            · rename_i hno
              left
              cases k' with
              | go => exact absurd (.inr (.inr rfl)) hno
              | suspend => exact ⟨.closed, fun _ => by rw [hon]⟩
              | abort => exact absurd rfl hk'
          · rw [h2] at hw
            simp only [reduceCtorEq, false_and, and_false, or_self, if_false, if_true, false_or] at hw ⊢
            right
            refine ⟨⟨E, e, hw, List.prefix_refl _⟩, ?_⟩
            exact ⟨_, _, _, _, rfl, .closed⟩
        · rw [h1]
          simp only [reduceCtorEq, false_and, and_false, or_self, if_false, if_true, false_or]
          left
          refine ⟨.one hpl, fun _ => ?_⟩
          rw [hw, h2]
          simp only [onward, hM]
          generalize run (sem c D int K int [n] s.level) int.e false false s' r = z
          obtain ⟨F, o⟩ := z
          cases o with
          | err e => simp [pre, Ran.toAct]
          | ok s2 q => simp [pre, Ran.toAct]

/-- As `TellsF`, for a call of XML_ResumeParser. -/
def TellsR (c : Cfg) (D : Dtd) (int x : XEnc) (K : Nat) (more : Bool) (P : Prop) (r : Verif.Ran (SState α)) (w : Verif.Ran CState) : Prop :=
  (∀ s a u q, r.2 ≠ .ok (s, a, .abort, u) q) ∧ (TellsS c D int x K more P r w ∨ ∃ E e, w = (E, .err e) ∧ E <+: r.1)

theorem TellsF.resumed {K : Nat} {more : Bool} {P : Prop} {r : Verif.Ran (SState α)} {w : Verif.Ran CState} (h : TellsF c D int x K more P r w) :
    TellsR c D int x K more P r w := by
  rcases h with h | ⟨h, s, a, u, q, hr, _⟩
  · refine ⟨?_, .inl h⟩
    intro s a u q hr
    obtain ⟨E, o⟩ := r
    simp only at hr
    subst hr
    exact h
  · refine ⟨?_, .inr h⟩
    intro s a u q hr'
    rw [hr] at hr'
    cases hr'

/-- A CDATA section ends where it began. -/
theorem run_no_cdata {σ : Type} {M : Sem σ} {e : Enc} (L : C04.Lawful M e) (hnl : ∀ s w E s', M.act s .DATA_NEWLINE w = (E, .ok s') → s' = s) (N : Nat) :
    ∀ (b : Buf), b.length = N → ∀ s E s' q, run M e false false s b = (E, .ok s' q) → M.mode s' ≠ .cdata := by
  induction N using Nat.strongRecOn with
  | _ N ih =>
    intro b hb s E s' q h
    have hfin : ∀ (E' : List Ev) s1 r, (E', finish M s1 r) = (E, .ok s' q) → s1 = s' := by
      intro E' s1 r h
      unfold finish at h
      split at h <;> cases h
      rfl
    rw [C04.run_go L.go] at h
    cases hv : (M.mode s).verdict ((M.mode s).tok e b).tok with
    | wait c => rw [hv] at h; cases h
    | fail c => rw [hv] at h; cases h
    | stop =>
      rw [hv] at h
      cases h
      intro hm
      rw [hm] at hv
      generalize (Mode.tok .cdata e b).tok = t at hv
      cases t <;> cases hv
    | done =>
      rw [hv] at h
      have := hfin _ _ _ h
      subst this
      intro hm
      rw [hm] at hv
      generalize (Mode.tok .cdata e b).tok = t at hv
      cases t <;> cases hv
    | last t' =>
      rw [hv] at h
      simp only [Bool.false_eq_true, if_false] at h
      have hc : M.mode s ≠ .cdata ∧ (t' = .DATA_NEWLINE ∨ t' = .DATA_CHARS) := by
        revert hv
        cases M.mode s <;> cases (Mode.tok _ e b).tok <;> simp [Mode.verdict] <;> intro h <;> simp [← h]
      generalize ha : M.act s t' b = y at h
      obtain ⟨F, o⟩ := y
      cases o with
      | error c => cases h
      | ok s1 =>
        have := hfin _ _ _ h
        subst this
        rcases hc.2 with rfl | rfl
        · rw [hnl _ _ _ _ ha]; exact hc.1
        · obtain ⟨F, hF, _⟩ := L.data s b
          rw [hF] at ha
          cases ha
          exact hc.1
    | actStop =>
      rw [hv] at h
      obtain ⟨F, hF, _⟩ := L.space s (b.take ((M.mode s).tok e b).next)
      rw [hF] at h
      cases h
      intro hm
      rw [hm] at hv
      generalize (Mode.tok .cdata e b).tok = t at hv
      cases t <;> cases hv
    | act =>
      rw [hv] at h
      have hpg := act_progress (e := e) (b := b) hv
      simp only at h
      generalize M.act s _ _ = y at h
      obtain ⟨F, o⟩ := y
      cases o with
      | error c => cases h
      | ok s1 =>
        simp only [if_pos hpg] at h
        generalize hz : run M e false false s1 _ = z at h
        obtain ⟨G, o⟩ := z
        simp only [pre] at h
        cases h
        exact ih _ (by omega) _ rfl _ _ _ _ hz

/-- The parser is resumed while one entity is open. -/
theorem internal_tells {asc iasc : UInt8 → Buf} (S : XSupported x asc) (I : XSupported int iasc) (hi : int.e.mb = 1) (hp : app.Patient) (fl : Flat c D int)
    (K : Nat) (final : Bool) (P : Prop) (s : CState) (a : α) {n r : Buf} {l : Nat} (hr : PlainText c D int r) (hm : s.mode ≠ .cdata) (b : Buf) (hP : P → x.e.mb ∣ b.length) :
    TellsR c D int x K (!final) P (internalProc c D int x app (K + 1) final (s, a, ⟨[⟨n, r, l⟩], [n], true⟩) b)
      (onward c D int x K (!final) ⟨[⟨n, r, l⟩], [n], true⟩ s b) := by
  have hs : toContent s = s := by
    obtain ⟨_, _, m, _, _⟩ := s
    cases m <;> first | rfl | exact absurd rfl hm
  have hnl : ∀ s w E s', (sem c D int K int [n] l).act s .DATA_NEWLINE w = (E, .ok s') → s' = s := by
    intro s w E s' h
    have : (sem c D int K int [n] l).act s .DATA_NEWLINE w = (toChars c int [[0x0A]] w, .ok s) := by cases K <;> rfl
    rw [this] at h
    cases h; rfl
  have ht := run_tells (C04.sem_lawful I c D int K [n] l) I.s.ok I.s.mb I.s.even hnl hp false True _ r rfl (fun _ => by rw [hi]; exact Nat.one_dvd _) false s a .go (by simp)
  have hrest := run_rest (heard (sem c D int K int [n] l) app) int.e false _ r rfl false (s, a, .go)
  simp only [internalProc, onward, List.length_nil, hs]
  rw [show K + 1 - (0 + 1) = K from rfl, run_lift K l _ false _ r rfl hr]
  simp only
  generalize run (heard (sem c D int K int [n] l) app) int.e false false (s, a, .go) r = z at *
  obtain ⟨E, o⟩ := z
  cases o with
  | err e =>
    simp only [Tells] at ht
    rw [ht]
    exact ⟨by simp [lift], .inl rfl⟩
  | ok y rest =>
    obtain ⟨s', a', k'⟩ := y
    obtain ⟨i, _, hq⟩ := hrest _ _ _ rfl
    have hend : ∀ q, run (sem c D int K int [n] l) int.e false false s r = (E, .ok s' q) → ∀ k : Stop, k ≠ .abort →
        TellsR c D int x K (!final) P (pre E (run (semS c D int app (K + 1) x 0) x.e (!final) false (toContent s', a', k, .closed) b))
          (pre E (run (sem c D int (K + 1) x [] 0) x.e (!final) false s' b)) := by
      intro q hq k hk
      have hs' : toContent s' = s' := by
        have := run_no_cdata (C04.sem_lawful I c D int K [n] l) hnl _ r rfl _ _ _ _ hq
        rw [sem_mode] at this
        obtain ⟨_, _, m, _, _⟩ := s'
        cases m <;> first | rfl | exact absurd rfl this
      rw [hs']
      exact (TellsF.pre E (run_tellsS S I hi hp fl K (!final) P _ b rfl hP false s' a' k hk)).resumed
    cases k' with
    | abort => exact absurd ht (by simp [Tells])
    | go =>
      simp only [Tells] at ht
      have := hend rest ht .go (by simp)
      rw [ht]
      simpa [lift, Ents.closed] using this
    | suspend =>
      simp only [Tells, forall_const] at ht
      by_cases hr' : rest = []
      · subst hr'
        rcases run_at_end (c := c) (D := D) (int := int) K [n] l s' with g | ⟨e, g⟩
        · rw [g] at ht
          have ht : run (sem c D int K int [n] l) int.e false false s r = (E, .ok s' []) := by simpa [pre] using ht
          have := hend [] ht .suspend (by simp)
          rw [ht]
          simpa [lift, Ents.closed] using this
        · rw [g] at ht
          have ht : run (sem c D int K int [n] l) int.e false false s r = (E, .err e) := by simpa [pre] using ht
          rw [ht]
          simp only [lift, ne_eq, not_true, false_and, if_false]
          have hF := TellsF.pre E (run_tellsS S I hi hp fl K (!final) P _ b rfl hP false (toContent s') a' .suspend (by simp))
          refine ⟨?_, .inr ⟨E, e, rfl, ?_⟩⟩
          · simpa [Ents.closed] using hF.resumed.1
          · simp [pre]
      · simp only [lift, ne_eq, hr', not_false_eq_true, and_self, if_true]
        refine ⟨by simp, .inl ⟨?_, fun _ => ?_⟩⟩
        · simpa [Ents.keep] using Shallow.one (n := n) (l := l) (hq ▸ hr.drop i)
        · rw [ht]
          simp only [onward, Ents.keep, List.map_cons, if_true, List.map_nil]
          generalize run (sem c D int K int [n] l) int.e false false s' rest = z
          obtain ⟨F, o⟩ := z
          cases o <;> simp [pre]

end Verif.Api
