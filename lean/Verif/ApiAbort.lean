import Verif.ApiHeardThm
import Verif.PrologUnread

/-! # Whole documents under handlers that end the parse

As `ApiHeardThm`, for handlers of any kind: what is heard is the beginning of what is heard without them stopping the parser. -/

set_option autoImplicit false

namespace Verif.Halt
open C43 C53 C59 C60 C63 Spec Verif PState Api

variable {α : Type} {c : PCfg} {ext : Ext} {fuel : Nat} {app : PApp α}

/-- All calls of a call of a processor. -/
def Turn.told (t : Turn) : List PEv := t.P ++ t.F.map .ev

/-- What is heard is the beginning of what is heard without the handlers stopping the parser; an error is that the parse was ended,
or the same error. -/
def FirstRan {σ τ : Type} (r : Verif.Ran σ) (w : Verif.Ran τ) : Prop :=
  r.1 <+: w.1 ∧ ∀ d, r.2 = .err d → d = .ABORTED ∨ w.2 = .err d

theorem FirstRan.pre {σ τ : Type} {r : Verif.Ran σ} {w : Verif.Ran τ} (E : List Ev) (h : FirstRan r w) : FirstRan (Verif.pre E r) (Verif.pre E w) :=
  ⟨(List.prefix_append_right_inj E).mpr h.1, h.2⟩

/-- The content processors. -/
theorem run_first {σ : Type} (M : Sem σ) (hgo : ∀ s, M.stop s = .go) (app : App α) (e : Enc) (more : Bool) (n : Nat) :
    ∀ (b : Buf), b.length = n → ∀ v v' s, FirstRan (run (Api.heard M app) e more v s b) (run M e more v' s.1 b) := by
  induction n using Nat.strongRecOn with
  | _ n ih =>
    intro b hb v v' s
    have err : ∀ {E : List Ev} {d : XErr}, FirstRan ((E, .err d) : Verif.Ran (σ × α × Stop)) ((E, .err d) : Verif.Ran σ) :=
      fun {E d} => ⟨List.prefix_rfl, fun _ h => by cases h; exact .inr rfl⟩
    have ok : ∀ {E : List Ev} {s : σ × α × Stop} {q : Buf} {o : Verif.Out σ}, FirstRan ((E, .ok s q) : Verif.Ran (σ × α × Stop)) ((E, o) : Verif.Ran σ) :=
      fun {E s q o} => ⟨List.prefix_rfl, fun _ h => by cases h⟩
    have fin : ∀ {E : List Ev} {s : σ × α × Stop} {q : Buf}, FirstRan ((E, finish (Api.heard M app) s q) : Verif.Ran (σ × α × Stop))
        ((E, finish M s.1 q) : Verif.Ran σ) := by
      intro E s q
      unfold finish
      simp only [show (Api.heard M app).fin s = M.fin s.1 from rfl]
      split
      · exact err
      · exact ok
    have cut : ∀ {E F : List Ev} {o : Verif.Out (σ × α × Stop)} {o' : Verif.Out σ}, (∀ d, o = .err d → d = .ABORTED) →
        FirstRan ((E, o) : Verif.Ran (σ × α × Stop)) ((E ++ F, o') : Verif.Ran σ) :=
      fun {E F o o'} h => ⟨List.prefix_append _ _, fun d hd => .inl (h d hd)⟩
    rw [run.eq_def, run.eq_def M]
    simp only [show (Api.heard M app).mode s = M.mode s.1 from rfl]
    cases (M.mode s.1).verdict ((M.mode s.1).tok e b).tok with
    | wait d =>
      cases more
      · exact err
      · exact ok
    | last t =>
      cases more with
      | true => exact ok
      | false =>
        have ha : (Api.heard M app).act s t b = match M.act s.1 t b with
          | (E, .error c) => (E, .error c)
          | (E, .ok s') => (E, .ok (s', app.tell s.2 E)) := rfl
        simp only [ha, Bool.false_eq_true, if_false]
        generalize M.act s.1 t b = r
        obtain ⟨E, o⟩ := r
        cases o with
        | error d => exact err
        | ok s' => exact fin
    | done =>
      cases more
      · exact fin
      · exact ok
    | stop => exact ok
    | fail d => exact err
    | actStop =>
      have ha : (Api.heard M app).act s .PROLOG_S (b.take ((M.mode s.1).tok e b).next) =
        match M.act s.1 .PROLOG_S (b.take ((M.mode s.1).tok e b).next) with
        | (E, .error c) => (E, .error c)
        | (E, .ok s') => (E, .ok (s', app.tell s.2 E)) := rfl
      simp only [ha]
      generalize M.act s.1 _ _ = r
      obtain ⟨E, o⟩ := r
      cases o with
      | error d => exact err
      | ok s' =>
        refine ⟨List.prefix_rfl, fun d hd => .inl ?_⟩
        simp only at hd
        split at hd <;> cases hd
        rfl
    | act =>
      have ha : (Api.heard M app).act s ((M.mode s.1).tok e b).tok (b.take ((M.mode s.1).tok e b).next) =
        match M.act s.1 ((M.mode s.1).tok e b).tok (b.take ((M.mode s.1).tok e b).next) with
        | (E, .error c) => (E, .error c)
        | (E, .ok s') => (E, .ok (s', app.tell s.2 E)) := rfl
      simp only [ha]
      generalize M.act s.1 ((M.mode s.1).tok e b).tok (b.take ((M.mode s.1).tok e b).next) = r
      obtain ⟨E, o⟩ := r
      cases o with
      | error d => exact err
      | ok s' =>
        simp only [hgo, or_true, if_true]
        by_cases hlt : (b.drop ((M.mode s.1).tok e b).next).length < b.length
        · simp only [if_pos hlt]
          split
          · exact FirstRan.pre E (ih _ (by omega) _ rfl _ _ (s', app.tell s.2 E))
          · split
            · exact cut (fun _ h => by cases h)
            · exact cut (fun _ h => by cases h; rfl)
        · simp only [if_neg hlt]
          split
          · exact ok
          · split
            · exact ok
            · exact ⟨List.prefix_rfl, fun _ h => by cases h; exact .inl rfl⟩

theorem contentSem_go (c : PCfg) (z : DState) (s : CState) : (C57.contentSem c z).stop s = .go := by
  unfold C57.contentSem parser
  cases z.D.toDtd.fuel <;> rfl

/-- The same for a call of a processor. -/
def FirstTurn (t u : Turn) : Prop := Turn.told t <+: Turn.told u ∧ ∀ d, t.code = some d → d = .ABORTED ∨ u.code = some d

theorem FirstTurn.refl (t : Turn) : FirstTurn t t := ⟨List.prefix_rfl, fun _ h => .inr h⟩

theorem hContent_first {z : DState} {s : CState} {y : α × Stop} {final : Bool} {b : Buf} :
    FirstTurn (hContent c app z s y final b).1 (inContent c z s final b) := by
  have h := run_first (C57.contentSem c z) (contentSem_go c z) app.content (z.x c false).e (!final) _ b rfl ((C57.contentSem c z).mode s == .cdata) ((C57.contentSem c z).mode s == .cdata) (s, y)
  unfold hContent inContent
  rw [call, call]
  simp only [show (Api.heard (C57.contentSem c z) app.content).mode (s, y) = (C57.contentSem c z).mode s from rfl] at *
  generalize run (Api.heard (C57.contentSem c z) app.content) _ _ _ (s, y) b = r at *
  generalize run (C57.contentSem c z) _ _ _ s b = w at *
  obtain ⟨E, o⟩ := r
  obtain ⟨F, o'⟩ := w
  refine ⟨?_, ?_⟩
  · cases o <;> cases o' <;> simpa [Turn.told] using h.1.map _
  · intro d hd
    cases o with
    | ok s q => cases hd
    | err e =>
      cases hd
      rcases h.2 _ rfl with h | h
      · exact .inl h
      · right
        simp only at h
        subst h
        rfl

/-- The prolog, and where it ends. -/
def First (r : Heard α) (w : Prolog) : Prop :=
  r.1 <+: w.1 ∧ (∀ q, r.2.2.2 = .content q → w = (r.1, r.2.1, .content q)) ∧
    (∀ d, r.2.2.2 = .err d → d = .ABORTED ∨ w.2.2 = .err d) ∧ (r.2.2.2 = .panic → w.2.2 = .panic)

theorem First.pre {r : Heard α} {w : Prolog} (E : List PEv) (h : First r w) : First (Heard.pre E r) (Prolog.pre E w) := by
  refine ⟨(List.prefix_append_right_inj E).mpr h.1, fun q hq => ?_, h.2.2⟩
  rw [h.2.1 q hq]; rfl

theorem hrun_first (more : Bool) (n : Nat) :
    ∀ (s : DState) (y : α × Stop) (b : Buf), b.length = n → First (hrun c ext fuel app more s y b) (C57.loop c ext fuel [] more s b) := by
  induction n using Nat.strongRecOn with
  | _ n ih =>
    intro s y b hn
    have same : ∀ {E : List PEv} {s : DState} {y : α × Stop} {o}, First ((E, s, y, o) : Heard α) (E, s, o) :=
      fun {E s y o} => ⟨List.prefix_rfl, fun q hq => by simp only at hq; rw [hq], fun _ h => .inr h, fun h => h⟩
    have held : ∀ {E F : List PEv} {s s' : DState} {y : α × Stop} {q o}, First ((E, s, y, .done q) : Heard α) (E ++ F, s', o) :=
      fun {E F s s' y q o} => ⟨List.prefix_append _ _, fun _ h => (by cases h), fun _ h => (by cases h), fun h => by cases h⟩
    have over : ∀ {E F : List PEv} {s s' : DState} {y : α × Stop} {o}, First ((E, s, y, .err .ABORTED) : Heard α) (E ++ F, s', o) :=
      fun {E F s s' y o} => ⟨List.prefix_append _ _, fun _ h => (by cases h), fun _ h => (by cases h; exact .inl rfl), fun h => by cases h⟩
    rw [hrun.eq_def, C57.loop, prun.eq_def]
    simp only
    cases hsee : seeToken (s.x c false) false false more c.isPE b with
    | wait => exact same
    | fail e => exact same
    | panic => exact same
    | endPE =>
      simp only
      split <;> exact same
    | tok t n =>
      simp only
      generalize pround c ext fuel (expandPE c ext fuel fuel []) false true [] s t (b.take n) = r
      obtain ⟨E, s', o⟩ := r
      cases o with
      | fail e => exact same
      | panic => exact same
      | start => exact same
      | go d =>
        simp only
        split
        · rename_i hlt
          cases hk : (app.tell y E).2 with
          | abort => exact over
          | go => exact First.pre _ (ih _ (by omega) _ _ _ rfl)
          | suspend => exact held
        · exact same
      | ignore =>
        simp only
        cases hig : ignoreSection (s'.x c false) more (b.drop n) with
        | err e => exact same
        | wait => exact same
        | closed k =>
          simp only
          split
          · rename_i hlt
            generalize E ++ List.map PEv.ev (toDefault c.c (s'.x c false) (List.take k (List.drop n b))) = E2
            cases hk : (app.tell y E2).2 with
            | abort => exact over
            | go => exact First.pre _ (ih _ (by omega) _ _ _ rfl)
            | suspend => exact held
          · exact same

theorem hcall_first (more : Bool) (s : DState) (y : α × Stop) (b : Buf) :
    First (hcall c ext fuel app more s y b) (prologCall c ext fuel [] more s b) := by
  cases hi : s.ignoring with
  | false =>
    rw [C57.call_loop hi, hcall, hi]
    exact hrun_first more _ s y b rfl
  | true =>
    unfold hcall prologCall
    simp only [hi, if_true]
    cases hig : ignoreSection (s.x c false) more b with
    | wait => exact ⟨List.prefix_rfl, fun q hq => (by cases hq), fun _ h => (by cases h), fun h => by cases h⟩
    | err e => exact ⟨List.prefix_rfl, fun q hq => (by cases hq), fun _ h => .inr h, fun h => by cases h⟩
    | closed k =>
      simp only
      split
      · exact ⟨List.prefix_append _ _, fun q hq => (by cases hq), fun _ h => (by cases h; exact .inl rfl), fun h => by cases h⟩
      · exact First.pre _ (hrun_first more _ _ _ _ rfl)

theorem hProlog_first {s : DState} {y : α × Stop} {final : Bool} {b : Buf} :
    FirstTurn (hProlog c ext fuel app s y final b).1 (inProlog c ext fuel s final b) := by
  obtain ⟨h1, h2, h3, h4⟩ := hcall_first (ext := ext) (fuel := fuel) (app := app) (!final) s y b
  unfold hProlog
  generalize hcall c ext fuel app (!final) s y b = r at *
  obtain ⟨P, s', y', o⟩ := r
  have other {t : Turn} (hP : t.P = P) (hF : t.F = []) : Turn.told t <+: Turn.told (inProlog c ext fuel s final b) := by
    have : (prologCall c ext fuel [] (!final) s b).1 <+: Turn.told (inProlog c ext fuel s final b) := by
      unfold inProlog
      generalize prologCall c ext fuel [] (!final) s b = w
      obtain ⟨Q, z, o⟩ := w
      cases o <;> exact List.prefix_append _ _
    rw [Turn.told, hP, hF]
    simpa using h1.trans this
  cases o with
  | done q => exact ⟨other rfl rfl, fun _ h => by cases h⟩
  | err e =>
    refine ⟨other rfl rfl, fun d h => ?_⟩
    cases h
    rcases h3 _ rfl with h | h
    · exact .inl h
    · right
      unfold inProlog
      generalize prologCall c ext fuel [] (!final) s b = w at h
      obtain ⟨Q, z, o⟩ := w
      simp only at h
      subst h
      rfl
  | panic =>
    refine ⟨other rfl rfl, fun d h => ?_⟩
    cases h
    have h := h4 rfl
    right
    unfold inProlog
    generalize prologCall c ext fuel [] (!final) s b = w at h
    obtain ⟨Q, z, o⟩ := w
    simp only at h
    subst h
    rfl
  | content q =>
    unfold inProlog
    rw [h2 q rfl]
    have := hContent_first (c := c) (app := app) (z := s') (s := CState.init) (y := y') (final := final) (b := q)
    have e1 : (hContent c app s' CState.init y' final q).1.P = [] := by unfold hContent; split <;> rfl
    have e2 : (inContent c s' CState.init final q).P = [] := by unfold inContent; split <;> rfl
    refine ⟨?_, this.2⟩
    have := this.1
    rw [Turn.told, Turn.told, e1, e2] at this
    exact (List.prefix_append_right_inj P).mpr this

/-- One call of a processor: the calls are the first of those made without the handlers stopping the parser. -/
theorem hturn_first (C : PCfg) (f : Conf) (st : Stage) (y : α × Stop) (final : Bool) (b : Buf) :
    FirstTurn (hturn C ext fuel app f st y final b).1 (turn C ext fuel f st final b) := by
  cases st with
  | dead => exact FirstTurn.refl _
  | content z s => exact hContent_first
  | prolog s => exact hProlog_first
  | fresh =>
    simp only [hturn, turn]
    cases getEncodingIndex f.encoding with
    | some idx =>
      simp only [hFresh, inFresh]
      cases initScan idx .prolog b with
      | bom i n => exact hProlog_first
      | scan i => exact hProlog_first
      | none => exact FirstTurn.refl _
      | more => exact FirstTurn.refl _
    | none =>
      simp only
      cases f.encoding.bind C.unknown with
      | some x => exact hProlog_first
      | none => exact FirstTurn.refl _

/-! ### The end is noticed in the prolog -/

/-- The prolog is left unfinished and without an error only if no handler has ended the parse, or within an ignored section. -/
def Noticed (r : Heard α) : Prop := ∀ q, r.2.2.2 = .done q → r.2.1.ignoring = false → r.2.2.1.2 ≠ .abort

theorem hrun_noticed (more : Bool) (n : Nat) :
    ∀ (s : DState) (y : α × Stop) (b : Buf), b.length = n → y.2 ≠ .abort → Noticed (hrun c ext fuel app more s y b) := by
  induction n using Nat.strongRecOn with
  | _ n ih =>
    intro s y b hn hy
    rw [hrun.eq_def]
    simp only
    cases hsee : seeToken (s.x c false) false false more c.isPE b with
    | wait => exact fun _ _ _ => hy
    | fail e => exact fun _ h => by cases h
    | panic => exact fun _ h => by cases h
    | endPE =>
      simp only
      split
      · exact fun _ h => by cases h
      · exact fun _ _ _ => hy
    | tok t n =>
      simp only
      generalize pround c ext fuel (expandPE c ext fuel fuel []) false true [] s t (b.take n) = r
      obtain ⟨E, s', o⟩ := r
      cases o with
      | fail e => exact fun _ h => by cases h
      | panic => exact fun _ h => by cases h
      | start => exact fun _ h => by cases h
      | go d =>
        simp only
        split
        · cases hk : (app.tell y E).2 with
          | abort => exact fun _ h => by cases h
          | go => exact ih _ (by omega) _ _ _ rfl (by rw [hk]; simp)
          | suspend => exact fun _ _ _ => by simp [hk]
        · exact fun _ h => by cases h
      | ignore =>
        simp only
        cases hig : ignoreSection (s'.x c false) more (b.drop n) with
        | err e => exact fun _ h => by cases h
        | wait => exact fun _ _ h => by cases h
        | closed k =>
          simp only
          split
          · generalize E ++ List.map PEv.ev (toDefault c.c (s'.x c false) (List.take k (List.drop n b))) = E2
            cases hk : (app.tell y E2).2 with
            | abort => exact fun _ h => by cases h
            | go => exact ih _ (by omega) _ _ _ rfl (by rw [hk]; simp)
            | suspend => exact fun _ _ _ => by simp [hk]
          · exact fun _ h => by cases h

theorem hcall_noticed (more : Bool) (s : DState) (y : α × Stop) (b : Buf) (hy : y.2 ≠ .abort) : Noticed (hcall c ext fuel app more s y b) := by
  unfold hcall
  split
  · simp only
    split
    · exact fun _ _ _ => hy
    · exact fun _ h => by cases h
    · split
      · exact fun _ h => by cases h
      · rename_i h; exact hrun_noticed more _ _ _ _ rfl h
  · exact hrun_noticed more _ _ _ _ rfl hy

theorem hContent_stage {z : DState} {s : CState} {y : α × Stop} {final : Bool} {b : Buf} :
    ∃ s', (hContent c app z s y final b).1.stage = .content z s' := by
  unfold hContent
  split <;> exact ⟨_, rfl⟩

/-! ### The end is noticed in the content -/

/-- The content is left unfinished and without an error only if no handler has ended the parse, or within a CDATA section. -/
def NoticedRan {σ : Type} (M : Sem σ) (r : Verif.Ran (σ × α × Stop)) : Prop := ∀ s q, r.2 = .ok s q → s.2.2 = .abort → M.mode s.1 = .cdata

theorem run_noticed {σ : Type} (M : Sem σ) (hopen : ∀ s w E s', M.act s .CDATA_SECT_OPEN w = (E, .ok s') → M.mode s' = .cdata)
    (hfin : ∀ s, M.fin s ≠ none) (app : App α) (e : Enc) (more : Bool) (n : Nat) :
    ∀ (b : Buf), b.length = n → ∀ v s, (s.2.2 = .abort → M.mode s.1 = .cdata) → NoticedRan M (run (Api.heard M app) e more v s b) := by
  induction n using Nat.strongRecOn with
  | _ n ih =>
    intro b hb v s hs
    have err : ∀ {E : List Ev} {d : XErr}, NoticedRan M ((E, .err d) : Verif.Ran (σ × α × Stop)) := fun {E d} _ _ h => by cases h
    have same : ∀ {E : List Ev} {q : Buf}, NoticedRan M ((E, .ok s q) : Verif.Ran (σ × α × Stop)) := fun {E q} _ _ h => by cases h; exact hs
    have fin : ∀ {E : List Ev} {s : σ × α × Stop} {q : Buf}, NoticedRan M ((E, finish (Api.heard M app) s q) : Verif.Ran (σ × α × Stop)) := by
      intro E s q
      unfold finish
      simp only [show (Api.heard M app).fin s = M.fin s.1 from rfl]
      split
      · exact err
      · rename_i h; exact absurd h (hfin _)
    rw [run.eq_def]
    simp only [show (Api.heard M app).mode s = M.mode s.1 from rfl]
    cases (M.mode s.1).verdict ((M.mode s.1).tok e b).tok with
    | wait d =>
      cases more
      · exact err
      · exact same
    | last t =>
      cases more with
      | true => exact same
      | false =>
        simp only [Bool.false_eq_true, if_false]
        split
        · exact err
        · exact fin
    | done =>
      cases more
      · exact fin
      · exact same
    | stop => exact same
    | fail d => exact err
    | actStop =>
      simp only
      split
      · exact err
      · rename_i s' _
        intro s2 q h
        simp only at h
        split at h
        · cases h
        · rename_i hk; cases h; exact fun h => absurd h hk
    | act =>
      have ha : (Api.heard M app).act s ((M.mode s.1).tok e b).tok (b.take ((M.mode s.1).tok e b).next) =
        match M.act s.1 ((M.mode s.1).tok e b).tok (b.take ((M.mode s.1).tok e b).next) with
        | (E, .error c) => (E, .error c)
        | (E, .ok s') => (E, .ok (s', app.tell s.2 E)) := rfl
      simp only [ha]
      cases hr : M.act s.1 ((M.mode s.1).tok e b).tok (b.take ((M.mode s.1).tok e b).next) with
      | mk E o =>
      cases o with
      | error d => exact err
      | ok s' =>
        simp only
        split
        · rename_i hk
          have hs' : (app.tell s.2 E).2 = .abort → M.mode s' = .cdata := by
            intro h
            rcases hk with hk | hk | hk
            · exact hopen _ _ _ _ (by rw [hk] at hr; exact hr)
            · exact absurd h hk.2.2.2
            · exact absurd (h.symm.trans hk) (by simp)
          split
          · rename_i hlt
            exact ih _ (by omega) _ rfl _ (s', app.tell s.2 E) hs'
          · exact fun _ _ h => by cases h; exact hs'
        · split
          · rename_i hk
            exact fun _ _ h => by cases h; exact fun h => absurd (h.symm.trans hk) (by simp)
          · exact err

theorem contentSem_open (c : PCfg) (z : DState) (s : CState) (w : Buf) (E : List Ev) (s' : CState)
    (h : (C57.contentSem c z).act s .CDATA_SECT_OPEN w = (E, .ok s')) : (C57.contentSem c z).mode s' = .cdata := by
  unfold C57.contentSem parser at *
  cases hf : z.D.toDtd.fuel <;> rw [hf] at h <;> cases h <;> rfl

theorem contentSem_fin (c : PCfg) (z : DState) (s : CState) : (C57.contentSem c z).fin s ≠ none := by
  unfold C57.contentSem parser
  cases z.D.toDtd.fuel <;> simp [sem, semOf]

theorem contentSem_mode (c : PCfg) (z : DState) (s : CState) : (C57.contentSem c z).mode s = s.mode := by
  unfold C57.contentSem parser
  cases z.D.toDtd.fuel <;> rfl

theorem hContent_noticed {z : DState} {s : CState} {y : α × Stop} {final : Bool} {b : Buf} (hy : y.2 ≠ .abort) :
    (hContent c app z s y final b).1.code = none → (hContent c app z s y final b).2.2 = .abort →
    ∃ s', (hContent c app z s y final b).1.stage = .content z s' ∧ s'.mode = .cdata := by
  have h := run_noticed (C57.contentSem c z) (contentSem_open c z) (contentSem_fin c z) app.content (z.x c false).e (!final) _ b rfl
    ((C57.contentSem c z).mode s == .cdata) (s, y) (fun h => absurd h hy)
  unfold hContent
  rw [call]
  simp only [show (Api.heard (C57.contentSem c z) app.content).mode (s, y) = (C57.contentSem c z).mode s from rfl] at *
  generalize run (Api.heard (C57.contentSem c z) app.content) _ _ _ (s, y) b = r at *
  obtain ⟨E, o⟩ := r
  cases o with
  | ok s' q => exact fun _ hk => ⟨_, rfl, by rw [← contentSem_mode c z]; exact h _ _ rfl hk⟩
  | err e => exact fun h => by cases h

/-! ### The call in which the root element starts -/

theorem hrun_root (more : Bool) (n : Nat) :
    ∀ (s : DState) (y : α × Stop) (b : Buf), b.length = n → s.pe = .never → y.2 ≠ .abort →
    ∀ q, (hrun c ext fuel app more s y b).2.2.2 = .content q → (hrun c ext fuel app more s y b).2.2.1.2 ≠ .abort := by
  induction n using Nat.strongRecOn with
  | _ n ih =>
    intro s y b hn hpe hy
    rw [hrun.eq_def]
    simp only
    cases hsee : seeToken (s.x c false) false false more c.isPE b with
    | wait => exact fun _ h => by cases h
    | fail e => exact fun _ h => by cases h
    | panic => exact fun _ h => by cases h
    | endPE =>
      simp only
      split <;> exact fun _ h => by cases h
    | tok t n =>
      simp only
      have hu := Unread.pround_unread (c := c) (ext := ext) (fuel := fuel) (internal := false) (allowClose := true) (opened := [])
        (Unread.expandPE_unread (c := c) (ext := ext) (fuel := fuel) fuel []) s t (b.take n) hpe
      cases hr : pround c ext fuel (expandPE c ext fuel fuel []) false true [] s t (b.take n) with
      | mk E q =>
      obtain ⟨s', o⟩ := q
      rw [hr] at hu
      cases o with
      | fail e => exact fun _ h => by cases h
      | panic => exact fun _ h => by cases h
      | start =>
        have := Unread.start_silent hpe hr
        subst this
        exact fun _ _ => hy
      | go d =>
        simp only
        split
        · cases hk : (app.tell y E).2 with
          | abort => exact fun _ h => by cases h
          | go => exact ih _ (by omega) _ _ _ rfl hu (by rw [hk]; simp)
          | suspend => exact fun _ h => by cases h
        · exact fun _ h => by cases h
      | ignore =>
        simp only
        cases hig : ignoreSection (s'.x c false) more (b.drop n) with
        | err e => exact fun _ h => by cases h
        | wait => exact fun _ h => by cases h
        | closed k =>
          simp only
          split
          · generalize E ++ List.map PEv.ev (toDefault c.c (s'.x c false) (List.take k (List.drop n b))) = E2
            cases hk : (app.tell y E2).2 with
            | abort => exact fun _ h => by cases h
            | go => exact ih _ (by omega) _ _ _ rfl hu (by rw [hk]; simp)
            | suspend => exact fun _ h => by cases h
          · exact fun _ h => by cases h

theorem hcall_root (more : Bool) (s : DState) (y : α × Stop) (b : Buf) (hpe : s.pe = .never) (hy : y.2 ≠ .abort) :
    ∀ q, (hcall c ext fuel app more s y b).2.2.2 = .content q → (hcall c ext fuel app more s y b).2.2.1.2 ≠ .abort := by
  unfold hcall
  split
  · simp only
    split
    · exact fun _ h => by cases h
    · exact fun _ h => by cases h
    · split
      · exact fun _ h => by cases h
      · rename_i h; exact hrun_root more _ _ _ _ rfl hpe h
  · exact hrun_root more _ _ _ _ rfl hpe hy

/-- A call of a processor in which a handler ended the parse returns no error only within an ignored section or a CDATA section. -/
def Seen (t : Turn × (α × Stop)) : Prop :=
  t.1.code = none → t.2.2 = .abort → (∃ s, t.1.stage = .prolog s ∧ s.ignoring = true) ∨ ∃ z s, t.1.stage = .content z s ∧ s.mode = .cdata

theorem hProlog_seen {s : DState} {y : α × Stop} {final : Bool} {b : Buf} (hpe : s.pe = .never) (hy : y.2 ≠ .abort) :
    Seen (hProlog c ext fuel app s y final b) := by
  have h := hcall_noticed (c := c) (ext := ext) (fuel := fuel) (app := app) (!final) s y b hy
  have h' := hcall_root (c := c) (ext := ext) (fuel := fuel) (app := app) (!final) s y b hpe hy
  unfold hProlog
  generalize hcall c ext fuel app (!final) s y b = r at *
  obtain ⟨P, s', y', o⟩ := r
  cases o with
  | done q =>
    intro _ hk
    refine .inl ⟨s', rfl, ?_⟩
    cases hi : s'.ignoring with
    | true => rfl
    | false => exact absurd hk (h q rfl hi)
  | err e => exact fun h => by cases h
  | panic => exact fun h => by cases h
  | content q =>
    intro h1 h3
    obtain ⟨s2, h4, h5⟩ := hContent_noticed (c := c) (app := app) (z := s') (s := CState.init) (final := final) (b := q) (h' q rfl) h1 h3
    exact .inr ⟨s', s2, h4, h5⟩

theorem hturn_seen (C : PCfg) (f : Conf) (st : Stage) (y : α × Stop) (final : Bool) (b : Buf) (hf : f.pe = .never)
    (hst : ∀ s, st = .prolog s → s.pe = .never) (hy : y.2 ≠ .abort) : Seen (hturn C ext fuel app f st y final b) := by
  have hp : (first f).pe = .never := by simp only [first, hf]; rfl
  cases st with
  | dead => exact fun h => by cases h
  | content z s =>
    intro h1 h3
    obtain ⟨s2, h4, h5⟩ := hContent_noticed (c := settings C f) (app := app) (z := z) (s := s) (final := final) (b := b) hy h1 h3
    exact .inr ⟨z, s2, h4, h5⟩
  | prolog s => exact hProlog_seen (hst s rfl) hy
  | fresh =>
    simp only [hturn]
    cases getEncodingIndex f.encoding with
    | some idx =>
      simp only [hFresh]
      cases initScan idx .prolog b with
      | bom i n => exact hProlog_seen hp hy
      | scan i => exact hProlog_seen hp hy
      | none => exact fun _ h => absurd h hy
      | more => exact fun _ h => absurd h hy
    | none =>
      simp only
      cases f.encoding.bind C.unknown with
      | some x => exact hProlog_seen hp hy
      | none => exact fun h => by cases h

/-! ### Parameter entities stay unread from call to call -/

theorem hrun_unread (more : Bool) (n : Nat) :
    ∀ (s : DState) (y : α × Stop) (b : Buf), b.length = n → s.pe = .never → (hrun c ext fuel app more s y b).2.1.pe = .never := by
  induction n using Nat.strongRecOn with
  | _ n ih =>
    intro s y b hn hpe
    rw [hrun.eq_def]
    simp only
    cases hsee : seeToken (s.x c false) false false more c.isPE b with
    | wait => exact hpe
    | fail e => exact hpe
    | panic => exact hpe
    | endPE =>
      simp only
      split <;> exact hpe
    | tok t n =>
      simp only
      have hu := Unread.pround_unread (c := c) (ext := ext) (fuel := fuel) (internal := false) (allowClose := true) (opened := [])
        (Unread.expandPE_unread (c := c) (ext := ext) (fuel := fuel) fuel []) s t (b.take n) hpe
      generalize pround c ext fuel (expandPE c ext fuel fuel []) false true [] s t (b.take n) = r at hu
      obtain ⟨E, s', o⟩ := r
      cases o with
      | fail e => exact hu
      | panic => exact hu
      | start => exact hu
      | go d =>
        simp only
        split
        · cases hk : (app.tell y E).2 with
          | abort => exact hu
          | go => exact ih _ (by omega) _ _ _ rfl hu
          | suspend => exact hu
        · exact hu
      | ignore =>
        simp only
        cases hig : ignoreSection (s'.x c false) more (b.drop n) with
        | err e => exact hu
        | wait => exact hu
        | closed k =>
          simp only
          split
          · generalize E ++ List.map PEv.ev (toDefault c.c (s'.x c false) (List.take k (List.drop n b))) = E2
            cases hk : (app.tell y E2).2 with
            | abort => exact hu
            | go => exact ih _ (by omega) _ _ _ rfl hu
            | suspend => exact hu
          · exact hu

theorem hcall_unread (more : Bool) (s : DState) (y : α × Stop) (b : Buf) (hpe : s.pe = .never) : (hcall c ext fuel app more s y b).2.1.pe = .never := by
  unfold hcall
  split
  · simp only
    split
    · exact hpe
    · exact hpe
    · split
      · exact hpe
      · exact hrun_unread more _ _ _ _ rfl hpe
  · exact hrun_unread more _ _ _ _ rfl hpe

theorem hProlog_unread {s : DState} {y : α × Stop} {final : Bool} {b : Buf} (hpe : s.pe = .never) :
    ∀ z, (hProlog c ext fuel app s y final b).1.stage = .prolog z → z.pe = .never := by
  have h := hcall_unread (c := c) (ext := ext) (fuel := fuel) (app := app) (!final) s y b hpe
  unfold hProlog
  generalize hcall c ext fuel app (!final) s y b = r at *
  obtain ⟨P, s', y', o⟩ := r
  cases o with
  | done q => intro z hz; cases hz; exact h
  | err e => intro z hz; cases hz; exact h
  | panic => intro z hz; cases hz
  | content q =>
    intro z hz
    obtain ⟨s2, h2⟩ := hContent_stage (c := c) (app := app) (z := s') (s := CState.init) (y := y') (final := final) (b := q)
    simp only at hz
    rw [h2] at hz
    cases hz

theorem hturn_unread (C : PCfg) (f : Conf) (st : Stage) (y : α × Stop) (final : Bool) (b : Buf) (hf : f.pe = .never)
    (hst : ∀ s, st = .prolog s → s.pe = .never) : ∀ z, (hturn C ext fuel app f st y final b).1.stage = .prolog z → z.pe = .never := by
  have hp : (first f).pe = .never := by simp only [first, hf]; rfl
  cases st with
  | dead => intro z hz; cases hz
  | content z s =>
    intro z' hz
    obtain ⟨s2, h2⟩ := hContent_stage (c := settings C f) (app := app) (z := z) (s := s) (y := y) (final := final) (b := b)
    simp only [hturn] at hz
    rw [h2] at hz
    cases hz
  | prolog s => exact hProlog_unread (hst s rfl)
  | fresh =>
    simp only [hturn]
    cases getEncodingIndex f.encoding with
    | some idx =>
      simp only [hFresh]
      cases initScan idx .prolog b with
      | bom i n => exact hProlog_unread (s := { first f with cur := .builtin i }) hp
      | scan i => exact hProlog_unread (s := { first f with cur := .builtin i }) hp
      | none => intro z hz; cases final <;> cases hz
      | more => intro z hz; cases final <;> cases hz
    | none =>
      simp only
      cases f.encoding.bind C.unknown with
      | some x => exact hProlog_unread (s := { first f with cur := .other x }) hp
      | none => intro z hz; cases hz

end Verif.Halt
