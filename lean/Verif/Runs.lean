import Verif.Props.C04Parser

/-! Executions of the content loops as sequences of token actions. -/

namespace Verif
open C43

variable {σ : Type}

/-- The error code of a result, for examples. -/
def Out.code : Out σ → Option XErr
  | .ok .. => none
  | .err c => some c

/-- A sequence of successful token actions with their events; every token is one the running loop acts
upon. -/
inductive Steps (M : Sem σ) : σ → List Ev → σ → Prop where
  | nil (s : σ) : Steps M s [] s
  | cons {s s' s'' : σ} {t : Tok} {w : Buf} {E E' : List Ev} (hm : (M.mode s).verdict t = .act)
      (ha : M.act s t w = (E, .ok s')) (h : Steps M s' E' s'') : Steps M s (E ++ E') s''

theorem Steps.one {M : Sem σ} {s s' : σ} {t w E} (hm : (M.mode s).verdict t = .act)
    (ha : M.act s t w = (E, .ok s')) : Steps M s E s' := by
  have := Steps.cons hm ha (.nil s')
  simpa using this

theorem Steps.trans {M : Sem σ} {s s' s'' : σ} {E E'} (h : Steps M s E s') (h' : Steps M s' E' s'') :
    Steps M s (E ++ E') s'' := by
  induction h with
  | nil => exact h'
  | cons hm ha _ ih => rw [List.append_assoc]; exact .cons hm ha (ih h')

/-- The same along a text: from `b` the tokens up to `b'` have been carried out. -/
inductive Lexed (M : Sem σ) (e : Enc) : σ → Buf → List Ev → σ → Buf → Prop where
  | nil (s : σ) (b : Buf) : Lexed M e s b [] s b
  | cons {s s' s'' : σ} {t : Tok} {n : Nat} {b b' : Buf} {E E' : List Ev}
      (ht : (M.mode s).tok e b = ⟨t, n⟩) (hm : (M.mode s).verdict t = .act)
      (ha : M.act s t (b.take n) = (E, .ok s')) (h : Lexed M e s' (b.drop n) E' s'' b') :
      Lexed M e s b (E ++ E') s'' b'

theorem Lexed.steps {M : Sem σ} {e : Enc} {s b E s' b'} (h : Lexed M e s b E s' b') : Steps M s E s' := by
  induction h with
  | nil => exact .nil _
  | cons _ hm ha _ ih => exact .cons hm ha ih

theorem verdict_last {m : Mode} {t u : Tok} (h : m.verdict t = .last u) :
    m = .content ∧ m.verdict u = .act := by
  cases m <;> cases t <;> simp_all [Mode.verdict] <;> subst h <;> rfl

theorem verdict_actStop {m : Mode} {t : Tok} (h : m.verdict t = .actStop) :
    m = .epilog ∧ m.verdict .PROLOG_S = .act ∧ t = .PROLOG_S_NEG := by
  cases m <;> cases t <;> simp_all [Mode.verdict]

/-- How a successful run ends, in state `s` before the bytes `b`. -/
inductive Ends (M : Sem σ) (e : Enc) (more : Bool) (s : σ) (b : Buf) : List Ev → σ → Buf → Prop where
  /-- waiting for more input -/
  | wait (h : more = true) : Ends M e more s b [] s b
  /-- at the end of content -/
  | fin (hm : more = false) (ht : (M.mode s).verdict ((M.mode s).tok e b).tok = .done) (h : M.fin s = none) :
      Ends M e more s b [] s b
  /-- at the end of content, with a token that might have continued -/
  | last {t E s'} (hm : more = false) (ht : (M.mode s).verdict ((M.mode s).tok e b).tok = .last t)
      (ha : M.act s t b = (E, .ok s')) (h : M.fin s' = none) : Ends M e more s b E s' []
  /-- at the end of the epilog -/
  | epilog (ht : (M.mode s).verdict ((M.mode s).tok e b).tok = .stop) : Ends M e more s b [] s b
  | space {E s'} (ht : (M.mode s).verdict ((M.mode s).tok e b).tok = .actStop)
      (ha : M.act s .PROLOG_S (b.take ((M.mode s).tok e b).next) = (E, .ok s')) :
      Ends M e more s b E s' (b.drop ((M.mode s).tok e b).next)

theorem Ends.steps {M : Sem σ} {e more s b E s' r} (h : Ends M e more s b E s' r) : Steps M s E s' := by
  cases h with
  | wait => exact .nil _
  | fin => exact .nil _
  | last _ ht ha => exact .one (verdict_last ht).2 ha
  | epilog => exact .nil _
  | space ht ha => exact .one (verdict_actStop ht).2.1 ha

/-- How a failing run ends. -/
inductive Fails (M : Sem σ) (e : Enc) (more : Bool) (s : σ) (b : Buf) : List Ev → XErr → Prop where
  | wait {c} (hm : more = false) (h : (M.mode s).verdict ((M.mode s).tok e b).tok = .wait c) : Fails M e more s b [] c
  | fail {c} (h : (M.mode s).verdict ((M.mode s).tok e b).tok = .fail c) : Fails M e more s b [] c
  | fin {c} (hm : more = false) (h : (M.mode s).verdict ((M.mode s).tok e b).tok = .done)
      (hf : M.fin s = some c) : Fails M e more s b [] c
  | last {t E s' c} (hm : more = false) (h : (M.mode s).verdict ((M.mode s).tok e b).tok = .last t)
      (ha : M.act s t b = (E, .ok s')) (hf : M.fin s' = some c) : Fails M e more s b E c
  | act {t w E c} (h : (M.mode s).verdict t = .act) (ha : M.act s t w = (E, .error c)) : Fails M e more s b E c

theorem verdict_progress {e : Enc} {m : Mode} {b : Buf} (h : m.verdict (m.tok e b).tok = .act) :
    (b.drop (m.tok e b).next).length < b.length := by
  cases m.kind e b with
  | waits h' => rw [h] at h'; simp at h'
  | stable _ h2 =>
    rcases h2 with ⟨_, h3, h4⟩ | ⟨c, h2⟩
    · exact C04.progress h3 h4
    · rw [h] at h2; cases h2
  | data _ h => exact C04.progress (by rw [h]; rfl) (by rw [h]; simp)
  | space _ h' =>
    rcases h' with h' | h'
    · exact C04.progress (by rw [h']; rfl) (by rw [h']; simp)
    · rename_i hm; subst hm; rw [h'] at h; cases h
  | junk hm h' =>
    subst hm
    revert h h'
    generalize (Mode.tok .epilog e b).tok = t
    cases t <;> simp [Tok.neg, Mode.verdict]

/-- Every run carries out tokens one after the other, then ends or fails. -/
theorem run_lexed {M : Sem σ} {e : Enc} (go : ∀ s, M.stop s = .go) (more : Bool) (n : Nat) :
    ∀ (b : Buf), b.length = n → ∀ v s,
      (∃ E1 s1 b1 E2 s2 r, Lexed M e s b E1 s1 b1 ∧ Ends M e more s1 b1 E2 s2 r ∧
        run M e more v s b = (E1 ++ E2, .ok s2 r)) ∨
      (∃ E1 s1 b1 E2 c, Lexed M e s b E1 s1 b1 ∧ Fails M e more s1 b1 E2 c ∧
        run M e more v s b = (E1 ++ E2, .err c)) := by
  induction n using Nat.strongRecOn with
  | _ n ih =>
    intro b hb v s
    rw [C04.run_go go]
    cases hv : (M.mode s).verdict ((M.mode s).tok e b).tok with
    | wait c =>
      cases hm : more with
      | true => exact .inl ⟨_, _, _, _, _, _, .nil .., .wait rfl, rfl⟩
      | false => exact .inr ⟨_, _, _, _, _, .nil .., .wait rfl hv, rfl⟩
    | last t =>
      cases hm : more with
      | true => exact .inl ⟨_, _, _, _, _, _, .nil .., .wait rfl, rfl⟩
      | false =>
        simp only [Bool.false_eq_true, if_false]
        cases ha : M.act s t b with
        | mk E o =>
          cases o with
          | error c => exact .inr ⟨_, _, _, _, _, .nil .., .act (verdict_last hv).2 ha, rfl⟩
          | ok s' =>
            simp only [finish]
            cases hf : M.fin s' with
            | none => exact .inl ⟨_, _, _, _, _, _, .nil .., .last rfl hv ha hf, rfl⟩
            | some c => exact .inr ⟨_, _, _, _, _, .nil .., .last rfl hv ha hf, rfl⟩
    | done =>
      cases hm : more with
      | true => exact .inl ⟨_, _, _, _, _, _, .nil .., .wait rfl, rfl⟩
      | false =>
        simp only [Bool.false_eq_true, if_false, finish]
        cases hf : M.fin s with
        | none => exact .inl ⟨_, _, _, _, _, _, .nil .., .fin rfl hv hf, rfl⟩
        | some c => exact .inr ⟨_, _, _, _, _, .nil .., .fin rfl hv hf, rfl⟩
    | stop => exact .inl ⟨_, _, _, _, _, _, .nil .., .epilog hv, rfl⟩
    | fail c => exact .inr ⟨_, _, _, _, _, .nil .., .fail hv, rfl⟩
    | actStop =>
      simp only
      cases ha : M.act s .PROLOG_S (b.take ((M.mode s).tok e b).next) with
      | mk E o =>
        cases o with
        | error c => exact .inr ⟨_, _, _, _, _, .nil .., .act (verdict_actStop hv).2.1 ha, rfl⟩
        | ok s' => exact .inl ⟨_, _, _, _, _, _, .nil .., .space hv ha, rfl⟩
    | act =>
      simp only
      have hp := verdict_progress hv
      cases ha : M.act s ((M.mode s).tok e b).tok (b.take ((M.mode s).tok e b).next) with
      | mk E o =>
        cases o with
        | error c => exact .inr ⟨_, _, _, _, _, .nil .., .act hv ha, rfl⟩
        | ok s' =>
          simp only [if_pos hp]
          rcases ih (b.drop ((M.mode s).tok e b).next).length (by omega) _ rfl false s' with ⟨E1, s1, b1, E2, s2, r, h1, h2, h3⟩ | ⟨E1, s1, b1, E2, c, h1, h2, h3⟩
          · exact .inl ⟨_, _, _, _, _, _, .cons rfl hv ha h1, h2, by rw [h3, pre, List.append_assoc]⟩
          · exact .inr ⟨_, _, _, _, _, .cons rfl hv ha h1, h2, by rw [h3, pre, List.append_assoc]⟩

/-- A successful run is a sequence of successful actions. -/
theorem run_ok {M : Sem σ} {e : Enc} (go : ∀ s, M.stop s = .go) {more v : Bool} {s : σ} {b : Buf} {E s' r}
    (h : run M e more v s b = (E, .ok s' r)) :
    ∃ E1 s1 b1 E2, Lexed M e s b E1 s1 b1 ∧ Ends M e more s1 b1 E2 s' r ∧ E = E1 ++ E2 := by
  rcases run_lexed go more _ b rfl v s with ⟨E1, s1, b1, E2, s2, r, h1, h2, h3⟩ | ⟨E1, s1, b1, E2, c, h1, h2, h3⟩
  · rw [h3] at h
    injection h with h h'
    injection h' with h' h''
    subst h h' h''
    exact ⟨_, _, _, _, h1, h2, rfl⟩
  · rw [h3] at h; injection h with _ h; cases h

theorem run_steps {M : Sem σ} {e : Enc} (go : ∀ s, M.stop s = .go) {more v : Bool} {s : σ} {b : Buf} {E s' r}
    (h : run M e more v s b = (E, .ok s' r)) : Steps M s E s' := by
  obtain ⟨E1, s1, b1, E2, h1, h2, rfl⟩ := run_ok go h
  exact h1.steps.trans h2.steps

/-- A failing run is a sequence of successful actions, and possibly one that fails. -/
theorem run_err {M : Sem σ} {e : Enc} (go : ∀ s, M.stop s = .go) {more v : Bool} {s : σ} {b : Buf} {E c}
    (h : run M e more v s b = (E, .err c)) :
    ∃ E1 s1 b1 E2, Lexed M e s b E1 s1 b1 ∧ Fails M e more s1 b1 E2 c ∧ E = E1 ++ E2 := by
  rcases run_lexed go more _ b rfl v s with ⟨E1, s1, b1, E2, s2, r, h1, h2, h3⟩ | ⟨E1, s1, b1, E2, c, h1, h2, h3⟩
  · rw [h3] at h; injection h with _ h; cases h
  · rw [h3] at h
    injection h with h h'
    injection h' with h'
    subst h h'
    exact ⟨_, _, _, _, h1, h2, rfl⟩

/-- The same, forgetting the texts. -/
theorem run_err_steps {M : Sem σ} {e : Enc} (go : ∀ s, M.stop s = .go) {more v : Bool} {s : σ} {b : Buf} {E c}
    (h : run M e more v s b = (E, .err c)) :
    ∃ E1 s1 E2, Steps M s E1 s1 ∧ E = E1 ++ E2 ∧
      (E2 = [] ∨ ∃ t w, (M.mode s1).verdict t = .act ∧ M.act s1 t w = (E2, .error c)) := by
  obtain ⟨E1, s1, b1, E2, h1, h2, rfl⟩ := run_err go h
  cases h2 with
  | wait | fail | fin => exact ⟨_, _, _, h1.steps, rfl, .inl rfl⟩
  | last _ ht ha =>
    exact ⟨_, _, [], h1.steps.trans (.one (verdict_last ht).2 ha), by simp, .inl rfl⟩
  | act h ha => exact ⟨_, _, _, h1.steps, rfl, .inr ⟨_, _, h, ha⟩⟩

/-- Several calls of XML_Parse: every call but the last is a successful run. -/
theorem feed_ok {M : Sem σ} {e : Enc} (go : ∀ s, M.stop s = .go) (xs : List Buf) :
    ∀ {s rest E s' r}, feed M e s rest xs = (E, .ok s' r) →
      ∃ E1 s1 b1 E2, Steps M s E1 s1 ∧ Ends M e false s1 b1 E2 s' r ∧ E = E1 ++ E2 := by
  induction xs with
  | nil =>
    intro s rest E s' r h
    obtain ⟨E1, s1, b1, E2, h1, h2, rfl⟩ := run_ok go h
    exact ⟨_, _, _, _, h1.steps, h2, rfl⟩
  | cons x xs ih =>
    intro s rest E s' r h
    cases xs with
    | nil =>
      obtain ⟨E1, s1, b1, E2, h1, h2, rfl⟩ := run_ok go h
      exact ⟨_, _, _, _, h1.steps, h2, rfl⟩
    | cons y ys =>
      rw [feed] at h
      · split at h
        · rename_i F s2 q hq
          generalize hr : feed M e s2 q (y :: ys) = w at h
          obtain ⟨G, o⟩ := w
          simp only [pre] at h
          injection h with h h'
          subst h h'
          obtain ⟨E1, s1, b1, E2, h1, h2, rfl⟩ := ih hr
          exact ⟨_, _, _, _, (run_steps go hq).trans h1, h2, by rw [List.append_assoc]⟩
        · injection h with _ h; cases h
      · simp

theorem feed_err {M : Sem σ} {e : Enc} (go : ∀ s, M.stop s = .go) (xs : List Buf) :
    ∀ {s rest E c}, feed M e s rest xs = (E, .err c) →
      ∃ E1 s1 E2, Steps M s E1 s1 ∧ E = E1 ++ E2 ∧
        (E2 = [] ∨ ∃ t w, (M.mode s1).verdict t = .act ∧ M.act s1 t w = (E2, .error c)) := by
  induction xs with
  | nil => intro s rest E c h; exact run_err_steps go h
  | cons x xs ih =>
    intro s rest E c h
    cases xs with
    | nil => exact run_err_steps go h
    | cons y ys =>
      rw [feed] at h
      · split at h
        · rename_i F s2 q hq
          generalize hr : feed M e s2 q (y :: ys) = w at h
          obtain ⟨G, o⟩ := w
          simp only [pre] at h
          injection h with h h'
          subst h h'
          obtain ⟨E1, s1, E2, h1, rfl, h2⟩ := ih hr
          exact ⟨_, _, _, (run_steps go hq).trans h1, by rw [List.append_assoc], h2⟩
        · rename_i F c' hq
          injection h with h h'
          injection h' with h'
          subst h h'
          exact run_err_steps go hq
      · simp

end Verif
