import Verif.Props.C04Parser
import Verif.ApiRan

/-! The content, CDATA and epilog processors under the calls of the application: an application whose
handlers may call XML_StopParser, and the `Engine` made of its handlers and the processors. -/

set_option autoImplicit false

namespace Verif.Api
open Verif

variable {σ α : Type}

/-- The handlers of an application with a state of its own.  For each handler call: the state
afterwards, and the argument `resumable` if the handler calls XML_StopParser. -/
abbrev App (α : Type) := α → Ev → α × Option Bool

/-- 2889-2915 `stopParser`, called by a handler (the status is not INITIALIZED, and the parser is not
one for an external parameter entity). -/
def _root_.Verif.Stop.ask : Stop → Option Bool → Stop
  | k, none => k
  | .go, some true => .suspend
  | .suspend, some true => .suspend
  | .abort, some true => .abort
  | _, some false => .abort

/-- The handlers see the calls one after the other. -/
def App.tell (app : App α) : α × Stop → List Ev → α × Stop
  | x, [] => x
  | (a, k), ev :: E => App.tell app ((app a ev).1, k.ask (app a ev).2) E

/-- `M` with the application's handlers: `m_parsingStatus.parsing` is part of the state.  All handler
calls for a token are made before the status is looked at; what `processInternalEntity` (6955-7131)
does when a handler stops the parser within the text of an entity is not modelled here (`Suspend`). -/
def heard (M : Sem σ) (app : App α) : Sem (σ × α × Stop) where
  mode s := M.mode s.1
  act s t w :=
    match M.act s.1 t w with
    | (E, .error c) => (E, .error c)
    | (E, .ok s') => (E, .ok (s', app.tell s.2 E))
  stop s := s.2.2
  fin s := M.fin s.1

/-- `m_parsingStatus.parsing` when a processor has returned. -/
def _root_.Verif.Stop.parsing : Stop → Parsing
  | .go => .PARSING
  | .suspend => .SUSPENDED
  | .abort => .FINISHED

/-- The processors from the root element's start tag on: a document without prolog, in a known
encoding.  When a processor fails, the state is no longer looked at (`errorProcessor`); the event
position is modelled for successful calls only (4199, 5050: the first byte not consumed). -/
def contentEngine (M : Sem σ) (app : App α) (e : Enc) (s0 : σ) (a0 : α) (upd : Buf → Pos → Option Pos) (alloc : Nat → Bool) :
    Engine (σ × α) where
  init := (s0, a0)
  start _ s := some s
  proc _ s final b :=
    match call (heard M app) e (!final) (s.1, s.2, .go) b with
    | (E, .ok s' rest) => ⟨E, b.length - rest.length, none, (s'.1, s'.2.1), s'.2.2.parsing, b.length - rest.length, b.length - rest.length⟩
    | (E, .err c) => ⟨E, 0, some c, s, if c = .ABORTED then .FINISHED else .PARSING, 0, 0⟩
  upd _ b p := upd b p
  alloc := alloc

theorem contentEngine_lawful (M : Sem σ) (app : App α) (e : Enc) (s0 : σ) (a0 : α) (upd) (alloc) :
    (contentEngine M app e s0 a0 upd alloc).Lawful := by
  refine ⟨?_, ?_, ?_⟩ <;> intro c s f b <;> simp only [contentEngine] <;> split
  · simp
  · simp
  · simp
  · simp
  · rename_i s' _ _; obtain ⟨_, _, k⟩ := s'; cases k <;> simp [Stop.parsing]
  · split <;> simp

/-- What a run under handlers that suspended the parser, or did not, means for the run without.  `D`:
the bytes given were whole code units. -/
def Tells (M : Sem σ) (e : Enc) (more : Bool) (D : Prop) (r : Verif.Ran (σ × α × Stop)) (w : Verif.Ran σ) : Prop :=
  match r with
  | (E, .ok (s', _, .go) rest) => w = (E, .ok s' rest)
  | (E, .ok (s', _, .suspend) rest) => D → w = pre E (run M e more false s' rest)
  | (_, .ok (_, _, .abort) _) => False
  | (E, .err c) => w = (E, .err c)

theorem Tells.pre {M : Sem σ} {e : Enc} {more : Bool} {D : Prop} {r : Verif.Ran (σ × α × Stop)} {w : Verif.Ran σ} (E : List Ev) (h : Tells M e more D r w) :
    Tells M e more D (pre E r) (Verif.pre E w) := by
  obtain ⟨F, o⟩ := r
  cases o with
  | err c =>
    simp only [Tells, Verif.pre] at h ⊢
    rw [h]
  | ok s rest =>
    obtain ⟨s, a, k⟩ := s
    cases k <;> simp only [Tells, Verif.pre] at h ⊢
    · rw [h]
    · intro hd; rw [h hd]; simp

/-- The handlers never abort the parse. -/
def App.Patient (app : App α) : Prop := ∀ a ev, (app a ev).2 ≠ some false

theorem tell_patient {app : App α} (hp : app.Patient) (E : List Ev) :
    ∀ (x : α × Stop), x.2 ≠ .abort → (app.tell x E).2 ≠ .abort := by
  induction E with
  | nil => intro x h; exact h
  | cons ev E ih =>
    intro x h
    obtain ⟨a, k⟩ := x
    refine ih _ ?_
    have := hp a ev
    simp only at h ⊢
    generalize (app a ev).2 = y at *
    cases k <;> rcases y with _ | _ | _ <;> simp_all [Stop.ask]

theorem spaceNeg_next {e : Enc} {b : Buf} {n : Nat} (ok : e.Ok) (ev : e.Even) (h : prologTok e b = ⟨.PROLOG_S_NEG, n⟩)
    (hdv : e.mb ∣ b.length) : b.drop n = [] := by
  obtain ⟨hn, hd, hc⟩ := space_cut ok ev [] (.inr rfl) h
  rw [List.append_nil, h] at hc
  rcases hc with hc | ⟨m, hc, _⟩ | ⟨_, hl⟩
  · cases hc
  · cases hc
  · rw [← List.length_eq_zero_iff]
    refine Nat.eq_zero_of_dvd_of_lt ?_ hl
    rw [List.length_drop]
    exact (Nat.dvd_sub_iff_left hn hd).2 hdv

/-- A token that is carried out takes bytes. -/
theorem act_progress {m : Mode} {e : Enc} {b : Buf} (hv : m.verdict (m.tok e b).tok = .act) :
    (b.drop (m.tok e b).next).length < b.length := by
  have h1 : (m.tok e b).tok.isError = false ∧ (m.tok e b).tok ≠ .INSTANCE_START := by
    cases m.kind e b with
    | waits h => rw [hv] at h; simp at h
    | stable _ h =>
      rcases h with ⟨_, h1, h2⟩ | ⟨c, h⟩
      · exact ⟨h1, h2⟩
      · rw [hv] at h; cases h
    | data _ h => rw [h]; exact ⟨rfl, by decide⟩
    | space _ h => rcases h with h | h <;> rw [h] <;> first | exact ⟨rfl, by decide⟩ | (subst_vars; rw [h] at hv; cases hv)
    | junk hm h =>
      subst hm
      generalize (Mode.tok .epilog e b).tok = t at *
      cases t <;> first | cases hv; done | cases h; done
  exact C04.progress h1.1 h1.2

/-- Stopping and going on is the same as not stopping: one call of a processor. -/
theorem run_tells {M : Sem σ} {e : Enc} (L : C04.Lawful M e) (ok : e.Ok) (hmb : e.mb ≤ 2) (ev : e.Even)
    (hnl : ∀ s w E s', M.act s .DATA_NEWLINE w = (E, .ok s') → s' = s)
    {app : App α} (hp : app.Patient) (more : Bool) (D : Prop) (n : Nat) :
    ∀ (b : Buf), b.length = n → (D → e.mb ∣ b.length) → ∀ v s a k, k ≠ .abort →
      Tells M e more D (run (heard M app) e more v (s, a, k) b) (run M e more false s b) := by
  induction n using Nat.strongRecOn with
  | _ n ih =>
    intro b hb hdv v s a k hk
    have hdn := (M.mode s).tok_dvd hmb ev b
    have hn : ((M.mode s).tok e b).next ≤ b.length := by
      rw [(M.mode s).tok_eq]; exact C02.next_in_buffer _ e b
    -- the parser stops where it is
    have stay : ∀ (w : Verif.Ran σ), w = run M e more false s b → (k = .go → w = ([], .ok s b)) →
        Tells M e more D ([], .ok (s, a, k) b) w := by
      intro w hw hg
      cases k with
      | go => simpa [Tells] using hg rfl
      | suspend => simp [Tells, C04.pre_nil, hw]
      | abort => exact absurd rfl hk
    rw [run.eq_def (heard M app)]
    have hw := C04.run_go (e := e) L.go more false s b
    generalize hr : (M.mode s).tok e b = r at *
    obtain ⟨t, m⟩ := r
    simp only [show (heard M app).mode (s, a, k) = M.mode s from rfl, hr]
    simp only at hw hdn hn
    cases hv : (M.mode s).verdict t with
    | wait c =>
      rw [hv] at hw
      simp only at hw ⊢
      cases more with
      | true => exact stay _ rfl (fun _ => by simpa using hw)
      | false => simpa [Tells] using hw
    | stop =>
      rw [hv] at hw
      exact stay _ rfl (fun _ => hw)
    | fail c =>
      rw [hv] at hw
      simpa [Tells] using hw
    | done =>
      rw [hv] at hw
      simp only at hw ⊢
      cases more with
      | true => exact stay _ rfl (fun _ => by simpa using hw)
      | false =>
        simp only [Bool.false_eq_true, if_false, finish, show (heard M app).fin (s, a, k) = M.fin s from rfl] at hw ⊢
        cases hf : M.fin s with
        | none => rw [hf] at hw; exact stay _ rfl (fun _ => hw)
        | some c => rw [hf] at hw; exact hw
    | last t' =>
      rw [hv] at hw
      simp only at hw ⊢
      cases more with
      | true => exact stay _ rfl (fun _ => by simpa using hw)
      | false =>
        simp only [Bool.false_eq_true, if_false, heard] at hw ⊢
        have hc : M.mode s = .content ∧ (t' = .DATA_NEWLINE ∨ t' = .DATA_CHARS) := by
          revert hv
          cases M.mode s <;> cases t <;> simp [Mode.verdict] <;> intro h <;> simp [← h]
        generalize ha : M.act s t' b = x at hw
        obtain ⟨E, o⟩ := x
        cases o with
        | error c => exact hw
        | ok s' =>
          have hs : s' = s := by
            rcases hc.2 with rfl | rfl
            · exact hnl _ _ _ _ ha
            · obtain ⟨F, hF, _⟩ := L.data s b
              rw [hF] at ha
              cases ha
              rfl
          subst hs
          simp only [finish] at hw ⊢
          have hk' := tell_patient hp E (a, k) hk
          generalize app.tell (a, k) E = y at hk'
          obtain ⟨a', k'⟩ := y
          have h0 : run M e false false s' [] = ([], finish M s' []) := by
            rw [C04.run_go L.go, hc.1]
            rfl
          cases hf : M.fin s' with
          | some c => rw [hf] at hw; exact hw
          | none =>
            rw [hf] at hw
            simp only [finish, hf] at h0
            cases k' with
            | go => exact hw
            | suspend => simp only [Tells, h0, pre, List.append_nil]; exact fun _ => hw
            | abort => exact absurd rfl hk'
    | actStop =>
      rw [hv] at hw
      simp only [heard] at hw ⊢
      have hc : M.mode s = .epilog ∧ t = .PROLOG_S_NEG := by
        revert hv
        cases M.mode s <;> cases t <;> simp [Mode.verdict]
      obtain ⟨hm, rfl⟩ := hc
      obtain ⟨E, hE, _⟩ := L.space s (b.take m)
      rw [hE] at hw
      simp only [hE] at hw ⊢
      have h1 : run M e more false s [] = ([], .ok s []) := by rw [C04.run_go L.go, hm]; rfl
      have hk' := tell_patient hp E (a, k) hk
      generalize app.tell (a, k) E = y at hk'
      obtain ⟨a', k'⟩ := y
      cases k' with
      | go => exact hw
      | suspend =>
        simp only [reduceCtorEq, if_false, Tells]
        intro hD
        have h0 : b.drop m = [] := spaceNeg_next ok ev (by rw [hm] at hr; exact hr) (hdv hD)
        rw [h0, h1, pre, List.append_nil, hw, h0]
      | abort => exact absurd rfl hk'
    | act =>
      rw [hv] at hw
      simp only [heard] at hw ⊢
      generalize ha : M.act s t (b.take m) = x at hw
      obtain ⟨E, o⟩ := x
      cases o with
      | error c => exact hw
      | ok s' =>
        simp only at hw ⊢
        have hk' := tell_patient hp E (a, k) hk
        generalize app.tell (a, k) E = y at hk'
        obtain ⟨a', k'⟩ := y
        have hp : (b.drop m).length < b.length := by
          have := act_progress (e := e) (b := b) (m := M.mode s) (by rw [hr]; exact hv)
          rwa [hr] at this
        have hdd : D → e.mb ∣ (b.drop m).length := by
          intro hD
          rw [List.length_drop]
          exact (Nat.dvd_sub_iff_left hn hdn).2 (hdv hD)
        rw [if_pos hp] at hw
        rw [hw]
        split
        · exact Tells.pre _ (ih _ (by omega) _ rfl hdd _ _ _ _ hk')
        · rename_i hno
          cases k' with
          | go => exact absurd (.inr (.inr rfl)) hno
          | suspend => simp [Tells]
          | abort => exact absurd rfl hk'

/-- What a processor leaves is the end of what it was given. -/
theorem run_rest {σ : Type} (M : Sem σ) (e : Enc) (more : Bool) (n : Nat) : ∀ (b : Buf), b.length = n → ∀ v s E s' q,
    run M e more v s b = (E, .ok s' q) → ∃ k, k ≤ b.length ∧ q = b.drop k := by
  induction n using Nat.strongRecOn with
  | _ n ih =>
    intro b hb v s E s' q h
    have hn : ((M.mode s).tok e b).next ≤ b.length := by
      rw [(M.mode s).tok_eq]; exact C02.next_in_buffer _ e b
    have h0 : ∃ k, k ≤ b.length ∧ b = b.drop k := ⟨0, by omega, rfl⟩
    have hfin : ∀ s r, finish M s r = .ok s' q → q = r := by
      intro s r h
      unfold finish at h
      split at h <;> cases h
      rfl
    rw [run.eq_def] at h
    simp only at h
    split at h
    · split at h <;> cases h; exact h0
    · split at h
      · cases h; exact h0
      · split at h
        · cases h
        · injection h with _ h
          rw [hfin _ _ h]
          exact ⟨b.length, Nat.le_refl _, by simp⟩
    · split at h
      · cases h; exact h0
      · injection h with _ h
        rw [hfin _ _ h]
        exact h0
    · cases h; exact h0
    · cases h
    · split at h
      · cases h
      · injection h with _ h
        split at h
        · cases h
        · injection h with _ h; exact ⟨_, hn, h.symm⟩
    · split at h
      · cases h
      · split at h
        · split at h
          · rename_i s2 _ _ _
            generalize hr : run M e more _ s2 (b.drop ((M.mode s).tok e b).next) = r at h
            obtain ⟨F, o⟩ := r
            simp only [pre] at h
            injection h with _ h
            subst h
            obtain ⟨k, hkl, rfl⟩ := ih _ (by omega) _ rfl _ _ _ _ _ hr
            rw [List.length_drop] at hkl
            exact ⟨((M.mode s).tok e b).next + k, by omega, by rw [List.drop_drop]⟩
          · cases h; exact h0
        · split at h
          · cases h; exact ⟨_, hn, rfl⟩
          · cases h

end Verif.Api
