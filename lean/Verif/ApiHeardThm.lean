import Verif.ApiHeard
import Verif.Props.C40

/-! # Stopping and going on, processor by processor -/

set_option autoImplicit false

namespace Verif.Halt
open C43 C53 C59 C60 C63 Spec Verif PState Api

variable {α : Type}

/-- Two calls of a processor one after the other. -/
def glue (t u : Turn) : Turn := { u with P := t.P ++ u.P, F := t.F ++ u.F }

/-- The same for the application; after an error the state of the processors is not looked at any more. -/
structure Like (t u : Turn) : Prop where
  P : t.P = u.P
  F : t.F = u.F
  code : t.code = u.code
  stage : t.code = none → t.stage = u.stage ∧ t.rest = u.rest
  dead : u.stage = .dead ↔ t.stage = .dead

theorem Like.refl (t : Turn) : Like t t := ⟨rfl, rfl, rfl, fun _ => ⟨rfl, rfl⟩, Iff.rfl⟩

/-- The root element starts in an encoding that is built in. -/
def Supp (c : PCfg) (ext : Ext) (fuel : Nat) (final : Bool) (st : Stage) (b : Buf) : Prop :=
  match st with
  | .fresh | .dead => False
  | .prolog s => ∀ q, (prologCall c ext fuel [] (!final) s b).2.2 = .content q → ∃ asc, XSupported ((prologCall c ext fuel [] (!final) s b).2.1.x c false) asc
  | .content z _ => ∃ asc, XSupported (z.x c false) asc

/-- What a call of a processor under handlers (`r`) means for the call without (`w`); `next`: calling the processor again; `K`:
what holds then. -/
structure Goes (next : Stage → Buf → Turn) (K : Stage → Buf → Prop) (D : Prop) (r : Turn × (α × Stop)) (w : Turn) : Prop where
  patient : r.2.2 ≠ .abort
  same : r.1.code ≠ none ∨ r.2.2 = .go → w = r.1
  again : r.1.code = none → r.2.2 = .suspend → K r.1.stage r.1.rest
  held : r.1.code = none → r.2.2 = .suspend → D → Like (glue r.1 (next r.1.stage r.1.rest)) w

variable {c : PCfg} {ext : Ext} {fuel : Nat} {app : PApp α}

theorem content_halts (hp : app.Patient) {z : DState} {asc : UInt8 → Buf} (S : XSupported (z.x c false) asc) (next : Stage → Buf → Turn)
    (final : Bool) (hnext : ∀ s b, next (.content z s) b = inContent c z s final b) (s : CState) (y : α × Stop) (hy : y.2 ≠ .abort) (b : Buf) :
    Goes next (Supp c ext fuel final) ((z.x c false).e.mb ∣ b.length) (hContent c app z s y final b) (inContent c z s final b) := by
  have L := C04.sem_lawful S c.c z.D.toDtd c.int z.D.toDtd.fuel [] 0
  have hcall : ∀ s b, call (C57.contentSem c z) (z.x c false).e (!final) s b = run (C57.contentSem c z) (z.x c false).e (!final) false s b :=
    fun s b => C04.run_via L.go _ _ _ rfl _ _
  obtain ⟨a, k⟩ := y
  have ht := run_tells (M := C57.contentSem c z) (app := app.content) L S.s.ok S.s.mb S.s.even (C40.parser_newline c.c z.D.toDtd c.int (z.x c false)) hp.content (!final)
    ((z.x c false).e.mb ∣ b.length) _ b rfl id ((Api.heard (C57.contentSem c z) app.content).mode (s, a, k) == .cdata) s a k hy
  unfold hContent
  have hin : ∀ s b, inContent c z s final b = match run (C57.contentSem c z) (z.x c false).e (!final) false s b with
    | (F, .ok s' r) => ⟨[], F, .content z s', r, none⟩
    | (F, .err e) => ⟨[], F, .content z s, b, some e⟩ := by
    intro s b; simp only [inContent, hcall]; rfl
  rw [hin]
  rw [call]
  generalize run (Api.heard (C57.contentSem c z) app.content) (z.x c false).e (!final) _ (s, a, k) b = r at ht
  obtain ⟨E, o⟩ := r
  cases o with
  | err e =>
    simp only [Tells] at ht
    rw [ht]
    exact ⟨hy, fun _ => rfl, fun h => (by cases h), fun h => (by cases h)⟩
  | ok s' rest =>
    obtain ⟨s', a', k'⟩ := s'
    cases k' with
    | go =>
      simp only [Tells] at ht
      rw [ht]
      exact ⟨by simp, fun _ => rfl, fun _ h => (by cases h), fun _ h => (by cases h)⟩
    | abort => exact absurd ht (by simp [Tells])
    | suspend =>
      simp only [Tells] at ht
      refine ⟨by simp, fun h => by simp at h, fun _ _ => ⟨asc, S⟩, fun _ _ hd => ?_⟩
      rw [ht hd, hnext, hin]
      generalize run (C57.contentSem c z) (z.x c false).e (!final) false s' rest = r
      obtain ⟨F, o⟩ := r
      cases o with
      | ok u q => exact ⟨rfl, rfl, rfl, fun _ => ⟨rfl, rfl⟩, Iff.rfl⟩
      | err e => exact ⟨rfl, rfl, rfl, fun h => by simp [glue] at h, by simp [glue, pre]⟩

theorem prolog_halts (ho : c.OtherOk) (hpe : c.isPE = false) (hp : app.Patient) (next : Stage → Buf → Turn) (final : Bool)
    (hnc : ∀ z s b, next (.content z s) b = inContent c z s final b) (hnp : ∀ s b, next (.prolog s) b = inProlog c ext fuel s final b)
    (s : DState) (y : α × Stop) (hy : y.2 ≠ .abort) (b : Buf)
    (hS : ∀ q, (prologCall c ext fuel [] (!final) s b).2.2 = .content q → ∃ asc, XSupported ((prologCall c ext fuel [] (!final) s b).2.1.x c false) asc) :
    Goes next (Supp c ext fuel final) (C57.Ready c (prologCall c ext fuel [] (!final) s b)) (hProlog c ext fuel app s y final b) (inProlog c ext fuel s final b) := by
  have hm := hcall_means (ext := ext) (fuel := fuel) ho hpe hp (!final) s y b hy
  unfold hProlog
  generalize hcall c ext fuel app (!final) s y b = r at hm
  obtain ⟨E, s', y', o⟩ := r
  obtain ⟨hy', hm⟩ := hm
  simp only at hy'
  cases o with
  | err e =>
    simp only at hm
    simp only [inProlog, hm]
    exact ⟨hy', fun _ => rfl, fun h => (by cases h), fun h => (by cases h)⟩
  | panic =>
    simp only at hm
    simp only [inProlog, hm]
    exact ⟨hy', fun _ => rfl, fun h => (by cases h), fun h => (by cases h)⟩
  | content q =>
    simp only at hm
    rw [hm] at hS ⊢
    obtain ⟨asc, S⟩ := hS q rfl
    simp only at S
    have hg := content_halts (ext := ext) (fuel := fuel) hp S next final (hnc s') CState.init y' hy' q
    simp only [inProlog, hm]
    refine ⟨hg.patient, fun h => ?_, hg.again, fun h1 h2 hr => ?_⟩
    · rw [hg.same h]
    · have := hg.held h1 h2 (hr q rfl).2
      obtain ⟨k1, k2, k3, k4, k5⟩ := this
      have hst : ∃ u, (hContent c app s' CState.init y' final q).1.stage = .content s' u := by
        unfold hContent; split <;> exact ⟨_, rfl⟩
      obtain ⟨u, hu⟩ := hst
      refine ⟨?_, k2, k3, k4, k5⟩
      simp only [glue]
      rw [hu, hnc]
      have : (inContent c s' u final (hContent c app s' CState.init y' final q).1.rest).P = [] := by
        unfold inContent; split <;> rfl
      rw [this]; simp
  | done q =>
    simp only at hm
    split at hm
    · rename_i hk
      refine ⟨hy', fun h => by simp [hk] at h, fun _ _ => ?_, fun _ _ _ => ?_⟩
      · rw [hm] at hS
        exact hS
      simp only [hnp]
      simp only [inProlog, hm]
      generalize prologCall c ext fuel [] (!final) s' q = r
      obtain ⟨F, u, o⟩ := r
      cases o with
      | done q' => exact ⟨rfl, rfl, rfl, fun _ => ⟨rfl, rfl⟩, Iff.rfl⟩
      | content q' => exact ⟨rfl, rfl, rfl, fun _ => ⟨rfl, rfl⟩, Iff.rfl⟩
      | err e => exact ⟨rfl, rfl, rfl, fun h => by simp [glue] at h, by simp [glue, Prolog.pre]⟩
      | panic => exact ⟨rfl, rfl, rfl, fun h => by simp [glue] at h, by simp [glue, Prolog.pre]⟩
    · rename_i hk
      simp only [inProlog, hm]
      exact ⟨hy', fun _ => rfl, fun _ h => absurd h hk, fun _ h => absurd h hk⟩

/-! ### The input read so far and the rest of it -/

section
variable (C : PCfg) (ext : Ext) (fuel : Nat) (f : Conf) (idx : EncIndex)

/-- At stage `st`, with `b` not yet consumed and `R` to come: whole code units; a built-in encoding where the root element starts. -/
def Able (st : Stage) (b R : Buf) : Prop :=
  match st with
  | .fresh => ∃ m t i, C60.Found idx m t i ∧ b ++ R = m ++ t ∧
      C57.Ready (settings C f) (prologCall (settings C f) ext fuel [] false { first f with cur := .builtin i } t)
  | .prolog s => (s.x (settings C f) false).Cuts ∧ s.el.p.roleNone.none_ = true ∧
      C57.Ready (settings C f) (prologCall (settings C f) ext fuel [] false s (b ++ R))
  | .content z _ => (∃ asc, XSupported (z.x (settings C f) false) asc) ∧ (z.x (settings C f) false).e.mb ∣ (b ++ R).length
  | .dead => False

end

theorem bom_len {idx : EncIndex} {b : Buf} {i : EncId} {n : Nat} (h : initScan idx .prolog b = .bom i n) : n ≤ b.length := by
  match b with
  | [] => simp [initScan] at h
  | [p] => simp only [initScan] at h; grind
  | [p, q] => simp only [initScan] at h; grind
  | p :: q :: o :: b => simp only [initScan] at h; simp; grind

section
variable {C : PCfg} {f : Conf} {idx : EncIndex}

/-- Where the rest of the input is to come, what is found is the same. -/
theorem ready_more (ho : (settings C f).OtherOk) {s : DState} {b R : Buf} (h : Able C ext fuel f idx (.prolog s) b R) :
    C57.Ready (settings C f) (C57.after (settings C f) ext fuel [] R (prologCall (settings C f) ext fuel [] true s b)) := by
  obtain ⟨h1, h2, h3⟩ := h
  exact h3.same (C57.split_call ho R s b h1 h2)

theorem able_content {z : DState} {s : CState} {b R : Buf} (h : Able C ext fuel f idx (.content z s) b R)
    (hc : (inContent (settings C f) z s false b).code = none) :
    Able C ext fuel f idx (inContent (settings C f) z s false b).stage (inContent (settings C f) z s false b).rest R := by
  obtain ⟨⟨asc, S⟩, hd⟩ := h
  have L := C04.sem_lawful S (settings C f).c z.D.toDtd (settings C f).int z.D.toDtd.fuel [] 0
  have hcall : call (C57.contentSem (settings C f) z) (z.x (settings C f) false).e (!false) s b =
      run (C57.contentSem (settings C f) z) (z.x (settings C f) false).e (!false) false s b := C04.run_via L.go _ _ _ rfl _ _
  unfold inContent at hc ⊢
  rw [hcall] at hc ⊢
  generalize hr : run (C57.contentSem (settings C f) z) (z.x (settings C f) false).e (!false) false s b = r at hc
  obtain ⟨E, o⟩ := r
  cases o with
  | err e => cases hc
  | ok u q =>
    obtain ⟨k, hk, hl, rfl⟩ := C04.rest_dvd L.go S.s.mb S.s.even _ b rfl s E u q hr
    refine ⟨⟨asc, S⟩, ?_⟩
    rw [← List.drop_append_of_le_length hl]
    exact dvd_length_drop hd hk

theorem able_prolog (ho : (settings C f).OtherOk) {s : DState} {b R : Buf} (h : Able C ext fuel f idx (.prolog s) b R)
    (hc : (inProlog (settings C f) ext fuel s false b).code = none) :
    Able C ext fuel f idx (inProlog (settings C f) ext fuel s false b).stage (inProlog (settings C f) ext fuel s false b).rest R := by
  have hr := ready_more ho h
  have hk := (prologCall_kept (ext := ext) (fuel := fuel) (opened := []) (more := true) ho s b).1.1 h.1
  have hn := (none_runRel (c := settings C f) (ext := ext) (fuel := fuel)).call (opened := []) (more := true) s b h.2.1
  unfold inProlog at hc ⊢
  simp only [Bool.not_false] at hc ⊢
  generalize prologCall (settings C f) ext fuel [] true s b = r at *
  obtain ⟨E, s', o⟩ := r
  cases o with
  | done q => exact ⟨hk, hn, hr⟩
  | content q => exact able_content (s := CState.init) (hr _ rfl) hc
  | err e => cases hc
  | panic => cases hc

/-- From one stage to the next. -/
theorem able_turn (ho : (settings C f).OtherOk) (hi : getEncodingIndex f.encoding = some idx) {st : Stage} {b v R : Buf}
    (h : Able C ext fuel f idx st b (v ++ R)) (hc : (turn C ext fuel f st false (b ++ v)).code = none) :
    Able C ext fuel f idx (turn C ext fuel f st false (b ++ v)).stage (turn C ext fuel f st false (b ++ v)).rest R := by
  cases st with
  | dead => exact h.elim
  | content z s => exact able_content (by simpa only [Able, List.append_assoc] using h) hc
  | prolog s => exact able_prolog ho (by simpa only [Able, List.append_assoc] using h) hc
  | fresh =>
    obtain ⟨m, t, i, h1, h2, h3⟩ := h
    rw [← List.append_assoc] at h2
    simp only [turn, hi, inFresh] at hc ⊢
    have hcut : (({ first f with cur := .builtin i } : DState).x (settings C f) false).Cuts := EncId.cuts i _
    rcases h1.cut h2 with hs | hs | hs
    · unfold decision at hs
      split at hs
      · rename_i hm
        rw [hs] at hc ⊢
        refine able_prolog ho ⟨hcut, rfl, ?_⟩ hc
        rw [h2, hm]; exact h3
      · have hl := bom_len hs
        rw [hs] at hc ⊢
        refine able_prolog ho ⟨hcut, rfl, ?_⟩ hc
        rw [← List.drop_append_of_le_length hl, h2, List.drop_left]; exact h3
    · rw [hs] at hc ⊢; exact ⟨m, t, i, h1, h2, h3⟩
    · rw [hs] at hc ⊢; exact ⟨m, t, i, h1, h2, h3⟩

theorem prolog_able (ho : (settings C f).OtherOk) (hpe : C.isPE = false) (hp : app.Patient) {s : DState} {b R : Buf} (final : Bool)
    (hR : final = true → R = []) (h : Able C ext fuel f idx (.prolog s) b R) (y : α × Stop) (hy : y.2 ≠ .abort) :
    Goes (fun st b => turn C ext fuel f st final b) (Supp (settings C f) ext fuel final) (final = true) (hProlog (settings C f) ext fuel app s y final b)
      (inProlog (settings C f) ext fuel s final b) := by
  have hS : ∀ q, (prologCall (settings C f) ext fuel [] (!final) s b).2.2 = .content q →
      ∃ asc, XSupported ((prologCall (settings C f) ext fuel [] (!final) s b).2.1.x (settings C f) false) asc := by
    intro q hq
    cases final with
    | true =>
      have := h.2.2
      rw [hR rfl, List.append_nil] at this
      exact (this q hq).1
    | false =>
      have hr := ready_more ho h
      simp only [Bool.not_false] at hq ⊢
      generalize prologCall (settings C f) ext fuel [] true s b = r at *
      obtain ⟨E, s', o⟩ := r
      simp only at hq
      subst hq
      exact (hr _ rfl).1
  have hg := prolog_halts (ext := ext) (fuel := fuel) ho hpe hp (fun st b => turn C ext fuel f st final b) final (fun _ _ _ => rfl) (fun _ _ => rfl) s y hy b hS
  refine ⟨hg.patient, hg.same, hg.again, fun h1 h2 hf => hg.held h1 h2 ?_⟩
  subst hf
  have := h.2.2
  rw [hR rfl, List.append_nil] at this
  exact this

/-- One call of the processor. -/
theorem turn_able (ho : (settings C f).OtherOk) (hpe : C.isPE = false) (hp : app.Patient) (hi : getEncodingIndex f.encoding = some idx) {st : Stage}
    {b v R : Buf} (final : Bool) (hR : final = true → R = []) (h : Able C ext fuel f idx st b (v ++ R)) (a : α) :
    Goes (fun st b => turn C ext fuel f st final b) (Supp (settings C f) ext fuel final) (final = true) (hturn C ext fuel app f st (a, .go) final (b ++ v)) (turn C ext fuel f st final (b ++ v)) := by
  cases st with
  | dead => exact h.elim
  | content z s =>
    obtain ⟨⟨asc, S⟩, hd⟩ := h
    have hg := content_halts (ext := ext) (fuel := fuel) hp S (fun st b => turn C ext fuel f st final b) final (fun _ _ => rfl) s (a, .go) (by simp) (b ++ v)
    refine ⟨hg.patient, hg.same, hg.again, fun h1 h2 hf => hg.held h1 h2 ?_⟩
    rw [hR hf, List.append_nil] at hd
    exact hd
  | prolog s =>
    exact prolog_able (R := R) (idx := idx) ho hpe hp final hR (by simpa only [Able, List.append_assoc] using h) (a, .go) (by simp)
  | fresh =>
    obtain ⟨m, t, i, h1, h2, h3⟩ := h
    rw [← List.append_assoc] at h2
    have e1 : turn C ext fuel f .fresh final (b ++ v) = inFresh (settings C f) ext fuel idx (first f) final (b ++ v) := by simp only [turn, hi]
    have e2 : hturn C ext fuel app f .fresh (a, .go) final (b ++ v) = hFresh (settings C f) ext fuel app idx (first f) (a, .go) final (b ++ v) := by
      simp only [hturn, hi]
    rw [e1, e2, inFresh, hFresh]
    have hcut : (({ first f with cur := .builtin i } : DState).x (settings C f) false).Cuts := EncId.cuts i _
    rcases h1.cut h2 with hs | hs | hs
    · unfold decision at hs
      split at hs
      · rename_i hm
        rw [hs]
        refine prolog_able (R := R) (idx := idx) ho hpe hp final hR ⟨hcut, rfl, ?_⟩ (a, .go) (by simp)
        rw [h2, hm]; exact h3
      · have hl := bom_len hs
        rw [hs]
        refine prolog_able (R := R) (idx := idx) ho hpe hp final hR ⟨hcut, rfl, ?_⟩ (a, .go) (by simp)
        rw [← List.drop_append_of_le_length hl, h2, List.drop_left]; exact h3
    · rw [hs]
      refine ⟨by simp, fun _ => rfl, fun _ h => (by cases h), fun _ h => (by cases h)⟩
    · rw [hs]
      refine ⟨by simp, fun _ => rfl, fun _ h => (by cases h), fun _ h => (by cases h)⟩

/-- The call after the one in which a handler suspended the parser. -/
theorem turn_supp (ho : (settings C f).OtherOk) (hpe : C.isPE = false) (hp : app.Patient) {st : Stage} {b : Buf} (final : Bool)
    (h : Supp (settings C f) ext fuel final st b) (a : α) :
    ∃ D, Goes (fun st b => turn C ext fuel f st final b) (Supp (settings C f) ext fuel final) D (hturn C ext fuel app f st (a, .go) final b)
      (turn C ext fuel f st final b) := by
  cases st with
  | dead => exact h.elim
  | fresh => exact h.elim
  | content z s =>
    obtain ⟨asc, S⟩ := h
    exact ⟨_, content_halts (ext := ext) (fuel := fuel) hp S (fun st b => turn C ext fuel f st final b) final (fun _ _ => rfl) s (a, .go) (by simp) b⟩
  | prolog s =>
    exact ⟨_, prolog_halts (ext := ext) (fuel := fuel) ho hpe hp (fun st b => turn C ext fuel f st final b) final (fun _ _ _ => rfl) (fun _ _ => rfl) s (a, .go)
      (by simp) b h⟩

end

/-! ### What is not consumed is the end of what was given -/

/-- The bytes left. -/
def PEnd.left : PEnd → Option Buf
  | .done q | .content q => some q
  | _ => none

theorem hrun_rest (c : PCfg) (ext : Ext) (fuel : Nat) (app : PApp α) (more : Bool) (n : Nat) : ∀ (s : DState) (y : α × Stop) (b : Buf), b.length = n →
    ∀ q, PEnd.left (hrun c ext fuel app more s y b).2.2.2 = some q → ∃ k, q = b.drop k := by
  induction n using Nat.strongRecOn with
  | _ n ih =>
    intro s y b hn q h
    have z : ∀ {q}, some b = some q → ∃ k, q = b.drop k := fun h => ⟨0, by cases h; rfl⟩
    rw [hrun.eq_def] at h
    simp only at h
    split at h
    · exact z h
    · cases h
    · cases h
    · split at h
      · cases h
      · exact z h
    · rename_i t k _
      split at h
      · cases h
      · cases h
      · exact z h
      · rename_i E s' d _
        split at h
        · rename_i hlt
          split at h
          · cases h; exact ⟨_, rfl⟩
          · cases h
          · obtain ⟨j, rfl⟩ := ih _ (by omega) _ _ _ rfl q h
            exact ⟨k + j, List.drop_drop ..⟩
        · cases h
      · rename_i E s' _
        split at h
        · cases h; exact ⟨_, rfl⟩
        · cases h
        · rename_i j _
          split at h
          · rename_i hlt
            split at h
            · cases h; exact ⟨k + j, List.drop_drop ..⟩
            · cases h
            · obtain ⟨i, rfl⟩ := ih _ (by omega) _ _ _ rfl q h
              exact ⟨k + (j + i), by rw [List.drop_drop, List.drop_drop]⟩
          · cases h

theorem hcall_rest (c : PCfg) (ext : Ext) (fuel : Nat) (app : PApp α) (more : Bool) (s : DState) (y : α × Stop) (b : Buf) {q : Buf}
    (h : PEnd.left (hcall c ext fuel app more s y b).2.2.2 = some q) : ∃ k, q = b.drop k := by
  unfold hcall at h
  simp only at h
  split at h
  · split at h
    · exact ⟨0, by cases h; rfl⟩
    · cases h
    · rename_i k _
      split at h
      · cases h
      · obtain ⟨j, rfl⟩ := hrun_rest c ext fuel app more _ _ _ _ rfl q h
        exact ⟨k + j, List.drop_drop ..⟩
  · exact hrun_rest c ext fuel app more _ _ _ _ rfl q h

theorem hContent_rest {z : DState} {s : CState} {y : α × Stop} {final : Bool} {b : Buf} : ∃ k, (hContent c app z s y final b).1.rest = b.drop k := by
  unfold hContent
  split
  · rename_i h
    obtain ⟨k, -, rfl⟩ := run_rest _ _ _ _ b rfl _ _ _ _ _ h
    exact ⟨k, rfl⟩
  · exact ⟨0, rfl⟩

theorem hProlog_rest {s : DState} {y : α × Stop} {final : Bool} {b : Buf} : ∃ k, (hProlog c ext fuel app s y final b).1.rest = b.drop k := by
  have h := fun q => hcall_rest c ext fuel app (!final) s y b (q := q)
  unfold hProlog
  generalize hcall c ext fuel app (!final) s y b = r at h
  obtain ⟨E, s', y', o⟩ := r
  cases o with
  | done q => exact h q rfl
  | content q =>
    obtain ⟨k, rfl⟩ := h q rfl
    obtain ⟨j, hj⟩ := hContent_rest (c := c) (app := app) (z := s') (s := CState.init) (y := y') (final := final) (b := b.drop k)
    exact ⟨k + j, by rw [← List.drop_drop]; exact hj⟩
  | err e => exact ⟨0, rfl⟩
  | panic => exact ⟨0, rfl⟩

theorem hturn_rest (C : PCfg) (ext : Ext) (fuel : Nat) (app : PApp α) (f : Conf) (st : Stage) (y : α × Stop) (final : Bool) (b : Buf) :
    ∃ k, (hturn C ext fuel app f st y final b).1.rest = b.drop k := by
  cases st with
  | dead => exact ⟨0, rfl⟩
  | content z s => exact hContent_rest
  | prolog s => exact hProlog_rest
  | fresh =>
    unfold hturn
    simp only
    split
    · unfold hFresh
      split
      · rename_i n _
        obtain ⟨k, hk⟩ := hProlog_rest (ext := ext) (fuel := fuel) (c := settings C f) (app := app) (y := y) (final := final) (b := b.drop n)
        exact ⟨n + k, by rw [hk, List.drop_drop]⟩
      · exact hProlog_rest
      · exact ⟨0, by split <;> rfl⟩
      · exact ⟨0, by split <;> rfl⟩
    · split
      · exact hProlog_rest
      · exact ⟨0, rfl⟩

theorem hturn_pending (C : PCfg) (ext : Ext) (fuel : Nat) (app : PApp α) (f : Conf) (st : Stage) (y : α × Stop) (final : Bool) (b : Buf) :
    b.drop (b.length - (hturn C ext fuel app f st y final b).1.rest.length) = (hturn C ext fuel app f st y final b).1.rest := by
  obtain ⟨k, hk⟩ := hturn_rest C ext fuel app f st y final b
  rw [hk, List.length_drop]
  by_cases h : k ≤ b.length
  · congr 1; omega
  · rw [List.drop_eq_nil_of_le (by omega : b.length ≤ k)]
    exact List.drop_eq_nil_of_le (by omega)

/-! ### The handlers' state and the status -/

theorem PApp.tell_append (app : PApp α) (E F : List PEv) : ∀ y, app.tell y (E ++ F) = app.tell (app.tell y E) F := by
  induction E with
  | nil => intro y; rfl
  | cons v E ih => intro y; obtain ⟨a, k⟩ := y; exact ih _

theorem app_tell_append (app : App α) (E F : List Ev) : ∀ y, app.tell y (E ++ F) = app.tell (app.tell y E) F := by
  induction E with
  | nil => intro y; rfl
  | cons v E ih => intro y; obtain ⟨a, k⟩ := y; exact ih _

theorem content_tell (app : PApp α) (E : List Ev) : ∀ y, app.content.tell y E = app.tell y (E.map .ev) := by
  induction E with
  | nil => intro y; rfl
  | cons v E ih => intro y; obtain ⟨a, k⟩ := y; exact ih _

/-- The content processors: every handler call has been made, in order. -/
theorem run_heard {σ : Type} (M : Sem σ) (app : App α) (e : Enc) (more : Bool) (n : Nat) : ∀ (b : Buf), b.length = n → ∀ v s E s' q,
    run (Api.heard M app) e more v s b = (E, .ok s' q) → s'.2 = app.tell s.2 E := by
  induction n using Nat.strongRecOn with
  | _ n ih =>
    intro b hb v s E s' q h
    have hfin : ∀ s r, finish (Api.heard M app) s r = .ok s' q → s' = s := by
      intro s r h
      unfold finish at h
      split at h <;> cases h
      rfl
    have hact : ∀ {s s' E t w}, (Api.heard M app).act s t w = (E, .ok s') → s'.2 = app.tell s.2 E := by
      intro s s' E t w h
      simp only [Api.heard] at h
      split at h <;> cases h
      rfl
    rw [run.eq_def] at h
    simp only at h
    split at h
    · split at h <;> cases h; rfl
    · split at h
      · cases h; rfl
      · split at h
        · cases h
        · rename_i ha
          injection h with h1 h
          rw [hfin _ _ h, ← h1]
          exact hact ha
    · split at h
      · cases h; rfl
      · injection h with h1 h
        rw [hfin _ _ h, ← h1]
        rfl
    · cases h; rfl
    · cases h
    · split at h
      · cases h
      · rename_i ha
        injection h with h1 h
        split at h
        · cases h
        · injection h with h h2
          rw [← h, ← h1]
          exact hact ha
    · split at h
      · cases h
      · rename_i E2 s2 ha
        split at h
        · split at h
          · generalize hr : run (Api.heard M app) e more _ s2 (b.drop (((Api.heard M app).mode s).tok e b).next) = r at h
            obtain ⟨F, o⟩ := r
            simp only [pre] at h
            injection h with h1 h
            subst h
            rw [← h1, app_tell_append, ← hact ha]
            exact ih _ (by omega) _ rfl _ _ _ _ _ hr
          · cases h
            exact hact ha
        · split at h
          · cases h
            exact hact ha
          · cases h

theorem hrun_heard (c : PCfg) (ext : Ext) (fuel : Nat) (app : PApp α) (more : Bool) (n : Nat) : ∀ (s : DState) (y : α × Stop) (b : Buf), b.length = n →
    (hrun c ext fuel app more s y b).2.2.1 = app.tell y (hrun c ext fuel app more s y b).1 := by
  induction n using Nat.strongRecOn with
  | _ n ih =>
    intro s y b hn
    rw [hrun.eq_def]
    simp only
    split
    · rfl
    · rfl
    · rfl
    · split <;> rfl
    · split
      · rfl
      · rfl
      · rfl
      · split
        · split
          · rfl
          · rfl
          · rename_i hlt _ _
            simp only [Heard.pre]
            rw [PApp.tell_append]
            refine ih _ ?_ _ _ _ rfl
            omega
        · rfl
      · split
        · rfl
        · rfl
        · split
          · split
            · rfl
            · rfl
            · rename_i hlt _ _
              simp only [Heard.pre]
              rw [PApp.tell_append _ (_ ++ _)]
              refine ih _ ?_ _ _ _ rfl
              omega
          · rfl

theorem hcall_heard (c : PCfg) (ext : Ext) (fuel : Nat) (app : PApp α) (more : Bool) (s : DState) (y : α × Stop) (b : Buf) :
    (hcall c ext fuel app more s y b).2.2.1 = app.tell y (hcall c ext fuel app more s y b).1 := by
  unfold hcall
  simp only
  split
  · split
    · rfl
    · rfl
    · split
      · rfl
      · simp only [Heard.pre]
        rw [PApp.tell_append]
        exact hrun_heard c ext fuel app more _ _ _ _ rfl
  · exact hrun_heard c ext fuel app more _ _ _ _ rfl

theorem hContent_heard {z : DState} {s : CState} {y : α × Stop} {final : Bool} {b : Buf} (h : (hContent c app z s y final b).1.code = none) :
    (hContent c app z s y final b).2 = app.tell y ((hContent c app z s y final b).1.F.map .ev) ∧ (hContent c app z s y final b).1.P = [] := by
  unfold hContent at h ⊢
  rw [call] at h ⊢
  generalize hr : run (Api.heard (C57.contentSem c z) app.content) (z.x c false).e (!final) _ (s, y) b = r at h
  obtain ⟨E, o⟩ := r
  cases o with
  | err e => cases h
  | ok s' q => exact ⟨by rw [← content_tell]; exact run_heard _ _ _ _ _ _ rfl _ _ _ _ _ hr, rfl⟩

theorem hProlog_heard {s : DState} {y : α × Stop} {final : Bool} {b : Buf} (h : (hProlog c ext fuel app s y final b).1.code = none) :
    (hProlog c ext fuel app s y final b).2 =
      app.tell y ((hProlog c ext fuel app s y final b).1.P ++ (hProlog c ext fuel app s y final b).1.F.map .ev) := by
  have hh := hcall_heard c ext fuel app (!final) s y b
  unfold hProlog at h ⊢
  generalize hcall c ext fuel app (!final) s y b = r at h hh
  obtain ⟨P, s', y', o⟩ := r
  simp only at hh
  cases o with
  | done q => simpa using hh
  | content q =>
    simp only at h ⊢
    rw [(hContent_heard h).1, PApp.tell_append, hh]
  | err e => cases h
  | panic => cases h

/-- One call of the processor: the handlers have seen the calls one after the other. -/
theorem hturn_heard (C : PCfg) (f : Conf) (st : Stage) (y : α × Stop) (final : Bool) (b : Buf)
    (h : (hturn C ext fuel app f st y final b).1.code = none) :
    (hturn C ext fuel app f st y final b).2 =
      app.tell y ((hturn C ext fuel app f st y final b).1.P ++ (hturn C ext fuel app f st y final b).1.F.map .ev) := by
  cases st with
  | dead => cases h
  | content z s =>
    have := hContent_heard (c := settings C f) (app := app) h
    simp only [hturn] at this ⊢
    rw [this.1, this.2]; rfl
  | prolog s => exact hProlog_heard h
  | fresh =>
    simp only [hturn] at h ⊢
    split at h
    · simp only [hFresh] at h ⊢
      split at h
      · exact hProlog_heard h
      · exact hProlog_heard h
      · split <;> rfl
      · split <;> rfl
    · split at h
      · exact hProlog_heard h
      · cases h

end Verif.Halt
