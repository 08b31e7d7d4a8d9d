import Verif.ApiRan

/-! C41: the input buffer never loses or reorders unparsed bytes. -/

set_option autoImplicit false

namespace Verif.C41
open Verif Verif.Api

variable {σ : Type} {E : Engine σ}

/-- All bytes supplied so far, and how many of them have been consumed. -/
structure Tape where
  all : Buf
  done : Nat

/-- The parser has the tape: the bytes waiting in its buffer are those supplied and not consumed, and
everything in the buffer is what was supplied last. -/
structure Holds (t : Tape) (p : Parser σ) : Prop where
  count : p.endByte = t.all.length
  done : t.done ≤ t.all.length
  waiting : (p.buffer.take p.stop).drop p.start = t.all.drop t.done
  context : ∃ before, t.all = before ++ p.buffer.take p.stop

/-- What a call does to the tape, in terms of the bytes it supplies, the bytes the processor was given
and the number of bytes the processor says it has consumed. -/
inductive Moves (E : Engine σ) (p : Parser σ) (c : Call) (r : Ret σ Val) (t : Tape) : Tape → Prop
  /-- bytes are supplied, the processor gets them after the ones that wait -/
  | input (w : Buf) (final : Bool) (s : σ) (d : Done σ) :
      c = .parse w final ∨ c = .parseBuffer w final → r.shown = some ((t.all ++ w).drop t.done) →
      (if p.failed then d.used = 0 else d = E.proc p.conf s final ((t.all ++ w).drop t.done)) → r.calls = d.calls →
      Moves E p c r t ⟨t.all ++ w, t.done + d.used⟩
  /-- XML_ResumeParser gives the processor what waits (and forgets what it consumed: C40) -/
  | again : c = .resume → r.shown = some (t.all.drop t.done) → Moves E p c r t t
  /-- no processor ran -/
  | quiet : r.shown = none → r.calls = [] → ¬ (c.isReset = true ∧ r.val = .bool true) → Moves E p c r t t
  | reset : c.isReset = true → r.val = .bool true → r.shown = none → Moves E p c r t ⟨[], 0⟩

/-- A history with its tape. -/
inductive Taped (E : Engine σ) : Parser σ → List Call → List (Ret σ Val) → Tape → Tape → Prop
  | nil (p : Parser σ) (t : Tape) : Taped E p [] [] t t
  | cons {p : Parser σ} {c : Call} {r : Ret σ Val} {cs : List Call} {rs : List (Ret σ Val)} {t t1 t2 : Tape} :
      Moves E p c r t t1 → Taped E r.st cs rs t1 t2 → Taped E p (c :: cs) (r :: rs) t t2

theorem Holds.create (enc : Option Buf) : Holds ⟨[], 0⟩ (create E enc) :=
  ⟨rfl, Nat.le_refl _, rfl, [], rfl⟩

theorem Holds.same {t : Tape} {p q : Parser σ} (h : Holds t p) (h1 : q.buffer = p.buffer) (h2 : q.start = p.start)
    (h3 : q.stop = p.stop) (h4 : q.endByte = p.endByte) : Holds t q :=
  ⟨h4.trans h.count, h.done, by rw [h1, h2, h3]; exact h.waiting, by rw [h1, h3]; exact h.context⟩

theorem Holds.ran (L : E.Lawful) {t : Tape} {p m : Parser σ} {w : Buf} {final : Bool} {r : Ret σ Val} {c : Call} (h : Holds t p)
    (hr : Api.Ran E p w final m r) (hc : c = .parse w final ∨ c = .parseBuffer w final) :
    ∃ t', Moves E p c r t t' ∧ Holds t' r.st := by
  have hp : m.queue.pending = (t.all ++ w).drop t.done := by
    rw [hr.pending, List.drop_append_of_le_length h.done, ← h.waiting]
    rfl
  have hs := hr.shown; have hcalls := hr.calls; have hst := hr.st_start
  have hu : (process E m m.queue.pending).used ≤ m.queue.pending.length := work_used L m.queue _
  have hproc : if p.failed then (process E m m.queue.pending).used = 0 else process E m m.queue.pending = E.proc p.conf m.inner final m.queue.pending := by
    unfold process
    rw [← hr.failed, ← hr.conf, ← hr.final]
    split <;> rfl
  generalize hd : process E m m.queue.pending = d at *
  rw [hp] at hs hu hproc
  refine ⟨_, .input w final m.inner d hc hs hproc hcalls, ?_, ?_, ?_, ?_⟩
  · rw [hr.st_endByte, hr.endByte, h.count]; simp
  · have := h.done
    simp at hu ⊢
    omega
  · rw [hr.st_buffer, hr.st_stop, hst, ← List.drop_drop]
    have : (m.buffer.take m.stop).drop m.start = (t.all ++ w).drop t.done := hp
    rw [this, List.drop_drop]
  · obtain ⟨pre, h1⟩ := hr.context
    obtain ⟨before, h2⟩ := h.context
    refine ⟨before ++ pre, ?_⟩
    rw [hr.st_buffer, hr.st_stop]
    simp only
    rw [List.append_assoc, ← h1, ← List.append_assoc, ← h2]

/-- **C41**, one call. -/
theorem moves (L : E.Lawful) {p : Parser σ} (I : Inv p) {c : Call} (hc : Contract p c) {r : Ret σ Val}
    (h : step E p c = some r) {t : Tape} (ht : Holds t p) : ∃ t', Moves E p c r t t' ∧ Holds t' r.st := by
  have quiet : ∀ {r : Ret σ Val}, c.isReset = false → r.shown = none → r.calls = [] → r.st.buffer = p.buffer → r.st.start = p.start →
      r.st.stop = p.stop → r.st.endByte = p.endByte → ∃ t', Moves E p c r t t' ∧ Holds t' r.st := by
    intro r h0 h1 h2 h3 h4 h5 h6
    exact ⟨t, .quiet h1 h2 (by simp [h0]), ht.same h3 h4 h5 h6⟩
  cases c with
  | parse w final =>
    simp only [step, Option.map_eq_some_iff] at h
    obtain ⟨r', h, rfl⟩ := h
    rcases parse_ran L I hc final h with ⟨h1, h2, h3, h4, h5, h6, _⟩ | ⟨m, hm⟩
    · exact quiet rfl h1 h2 h3 h4 h5 h6
    · exact ht.ran L hm (.inl rfl)
  | parseBuffer w final =>
    simp only [step, Option.map_eq_some_iff] at h
    obtain ⟨r', h, rfl⟩ := h
    rcases parseBuffer_ran L I hc final h with ⟨e, rfl⟩ | ⟨m, hm⟩
    · refine ⟨t, .quiet rfl rfl (by simp [Call.isReset]), ht.count, ht.done, ?_, ?_⟩
      · have := congrArg Queue.pending (write_queue (I.error e) w)
        exact this.trans ht.waiting
      · obtain ⟨pre, hpre⟩ := ht.context
        refine ⟨pre, hpre.trans ?_⟩
        have hi := I.stop
        simp only [Ret.as, Api.write]
        rw [List.append_assoc, List.take_append_of_le_length (by simp; omega), List.take_take, Nat.min_self]
    · exact ht.ran L hm (.inr rfl)
  | getBuffer len =>
    simp only [step, Option.map_eq_some_iff] at h
    obtain ⟨r', h, rfl⟩ := h
    obtain ⟨g, hg, g1, g2, g3⟩ := getBuffer_spec (E := E) I len hc
    rw [h] at hg
    cases hg
    rcases g3 with ⟨_, e, he, _⟩ | ⟨hv, _, _, _, _, hqueue, _⟩
    · refine quiet rfl g1 g2 ?_ ?_ ?_ ?_ <;> simp [Ret.as, he]
    · refine ⟨t, .quiet g1 g2 (by simp [Call.isReset]), ?_, ht.done, ?_, ?_⟩
      · exact ((getBuffer_frame h).1).trans ht.count
      · exact (congrArg Queue.pending hqueue).trans ht.waiting
      · obtain ⟨pre, hpre⟩ := getBuffer_context I hc h hv
        obtain ⟨before, hb⟩ := ht.context
        exact ⟨before ++ pre, by rw [List.append_assoc]; simp only [Ret.as]; rw [← hpre, ← hb]⟩
  | resume =>
    simp only [step, Option.map_eq_some_iff] at h
    obtain ⟨r', h, rfl⟩ := h
    unfold resumeParser at h
    by_cases hs : p.parsing = .SUSPENDED
    · rw [if_neg (by simp [hs])] at h
      simp only at h
      split at h
      · cases h
      have hx := conclude_concluded (.inl h)
      refine ⟨t, .again rfl ?_, ht.same hx.buffer hx.start hx.stop hx.endByte⟩
      have := hx.shown
      simp only [Ret.as, this, I.endIdx hs, ht.waiting]
    · rw [if_pos hs] at h
      cases h
      exact quiet rfl rfl rfl rfl rfl rfl rfl
  | stop b =>
    cases h
    have hb : ∀ x, x.st.buffer = p.buffer ∧ x.st.start = p.start ∧ x.st.stop = p.stop ∧ x.st.endByte = p.endByte ∧ x.shown = none ∧ x.calls = []
        ∨ x ≠ stopParser p b := by
      intro x
      by_cases hx : x = stopParser p b
      · left
        subst hx
        unfold stopParser
        cases p.parsing <;> cases b <;> cases p.paramEntity <;> exact ⟨rfl, rfl, rfl, rfl, rfl, rfl⟩
      · exact .inr hx
    rcases hb (stopParser p b) with ⟨h1, h2, h3, h4, h5, h6⟩ | h
    · exact quiet rfl h5 h6 h1 h2 h3 h4
    · exact absurd rfl h
  | reset enc =>
    cases h
    unfold reset
    split
    · exact ⟨t, .quiet rfl rfl (by simp [Ret.as]), ht⟩
    · exact ⟨_, .reset rfl rfl rfl, rfl, Nat.le_refl _, by simp [Ret.as, Api.create], [], by simp [Ret.as, Api.create]⟩
  | setEncoding n => cases h; unfold setEncoding; split <;> exact quiet rfl rfl rfl rfl rfl rfl rfl
  | useForeignDtd n => cases h; unfold useForeignDtd; split <;> exact quiet rfl rfl rfl rfl rfl rfl rfl
  | setTriplets n => cases h; unfold setTriplets; split <;> exact quiet rfl rfl rfl rfl rfl rfl rfl
  | setPe n => cases h; unfold setPe; split <;> exact quiet rfl rfl rfl rfl rfl rfl rfl
  | getError => cases h; exact quiet rfl rfl rfl rfl rfl rfl rfl
  | byteCount => cases h; exact quiet rfl rfl rfl rfl rfl rfl rfl
  | parseBad => cases h; exact quiet rfl rfl rfl rfl rfl rfl rfl
  | byteIndex =>
    simp only [step, Option.map_eq_some_iff] at h
    obtain ⟨q, _, rfl⟩ := h
    exact quiet rfl rfl rfl rfl rfl rfl rfl
  | lineNumber =>
    simp only [step, lineNumber, Option.map_map, Option.map_eq_some_iff] at h
    obtain ⟨q, hq, rfl⟩ := h
    obtain ⟨_, _, rfl⟩ := locate_eq hq
    exact quiet rfl rfl rfl rfl rfl rfl rfl
  | columnNumber =>
    simp only [step, columnNumber, Option.map_map, Option.map_eq_some_iff] at h
    obtain ⟨q, hq, rfl⟩ := h
    obtain ⟨_, _, rfl⟩ := locate_eq hq
    exact quiet rfl rfl rfl rfl rfl rfl rfl

/-- **C41.**  Over any history of calls on a new parser, the bytes the processor is given are exactly
those supplied so far and not consumed, in order, and in the end exactly those wait in the buffer. -/
theorem tape (L : E.Lawful) {p q : Parser σ} {cs : List Call} {rs : List (Ret σ Val)} (h : Path E p cs rs q) (I : Inv p)
    {t : Tape} (ht : Holds t p) : ∃ t', Taped E p cs rs t t' ∧ Holds t' q := by
  induction h generalizing t with
  | nil p => exact ⟨t, .nil p t, ht⟩
  | @cons p q c r cs rs hc hs _ ih =>
    obtain ⟨t1, h1, h2⟩ := moves L I hc hs ht
    obtain ⟨t2, h3, h4⟩ := ih (step_spec L I hc hs).1 h2
    exact ⟨t2, .cons h1 h3, h4⟩

theorem new_parser (L : E.Lawful) (enc : Option Buf) {q : Parser σ} {cs : List Call} {rs : List (Ret σ Val)}
    (h : Path E (create E enc) cs rs q) : ∃ t, Taped E (create E enc) cs rs ⟨[], 0⟩ t ∧ Holds t q :=
  tape L h (.create enc) (.create enc)

/-- **C41**, the room: after a successful XML_GetBuffer(n) the application may write any n bytes and
call XML_ParseBuffer. -/
theorem room {p : Parser σ} (I : Inv p) {n : Int} (hn : n < 2 ^ 31) {r : Ret σ Val}
    (h : step E p (.getBuffer n) = some r) (hv : r.val = .pointer true) (w : Buf) (final : Bool) (hw : w.length ≤ n) :
    Contract r.st (.parseBuffer w final) ∧ w.length ≤ r.st.buffer.length - r.st.stop := by
  simp only [step, Option.map_eq_some_iff] at h
  obtain ⟨r', h, rfl⟩ := h
  obtain ⟨g, hg, g1, g2, g3⟩ := getBuffer_spec (E := E) I n hn
  rw [h] at hg
  cases hg
  rcases g3 with ⟨g, _⟩ | ⟨_, _, g, _⟩
  · simp [Ret.as, g] at hv
  · have : w.length ≤ r'.st.buffer.length - r'.st.stop := by omega
    exact ⟨this, this⟩

/-- **C41**, the context: when XML_GetBuffer has moved anything, at most 1024 bytes before the waiting
ones are kept (and they are the ones supplied just before: `Holds.context`). -/
theorem context {p : Parser σ} (I : Inv p) {n : Int} (hn : n < 2 ^ 31) {r : Ret σ Val}
    (h : step E p (.getBuffer n) = some r) (hv : r.val = .pointer true) : r.st = p ∨ r.st.start ≤ 1024 := by
  simp only [step, Option.map_eq_some_iff] at h
  obtain ⟨r', h, rfl⟩ := h
  obtain ⟨g, hg, g1, g2, g3⟩ := getBuffer_spec (E := E) I n hn
  rw [h] at hg
  cases hg
  rcases g3 with ⟨g, _⟩ | ⟨_, _, _, _, _, _, _, g⟩
  · simp [Ret.as, g] at hv
  · exact g.imp id (·.1)

/-- The buffer is refused only for lack of memory, or sizes near the limits of C `int`. -/
theorem granted {p : Parser σ} (I : Inv p) {n : Int} (h0 : 0 ≤ n) (ha : ∀ k, E.alloc k = true)
    (h1 : p.parsing = .INITIALIZED ∨ p.parsing = .PARSING) (hn : n + (p.stop - p.start : Nat) + 1024 ≤ 2 ^ 30) :
    ∃ q, step E p (.getBuffer n) = some { val := .pointer true, st := q } := by
  obtain ⟨r, k, hr, hk⟩ := getBuffer_granted I h0 ha (by rcases h1 with h | h <;> simp [h]) (by rcases h1 with h | h <;> simp [h]) hn
  obtain ⟨g, hg, g1, g2, g3⟩ := getBuffer_spec (E := E) I n (by omega)
  rw [hr] at hg
  cases hg
  obtain ⟨rv, rs, rc, rst⟩ := r
  simp only at g1 g2 hk
  subst g1 g2 hk
  exact ⟨rst, by simp [step, hr, Ret.as]⟩

/-- Three chunks, one through XML_GetBuffer, cut in the middle of pairs. -/
example : ((steps toy (create toy none)
      [.parse [0x61, 0x62, 0x63] false, .getBuffer 2, .parseBuffer [0x64, 0x65] false, .getBuffer 5000, .parse [0x66] true]).map
        fun x => (x.1.map (·.shown), x.2.buffer.length)) =
    some ([some [0x61, 0x62, 0x63], none, some [0x63, 0x64, 0x65], none, some [0x65, 0x66]], 8160) := by decide +kernel

end Verif.C41
