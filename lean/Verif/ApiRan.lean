import Verif.ApiPath

/-! What the calls do to the buffer of the parser. -/

set_option autoImplicit false

namespace Verif.Api
open Verif

variable {σ : Type} {E : Engine σ}

/-- A successful XML_GetBuffer: bytes before the input not consumed yet may go, all else stays. -/
theorem getBuffer_context {p : Parser σ} (I : Inv p) {len : Int} (hl : len < 2 ^ 31) {r : Ret σ (Option Nat)} {n : Nat}
    (h : getBuffer E p len = some r) (hv : r.val = some n) :
    ∃ pre, p.buffer.take p.stop = pre ++ r.st.buffer.take r.st.stop := by
  obtain ⟨i1, i2, i3, i4, i5, i6, i7⟩ := I
  have key : ∀ k (c : Buf), ∃ pre, p.buffer.take p.stop = pre ++ ((p.buffer.take p.stop).drop k ++ c).take (p.stop - k) := by
    intro k c
    rw [take_drop_append_take i2]
    exact ⟨_, (List.take_append_drop k _).symm⟩
  unfold getBuffer at h
  by_cases h0 : len < 0
  · rw [if_pos h0] at h; cases h; cases hv
  rw [if_neg h0] at h
  by_cases h1 : p.parsing = .SUSPENDED
  · rw [if_pos h1] at h; cases h; cases hv
  rw [if_neg h1] at h
  by_cases h2 : p.parsing = .FINISHED
  · rw [if_pos h2] at h; cases h; cases hv
  rw [if_neg h2] at h
  simp only at h
  rw [if_neg (by omega : ¬ p.buffer.length < p.stop)] at h
  by_cases h3 : len.toNat ≤ p.buffer.length - p.stop
  · rw [if_pos h3] at h
    cases h
    exact ⟨[], rfl⟩
  rw [if_neg h3, if_neg (by omega)] at h
  by_cases h4 : 2 ^ 31 ≤ len.toNat + (p.stop - p.start)
  · rw [if_pos h4] at h; cases h; cases hv
  rw [if_neg h4] at h
  by_cases h5 : len.toNat + (p.stop - p.start) + min 1024 p.start ≤ p.buffer.length
  · rw [if_pos h5, if_pos (by omega : min 1024 p.start < p.start)] at h
    cases h
    exact key (p.start - min 1024 p.start) _
  · rw [if_neg h5] at h
    rw [if_neg (by split <;> omega)] at h
    split at h
    · cases h; cases hv
    · rename_i size hg
      have ⟨g1, g2⟩ := grow_spec _ _ (by split <;> omega) _ hg
      rw [if_neg (by omega : ¬ size < p.buffer.length)] at h
      split at h
      · cases h; cases hv
      · by_cases h6 : p.start < p.stop
        · rw [if_pos h6] at h
          cases h
          simp only
          rw [List.take_append_of_le_length i2]
          have : p.stop - p.start + min 1024 p.start = p.stop - (p.start - min 1024 p.start) := by omega
          rw [this]
          exact key _ _
        · rw [if_neg h6] at h
          cases h
          exact ⟨p.buffer.take p.stop, by simp⟩

/-- XML_GetBuffer succeeds when the sizes are reasonable and there is memory. -/
theorem getBuffer_granted {p : Parser σ} (I : Inv p) {len : Int} (h0 : 0 ≤ len) (ha : ∀ n, E.alloc n = true)
    (h1 : p.parsing ≠ .SUSPENDED) (h2 : p.parsing ≠ .FINISHED)
    (hl : len + (p.stop - p.start : Nat) + 1024 ≤ 2 ^ 30) :
    ∃ r n, getBuffer E p len = some r ∧ r.val = some n := by
  obtain ⟨i1, i2, i3, i4, i5, i6, i7⟩ := I
  have hg : ∀ size needed, 0 < size → needed ≤ 2 ^ 30 → ∃ n, grow size needed = some n := by
    intro size needed
    fun_induction grow size needed <;> grind
  unfold getBuffer
  rw [if_neg (by omega), if_neg h1, if_neg h2]
  simp only
  rw [if_neg (by omega : ¬ p.buffer.length < p.stop)]
  by_cases h3 : len.toNat ≤ p.buffer.length - p.stop
  · rw [if_pos h3]
    exact ⟨_, _, rfl, rfl⟩
  rw [if_neg h3, if_neg (by omega), if_neg (by omega)]
  by_cases h5 : len.toNat + (p.stop - p.start) + min 1024 p.start ≤ p.buffer.length
  · rw [if_pos h5]
    exact ⟨_, _, rfl, rfl⟩
  · rw [if_neg h5]
    rw [if_neg (by split <;> omega)]
    obtain ⟨n, hn⟩ := hg (if p.buffer.length - p.start = 0 then 1024 else p.buffer.length - p.start)
      (len.toNat + (p.stop - p.start) + min 1024 p.start) (by split <;> omega) (by omega)
    have ⟨g1, g2⟩ := grow_spec _ _ (by split <;> omega) _ hn
    rw [hn]
    simp only [ha]
    rw [if_neg (by omega)]
    exact ⟨_, _, rfl, rfl⟩

/-- XML_GetBuffer changes nothing but the buffer and what points into it. -/
theorem getBuffer_frame {p : Parser σ} {len : Int} {r : Ret σ (Option Nat)} (h : getBuffer E p len = some r) :
    r.st.endByte = p.endByte ∧ r.st.endIdx = p.endIdx ∧ r.st.pos = p.pos := by
  unfold getBuffer at h
  by_cases h0 : len < 0
  · rw [if_pos h0] at h; cases h; exact ⟨rfl, rfl, rfl⟩
  rw [if_neg h0] at h
  by_cases h1 : p.parsing = .SUSPENDED
  · rw [if_pos h1] at h; cases h; exact ⟨rfl, rfl, rfl⟩
  rw [if_neg h1] at h
  by_cases h2 : p.parsing = .FINISHED
  · rw [if_pos h2] at h; cases h; exact ⟨rfl, rfl, rfl⟩
  rw [if_neg h2] at h
  simp only at h
  by_cases h3 : p.buffer.length < p.stop
  · rw [if_pos h3] at h; cases h
  rw [if_neg h3] at h
  by_cases h4 : len.toNat ≤ p.buffer.length - p.stop
  · rw [if_pos h4] at h; cases h; exact ⟨rfl, rfl, rfl⟩
  rw [if_neg h4] at h
  by_cases h5 : p.stop < p.start ∨ 2 ^ 31 ≤ p.stop - p.start
  · rw [if_pos h5] at h; cases h
  rw [if_neg h5] at h
  by_cases h6 : 2 ^ 31 ≤ len.toNat + (p.stop - p.start)
  · rw [if_pos h6] at h; cases h; exact ⟨rfl, rfl, rfl⟩
  rw [if_neg h6] at h
  by_cases h7 : len.toNat + (p.stop - p.start) + min 1024 p.start ≤ p.buffer.length
  · rw [if_pos h7] at h
    by_cases h8 : min 1024 p.start < p.start
    · rw [if_pos h8] at h; cases h; exact ⟨rfl, rfl, rfl⟩
    · rw [if_neg h8] at h; cases h; exact ⟨rfl, rfl, rfl⟩
  rw [if_neg h7] at h
  generalize (if p.buffer.length - p.start = 0 then 1024 else p.buffer.length - p.start) = size0 at h
  by_cases h11 : 2 ^ 31 ≤ size0
  · rw [if_pos h11] at h; cases h
  rw [if_neg h11] at h
  cases hg : grow size0 (len.toNat + (p.stop - p.start) + min 1024 p.start) with
  | none => rw [hg] at h; cases h; exact ⟨rfl, rfl, rfl⟩
  | some size =>
    rw [hg] at h
    simp only at h
    by_cases h9 : size < p.buffer.length
    · rw [if_pos h9] at h; cases h
    rw [if_neg h9] at h
    split at h
    · cases h; exact ⟨rfl, rfl, rfl⟩
    · by_cases h10 : p.start < p.stop
      · rw [if_pos h10] at h; cases h; exact ⟨rfl, rfl, rfl⟩
      · rw [if_neg h10] at h; cases h; exact ⟨rfl, rfl, rfl⟩

/-- A parse call in which the processor ran: `w` are the new bytes, `final` whether they are the last,
`m` is the parser the processor was started on, and `r` what the call returned. -/
structure Ran (E : Engine σ) (p : Parser σ) (w : Buf) (final : Bool) (m : Parser σ) (r : Ret σ Val) : Prop where
  inv : Inv m
  inner : m.inner = p.inner ∨ E.start p.conf p.inner = some m.inner
  conf : m.conf = p.conf
  failed : m.failed = p.failed
  final : m.final = final
  endByte : m.endByte = p.endByte + w.length
  endIdx : m.endIdx = m.stop
  pending : m.queue.pending = p.queue.pending ++ w
  context : ∃ pre, p.buffer.take p.stop ++ w = pre ++ m.buffer.take m.stop
  posIdx : m.posIdx = some m.start
  shown : r.shown = some m.queue.pending
  calls : r.calls = (process E m m.queue.pending).calls
  st_buffer : r.st.buffer = m.buffer
  st_stop : r.st.stop = m.stop
  st_start : r.st.start = m.start + (process E m m.queue.pending).used
  st_endByte : r.st.endByte = m.endByte
  st_endIdx : r.st.endIdx = m.endIdx
  st_inner : r.st.inner = (process E m m.queue.pending).inner
  st_event : r.st.event = if m.failed then m.event else some (m.start + (process E m m.queue.pending).event)
  st_posIdx : ∃ i, r.st.posIdx = some i ∧ m.start ≤ i ∧ i ≤ r.st.start

theorem advancePos_total (hu : ∀ s b x, E.upd s b x ≠ none) {p : Parser σ} {i : Nat} (h : p.posIdx = some i) (h1 : i ≤ p.start)
    (h2 : p.start ≤ p.buffer.length) : advancePos E p ≠ none := by
  unfold advancePos
  simp only [h]
  rw [if_neg (by omega)]
  have := hu p.inner ((p.buffer.take p.start).drop i) p.pos
  cases hx : E.upd p.inner ((p.buffer.take p.start).drop i) p.pos with
  | none => exact absurd hx this
  | some q => simp

theorem advancePos_posIdx {p q : Parser σ} (h : advancePos E p = some q) : ∃ c, q = { p with pos := c, posIdx := some p.start } := by
  unfold advancePos at h
  split at h
  · cases h
  · split at h
    · cases h
    · split at h
      · cases h
      · cases h; exact ⟨_, rfl⟩

/-- `r` is `q` but for the status, the position, and what an error changes. -/
structure Concluded (q : Parser σ) (b : Buf) (d : Done σ) (r : Ret σ Status) : Prop where
  shown : r.shown = some b
  calls : r.calls = d.calls
  buffer : r.st.buffer = q.buffer
  stop : r.st.stop = q.stop
  start : r.st.start = q.start
  endByte : r.st.endByte = q.endByte
  endIdx : r.st.endIdx = q.endIdx
  inner : r.st.inner = q.inner
  event : r.st.event = q.event
  posIdx : r.st.posIdx = q.posIdx ∨ r.st.posIdx = some q.start

theorem conclude_concluded {q : Parser σ} {b : Buf} {d : Done σ} {r : Ret σ Status}
    (h : conclude E q b d = some r ∨ concludeFinal E q b d = some r) : Concluded q b d r := by
  rcases h with h | h
  · unfold conclude at h
    split at h
    · cases h; exact ⟨rfl, rfl, rfl, rfl, rfl, rfl, rfl, rfl, rfl, .inl rfl⟩
    · split at h
      · cases h; exact ⟨rfl, rfl, rfl, rfl, rfl, rfl, rfl, rfl, rfl, .inl rfl⟩
      · cases ha : advancePos E q with
        | none => simp [ha] at h
        | some q' =>
          simp only [ha, Option.map_some, Option.some.injEq] at h
          obtain ⟨c, rfl⟩ := advancePos_posIdx ha
          subst h
          exact ⟨rfl, rfl, rfl, rfl, rfl, rfl, rfl, rfl, rfl, .inr rfl⟩
  · unfold concludeFinal at h
    split at h
    · cases h; exact ⟨rfl, rfl, rfl, rfl, rfl, rfl, rfl, rfl, rfl, .inl rfl⟩
    · split at h
      · cases ha : advancePos E q with
        | none => simp [ha] at h
        | some q' =>
          simp only [ha, Option.map_some, Option.some.injEq] at h
          obtain ⟨c, rfl⟩ := advancePos_posIdx ha
          subst h
          exact ⟨rfl, rfl, rfl, rfl, rfl, rfl, rfl, rfl, rfl, .inr rfl⟩
      · cases h; exact ⟨rfl, rfl, rfl, rfl, rfl, rfl, rfl, rfl, rfl, .inl rfl⟩

/-- What is the same when the checks at the start of a parse call have passed. -/
theorem admit_frame {p q : Parser σ} (h : admit E p = .inr q) :
    (q.inner = p.inner ∨ E.start p.conf p.inner = some q.inner) ∧ q.conf = p.conf ∧ q.failed = p.failed ∧ q.endByte = p.endByte ∧
    q.buffer = p.buffer ∧ q.stop = p.stop ∧ q.start = p.start := by
  unfold admit at h
  split at h
  · cases h
  · cases h
  · split at h
    · cases h; exact ⟨.inl rfl, rfl, rfl, rfl, rfl, rfl, rfl⟩
    · cases hs : E.start p.conf p.inner with
      | none => rw [hs] at h; cases h
      | some s => rw [hs] at h; cases h; exact ⟨.inr rfl, rfl, rfl, rfl, rfl, rfl, rfl⟩
  · cases h; exact ⟨.inl rfl, rfl, rfl, rfl, rfl, rfl, rfl⟩

theorem Concluded.ran (L : E.Lawful) {p m : Parser σ} {w : Buf} {f : Bool} {r : Ret σ Status}
    (inv : Inv m) (inner : m.inner = p.inner ∨ E.start p.conf p.inner = some m.inner) (conf : m.conf = p.conf)
    (failed : m.failed = p.failed) (final : m.final = f) (endByte : m.endByte = p.endByte + w.length)
    (endIdx : m.endIdx = m.stop) (pending : m.queue.pending = p.queue.pending ++ w)
    (context : ∃ pre, p.buffer.take p.stop ++ w = pre ++ m.buffer.take m.stop) (posIdx : m.posIdx = some m.start)
    (h : Concluded { returned m (process E m m.queue.pending) with start := m.start + (process E m m.queue.pending).used }
      m.queue.pending (process E m m.queue.pending) r) : Ran E p w f m (r.as Val.status) := by
  refine ⟨inv, inner, conf, failed, final, endByte, endIdx, pending, context, posIdx, h.shown, h.calls, h.buffer, h.stop, h.start,
    h.endByte, h.endIdx, h.inner, h.event, ?_⟩
  rcases h.posIdx with hp | hp
  · refine ⟨m.start, hp.trans posIdx, Nat.le_refl _, ?_⟩
    have := h.start
    simp only [Ret.as] at *
    omega
  · exact ⟨_, hp, by simp, by have := h.start; simp only [Ret.as] at *; omega⟩

theorem parseBufferGo_ran (L : E.Lawful) {p : Parser σ} (I : Inv p) {w : Buf}
    (hw : w.length ≤ p.buffer.length - p.stop) (final : Bool) {r : Ret σ Status}
    (h : parseBufferGo E (write p w) w.length final = some r) :
    Ran E p w final (extend (write p w) w.length final) (r.as Val.status) := by
  have h1 := I.start; have h2 := I.stop; have h3 := I.size; have h6 := I.total
  have hlen := write_length h2 hw
  have hpend := write_pending I hw
  unfold parseBufferGo at h
  simp only at h
  rw [if_neg (by simp only [extend, write] at *; omega)] at h
  have hm : Inv (extend (write p w) w.length final) := by
    refine ⟨?_, ?_, ?_, fun _ => rfl, I.failed, ?_, fun j hj => ⟨?_, rfl⟩⟩
    · simp only [extend, write] at *; omega
    · simp only [extend, write] at *; omega
    · simp only [extend, write] at *; omega
    · simp only [extend, write] at *; omega
    · have := (I.event j hj).1; simp only [extend, write]; omega
  refine Concluded.ran L hm (.inl rfl) rfl rfl rfl rfl rfl hpend ⟨[], ?_⟩ rfl (conclude_concluded (.inl h))
  have hl : (p.buffer.take p.stop ++ w).length = p.stop + w.length := by simp; omega
  simp only [extend, write, List.nil_append]
  rw [List.take_append_of_le_length (Nat.le_of_eq hl.symm), List.take_of_length_le (Nat.le_of_eq hl)]

theorem parseBuffer_ran (L : E.Lawful) {p : Parser σ} (I : Inv p) {w : Buf}
    (hw : w.length ≤ p.buffer.length - p.stop) (final : Bool) {r : Ret σ Status}
    (h : parseBuffer E (write p w) w.length final = some r) :
    (∃ c, r = { val := .ERROR, st := { write p w with error := some c } }) ∨ ∃ m, Ran E p w final m (r.as Val.status) := by
  unfold parseBuffer at h
  rw [admit_write] at h
  rcases admit_spec (E := E) I with ⟨c, ha, _⟩ | ⟨q, ha, Iq, hp, hb, hs, _⟩
  · rw [ha] at h
    simp only [Sum.map_inl, Option.some.injEq] at h
    subst h
    exact .inl ⟨c, rfl⟩
  · rw [ha] at h
    simp only [Sum.map_inr] at h
    obtain ⟨f1, f2, f3, f4, f5, f6, f7⟩ := admit_frame ha
    have hr := parseBufferGo_ran L Iq (by rw [hb, hs]; exact hw) final h
    have hqp : q.queue.pending = p.queue.pending := by simp [Parser.queue, f5, f6, f7]
    refine .inr ⟨_, hr.inv, ?_, hr.conf.trans f2, hr.failed.trans f3, hr.final, hr.endByte.trans (by rw [f4]), hr.endIdx,
      hr.pending.trans (by rw [hqp]), ?_, hr.posIdx, hr.shown, hr.calls, hr.st_buffer, hr.st_stop, hr.st_start, hr.st_endByte,
      hr.st_endIdx, hr.st_inner, hr.st_event, hr.st_posIdx⟩
    · exact f1
    · have := hr.context
      rw [f5, f6] at this
      exact this

/-- XML_Parse: refused (only the error code, and maybe the checks at the start, have had an effect), or
nothing to do, or the processor ran. -/
theorem parse_ran (L : E.Lawful) {p : Parser σ} (I : Inv p) {w : Buf} (hw : w.length < 2 ^ 31) (final : Bool)
    {r : Ret σ Status} (h : parse E p w final = some r) :
    (r.shown = none ∧ r.calls = [] ∧ r.st.buffer = p.buffer ∧ r.st.start = p.start ∧ r.st.stop = p.stop ∧ r.st.endByte = p.endByte ∧
      r.st.endIdx = p.endIdx ∧ r.st.event = p.event ∧ r.st.posIdx = p.posIdx ∧
      (r.st.parsing = .SUSPENDED → p.parsing = .SUSPENDED)) ∨
    ∃ m, Ran E p w final m (r.as Val.status) := by
  have fr : ∀ {q}, admit E p = .inr q → q.endIdx = p.endIdx ∧ q.event = p.event ∧ q.posIdx = p.posIdx := by
    intro q h
    unfold admit at h
    split at h
    · cases h
    · cases h
    · split at h
      · cases h; exact ⟨rfl, rfl, rfl⟩
      · cases hs : E.start p.conf p.inner with
        | none => rw [hs] at h; cases h
        | some s => rw [hs] at h; cases h; exact ⟨rfl, rfl, rfl⟩
    · cases h; exact ⟨rfl, rfl, rfl⟩
  unfold parse at h
  rcases admit_spec (E := E) I with ⟨c, ha, hk⟩ | ⟨q, ha, Iq, hp, hb, hs, hk⟩
  · rw [ha] at h
    simp only [Option.some.injEq] at h
    subst h
    exact .inl ⟨rfl, rfl, rfl, rfl, rfl, rfl, rfl, rfl, rfl, id⟩
  · rw [ha] at h
    simp only at h
    obtain ⟨f1, f2, f3, f4, f5, f6, f7⟩ := admit_frame ha
    obtain ⟨e1, e2, e3⟩ := fr ha
    have hqp : q.queue.pending = p.queue.pending := by simp [Parser.queue, f5, f6, f7]
    by_cases h0 : w.length = 0
    · have hw0 : w = [] := List.length_eq_zero_iff.1 h0
      subst hw0
      rw [if_pos (by rfl : ([] : Buf).length = 0)] at h
      split at h
      · rename_i hf
        cases h
        exact .inl ⟨rfl, rfl, f5, f7, f6, f4, e1, e2, e3, fun g => absurd (hp.symm.trans g) (by simp)⟩
      · rename_i hf
        have hf : final = true := by simpa using hf
        subst hf
        have i1 := Iq.start; have i2 := Iq.stop
        rw [if_neg (by simp only [atEnd]; omega)] at h
        have hm : Inv (atEnd { q with final := true }) :=
          ⟨i1, i2, Iq.size, fun _ => rfl, Iq.failed, Iq.total, fun j hj => ⟨(Iq.event j hj).1, rfl⟩⟩
        refine .inr ⟨atEnd { q with final := true }, ?_⟩
        refine Concluded.ran L hm f1 f2 f3 rfl f4 rfl (by rw [List.append_nil]; exact hqp) ⟨[], ?_⟩ rfl (conclude_concluded (.inr h))
        simp [atEnd, f5, f6]
    · rw [if_neg h0] at h
      obtain ⟨g, hg, g1, g2, g3⟩ := getBuffer_spec (E := E) Iq (w.length : Int) (by omega)
      have hctx := fun n (hv : g.val = some n) => getBuffer_context Iq (by omega) hg hv
      obtain ⟨k1, k2, k3⟩ := getBuffer_frame hg
      obtain ⟨gv, gs, gc, gst⟩ := g
      simp only at g1 g2 g3 hctx k1 k2 k3
      subst g1 g2
      rw [hg] at h
      rcases g3 with ⟨gv0, c, hc, hcase⟩ | ⟨hv, _, hroom, n1, n2, hqueue, hinv, _⟩
      · subst gv0
        simp only [Option.some.injEq] at h
        subst h hc
        exact .inl ⟨rfl, rfl, f5, f7, f6, f4, e1, e2, e3, fun g => absurd (hp.symm.trans g) (by simp)⟩
      · subst hv
        simp only at h
        rw [if_neg (by omega)] at h
        obtain ⟨pre, hpre⟩ := hctx _ rfl
        have gp : gst.parsing = .PARSING := (congrArg Queue.parsing hqueue).trans hp
        have hgo : parseBufferGo E (write gst w) w.length final = some r := by
          have : admit E (write gst w) = .inr (write gst w) := by
            unfold admit
            have : (write gst w).parsing = .PARSING := gp
            rw [this]
          unfold parseBuffer at h
          rw [this] at h
          exact h
        have hr := parseBufferGo_ran L hinv (w := w) (by omega) final hgo
        have q1 : gst.inner = q.inner := congrArg Queue.inner hqueue
        have q2 : gst.conf = q.conf := congrArg Queue.conf hqueue
        have q3 : gst.failed = q.failed := congrArg Queue.failed hqueue
        have q4 : gst.queue.pending = q.queue.pending := congrArg Queue.pending hqueue
        refine .inr ⟨_, hr.inv, ?_, hr.conf.trans (q2.trans f2), hr.failed.trans (q3.trans f3), hr.final, hr.endByte.trans (by rw [k1, f4]),
          hr.endIdx, hr.pending.trans (by rw [q4, hqp]), ?_, hr.posIdx, hr.shown, hr.calls, hr.st_buffer, hr.st_stop, hr.st_start,
          hr.st_endByte, hr.st_endIdx, hr.st_inner, hr.st_event, hr.st_posIdx⟩
        · have : (extend (write gst w) w.length final).inner = gst.inner := rfl
          rw [this, q1]; exact f1
        · obtain ⟨pre', h'⟩ := hr.context
          refine ⟨pre ++ pre', ?_⟩
          rw [← f5, ← f6, hpre, List.append_assoc, h', List.append_assoc]

/-- No panic: all calls but XML_ResumeParser and the queries about the position return. -/
theorem step_total (L : E.Lawful) (hu : ∀ s b x, E.upd s b x ≠ none) {p : Parser σ} (I : Inv p) {c : Call} (hc : Contract p c)
    (h1 : c ≠ .resume) (h2 : c.isQuery = false) : ∃ r, step E p c = some r := by
  have conc : ∀ (m : Parser σ), Inv m → m.endIdx = m.stop → m.posIdx = some m.start → ∀ b, b.length = m.stop - m.start →
      (∃ r, conclude E { returned m (process E m b) with start := m.start + (process E m b).used } b (process E m b) = some r) ∧
      (∃ r, concludeFinal E { returned m (process E m b) with start := m.start + (process E m b).used } b (process E m b) = some r) := by
    intro m Im he hp b hb
    have hus : (process E m b).used ≤ b.length := work_used L m.queue b
    have i1 := Im.start; have i2 := Im.stop
    have ha := advancePos_total hu (p := { returned m (process E m b) with start := m.start + (process E m b).used })
      (i := m.start) hp (by simp) (by simp only [returned]; omega)
    cases hx : advancePos E { returned m (process E m b) with start := m.start + (process E m b).used } with
    | none => exact absurd hx ha
    | some q =>
      unfold conclude concludeFinal
      rw [hx]
      constructor
      · split
        · exact ⟨_, rfl⟩
        · split <;> exact ⟨_, rfl⟩
      · split
        · exact ⟨_, rfl⟩
        · split <;> exact ⟨_, rfl⟩
  have go : ∀ (p : Parser σ), Inv p → ∀ w : Buf, w.length ≤ p.buffer.length - p.stop → ∀ f, ∃ r, parseBufferGo E (write p w) w.length f = some r := by
    intro p I w hw f
    have h1 := I.start; have h2 := I.stop; have h3 := I.size; have h6 := I.total
    have hlen := write_length h2 hw
    unfold parseBufferGo
    simp only
    rw [if_neg (by simp only [extend, write] at *; omega)]
    have hm : Inv (extend (write p w) w.length f) := by
      refine ⟨?_, ?_, ?_, fun _ => rfl, I.failed, ?_, fun j hj => ⟨?_, rfl⟩⟩
      · simp only [extend, write] at *; omega
      · simp only [extend, write] at *; omega
      · simp only [extend, write] at *; omega
      · simp only [extend, write] at *; omega
      · have := (I.event j hj).1; simp only [extend, write] at *; omega
    exact (conc _ hm rfl rfl _ (by have := hm.start; have := hm.stop; simp [-List.length_append] at *; omega)).1
  have pb : ∀ (p : Parser σ), Inv p → ∀ w : Buf, w.length ≤ p.buffer.length - p.stop → ∀ f, ∃ r, parseBuffer E (write p w) w.length f = some r := by
    intro p I w hw f
    unfold parseBuffer
    rw [admit_write]
    rcases admit_spec (E := E) I with ⟨c, ha, _⟩ | ⟨q, ha, Iq, hp, hb, hs, _⟩
    · rw [ha]; exact ⟨_, rfl⟩
    · rw [ha]; exact go q Iq w (by rw [hb, hs]; exact hw) f
  cases c with
  | parse w f =>
    suffices ∃ r, parse E p w f = some r by
      obtain ⟨r, hr⟩ := this
      exact ⟨_, by rw [step, hr]; rfl⟩
    unfold parse
    rcases admit_spec (E := E) I with ⟨c, ha, hk⟩ | ⟨q, ha, Iq, hp, hb, hs, hk⟩
    · rw [ha]; exact ⟨_, rfl⟩
    · rw [ha]
      simp only
      by_cases h0 : w.length = 0
      · rw [if_pos h0]
        split
        · exact ⟨_, rfl⟩
        · have i1 := Iq.start; have i2 := Iq.stop
          rw [if_neg (by simp only [atEnd]; omega)]
          have hm : Inv (atEnd { q with final := f }) :=
            ⟨i1, i2, Iq.size, fun _ => rfl, Iq.failed, Iq.total, fun j hj => ⟨(Iq.event j hj).1, rfl⟩⟩
          exact (conc _ hm rfl rfl _ (by simp [atEnd]; omega)).2
      · rw [if_neg h0]
        have hc : w.length < 2 ^ 31 := hc
        obtain ⟨g, hg, g1, g2, g3⟩ := getBuffer_spec (E := E) Iq (w.length : Int) (by omega)
        obtain ⟨gv, gs, gc, gst⟩ := g
        simp only at g1 g2 g3
        rw [hg]
        rcases g3 with ⟨gv0, c, hc, hcase⟩ | ⟨hv, _, hroom, n1, n2, hqueue, hinv, _⟩
        · subst gv0; exact ⟨_, rfl⟩
        · subst hv
          simp only
          rw [if_neg (by omega)]
          exact pb gst hinv w (by omega) f
  | parseBuffer w f =>
    obtain ⟨r, hr⟩ := pb p I w hc f
    exact ⟨_, by rw [step, hr]; rfl⟩
  | getBuffer len =>
    obtain ⟨g, hg, _⟩ := getBuffer_spec (E := E) I len hc
    exact ⟨_, by rw [step, hg]; rfl⟩
  | resume => exact absurd rfl h1
  | lineNumber => cases h2
  | columnNumber => cases h2
  | byteIndex => cases h2
  | byteCount => cases h2
  | _ => exact ⟨_, rfl⟩

end Verif.Api
