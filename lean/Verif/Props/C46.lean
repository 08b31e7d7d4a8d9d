import Verif.Props.C45

/-! C46: the byte index is the number of bytes supplied before the current event, however they were
supplied.  (Exception: the panic of C45.) -/

set_option autoImplicit false

namespace Verif.C46
open Verif Verif.Api Verif.C41

variable {σ : Type} {E : Engine σ}

/-- The parser a handler sees: the processor has set the current event to `o` bytes after the start of
the bytes it was given. -/
def inHandler (m : Parser σ) (o : Nat) : Parser σ := { m with event := some (m.start + o) }

theorem byteIndex_at {p : Parser σ} {j : Nat} (he : p.event = some j) (h1 : j ≤ p.stop) (h2 : p.endIdx = p.stop) (h3 : p.stop ≤ p.endByte) :
    byteIndex p = if j < p.buffer.length then some ((p.endByte - (p.stop - j) : Nat) : Int) else none := by
  unfold byteIndex
  simp only [he]
  split
  · rw [if_neg (by omega), h2]
  · rfl

/-- **C46**, in a handler: the processor was started on `m`, on a parser that had the tape `t`, with the
new bytes `w`; the current event is `o` bytes into what the processor was given.  Then the byte index is
the number of bytes supplied before the event: what follows it in the supply is what follows it in the
bytes the processor has. -/
theorem during_partial {t : Tape} {p m : Parser σ} {w : Buf} {final : Bool} {r : Ret σ Val} (ht : Holds t p)
    (hr : Api.Ran E p w final m r) {o : Nat} (ho : o ≤ m.queue.pending.length)
    (hfull : m.start + o ≠ m.buffer.length) :
    byteIndex (inHandler m o) = some ((t.done + o : Nat) : Int) ∧ (t.all ++ w).drop (t.done + o) = m.queue.pending.drop o := by
  have hp : m.queue.pending = (t.all ++ w).drop t.done := by
    rw [hr.pending, List.drop_append_of_le_length ht.done, ← ht.waiting]
    rfl
  have i1 := hr.inv.start; have i2 := hr.inv.stop; have i3 := hr.inv.total
  have hlen : m.queue.pending.length = m.stop - m.start := by simp [Parser.queue]; omega
  have hcount := ht.count; have hd := ht.done
  have hl2 : m.queue.pending.length = t.all.length + w.length - t.done := by rw [hp]; simp
  constructor
  · rw [byteIndex_at (p := inHandler m o) (j := m.start + o) rfl (by simp only [inHandler]; omega) hr.endIdx i3]
    rw [if_pos (by simp only [inHandler]; omega)]
    have := hr.endByte
    simp only [inHandler, Option.some.injEq]
    omega
  · rw [hp, List.drop_drop]

/-- **C46**, between calls: after a call that ran the processor on a parser that had not failed, the byte
index is the number of bytes supplied before the event the processor left as the current one. -/
theorem after_partial (L : E.Lawful) {t : Tape} {p m : Parser σ} {w : Buf} {final : Bool} {r : Ret σ Val} (ht : Holds t p)
    (hr : Api.Ran E p w final m r) (hf : p.failed = false) (hfull : r.st.event ≠ some r.st.buffer.length) :
    ∃ d : Done σ, d = E.proc p.conf m.inner final m.queue.pending ∧
      byteIndex r.st = some ((t.done + d.event : Nat) : Int) ∧
      (t.all ++ w).drop (t.done + d.event) = m.queue.pending.drop d.event := by
  have hpr : process E m m.queue.pending = E.proc p.conf m.inner final m.queue.pending := by
    unfold process
    rw [hr.failed, hf, hr.conf, hr.final]
    rfl
  have hmf : m.failed = false := hr.failed.trans hf
  have hev := hr.st_event
  rw [hmf, hpr] at hev
  simp only [Bool.false_eq_true, if_false] at hev
  have ho := L.event p.conf m.inner final m.queue.pending
  rw [hev, hr.st_buffer] at hfull
  have hd := during_partial ht hr ho (fun g => hfull (by rw [g]))
  refine ⟨_, rfl, ?_, hd.2⟩
  rw [← hd.1]
  have e1 : byteIndex r.st = byteIndex (inHandler m (E.proc p.conf m.inner final m.queue.pending).event) := by
    unfold byteIndex
    rw [hev, hr.st_buffer, hr.st_endIdx, hr.st_endByte]
    rfl
  exact e1

/-- Every parse call on a new parser, after any history, is of this kind, or no processor ran. -/
theorem reached (L : E.Lawful) (enc : Option Buf) {p : Parser σ} {cs : List Call} {rs : List (Ret σ Val)}
    (h : Path E (create E enc) cs rs p) {w : Buf} {final : Bool} {c : Call} (hc : c = .parse w final ∨ c = .parseBuffer w final)
    (hk : Contract p c) {r : Ret σ Val} (hr : step E p c = some r) :
    r.shown = none ∨ ∃ t m, Taped E (create E enc) cs rs ⟨[], 0⟩ t ∧ Holds t p ∧ Api.Ran E p w final m r := by
  obtain ⟨t, ht, hh⟩ := new_parser L enc h
  have I := h.inv L (.create enc)
  rcases hc with rfl | rfl
  · simp only [step, Option.map_eq_some_iff] at hr
    obtain ⟨r', hr, rfl⟩ := hr
    rcases parse_ran L I hk final hr with ⟨h1, _⟩ | ⟨m, hm⟩
    · exact .inl h1
    · exact .inr ⟨t, m, ht, hh, hm⟩
  · simp only [step, Option.map_eq_some_iff] at hr
    obtain ⟨r', hr, rfl⟩ := hr
    rcases parseBuffer_ran L I hk final hr with ⟨e, rfl⟩ | ⟨m, hm⟩
    · exact .inl rfl
    · exact .inr ⟨t, m, ht, hh, hm⟩

/-- The panic at the end of a full buffer is C45's. -/
theorem full_buffer {p : Parser σ} (h : p.event = some p.buffer.length) : byteIndex p = none := by
  simp [byteIndex, h]

/-- Chunks of 3, 1 and 2 bytes; the index after each call. -/
example : ((steps toy (create toy none)
      [.parse [0x61, 0x62, 0x63] false, .byteIndex, .parse [0x64] false, .byteIndex, .getBuffer 2000, .parseBuffer [0x65, 0x66] false, .byteIndex]).map
        fun x => x.1.map (·.val)) =
    some [.status .OK, .num 2, .status .OK, .num 4, .pointer true, .status .OK, .num 6] := by decide +kernel

end Verif.C46
