import Verif.ApiQueue

/-! The calls on a parser are those on its queue. -/

set_option autoImplicit false

namespace Verif.Api
open Verif

variable {σ : Type} {E : Engine σ}

theorem Inv.create (enc : Option Buf) : Inv (create E enc) := by
  constructor <;> simp [Api.create]

theorem take_drop_append_take {b c : Buf} {i j : Nat} (h : j ≤ b.length) :
    (((b.take j).drop i ++ c).take (j - i)) = (b.take j).drop i := by
  have hl : ((b.take j).drop i).length = j - i := by simp; omega
  rw [List.take_append_of_le_length (by omega), List.take_of_length_le (by omega)]

theorem drop_sub {b : Buf} {i j k : Nat} (h : i ≤ k) :
    ((b.take j).drop i).drop (k - i) = (b.take j).drop k := by
  rw [List.drop_drop]; congr 1; omega

theorem grow_spec (size needed : Nat) (hs : size < 2 ^ 31) :
    ∀ n, grow size needed = some n → needed ≤ n ∧ n < 2 ^ 31 := by
  fun_induction grow size needed <;> grind

/-- XML_GetBuffer: a null pointer and an error code, or room enough and the same queue. -/
theorem getBuffer_spec {p : Parser σ} (I : Inv p) (len : Int) (hl : len < 2 ^ 31) :
    ∃ r, getBuffer E p len = some r ∧ r.shown = none ∧ r.calls = [] ∧
      ((r.val = none ∧ (∃ c, r.st = { p with error := some c } ∧
          ((len < 0 ∧ c = .NO_MEMORY) ∨ (0 ≤ len ∧ p.parsing = .SUSPENDED ∧ c = .SUSPENDED) ∨
            (0 ≤ len ∧ p.parsing = .FINISHED ∧ c = .FINISHED) ∨
            (0 ≤ len ∧ p.parsing ≠ .SUSPENDED ∧ p.parsing ≠ .FINISHED ∧ c = .NO_MEMORY)))) ∨
       (r.val = some (r.st.buffer.length - r.st.stop) ∧ 0 ≤ len ∧ len ≤ r.st.buffer.length - r.st.stop ∧
          p.parsing ≠ .SUSPENDED ∧ p.parsing ≠ .FINISHED ∧
          r.st.queue = p.queue ∧ Inv r.st ∧
          (r.st = p ∨ (r.st.start ≤ 1024 ∧ r.st.event = none ∧ r.st.eventEnd = none ∧ r.st.posIdx = none)))) := by
  obtain ⟨i1, i2, i3, i4, i5, i6, i7⟩ := I
  unfold getBuffer
  by_cases h0 : len < 0
  · simp [h0]
  rw [if_neg h0]
  by_cases h1 : p.parsing = .SUSPENDED
  · rw [if_pos h1]; exact ⟨_, rfl, rfl, rfl, .inl ⟨rfl, _, rfl, .inr (.inl ⟨by omega, h1, rfl⟩)⟩⟩
  rw [if_neg h1]
  by_cases h2 : p.parsing = .FINISHED
  · rw [if_pos h2]; exact ⟨_, rfl, rfl, rfl, .inl ⟨rfl, _, rfl, .inr (.inr (.inl ⟨by omega, h2, rfl⟩))⟩⟩
  rw [if_neg h2]
  simp only
  rw [if_neg (by omega : ¬ p.buffer.length < p.stop)]
  by_cases h3 : len.toNat ≤ p.buffer.length - p.stop
  · rw [if_pos h3]
    exact ⟨_, rfl, rfl, rfl, .inr ⟨rfl, by omega, by simp only; omega, h1, h2, rfl, ⟨i1, i2, i3, i4, i5, i6, i7⟩, .inl rfl⟩⟩
  rw [if_neg h3, if_neg (by omega)]
  have nomem : ∃ r : Ret σ (Option Nat), some { val := none, st := { p with error := some XErr.NO_MEMORY } } = some r ∧ r.shown = none ∧ r.calls = [] ∧
      ((r.val = none ∧ (∃ c, r.st = { p with error := some c } ∧
          ((len < 0 ∧ c = .NO_MEMORY) ∨ (0 ≤ len ∧ p.parsing = .SUSPENDED ∧ c = .SUSPENDED) ∨
            (0 ≤ len ∧ p.parsing = .FINISHED ∧ c = .FINISHED) ∨
            (0 ≤ len ∧ p.parsing ≠ .SUSPENDED ∧ p.parsing ≠ .FINISHED ∧ c = .NO_MEMORY)))) ∨
       (r.val = some (r.st.buffer.length - r.st.stop) ∧ 0 ≤ len ∧ len ≤ r.st.buffer.length - r.st.stop ∧
          p.parsing ≠ .SUSPENDED ∧ p.parsing ≠ .FINISHED ∧
          r.st.queue = p.queue ∧ Inv r.st ∧
          (r.st = p ∨ (r.st.start ≤ 1024 ∧ r.st.event = none ∧ r.st.eventEnd = none ∧ r.st.posIdx = none)))) :=
    ⟨_, rfl, rfl, rfl, .inl ⟨rfl, _, rfl, .inr (.inr (.inr ⟨by omega, h1, h2, rfl⟩))⟩⟩
  by_cases h4 : 2 ^ 31 ≤ len.toNat + (p.stop - p.start)
  · rw [if_pos h4]; exact nomem
  rw [if_neg h4]
  by_cases h5 : len.toNat + (p.stop - p.start) + min 1024 p.start ≤ p.buffer.length
  · rw [if_pos h5]
    have hk : min 1024 p.start < p.start := by omega
    rw [if_pos hk]
    have hb : ((p.buffer.take p.stop).drop (p.start - min 1024 p.start) ++
        p.buffer.drop (p.stop - (p.start - min 1024 p.start))).length = p.buffer.length := by simp; omega
    refine ⟨_, rfl, rfl, rfl, .inr ⟨rfl, by omega, ?_, h1, h2, ?_, ?_, .inr ⟨?_, rfl, rfl, rfl⟩⟩⟩
    · simp only [hb]; omega
    · simp only [Parser.queue, Queue.mk.injEq, and_true]
      rw [take_drop_append_take i2, drop_sub (by omega)]
    · constructor <;> simp only [hb] <;> first | omega | assumption | (intro h; exact absurd h h1) | (intro _ h; cases h)
    · simp only; omega
  · rw [if_neg h5]
    rw [if_neg (by split <;> omega)]
    split
    · exact nomem
    · rename_i size hg
      have ⟨g1, g2⟩ := grow_spec _ _ (by split <;> omega) _ hg
      rw [if_neg (by omega : ¬ size < p.buffer.length)]
      split
      · exact nomem
      · by_cases h6 : p.start < p.stop
        · rw [if_pos h6]
          have hc : (p.buffer ++ List.replicate (size - p.buffer.length) (0 : UInt8)).take p.stop = p.buffer.take p.stop := by
            rw [List.take_append_of_le_length i2]
          have hb : (((p.buffer ++ List.replicate (size - p.buffer.length) (0 : UInt8)).take p.stop).drop (p.start - min 1024 p.start) ++
              (p.buffer ++ List.replicate (size - p.buffer.length) (0 : UInt8)).drop (p.stop - (p.start - min 1024 p.start))).length = size := by
            simp; omega
          refine ⟨_, rfl, rfl, rfl, .inr ⟨rfl, by omega, ?_, h1, h2, ?_, ?_, .inr ⟨?_, rfl, rfl, rfl⟩⟩⟩
          · simp only [hb]; omega
          · simp only [Parser.queue, Queue.mk.injEq, and_true]
            rw [hc]
            have : p.stop - p.start + min 1024 p.start = p.stop - (p.start - min 1024 p.start) := by omega
            rw [this, take_drop_append_take i2, List.drop_drop]; congr 1; omega
          · constructor <;> simp only [hb] <;> first | omega | assumption | (intro h; exact absurd h h1) | (intro _ h; cases h)
          · simp only; omega
        · rw [if_neg h6]
          have hb : (p.buffer ++ List.replicate (size - p.buffer.length) (0 : UInt8)).length = size := by simp; omega
          refine ⟨_, rfl, rfl, rfl, .inr ⟨rfl, by omega, ?_, h1, h2, ?_, ?_, .inr ⟨?_, rfl, rfl, rfl⟩⟩⟩
          · simp only [hb]; omega
          · simp only [Parser.queue, Queue.mk.injEq, and_true]
            simp; omega
          · constructor <;> simp only [hb] <;> first | omega | assumption | (intro h; exact absurd h h1) | (intro _ h; cases h)
          · simp

/-- What a call gave, on the queue. -/
def Ret.q (r : Ret σ Val) : QRet σ := ⟨r.val, r.shown, r.calls, r.st.queue⟩

theorem work_eq (p : Parser σ) (b : Buf) : process E p b = Queue.work E p.queue b := rfl

theorem work_used (L : E.Lawful) (a : Queue σ) (b : Buf) : (Queue.work E a b).used ≤ b.length := by
  unfold Queue.work; split
  · simp
  · exact L.used ..

theorem work_event (L : E.Lawful) (a : Queue σ) (b : Buf) : (Queue.work E a b).event ≤ b.length := by
  unfold Queue.work; split
  · simp
  · exact L.event ..

theorem work_parsing (L : E.Lawful) (a : Queue σ) (b : Buf) (h : a.parsing = .PARSING) :
    (Queue.work E a b).parsing ≠ .INITIALIZED := by
  unfold Queue.work; split
  · simp [h]
  · exact L.parsing _ _ _ _

theorem advancePos_eq {p q : Parser σ} (h : advancePos E p = some q) :
    ∃ c i, q = { p with pos := c, posIdx := i } := by
  unfold advancePos at h
  split at h
  · cases h
  · split at h
    · cases h
    · split at h
      · cases h
      · cases h; exact ⟨_, _, rfl⟩

theorem write_length {p : Parser σ} {w : Buf} (h1 : p.stop ≤ p.buffer.length)
    (h : w.length ≤ p.buffer.length - p.stop) : (write p w).buffer.length = p.buffer.length := by
  simp [write]; omega

theorem write_pending {p : Parser σ} {w : Buf} (I : Inv p) (h : w.length ≤ p.buffer.length - p.stop) :
    ((write p w).buffer.take (p.stop + w.length)).drop p.start = p.queue.pending ++ w := by
  have h1 := I.start; have h2 := I.stop
  simp only [write, Parser.queue]
  have hl : (p.buffer.take p.stop ++ w).length = p.stop + w.length := by simp; omega
  rw [List.take_append_of_le_length (by omega), List.take_of_length_le (by omega),
    List.drop_append_of_le_length (by simp; omega)]

theorem conclude_spec {q : Parser σ} (I : Inv q) {b : Buf} {d : Done σ} (hp : q.parsing = d.parsing)
    (he : q.error = d.code) (hn : d.parsing ≠ .INITIALIZED) {r : Ret σ Status} (h : conclude E q b d = some r) :
    Inv r.st ∧ (r.as Val.status).q = Queue.settle q.queue b d := by
  obtain ⟨i1, i2, i3, i4, i5, i6, i7⟩ := I
  unfold conclude at h
  unfold Queue.settle
  cases hc : d.code with
  | some c =>
    simp only [hc, Option.some.injEq] at h ⊢
    subst h
    exact ⟨⟨i1, i2, i3, i4, fun _ => by simp [Api.fail, he, hc], i6, i7⟩, rfl⟩
  | none =>
    simp only [hc] at h ⊢
    split at h
    · rename_i hh
      cases h
      have hd : d.parsing = .PARSING := hh.1.resolve_left hn
      refine ⟨⟨i1, i2, i3, fun g => (by cases g), i5, i6, i7⟩, ?_⟩
      have hf : q.queue.final = true := hh.2
      simp [hd, hh.2, Ret.q, Ret.as, Parser.queue]
    · rename_i hh
      cases ha : advancePos E q with
      | none => simp [ha] at h
      | some q' =>
        simp only [ha, Option.map_some, Option.some.injEq] at h
        obtain ⟨c, i, rfl⟩ := advancePos_eq ha
        subst h
        refine ⟨⟨i1, i2, i3, i4, i5, i6, i7⟩, ?_⟩
        by_cases hs : d.parsing = .SUSPENDED
        · simp [hs, Ret.q, Ret.as, Parser.queue]
        · simp only [hs, if_false, Ret.q, Ret.as]
          simp only [QRet.mk.injEq, true_and]
          simp only [Parser.queue, Queue.mk.injEq, true_and, and_true, hp]
          cases hf : q.final with
          | false => simp
          | true =>
            have : d.parsing = .FINISHED := by
              simp only [hf, and_true] at hh
              cases hx : d.parsing <;> simp_all
            simp [this]

theorem concludeFinal_spec {q : Parser σ} (I : Inv q) {b : Buf} {d : Done σ} (hp : q.parsing = d.parsing)
    (he : q.error = d.code) (hf : q.final = true) {r : Ret σ Status} (h : concludeFinal E q b d = some r) :
    Inv r.st ∧ (r.as Val.status).q = Queue.settle q.queue b d := by
  obtain ⟨i1, i2, i3, i4, i5, i6, i7⟩ := I
  unfold concludeFinal at h
  unfold Queue.settle
  cases hc : d.code with
  | some c =>
    simp only [hc, Option.some.injEq] at h ⊢
    subst h
    exact ⟨⟨i1, i2, i3, i4, fun _ => by simp [Api.fail, he, hc], i6, i7⟩, rfl⟩
  | none =>
    simp only [hc] at h ⊢
    split at h
    · rename_i hh
      cases ha : advancePos E q with
      | none => simp [ha] at h
      | some q' =>
        simp only [ha, Option.map_some, Option.some.injEq] at h
        obtain ⟨c, i, rfl⟩ := advancePos_eq ha
        subst h
        refine ⟨⟨i1, i2, i3, i4, i5, i6, i7⟩, ?_⟩
        simp [hh, Ret.q, Ret.as, Parser.queue]
    · rename_i hh
      cases h
      refine ⟨⟨i1, i2, i3, fun g => (by cases g), i5, i6, i7⟩, ?_⟩
      have : q.queue.final = true := hf
      simp [hh, hf, Ret.q, Ret.as, Parser.queue]

/-- The parser when the processor has returned. -/
theorem inv_returned (L : E.Lawful) {p : Parser σ} (i1 : p.start ≤ p.stop) (i2 : p.stop ≤ p.buffer.length)
    (i3 : p.buffer.length < 2 ^ 31) (i5 : p.failed = true → p.error ≠ none) (i6 : p.stop ≤ p.endByte)
    (i7 : ∀ j, p.event = some j → j ≤ p.stop) (i4 : p.endIdx = p.stop) {b : Buf} (hb : b.length = p.stop - p.start) :
    Inv { returned p (process E p b) with start := p.start + (process E p b).used } ∧ Inv (returned p (process E p b)) := by
  have hu : (process E p b).used ≤ b.length := work_used L p.queue b
  have he : p.failed = true → (process E p b).code ≠ none := by
    intro hf
    simp only [process, hf, if_true]
    exact i5 hf
  have hv : (process E p b).event ≤ b.length := work_event L p.queue b
  have hev : ∀ j, (if p.failed = true then p.event else some (p.start + (process E p b).event)) = some j →
      j ≤ p.stop ∧ p.endIdx = p.stop := by
    intro j hj
    refine ⟨?_, i4⟩
    split at hj
    · exact i7 j hj
    · cases hj; omega
  constructor <;> constructor <;> simp only [returned] <;> first | omega | exact he | exact fun _ => i4 | exact hev

theorem parseBufferGo_spec (L : E.Lawful) {p : Parser σ} (I : Inv p) (hp : p.parsing = .PARSING) {w : Buf}
    (hw : w.length ≤ p.buffer.length - p.stop) (final : Bool) {r : Ret σ Status}
    (h : parseBufferGo E (write p w) w.length final = some r) :
    Inv r.st ∧ (r.as Val.status).q = Queue.input E p.queue w final := by
  have h1 := I.start; have h2 := I.stop; have h3 := I.size; have h6 := I.total
  have hlen := write_length h2 hw
  have hpend := write_pending I hw
  unfold parseBufferGo at h
  simp only at h
  rw [if_neg (by simp only [extend, write] at *; omega)] at h
  have hb : ((extend (write p w) w.length final).buffer.take (extend (write p w) w.length final).stop).drop
      (extend (write p w) w.length final).start = p.queue.pending ++ w := hpend
  rw [hb] at h
  have hpl : (p.queue.pending ++ w).length = p.stop - p.start + w.length := by
    simp [Parser.queue]; omega
  have hI := inv_returned L (p := extend (write p w) w.length final) (b := p.queue.pending ++ w)
    (by simp only [extend, write]; omega) (by simp only [extend, write] at *; omega)
    (by simp only [extend, write] at *; omega) I.failed
    (by simp only [extend, write]; omega) (fun j hj => Nat.le_trans (I.event j hj).1 (by simp only [extend, write]; omega)) rfl
    (by simp only [extend, write] at *; omega)
  have hx := conclude_spec hI.1 rfl rfl (work_parsing L (extend (write p w) w.length final).queue _ hp) h
  refine ⟨hx.1, hx.2.trans ?_⟩
  unfold Queue.input Queue.give
  congr 1
  simp only [Parser.queue, returned, Queue.mk.injEq]
  refine ⟨?_, rfl, rfl, rfl, rfl, rfl, rfl, rfl, rfl, rfl⟩
  have hd := congrArg (List.drop (Queue.work E { p.queue with total := p.queue.total + w.length, final := final } (p.queue.pending ++ w)).used) hpend
  rw [List.drop_drop] at hd
  exact hd

/-- The checks at the start of a parse call. -/
theorem admit_spec {p : Parser σ} (I : Inv p) :
    (∃ c, admit E p = .inl { p with error := some c } ∧ ∀ k, Queue.started E p.queue k = p.queue.refuse c) ∨
    (∃ q, admit E p = .inr q ∧ Inv q ∧ q.parsing = .PARSING ∧ q.buffer = p.buffer ∧ q.stop = p.stop ∧
      ∀ k, Queue.started E p.queue k = k q.queue) := by
  obtain ⟨i1, i2, i3, i4, i5, i6, i7⟩ := I
  unfold admit Queue.started
  have hp : p.queue.parsing = p.parsing := rfl
  have hc : p.queue.child = p.child := rfl
  have hs : E.start p.queue.conf p.queue.inner = E.start p.conf p.inner := rfl
  rw [hp, hc, hs]
  cases hq : p.parsing with
  | SUSPENDED => exact .inl ⟨_, rfl, fun k => rfl⟩
  | FINISHED => exact .inl ⟨_, rfl, fun k => rfl⟩
  | PARSING => exact .inr ⟨p, rfl, ⟨i1, i2, i3, i4, i5, i6, i7⟩, hq, rfl, rfl, fun k => rfl⟩
  | INITIALIZED =>
    simp only
    split
    · exact .inr ⟨_, rfl, ⟨i1, i2, i3, fun h => (by cases h), i5, i6, i7⟩, rfl, rfl, rfl, fun k => rfl⟩
    · cases E.start p.conf p.inner with
      | none => exact .inl ⟨_, rfl, fun k => rfl⟩
      | some s => exact .inr ⟨_, rfl, ⟨i1, i2, i3, fun h => (by cases h), i5, i6, i7⟩, rfl, rfl, rfl, fun k => rfl⟩

theorem Inv.error {p : Parser σ} (I : Inv p) (c : XErr) : Inv { p with error := some c } :=
  ⟨I.start, I.stop, I.size, I.endIdx, fun _ => by simp, I.total, I.event⟩

theorem Inv.write {p : Parser σ} (I : Inv p) {w : Buf} (h : w.length ≤ p.buffer.length - p.stop) : Inv (write p w) := by
  have hl := write_length I.stop h
  exact ⟨I.start, by rw [hl]; exact I.stop, by rw [hl]; exact I.size, I.endIdx, I.failed, I.total, I.event⟩

theorem write_queue {p : Parser σ} (I : Inv p) (w : Buf) : (Api.write p w).queue = p.queue := by
  have := I.stop
  simp only [Parser.queue, Api.write, Queue.mk.injEq, and_true]
  rw [List.append_assoc, List.take_append_of_le_length (by simp; omega), List.take_take, Nat.min_self]

theorem admit_write (p : Parser σ) (w : Buf) :
    admit E (write p w) = Sum.map (write · w) (write · w) (admit E p) := by
  unfold admit
  have h1 : (write p w).parsing = p.parsing := rfl
  have h2 : (write p w).child = p.child := rfl
  have h3 : E.start (write p w).conf (write p w).inner = E.start p.conf p.inner := rfl
  rw [h1, h2, h3]
  cases p.parsing
  · simp only
    by_cases hc : p.child = true
    · rw [if_pos hc, if_pos hc]; rfl
    · rw [if_neg hc, if_neg hc]; cases E.start p.conf p.inner <;> rfl
  all_goals rfl

theorem parseBuffer_spec (L : E.Lawful) {p : Parser σ} (I : Inv p) {w : Buf}
    (hw : w.length ≤ p.buffer.length - p.stop) (final : Bool) {r : Ret σ Status}
    (h : parseBuffer E (write p w) w.length final = some r) :
    Inv r.st ∧ (r.as Val.status).q = Queue.started E p.queue fun a => Queue.input E a w final := by
  unfold parseBuffer at h
  rw [admit_write] at h
  rcases admit_spec (E := E) I with ⟨c, ha, hk⟩ | ⟨q, ha, Iq, hp, hb, hs, hk⟩
  · rw [ha] at h
    simp only [Sum.map_inl, Option.some.injEq] at h
    subst h
    rw [hk]
    refine ⟨(I.error c).write hw, ?_⟩
    simp only [Ret.q, Ret.as, Queue.refuse, QRet.mk.injEq, true_and]
    rw [write_queue (I.error c)]
    rfl
  · rw [ha] at h
    simp only [Sum.map_inr] at h
    rw [hk]
    exact parseBufferGo_spec L Iq hp (by rw [hb, hs]; exact hw) final h

/-- There was no memory for the call. -/
def Starved (E : Engine σ) (p : Parser σ) : Call → Prop
  | .parse w _ => ∃ q r, admit E p = .inr q ∧ getBuffer E q w.length = some r ∧ r.val = none
  | .getBuffer len => 0 ≤ len ∧ p.parsing ≠ .SUSPENDED ∧ p.parsing ≠ .FINISHED ∧ ∃ r, getBuffer E p len = some r ∧ r.val = none
  | _ => False

theorem parse_spec (L : E.Lawful) {p : Parser σ} (I : Inv p) {w : Buf} (hw : w.length < 2 ^ 31) (final : Bool)
    {r : Ret σ Status} (h : parse E p w final = some r) :
    Inv r.st ∧ ∃ mem, (mem = false → Starved E p (.parse w final)) ∧
      (r.as Val.status).q = Queue.step E mem p.queue (.parse w final) := by
  unfold parse at h
  simp only [Queue.step]
  rcases admit_spec (E := E) I with ⟨c, ha, hk⟩ | ⟨q, ha, Iq, hp, hb, hs, hk⟩
  · rw [ha] at h
    simp only [Option.some.injEq] at h
    subst h
    refine ⟨I.error c, true, by simp, ?_⟩
    rw [hk]
    rfl
  · rw [ha] at h
    simp only at h
    simp only [hk]
    by_cases h0 : w.length = 0
    · have hw0 : w = [] := List.length_eq_zero_iff.1 h0
      subst hw0
      rw [if_pos (by rfl : ([] : Buf).length = 0)] at h
      split at h
      · rename_i hf
        cases h
        subst hf
        refine ⟨⟨Iq.start, Iq.stop, Iq.size, Iq.endIdx, Iq.failed, Iq.total, Iq.event⟩, true, by simp, ?_⟩
        simp [Ret.q, Ret.as, Parser.queue]
      · rename_i hf
        have hf : final = true := by simpa using hf
        subst hf
        have i1 := Iq.start; have i2 := Iq.stop
        rw [if_neg (by simp only [atEnd]; omega)] at h
        have hI := inv_returned L (p := atEnd { q with final := true }) (b := q.queue.pending) i1 i2 Iq.size Iq.failed
          Iq.total (fun j hj => (Iq.event j hj).1) rfl (by simp [Parser.queue, atEnd]; omega)
        have hx := concludeFinal_spec hI.1 rfl rfl rfl h
        refine ⟨hx.1, true, by simp, hx.2.trans ?_⟩
        simp only [reduceCtorEq, and_false, if_false, ne_eq, not_true_eq_false, false_and, Queue.input, Queue.give,
          List.append_nil, List.length_nil, Nat.add_zero]
        congr 1
        simp only [Parser.queue, returned, Queue.mk.injEq, List.drop_drop]
        exact ⟨rfl, rfl, rfl, rfl, rfl, rfl, rfl, rfl, rfl, rfl⟩
    · have hw0 : w ≠ [] := fun g => h0 (by simp [g])
      rw [if_neg h0] at h
      obtain ⟨g, hg, g1, g2, g3⟩ := getBuffer_spec (E := E) Iq (w.length : Int) (by omega)
      obtain ⟨gv, gs, gc, gst⟩ := g
      simp only at g1 g2 g3
      subst g1 g2
      rw [hg] at h
      rcases g3 with ⟨gv0, c, hc, hcase⟩ | ⟨hv, _, hroom, _, _, hqueue, hinv, _⟩
      · subst gv0
        simp only [Option.some.injEq] at h
        subst h hc
        refine ⟨Iq.error c, false, fun _ => ⟨_, _, ha, hg, rfl⟩, ?_⟩
        have : c = .NO_MEMORY := by
          rcases hcase with ⟨g, _⟩ | ⟨_, g, _⟩ | ⟨_, g, _⟩ | ⟨_, _, _, g⟩
          · omega
          · rw [hp] at g; cases g
          · rw [hp] at g; cases g
          · exact g
        subst this
        simp [hw0, Ret.q, Ret.as, Queue.refuse, Parser.queue]
      · subst hv
        simp only at h
        rw [if_neg (by omega)] at h
        have hx := parseBuffer_spec L hinv (w := w) (by omega) final h
        refine ⟨hx.1, true, by simp, hx.2.trans ?_⟩
        rw [hqueue]
        have : q.queue.parsing = .PARSING := hp
        simp [Queue.started, this, hw0]

theorem resume_spec (L : E.Lawful) {p : Parser σ} (I : Inv p) {r : Ret σ Status} (h : resumeParser E p = some r) :
    Inv r.st ∧ (r.as Val.status).q = Queue.step E true p.queue .resume := by
  unfold resumeParser at h
  simp only [Queue.step]
  have hp : p.queue.parsing = p.parsing := rfl
  rw [hp]
  by_cases hs : p.parsing = .SUSPENDED
  · rw [if_neg (by simp [hs])] at h
    rw [if_pos hs]
    simp only at h
    split at h
    · cases h
    rename_i hg
    have he := I.endIdx hs
    generalize hq1 : ({ p with parsing := .PARSING } : Parser σ) = q1 at h
    have hb : (q1.buffer.take p.endIdx).drop p.start = p.queue.pending := by subst hq1; rw [he]; rfl
    have hb' : (p.buffer.take p.endIdx).drop p.start = p.queue.pending := by rw [he]; rfl
    rw [hb'] at h
    have hI := inv_returned L (p := q1) (b := p.queue.pending) (by subst hq1; exact I.start)
      (by subst hq1; exact I.stop) (by subst hq1; exact I.size) (by subst hq1; exact I.failed)
      (by subst hq1; exact I.total) (by subst hq1; exact fun j hj => (I.event j hj).1) (by subst hq1; exact he)
      (by subst hq1; have := I.stop; have := I.start; simp [Parser.queue]; omega)
    have hx := conclude_spec hI.2 rfl rfl (work_parsing L q1.queue _ (by subst hq1; rfl)) h
    refine ⟨hx.1, hx.2.trans ?_⟩
    subst hq1
    rfl
  · rw [if_pos hs] at h
    rw [if_neg hs]
    cases h
    exact ⟨I.error _, rfl⟩

/-- The calls the queue knows about. -/
def Call.isQuery : Call → Bool
  | .lineNumber | .columnNumber | .byteIndex | .byteCount => true
  | _ => false

theorem locate_eq {p q : Parser σ} (h : locate E p = some q) : ∃ c i, q = { p with pos := c, posIdx := i } := by
  unfold locate at h
  split at h
  · cases h
  · split at h
    · cases h; exact ⟨_, _, rfl⟩
    · split at h
      · split at h
        · cases h
        · split at h
          · cases h
          · cases h; exact ⟨_, _, rfl⟩
      · cases h; exact ⟨_, _, rfl⟩

theorem idle_eq (p : Parser σ) : p.queue.idle = !busy p := by
  unfold Queue.idle busy
  have : p.queue.parsing = p.parsing := rfl
  rw [this]
  cases p.parsing <;> rfl

/-- **Refinement.**  Every call does to the queue of the parser what the same call does to a queue, with
the same result, the same bytes given to the processor, and the same handler calls. -/
theorem step_spec (L : E.Lawful) {p : Parser σ} (I : Inv p) {c : Call} (hc : Contract p c) {r : Ret σ Val}
    (h : step E p c = some r) :
    Inv r.st ∧ ∃ mem, (mem = false → Starved E p c) ∧ if c.isQuery then r.shown = none ∧ r.calls = [] ∧ r.st.queue = p.queue
      else r.q = Queue.step E mem p.queue c := by
  have hp : p.queue.parsing = p.parsing := rfl
  cases c with
  | parse w final =>
    simp only [step, Option.map_eq_some_iff] at h
    obtain ⟨r', h, rfl⟩ := h
    exact parse_spec L I hc final h
  | parseBad => cases h; exact ⟨I.error _, true, by simp, rfl⟩
  | getBuffer len =>
    obtain ⟨g, hg, g1, g2, g3⟩ := getBuffer_spec (E := E) I len hc
    simp only [step, hg, Option.map_some, Option.some.injEq] at h
    subst h
    obtain ⟨gv, gs, gc, gst⟩ := g
    simp only at g1 g2 g3
    subst g1 g2
    simp only [Call.isQuery, Bool.false_eq_true, if_false, Queue.step, hp]
    rcases g3 with ⟨gv0, c, hc, hcase⟩ | ⟨hv, h0, hroom, n1, n2, hqueue, hinv, _⟩
    · subst gv0 hc
      refine ⟨I.error c, ?_⟩
      rcases hcase with ⟨g, rfl⟩ | ⟨g0, g, rfl⟩ | ⟨g0, g, rfl⟩ | ⟨g0, n1, n2, rfl⟩
      · exact ⟨true, by simp, by rw [if_pos g]; rfl⟩
      · exact ⟨true, by simp, by rw [if_neg (by omega), g]; rfl⟩
      · exact ⟨true, by simp, by rw [if_neg (by omega), g]; rfl⟩
      · exact ⟨false, fun _ => ⟨g0, n1, n2, _, hg, rfl⟩, by rw [if_neg (by omega)]; cases hx : p.parsing <;> simp_all <;> rfl⟩
    · subst hv
      refine ⟨hinv, true, by simp, ?_⟩
      rw [if_neg (by omega)]
      simp only [Ret.q, Ret.as, hqueue]
      cases hx : p.parsing <;> simp_all
  | parseBuffer w final =>
    simp only [step, Option.map_eq_some_iff] at h
    obtain ⟨r', h, rfl⟩ := h
    have := parseBuffer_spec L I hc final h
    exact ⟨this.1, true, by simp, by simpa [Call.isQuery, Queue.step] using this.2⟩
  | stop b =>
    cases h
    have hb : b = false := hc
    subst hb
    simp only [Queue.step, Call.isQuery, Bool.false_eq_true, if_false, hp]
    have fin : Inv { p with parsing := .FINISHED } :=
      ⟨I.start, I.stop, I.size, fun g => (by cases g), I.failed, I.total, I.event⟩
    by_cases hx : p.parsing = .FINISHED
    · have : stopParser p false = { val := .ERROR, st := { p with error := some .FINISHED } } := by simp [stopParser, hx]
      rw [this]
      exact ⟨I.error _, true, by simp, by simp [hx, Ret.q, Ret.as, Queue.refuse, Parser.queue]⟩
    · have : stopParser p false = { val := .OK, st := { p with parsing := .FINISHED } } := by
        unfold stopParser
        cases hy : p.parsing <;> simp_all
      rw [this]
      refine ⟨fin, true, by simp, ?_⟩
      cases hy : p.parsing <;> simp_all <;> rfl
  | resume =>
    simp only [step, Option.map_eq_some_iff] at h
    obtain ⟨r', h, rfl⟩ := h
    have := resume_spec L I h
    exact ⟨this.1, true, by simp, by simpa [Call.isQuery] using this.2⟩
  | reset enc =>
    cases h
    simp only [reset, Queue.step, Call.isQuery, Bool.false_eq_true, if_false]
    have : p.queue.child = p.child := rfl
    rw [this]
    split
    · exact ⟨I, true, by simp, rfl⟩
    · refine ⟨?_, true, by simp, ?_⟩
      · have := I.size
        constructor <;> simp [Ret.as, Api.create] <;> assumption
      · simp [Ret.q, Ret.as, Api.create, Parser.queue]
  | setEncoding n =>
    cases h
    simp only [setEncoding, Queue.step, Call.isQuery, Bool.false_eq_true, if_false, idle_eq]
    by_cases hb : busy p = true
    · simp only [hb]; exact ⟨I, true, by simp, rfl⟩
    · have hb : busy p = false := by simpa using hb
      simp only [hb]
      exact ⟨⟨I.start, I.stop, I.size, I.endIdx, I.failed, I.total, I.event⟩, true, by simp, rfl⟩
  | useForeignDtd u =>
    cases h
    simp only [useForeignDtd, Queue.step, Call.isQuery, Bool.false_eq_true, if_false, idle_eq]
    by_cases hb : busy p = true
    · simp only [hb]; exact ⟨I, true, by simp, rfl⟩
    · have hb : busy p = false := by simpa using hb
      simp only [hb]
      exact ⟨⟨I.start, I.stop, I.size, I.endIdx, I.failed, I.total, I.event⟩, true, by simp, rfl⟩
  | setTriplets b =>
    cases h
    simp only [setTriplets, Queue.step, Call.isQuery, Bool.false_eq_true, if_false, idle_eq]
    by_cases hb : busy p = true
    · simp only [hb]; exact ⟨I, true, by simp, rfl⟩
    · have hb : busy p = false := by simpa using hb
      simp only [hb]
      exact ⟨⟨I.start, I.stop, I.size, I.endIdx, I.failed, I.total, I.event⟩, true, by simp, rfl⟩
  | setPe x =>
    cases h
    simp only [setPe, Queue.step, Call.isQuery, Bool.false_eq_true, if_false, idle_eq]
    by_cases hb : busy p = true
    · simp only [hb]; exact ⟨I, true, by simp, rfl⟩
    · have hb : busy p = false := by simpa using hb
      simp only [hb]
      exact ⟨⟨I.start, I.stop, I.size, I.endIdx, I.failed, I.total, I.event⟩, true, by simp, rfl⟩
  | lineNumber =>
    simp only [step, lineNumber, Option.map_map, Option.map_eq_some_iff] at h
    obtain ⟨q, h, rfl⟩ := h
    obtain ⟨c, i, rfl⟩ := locate_eq h
    exact ⟨⟨I.start, I.stop, I.size, I.endIdx, I.failed, I.total, I.event⟩, true, by simp, rfl, rfl, rfl⟩
  | columnNumber =>
    simp only [step, columnNumber, Option.map_map, Option.map_eq_some_iff] at h
    obtain ⟨q, h, rfl⟩ := h
    obtain ⟨c, i, rfl⟩ := locate_eq h
    exact ⟨⟨I.start, I.stop, I.size, I.endIdx, I.failed, I.total, I.event⟩, true, by simp, rfl, rfl, rfl⟩
  | byteIndex =>
    simp only [step, Option.map_eq_some_iff] at h
    obtain ⟨q, h, rfl⟩ := h
    exact ⟨I, true, by simp, rfl, rfl, rfl⟩
  | byteCount => cases h; exact ⟨I, true, by simp, rfl, rfl, rfl⟩
  | getError => cases h; exact ⟨I, true, by simp, rfl⟩

end Verif.Api
