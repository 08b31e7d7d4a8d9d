import Verif.Props.C46
import Verif.Props.C63

/-! # C77: XML_GetInputContext

The bytes around the current event: what the function returns are bytes supplied by the application, the last of them the last
one supplied, and the offset is that of the current event.  That 1024 bytes before the event are there, if there were so many
(`XML_CONTEXT_BYTES`), is not always so. -/

set_option autoImplicit false

namespace Verif.C77
open Verif Verif.Api C41 C46

variable {σ : Type} {E : Engine σ}

/-- src/lib/xmlparse.rs:3057-3077 XML_GetInputContext: a null pointer (`some none`), or the bytes of the buffer and the offset of the
event in them.  `none` is a panic: `m_bufferEnd` is converted to a C `int` (3072).  The offset is the difference of two pointers
(3067-3069); `event` is an index into the buffer already. -/
def inputContext (p : Parser σ) : Option (Option (Buf × Nat)) :=
  match p.event with
  | none => some none
  | some j => if p.stop < 2 ^ 31 then some (some (p.buffer.take p.stop, j)) else none

/-- **C77**, between calls, after any history: never a panic; a null pointer if there is no current event; else the end of what was
supplied, and the event is in it (or at its end) where XML_GetCurrentByteIndex says it is. -/
theorem after {t : Tape} {p : Parser σ} (I : Inv p) (ht : C41.Holds t p) :
    (p.event = none ∧ inputContext p = some none) ∨
    ∃ before ctx off, inputContext p = some (some (ctx, off)) ∧ before ++ ctx = t.all ∧ off ≤ ctx.length ∧
      ∀ i, byteIndex p = some i → i = (before.length + off : Nat) := by
  have h1 := I.stop; have h2 := I.size; have h3 := I.total
  cases he : p.event with
  | none => exact .inl ⟨rfl, by rw [inputContext, he]⟩
  | some j =>
    obtain ⟨h4, h5⟩ := I.event j he
    obtain ⟨before, hb⟩ := ht.context
    have hl : before.length + p.stop = p.endByte := by
      have := congrArg List.length hb
      simp only [List.length_append, List.length_take] at this
      rw [ht.count]
      omega
    refine .inr ⟨before, p.buffer.take p.stop, j, ?_, hb.symm, by rw [List.length_take]; omega, ?_⟩
    · rw [inputContext, he]; simp only; rw [if_pos (by omega)]
    · intro i hi
      rw [byteIndex_at he h4 h5 h3] at hi
      split at hi
      · cases hi; congr 1; omega
      · cases hi

/-- **C77**, in a handler: the processor was started on `m`, on a parser that had the tape `t`, with the new bytes `w`; the current event
is `o` bytes into what the processor was given.  The context ends with the new bytes, and the event is where it is in all that was
supplied. -/
theorem during {t : Tape} {p m : Parser σ} {w : Buf} {final : Bool} {r : Ret σ Val} (ht : C41.Holds t p) (hr : Api.Ran E p w final m r)
    {o : Nat} (ho : o ≤ m.queue.pending.length) :
    ∃ before ctx off, inputContext (inHandler m o) = some (some (ctx, off)) ∧ before ++ ctx = t.all ++ w ∧ before.length + off = t.done + o ∧
      ctx.drop off = m.queue.pending.drop o ∧ off = m.start + o := by
  have i1 := hr.inv.start; have i2 := hr.inv.stop; have i3 := hr.inv.size
  obtain ⟨pre, hp⟩ := hr.context
  obtain ⟨bef, hb⟩ := ht.context
  have hpend : m.queue.pending = (t.all ++ w).drop t.done := by
    rw [hr.pending, List.drop_append_of_le_length ht.done, ← ht.waiting]
    rfl
  have hlen : m.queue.pending.length = m.stop - m.start := by simp [Parser.queue]; omega
  have hl2 : m.queue.pending.length = t.all.length + w.length - t.done := by rw [hpend]; simp
  have hd := ht.done
  have hall : (bef ++ pre) ++ m.buffer.take m.stop = t.all ++ w := by rw [List.append_assoc, ← hp, hb, List.append_assoc]
  have hl3 := congrArg List.length hall
  simp only [List.length_append, List.length_take] at hl3
  refine ⟨bef ++ pre, m.buffer.take m.stop, m.start + o, ?_, hall, by rw [List.length_append]; omega, ?_, rfl⟩
  · simp only [inputContext, inHandler]; exact if_pos (by omega)
  · rw [← List.drop_drop]; rfl

/-! ### How much there is before the event -/

/-- 1024 bytes before those not consumed are in the buffer, or all there are. -/
def Full (t : Tape) (p : Parser σ) : Prop := min 1024 t.done ≤ p.start

/-- The buffer need not be made larger for `n` more bytes while none wait in it. -/
def Room (p : Parser σ) (n : Nat) : Prop := p.start < p.stop ∨ p.start = 0 ∨ n + min 1024 p.start ≤ p.buffer.length ∨ n ≤ p.buffer.length - p.stop

def Keeps (p : Parser σ) : Call → Prop
  | .parse w _ => Room p w.length
  | .getBuffer n => Room p n.toNat
  | _ => True

theorem getBuffer_keeps {p : Parser σ} (I : Inv p) {len : Int} {r : Ret σ (Option Nat)} (h : getBuffer E p len = some r) (hk : Room p len.toNat) :
    min 1024 p.start + (p.stop - p.start) ≤ r.st.stop := by
  have j1 := I.start
  unfold getBuffer at h
  by_cases h0 : len < 0
  · rw [if_pos h0] at h; cases h; simp only; omega
  rw [if_neg h0] at h
  by_cases h1 : p.parsing = .SUSPENDED
  · rw [if_pos h1] at h; cases h; simp only; omega
  rw [if_neg h1] at h
  by_cases h2 : p.parsing = .FINISHED
  · rw [if_pos h2] at h; cases h; simp only; omega
  rw [if_neg h2] at h
  simp only at h
  by_cases h3 : p.buffer.length < p.stop
  · rw [if_pos h3] at h; cases h
  rw [if_neg h3] at h
  by_cases h4 : len.toNat ≤ p.buffer.length - p.stop
  · rw [if_pos h4] at h; cases h; simp only; omega
  rw [if_neg h4] at h
  by_cases h5 : p.stop < p.start ∨ 2 ^ 31 ≤ p.stop - p.start
  · rw [if_pos h5] at h; cases h
  rw [if_neg h5] at h
  by_cases h6 : 2 ^ 31 ≤ len.toNat + (p.stop - p.start)
  · rw [if_pos h6] at h; cases h; simp only; omega
  rw [if_neg h6] at h
  by_cases h7 : len.toNat + (p.stop - p.start) + min 1024 p.start ≤ p.buffer.length
  · rw [if_pos h7] at h
    by_cases h8 : min 1024 p.start < p.start
    · rw [if_pos h8] at h; cases h; simp only; omega
    · rw [if_neg h8] at h; cases h; simp only; omega
  rw [if_neg h7] at h
  generalize (if p.buffer.length - p.start = 0 then 1024 else p.buffer.length - p.start) = s0 at h
  split at h
  · cases h
  split at h
  · cases h; simp only; omega
  split at h
  · cases h
  split at h
  · cases h; simp only; omega
  · by_cases h8 : p.start < p.stop
    · rw [if_pos h8] at h; cases h; simp only; omega
    · rw [if_neg h8] at h; cases h; simp only
      rcases hk with hk | hk | hk | hk <;> omega

/-- What a call supplies to a processor. -/
def supplied (c : Call) (r : Ret σ Val) : Nat :=
  match c, r.shown with
  | .parse w _, some _ => w.length
  | .parseBuffer w _, some _ => w.length
  | _, _ => 0

theorem go_stop {p : Parser σ} {n : Nat} {final : Bool} {r : Ret σ Status} (h : parseBufferGo E p n final = some r) : r.st.stop = p.stop + n := by
  unfold parseBufferGo at h
  simp only at h
  split at h
  · cases h
  · exact (conclude_concluded (.inl h)).stop

theorem admit_stop {p q : Parser σ} (h : admit E p = .inl q) : q.stop = p.stop := by
  unfold admit at h
  split at h
  · cases h; rfl
  · cases h; rfl
  · split at h
    · cases h
    · split at h
      · cases h; rfl
      · cases h
  · cases h

theorem pb_stop {p : Parser σ} {n : Nat} {final : Bool} {r : Ret σ Status} (h : parseBuffer E p n final = some r) :
    p.stop + (if r.shown = none then 0 else n) ≤ r.st.stop := by
  unfold parseBuffer at h
  cases ha : admit E p with
  | inl q =>
    rw [ha] at h
    cases h
    simp [admit_stop ha]
  | inr q =>
    rw [ha] at h
    have := go_stop h
    rw [(admit_frame ha).2.2.2.2.2.1] at this
    split <;> omega

theorem parse_stop {p : Parser σ} (I : Inv p) {w : Buf} {final : Bool} {r : Ret σ Status} (h : parse E p w final = some r) (hk : Room p w.length) :
    min 1024 p.start + (p.stop - p.start) + (if r.shown = none then 0 else w.length) ≤ r.st.stop := by
  have j1 := I.start
  unfold parse at h
  rcases admit_spec (E := E) I with ⟨c, ha, _⟩ | ⟨q, ha, Iq, _⟩
  · rw [ha] at h
    cases h
    simp only [if_pos]
    omega
  · rw [ha] at h
    obtain ⟨f1, f2, f3, f4, f5, f6, f7⟩ := admit_frame ha
    simp only at h
    by_cases hw : w.length = 0
    · rw [if_pos hw] at h
      have hst : q.stop ≤ r.st.stop := by
        split at h
        · cases h; exact Nat.le_refl _
        · split at h
          · cases h
          · exact Nat.le_of_eq (conclude_concluded (.inr h)).stop.symm
      rw [hw]
      split <;> omega
    · rw [if_neg hw] at h
      have hq : Room q w.length := by unfold Room at *; rw [f5, f6, f7]; exact hk
      cases hg : getBuffer E q w.length with
      | none => rw [hg] at h; cases h
      | some g =>
        have hs := getBuffer_keeps Iq hg (by simpa using hq)
        rw [f6, f7] at hs
        rw [hg] at h
        obtain ⟨v, sh, cl, st⟩ := g
        cases v with
        | none =>
          simp only [Option.some.injEq] at h
          subst h
          simp only at hs ⊢
          simpa using hs
        | some room =>
          simp only at h hs
          split at h
          · cases h
          · have := pb_stop h
            rw [show (Api.write st w).stop = st.stop from rfl] at this
            omega

theorem step_stop {p : Parser σ} (I : Inv p) {c : Call} {r : Ret σ Val} (h : step E p c = some r) (hk : Keeps p c)
    (hc : c.isReset = false ∨ r.val ≠ .bool true) : min 1024 p.start + (p.stop - p.start) + supplied c r ≤ r.st.stop := by
  have j1 := I.start
  have same : r.st.stop = p.stop → supplied c r = 0 → min 1024 p.start + (p.stop - p.start) + supplied c r ≤ r.st.stop := by
    intro h1 h2; rw [h1, h2]; omega
  cases c with
  | parse w final =>
    simp only [step, Option.map_eq_some_iff] at h
    obtain ⟨r', h, rfl⟩ := h
    have := parse_stop I h hk
    simp only [Ret.as, supplied]
    cases hs : r'.shown with
    | none => simpa [hs] using this
    | some b => simpa [hs] using this
  | parseBuffer w final =>
    simp only [step, Option.map_eq_some_iff] at h
    obtain ⟨r', h, rfl⟩ := h
    have := pb_stop h
    rw [show (Api.write p w).stop = p.stop from rfl] at this
    simp only [Ret.as, supplied]
    cases hs : r'.shown with
    | none => simp [hs] at this ⊢; omega
    | some b => simp [hs] at this ⊢; omega
  | getBuffer len =>
    simp only [step, Option.map_eq_some_iff] at h
    obtain ⟨r', h, rfl⟩ := h
    exact getBuffer_keeps I h hk
  | resume =>
    simp only [step, Option.map_eq_some_iff] at h
    obtain ⟨r', h, rfl⟩ := h
    refine same ?_ rfl
    unfold resumeParser at h
    split at h
    · cases h; rfl
    · simp only at h
      split at h
      · cases h
      · exact (conclude_concluded (.inl h)).stop
  | stop b =>
    cases h
    refine same ?_ rfl
    unfold stopParser
    cases p.parsing <;> cases b <;> cases p.paramEntity <;> rfl
  | reset enc =>
    cases h
    refine same ?_ rfl
    rcases hc with hc | hc
    · cases hc
    · unfold reset at hc ⊢
      split at hc
      · rename_i hp; rw [if_pos hp]; rfl
      · exact absurd rfl hc
  | setEncoding n => cases h; refine same ?_ rfl; unfold setEncoding; split <;> rfl
  | useForeignDtd n => cases h; refine same ?_ rfl; unfold useForeignDtd; split <;> rfl
  | setTriplets n => cases h; refine same ?_ rfl; unfold setTriplets; split <;> rfl
  | setPe n => cases h; refine same ?_ rfl; unfold setPe; split <;> rfl
  | getError => cases h; exact same rfl rfl
  | byteCount => cases h; exact same rfl rfl
  | parseBad => cases h; exact same rfl rfl
  | byteIndex =>
    simp only [step, Option.map_eq_some_iff] at h
    obtain ⟨q, _, rfl⟩ := h
    exact same rfl rfl
  | lineNumber =>
    simp only [step, lineNumber, Option.map_map, Option.map_eq_some_iff] at h
    obtain ⟨q, hq, rfl⟩ := h
    obtain ⟨_, _, rfl⟩ := locate_eq hq
    exact same rfl rfl
  | columnNumber =>
    simp only [step, columnNumber, Option.map_map, Option.map_eq_some_iff] at h
    obtain ⟨q, hq, rfl⟩ := h
    obtain ⟨_, _, rfl⟩ := locate_eq hq
    exact same rfl rfl

theorem waiting_length {t : Tape} {p : Parser σ} (I : Inv p) (ht : C41.Holds t p) : p.stop - p.start = t.all.length - t.done := by
  have h1 := I.stop
  have := congrArg List.length ht.waiting
  simp only [List.length_drop, List.length_take] at this
  omega

theorem full_step (L : E.Lawful) {p : Parser σ} (I : Inv p) {c : Call} (hc : Contract p c) {r : Ret σ Val} (h : step E p c = some r) (hk : Keeps p c)
    {t t' : Tape} (ht : C41.Holds t p) (hf : Full t p) (hm : Moves E p c r t t') (ht' : C41.Holds t' r.st) : Full t' r.st := by
  have I' := (step_spec L I hc h).1
  have w1 := waiting_length I ht
  have w2 := waiting_length I' ht'
  have d1 := ht.done; have d2 := ht'.done; have j1 := I.start; have j2 := I'.start
  unfold Full at *
  cases hm with
  | input w final s d g1 g2 _ _ =>
    have hs := step_stop I h hk (by rcases g1 with rfl | rfl <;> exact .inl rfl)
    have : supplied c r = w.length := by rcases g1 with rfl | rfl <;> simp [supplied, g2]
    simp only [List.length_append] at *
    omega
  | again g1 g2 =>
    have hs := step_stop I h hk (by rw [g1]; exact .inl rfl)
    omega
  | quiet g1 g2 g3 =>
    have hs := step_stop I h hk (by
      cases hb : c.isReset with
      | false => exact .inl rfl
      | true => exact .inr fun e => g3 ⟨hb, e⟩)
    omega
  | reset => simp

/-- A history in which the buffer is never made larger while it is empty. -/
inductive Kept (E : Engine σ) : Parser σ → List Call → List (Ret σ Val) → Parser σ → Prop
  | nil (p : Parser σ) : Kept E p [] [] p
  | cons {p q : Parser σ} {c : Call} {r : Ret σ Val} {cs : List Call} {rs : List (Ret σ Val)} :
      Contract p c → Keeps p c → step E p c = some r → Kept E r.st cs rs q → Kept E p (c :: cs) (r :: rs) q

theorem kept (L : E.Lawful) {p q : Parser σ} {cs : List Call} {rs : List (Ret σ Val)} (h : Kept E p cs rs q) (I : Inv p) {t : Tape} (ht : C41.Holds t p)
    (hf : Full t p) : ∃ t', Taped E p cs rs t t' ∧ Inv q ∧ C41.Holds t' q ∧ Full t' q := by
  induction h generalizing t with
  | nil p => exact ⟨t, .nil p t, I, ht, hf⟩
  | cons hc hk hs _ ih =>
    obtain ⟨t1, h1, h2⟩ := moves L I hc hs ht
    obtain ⟨t2, h3, h4⟩ := ih (step_spec L I hc hs).1 h2 (full_step L I hc hs hk ht hf h1 h2)
    exact ⟨t2, .cons h1 h3, h4⟩

/-- **C77**, how much there is, in part: in a handler called after such a history, by XML_Parse or XML_ParseBuffer for which the buffer is not made
larger while it is empty either, 1024 bytes before the event are in the context, or all there are.  (Without the condition this is false:
`context_lost`.) -/
theorem before_partial (L : E.Lawful) (enc : Option Buf) {p : Parser σ} {cs : List Call} {rs : List (Ret σ Val)} (h : Kept E (create E enc) cs rs p)
    {w : Buf} {final : Bool} {c : Call} (hc : c = .parse w final ∨ c = .parseBuffer w final) (hk : Contract p c) (hk' : Keeps p c) {r : Ret σ Val}
    (hr : step E p c = some r) :
    r.shown = none ∨ ∃ t m, Taped E (create E enc) cs rs ⟨[], 0⟩ t ∧ Api.Ran E p w final m r ∧ ∀ o ≤ m.queue.pending.length,
      ∃ before ctx off, inputContext (inHandler m o) = some (some (ctx, off)) ∧ before ++ ctx = t.all ++ w ∧ before.length + off = t.done + o ∧
        min 1024 (t.done + o) ≤ off := by
  obtain ⟨t, h1, I, ht, hf⟩ := kept L h (.create enc) (.create enc) (by simp [Full])
  have key : (∃ m, Api.Ran E p w final m r) → r.shown = none ∨ ∃ t m, Taped E (create E enc) cs rs ⟨[], 0⟩ t ∧ Api.Ran E p w final m r ∧ ∀ o ≤ m.queue.pending.length,
      ∃ before ctx off, inputContext (inHandler m o) = some (some (ctx, off)) ∧ before ++ ctx = t.all ++ w ∧ before.length + off = t.done + o ∧
        min 1024 (t.done + o) ≤ off := by
    rintro ⟨m, hm⟩
    refine .inr ⟨t, m, h1, hm, fun o ho => ?_⟩
    obtain ⟨before, ctx, off, a1, a2, a3, -, a5⟩ := during ht hm ho
    refine ⟨before, ctx, off, a1, a2, a3, ?_⟩
    have hs := step_stop I hr hk' (by rcases hc with rfl | rfl <;> exact .inl rfl)
    have hw : supplied c r = w.length := by rcases hc with rfl | rfl <;> simp [supplied, hm.shown]
    have hst := hm.st_stop
    have j1 := I.start; have j2 := I.stop; have i1 := hm.inv.start; have i2 := hm.inv.stop
    have hl : m.queue.pending.length = m.stop - m.start := by simp [Parser.queue]; omega
    have hl2 := congrArg List.length hm.pending
    have hl3 : p.queue.pending.length = p.stop - p.start := by simp [Parser.queue]; omega
    rw [List.length_append, hl, hl3] at hl2
    unfold Full at hf
    omega
  rcases hc with rfl | rfl
  · simp only [step, Option.map_eq_some_iff] at hr
    obtain ⟨r', hr', rfl⟩ := hr
    rcases parse_ran L I hk final hr' with ⟨h1, _⟩ | hm
    · exact .inl h1
    · exact key hm
  · simp only [step, Option.map_eq_some_iff] at hr
    obtain ⟨r', hr', rfl⟩ := hr
    rcases parseBuffer_ran L I hk final hr' with ⟨e, rfl⟩ | hm
    · exact .inl rfl
    · exact key hm

/-- The condition is exact: else nothing that was consumed is kept. -/
theorem forgotten {p : Parser σ} (I : Inv p) {len : Int} {r : Ret σ (Option Nat)} (h : getBuffer E p len = some r) (hv : r.val ≠ none)
    (hk : ¬ Room p len.toNat) : r.st.stop = 0 ∧ 0 < p.stop := by
  have j1 := I.start
  simp only [Room, not_or] at hk
  obtain ⟨k1, k2, k3, k4⟩ := hk
  unfold getBuffer at h
  by_cases h0 : len < 0
  · rw [if_pos h0] at h; cases h; exact absurd rfl hv
  rw [if_neg h0] at h
  by_cases h1 : p.parsing = .SUSPENDED
  · rw [if_pos h1] at h; cases h; exact absurd rfl hv
  rw [if_neg h1] at h
  by_cases h2 : p.parsing = .FINISHED
  · rw [if_pos h2] at h; cases h; exact absurd rfl hv
  rw [if_neg h2] at h
  simp only at h
  by_cases h3 : p.buffer.length < p.stop
  · rw [if_pos h3] at h; cases h
  rw [if_neg h3, if_neg k4] at h
  by_cases h5 : p.stop < p.start ∨ 2 ^ 31 ≤ p.stop - p.start
  · rw [if_pos h5] at h; cases h
  rw [if_neg h5] at h
  by_cases h6 : 2 ^ 31 ≤ len.toNat + (p.stop - p.start)
  · rw [if_pos h6] at h; cases h; exact absurd rfl hv
  rw [if_neg h6, if_neg (by omega : ¬ len.toNat + (p.stop - p.start) + min 1024 p.start ≤ p.buffer.length)] at h
  generalize (if p.buffer.length - p.start = 0 then 1024 else p.buffer.length - p.start) = s0 at h
  split at h
  · cases h
  split at h
  · cases h; exact absurd rfl hv
  split at h
  · cases h
  split at h
  · cases h; exact absurd rfl hv
  · cases h
    exact ⟨rfl, by omega⟩

/-! ### Examples -/

/-- `<a>` is consumed; then `<b/></c>` is written to a buffer of `n` bytes.  What XML_GetInputContext returns afterwards. -/
def exContext (n : Int) : Option (List Val × Option (Option Buf)) :=
  (steps C63.exEngine (create C63.exEngine none)
    [.parse "<a>".toUTF8.toList false, .getBuffer n, .parseBuffer "<b/></c>".toUTF8.toList true]).map
      fun x => (x.1.map (·.val), (inputContext x.2).map fun o => o.map (·.1))

/-- The context reaches back to the start: 1021 bytes fit into the buffer. -/
theorem ex_kept : exContext 1021 = some ([.status .OK, .pointer true, .status .ERROR], some (some "<a><b/></c>".toUTF8.toList)) := by decide +kernel

/-- **The context is lost**: for one byte more the buffer is made larger, and as nothing waits in it, the three bytes before the event are forgotten. -/
theorem context_lost : exContext 1022 = some ([.status .OK, .pointer true, .status .ERROR], some (some "<b/></c>".toUTF8.toList)) := by decide +kernel

/-- A null pointer before anything is parsed. -/
example : inputContext (create C63.exEngine none) = some none := rfl

/-- The theorem applies to a history that makes the buffer larger with bytes waiting, and to every event in the next call. -/
example : ∃ rs p, Kept C63.exEngine (create C63.exEngine none) [.parse "<a>b<".toUTF8.toList false, .getBuffer 1022] rs p ∧
    Keeps p (.parseBuffer "/a>".toUTF8.toList true) ∧ Contract p (.parseBuffer "/a>".toUTF8.toList true) := by
  have h1 : ∃ r, step C63.exEngine (create C63.exEngine none) (.parse "<a>b<".toUTF8.toList false) = some r ∧ r.st.start < r.st.stop ∧
      ∃ r', step C63.exEngine r.st (.getBuffer 1022) = some r' ∧ 3 ≤ r'.st.buffer.length - r'.st.stop := by
    have : ((step C63.exEngine (create C63.exEngine none) (.parse "<a>b<".toUTF8.toList false)).bind fun r =>
        (step C63.exEngine r.st (.getBuffer 1022)).map fun r' => decide (r.st.start < r.st.stop) && decide (3 ≤ r'.st.buffer.length - r'.st.stop)) = some true := by decide +kernel
    obtain ⟨r, hr, h⟩ := Option.bind_eq_some_iff.1 this
    obtain ⟨r', hr', h⟩ := Option.map_eq_some_iff.1 h
    simp only [Bool.and_eq_true, decide_eq_true_eq] at h
    exact ⟨r, hr, h.1, r', hr', h.2⟩
  obtain ⟨r, hr, h2, r', hr', h3⟩ := h1
  refine ⟨_, _, .cons (by simp [Contract]; decide +kernel) (.inr (.inl rfl)) hr (.cons (by simp [Contract]) (.inl h2) hr' (.nil _)), trivial, ?_⟩
  exact Nat.le_trans (by decide +kernel) h3

end Verif.C77
