import Verif.ApiPath

/-! C38: finished, suspended and failed parsers refuse further input correctly. -/

set_option autoImplicit false

namespace Verif.C38
open Verif Verif.Api

variable {σ : Type} {E : Engine σ}

/-- A call that does nothing but set the error code. -/
def Refused (E : Engine σ) (p : Parser σ) (c : Call) (e : XErr) (v : Val) : Prop :=
  step E p c = some { val := v, st := { p with error := some e } }

/-- **C38**, XML_Parse: on a suspended or finished parser it fails with that code and does nothing else. -/
theorem parse_refused (p : Parser σ) (w : Buf) (final : Bool) :
    (p.parsing = .SUSPENDED → Refused E p (.parse w final) .SUSPENDED (.status .ERROR)) ∧
    (p.parsing = .FINISHED → Refused E p (.parse w final) .FINISHED (.status .ERROR)) := by
  constructor <;> intro h <;> simp [Refused, step, parse, admit, h, Ret.as]

/-- **C38**, XML_GetBuffer. -/
theorem getBuffer_refused (p : Parser σ) (len : Int) (hl : 0 ≤ len) :
    (p.parsing = .SUSPENDED → Refused E p (.getBuffer len) .SUSPENDED (.pointer false)) ∧
    (p.parsing = .FINISHED → Refused E p (.getBuffer len) .FINISHED (.pointer false)) := by
  have : ¬ len < 0 := by omega
  constructor <;> intro h <;> simp [Refused, step, getBuffer, this, h, Ret.as]

/-- **C38**, XML_ParseBuffer: only the bytes the application itself wrote to the buffer have changed. -/
theorem parseBuffer_refused (p : Parser σ) (w : Buf) (final : Bool) :
    (p.parsing = .SUSPENDED → step E p (.parseBuffer w final) =
      some { val := .status .ERROR, st := { Api.write p w with error := some .SUSPENDED } }) ∧
    (p.parsing = .FINISHED → step E p (.parseBuffer w final) =
      some { val := .status .ERROR, st := { Api.write p w with error := some .FINISHED } }) := by
  constructor <;> intro h <;> simp [step, parseBuffer, admit, Api.write, h, Ret.as]

/-- **C38**, XML_ResumeParser: on a parser that is not suspended it fails with NOT_SUSPENDED and does
nothing else. -/
theorem resume_refused (p : Parser σ) (h : p.parsing ≠ .SUSPENDED) :
    Refused E p .resume .NOT_SUSPENDED (.status .ERROR) := by
  simp [Refused, step, resumeParser, h, Ret.as]

/-- The table of the documentation of XML_StopParser (2843-2886): from the parsing status, whether the
parser is for an external parameter entity, and the argument to what the status becomes, or the error. -/
inductive StopTable : Parsing → Bool → Bool → (Parsing ⊕ XErr) → Prop
  | suspend (s : Parsing) : s = .INITIALIZED ∨ s = .PARSING → StopTable s false true (.inl .SUSPENDED)
  | suspendPe (s : Parsing) : s = .INITIALIZED ∨ s = .PARSING → StopTable s true true (.inr .SUSPEND_PE)
  | abort (s : Parsing) (pe : Bool) : s ≠ .FINISHED → StopTable s pe false (.inl .FINISHED)
  | suspendTwice (pe : Bool) : StopTable .SUSPENDED pe true (.inr .SUSPENDED)
  | finished (pe resumable : Bool) : StopTable .FINISHED pe resumable (.inr .FINISHED)

/-- **C38**, XML_StopParser obeys the table. -/
theorem stop_table (p : Parser σ) (resumable : Bool) : ∃ x, StopTable p.parsing p.paramEntity resumable x ∧
    match x with
    | .inl s => step E p (.stop resumable) = some { val := .status .OK, st := { p with parsing := s } }
    | .inr e => Refused E p (.stop resumable) e (.status .ERROR) := by
  unfold Refused
  simp only [step, stopParser]
  cases hp : p.parsing <;> cases hb : resumable <;> cases hx : p.paramEntity <;>
    simp only [Bool.false_eq_true, if_false, if_true, Ret.as]
  all_goals first
    | exact ⟨.inl .SUSPENDED, .suspend _ (by simp), rfl⟩
    | exact ⟨.inr .SUSPEND_PE, .suspendPe _ (by simp), rfl⟩
    | exact ⟨.inl .FINISHED, .abort _ _ (by simp), rfl⟩
    | exact ⟨.inr .SUSPENDED, .suspendTwice _, rfl⟩
    | exact ⟨.inr .FINISHED, .finished _ _, rfl⟩

/-- The table says one thing only. -/
theorem table_function {s : Parsing} {pe b : Bool} {x y : Parsing ⊕ XErr} (h : StopTable s pe b x) (h2 : StopTable s pe b y) :
    x = y := by
  cases h <;> cases h2 <;> simp_all

/-- The status of a parser over its life: what a call that returns `v` may make of it. -/
inductive Life (c : Call) (v : Val) : Parsing → Parsing → Prop
  | same (s : Parsing) : Life c v s s
  /-- XML_Parse, XML_ParseBuffer: the parser has accepted the input and waits for more -/
  | accepted (s : Parsing) : c.isParse = true → s = .INITIALIZED ∨ s = .PARSING →
      v ≠ .status .SUSPENDED → Life c v s .PARSING
  /-- a handler has suspended it -/
  | held (s : Parsing) : c.isParse = true → s = .INITIALIZED ∨ s = .PARSING → Life c v s .SUSPENDED
  /-- the end of the input, or a handler has aborted it -/
  | over (s : Parsing) : c.isParse = true → s = .INITIALIZED ∨ s = .PARSING →
      v ≠ .status .SUSPENDED → Life c v s .FINISHED
  | resumed (s : Parsing) : c = .resume → s ≠ .INITIALIZED → (s = .PARSING ∨ s = .FINISHED → v ≠ .status .SUSPENDED) →
      Life c v .SUSPENDED s
  | aborted (s : Parsing) : c = .stop false → v = .status .OK → s ≠ .FINISHED → Life c v s .FINISHED
  | reset (s : Parsing) : c.isReset = true → v = .bool true → Life c v s .INITIALIZED

theorem settle_life (a : Queue σ) (b : Buf) (d : Done σ) (ha : a.parsing = d.parsing) (hn : d.parsing ≠ .INITIALIZED) :
    (Queue.settle a b d).st.parsing ≠ .INITIALIZED ∧
    ((Queue.settle a b d).st.parsing = .PARSING ∨ (Queue.settle a b d).st.parsing = .FINISHED →
      (Queue.settle a b d).val ≠ .status .SUSPENDED) := by
  unfold Queue.settle
  cases d.code with
  | some c => simp [ha, hn]
  | none =>
    simp only
    by_cases hs : d.parsing = .SUSPENDED
    · simp [hs, ha]
    · cases a.final <;> simp [hs, hn]

theorem give_life (L : E.Lawful) (a : Queue σ) (h : a.parsing = .PARSING) (b : Buf) (k : Nat → Buf) :
    (Queue.give E a b k).st.parsing ≠ .INITIALIZED ∧
    ((Queue.give E a b k).st.parsing = .PARSING ∨ (Queue.give E a b k).st.parsing = .FINISHED →
      (Queue.give E a b k).val ≠ .status .SUSPENDED) :=
  settle_life _ _ _ rfl (work_parsing L a b h)

theorem input_life (L : E.Lawful) {a : Queue σ} (h : a.parsing = .PARSING) (w : Buf) (f : Bool) {c : Call}
    (hc : c.isParse = true) {s : Parsing} (hs : s = .INITIALIZED ∨ s = .PARSING) :
    Life c (Queue.input E a w f).val s (Queue.input E a w f).st.parsing := by
  obtain ⟨h1, h2⟩ := give_life L { a with total := a.total + w.length, final := f } h (a.pending ++ w)
    (fun n => (a.pending ++ w).drop n)
  unfold Queue.input
  generalize Queue.give E { a with total := a.total + w.length, final := f } (a.pending ++ w)
    (fun n => (a.pending ++ w).drop n) = r at *
  cases hp : r.st.parsing with
  | INITIALIZED => exact absurd hp h1
  | PARSING => exact .accepted _ hc hs (h2 (.inl hp))
  | FINISHED => exact .over _ hc hs (h2 (.inr hp))
  | SUSPENDED => exact .held _ hc hs

theorem started_life (a : Queue σ) (k : Queue σ → QRet σ) {c : Call}
    (hk : ∀ a', a'.parsing = .PARSING → a.parsing = .INITIALIZED ∨ a.parsing = .PARSING →
      Life c (k a').val a.parsing (k a').st.parsing) :
    Life c (Queue.started E a k).val a.parsing (Queue.started E a k).st.parsing := by
  unfold Queue.started
  cases hp : a.parsing with
  | SUSPENDED => simp only [Queue.refuse, hp]; exact .same _
  | FINISHED => simp only [Queue.refuse, hp]; exact .same _
  | PARSING => have := hk a hp (.inr hp); rw [hp] at this; exact this
  | INITIALIZED =>
    simp only
    split
    · have := hk { a with parsing := .PARSING } rfl (.inl hp); rw [hp] at this; exact this
    · split
      · simp only [Queue.refuse, hp]; exact .same _
      · rename_i s _
        have := hk { a with inner := s, parsing := .PARSING } rfl (.inl hp); rw [hp] at this; exact this

/-- **C38**: every call, on any parser and whatever the handlers do, moves the status as `Life` says. -/
theorem life (L : E.Lawful) {p : Parser σ} (I : Inv p) {c : Call} (hc : Contract p c) {r : Ret σ Val}
    (h : step E p c = some r) : Life c r.val p.parsing r.st.parsing := by
  obtain ⟨_, mem, _, hm⟩ := step_spec L I hc h
  by_cases hq : c.isQuery = true
  · rw [if_pos hq] at hm
    have : r.st.parsing = p.parsing := congrArg Queue.parsing hm.2.2
    rw [this]; exact .same _
  · rw [if_neg hq] at hm
    have h1 : r.val = (Queue.step E mem p.queue c).val := congrArg QRet.val hm
    have h2 : r.st.parsing = (Queue.step E mem p.queue c).st.parsing := congrArg (fun x => x.st.parsing) hm
    have h3 : p.parsing = p.queue.parsing := rfl
    rw [h1, h2, h3]
    generalize p.queue = a at *
    cases c with
    | parse w f =>
      simp only [Queue.step]
      apply started_life
      intro a' ha' hs
      split
      · simp only [ha']; exact .accepted _ rfl hs (by simp)
      · split
        · simp only [Queue.refuse, ha']; exact .accepted _ rfl hs (by simp)
        · exact input_life L ha' w f rfl hs
    | parseBuffer w f =>
      simp only [Queue.step]
      apply started_life
      intro a' ha' hs
      exact input_life L ha' w f rfl hs
    | parseBad => exact .same _
    | getBuffer len =>
      simp only [Queue.step]
      split
      · exact .same _
      · split
        · exact .same _
        · exact .same _
        · split <;> exact .same _
    | stop b =>
      have hb : b = false := hc
      subst hb
      simp only [Queue.step]
      cases hp : a.parsing
      case FINISHED => simp only [Queue.refuse, hp]; exact .same _
      all_goals exact .aborted _ rfl rfl (by simp)
    | resume =>
      simp only [Queue.step]
      split
      · rename_i hp
        rw [hp]
        obtain ⟨h1, h2⟩ := give_life L { a with parsing := .PARSING } rfl a.pending (fun _ => a.pending)
        exact .resumed _ rfl h1 h2
      · exact .same _
    | reset enc =>
      simp only [Queue.step]
      split
      · exact .same _
      · exact .reset _ rfl rfl
    | setEncoding n => simp only [Queue.step]; split <;> exact .same _
    | useForeignDtd n => simp only [Queue.step]; split <;> exact .same _
    | setTriplets n => simp only [Queue.step]; split <;> exact .same _
    | setPe n => simp only [Queue.step]; split <;> exact .same _
    | getError => exact .same _
    | lineNumber => exact .same _
    | columnNumber => exact .same _
    | byteIndex => exact .same _
    | byteCount => exact .same _

/-- **C38** over histories: a finished parser stays finished until it is reset; it makes no handler call,
and its parse calls fail. -/
theorem finished (L : E.Lawful) {p q : Parser σ} {cs : List Call} {rs : List (Ret σ Val)} (h : Path E p cs rs q)
    (I : Inv p) (hp : p.parsing = .FINISHED) (hr : ∀ c ∈ cs, c.isReset = false) :
    q.parsing = .FINISHED ∧ (∀ r ∈ rs, r.shown = none ∧ r.calls = []) ∧
    ∀ x ∈ cs.zip rs, x.1.isParse = true ∨ x.1 = .resume → x.2.val = .status .ERROR := by
  induction h with
  | nil => exact ⟨hp, by simp, by simp⟩
  | @cons p q c r cs rs hc hs ht ih =>
    have hl := life L I hc hs
    rw [hp] at hl
    have hr1 : c.isReset = false := hr c (by simp)
    have hfin : r.st.parsing = .FINISHED := by
      generalize hy : r.st.parsing = y at hl
      cases hl with
      | same => rfl
      | accepted _ _ h => simp at h
      | held _ _ h => simp at h
      | over => rfl
      | aborted => rfl
      | reset _ h => rw [hr1] at h; cases h
    obtain ⟨i1, i2, i3⟩ := ih (step_spec L I hc hs).1 hfin (fun c hc => hr c (by simp [hc]))
    have one : r.shown = none ∧ r.calls = [] ∧ (c.isParse = true ∨ c = .resume → r.val = .status .ERROR) := by
      cases c with
      | parse w f => rw [(parse_refused p w f).2 hp] at hs; cases hs; simp
      | parseBuffer w f => rw [(parseBuffer_refused p w f).2 hp] at hs; cases hs; simp
      | resume => rw [resume_refused p (by simp [hp])] at hs; cases hs; simp
      | getBuffer len =>
        obtain ⟨g, hg, g1, g2, _⟩ := getBuffer_spec (E := E) I len hc
        simp only [step, hg, Option.map_some, Option.some.injEq] at hs
        subst hs
        exact ⟨g1, g2, by simp [Call.isParse]⟩
      | parseBad => cases hs; exact ⟨rfl, rfl, by simp [Call.isParse]⟩
      | stop b =>
        cases hs
        simp [stopParser, hp, Ret.as, Call.isParse]
      | reset e => cases hr1
      | setEncoding n => cases hs; simp only [setEncoding]; split <;> simp [Ret.as, Call.isParse]
      | useForeignDtd n => cases hs; simp only [useForeignDtd]; split <;> simp [Ret.as, Call.isParse]
      | setTriplets n => cases hs; simp only [setTriplets]; split <;> simp [Ret.as, Call.isParse]
      | setPe n => cases hs; simp only [setPe]; split <;> simp [Ret.as, Call.isParse]
      | getError => cases hs; simp [Call.isParse]
      | byteCount => cases hs; simp [Call.isParse]
      | byteIndex =>
        simp only [step, Option.map_eq_some_iff] at hs
        obtain ⟨q, _, rfl⟩ := hs
        simp [Call.isParse]
      | lineNumber =>
        simp only [step, lineNumber, Option.map_map, Option.map_eq_some_iff] at hs
        obtain ⟨q, _, rfl⟩ := hs
        simp [Ret.as, Call.isParse]
      | columnNumber =>
        simp only [step, columnNumber, Option.map_map, Option.map_eq_some_iff] at hs
        obtain ⟨q, _, rfl⟩ := hs
        simp [Ret.as, Call.isParse]
    refine ⟨i1, ?_, ?_⟩
    · intro x hx
      rcases List.mem_cons.1 hx with rfl | hx
      · exact ⟨one.1, one.2.1⟩
      · exact i2 x hx
    · intro x hx
      rcases List.mem_cons.1 (by simpa using hx) with rfl | hx
      · exact one.2.2
      · exact i3 x hx

/-- A suspended parser leaves that status only by XML_ResumeParser, by XML_StopParser that aborts, or by
a reset. -/
theorem suspended (L : E.Lawful) {p : Parser σ} (I : Inv p) {c : Call} (hc : Contract p c) {r : Ret σ Val}
    (h : step E p c = some r) (hp : p.parsing = .SUSPENDED) :
    r.st.parsing = .SUSPENDED ∨ c = .resume ∨ c = .stop false ∨ c.isReset = true := by
  have hl := life L I hc h
  rw [hp] at hl
  generalize r.st.parsing = y at hl
  cases hl with
  | same => exact .inl rfl
  | accepted _ _ h => simp at h
  | held => exact .inl rfl
  | over _ _ h => simp at h
  | resumed _ h => exact .inr (.inl h)
  | aborted _ h => exact .inr (.inr (.inl h))
  | reset _ h => exact .inr (.inr (.inr h))

/-- `ab!!cd`: suspended after `!!`; then XML_Parse and XML_GetBuffer are refused, the parser is
resumed, finishes, and refuses everything. -/
example : ((steps toy (create toy none)
      [.parse [0x61, 0x62, 0x21, 0x21, 0x63, 0x64] true, .parse [0x65] false, .getBuffer 3, .stop true, .resume, .getError,
        .resume, .parse [0x66] true, .getError]).map fun x => x.1.map fun r => (r.val, r.calls)) =
    some [(.status .SUSPENDED, [.chars [0x61, 0x62], .chars [0x21, 0x21]]), (.status .ERROR, []), (.pointer false, []),
      (.status .ERROR, []), (.status .OK, [.chars [0x63, 0x64]]), (.code none, []), (.status .ERROR, []), (.status .ERROR, []),
      (.code (some .FINISHED), [])] := by decide +kernel

end Verif.C38
