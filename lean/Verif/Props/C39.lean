import Verif.Props.C38

/-! C39: errors are sticky. -/

set_option autoImplicit false

namespace Verif.C39
open Verif Verif.Api

variable {σ : Type} {E : Engine σ}

/-- A call that hands over more input, or the end of it: XML_Parse with bytes or `isFinal`,
XML_ParseBuffer, XML_ResumeParser. -/
def More : Call → Prop
  | .parse w final => w ≠ [] ∨ final = true
  | .parseBuffer _ _ => True
  | .resume => True
  | _ => False

theorem settle_failed (a : Queue σ) (b : Buf) (d : Done σ) :
    ((Queue.settle a b d).val = .status .ERROR ↔ d.code ≠ none) ∧ (a.failed = true → (Queue.settle a b d).st.failed = true) ∧
    ((Queue.settle a b d).val = .status .ERROR → (Queue.settle a b d).st.failed = true) ∧
    (Queue.settle a b d).shown = some b ∧ (Queue.settle a b d).calls = d.calls := by
  unfold Queue.settle
  cases d.code with
  | some c => simp
  | none => by_cases hs : d.parsing = .SUSPENDED <;> simp [hs]

/-- **C39**, how a parser fails: a call in which the processor ran and which returned XML_STATUS_ERROR
leaves it failed. -/
theorem fails (L : E.Lawful) {p : Parser σ} (I : Inv p) {c : Call} (hc : Contract p c) {r : Ret σ Val}
    (h : step E p c = some r) (hs : r.shown ≠ none) (hv : r.val = .status .ERROR) :
    r.st.failed = true ∧ r.st.error ≠ none := by
  obtain ⟨I', mem, _, hm⟩ := step_spec L I hc h
  suffices hf : r.st.failed = true from ⟨hf, I'.failed hf⟩
  by_cases hq : c.isQuery = true
  · rw [if_pos hq] at hm; exact absurd hm.1 hs
  rw [if_neg hq] at hm
  have h1 : r.val = (Queue.step E mem p.queue c).val := congrArg QRet.val hm
  have h2 : r.st.failed = (Queue.step E mem p.queue c).st.failed := congrArg (fun x => x.st.failed) hm
  have h3 : r.shown = (Queue.step E mem p.queue c).shown := congrArg QRet.shown hm
  rw [h2]; rw [h1] at hv; rw [h3] at hs
  clear h1 h2 h3 hm hc h I I'
  generalize p.queue = a at *
  have inp : ∀ (a : Queue σ) w f, (Queue.input E a w f).val = .status .ERROR → (Queue.input E a w f).st.failed = true := by
    intro a w f
    unfold Queue.input Queue.give
    exact (settle_failed _ _ _).2.2.1
  have st : ∀ (k : Queue σ → QRet σ), (∀ a, (k a).shown ≠ none → (k a).val = .status .ERROR → (k a).st.failed = true) →
      (Queue.started E a k).shown ≠ none → (Queue.started E a k).val = .status .ERROR → (Queue.started E a k).st.failed = true := by
    intro k hk
    unfold Queue.started
    split
    · simp [Queue.refuse]
    · simp [Queue.refuse]
    · exact hk _
    · split
      · exact hk _
      · split
        · simp [Queue.refuse]
        · exact hk _
  cases c with
  | parse w f =>
    refine st _ ?_ hs hv
    intro a
    split
    · simp
    · split
      · simp [Queue.refuse]
      · exact fun _ => inp a w f
  | parseBuffer w f => exact st _ (fun a _ => inp a w f) hs hv
  | resume =>
    simp only [Queue.step] at *
    split at hv
    · rename_i hh
      rw [if_pos hh]
      exact (settle_failed _ _ _).2.2.1 hv
    · rename_i hh
      rw [if_neg hh] at hs
      exact absurd rfl hs
  | parseBad => exact absurd rfl hs
  | getBuffer len =>
    simp only [Queue.step] at hs
    split at hs
    · exact absurd rfl hs
    · split at hs
      · exact absurd rfl hs
      · exact absurd rfl hs
      · split at hs <;> exact absurd rfl hs
  | stop b =>
    simp only [Queue.step] at hs
    cases hp : a.parsing <;> cases b <;> cases hpe : a.paramEntity <;> simp [hp, hpe, Queue.refuse] at hs
  | reset e => simp only [Queue.step] at hs; split at hs <;> exact absurd rfl hs
  | setEncoding n => simp only [Queue.step] at hs; split at hs <;> exact absurd rfl hs
  | useForeignDtd n => simp only [Queue.step] at hs; split at hs <;> exact absurd rfl hs
  | setTriplets n => simp only [Queue.step] at hs; split at hs <;> exact absurd rfl hs
  | setPe n => simp only [Queue.step] at hs; split at hs <;> exact absurd rfl hs
  | getError => exact absurd rfl hs
  | lineNumber => cases hq rfl
  | columnNumber => cases hq rfl
  | byteIndex => cases hq rfl
  | byteCount => cases hq rfl

theorem give_failed {a : Queue σ} (h : a.failed = true) (he : a.error ≠ none) (b : Buf) (k : Nat → Buf) :
    (Queue.give E a b k).st.failed = true ∧ (Queue.give E a b k).calls = [] ∧ (Queue.give E a b k).val = .status .ERROR := by
  have hw : Queue.work E a b = ⟨[], 0, a.error, a.inner, a.parsing, 0, 0⟩ := by simp [Queue.work, h]
  unfold Queue.give
  rw [hw]
  obtain ⟨h1, h2, h3, h4, h5⟩ := settle_failed { a with pending := k 0 } b ⟨[], 0, a.error, a.inner, a.parsing, 0, 0⟩
  exact ⟨h2 h, h5, h1.2 he⟩

/-- **C39**, one call on a failed parser. -/
theorem sticky_step (L : E.Lawful) {p : Parser σ} (I : Inv p) {c : Call} (hc : Contract p c) {r : Ret σ Val}
    (h : step E p c = some r) (hp : p.failed = true) (hr : c.isReset = false) :
    r.st.failed = true ∧ r.calls = [] ∧ (More c → r.val = .status .ERROR) := by
  obtain ⟨I', mem, _, hm⟩ := step_spec L I hc h
  by_cases hq : c.isQuery = true
  · rw [if_pos hq] at hm
    refine ⟨?_, hm.2.1, ?_⟩
    · have : r.st.failed = p.failed := congrArg Queue.failed hm.2.2
      rw [this]; exact hp
    · cases c <;> simp [Call.isQuery, More] at *
  rw [if_neg hq] at hm
  have h1 : r.val = (Queue.step E mem p.queue c).val := congrArg QRet.val hm
  have h2 : r.st.failed = (Queue.step E mem p.queue c).st.failed := congrArg (fun x => x.st.failed) hm
  have h3 : r.calls = (Queue.step E mem p.queue c).calls := congrArg QRet.calls hm
  have he : p.queue.error ≠ none := I.failed hp
  have hp : p.queue.failed = true := hp
  rw [h1, h2, h3]
  clear h1 h2 h3 hm h
  generalize p.queue = a at *
  have inp : ∀ (a : Queue σ) w f, a.failed = true → a.error ≠ none → (Queue.input E a w f).st.failed = true ∧
      (Queue.input E a w f).calls = [] ∧ (Queue.input E a w f).val = .status .ERROR := by
    intro a w f h1 h2
    exact give_failed (a := { a with total := a.total + w.length, final := f }) h1 h2 _ _
  have st : ∀ (k : Queue σ → QRet σ) (M : Prop),
      (∀ a, a.failed = true → a.error ≠ none → (k a).st.failed = true ∧ (k a).calls = [] ∧ (M → (k a).val = .status .ERROR)) →
      (Queue.started E a k).st.failed = true ∧ (Queue.started E a k).calls = [] ∧ (M → (Queue.started E a k).val = .status .ERROR) := by
    intro k M hk
    unfold Queue.started
    split
    · simp [Queue.refuse, hp]
    · simp [Queue.refuse, hp]
    · exact hk _ hp he
    · split
      · exact hk _ hp he
      · split
        · simp [Queue.refuse, hp]
        · exact hk _ hp he
  cases c with
  | parse w f =>
    refine st _ _ ?_
    intro a h1 h2
    split
    · rename_i hh; simp [h1, More, hh]
    · split
      · simp [Queue.refuse, h1]
      · exact ⟨(inp a w f h1 h2).1, (inp a w f h1 h2).2.1, fun _ => (inp a w f h1 h2).2.2⟩
  | parseBuffer w f =>
    refine st _ _ ?_
    intro a h1 h2
    exact ⟨(inp a w f h1 h2).1, (inp a w f h1 h2).2.1, fun _ => (inp a w f h1 h2).2.2⟩
  | resume =>
    simp only [Queue.step]
    split
    · have := give_failed (E := E) (a := { a with parsing := .PARSING }) hp he a.pending (fun _ => a.pending)
      exact ⟨this.1, this.2.1, fun _ => this.2.2⟩
    · simp [Queue.refuse, hp]
  | parseBad => simp [Queue.step, Queue.refuse, hp, More]
  | getBuffer len =>
    simp only [Queue.step, More, false_implies, and_true]
    split
    · exact ⟨hp, rfl⟩
    · split
      · exact ⟨hp, rfl⟩
      · exact ⟨hp, rfl⟩
      · split <;> exact ⟨hp, rfl⟩
  | stop b =>
    simp only [Queue.step, More, false_implies, and_true]
    cases hq : a.parsing <;> cases b <;> cases hpe : a.paramEntity <;> simp [Queue.refuse, hp]
  | reset e => cases hr
  | setEncoding n => simp only [Queue.step, More, false_implies, and_true]; split <;> exact ⟨hp, rfl⟩
  | useForeignDtd n => simp only [Queue.step, More, false_implies, and_true]; split <;> exact ⟨hp, rfl⟩
  | setTriplets n => simp only [Queue.step, More, false_implies, and_true]; split <;> exact ⟨hp, rfl⟩
  | setPe n => simp only [Queue.step, More, false_implies, and_true]; split <;> exact ⟨hp, rfl⟩
  | getError => simp [Queue.step, hp, More]
  | lineNumber => cases hq rfl
  | columnNumber => cases hq rfl
  | byteIndex => cases hq rfl
  | byteCount => cases hq rfl

/-- **C39.**  After a parse call has returned XML_STATUS_ERROR because of the document, whatever calls
follow, as long as there is no XML_ParserReset: no handler is called, and every attempt to parse more
returns XML_STATUS_ERROR. -/
theorem sticky (L : E.Lawful) {p p' q : Parser σ} {c : Call} {r : Ret σ Val} {cs : List Call} {rs : List (Ret σ Val)}
    (I : Inv p) (hc : Contract p c) (h0 : step E p c = some r) (hs : r.shown ≠ none) (hv : r.val = .status .ERROR)
    (hp' : p' = r.st) (h : Path E p' cs rs q) (hr : ∀ c ∈ cs, c.isReset = false) :
    q.error ≠ none ∧ (∀ r ∈ rs, r.calls = []) ∧ ∀ x ∈ cs.zip rs, More x.1 → x.2.val = .status .ERROR := by
  have hf := (fails L I hc h0 hs hv).1
  have I' := (step_spec L I hc h0).1
  subst hp'
  clear hc h0 hs hv I
  generalize r.st = p1 at *
  suffices q.failed = true ∧ (∀ r ∈ rs, r.calls = []) ∧ ∀ x ∈ cs.zip rs, More x.1 → x.2.val = .status .ERROR from
    ⟨(h.inv L I').failed this.1, this.2⟩
  induction h with
  | nil => exact ⟨hf, by simp, by simp⟩
  | @cons p q c r cs rs hc hs _ ih =>
    obtain ⟨s1, s2, s3⟩ := sticky_step L I' hc hs hf (hr c (by simp))
    obtain ⟨i1, i2, i3⟩ := ih (fun c hc => hr c (by simp [hc])) s1 (step_spec L I' hc hs).1
    refine ⟨i1, ?_, ?_⟩
    · intro x hx
      rcases List.mem_cons.1 hx with rfl | hx
      · exact s2
      · exact i2 x hx
    · intro x hx
      rcases List.mem_cons.1 (by simpa using hx) with rfl | hx
      · exact s3
      · exact i3 x hx

/-- `ab?c` is an error; nothing is accepted afterwards, not even after XML_StopParser; after
XML_ParserReset the parser works again. -/
example : ((steps toy (create toy none)
      [.parse [0x61, 0x62, 0x3F, 0x63] false, .parse [0x61, 0x61] false, .getBuffer 2, .parseBuffer [0x61] true, .resume,
        .stop false, .parse [] true, .reset none, .parse [0x65, 0x66] true]).map fun x => x.1.map fun r => (r.val, r.calls)) =
    some [(.status .ERROR, [.chars [0x61, 0x62]]), (.status .ERROR, []), (.pointer true, []), (.status .ERROR, []), (.status .ERROR, []),
      (.status .OK, []), (.status .ERROR, []), (.bool true, []), (.status .OK, [.chars [0x65, 0x66]])] := by decide +kernel

end Verif.C39
