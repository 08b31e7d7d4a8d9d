import Verif.Props.C41

/-! C45: position queries at any time.  They are not safe: XML_GetCurrentLineNumber and
XML_GetCurrentColumnNumber panic when XML_GetBuffer has moved the buffer, XML_GetCurrentByteIndex when the
current event is at the very end of a full buffer.  In every other situation they return. -/

set_option autoImplicit false

namespace Verif.C45
open Verif Verif.Api

variable {σ : Type} {E : Engine σ}

/-- C45 as it is stated. -/
def Safe (E : Engine σ) : Prop :=
  ∀ enc cs rs p, Path E (create E enc) cs rs p → ∀ c : Call, c.isQuery = true → step E p c ≠ none

/-- A new parser, XML_GetBuffer, and a query for the line or the column: panic. -/
theorem getBuffer_then_line (ha : ∀ k, E.alloc k = true) (enc : Option Buf) {n : Int} (h0 : 0 < n) (hn : n + 1024 ≤ 2 ^ 30)
    {c : Call} (hc : c = .lineNumber ∨ c = .columnNumber) :
    ∃ p, Path E (create E enc) [.getBuffer n] [{ val := .pointer true, st := p }] p ∧ step E p c = none := by
  have I : Inv (create E enc) := .create enc
  obtain ⟨r, k, hr, hk⟩ := getBuffer_granted I (Int.le_of_lt h0) ha (by simp [Api.create]) (by simp [Api.create]) (by simpa [Api.create] using hn)
  obtain ⟨g, hg, g1, g2, g3⟩ := getBuffer_spec (E := E) I n (by omega)
  rw [hr] at hg
  cases hg
  obtain ⟨rv, rs, rc, rst⟩ := r
  simp only at g1 g2 g3 hk
  subst g1 g2 hk
  refine ⟨rst, .cons (show n < 2 ^ 31 by omega) (by simp [step, hr, Ret.as]) (.nil _), ?_⟩
  rcases g3 with ⟨g, _⟩ | ⟨_, _, hroom, _, _, _, _, h | h⟩
  · cases g
  · subst h
    simp [Api.create] at hroom
    omega
  · rcases hc with rfl | rfl <;> simp [step, lineNumber, columnNumber, locate, h.2.2.2]

/-- **C45** is false, of every engine. -/
theorem not_safe (ha : ∀ k, E.alloc k = true) : ¬ Safe E := by
  intro h
  obtain ⟨p, h1, h2⟩ := getBuffer_then_line (E := E) ha none (n := 1) (by omega) (by omega) (.inl rfl)
  exact h _ _ _ p h1 _ rfl h2

/-- XML_GetCurrentByteIndex panics exactly when the current event is at the end of the buffer. -/
theorem byteIndex_none {p : Parser σ} (I : Inv p) : step E p .byteIndex = none ↔ p.event = some p.buffer.length := by
  have i2 := I.stop; have i6 := I.total
  simp only [step, Option.map_eq_none_iff, byteIndex]
  cases he : p.event with
  | none => simp
  | some j =>
    obtain ⟨e1, e2⟩ := I.event j he
    simp only
    by_cases hj : j < p.buffer.length
    · rw [if_pos hj, if_neg (by omega)]
      simp; omega
    · simp [if_neg hj]; omega

/-- Whether the position is known: it is for a new or reset parser, and again when a processor has run;
it may not be after XML_GetBuffer. -/
def after (b : Bool) (c : Call) (r : Ret σ Val) : Bool :=
  if r.shown ≠ none then true else
  match c with
  | .getBuffer _ => false
  | .reset _ => b || r.val = .bool true
  | _ => b

/-- The same over a history. -/
def known : Bool → List (Call × Ret σ Val) → Bool
  | b, [] => b
  | b, (c, r) :: l => known (after b c r) l

/-- The position is known. -/
structure Known (b : Bool) (p : Parser σ) : Prop where
  flag : b = true → p.posIdx ≠ none
  held : p.parsing = .SUSPENDED → p.posIdx ≠ none

theorem locate_known {p q : Parser σ} (h : locate E p = some q) : ∃ i, q.posIdx = some i := by
  unfold locate at h
  cases hp : p.posIdx with
  | none => rw [hp] at h; cases h
  | some i =>
    rw [hp] at h
    simp only at h
    split at h
    · cases h; exact ⟨i, hp⟩
    · split at h
      · split at h
        · cases h
        · split at h
          · cases h
          · cases h; exact ⟨_, rfl⟩
      · cases h; exact ⟨i, hp⟩

theorem Known.step (L : E.Lawful) {p : Parser σ} (I : Inv p) {c : Call} (hc : Contract p c) {r : Ret σ Val}
    (h : step E p c = some r) {b : Bool} (hk : Known b p) :
    Known (after b c r) r.st := by
  unfold after
  have keep : ∀ {b' : Bool} {q : Parser σ}, (b' = true → b = true) → q.posIdx = p.posIdx →
      (q.parsing = .SUSPENDED → p.parsing = .SUSPENDED) → Known b' q := by
    intro b' q h0 h1 h2
    exact ⟨fun g => by rw [h1]; exact hk.flag (h0 g), fun g => by rw [h1]; exact hk.held (h2 g)⟩
  have ran : ∀ {b' : Bool} {q : Parser σ}, (∃ i, q.posIdx = some i) → Known b' q := by
    intro b' q ⟨i, hi⟩
    exact ⟨fun _ => by simp [hi], fun _ => by simp [hi]⟩
  cases c with
  | parse w final =>
    simp only [Api.step, Option.map_eq_some_iff] at h
    obtain ⟨r', h, rfl⟩ := h
    rcases parse_ran L I hc final h with ⟨h1, h2, h3, h4, h5, h6, _, _, h9, h10⟩ | ⟨m, hm⟩
    · have : (r'.as Val.status).shown = none := h1
      simp only [this, ne_eq, not_true_eq_false, if_false]
      exact keep id h9 h10
    · obtain ⟨i, hi, _⟩ := hm.st_posIdx
      exact ran ⟨i, hi⟩
  | parseBuffer w final =>
    simp only [Api.step, Option.map_eq_some_iff] at h
    obtain ⟨r', h, rfl⟩ := h
    rcases parseBuffer_ran L I hc final h with ⟨e, rfl⟩ | ⟨m, hm⟩
    · exact keep id rfl id
    · obtain ⟨i, hi, _⟩ := hm.st_posIdx
      exact ran ⟨i, hi⟩
  | getBuffer len =>
    simp only [Api.step, Option.map_eq_some_iff] at h
    obtain ⟨r', h, rfl⟩ := h
    obtain ⟨g, hg, g1, g2, g3⟩ := getBuffer_spec (E := E) I len hc
    rw [h] at hg
    cases hg
    have : (r'.as fun r => Val.pointer r.isSome).shown = none := g1
    simp only [this, ne_eq, not_true_eq_false, if_false]
    refine ⟨fun g => (by cases g), ?_⟩
    rcases g3 with ⟨_, e, he, _⟩ | ⟨hv, _, _, n1, _, hqueue, _⟩
    · simp only [Ret.as, he]
      exact hk.held
    · intro g
      exact absurd ((congrArg Queue.parsing hqueue).symm.trans g) n1
  | resume =>
    simp only [Api.step, Option.map_eq_some_iff] at h
    obtain ⟨r', h, rfl⟩ := h
    unfold resumeParser at h
    by_cases hs : p.parsing = .SUSPENDED
    · rw [if_neg (by simp [hs])] at h
      simp only at h
      split at h
      · cases h
      have hx := conclude_concluded (.inl h)
      apply ran
      rcases hx.posIdx with hq | hq
      · have := hk.held hs
        have hq : r'.st.posIdx = p.posIdx := hq
        cases hpi : p.posIdx with
        | none => exact absurd hpi this
        | some i => exact ⟨i, hq.trans hpi⟩
      · exact ⟨_, hq⟩
    · rw [if_pos hs] at h
      cases h
      exact keep id rfl id
  | stop b =>
    cases h
    have hb : b = false := hc
    subst hb
    have h1 : (stopParser p false).shown = none := by
      unfold stopParser; cases p.parsing <;> simp
    have h2 : (stopParser p false).st.posIdx = p.posIdx := by
      unfold stopParser; cases p.parsing <;> simp
    have h3 : (stopParser p false).st.parsing = .SUSPENDED → p.parsing = .SUSPENDED := by
      unfold stopParser; cases hp : p.parsing <;> simp
    have h1 : ((stopParser p false).as Val.status).shown = none := h1
    simp only [h1, ne_eq, not_true_eq_false, if_false]
    exact keep id h2 h3
  | reset enc =>
    cases h
    unfold reset
    by_cases hch : p.child = true
    · rw [if_pos hch]
      exact keep (by simp [Ret.as]) rfl id
    · rw [if_neg hch]
      exact ran ⟨0, rfl⟩
  | setEncoding n => cases h; unfold setEncoding; split <;> exact keep id rfl id
  | useForeignDtd n => cases h; unfold useForeignDtd; split <;> exact keep id rfl id
  | setTriplets n => cases h; unfold setTriplets; split <;> exact keep id rfl id
  | setPe n => cases h; unfold setPe; split <;> exact keep id rfl id
  | getError => cases h; exact keep id rfl id
  | byteCount => cases h; exact keep id rfl id
  | parseBad => cases h; exact keep id rfl id
  | byteIndex =>
    simp only [Api.step, Option.map_eq_some_iff] at h
    obtain ⟨q, _, rfl⟩ := h
    exact keep id rfl id
  | lineNumber =>
    simp only [Api.step, lineNumber, Option.map_map, Option.map_eq_some_iff] at h
    obtain ⟨q, hq, rfl⟩ := h
    exact ran (locate_known hq)
  | columnNumber =>
    simp only [Api.step, columnNumber, Option.map_map, Option.map_eq_some_iff] at h
    obtain ⟨q, hq, rfl⟩ := h
    exact ran (locate_known hq)

theorem Known.path (L : E.Lawful) {p q : Parser σ} {cs : List Call} {rs : List (Ret σ Val)} (h : Path E p cs rs q) (I : Inv p)
    {b : Bool} (hk : Known b p) : Known (known b (cs.zip rs)) q := by
  induction h generalizing b with
  | nil => exact hk
  | cons hc hs _ ih => exact ih (step_spec L I hc hs).1 (hk.step L I hc hs)

theorem locate_total (hu : ∀ s b x, E.upd s b x ≠ none) {p : Parser σ} (I : Inv p) (hp : p.posIdx ≠ none) : locate E p ≠ none := by
  unfold locate
  cases hq : p.posIdx with
  | none => exact absurd hq hp
  | some i =>
    simp only
    cases he : p.event with
    | none => simp
    | some j =>
      have := (I.event j he).1
      have := I.stop
      simp only
      split
      · rw [if_neg (by omega)]
        have := hu p.inner ((p.buffer.take j).drop i) p.pos
        cases hx : E.upd p.inner ((p.buffer.take j).drop i) p.pos with
        | none => exact absurd hx this
        | some q => simp
      · simp

/-- **C45** as far as it holds: after any history of calls, the line and the column can be asked for as
long as the last call that could move the buffer was not XML_GetBuffer; the byte index can be asked for
unless the current event is at the end of a full buffer; the byte count can always be asked for. -/
theorem safe_partial (L : E.Lawful) (hu : ∀ s b x, E.upd s b x ≠ none) (enc : Option Buf) {p : Parser σ} {cs : List Call}
    {rs : List (Ret σ Val)} (h : Path E (create E enc) cs rs p) :
    (known true (cs.zip rs) = true → step E p .lineNumber ≠ none ∧ step E p .columnNumber ≠ none) ∧
    (p.event ≠ some p.buffer.length → step E p .byteIndex ≠ none) ∧ step E p .byteCount ≠ none := by
  have I := h.inv L (.create enc)
  have K := Known.path L h (.create enc) (b := true) ⟨fun _ => by simp [Api.create], fun _ => by simp [Api.create]⟩
  refine ⟨fun hk => ?_, fun he g => he ((byteIndex_none I).1 g), by simp [step]⟩
  have := locate_total hu I (K.flag hk)
  cases hx : locate E p with
  | none => exact absurd hx this
  | some q => simp [step, lineNumber, columnNumber, hx]

/-- The other panic: a processor that has consumed 1024 bytes to the end leaves the current event at the
end of the buffer, which is full. -/
theorem byteIndex_panics (L : E.Lawful) (hu : ∀ s b x, E.upd s b x ≠ none) (ha : ∀ k, E.alloc k = true) (enc : Option Buf) {b : Buf}
    (hb : b.length = 1024) {s : σ} (hs : E.start (create E enc).conf E.init = some s)
    (hd : (E.proc (create E enc).conf s false b).event = b.length) :
    ∃ r, Path E (create E enc) [.parse b false] [r] r.st ∧ step E r.st .byteIndex = none := by
  have hc : Contract (create E enc) (.parse b false) := by simp [Contract, hb]
  obtain ⟨r, hr⟩ := step_total L hu (.create enc) hc (by simp) rfl
  refine ⟨r, .cons hc hr (.nil _), ?_⟩
  have I := (step_spec L (.create enc) hc hr).1
  rw [byteIndex_none I]
  simp only [step, parse, Option.map_eq_some_iff] at hr
  obtain ⟨r', hr, rfl⟩ := hr
  have had : admit E (create E enc) = .inr { create E enc with inner := s, parsing := .PARSING } := by
    have : admit E (create E enc) = match E.start (create E enc).conf E.init with
      | none => .inl { create E enc with error := some .NO_MEMORY }
      | some s => .inr { create E enc with inner := s, parsing := .PARSING } := rfl
    rw [this, hs]
  rw [had] at hr
  simp only [hb] at hr
  rw [if_neg (by omega)] at hr
  have hg : getBuffer E { create E enc with inner := s, parsing := .PARSING } (1024 : Nat) =
      some { val := some 1024, st := { create E enc with inner := s, parsing := .PARSING, buffer := List.replicate 1024 0, event := none, eventEnd := none, posIdx := none } } := by
    have hgr : grow 1024 1024 = some 1024 := by unfold grow; simp
    simp [-List.reduceReplicate, getBuffer, Api.create, ha, hgr]
  rw [hg] at hr
  simp only at hr
  rw [if_neg (by omega)] at hr
  generalize hq : ({ create E enc with inner := s, parsing := .PARSING, buffer := List.replicate 1024 0, event := none, eventEnd := none, posIdx := none } : Parser σ) = q at hr
  have Iq : Inv q := by subst hq; constructor <;> simp [-List.reduceReplicate, Api.create]
  have hql : q.buffer.length = 1024 := by subst hq; exact List.length_replicate
  have hqs : q.stop = 0 := by subst hq; rfl
  rw [← hb] at hr
  have hgo : parseBufferGo E (Api.write q b) b.length false = some r' := by
    have : admit E (Api.write q b) = .inr (Api.write q b) := by subst hq; rfl
    unfold parseBuffer at hr
    rw [this] at hr
    exact hr
  have hR := parseBufferGo_ran L Iq (by omega) false hgo
  rw [hR.st_event, hR.st_buffer, hR.failed]
  have hf : q.failed = false := by subst hq; rfl
  have hpend : (extend (Api.write q b) b.length false).queue.pending = b := by
    rw [hR.pending]
    have : q.queue.pending = [] := by subst hq; rfl
    rw [this, List.nil_append]
  have hpr : process E (extend (Api.write q b) b.length false) b = E.proc (create E enc).conf s false b := by
    subst hq; rfl
  rw [hpend, hpr, hd, hf]
  have hst : (extend (Api.write q b) b.length false).start = 0 := by subst hq; rfl
  have hlen : (extend (Api.write q b) b.length false).buffer.length = 1024 := by
    have := write_length (p := q) (w := b) (by omega) (by omega)
    simp only [extend] at *
    omega
  rw [hst, hlen, hb]
  rfl

/-- The toy engine meets the conditions. -/
example : ∃ r, Path toy (create toy none) [.parse (List.replicate 1024 0x61) false] [r] r.st ∧ step toy r.st .byteIndex = none :=
  byteIndex_panics toy_lawful (by simp [toy]) (by simp [toy]) none List.length_replicate (s := 0) rfl (by decide +kernel)

/-- Queries between calls, all of which return. -/
example : ((steps toy (create toy none) [.byteIndex, .lineNumber, .parse [0x61, 0x62, 0x63] false, .columnNumber, .byteIndex, .byteCount]).map
    fun x => x.1.map (·.val)) = some [.num (-1), .num 1, .status .OK, .num 2, .num 2, .num 0] := by decide +kernel

end Verif.C45
