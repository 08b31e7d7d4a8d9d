import Verif.Xmlwf
import Verif.Props.C63
import Verif.Props.C45

/-! Reading a file in pieces through XML_GetBuffer and XML_ParseBuffer is the same as handing the pieces to XML_Parse. -/

set_option autoImplicit false

namespace Verif.Wf
open C63 Spec Verif PState Api

section
variable {C : PCfg} {ext : Ext} {fuel : Nat} {upd : Buf → Pos → Option Pos} {alloc : Nat → Bool}

local notation "En" => docEngine C ext fuel upd alloc

/-- XML_GetBuffer gives room and changes nothing else. -/
theorem getRoom (ha : ∀ n, alloc n = true) {p : Parser Inner} (R : Reading p) (hs : p.queue.pending.length + readSize + 1024 ≤ 2 ^ 30) :
    ∃ q, step En p (.getBuffer readSize) = some { val := .pointer true, st := q } ∧ Reading q ∧ q.queue = p.queue ∧
      ∀ w : Buf, ∀ f, w.length ≤ readSize → Contract q (.parseBuffer w f) := by
  have i1 := R.inv.start; have i2 := R.inv.stop
  have hl : p.queue.pending.length = p.stop - p.start := by simp [Parser.queue]; omega
  obtain ⟨q, hq⟩ := C41.granted (E := En) R.inv (n := (readSize : Nat)) (by omega) ha R.parsing (by omega)
  have hrs : ((readSize : Nat) : Int) < 2 ^ 31 := by simp [readSize]
  obtain ⟨J, m, hm, e⟩ := step_spec (docEngine_lawful C ext fuel upd alloc) R.inv (c := .getBuffer (readSize : Nat)) hrs hq
  have hm' : m = true := by
    cases m with
    | true => rfl
    | false => exact absurd (hm rfl) (C42.fed (E := En) ha R.inv (by simp only [C42.bytes]; omega))
  subst hm'
  rw [if_neg (by simp [Call.isQuery])] at e
  have hqq : q.queue = p.queue := by
    have h1 : p.queue.parsing = .INITIALIZED ∨ p.queue.parsing = .PARSING := R.parsing
    have k := congrArg QRet.st e
    simp only [Queue.step] at k
    rw [if_neg (by omega)] at k
    rcases h1 with h1 | h1 <;> rw [h1] at k <;> simpa [Ret.q] using k
  refine ⟨q, hq, ⟨J, ?_, ?_, ?_⟩, hqq, fun w f hw => (C41.room (E := En) R.inv hrs hq rfl w f (by omega)).1⟩
  · have := congrArg Queue.parsing hqq
    have h1 : q.parsing = p.parsing := this
    rw [h1]; exact R.parsing
  · exact (congrArg Queue.failed hqq).trans R.failed
  · exact (congrArg Queue.child hqq).trans R.child

theorem Reading.of_queue {p q : Parser Inner} (R : Reading p) (I : Inv q) (h : q.queue = p.queue) : Reading q :=
  ⟨I, by have h1 : q.parsing = p.parsing := congrArg Queue.parsing h
         rw [h1]; exact R.parsing,
    (congrArg Queue.failed h).trans R.failed, (congrArg Queue.child h).trans R.child⟩

/-- XML_ParseBuffer does what XML_Parse does. -/
theorem parseBuffer_parse (ha : ∀ n, alloc n = true) {p1 p2 : Parser Inner} (R1 : Reading p1) (I2 : Inv p2) (hq : p1.queue = p2.queue) {w : Buf} {fin : Bool}
    (hw : w ≠ [] ∨ fin = true) {cs : List Call} (hs : Fits p2 (.parse w fin :: cs)) (hc1 : Contract p1 (.parseBuffer w fin)) (hc2 : Contract p2 (.parse w fin))
    {r1 r2 : Ret Inner Val} (h1 : step En p1 (.parseBuffer w fin) = some r1) (h2 : step En p2 (.parse w fin) = some r2) :
    Inv r1.st ∧ Inv r2.st ∧ Fits r2.st cs ∧ r1.q = r2.q ∧ r1.shown ≠ none := by
  obtain ⟨J2, hs', e2⟩ := parse_step ha I2 hs hc2 h2
  obtain ⟨J1, m, -, e1⟩ := step_spec (docEngine_lawful C ext fuel upd alloc) R1.inv hc1 h1
  rw [if_neg (by simp [Call.isQuery])] at e1
  have k1 : r1.q = Queue.input En { p1.queue with parsing := .PARSING } w fin := by
    rw [e1]
    simp only [Queue.step, started_reading p1.queue R1.parsing (.inr R1.child)]
  have R2 := Reading.of_queue R1 I2 hq.symm
  have k2 : r2.q = Queue.input En { p2.queue with parsing := .PARSING } w fin := by
    rw [e2]
    simp only [Queue.step, started_reading p2.queue R2.parsing (.inr R2.child), Bool.true_eq_false, and_false, if_false]
    rw [if_neg (by rcases hw with hw | hw <;> simp [hw])]
  refine ⟨J1, J2, hs', by rw [k1, k2, hq], ?_⟩
  have := congrArg QRet.shown k1
  intro hn
  have hn' : r1.q.shown = none := hn
  rw [this] at hn'
  simp only [Queue.input, Queue.give, Queue.settle] at hn'
  split at hn'
  · cases hn'
  · split at hn' <;> cases hn'

/-- The error is reported. -/
theorem reports (hu : ∀ b x, upd b x ≠ none) {p : Parser Inner} (I : Inv p) (hp : p.posIdx ≠ none) :
    ∃ l c, reportError En p = some ⟨false, some (.error p.error l c), p⟩ := by
  have h1 := C45.locate_total (E := En) (fun _ b x => hu b x) I hp
  cases hx : locate En p with
  | none => exact absurd hx h1
  | some q =>
    have hl : lineNumber En p = some { val := q.pos.line + 1, st := q } := by simp [lineNumber, hx]
    have I' : Inv q := (step_spec (c := .lineNumber) (docEngine_lawful C ext fuel upd alloc) I trivial (r := { val := .num (q.pos.line + 1), st := q })
      (by simp [step, hl, Ret.as])).1
    obtain ⟨i, hi⟩ := C45.locate_known hx
    have h2 := C45.locate_total (E := En) (fun _ b x => hu b x) I' (by rw [hi]; simp)
    cases hy : locate En q with
    | none => exact absurd hy h2
    | some q2 =>
      refine ⟨q.pos.line + 1, q2.pos.col, ?_⟩
      simp only [reportError, hl, columnNumber, hy, Option.map_some]

/-- What XML_ProcessFile found, put beside the calls of XML_Parse on the same pieces. -/
structure Agrees (o : Out Inner) (rs : List (Ret Inner Val)) (q : Parser Inner) : Prop where
  inner : o.st.inner = q.inner
  error : o.st.error = q.error
  yes : o.result = true → final rs = some (.status .OK)
  no : o.result = false → final rs = some (.status .ERROR)
  said : o.result = true ∧ o.said = none ∨ o.result = false ∧ ∃ l c, o.said = some (.error q.error l c)

theorem final_cons (r : Ret Inner Val) {rs : List (Ret Inner Val)} (h : rs ≠ []) : final (r :: rs) = final rs := by
  cases rs with
  | nil => exact absurd rfl h
  | cons a rs => simp [final]

theorem path_nonempty {p q : Parser Inner} {ws : List Buf} {w : Buf} {rs : List (Ret Inner Val)} (h : Path En p (calls ws w) rs q) : rs ≠ [] := by
  rintro rfl
  cases hc : calls ws w with
  | nil => simp [calls] at hc
  | cons c cs => rw [hc] at h; cases h

/-- The status of a call. -/
theorem input_val (ha : ∀ n, alloc n = true) {p : Parser Inner} (R : Reading p) {w : Buf} {fin : Bool} (hw : w ≠ [] ∨ fin = true) {cs : List Call}
    (hs : Fits p (.parse w fin :: cs)) (hc : Contract p (.parse w fin)) {r : Ret Inner Val} (h : step En p (.parse w fin) = some r) :
    (r.val = .status .OK ∧ r.st.failed = false ∧ r.st.child = false ∧ (fin = false → r.st.parsing = .PARSING)) ∨
    (r.val = .status .ERROR ∧ r.st.failed = true ∧ r.st.parsing = .PARSING) := by
  obtain ⟨-, -, -, -, -, h6, h3, h4⟩ := input_turn ha R hw hs hc h rfl
  by_cases ht : (turn C ext fuel p.conf p.inner.stage fin (p.queue.pending ++ w)).code = none
  · obtain ⟨a, b, -, d⟩ := h3 ht
    exact .inl ⟨a, b, h6.trans R.child, fun hf => by rw [d, hf]; rfl⟩
  · exact .inr (h4 ht)

/-- **The loop of processStream.** -/
theorem stream_agrees (hu : ∀ b x, upd b x ≠ none) (ha : ∀ n, alloc n = true) (ws : List Buf) : ∀ {p1 p2 q : Parser Inner} {rs : List (Ret Inner Val)}, Reading p1 → Inv p2 →
    p1.queue = p2.queue → (∀ w ∈ ws, w ≠ [] ∧ w.length ≤ readSize) → p2.queue.pending.length + ws.flatten.length + readSize + 1024 ≤ 2 ^ 30 →
    Path En p2 (calls ws []) rs q → ∃ o, stream En true ws p1 = some o ∧ Agrees o rs q := by
  induction ws with
  | nil =>
    intro p1 p2 q rs R1 I2 hq _ hs h
    simp only [List.flatten_nil, List.length_nil, Nat.add_zero] at hs
    obtain ⟨p, hg, R, hpq, hroom⟩ := getRoom (C := C) (ext := ext) (fuel := fuel) (upd := upd) ha R1 (by rw [hq]; omega)
    have hc1 := hroom [] true (by simp)
    obtain ⟨r1, h1⟩ := step_total (docEngine_lawful C ext fuel upd alloc) (fun _ b x => hu b x) R.inv hc1 (by simp) rfl
    cases h with
    | @cons _ _ _ r2 _ _ hc2 h2 ht =>
      cases ht
      have hfit : Fits p2 (.parse [] true :: []) := by simp [Fits, C42.bytes]; omega
      obtain ⟨J1, J2, -, e, hsh⟩ := parseBuffer_parse ha R I2 (hpq.trans hq) (.inr rfl) hfit hc1 hc2 h1 h2
      have hv : r1.val = r2.val := congrArg QRet.val e
      have hi : r1.st.inner = r2.st.inner := congrArg (fun x => x.st.inner) e
      have he : r1.st.error = r2.st.error := congrArg (fun x => x.st.error) e
      simp only [stream, room, hg, if_true, parsed, h1, decide_true]
      rcases input_val ha (Reading.of_queue R1 I2 hq.symm) (.inr rfl) hfit hc2 h2 with ⟨k1, -⟩ | ⟨k1, -⟩
      · rw [hv, k1, if_neg (by simp)]
        exact ⟨_, rfl, hi, he, fun _ => by simp [final, k1], fun hf => (by cases hf), .inl ⟨rfl, rfl⟩⟩
      · rw [hv, k1, if_pos rfl]
        have hk := C45.Known.step (docEngine_lawful C ext fuel upd alloc) R.inv hc1 h1 (b := false) ⟨by simp, fun g => by rcases R.parsing with h | h <;> rw [h] at g <;> cases g⟩
        obtain ⟨l, c, hr⟩ := reports (C := C) (ext := ext) (fuel := fuel) (alloc := alloc) hu J1 (hk.flag (by simp [C45.after, hsh]))
        refine ⟨_, hr, hi, he, fun hf => (by cases hf), fun _ => by simp [final, k1], .inr ⟨rfl, l, c, ?_⟩⟩
        simp only [he]
  | cons w ws ih =>
    intro p1 p2 q rs R1 I2 hq hw hs h
    obtain ⟨hw0, hw1⟩ := hw w (by simp)
    simp only [List.flatten_cons, List.length_append] at hs
    obtain ⟨p, hg, R, hpq, hroom⟩ := getRoom (C := C) (ext := ext) (fuel := fuel) (upd := upd) ha R1 (by rw [hq]; omega)
    have hc1 := hroom w false hw1
    obtain ⟨r1, h1⟩ := step_total (docEngine_lawful C ext fuel upd alloc) (fun _ b x => hu b x) R.inv hc1 (by simp) rfl
    cases h with
    | @cons _ _ _ r2 _ rs hc2 h2 ht =>
      have hb : ((calls ws []).map C42.bytes).sum = ws.flatten.length := by
        simp only [calls, List.map_append, List.map_map, List.sum_append, List.map_cons, List.map_nil, List.sum_cons, List.sum_nil, C42.bytes, Nat.add_zero,
          List.length_flatten, List.length_nil]
        rfl
      have hfit : Fits p2 (.parse w false :: calls ws []) := by
        simp only [Fits, List.map_cons, List.sum_cons, hb, C42.bytes]; omega
      obtain ⟨J1, J2, hs', e, hsh⟩ := parseBuffer_parse ha R I2 (hpq.trans hq) (.inl hw0) hfit hc1 hc2 h1 h2
      have hv : r1.val = r2.val := congrArg QRet.val e
      have hi : r1.st.inner = r2.st.inner := congrArg (fun x => x.st.inner) e
      have he : r1.st.error = r2.st.error := congrArg (fun x => x.st.error) e
      have hqq : r1.st.queue = r2.st.queue := congrArg QRet.st e
      have hne := path_nonempty ht
      simp only [stream, room, hg, if_true, parsed, hw0, decide_false, h1]
      rcases input_val ha (Reading.of_queue R1 I2 hq.symm) (.inl hw0) hfit hc2 h2 with ⟨k1, k2, k3, k4⟩ | ⟨k1, k2, k3⟩
      · rw [hv, k1, if_neg (by simp)]
        have R2 : Reading r2.st := ⟨J2, .inr (k4 rfl), k2, k3⟩
        have hpend : r2.st.queue.pending.length ≤ p2.queue.pending.length + w.length := by
          have hp := C42.pending_le (E := En) p2.queue true (.parse w false)
          obtain ⟨-, -, e2⟩ := parse_step ha I2 hfit hc2 h2
          have : r2.st.queue = (Queue.step En true p2.queue (.parse w false)).st := congrArg QRet.st e2
          rw [this]; simpa [C42.bytes] using hp
        obtain ⟨o, ho, A⟩ := ih (Reading.of_queue R2 J1 hqq) J2 hqq (fun v hv => hw v (by simp [hv])) (by omega) ht
        refine ⟨o, by simpa using ho, A.inner, A.error, fun g => (final_cons _ hne).trans (A.yes g), fun g => (final_cons _ hne).trans (A.no g), A.said⟩
      · rw [hv, k1, if_pos rfl]
        have hk := C45.Known.step (docEngine_lawful C ext fuel upd alloc) R.inv hc1 h1 (b := false) ⟨by simp, fun g => by rcases R.parsing with h | h <;> rw [h] at g <;> cases g⟩
        obtain ⟨l, c, hr⟩ := reports (C := C) (ext := ext) (fuel := fuel) (alloc := alloc) hu J1 (hk.flag (by simp [C45.after, hsh]))
        obtain ⟨i1, i2, i3⟩ := failed_path ha [] ws J2 k2 k3 hs' ht
        refine ⟨_, hr, hi.trans i1.symm, he.trans i2.symm, fun hf => (by cases hf), fun _ => (final_cons _ hne).trans i3, .inr ⟨rfl, l, c, ?_⟩⟩
        simp only [he, i2]

/-- **The whole file at once.** -/
theorem file_agrees (hu : ∀ b x, upd b x ≠ none) (ha : ∀ n, alloc n = true) {p q : Parser Inner} {data : Buf} {rs : List (Ret Inner Val)} (R : Reading p)
    (hs : p.queue.pending.length + data.length + 1024 ≤ 2 ^ 30) (h : Path En p (calls [] data) rs q) :
    ∃ o, processFile En p data = some o ∧ Agrees o rs q := by
  cases h with
  | @cons _ _ _ r _ _ hc hst ht =>
    cases ht
    have hfit : Fits p (.parse data true :: []) := by simp [Fits, C42.bytes]; omega
    have J := (parse_step ha R.inv hfit hc hst).1
    simp only [processFile, hst]
    rcases input_val ha R (.inr rfl) hfit hc hst with ⟨k1, -⟩ | ⟨k1, -⟩
    · rw [k1, if_neg (by simp)]
      exact ⟨_, rfl, rfl, rfl, fun _ => by simp [final, k1], fun hf => (by cases hf), .inl ⟨rfl, rfl⟩⟩
    · rw [k1, if_pos rfl]
      have hk := C45.Known.step (docEngine_lawful C ext fuel upd alloc) R.inv hc hst (b := false) ⟨by simp, fun g => by rcases R.parsing with h | h <;> rw [h] at g <;> cases g⟩
      have hsh : r.shown ≠ none := by
        have e := (parse_step ha R.inv hfit hc hst).2.2
        have : r.q = Queue.input En { p.queue with parsing := .PARSING } data true := by
          rw [e]
          simp only [Queue.step, started_reading p.queue R.parsing (.inr R.child), Bool.true_eq_false, and_false, if_false]
        intro hn
        have hn' : r.q.shown = none := hn
        rw [this] at hn'
        simp only [Queue.input, Queue.give, Queue.settle] at hn'
        split at hn'
        · cases hn'
        · split at hn' <;> cases hn'
      obtain ⟨l, c, hr⟩ := reports (C := C) (ext := ext) (fuel := fuel) (alloc := alloc) hu J (hk.flag (by simp [C45.after, hsh]))
      exact ⟨_, hr, rfl, rfl, fun hf => (by cases hf), fun _ => by simp [final, k1], .inr ⟨rfl, l, c, rfl⟩⟩

end

/-! ### Strings -/

theorem strlen_text (s r : Buf) (h : 0 ∉ s) : strlen (s ++ 0 :: r) = some s.length := by
  induction s with
  | nil => simp [strlen]
  | cons c s ih =>
    simp only [List.mem_cons, not_or] at h
    have : c ≠ 0 := fun g => h.1 g.symm
    simp [strlen, this, ih h.2]

theorem strcpy_text (m : Buf) (i : Nat) (s r : Buf) (h : 0 ∉ s) (hi : i + (s.length + 1) ≤ m.length) :
    strcpy m i (s ++ 0 :: r) = some (m.take i ++ s ++ 0 :: m.drop (i + (s.length + 1))) := by
  rw [strcpy, strlen_text s r h]
  simp only
  rw [if_pos hi]
  have : (s ++ 0 :: r).take (s.length + 1) = s ++ [0] := by
    rw [List.take_append]
    simp [List.take_of_length_le]
  rw [this]
  simp

theorem strrchr_none (c : UInt8) (s r : Buf) (hc : c ∉ s) : strrchr c (s ++ 0 :: r) = none := by
  induction s with
  | nil => simp [strrchr]
  | cons d s ih =>
    simp only [List.mem_cons, not_or] at hc
    have : d ≠ c := fun g => hc.1 g.symm
    simp only [List.cons_append, strrchr, ih hc.2]
    simp [this]

theorem strrchr_last (c : UInt8) (hc0 : c ≠ 0) (a s r : Buf) (ha : 0 ∉ a) (hc : c ∉ s) : strrchr c (a ++ c :: (s ++ 0 :: r)) = some a.length := by
  induction a with
  | nil => simp [strrchr, strrchr_none c s r hc, hc0]
  | cons d a ih =>
    simp only [List.mem_cons, not_or] at ha
    have : d ≠ 0 := fun g => ha.1 g.symm
    simp [strrchr, ih ha.2, this]

end Verif.Wf
