import Verif.ApiContent

/-! C40: suspending in a handler and resuming. -/

set_option autoImplicit false

namespace Verif.C40
open Verif Verif.Api

variable {σ α : Type}

section
variable {M : Sem σ} {e : Enc} {app : App α} {s0 : σ} {a0 : α} {upd : Buf → Pos → Option Pos} {alloc : Nat → Bool}

/-- What a call that lets the processor run returns, in terms of the run of the processor without
handlers that interfere. -/
inductive Gave (M : Sem σ) (e : Enc) (a : Queue (σ × α)) (b : Buf) (keep : Nat → Buf) : QRet (σ × α) → Prop
  | ok (E : List Ev) (s : σ) (x : α) (k : Nat) : k ≤ b.length →
      run M e (!a.final) false a.inner.1 b = (E, .ok s (b.drop k)) →
      Gave M e a b keep { val := .status .OK, shown := b, calls := E
                          st := { a with pending := keep k, inner := (s, x), error := none
                                         parsing := if a.final then .FINISHED else .PARSING } }
  | held (E : List Ev) (s : σ) (x : α) (k : Nat) : k ≤ b.length →
      (e.mb ∣ b.length → run M e (!a.final) false a.inner.1 b = pre E (run M e (!a.final) false s (b.drop k))) →
      Gave M e a b keep { val := .status .SUSPENDED, shown := b, calls := E
                          st := { a with pending := keep k, inner := (s, x), error := none, parsing := .SUSPENDED } }
  | err (E : List Ev) (c : XErr) (r : QRet (σ × α)) :
      run M e (!a.final) false a.inner.1 b = (E, .err c) → r.val = .status .ERROR → r.calls = E → r.st.error = some c →
      Gave M e a b keep r

theorem gave (L : C04.Lawful M e) (ok : e.Ok) (hmb : e.mb ≤ 2) (ev : e.Even)
    (hnl : ∀ s w E s', M.act s .DATA_NEWLINE w = (E, .ok s') → s' = s) (hp : app.Patient)
    (a : Queue (σ × α)) (hf : a.failed = false) (b : Buf) (keep : Nat → Buf) :
    Gave M e a b keep (Queue.give (contentEngine M app e s0 a0 upd alloc) a b keep) := by
  obtain ⟨_, _, fl, inner, _, _, final, _, _, _⟩ := a
  have hf' : fl = false := hf
  subst hf'
  have ht := run_tells L ok hmb ev hnl hp (!final) (e.mb ∣ b.length) _ b rfl id ((heard M app).mode (inner.1, inner.2, .go) == .cdata)
    inner.1 inner.2 .go (by simp)
  have hrest := run_rest (heard M app) e (!final) _ b rfl ((heard M app).mode (inner.1, inner.2, .go) == .cdata)
    (inner.1, inner.2, .go)
  simp only [Queue.give, Queue.work, Bool.false_eq_true, if_false, contentEngine, call]
  generalize run (heard M app) e (!final) _ (inner.1, inner.2, Stop.go) b = r at *
  obtain ⟨E, o⟩ := r
  cases o with
  | err c => exact .err E c _ ht (by simp [Queue.settle]) (by simp [Queue.settle]) (by simp [Queue.settle])
  | ok s rest =>
    obtain ⟨s, x, k⟩ := s
    obtain ⟨n, hn, rfl⟩ := hrest _ _ _ rfl
    have hl : b.length - (b.drop n).length = n := by simp; omega
    cases k with
    | go =>
      simp only [Stop.parsing, Queue.settle, hl, reduceCtorEq, if_false]
      exact .ok E s x n hn ht
    | suspend =>
      simp only [Stop.parsing, Queue.settle, hl, if_true]
      exact .held E s x n hn ht
    | abort => exact absurd ht (by simp [Tells])

/-- Calls of XML_Parse have supplied `W` and made the handler calls `calls`; none of them was
interrupted. -/
structure Going (M : Sem σ) (e : Enc) (s0 : σ) (W : Buf) (calls : List Ev) (a : Queue (σ × α)) : Prop where
  failed : a.failed = false
  parsing : a.parsing = .INITIALIZED ∨ a.parsing = .PARSING
  feed : ∃ xs, xs.flatten = W ∧ ∀ y ys, feed M e s0 [] (xs ++ y :: ys) = pre calls (Verif.feed M e a.inner.1 a.pending (y :: ys))
  whole : ∃ k, e.mb ∣ k ∧ k ≤ W.length ∧ a.pending = W.drop k

theorem started_eq (a : Queue (σ × α)) (h : a.parsing = .INITIALIZED ∨ a.parsing = .PARSING) (k) :
    Queue.started (contentEngine M app e s0 a0 upd alloc) a k = k { a with parsing := .PARSING } := by
  unfold Queue.started
  rcases h with h | h
  · rw [h]
    simp only [contentEngine]
    split <;> rfl
  · rw [h]
    obtain ⟨⟩ := a
    simp only at h
    subst h
    rfl

theorem Going.next (L : C04.Lawful M e) (ok : e.Ok) (hmb : e.mb ≤ 2) (ev : e.Even)
    (hnl : ∀ s w E s', M.act s .DATA_NEWLINE w = (E, .ok s') → s' = s) (hp : app.Patient)
    {W : Buf} {calls : List Ev} {a : Queue (σ × α)} (h : Going M e s0 W calls a) (mem : Bool) (w : Buf)
    {r : QRet (σ × α)} (hr : Queue.step (contentEngine M app e s0 a0 upd alloc) mem a (.parse w false) = r)
    (hv : r.val = .status .OK) : Going M e s0 (W ++ w) (calls ++ r.calls) r.st := by
  simp only [Queue.step] at hr
  rw [started_eq a h.parsing] at hr
  by_cases hw : w = []
  · subst hw
    simp only [and_self, if_true] at hr
    subst hr
    simp only [List.append_nil]
    exact ⟨h.failed, .inr rfl, h.feed, h.whole⟩
  rw [if_neg (by simp [hw])] at hr
  split at hr
  · subst hr; cases hv
  unfold Queue.input at hr
  have hg := gave (s0 := s0) (a0 := a0) (upd := upd) (alloc := alloc) L ok hmb ev hnl hp
    { a with parsing := .PARSING, total := a.total + w.length, final := false } h.failed (a.pending ++ w)
    (fun n => (a.pending ++ w).drop n)
  simp only at hr
  rw [hr] at hg
  cases hg with
  | held => cases hv
  | err _ _ _ _ h2 => rw [h2] at hv; cases hv
  | ok E s x k hk hrun =>
    simp only [Bool.not_false] at hrun
    obtain ⟨xs, hxs, hfeed⟩ := h.feed
    obtain ⟨j, hj, hjl, hpend⟩ := h.whole
    refine ⟨h.failed, .inr (by simp), ⟨xs ++ [w], by simp [hxs], ?_⟩, ?_⟩
    · intro y ys
      rw [List.append_assoc, List.singleton_append, hfeed]
      rw [Verif.feed]
      · rw [call, C04.run_via L.go _ _ _ rfl, hrun]
        simp only [C04.pre_pre]
      · simp
    · obtain ⟨i, hi, hil, hd⟩ := C04.rest_dvd L.go hmb ev _ (a.pending ++ w) rfl a.inner.1 E s _ hrun
      refine ⟨j + i, Nat.dvd_add hj hi, ?_, ?_⟩
      · rw [hpend, ← List.drop_append_of_le_length hjl, List.length_drop] at hil
        rw [List.length_append] at *
        omega
      · simp only
        rw [hd, hpend, ← List.drop_append_of_le_length hjl, List.drop_drop]

/-- All that came out of a history: the handler calls one after the other. -/
def heardAll (rs : List (Ret (σ × α) Val)) : List Ev := rs.flatMap fun r => r.calls

theorem Going.path (L : C04.Lawful M e) (ok : e.Ok) (hmb : e.mb ≤ 2) (ev : e.Even)
    (hnl : ∀ s w E s', M.act s .DATA_NEWLINE w = (E, .ok s') → s' = s) (hp : app.Patient) (ws : List Buf) :
    ∀ {W : Buf} {calls : List Ev} {p q : Parser (σ × α)} {rs : List (Ret (σ × α) Val)}, Going M e s0 W calls p.queue → Inv p →
    Path (contentEngine M app e s0 a0 upd alloc) p (ws.map fun w => .parse w false) rs q →
    (∀ r ∈ rs, r.val = .status .OK) → Going M e s0 (W ++ ws.flatten) (calls ++ heardAll rs) q.queue := by
  induction ws with
  | nil => intro W calls p q rs h I hpath _; cases hpath; simpa [heardAll] using h
  | cons w ws ih =>
    intro W calls p q rs h I hpath hok
    cases hpath with
    | @cons _ _ _ r _ rs hc hs ht =>
      obtain ⟨Ir, mem, _, hq⟩ := step_spec (contentEngine_lawful ..) I hc hs
      have hg := h.next L ok hmb ev hnl hp mem w (r := r.q) hq.symm (hok r (by simp))
      have := ih hg Ir ht (fun r hr => hok r (by simp [hr]))
      simpa [heardAll, List.append_assoc, Ret.q] using this

/-- The outcome a status and an error code stand for. -/
inductive Outcome (q : Parser (σ × α)) : Val → Out σ → Prop
  | ok (rest : Buf) : Outcome q (.status .OK) (.ok q.inner.1 rest)
  | err (c : XErr) : q.error = some c → Outcome q (.status .ERROR) (.err c)

/-- **C40**, for any number of calls of XML_Parse none of which is interrupted, a final call in which a
handler suspends the parser, and XML_ResumeParser: together they yield what one call on all of the
input yields, when no handler interferes.  Missing: the parser suspended before the final call, and
suspended again after being resumed; see `repeats`, `stuck`. -/
theorem resume_generic (L : C04.Lawful M e) (ok : e.Ok) (hmb : e.mb ≤ 2) (ev : e.Even)
    (hnl : ∀ s w E s', M.act s .DATA_NEWLINE w = (E, .ok s') → s' = s) (hp : app.Patient) (enc : Option Buf)
    (ws : List Buf) (w : Buf) (hd : e.mb ∣ (ws.flatten ++ w).length) {q : Parser (σ × α)} {rs : List (Ret (σ × α) Val)}
    {r1 r2 : Ret (σ × α) Val}
    (h : Path (contentEngine M app e s0 a0 upd alloc) (create (contentEngine M app e s0 a0 upd alloc) enc) (ws.map (fun w => .parse w false) ++ [.parse w true, .resume])
      (rs ++ [r1, r2]) q)
    (hl : rs.length = ws.length) (hok : ∀ r ∈ rs, r.val = .status .OK) (h1 : r1.val = .status .SUSPENDED) (h2 : r2.val ≠ .status .SUSPENDED) :
    ∃ o, Outcome q r2.val o ∧ C04.Same (heardAll (rs ++ [r1, r2]), o) (call M e false s0 (ws.flatten ++ w)) := by
  obtain ⟨ra, rb, m, hrs, hA, hB⟩ := h.append
  have hlen : ∀ {p q : Parser (σ × α)} {cs rs}, Path (contentEngine M app e s0 a0 upd alloc) p cs rs q → rs.length = cs.length := by
    intro p q cs rs h
    induction h with
    | nil => rfl
    | cons _ _ _ ih => simp [ih]
  have hra : ra.length = rs.length := by rw [hlen hA, List.length_map, hl]
  obtain ⟨rfl, rfl⟩ := List.append_inj hrs hra.symm
  have I0 : Inv (create (contentEngine M app e s0 a0 upd alloc) enc) := Inv.create enc
  have hg0 : Going M e s0 [] [] (create (contentEngine M app e s0 a0 upd alloc) enc).queue :=
    ⟨rfl, .inl rfl, ⟨[], rfl, fun y ys => by simp [C04.pre_nil, Parser.queue, create, contentEngine]⟩, ⟨0, Nat.dvd_zero _, by simp, rfl⟩⟩
  have hg := Going.path (a0 := a0) (upd := upd) (alloc := alloc) L ok hmb ev hnl hp ws hg0 I0 hA hok
  have Im := hA.inv (contentEngine_lawful ..) I0
  simp only [List.nil_append] at hg
  cases hB with
  | cons hc1 hs1 ht1 =>
    cases ht1 with
    | cons hc2 hs2 ht2 =>
      cases ht2
      obtain ⟨I1, mem1, _, hq1⟩ := step_spec (contentEngine_lawful ..) Im hc1 hs1
      obtain ⟨I2, mem2, _, hq2⟩ := step_spec (contentEngine_lawful ..) I1 hc2 hs2
      simp only [Call.isQuery, Bool.false_eq_true, if_false] at hq1 hq2
      -- the final call
      simp only [Queue.step] at hq1
      rw [started_eq _ hg.parsing] at hq1
      simp only [Bool.true_eq_false, and_false, if_false] at hq1
      split at hq1
      · have := congrArg QRet.val hq1
        rw [show r1.q.val = r1.val from rfl, h1] at this
        cases this
      unfold Queue.input at hq1
      simp only at hq1
      have hgv := gave (s0 := s0) (a0 := a0) (upd := upd) (alloc := alloc) L ok hmb ev hnl hp
        { m.queue with parsing := .PARSING, total := m.queue.total + w.length, final := true } hg.failed (m.queue.pending ++ w)
        (fun n => (m.queue.pending ++ w).drop n)
      rw [← hq1] at hgv
      generalize hx1 : r1.q = x1 at hgv
      have hv1 : x1.val = .status .SUSPENDED := by rw [← hx1]; exact h1
      have hc1' : x1.calls = r1.calls := by rw [← hx1]; rfl
      have hst1 : x1.st = r1.st.queue := by rw [← hx1]; rfl
      cases hgv with
      | ok => cases hv1
      | err _ _ _ _ hb => rw [hb] at hv1; cases hv1
      | held E1 s1 y1 k hk hrun =>
        obtain ⟨j, hj, hjl, hpend⟩ := hg.whole
        have hbl : e.mb ∣ (m.queue.pending ++ w).length := by
          rw [hpend, ← List.drop_append_of_le_length hjl, List.length_drop]
          exact (Nat.dvd_sub_iff_left (by rw [List.length_append]; omega) hj).2 hd
        have hrun := hrun hbl
        -- the resumption
        simp only [Queue.step, ← hst1, if_true] at hq2
        have hgv2 := gave (s0 := s0) (a0 := a0) (upd := upd) (alloc := alloc) L ok hmb ev hnl hp
          { pending := List.drop k (m.queue.pending ++ w), total := m.queue.total + List.length w,
            failed := m.queue.failed, inner := (s1, y1), error := none, parsing := Parsing.PARSING, final := true,
            child := m.queue.child, paramEntity := m.queue.paramEntity, conf := m.queue.conf } hg.failed
          (List.drop k (m.queue.pending ++ w)) (fun _ => List.drop k (m.queue.pending ++ w))
        rw [← hq2] at hgv2
        obtain ⟨xs, hxs, hfeed⟩ := hg.feed
        have hall := C04.chunks L ok hmb ev (xs ++ [w]) s0 [] (by simpa [hxs] using hd)
        rw [hfeed, Verif.feed, call, C04.run_via L.go _ _ _ rfl] at hall
        simp only [Bool.not_true] at hrun
        rw [hrun] at hall
        simp only [List.nil_append, List.flatten_append, hxs, List.flatten_cons, List.flatten_nil, List.append_nil] at hall
        have hE1 : E1 = r1.calls := hc1'
        generalize hx2 : r2.q = x2 at hgv2
        have hv2 : x2.val = r2.val := by rw [← hx2]; rfl
        have hc2' : x2.calls = r2.calls := by rw [← hx2]; rfl
        have hst2 : x2.st = r2.st.queue := by rw [← hx2]; rfl
        have hcalls : heardAll (rs ++ [r1, r2]) = heardAll rs ++ E1 ++ x2.calls := by simp [heardAll, hE1, hc2']
        rw [hcalls, ← hv2]
        cases hgv2 with
        | held => exact absurd hv2.symm h2
        | ok E2 s2 y2 k2 hk2 hrun2 =>
          have hin : r2.st.inner.1 = s2 := by
            have := congrArg Queue.inner hst2
            simp only [Parser.queue] at this
            rw [← this]
          simp only [Bool.not_true] at hrun2
          rw [hrun2, C04.pre_pre] at hall
          refine ⟨.ok r2.st.inner.1 ((List.drop k (m.queue.pending ++ w)).drop k2), .ok _, ?_⟩
          rw [hin]
          exact hall
        | err E2 c2 _ hrun2 g1 g2 g3 =>
          simp only [Bool.not_true] at hrun2
          rw [hrun2, C04.pre_pre] at hall
          rw [g1, g2]
          refine ⟨_, .err c2 ?_, hall⟩
          have := congrArg Queue.error hst2
          rw [g3] at this
          exact this.symm

/-- The same without any suspension: what the calls of XML_Parse report together. -/
theorem uninterrupted (L : C04.Lawful M e) (ok : e.Ok) (hmb : e.mb ≤ 2) (ev : e.Even)
    (hnl : ∀ s w E s', M.act s .DATA_NEWLINE w = (E, .ok s') → s' = s) (hp : app.Patient) (enc : Option Buf)
    (ws : List Buf) (w : Buf) (hd : e.mb ∣ (ws.flatten ++ w).length) {q : Parser (σ × α)} {rs : List (Ret (σ × α) Val)}
    {r1 : Ret (σ × α) Val}
    (h : Path (contentEngine M app e s0 a0 upd alloc) (create (contentEngine M app e s0 a0 upd alloc) enc)
      (ws.map (fun w => .parse w false) ++ [.parse w true]) (rs ++ [r1]) q)
    (hl : rs.length = ws.length) (hok : ∀ r ∈ rs, r.val = .status .OK) (h1 : r1.val = .status .OK) :
    ∃ rest, C04.Same (heardAll (rs ++ [r1]), .ok q.inner.1 rest) (call M e false s0 (ws.flatten ++ w)) := by
  obtain ⟨ra, rb, m, hrs, hA, hB⟩ := h.append
  have hlen : ∀ {p q : Parser (σ × α)} {cs rs}, Path (contentEngine M app e s0 a0 upd alloc) p cs rs q → rs.length = cs.length := by
    intro p q cs rs h
    induction h with
    | nil => rfl
    | cons _ _ _ ih => simp [ih]
  have hra : ra.length = rs.length := by rw [hlen hA, List.length_map, hl]
  obtain ⟨rfl, rfl⟩ := List.append_inj hrs hra.symm
  have I0 : Inv (create (contentEngine M app e s0 a0 upd alloc) enc) := Inv.create enc
  have hg0 : Going M e s0 [] [] (create (contentEngine M app e s0 a0 upd alloc) enc).queue :=
    ⟨rfl, .inl rfl, ⟨[], rfl, fun y ys => by simp [C04.pre_nil, Parser.queue, create, contentEngine]⟩, ⟨0, Nat.dvd_zero _, by simp, rfl⟩⟩
  have hg := Going.path (a0 := a0) (upd := upd) (alloc := alloc) L ok hmb ev hnl hp ws hg0 I0 hA hok
  have Im := hA.inv (contentEngine_lawful ..) I0
  simp only [List.nil_append] at hg
  cases hB with
  | cons hc1 hs1 ht1 =>
    cases ht1
    obtain ⟨I1, mem1, _, hq1⟩ := step_spec (contentEngine_lawful ..) Im hc1 hs1
    simp only [Call.isQuery, Bool.false_eq_true, if_false, Queue.step] at hq1
    rw [started_eq _ hg.parsing] at hq1
    simp only [Bool.true_eq_false, and_false, if_false] at hq1
    split at hq1
    · have := congrArg QRet.val hq1
      rw [show r1.q.val = r1.val from rfl, h1] at this
      cases this
    unfold Queue.input at hq1
    simp only at hq1
    have hgv := gave (s0 := s0) (a0 := a0) (upd := upd) (alloc := alloc) L ok hmb ev hnl hp
      { m.queue with parsing := .PARSING, total := m.queue.total + w.length, final := true } hg.failed (m.queue.pending ++ w)
      (fun n => (m.queue.pending ++ w).drop n)
    rw [← hq1] at hgv
    generalize hx1 : r1.q = x1 at hgv
    have hv1 : x1.val = .status .OK := by rw [← hx1]; exact h1
    have hc1' : x1.calls = r1.calls := by rw [← hx1]; rfl
    have hst1 : x1.st = r1.st.queue := by rw [← hx1]; rfl
    cases hgv with
    | held => cases hv1
    | err _ _ _ _ hb => rw [hb] at hv1; cases hv1
    | ok E1 s1 y1 k hk hrun =>
      obtain ⟨xs, hxs, hfeed⟩ := hg.feed
      have hall := C04.chunks L ok hmb ev (xs ++ [w]) s0 [] (by simpa [hxs] using hd)
      rw [hfeed, Verif.feed, call, C04.run_via L.go _ _ _ rfl] at hall
      simp only [Bool.not_true] at hrun
      rw [hrun] at hall
      simp only [List.nil_append, List.flatten_append, hxs, List.flatten_cons, List.flatten_nil, List.append_nil] at hall
      have hE1 : E1 = r1.calls := hc1'
      have hin : r1.st.inner.1 = s1 := by
        have := congrArg Queue.inner hst1
        simp only [Parser.queue] at this
        rw [← this]
      refine ⟨(m.queue.pending ++ w).drop k, ?_⟩
      rw [hin, show heardAll (rs ++ [r1]) = heardAll rs ++ E1 by simp [heardAll, hE1]]
      exact hall

end

/-- The parser: content of a document under handlers. -/
abbrev parserEngine {α : Type} (c : Cfg) (D : Dtd) (int x : XEnc) (app : App α) (a0 : α) (alloc : Nat → Bool) : Engine (CState × α) :=
  contentEngine (parser c D int x) app x.e CState.init a0 (updatePosition x.e) alloc

theorem parser_newline (c : Cfg) (D : Dtd) (int x : XEnc) (s : CState) (w : Buf) (E : List Ev) (s' : CState)
    (h : (parser c D int x).act s .DATA_NEWLINE w = (E, .ok s')) : s' = s := by
  have : ∀ k opened start, (sem c D int k x opened start).act s .DATA_NEWLINE w = (toChars c x [[0x0A]] w, .ok s) := by
    intro k o st; cases k <;> rfl
  rw [parser, this] at h
  cases h
  rfl

/-- **C40**, partially.  Any handlers that suspend when they like, any declarations, any supported
encoding.  The document (from its root start tag on) is passed in any pieces; if the parser is suspended
once, in the final call, then XML_ResumeParser completes the parse: all handler calls together, and the
outcome, are those of the parse without suspension.  (`Same`: up to the slicing of text.)
Missing: the parser suspended before the final call, and suspended again after being resumed, for which
the claim is false (`repeats`, `stuck`, `panics`); a handler that suspends within the text of an internal
entity. -/
theorem resume_partial {α : Type} {x : XEnc} {asc} (s : XSupported x asc) (c : Cfg) (D : Dtd) (int : XEnc) {app : App α} (hp : app.Patient)
    (a0 : α) (alloc : Nat → Bool) (enc : Option Buf) (ws : List Buf) (w : Buf) (hd : x.e.mb ∣ (ws.flatten ++ w).length)
    {q : Parser (CState × α)} {rs : List (Ret (CState × α) Val)} {r1 r2 : Ret (CState × α) Val}
    (h : Path (parserEngine c D int x app a0 alloc) (create (parserEngine c D int x app a0 alloc) enc)
      (ws.map (fun w => .parse w false) ++ [.parse w true, .resume]) (rs ++ [r1, r2]) q)
    (hl : rs.length = ws.length) (hok : ∀ r ∈ rs, r.val = .status .OK) (h1 : r1.val = .status .SUSPENDED)
    (h2 : r2.val ≠ .status .SUSPENDED) :
    ∃ o, Outcome q r2.val o ∧
      C04.Same (heardAll (rs ++ [r1, r2]), o) (call (parser c D int x) x.e false CState.init (ws.flatten ++ w)) :=
  resume_generic (C04.sem_lawful s c D int _ _ _) s.s.ok s.s.mb s.s.even (parser_newline c D int x) hp enc ws w hd h hl hok h1 h2

/-- Resuming right after the call in which a handler suspended the parser does not panic, if some input
is left. -/
theorem resume_total {σ : Type} {E : Engine σ} (L : E.Lawful) (hu : ∀ s b x, E.upd s b x ≠ none) {p : Parser σ} (I : Inv p)
    {w : Buf} {final : Bool} (hc : Contract p (.parse w final)) {r : Ret σ Val} (hr : step E p (.parse w final) = some r)
    (hn : p.parsing ≠ .SUSPENDED) (hs : r.st.parsing = .SUSPENDED) (hp : r.st.queue.pending ≠ []) : ∃ r', step E r.st .resume = some r' := by
  have Ir := (step_spec L I hc hr).1
  simp only [step, Option.map_eq_some_iff] at hr
  obtain ⟨r0, hr, rfl⟩ := hr
  rcases parse_ran L I hc final hr with h | ⟨m, hm⟩
  · exact absurd (h.2.2.2.2.2.2.2.2.2 hs) hn
  · obtain ⟨i, hi, _, hi2⟩ := hm.st_posIdx
    generalize r0.as Val.status = r at *
    have i1 := Ir.start; have i2 := Ir.stop; have i3 := Ir.endIdx hs
    have hlt : r.st.start < r.st.stop := by
      apply Classical.byContradiction
      intro hle
      apply hp
      simp only [Parser.queue]
      rw [← List.length_eq_zero_iff]
      simp
      omega
    suffices ∃ x, resumeParser E r.st = some x by
      obtain ⟨x, hx⟩ := this
      exact ⟨_, by rw [step, hx]; rfl⟩
    unfold resumeParser
    rw [if_neg (by simp [hs])]
    simp only
    rw [if_neg (by omega)]
    generalize (r.st.buffer.take r.st.endIdx).drop r.st.start = b
    generalize hd : process E { r.st with parsing := .PARSING } b = d
    have ha := advancePos_total hu (p := returned { r.st with parsing := .PARSING } d) (i := i) hi (by simp only [returned]; omega)
      (by simp only [returned]; omega)
    cases hx : advancePos E (returned { r.st with parsing := .PARSING } d) with
    | none => exact absurd hx ha
    | some q =>
      unfold conclude
      rw [hx]
      split
      · exact ⟨_, rfl⟩
      · split <;> exact ⟨_, rfl⟩

/-! ## The claim is false in general -/

/-- XML_ResumeParser consumes nothing: whatever the processor made of the bytes it was given, they are
still pending, and the next call gives them to the processor again. -/
theorem shown_again {σ : Type} {E : Engine σ} (L : E.Lawful) {p : Parser σ} (I : Inv p) (hs : p.parsing = .SUSPENDED)
    {r : Ret σ Val} (hr : step E p .resume = some r) :
    r.shown = some p.queue.pending ∧ r.st.queue.pending = p.queue.pending ∧
    (∀ r', step E r.st .resume = some r' → r.st.parsing = .SUSPENDED → r'.shown = some p.queue.pending) ∧
    ∀ w f, w.length < 2 ^ 31 → ∀ r', step E r.st (.parse w f) = some r' → r'.shown = none ∨ r'.shown = some (p.queue.pending ++ w) := by
  obtain ⟨Ir, mem, _, hq⟩ := step_spec L I (c := .resume) trivial hr
  have hp : p.queue.parsing = .SUSPENDED := hs
  simp only [Call.isQuery, Bool.false_eq_true, if_false, Queue.step, hp, if_true] at hq
  have hset : ∀ (a : Queue σ) (b : Buf) (d : Done σ), (Queue.settle a b d).shown = some b ∧ (Queue.settle a b d).st.pending = a.pending := by
    intro a b d
    unfold Queue.settle
    split
    · exact ⟨rfl, rfl⟩
    · split <;> exact ⟨rfl, rfl⟩
  have h1 : r.st.queue.pending = p.queue.pending := by
    have := congrArg (fun x => x.st.pending) hq
    simp only [Queue.give] at this
    rw [(hset _ _ _).2] at this
    exact this
  refine ⟨?_, h1, ?_, ?_⟩
  · have := congrArg QRet.shown hq
    simp only [Queue.give] at this
    rw [(hset _ _ _).1] at this
    exact this
  · intro r' hr' hs'
    obtain ⟨_, mem, _, hq⟩ := step_spec L Ir (c := .resume) trivial hr'
    have hp : r.st.queue.parsing = .SUSPENDED := hs'
    simp only [Call.isQuery, Bool.false_eq_true, if_false, Queue.step, hp, if_true] at hq
    have := congrArg QRet.shown hq
    simp only [Queue.give] at this
    rw [(hset _ _ _).1, h1] at this
    exact this
  · intro w f hw r' hr'
    simp only [step, Option.map_eq_some_iff] at hr'
    obtain ⟨r0, hr', rfl⟩ := hr'
    rcases parse_ran L Ir hw f hr' with h | ⟨m, hm⟩
    · exact .inl h.1
    · right; rw [hm.shown, hm.pending, h1]

/-- An application that suspends the parser at the start tag of every `b`. -/
def pause : App Unit := fun _ ev =>
  ((), match ev with
    | .startElement n _ _ _ => if n = [0x62] then some true else none
    | _ => none)

theorem pause_patient : pause.Patient := by
  intro a ev
  cases ev <;> simp [pause]

/-- The default parser for UTF-8. -/
def plain : Engine (CState × Unit) := parserEngine {} default (internalUtf8X false) (utf8X false) pause () fun _ => true

/-- What calls on a new parser return and report. -/
def trace (cs : List Call) : Option (List (Val × List Ev)) :=
  (steps plain (create plain none) cs).map fun x => x.1.map fun r => (r.val, r.calls)

private def a : List Ev := [.startElement [0x61] [] 0 none]
private def el (n : UInt8) : List Ev := [.startElement [n] [] 0 none, .endElement [n]]

/-- `resume_partial` at work: `<a><b`, `/><c/></a>`. -/
example : trace [.parse "<a><b".toUTF8.toList false, .parse "/><c/></a>".toUTF8.toList true, .resume] =
    some [(.status .OK, a), (.status .SUSPENDED, el 0x62), (.status .OK, el 0x63 ++ [.endElement [0x61]])] := by decide +kernel

/-- **C40 fails**: `<a><b/><c/>` not final, resumed, then `</a>`: `c` is reported twice, and the parse
succeeds. -/
theorem repeats : trace [.parse "<a><b/><c/>".toUTF8.toList false, .resume, .parse "</a>".toUTF8.toList true] =
    some [(.status .SUSPENDED, a ++ el 0x62), (.status .OK, el 0x63), (.status .OK, el 0x63 ++ [.endElement [0x61]])] := by
  decide +kernel

/-- Without the suspension it is reported once. -/
example : (call (parser {} default (internalUtf8X false) (utf8X false)) (utf8Enc false) false CState.init
    "<a><b/><c/></a>".toUTF8.toList).1 = a ++ el 0x62 ++ el 0x63 ++ [.endElement [0x61]] := by decide +kernel

/-- **C40 fails**: suspended a second time, the parser never gets past the second `b`. -/
theorem stuck : trace [.parse "<a><b/><b/></a>".toUTF8.toList true, .resume, .resume, .resume] =
    some [(.status .SUSPENDED, a ++ el 0x62), (.status .SUSPENDED, el 0x62), (.status .SUSPENDED, el 0x62),
      (.status .SUSPENDED, el 0x62)] := by
  decide +kernel

/-- **C40 fails**: when the input given so far ends where the buffer ends and all of it is consumed,
XML_ResumeParser panics. -/
theorem panics {σ : Type} (E : Engine σ) (p : Parser σ) (hs : p.parsing = .SUSPENDED) (hb : p.start = p.buffer.length) :
    step E p .resume = none := by
  simp [step, resumeParser, hs, hb]

/-- That happens: the first 1024 bytes of a document, ending with `<b/>`. -/
theorem panics_reached : let w := "<a>".toUTF8.toList ++ List.replicate 1017 0x20 ++ "<b/>".toUTF8.toList
    (steps plain (create plain none) [.parse w false]).map (fun x => x.1.map fun r => r.val) = some [.status .SUSPENDED] ∧
    (steps plain (create plain none) [.parse w false, .resume]).isNone = true := by
  decide +kernel

end Verif.C40
