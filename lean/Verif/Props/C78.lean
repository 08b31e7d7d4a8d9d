import Verif.SuspendThm

/-! # C78: suspending the parser in the text of an entity -/

set_option autoImplicit false

namespace Verif.C78
open Verif Verif.Api C40

variable {α : Type} {c : Cfg} {D : Dtd} {int x : XEnc} {app : App α} {a0 : α} {alloc : Nat → Bool} {K : Nat} {asc iasc : UInt8 → Buf}

theorem lawful (c : Cfg) (D : Dtd) (int x : XEnc) (app : App α) (a0 : α) (alloc : Nat → Bool) : (suspendEngine c D int x app a0 alloc).Lawful := by
  refine ⟨?_, ?_, ?_⟩ <;> intro c s f b <;> simp only [suspendEngine] <;> generalize (if s.2.2.inside = true then _ else _) = r <;> obtain ⟨E, o⟩ := r <;> cases o <;> simp only [given]
  · simp
  · simp
  · simp
  · simp
  · rename_i s' _; obtain ⟨_, _, k, _⟩ := s'; cases k <;> simp [Stop.parsing]
  · split <;> simp

/-- What a call that lets a processor run returns, with `W` what the processor would have returned without handlers that interfere. -/
inductive Gives (c : Cfg) (D : Dtd) (int x : XEnc) (K : Nat) (first : Bool) (W : Verif.Ran CState) (a : Queue (Between α)) (b : Buf) (keep : Nat → Buf) : QRet (Between α) → Prop
  | ok (E : List Ev) (s : CState) (y : α) (u : Ents) (k : Nat) : k ≤ b.length →
      (first = true → u = .closed ∧ W = (E, .ok s (b.drop k))) →
      (W = (E, .ok s (b.drop k)) ∨ ∃ E' e, W = (E', .err e) ∧ E' <+: E) →
      Gives c D int x K first W a b keep
        { val := .status .OK, shown := b, calls := E
          st := { a with pending := keep k, inner := (s, y, u), error := none, parsing := if a.final then .FINISHED else .PARSING } }
  | held (E : List Ev) (s : CState) (y : α) (u : Ents) (k : Nat) : k ≤ b.length → (first = true → Shallow c D int u) →
      (x.e.mb ∣ b.length → W = pre E (onward c D int x K (!a.final) u s (b.drop k)) ∨ ∃ E' e, W = (E', .err e) ∧ E' <+: E) →
      Gives c D int x K first W a b keep
        { val := .status .SUSPENDED, shown := b, calls := E
          st := { a with pending := keep k, inner := (s, y, u), error := none, parsing := .SUSPENDED } }
  | err (E : List Ev) (e : XErr) (r : QRet (Between α)) :
      (W = (E, .err e) ∨ ∃ E' e, W = (E', .err e) ∧ E' <+: E) →
      r.val = .status .ERROR → r.calls = E → r.st.error = some e →
      Gives c D int x K first W a b keep r

theorem gives (first : Bool) {r : Verif.Ran (SState α)} {W : Verif.Ran CState} (a : Queue (Between α)) (b : Buf) (keep : Nat → Buf)
    (hr : ∀ E s' q, r = (E, .ok s' q) → ∃ k, k ≤ b.length ∧ q = b.drop k)
    (h1 : first = true → TellsF c D int x K (!a.final) (x.e.mb ∣ b.length) r W)
    (h : TellsR c D int x K (!a.final) (x.e.mb ∣ b.length) r W) :
    Gives c D int x K first W a b keep (Queue.settle { a with pending := keep (given a.inner b r).used, inner := (given a.inner b r).inner, error := (given a.inner b r).code, parsing := (given a.inner b r).parsing }
        b (given a.inner b r)) := by
  obtain ⟨E, o⟩ := r
  cases o with
  | err e =>
    refine .err E e _ ?_ (by simp [given, Queue.settle]) (by simp [given, Queue.settle]) (by simp [given, Queue.settle])
    rcases h.2 with h | h
    · exact .inl h
    · exact .inr h
  | ok s rest =>
    obtain ⟨s, y, k, u⟩ := s
    obtain ⟨n, hn, rfl⟩ := hr _ _ _ rfl
    have hl : b.length - (b.drop n).length = n := by simp; omega
    cases k with
    | go =>
      simp only [given, Stop.parsing, Queue.settle, hl, reduceCtorEq, if_false]
      refine .ok E s y u n hn (fun hf => ?_) ?_
      · rcases h1 hf with h | ⟨_, _, _, _, _, h, _⟩
        · exact h
        · cases h
      · rcases h.2 with h | h
        · exact .inl h.2
        · exact .inr h
    | suspend =>
      simp only [given, Stop.parsing, Queue.settle, hl, if_true]
      refine .held E s y u n hn (fun hf => ?_) (fun hP => ?_)
      · rcases h1 hf with h | ⟨_, _, _, _, _, h, h'⟩
        · exact h.1
        · cases h; exact h'
      · rcases h.2 with h | h
        · exact .inl (h.2 hP)
        · exact .inr h
    | abort => exact absurd rfl (h.1 _ _ _ _)

/-- A call on the document while no entity is open. -/
theorem gives_plain (S : XSupported x asc) (I : XSupported int iasc) (hi : int.e.mb = 1) (hp : app.Patient) (fl : Flat c D int) (hK : D.fuel = K + 1)
    (a : Queue (Between α)) (hf : a.failed = false) (hu : a.inner.2.2 = .closed) (b : Buf) (keep : Nat → Buf) (first : Bool) :
    Gives c D int x K first (run (parser c D int x) x.e (!a.final) false a.inner.1 b) a b keep (Queue.give (suspendEngine c D int x app a0 alloc) a b keep) := by
  obtain ⟨_, _, fl', ⟨s, y, u⟩, _, _, final, _, _, _⟩ := a
  have hf' : fl' = false := hf
  have hu' : u = .closed := hu
  subst hf' hu'
  have ht := run_tellsS S I hi hp fl K (!final) (x.e.mb ∣ b.length) _ b rfl id ((semS c D int app (K + 1) x 0).mode (s, y, .go, .closed) == .cdata) s y .go (by simp)
  have hrest := run_rest (semS c D int app (K + 1) x 0) x.e (!final) _ b rfl ((semS c D int app (K + 1) x 0).mode (s, y, .go, .closed) == .cdata) (s, y, .go, .closed)
  simp only [Queue.give, Queue.work, Bool.false_eq_true, if_false, suspendEngine, call, parser, hK, Ents.closed] at ht hrest ⊢
  exact gives first _ b keep hrest (fun _ => ht) ht.resumed

/-- XML_ResumeParser, while an entity is open. -/
theorem gives_inside (S : XSupported x asc) (I : XSupported int iasc) (hi : int.e.mb = 1) (hp : app.Patient) (fl : Flat c D int) (hK : D.fuel = K + 1)
    (a : Queue (Between α)) (hf : a.failed = false) {n r : Buf} {l : Nat} (hu : a.inner.2.2 = ⟨[⟨n, r, l⟩], [n], true⟩) (hr : PlainText c D int r)
    (hm : a.inner.1.mode ≠ .cdata) (b : Buf) (keep : Nat → Buf) :
    Gives c D int x K false (onward c D int x K (!a.final) a.inner.2.2 a.inner.1 b) a b keep (Queue.give (suspendEngine c D int x app a0 alloc) a b keep) := by
  obtain ⟨_, _, fl', ⟨s, y, u⟩, _, _, final, _, _, _⟩ := a
  have hf' : fl' = false := hf
  have hu' : u = ⟨[⟨n, r, l⟩], [n], true⟩ := hu
  subst hf' hu'
  have ht := internal_tells (n := n) (l := l) S I hi hp fl K final (x.e.mb ∣ b.length) s y hr hm b id
  have hrest : ∀ E s' q, internalProc c D int x app (K + 1) final (s, y, ⟨[⟨n, r, l⟩], [n], true⟩) b = (E, .ok s' q) → ∃ k, k ≤ b.length ∧ q = b.drop k := by
    intro E s' q h
    unfold internalProc at h
    simp only at h
    generalize run _ int.e false false _ r = z at h
    obtain ⟨F, o⟩ := z
    cases o with
    | err e => cases h
    | ok s2 q2 =>
      simp only at h
      split at h
      · cases h; exact ⟨0, by omega, rfl⟩
      · generalize hz : run _ x.e (!final) false _ b = z at h
        obtain ⟨G, o⟩ := z
        simp only [pre] at h
        cases h
        exact run_rest _ _ _ _ b rfl _ _ _ _ _ hz
  simp only [Queue.give, Queue.work, Bool.false_eq_true, if_false, suspendEngine, hK, if_true] at ht hrest ⊢
  exact gives false _ b keep hrest (fun h => by cases h) ht

theorem started_eq (a : Queue (Between α)) (h : a.parsing = .INITIALIZED ∨ a.parsing = .PARSING) (k) :
    Queue.started (suspendEngine c D int x app a0 alloc) a k = k { a with parsing := .PARSING } := by
  unfold Queue.started
  rcases h with h | h
  · rw [h]
    simp only [suspendEngine]
    split <;> rfl
  · rw [h]
    obtain ⟨⟩ := a
    simp only at h
    subst h
    rfl

theorem parser_lawful (S : XSupported x asc) : C04.Lawful (parser c D int x) x.e := C04.sem_lawful S c D int _ _ _

theorem next (S : XSupported x asc) (I : XSupported int iasc) (hi : int.e.mb = 1) (hp : app.Patient) (fl : Flat c D int) (hK : D.fuel = K + 1)
    {W : Buf} {calls : List Ev} {a : Queue (Between α)} (h : Going (parser c D int x) x.e CState.init W calls a) (hu : a.inner.2.2 = .closed) (mem : Bool) (w : Buf)
    {r : QRet (Between α)} (hr : Queue.step (suspendEngine c D int x app a0 alloc) mem a (.parse w false) = r)
    (hv : r.val = .status .OK) : Going (parser c D int x) x.e CState.init (W ++ w) (calls ++ r.calls) r.st ∧ r.st.inner.2.2 = .closed := by
  have L := parser_lawful (c := c) (D := D) (int := int) S
  simp only [Queue.step] at hr
  rw [started_eq a h.parsing] at hr
  by_cases hw : w = []
  · subst hw
    simp only [and_self, if_true] at hr
    subst hr
    simp only [List.append_nil]
    exact ⟨⟨h.failed, .inr rfl, h.feed, h.whole⟩, hu⟩
  rw [if_neg (by simp [hw])] at hr
  split at hr
  · subst hr; cases hv
  unfold Queue.input at hr
  have hg := gives_plain (a0 := a0) (alloc := alloc) S I hi hp fl hK
    { a with parsing := .PARSING, total := a.total + w.length, final := false } h.failed hu (a.pending ++ w)
    (fun n => (a.pending ++ w).drop n) true
  simp only at hr
  rw [hr] at hg
  cases hg with
  | held => cases hv
  | err _ _ _ _ h2 => rw [h2] at hv; cases hv
  | ok E s y u k hk hrun0 _ =>
    obtain ⟨hu1, hrun⟩ := hrun0 rfl
    clear hrun0
    subst hu1
    simp only [Bool.not_false] at hrun
    obtain ⟨xs, hxs, hfeed⟩ := h.feed
    obtain ⟨j, hj, hjl, hpend⟩ := h.whole
    refine ⟨⟨h.failed, .inr (by simp), ⟨xs ++ [w], by simp [hxs], ?_⟩, ?_⟩, rfl⟩
    · intro y ys
      rw [List.append_assoc, List.singleton_append, hfeed]
      rw [Verif.feed]
      · rw [call, C04.run_via L.go _ _ _ rfl, hrun]
        simp only [C04.pre_pre]
      · simp
    · obtain ⟨i, hi, hil, hd⟩ := C04.rest_dvd L.go S.s.mb S.s.even _ (a.pending ++ w) rfl a.inner.1 E s _ hrun
      refine ⟨j + i, Nat.dvd_add hj hi, ?_, ?_⟩
      · rw [hpend, ← List.drop_append_of_le_length hjl, List.length_drop] at hil
        rw [List.length_append] at *
        omega
      · simp only
        rw [hd, hpend, ← List.drop_append_of_le_length hjl, List.drop_drop]

theorem path (S : XSupported x asc) (I : XSupported int iasc) (hi : int.e.mb = 1) (hp : app.Patient) (fl : Flat c D int) (hK : D.fuel = K + 1) (ws : List Buf) :
    ∀ {W : Buf} {calls : List Ev} {p q : Parser (Between α)} {rs : List (Ret (Between α) Val)}, Going (parser c D int x) x.e CState.init W calls p.queue →
    p.queue.inner.2.2 = .closed → Inv p →
    Path (suspendEngine c D int x app a0 alloc) p (ws.map fun w => .parse w false) rs q →
    (∀ r ∈ rs, r.val = .status .OK) → Going (parser c D int x) x.e CState.init (W ++ ws.flatten) (calls ++ heardAll rs) q.queue ∧ q.queue.inner.2.2 = .closed := by
  induction ws with
  | nil => intro W calls p q rs h hu I hpath _; cases hpath; exact ⟨by simpa [heardAll] using h, hu⟩
  | cons w ws ih =>
    intro W calls p q rs h hu J hpath hok
    cases hpath with
    | @cons _ _ _ r _ rs hc hs ht =>
      obtain ⟨Ir, mem, _, hq⟩ := step_spec (lawful ..) J hc hs
      obtain ⟨hg, hu'⟩ := next S I hi hp fl hK h hu mem w (r := r.q) hq.symm (hok r (by simp))
      have := ih hg hu' Ir ht (fun r hr => hok r (by simp [hr]))
      simpa [heardAll, List.append_assoc, Ret.q] using this

/-- **C78**, partially.  Entities whose texts contain no reference to another internal entity.  The document (from its root start tag on) is
passed in any pieces; in the final call a handler suspends the parser, inside the text of an entity or not, and XML_ResumeParser completes
the parse.  All handler calls together and the outcome are those of the parse without suspension; or that parse fails, and makes no other
calls but some of these.  Missing, since it is false: references in the texts of entities (`nested_lost`, `nested_fails`), CDATA
sections in them (`cdata_as_markup`; hypothesis `hcd`), the error if a handler suspends the parser at the end of the text of an entity that is not
well-formed (`accepted`); and what is false of suspending in general (C40). -/
theorem resume_partial (S : XSupported x asc) (I : XSupported int iasc) (hi : int.e.mb = 1) (hp : app.Patient) (fl : Flat c D int) (hD : D.ents ≠ [])
    (enc : Option Buf) (ws : List Buf) (w : Buf) (hd : x.e.mb ∣ (ws.flatten ++ w).length)
    {q : Parser (Between α)} {rs : List (Ret (Between α) Val)} {r1 r2 : Ret (Between α) Val}
    (h : Path (suspendEngine c D int x app a0 alloc) (create (suspendEngine c D int x app a0 alloc) enc)
      (ws.map (fun w => .parse w false) ++ [.parse w true, .resume]) (rs ++ [r1, r2]) q)
    (hl : rs.length = ws.length) (hok : ∀ r ∈ rs, r.val = .status .OK) (h1 : r1.val = .status .SUSPENDED)
    (hcd : r1.st.inner.2.2.inside = true → r1.st.inner.1.mode ≠ .cdata) (h2 : r2.val ≠ .status .SUSPENDED) :
    (∃ o, Outcome q r2.val o ∧ C04.Same (heardAll (rs ++ [r1, r2]), o) (call (parser c D int x) x.e false CState.init (ws.flatten ++ w))) ∨
    ∃ E e, C04.Same (E, .err e) (call (parser c D int x) x.e false CState.init (ws.flatten ++ w)) ∧ E <+: heardAll (rs ++ [r1, r2]) := by
  obtain ⟨K, hK⟩ : ∃ K, D.fuel = K + 1 := by
    cases he : D.ents with
    | nil => exact absurd he hD
    | cons e es => exact ⟨es.length, by simp [Dtd.fuel, he]⟩
  have L := parser_lawful (c := c) (D := D) (int := int) S
  have ok := S.s.ok
  have hmb := S.s.mb
  have ev := S.s.even
  obtain ⟨ra, rb, m, hrs, hA, hB⟩ := h.append
  have hlen : ∀ {p q : Parser (Between α)} {cs rs}, Path (suspendEngine c D int x app a0 alloc) p cs rs q → rs.length = cs.length := by
    intro p q cs rs h
    induction h with
    | nil => rfl
    | cons _ _ _ ih => simp [ih]
  have hra : ra.length = rs.length := by rw [hlen hA, List.length_map, hl]
  obtain ⟨rfl, rfl⟩ := List.append_inj hrs hra.symm
  have I0 : Inv (create (suspendEngine c D int x app a0 alloc) enc) := Inv.create enc
  have hg0 : Going (parser c D int x) x.e CState.init [] [] (create (suspendEngine c D int x app a0 alloc) enc).queue :=
    ⟨rfl, .inl rfl, ⟨[], rfl, fun y ys => by simp [C04.pre_nil, Parser.queue, create, suspendEngine]⟩, ⟨0, Nat.dvd_zero _, by simp, rfl⟩⟩
  obtain ⟨hg, hgu⟩ := path (a0 := a0) (alloc := alloc) S I hi hp fl hK ws hg0 rfl I0 hA hok
  have Im := hA.inv (lawful ..) I0
  simp only [List.nil_append] at hg
  cases hB with
  | cons hc1 hs1 ht1 =>
    cases ht1 with
    | cons hc2 hs2 ht2 =>
      cases ht2
      obtain ⟨I1, mem1, _, hq1⟩ := step_spec (lawful ..) Im hc1 hs1
      obtain ⟨I2, mem2, _, hq2⟩ := step_spec (lawful ..) I1 hc2 hs2
      simp only [Call.isQuery, Bool.false_eq_true, if_false] at hq1 hq2
      -- the final call
      simp only [Queue.step] at hq1
      rw [started_eq _ hg.parsing] at hq1
      simp only [Bool.true_eq_false, and_false, if_false] at hq1
      split at hq1
      · have := congrArg QRet.val hq1
        rw [show r1.q.val = r1.val from rfl, h1] at this
        cases this
      unfold Queue.input at hq1
      simp only at hq1
      have hgv := gives_plain (a0 := a0) (alloc := alloc) S I hi hp fl hK
        { m.queue with parsing := .PARSING, total := m.queue.total + w.length, final := true } hg.failed hgu (m.queue.pending ++ w)
        (fun n => (m.queue.pending ++ w).drop n) true
      rw [← hq1] at hgv
      generalize hx1 : r1.q = x1 at hgv
      have hv1 : x1.val = .status .SUSPENDED := by rw [← hx1]; exact h1
      have hc1' : x1.calls = r1.calls := by rw [← hx1]; rfl
      have hst1 : x1.st = r1.st.queue := by rw [← hx1]; rfl
      cases hgv with
      | ok => cases hv1
      | err _ _ _ _ hb => rw [hb] at hv1; cases hv1
      | held E1 s1 y1 u1 k hk hsh hrun =>
        obtain ⟨j, hj, hjl, hpend⟩ := hg.whole
        have hbl : x.e.mb ∣ (m.queue.pending ++ w).length := by
          rw [hpend, ← List.drop_append_of_le_length hjl, List.length_drop]
          exact (Nat.dvd_sub_iff_left (by rw [List.length_append]; omega) hj).2 hd
        have hrun := hrun hbl
        have hsh := hsh rfl
        obtain ⟨xs, hxs, hfeed⟩ := hg.feed
        have hall := C04.chunks L ok hmb ev (xs ++ [w]) CState.init [] (by simpa [hxs] using hd)
        rw [hfeed, Verif.feed, call, C04.run_via L.go _ _ _ rfl] at hall
        simp only [Bool.not_true] at hrun
        simp only [List.nil_append, List.flatten_append, hxs, List.flatten_cons, List.flatten_nil, List.append_nil] at hall
        have hE1 : E1 = r1.calls := hc1'
        have hin1 : r1.st.inner = (s1, y1, u1) := (congrArg Queue.inner hst1).symm
        rw [hin1] at hcd
        generalize hx2 : r2.q = x2 at hq2
        have hv2 : x2.val = r2.val := by rw [← hx2]; rfl
        have hc2' : x2.calls = r2.calls := by rw [← hx2]; rfl
        have hst2 : x2.st = r2.st.queue := by rw [← hx2]; rfl
        have hcalls : heardAll (rs ++ [r1, r2]) = heardAll rs ++ (E1 ++ x2.calls) := by simp [heardAll, hE1, hc2']
        rw [hcalls, ← hv2]
        have failed : (∃ E' e, run (parser c D int x) x.e false false m.queue.inner.1 (m.queue.pending ++ w) = (E', .err e) ∧ E' <+: E1 ++ x2.calls) →
            ∃ E e, C04.Same (E, .err e) (call (parser c D int x) x.e false CState.init (ws.flatten ++ w)) ∧ E <+: heardAll rs ++ (E1 ++ x2.calls) := by
          rintro ⟨E', e, h, hpre⟩
          rw [h] at hall
          exact ⟨heardAll rs ++ E', e, hall, (List.prefix_append_right_inj _).2 hpre⟩
        rcases hrun.symm with ⟨E', e, hrun, hpre⟩ | hrun
        · exact .inr (failed ⟨E', e, hrun, hpre.trans (List.prefix_append ..)⟩)
        -- the resumption
        simp only [Queue.step, ← hst1, if_true] at hq2
        have hgv2 : Gives c D int x K false (onward c D int x K false u1 s1 (List.drop k (m.queue.pending ++ w)))
          { pending := List.drop k (m.queue.pending ++ w), total := m.queue.total + List.length w,
            failed := m.queue.failed, inner := (s1, y1, u1), error := none, parsing := Parsing.PARSING, final := true,
            child := m.queue.child, paramEntity := m.queue.paramEntity, conf := m.queue.conf }
          (List.drop k (m.queue.pending ++ w)) (fun _ => List.drop k (m.queue.pending ++ w)) x2 := by
          rw [hq2]
          cases hsh with
          | closed =>
            have := gives_plain (a0 := a0) (alloc := alloc) S I hi hp fl hK
              { pending := List.drop k (m.queue.pending ++ w), total := m.queue.total + List.length w,
                failed := m.queue.failed, inner := (s1, y1, .closed), error := none, parsing := Parsing.PARSING, final := true,
                child := m.queue.child, paramEntity := m.queue.paramEntity, conf := m.queue.conf } hg.failed rfl
              (List.drop k (m.queue.pending ++ w)) (fun _ => List.drop k (m.queue.pending ++ w)) false
            simpa [onward, Ents.closed, parser, hK] using this
          | @one n r l hr =>
            have := gives_inside (a0 := a0) (alloc := alloc) S I hi hp fl hK
              { pending := List.drop k (m.queue.pending ++ w), total := m.queue.total + List.length w,
                failed := m.queue.failed, inner := (s1, y1, ⟨[⟨n, r, l⟩], [n], true⟩), error := none, parsing := Parsing.PARSING, final := true,
                child := m.queue.child, paramEntity := m.queue.paramEntity, conf := m.queue.conf } hg.failed rfl hr (hcd rfl)
              (List.drop k (m.queue.pending ++ w)) (fun _ => List.drop k (m.queue.pending ++ w))
            simpa using this
        have fin : ∀ o, onward c D int x K false u1 s1 (List.drop k (m.queue.pending ++ w)) = (x2.calls, o) →
            C04.Same (heardAll rs ++ (E1 ++ x2.calls), o) (call (parser c D int x) x.e false CState.init (ws.flatten ++ w)) := by
          intro o ho
          rw [hrun, ho] at hall
          simpa [pre] using hall
        have fail2 : (∃ E' e, onward c D int x K false u1 s1 (List.drop k (m.queue.pending ++ w)) = (E', .err e) ∧ E' <+: x2.calls) →
            ∃ E e, C04.Same (E, .err e) (call (parser c D int x) x.e false CState.init (ws.flatten ++ w)) ∧ E <+: heardAll rs ++ (E1 ++ x2.calls) := by
          rintro ⟨E', e, h, hpre⟩
          refine failed ⟨E1 ++ E', e, ?_, (List.prefix_append_right_inj _).2 hpre⟩
          rw [hrun, h]
          rfl
        cases hgv2 with
        | held => exact absurd hv2.symm h2
        | ok E2 s2 y2 u2 k2 hk2 _ hrun2 =>
          rcases hrun2 with hrun2 | hrun2
          · left
            have hin : r2.st.inner.1 = s2 := by
              have := congrArg Queue.inner hst2
              simp only [Parser.queue] at this
              rw [← this]
            refine ⟨.ok r2.st.inner.1 ((List.drop k (m.queue.pending ++ w)).drop k2), .ok _, ?_⟩
            rw [hin]
            exact fin _ hrun2
          · exact .inr (fail2 hrun2)
        | err E2 e2 _ hrun2 g1 g2 g3 =>
          rcases hrun2 with hrun2 | hrun2
          · left
            rw [g1]
            refine ⟨_, .err e2 ?_, fin _ (by rw [g2]; exact hrun2)⟩
            have := congrArg Queue.error hst2
            rw [g3] at this
            exact this.symm
          · exact .inr (fail2 (by rw [g2]; exact hrun2))

/-- **C78** for documents that are well-formed. -/
theorem well_formed_partial (S : XSupported x asc) (I : XSupported int iasc) (hi : int.e.mb = 1) (hp : app.Patient) (fl : Flat c D int) (hD : D.ents ≠ [])
    (enc : Option Buf) (ws : List Buf) (w : Buf) (hd : x.e.mb ∣ (ws.flatten ++ w).length)
    {q : Parser (Between α)} {rs : List (Ret (Between α) Val)} {r1 r2 : Ret (Between α) Val}
    (h : Path (suspendEngine c D int x app a0 alloc) (create (suspendEngine c D int x app a0 alloc) enc)
      (ws.map (fun w => .parse w false) ++ [.parse w true, .resume]) (rs ++ [r1, r2]) q)
    (hl : rs.length = ws.length) (hok : ∀ r ∈ rs, r.val = .status .OK) (h1 : r1.val = .status .SUSPENDED)
    (hcd : r1.st.inner.2.2.inside = true → r1.st.inner.1.mode ≠ .cdata) (h2 : r2.val ≠ .status .SUSPENDED)
    {F : List Ev} {s : CState} {rest : Buf} (hw : call (parser c D int x) x.e false CState.init (ws.flatten ++ w) = (F, .ok s rest)) :
    r2.val = .status .OK ∧ C04.flat (heardAll (rs ++ [r1, r2])) = C04.flat F := by
  rcases resume_partial S I hi hp fl hD enc ws w hd h hl hok h1 hcd h2 with ⟨o, ho, hs⟩ | ⟨E, e, hs, _⟩
  · rw [hw] at hs
    generalize r2.val = v at ho ⊢
    cases ho with
    | ok => exact ⟨rfl, hs.1⟩
    | err => exact hs.elim
  · rw [hw] at hs
    exact hs.elim

/-! ## Examples, and what is false -/

theorem plainText_of {t : Buf} (h : ∀ i ∈ List.range t.length, (contentTok int.e (t.drop i)).tok = .ENTITY_REF →
    expands c D int [] ((t.drop i).take (contentTok int.e (t.drop i)).next) = none) : PlainText c D int t := by
  intro i hi
  by_cases hl : i < t.length
  · exact h i (List.mem_range.2 hl) hi
  · rw [List.drop_eq_nil_of_le (by omega)] at hi
    cases hi

theorem flat_of (h : ∀ e ∈ D.ents, ∀ t, e.2.text = some t → PlainText c D int t) : Flat c D int := by
  intro n ent t he ht
  simp only [Dtd.entity, Option.map_eq_some_iff] at he
  obtain ⟨e, he, rfl⟩ := he
  exact h e (List.mem_of_find?_eq_some he) t ht

def exText (t : String) : Entity := { text := some t.toUTF8.toList, systemId := none, publicId := none, notation_ := none, isInternal := true, base := none }

/-- `<!ENTITY f "1<b/>&lt;">` and `<!ENTITY i "<b>">`. -/
def exFlat : Dtd := { (default : Dtd) with ents := [("f".toUTF8.toList, exText "1<b/>&lt;"), ("i".toUTF8.toList, exText "<b>")] }

/-- `<!ENTITY f "1<b/>2">`, `<!ENTITY e "x&f;y">`, `<!ENTITY g "x&f;">`, `<!ENTITY h "<![CDATA[1<b/>]]>">`. -/
def exNested : Dtd :=
  { (default : Dtd) with ents := [("f".toUTF8.toList, exText "1<b/>2"), ("e".toUTF8.toList, exText "x&f;y"), ("g".toUTF8.toList, exText "x&f;"),
                                  ("h".toUTF8.toList, exText "<![CDATA[1<b/>]]>")] }

theorem ex_flat : Flat {} exFlat (internalUtf8X false) := by
  refine flat_of fun e he t ht => ?_
  simp only [exFlat, List.mem_cons, List.not_mem_nil, or_false] at he
  rcases he with rfl | rfl <;> simp only [exText, Option.some.injEq] at ht <;> subst ht <;> exact plainText_of (by decide +kernel)

/-- Suspends the parser in character data that begins with `1`. -/
def atOne : App Unit := fun _ ev =>
  match ev with
  | .chars (0x31 :: _) => ((), some true)
  | _ => ((), none)

theorem atOne_patient : atOne.Patient := by
  intro a ev
  unfold atOne
  split <;> simp

/-- What calls on a new parser return and report. -/
def exTrace (D : Dtd) (app : App Unit) (cs : List Call) : Option (List (Val × List Ev)) :=
  (steps (suspendEngine {} D (internalUtf8X false) (utf8X false) app () fun _ => true)
    (create (suspendEngine {} D (internalUtf8X false) (utf8X false) app () fun _ => true) none) cs).map fun x => x.1.map fun r => (r.val, r.calls)

def exStart (n : String) : Ev := .startElement n.toUTF8.toList [] 0 none
def exEnd (n : String) : Ev := .endElement n.toUTF8.toList
def exChars (n : String) : Ev := .chars n.toUTF8.toList

/-- `resume_partial` at work: suspended in the text of the entity. -/
theorem ex_resumed : exTrace exFlat atOne [.parse "<a>&f;z</a>".toUTF8.toList true, .resume] =
    some [(.status .SUSPENDED, [exStart "a", exChars "1"]), (.status .OK, [exStart "b", exEnd "b", exChars "<", exChars "z", exEnd "a"])] := by decide +kernel

/-- **False in general**: suspended in an entity that is referred to in the text of another, the rest of the other entity's text, `y`, is lost. -/
theorem nested_lost : exTrace exNested atOne [.parse "<a>&e;z</a>".toUTF8.toList true, .resume] =
    some [(.status .SUSPENDED, [exStart "a", exChars "x", exChars "1"]),
          (.status .OK, [exStart "b", exEnd "b", exChars "2", exChars "z", exEnd "a"])] := by decide +kernel

/-- The other entity stays open: another reference to it is taken for a recursive one. -/
theorem nested_recursive : exTrace exNested atOne [.parse "<a>&e;&e;</a>".toUTF8.toList true, .resume, .getError] =
    some [(.status .SUSPENDED, [exStart "a", exChars "x", exChars "1"]),
          (.status .ERROR, [exStart "b", exEnd "b", exChars "2"]), (.code (some .RECURSIVE_ENTITY_REF), [])] := by decide +kernel

/-- If the reference is at the end of the other entity's text, resuming fails. -/
theorem nested_fails : exTrace exNested atOne [.parse "<a>&g;z</a>".toUTF8.toList true, .resume, .getError] =
    some [(.status .SUSPENDED, [exStart "a", exChars "x", exChars "1"]), (.status .ERROR, []), (.code (some .UNEXPECTED_STATE), [])] := by decide +kernel

/-- Suspended in a CDATA section in the text of an entity, its rest is read as markup: here `]]>` is refused. -/
theorem cdata_as_markup : exTrace exNested atOne [.parse "<a>&h;z</a>".toUTF8.toList true, .resume, .getError] =
    some [(.status .SUSPENDED, [exStart "a", .startCdata, exChars "1<b/>"]), (.status .ERROR, []), (.code (some .INVALID_TOKEN), [])] := by decide +kernel

/-- Suspends the parser in start tags of `b`. -/
def atB : App Unit := fun _ ev => ((), if ev = exStart "b" then some true else none)

/-- **Accepts what is not well-formed**: an element that begins in an entity and ends outside, if a handler suspends the parser at the end of the entity's text. -/
theorem accepted : exTrace exFlat atB [.parse "<a>&i;z</b></a>".toUTF8.toList true, .resume] =
    some [(.status .SUSPENDED, [exStart "a", exStart "b"]), (.status .OK, [exChars "z", exEnd "b", exEnd "a"])] ∧
    exTrace exFlat (fun _ _ => ((), none)) [.parse "<a>&i;z</b></a>".toUTF8.toList true, .getError] =
      some [(.status .ERROR, [exStart "a", exStart "b"]), (.code (some .ASYNC_ENTITY), [])] := by decide +kernel

end Verif.C78
