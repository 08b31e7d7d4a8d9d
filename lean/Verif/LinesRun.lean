import Verif.Lines
import Verif.ApiContent

/-! Line and column numbers through a parse: the calls of XML_GetCurrentLineNumber and XML_GetCurrentColumnNumber (C74). -/

set_option autoImplicit false

namespace Verif
open C04 C15

/-- `m_positionPtr` as a byte index of the document, and `m_position`. -/
structure Cursor where
  idx : Nat
  pos : Pos
deriving DecidableEq, Repr

/-- xmlparse.rs:3100-3138 XML_GetCurrentLineNumber and XML_GetCurrentColumnNumber (they do the same to the parser), when `m_eventPtr` is at the
byte index `k` of the document `T`.  They return `pos.line + 1` and `pos.col`.  `none` is the panic of `updatePosition`. -/
def Cursor.look (e : Enc) (T : Buf) (k : Nat) (u : Cursor) : Option Cursor :=
  if u.idx ≤ k then (updatePosition e ((T.drop u.idx).take (k - u.idx)) u.pos).map fun p => ⟨k, p⟩ else some u

/-- xmlparse.rs:2741-2745 (2640-2644): the end of a call of XML_Parse which is not the last and finds no error; `k` is `m_bufferStart`.  The
slice panics if `m_positionIdx` is beyond `k`.  (The assignment `m_positionIdx = m_bufferStart` at the beginning of the next call, 2711, does nothing then.) -/
def Cursor.leave (e : Enc) (T : Buf) (k : Nat) (u : Cursor) : Option Cursor :=
  if u.idx ≤ k then (updatePosition e ((T.drop u.idx).take (k - u.idx)) u.pos).map fun p => ⟨k, p⟩ else none

/-- The handler calls in which the application asks for the position: `ask n p` says whether it does so in the call `p`, the `n`-th. -/
def asked (ask : Nat → Placed → Bool) (n : Nat) : List Placed → List Placed
  | [] => []
  | p :: E => if p.pos.isSome && ask n p then p :: asked ask (n + 1) E else asked ask (n + 1) E

/-- What it is told. -/
def watch (e : Enc) (T : Buf) (ask : Nat → Placed → Bool) (n : Nat) (u : Cursor) : List Placed → Option (List (Placed × Pos) × Cursor)
  | [] => some ([], u)
  | p :: E =>
    match p.pos with
    | none => watch e T ask (n + 1) u E
    | some q =>
      if ask n p then
        (u.look e T q.1).bind fun v => (watch e T ask (n + 1) v E).map fun r => ((p, v.pos) :: r.1, r.2)
      else watch e T ask (n + 1) u E

variable {σ : Type}

/-- The last call of XML_Parse: also what the application is told after an error. -/
def closeLines (e : Enc) (T : Buf) (ask : Nat → Placed → Bool) (n : Nat) (u : Cursor) (r : RanAt σ) : Option (List (Placed × Pos) × Option Pos) :=
  (watch e T ask n u r.1).bind fun a =>
    match r.2 with
    | .err _ (some j) => (a.2.look e T j).map fun v => (a.1, some v.pos)
    | _ => some (a.1, none)

/-- As `feedAt`, with the line and column numbers that an application is told which asks for them in the calls `ask`. -/
def feedLines (M : Sem σ) (pl : Places σ) (e : Enc) (T : Buf) (ask : Nat → Placed → Bool) (n : Nat) (u : Cursor) (total : Nat) (s : σ) (rest : Buf) :
    List Buf → Option (List (Placed × Pos) × Option Pos)
  | [] => closeLines e T ask n u (runAt M pl e false total s rest)
  | [x] => closeLines e T ask n u (runAt M pl e false (total + x.length) s (rest ++ x))
  | x :: xs =>
    match runAt M pl e true (total + x.length) s (rest ++ x) with
    | (E, .ok s' r) =>
      (watch e T ask n u E).bind fun a => (a.2.leave e T (total + x.length - r.length)).bind fun v =>
        (feedLines M pl e T ask (n + E.length) v (total + x.length) s' r xs).map fun b => (a.1 ++ b.1, b.2)
    | (E, .err c i) => closeLines e T ask n u (E, (.err c i : OutAt σ))

/-- The ends of the calls but the last: the number of bytes passed and the state then. -/
def feedEnds (M : Sem σ) (pl : Places σ) (e : Enc) (total : Nat) (s : σ) (rest : Buf) : List Buf → List (Nat × σ)
  | [] => []
  | [_] => []
  | x :: xs =>
    match (runAt M pl e true (total + x.length) s (rest ++ x)).2 with
    | .ok s' r => (total + x.length, s') :: feedEnds M pl e (total + x.length) s' r xs
    | .err _ _ => []

/-- The byte index `k` is between `\r` and `\n`. -/
def SplitsLine (asc : UInt8 → Buf) (T : Buf) (k : Nat) : Prop := ∃ a r, T = a ++ (asc 0x0D ++ (asc 0x0A ++ r)) ∧ (a ++ asc 0x0D).length = k

/-- The first `k` bytes end within `\r\n`: the `\r` belongs to them and the `\n`, or its last byte, does not. -/
def CutsLine (asc : UInt8 → Buf) (T : Buf) (k : Nat) : Prop :=
  ∃ a r, T = a ++ (asc 0x0D ++ (asc 0x0A ++ r)) ∧ (a ++ asc 0x0D).length ≤ k ∧ k < (a ++ (asc 0x0D ++ asc 0x0A)).length

section
variable {e : Enc} {asc : UInt8 → Buf}

theorem LineCut.steps {T : Buf} {k : Nat} {us : List Buf} {r : Buf} (h : LineCut e asc T k) (hd : T.drop k = us.flatten ++ r)
    (hu : ∀ u ∈ us, Whole1 e u) (hs : ¬ SplitsLine asc T (k + us.flatten.length)) : LineCut e asc T (k + us.flatten.length) := by
  obtain ⟨ws, r', h1, h2, h3, _⟩ := h
  have hr : T.drop k = r' := by rw [h1, List.drop_left' h2]
  rw [hd] at hr
  subst hr
  refine ⟨ws ++ us, r, by rw [List.flatten_append, List.append_assoc]; exact h1, by rw [List.flatten_append, List.length_append]; omega, ?_, ?_⟩
  · intro w hw
    rcases List.mem_append.1 hw with hw | hw
    · exact h3 w hw
    · exact hu w hw
  · rintro hl ⟨q, rfl⟩
    obtain ⟨z, hz⟩ := List.getLast?_eq_some_iff.1 hl
    refine hs ⟨z.flatten, q, ?_, ?_⟩
    · rw [h1, ← List.append_assoc, ← List.flatten_append, hz]; simp
    · have := congrArg (fun l => l.flatten.length) hz
      simp only [List.flatten_append, List.length_append, List.flatten_cons, List.flatten_nil, List.append_nil] at this ⊢
      omega

theorem LineCut.dvd (s : Supported e asc) {T : Buf} {k : Nat} (h : LineCut e asc T k) : e.mb ∣ k := by
  obtain ⟨ws, r, -, rfl, h3, -⟩ := h
  induction ws with
  | nil => exact Nat.dvd_zero _
  | cons w ws ih =>
    rw [List.flatten_cons, List.length_append]
    refine Nat.dvd_add ?_ (ih fun w hw => h3 w (List.mem_cons_of_mem _ hw))
    rw [(h3 w List.mem_cons_self).2]
    exact s.even _

/-- What is needed to know of the places within a token. -/
structure Places.Cuts (M : Sem σ) (pl : Places σ) (e : Enc) : Prop where
  /-- a call is at one end of its token -/
  ends : ∀ ok t i w E, ∀ p ∈ pl.put ok t i w E, ∀ q ∈ p.pos, q.1 = i ∨ q.1 = i + w.length
  /-- at the beginning if the token is at fault -/
  bad : ∀ t i w E, ∀ p ∈ pl.put false t i w E, ∀ q ∈ p.pos, q.1 = i
  /-- text has no place -/
  text : ∀ s t ok i w, t = .DATA_CHARS ∨ t = .DATA_NEWLINE → ∀ p ∈ pl.put ok t i w (M.act s t w).1, p.pos = none
  /-- an error is at the boundary of two characters of the token -/
  fault : ∀ s b c i j, (M.mode s).verdict ((M.mode s).tok e b).tok = .act →
    pl.fault s ((M.mode s).tok e b).tok i (b.take ((M.mode s).tok e b).next) c = some j → ∃ m, j = i + m ∧ CharCut e false b m
  data : ∀ s t i w c j, t = .DATA_CHARS ∨ t = .DATA_NEWLINE → pl.fault s t i w c = some j → j = i
  /-- white space after the root element changes nothing -/
  space : ∀ s w, ∃ E s', M.act s .PROLOG_S w = (E, .ok s') ∧ M.mode s' = M.mode s

theorem trailing_cr (s : Supported e asc) {b : Buf} (hd : e.mb ∣ b.length) {n : Nat} (h : contentTok e b = ⟨.TRAILING_CR, n⟩) : b = asc 0x0D := by
  rcases content_first s hd h (by simp) with ⟨w, r, h1, h2, h3, h4, h5'⟩ | ⟨r, rfl⟩ | ⟨hl, r, rfl⟩
  · subst h1
    have hcr : e.bt w ≠ .CR := by
      intro hb
      have := cr_asc s h2.1 hb
      subst this
      have := h2.2.2 rfl
      simp only [Enc.lineEnds, hb] at this
      revert this
      decide
    rcases content_char s h2.1 h3 h4 h2.2.1 hcr (by assumption) hd with h5 | ⟨rfl, h6, h7⟩
    · rw [h5] at h
      rcases contentLoop_tok e r 0 with h6 | h6
      · have := congrArg Res.tok h
        rw [Res.shift, h6] at this; cases this
      · have := congrArg Res.tok h
        simp only [Res.shift] at this
        rw [this] at h6; cases h6
    · rw [h7] at h; cases h
  · rw [content_lf s hd] at h; cases h
  · by_cases hn : ∀ r', r ≠ asc 0x0A ++ r'
    · rcases content_cr s hl hd hn with ⟨rfl, _⟩ | h1
      · simp
      · rw [h1] at h; cases h
    · have : ∃ r', r = asc 0x0A ++ r' := by
        apply Classical.byContradiction
        intro hh
        exact hn fun r' hr => hh ⟨r', hr⟩
      obtain ⟨r', rfl⟩ := this
      rw [content_crlf s hl hd] at h; cases h

theorem last_whole (s : Supported e asc) {m : Mode} {b : Buf} {t : Tok} (hd : e.mb ∣ b.length) (h : m.verdict (m.tok e b).tok = .last t) :
    ∃ us : List Buf, b = us.flatten ∧ ∀ u ∈ us, Whole1 e u := by
  have : m = .content ∧ ((m.tok e b).tok = .TRAILING_CR ∨ (m.tok e b).tok = .TRAILING_RSQB) := by
    generalize (m.tok e b).tok = u at *
    cases m <;> cases u <;> simp_all [Mode.verdict]
  obtain ⟨rfl, h1⟩ := this
  rcases h1 with h1 | h1
  · have := trailing_cr s hd (n := (contentTok e b).next) (by rw [← h1]; rfl)
    refine ⟨[b], by simp, ?_⟩
    intro u hu
    rw [List.mem_singleton.1 hu, this]
    refine .of_char s.mb ?_
    cases s <;> rename_i ns <;> cases ns <;> decide +kernel
  · obtain ⟨us, h2, h3⟩ := C62.trailing_data s hd (n := (contentTok e b).next) (by rw [← h1]; rfl)
    exact ⟨us, h3, fun u hu => .of_char s.mb (h2 u hu)⟩

theorem actStop_tok {m : Mode} {t : Tok} (h : m.verdict t = .actStop) : m = .epilog ∧ t = .PROLOG_S_NEG := by
  cases m <;> cases t <;> simp_all [Mode.verdict]

theorem neg_act {m : Mode} {t : Tok} (h : m.verdict t = .act) (hm : m = .epilog) : t ≠ .PROLOG_S_NEG := by
  rintro rfl
  subst hm
  simp [Mode.verdict] at h

/-- What a run tells about the places it goes through. -/
structure RunCuts (e : Enc) (asc : UInt8 → Buf) (T : Buf) (total : Nat) (b : Buf) (a : RanAt σ) : Prop where
  calls : ∀ p ∈ a.1, ∀ q ∈ p.pos, LineCut e asc T q.1
  err : ∀ c j, a.2 = .err c (some j) → LineCut e asc T j ∧ total - b.length ≤ j ∧ ∀ p ∈ a.1, ∀ q ∈ p.pos, q.1 ≤ j
  ok : ∀ s' r, a.2 = .ok s' r → LineCut e asc T (total - r.length) ∧ (∃ B, b = B ++ r) ∧ ∀ p ∈ a.1, ∀ q ∈ p.pos, q.1 ≤ total - r.length

variable {M : Sem σ} {pl : Places σ}

theorem run_cuts (s : Supported e asc) (hx : ∀ ns, e ≠ internalUtf8Enc ns) (hp : pl.Cuts M e) {T F : Buf} {total : Nat} {more : Bool}
    (hF : more = false → F = []) (n : Nat) :
    ∀ (b : Buf), b.length = n → ∀ (A : Buf) (st : σ), T = A ++ (b ++ F) → A.length + b.length = total → (more = false → e.mb ∣ b.length) →
      LineCut e asc T A.length →
      (∀ s' r, (runAt M pl e more total st b).2 = .ok s' r → more = true → M.mode s' = .epilog → r.length < e.mb →
        ¬ SplitsLine asc T (total - r.length)) →
      RunCuts e asc T total b (runAt M pl e more total st b) := by
  induction n using Nat.strongRecOn with
  | _ n ih =>
    intro b hb A st hT hA hd hc hs
    have hi : total - b.length = A.length := by omega
    have hdr : T.drop A.length = b ++ F := by rw [hT, List.drop_left' rfl]
    have stay : ∀ {s' : σ}, RunCuts e asc T total b (([], .ok s' b) : RanAt σ) :=
      ⟨by simp, by simp, by rintro s' r ⟨⟩; rw [hi]; exact ⟨hc, ⟨[], rfl⟩, by simp⟩⟩
    have here : ∀ {c : XErr}, RunCuts e asc T total b (([], .err c (some A.length)) : RanAt σ) :=
      ⟨by simp, by rintro c j ⟨⟩; exact ⟨hc, by omega, by simp⟩, by simp⟩
    have tokcut : ∀ {m}, CharCut e false b m → LineCut e asc T (A.length + m) := by
      intro m hm
      exact hc.step s hx (by rw [hdr]; exact hm.app s.ok F)
    have hle : ((M.mode st).tok e b).next ≤ b.length := by
      rw [(M.mode st).tok_eq]; exact C02.next_in_buffer _ e b
    have bad : ∀ {t w E}, ∀ p ∈ pl.put false t A.length w E, ∀ q ∈ p.pos, LineCut e asc T q.1 := by
      intro t w E p hpp q hq
      rw [hp.bad t _ _ _ p hpp q hq]; exact hc
    rw [runAt] at hs ⊢
    simp only [hi] at hs ⊢
    cases hv : (M.mode st).verdict ((M.mode st).tok e b).tok with
    | wait c =>
      simp only
      split
      · exact stay
      · exact here
    | last t =>
      simp only
      split
      · exact stay
      · rename_i hm
        have hm : more = false := by simpa using hm
        obtain ⟨us, h1, h2⟩ := last_whole s (hd hm) hv
        have hend : LineCut e asc T (A.length + b.length) := by
          have := hc.steps (us := us) (r := []) (by rw [hdr, hF hm, h1]) h2 ?_
          · rwa [← h1] at this
          · rintro ⟨a, r, i1, i2⟩
            have := congrArg List.length i1
            have hl := s.asc.len 0x0A
            have hpos : 0 < e.mb := Nat.succ_pos _
            rw [hT, hF hm, h1] at this
            simp only [List.length_append, List.length_nil] at this i2
            omega
        have none' := fun ok i => hp.text st t ok i b (last_tok hv)
        generalize M.act st t b = a at *
        obtain ⟨E, o⟩ := a
        have pos : ∀ {ok} {P : Nat → Prop}, ∀ p ∈ pl.put ok t A.length b E, ∀ q ∈ p.pos, P q.1 := by
          intro ok P p hpp q hq
          rw [none' ok _ p hpp] at hq; cases hq
        cases o with
        | error c =>
          refine ⟨pos (P := LineCut e asc T), ?_, by simp⟩
          rintro c' j h
          simp only [OutAt.err.injEq] at h
          rw [hp.data _ _ _ _ _ _ (last_tok hv) h.2]
          exact ⟨hc, by omega, pos (P := (· ≤ _))⟩
        | ok s' =>
          refine ⟨pos (P := LineCut e asc T), ?_, ?_⟩
          · intro c' j h
            obtain ⟨-, rfl⟩ := finishAt_err h
            refine ⟨?_, ?_, pos (P := (· ≤ _))⟩
            · split
              · exact hend
              · exact hc
            · split <;> omega
          · intro s2 r h
            simp only [finishAt] at h
            split at h <;> cases h
            refine ⟨?_, ⟨b, by simp⟩, pos (P := (· ≤ _))⟩
            rw [List.length_nil, Nat.sub_zero, ← hA]; exact hend
    | done =>
      simp only
      split
      · exact stay
      · refine ⟨by simp, ?_, ?_⟩
        · intro c' j h
          obtain ⟨-, rfl⟩ := finishAt_err h
          exact ⟨hc, by omega, by simp⟩
        · intro s2 r h
          simp only [finishAt] at h
          split at h <;> cases h
          rw [hi]; exact ⟨hc, ⟨[], rfl⟩, by simp⟩
    | stop => exact stay
    | fail c =>
      refine ⟨by simp, ?_, by simp⟩
      intro c' j h
      simp only [OutAt.err.injEq, Option.some.injEq] at h
      rw [← h.2]
      split
      · rename_i ht
        exact ⟨tokcut (Mode.tok_cut s.marks s.ok _ _ (by rw [ht]; simp)), by omega, by simp⟩
      · exact ⟨hc, by omega, by simp⟩
    | actStop =>
      have ht := actStop_tok hv
      have htk : prologTok e b = ⟨.PROLOG_S_NEG, ((M.mode st).tok e b).next⟩ := by rw [← ht.2, ht.1]; rfl
      have hrest : (b.drop ((M.mode st).tok e b).next).length < e.mb := by
        rcases (space_cut s.ok s.even [] (.inr rfl) htk).2.2 with h | ⟨m, h, _⟩ | ⟨_, h⟩
        · rw [List.append_nil, htk] at h; cases h
        · rw [List.append_nil, htk] at h; cases h
        · rwa [List.append_nil] at h
      generalize ((M.mode st).tok e b).next = k at *
      obtain ⟨E, s', h1, h2⟩ := hp.space st (b.take k)
      simp only [hv, h1] at hs ⊢
      obtain ⟨us, h3, h4⟩ := space_chars_ok s.ok (.inr rfl) htk
      have hlen : us.flatten.length = k := by rw [← h4, List.length_take]; omega
      have hend : LineCut e asc T (A.length + k) := by
        have := hc.steps (us := us) (r := b.drop k ++ F) (by rw [hdr, ← h4, ← List.append_assoc, List.take_append_drop])
          (fun u hu => .of_char s.mb (h3 u hu)) ?_
        · rwa [hlen] at this
        rw [hlen]
        cases hm : more with
        | true =>
          have := hs s' (b.drop k) rfl hm (by rw [h2, ht.1]) hrest
          rwa [List.length_drop, show total - (b.length - k) = A.length + k by omega] at this
        | false =>
          have hr := Api.spaceNeg_next s.ok s.even htk (hd hm)
          rintro ⟨a, r, i1, i2⟩
          have := congrArg List.length i1
          have hl := s.asc.len 0x0A
          have hpos : 0 < e.mb := Nat.succ_pos _
          have hr2 := congrArg List.length hr
          rw [hT, hF hm] at this
          simp only [List.length_append, List.length_nil, List.length_drop] at this i2 hr2
          omega
      have hq2 : ∀ p ∈ pl.put true .PROLOG_S A.length (b.take k) E, ∀ q ∈ p.pos, LineCut e asc T q.1 ∧ q.1 ≤ A.length + k := by
        intro p hpp q hq
        rcases hp.ends _ _ _ _ E p hpp q hq with h | h <;> rw [h]
        · exact ⟨hc, by omega⟩
        · rw [List.length_take, Nat.min_eq_left hle]; exact ⟨hend, by omega⟩
      refine ⟨fun p hpp q hq => (hq2 p hpp q hq).1, by simp, ?_⟩
      rintro s2 r ⟨⟩
      rw [List.length_drop, show total - (b.length - k) = A.length + k by omega]
      exact ⟨hend, ⟨b.take k, (List.take_append_drop ..).symm⟩, fun p hpp q hq => (hq2 p hpp q hq).2⟩
    | act =>
      have hcut := Mode.tok_cut s.marks s.ok _ _ (neg_act hv)
      have hend := tokcut hcut
      have hf := hp.fault st b
      have hprog := Api.act_progress hv
      have hdv := (M.mode st).tok_dvd s.mb s.even b
      simp only [hv] at hs ⊢
      generalize hk : ((M.mode st).tok e b).next = k at *
      generalize hkt : ((M.mode st).tok e b).tok = t at *
      generalize M.act st t (b.take k) = a at *
      obtain ⟨E, o⟩ := a
      have hq2 : ∀ ok, ∀ p ∈ pl.put ok t A.length (b.take k) E, ∀ q ∈ p.pos, LineCut e asc T q.1 ∧ q.1 ≤ A.length + k := by
        intro ok p hpp q hq
        rcases hp.ends _ _ _ _ E p hpp q hq with h | h <;> rw [h]
        · exact ⟨hc, by omega⟩
        · rw [List.length_take, Nat.min_eq_left hle]; exact ⟨hend, by omega⟩
      cases o with
      | error c =>
        refine ⟨bad, ?_, by simp⟩
        intro c' j h
        simp only [OutAt.err.injEq] at h
        obtain ⟨m, rfl, g⟩ := hf c A.length j hv h.2
        refine ⟨tokcut g, by omega, fun p hpp q hq => ?_⟩
        rw [hp.bad _ _ _ _ p hpp q hq]; omega
      | ok s' =>
        simp only [hprog, if_true] at hs ⊢
        have hl' : (A ++ b.take k).length = A.length + k := by rw [List.length_append, List.length_take, Nat.min_eq_left hle]
        have := ih (b.drop k).length (by omega) (b.drop k) rfl (A ++ b.take k) s' (by
            rw [List.append_assoc, ← List.append_assoc (b.take k), List.take_append_drop]; exact hT) (by
            rw [hl', List.length_drop]; omega) (fun hm => by
            rw [List.length_drop]; exact Nat.dvd_sub (hd hm) hdv) (by
            rw [hl']; exact hend) (fun s2 r h => hs s2 r h)
        obtain ⟨j1, j2, j3⟩ := this
        have hlo : total - (b.drop k).length = A.length + k := by rw [List.length_drop]; omega
        refine ⟨?_, ?_, ?_⟩
        · intro p hpp
          rcases List.mem_append.1 hpp with hpp | hpp
          · exact fun q hq => (hq2 _ p hpp q hq).1
          · exact j1 p hpp
        · intro c j h
          obtain ⟨g1, g2, g3⟩ := j2 c j h
          refine ⟨g1, by omega, fun p hpp q hq => ?_⟩
          rcases List.mem_append.1 hpp with hpp | hpp
          · have := (hq2 _ p hpp q hq).2
            omega
          · exact g3 p hpp q hq
        · intro s2 r h
          obtain ⟨g1, ⟨B, g2⟩, g3⟩ := j3 s2 r h
          refine ⟨g1, ⟨b.take k ++ B, by rw [List.append_assoc, ← g2, List.take_append_drop]⟩, fun p hpp q hq => ?_⟩
          rcases List.mem_append.1 hpp with hpp | hpp
          · have := (hq2 _ p hpp q hq).2
            have hl := congrArg List.length g2
            rw [List.length_append] at hl
            omega
          · exact g3 p hpp q hq

/-- `m_position` is right. -/
structure Cursor.Right (e : Enc) (asc : UInt8 → Buf) (T : Buf) (u : Cursor) : Prop where
  cut : LineCut e asc T u.idx
  pos : PosAt e asc T u.idx u.pos

theorem look_ok (s : Supported e asc) (hx : ∀ ns, e ≠ internalUtf8Enc ns) {T : Buf} {u : Cursor} (hu : u.Right e asc T) {k : Nat} (hk : u.idx ≤ k)
    (hc : LineCut e asc T k) : ∃ v, u.look e T k = some v ∧ v.idx = k ∧ v.Right e asc T := by
  obtain ⟨p, hp⟩ := hc.posAt
  refine ⟨⟨k, p⟩, ?_, rfl, hc, hp⟩
  rw [Cursor.look, if_pos hk, update_posAt s hx hu.cut hu.pos hk hp]; rfl

theorem leave_ok (s : Supported e asc) (hx : ∀ ns, e ≠ internalUtf8Enc ns) {T : Buf} {u : Cursor} (hu : u.Right e asc T) {k : Nat} (hk : u.idx ≤ k)
    (hc : LineCut e asc T k) : ∃ v, u.leave e T k = some v ∧ v.idx = k ∧ v.Right e asc T := by
  obtain ⟨v, h1, h2⟩ := look_ok s hx hu hk hc
  refine ⟨v, ?_, h2⟩
  rw [Cursor.look, if_pos hk] at h1
  rw [Cursor.leave, if_pos hk]; exact h1

theorem watch_ok (s : Supported e asc) (hx : ∀ ns, e ≠ internalUtf8Enc ns) {T : Buf} (ask : Nat → Placed → Bool) (E : List Placed) :
    ∀ (n : Nat) (u : Cursor), u.Right e asc T → (∀ p ∈ E, ∀ q ∈ p.pos, LineCut e asc T q.1 ∧ u.idx ≤ q.1) →
      E.Pairwise (fun p q => ∀ a ∈ p.pos, ∀ b ∈ q.pos, a.1 ≤ b.1) →
      ∃ L v, watch e T ask n u E = some (L, v) ∧ L.map (·.1) = asked ask n E ∧ (∀ a ∈ L, ∃ q ∈ a.1.pos, PosAt e asc T q.1 a.2) ∧
        v.Right e asc T ∧ ∀ k, u.idx ≤ k → (∀ p ∈ E, ∀ q ∈ p.pos, q.1 ≤ k) → v.idx ≤ k := by
  induction E with
  | nil =>
    intro n u hu _ _
    exact ⟨[], u, rfl, rfl, by simp, hu, fun k hk _ => hk⟩
  | cons p E ih =>
    intro n u hu hE ho
    obtain ⟨ho1, ho2⟩ := List.pairwise_cons.1 ho
    have htl := fun p' (h : p' ∈ E) => hE p' (List.mem_cons_of_mem _ h)
    obtain ⟨pos, ev⟩ := p
    cases pos with
    | none =>
      obtain ⟨L, v, h1, h2, h3, h4, h5⟩ := ih (n + 1) u hu htl ho2
      refine ⟨L, v, by simpa [watch] using h1, by simpa [asked] using h2, h3, h4, fun k hk hb => h5 k hk fun p' h => hb p' (List.mem_cons_of_mem _ h)⟩
    | some q =>
      cases ha : ask n ⟨some q, ev⟩ with
      | false =>
        obtain ⟨L, v, h1, h2, h3, h4, h5⟩ := ih (n + 1) u hu htl ho2
        refine ⟨L, v, by simpa [watch, ha] using h1, by simpa [asked, ha] using h2, h3, h4,
          fun k hk hb => h5 k hk fun p' h => hb p' (List.mem_cons_of_mem _ h)⟩
      | true =>
        obtain ⟨g1, g2⟩ := hE _ List.mem_cons_self q rfl
        obtain ⟨w, w1, w2, w3⟩ := look_ok s hx hu g2 g1
        obtain ⟨L, v, h1, h2, h3, h4, h5⟩ := ih (n + 1) w w3 (fun p' h q' hq' => ⟨(htl p' h q' hq').1, by
          rw [w2]; exact ho1 p' h q rfl q' hq'⟩) ho2
        refine ⟨(⟨some q, ev⟩, w.pos) :: L, v, by simp [watch, ha, w1, h1], by simp [asked, ha, h2], ?_, h4, ?_⟩
        · intro a hh
          rcases List.mem_cons.1 hh with rfl | hh
          · exact ⟨q, rfl, w2 ▸ w3.pos⟩
          · exact h3 a hh
        · intro k _ hb
          exact h5 k (by rw [w2]; exact hb _ List.mem_cons_self q rfl) fun p' h => hb p' (List.mem_cons_of_mem _ h)

/-- What the application is told is right. -/
structure Told (e : Enc) (asc : UInt8 → Buf) (T : Buf) (ask : Nat → Placed → Bool) (n : Nat) (r : RanAt σ)
    (a : Option (List (Placed × Pos) × Option Pos)) : Prop where
  some : ∃ L o, a = some (L, o) ∧ L.map (·.1) = asked ask n r.1 ∧ (∀ b ∈ L, ∃ q ∈ b.1.pos, PosAt e asc T q.1 b.2) ∧
    ∀ c j, r.2 = .err c (some j) → ∃ pos, o = some pos ∧ PosAt e asc T j pos

theorem close_ok (s : Supported e asc) (hx : ∀ ns, e ≠ internalUtf8Enc ns) (hp : pl.Cuts M e) (hw : pl.Within) {T : Buf} (ask : Nat → Placed → Bool)
    (n : Nat) {u : Cursor} (hu : u.Right e asc T) {A b : Buf} {total : Nat} (st : σ) (hT : T = A ++ b) (hA : A.length + b.length = total)
    (hd : e.mb ∣ b.length) (hc : LineCut e asc T A.length) (hi : u.idx ≤ A.length) :
    Told e asc T ask n (runAt M pl e false total st b) (closeLines e T ask n u (runAt M pl e false total st b)) := by
  have h := run_cuts (F := []) (more := false) s hx hp (fun _ => rfl) _ b rfl A st (by simpa using hT) hA (fun _ => hd) hc (by simp)
  have ho := runAt_order (M := M) (e := e) hw false _ b rfl total st (by omega)
  generalize runAt M pl e false total st b = a at *
  obtain ⟨E, o⟩ := a
  obtain ⟨L, v, h1, h2, h3, h4, h5⟩ := watch_ok s hx ask E n u hu (fun p hpp q hq => ⟨h.calls p hpp q hq, by
    have := (ho.1 p hpp q hq).1; omega⟩) ho.2
  simp only [closeLines, h1, Option.bind_some]
  cases o with
  | ok s' r => exact ⟨L, none, rfl, h2, h3, by simp⟩
  | err c j =>
    cases j with
    | none => exact ⟨L, none, rfl, h2, h3, by simp⟩
    | some j =>
      obtain ⟨g1, g2, g3⟩ := h.err c j rfl
      obtain ⟨w, w1, w2, w3⟩ := look_ok s hx h4 (h5 j (by omega) g3) g1
      refine ⟨L, some w.pos, by simp [w1], h2, h3, ?_⟩
      rintro c' j' ⟨⟩
      exact ⟨_, rfl, w2 ▸ w3.pos⟩

theorem asked_append (ask : Nat → Placed → Bool) (E F : List Placed) : ∀ n, asked ask n (E ++ F) = asked ask n E ++ asked ask (n + E.length) F := by
  induction E with
  | nil => intro n; simp [asked]
  | cons p E ih =>
    intro n
    simp only [List.cons_append, asked, ih, List.length_cons]
    rw [show n + (E.length + 1) = n + 1 + E.length by omega]
    split <;> simp

theorem feedLines_ok (s : Supported e asc) (hx : ∀ ns, e ≠ internalUtf8Enc ns) (hp : pl.Cuts M e) (hw : pl.Within) {T : Buf}
    (ask : Nat → Placed → Bool) (xs : List Buf) :
    ∀ (n : Nat) (u : Cursor) (A rest : Buf) (total : Nat) (st : σ), u.Right e asc T → T = A ++ (rest ++ xs.flatten) → A.length + rest.length = total →
      e.mb ∣ (rest ++ xs.flatten).length → LineCut e asc T A.length → u.idx ≤ A.length →
      (∀ a ∈ feedEnds M pl e total st rest xs, M.mode a.2 = .epilog → ¬ CutsLine asc T a.1) →
      Told e asc T ask n (feedAt M pl e total st rest xs) (feedLines M pl e T ask n u total st rest xs) := by
  induction xs with
  | nil =>
    intro n u A rest total st hu hT hA hd hc hi _
    simp only [List.flatten_nil, List.append_nil] at hT hd
    exact close_ok s hx hp hw ask n hu st hT hA hd hc hi
  | cons x xs ih =>
    intro n u A rest total st hu hT hA hd hc hi hsp
    cases xs with
    | nil =>
      simp only [List.flatten_cons, List.flatten_nil, List.append_nil] at hT hd
      exact close_ok s hx hp hw ask n hu st hT (by rw [List.length_append]; omega) hd hc hi
    | cons y ys =>
      have hlen : A.length + (rest ++ x).length = total + x.length := by rw [List.length_append]; omega
      have h := run_cuts (T := T) (F := (y :: ys).flatten) (more := true) s hx hp (by simp) _ (rest ++ x) rfl A st
        (by rw [hT, List.flatten_cons, List.append_assoc]) hlen (by simp) hc (by
          rintro s' r h _ hm hr ⟨a, q, i1, i2⟩
          refine hsp (total + x.length, s') ?_ hm ⟨a, q, i1, by omega, ?_⟩
          · rw [feedEnds, h]
            · exact List.mem_cons_self
            · simp
          · have l := s.asc.len 0x0A
            simp only [List.length_append] at i2 ⊢
            omega)
      have ho := runAt_order (M := M) (e := e) hw true _ (rest ++ x) rfl (total + x.length) st (by omega)
      rw [feedAt, feedLines]
      rotate_left
      · simp
      · simp
      have hsp' : ∀ E s' r, runAt M pl e true (total + x.length) st (rest ++ x) = (E, .ok s' r) →
          ∀ a ∈ feedEnds M pl e (total + x.length) s' r (y :: ys), M.mode a.2 = .epilog → ¬ CutsLine asc T a.1 := by
        intro E s' r he a ha
        refine hsp a ?_
        rw [feedEnds, he]
        · exact List.mem_cons_of_mem _ ha
        · simp
      generalize runAt M pl e true (total + x.length) st (rest ++ x) = a at *
      obtain ⟨E, o⟩ := a
      obtain ⟨L, v, h1, h2, h3, h4, h5⟩ := watch_ok s hx ask E n u hu (fun p hpp q hq => ⟨h.calls p hpp q hq, by
        have := (ho.1 p hpp q hq).1; omega⟩) ho.2
      cases o with
      | err c j =>
        simp only [closeLines, h1, Option.bind_some]
        cases j with
        | none => exact ⟨L, none, rfl, h2, h3, by simp⟩
        | some j =>
          obtain ⟨g1, g2, g3⟩ := h.err c j rfl
          obtain ⟨w, w1, w2, w3⟩ := look_ok s hx h4 (h5 j (by omega) g3) g1
          refine ⟨L, some w.pos, by simp [w1], h2, h3, ?_⟩
          rintro c' j' ⟨⟩
          exact ⟨_, rfl, w2 ▸ w3.pos⟩
      | ok s' r =>
        obtain ⟨g1, ⟨B, g2⟩, g3⟩ := h.ok s' r rfl
        have hl2 := congrArg List.length g2
        rw [List.length_append] at hl2
        obtain ⟨w, w1, w2, w3⟩ := leave_ok s hx h4 (h5 (total + x.length - r.length) (by
          rw [List.length_append] at hlen hl2; omega) g3) g1
        have hAB : (A ++ B).length = total + x.length - r.length := by
          rw [List.length_append]
          rw [List.length_append] at hlen hl2
          omega
        obtain ⟨L', o, k1, k2, k3, k4⟩ := ih (n + E.length) w (A ++ B) r (total + x.length) s' w3 (by
            rw [hT, List.flatten_cons, ← List.append_assoc rest, g2]; simp) (by
            rw [hAB]; rw [List.length_append] at hlen hl2; omega) (by
            have hB : e.mb ∣ B.length := by
              have := g1.dvd s
              rw [← hAB, List.length_append] at this
              exact (Nat.dvd_add_right (hc.dvd s)).1 this
            rw [List.flatten_cons, ← List.append_assoc, g2, List.append_assoc, List.length_append] at hd
            exact (Nat.dvd_add_right hB).1 hd) (by rw [hAB]; exact g1) (by rw [hAB, w2]; exact Nat.le_refl _) (hsp' E s' r rfl)
        refine ⟨L ++ L', o, ?_, ?_, ?_, ?_⟩
        · simp only [h1, Option.bind_some, w1, k1, Option.map_some]
        · simp only [List.map_append, h2, k2, preAt, asked_append]
        · intro b hb
          rcases List.mem_append.1 hb with hb | hb
          · exact h3 b hb
          · exact k3 b hb
        · exact k4

end
end Verif
