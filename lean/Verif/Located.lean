import Verif.Props.C04Parser

/-! Where events are: `m_eventPtr` and `m_eventEndPtr` while content is parsed, as XML_GetCurrentByteIndex and
XML_GetCurrentByteCount show them to a handler, and at an error. -/

set_option autoImplicit false

namespace Verif
open C04

/-- A handler call together with what XML_GetCurrentByteIndex and XML_GetCurrentByteCount return during it. -/
structure Placed where
  /-- byte index and byte count; `none` where they are not modelled -/
  pos : Option (Nat × Nat)
  ev : Ev
deriving DecidableEq, Repr

variable {σ : Type}

/-- How a loop ends: as `Out`, with `m_eventPtr` at an error as a byte index (`none` where the code for the token at fault moves it in a
way that is not modelled: attributes, 4311, 7180-7373). -/
inductive OutAt (σ : Type) where
  | ok (s : σ) (rest : Buf)
  | err (c : XErr) (index : Option Nat)
deriving Repr

def OutAt.out : OutAt σ → Out σ
  | .ok s q => .ok s q
  | .err c _ => .err c

/-- What is to be known about the event pointers within a token. -/
structure Places (σ : Type) where
  /-- the handler calls of a token at the byte index `i` with the text `w`, and whether the token is carried out without an error -/
  put : Bool → Tok → Nat → Buf → List Ev → List Placed
  /-- the byte index at an error found while a token is carried out -/
  fault : σ → Tok → Nat → Buf → XErr → Option Nat

abbrev RanAt (σ : Type) := List Placed × OutAt σ
def preAt (E : List Placed) (r : RanAt σ) : RanAt σ := (E ++ r.1, r.2)

def finishAt (M : Sem σ) (s : σ) (rest : Buf) (i : Nat) : OutAt σ :=
  match M.fin s with
  | some c => .err c (some i)
  | none => .ok s rest

/-- The three loops (3584-4210, 4924-5054, 6879-6950) as in `run`, for handlers that do not stop the parser, with the event pointers.
`total` is `m_parseEndByteIndex`: the number of bytes supplied up to the end of `b`.  At the top of each loop `*eventPP` is the start of
the buffer (3603, 4199, 4941, 5043, 6885, 6942), which XML_GetCurrentByteIndex (3018-3030) makes `total - b.length`; `*eventEndPP` is the
end of the token (3607, 4947, 6889).  An invalid token has `*eventPP = next` (3649, 5013, 6922); a `]` at the end (TRAILING_RSQB) has
`*eventPP = buf.end()` if the document is not complete (4130, 4134). -/
def runAt (M : Sem σ) (pl : Places σ) (e : Enc) (more : Bool) (total : Nat) (s : σ) (b : Buf) : RanAt σ :=
  let r := (M.mode s).tok e b
  let i := total - b.length
  match (M.mode s).verdict r.tok with
  | .wait c => if more then ([], .ok s b) else ([], .err c (some i))
  | .last t =>
    if more then ([], .ok s b) else
    match M.act s t b with
    | (E, .error c) => (pl.put false t i b E, .err c (pl.fault s t i b c))
    | (E, .ok s') => (pl.put true t i b E, finishAt M s' [] (if t = .DATA_CHARS then i + b.length else i))
  | .done => if more then ([], .ok s b) else ([], finishAt M s b i)
  | .stop => ([], .ok s b)
  | .fail c => ([], .err c (some (if r.tok = .INVALID then i + r.next else i)))
  | .actStop =>
    match M.act s .PROLOG_S (b.take r.next) with
    | (E, .error c) => (pl.put false .PROLOG_S i (b.take r.next) E, .err c (pl.fault s .PROLOG_S i (b.take r.next) c))
    | (E, .ok s') => (pl.put true .PROLOG_S i (b.take r.next) E, .ok s' (b.drop r.next))
  | .act =>
    match M.act s r.tok (b.take r.next) with
    | (E, .error c) => (pl.put false r.tok i (b.take r.next) E, .err c (pl.fault s r.tok i (b.take r.next) c))
    | (E, .ok s') =>
      if (b.drop r.next).length < b.length then
        preAt (pl.put true r.tok i (b.take r.next) E) (runAt M pl e more total s' (b.drop r.next))
      else (pl.put true r.tok i (b.take r.next) E, .ok s' b)
termination_by b.length
decreasing_by assumption

/-- Several calls of XML_Parse: `m_parseEndByteIndex` grows by the bytes of each (2713). -/
def feedAt (M : Sem σ) (pl : Places σ) (e : Enc) (total : Nat) (s : σ) (rest : Buf) : List Buf → RanAt σ
  | [] => runAt M pl e false total s rest
  | [x] => runAt M pl e false (total + x.length) s (rest ++ x)
  | x :: xs =>
    match runAt M pl e true (total + x.length) s (rest ++ x) with
    | (E, .ok s' r) => preAt E (feedAt M pl e (total + x.length) s' r xs)
    | (E, .err c i) => (E, .err c i)

/-! ### The events are those of `run` -/

/-- The calls themselves are those of the token, in their order. -/
def Places.Lists (pl : Places σ) : Prop := ∀ ok t i w E, (pl.put ok t i w E).map (·.ev) = E

def RanAt.ran (r : RanAt σ) : Ran σ := (r.1.map (·.ev), r.2.out)

theorem ran_preAt (E : List Placed) (r : RanAt σ) : (preAt E r).ran = pre (E.map (·.ev)) r.ran := by
  simp [preAt, RanAt.ran, pre]

theorem finishAt_out (M : Sem σ) (s : σ) (q : Buf) (i : Nat) : (finishAt M s q i).out = finish M s q := by
  unfold finishAt finish
  cases M.fin s <;> rfl

section
variable {M : Sem σ} {pl : Places σ} {e : Enc}

theorem runAt_ran (go : ∀ s, M.stop s = .go) (hl : pl.Lists) (more : Bool) (total : Nat) (n : Nat) : ∀ (b : Buf), b.length = n → ∀ s,
    (runAt M pl e more total s b).ran = run M e more false s b := by
  induction n using Nat.strongRecOn with
  | _ n ih =>
    intro b hb s
    rw [runAt, run_go go]
    cases (M.mode s).verdict ((M.mode s).tok e b).tok with
    | wait c => cases more <;> rfl
    | last t =>
      cases more
      · simp only [Bool.false_eq_true, if_false]
        generalize M.act s t b = a
        obtain ⟨E, o⟩ := a
        cases o with
        | error c => simp [RanAt.ran, hl _ t, OutAt.out]
        | ok s' => simp [RanAt.ran, hl _ t, finishAt_out]
      · rfl
    | done =>
      cases more
      · simp [RanAt.ran, finishAt_out]
      · rfl
    | stop => rfl
    | fail c => rfl
    | actStop =>
      simp only
      generalize M.act s _ _ = a
      obtain ⟨E, o⟩ := a
      cases o <;> simp [RanAt.ran, hl _ .PROLOG_S, OutAt.out]
    | act =>
      simp only
      generalize M.act s _ _ = a
      obtain ⟨E, o⟩ := a
      cases o with
      | error c => exact Prod.ext (hl ..) rfl
      | ok s' =>
        simp only
        split
        · rename_i hlt
          rw [ran_preAt, hl, ih _ (by omega) _ rfl]
        · exact Prod.ext (hl ..) rfl

theorem feedAt_ran (go : ∀ s, M.stop s = .go) (hl : pl.Lists) (xs : List Buf) : ∀ (total : Nat) (s : σ) (rest : Buf),
    (feedAt M pl e total s rest xs).ran = Verif.feed M e s rest xs := by
  induction xs with
  | nil =>
    intro total s rest
    rw [feedAt, Verif.feed, call, run_via go _ _ _ rfl, runAt_ran go hl _ _ _ _ rfl]
  | cons x xs ih =>
    intro total s rest
    cases xs with
    | nil => rw [feedAt, Verif.feed, call, run_via go _ _ _ rfl, runAt_ran go hl _ _ _ _ rfl]
    | cons y ys =>
      rw [feedAt, Verif.feed, call, run_via go _ _ _ rfl, ← runAt_ran go hl _ (total + x.length) _ _ rfl]
      · generalize runAt M pl e true (total + x.length) s (rest ++ x) = r
        obtain ⟨E, o⟩ := r
        cases o with
        | err c i => rfl
        | ok s' q =>
          simp only [RanAt.ran, OutAt.out]
          have := ih (total + x.length) s' q
          have h2 := ran_preAt E (feedAt M pl e (total + x.length) s' q (y :: ys))
          rw [this] at h2
          exact h2
      · simp
      · simp

end

/-! ### How the input is cut does not matter -/

/-- The calls that do not deliver pieces of text. -/
def marks (E : List Placed) : List Placed := E.filter fun p => !isData p.ev

theorem marks_append (A B : List Placed) : marks (A ++ B) = marks A ++ marks B := List.filter_append ..

/-- The same calls at the same places, but for pieces of text; and the same end (`C04.Same`). -/
def SameAt (r w : RanAt σ) : Prop :=
  marks r.1 = marks w.1 ∧
  match r.2, w.2 with
  | .ok s q, .ok s' q' => s = s' ∧ q = q'
  | .err c _, .err c' _ => c = c' ∨ c = .JUNK_AFTER_DOC_ELEMENT ∧ (c' = .INVALID_TOKEN ∨ c' = .UNCLOSED_TOKEN ∨ c' = .PARTIAL_CHAR)
  | _, _ => False

theorem SameAt.refl (r : RanAt σ) : SameAt r r := by
  obtain ⟨E, o⟩ := r
  cases o <;> simp [SameAt]

theorem SameAt.trans {r s t : RanAt σ} (h : SameAt r s) (h2 : SameAt s t) : SameAt r t := by
  obtain ⟨E, o⟩ := r
  obtain ⟨E2, o2⟩ := s
  obtain ⟨E3, o3⟩ := t
  obtain ⟨a, h⟩ := h
  obtain ⟨b, h2⟩ := h2
  refine ⟨a.trans b, ?_⟩
  cases o <;> cases o2 <;> cases o3 <;> simp only at h h2 ⊢ <;> first | exact h2.elim | exact h.elim | skip
  · exact ⟨h.1.trans h2.1, h.2.trans h2.2⟩
  · rcases h with rfl | ⟨rfl, h⟩
    · exact h2
    · rcases h2 with rfl | ⟨rfl, h2⟩
      · exact .inr ⟨rfl, h⟩
      · simp at h

theorem SameAt.pre {E E' : List Placed} (he : marks E = marks E') {r s : RanAt σ} (h : SameAt r s) : SameAt (preAt E r) (preAt E' s) := by
  refine ⟨?_, h.2⟩
  simp only [preAt, marks_append, he, h.1]

theorem SameAt.pre_left {E : List Placed} (he : marks E = []) {r s : RanAt σ} (h : SameAt r s) : SameAt (preAt E r) s := by
  refine ⟨?_, h.2⟩
  simp only [preAt, marks_append, he, List.nil_append, h.1]

theorem SameAt.pre_right {E : List Placed} (he : marks E = []) {r s : RanAt σ} (h : SameAt r s) : SameAt r (preAt E s) := by
  refine ⟨?_, h.2⟩
  simp only [preAt, marks_append, he, List.nil_append, h.1]

theorem preAt_nil (r : RanAt σ) : preAt [] r = r := by simp [preAt]

theorem preAt_preAt (A B : List Placed) (r : RanAt σ) : preAt A (preAt B r) = preAt (A ++ B) r := by simp [preAt]

theorem marks_data {pl : Places σ} (hl : pl.Lists) {E : List Ev} (h : E.all isData = true) (ok t i w) : marks (pl.put ok t i w E) = [] := by
  rw [marks, List.filter_eq_nil_iff]
  intro p hp
  have hm : p.ev ∈ (pl.put ok t i w E).map (·.ev) := List.mem_map_of_mem hp
  rw [hl] at hm
  rw [List.all_eq_true] at h
  rw [h _ hm]
  decide

section
variable {M : Sem σ} {pl : Places σ} {e : Enc}

/-- The rest of the parse after the first call. -/
def afterAt (M : Sem σ) (pl : Places σ) (e : Enc) (total : Nat) (x : Buf) (r : RanAt σ) : RanAt σ :=
  match r with
  | (E, .ok s q) => preAt E (runAt M pl e false total s (q ++ x))
  | (E, .err c i) => (E, .err c i)

theorem afterAt_pre (total : Nat) (x : Buf) (E : List Placed) (r : RanAt σ) :
    afterAt M pl e total x (preAt E r) = preAt E (afterAt M pl e total x r) := by
  obtain ⟨F, o⟩ := r
  cases o <;> simp [afterAt, preAt]

/-- One step of the loop on a token which is text. -/
theorem runAt_text (L : Lawful M e) (hl : pl.Lists) {t : Tok} {s : σ} (more : Bool) (total : Nat) {b : Buf} {n : Nat}
    (h : (M.mode s).tok e b = ⟨t, n⟩) (hv : (M.mode s).verdict t = .act) (ht : t = .DATA_CHARS ∨ t = .PROLOG_S) :
    ∃ E, marks E = [] ∧ runAt M pl e more total s b = preAt E (runAt M pl e more total s (b.drop n)) := by
  have hp : (b.drop n).length < b.length := by
    have := progress (e := e) (m := M.mode s) (b := b)
      (by rw [h]; rcases ht with rfl | rfl <;> rfl) (by rw [h]; rcases ht with rfl | rfl <;> simp)
    rwa [h] at this
  have : ∃ E, M.act s t (b.take n) = (E, .ok s) ∧ E.all isData = true := by
    rcases ht with rfl | rfl
    · exact L.data s (b.take n)
    · exact L.space s (b.take n)
  obtain ⟨E, hE, hd⟩ := this
  refine ⟨_, marks_data hl hd true t (total - b.length) (b.take n), ?_⟩
  rw [runAt, h]
  simp only [hv, hE, if_pos hp]

theorem data_stepAt (L : Lawful M e) (hl : pl.Lists) (ok : e.Ok) (ev : e.Even) {s : σ} {b : Buf} (total : Nat) (x : Buf)
    (hm : M.mode s ≠ .epilog) (h : ((M.mode s).tok e b).tok = .DATA_CHARS) :
    SameAt (runAt M pl e false total s ((b ++ x).drop ((M.mode s).tok e b).next)) (runAt M pl e false total s (b ++ x)) := by
  generalize hr : (M.mode s).tok e b = r at h
  obtain ⟨t, n⟩ := r
  simp only at h
  subst h
  have hv : (M.mode s).verdict .DATA_CHARS = .act := by
    cases hM : M.mode s <;> first | rfl | exact absurd hM hm
  have hcut : n ≤ b.length ∧ ((M.mode s).tok e (b ++ x) = ⟨.DATA_CHARS, n⟩ ∨
      (∃ m, (M.mode s).tok e (b ++ x) = ⟨.DATA_CHARS, n + m⟩ ∧
        (M.mode s).tok e ((b ++ x).drop n) = ⟨.DATA_CHARS, m⟩) ∨
      (∃ m k, (M.mode s).tok e (b ++ x) = ⟨.INVALID, m⟩ ∧
        (M.mode s).tok e ((b ++ x).drop n) = ⟨.INVALID, k⟩)) := by
    cases hM : M.mode s with
    | content => rw [hM] at hr; exact content_cut ok ev x hr
    | cdata =>
      rw [hM] at hr
      obtain ⟨a, b⟩ := cdata_cut ok ev x hr
      exact ⟨a, b.elim .inl fun h => .inr (.inl h)⟩
    | epilog => exact absurd hM hm
  obtain ⟨hn, hc⟩ := hcut
  rcases hc with hc | ⟨m, hc, hd⟩ | ⟨m, k, hc, hd⟩
  · obtain ⟨E, hE, h2⟩ := runAt_text L hl false total hc hv (.inl rfl)
    rw [h2]
    exact .pre_right hE (.refl _)
  · obtain ⟨E, hE, h2⟩ := runAt_text L hl false total hc hv (.inl rfl)
    obtain ⟨F, hF, h3⟩ := runAt_text L hl false total hd hv (.inl rfl)
    rw [h2, h3, List.drop_drop]
    exact .pre_left hF (.pre_right hE (.refl _))
  · have hi : (M.mode s).verdict .INVALID = .fail .INVALID_TOKEN := by
      cases hM : M.mode s <;> rfl
    rw [runAt, runAt, hc, hd]
    simp only [hi]
    exact ⟨rfl, .inl rfl⟩

theorem space_stepAt (L : Lawful M e) (hl : pl.Lists) (ok : e.Ok) (ev : e.Even) {s : σ} {b : Buf} (total : Nat) (x : Buf)
    (hm : M.mode s = .epilog) {t n} (ht : t = .PROLOG_S ∨ t = .PROLOG_S_NEG) (h : prologTok e b = ⟨t, n⟩)
    (hdv : e.mb ∣ (b ++ x).length) :
    SameAt (runAt M pl e false total s ((b ++ x).drop n)) (runAt M pl e false total s (b ++ x)) := by
  obtain ⟨hn, hd, hc⟩ := space_cut ok ev x ht h
  have hv : (M.mode s).verdict .PROLOG_S = .act := by rw [hm]; rfl
  have htk : (M.mode s).tok e = prologTok e := by rw [hm]; rfl
  rcases hc with hc | ⟨m, hc, hc2⟩ | ⟨hc, hlt⟩
  · obtain ⟨E, hE, h2⟩ := runAt_text L hl false total (b := b ++ x) (by rw [htk]; exact hc) hv (.inr rfl)
    rw [h2]
    exact .pre_right hE (.refl _)
  · obtain ⟨E, hE, h2⟩ := runAt_text L hl false total (b := b ++ x) (by rw [htk]; exact hc) hv (.inr rfl)
    obtain ⟨F, hF, h3⟩ := runAt_text L hl false total (b := (b ++ x).drop n) (by rw [htk]; exact hc2) hv (.inr rfl)
    rw [h2, h3, List.drop_drop]
    exact .pre_left hF (.pre_right hE (.refl _))
  · have h0 : (b ++ x).drop n = [] := by
      rw [← List.length_eq_zero_iff]
      refine Nat.eq_zero_of_dvd_of_lt ?_ hlt
      rw [List.length_drop]
      exact (Nat.dvd_sub_iff_left (by simp; omega) hd).2 hdv
    obtain ⟨E, hE, hd⟩ := L.space s (b.take n)
    have h1 : runAt M pl e false total s [] = ([], .ok s []) := by
      rw [runAt, hm]; rfl
    rw [h0, h1, runAt.eq_def M pl e false total s (b ++ x)]
    have hvn : (M.mode s).verdict .PROLOG_S_NEG = .actStop := by rw [hm]; rfl
    simp only [htk, hc, hvn, List.take_append_of_le_length hn, hE, h0]
    exact ⟨(marks_data hl hd ..).symm, rfl, rfl⟩

/-- Giving the first bytes in a call of their own changes nothing. -/
theorem splitAt (L : Lawful M e) (hl : pl.Lists) (ok : e.Ok) (hmb : e.mb ≤ 2) (ev : e.Even) (total : Nat) (x : Buf) (n : Nat) :
    ∀ (b : Buf), b.length = n → e.mb ∣ (b ++ x).length → ∀ s,
      SameAt (afterAt M pl e (total + x.length) x (runAt M pl e true total s b)) (runAt M pl e false (total + x.length) s (b ++ x)) := by
  induction n using Nat.strongRecOn with
  | _ n ih =>
    intro b hb hdv s
    have hix : total + x.length - (b ++ x).length = total - b.length := by rw [List.length_append]; omega
    cases (M.mode s).kind e b with
    | waits h =>
      have : runAt M pl e true total s b = ([], .ok s b) := by
        rw [runAt]
        rcases h with h | h | ⟨c, h⟩ | ⟨c, h⟩ <;> rw [h] <;> rfl
      rw [this, afterAt, preAt_nil]
      exact .refl _
    | stable h h2 =>
      have hst : (M.mode s).tok e (b ++ x) = (M.mode s).tok e b := by
        rw [(M.mode s).tok_eq] at h ⊢
        exact C03.stable _ e ok b x h
      have hnx : ((M.mode s).tok e b).next ≤ b.length := by
        rw [(M.mode s).tok_eq]; exact C02.next_in_buffer _ e b
      rcases h2 with ⟨hv, h3, h4⟩ | ⟨c, hv⟩
      · have hp := progress h3 h4
        have hpx := progress (e := e) (m := M.mode s) (b := b ++ x) (by rw [hst]; exact h3) (by rw [hst]; exact h4)
        rw [runAt, runAt.eq_def M pl e false]
        rw [hst] at hpx
        simp only [hst, hv, if_pos hp, if_pos hpx, hix, List.take_append_of_le_length hnx]
        generalize M.act s _ _ = a
        obtain ⟨E, o⟩ := a
        cases o with
        | error c => exact .refl _
        | ok s' =>
          simp only
          rw [afterAt_pre]
          apply SameAt.pre rfl
          rw [drop_app _ _ _ hnx]
          refine ih _ (by omega) _ rfl ?_ _
          exact dvd_drop hnx hdv ((M.mode s).tok_dvd hmb ev b)
      · rw [runAt, runAt.eq_def M pl e false]
        simp only [hst, hv, hix]
        exact .refl _
    | data hm h =>
      have hv : (M.mode s).verdict .DATA_CHARS = .act := by
        cases hM : M.mode s <;> first | rfl | exact absurd hM hm
      have hs := data_stepAt (pl := pl) L hl ok ev (total + x.length) x hm h
      generalize hr : (M.mode s).tok e b = r at h hs
      obtain ⟨t, n⟩ := r
      simp only at h hs
      subst h
      have hn : n ≤ b.length := by
        have := C02.next_in_buffer (M.mode s).entry e b
        rwa [← (M.mode s).tok_eq, hr] at this
      obtain ⟨E, hE, h2⟩ := runAt_text L hl true total hr hv (.inl rfl)
      rw [h2, afterAt_pre]
      refine .trans (.pre_left hE ?_) hs
      rw [drop_app _ _ _ hn]
      have hp := progress (e := e) (m := M.mode s) (b := b) (by rw [hr]; rfl) (by rw [hr]; simp)
      rw [hr] at hp
      simp only at hp
      refine ih _ (by omega) _ rfl ?_ _
      exact dvd_drop hn hdv (by have := (M.mode s).tok_dvd hmb ev b; rwa [hr] at this)
    | space hm h =>
      generalize hr : (M.mode s).tok e b = r at h
      obtain ⟨t, n⟩ := r
      have hpt : prologTok e b = ⟨t, n⟩ := by rw [hm] at hr; exact hr
      have hs := space_stepAt (pl := pl) L hl ok ev (total + x.length) x hm h hpt hdv
      have hn := (space_cut ok ev x h hpt).1
      have hd := (space_cut ok ev x h hpt).2.1
      simp only at h
      rcases h with rfl | rfl
      · have hv : (M.mode s).verdict .PROLOG_S = .act := by rw [hm]; rfl
        obtain ⟨E, hE, h2⟩ := runAt_text L hl true total hr hv (.inr rfl)
        rw [h2, afterAt_pre]
        refine .trans (.pre_left hE ?_) hs
        rw [drop_app _ _ _ hn]
        have hp := progress (e := e) (m := M.mode s) (b := b) (by rw [hr]; rfl) (by rw [hr]; simp)
        rw [hr] at hp
        simp only at hp
        exact ih _ (by omega) _ rfl (dvd_drop hn hdv hd) _
      · refine .trans ?_ hs
        rw [runAt, hr, hm]
        obtain ⟨E, hE, hq⟩ := L.space s (b.take n)
        simp only [Mode.verdict, hE, afterAt]
        rw [drop_app _ _ _ hn]
        exact .pre_left (marks_data hl hq ..) (.refl _)
    | junk hm h =>
      have h2 : (prologTok e (b ++ x)).tok.misc = false := prologTok_neg ok x (by rw [hm] at h; exact h)
      have hv : (M.mode s).verdict ((M.mode s).tok e b).tok = .fail .JUNK_AFTER_DOC_ELEMENT := by
        rw [hm] at h ⊢
        revert h
        generalize (Mode.tok .epilog e b).tok = t
        cases t <;> simp [Tok.neg, Mode.verdict]
      rw [runAt, runAt.eq_def M pl e false]
      simp only [hv]
      have hw : (∃ c, Mode.verdict .epilog (Mode.tok .epilog e (b ++ x)).tok = .fail c ∧
            (c = .JUNK_AFTER_DOC_ELEMENT ∨ c = .INVALID_TOKEN)) ∨
          ∃ c, Mode.verdict .epilog (Mode.tok .epilog e (b ++ x)).tok = .wait c ∧
            (c = .UNCLOSED_TOKEN ∨ c = .PARTIAL_CHAR) := by
        clear ih
        revert h2
        rw [show (Mode.tok .epilog e (b ++ x)) = prologTok e (b ++ x) from rfl]
        generalize (prologTok e (b ++ x)).tok = t
        cases t <;> simp [Tok.misc, Mode.verdict]
      rw [← hm] at hw
      rcases hw with ⟨c, hw, hc⟩ | ⟨c, hw, hc⟩ <;> simp only [hw] <;> rcases hc with rfl | rfl <;>
        simp [afterAt, SameAt]

theorem feedAt_same (L : Lawful M e) (hl : pl.Lists) (ok : e.Ok) (hmb : e.mb ≤ 2) (ev : e.Even) (xs : List Buf) :
    ∀ (total : Nat) (s : σ) (rest : Buf), e.mb ∣ (rest ++ xs.flatten).length →
      SameAt (feedAt M pl e total s rest xs) (runAt M pl e false (total + xs.flatten.length) s (rest ++ xs.flatten)) := by
  induction xs with
  | nil => intro total s rest _; rw [feedAt, List.flatten_nil, List.append_nil]; exact .refl _
  | cons x xs ih =>
    intro total s rest hdv
    cases xs with
    | nil => rw [feedAt, List.flatten_cons, List.flatten_nil, List.append_nil]; exact .refl _
    | cons y ys =>
      rw [feedAt]
      · have hs := splitAt (pl := pl) L hl ok hmb ev (total + x.length) (y :: ys).flatten _ (rest ++ x) rfl
          (by rw [List.append_assoc]; exact hdv) s
        rw [List.flatten_cons, ← List.append_assoc, List.length_append, ← Nat.add_assoc]
        have hran := runAt_ran (M := M) (pl := pl) (e := e) L.go hl true (total + x.length) _ (rest ++ x) rfl s
        generalize hr : runAt M pl e true (total + x.length) s (rest ++ x) = r at hs hran
        obtain ⟨E, o⟩ := r
        cases o with
        | err c i => exact hs
        | ok s' q =>
          simp only [afterAt] at hs ⊢
          refine .trans (.pre rfl ?_) hs
          apply ih (total + x.length) s' q
          obtain ⟨k, hk, hkl, rfl⟩ := rest_dvd L.go hmb ev _ _ rfl _ _ _ _ hran.symm
          exact dvd_drop hkl (by rw [List.append_assoc]; exact hdv) hk
      · simp

end

end Verif
