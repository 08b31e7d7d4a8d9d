import Verif.Units

/-! C04: the events do not depend on how the input is split into XML_Parse calls. -/

namespace Verif.C04
open Verif

variable {σ : Type}

/-! ### What is compared -/

/-- Events which deliver pieces of text. -/
def isData : Ev → Bool
  | .chars _ | .dflt _ => true
  | _ => false

/-- A piece of text cut into single bytes. -/
def slice : Ev → List Ev
  | .chars s => s.map fun c => .chars [c]
  | .dflt s => s.map fun c => .dflt [c]
  | v => [v]

/-- A sequence of events, regardless of how text is sliced. -/
def flat (E : List Ev) : List Ev := E.flatMap slice

/-- Without the text delivered at the very end. -/
def trim (E : List Ev) : List Ev := (E.reverse.dropWhile isData).reverse

/-- The result `r` of a parse in several calls compared with the result `w` of a parse in one call:
on success the same events, state and unconsumed bytes; on failure the same error and the same events
but for the text just before the error.  The only error code which may differ is the one for junk
after the document element. -/
def Same (r w : Ran σ) : Prop :=
  match r.2, w.2 with
  | .ok s q, .ok s' q' => flat r.1 = flat w.1 ∧ s = s' ∧ q = q'
  | .err c, .err c' => trim (flat r.1) = trim (flat w.1) ∧
      (c = c' ∨ c = .JUNK_AFTER_DOC_ELEMENT ∧
        (c' = .INVALID_TOKEN ∨ c' = .UNCLOSED_TOKEN ∨ c' = .PARTIAL_CHAR))
  | _, _ => False

/-- What is assumed of the parser's reaction to a token: no handler stops the parser; text only
produces text events; and text cut between two tokens yields the same bytes. -/
structure Lawful (M : Sem σ) (e : Enc) : Prop where
  go : ∀ s, M.stop s = .go
  data : ∀ s w, ∃ E, M.act s .DATA_CHARS w = (E, .ok s) ∧ E.all isData = true
  space : ∀ s w, ∃ E, M.act s .PROLOG_S w = (E, .ok s) ∧ E.all isData = true
  data_app : ∀ s b n v, contentTok e b = ⟨.DATA_CHARS, n⟩ ∨ cdataSectionTok e b = ⟨.DATA_CHARS, n⟩ →
    flat (M.act s .DATA_CHARS (b.take n ++ v)).1 =
      flat (M.act s .DATA_CHARS (b.take n)).1 ++ flat (M.act s .DATA_CHARS v).1
  space_app : ∀ s b n t v, t = .PROLOG_S ∨ t = .PROLOG_S_NEG → prologTok e b = ⟨t, n⟩ →
    flat (M.act s .PROLOG_S (b.take n ++ v)).1 =
      flat (M.act s .PROLOG_S (b.take n)).1 ++ flat (M.act s .PROLOG_S v).1

/-! ### The comparison -/

theorem flat_append (A B : List Ev) : flat (A ++ B) = flat A ++ flat B := by simp [flat]

theorem flat_data {E : List Ev} (h : E.all isData = true) : (flat E).all isData = true := by
  simp only [flat, List.all_flatMap, List.all_eq_true] at h ⊢
  intro v hv w hw
  have := h v hv
  cases v <;> simp only [isData, slice, List.mem_map, Bool.false_eq_true] at this hw
  · obtain ⟨_, _, rfl⟩ := hw; rfl
  · obtain ⟨_, _, rfl⟩ := hw; rfl

theorem trim_append (A B : List Ev) :
    trim (A ++ B) = if trim B = [] then trim A else A ++ trim B := by
  simp only [trim, List.reverse_append, List.dropWhile_append, List.reverse_eq_nil_iff]
  cases h : (List.dropWhile isData B.reverse) <;> simp

theorem trim_data {E : List Ev} (h : E.all isData = true) : trim E = [] := by
  have : ∀ l : List Ev, (∀ x ∈ l, isData x = true) → l.dropWhile isData = [] := by
    intro l
    induction l with
    | nil => simp
    | cons a l ih =>
      intro h
      rw [List.dropWhile_cons, if_pos (h a (by simp))]
      exact ih fun x hx => h x (by simp [hx])
  simp only [trim, List.reverse_eq_nil_iff]
  exact this _ (by simpa using h)

theorem Same.refl (r : Ran σ) : Same r r := by
  obtain ⟨E, o⟩ := r
  cases o <;> simp [Same]

theorem Same.trans {r s t : Ran σ} (h : Same r s) (h2 : Same s t) : Same r t := by
  obtain ⟨E, o⟩ := r
  obtain ⟨E2, o2⟩ := s
  obtain ⟨E3, o3⟩ := t
  cases o <;> cases o2 <;> cases o3 <;> simp only [Same] at h h2 ⊢ <;> first | exact h2.elim | exact h.elim | skip
  · obtain ⟨a, rfl, rfl⟩ := h; obtain ⟨b, rfl, rfl⟩ := h2
    exact ⟨a.trans b, rfl, rfl⟩
  · obtain ⟨a, h⟩ := h; obtain ⟨b, h2⟩ := h2
    refine ⟨a.trans b, ?_⟩
    rcases h with rfl | ⟨rfl, h⟩
    · exact h2
    · rcases h2 with rfl | ⟨rfl, h2⟩
      · exact .inr ⟨rfl, h⟩
      · simp at h

theorem Same.pre {E E' : List Ev} (he : flat E = flat E') {r s : Ran σ} (h : Same r s) :
    Same (pre E r) (pre E' s) := by
  obtain ⟨_, o⟩ := r
  obtain ⟨_, o2⟩ := s
  cases o <;> cases o2 <;> simp only [Same, Verif.pre] at h ⊢
  · rw [flat_append, flat_append, he, h.1]; exact ⟨rfl, h.2⟩
  · rw [flat_append, flat_append, trim_append, trim_append, he, h.1]; exact ⟨rfl, h.2⟩

theorem pre_pre (A B : List Ev) (r : Ran σ) : pre A (pre B r) = pre (A ++ B) r := by
  simp [pre]

theorem pre_nil (r : Ran σ) : pre [] r = r := by simp [pre]

/-! ### The loop when nothing stops it -/

section
variable {M : Sem σ} {e : Enc}

theorem run_via (go : ∀ s, M.stop s = .go) (more : Bool) (n : Nat) : ∀ (b : Buf), b.length = n → ∀ v s,
    run M e more v s b = run M e more false s b := by
  induction n using Nat.strongRecOn with
  | _ n ih =>
    intro b hb v s
    rw [run]
    conv => rhs; rw [run]
    simp only [go]
    cases (M.mode s).verdict ((M.mode s).tok e b).tok <;> try rfl
    simp only
    generalize M.act s _ _ = a
    obtain ⟨E, o⟩ := a
    cases o with
    | error c => rfl
    | ok s' =>
      simp only [or_true, if_true]
      split
      · rename_i hlt
        rw [ih _ (by omega) _ rfl, ih _ (by omega) _ rfl (false && _)]
      · rfl

/-- The loop once more, for parsers that are never stopped. -/
theorem run_go (go : ∀ s, M.stop s = .go) (more v : Bool) (s : σ) (b : Buf) :
    run M e more v s b =
      match (M.mode s).verdict ((M.mode s).tok e b).tok with
      | .wait c => if more then ([], .ok s b) else ([], .err c)
      | .last t =>
        if more then ([], .ok s b) else
        match M.act s t b with
        | (E, .error c) => (E, .err c)
        | (E, .ok s') => (E, finish M s' [])
      | .done => if more then ([], .ok s b) else ([], finish M s b)
      | .stop => ([], .ok s b)
      | .fail c => ([], .err c)
      | .actStop =>
        match M.act s .PROLOG_S (b.take ((M.mode s).tok e b).next) with
        | (E, .error c) => (E, .err c)
        | (E, .ok s') => (E, .ok s' (b.drop ((M.mode s).tok e b).next))
      | .act =>
        match M.act s ((M.mode s).tok e b).tok (b.take ((M.mode s).tok e b).next) with
        | (E, .error c) => (E, .err c)
        | (E, .ok s') =>
          if (b.drop ((M.mode s).tok e b).next).length < b.length then
            pre E (run M e more false s' (b.drop ((M.mode s).tok e b).next))
          else (E, .ok s' b) := by
  rw [run]
  simp only [go]
  cases (M.mode s).verdict ((M.mode s).tok e b).tok <;> try rfl
  simp only
  generalize M.act s _ _ = a
  obtain ⟨E, o⟩ := a
  cases o with
  | error c => rfl
  | ok s' =>
    simp only [or_true, if_true]
    split
    · rw [run_via go more _ _ rfl]
    · rfl

/-- The whole parse after the first call: on success it goes on with the bytes not yet consumed. -/
def after (M : Sem σ) (e : Enc) (x : Buf) (r : Ran σ) : Ran σ :=
  match r with
  | (E, .ok s q) => pre E (run M e false false s (q ++ x))
  | (E, .err c) => (E, .err c)

theorem after_pre (x : Buf) (E : List Ev) (r : Ran σ) :
    after M e x (pre E r) = pre E (after M e x r) := by
  obtain ⟨F, o⟩ := r
  cases o <;> simp [after, pre]

theorem progress {m : Mode} {b : Buf} (h : (m.tok e b).tok.isError = false)
    (h2 : (m.tok e b).tok ≠ .INSTANCE_START) : (b.drop (m.tok e b).next).length < b.length := by
  rw [m.tok_eq] at *
  have h3 := C02.progress m.entry e b h h2
  have h4 := C02.next_in_buffer m.entry e b
  rw [List.length_drop]; omega

/-- One step of the loop on a token which is text. -/
theorem run_text (L : Lawful M e) {t : Tok} {s : σ} (more : Bool) {b : Buf} {n : Nat}
    (h : (M.mode s).tok e b = ⟨t, n⟩) (hv : (M.mode s).verdict t = .act)
    (ht : t = .DATA_CHARS ∨ t = .PROLOG_S) :
    run M e more false s b = pre (M.act s t (b.take n)).1 (run M e more false s (b.drop n)) := by
  have hp : (b.drop n).length < b.length := by
    have := progress (e := e) (m := M.mode s) (b := b)
      (by rw [h]; rcases ht with rfl | rfl <;> rfl) (by rw [h]; rcases ht with rfl | rfl <;> simp)
    rwa [h] at this
  rw [run_go L.go, h]
  simp only [hv]
  have : ∃ E, M.act s t (b.take n) = (E, .ok s) := by
    rcases ht with rfl | rfl
    · obtain ⟨E, h, _⟩ := L.data s (b.take n); exact ⟨E, h⟩
    · obtain ⟨E, h, _⟩ := L.space s (b.take n); exact ⟨E, h⟩
  obtain ⟨E, hE⟩ := this
  simp only [hE, if_pos hp]

/-- A run of text: the parse of the longer buffer is the same if the text is cut where the shorter
buffer ended. -/
theorem data_step (L : Lawful M e) (ok : e.Ok) (ev : e.Even) {s : σ} {b : Buf} (x : Buf)
    (hm : M.mode s ≠ .epilog) (h : ((M.mode s).tok e b).tok = .DATA_CHARS) :
    Same (pre (M.act s .DATA_CHARS (b.take ((M.mode s).tok e b).next)).1
        (run M e false false s ((b ++ x).drop ((M.mode s).tok e b).next)))
      (run M e false false s (b ++ x)) := by
  generalize hr : (M.mode s).tok e b = r at h
  obtain ⟨t, n⟩ := r
  simp only at h
  subst h
  have hv : (M.mode s).verdict .DATA_CHARS = .act := by
    cases hM : M.mode s <;> first | rfl | exact absurd hM hm
  have hcut : n ≤ b.length ∧ ((M.mode s).tok e (b ++ x) = ⟨.DATA_CHARS, n⟩ ∨
      (∃ m, (M.mode s).tok e (b ++ x) = ⟨.DATA_CHARS, n + m⟩ ∧
        (M.mode s).tok e ((b ++ x).drop n) = ⟨.DATA_CHARS, m⟩) ∨
      (∃ m k, (M.mode s).tok e (b ++ x) = ⟨.INVALID, m⟩ ∧
        (M.mode s).tok e ((b ++ x).drop n) = ⟨.INVALID, k⟩)) := by
    cases hM : M.mode s with
    | content => rw [hM] at hr; exact content_cut ok ev x hr
    | cdata =>
      rw [hM] at hr
      obtain ⟨a, b⟩ := cdata_cut ok ev x hr
      exact ⟨a, b.elim .inl fun h => .inr (.inl h)⟩
    | epilog => exact absurd hM hm
  have hor : contentTok e b = ⟨.DATA_CHARS, n⟩ ∨ cdataSectionTok e b = ⟨.DATA_CHARS, n⟩ := by
    cases hM : M.mode s with
    | content => rw [hM] at hr; exact .inl hr
    | cdata => rw [hM] at hr; exact .inr hr
    | epilog => exact absurd hM hm
  obtain ⟨hn, hc⟩ := hcut
  rcases hc with hc | ⟨m, hc, hd⟩ | ⟨m, k, hc, hd⟩
  · rw [run_text L false hc hv (.inl rfl), List.take_append_of_le_length hn]
    exact .refl _
  · rw [run_text L false hc hv (.inl rfl), run_text L false hd hv (.inl rfl), pre_pre, List.drop_drop]
    apply Same.pre _ (.refl _)
    rw [List.take_add, List.take_append_of_le_length hn, L.data_app _ _ _ _ hor, flat_append]
  · have hi : (M.mode s).verdict .INVALID = .fail .INVALID_TOKEN := by
      cases hM : M.mode s <;> rfl
    rw [run_go L.go, run_go L.go, hc, hd]
    simp only [hi, pre, Same, List.append_nil]
    obtain ⟨E, hE, hd⟩ := L.data s (b.take n)
    rw [hE]
    exact ⟨(trim_data (flat_data hd)).trans rfl, .inl trivial⟩

/-- White space after the document element. -/
theorem space_step (L : Lawful M e) (ok : e.Ok) (ev : e.Even) {s : σ} {b : Buf} (x : Buf)
    (hm : M.mode s = .epilog) {t n} (ht : t = .PROLOG_S ∨ t = .PROLOG_S_NEG) (h : prologTok e b = ⟨t, n⟩)
    (hdv : e.mb ∣ (b ++ x).length) :
    Same (pre (M.act s .PROLOG_S (b.take n)).1 (run M e false false s ((b ++ x).drop n)))
      (run M e false false s (b ++ x)) := by
  obtain ⟨hn, hd, hc⟩ := space_cut ok ev x ht h
  have hv : (M.mode s).verdict .PROLOG_S = .act := by rw [hm]; rfl
  have htk : (M.mode s).tok e = prologTok e := by rw [hm]; rfl
  rcases hc with hc | ⟨m, hc, hc2⟩ | ⟨hc, hl⟩
  · rw [run_text L false (b := b ++ x) (by rw [htk]; exact hc) hv (.inr rfl), List.take_append_of_le_length hn]
    exact .refl _
  · rw [run_text L false (b := b ++ x) (by rw [htk]; exact hc) hv (.inr rfl),
      run_text L false (b := (b ++ x).drop n) (by rw [htk]; exact hc2) hv (.inr rfl), pre_pre, List.drop_drop]
    apply Same.pre _ (.refl _)
    rw [List.take_add, List.take_append_of_le_length hn, L.space_app _ _ _ _ _ ht h, flat_append]
  · have h0 : (b ++ x).drop n = [] := by
      rw [← List.length_eq_zero_iff]
      refine Nat.eq_zero_of_dvd_of_lt ?_ hl
      rw [List.length_drop]
      exact (Nat.dvd_sub_iff_left (by simp; omega) hd).2 hdv
    rw [run_go L.go false false s (b ++ x), htk, hc, hm]
    simp only [Mode.verdict, List.take_append_of_le_length hn]
    obtain ⟨E, hE, _⟩ := L.space s (b.take n)
    simp only [hE, h0]
    have h1 : run M e false false s [] = ([], .ok s []) := by
      rw [run_go L.go, hm]; rfl
    rw [h1, pre, List.append_nil]
    exact .refl _

theorem dvd_drop {n : Nat} {b x : Buf} (hn : n ≤ b.length) (h : e.mb ∣ (b ++ x).length) (hd : e.mb ∣ n) :
    e.mb ∣ (b.drop n ++ x).length := by
  rw [List.length_append, List.length_drop]
  rw [List.length_append] at h
  rw [show b.length - n + x.length = b.length + x.length - n by omega]
  exact (Nat.dvd_sub_iff_left (by omega) hd).2 h

/-- Giving the first bytes in a call of their own changes nothing. -/
theorem split (L : Lawful M e) (ok : e.Ok) (hmb : e.mb ≤ 2) (ev : e.Even) (x : Buf) (n : Nat) :
    ∀ (b : Buf), b.length = n → e.mb ∣ (b ++ x).length → ∀ s,
      Same (after M e x (run M e true false s b)) (run M e false false s (b ++ x)) := by
  induction n using Nat.strongRecOn with
  | _ n ih =>
    intro b hb hdv s
    cases (M.mode s).kind e b with
    | waits h =>
      have : run M e true false s b = ([], .ok s b) := by
        rw [run_go L.go]
        rcases h with h | h | ⟨c, h⟩ | ⟨c, h⟩ <;> rw [h] <;> rfl
      rw [this, after, pre_nil]
      exact .refl _
    | stable h h2 =>
      have hst : (M.mode s).tok e (b ++ x) = (M.mode s).tok e b := by
        rw [(M.mode s).tok_eq] at h ⊢
        exact C03.stable _ e ok b x h
      have hnx : ((M.mode s).tok e b).next ≤ b.length := by
        rw [(M.mode s).tok_eq]; exact C02.next_in_buffer _ e b
      rcases h2 with ⟨hv, h3, h4⟩ | ⟨c, hv⟩
      · have hp := progress h3 h4
        have hpx := progress (e := e) (m := M.mode s) (b := b ++ x) (by rw [hst]; exact h3) (by rw [hst]; exact h4)
        rw [run_go L.go, run_go L.go false, hst, hv]
        rw [hst] at hpx
        simp only [if_pos hp, if_pos hpx]
        rw [List.take_append_of_le_length hnx]
        generalize M.act s _ _ = a
        obtain ⟨E, o⟩ := a
        cases o with
        | error c => exact .refl _
        | ok s' =>
          simp only
          rw [after_pre]
          apply Same.pre rfl
          rw [drop_app _ _ _ hnx]
          refine ih _ (by omega) _ rfl ?_ _
          have := (M.mode s).tok_dvd hmb ev b
          rw [List.length_append, List.length_drop]
          rw [List.length_append] at hdv
          rw [show b.length - ((M.mode s).tok e b).next + x.length =
            b.length + x.length - ((M.mode s).tok e b).next by omega]
          exact (Nat.dvd_sub_iff_left (by omega) this).2 hdv
      · rw [run_go L.go, run_go L.go false, hst, hv]
        exact .refl _
    | data hm h =>
      have hv : (M.mode s).verdict .DATA_CHARS = .act := by
        cases hM : M.mode s <;> first | rfl | exact absurd hM hm
      have hs := data_step L ok ev x hm h
      generalize hr : (M.mode s).tok e b = r at h hs
      obtain ⟨t, n⟩ := r
      simp only at h hs
      subst h
      have hn : n ≤ b.length := by
        have := C02.next_in_buffer (M.mode s).entry e b
        rwa [← (M.mode s).tok_eq, hr] at this
      rw [run_text L true hr hv (.inl rfl), after_pre]
      refine .trans (.pre rfl ?_) hs
      rw [drop_app _ _ _ hn]
      have hp := progress (e := e) (m := M.mode s) (b := b) (by rw [hr]; rfl) (by rw [hr]; simp)
      rw [hr] at hp
      simp only at hp
      refine ih _ (by omega) _ rfl ?_ _
      exact dvd_drop hn hdv (by have := (M.mode s).tok_dvd hmb ev b; rwa [hr] at this)
    | space hm h =>
      generalize hr : (M.mode s).tok e b = r at h
      obtain ⟨t, n⟩ := r
      have hpt : prologTok e b = ⟨t, n⟩ := by rw [hm] at hr; exact hr
      have hs := space_step L ok ev x hm h hpt hdv
      have hn := (space_cut ok ev x h hpt).1
      have hd := (space_cut ok ev x h hpt).2.1
      simp only at h
      rcases h with rfl | rfl
      · have hv : (M.mode s).verdict .PROLOG_S = .act := by rw [hm]; rfl
        rw [run_text L true hr hv (.inr rfl), after_pre]
        refine .trans (.pre rfl ?_) hs
        rw [drop_app _ _ _ hn]
        have hp := progress (e := e) (m := M.mode s) (b := b) (by rw [hr]; rfl) (by rw [hr]; simp)
        rw [hr] at hp
        simp only at hp
        exact ih _ (by omega) _ rfl (dvd_drop hn hdv hd) _
      · refine .trans ?_ hs
        rw [run_go L.go true, hr, hm]
        simp only [Mode.verdict]
        obtain ⟨E, hE, _⟩ := L.space s (b.take n)
        simp only [hE, after]
        rw [drop_app _ _ _ hn]
        exact .refl _
    | junk hm h =>
      have h2 : (prologTok e (b ++ x)).tok.misc = false := prologTok_neg ok x (by rw [hm] at h; exact h)
      have hv : (M.mode s).verdict ((M.mode s).tok e b).tok = .fail .JUNK_AFTER_DOC_ELEMENT := by
        rw [hm] at h ⊢
        revert h
        generalize (Mode.tok .epilog e b).tok = t
        cases t <;> simp [Tok.neg, Mode.verdict]
      rw [run_go L.go true, hv, run_go L.go false, hm]
      have hw : (∃ c, Mode.verdict .epilog (Mode.tok .epilog e (b ++ x)).tok = .fail c ∧
            (c = .JUNK_AFTER_DOC_ELEMENT ∨ c = .INVALID_TOKEN)) ∨
          ∃ c, Mode.verdict .epilog (Mode.tok .epilog e (b ++ x)).tok = .wait c ∧
            (c = .UNCLOSED_TOKEN ∨ c = .PARTIAL_CHAR) := by
        revert h2
        rw [show (Mode.tok .epilog e (b ++ x)) = prologTok e (b ++ x) from rfl]
        generalize (prologTok e (b ++ x)).tok = t
        cases t <;> simp [Tok.misc, Mode.verdict]
      rcases hw with ⟨c, hw, hc⟩ | ⟨c, hw, hc⟩ <;> rw [hw] <;> rcases hc with rfl | rfl <;>
        simp [after, Same]

/-- What a call leaves unconsumed is the end of its buffer, whole units further on. -/
theorem rest_dvd (go : ∀ s, M.stop s = .go) (hmb : e.mb ≤ 2) (ev : e.Even) (n : Nat) :
    ∀ (b : Buf), b.length = n → ∀ s E s' q, run M e true false s b = (E, .ok s' q) →
      ∃ k, e.mb ∣ k ∧ k ≤ b.length ∧ q = b.drop k := by
  induction n using Nat.strongRecOn with
  | _ n ih =>
    intro b hb s E s' q h
    have hd := (M.mode s).tok_dvd hmb ev b
    have hn : ((M.mode s).tok e b).next ≤ b.length := by
      rw [(M.mode s).tok_eq]; exact C02.next_in_buffer _ e b
    have h0 : ∃ k, e.mb ∣ k ∧ k ≤ b.length ∧ b = b.drop k := ⟨0, Nat.dvd_zero _, by omega, rfl⟩
    rw [run_go go] at h
    revert h
    cases (M.mode s).verdict ((M.mode s).tok e b).tok <;> simp only [if_true]
    case wait => intro h; injection h with _ h; injection h with _ h; subst h; exact h0
    case last => intro h; injection h with _ h; injection h with _ h; subst h; exact h0
    case done => intro h; injection h with _ h; injection h with _ h; subst h; exact h0
    case stop => intro h; injection h with _ h; injection h with _ h; subst h; exact h0
    case fail => intro h; injection h with _ h; cases h
    case actStop =>
      split <;> intro h <;> injection h with _ h
      · cases h
      · injection h with _ h; exact ⟨_, hd, hn, h.symm⟩
    case act =>
      split
      · intro h; injection h with _ h; cases h
      · split
        · rename_i hlt
          intro h
          rename_i s2 _
          generalize hr : run M e true false s2 (b.drop ((M.mode s).tok e b).next) = r at h
          obtain ⟨F, o⟩ := r
          simp only [pre] at h
          injection h with _ h
          subst h
          obtain ⟨k, hk, hkl, rfl⟩ := ih _ (by omega) _ rfl _ _ _ _ hr
          rw [List.length_drop] at hkl
          exact ⟨((M.mode s).tok e b).next + k, Nat.dvd_add hd hk, by omega, by rw [List.drop_drop]⟩
        · intro h; injection h with _ h; injection h with _ h; subst h; exact h0

/-- **Chunk independence.**  Any way of passing the input to XML_Parse yields what passing it at once
yields. -/
theorem chunks (L : Lawful M e) (ok : e.Ok) (hmb : e.mb ≤ 2) (ev : e.Even) (xs : List Buf) :
    ∀ (s : σ) (rest : Buf), e.mb ∣ (rest ++ xs.flatten).length →
      Same (feed M e s rest xs) (call M e false s (rest ++ xs.flatten)) := by
  induction xs with
  | nil => intro s rest _; rw [feed, List.flatten_nil, List.append_nil]; exact .refl _
  | cons x xs ih =>
    intro s rest hdv
    cases xs with
    | nil => rw [feed, List.flatten_cons, List.flatten_nil, List.append_nil]; exact .refl _
    | cons y ys =>
      rw [feed]
      · have hs := split L ok hmb ev (y :: ys).flatten _ (rest ++ x) rfl
          (by rw [List.append_assoc]; exact hdv) s
        rw [call, run_via L.go true _ _ rfl]
        rw [call, run_via L.go false _ _ rfl, List.flatten_cons, ← List.append_assoc]
        generalize hr : run M e true false s (rest ++ x) = r at hs
        obtain ⟨E, o⟩ := r
        cases o with
        | err c => exact hs
        | ok s' q =>
          simp only [after] at hs ⊢
          refine .trans (.pre rfl ?_) hs
          have := ih s' q
          rw [call, run_via L.go _ _ _ rfl] at this
          apply this
          obtain ⟨k, hk, hkl, rfl⟩ := rest_dvd L.go hmb ev _ _ rfl _ _ _ _ hr
          exact dvd_drop hkl (by rw [List.append_assoc]; exact hdv) hk
      · simp

end

end Verif.C04
