import Verif.Located

/-! Which tokens the located events of a run come from, and the order of their places. -/

set_option autoImplicit false

namespace Verif
open C04

variable {σ : Type}

/-- The token `t` with the text `w` is carried out in the state `s`, after the bytes `B` and before the bytes `r` of `b`.  The last bytes
of a document (TRAILING_CR, TRAILING_RSQB) and white space at the end (the negated PROLOG_S) are carried out under another name. -/
structure Met (M : Sem σ) (e : Enc) (b B : Buf) (s : σ) (t : Tok) (w r : Buf) : Prop where
  text : b = B ++ (w ++ r)
  whole : e.mb ∣ (w ++ r).length
  tok : (M.mode s).tok e (w ++ r) = ⟨t, w.length⟩ ∧ (M.mode s).verdict t = .act ∨ t = .DATA_CHARS ∨ t = .DATA_NEWLINE ∨ t = .PROLOG_S

/-- The token has been carried out without an error. -/
def okOf (a : List Ev × Except XErr σ) : Bool := a.2.isOk

section
variable {M : Sem σ} {pl : Places σ} {e : Enc}

theorem Met.shift {b B b' : Buf} {s : σ} {t : Tok} {w r : Buf} (v : Buf) (h : Met M e b B s t w r) (hb : b' = v ++ b) :
    Met M e b' (v ++ B) s t w r := by
  refine ⟨?_, h.whole, h.tok⟩
  rw [hb, h.text, List.append_assoc]

theorem last_tok {m : Mode} {t t' : Tok} (h : m.verdict t = .last t') : t' = .DATA_CHARS ∨ t' = .DATA_NEWLINE := by
  unfold Mode.verdict at h
  grind

/-- Every call of a run belongs to a token of the text. -/
theorem runAt_token (hmb : e.mb ≤ 2) (ev : e.Even) (more : Bool) (n : Nat) : ∀ (b : Buf), b.length = n → e.mb ∣ b.length →
    ∀ (total : Nat) (s : σ), b.length ≤ total → ∀ p ∈ (runAt M pl e more total s b).1,
      ∃ B s' t w r, Met M e b B s' t w r ∧
        p ∈ pl.put (okOf (M.act s' t w)) t (total - b.length + B.length) w (M.act s' t w).1 := by
  induction n using Nat.strongRecOn with
  | _ n ih =>
    intro b hb hdv total s hle p hp
    have hnx : ((M.mode s).tok e b).next ≤ b.length := by
      rw [(M.mode s).tok_eq]; exact C02.next_in_buffer _ e b
    rw [runAt] at hp
    cases hv : (M.mode s).verdict ((M.mode s).tok e b).tok with
    | wait c => cases more <;> simp [hv] at hp
    | done => cases more <;> simp [hv] at hp
    | stop => simp [hv] at hp
    | fail c => simp [hv] at hp
    | last t =>
      cases more
      · simp only [hv, Bool.false_eq_true, if_false] at hp
        have hm : Met M e b [] s t b [] := ⟨by simp, by simpa using hdv, .inr (by rcases last_tok hv with h | h <;> simp [h])⟩
        refine ⟨[], s, t, b, [], hm, ?_⟩
        simp only [List.length_nil, Nat.add_zero]
        revert hp
        generalize M.act s t b = a
        obtain ⟨E, o⟩ := a
        cases o <;> exact id
      · simp [hv] at hp
    | actStop =>
      simp only [hv] at hp
      have hm : Met M e b [] s .PROLOG_S (b.take ((M.mode s).tok e b).next) (b.drop ((M.mode s).tok e b).next) :=
        ⟨by simp, by simpa using hdv, .inr (by simp)⟩
      refine ⟨[], s, _, _, _, hm, ?_⟩
      simp only [List.length_nil, Nat.add_zero]
      revert hp
      generalize M.act s _ _ = a
      obtain ⟨E, o⟩ := a
      cases o <;> exact id
    | act =>
      simp only [hv] at hp
      have hm : Met M e b [] s ((M.mode s).tok e b).tok (b.take ((M.mode s).tok e b).next) (b.drop ((M.mode s).tok e b).next) := by
        refine ⟨by simp, by simpa using hdv, .inl ⟨?_, hv⟩⟩
        rw [List.take_append_drop, List.length_take, Nat.min_eq_left hnx]
      have here : ∀ q, q ∈ pl.put (okOf (M.act s ((M.mode s).tok e b).tok (b.take ((M.mode s).tok e b).next))) ((M.mode s).tok e b).tok
            (total - b.length) (b.take ((M.mode s).tok e b).next) (M.act s ((M.mode s).tok e b).tok (b.take ((M.mode s).tok e b).next)).1 →
          ∃ B s' t w r, Met M e b B s' t w r ∧
            q ∈ pl.put (okOf (M.act s' t w)) t (total - b.length + B.length) w (M.act s' t w).1 :=
        fun q hq => ⟨[], s, _, _, _, hm, by simpa using hq⟩
      revert here hp
      generalize ha : M.act s ((M.mode s).tok e b).tok (b.take ((M.mode s).tok e b).next) = a
      obtain ⟨E, o⟩ := a
      intro hp here
      cases o with
      | error c => exact here p hp
      | ok s' =>
        simp only at hp
        split at hp
        · rename_i hlt
          rcases List.mem_append.1 hp with hp | hp
          · exact here p hp
          · have hd := dvd_drop (x := []) hnx (by simpa using hdv) ((M.mode s).tok_dvd hmb ev b)
            simp only [List.append_nil] at hd
            obtain ⟨B, s2, t, w, r, h1, h2⟩ := ih _ (by omega) _ rfl hd total s' (by omega) p hp
            refine ⟨_, s2, t, w, r, h1.shift (b.take ((M.mode s).tok e b).next) (List.take_append_drop ..).symm, ?_⟩
            rw [List.length_append, List.length_take, Nat.min_eq_left hnx]
            rw [List.length_drop] at h2
            rwa [show total - b.length + (((M.mode s).tok e b).next + B.length) =
              total - (b.length - ((M.mode s).tok e b).next) + B.length by omega]
        · exact here p hp

/-! ### Errors -/

theorem finishAt_err {s : σ} {q : Buf} {i j : Nat} {c : XErr} (h : finishAt M s q i = .err c (some j)) : M.fin s = some c ∧ j = i := by
  unfold finishAt at h
  cases hf : M.fin s with
  | none => simp [hf] at h
  | some d => simp [hf] at h; exact ⟨by rw [h.1], h.2.symm⟩

theorem runAt_fault (hmb : e.mb ≤ 2) (ev : e.Even) (more : Bool) (n : Nat) : ∀ (b : Buf), b.length = n → e.mb ∣ b.length →
    ∀ (total : Nat) (s : σ), b.length ≤ total → ∀ {c : XErr} {j : Nat}, (runAt M pl e more total s b).2 = .err c (some j) →
      (∃ B s' t w r, Met M e b B s' t w r ∧ (M.act s' t w).2 = .error c ∧
        pl.fault s' t (total - b.length + B.length) w c = some j) ∨
      ((∃ (m : Mode) (t : Tok), m.verdict t = .wait c ∨ m.verdict t = .fail c) ∨ ∃ s', M.fin s' = some c) ∧
        total - b.length ≤ j ∧ j ≤ total := by
  induction n using Nat.strongRecOn with
  | _ n ih =>
    intro b hb hdv total s hle c j hp
    have hnx : ((M.mode s).tok e b).next ≤ b.length := by
      rw [(M.mode s).tok_eq]; exact C02.next_in_buffer _ e b
    rw [runAt] at hp
    cases hv : (M.mode s).verdict ((M.mode s).tok e b).tok with
    | wait d =>
      cases more <;> simp [hv] at hp
      obtain ⟨rfl, rfl⟩ := hp
      exact .inr ⟨.inl ⟨_, _, .inl hv⟩, by omega, by omega⟩
    | done =>
      cases more <;> simp [hv] at hp
      obtain ⟨h1, rfl⟩ := finishAt_err hp
      exact .inr ⟨.inr ⟨_, h1⟩, by omega, by omega⟩
    | stop => simp [hv] at hp
    | fail d =>
      simp [hv] at hp
      obtain ⟨rfl, rfl⟩ := hp
      refine .inr ⟨.inl ⟨_, _, .inr hv⟩, ?_⟩
      split <;> omega
    | last t =>
      cases more
      · simp only [hv, Bool.false_eq_true, if_false] at hp
        have hm : Met M e b [] s t b [] := ⟨by simp, by simpa using hdv, .inr (by rcases last_tok hv with h | h <;> simp [h])⟩
        cases ha : M.act s t b with
        | mk E o =>
          cases o with
          | error d =>
            simp only [ha, OutAt.err.injEq] at hp
            obtain ⟨rfl, hp⟩ := hp
            exact .inl ⟨[], s, t, b, [], hm, by rw [ha], by simpa using hp⟩
          | ok s' =>
            simp only [ha] at hp
            obtain ⟨h1, rfl⟩ := finishAt_err hp
            refine .inr ⟨.inr ⟨_, h1⟩, ?_⟩
            split <;> omega
      · simp [hv] at hp
    | actStop =>
      simp only [hv] at hp
      have hm : Met M e b [] s .PROLOG_S (b.take ((M.mode s).tok e b).next) (b.drop ((M.mode s).tok e b).next) :=
        ⟨by simp, by simpa using hdv, .inr (by simp)⟩
      cases ha : M.act s .PROLOG_S (b.take ((M.mode s).tok e b).next) with
      | mk E o =>
        cases o with
        | error d =>
          simp only [ha, OutAt.err.injEq] at hp
          obtain ⟨rfl, hp⟩ := hp
          exact .inl ⟨[], s, _, _, _, hm, by rw [ha], by simpa using hp⟩
        | ok s' => simp [ha] at hp
    | act =>
      simp only [hv] at hp
      have hm : Met M e b [] s ((M.mode s).tok e b).tok (b.take ((M.mode s).tok e b).next) (b.drop ((M.mode s).tok e b).next) := by
        refine ⟨by simp, by simpa using hdv, .inl ⟨?_, hv⟩⟩
        rw [List.take_append_drop, List.length_take, Nat.min_eq_left hnx]
      cases ha : M.act s ((M.mode s).tok e b).tok (b.take ((M.mode s).tok e b).next) with
      | mk E o =>
        cases o with
        | error d =>
          simp only [ha, OutAt.err.injEq] at hp
          obtain ⟨rfl, hp⟩ := hp
          exact .inl ⟨[], s, _, _, _, hm, by rw [ha], by simpa using hp⟩
        | ok s' =>
          simp only [ha] at hp
          split at hp
          · rename_i hlt
            have hd := dvd_drop (x := []) hnx (by simpa using hdv) ((M.mode s).tok_dvd hmb ev b)
            simp only [List.append_nil] at hd
            rcases ih _ (by omega) _ rfl hd total s' (by omega) hp with ⟨B, s2, t, w, r, h1, h2, h3⟩ | ⟨h1, h2⟩
            · refine .inl ⟨_, s2, t, w, r, h1.shift (b.take ((M.mode s).tok e b).next) (List.take_append_drop ..).symm, h2, ?_⟩
              rw [List.length_append, List.length_take, Nat.min_eq_left hnx]
              rw [List.length_drop] at h3
              rwa [show total - b.length + (((M.mode s).tok e b).next + B.length) =
                total - (b.length - ((M.mode s).tok e b).next) + B.length by omega]
            · exact .inr ⟨h1, by omega, h2.2⟩
          · simp at hp

/-! ### Order -/

/-- The calls of a token are at places within it, one after the other. -/
def Places.Within (pl : Places σ) : Prop :=
  ∀ ok t i w E, (∀ p ∈ pl.put ok t i w E, ∀ q ∈ p.pos, i ≤ q.1 ∧ q.1 + q.2 ≤ i + w.length) ∧
    (pl.put ok t i w E).Pairwise fun p q => ∀ a ∈ p.pos, ∀ b ∈ q.pos, a.1 ≤ b.1

theorem runAt_order (hw : pl.Within) (more : Bool) (n : Nat) : ∀ (b : Buf), b.length = n → ∀ (total : Nat) (s : σ), b.length ≤ total →
    (∀ p ∈ (runAt M pl e more total s b).1, ∀ q ∈ p.pos, total - b.length ≤ q.1 ∧ q.1 + q.2 ≤ total) ∧
    ((runAt M pl e more total s b).1.Pairwise fun p q => ∀ a ∈ p.pos, ∀ b ∈ q.pos, a.1 ≤ b.1) := by
  induction n using Nat.strongRecOn with
  | _ n ih =>
    intro b hb total s hle
    have hnx : ((M.mode s).tok e b).next ≤ b.length := by
      rw [(M.mode s).tok_eq]; exact C02.next_in_buffer _ e b
    have put : ∀ ok t w E, w.length ≤ b.length →
        (∀ p ∈ pl.put ok t (total - b.length) w E, ∀ q ∈ p.pos, total - b.length ≤ q.1 ∧ q.1 + q.2 ≤ total) := by
      intro ok t w E hwl p hp q hq
      have := (hw ok t (total - b.length) w E).1 p hp q hq
      omega
    have htk : (b.take ((M.mode s).tok e b).next).length = ((M.mode s).tok e b).next := by
      rw [List.length_take, Nat.min_eq_left hnx]
    rw [runAt]
    cases hv : (M.mode s).verdict ((M.mode s).tok e b).tok with
    | wait c => cases more <;> simp [hv]
    | done => cases more <;> simp [hv]
    | stop => simp [hv]
    | fail c => simp [hv]
    | last t =>
      cases more
      · simp only [hv, Bool.false_eq_true, if_false]
        generalize M.act s t b = a
        obtain ⟨E, o⟩ := a
        cases o <;> exact ⟨put _ _ _ _ (by omega), (hw ..).2⟩
      · simp [hv]
    | actStop =>
      simp only [hv]
      generalize M.act s _ _ = a
      obtain ⟨E, o⟩ := a
      cases o <;> exact ⟨put _ _ _ _ (by omega), (hw ..).2⟩
    | act =>
      simp only [hv]
      generalize M.act s _ _ = a
      obtain ⟨E, o⟩ := a
      cases o with
      | error c => exact ⟨put _ _ _ _ (by omega), (hw ..).2⟩
      | ok s' =>
        simp only
        split
        · rename_i hlt
          have hi := ih (b.drop ((M.mode s).tok e b).next).length (by omega) _ rfl total s' (by omega)
          rw [List.length_drop] at hi
          refine ⟨?_, ?_⟩
          · intro p hp q hq
            rcases List.mem_append.1 hp with hp | hp
            · exact put _ _ _ _ (by omega) p hp q hq
            · have := hi.1 p hp q hq
              omega
          · refine List.pairwise_append.2 ⟨(hw ..).2, hi.2, ?_⟩
            intro p hp q hq x hx y hy
            have h1 := (hw ..).1 p hp x hx
            have h2 := hi.1 q hq y hy
            omega
        · exact ⟨put _ _ _ _ (by omega), (hw ..).2⟩

end
end Verif
