import Verif.Reports

/-! # C14: line ends in comments and PI data -/

namespace Verif.C14
open Spec

/-- The specification: CR LF, CR and LF all become LF. -/
def lineEnds : List UInt8 → List UInt8
  | [] => []
  | [0x0D] => [0x0A]
  | c :: d :: r =>
    if c = 0x0D then 0x0A :: (if d = 0x0A then lineEnds r else lineEnds (d :: r))
    else c :: lineEnds (d :: r)
  | [c] => [c]

theorem lineEnds_nil : lineEnds [] = [] := rfl

theorem lineEnds_cr (r : List UInt8) :
    lineEnds (0x0D :: r) = 0x0A :: lineEnds (if r.head? = some 0x0A then r.tail else r) := by
  cases r with
  | nil => rfl
  | cons d r => simp only [lineEnds, if_pos, List.head?_cons, Option.some.injEq, List.tail_cons]; split <;> rfl

theorem lineEnds_other {c : UInt8} (h : c ≠ 0x0D) (r : List UInt8) :
    lineEnds (c :: r) = c :: lineEnds r := by
  cases r with
  | nil => unfold lineEnds; split <;> simp_all
  | cons d r => simp only [lineEnds, if_neg h]

/-! ### What the specification says -/

/-- No CR is left. -/
theorem no_cr (t : List UInt8) : 0x0D ∉ lineEnds t := by
  induction hn : t.length using Nat.strongRecOn generalizing t with
  | _ n ih =>
  cases t with
  | nil => simp [lineEnds_nil]
  | cons c t =>
    by_cases h : c = 0x0D
    · subst h
      rw [lineEnds_cr, List.mem_cons, not_or]
      refine ⟨by decide, ?_⟩
      split
      · exact ih _ (by simp only [List.length_tail, List.length_cons] at hn ⊢; omega) _ rfl
      · exact ih _ (by simp only [List.length_cons] at hn; omega) _ rfl
    · rw [lineEnds_other h, List.mem_cons, not_or]
      exact ⟨Ne.symm h, ih _ (by simp only [List.length_cons] at hn; omega) _ rfl⟩

/-- Normalising again changes nothing. -/
theorem lineEnds_id {t : List UInt8} (h : 0x0D ∉ t) : lineEnds t = t := by
  induction t with
  | nil => rfl
  | cons c t ih =>
    simp only [List.mem_cons, not_or] at h
    rw [lineEnds_other (Ne.symm h.1), ih h.2]

theorem idempotent (t : List UInt8) : lineEnds (lineEnds t) = lineEnds t := lineEnds_id (no_cr t)

/-- The three line ends. -/
def Break (w : List UInt8) : Prop := w = [0x0D, 0x0A] ∨ w = [0x0D] ∨ w = [0x0A]

def Plain (l : List UInt8) : Prop := 0x0D ∉ l ∧ 0x0A ∉ l

theorem plain_append {l r : List UInt8} (h : Plain l) : lineEnds (l ++ r) = l ++ lineEnds r := by
  induction l with
  | nil => rfl
  | cons c l ih =>
    obtain ⟨h1, h2⟩ := h
    simp only [List.mem_cons, not_or] at h1 h2
    rw [List.cons_append, lineEnds_other (Ne.symm h1.1), ih ⟨h1.2, h2.2⟩, List.cons_append]

/-- Any text is lines separated by line ends, a CR never being directly followed by a separate LF;
the result is the same lines, unchanged, separated by single LFs. -/
theorem lines_joined (ls : List (List UInt8 × List UInt8)) (last : List UInt8)
    (hp : ∀ x ∈ ls, Plain x.1 ∧ Break x.2) (hl : Plain last)
    (hcr : ∀ pre x y post, ls = pre ++ x :: y :: post → x.2 = [0x0D] → y.1 = [] → y.2 ≠ [0x0A]) :
    lineEnds ((ls.map fun x => x.1 ++ x.2).flatten ++ last) =
      (ls.map fun x => x.1 ++ [0x0A]).flatten ++ last := by
  induction ls with
  | nil => simpa [lineEnds_nil] using plain_append (r := []) hl
  | cons x ls ih =>
    have ih := ih (fun y hy => hp y (by simp [hy])) (fun pre y z post h => hcr (x :: pre) y z post (by simp [h]))
    obtain ⟨h1, h2⟩ := hp x (by simp)
    simp only [List.map_cons, List.flatten_cons, List.append_assoc]
    rw [plain_append h1, ← ih]
    congr 1
    rcases h2 with h2 | h2 | h2 <;> rw [h2]
    · simp [lineEnds_cr]
    · rw [List.singleton_append, lineEnds_cr, if_neg, List.singleton_append]
      intro h
      cases ls with
      | nil =>
        cases last with
        | nil => simp at h
        | cons c l => simp only [List.map_nil, List.flatten_nil, List.nil_append, List.head?_cons, Option.some.injEq] at h
                      subst h; exact hl.2 (by simp)
      | cons y ls =>
        obtain ⟨g1, g2⟩ := hp y (by simp)
        simp only [List.map_cons, List.flatten_cons, List.append_assoc] at h
        cases hy : y.1 with
        | cons c l =>
          rw [hy] at h g1
          simp only [List.cons_append, List.head?_cons, Option.some.injEq] at h
          subst h; exact g1.2 (by simp)
        | nil =>
          rw [hy, List.nil_append] at h
          rcases g2 with g2 | g2 | g2
          · rw [g2] at h; simp at h
          · rw [g2] at h; simp at h
          · exact hcr [] x y ls rfl h2 hy g2
    · rw [List.singleton_append, lineEnds_other (by decide), List.singleton_append]

/-! ### The in-place loop -/

theorem find_spec (m : List UInt8) (s : Nat) (hz : 0 ∈ m.drop s) :
    (nlFind m s = some none ∧ 0x0D ∉ cstr (m.drop s)) ∨
    ∃ i, nlFind m s = some (some i) ∧ s ≤ i ∧ m[i]? = some 0x0D ∧
      (∀ j, s ≤ j → j < i → m[j]? ≠ some 0 ∧ m[j]? ≠ some 0x0D) := by
  fun_induction nlFind m s with
  | case1 s h h0 =>
    left; refine ⟨rfl, ?_⟩
    rw [List.drop_eq_getElem_cons h, cstr, h0]; simp
  | case2 s h h0 h1 =>
    right; exact ⟨s, rfl, Nat.le_refl _, by simp [h, h1], fun j h2 h3 => by omega⟩
  | case3 s h h0 h1 ih =>
    rw [List.drop_eq_getElem_cons h, List.mem_cons] at hz
    have hz := hz.resolve_left (fun h => h0 h.symm)
    rcases ih hz with ⟨h2, h3⟩ | ⟨i, h2, h3, h4, h5⟩
    · left; refine ⟨h2, ?_⟩
      rw [List.drop_eq_getElem_cons h, cstr, List.takeWhile_cons]
      simp only [ne_eq, h0, not_false_eq_true, decide_true, if_true, List.mem_cons, not_or]
      exact ⟨fun h => h1 h.symm, h3⟩
    · right; refine ⟨i, h2, by omega, h4, fun j h6 h7 => ?_⟩
      by_cases hj : j = s
      · subst hj; simp [h, h0, h1]
      · exact h5 j (by omega) h7
  | case4 s h => simp [List.drop_eq_nil_of_le (Nat.le_of_not_lt h)] at hz

theorem cstr_cons {c : UInt8} (h : c ≠ 0) (l) : cstr (c :: l) = c :: cstr l := by simp [cstr, h]
theorem cstr_zero (l) : cstr (0 :: l) = [] := by simp [cstr]
theorem cstr_append {a l : List UInt8} (h : 0 ∉ a) : cstr (a ++ l) = a ++ cstr l := by
  induction a with
  | nil => rfl
  | cons c a ih =>
    simp only [List.mem_cons, not_or] at h
    rw [List.cons_append, cstr_cons (Ne.symm h.1), ih h.2, List.cons_append]

theorem cstr_no_zero (l : List UInt8) : 0 ∉ cstr l := by
  induction l with
  | nil => simp [cstr]
  | cons c l ih =>
    by_cases h : c = 0
    · subst h; rw [cstr_zero]; simp
    · rw [cstr_cons h]; simp [ih, Ne.symm h]

theorem take_set {m : List UInt8} {p : Nat} {c : UInt8} (h : p < m.length) :
    (m.set p c).take (p + 1) = m.take p ++ [c] := by
  rw [List.take_succ_eq_append_getElem (by simpa using h), List.take_set_of_le (Nat.le_refl _),
    List.getElem_set_self]

theorem drop_set {m : List UInt8} {p k : Nat} {c : UInt8} (h : p < k) : (m.set p c).drop k = m.drop k := by
  rw [List.drop_set]
  simp [h]

/-- What one turn does. -/
theorem step_spec {m : List UInt8} {p s : Nat} {c : UInt8} {r : List UInt8} (hps : p ≤ s)
    (hd : m.drop s = c :: r) :
    ∃ k, nlStep m p s = (m.set p (if c = 0x0D then 0x0A else c), s + 1 + k) ∧
      (k = if c = 0x0D ∧ r.head? = some 0x0A then 1 else 0) := by
  have hs : s < m.length := by
    apply Nat.lt_of_not_le; intro h; rw [List.drop_eq_nil_of_le h] at hd; cases hd
  have h1 : m.getD s 0 = c := by
    have := congrArg List.head? hd
    simp [List.head?_drop, hs] at this
    simp [List.getD, hs, this]
  have h2 : ∀ d, (m.set p d)[s + 1]? = r.head? := by
    intro d
    have := congrArg List.tail hd
    rw [List.tail_drop, List.tail_cons] at this
    rw [← this, List.head?_drop, List.getElem?_set_ne (by omega)]
  unfold nlStep
  rw [h1]
  by_cases hc : c = 0x0D
  · rw [if_pos hc, if_pos hc, h2]
    refine ⟨_, ?_, rfl⟩
    by_cases hr : r.head? = some 0x0A <;> simp [hc, hr]
  · rw [if_neg hc, if_neg hc]
    exact ⟨0, rfl, by simp [hc]⟩

/-- The copying loop: what has been written, then the line ends of what is still to be read. -/
theorem copy_spec (m : List UInt8) (p s : Nat) (hps : p ≤ s) (t z : List UInt8)
    (hd : m.drop s = t ++ 0 :: z) (ht : t ≠ []) (hz : 0 ∉ t) (h0 : 0 ∉ m.take p) :
    ∃ m', nlCopy m p s = some m' ∧ cstr m' = m.take p ++ lineEnds t := by
  induction hn : t.length using Nat.strongRecOn generalizing m p s t with
  | _ n ih =>
  cases t with
  | nil => exact absurd rfl ht
  | cons c t =>
    simp only [List.mem_cons, not_or] at hz
    have hs : s < m.length := by
      apply Nat.lt_of_not_le; intro h; rw [List.drop_eq_nil_of_le h] at hd; cases hd
    obtain ⟨k, h1, hk⟩ := step_spec hps (c := c) (r := t ++ 0 :: z) hd
    have hp : p < m.length := by omega
    have hd1 : ∀ d, (m.set p d).drop (s + 1) = t ++ 0 :: z := by
      intro d
      rw [drop_set (by omega), ← List.drop_drop, hd]
      rfl
    have htk : (m.set p (if c = 0x0D then 0x0A else c)).take (p + 1) =
        m.take p ++ [if c = 0x0D then 0x0A else c] := take_set hp
    -- the rest of the string after this turn
    obtain ⟨t', ht', hd', hl, hle⟩ : ∃ t', (∃ u, t = u ++ t') ∧
        (m.set p (if c = 0x0D then 0x0A else c)).drop (s + 1 + k) = t' ++ 0 :: z ∧ t'.length ≤ t.length ∧
        lineEnds (c :: t) = (if c = 0x0D then 0x0A else c) :: lineEnds t' := by
      by_cases hc : c = 0x0D
      · by_cases hh : t.head? = some 0x0A
        · have hk1 : k = 1 := by
            rw [hk, if_pos]; refine ⟨hc, ?_⟩
            cases t with
            | nil => cases hh
            | cons d t => exact hh
          cases t with
          | nil => cases hh
          | cons d t =>
            refine ⟨t, ⟨[d], rfl⟩, ?_, by simp, ?_⟩
            · rw [hk1, ← List.drop_drop, hd1]; rfl
            · subst hc; rw [lineEnds_cr, if_pos hh]; rfl
        · have hk0 : k = 0 := by
            rw [hk, if_neg]; rintro ⟨-, h⟩
            cases t with
            | nil => cases h
            | cons d t => exact hh h
          refine ⟨t, ⟨[], rfl⟩, by rw [hk0]; exact hd1 _, Nat.le_refl _, ?_⟩
          subst hc; rw [lineEnds_cr, if_neg hh]; rfl
      · have hk0 : k = 0 := by rw [hk, if_neg]; rintro ⟨h, -⟩; exact hc h
        refine ⟨t, ⟨[], rfl⟩, by rw [hk0]; exact hd1 _, Nat.le_refl _, ?_⟩
        rw [lineEnds_other hc, if_neg hc]
    rw [nlCopy, if_pos hs, h1]
    simp only
    have hread : (m.set p (if c = 0x0D then 0x0A else c))[s + 1 + k]? = (t' ++ 0 :: z).head? := by
      rw [← hd', List.head?_drop]
    have h00 : 0 ∉ m.take p ++ [if c = 0x0D then 0x0A else c] := by
      simp only [List.mem_append, List.mem_singleton, not_or]
      refine ⟨h0, ?_⟩
      split
      · decide
      · exact hz.1
    rw [hread]
    cases t' with
    | nil =>
      simp only [List.nil_append, List.head?_cons, if_pos]
      refine ⟨_, rfl, ?_⟩
      rw [hle, lineEnds_nil]
      have hlen : p + 1 < (m.set p (if c = 0x0D then 0x0A else c)).length := by
        have := congrArg List.length hd'
        simp only [List.length_drop, List.nil_append, List.length_cons] at this
        omega
      have := take_set (c := 0) hlen
      rw [htk] at this
      rw [← List.take_append_drop (p + 1 + 1) (List.set _ _ _), this, List.append_assoc, cstr_append h00]
      simp [cstr]
    | cons d t' =>
      have hd0 : d ≠ 0 := by
        obtain ⟨u, rfl⟩ := ht'
        intro h; subst h; exact hz.2 (by simp)
      simp only [List.cons_append, List.head?_cons, if_neg hd0]
      obtain ⟨m', g1, g2⟩ := ih (d :: t').length (by simp only [List.length_cons] at hl hn ⊢; omega)
        _ (p + 1) (s + 1 + k) (by omega) (d :: t') hd' (by simp)
        (by obtain ⟨u, rfl⟩ := ht'; intro h; exact hz.2 (by simp only [List.mem_append]; exact .inr h))
        (by rw [htk]; exact h00) rfl
      exact ⟨m', g1, by rw [g2, htk, hle, List.append_assoc]; rfl⟩

/-- **C14**, the algorithm: on any NUL-terminated string `normalizeLines` stays inside the slice and
leaves exactly the string with its line ends normalised. -/
theorem normalizeLines_spec (t z : List UInt8) (hz : 0 ∉ t) :
    ∃ m, normalizeLines (t ++ 0 :: z) = some m ∧ cstr m = lineEnds t := by
  have hc : cstr (t ++ 0 :: z) = t := by rw [cstr_append hz, cstr_zero, List.append_nil]
  unfold normalizeLines
  rcases find_spec (t ++ 0 :: z) 0 (by simp) with ⟨h1, h2⟩ | ⟨i, h1, -, h3, h4⟩
  · rw [h1]
    refine ⟨_, rfl, ?_⟩
    rw [List.drop_zero, hc] at h2
    rw [hc, lineEnds_id h2]
  · rw [h1]
    have hi : i < t.length := by
      apply Nat.lt_of_not_le
      intro h
      rcases Nat.lt_or_eq_of_le h with h | h
      · exact (h4 t.length (Nat.zero_le _) h).1 (by simp)
      · rw [← h] at h3; simp at h3
    have hsp := List.take_append_drop i t
    have hpre : 0x0D ∉ t.take i := by
      intro h
      obtain ⟨j, hj, hj2⟩ := List.mem_iff_getElem.1 h
      simp only [List.length_take] at hj
      refine (h4 j (Nat.zero_le _) (by omega)).2 ?_
      rw [List.getElem?_append_left (by omega), List.getElem?_eq_getElem (by omega)]
      simpa using hj2
    have hpre0 : 0 ∉ t.take i := fun h => hz (List.mem_of_mem_take h)
    obtain ⟨m', g1, g2⟩ := copy_spec (t ++ 0 :: z) i i (Nat.le_refl _) (t.drop i) z
      (by rw [List.drop_append_of_le_length (by omega)])
      (by intro h; have := congrArg List.length h; simp at this; omega)
      (fun h => hz (List.mem_of_mem_drop h))
      (by rw [List.take_append_of_le_length (by omega)]; exact hpre0)
    refine ⟨m', g1, ?_⟩
    rw [g2, List.take_append_of_le_length (by omega)]
    conv => rhs; rw [← hsp]
    generalize t.take i = a at hpre
    induction a with
    | nil => rfl
    | cons c a ih =>
      simp only [List.mem_cons, not_or] at hpre
      rw [List.cons_append, List.cons_append, lineEnds_other (Ne.symm hpre.1), ih hpre.2]

/-! ### What the handlers receive -/

open Pool C43

theorem store_keeps (al : Allocator) {x asc} (s : XSupported x asc) {p : Pool} (h : Inv p) (b : Buf) :
    ∃ q, p.storeCString al x b = some q ∧ Keeps p q (p.current ++ converted x b ++ [0]) := by
  obtain ⟨q, h1, h2⟩ := append_keeps al (supported_drains s) h b
  refine ⟨q.appendChar al 0, by rw [storeCString, h1, Option.map_some], ?_⟩
  have := char_keeps al h2.inv 0
  rw [h2.cur] at this
  exact h2.trans this

theorem cstr_split {l : List UInt8} (h : 0 ∈ l) : ∃ z, l = cstr l ++ 0 :: z := by
  induction l with
  | nil => cases h
  | cons c l ih =>
    by_cases hc : c = 0
    · subst hc; exact ⟨l, by rw [cstr_zero]; rfl⟩
    · obtain ⟨z, hz⟩ := ih ((List.mem_cons.1 h).resolve_left (Ne.symm hc))
      exact ⟨z, by rw [cstr_cons hc, List.cons_append, ← hz]⟩

theorem normalize_any (l : List UInt8) :
    ∃ m, normalizeLines (l ++ [0]) = some m ∧ cstr m = lineEnds (cstr l) := by
  by_cases h : 0 ∈ l
  · obtain ⟨z, hz⟩ := cstr_split h
    have := normalizeLines_spec (cstr l) (z ++ [0]) (cstr_no_zero l)
    rw [← List.cons_append, ← List.append_assoc, ← hz] at this
    exact this
  · have : cstr l = l := by simpa [cstr] using cstr_append (l := []) h
    rw [this]
    exact normalizeLines_spec l [] h

/-- **C14**, comments: for every encoding and every comment token the handler receives the converted
text between `<!--` and `-->` with its line ends normalised. -/
theorem comment_text (al : Allocator) {x asc} (s : XSupported x asc) {pool : Pool} (hp : Inv pool)
    (h0 : pool.current = []) (content : Buf) :
    reportComment al x pool (spell asc [0x3C, 0x21, 0x2D, 0x2D] ++ (content ++ spell asc [0x2D, 0x2D, 0x3E])) =
      some (lineEnds (cstr (converted x content))) := by
  have hl (cs) : (spell asc cs).length = cs.length * x.e.mb := by
    rw [spell, spell_length s.s]
  obtain ⟨q, h1, h2⟩ := store_keeps al s hp content
  have hc : ((spell asc [0x3C, 0x21, 0x2D, 0x2D] ++ (content ++ spell asc [0x2D, 0x2D, 0x3E])).drop (4 * x.e.mb)).take
      ((spell asc [0x3C, 0x21, 0x2D, 0x2D] ++ (content ++ spell asc [0x2D, 0x2D, 0x3E])).length
        - 4 * x.e.mb - 3 * x.e.mb) = content := by
    rw [List.drop_left' (by rw [hl]; rfl), List.take_left']
    simp only [List.length_append, hl, List.length_cons, List.length_nil]
    omega
  rw [reportComment, hc, h1, Option.bind_some]
  have := h2.cur
  rw [h0, List.nil_append] at this
  rw [this]
  obtain ⟨m, h3, h4⟩ := normalize_any (converted x content)
  rw [h3, Option.map_some, h4]

theorem utf8s_length_le (cs : List Nat) : (utf8s cs).length ≤ 4 * cs.length := by
  induction cs with
  | nil => simp [utf8s]
  | cons c cs ih =>
    rw [C51.utf8s_cons, List.length_append, List.length_cons]
    have := (C51.utf8_length c).2
    omega

theorem text_length {enc : Nat → List UInt8} (hne : ∀ c, enc c ≠ []) (cs : List Nat) :
    cs.length ≤ (C12.text enc cs).length := by
  induction cs with
  | nil => simp
  | cons c cs ih =>
    rw [C12.text_cons, List.length_append, List.length_cons]
    have := List.length_pos_iff.2 (hne c)
    omega

theorem converted_faithful {x : XEnc} {enc : Nat → List UInt8} {ok : Nat → Prop} (h : C12.Faithful x.conv enc ok)
    (hne : ∀ c, enc c ≠ []) (cs : List Nat) (hcs : ∀ c ∈ cs, ok c) :
    converted x (C12.text enc cs) = utf8s cs := by
  obtain ⟨k, hk, h1, -, -, -, h2⟩ := h cs hcs (4 * (C12.text enc cs).length + 4)
  rw [converted, h1]
  rcases Nat.lt_or_eq_of_le hk with hk | rfl
  · have h3 := (h2 hk).2
    have h4 := utf8s_length_le (cs.take (k + 1))
    have h5 := text_length hne cs
    have h6 : (cs.take (k + 1)).length ≤ cs.length := by rw [List.length_take]; exact Nat.min_le_right _ _
    omega
  · rw [List.take_length]

/-- In terms of characters: whatever characters `cs` the comment contains (NUL is not one), the
handler receives their UTF-8 form with line ends normalised. -/
theorem comment_chars (al : Allocator) {x asc} (s : XSupported x asc) {pool : Pool} (hp : Inv pool)
    (h0 : pool.current = []) {enc : Nat → List UInt8} {ok : Nat → Prop} (hf : C12.Faithful x.conv enc ok)
    (hne : ∀ c, enc c ≠ []) (cs : List Nat) (hcs : ∀ c ∈ cs, ok c) (hnz : 0 ∉ utf8s cs) :
    reportComment al x pool (spell asc [0x3C, 0x21, 0x2D, 0x2D] ++ (C12.text enc cs ++ spell asc [0x2D, 0x2D, 0x3E])) =
      some (lineEnds (utf8s cs)) := by
  rw [comment_text al s hp h0, converted_faithful hf hne cs hcs]
  congr 2
  simpa [cstr] using cstr_append (l := []) hnz

/-! ### Processing instructions -/

theorem nameLength_chars {e : Enc} (ok : e.Ok) (hm : e.mb ≤ 2) (ws : List Buf) (hw : ∀ w ∈ ws, e.NameChar w)
    (r : Buf) (hr : nameLength e r = 0) : nameLength e (ws.flatten ++ r) = ws.flatten.length := by
  induction ws with
  | nil => simpa using hr
  | cons w ws ih =>
    have hc := hw w (by simp)
    have hlen := hc.len hm
    rw [List.flatten_cons, List.append_assoc, nameLength,
      if_neg (by rw [List.length_append]; omega), ok.bt_app _ _ hlen, List.length_append]
    have ih := ih (fun v hv => hw v (by simp [hv]))
    simp only [Enc.NameChar] at hc
    generalize e.bt w = t at hc
    cases t <;> simp only at hc ⊢ <;>
      first
        | (rw [List.drop_left' hc.1, ih, hc.1]; done)
        | (rw [List.drop_left' hc, ih, hc]; done)

theorem nameLength_stop {e : Enc} {r : Buf} (h : e.bt r = .QUEST ∨ e.bt r = .S ∨ e.bt r = .CR ∨ e.bt r = .LF) :
    nameLength e r = 0 := by
  rw [nameLength]
  split
  · rfl
  · rcases h with h | h | h | h <;> rw [h]

/-- White space. -/
def isSp (e : Enc) (w : Buf) : Bool :=
  match e.bt w with
  | .S | .CR | .LF => true
  | _ => false

theorem skipS_chars {e : Enc} (ok : e.Ok) (hm : e.mb ≤ 2) (ws : List Buf) (hw : e.Chars ws)
    (r : Buf) (hr : skipS e r = r) :
    skipS e (ws.flatten ++ r) = (ws.dropWhile (isSp e)).flatten ++ r := by
  induction ws with
  | nil => simpa using hr
  | cons w ws ih =>
    have hc := hw.head
    have hlen := Enc.isChar_len hm hc
    rw [List.flatten_cons, List.append_assoc, skipS, if_neg (by rw [List.length_append]; omega),
      ok.bt_app _ _ hlen, List.dropWhile_cons]
    have ih := ih hw.tail
    cases hb : e.bt w <;> simp only [Enc.IsChar, hb] at hc ⊢ <;>
      first
        | (rw [List.drop_left' hc, ih, if_pos (by simp [isSp, hb])]; done)
        | (rw [if_neg (by simp [isSp, hb]), List.flatten_cons, List.append_assoc]; done)

theorem nm_name {e : Enc} {w : Buf} (h : e.NmstrtChar w) (hn : ∀ n, e.isNmstrt n w = true → e.isName n w = true)
    (hn1 : e.isNmstrtMin w = true → e.isNameMin w = true) : e.NameChar w := by
  simp only [Enc.NmstrtChar, Enc.NameChar] at h ⊢
  generalize e.bt w = t at h
  cases t <;> simp_all

/-- `nameLength` does not ask whether a character is a name character, so it need not be one. -/
theorem nameLength_name {e : Enc} (ok : e.Ok) (hm : e.mb ≤ 2) {ws : List Buf} (hw : e.Name ws)
    (r : Buf) (hr : nameLength e r = 0) : nameLength e (ws.flatten ++ r) = ws.flatten.length := by
  obtain ⟨w, vs, rfl, h1, h2⟩ := hw
  have hlen := h1.len hm
  have ih := nameLength_chars ok hm vs h2 r hr
  rw [List.flatten_cons, List.append_assoc, nameLength,
    if_neg (by rw [List.length_append]; omega), ok.bt_app _ _ hlen, List.length_append]
  simp only [Enc.NmstrtChar] at h1
  generalize e.bt w = t at h1
  cases t <;> simp only at h1 ⊢ <;>
    first
      | (rw [List.drop_left' h1.1, ih, h1.1]; done)
      | (rw [List.drop_left' h1, ih, h1]; done)

theorem pi_reported (al : Allocator) {x asc} (s : XSupported x asc) {pool : Pool} (hp : Inv pool)
    (h0 : pool.current = []) (tgt tail data : Buf)
    (h1 : nameLength x.e (tgt ++ tail) = tgt.length)
    (h2 : skipS x.e tail = data ++ spell asc [0x3F, 0x3E]) :
    reportPI al x pool (spell asc [0x3C, 0x3F] ++ (tgt ++ tail)) =
      some (cstr (converted x tgt), lineEnds (cstr (converted x data))) := by
  have hl (cs) : (spell asc cs).length = cs.length * x.e.mb := by
    rw [spell, spell_length s.s]
  obtain ⟨q, g1, g2⟩ := store_keeps al s hp tgt
  have hc := g2.cur
  rw [h0, List.nil_append] at hc
  obtain ⟨q2, g3, g4⟩ := store_keeps al s (finish_inv (p := q)) data
  have hc2 := g4.cur
  have hcf : q.finish.current = [] := by simp [Pool.finish, Pool.current, read]
  rw [hcf, List.nil_append] at hc2
  have hsame := g4.same (q.base, q.len) (by simp [Pool.finish])
  unfold reportPI
  simp only
  rw [List.drop_left' (by rw [hl]; rfl), h1, List.take_left, g1, Option.bind_some, List.drop_left, h2,
    show (data ++ spell asc [0x3F, 0x3E]).length - 2 * x.e.mb = data.length by
      rw [List.length_append, hl]; simp, List.take_left, g3, Option.bind_some, hc2]
  obtain ⟨m, h3, h4⟩ := normalize_any (converted x data)
  rw [h3, Option.map_some, h4, hsame]
  congr 2
  show cstr q.current = _
  rw [hc]
  by_cases hz : 0 ∈ converted x tgt
  · obtain ⟨z, hz⟩ := cstr_split hz
    conv => lhs; rw [hz, List.append_assoc, List.cons_append, cstr_append (cstr_no_zero _), cstr_zero, List.append_nil]
  · rw [cstr_append hz, cstr_zero, List.append_nil]
    simpa [cstr] using (cstr_append (l := []) hz).symm

/-- **C14**, PIs with data: target, white space, data.  The handler receives the converted target, and
the converted data after all the leading white space, with line ends normalised. -/
theorem pi_text (al : Allocator) {x asc} (s : XSupported x asc) {pool : Pool} (hp : Inv pool)
    (h0 : pool.current = []) {target : List Buf} (ht : x.e.Name target) {c : UInt8} (hc : isWS c = true)
    {ws : List Buf} (hw : x.e.Chars ws) :
    reportPI al x pool (spell asc [0x3C, 0x3F] ++ (target.flatten ++ (asc c ++ (ws.flatten ++ spell asc [0x3F, 0x3E])))) =
      some (cstr (converted x target.flatten),
        lineEnds (cstr (converted x (ws.dropWhile (isSp x.e)).flatten))) := by
  have hb := sp_bt s.s hc (ws.flatten ++ spell asc [0x3F, 0x3E])
  have hq : spell asc [0x3F, 0x3E] = asc 0x3F ++ (asc 0x3E ++ []) := by simp [spell]
  have hqb : x.e.bt (spell asc [0x3F, 0x3E]) = .QUEST := by rw [hq]; exact asc_bt s.s rfl _
  refine pi_reported al s hp h0 _ _ _ ?_ ?_
  · exact nameLength_name s.s.ok s.s.mb ht _ (nameLength_stop (.inr hb))
  · have hsq : skipS x.e (spell asc [0x3F, 0x3E]) = spell asc [0x3F, 0x3E] := by
      rw [skipS]; split
      · rfl
      · rw [hqb]
    have := skipS_chars s.s.ok s.s.mb ws hw _ hsq
    rw [skipS, if_neg (asc_len_ok s.s c _)]
    rcases hb with h | h | h <;> rw [h] <;> simp only <;> rw [List.drop_left' (s.s.asc.len c), this]

/-- PIs without data: the data reported is empty. -/
theorem pi_bare (al : Allocator) {x asc} (s : XSupported x asc) {pool : Pool} (hp : Inv pool)
    (h0 : pool.current = []) {target : List Buf} (ht : x.e.Name target) :
    reportPI al x pool (spell asc [0x3C, 0x3F] ++ (target.flatten ++ spell asc [0x3F, 0x3E])) =
      some (cstr (converted x target.flatten), []) := by
  have hq : spell asc [0x3F, 0x3E] = asc 0x3F ++ (asc 0x3E ++ []) := by simp [spell]
  have hqb : x.e.bt (spell asc [0x3F, 0x3E]) = .QUEST := by rw [hq]; exact asc_bt s.s rfl _
  have hsq : skipS x.e (spell asc [0x3F, 0x3E]) = spell asc [0x3F, 0x3E] := by
    rw [skipS]; split
    · rfl
    · rw [hqb]
  have := pi_reported al s hp h0 target.flatten _ [] (nameLength_name s.s.ok s.s.mb ht _ (nameLength_stop (.inl hqb))) hsq
  rw [this]
  have : converted x [] = [] := by
    cases s <;> rename_i ns <;> cases ns <;> decide +kernel
  rw [this]
  rfl

/-! ### Non-vacuity -/

instance (e : Enc) (w : Buf) : Decidable (e.IsChar w) := by
  unfold Enc.IsChar; split <;> infer_instance

example : reportComment bump (utf8X false) Pool.new
    [0x3C, 0x21, 0x2D, 0x2D, 0x61, 0x0D, 0x0A, 0x0D, 0x62, 0x0A, 0x2D, 0x2D, 0x3E] =
      some [0x61, 0x0A, 0x0A, 0x62, 0x0A] :=
  (comment_text bump (.utf8 false) new_inv rfl [0x61, 0x0D, 0x0A, 0x0D, 0x62, 0x0A]).trans (by decide +kernel)

/-- `<?p  a\r\nb?>` -/
example : reportPI bump (utf8X false) Pool.new
    [0x3C, 0x3F, 0x70, 0x20, 0x20, 0x61, 0x0D, 0x0A, 0x62, 0x3F, 0x3E] = some ([0x70], [0x61, 0x0A, 0x62]) :=
  (pi_text bump (.utf8 false) new_inv rfl (target := [[0x70]]) ⟨[0x70], [], rfl, by decide +kernel, by simp⟩
    (c := 0x20) rfl (ws := [[0x20], [0x61], [0x0D], [0x0A], [0x62]])
    (by intro w hw; simp only [List.mem_cons, List.not_mem_nil, or_false] at hw
        rcases hw with rfl | rfl | rfl | rfl | rfl <;> decide +kernel)).trans (by decide +kernel)

end Verif.C14
