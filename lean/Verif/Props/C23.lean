import Verif.Props.C25

/-!
# C23: parentheses balance and connectors do not mix

Consequences for every accepted element declaration, stated by counting brackets.
-/

namespace Verif.C23

open ElemSim

/-- `(` and the four forms of `)`. -/
def isOpen (x : Tok × Buf) : Bool := x.1 == .OPEN_PAREN
def isClose (x : Tok × Buf) : Bool :=
  x.1 == .CLOSE_PAREN || x.1 == .CLOSE_PAREN_QUESTION || x.1 == .CLOSE_PAREN_ASTERISK ||
    x.1 == .CLOSE_PAREN_PLUS

/-- Number of groups open after the first `k` tokens. -/
def depth (xs : List (Tok × Buf)) (k : Nat) : Int :=
  ((xs.take k).countP isOpen : Int) - (xs.take k).countP isClose

def isSep (x : Tok × Buf) : Prop := x.1 = .COMMA ∨ x.1 = .OR

/-! ### Counting on the symbols -/

def zd : ZS → Nat
  | .e1 | .fin _ => 0
  | .e2 | .e3 | .e4 _ | .e5 _ => 1
  | .e6 _ st | .e7 _ st => st.length + 1

def so : Sy → Nat
  | .opn => 1
  | _ => 0
def sc : Sy → Nat
  | .cls _ => 1
  | _ => 0

theorem zstep_zd {z z' : ZS} {y : Sy} (h : zstep z y = some z') : zd z' + sc y = zd z + so y := by
  cases z <;> cases y
  case e7.cls f st q =>
    cases st <;> simp only [zstep, Option.some.injEq] at h <;> subst h <;> simp [zd, sc, so]
  all_goals
    simp only [zstep] at h
    try split at h
    all_goals cases h
    all_goals simp [zd, sc, so]

theorem symOf_counts {asc : UInt8 → Buf} {mb : Nat} {nm : Buf → List UInt8} {x : Tok × Buf} {y : Sy}
    (h : symOf asc mb nm x = some y) :
    so y = (if isOpen x then 1 else 0) ∧ sc y = (if isClose x then 1 else 0) := by
  obtain ⟨t, b⟩ := x
  cases t <;> simp only [symOf] at h <;> (try split at h) <;> cases h <;> exact ⟨rfl, rfl⟩

theorem zruns_zd {asc : UInt8 → Buf} {mb : Nat} {nm : Buf → List UInt8} {z z' : ZS}
    {xs : List (Tok × Buf)} (h : zruns asc mb nm z xs = some z') :
    zd z' + xs.countP isClose = zd z + xs.countP isOpen := by
  induction xs generalizing z with
  | nil => cases h; rfl
  | cons x xs ih =>
    simp only [zruns] at h
    obtain ⟨z1, h1, h2⟩ := Option.bind_eq_some_iff.1 h
    obtain ⟨y, h3, h4⟩ := Option.bind_eq_some_iff.1 h1
    have := ih h2
    have := zstep_zd h4
    have := symOf_counts h3
    simp only [List.countP_cons]
    omega

theorem zruns_append {asc : UInt8 → Buf} {mb : Nat} {nm : Buf → List UInt8} {z : ZS}
    {xs ys : List (Tok × Buf)} : zruns asc mb nm z (xs ++ ys) =
      (zruns asc mb nm z xs).bind fun z => zruns asc mb nm z ys := by
  induction xs generalizing z with
  | nil => rfl
  | cons x xs ih =>
    simp only [List.cons_append, zruns]
    cases (symOf asc mb nm x).bind (zstep z) with
    | none => rfl
    | some z => exact ih

/-- The group that was innermost when a separator `ch` was read, seen from inside it. -/
def HasTop (st : List Frame) (ch : Bool) : ZS → Prop
  | .e6 g s | .e7 g s => ∃ ext f, g :: s = ext ++ f :: st ∧ f.conn = some ch
  | .e4 _ | .e5 _ => ch = true ∧ st = []
  | _ => False

theorem hasTop_step {st ch} {z z' : ZS} {y : Sy} (h : HasTop st ch z) (hz : zstep z y = some z')
    (hd : st.length + 1 ≤ zd z') : HasTop st ch z' := by
  cases z <;> try exact h.elim
  case e4 ns => cases y <;> simp only [zstep] at hz <;> (try split at hz) <;> cases hz <;> exact h
  case e5 ns =>
    cases y <;> simp only [zstep] at hz <;> (try split at hz) <;> cases hz
    · simp [zd] at hd
    · exact h
  case e6 g s =>
    obtain ⟨ext, f, h1, h2⟩ := h
    cases y <;> simp only [zstep] at hz <;> cases hz
    · cases ext with
      | nil =>
        cases h1
        exact ⟨[], g.add _, rfl, h2⟩
      | cons a ext =>
        cases h1
        exact ⟨g.add _ :: ext, f, rfl, h2⟩
    · exact ⟨_ :: ext, f, by rw [List.cons_append, ← h1], h2⟩
  case e7 g s =>
    obtain ⟨ext, f, h1, h2⟩ := h
    cases y <;> try (simp only [zstep] at hz; cases hz; done)
    case sep c =>
      simp only [zstep] at hz
      split at hz
      · cases hz
        cases ext with
        | nil =>
          cases h1
          refine ⟨[], { g with conn := some c }, rfl, ?_⟩
          rename_i h3
          rw [h2] at h3
          simpa [eq_comm] using h3
        | cons a ext =>
          cases h1
          exact ⟨{ g with conn := some c } :: ext, f, rfl, h2⟩
      · cases hz
    case cls q =>
      cases s with
      | nil =>
        simp only [zstep] at hz; cases hz
        simp [zd] at hd
      | cons k s =>
        simp only [zstep] at hz; cases hz
        cases ext with
        | nil =>
          cases h1
          simp [zd] at hd
          omega
        | cons a ext =>
          simp only [List.cons_append, List.cons.injEq] at h1
          obtain ⟨rfl, h1⟩ := h1
          cases ext with
          | nil =>
            cases h1
            exact ⟨[], _, rfl, h2⟩
          | cons a' ext =>
            cases h1
            exact ⟨_ :: ext, f, rfl, h2⟩

theorem hasTop_run {asc : UInt8 → Buf} {mb : Nat} {nm : Buf → List UInt8} {st ch} {z z' : ZS}
    {xs : List (Tok × Buf)} (h : HasTop st ch z) (hr : zruns asc mb nm z xs = some z')
    (hd : ∀ k ≤ xs.length, ((st.length : Int) + 1) ≤ zd z + depth xs k) : HasTop st ch z' := by
  induction xs generalizing z with
  | nil => cases hr; exact h
  | cons x xs ih =>
    simp only [zruns] at hr
    obtain ⟨z1, h1, h2⟩ := Option.bind_eq_some_iff.1 hr
    obtain ⟨y, h3, h4⟩ := Option.bind_eq_some_iff.1 h1
    have e1 := zstep_zd h4
    have e2 := symOf_counts h3
    have hk : ∀ k, depth (x :: xs) (k + 1) = depth xs k + so y - sc y := by
      intro k
      simp only [depth, List.take_succ_cons, List.countP_cons, e2]
      omega
    refine ih (hasTop_step h h4 ?_) h2 fun k hk' => ?_
    · have := hd 1 (by simp)
      rw [hk 0] at this
      simp only [depth, List.take_zero, List.countP_nil] at this
      omega
    · have := hd (k + 1) (by simpa using hk')
      rw [hk k] at this
      omega

/-! ### The theorems -/

theorem content_cases {asc : UInt8 → Buf} {mb : Nat} {nm : Buf → List UInt8} {c : CM}
    {xs : List (Tok × Buf)} (h : IsContent asc mb nm c xs) :
    (∃ b, xs = [(.NAME, b)]) ∨ zruns asc mb nm .e1 xs = some (.fin c) := by
  rcases isContent_iff.1 h with h | h | h
  · exact .inl ⟨_, h.2⟩
  · exact .inl ⟨_, h.2⟩
  · exact .inr h

theorem depth_eq {asc : UInt8 → Buf} {mb : Nat} {nm : Buf → List UInt8} {c : CM}
    {xs : List (Tok × Buf)} (h : zruns asc mb nm .e1 xs = some (.fin c)) (k : Nat) :
    ∃ z, zruns asc mb nm .e1 (xs.take k) = some z ∧ depth xs k = zd z := by
  rw [← List.take_append_drop k xs, zruns_append] at h
  obtain ⟨z, h1, h2⟩ := Option.bind_eq_some_iff.1 h
  refine ⟨z, h1, ?_⟩
  have := zruns_zd h1
  rw [show zd .e1 = 0 from rfl] at this
  simp only [depth]
  omega

/-- **C23**, on a content specification: never more `)` than `(`, and as many in the end. -/
theorem balanced {asc : UInt8 → Buf} {mb : Nat} {nm : Buf → List UInt8} {c : CM}
    {xs : List (Tok × Buf)} (h : IsContent asc mb nm c xs) :
    (∀ k, 0 ≤ depth xs k) ∧ depth xs xs.length = 0 := by
  rcases content_cases h with ⟨b, rfl⟩ | h
  · refine ⟨fun k => ?_, rfl⟩
    cases k <;> simp [depth, isOpen, isClose]
  · refine ⟨fun k => ?_, ?_⟩
    · obtain ⟨z, -, h2⟩ := depth_eq h k
      omega
    · obtain ⟨z, h1, h2⟩ := depth_eq h xs.length
      rw [List.take_length, h] at h1
      cases h1
      exact h2

/-- **C23**, on a content specification: two separators in the same group are equal.  Positions
`i < j` are in the same group if as many groups are open at `j` as at `i` and never fewer in
between. -/
theorem no_mixing {asc : UInt8 → Buf} {mb : Nat} {nm : Buf → List UInt8} {c : CM}
    {xs : List (Tok × Buf)} (h : IsContent asc mb nm c xs) {i j : Nat} {x y : Tok × Buf} (hij : i < j)
    (hx : xs[i]? = some x) (hy : xs[j]? = some y) (hxs : isSep x) (hys : isSep y)
    (heq : depth xs j = depth xs i) (hge : ∀ k, i ≤ k → k ≤ j → depth xs i ≤ depth xs k) :
    x.1 = y.1 := by
  rcases content_cases h with ⟨b, rfl⟩ | h
  · cases i with
    | zero => simp only [List.getElem?_cons_zero, Option.some.injEq] at hx; subst hx; simp [isSep] at hxs
    | succ i => simp at hx
  · obtain ⟨hil, hxe⟩ := List.getElem?_eq_some_iff.1 hx
    obtain ⟨hjl, hye⟩ := List.getElem?_eq_some_iff.1 hy
    -- the three stretches
    have hsplit : xs = xs.take i ++ x :: ((xs.drop (i + 1)).take (j - i - 1) ++ y :: xs.drop (j + 1)) := by
      have h1 : xs.drop i = x :: xs.drop (i + 1) := by rw [List.drop_eq_getElem_cons hil, hxe]
      have h2 : xs.drop j = y :: xs.drop (j + 1) := by rw [List.drop_eq_getElem_cons hjl, hye]
      have h3 : (xs.drop (i + 1)).drop (j - i - 1) = xs.drop j := by
        rw [List.drop_drop]; congr 1; omega
      rw [← h2, ← h3, List.take_append_drop, ← h1, List.take_append_drop]
    generalize hA : xs.take i = A at hsplit
    generalize hB : (xs.drop (i + 1)).take (j - i - 1) = B at hsplit
    generalize hC : xs.drop (j + 1) = C at hsplit
    have hAl : A.length = i := by rw [← hA, List.length_take]; omega
    have hBl : B.length = j - i - 1 := by rw [← hB, List.length_take, List.length_drop]; omega
    rw [hsplit, zruns_append] at h
    obtain ⟨z0, h0, h⟩ := Option.bind_eq_some_iff.1 h
    simp only [zruns] at h
    obtain ⟨z1, h1, h⟩ := Option.bind_eq_some_iff.1 h
    rw [zruns_append] at h
    obtain ⟨z2, h2, h⟩ := Option.bind_eq_some_iff.1 h
    simp only [zruns] at h
    obtain ⟨z3, h3, -⟩ := Option.bind_eq_some_iff.1 h
    have hsx : ∀ w : Tok × Buf, isSep w → symOf asc mb nm w = some (.sep (w.1 == .OR)) := by
      rintro ⟨t, b⟩ (rfl | rfl) <;> rfl
    have hnx : ∀ w : Tok × Buf, isSep w → isOpen w = false ∧ isClose w = false := by
      rintro ⟨t, b⟩ (rfl | rfl) <;> exact ⟨rfl, rfl⟩
    rw [hsx x hxs, Option.bind_some] at h1
    rw [hsx y hys, Option.bind_some] at h3
    -- depths
    have d1 : depth xs i = zd z1 := by
      have a1 := zruns_zd h0
      have a2 := zstep_zd h1
      rw [show zd .e1 = 0 from rfl] at a1
      simp only [so, sc] at a2
      simp only [depth, hA]
      omega
    have dB : ∀ k ≤ B.length, depth xs (i + 1 + k) = zd z1 + depth B k := by
      intro k hk
      rw [← d1]
      have : xs.take (i + 1 + k) = A ++ x :: B.take k := by
        rw [hsplit, List.take_append, hAl, List.take_of_length_le (by omega),
          show i + 1 + k - i = k + 1 by omega, List.take_succ_cons, List.take_append_of_le_length hk]
      simp only [depth, this, hA, List.countP_append, List.countP_cons, (hnx x hxs).1, (hnx x hxs).2]
      simp
      omega
    have d2 : (zd z2 : Int) = zd z1 := by
      have a1 := zruns_zd h2
      have a2 := dB B.length (Nat.le_refl _)
      rw [show i + 1 + B.length = j by omega, heq, d1] at a2
      simp only [depth, List.take_length] at a2
      omega
    have hnd : ∀ k ≤ B.length, (zd z1 : Int) ≤ zd z1 + depth B k := by
      intro k hk
      rw [← dB k hk, ← d1]
      exact hge _ (by omega) (by omega)
    have fin : ∀ st ch, HasTop st ch z2 → zd z2 = st.length + 1 → (y.1 == .OR) = ch := by
      intro st ch ht hzd
      cases z2 <;> try exact ht.elim
      case e4 ns => simp [zstep] at h3
      case e5 ns =>
        simp only [zstep] at h3
        split at h3
        · rename_i h4; rw [h4, ht.1]
        · cases h3
      case e6 g s => simp [zstep] at h3
      case e7 g s =>
        obtain ⟨ext, f, h4, h5⟩ := ht
        have hl := congrArg List.length h4
        simp only [zd] at hzd
        simp only [List.length_cons, List.length_append] at hl
        have : ext = [] := List.length_eq_zero_iff.1 (by omega)
        subst this
        cases h4
        simp only [zstep] at h3
        split at h3
        · rename_i h6
          rw [h5] at h6
          simpa [eq_comm] using h6
        · cases h3
    have hch : (x.1 == .OR) = (y.1 == .OR) := by
      cases z0 <;> simp only [zstep] at h1 <;> try cases h1
      case e3 =>
        split at h1
        · rename_i hx'
          cases h1
          have := hasTop_run (st := []) (ch := true) (z := .e4 []) ⟨rfl, rfl⟩ h2 (by simpa [zd] using hnd)
          rw [hx', fin _ _ this (by simp only [zd] at d2 ⊢; simp; omega)]
        · cases h1
      case e5 ns =>
        split at h1
        · rename_i hx'
          cases h1
          have := hasTop_run (st := []) (ch := true) (z := .e4 ns) ⟨rfl, rfl⟩ h2 (by simpa [zd] using hnd)
          rw [hx', fin _ _ this (by simp only [zd] at d2 ⊢; simp; omega)]
        · cases h1
      case e7 f st =>
        split at h1
        · cases h1
          have := hasTop_run (st := st) (ch := x.1 == .OR) (z := .e6 { f with conn := some (x.1 == .OR) } st)
            ⟨[], _, rfl, rfl⟩ h2 (by simpa [zd] using hnd)
          rw [fin _ _ this (by simp only [zd] at d2 ⊢; omega)]
        · cases h1
    rcases hxs with h | h <;> rcases hys with h' | h' <;> rw [h, h'] at hch ⊢ <;> revert hch <;> decide

/-- **C23**, on the parser: in every accepted element declaration of every prolog, with or
without an element-declaration handler, the tokens of the content specification balance and do
not mix connectors.  Besides, no prolog makes the group bookkeeping run off its arrays. -/
theorem accepted {e : Enc} {asc : UInt8 → Buf} (he : Supported e asc) (nm : Buf → List UInt8) (decl : Bool)
    (s s1 s2 : EState) (hf : Fresh s) (pre body : List (Tok × Buf)) (o cl : Buf)
    (hsize : pre.length + body.length + 3 < 2 ^ 31)
    (ho : o.drop (2 * e.mb) = spell asc [0x45, 0x4C, 0x45, 0x4D, 0x45, 0x4E, 0x54])
    (hpre : s.run decl nm e (pre ++ [(.DECL_OPEN, o)]) = .ok s1)
    (hbody : ∀ x ∈ body, x.1 ≠ .DECL_CLOSE)
    (hacc : s1.run decl nm e (body ++ [(.DECL_CLOSE, cl)]) = .ok s2) :
    ∃ x xs, strip s.p.documentEntity body = x :: xs ∧ (x.1 = .NAME ∨ x.1 = .PREFIXED_NAME) ∧
      (∀ k, 0 ≤ depth xs k) ∧ depth xs xs.length = 0 ∧
      ∀ i j a b, i < j → xs[i]? = some a → xs[j]? = some b → isSep a → isSep b →
        depth xs j = depth xs i → (∀ k, i ≤ k → k ≤ j → depth xs i ≤ depth xs k) → a.1 = b.1 := by
  obtain ⟨h1, h2, h3, h4⟩ := after_open he hf (by omega) ho hpre
  rw [← h2]
  rcases body_run (decl := decl) (nm := nm) he cl (by omega) h1 h4 h3 hbody with
    ⟨x, ys, c, s', g1, g2, g3, -⟩ | ⟨⟨c, h⟩, -⟩
  · exact ⟨x, ys, g1, g2, (balanced g3).1, (balanced g3).2,
      fun i j a b hij ha hb h5 h6 h7 h8 => no_mixing g3 hij ha hb h5 h6 h7 h8⟩
  · rw [hacc] at h; cases h

/-- No token sequence drives the content-model code into an out-of-bounds access or an `unwrap`
of nothing. -/
theorem no_fault {e : Enc} {asc : UInt8 → Buf} (he : Supported e asc) (nm : Buf → List UInt8) (decl : Bool)
    (s : EState) (hf : Fresh s) (ts : List (Tok × Buf)) (hsize : ts.length + 2 < 2 ^ 31) :
    s.run decl nm e ts ≠ .fault := by
  rcases inv_run (nm := nm) (decl := decl) he hf.inv (ts := ts) (by omega) with ⟨s1, h, -⟩ | ⟨s1, h⟩ | ⟨c, h⟩ <;>
    rw [h] <;> simp

/-- `(a, (b|c)*)?`: two groups, different connectors, accepted. -/
example : IsContent asc1 1 id (.group .SEQ .OPT [.name .NONE [0x61], .group .CHOICE .REP
      [.name .NONE [0x62], .name .NONE [0x63]]])
    [(.OPEN_PAREN, [0x28]), (.NAME, [0x61]), (.COMMA, [0x2C]), (.OPEN_PAREN, [0x28]), (.NAME, [0x62]),
     (.OR, [0x7C]), (.NAME, [0x63]), (.CLOSE_PAREN_ASTERISK, [0x29, 0x2A]), (.CLOSE_PAREN_QUESTION, [0x29, 0x3F])] := by
  refine .children _ _ _ _ (.seq _ _ (by simp) ?_) (by simp [symOf, CM.text, CM.more])
  simp only [List.mem_cons, List.not_mem_nil, or_false, forall_eq_or_imp, forall_eq]
  refine ⟨.name _ _, .choice _ _ (by simp) ?_⟩
  simp only [List.mem_cons, List.not_mem_nil, or_false, forall_eq_or_imp, forall_eq]
  exact ⟨.name _ _, .name _ _⟩

end Verif.C23
