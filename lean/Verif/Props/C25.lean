import Verif.ElemReach

/-!
# C25: the content model delivered equals the model declared

For every prolog, every element declaration in it, at any depth and width: the declaration is
accepted exactly when its tokens are an element declaration of XML 1.0 (productions 45-51), and
then the element-declaration handler is called once, with the element's name and a block of
`XML_Content` cells that denotes the declared expression.

`Denotes` reads the block the way a C program does (through `type`, `quant`, `name`, `numchildren`
and `children`), `denotes_unique` shows that such a reading is unambiguous, so "denotes the
declared expression" leaves no room for a second expression.

The bound `2 ^ 31` on the number of tokens in the prolog is where `m_groupSize *= 2` (a 32-bit
counter) overflows.
-/

namespace Verif.C25

open ElemSim

/-- **C25.**  `pre` are the tokens of the prolog (or external subset) before the declaration,
`body` its tokens between `<!ELEMENT` and `>`. -/
theorem declared_model {e : Enc} {asc : UInt8 → Buf} (he : Supported e asc) (nm : Buf → List UInt8)
    (s s1 : EState) (hf : Fresh s) (pre body : List (Tok × Buf)) (o cl : Buf)
    (hsize : pre.length + body.length + 3 < 2 ^ 31)
    (ho : o.drop (2 * e.mb) = spell asc [0x45, 0x4C, 0x45, 0x4D, 0x45, 0x4E, 0x54])
    (hpre : s.run true nm e (pre ++ [(.DECL_OPEN, o)]) = .ok s1)
    (hbody : ∀ x ∈ body, x.1 ≠ .DECL_CLOSE) :
    (∃ x ys c m s2, strip s.p.documentEntity body = x :: ys ∧ (x.1 = .NAME ∨ x.1 = .PREFIXED_NAME) ∧
      IsContent asc e.mb nm c ys ∧
      s1.run true nm e (body ++ [(.DECL_CLOSE, cl)]) = .ok s2 ∧
      s2.calls = s1.calls ++ [(nm x.2, m)] ∧ Denotes m 0 c) ∨
    (∃ err, s1.run true nm e (body ++ [(.DECL_CLOSE, cl)]) = .err err) ∧
      ¬ ∃ x ys c, strip s.p.documentEntity body = x :: ys ∧ (x.1 = .NAME ∨ x.1 = .PREFIXED_NAME) ∧
        IsContent asc e.mb nm c ys := by
  obtain ⟨h1, h2, h3, h4⟩ := after_open he hf (by omega) ho hpre
  rw [← h2]
  rcases body_run (decl := true) (nm := nm) he cl (by omega) h1 h4 h3 hbody with
    ⟨x, ys, c, s2, g1, g2, g3, g4, g5, -⟩ | h
  · rw [if_pos rfl] at g5
    obtain ⟨m, g5, g6⟩ := g5
    exact .inl ⟨x, ys, c, m, s2, g1, g2, g3, g4, g5, g6⟩
  · exact .inr h

mutual
/-- Names without NUL bytes (a C string cannot hold one). -/
def NulFree : CM → Prop
  | .name _ n => (0 : UInt8) ∉ n
  | .group _ _ ks => NulFrees ks
def NulFrees : List CM → Prop
  | [] => True
  | k :: ks => NulFree k ∧ NulFrees ks
end

theorem cstr_unique {a b : List UInt8} {r1 r2 : List UInt8} (ha : (0 : UInt8) ∉ a) (hb : (0 : UInt8) ∉ b)
    (h : a ++ 0 :: r1 = b ++ 0 :: r2) : a = b := by
  induction a generalizing b with
  | nil =>
    cases b with
    | nil => rfl
    | cons y b =>
      simp only [List.nil_append, List.cons_append, List.cons.injEq] at h
      rw [← h.1] at hb
      simp at hb
  | cons x a ih =>
    cases b with
    | nil =>
      simp only [List.nil_append, List.cons_append, List.cons.injEq] at h
      rw [h.1] at ha
      simp at ha
    | cons y b =>
      simp only [List.cons_append, List.cons.injEq] at h
      simp only [List.mem_cons, not_or] at ha hb
      rw [h.1, ih ha.2 hb.2 h.2]

mutual
/-- The handler's block can be read in one way only. -/
theorem denotes_unique {m : Block} {i : Nat} : ∀ {c c' : CM}, NulFree c → NulFree c' →
    Denotes m i c → Denotes m i c' → c = c'
  | .name q n, .name q' n', h1, h2, h3, h4 => by
    simp only [Denotes] at h3 h4
    obtain ⟨o, r, h3, h5⟩ := h3
    obtain ⟨o', r', h4, h6⟩ := h4
    rw [h3] at h4
    cases h4
    rw [h5] at h6
    simp only [NulFree] at h1 h2
    rw [cstr_unique h1 h2 h6]
  | .name q n, .group ty' q' ks', _, _, h3, h4 => by
    simp only [Denotes] at h3 h4
    obtain ⟨o, r, h3, h5⟩ := h3
    obtain ⟨ch, h4, h6⟩ := h4
    rw [h3] at h4
    cases h4
  | .group ty q ks, .name q' n', _, _, h3, h4 => by
    simp only [Denotes] at h3 h4
    obtain ⟨o, r, h4, h5⟩ := h4
    obtain ⟨ch, h3, h6⟩ := h3
    rw [h3] at h4
    cases h4
  | .group ty q ks, .group ty' q' ks', h1, h2, h3, h4 => by
    simp only [Denotes] at h3 h4
    obtain ⟨ch, h3, h5⟩ := h3
    obtain ⟨ch', h4, h6⟩ := h4
    rw [h3] at h4
    simp only [Option.some.injEq, Cell.mk.injEq, true_and] at h4
    obtain ⟨rfl, rfl, h7, rfl⟩ := h4
    simp only [NulFree] at h1 h2
    rw [denotesAll_unique h1 h2 h7 h5 h6]
theorem denotesAll_unique {m : Block} {c : Option Nat} : ∀ {ks ks' : List CM}, NulFrees ks → NulFrees ks' →
    ks.length = ks'.length → DenotesAll m c ks → DenotesAll m c ks' → ks = ks'
  | [], [], _, _, _, _, _ => rfl
  | [], _ :: _, _, _, h, _, _ => by simp at h
  | _ :: _, [], _, _, h, _, _ => by simp at h
  | k :: ks, k' :: ks', h1, h2, h, h3, h4 => by
    simp only [DenotesAll] at h3 h4
    obtain ⟨a, rfl, h5, h6⟩ := h3
    obtain ⟨a', h7, h8, h9⟩ := h4
    cases h7
    simp only [NulFrees] at h1 h2
    rw [denotes_unique h1.1 h2.1 h5 h8, denotesAll_unique h1.2 h2.2 (by simpa using h) h6 h9]
end

/-- `<!DOCTYPE r [<!ELEMENT`, then ` r (a, (b|c)*)?>`: all hypotheses hold, the declaration is
accepted and one model is delivered. -/
def exPre : List (Tok × Buf) :=
  [(.DECL_OPEN, [0x3C, 0x21, 0x44, 0x4F, 0x43, 0x54, 0x59, 0x50, 0x45]), (.PROLOG_S, [0x20]),
   (.NAME, [0x72]), (.PROLOG_S, [0x20]), (.OPEN_BRACKET, [0x5B])]
def exOpen : Buf := [0x3C, 0x21, 0x45, 0x4C, 0x45, 0x4D, 0x45, 0x4E, 0x54]
def exBody : List (Tok × Buf) :=
  [(.PROLOG_S, [0x20]), (.NAME, [0x72]), (.PROLOG_S, [0x20]), (.OPEN_PAREN, [0x28]), (.NAME, [0x61]),
   (.COMMA, [0x2C]), (.PROLOG_S, [0x20]), (.OPEN_PAREN, [0x28]), (.NAME, [0x62]), (.OR, [0x7C]),
   (.NAME, [0x63]), (.CLOSE_PAREN_ASTERISK, [0x29, 0x2A]), (.CLOSE_PAREN_QUESTION, [0x29, 0x3F])]
def exStart : EState := { p := PState.init }

example : Fresh exStart := ⟨.inl rfl, rfl, rfl, rfl⟩
example : exOpen.drop (2 * (utf8Enc false).mb) = spell asc1 [0x45, 0x4C, 0x45, 0x4D, 0x45, 0x4E, 0x54] := by
  decide +kernel
example : (match exStart.run true id (utf8Enc false) (exPre ++ [(.DECL_OPEN, exOpen)]) with
    | .ok s1 => match s1.run true id (utf8Enc false) (exBody ++ [(.DECL_CLOSE, [0x3E])]) with
      | .ok s2 => s2.calls
      | _ => []
    | _ => []) = [([0x72], ⟨[⟨.SEQ, .OPT, none, 2, some 1⟩, ⟨.NAME, .NONE, some 0, 0, none⟩,
      ⟨.CHOICE, .REP, none, 2, some 3⟩, ⟨.NAME, .NONE, some 2, 0, none⟩, ⟨.NAME, .NONE, some 4, 0, none⟩],
      [0x61, 0, 0x62, 0, 0x63, 0], 5, 6⟩)] := by decide +kernel

end Verif.C25
