import Verif.PrologFwd

/-! The tokenizer of the prolog, backwards: the text of every token it returns. -/

set_option autoImplicit false

namespace Verif
open C43 C53 Spec

/-- `?`, `*`, `+` after a name. -/
def nameOps : List (UInt8 × Tok) := [(0x3F, .NAME_QUESTION), (0x2A, .NAME_ASTERISK), (0x2B, .NAME_PLUS)]
/-- `?`, `*`, `+` after a parenthesis. -/
def parenOps : List (UInt8 × Tok) := [(0x3F, .CLOSE_PAREN_QUESTION), (0x2A, .CLOSE_PAREN_ASTERISK), (0x2B, .CLOSE_PAREN_PLUS)]
/-- Tokens of one character. -/
def charToks : List (UInt8 × Tok) :=
  [(0x3E, .DECL_CLOSE), (0x5B, .OPEN_BRACKET), (0x28, .OPEN_PAREN), (0x7C, .OR), (0x2C, .COMMA), (0x5D, .CLOSE_BRACKET)]
/-- What may follow `%`. -/
def afterPct (c : UInt8) : Bool := isWS c || c == 0x25

/-- Token, text, and what follows. -/
inductive Lexeme (e : Enc) (asc : UInt8 → Buf) : Tok → Buf → Buf → Prop
  | space (sp : List UInt8) (r : Buf) (h0 : sp ≠ []) (h : AllWS sp) : Lexeme e asc .PROLOG_S (spell asc sp) r
  | name (ws : List Buf) (r : Buf) (h : e.Name ws) (hr : NextIn asc afterName r) : Lexeme e asc .NAME ws.flatten r
  | pname (us vs : List Buf) (r : Buf) (h1 : e.Name us) (h2 : vs ≠ []) (h3 : ∀ v ∈ vs, e.NameChar v) (h4 : e.bt (asc 0x3A) = .COLON)
      (hr : NextIn asc afterName r) : Lexeme e asc .PREFIXED_NAME (us ++ asc 0x3A :: vs).flatten r
  | nmtoken (ws : List Buf) (r : Buf) (h : e.Nmtoken asc ws) (hr : NextIn asc afterName r) : Lexeme e asc .NMTOKEN ws.flatten r
  | nameOp (c : UInt8) (t : Tok) (hc : (c, t) ∈ nameOps) (ws : List Buf) (r : Buf) (h : DName e asc ws) : Lexeme e asc t (ws.flatten ++ asc c) r
  | lit (q : UInt8) (ws : List Buf) (r : Buf) (h : Quoted e asc q ws) (hr : NextIn asc afterLit r) : Lexeme e asc .LITERAL (litText asc q ws) r
  | pound (ws : List Buf) (r : Buf) (h : e.Name ws) (hr : NextIn asc afterPound r) : Lexeme e asc .POUND_NAME (asc 0x23 ++ ws.flatten) r
  | declOpen (v r : Buf) (hr : NextIn asc isWS r ∨ NextIn asc (· == 0x25) r ∧ ∀ m, prologTokBody e r ≠ ⟨.PERCENT, m⟩) :
      Lexeme e asc .DECL_OPEN (asc 0x3C ++ (asc 0x21 ++ v)) r
  | percent (r : Buf) (hr : NextIn asc afterPct r) : Lexeme e asc .PERCENT (asc 0x25) r
  | peref (ws : List Buf) (r : Buf) (h : e.Name ws) : Lexeme e asc .PARAM_ENTITY_REF (asc 0x25 ++ (ws.flatten ++ asc 0x3B)) r
  | char (c : UInt8) (t : Tok) (r : Buf) (h : (c, t) ∈ charToks) : Lexeme e asc t (asc c) r
  | rpar (r : Buf) (hr : NextIn asc afterParen r) : Lexeme e asc .CLOSE_PAREN (asc 0x29) r
  | rparOp (c : UInt8) (t : Tok) (r : Buf) (h : (c, t) ∈ parenOps) : Lexeme e asc t (asc 0x29 ++ asc c) r
  | misc (t : Tok) (w r : Buf) (ht : t = .COMMENT ∨ t = .PI ∨ t = .XML_DECL) (h : Markup e asc t w) : Lexeme e asc t w r
  | other (t : Tok) (w r : Buf) (ht : t = .COND_SECT_OPEN ∨ t = .COND_SECT_CLOSE ∨ t = .INSTANCE_START ∧ w = []) : Lexeme e asc t w r

section
variable {e : Enc} {asc : UInt8 → Buf} (s : Supported e asc)
include s

/-! ### Names -/

/-- The kind after a colon. -/
def colonNext (colon : Bool) (tok : Tok) : Tok × Bool :=
  if prologNameTok colon tok = .NAME then (.NAME, true)
  else if prologNameTok colon tok = .PREFIXED_NAME then (.NMTOKEN, false) else (prologNameTok colon tok, false)

/-- How the kind of a name develops over its characters. -/
inductive Nm (e : Enc) (asc : UInt8 → Buf) : Tok → Bool → List Buf → Tok → Prop
  | nil (tok : Tok) (colon : Bool) : Nm e asc tok colon [] (prologNameTok colon tok)
  | char {tok : Tok} {colon : Bool} {w : Buf} {ws : List Buf} {t : Tok} (hw : e.NameChar w)
      (h : Nm e asc (if colon then .PREFIXED_NAME else tok) false ws t) : Nm e asc tok colon (w :: ws) t
  | colon {tok : Tok} {colon : Bool} {ws : List Buf} {t : Tok} (hc : e.bt (asc 0x3A) = .COLON)
      (h : Nm e asc (colonNext colon tok).1 (colonNext colon tok).2 ws t) : Nm e asc tok colon (asc 0x3A :: ws) t

theorem pn_sound (tok : Tok) (colon : Bool) (b : Buf) (p n : Nat) (t : Tok) (ht : t.isError = false) (hn : tok.namey)
    (h : prologName e tok colon b p = ⟨t, n⟩) :
    ∃ (ws : List Buf) (u : Tok) (r : Buf), Nm e asc tok colon ws u ∧
      ((t = u ∧ b = ws.flatten ++ r ∧ NextIn asc afterName r ∧ n = p + ws.flatten.length) ∨
       ∃ c, (c, t) ∈ nameOps ∧ u ≠ .NMTOKEN ∧ b = ws.flatten ++ (asc c ++ r) ∧ n = p + ws.flatten.length + e.mb) := by
  fun_induction prologName e tok colon b p with
  | case1 => cases h; cases ht
  | case2 tok b p h1 h2 =>
    exfalso
    injection h with h _
    subst h
    rcases hn with rfl | rfl | rfl <;> cases ht
  | case3 tok colon b p h1 r h2 => subst h; exact absurd rfl (not_fail ht (nameCases_fail h2))
  | case4 tok colon b p h1 k h2 ih =>
    obtain ⟨w, hw, hl, hb⟩ := name_adv s h1 h2
    have hn' : (if colon = true then Tok.PREFIXED_NAME else tok).namey := by
      split
      · exact .inr (.inr rfl)
      · exact hn
    obtain ⟨ws, u, r, i1, i2⟩ := ih hn' h
    refine ⟨w :: ws, u, r, .char hw i1, ?_⟩
    rcases i2 with ⟨j1, j2, j3, j4⟩ | ⟨c, j1, j2, j3, j4⟩
    · refine .inl ⟨j1, ?_, j3, ?_⟩
      · rw [hb, j2]; simp
      · rw [j4, List.flatten_cons, List.length_append, hl]; omega
    · refine .inr ⟨c, j1, j2, ?_, ?_⟩
      · rw [hb, j3]; simp
      · rw [j4, List.flatten_cons, List.length_append, hl]; omega
  | case5 tok colon b p h1 h2 hbt | case6 tok colon b p h1 h2 hbt | case7 tok colon b p h1 h2 hbt | case8 tok colon b p h1 h2 hbt
  | case9 tok colon b p h1 h2 hbt | case10 tok colon b p h1 h2 hbt | case11 tok colon b p h1 h2 hbt | case12 tok colon b p h1 h2 hbt
  | case13 tok colon b p h1 h2 hbt =>
    injection h with h3 h4
    refine ⟨[], _, b, .nil _ _, .inl ⟨h3.symm, rfl, ?_, by simp [← h4]⟩⟩
    obtain ⟨c, hc, hb⟩ := s.class_split afterNameClass (b := b) (by omega) (by rw [hbt]; rfl)
    exact ⟨c, _, hc, hb⟩
  | case14 tok colon b p h1 h2 hbt hk ih =>
    obtain ⟨hb, hc⟩ := colon_split s (by omega) hbt
    have l := s.asc.len 0x3A
    obtain ⟨ws, u, r, i1, i2⟩ := ih (.inl rfl) h
    refine ⟨asc 0x3A :: ws, u, r, .colon hc (by rw [colonNext, if_pos hk]; exact i1), ?_⟩
    rcases i2 with ⟨j1, j2, j3, j4⟩ | ⟨c, j1, j2, j3, j4⟩
    · refine .inl ⟨j1, ?_, j3, ?_⟩
      · rw [hb, j2]; simp
      · rw [j4, List.flatten_cons, List.length_append, l]; omega
    · refine .inr ⟨c, j1, j2, ?_, ?_⟩
      · rw [hb, j3]; simp
      · rw [j4, List.flatten_cons, List.length_append, l]; omega
  | case15 tok colon b p h1 h2 hbt hk hk2 ih =>
    obtain ⟨hb, hc⟩ := colon_split s (by omega) hbt
    have l := s.asc.len 0x3A
    obtain ⟨ws, u, r, i1, i2⟩ := ih (.inr (.inl rfl)) h
    refine ⟨asc 0x3A :: ws, u, r, .colon hc (by rw [colonNext, if_neg hk, if_pos hk2]; exact i1), ?_⟩
    rcases i2 with ⟨j1, j2, j3, j4⟩ | ⟨c, j1, j2, j3, j4⟩
    · refine .inl ⟨j1, ?_, j3, ?_⟩
      · rw [hb, j2]; simp
      · rw [j4, List.flatten_cons, List.length_append, l]; omega
    · refine .inr ⟨c, j1, j2, ?_, ?_⟩
      · rw [hb, j3]; simp
      · rw [j4, List.flatten_cons, List.length_append, l]; omega
  | case16 tok colon b p h1 h2 hbt hk hk2 ih =>
    obtain ⟨hb, hc⟩ := colon_split s (by omega) hbt
    have l := s.asc.len 0x3A
    obtain ⟨ws, u, r, i1, i2⟩ := ih (prologNameTok_namey colon hn) h
    refine ⟨asc 0x3A :: ws, u, r, .colon hc (by rw [colonNext, if_neg hk, if_neg hk2]; exact i1), ?_⟩
    rcases i2 with ⟨j1, j2, j3, j4⟩ | ⟨c, j1, j2, j3, j4⟩
    · refine .inl ⟨j1, ?_, j3, ?_⟩
      · rw [hb, j2]; simp
      · rw [j4, List.flatten_cons, List.length_append, l]; omega
    · refine .inr ⟨c, j1, j2, ?_, ?_⟩
      · rw [hb, j3]; simp
      · rw [j4, List.flatten_cons, List.length_append, l]; omega
  | case18 tok colon b p h1 h2 hbt hk =>
    injection h with h3 h4
    subst h3 h4
    exact ⟨[], _, _, .nil _ _, .inr ⟨0x2B, by decide, hk, single_split s rfl (by omega) hbt, by simp⟩⟩
  | case20 tok colon b p h1 h2 hbt hk =>
    injection h with h3 h4
    subst h3 h4
    exact ⟨[], _, _, .nil _ _, .inr ⟨0x2A, by decide, hk, single_split s rfl (by omega) hbt, by simp⟩⟩
  | case22 tok colon b p h1 h2 hbt hk =>
    injection h with h3 h4
    subst h3 h4
    exact ⟨[], _, _, .nil _ _, .inr ⟨0x3F, by decide, hk, single_split s rfl (by omega) hbt, by simp⟩⟩
  | case17 => cases h; cases ht
  | case19 => cases h; cases ht
  | case21 => cases h; cases ht
  | case23 => cases h; cases ht

omit s in
theorem Nm.nmtoken {ws : List Buf} {t : Tok} (h : Nm e asc .NMTOKEN false ws t) : t = .NMTOKEN ∧ ∀ w ∈ ws, e.NmtokenChar asc w := by
  generalize hk : Tok.NMTOKEN = tok at h
  generalize hc : false = colon at h
  induction h with
  | nil => subst hk hc; exact ⟨rfl, by simp⟩
  | char hw _ ih =>
    subst hk hc
    have := ih rfl rfl
    exact ⟨this.1, by simpa using ⟨.inl hw, this.2⟩⟩
  | colon hb _ ih =>
    subst hk hc
    have := ih rfl rfl
    exact ⟨this.1, by simpa using ⟨.inr ⟨rfl, hb⟩, this.2⟩⟩

omit s in
theorem Nm.prefixed {ws : List Buf} {t : Tok} (h : Nm e asc .PREFIXED_NAME false ws t) :
    (t = .PREFIXED_NAME ∧ ∀ w ∈ ws, e.NameChar w) ∨ (t = .NMTOKEN ∧ ∀ w ∈ ws, e.NmtokenChar asc w) := by
  generalize hk : Tok.PREFIXED_NAME = tok at h
  generalize hc : false = colon at h
  induction h with
  | nil => subst hk hc; exact .inl ⟨rfl, by simp⟩
  | char hw _ ih =>
    subst hk hc
    rcases ih rfl rfl with ⟨h1, h2⟩ | ⟨h1, h2⟩
    · exact .inl ⟨h1, by simpa using ⟨hw, h2⟩⟩
    · exact .inr ⟨h1, by simpa using ⟨.inl hw, h2⟩⟩
  | colon hb h =>
    subst hk hc
    have := Nm.nmtoken h
    exact .inr ⟨this.1, by simpa using ⟨.inr ⟨rfl, hb⟩, this.2⟩⟩

omit s in
theorem Nm.afterColon {ws : List Buf} {t : Tok} (h : Nm e asc .NAME true ws t) :
    (t = .PREFIXED_NAME ∧ ws ≠ [] ∧ ∀ w ∈ ws, e.NameChar w) ∨ (t = .NMTOKEN ∧ ∀ w ∈ ws, e.NmtokenChar asc w) := by
  cases h with
  | nil => exact .inr ⟨rfl, by simp⟩
  | char hw h =>
    rcases Nm.prefixed h with ⟨h1, h2⟩ | ⟨h1, h2⟩
    · exact .inl ⟨h1, by simp, by simpa using ⟨hw, h2⟩⟩
    · exact .inr ⟨h1, by simpa using ⟨.inl hw, h2⟩⟩
  | colon hb h =>
    have := Nm.nmtoken h
    exact .inr ⟨this.1, by simpa using ⟨.inr ⟨rfl, hb⟩, this.2⟩⟩

omit s in
theorem Nm.name {ws : List Buf} {t : Tok} (h : Nm e asc .NAME false ws t) :
    (t = .NAME ∧ ∀ w ∈ ws, e.NameChar w) ∨
    (t = .PREFIXED_NAME ∧ ∃ us vs, ws = us ++ asc 0x3A :: vs ∧ (∀ w ∈ us, e.NameChar w) ∧ vs ≠ [] ∧ (∀ w ∈ vs, e.NameChar w) ∧
      e.bt (asc 0x3A) = .COLON) ∨
    (t = .NMTOKEN ∧ ∀ w ∈ ws, e.NmtokenChar asc w) := by
  generalize hk : Tok.NAME = tok at h
  generalize hc : false = colon at h
  induction h with
  | nil => subst hk hc; exact .inl ⟨rfl, by simp⟩
  | @char _ _ w _ _ hw _ ih =>
    subst hk hc
    rcases ih rfl rfl with ⟨h1, h2⟩ | ⟨h1, us, vs, rfl, h2, h3⟩ | ⟨h1, h2⟩
    · exact .inl ⟨h1, by simpa using ⟨hw, h2⟩⟩
    · exact .inr (.inl ⟨h1, w :: us, vs, rfl, by simpa using ⟨hw, h2⟩, h3⟩)
    · exact .inr (.inr ⟨h1, by simpa using ⟨.inl hw, h2⟩⟩)
  | colon hb h =>
    subst hk hc
    rcases Nm.afterColon h with ⟨h1, h2, h3⟩ | ⟨h1, h2⟩
    · exact .inr (.inl ⟨h1, [], _, rfl, by simp, h2, h3, hb⟩)
    · exact .inr (.inr ⟨h1, by simpa using ⟨.inr ⟨rfl, hb⟩, h2⟩⟩)

/-- A token that starts with a name-start character. -/
theorem name_sound {v b : Buf} {n : Nat} {t : Tok} (hv : e.NmstrtChar v) (ht : t.isError = false)
    (h : prologName e .NAME false b v.length = ⟨t, n⟩) : ∃ w r, Lexeme e asc t w r ∧ v ++ b = w ++ r ∧ n = w.length := by
  obtain ⟨ws, u, r, h1, h2⟩ := pn_sound s _ _ _ _ _ _ ht (.inl rfl) h
  have cons : ∀ {ws : List Buf}, (∀ w ∈ ws, e.NameChar w) → e.Name (v :: ws) := fun h => ⟨v, _, rfl, hv, h⟩
  rcases h2 with ⟨rfl, rfl, h4, rfl⟩ | ⟨c, h3, h4, rfl, rfl⟩
  · rcases h1.name with ⟨rfl, h5⟩ | ⟨rfl, us, vs, rfl, h5, h6, h7, h8⟩ | ⟨rfl, h5⟩
    · exact ⟨_, r, .name (v :: ws) r (cons h5) h4, by simp, by simp⟩
    · exact ⟨_, r, .pname (v :: us) vs r (cons h5) h6 h7 h8 h4, by simp, by simp⟩
    · exact ⟨_, r, .nmtoken (v :: ws) r ⟨by simp, by simpa using ⟨.inl (nmstrt_nameChar s hv), h5⟩⟩ h4, by simp, by simp⟩
  · have l := s.asc.len c
    rcases h1.name with ⟨rfl, h5⟩ | ⟨rfl, us, vs, rfl, h5, h6, h7, h8⟩ | ⟨rfl, h5⟩
    · exact ⟨_, r, .nameOp c t h3 (v :: ws) r (.plain _ (cons h5)), by simp, by simp [l]; omega⟩
    · exact ⟨_, r, .nameOp c t h3 (v :: us ++ asc 0x3A :: vs) r (.pair (v :: us) vs (cons h5) h6 h7 h8), by simp, by simp [l]; omega⟩
    · exact absurd rfl h4

/-- A token that starts with another name character. -/
theorem nmtoken_sound {v b : Buf} {n : Nat} {t : Tok} (hv : e.NmtokenChar asc v) (ht : t.isError = false)
    (h : prologName e .NMTOKEN false b v.length = ⟨t, n⟩) : ∃ w r, Lexeme e asc t w r ∧ v ++ b = w ++ r ∧ n = w.length := by
  obtain ⟨ws, u, r, h1, h2⟩ := pn_sound s _ _ _ _ _ _ ht (.inr (.inl rfl)) h
  obtain ⟨rfl, h5⟩ := h1.nmtoken
  rcases h2 with ⟨rfl, rfl, h4, rfl⟩ | ⟨c, h3, h4, rfl, rfl⟩
  · exact ⟨_, r, .nmtoken (v :: ws) r ⟨by simp, by simpa using ⟨hv, h5⟩⟩ h4, by simp, by simp⟩
  · exact absurd rfl h4

/-! ### Literals -/

theorem lit_sound {q : UInt8} (hq : q = 0x22 ∨ q = 0x27) (b : Buf) (p n : Nat) (t : Tok) (ht : t.isError = false)
    (h : scanLit e (quoteType q) b p = ⟨t, n⟩) :
    t = .LITERAL ∧ ∃ (ws : List Buf) (r : Buf), e.Chars ws ∧ (∀ w ∈ ws, w ≠ asc q) ∧ b = ws.flatten ++ (asc q ++ r) ∧ NextIn asc afterLit r ∧
      n = p + ws.flatten.length + e.mb := by
  have hql : ∀ b : Buf, e.bt b = quoteType q → e.mb ≤ b.length → b = asc q ++ b.drop e.mb :=
    fun b h1 h2 => single_split s (quote_single hq) h2 h1
  have hqt : quoteType q = .QUOT ∨ quoteType q = .APOS := by rcases hq with rfl | rfl <;> simp [quoteType]
  have qbt : e.bt (asc q) = quoteType q := by simpa using asc_bt s (quote_single hq) []
  have one : ∀ (b : Buf) (p : Nat), ¬ b.length < e.mb → invalidCases e b p = .other → e.bt b ≠ quoteType q →
      e.IsChar (b.take e.mb) ∧ b.take e.mb ≠ asc q := by
    intro b p hb h1 h2
    obtain ⟨i1, i2, i3⟩ := isChar_of_other s.ok (by omega) h1
    exact ⟨i1, fun h => h2 (by rw [← i3, h, qbt])⟩
  have cons : ∀ {b w : Buf} {k p n : Nat}, b.take k = w → w.length = k → e.IsChar w → w ≠ asc q →
      (t = .LITERAL ∧ ∃ (ws : List Buf) (r : Buf), e.Chars ws ∧ (∀ w ∈ ws, w ≠ asc q) ∧ b.drop k = ws.flatten ++ (asc q ++ r) ∧
        NextIn asc afterLit r ∧ n = p + k + ws.flatten.length + e.mb) →
      t = .LITERAL ∧ ∃ (ws : List Buf) (r : Buf), e.Chars ws ∧ (∀ w ∈ ws, w ≠ asc q) ∧ b = ws.flatten ++ (asc q ++ r) ∧
        NextIn asc afterLit r ∧ n = p + ws.flatten.length + e.mb := by
    rintro b w k p n h1 h2 h3 h4 ⟨rfl, ws, r, i1, i2, i3, i4, rfl⟩
    refine ⟨rfl, w :: ws, r, ?_, by simpa using ⟨h4, i2⟩, ?_, i4, ?_⟩
    · intro v hv
      rcases List.mem_cons.1 hv with rfl | hv
      · exact h3
      · exact i1 v hv
    · rw [take_split (b := b) k, h1, i3]; simp
    · simp [h2]; omega
  fun_induction scanLit e (quoteType q) b p with
  | case1 => cases h; cases ht
  | case2 b p h1 r h2 => exact absurd h (not_fail ht (invalidCases_fail h2))
  | case3 b p h1 k h2 ih =>
    obtain ⟨i1, i2, i3, i4⟩ := isChar_of_adv s.ok s.mb h2
    refine cons (w := b.take (k + 1)) rfl (by simp; omega) i1 ?_ (ih h)
    intro h
    have := asc_nl s (quote_single hq)
    rw [← h, i2] at this; cases this
  | case4 => cases h; cases ht
  | case5 b p h1 h2 h3 h4 h5 h6 | case6 b p h1 h2 h3 h4 h5 h6 | case7 b p h1 h2 h3 h4 h5 h6 | case8 b p h1 h2 h3 h4 h5 h6
  | case9 b p h1 h2 h3 h4 h5 h6 | case10 b p h1 h2 h3 h4 h5 h6 =>
    injection h with h7 h8
    subst h7 h8
    refine ⟨rfl, [], b.drop e.mb, (by intro w hw; cases hw), by simp, hql b h4 (by omega), ?_, by simp⟩
    obtain ⟨c, hc, hb⟩ := s.class_split afterLitClass (b := b.drop e.mb) (by omega) (by rw [h6]; rfl)
    exact ⟨c, _, hc, hb⟩
  | case11 => cases h; cases ht
  | case12 b p h1 h2 h3 h4 ih =>
    obtain ⟨i1, i2⟩ := one b p h1 h2 h4
    exact cons rfl (by simp; omega) i1 i2 (ih h)
  | case13 b p h1 h2 h3 ih =>
    obtain ⟨i1, i2⟩ := one b p h1 h2 (by rcases hqt with h | h <;> rw [h] <;> grind)
    exact cons rfl (by simp; omega) i1 i2 (ih h)

/-! ### `#NAME`, `<!NAME`, `%` -/

theorem poundLoop_sound (b : Buf) (p n : Nat) (t : Tok) (ht : t.isError = false) (h : scanPoundNameLoop e b p = ⟨t, n⟩) :
    t = .POUND_NAME ∧ ∃ (ws : List Buf) (r : Buf), (∀ w ∈ ws, e.NameChar w) ∧ b = ws.flatten ++ r ∧ NextIn asc afterPound r ∧
      n = p + ws.flatten.length := by
  fun_induction scanPoundNameLoop e b p with
  | case1 => cases h; cases ht
  | case2 b p h1 r h2 => exact absurd h (not_fail ht (nameCases_fail h2))
  | case3 b p h1 k h2 ih =>
    obtain ⟨w, hw, hl, hb⟩ := name_adv s h1 h2
    obtain ⟨rfl, ws, r, i1, i2, i3, rfl⟩ := ih h
    refine ⟨rfl, w :: ws, r, by simpa using ⟨hw, i1⟩, ?_, i3, ?_⟩
    · rw [hb, i2]; simp
    · simp [hl]; omega
  | case4 b p h1 h2 hbt | case5 b p h1 h2 hbt | case6 b p h1 h2 hbt | case7 b p h1 h2 hbt | case8 b p h1 h2 hbt
  | case9 b p h1 h2 hbt | case10 b p h1 h2 hbt =>
    injection h with h3 h4
    refine ⟨h3.symm, [], b, by simp, rfl, ?_, by simp [← h4]⟩
    obtain ⟨c, hc, hb⟩ := s.class_split afterPoundClass (b := b) (by omega) (by rw [hbt]; rfl)
    exact ⟨c, _, hc, hb⟩
  | case11 => cases h; cases ht

theorem pound_sound (b : Buf) (p n : Nat) (t : Tok) (ht : t.isError = false) (h : scanPoundName e b p = ⟨t, n⟩) :
    t = .POUND_NAME ∧ ∃ (ws : List Buf) (r : Buf), e.Name ws ∧ b = ws.flatten ++ r ∧ NextIn asc afterPound r ∧
      n = p + ws.flatten.length := by
  rw [scanPoundName] at h
  split at h
  · cases h; cases ht
  · rename_i h1
    split at h
    · rename_i h2; exact absurd h (not_fail ht (nmstrtCases_fail h2))
    · rename_i k h2
      obtain ⟨w, hw, hl, hb⟩ := nmstrt_adv s h1 h2
      obtain ⟨rfl, ws, r, i1, i2, i3, rfl⟩ := poundLoop_sound s _ _ _ _ ht h
      refine ⟨rfl, w :: ws, r, ⟨w, ws, rfl, hw, i1⟩, ?_, i3, ?_⟩
      · rw [hb, i2]; simp
      · simp [hl]; omega
    · cases h; cases ht

theorem body_pct (r : Buf) : prologTokBody e (asc 0x25 ++ r) = scanPercent e r e.mb := by
  simp only [prologTokBody, asc_bt s (t := .PERCNT) (c := 0x25) rfl r, drop_char (s.asc.len 0x25)]

theorem declLoop_sound (b : Buf) (p n : Nat) (t : Tok) (ht : t.isError = false) (h : scanDeclLoop e b p = ⟨t, n⟩) :
    t = .DECL_OPEN ∧ ∃ (v r : Buf), b = v ++ r ∧ (NextIn asc isWS r ∨ NextIn asc (· == 0x25) r ∧ ∀ m, prologTokBody e r ≠ ⟨.PERCENT, m⟩) ∧
      n = p + v.length := by
  fun_induction scanDeclLoop e b p with
  | case1 => cases h; cases ht
  | case2 => cases h; cases ht
  | case3 => cases h; cases ht
  | case4 => cases h; cases ht
  | case5 => cases h; cases ht
  | case6 => cases h; cases ht
  | case7 b p h1 h2 h3 h4 h5 h6 h7 =>
    injection h with h8 h9
    refine ⟨h8.symm, [], b, rfl, .inr ⟨⟨0x25, b.drop e.mb, rfl, single_split s rfl (by omega) h2⟩, ?_⟩, by simp [← h9]⟩
    intro m hm
    rw [single_split s (k := .PERCNT) rfl (by omega) h2, body_pct s, scanPercent] at hm
    split at hm
    · cases hm
    · split at hm
      · rename_i hf; exact not_fail rfl (nmstrtCases_fail hf) hm
      · rename_i k hk
        have h0 := scanNameSemi_tok e .PARAM_ENTITY_REF (List.drop (k + 1) (b.drop e.mb)) (e.mb + (k + 1))
        rw [hm] at h0
        rcases h0 with h0 | h0
        · rcases h0 with h0 | h0 | h0 <;> cases h0
        · cases h0
      · split at hm
        · rename_i hx; exact h4 hx
        · rename_i hx; exact h6 hx
        · rename_i hx; exact h5 hx
        · rename_i hx; exact h7 hx
        · cases hm
  | case8 b p h1 hbt | case9 b p h1 hbt | case10 b p h1 hbt =>
    injection h with h3 h4
    refine ⟨h3.symm, [], b, rfl, .inl ?_, by simp [← h4]⟩
    obtain ⟨c, hc, hb⟩ := s.class_split spaceClass (b := b) (by omega) (by rw [hbt]; rfl)
    exact ⟨c, _, hc, hb⟩
  | case11 b p h1 hbt ih | case12 b p h1 hbt ih =>
    obtain ⟨rfl, v, r, i1, i2, rfl⟩ := ih h
    refine ⟨rfl, b.take e.mb ++ v, r, ?_, i2, ?_⟩
    · rw [List.append_assoc, ← i1, List.take_append_drop]
    · simp; omega
  | case13 => cases h; cases ht

omit s in
theorem pctClass : AsciiClass (fun t => t == .S || t == .CR || t == .LF || t == .PERCNT) afterPct := by
  refine ⟨rfl, rfl, rfl, rfl, UInt8.forall_dec (by decide +kernel), by decide +kernel⟩

theorem percent_sound (b : Buf) (n : Nat) (t : Tok) (ht : t.isError = false) (h : scanPercent e b e.mb = ⟨t, n⟩) :
    ∃ w r, Lexeme e asc t w r ∧ asc 0x25 ++ b = w ++ r ∧ n = w.length := by
  have l (c) := s.asc.len c
  rw [scanPercent] at h
  split at h
  · cases h; cases ht
  · rename_i h1
    split at h
    · rename_i h2; exact absurd h (not_fail ht (nmstrtCases_fail h2))
    · rename_i k h2
      obtain ⟨w, hw, hl, hb⟩ := nmstrt_adv s h1 h2
      have h0 := scanNameSemi_tok e .PARAM_ENTITY_REF (List.drop (k + 1) b) (e.mb + (k + 1))
      rw [h] at h0
      rcases h0 with h0 | h0
      · have := Tok.fail_err h0
        rw [ht] at this; cases this
      · simp only at h0
        subst h0
        obtain ⟨ws, r, i1, i2, rfl⟩ := (scanNameSemi_iff s _ rfl _ _ _).1 h
        refine ⟨_, r, .peref (w :: ws) r ⟨w, ws, rfl, hw, i1⟩, ?_, ?_⟩
        · rw [hb, i2]; simp
        · simp [hl, l]; omega
    · have sp : ∀ k, e.bt b = k → (k = .S ∨ k = .CR ∨ k = .LF ∨ k = .PERCNT) → NextIn asc afterPct b := by
        intro k hk hk2
        obtain ⟨c, hc, hb⟩ := s.class_split (pctClass) (b := b) (by omega) (by rcases hk2 with rfl | rfl | rfl | rfl <;> rw [hk] <;> rfl)
        exact ⟨c, _, hc, hb⟩
      split at h
      · rename_i hk; cases h; exact ⟨_, b, .percent b (sp _ hk (by simp)), rfl, (l _).symm⟩
      · rename_i hk; cases h; exact ⟨_, b, .percent b (sp _ hk (by simp)), rfl, (l _).symm⟩
      · rename_i hk; cases h; exact ⟨_, b, .percent b (sp _ hk (by simp)), rfl, (l _).symm⟩
      · rename_i hk; cases h; exact ⟨_, b, .percent b (sp _ hk (by simp)), rfl, (l _).symm⟩
      · cases h; cases ht

/-! ### White space -/

theorem wspace_sound (b : Buf) (p n : Nat) (t : Tok) (h : prologSpace e b p = ⟨t, n⟩) :
    t = .PROLOG_S ∧ ∃ (sp : List UInt8) (r : Buf), AllWS sp ∧ b = spell asc sp ++ r ∧ n = p + (spell asc sp).length := by
  have l (c) := s.asc.len c
  fun_induction prologSpace e b p with
  | case1 b p _ | case2 b p _ _ _ | case6 b p =>
    cases h; exact ⟨rfl, [], b, allWS_nil, rfl, rfl⟩
  | case3 b p h1 hbt h2 ih | case4 b p h1 hbt ih | case5 b p h1 hbt ih =>
    obtain ⟨c, hc, hb⟩ := s.class_split spaceClass (b := b) (by omega) (by rw [hbt]; rfl)
    obtain ⟨rfl, sp, r, i1, i2, rfl⟩ := ih h
    refine ⟨rfl, c :: sp, r, .cons hc i1, ?_, ?_⟩
    · rw [hb, i2]; simp [spell]
    · simp [spell, l]; omega

/-! ### All tokens -/

theorem body_sound {b : Buf} {n : Nat} {t : Tok} (h0 : e.mb ≤ b.length) (hd : e.mb ∣ b.length) (ht : t.isError = false) (hc : t ≠ .COMMENT)
    (h : prologTokBody e b = ⟨t, n⟩) : ∃ w r, Lexeme e asc t w r ∧ b = w ++ r ∧ n = w.length := by
  have l (c) := s.asc.len c
  have ch : ∀ (c : UInt8) (k : ByteType) (u : Tok), k.single = some c → (c, u) ∈ charToks → e.bt b = k → (⟨u, e.mb⟩ : Res) = ⟨t, n⟩ →
      ∃ w r, Lexeme e asc t w r ∧ b = w ++ r ∧ n = w.length := by
    intro c k u h1 h2 h3 h4
    cases h4
    exact ⟨_, _, .char c _ _ h2, single_split s h1 h0 h3, (l c).symm⟩
  have btk : ∀ k, e.mb ≤ k → k ≤ b.length → e.bt (b.take k) = e.bt b := by
    intro k h1 h2
    have := s.ok.bt_app (b.take k) (b.drop k) (by simp; omega)
    rw [List.take_append_drop] at this; exact this.symm
  have start : ∀ k, e.mb ≤ k → k ≤ b.length → e.NmstrtChar (b.take k) → prologName e .NAME false (b.drop k) k = ⟨t, n⟩ →
      ∃ w r, Lexeme e asc t w r ∧ b = w ++ r ∧ n = w.length := by
    intro k h1 h2 h3 h4
    have hl : (b.take k).length = k := by simp; omega
    obtain ⟨w, r, i1, i2, i3⟩ := name_sound s h3 ht (by rw [hl]; exact h4)
    exact ⟨w, r, i1, by rw [← i2, List.take_append_drop], i3⟩
  have tokn : ∀ k, e.mb ≤ k → k ≤ b.length → e.NmtokenChar asc (b.take k) → prologName e .NMTOKEN false (b.drop k) k = ⟨t, n⟩ →
      ∃ w r, Lexeme e asc t w r ∧ b = w ++ r ∧ n = w.length := by
    intro k h1 h2 h3 h4
    have hl : (b.take k).length = k := by simp; omega
    obtain ⟨w, r, i1, i2, i3⟩ := nmtoken_sound s h3 ht (by rw [hl]; exact h4)
    exact ⟨w, r, i1, by rw [← i2, List.take_append_drop], i3⟩
  have lead : ∀ k, (e.bt b = .LEAD2 ∧ k = 1 ∨ e.bt b = .LEAD3 ∧ k = 2 ∨ e.bt b = .LEAD4 ∧ k = 3) → prologLead e k b = ⟨t, n⟩ →
      ∃ w r, Lexeme e asc t w r ∧ b = w ++ r ∧ n = w.length := by
    intro k hk h
    rw [prologLead] at h
    split at h
    · cases h; cases ht
    · rename_i hl
      have hm := s.mb
      have hb := btk (k + 1) (by omega) (by omega)
      split at h
      · rename_i hx
        refine start (k + 1) (by omega) (by omega) ?_ h
        have h2 := s.ok.nmstrt_app (k + 1) (b.take (k + 1)) (b.drop (k + 1)) (by simp; omega)
        rw [List.take_append_drop, hx] at h2
        unfold Enc.NmstrtChar
        rw [hb]
        rcases hk with ⟨hk, rfl⟩ | ⟨hk, rfl⟩ | ⟨hk, rfl⟩ <;> rw [hk] <;> exact ⟨by simp; omega, h2.symm⟩
      · split at h
        · rename_i hx
          refine tokn (k + 1) (by omega) (by omega) (.inl ?_) h
          have h2 := s.ok.name_app (k + 1) (b.take (k + 1)) (b.drop (k + 1)) (by simp; omega)
          rw [List.take_append_drop, hx] at h2
          unfold Enc.NameChar
          rw [hb]
          rcases hk with ⟨hk, rfl⟩ | ⟨hk, rfl⟩ | ⟨hk, rfl⟩ <;> rw [hk] <;> exact ⟨by simp; omega, h2.symm⟩
        · cases h; cases ht
  have sp : (e.bt b = .S ∨ e.bt b = .CR ∨ e.bt b = .LF) → prologSpace e (b.drop e.mb) e.mb = ⟨t, n⟩ →
      ∃ w r, Lexeme e asc t w r ∧ b = w ++ r ∧ n = w.length := by
    intro hk h
    obtain ⟨c, hcw, hb⟩ := s.class_split spaceClass (b := b) h0 (by rcases hk with h | h | h <;> rw [h] <;> rfl)
    obtain ⟨rfl, cs, r, i1, i2, rfl⟩ := wspace_sound s _ _ _ _ h
    refine ⟨_, r, .space (c :: cs) r (by simp) (.cons hcw i1), ?_, ?_⟩
    · rw [hb, i2]; simp [spell]
    · simp [spell, l]
  have qt : ∀ q, (q = 0x22 ∨ q = 0x27) → e.bt b = quoteType q → scanLit e (quoteType q) (b.drop e.mb) e.mb = ⟨t, n⟩ →
      ∃ w r, Lexeme e asc t w r ∧ b = w ++ r ∧ n = w.length := by
    intro q hq hk h
    obtain ⟨rfl, ws, r, i1, i2, i3, i4, rfl⟩ := lit_sound s hq _ _ _ _ ht h
    refine ⟨_, r, .lit q ws r ⟨hq, i1, i2⟩ i4, ?_, ?_⟩
    · rw [single_split s (quote_single hq) h0 hk, i3]; simp [litText]
    · simp [litText, l]; omega
  have nm : ∀ k, (k = .NMSTRT ∨ k = .HEX) → e.bt b = k → prologName e .NAME false (b.drop e.mb) e.mb = ⟨t, n⟩ →
      ∃ w r, Lexeme e asc t w r ∧ b = w ++ r ∧ n = w.length := by
    intro k hk hb h
    refine start e.mb (Nat.le_refl _) h0 ?_ h
    unfold Enc.NmstrtChar
    rw [btk _ (Nat.le_refl _) h0, hb]
    rcases hk with rfl | rfl <;> (simp; omega)
  have nt : ∀ k, (k = .DIGIT ∨ k = .NAME ∨ k = .MINUS ∨ k = .COLON) → e.bt b = k → prologName e .NMTOKEN false (b.drop e.mb) e.mb = ⟨t, n⟩ →
      ∃ w r, Lexeme e asc t w r ∧ b = w ++ r ∧ n = w.length := by
    intro k hk hb h
    refine tokn e.mb (Nat.le_refl _) h0 ?_ h
    by_cases hx : k = .COLON
    · subst hx
      obtain ⟨h1, h2⟩ := colon_split s h0 hb
      have h3 : b.take e.mb = asc 0x3A := by
        rw [h1, ← l 0x3A]; simp
      exact .inr ⟨h3, by rw [h3]; exact h2⟩
    · refine .inl ?_
      unfold Enc.NameChar
      rw [btk _ (Nat.le_refl _) h0, hb]
      rcases hk with rfl | rfl | rfl | rfl <;> first | exact absurd rfl hx | (simp; omega)
  unfold prologTokBody at h
  split at h
  · rename_i hk; exact lead 1 (by simp [hk]) h
  · rename_i hk; exact lead 2 (by simp [hk]) h
  · rename_i hk; exact lead 3 (by simp [hk]) h
  · rename_i hk; exact qt 0x22 (by simp) hk h
  · rename_i hk; exact qt 0x27 (by simp) hk h
  · rename_i hk
    have hb := single_split s (k := .LT) rfl h0 hk
    split at h
    · cases h; cases ht
    · rename_i hl
      have inst : (⟨.INSTANCE_START, 0⟩ : Res) = ⟨t, n⟩ → ∃ w r, Lexeme e asc t w r ∧ b = w ++ r ∧ n = w.length := by
        intro h; cases h
        exact ⟨[], b, .other _ _ _ (by simp), rfl, rfl⟩
      split at h
      · rename_i hx
        have hb2 := single_split s (k := .EXCL) rfl (by omega) hx
        rw [List.drop_drop, ← Nat.two_mul] at hb2
        rw [hb2] at hb
        rw [scanDecl] at h
        have decl : scanDeclLoop e ((b.drop (2 * e.mb)).drop e.mb) (2 * e.mb + e.mb) = ⟨t, n⟩ → ¬ (b.drop (2 * e.mb)).length < e.mb →
            ∃ w r, Lexeme e asc t w r ∧ b = w ++ r ∧ n = w.length := by
          intro h hl
          obtain ⟨rfl, v, r, i1, i2, rfl⟩ := declLoop_sound s _ _ _ _ ht h
          refine ⟨_, r, .declOpen ((b.drop (2 * e.mb)).take e.mb ++ v) r i2, ?_, ?_⟩
          · have : (b.drop (2 * e.mb)).take e.mb ++ (v ++ r) = b.drop (2 * e.mb) := by rw [← i1, List.take_append_drop]
            simp only [List.append_assoc, this, ← hb]
          · simp only [List.length_append, l, List.length_take]; omega
        split at h
        · cases h; cases ht
        · split at h
          · exfalso
            have h2 := scanComment_tok e ((b.drop (2 * e.mb)).drop e.mb) (2 * e.mb + e.mb)
            rw [h] at h2
            rcases h2 with h2 | h2
            · have := Tok.fail_err h2
              rw [ht] at this; cases this
            · exact hc h2
          · cases h
            exact ⟨b.take (2 * e.mb + e.mb), b.drop (2 * e.mb + e.mb), .other _ _ _ (by simp), (List.take_append_drop _ _).symm, by simp at *; omega⟩
          · exact decl h ‹_›
          · exact decl h ‹_›
          · cases h; cases ht
      · rename_i hx
        have hb2 := single_split s (k := .QUEST) rfl (by omega) hx
        rw [List.drop_drop, ← Nat.two_mul] at hb2
        rw [hb2] at hb
        obtain ⟨tg, r, m, i1, i2, i3, rfl, i5⟩ := (pi_at s _ _ _ _ ht).1 h
        obtain ⟨d, r', j1, rfl, rfl⟩ := (tail_iff s _ _).1 i3
        refine ⟨_, r', .misc t _ r' (.inr (pi_tok i5)) (.pi i1 j1 i5), ?_, ?_⟩
        · rw [hb, i2]; simp [spell]
        · simp [spell, l]; omega
      · exact inst h
      · exact inst h
      · exact inst h
      · exact inst h
      · exact inst h
      · exact inst h
      · cases h; cases ht
  · rename_i hk
    split at h
    · cases h; cases ht
    · exact sp (by simp [hk]) h
  · rename_i hk; exact sp (by simp [hk]) h
  · rename_i hk; exact sp (by simp [hk]) h
  · rename_i hk
    obtain ⟨w, r, h1, h2, h3⟩ := percent_sound s _ _ _ ht h
    exact ⟨w, r, h1, by rw [single_split s (k := .PERCNT) rfl h0 hk, h2], h3⟩
  · rename_i hk; exact ch 0x2C _ _ rfl (by decide) hk h
  · rename_i hk; exact ch 0x5B _ _ rfl (by decide) hk h
  · rename_i hk
    split at h
    · cases h; cases ht
    · split at h
      · split at h
        · cases h; cases ht
        · split at h
          · rename_i hl _ _
            cases h
            exact ⟨b.take (3 * e.mb), b.drop (3 * e.mb), .other _ _ _ (by simp), (List.take_append_drop _ _).symm, by simp at *; omega⟩
          · exact ch 0x5D _ _ rfl (by decide) hk h
      · exact ch 0x5D _ _ rfl (by decide) hk h
  · rename_i hk; exact ch 0x28 _ _ rfl (by decide) hk h
  · rename_i hk
    have hb := single_split s (k := .RPAR) rfl h0 hk
    split at h
    · cases h; cases ht
    · rename_i hl
      have op : ∀ (c : UInt8) (k : ByteType) (u : Tok), k.single = some c → (c, u) ∈ parenOps → e.bt (b.drop e.mb) = k →
          (⟨u, 2 * e.mb⟩ : Res) = ⟨t, n⟩ → ∃ w r, Lexeme e asc t w r ∧ b = w ++ r ∧ n = w.length := by
        intro c k u h1 h2 h3 h4
        cases h4
        have h5 := single_split s h1 (by omega) h3
        refine ⟨_, (b.drop e.mb).drop e.mb, .rparOp c _ _ h2, ?_, ?_⟩
        · rw [List.append_assoc, ← h5, ← hb]
        · simp [l]; omega
      have cl : ∀ k, (k = .S ∨ k = .CR ∨ k = .LF ∨ k = .GT ∨ k = .COMMA ∨ k = .VERBAR ∨ k = .RPAR) → e.bt (b.drop e.mb) = k →
          (⟨.CLOSE_PAREN, e.mb⟩ : Res) = ⟨t, n⟩ → ∃ w r, Lexeme e asc t w r ∧ b = w ++ r ∧ n = w.length := by
        intro k h1 h2 h3
        cases h3
        obtain ⟨c, hcw, hb2⟩ := s.class_split afterParenClass (b := b.drop e.mb) (by omega)
          (by rcases h1 with rfl | rfl | rfl | rfl | rfl | rfl | rfl <;> rw [h2] <;> rfl)
        exact ⟨_, _, .rpar _ ⟨c, _, hcw, hb2⟩, hb, (l _).symm⟩
      split at h
      · rename_i hx; exact op 0x2A _ _ rfl (by decide) hx h
      · rename_i hx; exact op 0x3F _ _ rfl (by decide) hx h
      · rename_i hx; exact op 0x2B _ _ rfl (by decide) hx h
      · rename_i hx; exact cl _ (by simp) hx h
      · rename_i hx; exact cl _ (by simp) hx h
      · rename_i hx; exact cl _ (by simp) hx h
      · rename_i hx; exact cl _ (by simp) hx h
      · rename_i hx; exact cl _ (by simp) hx h
      · rename_i hx; exact cl _ (by simp) hx h
      · rename_i hx; exact cl _ (by simp) hx h
      · cases h; cases ht
  · rename_i hk; exact ch 0x7C _ _ rfl (by decide) hk h
  · rename_i hk; exact ch 0x3E _ _ rfl (by decide) hk h
  · rename_i hk
    obtain ⟨rfl, ws, r, i1, i2, i3, rfl⟩ := pound_sound s _ _ _ _ ht h
    refine ⟨_, r, .pound ws r i1 i3, ?_, ?_⟩
    · rw [single_split s (k := .NUM) rfl h0 hk, i2]; simp
    · simp [l]
  · rename_i hk; exact nm _ (by simp) hk h
  · rename_i hk; exact nm _ (by simp) hk h
  · rename_i hk; exact nt _ (by simp) hk h
  · rename_i hk; exact nt _ (by simp) hk h
  · rename_i hk; exact nt _ (by simp) hk h
  · rename_i hk; exact nt _ (by simp) hk h
  · rename_i hk
    have hb := btk _ (Nat.le_refl _) h0
    split at h
    · rename_i hx
      refine start e.mb (Nat.le_refl _) h0 ?_ h
      have h2 := s.ok.nmstrtMin_app (b.take e.mb) (b.drop e.mb) (by simp; omega)
      rw [List.take_append_drop, hx] at h2
      unfold Enc.NmstrtChar
      rw [hb, hk]
      exact ⟨by simp; omega, h2.symm⟩
    · split at h
      · rename_i hx
        refine tokn e.mb (Nat.le_refl _) h0 (.inl ?_) h
        have h2 := s.ok.nameMin_app (b.take e.mb) (b.drop e.mb) (by simp; omega)
        rw [List.take_append_drop, hx] at h2
        unfold Enc.NameChar
        rw [hb, hk]
        exact ⟨by simp; omega, h2.symm⟩
      · cases h; cases ht
  · cases h; cases ht

/-- Every token of the prolog: its text. -/
theorem lex_sound {b : Buf} {n : Nat} {t : Tok} (hd : e.mb ∣ b.length) (ht : t.isError = false)
    (h : prologTok e b = ⟨t, n⟩) : ∃ w r, Lexeme e asc t w r ∧ b = w ++ r ∧ n = w.length := by
  by_cases hc : t = .COMMENT
  · subst hc
    have h1 := (prolog_misc s hd (.inl rfl)).1 h
    obtain ⟨w, r, h2, h3, h4⟩ := content_sound s hd rfl (by simp) (by simp) h1
    exact ⟨w, r, .misc _ w r (.inl rfl) h2, h3, h4⟩
  · rw [prologTok] at h
    split at h
    · cases h; cases ht
    · split at h
      · cases h; cases ht
      · rename_i h1 h2
        rw [trunc_whole s hd] at h h2
        have hm := s.mb
        refine body_sound s ?_ hd ht hc h
        obtain ⟨k, hk⟩ := hd
        rcases k with _ | k
        · rw [Nat.mul_zero] at hk
          simp [List.length_eq_zero_iff.1 hk] at h1
        · rw [hk, Nat.mul_add, Nat.mul_one]; omega

end
end Verif
