import Verif.Splits

/-! Lemmas for C04: the content loop on a buffer and on a longer one. -/

namespace Verif
open C02 (Entry)

def Mode.entry : Mode → Entry
  | .content => .content
  | .cdata => .cdata
  | .epilog => .prolog

theorem Mode.tok_eq (m : Mode) : m.tok = m.entry.run := by cases m <;> rfl

def Tok.neg (t : Tok) : Bool :=
  match t with
  | .NAME_NEG | .NMTOKEN_NEG | .PREFIXED_NAME_NEG | .POUND_NAME_NEG | .LITERAL_NEG | .CLOSE_PAREN_NEG
  | .CLOSE_BRACKET_NEG | .TRAILING_RSQB | .TRAILING_CR | .DATA_CHARS => true
  | _ => false

section
variable {e : Enc}

theorem scanDeclLoop_neg (b p) : (scanDeclLoop e b p).tok.neg = false := by
  fun_induction scanDeclLoop e b p <;> grind [Tok.neg]

theorem scanDecl_neg (b p) : (scanDecl e b p).tok.neg = false := by
  fun_cases scanDecl e b p <;>
    grind [Tok.neg, scanDeclLoop_neg, scanComment_tok, Tok.fail]

theorem scanPi_neg (b p) : (scanPi e b p).tok.neg = false := by
  grind [Tok.neg, scanPi_tok, Tok.fail]

theorem prologTokBody_neg (ok : e.Ok) {b} (x) (hb : e.mb ≤ b.length) (h : (prologTokBody e b).tok.neg = true) :
    (prologTokBody e (b ++ x)).tok.misc = false := by
  have hbt := ok.bt_app b x hb
  have hs := prologSpace_tok e (b.drop e.mb) e.mb
  have h1 : e.bt b ≠ .LT := by
    intro h1
    have a1 := scanDecl_neg (e := e) (b.drop (2 * e.mb)) (2 * e.mb)
    have a2 := scanPi_neg (e := e) (b.drop (2 * e.mb)) (2 * e.mb)
    have h' : (prologTokBody e b).tok.neg = false := by
      simp only [prologTokBody, h1]
      (repeat' split) <;> first | exact a1 | exact a2 | rfl
    rw [h'] at h; cases h
  have h2 : e.bt b ≠ .CR := by
    intro h1
    simp only [prologTokBody, h1] at h
    split at h
    · cases h
    · rw [hs] at h; cases h
  have h3 : e.bt b ≠ .S := by
    intro h1
    simp only [prologTokBody, h1] at h
    rw [hs] at h; cases h
  have h4 : e.bt b ≠ .LF := by
    intro h1
    simp only [prologTokBody, h1] at h
    rw [hs] at h; cases h
  exact prologTokBody_misc (by rwa [hbt]) (by rwa [hbt]) (by rwa [hbt]) (by rwa [hbt])

theorem prologTok_neg (ok : e.Ok) {b} (x) (h : (prologTok e b).tok.neg = true) :
    (prologTok e (b ++ x)).tok.misc = false := by
  have hb := tok_long (e := e) (m := .epilog) (b := b) rfl (by intro h1; simp only [Mode.tok] at h1; rw [h1] at h; cases h)
    (by intro h1; simp only [Mode.tok] at h1; rw [h1] at h; cases h)
  rw [prologTok_eq hb] at h
  obtain ⟨y, hy⟩ := truncBuf_app e b x
  rw [prologTok_eq (by rw [List.length_append]; omega), hy]
  exact prologTokBody_neg ok y (truncBuf_len hb) h

end

/-- What the token found in a buffer says about a longer buffer. -/
inductive Kind (m : Mode) (e : Enc) (b : Buf) : Prop
  | waits (h : m.verdict (m.tok e b).tok = .stop ∨ m.verdict (m.tok e b).tok = .done ∨
      (∃ c, m.verdict (m.tok e b).tok = .wait c) ∨ ∃ t, m.verdict (m.tok e b).tok = .last t)
  | stable (h : C03.openEnded (m.tok e b).tok = false)
      (h2 : m.verdict (m.tok e b).tok = .act ∧ (m.tok e b).tok.isError = false ∧
        (m.tok e b).tok ≠ .INSTANCE_START ∨ ∃ c, m.verdict (m.tok e b).tok = .fail c)
  | data (hm : m ≠ .epilog) (h : (m.tok e b).tok = .DATA_CHARS)
  | space (hm : m = .epilog) (h : (m.tok e b).tok = .PROLOG_S ∨ (m.tok e b).tok = .PROLOG_S_NEG)
  | junk (hm : m = .epilog) (h : (m.tok e b).tok.neg = true)

theorem Mode.kind (m : Mode) (e : Enc) (b : Buf) : Kind m e b := by
  cases m with
  | content =>
    have h := contentTok_tok e b
    have e1 : Mode.content.tok e b = contentTok e b := rfl
    simp only [Tok.fail, Tok.markup] at h
    rcases h with (h | h | h) | (h | h | h | h | h | h | h | h | h) | h | h | h | h | h | h | h <;>
      first
        | (apply Kind.data; · decide
           · rw [e1, h]; done)
        | (apply Kind.stable; · rw [e1, h]; rfl
           · left; rw [e1, h]; decide)
        | (apply Kind.stable; · rw [e1, h]; rfl
           · right; rw [e1, h]; exact ⟨_, rfl⟩)
        | (apply Kind.waits; right; left; rw [e1, h]; rfl)
        | (apply Kind.waits; right; right; left; rw [e1, h]; exact ⟨_, rfl⟩)
        | (apply Kind.waits; right; right; right; rw [e1, h]; exact ⟨_, rfl⟩)
  | cdata =>
    have h := cdataSectionTok_tok e b
    have e1 : Mode.cdata.tok e b = cdataSectionTok e b := rfl
    simp only [Tok.fail] at h
    rcases h with (h | h | h) | h | h | h | h <;>
      first
        | (apply Kind.data; · decide
           · rw [e1, h]; done)
        | (apply Kind.stable; · rw [e1, h]; rfl
           · left; rw [e1, h]; decide)
        | (apply Kind.stable; · rw [e1, h]; rfl
           · right; rw [e1, h]; exact ⟨_, rfl⟩)
        | (apply Kind.waits; right; right; left; rw [e1, h]; exact ⟨_, rfl⟩)
  | epilog =>
    have e1 : Mode.epilog.tok e b = prologTok e b := rfl
    cases h : (prologTok e b).tok <;>
      first
        | (apply Kind.space rfl; left; rw [e1, h]; done)
        | (apply Kind.space rfl; right; rw [e1, h]; done)
        | (apply Kind.junk rfl; rw [e1, h]; rfl)
        | (apply Kind.stable; · rw [e1, h]; rfl
           · left; rw [e1, h]; decide)
        | (apply Kind.stable; · rw [e1, h]; rfl
           · right; rw [e1, h]; exact ⟨_, rfl⟩)
        | (apply Kind.waits; left; rw [e1, h]; rfl)
        | (apply Kind.waits; right; right; left; rw [e1, h]; exact ⟨_, rfl⟩)


end Verif
