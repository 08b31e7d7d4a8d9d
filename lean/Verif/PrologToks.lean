import Verif.Toks

/-! Which tokens the scanners of the prolog can return. -/

set_option autoImplicit false

namespace Verif

theorem scanDeclLoop_toks (e : Enc) (b : Buf) (p : Nat) :
    (scanDeclLoop e b p).tok.fail ∨ (scanDeclLoop e b p).tok = .DECL_OPEN := by
  fun_induction scanDeclLoop e b p <;> grind [Tok.fail]
theorem scanDecl_toks (e : Enc) (b : Buf) (p : Nat) : (scanDecl e b p).tok.fail ∨ (scanDecl e b p).tok = .DECL_OPEN ∨
    (scanDecl e b p).tok = .COMMENT ∨ (scanDecl e b p).tok = .COND_SECT_OPEN := by
  fun_cases scanDecl e b p <;> grind [Tok.fail, scanDeclLoop_toks, scanComment_tok]
theorem scanPercent_tok (e : Enc) (b : Buf) (p : Nat) : (scanPercent e b p).tok.fail ∨ (scanPercent e b p).tok = .PERCENT ∨
    (scanPercent e b p).tok = .PARAM_ENTITY_REF := by
  fun_cases scanPercent e b p <;> grind [Tok.fail, → nmstrtCases_fail, scanNameSemi_tok]
theorem scanPoundNameLoop_tok (e : Enc) (b : Buf) (p : Nat) : (scanPoundNameLoop e b p).tok.fail ∨
    (scanPoundNameLoop e b p).tok = .POUND_NAME ∨ (scanPoundNameLoop e b p).tok = .POUND_NAME_NEG := by
  fun_induction scanPoundNameLoop e b p <;> grind [Tok.fail, → nameCases_fail]
theorem scanPoundName_tok (e : Enc) (b : Buf) (p : Nat) : (scanPoundName e b p).tok.fail ∨
    (scanPoundName e b p).tok = .POUND_NAME ∨ (scanPoundName e b p).tok = .POUND_NAME_NEG := by
  fun_cases scanPoundName e b p <;> grind [Tok.fail, → nmstrtCases_fail, scanPoundNameLoop_tok]
theorem scanLit_tok (e : Enc) (o : ByteType) (b : Buf) (p : Nat) : (scanLit e o b p).tok.fail ∨
    (scanLit e o b p).tok = .LITERAL ∨ (scanLit e o b p).tok = .LITERAL_NEG := by
  fun_induction scanLit e o b p <;> grind [Tok.fail, → invalidCases_fail]
/-- The tokens that names give. -/
def Tok.namey (t : Tok) : Prop := t = .NAME ∨ t = .NMTOKEN ∨ t = .PREFIXED_NAME
def Tok.nameyNeg (t : Tok) : Prop := t = .NAME_NEG ∨ t = .NMTOKEN_NEG ∨ t = .PREFIXED_NAME_NEG
def Tok.nameyOp (t : Tok) : Prop := t = .NAME_PLUS ∨ t = .NAME_ASTERISK ∨ t = .NAME_QUESTION

theorem negate_namey {t : Tok} (h : t.namey) : ((t.negate).getD .INVALID).nameyNeg := by
  unfold Tok.nameyNeg
  rcases h with rfl | rfl | rfl <;> decide

theorem prologNameTok_namey {t : Tok} (c : Bool) (h : t.namey) : (prologNameTok c t).namey := by
  unfold prologNameTok
  split
  · exact .inr (.inl rfl)
  · exact h

theorem prologName_tok (e : Enc) (t : Tok) (c : Bool) (b : Buf) (p : Nat) (h : t.namey) :
    (prologName e t c b p).tok.fail ∨ (prologName e t c b p).tok.namey ∨ (prologName e t c b p).tok.nameyNeg ∨
    (prologName e t c b p).tok.nameyOp := by
  revert h
  fun_induction prologName e t c b p <;>
    grind [Tok.fail, Tok.namey, Tok.nameyOp, → nameCases_fail, negate_namey, prologNameTok_namey]

theorem prologLead_tok (e : Enc) (k : Nat) (b : Buf) :
    (prologLead e k b).tok.fail ∨ (prologLead e k b).tok.namey ∨ (prologLead e k b).tok.nameyNeg ∨
    (prologLead e k b).tok.nameyOp := by
  have h1 : Tok.namey .NAME := .inl rfl
  have h2 : Tok.namey .NMTOKEN := .inr (.inl rfl)
  unfold prologLead
  split
  · exact .inl (by simp)
  · split
    · exact prologName_tok _ _ _ _ _ h1
    · split
      · exact prologName_tok _ _ _ _ _ h2
      · exact .inl (by simp)

theorem xd_name {t : Tok} (h : t.fail ∨ t.namey ∨ t.nameyNeg ∨ t.nameyOp) : t ≠ .XML_DECL := by
  intro ht
  subst ht
  revert h
  unfold Tok.fail Tok.namey Tok.nameyNeg Tok.nameyOp
  simp

/-- An XML declaration begins with `<?`. -/
theorem prologTok_decl {e : Enc} {b : Buf} (h : (prologTok e b).tok = .XML_DECL) :
    e.bt (truncBuf e b) = .LT ∧ e.bt ((truncBuf e b).drop e.mb) = .QUEST ∧ e.mb ≤ ((truncBuf e b).drop e.mb).length := by
  unfold prologTok at h
  split at h
  · cases h
  · split at h
    · cases h
    · generalize truncBuf e b = b at h ⊢
      have hl := fun o => scanLit_tok e o (b.drop e.mb) e.mb
      have hn := fun t ht => xd_name (prologName_tok e t false (b.drop e.mb) e.mb ht)
      have hp := scanPercent_tok e (b.drop e.mb) e.mb
      have hd := scanDecl_toks e (b.drop (2 * e.mb)) (2 * e.mb)
      have hs := prologSpace_tok e (b.drop e.mb) e.mb
      have hpn := scanPoundName_tok e (b.drop e.mb) e.mb
      have h1 : Tok.namey .NAME := .inl rfl
      have h2 : Tok.namey .NMTOKEN := .inr (.inl rfl)
      unfold prologTokBody at h
      split at h
      · exact absurd h (xd_name (prologLead_tok _ _ _))
      · exact absurd h (xd_name (prologLead_tok _ _ _))
      · exact absurd h (xd_name (prologLead_tok _ _ _))
      · have := hl .QUOT; rw [h] at this; simp [Tok.fail] at this
      · have := hl .APOS; rw [h] at this; simp [Tok.fail] at this
      · rename_i hlt
        refine ⟨hlt, ?_⟩
        split at h
        · cases h
        · split at h
          · rw [h] at hd; simp [Tok.fail] at hd
          · rename_i hl hq
            exact ⟨hq, by omega⟩
          all_goals cases h
      · split at h
        · cases h
        · rw [hs] at h; cases h
      · rw [hs] at h; cases h
      · rw [hs] at h; cases h
      · rw [h] at hp; simp [Tok.fail] at hp
      · cases h
      · cases h
      · (repeat' split at h) <;> cases h
      · cases h
      · (repeat' split at h) <;> cases h
      · cases h
      · cases h
      · rw [h] at hpn; simp [Tok.fail] at hpn
      · exact absurd h (hn _ h1)
      · exact absurd h (hn _ h1)
      · exact absurd h (hn _ h2)
      · exact absurd h (hn _ h2)
      · exact absurd h (hn _ h2)
      · exact absurd h (hn _ h2)
      · split at h
        · exact absurd h (hn _ h1)
        · split at h
          · exact absurd h (hn _ h2)
          · cases h
      · cases h

end Verif
