import Verif.NoPanicVal
import Verif.PrologInv

/-! Why no document makes the parser panic or report an error code reserved for its own malfunction (C72): the roles of the
tokens. -/

set_option autoImplicit false

namespace Verif
open C43 C53 C61 C62 Spec PState

/-- The states of the grammar machine in the document entity. -/
def docHd : Hd → Bool
  | .externalSubset0 | .externalSubset1 | .condSect0 | .condSect1 | .condSect2 => false
  | _ => true

/-- Tokens and roles: literals for values, the XML declaration at the start. -/
structure RoleFits (h : Hd) (t : Tok) (r : Role) : Prop where
  xml : r = .XML_DECL → t = .XML_DECL ∧ h = .prolog0
  text : r ≠ .TEXT_DECL
  ign : r ≠ .IGNORE_SECT
  val : r = .ENTITY_VALUE ∨ r = .DEFAULT_ATTRIBUTE_VALUE ∨ r = .FIXED_ATTRIBUTE_VALUE → t = .LITERAL
  start : r = .INSTANCE_START → t = .INSTANCE_START

theorem none_fits {h : Hd} {t : Tok} {r : Role} (hr : r.none_ = true) : RoleFits h t r := by
  constructor <;> (cases r <;> simp_all [Role.none_])

theorem handle_doc {e : Enc} {p : PState} (hn : p.roleNone.none_ = true) (hde : p.documentEntity = true) (hh : docHd p.h = true) {t : Tok} {w : Buf}
    {q : PState × Role} (h : p.handle e t w = some q) :
    (q.1.roleNone.none_ = true ∧ q.1.documentEntity = true ∧ docHd q.1.h = true ∧ (q.1.h = .prolog0 → t = .BOM)) ∧ RoleFits p.h t q.2 := by
  obtain ⟨g, lv, rn, il, de, iv⟩ := p
  simp only at hde hn
  subst hde
  cases g <;>
    first
    | (simp [docHd] at hh; done)
    | (simp only [handle, prolog0, prolog1, prolog2, doctype0, doctype1, doctype2, doctype3, doctype4, doctype5, internalSubset,
      entity0, entity1, entity2, entity3, entity4, entity5, entity6, entity7, entity8, entity9, entity10, notation0, notation1,
      notation2, notation3, notation4, attlist0, attlist1, attlist2, attlist3, attlist4, attlist5, attlist6, attlist7, attlist8, attlist9, element0,
      element1, element2, element3, element4, element5, element6, element7, declClose, go, stay, close, top, closeGroup] at h
       (repeat' split at h) <;> first
      | (cases h; done)
      | (injection h with h; subst h; exact ⟨by simp_all [docHd, Role.none_], none_fits hn⟩)
      | (injection h with h; subst h; exact ⟨by simp_all [docHd, Role.none_], by constructor <;> simp⟩))

theorem next_doc {e : Enc} {p : PState} (hn : p.roleNone.none_ = true) (hde : p.documentEntity = true) (hh : docHd p.h = true) (t : Tok) (w : Buf) :
    ((p.next e t w).1.roleNone.none_ = true ∧ (p.next e t w).1.documentEntity = true ∧ docHd (p.next e t w).1.h = true ∧
      ((p.next e t w).1.h = .prolog0 → t = .BOM)) ∧ RoleFits p.h t (p.next e t w).2 := by
  rw [next]
  cases h : p.handle e t w with
  | some q => exact handle_doc hn hde hh h
  | none =>
    have hf : p.fall = p := by
      obtain ⟨g, lv, rn, il, de, iv⟩ := p
      cases g <;> first | rfl | (simp [docHd] at hh)
    simp only [Option.getD_none, hf, common, hde, Bool.not_true, Bool.false_and, if_neg Bool.false_ne_true]
    exact ⟨⟨hn, trivial, rfl, by simp⟩, by constructor <;> simp⟩

/-! ### Tokens -/

/-- The error tokens of the prolog. -/
def Tok.late (t : Tok) : Prop := t.fail ∨ t = .PROLOG_S_NEG ∨ t = .LITERAL_NEG ∨ t = .CLOSE_BRACKET_NEG ∨ t = .CLOSE_PAREN_NEG ∨ t = .POUND_NAME_NEG ∨
  t.nameyNeg

/-- What is known of a token of the prolog. -/
structure BodyTok (e : Enc) (b : Buf) (r : Res) : Prop where
  bom : r.tok ≠ .BOM
  err : r.tok.isError = true → r.tok.late
  lit : r.tok = .LITERAL_NEG → e.bt b = .QUOT ∧ r = scanLit e .QUOT (b.drop e.mb) e.mb ∨ e.bt b = .APOS ∧ r = scanLit e .APOS (b.drop e.mb) e.mb
  sp : r.tok = .PROLOG_S_NEG → r.next = e.mb

theorem body_names {e : Enc} {b : Buf} {r : Res} (h : r.tok.fail ∨ r.tok.namey ∨ r.tok.nameyNeg ∨ r.tok.nameyOp) : BodyTok e b r := by
  obtain ⟨t, n⟩ := r
  simp only [Tok.fail, Tok.namey, Tok.nameyNeg, Tok.nameyOp] at h
  constructor <;> simp only [Tok.late, Tok.fail, Tok.nameyNeg] <;> (rcases h with (h | h | h) | (h | h | h) | (h | h | h) | (h | h | h)) <;> simp [h, Tok.isError, Tok.toInt]

theorem body_other {e : Enc} {b : Buf} {r : Res} {ts : List Tok} (h : r.tok.fail ∨ r.tok ∈ ts)
    (hb : ts.all (fun t => t != .BOM && t != .LITERAL_NEG && t != .PROLOG_S_NEG && (!t.isError || t == .POUND_NAME_NEG)) = true) : BodyTok e b r := by
  obtain ⟨t, n⟩ := r
  simp only [List.all_eq_true, Bool.and_eq_true, bne_iff_ne, Bool.or_eq_true, Bool.not_eq_true', beq_iff_eq] at hb
  rcases h with h | h
  · simp only [Tok.fail] at h
    constructor <;> simp only [Tok.late, Tok.fail, Tok.nameyNeg] <;> (rcases h with h | h | h) <;> simp [h, Tok.isError, Tok.toInt]
  · obtain ⟨⟨⟨h1, h2⟩, h3⟩, h4⟩ := hb _ h
    refine ⟨h1, fun he => ?_, fun hl => absurd hl h2, fun hl => absurd hl h3⟩
    rcases h4 with h4 | h4
    · rw [h4] at he; cases he
    · exact .inr (.inr (.inr (.inr (.inr (.inl h4)))))

theorem body_lit {e : Enc} {b : Buf} {q : ByteType} (hq : q = .QUOT ∨ q = .APOS) (h : e.bt b = q) : BodyTok e b (scanLit e q (b.drop e.mb) e.mb) := by
  have ht := scanLit_tok e q (b.drop e.mb) e.mb
  constructor
  · intro h2; rw [h2] at ht; simp [Tok.fail] at ht
  · intro h2
    rcases ht with ht | ht | ht
    · exact .inl ht
    · rw [ht] at h2; cases h2
    · exact .inr (.inr (.inl ht))
  · intro _
    rcases hq with rfl | rfl
    · exact .inl ⟨h, rfl⟩
    · exact .inr ⟨h, rfl⟩
  · intro h2; rw [h2] at ht; simp [Tok.fail] at ht

theorem body_tok (e : Enc) (b : Buf) : BodyTok e b (prologTokBody e b) := by
  have hn := fun t ht => body_names (e := e) (b := b) (prologName_tok e t false (b.drop e.mb) e.mb ht)
  have h1 : Tok.namey .NAME := .inl rfl
  have h2 : Tok.namey .NMTOKEN := .inr (.inl rfl)
  have one (t : Tok) (n : Nat) (hb : t ≠ .BOM ∧ t ≠ .LITERAL_NEG ∧ t ≠ .PROLOG_S_NEG ∧ (t.isError = true → t.late)) : BodyTok e b ⟨t, n⟩ :=
    ⟨hb.1, hb.2.2.2, fun h => absurd h hb.2.1, fun h => absurd h hb.2.2.1⟩
  have ok (t : Tok) (n : Nat) (hb : t ≠ .BOM ∧ t ≠ .LITERAL_NEG ∧ t ≠ .PROLOG_S_NEG ∧ t.isError = false) : BodyTok e b ⟨t, n⟩ :=
    one t n ⟨hb.1, hb.2.1, hb.2.2.1, fun h => by rw [hb.2.2.2] at h; cases h⟩
  have bad (n : Nat) : BodyTok e b ⟨.INVALID, n⟩ := one _ _ ⟨by simp, by simp, by simp, fun _ => .inl (by simp)⟩
  have par (n : Nat) : BodyTok e b ⟨.PARTIAL, n⟩ := one _ _ ⟨by simp, by simp, by simp, fun _ => .inl (by simp)⟩
  have sp := ok (prologSpace e (b.drop e.mb) e.mb).tok (prologSpace e (b.drop e.mb) e.mb).next (by rw [prologSpace_tok]; simp [Tok.isError, Tok.toInt])
  unfold prologTokBody
  split
  · exact body_names (prologLead_tok _ _ _)
  · exact body_names (prologLead_tok _ _ _)
  · exact body_names (prologLead_tok _ _ _)
  · exact body_lit (.inl rfl) ‹_›
  · exact body_lit (.inr rfl) ‹_›
  · split
    · exact par _
    · split
      · exact body_other (ts := [.DECL_OPEN, .COMMENT, .COND_SECT_OPEN]) (by have := scanDecl_toks e (b.drop (2 * e.mb)) (2 * e.mb); grind) (by decide)
      · exact body_other (ts := [.PI, .XML_DECL]) (by have := scanPi_tok e (b.drop (2 * e.mb)) (2 * e.mb); grind) (by decide)
      all_goals first | exact bad _ | exact ok _ _ (by simp [Tok.isError, Tok.toInt])
  · split
    · exact ⟨by simp, fun _ => .inr (.inl rfl), by simp, fun _ => rfl⟩
    · exact sp
  · exact sp
  · exact sp
  · exact body_other (ts := [.PERCENT, .PARAM_ENTITY_REF]) (by have := scanPercent_tok e (b.drop e.mb) e.mb; grind) (by decide)
  · exact ok _ _ (by simp [Tok.isError, Tok.toInt])
  · exact ok _ _ (by simp [Tok.isError, Tok.toInt])
  · (repeat' split) <;> first
      | exact one _ _ ⟨by simp, by simp, by simp, fun _ => .inr (.inr (.inr (.inl rfl)))⟩
      | exact par _
      | exact ok _ _ (by simp [Tok.isError, Tok.toInt])
  · exact ok _ _ (by simp [Tok.isError, Tok.toInt])
  · (repeat' split) <;> first
      | exact one _ _ ⟨by simp, by simp, by simp, fun _ => .inr (.inr (.inr (.inr (.inl rfl))))⟩
      | exact bad _
      | exact ok _ _ (by simp [Tok.isError, Tok.toInt])
  · exact ok _ _ (by simp [Tok.isError, Tok.toInt])
  · exact ok _ _ (by simp [Tok.isError, Tok.toInt])
  · exact body_other (ts := [.POUND_NAME, .POUND_NAME_NEG]) (by have := scanPoundName_tok e (b.drop e.mb) e.mb; grind) (by decide)
  · exact hn _ h1
  · exact hn _ h1
  · exact hn _ h2
  · exact hn _ h2
  · exact hn _ h2
  · exact hn _ h2
  · split
    · exact hn _ h1
    · split
      · exact hn _ h2
      · exact bad _
  · exact bad _

section
variable {e : Enc} {asc : UInt8 → Buf} (s : Supported e asc)
include s

/-- A literal at the end of the text. -/
theorem scanLit_end (t : ByteType) (c : UInt8) (ht : t.single = some c) (b : Buf) (p : Nat) (h : (scanLit e t b p).tok = .LITERAL_NEG) :
    ∃ ws r, e.Chars ws ∧ b = ws.flatten ++ (asc c ++ r) ∧ r.length < e.mb := by
  fun_induction scanLit e t b p with
  | case2 b p h1 r h2 =>
    have := invalidCases_fail h2
    rw [h] at this; simp [Tok.fail] at this
  | case3 b p h1 k h2 ih =>
    obtain ⟨ws, r, i1, i3, i4⟩ := ih h
    obtain ⟨w, w1, w2, w3, w4⟩ := adv_split s h2
    refine ⟨w :: ws, r, .cons w1 i1, ?_, i4⟩
    rw [List.flatten_cons, List.append_assoc, ← i3]; exact w4
  | case4 b p h1 h2 h3 h4 h5 =>
    have e1 := bt_split s ht (by omega) h4
    exact ⟨[], b.drop e.mb, .nil, by simpa using e1, h5⟩
  | case12 b p h1 h2 h3 h4 ih | case13 b p h1 h2 h3 ih =>
    obtain ⟨ws, r, i1, i3, i4⟩ := ih h
    obtain ⟨w, w1, w2, w3, w4, w5⟩ := other_split s h1 h2
    refine ⟨w :: ws, r, .cons w1 i1, ?_, i4⟩
    rw [List.flatten_cons, List.append_assoc, ← i3]; exact w4
  | _ => cases h

theorem pieces_wh {ws : List Buf} (hw : ∀ w ∈ ws, e.Piece w) {r : Buf} (h : Wh e r) : Wh e (ws.flatten ++ r) := by
  induction ws with
  | nil => exact h
  | cons w ws ih =>
    have hp := hw w (by simp)
    have hc : e.charLen (w ++ (ws.flatten ++ r)) = w.length := by rw [charLen_app s.ok _ _ hp.1, hp.2]
    rw [List.flatten_cons, List.append_assoc]
    refine .cons _ ?_ ?_ (s.even _) ?_
    · rw [List.length_append]; have := hp.1; omega
    · rw [hc, List.length_append]; omega
    · rw [hc, List.drop_left' rfl]; exact ih fun v hv => hw v (by simp [hv])

theorem chars_dvd {ws : List Buf} (hw : ∀ w ∈ ws, e.Piece w) : e.mb ∣ ws.flatten.length := by
  induction ws with
  | nil => simp
  | cons w ws ih =>
    rw [List.flatten_cons, List.length_append]
    exact Nat.dvd_add (by rw [(hw w (by simp)).2]; exact s.even w) (ih fun v hv => hw v (by simp [hv]))

/-- The inside of a literal: characters, then part of a code unit only if the document ends so. -/
def LitVal (e : Enc) (v : Buf) : Prop := Wh e v ∧ (e.mb ∣ v.length → ∃ us, e.Chars us ∧ v = us.flatten)

omit s in
theorem refName_lit (hl : ∀ c, (asc c).length = e.mb) (q : UInt8) (v r : Buf) :
    refName e (asc q ++ (v ++ (asc q ++ r))) = v ++ (asc q ++ r).take r.length := by
  rw [refName, List.drop_left' (hl q), List.take_append, List.take_of_length_le]
  · congr 1
    simp only [List.length_append, hl]
    congr 1
    omega
  · simp only [List.length_append, hl]; omega

theorem chars_val {us : List Buf} (hu : e.Chars us) (r : Buf) (hr : r.length < e.mb) (q : UInt8) : LitVal e (us.flatten ++ (asc q ++ r).take r.length) := by
  have hp : ∀ w ∈ us, e.Piece w := fun w hw => char_piece s (hu w hw)
  have hl : ((asc q ++ r).take r.length).length = r.length := by simp [s.asc.len]
  refine ⟨pieces_wh s hp (.tail _ (by omega)), fun hd => ⟨us, hu, ?_⟩⟩
  rw [List.length_append, hl] at hd
  have h2 := (Nat.dvd_add_right (chars_dvd s hp)).1 hd
  have h0 : r.length = 0 := by
    rcases Nat.eq_zero_or_pos r.length with h | h
    · exact h
    · have := Nat.le_of_dvd h h2; omega
  simp [h0]

/-- Tokens of the truncated text. -/
theorem tok_body {b : Buf} (h1 : (prologTok e b).tok ≠ .NONE) (h2 : (prologTok e b).tok ≠ .PARTIAL) :
    prologTok e b = prologTokBody e (truncBuf e b) ∧ ∃ r, b = truncBuf e b ++ r ∧ r.length < e.mb ∧ e.mb ∣ (truncBuf e b).length := by
  rw [prologTok] at h1 h2 ⊢
  split at h1
  · exact absurd rfl h1
  · rename_i h3
    rw [if_neg h3] at h2 ⊢
    split at h1
    · rename_i h4
      rw [if_pos h4] at h2
      exact absurd rfl h2
    · rename_i h4
      rw [if_neg h4]
      refine ⟨rfl, b.drop (b.length - b.length % e.mb), by rw [truncBuf, List.take_append_drop], ?_, ?_⟩
      · rw [List.length_drop]
        have h0 : 0 < e.mb := Nat.succ_pos _
        have := Nat.mod_lt b.length h0
        have := Nat.mod_le b.length e.mb
        omega
      · rw [truncBuf, List.length_take, Nat.min_eq_left (by omega)]
        exact Nat.dvd_sub_mod _

theorem tok_trunc {b : Buf} (h1 : (prologTok e b).tok ≠ .NONE) (h2 : (prologTok e b).tok ≠ .PARTIAL) : prologTok e (truncBuf e b) = prologTok e b := by
  obtain ⟨g1, r, g2, g3, g4⟩ := tok_body s h1 h2
  rw [g1]
  have ht : truncBuf e (truncBuf e b) = truncBuf e b := by
    have := truncBuf_dvd e (truncBuf e b) [] g4
    rw [List.append_nil] at this
    rw [this]
    simp [truncBuf]
  have hne : (truncBuf e b).isEmpty = false := by
    rw [prologTok] at h1 h2
    split at h1
    · exact absurd rfl h1
    · split at h1
      · rename_i h3 h4
        rw [if_neg h3, if_pos h4] at h2
        exact absurd rfl h2
      · rename_i h4; simpa using h4
  rw [prologTok, ht, if_neg (by simp [hne]), if_neg (by simp [hne])]

theorem lit_val {more isPE : Bool} {b : Buf} {n : Nat} (h : seeRes false false more isPE (prologTok e b) b = .tok .LITERAL n) :
    LitVal e (refName e (b.take n)) := by
  have hlen (c) := s.asc.len c
  by_cases h0 : (prologTok e b).tok.isError = true
  · have ht : (prologTok e b).tok = .LITERAL_NEG ∧ n = b.length := by
      revert h h0
      generalize prologTok e b = r
      obtain ⟨t, m⟩ := r
      intro h h0
      simp only [seeRes, h0] at h
      cases t <;> simp [Tok.negate] at h <;> grind
    obtain ⟨ht, rfl⟩ := ht
    obtain ⟨h1, r, h2, h3, h4⟩ := tok_body s (b := b) (by simp [ht]) (by simp [ht])
    rw [h1] at ht
    have key (q : ByteType) (c : UInt8) (hq : q.single = some c) (hb : e.bt (truncBuf e b) = q)
        (hs : (scanLit e q ((truncBuf e b).drop e.mb) e.mb).tok = .LITERAL_NEG) : LitVal e (refName e (b.take b.length)) := by
      obtain ⟨ws, r', g1, g2, g3⟩ := scanLit_end s q c hq _ _ hs
      have hle : e.mb ≤ (truncBuf e b).length := by
        have := congrArg List.length g2
        simp only [List.length_drop, List.length_append, hlen] at this
        have : 0 < e.mb := Nat.succ_pos _
        omega
      have hsp := bt_split s hq hle hb
      rw [g2] at hsp
      have hr' : r' = [] := by
        rw [hsp] at h4
        simp only [List.length_append, hlen] at h4
        have hd := chars_dvd s fun w hw => char_piece s (g1 w hw)
        have h5 := (Nat.dvd_add_right (Nat.dvd_refl e.mb)).1 h4
        have h6 := (Nat.dvd_add_right hd).1 h5
        have h7 := (Nat.dvd_add_right (Nat.dvd_refl e.mb)).1 h6
        rcases Nat.eq_zero_or_pos r'.length with h | h
        · exact List.length_eq_zero_iff.1 h
        · have := Nat.le_of_dvd h h7; omega
      subst hr'
      rw [List.take_length, h2, hsp]
      simp only [List.append_nil, List.append_assoc]
      rw [refName_lit hlen]
      exact chars_val s g1 r h3 c
    rcases (body_tok e (truncBuf e b)).lit ht with ⟨k1, k2⟩ | ⟨k1, k2⟩
    · exact key _ _ rfl k1 (k2 ▸ ht)
    · exact key _ _ rfl k1 (k2 ▸ ht)
  · rw [seeRes, if_pos (by simpa using h0)] at h
    injection h with ht hn
    have k1 := tok_trunc s (b := b) (by simp [ht]) (by simp [ht])
    obtain ⟨-, r0, k2, -, k3⟩ := tok_body s (b := b) (by simp [ht]) (by simp [ht])
    obtain ⟨w, r, g1, g2, g3⟩ := lex_sound s (t := .LITERAL) (n := n) k3 rfl (by rw [k1, ← ht, ← hn])
    rw [k2, g2, g3, List.append_assoc, List.take_left' rfl]
    obtain ⟨q, ws, rfl, g4, -⟩ := lex_lit g1
    have := chars_val s g4.chars [] (Nat.succ_pos _) q
    have hr := refName_lit hlen q ws.flatten []
    rw [List.append_nil] at hr
    rw [litText, hr]
    exact this
end

end Verif
