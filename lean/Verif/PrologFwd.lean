import Verif.DocThm
import Verif.PrologToks

/-! The tokenizer of the prolog on the lexical elements of declarations: each is recognised as a whole if
what follows it may follow it. -/

set_option autoImplicit false

namespace Verif
open C43 C53 Spec

/-- The text starts with an ASCII character of the set. -/
def NextIn (asc : UInt8 → Buf) (A : UInt8 → Bool) (r : Buf) : Prop := ∃ c r', A c = true ∧ r = asc c ++ r'

/-- What may follow a name or a name token: `S > ) , | [ %`. -/
def afterName (c : UInt8) : Bool :=
  isWS c || c == 0x3E || c == 0x29 || c == 0x2C || c == 0x7C || c == 0x5B || c == 0x25
/-- What may follow a literal: `S > % [`. -/
def afterLit (c : UInt8) : Bool := isWS c || c == 0x3E || c == 0x25 || c == 0x5B
/-- What may follow `#NAME`: `S ) > % |`. -/
def afterPound (c : UInt8) : Bool := isWS c || c == 0x29 || c == 0x3E || c == 0x25 || c == 0x7C
/-- What may follow `)`: `S > , | )`. -/
def afterParen (c : UInt8) : Bool := isWS c || c == 0x3E || c == 0x2C || c == 0x7C || c == 0x29

theorem afterNameClass : AsciiClass (fun t => t == .S || t == .CR || t == .LF || t == .GT || t == .RPAR ||
    t == .COMMA || t == .VERBAR || t == .LSQB || t == .PERCNT) afterName := by
  refine ⟨rfl, rfl, rfl, rfl, UInt8.forall_dec (by decide +kernel), by decide +kernel⟩
theorem afterLitClass : AsciiClass (fun t => t == .S || t == .CR || t == .LF || t == .GT || t == .PERCNT ||
    t == .LSQB) afterLit := by
  refine ⟨rfl, rfl, rfl, rfl, UInt8.forall_dec (by decide +kernel), by decide +kernel⟩
theorem afterPoundClass : AsciiClass (fun t => t == .S || t == .CR || t == .LF || t == .RPAR || t == .GT ||
    t == .PERCNT || t == .VERBAR) afterPound := by
  refine ⟨rfl, rfl, rfl, rfl, UInt8.forall_dec (by decide +kernel), by decide +kernel⟩
theorem afterParenClass : AsciiClass (fun t => t == .S || t == .CR || t == .LF || t == .GT || t == .COMMA ||
    t == .VERBAR || t == .RPAR) afterParen := by
  refine ⟨rfl, rfl, rfl, rfl, UInt8.forall_dec (by decide +kernel), by decide +kernel⟩

/-- `A`..`Z` -/
def isUpper (c : UInt8) : Bool := decide (0x41 ≤ c ∧ c ≤ 0x5A)
/-- letters and, without namespaces or with, underscore -/
def isLetter (c : UInt8) : Bool := isUpper c || decide (0x61 ≤ c ∧ c ≤ 0x7A)

section
variable {e : Enc} {asc : UInt8 → Buf} (s : Supported e asc)
include s

theorem upper_bt {c : UInt8} (hc : isUpper c = true) (r : Buf) :
    e.bt (asc c ++ r) = .NMSTRT ∨ e.bt (asc c ++ r) = .HEX := by
  rw [s.ok.bt_app _ _ (by rw [s.asc.len]; exact Nat.le_refl _)]
  have key : ((List.range 256).all fun n => decide (isUpper (UInt8.ofNat n) = true →
      (e.bt (asc (UInt8.ofNat n)) = .NMSTRT ∨ e.bt (asc (UInt8.ofNat n)) = .HEX))) = true := by
    cases s <;> rename_i ns <;> cases ns <;> decide +kernel
  exact UInt8.forall_dec (P := fun c => isUpper c = true → (e.bt (asc c) = .NMSTRT ∨ e.bt (asc c) = .HEX)) key c hc

theorem upper_nmstrt {c : UInt8} (hc : isUpper c = true) : e.NmstrtChar (asc c) := by
  have h := upper_bt s hc []
  rw [List.append_nil] at h
  simp only [Enc.NmstrtChar]
  rcases h with h | h <;> rw [h] <;> exact s.asc.len c

theorem upper_name {c : UInt8} (hc : isUpper c = true) : e.NameChar (asc c) := by
  have h := upper_bt s hc []
  rw [List.append_nil] at h
  simp only [Enc.NameChar]
  rcases h with h | h <;> rw [h] <;> exact s.asc.len c

/-- Keywords are names. -/
theorem upper_isName {cs : List UInt8} (h0 : cs ≠ []) (h : cs.all isUpper = true) : e.Name (cs.map asc) := by
  obtain ⟨c, cs, rfl⟩ := List.exists_cons_of_ne_nil h0
  rw [List.all_cons, Bool.and_eq_true] at h
  refine ⟨asc c, cs.map asc, rfl, upper_nmstrt s h.1, ?_⟩
  intro v hv
  obtain ⟨d, hd, rfl⟩ := List.mem_map.1 hv
  exact upper_name s (List.all_eq_true.1 h.2 d hd)

/-! ### Names -/

theorem pn_chars (tok : Tok) {vs : List Buf} (h : ∀ v ∈ vs, e.NameChar v) (r : Buf) (p : Nat) :
    prologName e tok false (vs.flatten ++ r) p = prologName e tok false r (p + vs.flatten.length) := by
  induction vs generalizing p with
  | nil => simp
  | cons v vs ih =>
    obtain ⟨k, h1, h2⟩ := nameCases_char s.ok s.mb (h v (by simp)) (vs.flatten ++ r) p
    have := (h v (by simp)).len s.mb
    rw [List.flatten_cons, List.append_assoc, prologName, if_neg (by rw [List.length_append]; omega), h1]
    simp only [Bool.false_eq_true, if_false]
    rw [← h2, drop_char rfl, ih (fun w hw => h w (by simp [hw])), List.length_append]
    congr 1; omega

theorem pn_end (tok : Tok) {r : Buf} (h : NextIn asc afterName r) (p : Nat) :
    prologName e tok false r p = ⟨tok, p⟩ := by
  obtain ⟨c, r, hc, rfl⟩ := h
  have hk := s.class_app afterNameClass hc r
  have hn : (e.bt (asc c ++ r)).nonName = true := by
    revert hk
    generalize e.bt (asc c ++ r) = t
    cases t <;> simp [ByteType.nonName]
  rw [prologName, if_neg (asc_len_ok s c r), nameCases_other p hn]
  revert hk
  generalize e.bt (asc c ++ r) = t
  cases t <;> simp [prologNameTok]

theorem body_first {w : Buf} (hw : e.NmstrtChar w) (r : Buf) :
    prologTokBody e (w ++ r) = prologName e .NAME false r w.length := by
  have hl := hw.len s.mb
  have hn := s.ok.nmstrt_app
  have hn2 := s.ok.bt_app w r hl
  simp only [prologTokBody, prologLead, hn2]
  simp only [Enc.NmstrtChar] at hw
  have hmin := s.ok.nmstrtMin_app
  generalize e.bt w = t at *
  cases t <;> simp only at hw ⊢ <;> try exact hw.elim
  all_goals first
    | (rw [drop_char hw, hw])
    | skip
  all_goals grind [drop_char]

/-- A name. -/
theorem pt_name {name : List Buf} (h : e.Name name) {r : Buf} (hr : NextIn asc afterName r) :
    prologTokBody e (name.flatten ++ r) = ⟨.NAME, name.flatten.length⟩ := by
  obtain ⟨w, vs, rfl, h1, h2⟩ := h
  rw [List.flatten_cons, List.append_assoc, body_first s h1, pn_chars s _ h2, pn_end s _ hr, List.length_append]

theorem colon_step (h : e.bt (asc 0x3A) = .COLON) (tok : Tok) (col : Bool) (r : Buf) (p : Nat) :
    prologName e tok col (asc 0x3A ++ r) p =
      if prologNameTok col tok = .NAME then prologName e .NAME true r (p + e.mb)
      else if prologNameTok col tok = .PREFIXED_NAME then prologName e .NMTOKEN false r (p + e.mb)
      else prologName e (prologNameTok col tok) false r (p + e.mb) := by
  have hb : e.bt (asc 0x3A ++ r) = .COLON := by
    rw [s.ok.bt_app _ _ (by rw [s.asc.len]; exact Nat.le_refl _), h]
  rw [prologName, if_neg (asc_len_ok s _ r), nameCases_other p (by rw [hb]; rfl)]
  simp only [hb, drop_char (s.asc.len _)]

theorem colon_char {w : Buf} (hw : e.NameChar w) (tok : Tok) (r : Buf) (p : Nat) :
    prologName e tok true (w ++ r) p = prologName e .PREFIXED_NAME false r (p + w.length) := by
  obtain ⟨k, h1, h2⟩ := nameCases_char s.ok s.mb hw r p
  have := hw.len s.mb
  rw [prologName, if_neg (by rw [List.length_append]; omega), h1]
  simp only [if_true]
  rw [← h2, drop_char rfl]

/-- The name of an element type, an attribute or a document type in a declaration: a name, or with namespaces two parts with
a colon between them.  The first character of the second part is not checked (xmltok_impl.rs:1240-1248), so `a:1` is one
although it is no qualified name (Namespaces in XML, production 7). -/
inductive DName (e : Enc) (asc : UInt8 → Buf) : List Buf → Prop
  | plain (ws : List Buf) (h : e.Name ws) : DName e asc ws
  | pair (us vs : List Buf) (h1 : e.Name us) (h2 : vs ≠ []) (h3 : ∀ v ∈ vs, e.NameChar v) (h4 : e.bt (asc 0x3A) = .COLON) :
      DName e asc (us ++ asc 0x3A :: vs)

/-- Qualified names are. -/
theorem QName.dname {name : List Buf} (h : QName e asc name) : DName e asc name := by
  cases h with
  | plain _ h => exact .plain _ h
  | pair us vs h1 h2 h3 =>
    obtain ⟨v, vs, rfl, h5, h6⟩ := h2
    refine .pair us (v :: vs) h1 (by simp) (fun w hw => ?_) h3
    rcases List.mem_cons.1 hw with rfl | hw
    · exact nmstrt_nameChar s h5
    · exact h6 w hw

/-- A name with a prefix. -/
theorem pt_pair {us vs : List Buf} (h1 : e.Name us) (h2 : vs ≠ []) (h3 : ∀ v ∈ vs, e.NameChar v) (hc : e.bt (asc 0x3A) = .COLON) {r : Buf}
    (hr : NextIn asc afterName r) :
    prologTokBody e ((us ++ asc 0x3A :: vs).flatten ++ r) = ⟨.PREFIXED_NAME, (us ++ asc 0x3A :: vs).flatten.length⟩ := by
  obtain ⟨u, us, rfl, h4, h5⟩ := h1
  obtain ⟨v, vs, rfl⟩ := List.exists_cons_of_ne_nil h2
  simp only [List.cons_append, List.flatten_cons, List.flatten_append, List.append_assoc, List.length_append]
  rw [body_first s h4, pn_chars s _ h5, colon_step s hc, if_pos (by rfl), colon_char s (h3 v (by simp)),
    pn_chars s _ (fun w hw => h3 w (by simp [hw])), pn_end s _ hr, s.asc.len]
  congr 1; omega

/-- The token is NAME or PREFIXED_NAME. -/
theorem pt_qname {name : List Buf} (h : DName e asc name) {r : Buf} (hr : NextIn asc afterName r) :
    ∃ t, (t = .NAME ∨ t = .PREFIXED_NAME) ∧ prologTokBody e (name.flatten ++ r) = ⟨t, name.flatten.length⟩ := by
  cases h with
  | plain ws h => exact ⟨_, .inl rfl, pt_name s h hr⟩
  | pair us vs h1 h2 h3 h4 => exact ⟨_, .inr rfl, pt_pair s h1 h2 h3 h4 hr⟩

/-- Characters of a name token: name characters, and colons where they are no name characters. -/
def Enc.NmtokenChar (e : Enc) (asc : UInt8 → Buf) (w : Buf) : Prop := e.NameChar w ∨ w = asc 0x3A ∧ e.bt w = .COLON

/-- Production 7. -/
def Enc.Nmtoken (e : Enc) (asc : UInt8 → Buf) (ws : List Buf) : Prop := ws ≠ [] ∧ ∀ w ∈ ws, e.NmtokenChar asc w

theorem pn_end_colon (tok : Tok) {r : Buf} (h : NextIn asc afterName r) (p : Nat) :
    prologName e tok true r p = ⟨.NMTOKEN, p⟩ := by
  obtain ⟨c, r, hc, rfl⟩ := h
  have hk := s.class_app afterNameClass hc r
  have hn : (e.bt (asc c ++ r)).nonName = true := by
    revert hk
    generalize e.bt (asc c ++ r) = t
    cases t <;> simp [ByteType.nonName]
  rw [prologName, if_neg (asc_len_ok s c r), nameCases_other p hn]
  revert hk
  generalize e.bt (asc c ++ r) = t
  cases t <;> simp [prologNameTok]

theorem pn_nmtoken {ws : List Buf} (h : ∀ w ∈ ws, e.NmtokenChar asc w) {r : Buf} (hr : NextIn asc afterName r) :
    ∀ (tok : Tok) (col : Bool) (p : Nat), tok.namey →
      ∃ t : Tok, t.namey ∧ prologName e tok col (ws.flatten ++ r) p = ⟨t, p + ws.flatten.length⟩ := by
  induction ws with
  | nil =>
    intro tok col p ht
    cases col
    · exact ⟨tok, ht, by simpa using pn_end s tok hr p⟩
    · exact ⟨.NMTOKEN, .inr (.inl rfl), by simpa using pn_end_colon s tok hr p⟩
  | cons w ws ih =>
    intro tok col p ht
    have ih := ih fun v hv => h v (by simp [hv])
    rw [List.flatten_cons, List.append_assoc, List.length_append]
    rcases h w (by simp) with hw | ⟨rfl, hw⟩
    · cases col
      · have := pn_chars s tok (vs := [w]) (by simpa using hw) (ws.flatten ++ r) p
        rw [List.flatten_cons, List.flatten_nil, List.append_nil] at this
        rw [this]
        obtain ⟨t, h1, h2⟩ := ih tok false (p + w.length) ht
        exact ⟨t, h1, by rw [h2]; congr 1; omega⟩
      · rw [colon_char s hw]
        obtain ⟨t, h1, h2⟩ := ih .PREFIXED_NAME false (p + w.length) (.inr (.inr rfl))
        exact ⟨t, h1, by rw [h2]; congr 1; omega⟩
    · rw [colon_step s hw, s.asc.len]
      split
      · obtain ⟨t, h1, h2⟩ := ih .NAME true (p + e.mb) (.inl rfl)
        exact ⟨t, h1, by rw [h2]; congr 1; omega⟩
      · split
        · obtain ⟨t, h1, h2⟩ := ih .NMTOKEN false (p + e.mb) (.inr (.inl rfl))
          exact ⟨t, h1, by rw [h2]; congr 1; omega⟩
        · obtain ⟨t, h1, h2⟩ := ih (prologNameTok col tok) false (p + e.mb) (prologNameTok_namey col ht)
          exact ⟨t, h1, by rw [h2]; congr 1; omega⟩

theorem body_nmtoken {w : Buf} (hw : e.NmtokenChar asc w) (r : Buf) :
    ∃ t : Tok, t.namey ∧ prologTokBody e (w ++ r) = prologName e t false r w.length := by
  have hl : e.mb ≤ w.length := by
    rcases hw with h | ⟨rfl, -⟩
    · exact h.len s.mb
    · rw [s.asc.len]; exact Nat.le_refl _
  by_cases hs : e.NmstrtChar w
  · exact ⟨.NAME, .inl rfl, body_first s hs r⟩
  · refine ⟨.NMTOKEN, .inr (.inl rfl), ?_⟩
    have hn := s.ok.name_app
    have hn2 := s.ok.nmstrt_app
    have hmin := s.ok.nameMin_app
    have hmin2 := s.ok.nmstrtMin_app
    have hlen : (w = asc 0x3A ∧ e.bt w = .COLON) → w.length = e.mb := fun h => by rw [h.1, s.asc.len]
    simp only [Enc.NmtokenChar, Enc.NameChar] at hw
    simp only [Enc.NmstrtChar] at hs
    simp only [prologTokBody, prologLead, s.ok.bt_app w r hl]
    generalize e.bt w = t at *
    cases t <;> simp at hw hs hlen ⊢ <;> grind [drop_char]

/-- A name token. -/
theorem pt_nmtoken {ws : List Buf} (h : e.Nmtoken asc ws) {r : Buf} (hr : NextIn asc afterName r) :
    ∃ t : Tok, t.namey ∧ prologTokBody e (ws.flatten ++ r) = ⟨t, ws.flatten.length⟩ := by
  obtain ⟨h0, h⟩ := h
  obtain ⟨w, ws, rfl⟩ := List.exists_cons_of_ne_nil h0
  obtain ⟨t, h1, h2⟩ := body_nmtoken s (h w (by simp)) (ws.flatten ++ r)
  obtain ⟨u, h3, h4⟩ := pn_nmtoken s (ws := ws) (fun v hv => h v (by simp [hv])) hr t false w.length h1
  exact ⟨u, h3, by rw [List.flatten_cons, List.append_assoc, h2, h4, List.length_append]⟩

/-- `?`, `*`, `+` after the name of an element in a content model. -/
theorem pn_op {tok : Tok} (ht : tok ≠ .NMTOKEN) (r : Buf) (p : Nat) :
    prologName e tok false (asc 0x3F ++ r) p = ⟨.NAME_QUESTION, p + e.mb⟩ ∧
    prologName e tok false (asc 0x2A ++ r) p = ⟨.NAME_ASTERISK, p + e.mb⟩ ∧
    prologName e tok false (asc 0x2B ++ r) p = ⟨.NAME_PLUS, p + e.mb⟩ := by
  refine ⟨?_, ?_, ?_⟩
  · have hb := asc_bt s (t := .QUEST) rfl r
    rw [prologName, if_neg (asc_len_ok s _ r), nameCases_other p (by rw [hb]; rfl)]
    simp [hb, prologNameTok, ht]
  · have hb := asc_bt s (t := .AST) rfl r
    rw [prologName, if_neg (asc_len_ok s _ r), nameCases_other p (by rw [hb]; rfl)]
    simp [hb, prologNameTok, ht]
  · have hb := asc_bt s (t := .PLUS) rfl r
    rw [prologName, if_neg (asc_len_ok s _ r), nameCases_other p (by rw [hb]; rfl)]
    simp [hb, prologNameTok, ht]

theorem pt_qname_op {name : List Buf} (h : DName e asc name) (r : Buf) :
    prologTokBody e (name.flatten ++ (asc 0x3F ++ r)) = ⟨.NAME_QUESTION, name.flatten.length + e.mb⟩ ∧
    prologTokBody e (name.flatten ++ (asc 0x2A ++ r)) = ⟨.NAME_ASTERISK, name.flatten.length + e.mb⟩ ∧
    prologTokBody e (name.flatten ++ (asc 0x2B ++ r)) = ⟨.NAME_PLUS, name.flatten.length + e.mb⟩ := by
  have key : ∃ t, t ≠ Tok.NMTOKEN ∧ ∀ r, prologTokBody e (name.flatten ++ r) = prologName e t false r name.flatten.length := by
    cases h with
    | plain ws h =>
      obtain ⟨w, vs, rfl, h1, h2⟩ := h
      refine ⟨.NAME, by decide, fun r => ?_⟩
      rw [List.flatten_cons, List.append_assoc, body_first s h1, pn_chars s _ h2, List.length_append]
    | pair us vs h1 h2 h3 hc =>
      obtain ⟨u, us, rfl, h4, h5⟩ := h1
      obtain ⟨v, vs, rfl⟩ := List.exists_cons_of_ne_nil h2
      refine ⟨.PREFIXED_NAME, by decide, fun r => ?_⟩
      simp only [List.cons_append, List.flatten_cons, List.flatten_append, List.append_assoc, List.length_append]
      rw [body_first s h4, pn_chars s _ h5, colon_step s hc, if_pos (by rfl), colon_char s (h3 v (by simp)),
        pn_chars s _ (fun w hw => h3 w (by simp [hw])), s.asc.len]
      congr 1; omega
  obtain ⟨t, h1, h2⟩ := key
  obtain ⟨a, b, c⟩ := pn_op s h1 r name.flatten.length
  exact ⟨by rw [h2, a], by rw [h2, b], by rw [h2, c]⟩

/-! ### Literals -/

/-- A quoted literal (productions 9 - 12): characters other than the quote. -/
structure Quoted (e : Enc) (asc : UInt8 → Buf) (q : UInt8) (ws : List Buf) : Prop where
  quote : q = 0x22 ∨ q = 0x27
  chars : e.Chars ws
  inner : ∀ w ∈ ws, w ≠ asc q

/-- The literal with its quotes. -/
def litText (asc : UInt8 → Buf) (q : UInt8) (ws : List Buf) : Buf := asc q ++ (ws.flatten ++ asc q)

/-- The class of a quote. -/
def quoteType (q : UInt8) : ByteType := if q = 0x22 then .QUOT else .APOS

omit s in
theorem quote_single {q : UInt8} (h : q = 0x22 ∨ q = 0x27) : (quoteType q).single = some q := by
  rcases h with rfl | rfl <;> rfl

theorem lit_end {q : UInt8} (hq : q = 0x22 ∨ q = 0x27) {r : Buf} (hr : NextIn asc afterLit r) (p : Nat) :
    scanLit e (quoteType q) (asc q ++ r) p = ⟨.LITERAL, p + e.mb⟩ := by
  have hb := asc_bt s (quote_single hq) r
  have hi : invalidCases e (asc q ++ r) p = .other := by
    simp only [invalidCases, hb]
    rcases hq with rfl | rfl <;> rfl
  obtain ⟨c, r, hc, rfl⟩ := hr
  have hk := s.class_app afterLitClass hc r
  rw [scanLit, if_neg (asc_len_ok s _ _), hi]
  simp only [hb, drop_char (s.asc.len q)]
  rw [if_pos (by rcases hq with rfl | rfl <;> decide), if_pos trivial, if_neg (asc_len_ok s _ _)]
  revert hk
  generalize e.bt (asc c ++ r) = t
  cases t <;> simp

theorem lit_chars {q : UInt8} (hq : q = 0x22 ∨ q = 0x27) {ws : List Buf} (h : e.Chars ws) (hi : ∀ w ∈ ws, w ≠ asc q)
    (r : Buf) (p : Nat) :
    scanLit e (quoteType q) (ws.flatten ++ r) p = scanLit e (quoteType q) r (p + ws.flatten.length) := by
  induction ws generalizing p with
  | nil => simp
  | cons w ws ih =>
    have hw : e.IsChar w := h w (by simp)
    have hl := Enc.isChar_len s.mb hw
    have ih := fun p => ih (fun v hv => h v (by simp [hv])) (fun v hv => hi v (by simp [hv])) p
    rw [List.flatten_cons, List.append_assoc, scanLit, if_neg (by rw [List.length_append]; omega), List.length_append]
    by_cases hlead : e.isLead w = true
    · obtain ⟨h1, h2⟩ := invalidCases_lead s.ok s.mb hw hlead (ws.flatten ++ r) p
      rw [h1]
      simp only
      rw [show w.length - 1 + 1 = w.length from by omega, drop_char rfl, ih]
      congr 1; omega
    · have hlead : e.isLead w = false := by simpa using hlead
      rw [invalidCases_nl s.ok s.mb hw hlead]
      have hl2 := Enc.isChar_len_nl hw hlead
      have hne : e.bt (w ++ (ws.flatten ++ r)) ≠ quoteType q := fun h' =>
        hi w (by simp) ((char_bt s hw (quote_single hq) (ws.flatten ++ r)).1 h')
      simp only [if_neg hne, drop_char hl2, ite_self, ih]
      congr 1; omega

/-- A literal. -/
theorem pt_lit {q : UInt8} {ws : List Buf} (h : Quoted e asc q ws) {r : Buf} (hr : NextIn asc afterLit r) :
    prologTokBody e (litText asc q ws ++ r) = ⟨.LITERAL, (litText asc q ws).length⟩ := by
  have hb := asc_bt s (quote_single h.quote) (ws.flatten ++ (asc q ++ r))
  have key : prologTokBody e (litText asc q ws ++ r) = scanLit e (quoteType q) (ws.flatten ++ (asc q ++ r)) e.mb := by
    simp only [litText, List.append_assoc, prologTokBody, hb, drop_char (s.asc.len q)]
    rcases h.quote with rfl | rfl <;> rfl
  rw [key, lit_chars s h.quote h.chars h.inner, lit_end s h.quote hr]
  simp only [litText, List.length_append, s.asc.len]
  congr 1; omega

/-! ### The other tokens -/

/-- `#NAME` -/
theorem pt_pound {name : List Buf} (h : e.Name name) {r : Buf} (hr : NextIn asc afterPound r) :
    prologTokBody e (asc 0x23 ++ (name.flatten ++ r)) = ⟨.POUND_NAME, e.mb + name.flatten.length⟩ := by
  obtain ⟨w, vs, rfl, h1, h2⟩ := h
  have hb := asc_bt s (t := .NUM) rfl ((w :: vs).flatten ++ r)
  have loop : ∀ (vs : List Buf), (∀ v ∈ vs, e.NameChar v) → ∀ p,
      scanPoundNameLoop e (vs.flatten ++ r) p = ⟨.POUND_NAME, p + vs.flatten.length⟩ := by
    intro vs
    induction vs with
    | nil =>
      intro _ p
      obtain ⟨c, r, hc, rfl⟩ := hr
      have hk := s.class_app afterPoundClass hc r
      have hn : (e.bt (asc c ++ r)).nonName = true := by
        revert hk
        generalize e.bt (asc c ++ r) = t
        cases t <;> simp [ByteType.nonName]
      rw [List.flatten_nil, List.nil_append, scanPoundNameLoop, if_neg (asc_len_ok s c r), nameCases_other p hn]
      revert hk
      generalize e.bt (asc c ++ r) = t
      cases t <;> simp
    | cons v vs ih =>
      intro h p
      obtain ⟨k, h3, h4⟩ := nameCases_char s.ok s.mb (h v (by simp)) (vs.flatten ++ r) p
      have := (h v (by simp)).len s.mb
      rw [List.flatten_cons, List.append_assoc, scanPoundNameLoop, if_neg (by rw [List.length_append]; omega), h3]
      simp only
      rw [← h4, drop_char rfl, ih (fun w hw => h w (by simp [hw])), List.length_append]
      congr 1; omega
  obtain ⟨k, h3, h4⟩ := nmstrtCases_char s.ok s.mb h1 (vs.flatten ++ r) e.mb
  have := h1.len s.mb
  simp only [prologTokBody, hb, drop_char (s.asc.len _)]
  rw [List.flatten_cons, List.append_assoc, scanPoundName, if_neg (by rw [List.length_append]; omega), h3]
  simp only
  rw [← h4, drop_char rfl, loop vs h2, List.length_append]
  congr 1; omega

/-- `<!KEYWORD` -/
theorem pt_decl {kw : List UInt8} (h0 : kw ≠ []) (h : kw.all isUpper = true) {r : Buf} (hr : NextIn asc isWS r) :
    prologTokBody e (asc 0x3C ++ (asc 0x21 ++ (spell asc kw ++ r))) = ⟨.DECL_OPEN, e.mb + e.mb + (spell asc kw).length⟩ := by
  have l (c) := s.asc.len c
  have loop : ∀ (kw : List UInt8), kw.all isUpper = true → ∀ p,
      scanDeclLoop e (spell asc kw ++ r) p = ⟨.DECL_OPEN, p + (spell asc kw).length⟩ := by
    intro kw
    induction kw with
    | nil =>
      intro _ p
      obtain ⟨c, r, hc, rfl⟩ := hr
      rw [show spell asc [] = [] from rfl, List.nil_append, scanDeclLoop, if_neg (asc_len_ok s c r)]
      rcases sp_bt s hc r with h | h | h <;> rw [h] <;> rfl
    | cons c kw ih =>
      intro h p
      rw [List.all_cons, Bool.and_eq_true] at h
      rw [show spell asc (c :: kw) = asc c ++ spell asc kw from rfl, List.append_assoc, scanDeclLoop,
        if_neg (asc_len_ok s c _)]
      rcases upper_bt s h.1 (spell asc kw ++ r) with h2 | h2 <;> simp only [h2, drop_char (l c)] <;>
        rw [ih h.2, List.length_append, l] <;> congr 1 <;> omega
  obtain ⟨c, kw, rfl⟩ := List.exists_cons_of_ne_nil h0
  rw [List.all_cons, Bool.and_eq_true] at h
  simp only [prologTokBody, asc_bt s (t := .LT) rfl, drop_char (l _)]
  rw [if_neg (asc_len_ok s _ _)]
  simp only [asc_bt s (t := .EXCL) rfl]
  rw [show 2 * e.mb = e.mb + e.mb from by omega, ← List.drop_drop, drop_char (l _), drop_char (l _),
    show spell asc (c :: kw) = asc c ++ spell asc kw from rfl, List.append_assoc, scanDecl, if_neg (asc_len_ok s c _)]
  rcases upper_bt s h.1 (spell asc kw ++ r) with h2 | h2 <;> simp only [h2, drop_char (l c)] <;>
    rw [loop kw h.2, List.length_append, l] <;> congr 1 <;> omega

/-- `>`, `[`, `(`, `|`, `,` -/
theorem pt_gt (r : Buf) : prologTokBody e (asc 0x3E ++ r) = ⟨.DECL_CLOSE, e.mb⟩ := by
  simp only [prologTokBody, asc_bt s (t := .GT) rfl]
theorem pt_lsqb (r : Buf) : prologTokBody e (asc 0x5B ++ r) = ⟨.OPEN_BRACKET, e.mb⟩ := by
  simp only [prologTokBody, asc_bt s (t := .LSQB) rfl]
theorem pt_lpar (r : Buf) : prologTokBody e (asc 0x28 ++ r) = ⟨.OPEN_PAREN, e.mb⟩ := by
  simp only [prologTokBody, asc_bt s (t := .LPAR) rfl]
theorem pt_or (r : Buf) : prologTokBody e (asc 0x7C ++ r) = ⟨.OR, e.mb⟩ := by
  simp only [prologTokBody, asc_bt s (t := .VERBAR) rfl]
theorem pt_comma (r : Buf) : prologTokBody e (asc 0x2C ++ r) = ⟨.COMMA, e.mb⟩ := by
  simp only [prologTokBody, asc_bt s (t := .COMMA) rfl]

/-- `)` alone -/
theorem pt_rpar {r : Buf} (hr : NextIn asc afterParen r) : prologTokBody e (asc 0x29 ++ r) = ⟨.CLOSE_PAREN, e.mb⟩ := by
  obtain ⟨c, r, hc, rfl⟩ := hr
  have hk := s.class_app afterParenClass hc r
  simp only [prologTokBody, asc_bt s (t := .RPAR) rfl, drop_char (s.asc.len _)]
  rw [if_neg (asc_len_ok s _ _)]
  revert hk
  generalize e.bt (asc c ++ r) = t
  cases t <;> simp

/-- `)?`, `)*`, `)+` -/
theorem pt_rpar_op (r : Buf) :
    prologTokBody e (asc 0x29 ++ (asc 0x3F ++ r)) = ⟨.CLOSE_PAREN_QUESTION, e.mb + e.mb⟩ ∧
    prologTokBody e (asc 0x29 ++ (asc 0x2A ++ r)) = ⟨.CLOSE_PAREN_ASTERISK, e.mb + e.mb⟩ ∧
    prologTokBody e (asc 0x29 ++ (asc 0x2B ++ r)) = ⟨.CLOSE_PAREN_PLUS, e.mb + e.mb⟩ := by
  have l (c) := s.asc.len c
  refine ⟨?_, ?_, ?_⟩ <;>
  · simp only [prologTokBody, asc_bt s (t := .RPAR) rfl, drop_char (l _)]
    rw [if_neg (asc_len_ok s _ _)]
    simp only [asc_bt s (t := .QUEST) rfl, asc_bt s (t := .AST) rfl, asc_bt s (t := .PLUS) rfl]
    congr 1; omega

/-- `]`, not followed by another one -/
theorem pt_rsqb {d : UInt8} (hd : d ≠ 0x5D) (r : Buf) :
    prologTokBody e (asc 0x5D ++ (asc d ++ r)) = ⟨.CLOSE_BRACKET, e.mb⟩ := by
  have l (c) := s.asc.len c
  simp only [prologTokBody, asc_bt s (t := .RSQB) rfl, drop_char (l _)]
  rw [if_neg (asc_len_ok s _ _), if_neg]
  rw [s.matches_asc (by decide)]
  exact hd

/-- `%` before white space -/
theorem pt_percent {r : Buf} (hr : NextIn asc isWS r) : prologTokBody e (asc 0x25 ++ r) = ⟨.PERCENT, e.mb⟩ := by
  obtain ⟨c, r, hc, rfl⟩ := hr
  simp only [prologTokBody, asc_bt s (t := .PERCNT) rfl, drop_char (s.asc.len _)]
  rw [scanPercent, if_neg (asc_len_ok s _ _), nmstrtCases_other e.mb (sp_nn s hc r)]
  rcases sp_bt s hc r with h | h | h <;> rw [h]

/-- `%name;` -/
theorem pt_peref {name : List Buf} (h : e.Name name) (r : Buf) :
    prologTokBody e (asc 0x25 ++ (name.flatten ++ (asc 0x3B ++ r))) =
      ⟨.PARAM_ENTITY_REF, e.mb + name.flatten.length + e.mb⟩ := by
  obtain ⟨w, vs, rfl, h1, h2⟩ := h
  have hb := asc_bt s (t := .PERCNT) rfl ((w :: vs).flatten ++ (asc 0x3B ++ r))
  obtain ⟨k, h3, h4⟩ := nmstrtCases_char s.ok s.mb h1 (vs.flatten ++ (asc 0x3B ++ r)) e.mb
  have := h1.len s.mb
  simp only [prologTokBody, hb, drop_char (s.asc.len _)]
  rw [List.flatten_cons, List.append_assoc, scanPercent, if_neg (by rw [List.length_append]; omega), h3]
  simp only
  rw [← h4, drop_char rfl, (scanNameSemi_iff s .PARAM_ENTITY_REF rfl _ _ _).2 ⟨vs, r, h2, rfl, rfl⟩, List.length_append]
  congr 1; omega

end
end Verif
