import Verif.ConvChars
import Verif.Props.C11
import Verif.Props.C10
import Verif.Props.C09

/-! The loop of `appendAttributeValue`, one character or reference at a time. -/

namespace Verif
open C43 Spec

/-- A character of an attribute value that stands for itself. -/
def Enc.DataChar (e : Enc) (asc : UInt8 → Buf) (w : Buf) : Prop :=
  e.IsChar w ∧ w ≠ asc 0x3C ∧ w ≠ asc 0x26 ∧ ∀ c, isWS c = true → w ≠ asc c

/-- Whether CR LF is one line end. -/
def Enc.lineEnds (e : Enc) (asc : UInt8 → Buf) : Bool := e.bt (asc 0x0D) == .CR

/-- Text made of legal characters and references. -/
inductive Lit (e : Enc) (asc : UInt8 → Buf) : Buf → Prop where
  | nil : Lit e asc []
  | char (w r : Buf) (hw : e.IsChar w) (h : Lit e asc r) : Lit e asc (w ++ r)
  | ref (t : Tok) (w r : Buf) (hw : Ref e asc t w) (h : Lit e asc r) : Lit e asc (asc 0x26 ++ (w ++ r))

theorem Value.lit {e asc q v} (h : Value e asc q v) : Lit e asc v := by
  induction h with
  | nil => exact .nil
  | char w v h1 _ _ _ _ ih => exact .char w v h1 ih
  | ref t w v h1 _ ih => exact .ref t w v h1 ih

theorem Enc.Chars.lit {e asc} {ws : List Buf} (h : e.Chars ws) : Lit e asc ws.flatten := by
  induction ws with
  | nil => exact .nil
  | cons w ws ih => rw [List.flatten_cons]; exact .char w _ h.head (ih h.tail)

section
variable {e : Enc} {asc : UInt8 → Buf} (s : Supported e asc)
include s

theorem data_bt {w : Buf} (h : e.DataChar asc w) : e.bt w ≠ .LT ∧ e.bt w ≠ .AMP ∧ e.bt w ≠ .S ∧ e.bt w ≠ .CR ∧ e.bt w ≠ .LF := by
  obtain ⟨hw, h0, h1, h3⟩ := h
  have hl := e.isChar_len s.mb hw
  have hb := s.ok.bt_app w [] hl
  rw [Ne, ← char_bt s hw (t := .AMP) rfl [], hb] at h1
  rw [Ne, ← char_bt s hw (t := .LT) rfl [], hb] at h0
  have h4 : ¬ (e.bt w = .S ∨ e.bt w = .CR ∨ e.bt w = .LF) := by
    intro h
    obtain ⟨c, hc, h5⟩ := space_split s hl h
    have h6 : w.length = e.mb := by
      simp only [Enc.IsChar] at hw
      rcases h with h | h | h <;> rw [h] at hw <;> exact hw
    rw [List.drop_eq_nil_of_le (by omega), List.append_nil] at h5
    exact h3 c hc h5
  simp only [not_or] at h4
  exact ⟨h0, h1, h4⟩

/-- The kinds of white space.  (The internal encoding has no line ends of two characters: it takes CR for
an ordinary space.) -/
theorem ws_bt {c} (hc : isWS c = true) (r : Buf) :
    e.bt (asc c ++ r) = if c = 0x0D ∧ e.lineEnds asc = true then .CR else if c = 0x0A then .LF else .S := by
  rw [s.ok.bt_app _ _ (by rw [s.asc.len]; exact Nat.le_refl _)]
  have : c = 0x20 ∨ c = 0x09 ∨ c = 0x0A ∨ c = 0x0D := by
    simpa [isWS, or_assoc] using hc
  rcases this with rfl | rfl | rfl | rfl <;> cases s <;> rename_i ns <;> cases ns <;> decide +kernel

theorem avl_data {w : Buf} (h : e.DataChar asc w) (r : Buf) (p) :
    attValLoop e (w ++ r) p = attValLoop e r (p + w.length) := by
  have hb := data_bt s h
  have hl := e.isChar_len s.mb h.1
  have hw := h.1
  rw [attValLoop.eq_def, if_neg (by rw [List.length_append]; omega), s.ok.bt_app w r hl]
  simp only [Enc.IsChar] at hw
  generalize e.bt w = t at *
  cases t <;> simp only at hw
  all_goals first
    | (simp at hb; done)
    | (simp only; rw [drop_char hw.1, ← hw.1])
    | (simp only; rw [drop_char hw, ← hw])

/-- What follows a run of data characters. -/
inductive RunEnd (e : Enc) (asc : UInt8 → Buf) : Buf → Prop where
  | nil : RunEnd e asc []
  | amp (r : Buf) : RunEnd e asc (asc 0x26 ++ r)
  | lt (r : Buf) : RunEnd e asc (asc 0x3C ++ r)
  | ws (c : UInt8) (hc : isWS c = true) (r : Buf) : RunEnd e asc (asc c ++ r)

theorem lit_run {b : Buf} (h : Lit e asc b) : ∃ (us : List Buf) (vs : Buf), b = us.flatten ++ vs ∧ (∀ u ∈ us, e.DataChar asc u) ∧ RunEnd e asc vs ∧
    Lit e asc vs := by
  induction h with
  | nil => exact ⟨[], [], rfl, by simp, .nil, .nil⟩
  | char w r hw h ih =>
    by_cases hd : e.DataChar asc w
    · obtain ⟨us, vs, h1, h2, h3⟩ := ih
      refine ⟨w :: us, vs, by rw [h1, List.flatten_cons, List.append_assoc], ?_, h3⟩
      intro u hu
      rcases List.mem_cons.1 hu with rfl | hu
      · exact hd
      · exact h2 u hu
    · refine ⟨[], w ++ r, rfl, by simp, ?_, .char w r hw h⟩
      by_cases h1 : w = asc 0x3C
      · rw [h1]; exact .lt r
      by_cases h2 : w = asc 0x26
      · rw [h2]; exact .amp r
      have : ∃ c, isWS c = true ∧ w = asc c := by
        apply Classical.byContradiction
        intro hn
        exact hd ⟨hw, h1, h2, fun c hc he => hn ⟨c, hc, he⟩⟩
      obtain ⟨c, hc, rfl⟩ := this
      exact .ws c hc r
  | ref t w r hw h ih => exact ⟨[], _, rfl, by simp, .amp _, .ref t w r hw h⟩

theorem avl_stop {vs : Buf} (h : RunEnd e asc vs) (p) (hp : 0 < p) :
    attValLoop e vs p = ⟨.DATA_CHARS, p⟩ ∨ (attValLoop e vs p = ⟨.INVALID, p⟩ ∧ ∃ r, vs = asc 0x3C ++ r) := by
  cases h with
  | nil => left; rw [attValLoop.eq_def, if_pos (by simp [Enc.mb])]
  | amp r => left; rw [attValLoop.eq_def, if_neg (asc_len_ok s _ r), asc_bt s (t := .AMP) rfl r]; simp only; rw [if_neg (by omega)]
  | lt r => right; rw [attValLoop.eq_def, if_neg (asc_len_ok s _ r), asc_bt s (t := .LT) rfl r]; exact ⟨rfl, r, rfl⟩
  | ws c hc r =>
    left
    rw [attValLoop.eq_def, if_neg (asc_len_ok s _ r)]
    rcases sp_bt s hc r with h | h | h <;> rw [h] <;> simp only <;> rw [if_neg (by omega)]

theorem avl_run {us : List Buf} (h : ∀ u ∈ us, e.DataChar asc u) (r : Buf) : ∀ p,
    attValLoop e (us.flatten ++ r) p = attValLoop e r (p + us.flatten.length) := by
  induction us with
  | nil => intro p; rfl
  | cons u us ih =>
    intro p
    rw [List.flatten_cons, List.append_assoc, avl_data s (h u (by simp)), ih (fun v hv => h v (by simp [hv])),
      List.length_append, Nat.add_assoc]

omit s in
theorem avt_eq {b : Buf} (h : e.mb ≤ b.length) : attributeValueTok e b = attValLoop e b 0 := by
  have : 0 < e.mb := Nat.succ_pos _
  rw [attributeValueTok, if_neg, if_neg (by omega)]
  rintro h0
  rw [List.isEmpty_iff] at h0
  subst h0
  simp only [List.length_nil] at h
  omega

theorem avt_run {us : List Buf} (hne : us ≠ []) (h : ∀ u ∈ us, e.DataChar asc u) {vs : Buf} (hs : RunEnd e asc vs) :
    (attributeValueTok e (us.flatten ++ vs) = ⟨.DATA_CHARS, us.flatten.length⟩) ∨
    ((attributeValueTok e (us.flatten ++ vs)).tok = .INVALID ∧ ∃ r, vs = asc 0x3C ++ r) := by
  have hl : e.mb ≤ us.flatten.length := by
    cases us with
    | nil => exact absurd rfl hne
    | cons u us =>
      have := e.isChar_len s.mb (h u (by simp)).1
      rw [List.flatten_cons, List.length_append]; omega
  have : 0 < e.mb := Nat.succ_pos _
  rw [avt_eq (by rw [List.length_append]; omega), avl_run s h]
  rcases avl_stop s hs (0 + us.flatten.length) (by omega) with h | ⟨h, h2⟩
  · left; rw [h, Nat.zero_add]
  · right; rw [h]; exact ⟨rfl, h2⟩

theorem avt_lt (r : Buf) : (attributeValueTok e (asc 0x3C ++ r)).tok = .INVALID := by
  rw [avt_eq (by have := asc_len_ok s 0x3C r; omega), attValLoop.eq_def, if_neg (asc_len_ok s _ r), asc_bt s (t := .LT) rfl r]

theorem avt_amp (r : Buf) : attributeValueTok e (asc 0x26 ++ r) = scanRef e r e.mb := by
  rw [avt_eq (by have := asc_len_ok s 0x26 r; omega), attValLoop.eq_def, if_neg (asc_len_ok s _ r), asc_bt s (t := .AMP) rfl r]
  simp only [if_true]
  rw [drop_char (s.asc.len _)]

end

/-! ### The loop -/

section
variable {D : Dtd} {check : Bool} {x : XEnc} {asc : UInt8 → Buf} (s : XSupported x asc) {isCdata : Bool}
  {ex : Buf → Buf → Buf → Except XErr Buf} {opened : List Buf}

theorem loop_next {pool p w r : Buf} (hw : 0 < w.length)
    (h : attrStep D check x isCdata ex opened pool (w ++ r) = .next w.length p) :
    attrLoop D check x isCdata ex opened pool (w ++ r) = attrLoop D check x isCdata ex opened p r := by
  rw [attrLoop.eq_def, h]
  simp only
  rw [List.drop_left, if_pos (by rw [List.length_append]; omega)]

theorem loop_fail {pool b : Buf} {c} (h : attrStep D check x isCdata ex opened pool b = .fail c) :
    attrLoop D check x isCdata ex opened pool b = .error c := by
  rw [attrLoop.eq_def, h]

theorem loop_nil (pool : Buf) : attrLoop D check x isCdata ex opened pool [] = .ok pool := by
  rw [attrLoop.eq_def]; rfl

include s

theorem loop_lt (pool r : Buf) : attrLoop D check x isCdata ex opened pool (asc 0x3C ++ r) = .error .INVALID_TOKEN := by
  apply loop_fail
  simp only [attrStep]
  rw [avt_lt s.s]

theorem loop_run {us : List Buf} (hne : us ≠ []) (h : ∀ u ∈ us, x.e.DataChar asc u) {vs : Buf} (hs : RunEnd x.e asc vs) (pool : Buf) :
    attrLoop D check x isCdata ex opened pool (us.flatten ++ vs) =
      attrLoop D check x isCdata ex opened (pool ++ converted x us.flatten) vs := by
  have hl : 0 < us.flatten.length := by
    cases us with
    | nil => exact absurd rfl hne
    | cons u us =>
      have := x.e.isChar_len s.s.mb (h u (by simp)).1
      have : 0 < x.e.mb := Nat.succ_pos _
      rw [List.flatten_cons, List.length_append]; omega
  rcases avt_run s.s hne h hs with ht | ⟨ht, r, rfl⟩
  · apply loop_next hl
    simp only [attrStep]
    rw [ht]
    simp only
    rw [List.take_left]
  · rw [loop_lt s]
    apply loop_fail
    simp only [attrStep]
    rw [ht]

/-- An ordinary character. -/
theorem loop_data {w r : Buf} (hw : x.e.DataChar asc w) (hr : Lit x.e asc r) (pool : Buf) :
    attrLoop D check x isCdata ex opened pool (w ++ r) =
      attrLoop D check x isCdata ex opened (pool ++ converted x w) r := by
  obtain ⟨us, vs, rfl, h2, h3, h4⟩ := lit_run s.s hr
  have h5 : ∀ u ∈ w :: us, x.e.DataChar asc u := by
    intro u hu
    rcases List.mem_cons.1 hu with rfl | hu
    · exact hw
    · exact h2 u hu
  have := loop_run (D := D) (check := check) (isCdata := isCdata) (ex := ex) (opened := opened) s (us := w :: us) (by simp) h5 h3 pool
  rw [List.flatten_cons, List.append_assoc] at this
  rw [this]
  by_cases hu : us = []
  · subst hu; simp
  · rw [loop_run s hu h2 h3]
    have := conv_app s (ws := [w]) (vs := us) (.cons hw.1 .nil) (fun u hu => (h2 u hu).1)
    simp only [List.flatten_cons, List.flatten_nil, List.append_nil] at this
    rw [this, List.append_assoc]

/-- A line end written as two characters. -/
theorem loop_crlf (hx : x.e.lineEnds asc = true) (r pool : Buf) :
    attrLoop D check x isCdata ex opened pool (asc 0x0D ++ (asc 0x0A ++ r)) =
      attrLoop D check x isCdata ex opened (pushSpace isCdata pool) r := by
  have hmb : 0 < x.e.mb := Nat.succ_pos _
  have l (c) := s.s.asc.len c
  have ht : attributeValueTok x.e (asc 0x0D ++ (asc 0x0A ++ r)) = ⟨.DATA_NEWLINE, 2 * x.e.mb⟩ := by
    rw [avt_eq (by have := asc_len_ok s.s 0x0D (asc 0x0A ++ r); omega), attValLoop.eq_def, if_neg (asc_len_ok s.s _ _),
      ws_bt s.s (c := 0x0D) rfl, if_pos ⟨rfl, hx⟩]
    simp only [if_true]
    rw [drop_char (l _), if_neg (asc_len_ok s.s _ _), ws_bt s.s (c := 0x0A) rfl, if_pos (by simp)]
  rw [← List.append_assoc]
  apply loop_next (by rw [List.length_append, l]; omega)
  simp only [attrStep]
  rw [List.append_assoc, ht, List.length_append, l, l, Nat.two_mul]

/-- Any other white-space character. -/
theorem loop_ws {c} (hc : isWS c = true) {r : Buf}
    (hr : x.e.lineEnds asc = true → c = 0x0D → ∀ r', r ≠ asc 0x0A ++ r') (pool : Buf) :
    attrLoop D check x isCdata ex opened pool (asc c ++ r) =
      attrLoop D check x isCdata ex opened (pushSpace isCdata pool) r := by
  have hmb : 0 < x.e.mb := Nat.succ_pos _
  have l (c) := s.s.asc.len c
  apply loop_next (by rw [l]; omega)
  simp only [attrStep]
  have h0 : attributeValueTok x.e (asc c ++ r) = attValLoop x.e (asc c ++ r) 0 :=
    avt_eq (by have := asc_len_ok s.s c r; omega)
  rw [attValLoop.eq_def, if_neg (asc_len_ok s.s _ _), ws_bt s.s hc, drop_char (l c)] at h0
  by_cases h1 : c = 0x0D ∧ x.e.lineEnds asc = true
  · rw [if_pos h1] at h0
    simp only [if_true] at h0
    by_cases h2 : r.length < x.e.mb
    · rw [if_pos h2] at h0
      rw [h0, l]
    · rw [if_neg h2, if_neg] at h0
      · rw [h0, l]
      · intro h3
        have := single_split s.s (k := .LF) (c := 0x0A) rfl (by omega) h3
        exact hr h1.2 h1.1 _ this
  · rw [if_neg h1] at h0
    by_cases h2 : c = 0x0A
    · rw [if_pos h2] at h0
      simp only [if_true] at h0
      rw [h0, l]
    · rw [if_neg h2] at h0
      simp only [if_true] at h0
      rw [h0, l]

/-- What evaluating a reference to `nm` (as written) adds: the decisions of 7195-7356. -/
def refValue (D : Dtd) (check : Bool) (x : XEnc) (ex : Buf → Buf → Buf → Except XErr Buf) (opened : List Buf) (pool nm : Buf) :
    Except XErr Buf :=
  if predefinedEntityName x.e nm ≠ 0 then .ok (pool ++ [predefinedEntityName x.e nm]) else
  match D.entity (converted x nm) with
  | none => if check then .error .UNDEFINED_ENTITY else .ok pool
  | some ent =>
    if check && !ent.isInternal then .error .ENTITY_DECLARED_IN_PE
    else if converted x nm ∈ opened then .error .RECURSIVE_ENTITY_REF
    else if ent.notation_.isSome then .error .BINARY_ENTITY_REF
    else
      match ent.text with
      | none => .error .ATTRIBUTE_EXTERNAL_ENTITY_REF
      | some t => ex (converted x nm) pool t

/-- A reference to an entity. -/
theorem loop_entity {ws : List Buf} (hn : x.e.Name ws) (pool r : Buf) :
    attrLoop D check x isCdata ex opened pool (asc 0x26 ++ (ws.flatten ++ (asc 0x3B ++ r))) =
      match refValue D check x ex opened pool ws.flatten with
      | .error c => .error c
      | .ok p => attrLoop D check x isCdata ex opened p r := by
  have hmb : 0 < x.e.mb := Nat.succ_pos _
  have l (c) := s.s.asc.len c
  have ht : attributeValueTok x.e (asc 0x26 ++ (ws.flatten ++ (asc 0x3B ++ r))) =
      ⟨.ENTITY_REF, x.e.mb + (ws.flatten ++ asc 0x3B).length⟩ := by
    rw [avt_amp s.s]
    exact (scanRef_iff s.s _ _ _ _ rfl).2 ⟨_, r, .entity ws hn, by rw [List.append_assoc], rfl⟩
  have hb : asc 0x26 ++ (ws.flatten ++ (asc 0x3B ++ r)) = (asc 0x26 ++ (ws.flatten ++ asc 0x3B)) ++ r := by
    simp [List.append_assoc]
  have hlen : (asc 0x26 ++ (ws.flatten ++ asc 0x3B)).length = x.e.mb + (ws.flatten ++ asc 0x3B).length := by
    rw [List.length_append, l]
  have htake : (asc 0x26 ++ (ws.flatten ++ (asc 0x3B ++ r))).take (x.e.mb + (ws.flatten ++ asc 0x3B).length) =
      asc 0x26 ++ (ws.flatten ++ asc 0x3B) := by
    rw [hb, ← hlen, List.take_left]
  have hname : refName x.e (asc 0x26 ++ (ws.flatten ++ asc 0x3B)) = ws.flatten := by
    rw [refName, drop_char (l _), hlen, List.length_append, l,
      show x.e.mb + (ws.flatten.length + x.e.mb) - 2 * x.e.mb = ws.flatten.length by omega, List.take_left]
  have hstep : attrStep D check x isCdata ex opened pool (asc 0x26 ++ (ws.flatten ++ (asc 0x3B ++ r))) =
      match refValue D check x ex opened pool ws.flatten with
      | .error c => .fail c
      | .ok p => .next (asc 0x26 ++ (ws.flatten ++ asc 0x3B)).length p := by
    simp only [attrStep]
    rw [ht]
    simp only
    rw [htake, hname, refValue, hlen]
    split
    · rfl
    · cases D.entity (converted x ws.flatten) with
      | none => simp only; split <;> rfl
      | some ent =>
        simp only
        split
        · rfl
        · split
          · rfl
          · split
            · rfl
            · cases ent.text with
              | none => rfl
              | some t =>
                simp only
                cases ex (converted x ws.flatten) pool t <;> rfl
  cases hv : refValue D check x ex opened pool ws.flatten with
  | error c =>
    rw [hv] at hstep
    exact loop_fail hstep
  | ok p =>
    rw [hv, hb] at hstep
    rw [hb]
    exact loop_next (by rw [hlen]; omega) hstep

/-- A reference to a character. -/
theorem loop_charRef {w : Buf} (hw : Ref x.e asc .CHAR_REF w) (n : Nat) (r : Buf)
    (hn : charRefNumber x.e (asc 0x26 ++ (w ++ r)) = if XmlChar n then (n : Int) else -1) (pool : Buf) :
    attrLoop D check x isCdata ex opened pool (asc 0x26 ++ (w ++ r)) =
      if XmlChar n then
        attrLoop D check x isCdata ex opened (if n = 0x20 then pushSpace isCdata pool else pool ++ utf8 n) r
      else .error .BAD_CHAR_REF := by
  have hmb : 0 < x.e.mb := Nat.succ_pos _
  have l (c) := s.s.asc.len c
  have ht : attributeValueTok x.e (asc 0x26 ++ (w ++ r)) = ⟨.CHAR_REF, x.e.mb + w.length⟩ := by
    rw [avt_amp s.s]
    exact (scanRef_iff s.s _ _ _ _ rfl).2 ⟨_, r, hw, rfl, rfl⟩
  by_cases hx : XmlChar n
  · rw [if_pos hx] at hn ⊢
    have h0 : n < 0x110000 := by unfold XmlChar at hx; omega
    rw [← List.append_assoc] at ht hn ⊢
    apply loop_next (by rw [List.length_append, l]; omega)
    simp only [attrStep]
    rw [ht]
    simp only
    rw [hn, if_neg (by omega), C11.encode_spec n h0, List.length_append, l, pushSpace]
    by_cases h1 : n = 0x20
    · subst h1
      have h2 : utf8 32 = [0x20] := by decide
      rw [if_pos rfl, h2]
      simp only [show (((32 : Nat) : Int) == 0x20) = true by decide, Bool.and_true, Bool.and_eq_true]
      cases isCdata <;> simp
      split <;> simp_all
    · rw [if_neg h1]
      simp only [show (((n : Nat) : Int) == 0x20) = false by simp; omega, Bool.and_false, Bool.false_and, Bool.false_eq_true, if_false]
  · rw [if_neg hx] at hn ⊢
    apply loop_fail
    simp only [attrStep]
    rw [ht]
    simp only
    rw [hn]
    rfl

/-- Otherwise `&` is an error. -/
theorem loop_amp {pool r q : Buf} (h : attrLoop D check x isCdata ex opened pool (asc 0x26 ++ r) = .ok q) :
    ∃ t w r', Ref x.e asc t w ∧ r = w ++ r' := by
  have ht := avt_amp s.s r
  cases hr : scanRef x.e r x.e.mb with
  | mk t n =>
    rw [hr] at ht
    cases he : t.isError with
    | false =>
      obtain ⟨w, r', h1, h2, _⟩ := (scanRef_iff s.s r _ n t he).1 hr
      exact ⟨t, w, r', h1, h2⟩
    | true =>
      exfalso
      rw [attrLoop.eq_def] at h
      simp only [attrStep, ht] at h
      have hf := scanRef_tok x.e r x.e.mb
      rw [hr] at hf
      simp only at hf
      rcases hf with (rfl | rfl | rfl) | rfl | rfl
      · cases h
      · cases h
      · cases h
      · cases he
      · cases he

end

/-! ### The rest of the text after a reference -/

/-- One piece of text, its length given by its first byte. -/
def Enc.Piece (e : Enc) (u : Buf) : Prop := e.mb ≤ u.length ∧ u.length = e.charLen u

section
variable {e : Enc} {asc : UInt8 → Buf} (s : Supported e asc)
include s

theorem char_piece {w : Buf} (hw : e.IsChar w) : e.Piece w := by
  refine ⟨e.isChar_len s.mb hw, ?_⟩
  simp only [Enc.IsChar] at hw
  rw [Enc.charLen]
  generalize e.bt w = t at *
  cases t <;> simp only at hw ⊢ <;> first | exact hw.1 | exact hw

theorem name_piece {w : Buf} (hw : e.NameChar w) : e.Piece w := by
  refine ⟨hw.len s.mb, ?_⟩
  simp only [Enc.NameChar] at hw
  rw [Enc.charLen]
  generalize e.bt w = t at *
  cases t <;> simp only at hw ⊢ <;> first | exact hw.1 | exact hw

theorem nmstrt_name {w : Buf} (hw : e.NmstrtChar w) : e.Piece w := by
  refine ⟨hw.len s.mb, ?_⟩
  simp only [Enc.NmstrtChar] at hw
  rw [Enc.charLen]
  generalize e.bt w = t at *
  cases t <;> simp only at hw ⊢ <;> first | exact hw.1 | exact hw

theorem refChar_piece {c} (hc : refChar c = true) : e.Piece (asc c) := by
  have := refChar_bt s hc
  refine ⟨by rw [s.asc.len]; exact Nat.le_refl _, ?_⟩
  rw [Enc.charLen, s.asc.len]
  simp only [List.mem_cons, List.not_mem_nil, or_false] at this
  rcases this with h | h | h | h | h <;> rw [h]

theorem piece_unique {u v a b : Buf} (hu : e.Piece u) (hv : e.Piece v) (h : u ++ a = v ++ b) : u = v ∧ a = b := by
  have hb : e.bt u = e.bt v := by
    rw [← s.ok.bt_app u a hu.1, h, s.ok.bt_app v b hv.1]
  have hl : u.length = v.length := by
    rw [hu.2, hv.2, Enc.charLen, Enc.charLen, hb]
  exact List.append_inj h hl

theorem lit_strip {us : List Buf} (hu : ∀ u ∈ us, e.Piece u ∧ u ≠ asc 0x26) : ∀ {r : Buf}, Lit e asc (us.flatten ++ r) → Lit e asc r := by
  induction us with
  | nil => intro r h; exact h
  | cons u us ih =>
    intro r h
    rw [List.flatten_cons, List.append_assoc] at h
    have hp := hu u (by simp)
    generalize hb : u ++ (us.flatten ++ r) = b at h
    cases h with
    | nil =>
      have h1 := congrArg List.length hb
      have h2 : 0 < e.mb := Nat.succ_pos _
      have h3 := hp.1.1
      simp only [List.length_append, List.length_nil] at h1
      omega
    | char w r' hw h =>
      have := (piece_unique s hp.1 (char_piece s hw) hb).2
      rw [← this] at h
      exact ih (fun v hv => hu v (by simp [hv])) h
    | ref t w r' hw h =>
      exact absurd (piece_unique s hp.1 (char_piece s (asc_char s (t := .AMP) rfl)) hb).1 hp.2

theorem amp_ne {w : Buf} (hw : e.NameChar w ∨ e.NmstrtChar w) : w ≠ asc 0x26 := by
  rintro rfl
  have h := asc_bt s (t := .AMP) rfl []
  rw [List.append_nil] at h
  rcases hw with hw | hw
  · rw [Enc.NameChar, h] at hw; exact hw
  · rw [Enc.NmstrtChar, h] at hw; exact hw

theorem ref_pieces {t : Tok} {w : Buf} (hw : Ref e asc t w) : ∃ us : List Buf, w = us.flatten ∧ ∀ u ∈ us, e.Piece u ∧ u ≠ asc 0x26 := by
  have hc : ∀ c, refChar c = true → e.Piece (asc c) ∧ asc c ≠ asc 0x26 := fun c h =>
    ⟨refChar_piece s h, fun he => by rw [s.asc_inj he] at h; exact absurd h (by decide)⟩
  cases hw with
  | entity ws hn =>
    obtain ⟨w, vs, rfl, h1, h2⟩ := hn
    refine ⟨w :: vs ++ [asc 0x3B], by simp, ?_⟩
    intro u hu
    simp only [List.cons_append, List.mem_cons, List.mem_append, List.not_mem_nil, or_false] at hu
    rcases hu with rfl | hu | rfl
    · exact ⟨nmstrt_name s h1, amp_ne s (.inr h1)⟩
    · exact ⟨name_piece s (h2 u hu), amp_ne s (.inl (h2 u hu))⟩
    · exact hc _ (by decide)
  | dec ds h0 h2 =>
    refine ⟨(0x23 :: (ds ++ [0x3B])).map asc, by simp, ?_⟩
    intro u hu
    obtain ⟨c, hc', rfl⟩ := List.mem_map.1 hu
    apply hc
    simp only [List.mem_cons, List.mem_append, List.not_mem_nil, or_false] at hc'
    rcases hc' with rfl | hc' | rfl
    · rfl
    · simp [refChar, h2 c hc']
    · rfl
  | hex ds h0 h2 =>
    refine ⟨(0x23 :: 0x78 :: (ds ++ [0x3B])).map asc, by simp, ?_⟩
    intro u hu
    obtain ⟨c, hc', rfl⟩ := List.mem_map.1 hu
    apply hc
    simp only [List.mem_cons, List.mem_append, List.not_mem_nil, or_false] at hc'
    rcases hc' with rfl | rfl | hc' | rfl
    · rfl
    · rfl
    · rw [refChar, h2 c hc']; rfl
    · rfl

theorem lit_amp {t : Tok} {w r : Buf} (hw : Ref e asc t w) (h : Lit e asc (asc 0x26 ++ (w ++ r))) : Lit e asc r := by
  obtain ⟨us, h1, h2⟩ := ref_pieces s hw
  generalize hb : asc 0x26 ++ (w ++ r) = b at h
  have ha := char_piece s (asc_char s (t := .AMP) rfl)
  cases h with
  | nil =>
    have h1 := congrArg List.length hb
    have h2 : 0 < e.mb := Nat.succ_pos _
    simp only [List.length_append, List.length_nil, s.asc.len] at h1
    omega
  | char v r' hv h =>
    have := (piece_unique s ha (char_piece s hv) hb).2
    rw [← this, h1] at h
    exact lit_strip s h2 h
  | ref t' w' r' hw' h =>
    have := List.append_cancel_left hb
    have e1 := (scanRef_iff s (w ++ r) 0 _ t (Ref.ok s hw)).2 ⟨w, r, hw, rfl, rfl⟩
    have e2 := (scanRef_iff s (w ++ r) 0 _ t' (Ref.ok s hw')).2 ⟨w', r', hw', this, rfl⟩
    rw [e1] at e2
    injection e2 with _ e2
    have := (List.append_inj this (by omega)).2
    rw [this]; exact h

theorem name_dvd {ws : List Buf} (h : e.Name ws) : e.mb ∣ ws.flatten.length := by
  obtain ⟨w, vs, rfl, h1, h2⟩ := h
  have hd : ∀ u, e.Piece u → e.mb ∣ u.length := fun u hu => by rw [hu.2]; exact s.even u
  rw [List.flatten_cons, List.length_append]
  refine Nat.dvd_add (hd _ (nmstrt_name s h1)) ?_
  clear h1
  induction vs with
  | nil => simp
  | cons v vs ih =>
    rw [List.flatten_cons, List.length_append]
    exact Nat.dvd_add (hd _ (name_piece s (h2 v (by simp)))) (ih fun u hu => h2 u (by simp [hu]))

end

end Verif
