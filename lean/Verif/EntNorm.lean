import Verif.Prolog
import Verif.PrologFwd
import Verif.Props.C33

/-! The loop of `storeEntityValue`, one character or reference at a time. -/

set_option autoImplicit false

namespace Verif
open C43 Spec

/-- A character of an entity value that stands for itself. -/
def Enc.ValChar (e : Enc) (asc : UInt8 → Buf) (w : Buf) : Prop :=
  e.IsChar w ∧ w ≠ asc 0x26 ∧ w ≠ asc 0x25 ∧ w ≠ asc 0x0A ∧ (e.lineEnds asc = true → w ≠ asc 0x0D)

/-- Legal characters up to the end or the first `&` or `%`. -/
inductive EvLit (e : Enc) (asc : UInt8 → Buf) : Buf → Prop where
  | nil : EvLit e asc []
  | char (w r : Buf) (hw : e.IsChar w) (h : EvLit e asc r) : EvLit e asc (w ++ r)
  | amp (r : Buf) : EvLit e asc (asc 0x26 ++ r)
  | pct (r : Buf) : EvLit e asc (asc 0x25 ++ r)

theorem Lit.ev {e : Enc} {asc : UInt8 → Buf} {b : Buf} (h : Lit e asc b) : EvLit e asc b := by
  induction h with
  | nil => exact .nil
  | char w r hw _ ih => exact .char w r hw ih
  | ref t w r _ _ _ => exact .amp _

section
variable {e : Enc} {asc : UInt8 → Buf} (s : Supported e asc)
include s

theorem val_bt {w : Buf} (h : e.ValChar asc w) : e.bt w ≠ .AMP ∧ e.bt w ≠ .PERCNT ∧ e.bt w ≠ .CR ∧ e.bt w ≠ .LF := by
  obtain ⟨hw, h1, h2, h3, h4⟩ := h
  have hl := e.isChar_len s.mb hw
  have hb := s.ok.bt_app w [] hl
  rw [Ne, ← char_bt s hw (t := .AMP) rfl [], hb] at h1
  rw [Ne, ← char_bt s hw (t := .PERCNT) rfl [], hb] at h2
  refine ⟨h1, h2, ?_⟩
  have hh : e.bt w = .S ∨ e.bt w = .CR ∨ e.bt w = .LF → ∃ c, isWS c = true ∧ w = asc c := by
    intro h
    obtain ⟨c, hc, h5⟩ := space_split s hl h
    have h6 : w.length = e.mb := by
      simp only [Enc.IsChar] at hw
      rcases h with h | h | h <;> rw [h] at hw <;> exact hw
    rw [List.drop_eq_nil_of_le (by omega), List.append_nil] at h5
    exact ⟨c, hc, h5⟩
  constructor
  · intro h
    obtain ⟨c, hc, rfl⟩ := hh (.inr (.inl h))
    have := ws_bt s hc []
    rw [List.append_nil, h] at this
    by_cases h5 : c = 0x0D ∧ e.lineEnds asc = true
    · exact h4 h5.2 (by rw [h5.1])
    · rw [if_neg h5] at this
      split at this <;> cases this
  · intro h
    obtain ⟨c, hc, rfl⟩ := hh (.inr (.inr h))
    have := ws_bt s hc []
    rw [List.append_nil, h] at this
    split at this
    · cases this
    · split at this
      · rename_i h5; exact h3 (by rw [h5])
      · cases this

theorem evl_char {w : Buf} (h : e.ValChar asc w) (r : Buf) (p : Nat) :
    entValLoop e (w ++ r) p = entValLoop e r (p + w.length) := by
  have hb := val_bt s h
  have hl := e.isChar_len s.mb h.1
  have hw := h.1
  rw [entValLoop.eq_def, if_neg (by rw [List.length_append]; omega), s.ok.bt_app w r hl]
  simp only [Enc.IsChar] at hw
  generalize e.bt w = t at *
  cases t <;> simp only at hw
  all_goals first
    | (simp at hb; done)
    | (simp only; rw [drop_char hw.1, ← hw.1])
    | (simp only; rw [drop_char hw, ← hw])

/-- What follows a run of characters. -/
inductive EvEnd (e : Enc) (asc : UInt8 → Buf) : Buf → Prop where
  | nil : EvEnd e asc []
  | amp (r : Buf) : EvEnd e asc (asc 0x26 ++ r)
  | pct (r : Buf) : EvEnd e asc (asc 0x25 ++ r)
  | lf (r : Buf) : EvEnd e asc (asc 0x0A ++ r)
  | cr (hl : e.lineEnds asc = true) (r : Buf) : EvEnd e asc (asc 0x0D ++ r)

theorem evlit_run {b : Buf} (h : EvLit e asc b) :
    ∃ (us : List Buf) (vs : Buf), b = us.flatten ++ vs ∧ (∀ u ∈ us, e.ValChar asc u) ∧ EvEnd e asc vs := by
  induction h with
  | nil => exact ⟨[], [], rfl, by simp, .nil⟩
  | amp r => exact ⟨[], _, rfl, by simp, .amp r⟩
  | pct r => exact ⟨[], _, rfl, by simp, .pct r⟩
  | char w r hw h ih =>
    by_cases hd : e.ValChar asc w
    · obtain ⟨us, vs, h1, h2, h3⟩ := ih
      refine ⟨w :: us, vs, by rw [h1, List.flatten_cons, List.append_assoc], ?_, h3⟩
      intro u hu
      rcases List.mem_cons.1 hu with rfl | hu
      · exact hd
      · exact h2 u hu
    · refine ⟨[], w ++ r, rfl, by simp, ?_⟩
      by_cases h1 : w = asc 0x26
      · rw [h1]; exact .amp r
      by_cases h2 : w = asc 0x25
      · rw [h2]; exact .pct r
      by_cases h3 : w = asc 0x0A
      · rw [h3]; exact .lf r
      by_cases h4 : e.lineEnds asc = true ∧ w = asc 0x0D
      · rw [h4.2]; exact .cr h4.1 r
      · exact absurd ⟨hw, h1, h2, h3, fun i1 i2 => h4 ⟨i1, i2⟩⟩ hd

theorem evl_stop {vs : Buf} (h : EvEnd e asc vs) (p : Nat) (hp : 0 < p) : entValLoop e vs p = ⟨.DATA_CHARS, p⟩ := by
  have h0 : ¬ p = 0 := by omega
  cases h with
  | nil => rw [entValLoop.eq_def, if_pos (by simp [Enc.mb])]
  | amp r => rw [entValLoop.eq_def, if_neg (asc_len_ok s _ r), asc_bt s (t := .AMP) rfl r]; simp only; rw [if_neg h0]
  | pct r => rw [entValLoop.eq_def, if_neg (asc_len_ok s _ r), asc_bt s (t := .PERCNT) rfl r]; simp only; rw [if_neg h0]
  | lf r => rw [entValLoop.eq_def, if_neg (asc_len_ok s _ r), asc_bt s (t := .LF) rfl r]; simp only; rw [if_neg h0]
  | cr hl r =>
    rw [entValLoop.eq_def, if_neg (asc_len_ok s _ r), ws_bt s (c := 0x0D) rfl, if_pos ⟨rfl, hl⟩]; simp only; rw [if_neg h0]

theorem evl_run {us : List Buf} (h : ∀ u ∈ us, e.ValChar asc u) (r : Buf) : ∀ p : Nat,
    entValLoop e (us.flatten ++ r) p = entValLoop e r (p + us.flatten.length) := by
  induction us with
  | nil => intro p; rfl
  | cons u us ih =>
    intro p
    rw [List.flatten_cons, List.append_assoc, evl_char s (h u (by simp)), ih (fun v hv => h v (by simp [hv])),
      List.length_append, Nat.add_assoc]

omit s in
theorem evt_eq {b : Buf} (h : e.mb ≤ b.length) : entityValueTok e b = entValLoop e b 0 := by
  have : 0 < e.mb := Nat.succ_pos _
  rw [entityValueTok, if_neg, if_neg (by omega)]
  rintro h0
  rw [List.isEmpty_iff] at h0
  subst h0
  simp only [List.length_nil] at h
  omega

theorem evt_run {us : List Buf} (hne : us ≠ []) (h : ∀ u ∈ us, e.ValChar asc u) {vs : Buf} (hs : EvEnd e asc vs) :
    entityValueTok e (us.flatten ++ vs) = ⟨.DATA_CHARS, us.flatten.length⟩ := by
  have hl : e.mb ≤ us.flatten.length := by
    cases us with
    | nil => exact absurd rfl hne
    | cons u us =>
      have := e.isChar_len s.mb (h u (by simp)).1
      rw [List.flatten_cons, List.length_append]; omega
  have : 0 < e.mb := Nat.succ_pos _
  rw [evt_eq (by rw [List.length_append]; omega), evl_run s h, evl_stop s hs _ (by omega), Nat.zero_add]

theorem evt_amp (r : Buf) : entityValueTok e (asc 0x26 ++ r) = scanRef e r e.mb := by
  rw [evt_eq (by have := asc_len_ok s 0x26 r; omega), entValLoop.eq_def, if_neg (asc_len_ok s _ r), asc_bt s (t := .AMP) rfl r]
  simp only [if_true]
  rw [drop_char (s.asc.len _)]

theorem evt_lf (r : Buf) : entityValueTok e (asc 0x0A ++ r) = ⟨.DATA_NEWLINE, e.mb⟩ := by
  rw [evt_eq (by have := asc_len_ok s 0x0A r; omega), entValLoop.eq_def, if_neg (asc_len_ok s _ r), asc_bt s (t := .LF) rfl r]
  simp only [if_true]

theorem evt_crlf (hx : e.lineEnds asc = true) (r : Buf) :
    entityValueTok e (asc 0x0D ++ (asc 0x0A ++ r)) = ⟨.DATA_NEWLINE, 2 * e.mb⟩ := by
  rw [evt_eq (by have := asc_len_ok s 0x0D (asc 0x0A ++ r); omega), entValLoop.eq_def, if_neg (asc_len_ok s _ _),
    ws_bt s (c := 0x0D) rfl, if_pos ⟨rfl, hx⟩]
  simp only [if_true]
  rw [drop_char (s.asc.len _), if_neg (asc_len_ok s _ _), asc_bt s (t := .LF) rfl, if_pos rfl]

theorem evt_cr (hx : e.lineEnds asc = true) {r : Buf} (hr : ∀ r', r ≠ asc 0x0A ++ r') :
    entityValueTok e (asc 0x0D ++ r) = ⟨.DATA_NEWLINE, e.mb⟩ ∨ (entityValueTok e (asc 0x0D ++ r)).tok = .TRAILING_CR := by
  rw [evt_eq (by have := asc_len_ok s 0x0D r; omega), entValLoop.eq_def, if_neg (asc_len_ok s _ _),
    ws_bt s (c := 0x0D) rfl, if_pos ⟨rfl, hx⟩]
  simp only [if_true]
  rw [drop_char (s.asc.len _)]
  by_cases h : r.length < e.mb
  · rw [if_pos h]; exact .inr rfl
  · rw [if_neg h, if_neg]
    · exact .inl rfl
    · intro h3
      exact hr _ (single_split s (k := .LF) (c := 0x0A) rfl (by omega) h3)

theorem evt_pct (r : Buf) : entityValueTok e (asc 0x25 ++ r) =
    if (scanPercent e r e.mb).tok = .PERCENT then ⟨.INVALID, (scanPercent e r e.mb).next⟩ else scanPercent e r e.mb := by
  rw [evt_eq (by have := asc_len_ok s 0x25 r; omega), entValLoop.eq_def, if_neg (asc_len_ok s _ r), asc_bt s (t := .PERCNT) rfl r]
  simp only [if_true]
  rw [drop_char (s.asc.len _)]

theorem evt_peref {name : List Buf} (h : e.Name name) (r : Buf) :
    entityValueTok e (asc 0x25 ++ (name.flatten ++ (asc 0x3B ++ r))) =
      ⟨.PARAM_ENTITY_REF, e.mb + name.flatten.length + e.mb⟩ := by
  have h1 := pt_peref s h r
  have hb := asc_bt s (t := .PERCNT) rfl (name.flatten ++ (asc 0x3B ++ r))
  simp only [prologTokBody, hb, drop_char (s.asc.len _)] at h1
  rw [evt_pct s, h1, if_neg (by simp)]

end

/-! ### The loop -/

section
variable {c : PCfg} {ext : Ext} {pe : PEParsing} {x : XEnc} {internal : Bool} {rec : Buf → Shared → Buf → Buf → EVal}
  {opened : List Buf} {asc : UInt8 → Buf} (s : XSupported x asc)

local notation "L" => evLoop c ext pe x internal rec opened

theorem ev_next {sh sh' : Shared} {pool p w r : Buf} {E : List PEv} (hw : 0 < w.length)
    (h : evStep c ext pe x internal rec opened sh pool (w ++ r) = .next w.length E sh' p) :
    L sh pool (w ++ r) = { L sh' p r with E := E ++ (L sh' p r).E } := by
  rw [evLoop.eq_def, h]
  simp only
  rw [List.drop_left, if_pos (by rw [List.length_append]; omega)]

theorem ev_step {sh : Shared} {pool p w r : Buf} (hw : 0 < w.length)
    (h : evStep c ext pe x internal rec opened sh pool (w ++ r) = .next w.length [] sh p) :
    L sh pool (w ++ r) = L sh p r := by rw [ev_next hw h]; rfl

theorem ev_stop {sh : Shared} {pool b : Buf} {v : EVal} (h : evStep c ext pe x internal rec opened sh pool b = .stop v) :
    L sh pool b = v := by
  rw [evLoop.eq_def, h]

theorem ev_nil (sh : Shared) (pool : Buf) : L sh pool [] = ⟨[], sh, pool, none⟩ := ev_stop rfl

include s

theorem ev_run {us : List Buf} (hne : us ≠ []) (h : ∀ u ∈ us, x.e.ValChar asc u) {vs : Buf} (hs : EvEnd x.e asc vs) (sh : Shared) (pool : Buf) :
    L sh pool (us.flatten ++ vs) = L sh (pool ++ converted x us.flatten) vs := by
  have hl : 0 < us.flatten.length := by
    cases us with
    | nil => exact absurd rfl hne
    | cons u us =>
      have := x.e.isChar_len s.s.mb (h u (by simp)).1
      have : 0 < x.e.mb := Nat.succ_pos _
      rw [List.flatten_cons, List.length_append]; omega
  apply ev_step hl
  simp only [evStep]
  rw [evt_run s.s hne h hs]
  simp only
  rw [List.take_left]

/-- An ordinary character. -/
theorem ev_char {w r : Buf} (hw : x.e.ValChar asc w) (hr : EvLit x.e asc r) (sh : Shared) (pool : Buf) :
    L sh pool (w ++ r) = L sh (pool ++ converted x w) r := by
  obtain ⟨us, vs, rfl, h2, h3⟩ := evlit_run s.s hr
  have h5 : ∀ u ∈ w :: us, x.e.ValChar asc u := by
    intro u hu
    rcases List.mem_cons.1 hu with rfl | hu
    · exact hw
    · exact h2 u hu
  have := ev_run (c := c) (ext := ext) (pe := pe) (internal := internal) (rec := rec) (opened := opened) s (us := w :: us)
    (by simp) h5 h3 sh pool
  rw [List.flatten_cons, List.append_assoc] at this
  rw [this]
  by_cases hu : us = []
  · subst hu; simp
  · rw [ev_run s hu h2 h3]
    have := conv_app s (ws := [w]) (vs := us) (.cons hw.1 .nil) (fun u hu => (h2 u hu).1)
    simp only [List.flatten_cons, List.flatten_nil, List.append_nil] at this
    rw [this, List.append_assoc]

theorem ev_lf (r : Buf) (sh : Shared) (pool : Buf) : L sh pool (asc 0x0A ++ r) = L sh (pool ++ [0x0A]) r := by
  have hmb : 0 < x.e.mb := Nat.succ_pos _
  have l := s.s.asc.len 0x0A
  apply ev_step (by omega)
  simp only [evStep]
  rw [evt_lf s.s, l]

theorem ev_crlf (hx : x.e.lineEnds asc = true) (r : Buf) (sh : Shared) (pool : Buf) :
    L sh pool (asc 0x0D ++ (asc 0x0A ++ r)) = L sh (pool ++ [0x0A]) r := by
  have hmb : 0 < x.e.mb := Nat.succ_pos _
  have l (c) := s.s.asc.len c
  rw [← List.append_assoc]
  apply ev_step (by rw [List.length_append, l]; omega)
  simp only [evStep]
  rw [List.append_assoc, evt_crlf s.s hx, List.length_append, l, l, Nat.two_mul]

theorem ev_cr (hx : x.e.lineEnds asc = true) {r : Buf} (hr : ∀ r', r ≠ asc 0x0A ++ r') (sh : Shared) (pool : Buf) :
    L sh pool (asc 0x0D ++ r) = L sh (pool ++ [0x0A]) r := by
  have hmb : 0 < x.e.mb := Nat.succ_pos _
  have l := s.s.asc.len 0x0D
  apply ev_step (by omega)
  simp only [evStep]
  rcases evt_cr s.s hx hr with h | h
  · rw [h, l]
  · rw [h, l]

/-- A reference to a general entity is copied. -/
theorem ev_entity {ws : List Buf} (hn : x.e.Name ws) (r : Buf) (sh : Shared) (pool : Buf) :
    L sh pool (asc 0x26 ++ (ws.flatten ++ (asc 0x3B ++ r))) =
      L sh (pool ++ converted x (asc 0x26 ++ (ws.flatten ++ asc 0x3B))) r := by
  have hmb : 0 < x.e.mb := Nat.succ_pos _
  have l (c) := s.s.asc.len c
  have ht : entityValueTok x.e (asc 0x26 ++ (ws.flatten ++ (asc 0x3B ++ r))) =
      ⟨.ENTITY_REF, x.e.mb + (ws.flatten ++ asc 0x3B).length⟩ := by
    rw [evt_amp s.s]
    exact (scanRef_iff s.s _ _ _ _ rfl).2 ⟨_, r, .entity ws hn, by rw [List.append_assoc], rfl⟩
  have hb : asc 0x26 ++ (ws.flatten ++ (asc 0x3B ++ r)) = (asc 0x26 ++ (ws.flatten ++ asc 0x3B)) ++ r := by
    simp [List.append_assoc]
  have hlen : (asc 0x26 ++ (ws.flatten ++ asc 0x3B)).length = x.e.mb + (ws.flatten ++ asc 0x3B).length := by
    rw [List.length_append, l]
  rw [hb] at ht ⊢
  apply ev_step (by rw [hlen]; omega)
  simp only [evStep]
  rw [ht]
  simp only
  rw [← hlen, List.take_left]

/-- A reference to a character. -/
theorem ev_charRef {w : Buf} (hw : Ref x.e asc .CHAR_REF w) (n : Nat) (r : Buf)
    (hn : charRefNumber x.e (asc 0x26 ++ (w ++ r)) = if XmlChar n then (n : Int) else -1) (sh : Shared) (pool : Buf) :
    L sh pool (asc 0x26 ++ (w ++ r)) =
      if XmlChar n then L sh (pool ++ utf8 n) r else ⟨[], sh, pool, some .BAD_CHAR_REF⟩ := by
  have hmb : 0 < x.e.mb := Nat.succ_pos _
  have l (c) := s.s.asc.len c
  have ht : entityValueTok x.e (asc 0x26 ++ (w ++ r)) = ⟨.CHAR_REF, x.e.mb + w.length⟩ := by
    rw [evt_amp s.s]
    exact (scanRef_iff s.s _ _ _ _ rfl).2 ⟨_, r, hw, rfl, rfl⟩
  by_cases hx : XmlChar n
  · rw [if_pos hx] at hn ⊢
    have h0 : n < 0x110000 := by unfold XmlChar at hx; omega
    rw [← List.append_assoc] at ht hn ⊢
    apply ev_step (by rw [List.length_append, l]; omega)
    simp only [evStep]
    rw [ht]
    simp only
    rw [hn, if_neg (by omega), C11.encode_spec n h0, List.length_append, l]
  · rw [if_neg hx] at hn ⊢
    apply ev_stop
    simp only [evStep]
    rw [ht]
    simp only
    rw [hn]
    rfl

theorem ev_dec {ds : List UInt8} (h0 : ds ≠ []) (hd : ∀ d ∈ ds, isDec d = true) (r : Buf) (sh : Shared) (pool : Buf) :
    L sh pool (asc 0x26 ++ (asc 0x23 ++ (spell asc ds ++ (asc 0x3B ++ r)))) =
      if XmlChar (numeral 10 ds) then L sh (pool ++ utf8 (numeral 10 ds)) r else ⟨[], sh, pool, some .BAD_CHAR_REF⟩ := by
  have := ev_charRef (c := c) (ext := ext) (pe := pe) (internal := internal) (rec := rec) (opened := opened) s
    (Ref.dec ds h0 hd) (numeral 10 ds) r (by simpa only [List.append_assoc] using C09.charRef_dec s.s ds h0 hd r) sh pool
  simp only [List.append_assoc] at this
  exact this

theorem ev_hex {ds : List UInt8} (h0 : ds ≠ []) (hd : ∀ d ∈ ds, (isDec d || isHexLetter d) = true) (r : Buf) (sh : Shared) (pool : Buf) :
    L sh pool (asc 0x26 ++ (asc 0x23 ++ (asc 0x78 ++ (spell asc ds ++ (asc 0x3B ++ r))))) =
      if XmlChar (numeral 16 ds) then L sh (pool ++ utf8 (numeral 16 ds)) r else ⟨[], sh, pool, some .BAD_CHAR_REF⟩ := by
  have := ev_charRef (c := c) (ext := ext) (pe := pe) (internal := internal) (rec := rec) (opened := opened) s
    (Ref.hex ds h0 hd) (numeral 16 ds) r (by simpa only [List.append_assoc] using C09.charRef_hex s.s ds hd r) sh pool
  simp only [List.append_assoc] at this
  exact this

/-- Otherwise `&` is an error. -/
theorem ev_amp {r : Buf} {sh : Shared} {pool : Buf} (h : (L sh pool (asc 0x26 ++ r)).err = none) :
    ∃ t w r', Ref x.e asc t w ∧ r = w ++ r' := by
  have ht := evt_amp s.s r
  cases hr : scanRef x.e r x.e.mb with
  | mk t n =>
    rw [hr] at ht
    cases he : t.isError with
    | false =>
      obtain ⟨w, r', h1, h2, _⟩ := (scanRef_iff s.s r _ n t he).1 hr
      exact ⟨t, w, r', h1, h2⟩
    | true =>
      exfalso
      rw [evLoop.eq_def] at h
      simp only [evStep, ht] at h
      have hf := scanRef_tok x.e r x.e.mb
      rw [hr] at hf
      simp only at hf
      rcases hf with (rfl | rfl | rfl) | rfl | rfl
      · cases h
      · cases h
      · cases h
      · cases he
      · cases he

/-- A reference to a parameter entity. -/
theorem ev_peref {ws : List Buf} (hn : x.e.Name ws) (r : Buf) (sh : Shared) (pool : Buf) (hp : (c.isPE || internal) = true) :
    evStep c ext pe x internal rec opened sh pool (asc 0x25 ++ (ws.flatten ++ (asc 0x3B ++ r))) =
      evParamRef c ext pe rec opened sh pool (converted x ws.flatten) (asc 0x25 ++ (ws.flatten ++ asc 0x3B)).length := by
  have l (c) := s.s.asc.len c
  have hb : asc 0x25 ++ (ws.flatten ++ (asc 0x3B ++ r)) = (asc 0x25 ++ (ws.flatten ++ asc 0x3B)) ++ r := by
    simp [List.append_assoc]
  have hlen : (asc 0x25 ++ (ws.flatten ++ asc 0x3B)).length = x.e.mb + ws.flatten.length + x.e.mb := by
    simp only [List.length_append, l]; omega
  have hname : refName x.e (asc 0x25 ++ (ws.flatten ++ asc 0x3B)) = ws.flatten := by
    rw [refName, drop_char (l _), hlen,
      show x.e.mb + ws.flatten.length + x.e.mb - 2 * x.e.mb = ws.flatten.length by omega, List.take_left]
  simp only [evStep]
  rw [evt_peref s.s hn]
  simp only
  rw [if_pos hp, hb, ← hlen, List.take_left, hname]

/-- In the document itself `%` is an error. -/
theorem ev_pct {r : Buf} {sh : Shared} {pool : Buf} (hp : (c.isPE || internal) = false) : (L sh pool (asc 0x25 ++ r)).err ≠ none := by
  rw [evLoop.eq_def]
  simp only [evStep, evt_pct s.s]
  have hf := scanPercent_tok x.e r x.e.mb
  generalize scanPercent x.e r x.e.mb = q at hf
  obtain ⟨t, n⟩ := q
  simp only at hf
  rcases hf with (rfl | rfl | rfl) | rfl | rfl
  · simp
  · simp
  · simp
  · simp
  · simp [hp]

end
end Verif
