import Verif.NoPanic
import Verif.Props.C19

/-! Why no document makes the parser panic or report an error code reserved for its own malfunction (C72): values in
declarations, which at the end of a document may be followed by half a code unit. -/

set_option autoImplicit false

namespace Verif
open C43 C53 C61 C62 Spec

/-- Whole characters, then perhaps part of a code unit. -/
inductive Wh (e : Enc) : Buf → Prop where
  | tail (b : Buf) (h : b.length < e.mb) : Wh e b
  | cons (b : Buf) (h1 : e.mb ≤ b.length) (h : e.charLen b ≤ b.length) (hd : e.mb ∣ e.charLen b)
      (t : Wh e (b.drop (e.charLen b))) : Wh e b

theorem Wh.inv {e : Enc} {b : Buf} (h : Wh e b) (hb : ¬ b.length < e.mb) :
    e.charLen b ≤ b.length ∧ e.mb ∣ e.charLen b ∧ Wh e (b.drop (e.charLen b)) := by
  cases h with
  | tail _ h => omega
  | cons _ _ h hd t => exact ⟨h, hd, t⟩

/-- What a scanner leaves: `n` counts from `p`. -/
def Rem (e : Enc) (p : Nat) (b : Buf) (n : Nat) : Prop := ∃ k, n = p + k ∧ k ≤ b.length ∧ e.mb ∣ k ∧ Wh e (b.drop k)

theorem Rem.here {e : Enc} {b : Buf} (p : Nat) (h : Wh e b) : Rem e p b p := ⟨0, rfl, Nat.zero_le _, Nat.dvd_zero _, by simpa using h⟩

theorem Rem.step {e : Enc} {p n : Nat} {b : Buf} (h : Wh e b) (hb : ¬ b.length < e.mb) (hr : Rem e (p + e.charLen b) (b.drop (e.charLen b)) n) :
    Rem e p b n := by
  obtain ⟨h1, h2, _⟩ := h.inv hb
  obtain ⟨k, rfl, h4, h5, h6⟩ := hr
  rw [List.length_drop] at h4
  refine ⟨e.charLen b + k, by omega, by omega, Nat.dvd_add h2 h5, ?_⟩
  rwa [List.drop_drop] at h6

theorem charLen_one {e : Enc} {b : Buf} (h2 : e.bt b ≠ .LEAD2) (h3 : e.bt b ≠ .LEAD3) (h4 : e.bt b ≠ .LEAD4) : e.charLen b = e.mb := by
  rw [Enc.charLen]
  split <;> simp_all

theorem Rem.one {e : Enc} {p n : Nat} {b : Buf} (h : Wh e b) (hb : ¬ b.length < e.mb) (h2 : e.bt b ≠ .LEAD2) (h3 : e.bt b ≠ .LEAD3)
    (h4 : e.bt b ≠ .LEAD4) (hr : Rem e (p + e.mb) (b.drop e.mb) n) : Rem e p b n := by
  refine Rem.step h hb ?_
  rwa [charLen_one h2 h3 h4]

theorem Wh.one {e : Enc} {b : Buf} (h : Wh e b) (hb : ¬ b.length < e.mb) (h2 : e.bt b ≠ .LEAD2) (h3 : e.bt b ≠ .LEAD3)
    (h4 : e.bt b ≠ .LEAD4) : Wh e (b.drop e.mb) := by
  have := (h.inv hb).2.2
  rwa [charLen_one h2 h3 h4] at this

theorem scanNameSemi_wh {e : Enc} {t : Tok} (ht : t ≠ .PARTIAL_CHAR) (b : Buf) (p : Nat) (h : Wh e b) :
    (scanNameSemi e t b p).tok ≠ .PARTIAL_CHAR ∧ ((scanNameSemi e t b p).tok.fail ∨ Rem e p b (scanNameSemi e t b p).next) := by
  fun_induction scanNameSemi e t b p with
  | case1 => simp [Tok.fail]
  | case2 b p hb r hr =>
    refine ⟨fun hp => ?_, .inl (nameCases_fail hr)⟩
    have := nameCases_whole.2 r hr hp
    have := (h.inv hb).1
    omega
  | case3 b p hb k hk ih =>
    have hw := (h.inv hb).2.2
    rw [nameCases_whole.1 k hk] at hw
    obtain ⟨i1, i2⟩ := ih hw
    refine ⟨i1, i2.imp id fun i => Rem.step h hb ?_⟩
    rw [nameCases_whole.1 k hk]; exact i
  | case4 b p hb ho hs =>
    refine ⟨by simpa using ht, .inr ?_⟩
    exact Rem.one h hb (by simp [hs]) (by simp [hs]) (by simp [hs]) (.here _ (h.one hb (by simp [hs]) (by simp [hs]) (by simp [hs])))
  | case5 => simp [Tok.fail]

theorem scanDecLoop_wh (e : Enc) (b : Buf) (p : Nat) (h : Wh e b) :
    (scanDecLoop e b p).tok.fail ∨ Rem e p b (scanDecLoop e b p).next := by
  fun_induction scanDecLoop e b p with
  | case1 => simp [Tok.fail]
  | case2 b p hb hs ih =>
    refine (ih (h.one hb (by simp [hs]) (by simp [hs]) (by simp [hs]))).imp id fun i => ?_
    exact Rem.one h hb (by simp [hs]) (by simp [hs]) (by simp [hs]) i
  | case3 b p hb hs => exact .inr (Rem.one h hb (by simp [hs]) (by simp [hs]) (by simp [hs]) (.here _ (h.one hb (by simp [hs]) (by simp [hs]) (by simp [hs]))))
  | case4 => simp [Tok.fail]

theorem scanHexLoop_wh (e : Enc) (b : Buf) (p : Nat) (h : Wh e b) :
    (scanHexLoop e b p).tok.fail ∨ Rem e p b (scanHexLoop e b p).next := by
  fun_induction scanHexLoop e b p with
  | case1 => simp [Tok.fail]
  | case2 b p hb hs ih | case3 b p hb hs ih =>
    refine (ih (h.one hb (by simp [hs]) (by simp [hs]) (by simp [hs]))).imp id fun i => ?_
    exact Rem.one h hb (by simp [hs]) (by simp [hs]) (by simp [hs]) i
  | case4 b p hb hs => exact .inr (Rem.one h hb (by simp [hs]) (by simp [hs]) (by simp [hs]) (.here _ (h.one hb (by simp [hs]) (by simp [hs]) (by simp [hs]))))
  | case5 => simp [Tok.fail]

/-- `x` is not the first unit of a longer character. -/
theorem match_one {e : Enc} {asc : UInt8 → Buf} (s : Supported e asc) {b : Buf} (hm : e.charMatches b 0x78 = true) (hb : e.mb ≤ b.length) :
    e.bt b ≠ .LEAD2 ∧ e.bt b ≠ .LEAD3 ∧ e.bt b ≠ .LEAD4 := by
  rw [mat_split s (by decide) hb hm]
  obtain ⟨t, ht, h⟩ := C19.bt_asc s 0x78 (by decide) (b.drop e.mb)
  rw [h]
  clear h
  revert t
  decide +kernel

theorem scanRef_wh {e : Enc} {asc : UInt8 → Buf} (s : Supported e asc) (b : Buf) (p : Nat) (h : Wh e b) :
    (scanRef e b p).tok ≠ .PARTIAL_CHAR ∧ ((scanRef e b p).tok.fail ∨ Rem e p b (scanRef e b p).next) := by
  rw [scanRef]
  split
  · simp [Tok.fail]
  · rename_i hb
    split
    · rename_i r hr
      refine ⟨fun hp => ?_, .inl (nmstrtCases_fail hr)⟩
      have := nmstrtCases_whole.2 r hr hp
      have := (h.inv hb).1
      omega
    · rename_i k hk
      have hw := (h.inv hb).2.2
      rw [nmstrtCases_whole.1 k hk] at hw
      obtain ⟨i1, i2⟩ := scanNameSemi_wh (t := .ENTITY_REF) (by simp) _ (p + (k + 1)) hw
      refine ⟨i1, i2.imp id fun i => Rem.step h hb ?_⟩
      rw [nmstrtCases_whole.1 k hk]; exact i
    · split
      · rename_i hs
        have hw := h.one hb (by simp [hs]) (by simp [hs]) (by simp [hs])
        suffices hc : (scanCharRef e (b.drop e.mb) (p + e.mb)).tok ≠ .PARTIAL_CHAR ∧ ((scanCharRef e (b.drop e.mb) (p + e.mb)).tok.fail ∨
            Rem e (p + e.mb) (b.drop e.mb) (scanCharRef e (b.drop e.mb) (p + e.mb)).next) from
          ⟨hc.1, hc.2.imp id fun i => Rem.one h hb (by simp [hs]) (by simp [hs]) (by simp [hs]) i⟩
        generalize b.drop e.mb = b at hw ⊢
        generalize p + e.mb = p
        rw [scanCharRef]
        split
        · rename_i hb
          have hb' : ¬ b.length < e.mb := by omega
          split
          · rename_i hm
            obtain ⟨m2, m3, m4⟩ := match_one s hm hb
            have hw' := hw.one hb' m2 m3 m4
            rw [scanHexCharRef]
            split
            · rename_i hb2
              have hb2' : ¬ (b.drop e.mb).length < e.mb := by omega
              split
              · rename_i hs
                refine ⟨scanHexLoop_whole _ _ _, (scanHexLoop_wh _ _ (p + e.mb + e.mb) (hw'.one hb2' (by simp [hs]) (by simp [hs]) (by simp [hs]))).imp id fun i => ?_⟩
                exact Rem.one hw hb' m2 m3 m4 (Rem.one hw' hb2' (by simp [hs]) (by simp [hs]) (by simp [hs]) i)
              · rename_i hs
                refine ⟨scanHexLoop_whole _ _ _, (scanHexLoop_wh _ _ (p + e.mb + e.mb) (hw'.one hb2' (by simp [hs]) (by simp [hs]) (by simp [hs]))).imp id fun i => ?_⟩
                exact Rem.one hw hb' m2 m3 m4 (Rem.one hw' hb2' (by simp [hs]) (by simp [hs]) (by simp [hs]) i)
              · simp [Tok.fail]
            · simp [Tok.fail]
          · split
            · rename_i hs
              refine ⟨scanDecLoop_whole _ _ _, (scanDecLoop_wh _ _ (p + e.mb) (hw.one hb' (by simp [hs]) (by simp [hs]) (by simp [hs]))).imp id fun i => ?_⟩
              exact Rem.one hw hb' (by simp [hs]) (by simp [hs]) (by simp [hs]) i
            · simp [Tok.fail]
        · simp [Tok.fail]
      · simp [Tok.fail]

theorem scanPercent_wh {e : Enc} (b : Buf) (p : Nat) (h : Wh e b) :
    (scanPercent e b p).tok = .PARTIAL ∨ (scanPercent e b p).tok = .INVALID ∨ (scanPercent e b p).tok = .PERCENT ∨
      (scanPercent e b p).tok = .PARAM_ENTITY_REF := by
  rw [scanPercent]
  split
  · simp
  · rename_i hb
    split
    · rename_i r hr
      have h1 := nmstrtCases_fail hr
      rcases h1 with h1 | h1 | h1
      · simp [h1]
      · simp [h1]
      · have := nmstrtCases_whole.2 r hr h1
        have := (h.inv hb).1
        omega
    · rename_i k hk
      have hw := (h.inv hb).2.2
      rw [nmstrtCases_whole.1 k hk] at hw
      have i1 := (scanNameSemi_wh (t := .PARAM_ENTITY_REF) (by simp) _ (p + (k + 1)) hw).1
      have i2 := scanNameSemi_tok e .PARAM_ENTITY_REF (b.drop (k + 1)) (p + (k + 1))
      rcases i2 with (i2 | i2 | i2) | i2
      · simp [i2]
      · simp [i2]
      · exact absurd i2 i1
      · simp [i2]
    · split <;> simp

/-! ### The tokens of a value -/

/-- The loops take runs of characters. -/
theorem lead_wh {e : Enc} {b : Buf} {k : Nat} (h : Wh e b) (hb : ¬ b.length < e.mb) (hc : e.charLen b = k) :
    Wh e (b.drop k) ∧ ∀ p n, Rem e (p + k) (b.drop k) n → Rem e p b n := by
  subst hc
  exact ⟨(h.inv hb).2.2, fun p n hr => Rem.step h hb hr⟩

theorem entValLoop_wh {e : Enc} (b : Buf) (p : Nat) (hp : 0 < p) (h : Wh e b) :
    (entValLoop e b p).tok = .DATA_CHARS ∧ Rem e p b (entValLoop e b p).next := by
  have key (b : Buf) (p k : Nat) (h : Wh e b) (hb : ¬ b.length < e.mb) (hc : e.charLen b = k) (hp : 0 < p)
      (ih : 0 < p + k → Wh e (b.drop k) → (entValLoop e (b.drop k) (p + k)).tok = .DATA_CHARS ∧ Rem e (p + k) (b.drop k) (entValLoop e (b.drop k) (p + k)).next) :
      (entValLoop e (b.drop k) (p + k)).tok = .DATA_CHARS ∧ Rem e p b (entValLoop e (b.drop k) (p + k)).next := by
    obtain ⟨h1, h2⟩ := lead_wh h hb hc
    obtain ⟨i1, i2⟩ := ih (by omega) h1
    exact ⟨i1, h2 _ _ i2⟩
  fun_induction entValLoop e b p <;>
    first
    | exact ⟨rfl, .here _ h⟩
    | omega
    | (refine key _ _ _ h ‹_› ?_ hp ‹_›; simp_all [Enc.charLen]; done)
    | (refine key _ _ _ h ‹_› (charLen_one ?_ ?_ ?_) hp ‹_› <;> assumption)

theorem attValLoop_wh {e : Enc} (b : Buf) (p : Nat) (hp : 0 < p) (h : Wh e b) :
    (attValLoop e b p).tok = .INVALID ∨ (attValLoop e b p).tok = .DATA_CHARS ∧ Rem e p b (attValLoop e b p).next := by
  have key (b : Buf) (p k : Nat) (h : Wh e b) (hb : ¬ b.length < e.mb) (hc : e.charLen b = k) (hp : 0 < p)
      (ih : 0 < p + k → Wh e (b.drop k) → (attValLoop e (b.drop k) (p + k)).tok = .INVALID ∨ (attValLoop e (b.drop k) (p + k)).tok = .DATA_CHARS ∧ Rem e (p + k) (b.drop k) (attValLoop e (b.drop k) (p + k)).next) :
      (attValLoop e (b.drop k) (p + k)).tok = .INVALID ∨ (attValLoop e (b.drop k) (p + k)).tok = .DATA_CHARS ∧ Rem e p b (attValLoop e (b.drop k) (p + k)).next := by
    obtain ⟨h1, h2⟩ := lead_wh h hb hc
    exact (ih (by omega) h1).imp id fun ⟨i1, i2⟩ => ⟨i1, h2 _ _ i2⟩
  fun_induction attValLoop e b p <;>
    first
    | exact .inl rfl
    | exact .inr ⟨rfl, .here _ h⟩
    | omega
    | (refine key _ _ _ h ‹_› ?_ hp ‹_›; simp_all [Enc.charLen]; done)
    | (refine key _ _ _ h ‹_› (charLen_one ?_ ?_ ?_) hp ‹_› <;> assumption)

/-- What a token of a value is like: the end, an error, or progress to another place of the same kind. -/
inductive VTok (att : Bool) (e : Enc) (b : Buf) (r : Res) : Prop where
  | none (h : r.tok = .NONE) (hb : b = [])
  | bad (h : r.tok = .PARTIAL ∨ r.tok = .INVALID)
  | pe (h : r.tok = .PARAM_ENTITY_REF) (ha : att = false)
  | cr (h : r.tok = .TRAILING_CR) (hr : Rem e 0 b e.mb)
  | next (h : r.tok = .ENTITY_REF ∨ r.tok = .CHAR_REF ∨ r.tok = .DATA_CHARS ∨ r.tok = .DATA_NEWLINE ∨ att = true ∧ r.tok = .ATTRIBUTE_VALUE_S) (h0 : 0 < r.next) (hr : Rem e 0 b r.next)

theorem Rem.le {e : Enc} {p n : Nat} {b : Buf} (h : Rem e p b n) : p ≤ n := by
  obtain ⟨k, rfl, _⟩ := h; omega

theorem ref_seen {att : Bool} {e : Enc} {asc : UInt8 → Buf} (s : Supported e asc) {b : Buf} (h : Wh e b) (hb : ¬ b.length < e.mb) (hs : e.bt b = .AMP) :
    VTok att e b (scanRef e (b.drop e.mb) e.mb) := by
  have hw := h.one hb (by simp [hs]) (by simp [hs]) (by simp [hs])
  obtain ⟨i1, i2⟩ := scanRef_wh s _ e.mb hw
  have i3 := scanRef_tok e (b.drop e.mb) e.mb
  have key : ¬ (scanRef e (b.drop e.mb) e.mb).tok.fail → 0 < (scanRef e (b.drop e.mb) e.mb).next ∧ Rem e 0 b (scanRef e (b.drop e.mb) e.mb).next := by
    intro hf
    have hr := i2.resolve_left hf
    refine ⟨Nat.lt_of_lt_of_le (Nat.succ_pos _) hr.le, Rem.one h hb (by simp [hs]) (by simp [hs]) (by simp [hs]) ?_⟩
    rw [Nat.zero_add]; exact hr
  rcases i3 with (i3 | i3 | i3) | i3 | i3
  · exact .bad (.inr i3)
  · exact .bad (.inl i3)
  · exact absurd i3 i1
  · have := key (by simp [i3, Tok.fail]); exact .next (.inr (.inl i3)) this.1 this.2
  · have := key (by simp [i3, Tok.fail]); exact .next (.inl i3) this.1 this.2

theorem cr_seen {att : Bool} {e : Enc} {b : Buf} (h : Wh e b) (hb : ¬ b.length < e.mb) (hs : e.bt b = .CR) :
    VTok att e b (if (b.drop e.mb).length < e.mb then ⟨.TRAILING_CR, 0⟩
      else if e.bt (b.drop e.mb) = .LF then ⟨.DATA_NEWLINE, 2 * e.mb⟩ else ⟨.DATA_NEWLINE, e.mb⟩) := by
  have hw := h.one hb (by simp [hs]) (by simp [hs]) (by simp [hs])
  have h1 : Rem e 0 b e.mb := Rem.one h hb (by simp [hs]) (by simp [hs]) (by simp [hs]) (by rw [Nat.zero_add]; exact .here _ hw)
  have hmb : 0 < e.mb := Nat.succ_pos _
  split
  · exact .cr rfl h1
  · rename_i hb'
    split
    · rename_i hl
      refine .next (by simp) (by show 0 < 2 * e.mb; omega) (Rem.one h hb (by simp [hs]) (by simp [hs]) (by simp [hs]) ?_)
      refine Rem.one hw hb' (by simp [hl]) (by simp [hl]) (by simp [hl]) ?_
      rw [show 2 * e.mb = 0 + e.mb + e.mb by omega]
      exact .here _ (hw.one hb' (by simp [hl]) (by simp [hl]) (by simp [hl]))
    · exact .next (by simp) hmb h1

theorem entTok_seen {e : Enc} {asc : UInt8 → Buf} (s : Supported e asc) {b : Buf} (h : Wh e b) : VTok false e b (entityValueTok e b) := by
  have hmb : 0 < e.mb := Nat.succ_pos _
  rw [entityValueTok]
  split
  · rename_i h0; exact .none rfl (by simpa using h0)
  · split
    · exact .bad (.inl rfl)
    · rename_i hb
      rw [entValLoop.eq_def, if_neg hb]
      have one (h2 : e.bt b ≠ .LEAD2) (h3 : e.bt b ≠ .LEAD3) (h4 : e.bt b ≠ .LEAD4) : VTok false e b (entValLoop e (b.drop e.mb) (0 + e.mb)) := by
        obtain ⟨i1, i2⟩ := entValLoop_wh _ (0 + e.mb) (by omega) (h.one hb h2 h3 h4)
        exact .next (.inr (.inr (.inl i1))) (Nat.lt_of_lt_of_le (by omega) i2.le) (Rem.one h hb h2 h3 h4 i2)
      have lead (hc : 0 < e.charLen b) : VTok false e b (entValLoop e (b.drop (e.charLen b)) (0 + e.charLen b)) := by
        obtain ⟨i1, i2⟩ := entValLoop_wh _ (0 + e.charLen b) (by omega) (h.inv hb).2.2
        exact .next (.inr (.inr (.inl i1))) (Nat.lt_of_lt_of_le (by omega) i2.le) (Rem.step h hb i2)
      split
      · rename_i hs; have hc : e.charLen b = 2 := by rw [Enc.charLen, hs]
        rw [hc] at lead; exact lead (by decide)
      · rename_i hs; have hc : e.charLen b = 3 := by rw [Enc.charLen, hs]
        rw [hc] at lead; exact lead (by decide)
      · rename_i hs; have hc : e.charLen b = 4 := by rw [Enc.charLen, hs]
        rw [hc] at lead; exact lead (by decide)
      · rename_i hs; rw [if_pos rfl]; exact ref_seen s h hb hs
      · rename_i hs
        rw [if_pos rfl]
        have := scanPercent_wh _ e.mb (h.one hb (by simp [hs]) (by simp [hs]) (by simp [hs]))
        dsimp only
        split
        · exact .bad (.inr rfl)
        · rename_i hn
          rcases this with i | i | i | i
          · exact .bad (.inl i)
          · exact .bad (.inr i)
          · exact absurd i hn
          · exact .pe i rfl
      · rename_i hs
        rw [if_pos rfl]
        exact .next (by simp) hmb (Rem.one h hb (by simp [hs]) (by simp [hs]) (by simp [hs]) (by rw [Nat.zero_add]; exact .here _ (h.one hb (by simp [hs]) (by simp [hs]) (by simp [hs]))))
      · rename_i hs; rw [if_pos rfl]; exact cr_seen h hb hs
      · rename_i h2 h3 h4 _ _ _ _; exact one h2 h3 h4

theorem attTok_seen {e : Enc} {asc : UInt8 → Buf} (s : Supported e asc) {b : Buf} (h : Wh e b) : VTok true e b (attributeValueTok e b) := by
  have hmb : 0 < e.mb := Nat.succ_pos _
  rw [attributeValueTok]
  split
  · rename_i h0; exact .none rfl (by simpa using h0)
  · split
    · exact .bad (.inl rfl)
    · rename_i hb
      rw [attValLoop.eq_def, if_neg hb]
      have one (h2 : e.bt b ≠ .LEAD2) (h3 : e.bt b ≠ .LEAD3) (h4 : e.bt b ≠ .LEAD4) : VTok true e b (attValLoop e (b.drop e.mb) (0 + e.mb)) := by
        rcases attValLoop_wh _ (0 + e.mb) (by omega) (h.one hb h2 h3 h4) with i | ⟨i1, i2⟩
        · exact .bad (.inr i)
        · exact .next (.inr (.inr (.inl i1))) (Nat.lt_of_lt_of_le (by omega) i2.le) (Rem.one h hb h2 h3 h4 i2)
      have lead (hc : 0 < e.charLen b) : VTok true e b (attValLoop e (b.drop (e.charLen b)) (0 + e.charLen b)) := by
        rcases attValLoop_wh _ (0 + e.charLen b) (by omega) (h.inv hb).2.2 with i | ⟨i1, i2⟩
        · exact .bad (.inr i)
        · exact .next (.inr (.inr (.inl i1))) (Nat.lt_of_lt_of_le (by omega) i2.le) (Rem.step h hb i2)
      split
      · rename_i hs; have hc : e.charLen b = 2 := by rw [Enc.charLen, hs]
        rw [hc] at lead; exact lead (by decide)
      · rename_i hs; have hc : e.charLen b = 3 := by rw [Enc.charLen, hs]
        rw [hc] at lead; exact lead (by decide)
      · rename_i hs; have hc : e.charLen b = 4 := by rw [Enc.charLen, hs]
        rw [hc] at lead; exact lead (by decide)
      · rename_i hs; rw [if_pos rfl]; exact ref_seen s h hb hs
      · exact .bad (.inr rfl)
      · rename_i hs
        rw [if_pos rfl]
        exact .next (by simp) hmb (Rem.one h hb (by simp [hs]) (by simp [hs]) (by simp [hs]) (by rw [Nat.zero_add]; exact .here _ (h.one hb (by simp [hs]) (by simp [hs]) (by simp [hs]))))
      · rename_i hs; rw [if_pos rfl]; exact cr_seen h hb hs
      · rename_i hs
        rw [if_pos rfl]
        exact .next (by simp) hmb (Rem.one h hb (by simp [hs]) (by simp [hs]) (by simp [hs]) (by rw [Nat.zero_add]; exact .here _ (h.one hb (by simp [hs]) (by simp [hs]) (by simp [hs]))))
      · rename_i h2 h3 h4 _ _ _ _ _; exact one h2 h3 h4

/-! ### Entity values -/

theorem Rem.shrink {e : Enc} {n : Nat} {b : Buf} (h0 : 0 < n) (h : Rem e 0 b n) :
    (b.drop n).length < b.length ∧ Wh e (b.drop n) ∧ (e.mb ∣ (b.drop n).length → e.mb ∣ b.length) := by
  obtain ⟨k, rfl, h2, h3, h4⟩ := h
  rw [Nat.zero_add] at *
  rw [List.length_drop]
  refine ⟨by omega, h4, fun h5 => ?_⟩
  rw [show b.length = b.length - k + k by omega]
  exact Nat.dvd_add h5 h3

/-- Outside parameter entities: an entity value is refused for its own faults, and if it is accepted it consists of whole
code units. -/
theorem ev_inner {c : PCfg} (hc : c.isPE = false) {ext : Ext} {pe : PEParsing} {x : XEnc} {asc : UInt8 → Buf} (s : XSupported x asc)
    (rec : Buf → Shared → Buf → Buf → EVal) (opened : List Buf) (n : Nat) : ∀ b, b.length = n → Wh x.e b → ∀ (sh : Shared) (pool : Buf),
    (∀ q, (evLoop c ext pe x false rec opened sh pool b).err = some q → q.inner = false ∧ q ≠ .DIVERGED) ∧
    ((evLoop c ext pe x false rec opened sh pool b).err = none → x.e.mb ∣ b.length) := by
  induction n using Nat.strongRecOn with
  | _ n ih =>
    intro b hb hw sh pool
    have hmb : 0 < x.e.mb := Nat.succ_pos _
    have go (m : Nat) (h0 : 0 < m) (hr : Rem x.e 0 b m) (E : List PEv) (p : Buf)
        (hst : evStep c ext pe x false rec opened sh pool b = .next m E sh p) :
        (∀ q, (evLoop c ext pe x false rec opened sh pool b).err = some q → q.inner = false ∧ q ≠ .DIVERGED) ∧
        ((evLoop c ext pe x false rec opened sh pool b).err = none → x.e.mb ∣ b.length) := by
      obtain ⟨h1, h2, h3⟩ := hr.shrink h0
      rw [evLoop, hst]
      simp only [if_pos h1]
      obtain ⟨i1, i2⟩ := ih _ (hb ▸ h1) _ rfl h2 sh p
      exact ⟨i1, fun h => h3 (i2 h)⟩
    have stop (v : EVal) (hv : ∃ q, v.err = some q ∧ q.inner = false ∧ q ≠ .DIVERGED)
        (hst : evStep c ext pe x false rec opened sh pool b = .stop v) :
        (∀ q, (evLoop c ext pe x false rec opened sh pool b).err = some q → q.inner = false ∧ q ≠ .DIVERGED) ∧
        ((evLoop c ext pe x false rec opened sh pool b).err = none → x.e.mb ∣ b.length) := by
      rw [evLoop, hst]
      obtain ⟨q, h1, h2⟩ := hv
      simp only [h1]
      exact ⟨fun _ h => by cases h; exact h2, fun h => by cases h⟩
    cases entTok_seen s.s hw with
    | none h h0 =>
      rw [evLoop]
      simp only [evStep, h]
      subst h0
      exact ⟨fun _ h => (by cases h), fun _ => Nat.dvd_zero _⟩
    | bad h =>
      refine stop ⟨[], sh, pool, some .INVALID_TOKEN⟩ ⟨_, rfl, rfl, by simp⟩ ?_
      rcases h with h | h <;> simp only [evStep, h]
    | pe h _ =>
      refine stop ⟨[], sh, pool, some .PARAM_ENTITY_REF⟩ ⟨_, rfl, rfl, by simp⟩ ?_
      simp [evStep, h, hc]
    | cr h hr => exact go _ hmb hr [] (pool ++ [0x0A]) (by simp only [evStep, h])
    | next h h0 hr =>
      rcases h with h | h | h | h | h
      · exact go _ h0 hr [] (pool ++ converted x (b.take (entityValueTok x.e b).next)) (by simp only [evStep, h])
      · by_cases hn : charRefNumber x.e b < 0
        · exact stop ⟨[], sh, pool, some .BAD_CHAR_REF⟩ ⟨_, rfl, rfl, by simp⟩ (by simp only [evStep, h]; rw [if_pos hn])
        · exact go _ h0 hr [] (pool ++ xmlUtf8Encode (charRefNumber x.e b)) (by simp only [evStep, h]; rw [if_neg hn])
      · exact go _ h0 hr [] (pool ++ converted x (b.take (entityValueTok x.e b).next)) (by simp only [evStep, h])
      · exact go _ h0 hr [] (pool ++ [0x0A]) (by simp only [evStep, h])
      · exact absurd h.1 (by simp)

theorem store_ev {c : PCfg} (hc : c.isPE = false) {ext : Ext} {pe : PEParsing} {x : XEnc} {asc : UInt8 → Buf} (s : XSupported x asc)
    (fuel : Nat) (opened : List Buf) (sh : Shared) {pool b : Buf} (hw : Wh x.e b) :
    (∀ q, (storeEntityValue c ext pe fuel x false opened sh pool b).err = some q → q.inner = false ∧ q ≠ .DIVERGED) ∧
    ((storeEntityValue c ext pe fuel x false opened sh pool b).err = none → x.e.mb ∣ b.length) := by
  cases fuel with
  | zero => exact ev_inner hc s _ _ _ b rfl hw sh pool
  | succ k => exact ev_inner hc s _ _ _ b rfl hw sh pool

/-! ### Default values of attributes -/

/-- The evaluation of a value does not end in an error reserved for malfunctions. -/
theorem attr_wh {D : Dtd} {check : Bool} {int : XEnc} {isCdata : Bool} (hi : XSupported int asc1)
    (hie : int.e.lineEnds asc1 = false) (hD : C33.TextsOk D int) {x : XEnc} {asc : UInt8 → Buf} (s : XSupported x asc) (op : List Buf) (n : Nat) :
    ∀ b, b.length = n → Wh x.e b → ∀ pool e, C34.attr D check int isCdata x op pool b = .error e → e.inner = false := by
  induction n using Nat.strongRecOn with
  | _ n ih =>
    intro b hb hw pool q h
    have hmb : 0 < x.e.mb := Nat.succ_pos _
    rw [C34.attr_recursion] at h
    have go (m : Nat) (h0 : 0 < m) (hr : Rem x.e 0 b m) (p : Buf)
        (hst : attrStep D check x isCdata (fun n p t => C34.attr D check int isCdata int (n :: op) p t) op pool b = .next m p) : q.inner = false := by
      obtain ⟨h1, h2, _⟩ := hr.shrink h0
      rw [attrLoop, hst] at h
      simp only [if_pos h1] at h
      rw [← C34.attr_recursion] at h
      exact ih _ (hb ▸ h1) _ rfl h2 _ _ h
    have stop (v : XErr) (hv : v.inner = false)
        (hst : attrStep D check x isCdata (fun n p t => C34.attr D check int isCdata int (n :: op) p t) op pool b = .fail v) : q.inner = false := by
      rw [attrLoop, hst] at h
      cases h
      exact hv
    cases attTok_seen s.s hw with
    | none h' h0 =>
      rw [attrLoop] at h
      simp only [attrStep, h'] at h
      cases h
    | bad h' =>
      refine stop .INVALID_TOKEN rfl ?_
      rcases h' with h | h <;> simp only [attrStep, h]
    | pe _ h' => cases h'
    | cr h' hr => exact go _ hmb hr (pushSpace isCdata pool) (by simp only [attrStep, h'])
    | next h' h0 hr =>
      rcases h' with h' | h' | h' | h' | ⟨_, h'⟩
      · cases hst : attrStep D check x isCdata (fun n p t => C34.attr D check int isCdata int (n :: op) p t) op pool b with
        | done => rw [attrLoop, hst] at h; cases h
        | next m p => 
          have : m = (attributeValueTok x.e b).next := by
            simp only [attrStep, h'] at hst
            repeat' split at hst
            all_goals first | (injection hst with h1 h2; exact h1.symm) | cases hst
          exact go m (this ▸ h0) (this ▸ hr) p hst
        | fail v =>
          refine stop v ?_ hst
          simp only [attrStep, h'] at hst
          split at hst
          · cases hst
          · split at hst
            · split at hst <;> cases hst; rfl
            · rename_i ent hd
              split at hst
              · cases hst; rfl
              · split at hst
                · cases hst; rfl
                · rename_i ho
                  split at hst
                  · cases hst; rfl
                  · split at hst
                    · cases hst; rfl
                    · rename_i t ht
                      split at hst
                      · rename_i hv
                        cases hst
                        exact attr_inner hi hie hD _ _ (Nat.le_refl _) int asc1 hi _ t rfl (hD _ _ _ hd ht) _ _ hv
                      · cases hst
      · cases hst : attrStep D check x isCdata (fun n p t => C34.attr D check int isCdata int (n :: op) p t) op pool b with
        | done => rw [attrLoop, hst] at h; cases h
        | next m p =>
          have : m = (attributeValueTok x.e b).next := by
            simp only [attrStep, h'] at hst
            repeat' split at hst
            all_goals first | (injection hst with h1 h2; exact h1.symm) | cases hst
          exact go m (this ▸ h0) (this ▸ hr) p hst
        | fail v =>
          refine stop v ?_ hst
          simp only [attrStep, h'] at hst
          repeat' split at hst
          all_goals cases hst
          rfl
      · exact go _ h0 hr (pool ++ converted x (b.take (attributeValueTok x.e b).next)) (by simp only [attrStep, h'])
      · exact go _ h0 hr (pushSpace isCdata pool) (by simp only [attrStep, h'])
      · exact go _ h0 hr (pushSpace isCdata pool) (by simp only [attrStep, h'])

theorem store_wh {D : Dtd} {check : Bool} {ns isCdata : Bool} (hD : C33.TextsOk D (internalUtf8X ns)) {x : XEnc} {asc : UInt8 → Buf}
    (s : XSupported x asc) {op : List Buf} {b : Buf} (hw : Wh x.e b) {e : XErr}
    (h : storeAttributeValue D check (internalUtf8X ns) x isCdata op b = .error e) : e.inner = false ∧ e ≠ .DIVERGED := by
  refine ⟨?_, fun he => ?_⟩
  · rw [storeAttributeValue] at h
    split at h
    · rename_i e' h'
      cases h
      exact attr_wh (.internalUtf8 ns) (C33.line_ends_internal ns) hD s op _ b rfl hw _ _ h'
    · cases h
  · exact C34.store_ne _ _ _ _ _ _ _ (he ▸ h)

end Verif
