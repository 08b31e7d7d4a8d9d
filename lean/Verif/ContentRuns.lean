import Verif.Grammar

/-! Single steps of the content loops of the parser, for the text each construct of the grammar has. -/

set_option autoImplicit false

namespace Verif
open C43 C53 Spec C04

/-- All handlers are set, except for the default handler; internal entities are expanded. -/
structure AllSet (c : Cfg) : Prop where
  startElement : c.startElement = true
  endElement : c.endElement = true
  chars : c.chars = true
  pi : c.pi = true
  comment : c.comment = true
  startCdata : c.startCdata = true
  endCdata : c.endCdata = true
  startNs : c.startNs = true
  endNs : c.endNs = true
  skipped : c.skipped = true
  externalRef : c.externalRef = true
  dflt : c.dflt = false
  expandInternal : c.expandInternal = true

/-- The result `r` is the result `q` with the events `E` before. -/
def After (E : List Ev) (q r : Ran CState) : Prop :=
  r.2 = q.2 ∧ ∀ s rest, q.2 = .ok s rest → flat r.1 = E ++ flat q.1

theorem After.pre {E E' : List Ev} (q : Ran CState) (h : flat E' = E) : After E q (Verif.pre E' q) := by
  refine ⟨rfl, fun s rest _ => ?_⟩
  rw [Verif.pre, flat_append, h]

theorem After.trans {E1 E2 : List Ev} {p q r : Ran CState} (h : After E1 q r) (h2 : After E2 p q) :
    After (E1 ++ E2) p r := by
  refine ⟨h.1.trans h2.1, fun s rest hp => ?_⟩
  rw [h.2 s rest (h2.1.trans hp), h2.2 s rest hp, List.append_assoc]

theorem conv_one {x asc} (s : XSupported x asc) {w : Buf} (hw : x.e.IsChar w) (hu : x.isUtf8 = true) :
    converted x w = w := by
  cases s with
  | utf8 ns => exact utf8_id ((utf8Enc_isChar ns w).1 hw)
  | internalUtf8 ns => exact utf8_id ((internalUtf8Enc_isChar ns w).1 hw)
  | latin1 ns => cases hu
  | ascii ns =>
    have hl : w.length = 1 := by
      have hL : ∀ a : UInt8, ∀ ns, (asciiEnc ns).bt [a] ≠ .LEAD2 ∧ (asciiEnc ns).bt [a] ≠ .LEAD3 ∧ (asciiEnc ns).bt [a] ≠ .LEAD4 := by
        intro a ns
        cases ns
        · exact UInt8.forall_dec (P := fun a => (asciiEnc false).bt [a] ≠ .LEAD2 ∧ (asciiEnc false).bt [a] ≠ .LEAD3 ∧ (asciiEnc false).bt [a] ≠ .LEAD4) (by decide +kernel) a
        · exact UInt8.forall_dec (P := fun a => (asciiEnc true).bt [a] ≠ .LEAD2 ∧ (asciiEnc true).bt [a] ≠ .LEAD3 ∧ (asciiEnc true).bt [a] ≠ .LEAD4) (by decide +kernel) a
      have hl := Enc.isChar_len (e := asciiEnc ns) (show (1 : Nat) ≤ 2 by omega) hw
      cases w with
      | nil => exact absurd hl (by change ¬ (1 : Nat) ≤ 0; omega)
      | cons a w =>
        have hb : (asciiEnc ns).bt (a :: w) = (asciiEnc ns).bt [a] := (byteEncOf_ok _).bt_app [a] w (Nat.le_refl 1)
        have hlead : (asciiEnc ns).isLead (a :: w) = false := by
          rw [Enc.isLead, hb]
          have := hL a ns
          generalize (asciiEnc ns).bt [a] = t at *
          cases t <;> simp_all
        exact Enc.isChar_len_nl (e := asciiEnc ns) hw hlead
    match w, hl with
    | [d], _ =>
      simp only [converted, asciiX, asciiConvert]
      rw [loop1 (w := [d]) (o := [d]) (k := 0) (by simp) (by simp [asciiConvStep, byteAt]) rfl]
  | utf16le ns => cases hu
  | utf16be ns => cases hu

theorem pieces_char {x asc} (s : XSupported x asc) {w : Buf} (hw : x.e.IsChar w) :
    (pieces x w).flatten = converted x w := by
  rw [pieces_flatten s]
  split
  · exact (conv_one s hw (by assumption)).symm
  · rfl

section
variable {c : Cfg} {D : Dtd} {int x : XEnc} {asc : UInt8 → Buf} {k : Nat} {opened : List Buf} {start : Nat}

theorem sem_go (s : CState) : (sem c D int k x opened start).stop s = .go := by cases k <;> rfl
theorem sem_mode (s : CState) : (sem c D int k x opened start).mode s = s.mode := by cases k <;> rfl

theorem run_act {e : Enc} {v : Bool} {s s' : CState} {b : Buf} {t : Tok} {n : Nat} {E : List Ev}
    (ht : s.mode.tok e b = ⟨t, n⟩) (hv : s.mode.verdict t = .act)
    (ha : (sem c D int k x opened start).act s t (b.take n) = (E, .ok s')) :
    run (sem c D int k x opened start) e false v s b =
      pre E (run (sem c D int k x opened start) e false false s' (b.drop n)) := by
  have hp := verdict_progress (e := e) (m := s.mode) (b := b) (by rw [ht]; exact hv)
  rw [ht] at hp
  rw [run_go sem_go, sem_mode, ht]
  simp only [hv, ha]
  rw [if_pos hp]

theorem run_act_err {e : Enc} {v : Bool} {s : CState} {b : Buf} {t : Tok} {n : Nat} {E : List Ev} {err : XErr}
    (ht : s.mode.tok e b = ⟨t, n⟩) (hv : s.mode.verdict t = .act)
    (ha : (sem c D int k x opened start).act s t (b.take n) = (E, .error err)) :
    run (sem c D int k x opened start) e false v s b = (E, .err err) := by
  rw [run_go sem_go, sem_mode, ht]
  simp only [hv, ha]

theorem act_data (a : AllSet c) (s : CState) (w : Buf) :
    (sem c D int k x opened start).act s .DATA_CHARS w = ((pieces x w).map .chars, .ok s) := by
  cases k <;> simp [sem, semOf, act, toChars, a.chars]

theorem act_newline (a : AllSet c) (s : CState) (w : Buf) :
    (sem c D int k x opened start).act s .DATA_NEWLINE w = ([.chars [0x0A]], .ok s) := by
  cases k <;> simp [sem, semOf, act, toChars, a.chars]

variable (S : XSupported x asc) (a : AllSet c)
include S a

/-- A character of data in content. -/
theorem run_char {s : CState} (hm : s.mode = .content) {w b : Buf} (hw : x.e.Plain asc w) (h1 : w ≠ asc 0x3C)
    (h2 : w ≠ asc 0x26) (h5 : ¬ StartsClose asc (w ++ b)) (hd : x.e.mb ∣ b.length) :
    After (textEvs (converted x w)) (run (sem c D int k x opened start) x.e false false s b)
      (run (sem c D int k x opened start) x.e false false s (w ++ b)) := by
  have hcr := hw.cr (fun w h h' => cr_asc S.s h h')
  have hdw : x.e.mb ∣ w.length := S.s.dvd hw.1
  have hdwb : x.e.mb ∣ (w ++ b).length := by rw [List.length_append]; exact Nat.dvd_add hdw hd
  have hfl : ∀ u, flat ((pieces x (w ++ u)).map .chars) = textEvs (converted x w) ++ flat ((pieces x u).map .chars) := by
    intro u
    have h := pieces_app S (ws := [w]) (by intro v hv; simp at hv; subst hv; exact hw.1) u
    simp only [List.flatten_cons, List.flatten_nil, List.append_nil] at h
    rw [flat_chars, h, flat_chars, pieces_char S hw.1, List.map_append]; rfl
  have hfl0 : flat ((pieces x w).map .chars) = textEvs (converted x w) := by
    rw [flat_chars, pieces_char S hw.1]; rfl
  have tokc : ∀ b, s.mode.tok x.e b = contentTok x.e b := by intro b; rw [hm]; rfl
  rcases content_char S.s hw.1 h1 h2 hw.2.1 hcr h5 hdwb with h | ⟨rfl, hb, h⟩
  · rcases content_loop_tok S.s b hd with h6 | h6
    · rw [h6] at h
      rw [run_act (n := w.length) (E := (pieces x w).map .chars) (s' := s) ((tokc _).trans h) (by rw [hm]; rfl)
        (by rw [act_data a, List.take_left' rfl]), List.drop_left' rfl]
      exact .pre _ hfl0
    · rcases contentLoop_tok x.e b 0 with h7 | h7
      · generalize contentLoop x.e b 0 = q at *
        obtain ⟨t, m⟩ := q
        simp only at h7; subst h7
        rw [Res.shift] at h
        rw [run_act (n := w.length + m) (E := (pieces x (w ++ b.take m)).map .chars) (s' := s) ((tokc _).trans h) (by rw [hm]; rfl)
          (by rw [act_data a, List.take_length_add_append]), run_act (n := m) (E := (pieces x (b.take m)).map .chars) (s' := s) ((tokc _).trans h6) (by rw [hm]; rfl)
          (by rw [act_data a]), List.drop_length_add_append]
        refine ⟨rfl, fun _ _ _ => ?_⟩
        simp only [pre, flat_append, hfl, List.append_assoc]
      · generalize contentLoop x.e b 0 = q at *
        obtain ⟨t, m⟩ := q
        simp only at h7; subst h7
        have e1 : ∀ b n, contentTok x.e b = ⟨.INVALID, n⟩ → run (sem c D int k x opened start) x.e false false s b = ([], .err .INVALID_TOKEN) := by
          intro b n h
          rw [run_go sem_go, sem_mode, tokc, h, hm]
          rfl
        rw [e1 _ _ h6, e1 _ _ h]
        exact ⟨rfl, fun _ _ h => by cases h⟩
  · have e1 : ∀ b, contentTok x.e b = ⟨.TRAILING_RSQB, 0⟩ → run (sem c D int k x opened start) x.e false false s b =
        ((pieces x b).map .chars, finish (sem c D int k x opened start) s []) := by
      intro b h
      rw [run_go sem_go, sem_mode, tokc, h, hm]
      simp only [Mode.verdict, act_data a]; rfl
    rw [e1 _ h]
    rcases hb with rfl | rfl
    · have e0 : run (sem c D int k x opened start) x.e false false s [] = ([], finish (sem c D int k x opened start) s []) := by
        rw [run_go sem_go, sem_mode, tokc, show contentTok x.e [] = ⟨.NONE, 0⟩ from rfl, hm]
        rfl
      rw [e0]
      refine ⟨rfl, fun _ _ _ => ?_⟩
      simp only [List.append_nil]
      exact hfl0.trans (by simp [flat])
    · rw [e1 (asc 0x5D)]
      · refine ⟨rfl, fun _ _ _ => ?_⟩
        exact hfl _
      · have hd1 := asc_char S.s (t := .RSQB) rfl
        have := content_char S.s (b := []) hw.1 h1 h2 hw.2.1 hcr (by
          rintro ⟨r, hr⟩
          have := congrArg List.length hr
          have l := S.s.asc.len
          simp only [List.length_append, l, List.length_nil] at this
          have : 0 < x.e.mb := Nat.succ_pos _
          omega) (by rw [List.append_nil]; exact hdw)
        rw [List.append_nil] at this
        rcases this with h9 | ⟨-, -, h9⟩
        · exfalso
          have l := S.s.asc.len 0x5D
          rw [contentTok_eq (by rw [l]; omega), trunc_whole S.s hdw, contentTokBody] at h9
          have hi := invalidCases_asc S.s (t := .RSQB) rfl [] 0
          have hbt := asc_bt S.s (t := .RSQB) rfl []
          rw [List.append_nil] at hi hbt
          rw [hi] at h9
          simp only [hbt] at h9
          rw [List.drop_of_length_le (by omega), if_pos (show ([] : Buf).length < x.e.mb from Nat.succ_pos _), contentLoop, if_pos (show ([] : Buf).length < x.e.mb from Nat.succ_pos _)] at h9
          cases h9
        · exact h9


/-! ### Line ends in content -/

omit S in
theorem run_nil {s : CState} (hm : s.mode = .content) :
    run (sem c D int k x opened start) x.e false false s [] = ([], finish (sem c D int k x opened start) s []) := by
  rw [run_go sem_go, sem_mode, hm, show Mode.tok .content x.e [] = ⟨.NONE, 0⟩ from rfl]
  rfl

omit S in
theorem run_newline {s : CState} {w b : Buf} (hv : s.mode.verdict .DATA_NEWLINE = .act)
    (h : s.mode.tok x.e (w ++ b) = ⟨.DATA_NEWLINE, w.length⟩) :
    After (textEvs [0x0A]) (run (sem c D int k x opened start) x.e false false s b)
      (run (sem c D int k x opened start) x.e false false s (w ++ b)) := by
  rw [run_act (n := w.length) (E := [.chars [0x0A]]) (s' := s) h hv (by rw [act_newline a]), List.drop_left' rfl]
  exact .pre _ rfl

theorem run_lf {s : CState} (hm : s.mode = .content) {b : Buf} (hd : x.e.mb ∣ b.length) :
    After (textEvs [0x0A]) (run (sem c D int k x opened start) x.e false false s b)
      (run (sem c D int k x opened start) x.e false false s (asc 0x0A ++ b)) := by
  refine run_newline a (by rw [hm]; rfl) ?_
  rw [hm, S.s.asc.len]
  exact content_lf S.s (by rw [List.length_append, S.s.asc.len]; exact Nat.dvd_add (Nat.dvd_refl _) hd)

theorem run_crlf {s : CState} (hm : s.mode = .content) {b : Buf} (hl : x.e.lineEnds asc = true) (hd : x.e.mb ∣ b.length) :
    After (textEvs [0x0A]) (run (sem c D int k x opened start) x.e false false s b)
      (run (sem c D int k x opened start) x.e false false s (asc 0x0D ++ (asc 0x0A ++ b))) := by
  rw [← List.append_assoc]
  refine run_newline a (by rw [hm]; rfl) ?_
  rw [hm, List.length_append, S.s.asc.len, S.s.asc.len, List.append_assoc, ← Nat.two_mul]
  exact content_crlf S.s hl (by
    simp only [List.length_append, S.s.asc.len]
    exact Nat.dvd_add (Nat.dvd_refl _) (Nat.dvd_add (Nat.dvd_refl _) hd))

theorem run_cr {s : CState} (hm : s.mode = .content) {b : Buf} (hl : x.e.lineEnds asc = true)
    (hn : ∀ b', b ≠ asc 0x0A ++ b') (hd : x.e.mb ∣ b.length) :
    After (textEvs [0x0A]) (run (sem c D int k x opened start) x.e false false s b)
      (run (sem c D int k x opened start) x.e false false s (asc 0x0D ++ b)) := by
  rcases content_cr S.s hl (by rw [List.length_append, S.s.asc.len]; exact Nat.dvd_add (Nat.dvd_refl _) hd) hn with ⟨rfl, h⟩ | h
  · rw [run_nil a hm, run_go sem_go, sem_mode, hm, show Mode.tok .content x.e _ = contentTok x.e _ from rfl, h]
    simp only [Mode.verdict, act_newline a]
    exact ⟨rfl, fun _ _ _ => rfl⟩
  · refine run_newline a (by rw [hm]; rfl) ?_
    rw [hm, S.s.asc.len]
    exact h

/-! ### CDATA sections -/

theorem run_cdata_char {s : CState} (hm : s.mode = .cdata) {w b : Buf} (hw : x.e.Plain asc w)
    (h5 : ¬ StartsClose asc (w ++ b)) (hd : x.e.mb ∣ b.length) :
    After (textEvs (converted x w)) (run (sem c D int k x opened start) x.e false false s b)
      (run (sem c D int k x opened start) x.e false false s (w ++ b)) := by
  have hcr := hw.cr (fun w h h' => cr_asc S.s h h')
  have hdw : x.e.mb ∣ w.length := S.s.dvd hw.1
  have hdwb : x.e.mb ∣ (w ++ b).length := by rw [List.length_append]; exact Nat.dvd_add hdw hd
  have hfl : ∀ u, flat ((pieces x (w ++ u)).map .chars) = textEvs (converted x w) ++ flat ((pieces x u).map .chars) := by
    intro u
    have h := pieces_app S (ws := [w]) (by intro v hv; simp at hv; subst hv; exact hw.1) u
    simp only [List.flatten_cons, List.flatten_nil, List.append_nil] at h
    rw [flat_chars, h, flat_chars, pieces_char S hw.1, List.map_append]; rfl
  have hfl0 : flat ((pieces x w).map .chars) = textEvs (converted x w) := by
    rw [flat_chars, pieces_char S hw.1]; rfl
  have tokc : ∀ b, s.mode.tok x.e b = cdataSectionTok x.e b := by intro b; rw [hm]; rfl
  have part : ∀ b n, cdataSectionTok x.e b = ⟨.PARTIAL, n⟩ ∨ cdataSectionTok x.e b = ⟨.NONE, n⟩ →
      run (sem c D int k x opened start) x.e false false s b = ([], .err .UNCLOSED_CDATA_SECTION) := by
    intro b n h
    rw [run_go sem_go, sem_mode, tokc]
    rcases h with h | h <;> rw [h, hm] <;> rfl
  rcases cdata_char S.s hw.1 hw.2.1 hcr h5 hdwb with h | ⟨rfl, hb, h⟩
  · rcases cdata_loop_tok S.s b hd with h6 | h6
    · rw [h6] at h
      rw [run_act (n := w.length) (E := (pieces x w).map .chars) (s' := s) ((tokc _).trans h) (by rw [hm]; rfl)
        (by rw [act_data a, List.take_left' rfl]), List.drop_left' rfl]
      exact .pre _ hfl0
    · have h7 := cdataLoop_tok x.e b 0
      generalize cdataLoop x.e b 0 = q at *
      obtain ⟨t, m⟩ := q
      simp only at h7; subst h7
      rw [Res.shift] at h
      rw [run_act (n := w.length + m) (E := (pieces x (w ++ b.take m)).map .chars) (s' := s) ((tokc _).trans h) (by rw [hm]; rfl)
        (by rw [act_data a, List.take_length_add_append]), run_act (n := m) (E := (pieces x (b.take m)).map .chars) (s' := s) ((tokc _).trans h6) (by rw [hm]; rfl)
        (by rw [act_data a]), List.drop_length_add_append]
      refine ⟨rfl, fun _ _ _ => ?_⟩
      simp only [pre, flat_append, hfl, List.append_assoc]
  · rw [part _ _ (.inl h)]
    rcases hb with rfl | rfl
    · rw [part [] 0 (.inr rfl)]
      exact ⟨rfl, fun _ _ h => by cases h⟩
    · have h0 : cdataSectionTok x.e (asc 0x5D) = ⟨.PARTIAL, 0⟩ := by
        have := cdata_char S.s (b := []) hw.1 hw.2.1 hcr (by
          rintro ⟨r, hr⟩
          have := congrArg List.length hr
          have l := S.s.asc.len
          simp only [List.length_append, l, List.length_nil] at this
          have : 0 < x.e.mb := Nat.succ_pos _
          omega) (by rw [List.append_nil]; exact hdw)
        rw [List.append_nil] at this
        rcases this with h9 | ⟨-, -, h9⟩
        · exfalso
          have l := S.s.asc.len 0x5D
          rw [cdataSectionTok_eq (by rw [l]; omega), trunc_whole S.s hdw, cdataTokBody] at h9
          have hi := invalidCases_asc S.s (t := .RSQB) rfl [] 0
          have hbt := asc_bt S.s (t := .RSQB) rfl []
          rw [List.append_nil] at hi hbt
          rw [hi] at h9
          simp only [hbt] at h9
          rw [List.drop_of_length_le (by omega), if_pos (show ([] : Buf).length < x.e.mb from Nat.succ_pos _), cdataLoop, if_pos (show ([] : Buf).length < x.e.mb from Nat.succ_pos _)] at h9
          cases h9
        · exact h9
      rw [part _ _ (.inl h0)]
      exact ⟨rfl, fun _ _ h => by cases h⟩

theorem run_cdata_lf {s : CState} (hm : s.mode = .cdata) {b : Buf} (hd : x.e.mb ∣ b.length) :
    After (textEvs [0x0A]) (run (sem c D int k x opened start) x.e false false s b)
      (run (sem c D int k x opened start) x.e false false s (asc 0x0A ++ b)) := by
  refine run_newline a (by rw [hm]; rfl) ?_
  rw [hm, S.s.asc.len]
  exact cdata_lf S.s (by rw [List.length_append, S.s.asc.len]; exact Nat.dvd_add (Nat.dvd_refl _) hd)

theorem run_cdata_crlf {s : CState} (hm : s.mode = .cdata) {b : Buf} (hl : x.e.lineEnds asc = true) (hd : x.e.mb ∣ b.length) :
    After (textEvs [0x0A]) (run (sem c D int k x opened start) x.e false false s b)
      (run (sem c D int k x opened start) x.e false false s (asc 0x0D ++ (asc 0x0A ++ b))) := by
  rw [← List.append_assoc]
  refine run_newline a (by rw [hm]; rfl) ?_
  rw [hm, List.length_append, S.s.asc.len, S.s.asc.len, List.append_assoc, ← Nat.two_mul]
  exact cdata_crlf S.s hl (by
    simp only [List.length_append, S.s.asc.len]
    exact Nat.dvd_add (Nat.dvd_refl _) (Nat.dvd_add (Nat.dvd_refl _) hd))

theorem run_cdata_cr {s : CState} (hm : s.mode = .cdata) {b : Buf} (hl : x.e.lineEnds asc = true)
    (hn : ∀ b', b ≠ asc 0x0A ++ b') (hd : x.e.mb ∣ b.length) :
    After (textEvs [0x0A]) (run (sem c D int k x opened start) x.e false false s b)
      (run (sem c D int k x opened start) x.e false false s (asc 0x0D ++ b)) := by
  rcases cdata_cr S.s hl (by rw [List.length_append, S.s.asc.len]; exact Nat.dvd_add (Nat.dvd_refl _) hd) hn with ⟨rfl, h⟩ | h
  · rw [run_go sem_go, sem_mode, hm, show Mode.tok .cdata x.e [] = ⟨.NONE, 0⟩ from rfl,
      run_go sem_go, sem_mode, hm, show Mode.tok .cdata x.e _ = cdataSectionTok x.e _ from rfl, h]
    exact ⟨rfl, fun _ _ h => by cases h⟩
  · refine run_newline a (by rw [hm]; rfl) ?_
    rw [hm, S.s.asc.len]
    exact h

theorem run_cdata_close {s : CState} (hm : s.mode = .cdata) {b : Buf} (hd : x.e.mb ∣ b.length) :
    run (sem c D int k x opened start) x.e false false s (spell asc [0x5D, 0x5D, 0x3E] ++ b) =
      pre [.endCdata] (run (sem c D int k x opened start) x.e false false { s with mode := .content } b) := by
  have hl : (spell asc [0x5D, 0x5D, 0x3E]).length = 3 * x.e.mb := by rw [spell, spell_length S.s]; rfl
  rw [run_act (n := 3 * x.e.mb) (E := [.endCdata]) (s' := { s with mode := .content }) (t := .CDATA_SECT_CLOSE), ← hl, List.drop_left' rfl]
  · rw [hm]
    exact cdata_close S.s (by rw [List.length_append, hl]; exact Nat.dvd_add (Nat.dvd_mul_left _ _) hd)
  · rw [hm]; rfl
  · cases k <;> simp [sem, semOf, act, orDefault, a.endCdata]

omit a in
theorem dvd_rest {w b : Buf} (hw : x.e.mb ∣ w.length) (h : x.e.mb ∣ (w ++ b).length) : x.e.mb ∣ b.length := by
  rw [List.length_append] at h
  exact (Nat.dvd_add_right hw).1 h

omit a in
theorem dvd_asc {d : UInt8} {b : Buf} (h : x.e.mb ∣ (asc d ++ b).length) : x.e.mb ∣ b.length :=
  dvd_rest S (by rw [S.s.asc.len]; exact Nat.dvd_refl _) h

/-- A CDATA section from after its opening: the text reported, then the end of the section. -/
theorem run_cdata {b r : Buf} {E : List Ev} (h : Cdata x asc b E r) : ∀ {s : CState}, s.mode = .content →
    x.e.mb ∣ b.length → x.e.mb ∣ r.length ∧
    After (E ++ [.endCdata]) (run (sem c D int k x opened start) x.e false false s r)
      (run (sem c D int k x opened start) x.e false false { s with mode := .cdata } b) := by
  induction h with
  | close r =>
    intro s hm hd
    have hl : (spell asc [0x5D, 0x5D, 0x3E]).length = 3 * x.e.mb := by rw [spell, spell_length S.s]; rfl
    have hd := dvd_rest S (by rw [hl]; exact Nat.dvd_mul_left _ _) hd
    refine ⟨hd, ?_⟩
    rw [run_cdata_close S a rfl hd]
    obtain ⟨tags, level, mode, env, flags⟩ := s
    subst hm
    exact .pre _ rfl
  | @char w b r E hw hs h ih =>
    intro s hm hd
    have hd := dvd_rest S (S.s.dvd hw.1) hd
    have ih := ih hm hd
    refine ⟨ih.1, ?_⟩
    rw [List.append_assoc]
    exact .trans (run_cdata_char S a rfl hw hs hd) ih.2
  | lf h ih =>
    intro s hm hd
    have hd := dvd_asc S hd
    have ih := ih hm hd
    refine ⟨ih.1, ?_⟩
    rw [List.append_assoc]
    exact .trans (run_cdata_lf S a rfl hd) ih.2
  | crlf hl h ih =>
    intro s hm hd
    have hd := dvd_asc S (dvd_asc S hd)
    have ih := ih hm hd
    refine ⟨ih.1, ?_⟩
    rw [List.append_assoc]
    exact .trans (run_cdata_crlf S a rfl hl hd) ih.2
  | cr hl hn h ih =>
    intro s hm hd
    have hd := dvd_asc S hd
    have ih := ih hm hd
    refine ⟨ih.1, ?_⟩
    rw [List.append_assoc]
    exact .trans (run_cdata_cr S a rfl hl hn hd) ih.2

/-- A successful run within a CDATA section finds the end of it. -/
theorem cdata_sound (n : Nat) : ∀ {b : Buf}, b.length = n → ∀ {s : CState}, s.mode = .content → x.e.mb ∣ b.length →
    ∀ {F : List Ev} {s2 : CState} {r2 : Buf},
    run (sem c D int k x opened start) x.e false false { s with mode := .cdata } b = (F, .ok s2 r2) →
    ∃ E r, Cdata x asc b E r ∧ r.length < b.length := by
  induction n using Nat.strongRecOn with
  | _ n ih =>
    intro b hn s hm hd F s2 r2 h
    have hpos : 0 < x.e.mb := Nat.succ_pos _
    have htok : (cdataSectionTok x.e b).tok.isError = false := by
      rw [run_go sem_go, sem_mode, show Mode.tok Mode.cdata x.e b = cdataSectionTok x.e b from rfl] at h
      revert h
      generalize (cdataSectionTok x.e b).tok = t
      cases t <;> first | (intro _; rfl) | (intro h; simp [Mode.verdict] at h)
    have step : ∀ {w r : Buf} {E : List Ev}, After E
        (run (sem c D int k x opened start) x.e false false { s with mode := .cdata } r)
        (run (sem c D int k x opened start) x.e false false { s with mode := .cdata } b) → 0 < w.length → b = w ++ r →
        x.e.mb ∣ r.length → ∃ E r', Cdata x asc r E r' ∧ r'.length < r.length := by
      intro w r E ha hw hb hr
      have h1 := ha.1
      rw [h] at h1
      cases hq : run (sem c D int k x opened start) x.e false false { s with mode := .cdata } r with
      | mk F' o =>
        rw [hq] at h1
        simp only at h1
        rw [← h1] at hq
        exact ih r.length (by rw [← hn, hb, List.length_append]; omega) rfl hm hr hq
    rcases cdata_first S.s hd (t := (cdataSectionTok x.e b).tok) (n := (cdataSectionTok x.e b).next) rfl htok with
      ⟨r, rfl⟩ | ⟨w, r, rfl, hw, hs⟩ | ⟨r, rfl⟩ | ⟨hl, r, rfl⟩
    · refine ⟨_, r, .close r, ?_⟩
      rw [List.length_append, spell, spell_length S.s]
      have : 0 < [(0x5D : UInt8), 0x5D, 0x3E].length * x.e.mb := Nat.mul_pos (by decide) hpos
      omega
    · have hd' := dvd_rest S (S.s.dvd hw.1) hd
      have hw' := Enc.isChar_len S.s.mb hw.1
      obtain ⟨E, r', h1, h2⟩ := step (run_cdata_char S a rfl hw hs hd') (by omega) rfl hd'
      exact ⟨_, r', .char hw hs h1, by rw [List.length_append]; omega⟩
    · have hd' := dvd_asc S hd
      have l := S.s.asc.len 0x0A
      obtain ⟨E, r', h1, h2⟩ := step (run_cdata_lf S a rfl hd') (by omega) rfl hd'
      exact ⟨_, r', .lf h1, by rw [List.length_append]; omega⟩
    · by_cases hn : ∃ r', r = asc 0x0A ++ r'
      · obtain ⟨r', rfl⟩ := hn
        have hd' := dvd_asc S (dvd_asc S hd)
        have l := S.s.asc.len
        obtain ⟨E, r', h1, h2⟩ := step (w := asc 0x0D ++ asc 0x0A) (run_cdata_crlf S a rfl hl hd') (by rw [List.length_append, l]; omega) (by simp) hd'
        exact ⟨_, r', .crlf hl h1, by simp only [List.length_append]; omega⟩
      · have hn : ∀ b', r ≠ asc 0x0A ++ b' := fun b' h => hn ⟨b', h⟩
        have hd' := dvd_asc S hd
        have l := S.s.asc.len 0x0D
        obtain ⟨E, r', h1, h2⟩ := step (run_cdata_cr S a rfl hl hn hd') (by omega) rfl hd'
        exact ⟨_, r', .cr hl hn h1, by rw [List.length_append]; omega⟩

end
end Verif
