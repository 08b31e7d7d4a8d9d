import Verif.Props.C44

/-! C15: line and column numbers are right and additive. -/

namespace Verif.C15
open Verif

/-- Specification: the lines of a text; `\r\n`, `\r` and `\n` each end one. -/
def lines {α} [DecidableEq α] (cr lf : α) : List α → List (List α)
  | [] => [[]]
  | [x] => if x = cr ∨ x = lf then [[], []] else [[x]]
  | x :: y :: r =>
    if x = cr ∧ y = lf then [] :: lines cr lf r
    else if x = cr ∨ x = lf then [] :: lines cr lf (y :: r)
    else match lines cr lf (y :: r) with
      | [] => [[x]]
      | l :: ls => (x :: l) :: ls

/-- Specification: the position reached from the start of line `pos.line`, column `pos.col`, after the
text: one more line for each line end, and the column is the number of characters since the last. -/
def advance {α} [DecidableEq α] (cr lf : α) (pos : Pos) (t : List α) : Pos :=
  match lines cr lf t with
  | [] => pos
  | [l] => ⟨pos.line, pos.col + l.length⟩
  | _ :: ls => ⟨pos.line + ls.length, (ls.getLastD []).length⟩

section
variable {α} [DecidableEq α] {cr lf : α}

theorem lines_ne (t : List α) : lines cr lf t ≠ [] := by
  fun_induction lines cr lf t <;> simp

theorem lines_cr {r : List α} (h : r.head? ≠ some lf) : lines cr lf (cr :: r) = [] :: lines cr lf r := by
  cases r with
  | nil => simp [lines]
  | cons y r =>
    rw [lines, if_neg (fun g => h (by simp [g.2])), if_pos (.inl rfl)]

theorem lines_crlf (r : List α) : lines cr lf (cr :: lf :: r) = [] :: lines cr lf r := by
  rw [lines, if_pos ⟨rfl, rfl⟩]

theorem lines_lf (hne : cr ≠ lf) (r : List α) : lines cr lf (lf :: r) = [] :: lines cr lf r := by
  cases r with
  | nil => simp [lines]
  | cons y r => rw [lines, if_neg (fun g => hne g.1.symm), if_pos (.inr rfl)]

theorem lines_other {x : α} (h1 : x ≠ cr) (h2 : x ≠ lf) (r : List α) {l ls} (h : lines cr lf r = l :: ls) :
    lines cr lf (x :: r) = (x :: l) :: ls := by
  cases r with
  | nil => simp [lines] at h; simp [lines, h1, h2, h]
  | cons y r => rw [lines, if_neg (fun g => h1 g.1), if_neg (by simp [h1, h2]), h]

/-- A line end sends the position to the start of the next line. -/
theorem advance_end {t r : List α} (h : lines cr lf t = [] :: lines cr lf r) (pos : Pos) :
    advance cr lf pos t = advance cr lf ⟨pos.line + 1, 0⟩ r := by
  unfold advance
  rw [h]
  match hr : lines cr lf r with
  | [] => exact absurd hr (lines_ne r)
  | [l] => simp
  | l :: m :: ls => simp [Nat.add_assoc, Nat.add_comm]

theorem advance_other {x : α} (h1 : x ≠ cr) (h2 : x ≠ lf) (r : List α) (pos : Pos) :
    advance cr lf pos (x :: r) = advance cr lf ⟨pos.line, pos.col + 1⟩ r := by
  match hr : lines cr lf r with
  | [] => exact absurd hr (lines_ne r)
  | [l] => simp [advance, lines_other h1 h2 r hr, hr]; omega
  | l :: m :: ls => simp [advance, lines_other h1 h2 r hr, hr]

/-- The position after two texts, if their boundary does not separate `\r` from `\n`. -/
theorem advance_append (hne : cr ≠ lf) (u v : List α) (pos : Pos)
    (h : ¬ (u.getLast? = some cr ∧ v.head? = some lf)) :
    advance cr lf pos (u ++ v) = advance cr lf (advance cr lf pos u) v := by
  induction hn : u.length using Nat.strongRecOn generalizing u pos with
  | _ n ih =>
    subst hn
    match u with
    | [] => rfl
    | x :: u =>
      have hu : ∀ w, w <:+ u → w ≠ [] → w.getLast? = (x :: u).getLast? := by
        rintro w ⟨z, rfl⟩ hw
        rw [← List.cons_append, List.getLast?_append]
        obtain ⟨y, hy⟩ := Option.ne_none_iff_exists'.1 (mt List.getLast?_eq_none_iff.1 hw)
        simp [hy]
      have next : ∀ w, w <:+ u → ∀ pos, advance cr lf pos (w ++ v) = advance cr lf (advance cr lf pos w) v := by
        intro w hw pos
        refine ih w.length (by have := hw.length_le; simp; omega) w pos ?_ rfl
        intro g
        have hw0 : w ≠ [] := by rintro rfl; cases g.1
        exact h ⟨by rw [← hu w hw hw0]; exact g.1, g.2⟩
      by_cases h1 : x = cr
      · subst h1
        match u with
        | [] =>
          have hv : v.head? ≠ some lf := fun g => h ⟨rfl, g⟩
          rw [List.cons_append, advance_end (lines_cr (r := [] ++ v) hv), advance_end (lines_cr (r := []) (by simp))]
          rfl
        | y :: u =>
          by_cases h2 : y = lf
          · subst h2
            rw [List.cons_append, List.cons_append, advance_end (lines_crlf (u ++ v)), advance_end (lines_crlf u)]
            exact next u (by simp) _
          · rw [List.cons_append, advance_end (lines_cr (r := y :: u ++ v) (by simpa using h2)),
              advance_end (lines_cr (r := y :: u) (by simpa using h2))]
            exact next (y :: u) (List.suffix_refl _) _
      · by_cases h2 : x = lf
        · subst h2
          rw [List.cons_append, advance_end (lines_lf hne (u ++ v)), advance_end (lines_lf hne u)]
          exact next u (List.suffix_refl _) _
        · rw [List.cons_append, advance_other h1 h2, advance_other h1 h2]
          exact next u (List.suffix_refl _) _

end

/-- One whole character of the encoding (legal or not). -/
def Whole1 (e : Enc) (w : Buf) : Prop := e.mb ≤ w.length ∧ w.length = e.charLen w

/-- In the encodings of documents (that is, all but the one of internal entity text, whose line ends
are already normalised) the class CR is the character `\r`. -/
theorem cr_class {e asc} (s : Supported e asc) (hx : ∀ ns, e ≠ internalUtf8Enc ns) {b : Buf}
    (hb : e.mb ≤ b.length) : e.bt b = .CR ↔ b.take e.mb = asc 0x0D := by
  have tab : ∀ t : List ByteType, (∀ i : UInt8, tableBt t i = .CR ↔ i = 0x0D) → 1 ≤ b.length →
      (tableBt t (byteAt b 0) = .CR ↔ b.take 1 = asc1 0x0D) := by
    intro t ht hb
    rw [ht, take1 hb]
    simp [asc1]
  have uni : ∀ a b : UInt8, unicodeByteType a b ≠ .CR := by
    intro a b
    simp only [unicodeByteType]
    grind
  cases s with
  | internalUtf8 ns => exact absurd rfl (hx ns)
  | utf8 ns =>
    refine tab _ ?_ hb
    cases ns <;> exact UInt8.forall_dec (P := fun i => tableBt _ i = .CR ↔ i = 0x0D) (by decide +kernel)
  | latin1 ns =>
    refine tab _ ?_ hb
    cases ns <;> exact UInt8.forall_dec (P := fun i => tableBt _ i = .CR ↔ i = 0x0D) (by decide +kernel)
  | ascii ns =>
    refine tab _ ?_ hb
    cases ns <;> exact UInt8.forall_dec (P := fun i => tableBt _ i = .CR ↔ i = 0x0D) (by decide +kernel)
  | utf16le ns =>
    have hb : 2 ≤ b.length := hb
    show (if byteAt b 1 = 0 then tableBt _ (byteAt b 0) else unicodeByteType _ _) = .CR ↔ b.take 2 = ascL 0x0D
    have ht : ∀ i : UInt8, tableBt (if ns then Tables.latin1EncodingTableNS else Tables.latin1EncodingTable) i = .CR ↔
        i = 0x0D := by
      cases ns <;> exact UInt8.forall_dec (P := fun i => tableBt _ i = .CR ↔ i = 0x0D) (by decide +kernel)
    rw [take2 hb]
    split
    · rename_i h0; rw [ht]; simp [ascL, h0]
    · rename_i h0; simp [ascL, h0, uni]
  | utf16be ns =>
    have hb : 2 ≤ b.length := hb
    show (big2Bt? _ b).getD .NONXML = .CR ↔ b.take 2 = ascB 0x0D
    have ht : ∀ i : UInt8, tableBt (if ns then Tables.latin1EncodingTableNS else Tables.latin1EncodingTable) i = .CR ↔
        i = 0x0D := by
      cases ns <;> exact UInt8.forall_dec (P := fun i => tableBt _ i = .CR ↔ i = 0x0D) (by decide +kernel)
    rw [take2 hb, big2Bt?]
    split
    · rename_i h0
      split
      · rw [Option.getD_some, ht]; simp [ascB, h0]
      · rename_i h1
        rw [Option.getD_none]
        simp only [ascB, h0, reduceCtorEq, false_iff]
        intro h3
        simp at h3
        rw [h3] at h1
        exact h1 (by decide)
    · rename_i h0
      rw [Option.getD_some]; simp [ascB, h0, uni]

section
variable {e : Enc} {asc : UInt8 → Buf} (s : Supported e asc) (hx : ∀ ns, e ≠ internalUtf8Enc ns)
include s hx

theorem cr_iff {w : Buf} (hw : Whole1 e w) (r : Buf) : e.bt (w ++ r) = .CR ↔ w = asc 0x0D := by
  rw [s.ok.bt_app w r hw.1]
  rw [cr_class s hx hw.1]
  constructor
  · intro g
    have hl : w.length = e.mb := by
      have := (cr_class s hx hw.1).2 g
      rw [hw.2, Enc.charLen, this]
    rw [← g, List.take_of_length_le (by omega)]
  · intro g; rw [g, List.take_of_length_le (by rw [s.asc.len]; omega)]

omit hx in
theorem lf_iff {w : Buf} (hw : Whole1 e w) (r : Buf) : e.bt (w ++ r) = .LF ↔ w = asc 0x0A := by
  rw [s.ok.bt_app w r hw.1, s.asc.cls w .LF 0x0A rfl hw.1]
  constructor
  · intro g
    have hl : w.length = e.mb := by
      have := (s.asc.cls w .LF 0x0A rfl hw.1).2 g
      rw [hw.2, Enc.charLen, this]
    rw [← g, List.take_of_length_le (by omega)]
  · intro g; rw [g, List.take_of_length_le (by rw [s.asc.len]; omega)]

/-- **C15**, one update: the line grows by the number of line ends in the text and the column is the
number of characters since the last one; the text is any sequence of whole characters. -/
theorem update_spec (ws : List Buf) (hw : ∀ w ∈ ws, Whole1 e w) (pos : Pos) :
    updatePosition e ws.flatten pos = some (advance (asc 0x0D) (asc 0x0A) pos ws) := by
  have hne : asc 0x0D ≠ asc 0x0A := fun h => absurd (s.asc_inj h) (by decide)
  induction hn : ws.length using Nat.strongRecOn generalizing ws pos with
  | _ n ih =>
    subst hn
    match ws with
    | [] => rw [updatePosition, if_pos (by simp [Enc.mb])]; rfl
    | w :: ws =>
      have hw1 := hw w (by simp)
      have ih' := fun pos => ih ws.length (by simp) ws (fun w h => hw w (by simp [h])) pos rfl
      rw [List.flatten_cons, updatePosition, if_neg (by have := hw1.1; rw [List.length_append]; omega)]
      by_cases hcr : e.bt (w ++ ws.flatten) = .CR
      · have hwc := (cr_iff s hx hw1 _).1 hcr
        have hlen : w.length = e.mb := by rw [hwc, s.asc.len]
        rw [hcr]
        simp only [drop_char hlen]
        match ws with
        | [] =>
          rw [if_neg (by simp [Enc.mb]), ih', hwc, ← advance_end (lines_cr (by simp))]
        | v :: vs =>
          have hv1 := hw v (by simp)
          by_cases hlf : v = asc 0x0A
          · have hb := (lf_iff s hv1 vs.flatten).2 hlf
            rw [List.flatten_cons, if_pos ⟨by have := hv1.1; rw [List.length_append]; omega, hb⟩]
            have hl2 : v.length = e.mb := by rw [hlf, s.asc.len]
            rw [Nat.two_mul, ← List.drop_drop, drop_char hlen, drop_char hl2,
              ih vs.length (by simp; omega) vs (fun w h => hw w (by simp [h])) _ rfl, hwc, hlf,
              ← advance_end (lines_crlf vs)]
          · have hb : e.bt (v :: vs).flatten ≠ .LF := fun g => hlf ((lf_iff s hv1 vs.flatten).1 g)
            rw [if_neg (fun g => hb g.2), ih', hwc, ← advance_end (lines_cr (by simpa using hlf))]
      · have hwc : w ≠ asc 0x0D := fun g => hcr ((cr_iff s hx hw1 _).2 g)
        by_cases hlf : e.bt (w ++ ws.flatten) = .LF
        · have hwl := (lf_iff s hw1 _).1 hlf
          have hlen : w.length = e.mb := by rw [hwl, s.asc.len]
          rw [hlf]
          simp only [drop_char hlen]
          rw [ih', hwl, ← advance_end (lines_lf hne ws)]
        · have hwl : w ≠ asc 0x0A := fun g => hlf ((lf_iff s hw1 _).2 g)
          have hlen := hw1.2
          rw [advance_other hwc hwl, ← ih']
          have hb := s.ok.bt_app w ws.flatten hw1.1
          simp only [Enc.charLen, ← hb] at hlen
          generalize e.bt (w ++ ws.flatten) = t at *
          cases t <;> simp only at hlen <;> first
            | exact absurd rfl hcr
            | exact absurd rfl hlf
            | (simp only [drop_char hlen] <;>
                rw [if_neg (show ¬ _ < _ by rw [List.length_append]; omega)])

/-- **C15.**  Whatever the number of updates the text was cut into, the result is the position after
the whole text, provided no cut separates `\r` from `\n`. -/
theorem updates_spec (pieces : List (List Buf)) (hw : ∀ ws ∈ pieces, ∀ w ∈ ws, Whole1 e w)
    (hcut : ∀ u v, pieces = u ++ v → ¬ (u.flatten.getLast? = some (asc 0x0D) ∧ v.flatten.head? = some (asc 0x0A)))
    (pos : Pos) :
    pieces.foldlM (fun p ws => updatePosition e ws.flatten p) pos
      = some (advance (asc 0x0D) (asc 0x0A) pos pieces.flatten) := by
  have hne : asc 0x0D ≠ asc 0x0A := fun h => absurd (s.asc_inj h) (by decide)
  induction pieces generalizing pos with
  | nil => rfl
  | cons ws pieces ih =>
    rw [List.foldlM_cons, update_spec s hx ws (hw ws (by simp)), List.flatten_cons,
      advance_append hne _ _ _ (by simpa using hcut [ws] pieces rfl)]
    refine ih (fun vs hv => hw vs (by simp [hv])) ?_ _
    intro u v huv g
    apply hcut (ws :: u) v (by rw [huv]; rfl)
    refine ⟨?_, g.2⟩
    rw [List.flatten_cons, List.getLast?_append, g.1]
    rfl

/-- A text with no line end advances the column only. -/
theorem same_line (ws : List Buf) (hw : ∀ w ∈ ws, Whole1 e w) (h : ∀ w ∈ ws, w ≠ asc 0x0D ∧ w ≠ asc 0x0A)
    (pos : Pos) : updatePosition e ws.flatten pos = some ⟨pos.line, pos.col + ws.length⟩ := by
  rw [update_spec s hx ws hw]
  clear hw
  induction ws generalizing pos with
  | nil => rfl
  | cons w ws ih =>
    rw [advance_other (h w (by simp)).1 (h w (by simp)).2, ih (fun v hv => h v (by simp [hv]))]
    simp; omega

end

/-- A legal character is a whole character. -/
theorem Whole1.of_char {e : Enc} (hm : e.mb ≤ 2) {w : Buf} (h : e.IsChar w) : Whole1 e w := by
  refine ⟨e.isChar_len hm h, ?_⟩
  simp only [Enc.IsChar, Enc.charLen] at h ⊢
  generalize e.bt w = t at *
  cases t <;> simp only at h ⊢ <;> first | exact h.1 | exact h | cases h

/-- The proviso is needed: an update between `\r` and `\n` counts two lines. -/
theorem split_crlf (ns : Bool) : updatePosition (utf8Enc ns) [0x0D, 0x0A] ⟨0, 0⟩ = some ⟨1, 0⟩ ∧
    (updatePosition (utf8Enc ns) [0x0D] ⟨0, 0⟩ >>= updatePosition (utf8Enc ns) [0x0A]) = some ⟨2, 0⟩ := by
  cases ns <;> decide +kernel

/-- `a CR LF é LF b`: line 2 (third line), column 1. -/
example : updatePosition (utf8Enc false) [0x61, 0x0D, 0x0A, 0xC3, 0xA9, 0x0A, 0x62] ⟨0, 0⟩ = some ⟨2, 1⟩ ∧
    advance (asc1 0x0D) (asc1 0x0A) ⟨0, 0⟩ [[0x61], [0x0D], [0x0A], [0xC3, 0xA9], [0x0A], [0x62]] = ⟨2, 1⟩ ∧
    (∀ w ∈ [[0x61], [0x0D], [0x0A], [0xC3, 0xA9], [0x0A], [0x62]], (utf8Enc false).mb ≤ w.length ∧
      w.length = (utf8Enc false).charLen w) := by decide +kernel

end Verif.C15
