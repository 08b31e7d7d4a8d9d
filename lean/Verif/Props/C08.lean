import Verif.TextSpec

/-! C08: a CDATA section delivers its text verbatim up to the first `]]>`, with line ends normalised. -/

set_option autoImplicit false

namespace Verif.C08
open Verif C43 C53 Spec C04

/-- `ws` are the characters of a section closed by the first `]]>` after them, which `r` follows: no position
within them (counting the closing `]]>`) begins a `]]>`. -/
def FirstClose (asc : UInt8 → Buf) (ws : List Buf) (r : Buf) : Prop :=
  ∀ us vs, ws = us ++ vs → vs ≠ [] → ¬ StartsClose asc (vs.flatten ++ (spell asc [0x5D, 0x5D, 0x3E] ++ r))

section
variable {x : XEnc} {asc : UInt8 → Buf}

theorem FirstClose.tail {w : Buf} {ws : List Buf} {r : Buf} (h : FirstClose asc (w :: ws) r) : FirstClose asc ws r :=
  fun us vs he hv => h (w :: us) vs (by rw [he]; rfl) hv

theorem FirstClose.head {w : Buf} {ws : List Buf} {r : Buf} (h : FirstClose asc (w :: ws) r) :
    ¬ StartsClose asc (w ++ (ws.flatten ++ (spell asc [0x5D, 0x5D, 0x3E] ++ r))) := by
  have := h [] (w :: ws) rfl (by simp)
  rwa [List.flatten_cons, List.append_assoc] at this

theorem FirstClose.cons {w : Buf} {ws : List Buf} {r : Buf} (h : FirstClose asc ws r)
    (h1 : ¬ StartsClose asc (w ++ (ws.flatten ++ (spell asc [0x5D, 0x5D, 0x3E] ++ r)))) : FirstClose asc (w :: ws) r := by
  intro us vs he hv
  cases us with
  | nil =>
    rw [List.nil_append] at he
    subst he
    rwa [List.flatten_cons, List.append_assoc]
  | cons u us =>
    rw [List.cons_append] at he
    injection he with h2 h3
    exact h us vs h3 hv

/-- `]]>` as characters. -/
theorem close_head {c : UInt8} {b r : Buf} (s : Supported x.e asc) (h : spell asc [0x5D, 0x5D, 0x3E] ++ r = asc c ++ b) : c = 0x5D := by
  have h1 := congrArg (List.take x.e.mb) h
  simp only [spell, List.map_cons, List.flatten_cons, List.append_assoc] at h1
  rw [List.take_left' (s.asc.len _), List.take_left' (s.asc.len _)] at h1
  exact (s.asc_inj h1).symm

variable (S : XSupported x asc)
include S

/-- A character and a text cannot begin with `asc c` unless the character is `asc c`. -/
theorem head_char {w b b' : Buf} {c : UInt8} (hw : x.e.IsChar w) (hc : x.e.IsChar (asc c)) (h : w ++ b = asc c ++ b') : w = asc c :=
  (piece_unique S.s (char_piece S.s hw) (char_piece S.s hc) h).1

/-- The rules for the inside of a CDATA section, taken together: the section ends with the first `]]>`, what is
before it are legal characters, reported as they are but for line ends. -/
theorem cdata_iff {b r : Buf} {E : List Ev} : Cdata x asc b E r ↔
    ∃ ws, x.e.Chars ws ∧ FirstClose asc ws r ∧ b = ws.flatten ++ (spell asc [0x5D, 0x5D, 0x3E] ++ r) ∧
      E = textEvs (norm x asc (converted x ws.flatten)) := by
  constructor
  · intro h
    induction h with
    | close r =>
      refine ⟨[], .nil, ?_, by simp, ?_⟩
      · intro us vs h hv
        have := List.append_eq_nil_iff.1 h.symm
        exact absurd this.2 hv
      · rw [List.flatten_nil, conv_nil S, norm]; split <;> rfl
    | @char w b r E hw hs _ ih =>
      obtain ⟨ws, h1, h2, rfl, rfl⟩ := ih
      refine ⟨w :: ws, .cons hw.1 h1, h2.cons hs, by simp, ?_⟩
      rw [norm_plain S (.cons hw.1 h1) hw, textEvs_app]
    | @lf b r E _ ih =>
      obtain ⟨ws, h1, h2, rfl, rfl⟩ := ih
      refine ⟨asc 0x0A :: ws, .cons (lf_char S) h1, h2.cons ?_, by simp, ?_⟩
      · rintro ⟨q, hq⟩
        exact absurd (S.s.asc_inj (head_char S (lf_char S) (asc_char S.s (t := .RSQB) rfl) hq)) (by decide)
      · rw [norm_lf S h1]; rfl
    | @crlf b r E hl _ ih =>
      obtain ⟨ws, h1, h2, rfl, rfl⟩ := ih
      have h3 : FirstClose asc (asc 0x0A :: ws) r := h2.cons (by
        rintro ⟨q, hq⟩
        exact absurd (S.s.asc_inj (head_char S (lf_char S) (asc_char S.s (t := .RSQB) rfl) hq)) (by decide))
      refine ⟨asc 0x0D :: asc 0x0A :: ws, .cons (cr_char S) (.cons (lf_char S) h1), h3.cons ?_, by simp, ?_⟩
      · rintro ⟨q, hq⟩
        exact absurd (S.s.asc_inj (head_char S (cr_char S) (asc_char S.s (t := .RSQB) rfl) hq)) (by decide)
      · rw [norm_crlf S hl h1]; rfl
    | @cr b r E hl hn _ ih =>
      obtain ⟨ws, h1, h2, rfl, rfl⟩ := ih
      refine ⟨asc 0x0D :: ws, .cons (cr_char S) h1, h2.cons ?_, by simp, ?_⟩
      · rintro ⟨q, hq⟩
        exact absurd (S.s.asc_inj (head_char S (cr_char S) (asc_char S.s (t := .RSQB) rfl) hq)) (by decide)
      · rw [norm_cr S hl h1]
        · rfl
        · rintro vs rfl
          exact hn (vs.flatten ++ (spell asc [0x5D, 0x5D, 0x3E] ++ r)) (by simp)
  · rintro ⟨ws, h1, h2, rfl, rfl⟩
    induction hn : ws.length using Nat.strongRecOn generalizing ws with
    | _ n ih =>
    cases ws with
    | nil =>
      rw [List.flatten_nil, conv_nil S, List.nil_append, show norm x asc [] = [] by rw [norm]; split <;> rfl]
      exact .close r
    | cons w ws =>
      have hw := h1.head
      have h3 := ih ws.length (by rw [← hn]; simp) ws h1.tail h2.tail rfl
      rcases char_cases (asc := asc) hw with hp | rfl | ⟨hl, rfl⟩
      · rw [norm_plain S h1 hp, textEvs_app, List.flatten_cons, List.append_assoc]
        exact .char hp h2.head h3
      · rw [norm_lf S h1.tail, List.flatten_cons, List.append_assoc]
        exact .lf h3
      · by_cases hv : ∃ vs, ws = asc 0x0A :: vs
        · obtain ⟨vs, rfl⟩ := hv
          have h4 := ih vs.length (by rw [← hn]; simp; omega) vs h1.tail.tail h2.tail.tail rfl
          rw [norm_crlf S hl h1.tail.tail, List.flatten_cons, List.flatten_cons, List.append_assoc, List.append_assoc]
          exact .crlf hl h4
        · rw [norm_cr S hl h1.tail fun vs h => hv ⟨vs, h⟩, List.flatten_cons, List.append_assoc]
          refine .cr hl ?_ h3
          intro b' hb
          cases ws with
          | nil => exact absurd (close_head S.s hb) (by decide)
          | cons v vs =>
            rw [List.flatten_cons, List.append_assoc] at hb
            exact hv ⟨vs, by rw [head_char S h1.tail.head (lf_char S) hb]⟩

variable {c : Cfg} {D : Dtd} {int : XEnc} (a : AllSet c)

/-- The parser in one call. -/
theorem feed_one {s : CState} (hm : s.mode = .content) (b : Buf) :
    feed (parser c D int x) x.e s [] [b] = run (parser c D int x) x.e false false s b := by
  rw [feed, List.nil_append, call, parser, sem_mode, hm]; rfl

include a

/-- **C08.**  Anywhere in element content, with `<![CDATA[` to come, and however the text is cut into pieces: the
parse succeeds exactly if there is a first `]]>`, the characters up to it are legal, and the parse of what follows
succeeds; and the events are the start of the section, the characters up to the first `]]>` with line ends
normalised, the end of the section, and the events of what follows. -/
theorem section_iff {s : CState} (hm : s.mode = .content) (xs : List Buf) (b : Buf) (hx : xs.flatten = cdataOpen asc ++ b)
    (hd : x.e.mb ∣ xs.flatten.length) (G : List Ev) (s2 : CState) (r2 : Buf) :
    (∃ F, feed (parser c D int x) x.e s [] xs = (F, .ok s2 r2) ∧ flat F = G) ↔
    ∃ ws r F', x.e.Chars ws ∧ FirstClose asc ws r ∧ b = ws.flatten ++ (spell asc [0x5D, 0x5D, 0x3E] ++ r) ∧
      feed (parser c D int x) x.e s [] [r] = (F', .ok s2 r2) ∧
      G = .startCdata :: (textEvs (norm x asc (converted x ws.flatten)) ++ .endCdata :: flat F') := by
  have m : Markup x.e asc .CDATA_SECT_OPEN (cdataOpen asc) := .cdata
  have hd' := hd
  rw [hx] at hd'
  have hdb := (markup_dvd S m hd').2
  have ha : (parser c D int x).act s .CDATA_SECT_OPEN (cdataOpen asc) = ([.startCdata], .ok { s with mode := .cdata }) := by
    obtain ⟨ex, he⟩ := sem_semOf c D int D.fuel x [] 0
    rw [parser, he]
    simp [semOf, act, orDefault, a.startCdata]
  have h1 : feed (parser c D int x) x.e s [] [cdataOpen asc ++ b] =
      pre [.startCdata] (run (parser c D int x) x.e false false { s with mode := .cdata } b) := by
    rw [feed_one S hm]
    exact run_markup S hm m hd' ha
  constructor
  · rintro ⟨F, h, rfl⟩
    obtain ⟨F1, h2, h3⟩ := parser_chunks_ok S c D int s xs [cdataOpen asc ++ b] (by simpa using hx) hd h
    rw [h1] at h2
    cases hq : run (parser c D int x) x.e false false { s with mode := .cdata } b with
    | mk F2 o =>
    rw [hq] at h2
    cases o with
    | err e => cases h2
    | ok s3 r3 =>
      cases h2
      obtain ⟨E, r, hc, -⟩ := cdata_sound S a _ rfl hm hdb hq
      obtain ⟨ws, i1, i2, i3, i4⟩ := (cdata_iff S).1 hc
      have hrun := (run_cdata (k := D.fuel) (D := D) (int := int) (opened := []) (start := 0) S a hc hm hdb).2
      rw [show sem c D int D.fuel x [] 0 = parser c D int x from rfl, hq] at hrun
      obtain ⟨F', j1, j2⟩ := hrun.ok
      refine ⟨ws, r, F', i1, i2, i3, (feed_one S hm r).trans j1, ?_⟩
      rw [← h3, flat_append, j2, i4]
      simp [flat, slice]
  · rintro ⟨ws, r, F', i1, i2, i3, i4, rfl⟩
    have hc := (cdata_iff S).2 ⟨ws, i1, i2, i3, rfl⟩
    have hrun := (run_cdata (k := D.fuel) (D := D) (int := int) (opened := []) (start := 0) S a hc hm hdb).2
    rw [show sem c D int D.fuel x [] 0 = parser c D int x from rfl] at hrun
    rw [feed_one S hm] at i4
    rw [i4] at hrun
    cases hq : run (parser c D int x) x.e false false { s with mode := .cdata } b with
    | mk F2 o =>
    rw [hq] at hrun h1
    have j1 := hrun.1
    have j2 := hrun.2 _ _ rfl
    simp only at j1 j2
    subst j1
    obtain ⟨F3, k1, k2⟩ := parser_chunks_ok S c D int s [cdataOpen asc ++ b] xs (by simpa using hx.symm) (by simpa using hd') h1
    refine ⟨F3, k1, ?_⟩
    rw [k2, flat_append, j2]
    simp [flat, slice]

/-- A section which is never closed, or which has an illegal character before its end, is refused. -/
theorem section_refused {s : CState} (hm : s.mode = .content) (xs : List Buf) (b : Buf) (hx : xs.flatten = cdataOpen asc ++ b)
    (hd : x.e.mb ∣ xs.flatten.length)
    (h : ¬ ∃ ws r, x.e.Chars ws ∧ FirstClose asc ws r ∧ b = ws.flatten ++ (spell asc [0x5D, 0x5D, 0x3E] ++ r)) :
    ∃ F err, feed (parser c D int x) x.e s [] xs = (F, .err err) := by
  cases hq : feed (parser c D int x) x.e s [] xs with
  | mk F o =>
    cases o with
    | err e => exact ⟨F, e, rfl⟩
    | ok s2 r =>
      obtain ⟨ws, r, _, h1, h2, h3, _⟩ := (section_iff S a hm xs b hx hd _ _ _).1 ⟨F, hq, rfl⟩
      exact (h ⟨ws, r, h1, h2, h3⟩).elim

end

/-- In the encodings of documents `norm` is the normalisation of line ends. -/
theorem norm_utf8 (ns : Bool) (t : Buf) : norm (utf8X ns) asc1 t = C14.lineEnds t := by
  rw [norm, if_pos (by cases ns <;> decide +kernel)]

/-! Non-vacuity: brackets and line ends of all kinds, in two pieces, cut within the brackets. -/
private def st : CState := { CState.init with tags := [⟨[0x61], ⟨[0x61], none⟩, []⟩], level := 1 }
private def text : Buf := "]]\r]]]\r\n<&>]]></a>".toUTF8.toList
example : ∃ ws r F', (utf8Enc false).Chars ws ∧ FirstClose asc1 ws r ∧ text = ws.flatten ++ (spell asc1 [0x5D, 0x5D, 0x3E] ++ r) ∧
    .startCdata :: (textEvs "]]\n]]]\n<&>".toUTF8.toList ++ [.endCdata, .endElement [0x61]]) =
      .startCdata :: (textEvs (C14.lineEnds (converted (utf8X false) ws.flatten)) ++ .endCdata :: flat F') := by
  obtain ⟨F, s, q, h1, h2⟩ := C55.ok_of_code (r := feed (parser {} default (internalUtf8X false) (utf8X false)) (utf8Enc false) st []
    ["<![CDATA[]]\r]".toUTF8.toList, "]]\r\n<&>]]></a>".toUTF8.toList])
    (F := [.startCdata, .chars [0x5D], .chars [0x5D], .chars [0x0A], .chars [0x5D], .chars [0x5D], .chars [0x5D], .chars [0x0A], .chars "<&>".toUTF8.toList,
      .endCdata, .endElement [0x61]]) (by decide +kernel) (by decide +kernel)
  obtain ⟨ws, r, F', i1, i2, i3, -, i5⟩ := (section_iff (.utf8 false) C55.allSet_default (s := st) rfl _ text
    (by decide +kernel) (Nat.one_dvd _) _ _ _).1 ⟨F, h1, rfl⟩
  refine ⟨ws, r, F', i1, i2, i3, ?_⟩
  rw [norm_utf8] at i5
  rw [← i5, h2]
  decide +kernel

end Verif.C08
