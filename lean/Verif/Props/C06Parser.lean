import Verif.Props.C08

/-! C06 and C07 for the parser: comments and processing instructions in element content. -/

set_option autoImplicit false

namespace Verif.C06
open Verif C43 C53 Spec C04

section
variable {x : XEnc} {asc : UInt8 → Buf} {c : Cfg} {D : Dtd} {int : XEnc} (S : XSupported x asc) (a : AllSet c)
include S

/-- One markup item which leaves the state as it is, however the text is cut. -/
theorem item_iff {s : CState} (hm : s.mode = .content) {t : Tok} {w r : Buf} {E : List Ev} (m : Markup x.e asc t w)
    (ha : (parser c D int x).act s t w = (E, .ok s)) (hE : flat E = E)
    (xs : List Buf) (hx : xs.flatten = w ++ r) (hd : x.e.mb ∣ xs.flatten.length) (G : List Ev) (s2 : CState) (r2 : Buf) :
    (∃ F, feed (parser c D int x) x.e s [] xs = (F, .ok s2 r2) ∧ flat F = G) ↔
    ∃ F', feed (parser c D int x) x.e s [] [r] = (F', .ok s2 r2) ∧ G = E ++ flat F' := by
  have hd' := hd
  rw [hx] at hd'
  have h1 : feed (parser c D int x) x.e s [] [w ++ r] = pre E (feed (parser c D int x) x.e s [] [r]) := by
    rw [C08.feed_one S hm, C08.feed_one S hm]
    exact run_markup S hm m hd' ha
  constructor
  · rintro ⟨F, h, rfl⟩
    obtain ⟨F1, h2, h3⟩ := parser_chunks_ok S c D int s xs [w ++ r] (by simpa using hx) hd h
    rw [h1] at h2
    cases hq : feed (parser c D int x) x.e s [] [r] with
    | mk F2 o =>
      rw [hq] at h2
      cases o with
      | err e => cases h2
      | ok s3 r3 => cases h2; exact ⟨F2, rfl, by rw [← h3, flat_append, hE]⟩
  · rintro ⟨F', h, rfl⟩
    rw [h] at h1
    obtain ⟨F3, k1, k2⟩ := parser_chunks_ok S c D int s [w ++ r] xs (by simpa using hx.symm) (by simpa using hd') h1
    exact ⟨F3, k1, by rw [k2, flat_append, hE]⟩

/-- A successful parse has a first token. -/
theorem first_ok {s : CState} (hm : s.mode = .content) (xs : List Buf) (hd : x.e.mb ∣ xs.flatten.length) {F : List Ev} {s2 : CState}
    {r2 : Buf} (h : feed (parser c D int x) x.e s [] xs = (F, .ok s2 r2)) : ¬ (contentTok x.e xs.flatten).tok.fail := by
  obtain ⟨F1, h, -⟩ := parser_chunks_ok S c D int s xs [xs.flatten] (by simp) hd h
  rw [C08.feed_one S hm, parser, run_go sem_go, sem_mode, hm, show Mode.tok .content x.e _ = contentTok x.e _ from rfl] at h
  rintro (h1 | h1 | h1) <;> rw [h1] at h <;> simp [Mode.verdict] at h

/-- After `<!--`, the token is a comment, or there is none. -/
theorem open_tok (b : Buf) (hd : x.e.mb ∣ (spell asc [0x3C, 0x21, 0x2D, 0x2D] ++ b).length) :
    (contentTok x.e (spell asc [0x3C, 0x21, 0x2D, 0x2D] ++ b)).tok.fail ∨
      (contentTok x.e (spell asc [0x3C, 0x21, 0x2D, 0x2D] ++ b)).tok = .COMMENT := by
  have l (c) := S.s.asc.len c
  have e1 : spell asc [0x3C, 0x21, 0x2D, 0x2D] ++ b = asc 0x3C ++ (asc 0x21 ++ (asc 0x2D ++ (asc 0x2D ++ b))) := by
    simp [spell]
  rw [e1] at hd ⊢
  have h := scanComment_tok x.e (asc 0x2D ++ b) (x.e.mb + 2 * x.e.mb)
  have h2 : scanLt x.e (asc 0x21 ++ (asc 0x2D ++ (asc 0x2D ++ b))) x.e.mb = scanComment x.e (asc 0x2D ++ b) (x.e.mb + 2 * x.e.mb) := by
    rw [scanLt, if_neg (by rw [List.length_append, l]; omega), nmstrtCases_other _ (by rw [asc_bt S.s (t := .EXCL) rfl]; rfl)]
    simp only [asc_bt S.s (t := .EXCL) rfl, drop_char (l _), asc_bt S.s (t := .MINUS) rfl, Nat.two_mul]
    rw [if_neg (by rw [List.length_append, l]; omega), ← List.drop_drop, drop_char (l _), drop_char (l _)]
  cases hq : scanComment x.e (asc 0x2D ++ b) (x.e.mb + 2 * x.e.mb) with
  | mk t n =>
    rw [hq] at h h2
    rw [content_of_lt S.s hd h2]
    exact h

include a

/-- **C06.**  Anywhere in element content, with `<!--` to come, and however the text is cut into pieces: the parse
succeeds exactly if legal characters without `--` (and not ending in `-`) follow, then `-->`, and the parse of the rest
succeeds; the comment handler is given exactly these characters, with line ends normalised. -/
theorem comment_parsed {s : CState} (hm : s.mode = .content) (xs : List Buf) (b : Buf)
    (hx : xs.flatten = spell asc [0x3C, 0x21, 0x2D, 0x2D] ++ b)
    (hd : x.e.mb ∣ xs.flatten.length) (G : List Ev) (s2 : CState) (r2 : Buf) :
    (∃ F, feed (parser c D int x) x.e s [] xs = (F, .ok s2 r2) ∧ flat F = G) ↔
    ∃ ws r F', x.e.Chars ws ∧ NoPair (asc 0x2D) (asc 0x2D) (ws ++ [asc 0x2D]) ∧
      b = ws.flatten ++ (spell asc [0x2D, 0x2D, 0x3E] ++ r) ∧
      feed (parser c D int x) x.e s [] [r] = (F', .ok s2 r2) ∧
      G = .comment (C14.lineEnds (converted x ws.flatten)) :: flat F' := by
  have key : ∀ ws r, x.e.Chars ws → NoPair (asc 0x2D) (asc 0x2D) (ws ++ [asc 0x2D]) → b = ws.flatten ++ (spell asc [0x2D, 0x2D, 0x3E] ++ r) →
      ((∃ F, feed (parser c D int x) x.e s [] xs = (F, .ok s2 r2) ∧ flat F = G) ↔
      ∃ F', feed (parser c D int x) x.e s [] [r] = (F', .ok s2 r2) ∧
        G = [.comment (C14.lineEnds (converted x ws.flatten))] ++ flat F') := by
    intro ws r h1 h2 h3
    exact item_iff S hm (w := commentText asc ws) (.comment h1 h2) (act_comment S a s ⟨h1, h2⟩) rfl xs
      (by rw [hx, h3, commentText]; simp) hd G s2 r2
  constructor
  · rintro ⟨F, h, hF⟩
    have h1 := first_ok S hm xs hd h
    have hd' := hd
    rw [hx] at h1 hd'
    have h2 := (open_tok S b hd').resolve_left h1
    cases hq : contentTok x.e (spell asc [0x3C, 0x21, 0x2D, 0x2D] ++ b) with
    | mk t n =>
      rw [hq] at h2
      simp only at h2
      subst h2
      obtain ⟨w, r, m, hb, -⟩ := content_sound S.s hd' rfl (by simp) (by simp) hq
      generalize ht : Tok.COMMENT = t at m
      cases m with
      | ref h => cases h <;> cases ht
      | @tag name as ws empty => cases empty <;> cases as <;> cases ht
      | endTag => cases ht
      | pi _ _ h => rcases pi_tok h with rfl | rfl <;> cases ht
      | cdata => cases ht
      | @comment ws i1 i2 =>
        rw [List.append_assoc, List.append_assoc] at hb
        have hb := List.append_cancel_left hb
        obtain ⟨F', j1, j2⟩ := (key ws r i1 i2 hb).1 ⟨F, h, hF⟩
        exact ⟨ws, r, F', i1, i2, hb, j1, j2⟩
  · rintro ⟨ws, r, F', i1, i2, i3, i4, i5⟩
    exact (key ws r i1 i2 i3).2 ⟨F', i4, i5⟩

end

/-! Non-vacuity: a comment of several lines, in two pieces. -/
private def st : CState := { CState.init with tags := [⟨[0x61], ⟨[0x61], none⟩, []⟩], level := 1 }
private def text : Buf := " x-\r\ny\r- --></a>".toUTF8.toList
example : ∃ ws r F', (utf8Enc false).Chars ws ∧ NoPair (asc1 0x2D) (asc1 0x2D) (ws ++ [asc1 0x2D]) ∧
    text = ws.flatten ++ (spell asc1 [0x2D, 0x2D, 0x3E] ++ r) ∧
    [.comment " x-\ny\n- ".toUTF8.toList, .endElement [0x61]] =
      Ev.comment (C14.lineEnds (converted (utf8X false) ws.flatten)) :: flat F' := by
  obtain ⟨F, s, q, h1, h2⟩ := C55.ok_of_code (r := feed (parser {} default (internalUtf8X false) (utf8X false)) (utf8Enc false) st []
    ["<!".toUTF8.toList, "-- x-\r\ny\r- --></a>".toUTF8.toList])
    (F := [.comment " x-\ny\n- ".toUTF8.toList, .endElement [0x61]]) (by decide +kernel) (by decide +kernel)
  obtain ⟨ws, r, F', i1, i2, i3, -, i5⟩ := (comment_parsed (.utf8 false) C55.allSet_default (s := st) rfl _ text
    (by decide +kernel) (Nat.one_dvd _) _ _ _).1 ⟨F, h1, rfl⟩
  exact ⟨ws, r, F', i1, i2, i3, by rw [← i5, h2]; decide +kernel⟩

end Verif.C06
