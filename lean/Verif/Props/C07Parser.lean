import Verif.Props.C06Parser

/-! C07 for the parser: processing instructions in element content. -/

set_option autoImplicit false

namespace Verif.C07
open Verif C43 C53 Spec C04

section
variable {x : XEnc} {asc : UInt8 → Buf} {c : Cfg} {D : Dtd} {int : XEnc} (S : XSupported x asc) (a : AllSet c)
include S

/-- After `<?`, the token is a processing instruction or an XML declaration, or there is none. -/
theorem open_tok (b : Buf) (hd : x.e.mb ∣ (Verif.spell asc [0x3C, 0x3F] ++ b).length) :
    (contentTok x.e (Verif.spell asc [0x3C, 0x3F] ++ b)).tok.fail ∨
      (contentTok x.e (Verif.spell asc [0x3C, 0x3F] ++ b)).tok = .PI ∨ (contentTok x.e (Verif.spell asc [0x3C, 0x3F] ++ b)).tok = .XML_DECL := by
  have l (c) := S.s.asc.len c
  have e1 : Verif.spell asc [0x3C, 0x3F] ++ b = asc 0x3C ++ (asc 0x3F ++ b) := by
    simp [Verif.spell]
  rw [e1] at hd ⊢
  have h := scanPi_tok x.e b (x.e.mb + x.e.mb)
  have h2 : scanLt x.e (asc 0x3F ++ b) x.e.mb = scanPi x.e b (x.e.mb + x.e.mb) := by
    rw [scanLt, if_neg (by rw [List.length_append, l]; omega), nmstrtCases_other _ (by rw [asc_bt S.s (t := .QUEST) rfl]; rfl)]
    simp only [asc_bt S.s (t := .QUEST) rfl, drop_char (l _)]
  cases hq : scanPi x.e b (x.e.mb + x.e.mb) with
  | mk t n =>
    rw [hq] at h h2
    rw [content_of_lt S.s hd h2]
    exact h

include a

/-- **C07.**  Anywhere in element content, with `<?` to come, and however the text is cut into pieces: the parse
succeeds exactly if a name other than `xml` in any case follows, then nothing or white space and legal characters without
`?>`, then `?>`, and the parse of the rest succeeds; the handler is given the name and the characters after the white
space, with line ends normalised.  In particular an XML declaration inside an element is an error. -/
theorem pi_parsed {s : CState} (hm : s.mode = .content) (xs : List Buf) (b : Buf)
    (hx : xs.flatten = Verif.spell asc [0x3C, 0x3F] ++ b)
    (hd : x.e.mb ∣ xs.flatten.length) (G : List Ev) (s2 : CState) (r2 : Buf) :
    (∃ F, feed (parser c D int x) x.e s [] xs = (F, .ok s2 r2) ∧ flat F = G) ↔
    ∃ target sp ws r F', PiOk x.e asc target sp ws ∧
      b = target.flatten ++ (Verif.spell asc sp ++ (ws.flatten ++ (Verif.spell asc [0x3F, 0x3E] ++ r))) ∧
      feed (parser c D int x) x.e s [] [r] = (F', .ok s2 r2) ∧
      G = .pi (cstr (converted x target.flatten)) (C14.lineEnds (converted x ws.flatten)) :: flat F' := by
  have key : ∀ target sp ws r, PiOk x.e asc target sp ws →
      b = target.flatten ++ (Verif.spell asc sp ++ (ws.flatten ++ (Verif.spell asc [0x3F, 0x3E] ++ r))) →
      ((∃ F, feed (parser c D int x) x.e s [] xs = (F, .ok s2 r2) ∧ flat F = G) ↔
      ∃ F', feed (parser c D int x) x.e s [] [r] = (F', .ok s2 r2) ∧
        G = [.pi (cstr (converted x target.flatten)) (C14.lineEnds (converted x ws.flatten))] ++ flat F') := by
    intro target sp ws r h1 h3
    exact C06.item_iff S hm (w := piText asc target sp ws) (pi_markup S h1) (act_pi S a s h1) rfl xs
      (by rw [hx, h3, piText]; simp only [List.append_assoc]) hd G s2 r2
  constructor
  · rintro ⟨F, h, hF⟩
    have h1 := C06.first_ok S hm xs hd h
    have hd' := hd
    rw [hx] at h1 hd'
    have h2 := (open_tok S b hd').resolve_left h1
    cases hq : contentTok x.e (Verif.spell asc [0x3C, 0x3F] ++ b) with
    | mk t n =>
      rw [hq] at h2
      simp only at h2
      have hsnd := content_sound (t := t) S.s hd' (by rcases h2 with rfl | rfl <;> rfl) (by rcases h2 with rfl | rfl <;> simp)
        (by rcases h2 with rfl | rfl <;> simp) hq
      obtain ⟨w, r, m, hb, -⟩ := hsnd
      rcases h2 with rfl | rfl
      · generalize ht : Tok.PI = t at m
        cases m with
        | ref h => cases h <;> cases ht
        | @tag name as ws empty => cases empty <;> cases as <;> cases ht
        | endTag => cases ht
        | comment => cases ht
        | cdata => cases ht
        | @pi target d t i1 i2 i3 =>
          subst ht
          obtain ⟨sp, ws, j1, j2⟩ := pi_of_markup S i1 i2 i3
          rw [show Verif.spell asc [0x3C, 0x3F] ++ (target.flatten ++ (d ++ Verif.spell asc [0x3F, 0x3E])) = _ from j2] at hb
          simp only [piText, List.append_assoc] at hb
          have hb := List.append_cancel_left hb
          obtain ⟨F', k1, k2⟩ := (key target sp ws r j1 hb).1 ⟨F, h, hF⟩
          exact ⟨target, sp, ws, r, F', j1, hb, k1, k2⟩
      · obtain ⟨F1, h5, -⟩ := parser_chunks_ok S c D int s xs [w ++ r] (by rw [hx, hb]; simp) hd h
        rw [C08.feed_one S hm, parser, run_markup_err S hm m (by rw [← hb]; exact hd') (E := []) (err := .MISPLACED_XML_PI)] at h5
        · cases h5
        · obtain ⟨ex, he⟩ := sem_semOf c D int D.fuel x [] 0
          rw [he]; rfl
  · rintro ⟨target, sp, ws, r, F', i1, i3, i4, i5⟩
    exact (key target sp ws r i1 i3).2 ⟨F', i4, i5⟩

end

/-! Non-vacuity. -/
private def st : CState := { CState.init with tags := [⟨[0x61], ⟨[0x61], none⟩, []⟩], level := 1 }
private def text : Buf := "xm  ? >\r?></a>".toUTF8.toList
example : ∃ target sp ws r F', PiOk (utf8Enc false) asc1 target sp ws ∧
    text = target.flatten ++ (Verif.spell asc1 sp ++ (ws.flatten ++ (Verif.spell asc1 [0x3F, 0x3E] ++ r))) ∧
    [.pi "xm".toUTF8.toList "? >\n".toUTF8.toList, .endElement [0x61]] =
      Ev.pi (cstr (converted (utf8X false) target.flatten)) (C14.lineEnds (converted (utf8X false) ws.flatten)) :: flat F' := by
  obtain ⟨F, s, q, h1, h2⟩ := C55.ok_of_code (r := feed (parser {} default (internalUtf8X false) (utf8X false)) (utf8Enc false) st []
    ["<?x".toUTF8.toList, "m  ? >\r?></a>".toUTF8.toList])
    (F := [.pi "xm".toUTF8.toList "? >\n".toUTF8.toList, .endElement [0x61]]) (by decide +kernel) (by decide +kernel)
  obtain ⟨t, sp, ws, r, F', i1, i3, -, i5⟩ := (pi_parsed (.utf8 false) C55.allSet_default (s := st) rfl _ text
    (by decide +kernel) (Nat.one_dvd _) _ _ _).1 ⟨F, h1, rfl⟩
  exact ⟨t, sp, ws, r, F', i1, i3, by rw [← i5, h2]; decide +kernel⟩

end Verif.C07
