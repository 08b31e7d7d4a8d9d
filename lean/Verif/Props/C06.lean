import Verif.Utf8Chars
import Verif.Spec.Lists

/-! C06: comments are exactly the XML Comment production. -/

namespace Verif.C06
open Verif Spec

section
variable {e : Enc} {asc : UInt8 → Buf} (s : Supported e asc)
include s

theorem scanCommentLoop_sound (b p n) (h : scanCommentLoop e b p = ⟨.COMMENT, n⟩) :
    ∃ ws r, (∀ w ∈ ws, e.IsChar w) ∧ NoPair (asc 0x2D) (asc 0x2D) (ws ++ [asc 0x2D]) ∧
      b = ws.flatten ++ (asc 0x2D ++ (asc 0x2D ++ (asc 0x3E ++ r))) ∧
      n = p + ws.flatten.length + 3 * e.mb := by
  fun_induction scanCommentLoop e b p with
  | case2 b p h1 r h2 =>
    have := invalidCases_err h2
    rw [h] at this; cases this
  | case3 b p h1 k h2 ih =>
    obtain ⟨ws, r, i1, i2, i3, i4⟩ := ih h
    have hc := isChar_of_adv s.ok s.mb h2
    refine ⟨b.take (k + 1) :: ws, r, ?_, ?_, ?_, ?_⟩
    · simp only [List.mem_cons]; rintro w (rfl | hw); exact hc.1; exact i1 w hw
    · refine NoPair.cons_ne ?_ i2
      intro h3
      have := asc_nl s (t := .MINUS) rfl
      rw [← h3, hc.2.1] at this; cases this
    · rw [List.flatten_cons, List.append_assoc, ← i3, List.take_append_drop]
    · rw [i4, List.flatten_cons, List.length_append, List.length_take, Nat.min_eq_left hc.2.2.1]; omega
  | case7 b p h1 h2 h3 h4 h5 h6 h7 =>
    have e1 := bt_split s (t := .MINUS) rfl (by omega) h3
    have e2 := mat_split s (c := 0x2D) (by decide) (by omega) h5
    have e3 := mat_split s (c := 0x3E) (b := b.drop (2 * e.mb)) (by decide) (by omega) (by simpa using h7)
    refine ⟨[], b.drop (3 * e.mb), by simp, trivial, ?_, ?_⟩
    · rw [List.flatten_nil, List.nil_append]
      conv => lhs; rw [e1, e2, List.drop_drop, ← Nat.two_mul, e3, List.drop_drop,
        show 2 * e.mb + e.mb = 3 * e.mb by omega]
    · injection h with _ h; simp [← h]
  | case8 b p h1 h2 h3 h4 h5 ih =>
    obtain ⟨ws, r, i1, i2, i3, i4⟩ := ih h
    have e1 := bt_split s (t := .MINUS) rfl (by omega) h3
    refine ⟨asc 0x2D :: ws, r, ?_, ?_, ?_, ?_⟩
    · simp only [List.mem_cons]; rintro w (rfl | hw); exact asc_char s (t := .MINUS) rfl; exact i1 w hw
    · cases ws with
      | nil =>
        exfalso; apply h5; rw [i3]; exact asc_mat s _ (by decide) _
      | cons w ws =>
        refine ⟨fun h => h5 ?_, i2⟩
        rw [i3, h.2, List.flatten_cons, List.append_assoc]; exact asc_mat s _ (by decide) _
    · rw [List.flatten_cons, List.append_assoc, ← i3]; exact e1
    · rw [i4, List.flatten_cons, List.length_append, s.asc.len]; omega
  | case9 b p h1 h2 h3 ih =>
    obtain ⟨ws, r, i1, i2, i3, i4⟩ := ih h
    have hc := isChar_of_other s.ok (by omega) h2
    refine ⟨b.take e.mb :: ws, r, ?_, ?_, ?_, ?_⟩
    · simp only [List.mem_cons]; rintro w (rfl | hw); exact hc.1; exact i1 w hw
    · refine NoPair.cons_ne ?_ i2
      intro h4
      refine h3 ?_
      rw [← hc.2.2, h4]
      have := asc_bt s (t := .MINUS) rfl []
      rwa [List.append_nil] at this
    · rw [List.flatten_cons, List.append_assoc, ← i3, List.take_append_drop]
    · rw [i4, List.flatten_cons, List.length_append, List.length_take, Nat.min_eq_left (by omega)]; omega
  | _ => cases h

theorem scanCommentLoop_complete (ws : List Buf) (r p) (hw : ∀ w ∈ ws, e.IsChar w)
    (hd : NoPair (asc 0x2D) (asc 0x2D) (ws ++ [asc 0x2D])) :
    scanCommentLoop e (ws.flatten ++ (asc 0x2D ++ (asc 0x2D ++ (asc 0x3E ++ r)))) p
      = ⟨.COMMENT, p + ws.flatten.length + 3 * e.mb⟩ := by
  have l1 := s.asc.len 0x2D
  have l2 := s.asc.len 0x3E
  have hdr : ∀ (w r : Buf), w.length = e.mb → (w ++ r).drop e.mb = r := fun w r h => by
    rw [← h, List.drop_left]
  induction ws generalizing p with
  | nil =>
    rw [List.flatten_nil, List.nil_append, scanCommentLoop, if_neg (by simp [l1]),
      invalidCases_asc s (t := .MINUS) rfl, asc_bt s (t := .MINUS) rfl]
    simp only [hdr _ _ l1]
    rw [if_neg (by simp [l1]), if_pos (asc_mat s _ (by decide) _), Nat.two_mul, ← List.drop_drop,
      hdr _ _ l1, hdr _ _ l1, if_neg (by simp [l2]), asc_mat s 0x3E (by decide)]
    simp
  | cons w ws ih =>
    have hw1 := hw w (by simp)
    have ih := ih (p + w.length) (fun w h => hw w (by simp [h])) hd.tail
    have hlen := e.isChar_len s.mb hw1
    rw [List.flatten_cons, List.append_assoc, scanCommentLoop,
      if_neg (by rw [List.length_append]; omega)]
    by_cases hl : e.isLead w
    · obtain ⟨h1, h2⟩ := invalidCases_lead s.ok s.mb hw1 hl
        (ws.flatten ++ (asc 0x2D ++ (asc 0x2D ++ (asc 0x3E ++ r)))) p
      rw [h1]
      simp only [Nat.sub_add_cancel h2, List.drop_left]
      rw [ih, List.length_append, Nat.add_assoc p]
    · have hl : e.isLead w = false := by simpa using hl
      have hlen := e.isChar_len_nl hw1 hl
      rw [invalidCases_nl s.ok s.mb hw1 hl]
      have next : scanCommentLoop e (ws.flatten ++ (asc 0x2D ++ (asc 0x2D ++ (asc 0x3E ++ r))))
          (p + e.mb) = ⟨.COMMENT, p + (w ++ ws.flatten).length + 3 * e.mb⟩ := by
        rw [← hlen, ih, List.length_append, Nat.add_assoc p, hlen]
      simp only [hdr _ _ hlen]
      split
      · rename_i h3
        rw [char_bt s hw1 rfl] at h3
        have hnd : e.charMatches (ws.flatten ++ (asc 0x2D ++ (asc 0x2D ++ (asc 0x3E ++ r)))) 0x2D
            = false := by
          cases ws with
          | nil => exact absurd ⟨h3, rfl⟩ hd.1
          | cons w' ws' =>
            rw [List.flatten_cons, List.append_assoc, Bool.eq_false_iff]
            intro h4
            rw [char_mat s (hw w' (by simp)) (t := .MINUS) rfl] at h4
            exact hd.1 ⟨h3, h4⟩
        rw [if_neg (by simp [l1]; omega), hnd, next]
        simp
      · exact next

end

/-- C06 (every supported encoding): what follows `<!--` is accepted as a comment of `n` further
bytes exactly when it is a string of legal characters without `--` (nor a trailing `-`), closed
by `-->`.  Scanning starts after `<!-`, at the second hyphen. -/
theorem comment_iff {e asc} (s : Supported e asc) (b : Buf) (n : Nat) :
    scanComment e (asc 0x2D ++ b) 0 = ⟨.COMMENT, e.mb + n⟩ ↔
    ∃ ws r, (∀ w ∈ ws, e.IsChar w) ∧ NoPair (asc 0x2D) (asc 0x2D) (ws ++ [asc 0x2D]) ∧
      b = ws.flatten ++ (asc 0x2D ++ (asc 0x2D ++ (asc 0x3E ++ r))) ∧
      n = ws.flatten.length + 3 * e.mb := by
  have l1 := s.asc.len 0x2D
  have h0 : scanComment e (asc 0x2D ++ b) 0 = scanCommentLoop e b e.mb := by
    rw [scanComment, if_pos (by rw [List.length_append]; omega), asc_mat s _ (by decide)]
    simp only [Bool.not_true, Bool.false_eq_true, if_false, Nat.zero_add]
    conv => lhs; rw [← l1, List.drop_left]
    rw [l1]
  rw [h0]
  constructor
  · intro h
    obtain ⟨ws, r, h1, h2, h3, h4⟩ := scanCommentLoop_sound s b _ _ h
    exact ⟨ws, r, h1, h2, h3, by omega⟩
  · rintro ⟨ws, r, h1, h2, rfl, rfl⟩
    rw [scanCommentLoop_complete s ws r _ h1 h2, Nat.add_assoc]

/-- C06 for UTF-8 documents, in terms of code points: `<!--` is followed by a comment exactly
when a string of XML characters without "--" (nor a final "-"), and then "-->", follows. -/
theorem comment_utf8 (ns : Bool) (b : Buf) (n : Nat) :
    scanComment (utf8Enc ns) (0x2D :: b) 0 = ⟨.COMMENT, 1 + n⟩ ↔
    ∃ (cs : List Nat) (r : Buf), (∀ c ∈ cs, XmlChar c) ∧ NoPair 0x2D 0x2D (cs ++ [0x2D]) ∧
      b = utf8s cs ++ 0x2D :: 0x2D :: 0x3E :: r ∧ n = (utf8s cs).length + 3 := by
  have h := comment_iff (.utf8 ns) b n
  have hd : utf8 0x2D = asc1 0x2D := by decide
  have key : ∀ cs : List Nat, NoPair (asc1 0x2D) (asc1 0x2D) (cs.map utf8 ++ [asc1 0x2D]) ↔
      NoPair 0x2D 0x2D (cs ++ [0x2D]) := by
    intro cs
    have e1 : cs.map utf8 ++ [asc1 0x2D] = (cs ++ [0x2D]).map utf8 := by simp [hd]
    rw [e1, ← hd]
    have hi : ∀ x : Nat, utf8 x = utf8 0x2D → x = 0x2D := fun x h =>
      (utf8_ascii 0x2D (by decide)).1 (h.trans (by decide))
    exact ⟨NoPair.map utf8, NoPair.of_map utf8 (fun x _ => hi x) (fun x _ => hi x)⟩
  rw [show (0x2D :: b : Buf) = asc1 0x2D ++ b from rfl, show (1 : Nat) = (utf8Enc ns).mb from rfl, h]
  constructor
  · rintro ⟨ws, r, h1, h2, h3, h4⟩
    obtain ⟨cs, h5, rfl⟩ := utf8_chars ns ws h1
    exact ⟨cs, r, h5, (key cs).1 h2, by rw [h3]; rfl, h4⟩
  · rintro ⟨cs, r, h1, h2, h3, h4⟩
    refine ⟨cs.map utf8, r, ?_, (key cs).2 h2, h3, h4⟩
    intro w hw
    obtain ⟨c, hc, rfl⟩ := List.mem_map.1 hw
    exact (utf8Enc_isChar ns _).2 ⟨c, h1 c hc, rfl⟩

/-! Non-vacuity: `<!-- -é--> x`; and `--` inside a comment is rejected. -/
example : scanComment (utf8Enc false)
    [0x2D, 0x20, 0x2D, 0xC3, 0xA9, 0x2D, 0x2D, 0x3E, 0x78] 0 = ⟨.COMMENT, 8⟩ := by decide +kernel
example : NoPair 0x2D 0x2D ([0x20, 0x2D, 0xE9] ++ [0x2D]) := by simp [NoPair]
example : scanComment (utf8Enc false)
    [0x2D, 0x20, 0x2D, 0x2D, 0x61, 0x2D, 0x2D, 0x3E] 0 = ⟨.INVALID, 4⟩ := by decide +kernel

end Verif.C06
