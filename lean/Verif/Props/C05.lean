import Verif.DataRuns

/-! C05: `]]>` is never accepted as character data. -/

namespace Verif.C05
open Verif Spec

/-- A data token of `contentTok`, in any supported encoding: it is a non-empty string of legal
characters, none of them `<`, `&` or a line end, and at none of its characters does the stream
continue with `]]>`, whatever input `x` is delivered after the buffer. -/
theorem data_token {e asc} (s : Supported e asc) (b : Buf) (n : Nat)
    (h : contentTok e b = ⟨.DATA_CHARS, n⟩) :
    ∃ ws r, ws ≠ [] ∧ (∀ w ∈ ws, e.IsChar w ∧ w ≠ asc 0x3C ∧ w ≠ asc 0x26 ∧ w ≠ asc 0x0A ∧
        e.bt w ≠ .CR) ∧
      b = ws.flatten ++ r ∧ n = ws.flatten.length ∧
      ∀ us vs x r', ws = us ++ vs → vs ≠ [] →
        vs.flatten ++ r ++ x ≠ asc 0x5D ++ (asc 0x5D ++ (asc 0x3E ++ r')) := by
  simp only [contentTok] at h
  split at h
  · cases h
  split at h
  · cases h
  rename_i h1 h2
  have hlen := truncBuf_length e b (by simpa using h2)
  obtain ⟨y, hy⟩ := truncBuf_prefix e b
  obtain ⟨w, ws, r, i1, i2, i3⟩ := contentTokBody_data s _ _ hlen h
  refine ⟨w :: ws, r ++ y, by simp, i1.mem, ?_, i3, ?_⟩
  · rw [← List.append_assoc, ← i2, ← hy]
  · intro us vs x r' hs hv
    rw [hs] at i1
    obtain ⟨b', hb', h3⟩ := i1.suffix
    rw [i2, hs, List.flatten_append, List.append_assoc] at hb'
    have hb'' := List.append_cancel_left hb'
    cases vs with
    | nil => exact absurd rfl hv
    | cons v vs =>
      obtain ⟨_, _, hd, _⟩ := h3.cons_inv
      have := hd.noClose (y ++ x) r'
      rw [← hb''] at this
      simpa [List.append_assoc] using this

/-- C05, rejection: if character data (ordinary characters `ws`) runs into `]]>`, the content
tokenizer answers INVALID on every buffer holding that much, in every encoding, and reports
nothing of the run. -/
theorem close_rejected {e asc} (s : Supported e asc) (ws : List Buf) (r : Buf)
    (hw : ∀ w ∈ ws, e.IsChar w ∧ w ≠ asc 0x3C ∧ w ≠ asc 0x26 ∧ w ≠ asc 0x0A ∧ e.bt w ≠ .CR) :
    (contentTok e (ws.flatten ++ (asc 0x5D ++ (asc 0x5D ++ (asc 0x3E ++ r))))).tok
      = .INVALID := by
  have l1 := s.asc.len 0x5D
  have l2 := s.asc.len 0x3E
  have hd : e.mb ∣ (ws.flatten ++ (asc 0x5D ++ (asc 0x5D ++ asc 0x3E))).length := by
    rw [List.length_append]
    refine Nat.dvd_add (s.dvds fun w h => (hw w h).1) ?_
    simp only [List.length_append, l1, l2]
    exact ⟨3, by omega⟩
  have ha : ws.flatten ++ (asc 0x5D ++ (asc 0x5D ++ (asc 0x3E ++ r)))
      = (ws.flatten ++ (asc 0x5D ++ (asc 0x5D ++ asc 0x3E))) ++ r := by simp
  rw [contentTok_eq (by simp only [List.length_append]; omega), ha, truncBuf_dvd _ _ _ hd]
  simp only [List.append_assoc]
  cases ws with
  | nil => exact contentTokBody_close s _
  | cons w ws =>
    obtain ⟨h1, h2, h3, h4, h5⟩ := hw w (by simp)
    rw [List.flatten_cons, List.append_assoc]
    by_cases hc : w = asc 0x5D ∧ ∃ q, ws.flatten ++ (asc 0x5D ++ (asc 0x5D ++ (asc 0x3E
        ++ truncBuf e r))) = asc 0x5D ++ (asc 0x3E ++ q)
    · obtain ⟨rfl, q, hq⟩ := hc
      rw [hq]; exact contentTokBody_close s q
    · rw [contentTokBody_char s h1 h2 h3 h4 h5,
        contentLoop_rejects s _ _ (fun w hw' => hw w (by simp [hw']))]
      intro h6
      refine ⟨by simp only [List.length_append]; omega, fun q hq => hc ⟨h6, q, hq⟩⟩

/-- C05 for UTF-8 in code points: an accepted data token spells code points `cs`, all of them
XML characters; and for every possible continuation `x` of the stream that makes the stream
from the token on spell `cs ++ ds`, no `]]>` starts inside `cs`. -/
theorem data_utf8 (ns : Bool) (b : Buf) (n : Nat)
    (h : contentTok (utf8Enc ns) b = ⟨.DATA_CHARS, n⟩) :
    ∃ cs, cs ≠ [] ∧ (∀ c ∈ cs, XmlChar c ∧ c ≠ 0x3C ∧ c ≠ 0x26 ∧ c ≠ 0x0A ∧ c ≠ 0x0D) ∧
      b.take n = utf8s cs ∧ n = (utf8s cs).length ∧
      ∀ x ds, b ++ x = utf8s (cs ++ ds) → ∀ us vs, cs ++ ds = us ++ 0x5D :: 0x5D :: 0x3E :: vs →
        cs.length ≤ us.length := by
  obtain ⟨ws, r, h1, h2, h3, h4, h5⟩ := data_token (.utf8 ns) b n h
  obtain ⟨cs, h6, rfl⟩ := utf8_chars ns ws (fun w hw => (h2 w hw).1)
  refine ⟨cs, by simpa using h1, fun c hc => ?_, ?_, h4, ?_⟩
  · have h7 := h2 (utf8 c) (List.mem_map_of_mem hc)
    refine ⟨h6 c hc, ?_, ?_, ?_, ?_⟩ <;> rintro rfl
    · exact h7.2.1 (by decide)
    · exact h7.2.2.1 (by decide)
    · exact h7.2.2.2.1 (by decide)
    · exact h7.2.2.2.2 (by cases ns <;> decide +kernel)
  · rw [h3, h4]; exact List.take_left
  · intro x ds hx us vs hu
    rcases Nat.lt_or_ge us.length cs.length with hlt | hge
    · exfalso
      have e1 : cs = us ++ cs.drop us.length := by
        have : us = cs.take us.length := by
          have := congrArg (List.take us.length) hu
          rw [List.take_append_of_le_length (by omega), List.take_left] at this
          exact this.symm
        conv => lhs; rw [← List.take_append_drop us.length cs, ← this]
      have e2 : cs.drop us.length ≠ [] := by
        intro h8; have := congrArg List.length h8; simp at this; omega
      have e3 : cs.drop us.length ++ ds = 0x5D :: 0x5D :: 0x3E :: vs := by
        rw [e1, List.append_assoc] at hu
        exact List.append_cancel_left hu
      have e4 : r ++ x = utf8s ds := by
        rw [h3, utf8s, List.map_append, List.flatten_append, List.append_assoc] at hx
        exact List.append_cancel_left hx
      refine h5 (us.map utf8) ((cs.drop us.length).map utf8) x (utf8s vs)
        (by rw [← List.map_append, ← e1]) (by simpa using e2) ?_
      rw [List.append_assoc, e4, utf8s, ← List.flatten_append, ← List.map_append, e3]
      rfl
    · exact hge

/-! Non-vacuity: `a]]b` is data; `a]` keeps the `]` back; `a]]>` is rejected. -/
example : contentTok (utf8Enc false) [0x61, 0x5D, 0x5D, 0x62] = ⟨.DATA_CHARS, 4⟩ := by
  decide +kernel
example : contentTok (utf8Enc false) [0x61, 0x5D, 0x5D] = ⟨.DATA_CHARS, 1⟩ := by decide +kernel
example : contentTok (utf8Enc false) [0x61, 0x5D, 0x5D, 0x3E] = ⟨.INVALID, 3⟩ := by decide +kernel
example : contentTok (little2Enc false) [0x61, 0, 0x5D, 0, 0x5D, 0, 0x3E, 0] = ⟨.INVALID, 6⟩ := by
  decide +kernel

end Verif.C05
