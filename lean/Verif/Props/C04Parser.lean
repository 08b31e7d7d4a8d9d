import Verif.Parser

/-! C04 for the parser itself. -/

namespace Verif.C04
open Verif C43

theorem flat_chars (ps : List Buf) : flat (ps.map .chars) = ps.flatten.map fun c => .chars [c] := by
  induction ps with
  | nil => rfl
  | cons p ps ih =>
    rw [List.map_cons, show (Ev.chars p :: ps.map .chars) = [Ev.chars p] ++ ps.map .chars from rfl, flat_append, ih]
    simp [flat, slice]

theorem flat_dflt (ps : List Buf) : flat (ps.map .dflt) = ps.flatten.map fun c => .dflt [c] := by
  induction ps with
  | nil => rfl
  | cons p ps ih =>
    rw [List.map_cons, show (Ev.dflt p :: ps.map .dflt) = [Ev.dflt p] ++ ps.map .dflt from rfl, flat_append, ih]
    simp [flat, slice]

/-- The pieces are the text, or its conversion. -/
theorem pieces_flatten {x asc} (s : XSupported x asc) (b : Buf) :
    (pieces x b).flatten = if x.isUtf8 then b else converted x b := by
  rw [pieces]
  cases h : x.isUtf8
  · exact deliver_flatten (supported_delivers s h) b
  · simp

theorem pieces_app {x asc} (s : XSupported x asc) {ws : List Buf} (hw : x.e.Chars ws) (v : Buf) :
    (pieces x (ws.flatten ++ v)).flatten = (pieces x ws.flatten).flatten ++ (pieces x v).flatten := by
  rw [pieces_flatten s, pieces_flatten s, pieces_flatten s]
  cases h : x.isUtf8
  · exact converted_app s h hw v
  · rfl

/-- The parser's reaction to text is as `Lawful` requires, for every supported encoding, every
configuration of handlers, all declarations. -/
theorem lawful {x asc} (s : XSupported x asc) (c : Cfg) (D : Dtd) (int : XEnc) (opened : List Buf) (start : Nat)
    (ex) : Lawful (semOf c D int x opened start ex) x.e := by
  have all_chars : ∀ ps : List Buf, (ps.map Ev.chars).all isData = true := by
    intro ps; simp [isData]
  have all_dflt : ∀ ps : List Buf, (ps.map Ev.dflt).all isData = true := by
    intro ps; simp [isData]
  have hd : ∀ w, (toDefault c x w).all isData = true := by
    intro w; unfold toDefault; split
    · exact all_dflt _
    · rfl
  have dapp : ∀ (ws : List Buf) (v : Buf), x.e.Chars ws →
      flat (toDefault c x (ws.flatten ++ v)) = flat (toDefault c x ws.flatten) ++ flat (toDefault c x v) := by
    intro ws v hw
    unfold toDefault
    split
    · rw [flat_dflt, flat_dflt, flat_dflt, pieces_app s hw, List.map_append]
    · rfl
  refine ⟨fun _ => rfl, fun st w => ⟨_, rfl, ?_⟩, fun st w => ⟨_, rfl, hd w⟩, ?_, ?_⟩
  · unfold toChars; split
    · exact all_chars _
    · exact hd w
  · intro st b n v h
    have hc : ∃ ws, x.e.Chars ws ∧ b.take n = ws.flatten := by
      rcases h with h | h
      · exact content_chars s.s h
      · exact cdata_chars s.s h
    obtain ⟨ws, hw, he⟩ := hc
    rw [he]
    show flat (toChars c x (pieces x (ws.flatten ++ v)) (ws.flatten ++ v)) =
      flat (toChars c x (pieces x ws.flatten) ws.flatten) ++ flat (toChars c x (pieces x v) v)
    unfold toChars
    split
    · rw [flat_chars, flat_chars, flat_chars, pieces_app s hw, List.map_append]
    · exact dapp ws v hw
  · intro st b n t v ht h
    obtain ⟨ws, hw, he⟩ := space_chars s.s ht h
    rw [he]
    exact dapp ws v hw

theorem sem_lawful {x asc} (s : XSupported x asc) (c : Cfg) (D : Dtd) (int : XEnc) (k : Nat) (opened : List Buf)
    (start : Nat) : Lawful (sem c D int k x opened start) x.e := by
  cases k <;> exact lawful s ..

/-- **C04.**  Feeding the content of a document (from its root start tag on) to the parser in any
number of pieces cut at any byte positions yields what feeding it at once yields: success with the same
events up to the slicing of text, or failure with the same error code (junk after the root element may
be reported as such instead of by its own error) and the same events up to text reported just before.
Any state `st` to begin with, any handlers, declarations and supported encoding; the document must
consist of whole code units. -/
theorem parser_chunks {x asc} (s : XSupported x asc) (c : Cfg) (D : Dtd) (int : XEnc) (st : CState)
    (xs : List Buf) (hd : x.e.mb ∣ xs.flatten.length) :
    Same (feed (parser c D int x) x.e st [] xs) (call (parser c D int x) x.e false st xs.flatten) := by
  have := chunks (M := parser c D int x) (sem_lawful s c D int _ _ _) s.s.ok s.s.mb s.s.even xs st []
    (by simpa using hd)
  simpa using this

/-- The same for any two ways of cutting, when the parse succeeds. -/
theorem parser_chunks_ok {x asc} (s : XSupported x asc) (c : Cfg) (D : Dtd) (int : XEnc) (st : CState)
    (xs ys : List Buf) (he : xs.flatten = ys.flatten) (hd : x.e.mb ∣ xs.flatten.length)
    {E : List Ev} {s' : CState} {r : Buf} (h : feed (parser c D int x) x.e st [] xs = (E, .ok s' r)) :
    ∃ E', feed (parser c D int x) x.e st [] ys = (E', .ok s' r) ∧ flat E' = flat E := by
  have h1 := parser_chunks s c D int st xs hd
  have h2 := parser_chunks s c D int st ys (he ▸ hd)
  rw [← he] at h2
  rw [h] at h1
  generalize feed (parser c D int x) x.e st [] ys = q at *
  generalize call (parser c D int x) x.e false st xs.flatten = w at *
  obtain ⟨E1, o1⟩ := q
  obtain ⟨E2, o2⟩ := w
  cases o2 <;> simp only [Same] at h1
  cases o1 <;> simp only [Same] at h2
  obtain ⟨a, rfl, rfl⟩ := h1
  obtain ⟨b, rfl, rfl⟩ := h2
  exact ⟨E1, rfl, b.trans a.symm⟩

/-! Non-vacuity: `<a>x&lt;y\r</a>` cut inside the reference and inside the end tag. -/
example : (feed (parser {} default (internalUtf8X false) (utf8X false)) (utf8Enc false) CState.init []
    ["<a>x&l".toUTF8.toList, "t;y\r</".toUTF8.toList, "a>".toUTF8.toList]).1 =
    [.startElement [0x61] [] 0 none, .chars [0x78], .chars [0x3C], .chars [0x79], .chars [0x0A], .endElement [0x61]] := by
  decide +kernel
example : (call (parser {} default (internalUtf8X false) (utf8X false)) (utf8Enc false) false CState.init
    "<a>x&lt;y\r</a>".toUTF8.toList).1 =
    [.startElement [0x61] [] 0 none, .chars [0x78], .chars [0x3C], .chars [0x79], .chars [0x0A], .endElement [0x61]] := by
  decide +kernel
/-- Text really is sliced differently. -/
example : (feed (parser {} default (internalUtf8X false) (utf8X false)) (utf8Enc false) CState.init []
    ["<a>x".toUTF8.toList, "y</a>".toUTF8.toList]).1 =
    [.startElement [0x61] [] 0 none, .chars [0x78], .chars [0x79], .endElement [0x61]] := by
  decide +kernel

end Verif.C04
