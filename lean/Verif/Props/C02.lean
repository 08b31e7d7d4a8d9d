import Verif.Whole

/-! C02: the tokenizer always makes progress and stays in the buffer. -/

namespace Verif.C02
open Verif

/-- The four tokenizers that run on raw input. -/
inductive Entry | content | cdata | prolog | ignore
deriving DecidableEq

/-- xmltok.rs:347-372 (`XmlTokImpl` entry points). -/
def Entry.run : Entry → Enc → Buf → Res
  | .content => contentTok
  | .cdata => cdataSectionTok
  | .prolog => prologTok
  | .ignore => ignoreSectionTok

theorem truncBuf_le (e : Enc) (b : Buf) : (truncBuf e b).length ≤ b.length := by
  rw [truncBuf, List.length_take]; omega

/-- C02, bounds: whatever the buffer holds, the reported position lies inside the buffer. -/
theorem next_in_buffer (f : Entry) (e : Enc) (b : Buf) : (f.run e b).next ≤ b.length := by
  have ht := truncBuf_le e b
  have hne : ∀ h : ¬ (truncBuf e b).isEmpty = true, e.mb ≤ (truncBuf e b).length := fun h =>
    truncBuf_length e b (by simpa using h)
  cases f <;> simp only [Entry.run, contentTok, cdataSectionTok, prologTok, ignoreSectionTok]
  case ignore => have := (ignoreLoop_bnd e 0 (truncBuf e b) 0).hi; omega
  all_goals
    split; · simp
    split; · simp
    rename_i h
  · have := (contentTokBody_bnd e _ (hne h)).hi; omega
  · have := (cdataTokBody_bnd e _ (hne h)).hi; omega
  · have := (prologTokBody_bnd e _ (hne h)).hi; omega

/-- C02, progress: an accepted token consumes at least one byte.  (`INSTANCE_START` is the
prolog tokenizer's "the root element begins here, hand over to the content tokenizer".) -/
theorem progress (f : Entry) (e : Enc) (b : Buf) (h : (f.run e b).tok.isError = false)
    (h2 : (f.run e b).tok ≠ .INSTANCE_START) : 0 < (f.run e b).next := by
  cases f <;> simp only [Entry.run, contentTok, cdataSectionTok, prologTok, ignoreSectionTok] at *
  case ignore => exact ignoreLoop_pos e 0 _ 0 h
  all_goals
    split at h; · cases h
    split at h; · cases h
    rename_i h3 h4
    simp only [h3, h4, if_false, Bool.false_eq_true] at *
  · exact contentTokBody_pos e _ h
  · exact cdataTokBody_pos e _ h
  · exact prologTokBody_pos e _ h h2

/-- C02, no out-of-range reads: the result does not depend on how the encoding would classify
a character that does not lie wholly inside the buffer. -/
theorem reads_in_buffer (f : Entry) {e e' : Enc} (ag : Agree e e') (b : Buf) :
    f.run e' b = f.run e b := by
  have hne : ∀ h : ¬ (truncBuf e b).isEmpty = true, e.mb ≤ (truncBuf e b).length := fun h =>
    truncBuf_length e b (by simpa using h)
  cases f <;> simp only [Entry.run, contentTok, cdataSectionTok, prologTok, ignoreSectionTok,
    truncBuf_loc ag]
  case ignore => exact ignoreLoop_loc ag _ _
  all_goals
    split; · rfl
    split; · rfl
    rename_i h
  · exact contentTokBody_loc ag _ (hne h)
  · exact cdataTokBody_loc ag _ (hne h)
  · exact prologTokBody_loc ag _ (hne h)

/-- One successful tokenizer call, leaving the rest of the buffer. -/
def Consumes (e : Enc) (b b' : Buf) : Prop :=
  ∃ f : Entry, (f.run e b).tok.isError = false ∧ (f.run e b).tok ≠ .INSTANCE_START ∧
    b' = b.drop (f.run e b).next

/-- A run of `n` successful tokenizer calls, of whatever kinds. -/
inductive Run (e : Enc) : Nat → Buf → Buf → Prop
  | zero (b) : Run e 0 b b
  | succ {n b b' b''} : Consumes e b b' → Run e n b' b'' → Run e (n + 1) b b''

/-- C02, termination: however the tokenizer kinds are interleaved, at most as many tokens are
delivered as there are bytes. -/
theorem run_bounded (e : Enc) (n : Nat) (b b' : Buf) (h : Run e n b b') :
    n + b'.length ≤ b.length := by
  induction h with
  | zero b => omega
  | @succ n b _ _ h1 _ ih =>
    obtain ⟨f, h2, h3, rfl⟩ := h1
    have h4 := progress f e _ h2 h3
    have h5 := next_in_buffer f e b
    simp only [List.length_drop] at ih
    omega

/-- C02 for the attribute-value and entity-value tokenizers.  They are only run on the text of
literals already accepted, which consists of whole characters (`literal_whole`). -/
theorem value_tok (e : Enc) (b : Buf) (h : WholeChars e b) :
    (attributeValueTok e b).next ≤ b.length ∧ (entityValueTok e b).next ≤ b.length ∧
    ((attributeValueTok e b).tok.isError = false → 0 < (attributeValueTok e b).next) ∧
    ((entityValueTok e b).tok.isError = false → 0 < (entityValueTok e b).next) := by
  have h1 := attValLoop_bnd e b 0 h
  have h2 := entValLoop_bnd e b 0 h
  unfold attributeValueTok entityValueTok
  split
  · simp [Tok.isError, Tok.toInt]
  · split
    · simp [Tok.isError, Tok.toInt]
    · refine ⟨by omega, by omega, fun h => ?_, fun h => ?_⟩
      · exact (h1.2 h).2 (by omega)
      · exact (h2.2 h).2 (by omega)

/-- C02: the text between the quotes of a literal accepted by the prolog tokenizer consists of
whole characters (so `value_tok` applies to it). -/
theorem literal_whole (e : Enc) (ok : e.Ok) (hm : e.mb ≤ 2) (op : ByteType) (b : Buf)
    (h : (scanLit e op b 0).tok = .LITERAL) :
    WholeChars e (b.take ((scanLit e op b 0).next - e.mb)) := by
  obtain ⟨n, h1, _, h3⟩ := scanLit_whole ok hm op b 0 h
  rw [h1, Nat.zero_add, Nat.add_sub_cancel]
  exact h3

/-! Non-vacuity: a start tag is consumed, then data; two encodings differing out of range. -/

-- `<a>xé` : token START_TAG_NO_ATTS of 3 bytes, then 3 bytes of data
example : Entry.content.run (utf8Enc false) [0x3C, 0x61, 0x3E, 0x78, 0xC3, 0xA9]
    = ⟨.START_TAG_NO_ATTS, 3⟩ := by decide +kernel
example : Run (utf8Enc false) 2 [0x3C, 0x61, 0x3E, 0x78, 0xC3, 0xA9] [] :=
  .succ (b' := [0x78, 0xC3, 0xA9]) ⟨.content, by decide +kernel, by decide +kernel, by decide +kernel⟩
    (.succ (b' := []) ⟨.content, by decide +kernel, by decide +kernel, by decide +kernel⟩ (.zero _))
/-- an encoding that misclassifies only empty buffers -/
example : Agree (utf8Enc false)
    { utf8Enc false with bt := fun b => if b = [] then .LT else (utf8Enc false).bt b } := by
  refine ⟨rfl, fun b h => ?_, fun _ _ _ => rfl, fun _ _ => rfl, fun _ _ _ => rfl, fun _ _ _ => rfl,
    fun _ _ _ => rfl, fun _ _ => rfl, fun _ _ => rfl⟩
  cases b with
  | nil => exact absurd h (by decide)
  | cons => simp
-- `"a&b é" ` as a literal
example : (scanLit (utf8Enc false) .QUOT [0x61, 0x26, 0xC3, 0xA9, 0x22, 0x20] 0)
    = ⟨.LITERAL, 5⟩ := by decide +kernel

end Verif.C02
