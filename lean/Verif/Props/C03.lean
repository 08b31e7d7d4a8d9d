import Verif.Props.C02

/-! C03: markup tokens do not change when more input arrives. -/

namespace Verif.C03
open Verif Verif.C02

/-- Verdicts which are not final: the tokenizer asked for more input, or it delivered a piece
of a run of character data / white space, which more input may extend. -/
def openEnded : Tok → Bool
  | .PARTIAL | .PARTIAL_CHAR | .NONE | .TRAILING_CR | .TRAILING_RSQB | .PROLOG_S_NEG | .NAME_NEG
  | .NMTOKEN_NEG | .PREFIXED_NAME_NEG | .POUND_NAME_NEG | .LITERAL_NEG | .CLOSE_PAREN_NEG
  | .CLOSE_BRACKET_NEG => true
  | .DATA_CHARS | .PROLOG_S => true
  | _ => false

theorem openEnded_eq (t : Tok) (h : openEnded t = false) :
    t.needMore = false ∧ t ≠ .DATA_CHARS ∧ t ≠ .PROLOG_S := by
  cases t <;> simp_all [openEnded, Tok.needMore]

/-- C03: for every supported encoding, every buffer and every extension of it, a complete
token (or a rejection) keeps its kind and its length. -/
theorem stable (f : Entry) (e : Enc) (ok : e.Ok) (b x : Buf)
    (h : openEnded (f.run e b).tok = false) : f.run e (b ++ x) = f.run e b := by
  have ho := openEnded_eq _ h
  obtain ⟨y, hy⟩ := truncBuf_app e b x
  have hne : ∀ h : ¬ (truncBuf e b).isEmpty = true, e.mb ≤ (truncBuf e b).length := fun h =>
    truncBuf_length e b (by simpa using h)
  clear h
  cases f <;> simp only [Entry.run, contentTok, cdataSectionTok, prologTok, ignoreSectionTok, hy] at *
  case ignore => exact ignoreLoop_app ok _ _ _ ho.1
  all_goals
    split at ho; · simp [Tok.needMore] at ho
    split at ho; · simp [Tok.needMore] at ho
    rename_i h3 h4
    have h5 : ¬ (b ++ x).isEmpty = true := by simp at h3 ⊢; simp [h3]
    have h6 : ¬ (truncBuf e b ++ y).isEmpty = true := by simp at h4 ⊢; simp [h4]
    rw [if_neg h5, if_neg h6, if_neg h3, if_neg h4]
  · exact contentTokBody_app ok _ _ (hne h4) ho.1 ho.2.1
  · exact cdataTokBody_app ok _ _ (hne h4) ho.1 ho.2.1
  · exact prologTokBody_app ok _ _ (hne h4) ho.1 ho.2.2

/-- C03, by chunks: the same when the rest of the input arrives in any number of pieces. -/
theorem stable_chunks (f : Entry) (e : Enc) (ok : e.Ok) (b : Buf) (xs : List Buf)
    (h : openEnded (f.run e b).tok = false) : f.run e (b ++ xs.flatten) = f.run e b :=
  stable f e ok b _ h

/-- The built-in encodings and every application-supplied one satisfy the hypothesis. -/
theorem encodings_ok (ns : Bool) (u : Unknown) : (utf8Enc ns).Ok ∧ (latin1Enc ns).Ok ∧
    (asciiEnc ns).Ok ∧ (little2Enc ns).Ok ∧ (big2Enc ns).Ok ∧ (internalUtf8Enc ns).Ok ∧
    (unknownEncOf u).Ok :=
  ⟨utf8EncOf_ok _, byteEncOf_ok _, byteEncOf_ok _, little2EncOf_ok _, big2EncOf_ok _,
    utf8EncOf_ok _, unknownEncOf_ok _⟩

/-! Non-vacuity. -/

-- `<a b="1">` is final; `x` alone and `<a` are not
example : openEnded (Entry.content.run (utf8Enc false)
    [0x3C, 0x61, 0x20, 0x62, 0x3D, 0x22, 0x31, 0x22, 0x3E]).tok = false := by decide +kernel
example : openEnded (Entry.content.run (utf8Enc false) [0x3C, 0x61]).tok = true := by
  decide +kernel
-- a rejection is final too: `<1`
example : Entry.content.run (utf8Enc false) [0x3C, 0x31] = ⟨.INVALID, 1⟩ := by decide +kernel
-- the exclusion of character data is needed: `a` then `]]>`-free data extends the token
example : Entry.content.run (utf8Enc false) [0x61] = ⟨.DATA_CHARS, 1⟩ ∧
    Entry.content.run (utf8Enc false) [0x61, 0x62] = ⟨.DATA_CHARS, 2⟩ := by
  constructor <;> decide +kernel

end Verif.C03
