import Verif.Props.C19

/-! C54: a declared encoding that contradicts the detected one is refused. -/

namespace Verif.C54
open Spec

/-- Specification: size of the code unit of the built-in encodings. -/
def unitSize : EncId → Nat
  | .latin1 | .ascii | .utf8 => 1
  | .utf16be | .utf16le => 2

/-- Can a document being read as `cur` declare itself to be `new`? -/
def Compatible (cur new : EncId) : Prop :=
  unitSize cur = unitSize new ∧ (unitSize new = 2 → new = cur)

instance (c n) : Decidable (Compatible c n) := by unfold Compatible; infer_instance

theorem mb_unit (ns : Bool) (i : EncId) : (i.x ns).e.mb = unitSize i := by cases i <;> rfl

def ascOf : EncId → UInt8 → Buf
  | .latin1 | .ascii | .utf8 => asc1
  | .utf16be => ascB
  | .utf16le => ascL

theorem supported (ns : Bool) (i : EncId) : XSupported (i.x ns) (ascOf i) := by
  cases i
  · exact .latin1 ns
  · exact .ascii ns
  · exact .utf8 ns
  · exact .utf16be ns
  · exact .utf16le ns

/-- What an accepted declaration does to the encoding, in terms of the name declared. -/
def expected (cur : EncId) (name : Option (List UInt8)) : DeclDone :=
  match name with
  | none => .proceed cur
  | some n =>
    if C16.SameName n (C16.codes ['U','T','F','-','1','6']) ∧ unitSize cur = 2 then .proceed cur
    else match getEncodingIndex (some n) with
      | none => .askHandler
      | some i => if Compatible cur i.enc then .proceed i.enc else .incorrectEncoding

/-- C54: a document read as `cur` (no encoding given by the application) whose declaration follows
the grammar proceeds in the encoding named if that is compatible with what was detected, is refused with
INCORRECT_ENCODING if it is a built-in one that is not, and is referred to the unknown-encoding
handler otherwise. Names of 127 characters excepted (C16). -/
theorem declared_encoding (ns : Bool) (cur : EncId) (text : Bool) {d : C18.Src} (h : d.Valid text)
    (h127 : ∀ a ∈ d.encoding, a.value.length ≠ 127) (hc : (cur.x ns).Clean (spell (ascOf cur) d.text)) :
    processXmlDecl ns cur false text (spell (ascOf cur) d.text) =
      expected cur (d.encoding.map (·.value)) := by
  have s := supported ns cur
  rw [processXmlDecl, (C18.accepted_partial s text hc _).2 ⟨d, h, h127, rfl, rfl⟩]
  simp only [Bool.false_eq_true, if_false]
  cases he : d.encoding with
  | none => simp [C18.Src.out, he, expected]
  | some a =>
    have ha := h.encoding a he
    have hv := ha.1.value
    simp only [C18.Src.out, he, Option.map_some, expected]
    rw [C16.declared_partial s a.value (C18.val_lt hv) (C18.val_zero hv) (h127 a he), mb_unit]
    by_cases h16 : C16.SameName a.value (C16.codes ['U','T','F','-','1','6']) ∧ unitSize cur = 2
    · rw [if_pos h16]; simp [h16]
    · rw [if_neg h16, if_neg h16]
      cases getEncodingIndex (some a.value) with
      | none => rfl
      | some i =>
        simp only [mb_unit]
        by_cases hcomp : Compatible cur i.enc
        · rw [if_pos hcomp, if_neg]
          rintro (h1 | ⟨h1, h2⟩)
          · exact h1 hcomp.1.symm
          · exact h2 (hcomp.2 h1)
        · rw [if_neg hcomp, if_pos]
          refine Classical.byContradiction fun hn => hcomp ⟨?_, fun h2 => ?_⟩
          · exact Classical.byContradiction fun h3 => hn (.inl fun h4 => h3 h4.symm)
          · exact Classical.byContradiction fun h3 => hn (.inr ⟨h2, h3⟩)

/-- C54: the encoding given by the application always wins. -/
theorem protocol_wins (ns : Bool) (cur : EncId) (text : Bool) (b : Buf) (o : DeclOut)
    (h : doParseXmlDecl (cur.x ns) text b = .ok o) :
    processXmlDecl ns cur true text b = .proceed cur := by
  rw [processXmlDecl, h]; rfl

/-- A UTF-8 document may call itself US-ASCII but not UTF-16; a UTF-16LE document may call itself
UTF-16 but not UTF-16BE. -/
example : expected .utf8 (some (C16.codes ['u','s','-','a','s','c','i','i'])) = .proceed .ascii ∧
    expected .utf8 (some (C16.codes ['u','t','f','-','1','6'])) = .incorrectEncoding ∧
    expected .utf16le (some (C16.codes ['u','t','f','-','1','6'])) = .proceed .utf16le ∧
    expected .utf16le (some (C16.codes ['u','t','f','-','1','6','b','e'])) = .incorrectEncoding := by
  decide +kernel

end Verif.C54
