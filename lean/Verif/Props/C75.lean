import Verif.CopyRun

/-! # C75: XML_DefaultCurrent passes on the markup of the current call

An application that sets XML_SetDefaultHandler and any other handlers for content, each of which (but for those of namespace declarations)
calls XML_DefaultCurrent, finds that the default handler is given the whole content, each byte once and in order, recoded to UTF-8. -/

set_option autoImplicit false

namespace Verif.C75
open C43 C53 Spec Verif C04
open Verif.C65 (Recodes raw_recodes)

section
variable (c : Cfg) (D : Dtd) (int : XEnc) (i : EncId)

/-- The calls of a document's content, with the bytes XML_DefaultCurrent would pass on in each. -/
def shown (s : CState) (r : Buf) (xs : List Buf) : List Shown × Out CState := feedShown (parser c D int (i.x c.ns)) (i.x c.ns) s r xs

/-- They are the calls of the parser. -/
theorem same_calls (s : CState) (r : Buf) (xs : List Buf) :
    ((shown c D int i s r xs).1.map (·.ev), (shown c D int i s r xs).2) = feed (parser c D int (i.x c.ns)) (i.x c.ns).e s r xs := by
  obtain ⟨ex, h⟩ := sem_semOf c D int D.fuel (i.x c.ns) [] 0
  rw [shown, show parser c D int (i.x c.ns) = semOf c D int (i.x c.ns) [] 0 ex from h]
  exact feedShown_ran xs r s

/-- **C75.**  Any handlers, entities not expanded, any document type, state and cut: what the default handler is given, from the parser and through
XML_DefaultCurrent, is the content recoded to UTF-8, or a first part of it if there is an error.  (What is missing: that this is so for CDATA
sections with lines of more than 1024 bytes in encodings that are converted, which is not the case.) -/
theorem echoed_partial (hd : c.dflt = true) (hx : c.expandInternal = false) (s : CState) (r : Buf) (xs : List Buf)
    (hs : Short c (i.x c.ns) (C54.ascOf i) (r ++ xs.flatten)) :
    ∃ a q, r ++ xs.flatten = a ++ q ∧ Recodes i a (echo c (i.x c.ns) (shown c D int i s r xs).1) ∧
      ((∃ s' r', (shown c D int i s r xs).2 = .ok s' r') → C54.unitSize i ∣ (r ++ xs.flatten).length → q = []) := by
  obtain ⟨ex, h⟩ := sem_semOf c D int D.fuel (i.x c.ns) [] 0
  have g := echoes_feed (D := D) (int := int) (opened := []) (expand := ex) (C54.supported c.ns i) hd hx xs r s hs
  rw [shown, show parser c D int (i.x c.ns) = semOf c D int (i.x c.ns) [] 0 ex from h]
  generalize feedShown (semOf c D int (i.x c.ns) [] 0 ex) (i.x c.ns) s r xs = p at *
  obtain ⟨E, o⟩ := p
  cases o with
  | ok s' q =>
    obtain ⟨ws, -, h1, h2, h3⟩ := g
    refine ⟨_, q, h1, ?_, fun _ hu => h3 rfl (by rw [C54.mb_unit]; exact hu)⟩
    simp only at h2 ⊢
    rw [h2]; exact raw_recodes ..
  | err e =>
    obtain ⟨a, q, h1, h2⟩ := g
    refine ⟨a, q, h1, ?_, fun ⟨_, _, hk⟩ => by cases hk⟩
    simp only at h2 ⊢
    rw [h2]; exact raw_recodes ..

/-- In UTF-8 and US-ASCII there is no exception, and the text is passed on byte by byte. -/
theorem echoed (hi : i = .utf8 ∨ i = .ascii) (hd : c.dflt = true) (hx : c.expandInternal = false) (s : CState) (r : Buf) (xs : List Buf) :
    echo c (i.x c.ns) (shown c D int i s r xs).1 <+: r ++ xs.flatten ∧
      ((∃ s' r', (shown c D int i s r xs).2 = .ok s' r') → echo c (i.x c.ns) (shown c D int i s r xs).1 = r ++ xs.flatten) := by
  obtain ⟨a, q, h1, h2, h3⟩ := echoed_partial c D int i hd hx s r xs (by
    intro hu; rcases hi with rfl | rfl <;> cases hu)
  have h2 : echo c (i.x c.ns) (shown c D int i s r xs).1 = a := by rcases hi with rfl | rfl <;> exact h2
  rw [h2]
  refine ⟨⟨q, h1.symm⟩, fun ho => ?_⟩
  rw [h1, h3 ho (by rcases hi with rfl | rfl <;> exact Nat.one_dvd _), List.append_nil]

end

/-- A document of at most 255 bytes has no line that is too long. -/
theorem short_text (c : Cfg) (i : EncId) (asc : UInt8 → Buf) {t : Buf} (h : 4 * t.length ≤ 1020) : Short c (i.x c.ns) asc t := by
  intro hu _ ws r r' ht _
  have hl : ws.flatten.length ≤ t.length := by rw [ht]; simp only [List.length_append]; omega
  obtain ⟨step, hu', -, -, hx⟩ := conv_loop (C54.supported c.ns i) hu
  have := loop_len hu' (ws.flatten.take (ws.flatten.length / (i.x c.ns).e.mb * (i.x c.ns).e.mb)) (4 * ws.flatten.length + 4)
  rw [converted, hx]
  omega

/-! ### Examples -/

def exCfg : Cfg := { dflt := true, expandInternal := false }
/-- A document with an unread external subset, so that undeclared entities are skipped. -/
def exDtd : Dtd := ⟨[], [], [], true, false⟩

/-- Every kind of call, in ISO-8859-1: the default handler is given the text in UTF-8. -/
example : let t := "<a b='1'>x&amp;\r\n<c/><?p q?><!--d--><![CDATA[e]]>&f;</a>\n".toUTF8.toList ++ [0x0A]
    let r := shown exCfg exDtd (internalUtf8X false) .latin1 CState.init [] [t.take 5, t.drop 5]
    (r.1.length = 14 ∧ echo exCfg (latin1X false) r.1 = t) := by decide +kernel

/-- The hypotheses are met. -/
example (x : Buf) (h : x.length ≤ 100) : ∃ a q, x = a ++ q ∧
    Recodes .latin1 a (echo exCfg (latin1X false) (shown exCfg default (internalUtf8X false) .latin1 CState.init [] [x]).1) := by
  obtain ⟨a, q, h1, h2, -⟩ := echoed_partial exCfg default (internalUtf8X false) .latin1 rfl rfl CState.init [] [x] (short_text _ _ _ (by simp; omega))
  exact ⟨a, q, by simpa using h1, h2⟩

/-- **The exception is real**: 1025 characters in a CDATA section of a document in ISO-8859-1.  The character data handler is called twice; in
the first call XML_DefaultCurrent passes on all of the text, in the second one its end once more. -/
theorem cdata_twice :
    let t := "<a><![CDATA[".toUTF8.toList ++ List.replicate 1025 0x78 ++ "]]></a>".toUTF8.toList
    let r := shown exCfg default (internalUtf8X false) .latin1 CState.init [] [t]
    echo exCfg (latin1X false) r.1 = "<a><![CDATA[".toUTF8.toList ++ List.replicate 1026 0x78 ++ "]]></a>".toUTF8.toList := by
  decide +kernel

end Verif.C75
