import Verif.DocThm

/-! C55: the parser accepts exactly the documents of the XML grammar (from the root element on) and
reports exactly their events.  The grammar is in Verif/Grammar.lean and Verif/Document.lean. -/

set_option autoImplicit false

namespace Verif.C55
open Verif C43 C53 Spec C04

section
variable {c : Cfg} {D : Dtd} {int x : XEnc} {asc iasc : UInt8 → Buf}

/-- A tag begins where the prolog ends. -/
theorem starts (S : XSupported x asc) {w r : Buf} (hw : x.e.NmstrtChar w) (hd : x.e.mb ∣ (asc 0x3C ++ (w ++ r)).length) :
    prologTok x.e (asc 0x3C ++ (w ++ r)) = ⟨.INSTANCE_START, 0⟩ := by
  have l (c) := S.s.asc.len c
  have hwl := hw.len S.s.mb
  rw [prologTok_eq (by rw [List.length_append, l]; omega), trunc_whole S.s hd]
  simp only [prologTokBody, asc_bt S.s (t := .LT) rfl, drop_char (l _)]
  rw [if_neg (by rw [List.length_append]; omega), S.s.ok.bt_app w r hwl]
  simp only [Enc.NmstrtChar] at hw
  generalize x.e.bt w = u at *
  cases u <;> first | rfl | exact hw.elim

theorem qname_first {name : List Buf} (h : QName x.e asc name) : ∃ w r, name.flatten = w ++ r ∧ x.e.NmstrtChar w := by
  cases h with
  | plain ws h => obtain ⟨w, vs, rfl, h, -⟩ := h; exact ⟨w, _, List.flatten_cons, h⟩
  | pair us vs h _ _ => obtain ⟨w, vs, rfl, h, -⟩ := h; exact ⟨w, _, by rw [List.cons_append, List.flatten_cons], h⟩

theorem document_starts (S : XSupported x asc) {b : Buf} {E : List Ev} (h : Document c D int iasc x asc b E)
    (hd : x.e.mb ∣ b.length) : prologTok x.e b = ⟨.INSTANCE_START, 0⟩ := by
  cases h with
  | empty h1 =>
    obtain ⟨w, r, h2, h3⟩ := qname_first h1
    simp only [tagText, List.append_assoc, h2] at hd ⊢
    exact starts S h3 hd
  | element h1 =>
    obtain ⟨w, r, h2, h3⟩ := qname_first h1
    simp only [tagText, List.append_assoc, h2] at hd ⊢
    exact starts S h3 hd

variable (S : XSupported x asc) (a : AllSet c) (I : XSupported int iasc) (hi : int.e.mb = 1)
include S a I hi

/-- **C55.**  Cut into pieces in any way, text starting with a tag is accepted with the events `E` (text
counted bytewise) exactly if it is a document of the grammar with these events. -/
theorem accepted_iff (xs : List Buf) (hd : x.e.mb ∣ xs.flatten.length)
    (hb : prologTok x.e xs.flatten = ⟨.INSTANCE_START, 0⟩) (E : List Ev) :
    (∃ F s r, feed (parser c D int x) x.e CState.init [] xs = (F, .ok s r) ∧ flat F = E) ↔
      Document c D int iasc x asc xs.flatten E := by
  have one : feed (parser c D int x) x.e CState.init [] [xs.flatten] =
      run (parser c D int x) x.e false false CState.init xs.flatten := by
    rw [feed, List.nil_append, call, parser, sem_mode]; rfl
  constructor
  · rintro ⟨F, s, r, h, rfl⟩
    obtain ⟨F', h1, h2⟩ := parser_chunks_ok S c D int CState.init xs [xs.flatten] (by simp) hd h
    rw [one] at h1
    rw [← h2]
    exact doc_parsed S a I hi hd hb h1
  · intro h
    obtain ⟨F, s, h1, h2⟩ := doc_run S a I hi h hd
    rw [← one] at h1
    obtain ⟨F', h3, h4⟩ := parser_chunks_ok S c D int CState.init [xs.flatten] xs (by simp) (by simpa using hd) h1
    exact ⟨F', s, [], h3, by rw [h4, h2]⟩

/-- A document of the grammar is accepted, without further conditions. -/
theorem accepted (xs : List Buf) (hd : x.e.mb ∣ xs.flatten.length) {E : List Ev}
    (h : Document c D int iasc x asc xs.flatten E) :
    ∃ F s r, feed (parser c D int x) x.e CState.init [] xs = (F, .ok s r) ∧ flat F = E :=
  (accepted_iff S a I hi xs hd (document_starts S h hd) E).2 h

/-- What is not a document of the grammar is refused with an error. -/
theorem refused (xs : List Buf) (hd : x.e.mb ∣ xs.flatten.length)
    (hb : prologTok x.e xs.flatten = ⟨.INSTANCE_START, 0⟩)
    (h : ¬ ∃ E, Document c D int iasc x asc xs.flatten E) :
    ∃ F err, feed (parser c D int x) x.e CState.init [] xs = (F, .err err) := by
  cases hq : feed (parser c D int x) x.e CState.init [] xs with
  | mk F o =>
    cases o with
    | err e => exact ⟨F, e, rfl⟩
    | ok s r => exact (h ⟨_, (accepted_iff S a I hi xs hd hb _).1 ⟨F, s, r, hq, rfl⟩⟩).elim

/-- The grammar is unambiguous: a document has one list of events. -/
theorem unambiguous {b : Buf} (hd : x.e.mb ∣ b.length) {E E' : List Ev} (h : Document c D int iasc x asc b E)
    (h' : Document c D int iasc x asc b E') : E = E' := by
  obtain ⟨F, s, h1, rfl⟩ := doc_run S a I hi h hd
  obtain ⟨F', s', h2, rfl⟩ := doc_run S a I hi h' hd
  rw [h1] at h2
  injection h2 with h2 _
  rw [h2]

end

/-! Non-vacuity: the default configuration of the model sets all handlers; `<a>x</a>` is a document, by the
theorem since it is accepted. -/
theorem allSet_default : AllSet {} := by constructor <;> rfl

theorem ok_of_code {σ : Type} {r : Ran σ} {F : List Ev} (h1 : r.1 = F) (h2 : r.2.code = none) : ∃ F' s q, r = (F', .ok s q) ∧ F' = F := by
  obtain ⟨F', o⟩ := r
  cases o with
  | ok s q => exact ⟨F', s, q, rfl, h1⟩
  | err c => cases h2

private def doc : Buf := "<a b='1'>x&lt;<![CDATA[<]]><d/></a> ".toUTF8.toList
private def evs : List Ev :=
  [.startElement [0x61] [([0x62], [0x31])] 1 none, .chars [0x78], .chars [0x3C], .startCdata, .chars [0x3C], .endCdata,
    .startElement [0x64] [] 0 none, .endElement [0x64], .endElement [0x61]]
example : Document {} default (internalUtf8X false) asc1 (utf8X false) asc1 doc evs := by
  have h := (accepted_iff (D := default) (.utf8 false) allSet_default (.internalUtf8 false) rfl [doc] (Nat.one_dvd _)
    (by decide +kernel) evs).1
  obtain ⟨F, s, r, h1, h2⟩ := ok_of_code (r := feed (parser {} default (internalUtf8X false) (utf8X false)) (utf8Enc false) CState.init [] [doc])
    (F := evs) (by decide +kernel) (by decide +kernel)
  simpa using h ⟨F, s, r, h1, by rw [h2]; decide +kernel⟩

end Verif.C55
