import Verif.XmlDeclRun

/-! # The start of a document: detection of the encoding

XML_Parse before the encoding is known (src/lib/xmlparse.rs:5394-5412 `prologInitProcessor`, 5569-5585
`prologProcessor`, src/lib/xmltok.rs:1980-2115). -/

set_option autoImplicit false

namespace Verif.C60
open C43 C53 C59 Spec Verif PState

/-- One call before the encoding is known, on the bytes `b` not yet consumed.  The first token of `prologProcessor`
comes from `initScan`, which sets `m_encoding`; `doProlog` then goes on in that encoding (5688).  A byte order mark is a token without
effect (`bom_token`).  Otherwise the call waits for more bytes, or if it is the last one, ends with the code given to `k` (5697-5737).
`xs` are the calls that follow. -/
def detect (c : PCfg) (ext : Ext) (fuel : Nat) (idx : EncIndex) (s : DState) (b : Buf) (xs : List Buf) (k : XErr → C57.Doc) : C57.Doc :=
  match initScan idx .prolog b with
  | .bom i n => C57.document c ext fuel { s with cur := .builtin i } (b.drop n) ([] :: xs)
  | .scan i => C57.document c ext fuel { s with cur := .builtin i } b ([] :: xs)
  | .none => k .NO_ELEMENTS
  | .more => k .UNCLOSED_TOKEN

/-- A document in several calls of XML_Parse, the last of them final, from the beginning; `idx` is the encoding given
to XML_ParserCreate or XML_SetEncoding, if any. -/
def parse (c : PCfg) (ext : Ext) (fuel : Nat) (idx : EncIndex) (s : DState) (rest : Buf) : List Buf → C57.Doc
  | [] => detect c ext fuel idx s rest [] fun e => ([], s, .prolog (.err e))
  | x :: xs => detect c ext fuel idx s (rest ++ x) xs fun e =>
      if xs = [] then ([], s, .prolog (.err e)) else parse c ext fuel idx s (rest ++ x) xs

section
variable {c : PCfg} {ext : Ext} {fuel : Nat}

theorem bom_token (expand : Bool → Buf → Buf → DState → Acted) (cur : CurEnc) (pe : PEParsing) (w : Buf) :
    pround c ext fuel expand false true [] (start cur pe) .BOM w = ([], start cur pe, .go false) := rfl

/-- What the first bytes say of the encoding: a byte order mark and the text after it, or no mark and text that begins
with an ASCII character in some encoding (XML 1.0, Appendix F.1). -/
inductive Found (idx : EncIndex) : Buf → Buf → EncId → Prop where
  | utf8 (t : Buf) : Found idx [0xEF, 0xBB, 0xBF] t .utf8
  | be (t : Buf) : Found idx [0xFE, 0xFF] t .utf16be
  | le (t : Buf) : Found idx [0xFF, 0xFE] t .utf16le
  | plain (a b : UInt8) (r : Buf) (h1 : a ≠ 0 ∧ a ≠ 0xEF ∧ a ≠ 0xFE ∧ a ≠ 0xFF) (h2 : b ≠ 0) : Found idx [] (a :: b :: r) idx.enc
  | plainBe (b : UInt8) (r : Buf) : Found idx [] (0 :: b :: r) .utf16be
  | plainLe (r : Buf) : Found idx [] (0x3C :: 0 :: r) .utf16le

/-- The decision on the whole text. -/
def decision (m : Buf) (i : EncId) : Init := if m = [] then .scan i else .bom i m.length

/-- Every beginning of the text is decided in the same way, or is too short. -/
theorem Found.cut {idx : EncIndex} {m t : Buf} {i : EncId} (h : Found idx m t i) {b x : Buf} (hb : b ++ x = m ++ t) :
    initScan idx .prolog b = decision m i ∨ initScan idx .prolog b = .more ∨ initScan idx .prolog b = .none := by
  match b with
  | [] => exact .inr (.inr rfl)
  | [p] =>
    cases h <;> simp at hb <;> obtain ⟨rfl, -⟩ := hb <;> simp only [initScan, decision] <;> grind
  | [p, q] =>
    cases h <;> simp at hb <;> obtain ⟨rfl, rfl, -⟩ := hb <;> simp [initScan, decision] <;> grind
  | p :: q :: o :: b =>
    cases h <;> simp at hb
    · obtain ⟨rfl, rfl, rfl, -⟩ := hb; simp [initScan, decision]
    · obtain ⟨rfl, rfl, -⟩ := hb; simp [initScan, decision]
    · obtain ⟨rfl, rfl, -⟩ := hb; simp [initScan, decision]
    · obtain ⟨rfl, rfl, -⟩ := hb; simp [initScan, decision]; grind
    · obtain ⟨rfl, rfl, -⟩ := hb; simp [initScan, decision]
    · obtain ⟨rfl, rfl, -⟩ := hb; simp [initScan, decision]

theorem Found.whole {idx : EncIndex} {m t : Buf} {i : EncId} (h : Found idx m t i) : initScan idx .prolog (m ++ t) = decision m i := by
  cases h with
  | utf8 => simp [initScan, decision]
  | be => simp [initScan, decision]
  | le => simp [initScan, decision]
  | plain a b r h1 h2 => simp [initScan, decision]; grind
  | plainBe => simp [initScan, decision]
  | plainLe => simp [initScan, decision]

theorem Found.long {idx : EncIndex} {m t : Buf} {i : EncId} (h : Found idx m t i) {b x : Buf} (hb : b ++ x = m ++ t)
    (hd : initScan idx .prolog b = decision m i) : m.length ≤ b.length := by
  cases h with
  | utf8 =>
    match b with
    | [] => cases hd
    | [p] => simp at hb; obtain ⟨rfl, -⟩ := hb; simp [initScan, decision] at hd
    | [p, q] => simp at hb; obtain ⟨rfl, rfl, -⟩ := hb; simp [initScan, decision] at hd
    | _ :: _ :: _ :: _ => simp
  | be =>
    match b with
    | [] => cases hd
    | [p] => simp at hb; obtain ⟨rfl, -⟩ := hb; simp [initScan, decision] at hd
    | _ :: _ :: _ => simp
  | le =>
    match b with
    | [] => cases hd
    | [p] => simp at hb; obtain ⟨rfl, -⟩ := hb; simp [initScan, decision] at hd
    | _ :: _ :: _ => simp
  | plain => simp
  | plainBe => simp
  | plainLe => simp

theorem document_rest (s : DState) (q : Buf) (ys : List Buf) :
    C57.document c ext fuel s q ([] :: ys) = C57.document c ext fuel s [] (q :: ys) := by
  cases ys <;> simp [C57.document]

theorem detect_found {idx : EncIndex} {m t : Buf} {i : EncId} (h : Found idx m t i) {b : Buf} {xs : List Buf} (hb : b ++ xs.flatten = m ++ t)
    (hd : initScan idx .prolog b = decision m i) (s : DState) (k : XErr → C57.Doc) :
    ∃ ys : List Buf, ys.flatten = t ∧ detect c ext fuel idx s b xs k = C57.document c ext fuel { s with cur := .builtin i } [] ys := by
  have hl := h.long hb hd
  refine ⟨b.drop m.length :: xs, ?_, ?_⟩
  · have h2 := congrArg (List.drop m.length) hb
    rw [List.drop_left' rfl, List.drop_append_of_le_length hl] at h2
    rw [List.flatten_cons, h2]
  · rw [detect, hd, decision]
    by_cases hm : m = []
    · subst hm
      rw [if_pos rfl]
      simp only [document_rest, List.length_nil, List.drop_zero]
    · rw [if_neg hm]
      simp only [document_rest]

/-- The detection finds the encoding wherever the text is cut; the rest is read in it. -/
theorem parse_found {idx : EncIndex} {m t : Buf} {i : EncId} (h : Found idx m t i) (s : DState) (xs : List Buf) :
    ∀ rest : Buf, rest ++ xs.flatten = m ++ t →
    ∃ ys : List Buf, ys.flatten = t ∧ parse c ext fuel idx s rest xs = C57.document c ext fuel { s with cur := .builtin i } [] ys := by
  induction xs with
  | nil =>
    intro rest hr
    have hw := h.whole
    rw [← hr, List.flatten_nil, List.append_nil] at hw
    exact detect_found h hr hw s _
  | cons x xs ih =>
    intro rest hr
    rw [List.flatten_cons, ← List.append_assoc] at hr
    have hc := h.cut hr
    have hw := h.whole
    rw [parse]
    by_cases hd : initScan idx .prolog (rest ++ x) = decision m i
    · exact detect_found h hr hd s _
    · have hx : xs ≠ [] := by
        rintro rfl
        rw [← hr, List.flatten_nil, List.append_nil] at hw
        exact hd hw
      have : detect c ext fuel idx s (rest ++ x) xs (fun e => if xs = [] then ([], s, .prolog (.err e)) else parse c ext fuel idx s (rest ++ x) xs) =
          parse c ext fuel idx s (rest ++ x) xs := by
        rw [detect]
        rcases hc with hc | hc | hc
        · exact absurd hc hd
        · rw [hc]; simp only [if_neg hx]
        · rw [hc]; simp only [if_neg hx]
      rw [this]
      exact ih _ hr

end

end Verif.C60
