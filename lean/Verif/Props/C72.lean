import Verif.NoPanicDoc
import Verif.Props.C63

/-! # C72: no document makes the parser panic or report an internal error

Whatever bytes are passed, in whatever pieces, a parser as it is created, for the document entity, with any handlers except one for
unknown encodings, comes to an end: it accepts them, or it reports an error code that blames the document.  It never reports
XML_ERROR_UNEXPECTED_STATE or XML_ERROR_NO_MEMORY (which the code uses for situations it takes to be impossible), never runs forever, and
panics on exactly one kind of document: those with an XML declaration that names an encoding with a name of 127 characters. -/

set_option autoImplicit false

namespace Verif.C72
open C43 C53 C59 C60 C61 Spec Verif PState

/-- The settings: any handlers, except one for unknown encodings; any protocol encoding; the document entity. -/
structure Settings (c : PCfg) : Prop where
  unknown : c.unknown = fun _ => none
  int : c.int = internalUtf8X c.c.ns
  isPE : c.isPE = false

/-- `<?xml`, the text `d`, and `?>` in the encoding that spells ASCII characters with `asc`. -/
def xmlDecl (asc : UInt8 → Buf) (d : Buf) : Buf := spell asc [0x3C, 0x3F, 0x78, 0x6D, 0x6C] ++ d ++ spell asc [0x3F, 0x3E]

/-- A document with an XML declaration that names a version and then an encoding with a name of 127 characters.  (What follows the
name in the declaration does not matter as long as it does not end the declaration.) -/
inductive LongName (ns : Bool) (idx : EncIndex) : Buf → Prop where
  | mk (m : Buf) (i : EncId) (version encoding : PAttr) (q r : Buf)
      (h1 : C60.Found idx m (xmlDecl (C54.ascOf i) (spell (C54.ascOf i) (version.text ++ encoding.text) ++ q) ++ r) i)
      (h2 : PiBody (i.x ns).e (C54.ascOf i) (spell (C54.ascOf i) (version.text ++ encoding.text) ++ q))
      (h3 : C18.VersionOk version) (h4 : C18.EncodingOk encoding) (h5 : encoding.value.length = 127) :
      LongName ns idx (m ++ (xmlDecl (C54.ascOf i) (spell (C54.ascOf i) (version.text ++ encoding.text) ++ q) ++ r))

/-- The error code reported, if one is. -/
def code : C57.DocEnd → Option XErr
  | .prolog (.err e) => some e
  | .content _ (.err e) => some e
  | _ => none

/-- The document has been read to its end without an error. -/
def Accepted : C57.DocEnd → Prop
  | .content _ (.ok _ _) => True
  | _ => False

theorem decl_eq (asc : UInt8 → Buf) (d : Buf) : declOf asc d = xmlDecl asc d := by
  simp [declOf, xmlDecl, spell, xmlName]

theorem long_eq {ns : Bool} {idx : EncIndex} {b : Buf} : Verif.LongName ns idx b ↔ LongName ns idx b := by
  constructor
  · rintro ⟨m, t, i, d, r, v, a, q, h1, rfl, rfl, h4, h5, h6, h7, rfl⟩
    rw [decl_eq] at h1 ⊢
    exact .mk m i v a q r h1 h4 h5 h6 h7
  · rintro ⟨m, i, v, a, q, r, h1, h2, h3, h4, h5⟩
    exact ⟨m, _, i, _, r, v, a, q, h1, rfl, by rw [decl_eq], h2, h3, h4, h5, rfl⟩

section
variable {c : PCfg}

theorem Settings.doc0 (h : Settings c) : Doc0 c := ⟨h.unknown, h.int, h.isPE⟩

/-- **C72.**  Whatever is passed, in whatever pieces: the document is accepted, or an error code is reported that is none of the codes
for internal errors, or the library panics and the document is one of those with an encoding name of 127 characters.  (The depth of
nesting in content models is counted in 32 bits, hence the bound.) -/
theorem outcome (hc : Settings c) (ext : Ext) (fuel : Nat) (idx : EncIndex) (cur : CurEnc) (xs : List Buf) (hl : xs.flatten.length + 2 < 2 ^ 31) :
    Accepted (parse c ext fuel idx (start cur .never) [] xs).2.2 ∨
    (∃ e, code (parse c ext fuel idx (start cur .never) [] xs).2.2 = some e ∧ e ≠ .UNEXPECTED_STATE ∧ e ≠ .NO_MEMORY ∧ e ≠ .DIVERGED) ∨
    ((parse c ext fuel idx (start cur .never) [] xs).2.2 = .prolog .panic ∧ LongName c.c.ns idx xs.flatten) := by
  have := parse_fine (ext := ext) (fuel := fuel) hc.doc0 idx cur xs [] (by simpa using hl)
  rw [List.nil_append] at this
  have out {e : XErr} (h : e.Outer) : e ≠ .UNEXPECTED_STATE ∧ e ≠ .NO_MEMORY ∧ e ≠ .DIVERGED := by
    refine ⟨?_, ?_, h.2⟩
    · rintro rfl; exact absurd h.1 (by decide)
    · rintro rfl; exact absurd h.1 (by decide)
  revert this
  generalize parse c ext fuel idx (start cur .never) [] xs = d
  obtain ⟨E, s, o⟩ := d
  rcases o with (_ | _ | _ | _) | ⟨F, _ | _⟩
  · exact False.elim
  · exact False.elim
  · intro h; exact .inr (.inl ⟨_, rfl, out h⟩)
  · intro h; exact .inr (.inr ⟨rfl, long_eq.1 h⟩)
  · intro h; first | exact .inr (.inl ⟨_, rfl, out h⟩) | exact .inl trivial
  · intro h; first | exact .inr (.inl ⟨_, rfl, out h⟩) | exact .inl trivial

/-- The documents on which the library panics. -/
theorem panics_iff (hc : Settings c) (ext : Ext) (fuel : Nat) (idx : EncIndex) (cur : CurEnc) (xs : List Buf) (hl : xs.flatten.length + 2 < 2 ^ 31) :
    (parse c ext fuel idx (start cur .never) [] xs).2.2 = .prolog .panic ↔ LongName c.c.ns idx xs.flatten := by
  constructor
  · intro h
    rcases outcome hc ext fuel idx cur xs hl with h1 | ⟨e, h1, -⟩ | h1
    · rw [h] at h1; exact h1.elim
    · rw [h] at h1; cases h1
    · exact h1.2
  · exact fun h => long_panics hc.doc0 (long_eq.2 h) cur .never

end

/-! ### The calls of the application -/

section
variable {C : PCfg} {ext : Ext} {fuel : Nat} {upd : Buf → Pos → Option Pos} {alloc : Nat → Bool}

theorem Settings.settings (h : Settings C) (f : Api.Conf) : Settings (C63.settings C f) := ⟨h.unknown, h.int, h.isPE⟩

/-- **C72, at the interface.**  A parser as it is created or reset, XML_Parse on the pieces of a text: every call returns XML_STATUS_OK; or
the last returns XML_STATUS_ERROR, and XML_GetErrorCode returns none of the codes for internal errors; or one of the calls panics, and
the text is one of those with an encoding name of 127 characters. -/
theorem calls_outcome (hC : Settings C) (ha : ∀ n, alloc n = true) {p q : Api.Parser C63.Inner} (hn : C63.New p) (ho : C63.NoDtd p.conf) {idx : EncIndex}
    (hi : getEncodingIndex p.conf.encoding = some idx) {ws : List Buf} {w : Buf} (hs : ws.flatten.length + w.length + 1024 ≤ 2 ^ 30)
    {rs : List (Api.Ret C63.Inner Api.Val)} (h : Api.Path (C63.docEngine C ext fuel upd alloc) p (C63.calls ws w) rs q) :
    (q.error = none ∧ (∀ r ∈ rs, r.val = .status .OK) ∧ ∃ z s, q.inner.stage = .content z s) ∨
    (∃ e, q.error = some e ∧ C63.final rs = some (.status .ERROR) ∧ e ≠ .UNEXPECTED_STATE ∧ e ≠ .NO_MEMORY ∧ e ≠ .DIVERGED) ∨
    (q.inner.stage = .dead ∧ LongName C.c.ns idx (ws.flatten ++ w)) := by
  obtain ⟨h1, h2, h3⟩ := C63.outcome ha hn hi hs h
  have ho' : (C63.pieces ws w).flatten = ws.flatten ++ w := C63.pieces_flatten ws w
  rw [ho.first] at h1
  have := outcome (hC.settings p.conf) ext fuel idx (.builtin .utf8) (C63.pieces ws w) (by
    rw [ho', List.length_append]
    have : (2 : Nat) ^ 30 + 2 < 2 ^ 31 := by decide
    omega)
  rw [ho'] at this
  revert h1 this
  generalize parse (C63.settings C p.conf) ext fuel idx (start (.builtin .utf8) .never) [] (C63.pieces ws w) = d
  obtain ⟨E, s, o⟩ := d
  intro h1 h4
  rcases h4 with h4 | ⟨e, h4, h5⟩ | ⟨h4, h5⟩
  · rcases o with o | ⟨F, o | o⟩
    · exact h4.elim
    · obtain ⟨-, -, k1, k2⟩ := h1
      exact .inl ⟨k2, h2 k2, _, _, k1⟩
    · exact h4.elim
  · have he : q.error = some e := by
      rcases o with (_ | _ | _ | _) | ⟨F, _ | _⟩ <;> simp only [code, Option.some.injEq, reduceCtorEq] at h4
      · subst h4; exact h1.2.2
      · subst h4; exact h1.2.2
    exact .inr (.inl ⟨e, he, h3 (by rw [he]; simp), h5⟩)
  · simp only at h4
    subst h4
    exact .inr (.inr ⟨h1.2.2.1, h5⟩)

end

/-! ### Examples -/

example : Settings C57.exCfg := ⟨rfl, rfl, rfl⟩

/-- `<!DOCTYPE a [<!ENTITY e "&#0;">`: the reference to the character NUL is reported. -/
def exBad : Buf := [60, 33, 68, 79, 67, 84, 89, 80, 69, 32, 97, 32, 91, 60, 33, 69, 78, 84, 73, 84, 89, 32, 101, 32, 34, 38, 35, 48, 59, 34, 62]

example : code (parse C57.exCfg C57.exExt 3 .noEnc (start (.builtin .utf8) .never) [] [exBad.take 20, exBad.drop 20]).2.2 = some .BAD_CHAR_REF := by
  decide +kernel

def panicked : C57.DocEnd → Bool
  | .prolog .panic => true
  | _ => false

/-- `<!DOCTYPE a [<!ENTITY e 'x'>]><a>&e;</a>` is accepted. -/
def exGood : Buf := [60, 33, 68, 79, 67, 84, 89, 80, 69, 32, 97, 32, 91, 60, 33, 69, 78, 84, 73, 84, 89, 32, 101, 32, 39, 120, 39, 62, 93, 62, 60, 97, 62, 38, 101, 59, 60, 47, 97, 62]

example : Accepted (parse C57.exCfg C57.exExt 3 .noEnc (start (.builtin .utf8) .never) [] [exGood.take 20, exGood.drop 20]).2.2 := by
  have := outcome (c := C57.exCfg) ⟨rfl, rfl, rfl⟩ C57.exExt 3 .noEnc (.builtin .utf8) [exGood.take 20, exGood.drop 20] (by decide)
  rcases this with h | ⟨e, h, -⟩ | ⟨h, -⟩
  · exact h
  · have : code (parse C57.exCfg C57.exExt 3 .noEnc (start (.builtin .utf8) .never) [] [exGood.take 20, exGood.drop 20]).2.2 = none := by decide +kernel
    rw [this] at h
    cases h
  · have : panicked (parse C57.exCfg C57.exExt 3 .noEnc (start (.builtin .utf8) .never) [] [exGood.take 20, exGood.drop 20]).2.2 = false := by decide +kernel
    rw [h] at this
    cases this

/-- `version='1.0'` and `encoding='aa...a'` -/
def exVersion : PAttr := ⟨[0x20], C16.codes ['v','e','r','s','i','o','n'], [], [], 0x27, C16.codes ['1','.','0']⟩
def exEncoding : PAttr := ⟨[0x20], C16.codes ['e','n','c','o','d','i','n','g'], [], [], 0x27, List.replicate 127 0x61⟩

theorem ex_version : C18.VersionOk exVersion := ⟨C60.ex_attr _ (by decide +kernel) (by decide) (by decide) (by decide +kernel), rfl⟩

theorem ex_encoding : C18.EncodingOk exEncoding :=
  ⟨C60.ex_attr _ (by decide +kernel) (by decide) (by decide) (fun c hc => by rw [List.eq_of_mem_replicate hc]; rfl), rfl, 0x61, List.replicate 126 0x61, rfl, rfl⟩

theorem ex_src : C18.Src.Valid false ⟨some exVersion, some exEncoding, none, []⟩ where
  version := by rintro a ⟨⟩; exact ex_version
  encoding := by rintro a ⟨⟩; exact ex_encoding
  standalone := by rintro a ⟨⟩
  trail := by intro c hc; cases hc
  needVersion := fun _ => rfl
  needEncoding := fun h => by cases h
  noStandalone := fun h => by cases h

/-- `<?xml version='1.0' encoding='aa...a'?><a/>` -/
def exLong : Buf := xmlDecl asc1 (spell asc1 (exVersion.text ++ exEncoding.text)) ++ [0x3C, 0x61, 0x2F, 0x3E]

theorem ex_long : LongName false .noEnc exLong := by
  have h := LongName.mk (ns := false) (idx := .noEnc) [] .utf8 exVersion exEncoding [] [0x3C, 0x61, 0x2F, 0x3E] (.plain 0x3C 0x3F _ (by decide) (by decide)) (by
    have := C60.decl_body (C54.supported false .utf8) ex_src
    simpa [C18.Src.text, C18.txt] using this) ex_version ex_encoding (List.length_replicate ..)
  simpa [exLong, C54.ascOf] using h

example (ext : Ext) (fuel : Nat) (cur : CurEnc) : (parse C57.exCfg ext fuel .noEnc (start cur .never) [] [exLong]).2.2 = .prolog .panic := by
  refine (panics_iff (c := C57.exCfg) ⟨rfl, rfl, rfl⟩ ext fuel .noEnc cur _ (by decide +kernel)).2 ?_
  rw [List.flatten_cons, List.flatten_nil, List.append_nil]
  exact ex_long

/-- A final call with half a document. -/
example {rs : List (Api.Ret C63.Inner Api.Val)} {q : Api.Parser C63.Inner}
    (h : Api.Path C63.exEngine (Api.create C63.exEngine none) (C63.calls [exBad.take 20, []] (exBad.drop 20)) rs q) :
    (∃ z s, q.inner.stage = .content z s) ∨ (∃ e, q.error = some e) ∨ q.inner.stage = .dead := by
  rcases calls_outcome (C := C59.exCfg) ⟨rfl, rfl, rfl⟩ (fun _ => rfl) (C63.new_create none) ⟨rfl, rfl⟩ (idx := .noEnc) rfl (by decide) h with h | ⟨e, h, -⟩ | h
  · exact .inl h.2.2
  · exact .inr (.inl ⟨e, h⟩)
  · exact .inr (.inr h.1)

end Verif.C72
