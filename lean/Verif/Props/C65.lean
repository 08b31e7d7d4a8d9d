import Verif.CopyRun

/-! # C65: the default handler is given the document

With XML_SetDefaultHandler and no other handler, the strings passed to the default handler, joined, are the text that was parsed: nothing is
left out (but for a stray last byte in UTF-16), nothing is passed twice, and nothing is changed but the encoding. -/

set_option autoImplicit false

namespace Verif.C65
open C43 C53 C59 C60 C64 Spec Verif PState

theorem alone_settings {C : PCfg} (A : Alone C) (f : Api.Conf) : Alone (C63.settings C f) :=
  ⟨A.content, A.dflt, A.expand, A.prolog, A.notStandalone, A.unknown, A.isPE⟩

section
open Verif.Api C63

variable {C : PCfg} (A : Alone C) {ext : Ext} {fuel : Nat} {upd : Buf → Pos → Option Pos} {alloc : Nat → Bool} {idx : EncIndex} {m t : Buf} {i : EncId}
include A

/-- What the parser tells is what the document comes to. -/
theorem told_inside {d : C57.Doc} {P : List PEv} {F : List Ev} {st : Stage} {code : Option XErr} (h : C63.Told d P F st code) :
    P = d.1 ∧ F = inside d.2.2 := by
  obtain ⟨E, z, o⟩ := d
  rcases o with o | ⟨G, o⟩
  · cases o with
    | content q => exact h.elim
    | _ => exact ⟨h.1, h.2.1⟩
  · cases o <;> exact ⟨h.1, h.2.1⟩

/-- **C65.** A parser with a default handler and no other is given, in any pieces, a document `t` in one of the encodings of the library (after a
byte order mark `m`, if there is one).  `h` is its XML declaration, if it has one, and `j` the encoding of what follows.  No handler but the default
handler is called, and the strings it is given, joined, are `h` and then a first part `a` of what follows, recoded to UTF-8; if XML_Parse
accepts the document then that is all of it, but for a last odd byte in UTF-16. -/
theorem copied (ha : ∀ n, alloc n = true) {p q : Parser Inner} (hn : New p) (ho : NoDtd p.conf) (hi : getEncodingIndex p.conf.encoding = some idx)
    (h0 : C60.Found idx m t i) {ws : List Buf} {w : Buf} (hx : ws.flatten ++ w = m ++ t)
    (hs : ws.flatten.length + w.length + 1024 ≤ 2 ^ 30) {rs : List (Ret Inner Val)} (hp : Path (docEngine C ext fuel upd alloc) p (calls ws w) rs q) :
    ∃ (h : Buf) (d : Option C18.Src) (j : EncId) (a b u v : Buf), Begins (settings C p.conf) i t h d j (a ++ b) ∧ POnly q.inner.P ∧ Only q.inner.F ∧
      ptext q.inner.P ++ text q.inner.F = u ++ v ∧ Recodes i h u ∧ Recodes j a v ∧
      (final rs = some (.status .OK) → b.length < C54.unitSize i ∧ (C54.unitSize i ∣ t.length → b = [])) := by
  obtain ⟨o1, o2, o3⟩ := outcome ha hn hi hs hp
  have A' := alone_settings A p.conf
  obtain ⟨ys, hy, he⟩ := C60.parse_found (c := settings C p.conf) (ext := ext) (fuel := fuel) h0 (first p.conf) (C63.pieces ws w) []
    (by rw [List.nil_append, C63.pieces_flatten, hx])
  rw [ho.first] at he o1
  rw [he] at o1
  have hw := whole_start A' (i := i) (ext := ext) (fuel := fuel) ys []
  rw [List.nil_append, hy] at hw
  change C63.Told (C57.document (settings C p.conf) ext fuel (start (.builtin i) .never) [] ys) _ _ _ _ at o1
  have hacc := Told.accepted o1 (document_ends A'.isPE _ _ _ _ _)
  obtain ⟨e1, e2⟩ := told_inside A o1
  generalize C57.document (settings C p.conf) ext fuel (start (.builtin i) .never) [] ys = D at *
  obtain ⟨h, d, j, r, E, D', hB, rfl, h1, h2, h3, h4, a, b, rfl, h5, h6⟩ := hw
  refine ⟨h, d, j, a, b, _, _, hB, ?_, ?_, ?_, raw_recodes i C.c.ns h, raw_recodes j C.c.ns a, fun hf => ?_⟩
  · rw [e1]; exact h1.append h3
  · rw [e2]; exact h4
  · rw [e1, e2, ptext_append, List.append_assoc, h2, h5]; rfl
  · have hq : q.error = none := by
      refine Classical.byContradiction fun hq => ?_
      rw [o3 hq] at hf
      simp at hf
    obtain ⟨P, s, F, u, z, hd⟩ := hacc.1 hq
    injection hd with _ hd
    obtain ⟨g1, g2⟩ := h6 ⟨D'.1, s, F, u, z, Prod.ext rfl hd⟩
    have hu := hB.head.unit
    rw [← hu, C54.mb_unit] at g1 g2
    refine ⟨g1, fun hdv => ?_⟩
    refine Classical.byContradiction fun hne => ?_
    have k1 := head_units hB.head
    rw [C54.mb_unit] at k1
    have k2 := g2 hne
    have k3 : C54.unitSize i ∣ b.length := by
      rw [hB.text, List.length_append, List.length_append] at hdv
      exact (Nat.dvd_add_right k2).1 ((Nat.dvd_add_right k1).1 hdv)
    have := Nat.le_of_dvd (List.length_pos_iff.2 hne) k3
    omega

/-- If the document is not in ISO-8859-1 then it is passed on byte by byte: what is accepted wholly, what is not up to some point. -/
theorem copied_bytes (ha : ∀ n, alloc n = true) {p q : Parser Inner} (hn : New p) (ho : NoDtd p.conf) (hi : getEncodingIndex p.conf.encoding = some idx)
    (h0 : C60.Found idx m t i) (hu : C54.unitSize i = 1) {ws : List Buf} {w : Buf} (hx : ws.flatten ++ w = m ++ t)
    (hs : ws.flatten.length + w.length + 1024 ≤ 2 ^ 30) {rs : List (Ret Inner Val)} (hp : Path (docEngine C ext fuel upd alloc) p (calls ws w) rs q)
    (hl : ∀ h d r, ¬ Begins (settings C p.conf) i t h d .latin1 r) :
    (ptext q.inner.P ++ text q.inner.F) <+: t ∧ (final rs = some (.status .OK) → ptext q.inner.P ++ text q.inner.F = t) := by
  obtain ⟨h, d, j, a, b, u, v, hB, -, -, h3, hu1, hv1, h4⟩ := copied A ha hn ho hi h0 hx hs hp
  have hj := Head.unit_one hB.head hu
  have hv : v = a := by
    cases j with
    | latin1 => exact absurd hB (hl _ _ _)
    | utf8 => exact hv1
    | ascii => exact hv1
    | utf16le => cases hj
    | utf16be => cases hj
  have hh := head_ascii hu hB.head
  have hu2 : u = h := by
    cases i with
    | latin1 => exact Eq.trans hu1 (recode_ascii .latin1 hh)
    | utf8 => exact hu1
    | ascii => exact hu1
    | utf16le => cases hu
    | utf16be => cases hu
  rw [h3, hu2, hv, hB.text]
  refine ⟨⟨b, by simp⟩, fun hf => by rw [(h4 hf).2 (by rw [hu]; exact Nat.one_dvd _)]; simp⟩

/-- A document in UTF-16 that is accepted is passed on wholly: `cs` are its characters, and its XML declaration, if it has one, does not declare
the other byte order. -/
theorem copied_utf16 (ha : ∀ n, alloc n = true) {p q : Parser Inner} (hn : New p) (ho : NoDtd p.conf) (hi : getEncodingIndex p.conf.encoding = some idx)
    (h0 : C60.Found idx m t i) {cs : List Nat} (hc : ∀ c ∈ cs, Scalar c)
    (hu : i = .utf16le ∧ t = C12.text C12.utf16le cs ∨ i = .utf16be ∧ t = C12.text C12.utf16be cs) {ws : List Buf} {w : Buf} (hx : ws.flatten ++ w = m ++ t)
    (hs : ws.flatten.length + w.length + 1024 ≤ 2 ^ 30) {rs : List (Ret Inner Val)} (hp : Path (docEngine C ext fuel upd alloc) p (calls ws w) rs q)
    (hl : ∀ h d j r, Begins (settings C p.conf) i t h d j r → j = i) (hf : final rs = some (.status .OK)) :
    ptext q.inner.P ++ text q.inner.F = utf8s cs := by
  obtain ⟨h, d, j, a, b, u, v, hB, -, -, h3, hu1, hv1, h4⟩ := copied A ha hn ho hi h0 hx hs hp
  obtain rfl := hl _ _ _ _ hB
  obtain ⟨l, hl2, hla⟩ := head_spelled hB.head
  have hb : b = [] := (h4 hf).2 (by
    rcases hu with ⟨rfl, rfl⟩ | ⟨rfl, rfl⟩
    · exact text_even units_le2 cs
    · exact text_even units_be2 cs)
  subst hb
  have ht := hB.text
  rw [List.append_nil, hl2] at ht
  rcases hu with ⟨rfl, rfl⟩ | ⟨rfl, rfl⟩
  · obtain ⟨ds, rfl, rfl⟩ := text_head (enc := C12.utf16le) (asc := ascL) le_first (by simp [ascL]) l cs hc hla ht
    have hd : ∀ c ∈ l.map (·.toNat), Scalar c := fun c g => hc c (by simp [List.mem_append.2 (.inl g)])
    rw [h3, hu1 _ hd (by rw [hl2]; exact (text_ascii le_ascii l hla).symm), hv1 ds (fun c g => hc c (List.mem_append.2 (.inr g))) rfl, ← C51.utf8s_append]
  · obtain ⟨ds, rfl, rfl⟩ := text_head (enc := C12.utf16be) (asc := ascB) be_first (by simp [ascB]) l cs hc hla ht
    have hd : ∀ c ∈ l.map (·.toNat), Scalar c := fun c g => hc c (by simp [List.mem_append.2 (.inl g)])
    rw [h3, hu1 _ hd (by rw [hl2]; exact (text_ascii be_ascii l hla).symm), hv1 ds (fun c g => hc c (List.mem_append.2 (.inr g))) rfl, ← C51.utf8s_append]

end

section
open Verif.Api C63

/-! ### Examples -/

def dumbCfg : PCfg where
  c := { startElement := false, endElement := false, chars := false, pi := false, comment := false, startCdata := false, endCdata := false, startNs := false, endNs := false, skipped := false, externalRef := false, dflt := true, expandInternal := false }
  int := internalUtf8X false
  startDoctype := false
  endDoctype := false
  entityDecl := false
  unparsed := false
  notationDecl := false
  attlistDecl := false
  elementDecl := false
  xmlDecl := false

theorem ex_alone : Alone dumbCfg := ⟨by decide, rfl, rfl, by decide, rfl, rfl, rfl⟩

def dumbEngine : Engine Inner := docEngine dumbCfg C61.exExt 200 exUpd (fun _ => true)

/-- The last status, and what the default handler has been given. -/
def dump (cs : List Call) : Option (Option Val × Buf) :=
  (steps dumbEngine (create dumbEngine none) cs).map fun x => (final x.1, ptext x.2.inner.P ++ text x.2.inner.F)

def exText : Buf := "<!DOCTYPE a [\n<!ENTITY e \"x\"> <!ATTLIST a b (c|d) #IMPLIED>\r\n]><a b='c'\r\n>".toUTF8.toList ++ [0xC3, 0xA9] ++
  "&e;<![CDATA[ ]]><!-- x --></a>\r\n<?p q?>\n".toUTF8.toList

/-- Declarations, line ends, markup, references, white space: all as they were. -/
theorem ex_copy : dump (calls [exText.take 20, [], exText.drop 20 |>.take 60] (exText.drop 80)) = some (some (.status .OK), exText) := by decide +kernel

/-- A document that fails: up to where it does. -/
theorem ex_prefix : dump (calls ["<a>b".toUTF8.toList] "<c>d</x>e".toUTF8.toList) = some (some (.status .ERROR), "<a>b<c>d".toUTF8.toList) := by decide +kernel

/-- `<?xml version='1.0' encoding='iso-8859-1'?><a>é</a>`, the letter being one byte. -/
def exLatin : Buf := "<?xml version='1.0' encoding='iso-8859-1'?><a>".toUTF8.toList ++ [0xE9] ++ "</a>".toUTF8.toList

theorem ex_latin : dump (calls [exLatin.take 10] (exLatin.drop 10)) = some (some (.status .OK), "<?xml version='1.0' encoding='iso-8859-1'?><a>".toUTF8.toList ++ [0xC3, 0xA9] ++ "</a>".toUTF8.toList) := by decide +kernel

/-- The theorem applies to the first text, cut anywhere. -/
example (ws : List Buf) (v : Buf) (hx : ws.flatten ++ v = exText) (rs : List (Ret Inner Val)) (q : Parser Inner)
    (hp : Path dumbEngine (create dumbEngine none) (calls ws v) rs q) :
    ∃ (h : Buf) (d : Option C18.Src) (j : EncId) (a b u v : Buf), Begins (settings dumbCfg (create dumbEngine none).conf) .utf8 exText h d j (a ++ b) ∧
      POnly q.inner.P ∧ Only q.inner.F ∧ ptext q.inner.P ++ text q.inner.F = u ++ v ∧ Recodes .utf8 h u ∧ Recodes j a v ∧
      (final rs = some (.status .OK) → b.length < 1 ∧ (1 ∣ exText.length → b = [])) := by
  refine copied ex_alone (m := []) (idx := .noEnc) (fun _ => rfl) (new_create (C := dumbCfg) (ext := C61.exExt) (fuel := 200) (upd := exUpd) (alloc := fun _ => true) none)
    ⟨rfl, rfl⟩ rfl ?_ (by simpa using hx) ?_ hp
  · have h : exText = 0x3C :: 0x21 :: exText.drop 2 := by decide +kernel
    rw [h]; exact .plain 0x3C 0x21 _ (by decide) (by decide)
  · have hl : (ws.flatten ++ v).length = exText.length := congrArg List.length hx
    have hk : exText.length < 200 := by decide +kernel
    simp only [List.length_append] at hl
    omega

/-- `<a>é𐀀</a>` in UTF-16LE with a byte order mark, cut within characters. -/
def exPair : List Nat := "<a>é".toList.map (·.toNat) ++ [0x10000] ++ "</a>\n".toList.map (·.toNat)

def exWide : Buf := C12.text C12.utf16le exPair

theorem ex_wide : dump (calls [[0xFF], 0xFE :: exWide.take 9] (exWide.drop 9)) = some (some (.status .OK), utf8s exPair) := by decide +kernel

/-- The odd byte is real: after a `\r` at the end it is not noticed, and not passed on. -/
theorem ex_odd : dump (calls [] (0xFF :: 0xFE :: exWide ++ [0x0D, 0x00, 0x41])) = some (some (.status .OK), utf8s exPair ++ [0x0D]) := by decide +kernel

/-- The theorem applies to it, cut anywhere. -/
example (ws : List Buf) (v : Buf) (hx : ws.flatten ++ v = 0xFF :: 0xFE :: exWide) (rs : List (Ret Inner Val)) (q : Parser Inner)
    (hp : Path dumbEngine (create dumbEngine none) (calls ws v) rs q) (hf : final rs = some (.status .OK)) : ptext q.inner.P ++ text q.inner.F = utf8s exPair := by
  refine copied_utf16 ex_alone (m := [0xFF, 0xFE]) (t := exWide) (i := .utf16le) (idx := .noEnc) (fun _ => rfl)
    (new_create (C := dumbCfg) (ext := C61.exExt) (fuel := 200) (upd := exUpd) (alloc := fun _ => true) none) ⟨rfl, rfl⟩ rfl ?_ ?_ (.inl ⟨rfl, rfl⟩)
    (by simpa using hx) ?_ hp ?_ hf
  · exact .le _
  · intro c hc
    have : ∀ c ∈ exPair, c < 0xD800 ∨ (0xE000 ≤ c ∧ c ≤ 0x10FFFF) := by decide +kernel
    exact this c hc
  · have hl := congrArg List.length hx
    have hk : exWide.length < 200 := by decide +kernel
    simp only [List.length_append, List.length_cons] at hl
    omega
  · intro h d j r hB
    have ht := hB.text
    have hh := hB.head
    cases hh with
    | none => rfl
    | decl d2 _ hv h127 hn =>
      have h1 := congrArg (fun l : Buf => l.take 3) ht
      simp only [xmlDeclText, C54.ascOf, spell] at h1
      rw [show exWide.take 3 = [0x3C, 0x00, 0x61] from by decide +kernel] at h1
      simp [ascL] at h1

/-- It has no XML declaration, so it comes back byte by byte. -/
example (h : Buf) (d : Option C18.Src) (r : Buf) : ¬ Begins (settings dumbCfg (create dumbEngine none).conf) .utf8 exText h d .latin1 r := by
  intro hB
  have ht := hB.text
  have hh := hB.head
  generalize hj : EncId.latin1 = j at hh
  cases hh with
  | none => cases hj
  | decl d2 _ hv h127 hn =>
    have h1 := congrArg (fun l : Buf => l.take 2) ht
    simp only [xmlDeclText, C54.ascOf, spell] at h1
    rw [show exText.take 2 = [0x3C, 0x21] from by decide +kernel] at h1
    simp [asc1] at h1

end
end Verif.C65
