import Verif.Swap

/-! C13: UTF-16BE and UTF-16LE documents are treated alike.

As stated the property is false of the code: `Big2EncodingImpl::byte_type` indexes its table with a
sign-extended byte and panics on every character U+0080 - U+00FF (`panics_iff`, `not_alike`).  On texts
without these characters the property holds for every tokenizer, for every function applied to the text
of a token, and for the conversion to UTF-8 (the theorems with suffix `_partial`). -/

set_option autoImplicit false

namespace Verif.C13
open Verif C43 Tables

/-- The units of a text, written high byte first. -/
def beText (us : List (UInt8 × UInt8)) : Buf := (us.map fun u => [u.1, u.2]).flatten
/-- The same units, low byte first. -/
def leText (us : List (UInt8 × UInt8)) : Buf := (us.map fun u => [u.2, u.1]).flatten
/-- The unit is one of U+0080 - U+00FF. -/
def Latin1Unit (u : UInt8 × UInt8) : Prop := u.1 = 0 ∧ 0x80 ≤ u.2.toNat

instance (u : UInt8 × UInt8) : Decidable (Latin1Unit u) := inferInstanceAs (Decidable (_ ∧ _))

theorem swap_le (us : List (UInt8 × UInt8)) (r : Buf) : swap (leText us ++ r) = beText us ++ swap r := by
  induction us with
  | nil => rfl
  | cons u us ih =>
    simp only [leText, beText, List.map_cons, List.flatten_cons, List.cons_append, List.nil_append, swap] at *
    rw [ih]

/-- An odd byte may be left over at the end of the input. -/
theorem swap_tail (us : List (UInt8 × UInt8)) (o : Option UInt8) :
    swap (leText us ++ o.toList) = beText us ++ o.toList := by
  rw [swap_le]; cases o <;> rfl

theorem clear (us : List (UInt8 × UInt8)) (r : Buf) (hr : r.length < 2) (h : ∀ u ∈ us, ¬ Latin1Unit u) : Clear (leText us ++ r) := by
  induction us with
  | nil => intro i hi; simp only [leText, List.map_nil, List.flatten_nil, List.nil_append] at hi; omega
  | cons u us ih =>
    intro i hi
    simp only [List.mem_cons, forall_eq_or_imp] at h
    rcases i with _ | i
    · simpa [Latin1Unit, leText, byteAt] using h.1
    · have := ih h.2 i
      simp only [leText, List.map_cons, List.flatten_cons, List.cons_append, List.nil_append, List.length_cons, byteAt,
        show 2 * (i + 1) = 2 * i + 1 + 1 by omega, List.getD_cons_succ] at hi this ⊢
      exact this (by omega)

theorem unicode_lead (h l : UInt8) : unicodeByteType h l ≠ .LEAD2 ∧ unicodeByteType h l ≠ .LEAD3 := by
  rw [unicodeByteType]; split <;> (try split) <;> (try split) <;> simp

theorem little2_lead (ns : Bool) (b : Buf) : (little2Enc ns).bt b ≠ .LEAD2 ∧ (little2Enc ns).bt b ≠ .LEAD3 := by
  show (if _ then _ else _) ≠ _ ∧ (if _ then _ else _) ≠ _
  split
  · have : ∀ c : UInt8, ∀ t, t = tableBt (if ns then latin1EncodingTableNS else latin1EncodingTable) c → t ≠ .LEAD2 ∧ t ≠ .LEAD3 := by
      rintro c t rfl
      cases ns
      · exact UInt8.forall_dec (P := fun c => tableBt latin1EncodingTable c ≠ .LEAD2 ∧ tableBt latin1EncodingTable c ≠ .LEAD3)
          (by decide +kernel) c
      · exact UInt8.forall_dec (P := fun c => tableBt latin1EncodingTableNS c ≠ .LEAD2 ∧ tableBt latin1EncodingTableNS c ≠ .LEAD3)
          (by decide +kernel) c
    exact this _ _ rfl
  · exact unicode_lead _ _

theorem mirror (ns : Bool) : Mirror (little2Enc ns) (big2Enc ns) where
  two := rfl
  mb := rfl
  ev := by
    intro b
    have := little2_lead ns b
    simp only [Enc.charLen]
    split
    · exact absurd ‹_› this.1
    · exact absurd ‹_› this.2
    · exact ⟨2, rfl⟩
    · exact ⟨1, rfl⟩
  lead2 b := (little2_lead ns b).1
  bt b g h := by
    have h2 : 2 ≤ b.length := h
    obtain ⟨e0, e1⟩ := swap_at b h2
    have g0 := g 0 (by omega)
    show (if byteAt (swap b) 0 = 0 then (if (byteAt (swap b) 1).toNat < 0x80 then some (tableBt _ _) else none) else some _).getD _ =
      if byteAt b 1 = 0 then tableBt _ _ else _
    rw [e0, e1]
    split
    · rename_i hz
      rw [if_pos]
      · rfl
      · exact Nat.lt_of_not_le fun hl => g0 ⟨hz, hl⟩
    · rfl
  mat b c h := by
    obtain ⟨e0, e1⟩ := swap_at b h
    show (byteAt (swap b) 0 == 0 && byteAt (swap b) 1 == c) = (byteAt b 1 == 0 && byteAt b 0 == c)
    rw [e0, e1]
  asc b h := by
    obtain ⟨e0, e1⟩ := swap_at b h
    show (if byteAt (swap b) 0 = 0 then byteAt (swap b) 1 else 0xFF) = if byteAt b 1 = 0 then byteAt b 0 else 0xFF
    rw [e0, e1]
  btNil := by cases ns <;> decide +kernel
  ascNil := rfl
  name _ _ := rfl
  nmstrt _ _ := rfl
  invalid _ _ := rfl
  nameMin b h := by
    obtain ⟨e0, e1⟩ := swap_at b h
    show ucs2Naming namePages (byteAt (swap b) 0).toNat (byteAt (swap b) 1).toNat = ucs2Naming namePages (byteAt b 1).toNat (byteAt b 0).toNat
    rw [e0, e1]
  nmstrtMin b h := by
    obtain ⟨e0, e1⟩ := swap_at b h
    show ucs2Naming nmstrtPages (byteAt (swap b) 0).toNat (byteAt (swap b) 1).toNat = ucs2Naming nmstrtPages (byteAt b 1).toNat (byteAt b 0).toNat
    rw [e0, e1]

/-! ### Where the code panics -/

/-- `byte_type` of the UTF-16BE encodings panics exactly at the characters U+0080 - U+00FF. -/
theorem panics_iff (ns : Bool) (u : UInt8 × UInt8) (r : Buf) :
    big2Bt? (if ns then latin1EncodingTableNS else latin1EncodingTable) (u.1 :: u.2 :: r) = none ↔ Latin1Unit u := by
  show (if u.1 = 0 then (if u.2.toNat < 0x80 then _ else none) else _) = none ↔ _
  by_cases h : u.1 = 0
  · by_cases h2 : u.2.toNat < 0x80 <;> simp [h, h2, Latin1Unit] <;> omega
  · simp [h, Latin1Unit]

/-- The property is false: U+00E9, a letter, is read in UTF-16LE, and makes the library panic in UTF-16BE. -/
theorem not_alike (ns : Bool) : ∃ u : UInt8 × UInt8,
    (little2Enc ns).bt (leText [u]) = .NMSTRT ∧ contentTok (little2Enc ns) (leText [u]) = ⟨.DATA_CHARS, 2⟩ ∧
    big2Bt? (if ns then latin1EncodingTableNS else latin1EncodingTable) (beText [u]) = none := by
  refine ⟨(0x00, 0xE9), ?_⟩
  cases ns <;> decide +kernel

/-- Elsewhere `byte_type` answers, at every unit of the text. -/
theorem no_panic_partial (ns : Bool) (us vs : List (UInt8 × UInt8)) (r : Buf) (h : ∀ u ∈ us ++ vs, ¬ Latin1Unit u) (hv : vs ≠ []) :
    (big2Bt? (if ns then latin1EncodingTableNS else latin1EncodingTable) ((beText (us ++ vs) ++ r).drop (2 * us.length))).isSome := by
  have e : (beText (us ++ vs) ++ r).drop (2 * us.length) = beText vs ++ r := by
    have hl : (beText us).length = 2 * us.length := by
      clear h
      induction us with
      | nil => rfl
      | cons u us ih =>
        simp only [beText, List.map_cons, List.flatten_cons, List.cons_append, List.nil_append, List.length_cons] at *
        omega
    rw [show beText (us ++ vs) = beText us ++ beText vs by simp [beText], List.append_assoc, ← hl, List.drop_left]
  rw [e]
  obtain ⟨v, vs, rfl⟩ := List.exists_cons_of_ne_nil hv
  have hv := h v (by simp)
  rw [← panics_iff ns v (beText vs ++ r)] at hv
  exact Option.isSome_iff_ne_none.2 hv

/-! ### Alike elsewhere -/

section
variable (ns : Bool) (us : List (UInt8 × UInt8)) (o : Option UInt8) (h : ∀ u ∈ us, ¬ Latin1Unit u)
include h

/-- The tokenizers of content, CDATA sections, prolog and epilog, IGNORE sections, attribute values and
entity values find the same token, of the same length. -/
theorem tokens_partial :
    contentTok (big2Enc ns) (beText us ++ o.toList) = contentTok (little2Enc ns) (leText us ++ o.toList) ∧
    cdataSectionTok (big2Enc ns) (beText us ++ o.toList) = cdataSectionTok (little2Enc ns) (leText us ++ o.toList) ∧
    prologTok (big2Enc ns) (beText us ++ o.toList) = prologTok (little2Enc ns) (leText us ++ o.toList) ∧
    ignoreSectionTok (big2Enc ns) (beText us ++ o.toList) = ignoreSectionTok (little2Enc ns) (leText us ++ o.toList) ∧
    attributeValueTok (big2Enc ns) (beText us ++ o.toList) = attributeValueTok (little2Enc ns) (leText us ++ o.toList) ∧
    entityValueTok (big2Enc ns) (beText us ++ o.toList) = entityValueTok (little2Enc ns) (leText us ++ o.toList) := by
  have g := clear us o.toList (by cases o <;> simp) h
  rw [← swap_tail]
  have m := mirror ns
  exact ⟨contentTok_mir m _ g, cdataSectionTok_mir m _ g, prologTok_mir m _ g, ignoreSectionTok_mir m _ g,
    attributeValueTok_mir m _ g, entityValueTok_mir m _ g⟩

/-- So do the functions applied to the text of a token: lengths of names, attributes of a tag,
predefined entities, keywords, positions, public identifiers, character references. -/
theorem functions_partial :
    nameLength (big2Enc ns) (beText us) = nameLength (little2Enc ns) (leText us) ∧
    getAtts (big2Enc ns) (beText us) = getAtts (little2Enc ns) (leText us) ∧
    predefinedEntityName (big2Enc ns) (beText us) = predefinedEntityName (little2Enc ns) (leText us) ∧
    (∀ cs, nameMatchesAscii (big2Enc ns) (beText us) cs = nameMatchesAscii (little2Enc ns) (leText us) cs) ∧
    (∀ pos, updatePosition (big2Enc ns) (beText us) pos = updatePosition (little2Enc ns) (leText us) pos) ∧
    isPublicId (big2Enc ns) (beText us) = isPublicId (little2Enc ns) (leText us) ∧
    (3 ≤ us.length → charRefNumber (big2Enc ns) (beText us) = charRefNumber (little2Enc ns) (leText us)) := by
  have g := clear us [] (by simp) h
  have e := swap_tail us none
  simp only [Option.toList_none, List.append_nil] at g e
  have hl : (leText us).length = 2 * us.length := by
    clear h g e
    induction us with
    | nil => rfl
    | cons u us ih =>
      simp only [leText, List.map_cons, List.flatten_cons, List.cons_append, List.nil_append, List.length_cons] at *
      omega
  rw [← e]
  have m := mirror ns
  exact ⟨nameLength_mir m _ g, getAtts_mir m _ g (by omega), predefinedEntityName_mir m _,
    fun cs => nameMatchesAscii_mir m _ cs, fun pos => updatePosition_mir m _ pos g, isPublicId_mir m _ g (by omega),
    fun h3 => charRefNumber_mir m _ (by show 6 ≤ _; omega)⟩

end

/-- Conversion to UTF-8 has no such exception: every text is converted alike, for every capacity of the
output buffer, and the same part of the input is left over. -/
theorem conversion (b : Buf) (cap : Nat) :
    (big2Convert (swap b) cap).out = (little2Convert b cap).out ∧ (big2Convert (swap b) cap).res = (little2Convert b cap).res ∧
    (big2Convert (swap b) cap).rest = swap (little2Convert b cap).rest := by
  have he : (b.take (b.length / 2 * 2)).length % 2 = 0 := by rw [List.length_take]; omega
  rw [big2Convert, little2Convert, swap_length, take_swap (by omega)]
  generalize b.take (b.length / 2 * 2) = b at *
  have hs : ∀ (b : Buf) cap, b ≠ [] → b.length % 2 = 0 →
      utf16ConvStep (fun b => (byteAt b 0).toNat) (fun b => (byteAt b 1).toNat) (swap b) cap =
      utf16ConvStep (fun b => (byteAt b 1).toNat) (fun b => (byteAt b 0).toNat) b cap := by
    intro b cap hb hl
    match b with
    | [] => cases hb rfl
    | [x] => simp at hl
    | [x, y] => rfl
    | [x, y, z] => simp at hl
    | x :: y :: z :: w :: r =>
      simp only [utf16ConvStep, swap_length]
      rfl
  have hn : ∀ b : Buf, swap b = [] ↔ b = [] := by
    intro b
    rw [← List.length_eq_zero_iff, ← List.length_eq_zero_iff, swap_length]
  revert he
  fun_induction convLoop (utf16ConvStep (fun b => (byteAt b 1).toNat) (fun b => (byteAt b 0).toNat)) b cap with
  | case1 => intro _; rw [convLoop, dif_pos ((hn _).2 rfl)]; exact ⟨rfl, rfl, rfl⟩
  | case2 b cap hb r hr =>
    intro he
    rw [convLoop, dif_neg (fun h => hb ((hn _).1 h)), hs b cap hb he, hr]
    exact ⟨rfl, rfl, rfl⟩
  | case3 b cap hb w k hr c ih =>
    intro he
    have hk := utf16_odd _ _ b cap w k hr
    rw [convLoop, dif_neg (fun h => hb ((hn _).1 h)), hs b cap hb he, hr]
    obtain ⟨i1, i2, i3⟩ := ih (by rw [List.length_drop]; omega)
    simp only
    rw [drop_swap (by omega), i1, i2, i3]
    exact ⟨rfl, rfl, rfl⟩

/-! ### Documents -/

open C48 C04 in
/-- UTF-16BE has the name characters of XML 1.0, but for U+0080 - U+00FF. -/
theorem _root_.Verif.C48.Naming.utf16be (ns : Bool) :
    Naming ns (big2X ns) C12.utf16be fun c => Spec.XmlChar c ∧ ¬ (0x80 ≤ c ∧ c < 0x100) := by
  have key : ∀ c, Spec.XmlChar c ∧ ¬ (0x80 ≤ c ∧ c < 0x100) → c < 0x10000 →
      ((little2X ns).e.NmstrtChar (C12.utf16le c) → (big2X ns).e.NmstrtChar (C12.utf16be c)) ∧
      ((little2X ns).e.NameChar (C12.utf16le c) → (big2X ns).e.NameChar (C12.utf16be c)) := by
    intro c hc h5
    have e1 : C12.utf16le c = leText [(UInt8.ofNat (c / 256), UInt8.ofNat (c % 256))] := by
      rw [C12.utf16le, Spec.utf16, if_pos (by omega)]; rfl
    have e2 : C12.utf16be c = swap (C12.utf16le c) := by
      rw [e1, C12.utf16be, Spec.utf16, if_pos (by omega)]; rfl
    have g : Clear (C12.utf16le c) := by
      rw [e1]
      have := clear [(UInt8.ofNat (c / 256), UInt8.ofNat (c % 256))] [] (by simp) (by
        intro u hu
        rw [List.mem_singleton] at hu
        subst hu
        rintro ⟨h1, h2⟩
        have h1 := congrArg UInt8.toNat h1
        simp only at h1 h2
        rw [toNat_ofNat (by omega)] at h1 h2
        have h1 : c / 256 = 0 := h1
        omega)
      simpa using this
    have m := mirror ns
    have hl : (little2Enc ns).mb ≤ (C12.utf16le c).length := by rw [e1]; exact Nat.le_refl 2
    have hb := m.bt _ g hl
    have hsl := swap_length (C12.utf16le c)
    have h1 := m.nameMin _ hl
    have h2 := m.nmstrtMin _ hl
    rw [e2]
    generalize C12.utf16le c = w at *
    show ((little2Enc ns).NmstrtChar w → (big2Enc ns).NmstrtChar (swap w)) ∧ ((little2Enc ns).NameChar w → (big2Enc ns).NameChar (swap w))
    simp only [Enc.NmstrtChar, Enc.NameChar, hb, hsl, m.name, m.nmstrt, h1, h2, m.mb']
    exact ⟨id, id⟩
  constructor
  · intro c h1 h2 h3
    have h5 : c < 0x10000 := by
      rcases Nat.lt_or_ge c 0x10000 with h | h
      · exact h
      · exact absurd (C47.start_is_name c h2) (C47.ranges_bmp c h).1
    exact (key c h1 h5).1 ((Naming.utf16le ns).start h1.1 h2 h3)
  · intro c h1 h2 h3
    have h5 : c < 0x10000 := by
      rcases Nat.lt_or_ge c 0x10000 with h | h
      · exact h
      · exact absurd h2 (C47.ranges_bmp c h).1
    exact (key c h1 h5).2 ((Naming.utf16le ns).char h1.1 h2 h3)

open C48 C04 in
/-- Whole documents: a tree without the characters U+0080 - U+00FF gives the same events from UTF-16BE as from
UTF-16LE, however the two texts are cut into chunks. -/
theorem documents_partial {c : Cfg} (a : AllSet c) {D : Dtd} {inn : Bool} (hD : C33.TextsOk D (internalUtf8X inn)) (hel : D.elems = [])
    {n : List Nat} {as : List (List Nat × List Nat)} {inner : Forest}
    (h : Ok c.ns (fun c => Spec.XmlChar c ∧ ¬ (0x80 ≤ c ∧ c < 0x100)) (.elem n as inner .nil))
    (h' : Ok c.ns Spec.XmlChar (.elem n as inner .nil))
    (xs ys : List Buf) (hx : xs.flatten = C12.text C12.utf16be (serialise (.elem n as inner .nil)))
    (hy : ys.flatten = C12.text C12.utf16le (serialise (.elem n as inner .nil))) :
    ∃ F s r F' s' r', feed (parser c D (internalUtf8X inn) (big2X c.ns)) (big2X c.ns).e CState.init [] xs = (F, .ok s r) ∧
      feed (parser c D (internalUtf8X inn) (little2X c.ns)) (little2X c.ns).e CState.init [] ys = (F', .ok s' r') ∧ flat F = flat F' := by
  obtain ⟨F, s, r, h1, h2⟩ := round_trip (Coding.utf16be c.ns) a (Naming.utf16be c.ns) hD hel h xs hx
  obtain ⟨F', s', r', h3, h4⟩ := round_trip (Coding.utf16le c.ns) a (Naming.utf16le c.ns) hD hel h' ys hy
  exact ⟨F, s, r, F', s', r', h1, h3, h2.trans h4.symm⟩

/-! ### Examples: the tag `<b a="ŐŐ">` with a two-byte and a surrogate-pair character -/

def sample : List (UInt8 × UInt8) :=
  [(0, 0x3C), (0, 0x62), (0, 0x20), (0, 0x61), (0, 0x3D), (0, 0x22), (1, 0x50), (0xD8, 0x01), (0xDC, 0x37), (0, 0x22), (0, 0x3E)]

example : (∀ u ∈ sample, ¬ Latin1Unit u) ∧ contentTok (little2Enc true) (leText sample) = ⟨.START_TAG_WITH_ATTS, 22⟩ ∧
    contentTok (big2Enc true) (beText sample) = ⟨.START_TAG_WITH_ATTS, 22⟩ ∧
    getAtts (big2Enc true) (beText sample) = [⟨6, 12, 18, true⟩] := by decide +kernel

end Verif.C13
