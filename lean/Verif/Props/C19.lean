import Verif.XmlDecl

/-! C19: the XML declaration handler receives the declared version. It does not. -/

namespace Verif.C19
open Spec Tables

theorem bt_asc {e asc} (s : Supported e asc) (c : UInt8) (hc : c < 0x80) (r : Buf) :
    ∃ t ∈ allTables, e.bt (asc c ++ r) = tableBt t c := by
  have h80 : c.toNat < 128 := by simpa [UInt8.lt_iff_toNat_lt] using hc
  cases s with
  | utf8 ns => exact ⟨_, (table_mem ns).1, rfl⟩
  | internalUtf8 ns => exact ⟨_, (table_mem ns).2.1, rfl⟩
  | latin1 ns => exact ⟨_, (table_mem ns).2.2.1, rfl⟩
  | ascii ns => exact ⟨_, (table_mem ns).2.2.2, rfl⟩
  | utf16le ns =>
    refine ⟨_, (table_mem ns).2.2.1, ?_⟩
    have h1 : byteAt (ascL c ++ r) 1 = 0 := rfl
    simp only [little2Enc, little2EncOf, h1, if_true]; rfl
  | utf16be ns =>
    refine ⟨_, (table_mem ns).2.2.1, ?_⟩
    show (big2Bt? _ (ascB c ++ r)).getD .NONXML = _
    have : byteAt (ascB c ++ r) 1 = c := rfl
    rw [big2Bt?, if_pos (show byteAt (ascB c ++ r) 0 = 0 from rfl), this, if_pos h80]; rfl

def isNm : ByteType → Bool
  | .NMSTRT | .COLON | .HEX | .DIGIT | .NAME | .MINUS => true
  | _ => false

theorem val_class : ∀ t ∈ allTables, ∀ c : UInt8, isVal c = true → isNm (tableBt t c) = true := by
  intro t ht c
  revert c
  have : ∀ t ∈ allTables, ∀ c : UInt8, isVal c = true → isNm (tableBt t c) = true := by
    intro t ht
    simp only [allTables, List.mem_cons, List.not_mem_nil, or_false] at ht
    rcases ht with rfl | rfl | rfl | rfl | rfl | rfl | rfl | rfl <;>
      exact UInt8.forall_dec (by decide +kernel)
  exact this t ht

theorem quote_class : ∀ t ∈ allTables, tableBt t 0x22 = .QUOT ∧ tableBt t 0x27 = .APOS := by
  decide +kernel

/-- The length of the stored encoding name is that of the quoted value. -/
theorem nameLength_value {x asc} (s : XSupported x asc) {v : List UInt8} (hv : ∀ c ∈ v, isVal c = true)
    {q : UInt8} (hq : q = 0x22 ∨ q = 0x27) (r : Buf) :
    nameLength x.e (spell asc v ++ (asc q ++ r)) = (spell asc v).length := by
  induction v with
  | nil =>
    have hq' : q < 0x80 := by rcases hq with h | h <;> rw [h] <;> decide
    obtain ⟨t, ht, hb⟩ := bt_asc s.s q hq' r
    have hc := quote_class t ht
    rw [spell_nil, List.nil_append, nameLength, if_neg (asc_mb s q r), hb]
    rcases hq with h | h <;> rw [h]
    · rw [hc.1]; rfl
    · rw [hc.2]; rfl
  | cons c cs ih =>
    have ih := ih fun c h => hv c (by simp [h])
    obtain ⟨t, ht, hb⟩ := bt_asc s.s c (isVal_lt (hv c (by simp))) (spell asc cs ++ (asc q ++ r))
    have hc := val_class t ht c (hv c (by simp))
    have hm : (asc c).length = x.e.mb := s.s.asc.len c
    rw [spell_cons, List.append_assoc, nameLength, if_neg (asc_mb s c _), hb, List.length_append, hm]
    generalize tableBt t c = k at *
    cases k <;> simp only [isNm, Bool.false_eq_true, reduceCtorEq] at hc
    all_goals simp only [asc_drop s, ih]

theorem converted_ascii {x asc} (s : XSupported x asc) (n : List UInt8) (hn : ∀ c ∈ n, c < 0x80) :
    C43.converted x (spell asc n) = n := by
  unfold C43.converted
  rw [(conv_ascii s n hn _).1]
  apply List.take_of_length_le
  have hm : ∀ c, (asc c).length = x.e.mb := s.s.asc.len
  have : n.length ≤ (spell asc n).length := by
    clear hn
    induction n with
    | nil => simp [spell_nil]
    | cons c cs ih =>
      rw [spell_cons, List.length_append, hm]
      simp only [List.length_cons, Enc.mb]; omega
  omega

/-- Storing ASCII text appends it and a NUL. -/
theorem store_ascii {x asc} (s : XSupported x asc) (al : Allocator) {p : Pool} (h : C43.Inv p)
    (n : List UInt8) (hn : ∀ c ∈ n, c < 0x80) :
    ∃ q, p.storeCString al x (spell asc n) = some q ∧ C43.Inv q ∧ q.current = p.current ++ n ++ [0] := by
  obtain ⟨q, hq, k⟩ := C43.append_keeps al (C43.supported_drains s) h (spell asc n)
  rw [converted_ascii s n hn] at k
  have k2 := C43.char_keeps al k.inv 0
  rw [k.cur] at k2
  exact ⟨_, by rw [Pool.storeCString, hq]; rfl, k2.inv, k2.cur⟩

theorem cstr_nul (a b : List UInt8) (h : 0 ∉ a) : cstr (a ++ 0 :: b) = a := by
  induction a with
  | nil => simp [cstr]
  | cons c a ih =>
    have hc : c ≠ 0 := by intro h'; exact h (by simp [h'])
    have := ih (fun h' => h (by simp [h']))
    simp only [cstr] at *
    rw [List.cons_append, List.takeWhile_cons, if_pos (by simpa using hc), this]

/-! Every character of a declaration is ASCII and not NUL. -/

theorem ws_ok {c : UInt8} (h : isWS c = true) : c < 0x80 ∧ c ≠ 0 :=
  ⟨isWS_lt h, by rintro rfl; exact absurd h (by decide)⟩

theorem val_ok {c : UInt8} (h : isVal c = true) : c < 0x80 ∧ c ≠ 0 :=
  ⟨isVal_lt h, by rintro rfl; exact absurd h (by decide)⟩

theorem quote_ok {c : UInt8} (h : c = 0x22 ∨ c = 0x27) : c < 0x80 ∧ c ≠ 0 := by
  rcases h with rfl | rfl <;> decide

theorem attr_ok {a : PAttr} (h : a.Valid) (h0 : 0 ∉ a.name) : ∀ c ∈ a.text, c < 0x80 ∧ c ≠ 0 := by
  intro c hc
  simp only [PAttr.text, List.mem_append, List.mem_singleton] at hc
  rcases hc with ((((((hc | hc) | hc) | rfl) | hc) | rfl) | hc) | rfl
  · exact ws_ok (h.ws c hc)
  · exact ⟨(h.name c hc).1, by rintro rfl; exact h0 hc⟩
  · exact ws_ok (h.s1 c hc)
  · decide
  · exact ws_ok (h.s2 c hc)
  · exact quote_ok h.q
  · exact val_ok (h.value c hc)
  · exact quote_ok h.q

theorem codes_ok : 0 ∉ C16.codes ['s','t','a','n','d','a','l','o','n','e'] ∧
    0 ∉ C16.codes ['e','n','c','o','d','i','n','g'] := by decide +kernel

theorem tail_ok {text} {d : C18.Src} (h : d.Valid text) :
    ∀ c ∈ C18.txt d.standalone ++ d.trail, c < 0x80 ∧ c ≠ 0 := by
  intro c hc
  rcases List.mem_append.1 hc with hc | hc
  · cases hs : d.standalone with
    | none => rw [hs] at hc; simp [C18.txt] at hc
    | some a =>
      rw [hs] at hc
      have ha := h.standalone a hs
      exact attr_ok ha.1 (by rw [ha.2.1]; exact codes_ok.1) c hc
  · exact ws_ok (h.trail c hc)

/-- What the handler is given as the version of an accepted declaration. Without an encoding: the
declared version, its closing quote, and everything up to the end of the declaration. -/
theorem version_no_encoding {x asc} (s : XSupported x asc) (al : Allocator) {p : Pool}
    (hp : C43.Inv p) (hc : p.current = []) {text} {d : C18.Src} (h : d.Valid text) {a : PAttr}
    (hv : d.version = some a) (he : d.encoding = none) :
    (xmlDeclCall al x p (d.out x asc)).map (·.version) =
      some (some (a.value ++ [a.q] ++ C18.txt d.standalone ++ d.trail)) := by
  have hva := h.version a hv
  have hok : ∀ c ∈ a.value ++ [a.q] ++ (C18.txt d.standalone ++ d.trail), c < 0x80 ∧ c ≠ 0 := by
    intro c hc
    simp only [List.mem_append, List.mem_singleton] at hc
    rcases hc with (hc | rfl) | hc
    · exact val_ok (hva.1.value c hc)
    · exact quote_ok hva.1.q
    · exact tail_ok h c (List.mem_append.2 hc)
  obtain ⟨q, h1, _, h3⟩ := store_ascii s al hp _ (fun c hc => (hok c hc).1)
  rw [hc, List.nil_append] at h3
  simp only [xmlDeclCall, C18.Src.out, hv, he, Option.map_none, Option.map_some, Option.bind_some]
  rw [show spell asc a.value ++ (asc a.q ++ spell asc (C18.txt none ++ (C18.txt d.standalone ++ d.trail))) =
    spell asc (a.value ++ [a.q] ++ (C18.txt d.standalone ++ d.trail)) by
      simp [spell_append, spell_cons, spell_nil, C18.txt]]
  rw [h1]
  simp only [Option.map_some, h3]
  rw [cstr_nul _ _ (fun h0 => (hok 0 h0).2 rfl)]
  simp

/-- With an encoding: the name of the encoding. -/
theorem version_with_encoding {x asc} (s : XSupported x asc) (al : Allocator) {p : Pool}
    (hp : C43.Inv p) (hc : p.current = []) {text} {d : C18.Src} (h : d.Valid text) {a e : PAttr}
    (hv : d.version = some a) (he : d.encoding = some e) :
    (xmlDeclCall al x p (d.out x asc)).map (·.version) = some (some e.value) := by
  have hva := h.version a hv
  have hea := h.encoding e he
  obtain ⟨q, h1, hi, h3⟩ := store_ascii s al hp e.value (fun c hc => (val_ok (hea.1.value c hc)).1)
  rw [hc, List.nil_append] at h3
  have hok : ∀ c ∈ a.value ++ [a.q] ++ (e.text ++ (C18.txt d.standalone ++ d.trail)), c < 0x80 ∧ c ≠ 0 := by
    intro c hc
    simp only [List.mem_append, List.mem_singleton] at hc
    rcases hc with (hc | rfl) | hc | hc
    · exact val_ok (hva.1.value c hc)
    · exact quote_ok hva.1.q
    · exact attr_ok hea.1 (by rw [hea.2.1]; exact codes_ok.2) c hc
    · exact tail_ok h c (List.mem_append.2 hc)
  obtain ⟨r, h4, _, h5⟩ := store_ascii s al hi _ (fun c hc => (hok c hc).1)
  simp only [xmlDeclCall, C18.Src.out, hv, he, Option.map_some]
  rw [nameLength_value s hea.1.value hea.1.q, List.take_left', h1, Option.bind_some]
  · rw [show spell asc a.value ++ (asc a.q ++ spell asc (C18.txt (some e) ++ (C18.txt d.standalone ++ d.trail))) =
      spell asc (a.value ++ [a.q] ++ (e.text ++ (C18.txt d.standalone ++ d.trail))) by
        simp [spell_append, spell_cons, spell_nil, C18.txt]]
    rw [h4]
    simp only [Option.map_some, h5, h3]
    rw [List.append_assoc, List.append_assoc, List.singleton_append,
      cstr_nul _ _ (fun h0 => (val_ok (hea.1.value 0 h0)).2 rfl)]
  · rfl

/-- C19 is false: for every accepted declaration whose version differs from its encoding name the
handler is not given the declared version. -/
theorem version_never_declared {x asc} (s : XSupported x asc) (al : Allocator) {p : Pool}
    (hp : C43.Inv p) (hc : p.current = []) {text} {d : C18.Src} (h : d.Valid text) {a : PAttr}
    (hv : d.version = some a) (hne : ∀ e ∈ d.encoding, e.value ≠ a.value) :
    (xmlDeclCall al x p (d.out x asc)).map (·.version) ≠ some (some a.value) := by
  cases he : d.encoding with
  | none =>
    rw [version_no_encoding s al hp hc h hv he]
    intro h'
    have := congrArg List.length (Option.some.inj (Option.some.inj h'))
    simp at this
  | some e =>
    rw [version_with_encoding s al hp hc h hv he]
    intro h'
    exact hne e he (Option.some.inj (Option.some.inj h'))

/-- C19, partial: what the handler is given begins with the declared version if no encoding is
declared. Missing: that it ends there, and everything when an encoding is declared (both false, see
`version_never_declared`). -/
theorem version_prefix_partial {x asc} (s : XSupported x asc) (al : Allocator) {p : Pool}
    (hp : C43.Inv p) (hc : p.current = []) {text} {d : C18.Src} (h : d.Valid text) {a : PAttr}
    (hv : d.version = some a) (he : d.encoding = none) :
    ∃ t, (xmlDeclCall al x p (d.out x asc)).map (·.version) = some (some (a.value ++ t)) :=
  ⟨[a.q] ++ C18.txt d.standalone ++ d.trail, by
    rw [version_no_encoding s al hp hc h hv he]; simp⟩

/-- Standalone: passed on as declared. -/
theorem standalone_reported {x asc} (al : Allocator) {p : Pool} {d : C18.Src} {c : DeclCall}
    (h : xmlDeclCall al x p (d.out x asc) = some c) :
    c.standalone = d.standalone.map fun a => decide (a.value = C16.codes ['y','e','s']) := by
  simp only [xmlDeclCall, Option.bind_eq_some_iff] at h
  obtain ⟨p1, _, h2⟩ := h
  split at h2
  · cases h2; rfl
  · simp only [Option.map_eq_some_iff] at h2
    obtain ⟨_, _, rfl⟩ := h2; rfl

/-- `<?xml version="1.0" encoding='utf-8' standalone="no" ?>`: the version reported is `utf-8`. -/
example : (xmlDeclCall C43.bump (utf8X false) Pool.new (C18.sample.out (utf8X false) asc1)).map (·.version) =
    some (some (C16.codes ['u','t','f','-','8'])) := by decide +kernel

end Verif.C19
