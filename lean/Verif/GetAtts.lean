import Verif.Props.C34

/-! `getAtts` (src/lib/xmltok_impl.rs:1519-1629) finds exactly the attributes written in a tag, at their
places. -/

namespace Verif
open Tables Spec

/-- A value for which the literal itself is the normalised value: no references, no line ends or tabs,
single spaces between other characters only.  `start`: at the beginning of the literal. -/
inductive Plain (e : Enc) (asc : UInt8 → Buf) : Bool → Buf → Prop where
  | nil {st} : Plain e asc st []
  | char {st} (w v : Buf) : e.IsChar w → w ≠ asc 0x3C → w ≠ asc 0x26 → (∀ c, isWS c = true → w ≠ asc c) →
      Plain e asc false v → Plain e asc st (w ++ v)
  | space (v : Buf) : v ≠ [] → (∀ r, v ≠ asc 0x20 ++ r) → Plain e asc false v → Plain e asc false (asc 0x20 ++ v)

/-- The entry for an attribute whose text begins at offset `p`. -/
def attAt (e : Enc) (asc : UInt8 → Buf) (p : Nat) (a : AttrSrc) (norm : Bool) : Att :=
  let v := p + (spell asc a.ws).length + a.name.flatten.length + (spell asc a.s1).length + e.mb +
    (spell asc a.s2).length + e.mb
  { name := p + (spell asc a.ws).length, valuePtr := v, valueEnd := v + a.value.length, normalized := norm }

/-- The list for attributes beginning at `p`: the flags are right. -/
inductive AttsAt (e : Enc) (asc : UInt8 → Buf) : Nat → List AttrSrc → List Att → Prop where
  | nil {p} : AttsAt e asc p [] []
  | cons {p a as l} (n : Bool) (hn : n = true → Plain e asc true a.value)
      (h : AttsAt e asc (p + (a.text asc).length) as l) : AttsAt e asc p (a :: as) (attAt e asc p a n :: l)

section
variable {e : Enc} {asc : UInt8 → Buf} (s : Supported e asc)
include s

theorem ga_name {w : Buf} (hw : e.NameChar w) (a : Att) (r : Buf) (p) :
    getAttsLoop e .inName a (w ++ r) p = getAttsLoop e .inName a r (p + w.length) := by
  have h2 := hw.len s.mb
  have hb := s.ok.bt_app w r h2
  rw [getAttsLoop.eq_def, if_neg (by rw [List.length_append]; omega), hb]
  simp only [Enc.NameChar] at hw
  generalize e.bt w = t at *
  cases t <;> simp only at hw
  all_goals
    simp only [startName]
    first
      | rw [drop_char hw.1, ← hw.1]; rfl
      | rw [drop_char hw, ← hw]; rfl
      | rw [drop_char hw, ← hw]

theorem ga_nmstrt {w : Buf} (hw : e.NmstrtChar w) (a : Att) (r : Buf) (p) :
    getAttsLoop e .inName a (w ++ r) p = getAttsLoop e .inName a r (p + w.length) := by
  have h2 := hw.len s.mb
  have hb := s.ok.bt_app w r h2
  rw [getAttsLoop.eq_def, if_neg (by rw [List.length_append]; omega), hb]
  simp only [Enc.NmstrtChar] at hw
  generalize e.bt w = t at *
  cases t <;> simp only at hw
  all_goals
    simp only [startName]
    first
      | rw [drop_char hw.1, ← hw.1]; rfl
      | rw [drop_char hw, ← hw]; rfl

theorem ga_colon (st) (h : e.bt (asc 0x3A) = .COLON) (a : Att) (r : Buf) (p) :
    getAttsLoop e st a (asc 0x3A ++ r) p = getAttsLoop e st a r (p + e.mb) := by
  have hb : e.bt (asc 0x3A ++ r) = .COLON := by
    rw [s.ok.bt_app _ _ (by rw [s.asc.len]; exact Nat.le_refl _), h]
  rw [getAttsLoop.eq_def, if_neg (asc_len_ok s _ r), hb]
  simp only
  rw [drop_char (s.asc.len _)]

theorem ga_start {w : Buf} (hw : e.NmstrtChar w) (a : Att) (r : Buf) (p) :
    getAttsLoop e .other a (w ++ r) p =
      getAttsLoop e .inName { a with name := p, normalized := true } r (p + w.length) := by
  have h2 := hw.len s.mb
  have hb := s.ok.bt_app w r h2
  rw [getAttsLoop.eq_def, if_neg (by rw [List.length_append]; omega), hb]
  simp only [Enc.NmstrtChar] at hw
  generalize e.bt w = t at *
  cases t <;> simp only at hw
  all_goals
    simp only [startName]
    first
      | rw [drop_char hw, ← hw]; rfl
      | rw [drop_char hw.1, ← hw.1]; rfl

theorem ga_ws (st) (hs : st = .inName ∨ st = .other) {c} (hc : isWS c = true) (a : Att) (r : Buf) (p) :
    getAttsLoop e st a (asc c ++ r) p = getAttsLoop e .other a r (p + e.mb) := by
  rw [getAttsLoop.eq_def, if_neg (asc_len_ok s _ r)]
  rcases sp_bt s hc r with h | h | h <;> rw [h] <;> simp only [gaSpace, gaLine] <;>
    rw [drop_char (s.asc.len _)] <;> rcases hs with rfl | rfl <;> rfl

theorem ga_spaces {cs} (hc : AllWS cs) : ∀ (st) (_ : st = .inName ∨ st = .other) (a : Att) (r : Buf) (p),
    getAttsLoop e st a (spell asc cs ++ r) p =
      getAttsLoop e (if cs = [] then st else .other) a r (p + (spell asc cs).length) := by
  induction cs with
  | nil => intro st hs a r p; rfl
  | cons c cs ih =>
    intro st hs a r p
    have h1 : spell asc (c :: cs) = asc c ++ spell asc cs := by simp [spell]
    rw [h1, List.append_assoc, ga_ws s st hs (hc c (by simp)), ih (fun d hd => hc d (by simp [hd])) _ (.inr rfl),
      List.length_append, s.asc.len, if_neg (c := c :: cs = []) (by simp), Nat.add_assoc]
    split <;> rfl

theorem ga_names (a : Att) (r : Buf) (ws : List Buf) (hw : ∀ w ∈ ws, e.NameChar w) : ∀ p,
    getAttsLoop e .inName a (ws.flatten ++ r) p = getAttsLoop e .inName a r (p + ws.flatten.length) := by
  induction ws with
  | nil => intro p; rfl
  | cons w ws ih =>
    intro p
    rw [List.flatten_cons, List.append_assoc, ga_name s (hw w (by simp)), ih (fun v hv => hw v (by simp [hv])),
      List.length_append, Nat.add_assoc]

theorem ga_eq (st) (a : Att) (r : Buf) (p) :
    getAttsLoop e st a (asc 0x3D ++ r) p = getAttsLoop e st a r (p + e.mb) := by
  rw [getAttsLoop.eq_def, if_neg (asc_len_ok s _ r), asc_bt s (t := .EQUALS) rfl r]
  simp only
  rw [drop_char (s.asc.len _)]

theorem ga_open (st) (hs : st = .inName ∨ st = .other) {op : ByteType} (ho : op = .QUOT ∨ op = .APOS) {q}
    (hq : op.single = some q) (a : Att) (r : Buf) (p) :
    getAttsLoop e st a (asc q ++ r) p = getAttsLoop e (.inValue op) { a with valuePtr := p + e.mb } r (p + e.mb) := by
  rw [getAttsLoop.eq_def, if_neg (asc_len_ok s _ r), asc_bt s hq r]
  rcases ho with rfl | rfl <;> simp only [gaQuote] <;> rw [drop_char (s.asc.len _)] <;>
    rcases hs with rfl | rfl <;> rfl

theorem ga_end (st) (hs : st = .inName ∨ st = .other) {t : ByteType} (ho : t = .GT ∨ t = .SOL) {q}
    (hq : t.single = some q) (a : Att) (r : Buf) (p) : getAttsLoop e st a (asc q ++ r) p = [] := by
  rw [getAttsLoop.eq_def, if_neg (asc_len_ok s _ r), asc_bt s hq r]
  rcases ho with rfl | rfl <;> rcases hs with rfl | rfl <;> rfl

theorem ga_shut {op : ByteType} (ho : op = .QUOT ∨ op = .APOS) {q}
    (hq : op.single = some q) (a : Att) (r : Buf) (p) :
    getAttsLoop e (.inValue op) a (asc q ++ r) p =
      { a with valueEnd := p } :: getAttsLoop e .other { a with valueEnd := p } r (p + e.mb) := by
  rw [getAttsLoop.eq_def, if_neg (asc_len_ok s _ r), asc_bt s hq r]
  rcases ho with rfl | rfl <;> simp only [gaQuote, if_true] <;> rw [drop_char (s.asc.len _)]

/-- A character of a value that is neither `&`, white space nor the quote. -/
theorem ga_char {op : ByteType} {q} (hq : op.single = some q) (ho : op = .QUOT ∨ op = .APOS) {w : Buf}
    (hw : e.IsChar w) (h1 : w ≠ asc 0x26) (h2 : w ≠ asc q) (h3 : ∀ c, isWS c = true → w ≠ asc c) (a : Att) (r : Buf) (p) :
    getAttsLoop e (.inValue op) a (w ++ r) p = getAttsLoop e (.inValue op) a r (p + w.length) := by
  have hl := e.isChar_len s.mb hw
  have hb := s.ok.bt_app w r hl
  rw [Ne, ← char_bt s hw (t := .AMP) rfl r, hb] at h1
  rw [Ne, ← char_bt s hw hq r, hb] at h2
  have h4 : ¬ (e.bt w = .S ∨ e.bt w = .CR ∨ e.bt w = .LF) := by
    intro h
    obtain ⟨c, hc, h5⟩ := space_split s hl h
    have h6 : w.length = e.mb := by
      simp only [Enc.IsChar] at hw
      rcases h with h | h | h <;> rw [h] at hw <;> exact hw
    rw [List.drop_eq_nil_of_le (by omega), List.append_nil] at h5
    exact h3 c hc h5
  rw [getAttsLoop.eq_def, if_neg (by rw [List.length_append]; omega), hb]
  simp only [Enc.IsChar] at hw
  generalize e.bt w = t at *
  cases t <;> simp only at hw
  case S | CR | LF => simp at h4
  case AMP => exact absurd rfl h1
  case QUOT | APOS =>
    simp only [gaQuote, if_neg (Ne.symm h2), Bool.false_eq_true, if_false]
    rw [drop_char hw, ← hw]
  all_goals
    simp only [startName]
    first
      | rw [drop_char hw.1, ← hw.1]; rfl
      | rw [drop_char hw, ← hw]; rfl
      | rw [drop_char hw, ← hw]

theorem ga_amp (op : ByteType) (a : Att) (r : Buf) (p) :
    getAttsLoop e (.inValue op) a (asc 0x26 ++ r) p = getAttsLoop e (.inValue op) { a with normalized := false } r (p + e.mb) := by
  rw [getAttsLoop.eq_def, if_neg (asc_len_ok s _ r), asc_bt s (t := .AMP) rfl r]
  simp only
  rw [drop_char (s.asc.len _)]

/-- A white-space character of a value. -/
theorem ga_space (op : ByteType) {c} (hc : isWS c = true) (a : Att) (r : Buf) (p) :
    ∃ n, getAttsLoop e (.inValue op) a (asc c ++ r) p = getAttsLoop e (.inValue op) { a with normalized := n } r (p + e.mb) ∧
      (n = true → a.normalized = true ∧ c = 0x20 ∧ p ≠ a.valuePtr ∧ e.toAscii r ≠ 0x20 ∧ e.bt r ≠ op) := by
  rw [getAttsLoop.eq_def, if_neg (asc_len_ok s _ r)]
  rcases sp_bt s hc r with h | h | h <;> rw [h] <;> simp only [gaSpace, gaLine] <;> rw [drop_char (s.asc.len _)]
  · split
    · exact ⟨false, rfl, by simp⟩
    · rename_i hn
      refine ⟨a.normalized, rfl, fun h => ?_⟩
      simp only [h, true_and, not_or, Decidable.not_not, s.toAscii] at hn
      exact ⟨h, hn.2.1, hn.1, hn.2.2.1, hn.2.2.2⟩
  · exact ⟨false, rfl, by simp⟩
  · exact ⟨false, rfl, by simp⟩

/-- The ASCII characters of a reference. -/
def refChar (c : UInt8) : Bool := isDec c || isHexLetter c || c == 0x23 || c == 0x78 || c == 0x3B

theorem refChar_bt {c} (hc : refChar c = true) : e.bt (asc c) ∈ [ByteType.DIGIT, .HEX, .NUM, .NMSTRT, .SEMI] := by
  cases s with
  | utf8 ns =>
    revert hc; cases ns
    · exact UInt8.forall_dec (P := fun c => refChar c = true →
        (utf8Enc false).bt (asc1 c) ∈ [ByteType.DIGIT, .HEX, .NUM, .NMSTRT, .SEMI]) (by decide +kernel) c
    · exact UInt8.forall_dec (P := fun c => refChar c = true →
        (utf8Enc true).bt (asc1 c) ∈ [ByteType.DIGIT, .HEX, .NUM, .NMSTRT, .SEMI]) (by decide +kernel) c
  | internalUtf8 ns =>
    revert hc; cases ns
    · exact UInt8.forall_dec (P := fun c => refChar c = true →
        (internalUtf8Enc false).bt (asc1 c) ∈ [ByteType.DIGIT, .HEX, .NUM, .NMSTRT, .SEMI]) (by decide +kernel) c
    · exact UInt8.forall_dec (P := fun c => refChar c = true →
        (internalUtf8Enc true).bt (asc1 c) ∈ [ByteType.DIGIT, .HEX, .NUM, .NMSTRT, .SEMI]) (by decide +kernel) c
  | latin1 ns =>
    revert hc; cases ns
    · exact UInt8.forall_dec (P := fun c => refChar c = true →
        (latin1Enc false).bt (asc1 c) ∈ [ByteType.DIGIT, .HEX, .NUM, .NMSTRT, .SEMI]) (by decide +kernel) c
    · exact UInt8.forall_dec (P := fun c => refChar c = true →
        (latin1Enc true).bt (asc1 c) ∈ [ByteType.DIGIT, .HEX, .NUM, .NMSTRT, .SEMI]) (by decide +kernel) c
  | ascii ns =>
    revert hc; cases ns
    · exact UInt8.forall_dec (P := fun c => refChar c = true →
        (asciiEnc false).bt (asc1 c) ∈ [ByteType.DIGIT, .HEX, .NUM, .NMSTRT, .SEMI]) (by decide +kernel) c
    · exact UInt8.forall_dec (P := fun c => refChar c = true →
        (asciiEnc true).bt (asc1 c) ∈ [ByteType.DIGIT, .HEX, .NUM, .NMSTRT, .SEMI]) (by decide +kernel) c
  | utf16le ns =>
    revert hc; cases ns
    · exact UInt8.forall_dec (P := fun c => refChar c = true →
        (little2Enc false).bt (ascL c) ∈ [ByteType.DIGIT, .HEX, .NUM, .NMSTRT, .SEMI]) (by decide +kernel) c
    · exact UInt8.forall_dec (P := fun c => refChar c = true →
        (little2Enc true).bt (ascL c) ∈ [ByteType.DIGIT, .HEX, .NUM, .NMSTRT, .SEMI]) (by decide +kernel) c
  | utf16be ns =>
    revert hc; cases ns
    · exact UInt8.forall_dec (P := fun c => refChar c = true →
        (big2Enc false).bt (ascB c) ∈ [ByteType.DIGIT, .HEX, .NUM, .NMSTRT, .SEMI]) (by decide +kernel) c
    · exact UInt8.forall_dec (P := fun c => refChar c = true →
        (big2Enc true).bt (ascB c) ∈ [ByteType.DIGIT, .HEX, .NUM, .NMSTRT, .SEMI]) (by decide +kernel) c

theorem ga_refChar (op : ByteType) {c} (hc : refChar c = true) (a : Att) (r : Buf) (p) :
    getAttsLoop e (.inValue op) a (asc c ++ r) p = getAttsLoop e (.inValue op) a r (p + e.mb) := by
  have hb := refChar_bt s hc
  rw [getAttsLoop.eq_def, if_neg (asc_len_ok s _ r), s.ok.bt_app _ _ (by rw [s.asc.len]; exact Nat.le_refl _)]
  simp only [List.mem_cons, List.not_mem_nil, or_false] at hb
  rcases hb with h | h | h | h | h <;> rw [h] <;> simp only [startName] <;> rw [drop_char (s.asc.len _)] <;> rfl

theorem ga_refChars (op : ByteType) (a : Att) (r : Buf) (cs : List UInt8) (hc : ∀ c ∈ cs, refChar c = true) : ∀ p,
    getAttsLoop e (.inValue op) a (spell asc cs ++ r) p =
      getAttsLoop e (.inValue op) a r (p + (spell asc cs).length) := by
  induction cs with
  | nil => intro p; rfl
  | cons c cs ih =>
    intro p
    have h1 : spell asc (c :: cs) = asc c ++ spell asc cs := by simp [spell]
    rw [h1, List.append_assoc, ga_refChar s op (hc c (by simp)), ih (fun v hv => hc v (by simp [hv])),
      List.length_append, s.asc.len, Nat.add_assoc]

theorem ga_valname (op : ByteType) {w : Buf} (hw : e.NameChar w) (a : Att) (r : Buf) (p) :
    getAttsLoop e (.inValue op) a (w ++ r) p = getAttsLoop e (.inValue op) a r (p + w.length) := by
  have h2 := hw.len s.mb
  have hb := s.ok.bt_app w r h2
  rw [getAttsLoop.eq_def, if_neg (by rw [List.length_append]; omega), hb]
  simp only [Enc.NameChar] at hw
  generalize e.bt w = t at *
  cases t <;> simp only at hw
  all_goals
    simp only [startName]
    first
      | rw [drop_char hw.1, ← hw.1]; rfl
      | rw [drop_char hw, ← hw]; rfl
      | rw [drop_char hw, ← hw]

theorem ga_valnmstrt (op : ByteType) {w : Buf} (hw : e.NmstrtChar w) (a : Att) (r : Buf) (p) :
    getAttsLoop e (.inValue op) a (w ++ r) p = getAttsLoop e (.inValue op) a r (p + w.length) := by
  have h2 := hw.len s.mb
  have hb := s.ok.bt_app w r h2
  rw [getAttsLoop.eq_def, if_neg (by rw [List.length_append]; omega), hb]
  simp only [Enc.NmstrtChar] at hw
  generalize e.bt w = t at *
  cases t <;> simp only at hw
  all_goals
    simp only [startName]
    first
      | rw [drop_char hw.1, ← hw.1]; rfl
      | rw [drop_char hw, ← hw]; rfl

theorem ga_valnames (op : ByteType) (a : Att) (r : Buf) (ws : List Buf) (hw : ∀ w ∈ ws, e.NameChar w) : ∀ p,
    getAttsLoop e (.inValue op) a (ws.flatten ++ r) p = getAttsLoop e (.inValue op) a r (p + ws.flatten.length) := by
  induction ws with
  | nil => intro p; rfl
  | cons w ws ih =>
    intro p
    rw [List.flatten_cons, List.append_assoc, ga_valname s op (hw w (by simp)), ih (fun v hv => hw v (by simp [hv])),
      List.length_append, Nat.add_assoc]

theorem ga_ref (op : ByteType) {t : Tok} {w : Buf} (hw : Ref e asc t w) (a : Att) (r : Buf) (p) :
    getAttsLoop e (.inValue op) a (w ++ r) p = getAttsLoop e (.inValue op) a r (p + w.length) := by
  have h1 : ∀ c, asc c = spell asc [c] := fun c => by simp [spell]
  have hap : ∀ a b, spell asc a ++ spell asc b = spell asc (a ++ b) := fun a b => by simp [spell]
  cases hw with
  | entity ws hn =>
    obtain ⟨w, vs, rfl, h1, h2⟩ := hn
    rw [List.flatten_cons, List.append_assoc, List.append_assoc, ga_valnmstrt s op h1, ga_valnames s op _ _ _ h2,
      ga_refChar s op (by decide)]
    simp only [List.length_append, s.asc.len]
    congr 1; omega
  | dec ds h0 h2 =>
    have : asc 0x23 ++ ((ds.map asc).flatten ++ asc 0x3B) = spell asc (0x23 :: (ds ++ [0x3B])) := by
      simp [spell]
    rw [this]
    refine ga_refChars s op a r _ ?_ p
    intro c hc
    simp only [List.mem_cons, List.mem_append, List.not_mem_nil, or_false] at hc
    rcases hc with rfl | hc | rfl
    · rfl
    · simp [refChar, h2 c hc]
    · rfl
  | hex ds h0 h2 =>
    have : asc 0x23 ++ (asc 0x78 ++ ((ds.map asc).flatten ++ asc 0x3B)) = spell asc (0x23 :: 0x78 :: (ds ++ [0x3B])) := by
      simp [spell]
    rw [this]
    refine ga_refChars s op a r _ ?_ p
    intro c hc
    simp only [List.mem_cons, List.mem_append, List.not_mem_nil, or_false] at hc
    rcases hc with rfl | rfl | hc | rfl
    · rfl
    · rfl
    · have := h2 c hc
      rw [refChar, this]; rfl
    · rfl

/-- The value of an attribute. -/
theorem ga_value {op : ByteType} {q} (hq : op.single = some q) (ho : op = .QUOT ∨ op = .APOS) {v : Buf}
    (hv : Value e asc q v) (r : Buf) : ∀ (a : Att) (p), a.valuePtr ≤ p →
    ∃ n, getAttsLoop e (.inValue op) a (v ++ (asc q ++ r)) p =
        { a with valueEnd := p + v.length, normalized := n } ::
          getAttsLoop e .other { a with valueEnd := p + v.length, normalized := n } r (p + v.length + e.mb) ∧
      (n = true → a.normalized = true ∧ Plain e asc (decide (p = a.valuePtr)) v) := by
  have hmb : 0 < e.mb := Nat.succ_pos _
  induction hv with
  | nil =>
    intro a p hp
    refine ⟨a.normalized, ?_, fun h => ⟨h, .nil⟩⟩
    rw [List.nil_append, ga_shut s ho hq]; rfl
  | char w v h1 h2 h3 h4 h5 ih =>
    intro a p hp
    by_cases hws : ∃ c, isWS c = true ∧ w = asc c
    · obtain ⟨c, hc, rfl⟩ := hws
      rw [List.append_assoc]
      obtain ⟨n, e1, e2⟩ := ga_space s op hc a (v ++ (asc q ++ r)) p
      obtain ⟨m, e3, e4⟩ := ih { a with normalized := n } (p + e.mb) (by simp only; omega)
      refine ⟨m, ?_, ?_⟩
      · rw [e1, e3, List.length_append, s.asc.len]
        simp only [Nat.add_assoc]
      · intro hm
        obtain ⟨hn, hpl⟩ := e4 hm
        simp only at hn hpl
        obtain ⟨i1, rfl, i3, i4, i5⟩ := e2 hn
        refine ⟨i1, ?_⟩
        rw [decide_eq_false i3]
        rw [decide_eq_false (by omega)] at hpl
        refine .space v ?_ ?_ hpl
        · rintro rfl
          exact i5 (by rw [List.nil_append]; exact asc_bt s hq r)
        · rintro r' rfl
          exact i4 (by rw [List.append_assoc]; exact s.toAscii _ _)
    · have hnw : ∀ c, isWS c = true → w ≠ asc c := fun c hc h => hws ⟨c, hc, h⟩
      have hl := e.isChar_len s.mb h1
      obtain ⟨m, e3, e4⟩ := ih a (p + w.length) (by omega)
      refine ⟨m, ?_, ?_⟩
      · rw [List.append_assoc, ga_char s hq ho h1 h3 h4 hnw, e3, List.length_append]
        simp only [Nat.add_assoc]
      · intro hm
        obtain ⟨hn, hpl⟩ := e4 hm
        refine ⟨hn, ?_⟩
        rw [decide_eq_false (by omega)] at hpl
        exact .char w v h1 h2 h3 hnw hpl
  | ref t w v h1 h2 ih =>
    intro a p hp
    obtain ⟨m, e3, e4⟩ := ih { a with normalized := false } (p + e.mb + w.length) (by simp only; omega)
    refine ⟨m, ?_, fun hm => absurd (e4 hm).1 (by simp)⟩
    rw [List.append_assoc, List.append_assoc, ga_amp s, ga_ref s op h1, e3, List.length_append, List.length_append, s.asc.len]
    simp only [Nat.add_assoc]

theorem ga_qname {n : List Buf} (hn : QName e asc n) (a : Att) (r : Buf) (p) :
    getAttsLoop e .other a (n.flatten ++ r) p =
      getAttsLoop e .inName { a with name := p, normalized := true } r (p + n.flatten.length) := by
  cases hn with
  | plain _ h =>
    obtain ⟨w, vs, rfl, h1, h2⟩ := h
    rw [List.flatten_cons, List.append_assoc, ga_start s h1, ga_names s _ _ _ h2, List.length_append, Nat.add_assoc]
  | pair us vs h1 h2 hc =>
    obtain ⟨w, us, rfl, i1, i2⟩ := h1
    obtain ⟨w', vs, rfl, j1, j2⟩ := h2
    simp only [List.flatten_append, List.flatten_cons, List.append_assoc, List.cons_append]
    rw [ga_start s i1, ga_names s _ _ _ i2, ga_colon s _ hc, ga_nmstrt s j1, ga_names s _ _ _ j2]
    simp only [List.length_append, s.asc.len]
    congr 1; omega

theorem ga_qname_in {n : List Buf} (hn : QName e asc n) (a : Att) (r : Buf) (p) :
    getAttsLoop e .inName a (n.flatten ++ r) p = getAttsLoop e .inName a r (p + n.flatten.length) := by
  cases hn with
  | plain _ h =>
    obtain ⟨w, vs, rfl, h1, h2⟩ := h
    rw [List.flatten_cons, List.append_assoc, ga_nmstrt s h1, ga_names s _ _ _ h2, List.length_append, Nat.add_assoc]
  | pair us vs h1 h2 hc =>
    obtain ⟨w, us, rfl, i1, i2⟩ := h1
    obtain ⟨w', vs, rfl, j1, j2⟩ := h2
    simp only [List.flatten_append, List.flatten_cons, List.append_assoc, List.cons_append]
    rw [ga_nmstrt s i1, ga_names s _ _ _ i2, ga_colon s _ hc, ga_nmstrt s j1, ga_names s _ _ _ j2]
    simp only [List.length_append, s.asc.len]
    congr 1; omega

/-- One attribute. -/
theorem ga_att (st) (hs : st = .inName ∨ st = .other) {a : AttrSrc} (ha : a.Valid e asc) (b : Att) (r : Buf) (p) :
    ∃ n c, getAttsLoop e st b (a.text asc ++ r) p =
      attAt e asc p a n :: getAttsLoop e .other c r (p + (a.text asc).length) ∧
      (n = true → Plain e asc true a.value) := by
  obtain ⟨op, ho, hop⟩ : ∃ op : ByteType, (op = .QUOT ∨ op = .APOS) ∧ op.single = some a.q := by
    rcases ha.q with h | h
    · exact ⟨.QUOT, .inl rfl, by rw [h]; rfl⟩
    · exact ⟨.APOS, .inr rfl, by rw [h]; rfl⟩
  have hst : ∀ cs : List UInt8, (if cs = [] then GAState.inName else .other) = .inName ∨
      (if cs = [] then GAState.inName else .other) = .other := by
    intro cs; split <;> simp
  simp only [AttrSrc.text, AttrSrc.tail, List.append_assoc]
  rw [ga_spaces s ha.ws st hs, if_neg ha.ws1, ga_qname s ha.name, ga_spaces s ha.s1 _ (.inl rfl), ga_eq s,
    ga_spaces s ha.s2 _ (hst _)]
  have hst2 : ∀ cs : List UInt8, (if cs = [] then (if a.s1 = [] then GAState.inName else .other) else .other) = .inName ∨
      (if cs = [] then (if a.s1 = [] then GAState.inName else .other) else .other) = .other := by
    intro cs; split
    · exact hst _
    · simp
  rw [ga_open s _ (hst2 _) ho hop]
  obtain ⟨n, h1, h2⟩ := ga_value s hop ho ha.value r
    { b with name := p + (spell asc a.ws).length, normalized := true,
             valuePtr := p + (spell asc a.ws).length + a.name.flatten.length + (spell asc a.s1).length + e.mb +
              (spell asc a.s2).length + e.mb } _ (Nat.le_refl _)
  refine ⟨n, { b with name := p + (spell asc a.ws).length, normalized := n, valuePtr := p + (spell asc a.ws).length + a.name.flatten.length + (spell asc a.s1).length + e.mb +
              (spell asc a.s2).length + e.mb, valueEnd := p + (spell asc a.ws).length + a.name.flatten.length + (spell asc a.s1).length + e.mb +
              (spell asc a.s2).length + e.mb + a.value.length }, h1.trans ?_, fun hn => ?_⟩
  · simp only [List.length_append, s.asc.len, attAt]
    congr 2
    omega
  · have := (h2 hn).2
    simpa using this

theorem ga_atts {as : List AttrSrc} (ha : ∀ a ∈ as, a.Valid e asc) {ws} (hw : AllWS ws) (empty : Bool) (r : Buf) :
    ∀ (st) (_ : st = .inName ∨ st = .other) (b : Att) (p),
    AttsAt e asc p as (getAttsLoop e st b (attsText asc as ++ (closeText asc ws empty ++ r)) p) := by
  induction as with
  | nil =>
    intro st hs b p
    rw [attsText, List.map_nil, List.flatten_nil, List.nil_append, closeText, List.append_assoc, ga_spaces s hw st hs]
    have hst : (if ws = [] then st else .other) = .inName ∨ (if ws = [] then st else .other) = .other := by
      split
      · exact hs
      · simp
    cases empty with
    | true =>
      simp only [if_true, List.append_assoc]
      rw [ga_end s _ hst (t := .SOL) (.inr rfl) rfl]
      exact .nil
    | false =>
      simp only [Bool.false_eq_true, if_false, List.nil_append]
      rw [ga_end s _ hst (t := .GT) (.inl rfl) rfl]
      exact .nil
  | cons a as ih =>
    intro st hs b p
    have h1 : attsText asc (a :: as) = a.text asc ++ attsText asc as := by simp [attsText]
    rw [h1, List.append_assoc]
    obtain ⟨n, c, h2, h3⟩ := ga_att s st hs (ha a (by simp)) b (attsText asc as ++ (closeText asc ws empty ++ r)) p
    rw [h2]
    exact .cons n h3 (ih (fun x hx => ha x (by simp [hx])) .other (.inr rfl) c _)

/-- **`getAtts` lists the attributes of a tag in the order in which they are written**, each with the
place of its name and of its value. -/
theorem getAtts_spec {n : List Buf} (hn : QName e asc n) {as : List AttrSrc} (ha : ∀ a ∈ as, a.Valid e asc) {ws}
    (hw : AllWS ws) (empty : Bool) (r : Buf) :
    AttsAt e asc (e.mb + n.flatten.length) as
      (getAtts e (asc 0x3C ++ (n.flatten ++ (attsText asc as ++ (closeText asc ws empty ++ r))))) := by
  rw [getAtts, drop_char (s.asc.len _), ga_qname_in s hn]
  exact ga_atts s ha hw empty r _ (.inl rfl) _ _

end

end Verif
