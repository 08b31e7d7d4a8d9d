import Verif.Props.C17

/-! C18: XML declarations are accepted exactly per the grammar. -/

namespace Verif.C18
open Spec
open C16 (codes)

def isLetter (c : UInt8) : Bool :=
  decide (0x41 ≤ c ∧ c ≤ 0x5A) || decide (0x61 ≤ c ∧ c ≤ 0x7A)

/-- Specification: what is written between `<?xml` and `?>`. -/
structure Src where
  version : Option PAttr
  encoding : Option PAttr
  standalone : Option PAttr
  trail : List UInt8

def txt : Option PAttr → List UInt8
  | none => []
  | some a => a.text

def Src.text (d : Src) : List UInt8 :=
  txt d.version ++ (txt d.encoding ++ (txt d.standalone ++ d.trail))

def VersionOk (a : PAttr) : Prop := a.Valid ∧ a.name = codes ['v','e','r','s','i','o','n']
def EncodingOk (a : PAttr) : Prop :=
  a.Valid ∧ a.name = codes ['e','n','c','o','d','i','n','g'] ∧
    ∃ c cs, a.value = c :: cs ∧ isLetter c = true
def StandaloneOk (a : PAttr) : Prop :=
  a.Valid ∧ a.name = codes ['s','t','a','n','d','a','l','o','n','e'] ∧
    (a.value = codes ['y','e','s'] ∨ a.value = codes ['n','o'])

/-- The grammar of XML declarations (`text = false`) and text declarations (`text = true`). -/
structure Src.Valid (text : Bool) (d : Src) : Prop where
  version : ∀ a ∈ d.version, VersionOk a
  encoding : ∀ a ∈ d.encoding, EncodingOk a
  standalone : ∀ a ∈ d.standalone, StandaloneOk a
  trail : AllWS d.trail
  needVersion : text = false → d.version.isSome
  needEncoding : text = true → d.encoding.isSome
  noStandalone : text = true → d.standalone = none

/-- What is reported: the version value (as the buffer from the value's start on), the encoding
value, and the meaning of the standalone value. -/
def Src.out (x : XEnc) (asc : UInt8 → Buf) (d : Src) : DeclOut where
  version := d.version.map fun a =>
    spell asc a.value ++ (asc a.q ++ spell asc (txt d.encoding ++ (txt d.standalone ++ d.trail)))
  encoding := d.encoding.map fun a =>
    (spell asc a.value ++ (asc a.q ++ spell asc (txt d.standalone ++ d.trail)),
      spell asc a.value, findEncoding x (spell asc a.value))
  standalone := d.standalone.map fun a => decide (a.value = codes ['y','e','s'])

theorem kws : kwVersion = codes ['v','e','r','s','i','o','n'] ∧
    kwEncoding = codes ['e','n','c','o','d','i','n','g'] ∧
    kwStandalone = codes ['s','t','a','n','d','a','l','o','n','e'] ∧
    kwYes = codes ['y','e','s'] ∧ kwNo = codes ['n','o'] := by decide +kernel

section
variable {x : XEnc} {asc : UInt8 → Buf}

theorem letter_iff (c : UInt8) (hc : c < 0x80) :
    (decide (0x61 ≤ (c.toNat : Int) ∧ (c.toNat : Int) ≤ 0x7A) ||
      decide (0x41 ≤ (c.toNat : Int) ∧ (c.toNat : Int) ≤ 0x5A)) = isLetter c := by
  have : ∀ c : UInt8, c < 0x80 → (decide (0x61 ≤ (c.toNat : Int) ∧ (c.toNat : Int) ≤ 0x7A) ||
      decide (0x41 ≤ (c.toNat : Int) ∧ (c.toNat : Int) ≤ 0x5A)) = isLetter c := by
    intro c; revert c; exact UInt8.forall_dec (by decide +kernel)
  exact this c hc

theorem val_zero {v : List UInt8} (h : ∀ c ∈ v, isVal c = true) : 0 ∉ v := by
  intro h0; exact absurd (h 0 h0) (by decide)

theorem val_lt {v : List UInt8} (h : ∀ c ∈ v, isVal c = true) : ∀ c ∈ v, c < 0x80 :=
  fun c hc => isVal_lt (h c hc)

theorem find_panic (s : XSupported x asc) {v : List UInt8} (h : ∀ c ∈ v, isVal c = true) :
    findEncoding x (spell asc v) = .panic ↔ v.length = 127 := by
  by_cases hl : v.length = 127
  · simp [hl, C16.long_name_panics s v (val_lt h) hl]
  · simp only [hl, iff_false]
    rw [C16.declared_partial s v (val_lt h) (val_zero h) hl]
    split
    · simp
    · split <;> simp

/-- Trailing white space. -/
theorem skip_all (s : XSupported x asc) {b : Buf} (hb : x.Clean b) :
    (skipSp x b).isEmpty = true ↔ ∃ ws, AllWS ws ∧ b = spell asc ws := by
  constructor
  · intro h
    obtain ⟨cs, h1, h2, _⟩ := skipSp_inv s b hb
    rw [List.isEmpty_iff.1 h, List.append_nil] at h2
    exact ⟨cs, h1, h2⟩
  · rintro ⟨ws, h1, rfl⟩
    have := skipSp_spell s h1 (r := []) (by rw [toAscii_nil s]; rfl)
    rw [List.append_nil] at this
    simp [this]

theorem lt_codes : (∀ c ∈ kwVersion, c < 0x80) ∧ (∀ c ∈ kwEncoding, c < 0x80) ∧
    (∀ c ∈ kwStandalone, c < 0x80) ∧ (∀ c ∈ kwYes, c < 0x80) ∧ (∀ c ∈ kwNo, c < 0x80) := by
  decide +kernel

theorem standalone_iff (s : XSupported x asc) (text : Bool) (ver enc) (n v : List UInt8) {r : Buf}
    (hr : x.Clean r) (o : DeclOut) :
    declStandalone x text ver enc (spell asc n) (spell asc v) r = .ok o ↔
      text = false ∧ n = kwStandalone ∧ (v = kwYes ∨ v = kwNo) ∧ (∃ ws, AllWS ws ∧ r = spell asc ws) ∧
      o = ⟨ver, enc, some (decide (v = kwYes))⟩ := by
  rw [declStandalone, nameMatches_spell s n _ lt_codes.2.2.1, nameMatches_spell s v _ lt_codes.2.2.2.1,
    nameMatches_spell s v _ lt_codes.2.2.2.2, ← skip_all s hr]
  by_cases hn : n = kwStandalone <;> cases text <;> simp [hn]
  by_cases hy : v = kwYes
  · simp [hy]; by_cases h : skipSp x r = [] <;> simp [h, eq_comm]
  · simp [hy]
    by_cases hv : v = kwNo
    · simp [hv]; by_cases h : skipSp x r = [] <;> simp [h, eq_comm]
    · simp [hv]

theorem standalone_panic (text : Bool) (ver enc) (n v r : Buf) :
    declStandalone x text ver enc n v r ≠ .panic := by
  unfold declStandalone; repeat' split
  all_goals simp

/-- Standalone part, after an encoding declaration. -/
theorem tail_iff (s : XSupported x asc) (text : Bool) (ver enc) {r : Buf} (hr : x.Clean r)
    (o : DeclOut) :
    (match parsePseudo x r with
      | .bad => .bad
      | .stop => .ok ⟨ver, enc, none⟩
      | .attr n v _ r => declStandalone x text ver enc n v r : DeclRes) = .ok o ↔
    ∃ (sd : Option PAttr) (ws : List UInt8), (∀ a ∈ sd, StandaloneOk a) ∧ AllWS ws ∧
      (text = true → sd = none) ∧ r = spell asc (txt sd ++ ws) ∧
      o = ⟨ver, enc, sd.map fun a => decide (a.value = codes ['y','e','s'])⟩ := by
  constructor
  · intro h
    cases hp : parsePseudo x r with
    | bad => simp [hp] at h
    | stop =>
      obtain ⟨ws, h1, h2⟩ := (parsePseudo_stop s hr).1 hp
      simp only [hp, DeclRes.ok.injEq] at h
      exact ⟨none, ws, by simp, h1, by simp, h2, h.symm⟩
    | attr n v on r' =>
      obtain ⟨a, ha, rfl, rfl, rfl, rfl⟩ := parsePseudo_sound s hr hp
      simp only [hp] at h
      obtain ⟨h1, h2, h3, ⟨ws, h4, rfl⟩, h6⟩ := (standalone_iff s text ver enc _ _ (Clean.tail hr) o).1 h
      rw [kws.2.2.1] at h2
      rw [kws.2.2.2.1, kws.2.2.2.2] at h3
      rw [kws.2.2.2.1] at h6
      refine ⟨some a, ws, ?_, h4, by simp [h1], by rw [txt, spell_append], h6⟩
      intro b hb
      cases hb
      exact ⟨ha, h2, h3⟩
  · rintro ⟨sd, ws, h1, h2, h3, rfl, rfl⟩
    cases sd with
    | none =>
      have := (parsePseudo_stop s hr).2 ⟨ws, h2, rfl⟩
      simp only [this, Option.map_none]
    | some a =>
      obtain ⟨ha, hn, hv⟩ := h1 a rfl
      rw [txt, spell_append, parsePseudo_complete s ha]
      refine (standalone_iff s text ver enc _ _ (Clean.tail (w := spell asc a.text) ?_) _).2 ?_
      · rw [← spell_append]; exact hr
      · rw [kws.2.2.1, kws.2.2.2.1, kws.2.2.2.2]
        refine ⟨?_, hn, hv, ⟨ws, h2, rfl⟩, rfl⟩
        cases text with
        | false => rfl
        | true => simp at h3

theorem letter_test (s : XSupported x asc) {v : List UInt8} (hv : ∀ c ∈ v, isVal c = true) {q : UInt8}
    (hq : q = 0x22 ∨ q = 0x27) (r : Buf) :
    (decide (0x61 ≤ toAscii x (spell asc v ++ asc q ++ r) ∧ toAscii x (spell asc v ++ asc q ++ r) ≤ 0x7A) ||
      decide (0x41 ≤ toAscii x (spell asc v ++ asc q ++ r) ∧ toAscii x (spell asc v ++ asc q ++ r) ≤ 0x5A)) = true
      ↔ ∃ c cs, v = c :: cs ∧ isLetter c = true := by
  cases v with
  | nil =>
    have hq' : q < 0x80 := by rcases hq with h | h <;> rw [h] <;> decide
    rw [spell_nil, List.nil_append, toAscii_asc s hq', letter_iff q hq']
    have : isLetter q = false := by rcases hq with h | h <;> rw [h] <;> decide
    simp [this]
  | cons c cs =>
    have hc := isVal_lt (hv c (by simp))
    rw [spell_cons, List.append_assoc, List.append_assoc, toAscii_asc s hc, letter_iff c hc]
    simp

/-- The part from the encoding on. -/
theorem encoding_iff (s : XSupported x asc) (text : Bool) (ver) {a : PAttr} (ha : a.Valid) {r : Buf}
    (hr : x.Clean r) (o : DeclOut) :
    declEncoding x text ver (spell asc a.name) (spell asc a.value)
      (spell asc a.value ++ asc a.q ++ r) r = .ok o ↔
    (EncodingOk a ∧ a.value.length ≠ 127 ∧
      ∃ (sd : Option PAttr) (ws : List UInt8), (∀ a ∈ sd, StandaloneOk a) ∧ AllWS ws ∧
      (text = true → sd = none) ∧ r = spell asc (txt sd ++ ws) ∧
      o = ⟨ver, some (spell asc a.value ++ asc a.q ++ r, spell asc a.value,
        findEncoding x (spell asc a.value)), sd.map fun a => decide (a.value = codes ['y','e','s'])⟩) ∨
    (StandaloneOk a ∧ text = false ∧ ∃ ws, AllWS ws ∧ r = spell asc ws ∧
      o = ⟨ver, none, some (decide (a.value = codes ['y','e','s']))⟩) := by
  unfold declEncoding
  rw [nameMatches_spell s _ _ lt_codes.2.1]
  by_cases hn : a.name = kwEncoding
  · have hsd : ¬ StandaloneOk a := by
      rintro ⟨_, h, _⟩; rw [hn] at h; exact absurd h (by decide +kernel)
    simp only [hn, decide_true, if_true, hsd, false_and, or_false]
    have hl := letter_test s ha.value ha.q r
    by_cases hl2 : ∃ c cs, a.value = c :: cs ∧ isLetter c = true
    · rw [hl.2 hl2]
      have hok : EncodingOk a := ⟨ha, hn.trans kws.2.1, hl2⟩
      simp only [hok, true_and, Bool.not_true]
      have hp := find_panic s ha.value
      rw [← tail_iff s text ver _ hr o]
      rw [if_neg (by simp)]
      cases hf : findEncoding x (spell asc a.value) with
      | panic => rw [hf] at hp; simp [hp.1 rfl]
      | _ =>
        rw [hf] at hp
        simp only [reduceCtorEq, false_iff] at hp
        simp only [ne_eq, hp, not_false_eq_true, true_and]
        cases parsePseudo x r <;> exact Iff.rfl
    · have : (decide (0x61 ≤ toAscii x (spell asc a.value ++ asc a.q ++ r) ∧
            toAscii x (spell asc a.value ++ asc a.q ++ r) ≤ 0x7A) ||
          decide (0x41 ≤ toAscii x (spell asc a.value ++ asc a.q ++ r) ∧
            toAscii x (spell asc a.value ++ asc a.q ++ r) ≤ 0x5A)) = false :=
        Bool.eq_false_iff.2 fun h => hl2 (hl.1 h)
      rw [this]
      have hok : ¬ EncodingOk a := fun h => hl2 h.2.2
      simp [hok]
  · have hok : ¬ EncodingOk a := fun h => hn (h.2.1.trans kws.2.1.symm)
    simp only [hn, decide_false, hok, false_and, false_or]
    rw [if_neg (by simp), standalone_iff s text ver none _ _ hr o]
    rw [kws.2.2.1, kws.2.2.2.1, kws.2.2.2.2]
    constructor
    · rintro ⟨h1, h2, h3, ⟨ws, h4, h5⟩, h6⟩
      exact ⟨⟨ha, h2, h3⟩, h1, ws, h4, h5, h6⟩
    · rintro ⟨⟨_, h2, h3⟩, h1, ws, h4, h5, h6⟩
      exact ⟨h1, h2, h3, ⟨ws, h4, h5⟩, h6⟩

/-- C18: the declarations accepted, and what is reported for them. Partial: encoding names of exactly
127 characters are excluded (the library panics on them, see `panic_iff`). -/
theorem accepted_partial (s : XSupported x asc) (text : Bool) {b : Buf} (hb : x.Clean b)
    (o : DeclOut) :
    doParseXmlDecl x text b = .ok o ↔
      ∃ d : Src, d.Valid text ∧ (∀ a ∈ d.encoding, a.value.length ≠ 127) ∧
        b = spell asc d.text ∧ o = d.out x asc := by
  constructor
  · intro h
    unfold doParseXmlDecl at h
    split at h
    · simp at h
    · simp at h
    rename_i n v on r hp
    obtain ⟨a, ha, rfl, rfl, rfl, rfl⟩ := parsePseudo_sound s hb hp
    have hr : x.Clean r := Clean.tail hb
    rw [nameMatches_spell s _ _ lt_codes.1] at h
    by_cases hn : a.name = kwVersion
    · have hva : VersionOk a := ⟨ha, hn.trans kws.1⟩
      rw [if_neg (by simp [hn])] at h
      split at h
      · simp at h
      · rename_i hp2
        obtain ⟨ws, hws, rfl⟩ := (parsePseudo_stop s hr).1 hp2
        cases text with
        | true => simp at h
        | false =>
          simp only [Bool.false_eq_true, if_false, DeclRes.ok.injEq] at h
          refine ⟨⟨some a, none, none, ws⟩, ⟨?_, by simp, by simp, hws, by simp, by simp, by simp⟩, by simp, ?_, ?_⟩
          · rintro b ⟨⟩; exact hva
          · simp [Src.text, txt, spell_append]
          · rw [← h]; simp [Src.out, txt]
      · rename_i n2 v2 on2 r2 hp2
        obtain ⟨a2, ha2, rfl, rfl, rfl, rfl⟩ := parsePseudo_sound s hr hp2
        rcases (encoding_iff s text _ ha2 (Clean.tail hr) o).1 h with
          ⟨h1, h2, sd, ws, h3, h4, h5, rfl, rfl⟩ | ⟨h1, h2, ws, h4, rfl, rfl⟩
        · refine ⟨⟨some a, some a2, sd, ws⟩, ⟨?_, ?_, h3, h4, by simp, by simp, h5⟩, ?_, ?_, ?_⟩
          · rintro b ⟨⟩; exact hva
          · rintro b ⟨⟩; exact h1
          · rintro b ⟨⟩; exact h2
          · simp [Src.text, txt, spell_append]
          · simp [Src.out, txt, spell_append]
        · refine ⟨⟨some a, none, some a2, ws⟩, ⟨?_, by simp, ?_, h4, by simp, by simp [h2], by simp [h2]⟩, by simp, ?_, ?_⟩
          · rintro b ⟨⟩; exact hva
          · rintro b ⟨⟩; exact h1
          · simp [Src.text, txt, spell_append]
          · simp [Src.out, txt, spell_append]
    · rw [if_pos (by simp [hn])] at h
      cases text with
      | false => simp at h
      | true =>
        rw [if_neg (by simp)] at h
        rcases (encoding_iff s true _ ha hr o).1 h with
          ⟨h1, h2, sd, ws, h3, h4, h5, rfl, rfl⟩ | ⟨h1, h2, _⟩
        · refine ⟨⟨none, some a, sd, ws⟩, ⟨by simp, ?_, h3, h4, by simp, by simp, h5⟩, ?_, ?_, ?_⟩
          · rintro b ⟨⟩; exact h1
          · rintro b ⟨⟩; exact h2
          · simp [Src.text, txt, spell_append]
          · simp [Src.out, txt, spell_append]
        · simp at h2
  · rintro ⟨⟨ver, enc, sd, ws⟩, hv, h127, rfl, rfl⟩
    obtain ⟨hver, henc, hsd, hws, hnv, hne, hns⟩ := hv
    simp only at hver henc hsd hws hnv hne hns h127
    unfold doParseXmlDecl
    have tl : ∀ w : List UInt8, x.Clean (spell asc (w ++ (txt sd ++ ws))) → x.Clean (spell asc (txt sd ++ ws)) := by
      intro w h; rw [spell_append] at h; exact Clean.tail h
    have key : ∀ (a : PAttr), enc = some a → x.Clean (spell asc (txt sd ++ ws)) → ∀ vb,
        declEncoding x text vb (spell asc a.name) (spell asc a.value)
          (spell asc a.value ++ asc a.q ++ spell asc (txt sd ++ ws)) (spell asc (txt sd ++ ws)) =
        .ok ⟨vb, (Src.out x asc ⟨ver, enc, sd, ws⟩).encoding, (Src.out x asc ⟨ver, enc, sd, ws⟩).standalone⟩ := by
      rintro a rfl hc vb
      have h1 := henc a rfl
      refine (encoding_iff s text vb h1.1 hc _).2 (.inl ⟨h1, h127 a rfl, sd, ws, hsd, hws, hns, rfl, ?_⟩)
      simp [Src.out, txt, spell_append]
    cases ver with
    | some v =>
      have hv := hver v rfl
      have hb2 : x.Clean (spell asc (txt enc ++ (txt sd ++ ws))) := by
        have hb := hb
        simp only [Src.text, txt] at hb
        rw [spell_append] at hb
        exact Clean.tail hb
      have e1 : spell asc (Src.text ⟨some v, enc, sd, ws⟩) =
          spell asc v.text ++ spell asc (txt enc ++ (txt sd ++ ws)) := by
        rw [Src.text, txt, spell_append]
      rw [e1, parsePseudo_complete s hv.1]
      simp only
      rw [nameMatches_spell s _ _ lt_codes.1, hv.2, ← kws.1]
      simp only [decide_true, Bool.not_true, Bool.false_eq_true, if_false]
      cases enc with
      | some a =>
        have h1 := henc a rfl
        have hb3 := tl _ hb2
        rw [show spell asc (txt (some a) ++ (txt sd ++ ws)) = spell asc a.text ++ spell asc (txt sd ++ ws) by
          rw [txt, spell_append]] at *
        rw [parsePseudo_complete s h1.1]
        simp only
        rw [key a rfl hb3]
        simp [Src.out, txt, spell_append]
      | none =>
        have ht : text = false := by
          cases text with
          | false => rfl
          | true => simp at hne
        subst ht
        simp only [txt, List.nil_append] at hb2 ⊢
        cases sd with
        | none =>
          simp only [txt, List.nil_append] at hb2 ⊢
          rw [(parsePseudo_stop s hb2).2 ⟨ws, hws, rfl⟩]
          simp [Src.out, txt]
        | some a =>
          have h1 := hsd a rfl
          simp only [txt] at hb2 ⊢
          rw [spell_append] at hb2 ⊢
          rw [parsePseudo_complete s h1.1]
          refine (encoding_iff s false _ h1.1 (Clean.tail hb2) _).2 (.inr ⟨h1, rfl, ws, hws, rfl, ?_⟩)
          simp [Src.out, txt, spell_append]
    | none =>
      have ht : text = true := by
        cases text with
        | true => rfl
        | false => simp at hnv
      subst ht
      cases enc with
      | none => simp at hne
      | some a =>
        have h1 := henc a rfl
        have hb3 : x.Clean (spell asc (txt sd ++ ws)) := tl (txt (some a)) (by simpa [Src.text, txt] using hb)
        have e1 : spell asc (Src.text ⟨none, some a, sd, ws⟩) =
          spell asc a.text ++ spell asc (txt sd ++ ws) := by
          simp [Src.text, txt, spell_append]
        rw [e1, parsePseudo_complete s h1.1]
        simp only
        rw [nameMatches_spell s _ _ lt_codes.1, h1.2.1]
        rw [if_pos (by decide +kernel), if_neg (by simp), ← h1.2.1, key a rfl hb3]
        simp [Src.out, txt]

/-- Where the library panics: after an optional version declaration, an encoding name that begins
with a letter and has exactly 127 characters. -/
theorem panic_iff (s : XSupported x asc) (text : Bool) {b : Buf} (hb : x.Clean b) :
    doParseXmlDecl x text b = .panic ↔
      ∃ (v : Option PAttr) (a : PAttr) (r : Buf), (∀ p ∈ v, VersionOk p) ∧ EncodingOk a ∧
        (text = false → v.isSome) ∧ a.value.length = 127 ∧ b = spell asc (txt v ++ a.text) ++ r := by
  have enc : ∀ (ver : Option Buf) (a : PAttr) (r : Buf), a.Valid →
      (declEncoding x text ver (spell asc a.name) (spell asc a.value)
        (spell asc a.value ++ asc a.q ++ r) r = .panic ↔ EncodingOk a ∧ a.value.length = 127) := by
    intro ver a r ha
    unfold declEncoding
    rw [nameMatches_spell s _ _ lt_codes.2.1]
    by_cases hn : a.name = kwEncoding
    · simp only [hn, decide_true, if_true]
      have hl := letter_test s ha.value ha.q r
      by_cases hl2 : ∃ c cs, a.value = c :: cs ∧ isLetter c = true
      · rw [hl.2 hl2]
        have hok : EncodingOk a := ⟨ha, hn.trans kws.2.1, hl2⟩
        simp only [hok, true_and, Bool.not_true]
        have hp := find_panic s ha.value
        rw [if_neg (by simp), ← hp]
        cases hf : findEncoding x (spell asc a.value) with
        | panic => simp
        | _ =>
          simp only [reduceCtorEq, iff_false]
          split
          · simp
          · simp
          · exact standalone_panic _ _ _ _ _ _
      · have : (decide (0x61 ≤ toAscii x (spell asc a.value ++ asc a.q ++ r) ∧
              toAscii x (spell asc a.value ++ asc a.q ++ r) ≤ 0x7A) ||
            decide (0x41 ≤ toAscii x (spell asc a.value ++ asc a.q ++ r) ∧
              toAscii x (spell asc a.value ++ asc a.q ++ r) ≤ 0x5A)) = false :=
          Bool.eq_false_iff.2 fun h => hl2 (hl.1 h)
        rw [this]
        have hok : ¬ EncodingOk a := fun h => hl2 h.2.2
        simp [hok]
    · have hok : ¬ EncodingOk a := fun h => hn (h.2.1.trans kws.2.1.symm)
      simp only [hn, decide_false, hok, false_and, iff_false]
      rw [if_neg (by simp)]
      exact standalone_panic _ _ _ _ _ _
  constructor
  · intro h
    unfold doParseXmlDecl at h
    split at h
    · simp at h
    · simp at h
    rename_i n v on r hp
    obtain ⟨a, ha, rfl, rfl, rfl, rfl⟩ := parsePseudo_sound s hb hp
    have hr : x.Clean r := Clean.tail hb
    rw [nameMatches_spell s _ _ lt_codes.1] at h
    by_cases hn : a.name = kwVersion
    · have hva : VersionOk a := ⟨ha, hn.trans kws.1⟩
      rw [if_neg (by simp [hn])] at h
      split at h
      · simp at h
      · split at h <;> simp at h
      · rename_i n2 v2 on2 r2 hp2
        obtain ⟨a2, ha2, rfl, rfl, rfl, rfl⟩ := parsePseudo_sound s hr hp2
        obtain ⟨h1, h2⟩ := (enc _ a2 _ ha2).1 h
        refine ⟨some a, a2, r2, ?_, h1, by simp, h2, by simp [txt, spell_append]⟩
        rintro b ⟨⟩; exact hva
    · rw [if_pos (by simp [hn])] at h
      cases text with
      | false => simp at h
      | true =>
        rw [if_neg (by simp)] at h
        obtain ⟨h1, h2⟩ := (enc _ a _ ha).1 h
        exact ⟨none, a, r, by simp, h1, by simp, h2, by simp [txt]⟩
  · rintro ⟨v, a, r, hv, ha, hs, hl, rfl⟩
    unfold doParseXmlDecl
    cases v with
    | some v =>
      have hv := hv v rfl
      rw [txt, spell_append, List.append_assoc, parsePseudo_complete s hv.1]
      simp only
      rw [nameMatches_spell s _ _ lt_codes.1, hv.2, if_neg (by decide +kernel), parsePseudo_complete s ha.1]
      exact (enc _ a r ha.1).2 ⟨ha, hl⟩
    | none =>
      have ht : text = true := by
        cases text with
        | true => rfl
        | false => simp at hs
      subst ht
      rw [txt, List.nil_append, parsePseudo_complete s ha.1]
      simp only
      rw [nameMatches_spell s _ _ lt_codes.1, if_pos (by rw [ha.2.1]; decide +kernel), if_neg (by simp)]
      exact (enc _ a r ha.1).2 ⟨ha, hl⟩

end

/-- ` version="1.0" encoding='utf-8' standalone="no" ` -/
def sample : Src where
  version := some ⟨[0x20], codes ['v','e','r','s','i','o','n'], [], [], 0x22, codes ['1','.','0']⟩
  encoding := some ⟨[0x20], codes ['e','n','c','o','d','i','n','g'], [0x20], [], 0x27, codes ['u','t','f','-','8']⟩
  standalone := some ⟨[0x0A, 0x20], codes ['s','t','a','n','d','a','l','o','n','e'], [], [], 0x22, codes ['n','o']⟩
  trail := [0x20]

example : ∃ o, doParseXmlDecl (utf8X false) false (spell asc1 sample.text) = .ok o ∧
    o.standalone = some false ∧ o.encoding.map (fun p => p.2.2) = some (.builtin .utf8) := by
  refine ⟨sample.out (utf8X false) asc1, by decide +kernel, by decide +kernel, by decide +kernel⟩

end Verif.C18
