import Verif.Tree

/-! C48: writing a tree and parsing it. -/

set_option autoImplicit false

namespace Verif.C48
open Verif C43 C53 Spec C04

/-! ### Names in the encodings -/

/-- The encoding has the name characters of XML 1.0 among its own. -/
structure Naming (ns : Bool) (x : XEnc) (enc : Nat → Buf) (ok : Nat → Prop) : Prop where
  start {c : Nat} : ok c → InRanges nameStart c → (ns = true → c ≠ 0x3A) → x.e.NmstrtChar (enc c)
  char {c : Nat} : ok c → InRanges nameChar c → (ns = true → c ≠ 0x3A) → x.e.NameChar (enc c)

theorem Naming.utf8 (ns : Bool) : Naming ns (utf8X ns) Spec.utf8 XmlChar where
  start {c} h1 h2 h3 := (C47.utf8_names ns c (by have := xmlChar_lt h1; omega)).1.2 ⟨h2, fun h => h3 h.1 h.2⟩
  char {c} h1 h2 h3 := (C47.utf8_names ns c (by have := xmlChar_lt h1; omega)).2.2 ⟨h2, fun h => h3 h.1 h.2⟩

theorem odd_not (c : Nat) (h : c ∈ C47.latin1Odd) : ¬ InRanges nameChar c := by
  rw [← rangeBits_spec]
  simp only [C47.latin1Odd, List.mem_cons, List.not_mem_nil, or_false] at h
  rcases h with rfl | rfl | rfl <;> decide +kernel

theorem Naming.utf16le (ns : Bool) : Naming ns (little2X ns) C12.utf16le XmlChar where
  start {c} h1 h2 h3 := by
    have h4 := C47.start_is_name c h2
    have h5 : c < 0x10000 := by
      rcases Nat.lt_or_ge c 0x10000 with h | h
      · exact h
      · exact absurd h4 (C47.ranges_bmp c h).1
    have h6 := (C47.utf16le_names_partial ns c h5 (scalar_of_xml h1) (by simp only [XmlChar] at h1; omega) (fun h => odd_not c h h4)).1.2 ⟨h2, fun h => h3 h.1 h.2⟩
    rw [C12.utf16le, Spec.utf16, if_pos (by omega)]
    rw [List.map_cons, List.map_nil, List.flatten_cons, List.flatten_nil, List.append_nil]
    exact h6
  char {c} h1 h4 h3 := by
    have h5 : c < 0x10000 := by
      rcases Nat.lt_or_ge c 0x10000 with h | h
      · exact h
      · exact absurd h4 (C47.ranges_bmp c h).1
    have h6 := (C47.utf16le_names_partial ns c h5 (scalar_of_xml h1) (by simp only [XmlChar] at h1; omega) (fun h => odd_not c h h4)).2.2 ⟨h4, fun h => h3 h.1 h.2⟩
    rw [C12.utf16le, Spec.utf16, if_pos (by omega)]
    rw [List.map_cons, List.map_nil, List.flatten_cons, List.flatten_nil, List.append_nil]
    exact h6


theorem Naming.latin1 (ns : Bool) : Naming ns (latin1X ns) C12.byte1 fun c => XmlChar c ∧ c < 256 where
  start {c} h1 h2 h3 := by
    have : ∀ c < 256, (rangeBits nameStart).testBit c = true → (ns = true → c ≠ 0x3A) → (latin1X ns).e.NmstrtChar (C12.byte1 c) := by
      cases ns <;> decide +kernel
    exact this c h1.2 ((rangeBits_spec _ _).2 h2) h3
  char {c} h1 h2 h3 := by
    have : ∀ c < 256, (rangeBits nameChar).testBit c = true → (ns = true → c ≠ 0x3A) → (latin1X ns).e.NameChar (C12.byte1 c) := by
      cases ns <;> decide +kernel
    exact this c h1.2 ((rangeBits_spec _ _).2 h2) h3

theorem Naming.ascii (ns : Bool) : Naming ns (asciiX ns) C12.byte1 fun c => XmlChar c ∧ c < 128 where
  start {c} h1 h2 h3 := by
    have : ∀ c < 128, (rangeBits nameStart).testBit c = true → (ns = true → c ≠ 0x3A) → (asciiX ns).e.NmstrtChar (C12.byte1 c) := by
      cases ns <;> decide +kernel
    exact this c h1.2 ((rangeBits_spec _ _).2 h2) h3
  char {c} h1 h2 h3 := by
    have : ∀ c < 128, (rangeBits nameChar).testBit c = true → (ns = true → c ≠ 0x3A) → (asciiX ns).e.NameChar (C12.byte1 c) := by
      cases ns <;> decide +kernel
    exact this c h1.2 ((rangeBits_spec _ _).2 h2) h3

/-! ### Strings -/

theorem text_app (enc : Nat → Buf) (a b : List Nat) : C12.text enc (a ++ b) = C12.text enc a ++ C12.text enc b := by
  simp [C12.text]

theorem text_cons (enc : Nat → Buf) (c : Nat) (b : List Nat) : C12.text enc (c :: b) = enc c ++ C12.text enc b := by
  simp [C12.text]

theorem utf8s_app (a b : List Nat) : utf8s (a ++ b) = utf8s a ++ utf8s b := by simp [utf8s]

/-- The text does not start with `>`, nor with `]>`. -/
def Safe (L : List Nat) : Prop := L.head? ≠ some 0x3E ∧ ∀ r, L ≠ 0x5D :: 0x3E :: r

theorem safe_lt (L : List Nat) : Safe (str [0x3C] ++ L) := ⟨by simp [str], by simp [str]⟩
theorem safe_nil : Safe [] := ⟨by simp, by simp⟩

theorem esc_safe (c : Nat) {L : List Nat} (h : Safe L) : Safe (esc c ++ L) := by
  have amp : ∀ l : List Nat, Safe (0x26 :: l) := fun l => ⟨by simp, by simp⟩
  simp only [esc]
  split
  · exact amp _
  · split
    · exact amp _
    · split
      · exact amp _
      · split
        · exact amp _
        · refine ⟨by simpa, ?_⟩
          intro r hr
          simp only [List.singleton_append, List.cons.injEq] at hr
          obtain ⟨-, rfl⟩ := hr
          exact h.1 rfl

theorem escs_safe (cs : List Nat) {L : List Nat} (h : Safe L) : Safe (cs.flatMap esc ++ L) := by
  induction cs with
  | nil => exact h
  | cons c cs ih => rw [List.flatMap_cons, List.append_assoc]; exact esc_safe c ih

theorem serialise_safe (f : Forest) {L : List Nat} (h : Safe L) : Safe (serialise f ++ L) := by
  cases f with
  | nil => exact h
  | text cs f =>
    rw [serialise, List.append_assoc]
    refine escs_safe cs ?_
    exact serialise_safe f h
  | comment => exact ⟨by simp [serialise, str], by simp [serialise, str]⟩
  | pi => exact ⟨by simp [serialise, str], by simp [serialise, str]⟩
  | elem => exact ⟨by simp [serialise, str], by simp [serialise, str]⟩

section
variable {ns : Bool} {c : Cfg} {D : Dtd} {x : XEnc} {asc : UInt8 → Buf} {enc : Nat → Buf} {ok : Nat → Prop}
variable (K : Coding x asc enc ok)
include K

theorem text_str {ds : List UInt8} (h : ∀ d ∈ ds, d < 0x80) : C12.text enc (str ds) = spell asc ds := K.spell_eq h

theorem asc_piece {d : UInt8} (hd : d < 0x80) (hx : XmlChar d.toNat) : x.e.Piece (asc d) := by
  rw [← K.ascii d hd]; exact char_piece K.sup.s (K.char (K.asciiOk hx hd))

/-- Reading a character off a text. -/
theorem text_asc {L : List Nat} (hL : ∀ c ∈ L, ok c) {d : UInt8} (hd : d < 0x80) (hx : XmlChar d.toNat) {r : Buf} (h : C12.text enc L = asc d ++ r) :
    ∃ L', L = d.toNat :: L' ∧ C12.text enc L' = r := by
  cases L with
  | nil =>
    have := congrArg List.length h
    have hp : 0 < x.e.mb := Nat.succ_pos _
    simp only [C12.text, List.map_nil, List.flatten_nil, List.length_nil, List.length_append, K.sup.s.asc.len] at this
    omega
  | cons c L =>
    rw [text_cons] at h
    have hc := hL c (by simp)
    obtain ⟨h1, h2⟩ := piece_unique K.sup.s (char_piece K.sup.s (K.char hc)) (asc_piece K hd hx) h
    exact ⟨L, by rw [K.eq_asc hc hd hx h1], h2⟩

theorem safe_close {ch : Nat} {L : List Nat} (h1 : ok ch) (hL : ∀ c ∈ L, ok c) (h : Safe L) : ¬ StartsClose asc (enc ch ++ C12.text enc L) := by
  rintro ⟨r, hr⟩
  rw [← text_cons] at hr
  obtain ⟨L1, e1, hr1⟩ := text_asc K (by simpa using ⟨h1, hL⟩) (d := 0x5D) (by decide) (by decide) hr
  cases e1
  obtain ⟨L2, rfl, hr2⟩ := text_asc K hL (d := 0x5D) (by decide) (by decide) hr1
  obtain ⟨L3, rfl, -⟩ := text_asc K (fun c hc => hL c (List.mem_cons_of_mem _ hc)) (d := 0x3E) (by decide) (by decide) hr2
  exact h.2 L3 rfl

theorem esc_ok {ch : Nat} (h : ok ch) : ∀ d ∈ esc ch, ok d := by
  have a : ∀ l : List UInt8, (∀ d ∈ l, d < 0x80 ∧ XmlChar d.toNat) → ∀ d ∈ str l, ok d := by
    intro l hl d hd
    obtain ⟨e, he, rfl⟩ := List.mem_map.1 hd
    exact K.asciiOk (hl e he).2 (hl e he).1
  simp only [esc]
  split
  · exact a _ (by decide)
  · split
    · exact a _ (by decide)
    · split
      · exact a _ (by decide)
      · split
        · exact a _ (by decide)
        · simpa using h

theorem escAtt_ok {ch : Nat} (h : ok ch) : ∀ d ∈ escAtt ch, ok d := by
  have a : ∀ l : List UInt8, (∀ d ∈ l, d < 0x80 ∧ XmlChar d.toNat) → ∀ d ∈ str l, ok d := by
    intro l hl d hd
    obtain ⟨e, he, rfl⟩ := List.mem_map.1 hd
    exact K.asciiOk (hl e he).2 (hl e he).1
  simp only [escAtt]
  split
  · exact a _ (by decide)
  · split
    · exact a _ (by decide)
    · split
      · exact a _ (by decide)
      · exact esc_ok K h

theorem str_ok {l : List UInt8} (hl : ∀ d ∈ l, d < 0x80 ∧ XmlChar d.toNat) : ∀ d ∈ str l, ok d := by
  intro d hd
  obtain ⟨e, he, rfl⟩ := List.mem_map.1 hd
  exact K.asciiOk (hl e he).2 (hl e he).1

/-- All characters written are characters of the encoding. -/
theorem serialise_ok (f : Forest) (h : Ok ns ok f) : ∀ c ∈ serialise f, ok c := by
  have s {l : List UInt8} (hl : ∀ d ∈ l, d < 0x80 ∧ XmlChar d.toNat) := str_ok K hl
  have app : ∀ {a b : List Nat}, (∀ c ∈ a, ok c) → (∀ c ∈ b, ok c) → ∀ c ∈ a ++ b, ok c := by
    intro a b ha hb c hc
    rcases List.mem_append.1 hc with h | h
    · exact ha c h
    · exact hb c h
  induction f with
  | nil => simp [serialise]
  | text cs f ih =>
    refine app ?_ (ih h.2)
    intro d hd
    obtain ⟨c, hc, hd⟩ := List.mem_flatMap.1 hd
    exact esc_ok K (h.1 c hc) d hd
  | comment cs f ih => exact app (s (by decide)) (app h.1 (app (s (by decide)) (ih h.2.2.2)))
  | pi t d f ih => exact app (s (by decide)) (app h.1.2.1 (app (s (by decide)) (app h.2.1.1 (app (s (by decide)) (ih h.2.2)))))
  | elem n as inner f ih1 ih2 =>
    obtain ⟨h1, h2, h3, h4, h5⟩ := h
    refine app (s (by decide)) (app h1.2 (app ?_ (app (s (by decide)) (app (ih1 h4) (app (s (by decide)) (app h1.2 (app (s (by decide)) (ih2 h5))))))))
    intro d hd
    obtain ⟨p, hp, hd⟩ := List.mem_flatMap.1 hd
    obtain ⟨-, i2, -, i4⟩ := h3 p hp
    refine app (s (by decide)) (app i2 (app (s (by decide)) (app ?_ (s (by decide))))) d hd
    intro d hd
    obtain ⟨c, hc, hd⟩ := List.mem_flatMap.1 hd
    exact escAtt_ok K (i4 c hc) d hd

/-! ### Text -/

theorem predefined_text {n : List UInt8} (h : ∀ d ∈ n, d < 0x80) :
    C12.text enc (str (0x26 :: (n ++ [0x3B]))) = entityText asc (spell asc n) := by
  rw [text_str K (by simp only [List.mem_cons, List.mem_append, List.not_mem_nil, or_false]; rintro d (rfl | hd | rfl); decide; exact h d hd; decide)]
  simp [spell, entityText]

/-- An escaped character in content. -/
theorem esc_content {int : XEnc} {iasc : UInt8 → Buf} {opened : List Buf} {v : Env} {ch : Nat} {L : List Nat} {E : List Ev} {r : Buf} (h1 : ok ch)
    (hL : ∀ c ∈ L, ok c) (hs : Safe L) (h : Content c D int iasc x asc opened v (C12.text enc L) E r) :
    Content c D int iasc x asc opened v (C12.text enc (esc ch ++ L)) (textEvs (utf8 ch) ++ E) r := by
  rw [text_app]
  simp only [esc]
  split
  · rename_i e; subst e
    rw [show str [0x26, 0x6C, 0x74, 0x3B] = str (0x26 :: ([0x6C, 0x74] ++ [0x3B])) from rfl, predefined_text K (by decide)]
    exact .predefined (ch := 0x3C) (by decide) h
  · split
    · rename_i e; subst e
      rw [show str [0x26, 0x61, 0x6D, 0x70, 0x3B] = str (0x26 :: ([0x61, 0x6D, 0x70] ++ [0x3B])) from rfl, predefined_text K (by decide)]
      exact .predefined (ch := 0x26) (by decide) h
    · split
      · rename_i e; subst e
        rw [show str [0x26, 0x67, 0x74, 0x3B] = str (0x26 :: ([0x67, 0x74] ++ [0x3B])) from rfl, predefined_text K (by decide)]
        exact .predefined (ch := 0x3E) (by decide) h
      · split
        · rename_i e; subst e
          rw [text_str K (by decide)]
          have := Content.charRef (x := x) (asc := asc) (.dec [0x31, 0x33] (by decide) (by decide)) (by decide) h
          rw [show numeral 10 [0x31, 0x33] = 0x0D by decide] at this
          simpa [spell] using this
        · rename_i e1 e2 e3 e4
          rw [show C12.text enc [ch] = enc ch by simp [C12.text]]
          exact C35.lit_content K h1 e1 e2 e4 (safe_close K h1 hL hs) h

theorem escs_content {int : XEnc} {iasc : UInt8 → Buf} {opened : List Buf} {v : Env} {cs L : List Nat} {E : List Ev} {r : Buf} (h1 : ∀ c ∈ cs, ok c)
    (hL : ∀ c ∈ L, ok c) (hs : Safe L) (h : Content c D int iasc x asc opened v (C12.text enc L) E r) :
    Content c D int iasc x asc opened v (C12.text enc (cs.flatMap esc ++ L)) (textEvs (utf8s cs) ++ E) r := by
  induction cs with
  | nil => exact h
  | cons d cs ih =>
    have h2 : ∀ c ∈ cs, ok c := fun c hc => h1 c (by simp [hc])
    rw [List.flatMap_cons, List.append_assoc, C35.textEvs_cons, List.append_assoc]
    refine esc_content K (h1 d (by simp)) ?_ (escs_safe cs hs) (ih h2)
    intro e he
    rcases List.mem_append.1 he with he | he
    · obtain ⟨c, hc, hd⟩ := List.mem_flatMap.1 he
      exact esc_ok K (h2 c hc) e hd
    · exact hL e he

/-! ### Attributes -/

/-- An attribute value and its normalised form. -/
theorem escAtt_norm {int : XEnc} {check le : Bool} {op : List Buf} {ch : Nat} {b out : Buf} (h1 : ok ch) (h : C33.Norm D check int x asc le op b out) :
    C33.Norm D check int x asc le op (C12.text enc (escAtt ch) ++ b) (utf8 ch ++ out) := by
  have pre : ∀ (n : List UInt8) (d : UInt8), (n, d) ∈ C10.predefined → (∀ d ∈ n, d < 0x80) → d < 0x80 →
      C33.Norm D check int x asc le op (C12.text enc (str (0x26 :: (n ++ [0x3B]))) ++ b) (utf8 d.toNat ++ out) := by
    intro n d hm hn hd
    rw [predefined_text K hn, utf8_asc d hd]
    simpa [entityText] using C33.Norm.predefined n d hm h
  have dec : ∀ (ds : List UInt8), ds ≠ [] → (∀ d ∈ ds, isDec d = true ∧ d < 0x80) → XmlChar (numeral 10 ds) →
      C33.Norm D check int x asc le op (C12.text enc (str (0x26 :: 0x23 :: (ds ++ [0x3B]))) ++ b) (utf8 (numeral 10 ds) ++ out) := by
    intro ds h0 hd hx
    rw [text_str K (by
      simp only [List.mem_cons, List.mem_append, List.not_mem_nil, or_false]
      rintro d (rfl | rfl | hh | rfl)
      · decide
      · decide
      · exact (hd d hh).2
      · decide)]
    have := C33.Norm.dec ds h0 (fun d h => (hd d h).1) hx h
    simpa [spell] using this
  simp only [escAtt, esc]
  split
  · rename_i e; subst e; exact pre [0x71, 0x75, 0x6F, 0x74] 0x22 (by decide) (by decide) (by decide)
  · split
    · rename_i e; subst e; exact dec [0x39] (by decide) (by decide) (by decide)
    · split
      · rename_i e; subst e; exact dec [0x31, 0x30] (by decide) (by decide) (by decide)
      · split
        · rename_i e; subst e; exact pre [0x6C, 0x74] 0x3C (by decide) (by decide) (by decide)
        · split
          · rename_i e; subst e; exact pre [0x61, 0x6D, 0x70] 0x26 (by decide) (by decide) (by decide)
          · split
            · rename_i e; subst e; exact pre [0x67, 0x74] 0x3E (by decide) (by decide) (by decide)
            · split
              · rename_i e; subst e; exact dec [0x31, 0x33] (by decide) (by decide) (by decide)
              · rename_i e1 e2 e3 e4 e5 e6 e7
                rw [show C12.text enc [ch] = enc ch by simp [C12.text]]
                by_cases hsp : ch = 0x20
                · subst hsp
                  rw [show enc 0x20 = asc 0x20 from K.ascii 0x20 (by decide)]
                  exact .space 0x20 (.inl rfl) (fun _ h => absurd h (by decide)) h
                · rw [← K.conv1 h1]
                  refine .char _ (K.char h1) (K.ne_asc h1 (by decide) (by decide) e4) (K.ne_asc h1 (by decide) (by decide) e5) ?_ h
                  rintro c (rfl | rfl | rfl | rfl)
                  · exact K.ne_asc h1 (by decide) (by decide) hsp
                  · exact K.ne_asc h1 (by decide) (by decide) e2
                  · exact K.ne_asc h1 (by decide) (by decide) e3
                  · exact K.ne_asc h1 (by decide) (by decide) e7

theorem escAtts_norm {int : XEnc} {check le : Bool} {op : List Buf} {cs : List Nat} (h1 : ∀ c ∈ cs, ok c) :
    C33.Norm D check int x asc le op (C12.text enc (cs.flatMap escAtt)) (utf8s cs) := by
  induction cs with
  | nil => exact .nil
  | cons c cs ih =>
    rw [List.flatMap_cons, text_app, C51.utf8s_cons]
    exact escAtt_norm K (h1 c (by simp)) (ih fun c hc => h1 c (by simp [hc]))

/-- It is a value literal. -/
theorem escAtt_value {ch : Nat} {b : Buf} (h1 : ok ch) (h : Value x.e asc 0x22 b) : Value x.e asc 0x22 (C12.text enc (escAtt ch) ++ b) := by
  have pre : ∀ (n : List UInt8) (d : UInt8), (n, d) ∈ C10.predefined → (∀ d ∈ n, d < 0x80) →
      Value x.e asc 0x22 (C12.text enc (str (0x26 :: (n ++ [0x3B]))) ++ b) := by
    intro n d hm hn
    obtain ⟨ws, hw, he⟩ := C33.predef_name K.sup.s hm
    rw [predefined_text K hn]
    have := Value.ref (q := 0x22) _ _ _ (Ref.entity (asc := asc) ws hw) h
    simpa [entityText, he] using this
  have dec : ∀ (ds : List UInt8), ds ≠ [] → (∀ d ∈ ds, isDec d = true ∧ d < 0x80) →
      Value x.e asc 0x22 (C12.text enc (str (0x26 :: 0x23 :: (ds ++ [0x3B]))) ++ b) := by
    intro ds h0 hd
    rw [text_str K (by
      simp only [List.mem_cons, List.mem_append, List.not_mem_nil, or_false]
      rintro d (rfl | rfl | hh | rfl)
      · decide
      · decide
      · exact (hd d hh).2
      · decide)]
    have := Value.ref (q := 0x22) _ _ _ (Ref.dec (e := x.e) (asc := asc) ds h0 (fun d h => (hd d h).1)) h
    simpa [spell] using this
  simp only [escAtt, esc]
  split
  · exact pre [0x71, 0x75, 0x6F, 0x74] 0x22 (by decide) (by decide)
  · split
    · exact dec [0x39] (by decide) (by decide)
    · split
      · exact dec [0x31, 0x30] (by decide) (by decide)
      · split
        · exact pre [0x6C, 0x74] 0x3C (by decide) (by decide)
        · split
          · exact pre [0x61, 0x6D, 0x70] 0x26 (by decide) (by decide)
          · split
            · exact pre [0x67, 0x74] 0x3E (by decide) (by decide)
            · split
              · exact dec [0x31, 0x33] (by decide) (by decide)
              · rename_i e1 e2 e3 e4 e5 e6 e7
                rw [show C12.text enc [ch] = enc ch by simp [C12.text]]
                exact .char _ _ (K.char h1) (K.ne_asc h1 (by decide) (by decide) e4) (K.ne_asc h1 (by decide) (by decide) e5)
                  (K.ne_asc h1 (by decide) (by decide) e1) h

theorem escAtts_value {cs : List Nat} (h1 : ∀ c ∈ cs, ok c) : Value x.e asc 0x22 (C12.text enc (cs.flatMap escAtt)) := by
  induction cs with
  | nil => exact .nil
  | cons c cs ih =>
    rw [List.flatMap_cons, text_app]
    exact escAtt_value K (h1 c (by simp)) (ih fun c hc => h1 c (by simp [hc]))

omit K in
theorem is_name (N : Naming ns x enc ok) {n : List Nat} (h : IsName ns n) (hk : ∀ c ∈ n, ok c) : x.e.Name (n.map enc) := by
  obtain ⟨⟨ch, r, rfl, h1⟩, h2, h3⟩ := h
  have hne : ∀ d ∈ ch :: r, ns = true → d ≠ 0x3A := fun d hd hns e => h3 hns (e ▸ hd)
  refine ⟨enc ch, r.map enc, rfl, N.start (hk ch (by simp)) h1 (hne ch (by simp)), ?_⟩
  intro w hw
  obtain ⟨d, hd, rfl⟩ := List.mem_map.1 hw
  exact N.char (hk d (by simp [hd])) (h2 d (by simp [hd])) (hne d (by simp [hd]))

/-- The attribute as the grammar has it. -/
def src (enc : Nat → Buf) (p : List Nat × List Nat) : AttrSrc :=
  ⟨[0x20], p.1.map enc, [], [], 0x22, C12.text enc (p.2.flatMap escAtt)⟩

theorem src_text (p : List Nat × List Nat) : (src enc p).text asc = C12.text enc (attrText p) := by
  simp only [attrText, text_app, text_str K (show ∀ d ∈ [(0x20 : UInt8)], d < 0x80 by decide), text_str K (show ∀ d ∈ [(0x3D : UInt8), 0x22], d < 0x80 by decide),
    text_str K (show ∀ d ∈ [(0x22 : UInt8)], d < 0x80 by decide)]
  simp [src, AttrSrc.text, AttrSrc.tail, spell, C12.text]

theorem srcs_text (as : List (List Nat × List Nat)) : attsText asc (as.map (src enc)) = C12.text enc (as.flatMap attrText) := by
  induction as with
  | nil => rfl
  | cons p as ih =>
    rw [List.flatMap_cons, text_app, ← ih, ← src_text K]
    simp [attsText]

theorem src_valid (N : Naming ns x enc ok) {p : List Nat × List Nat} (h1 : IsName ns p.1) (h2 : ∀ c ∈ p.1, ok c) (h3 : ∀ c ∈ p.2, ok c) :
    (src enc p).Valid x.e asc where
  ws1 := by simp [src]
  ws := by intro d hd; simp only [src, List.mem_singleton] at hd; subst hd; rfl
  name := .plain _ (is_name N h1 h2)
  s1 := by intro d hd; simp [src] at hd
  s2 := by intro d hd; simp [src] at hd
  q := .inl rfl
  value := escAtts_value K h3

theorem src_values {et : ElemType} (he : et.atts = []) {int : XEnc} {opened : List Buf} {as : List (List Nat × List Nat)}
    (h : ∀ p ∈ as, (∀ c ∈ p.1, ok c) ∧ (∀ c ∈ p.2, ok c)) :
    C33.Values D int x asc opened et (as.map (src enc)) (as.map fun p => (utf8s p.1, utf8s p.2)) := by
  induction as with
  | nil => exact .nil
  | cons p as ih =>
    rw [List.map_cons, List.map_cons]
    have h1 := h p (by simp)
    have hn : converted x (src enc p).name.flatten = utf8s p.1 := K.conv h1.1
    rw [← hn]
    refine .cons ⟨_, escAtts_norm K h1.2, ?_⟩ (ih fun p hp => h p (by simp [hp]))
    simp [C33.typeCdata, he]

/-! ### Tags -/

omit K in
theorem chain_plain {int : XEnc} {op : List Buf} {et : ElemType} {b : Buf} (l : List Att) : ∀ {src : List (Buf × Buf)} {s : AState},
    C28.Written D int x op et b l src → (src.map (·.1)).Nodup → (∀ p ∈ src, s.flags p.1 = .unset) → (∀ p ∈ src, attKind c.ns p.1 = .plain) →
    ∃ f, chain (attOne c D int x op et b) s l = ([], .ok { s with flags := f, atts := s.atts ++ src }) := by
  induction l with
  | nil =>
    intro src s h1 h2 h3 h4
    have : src = [] := by have := h1.1; cases src <;> simp_all
    subst this
    exact ⟨s.flags, by simp [chain]⟩
  | cons a l ih =>
    intro src s h1 h2 h3 h4
    obtain ⟨e1, e2⟩ := h1
    cases src with
    | nil => cases e1
    | cons p src =>
      obtain ⟨n, v⟩ := p
      simp only [List.map_cons, List.cons.injEq] at e1 e2
      obtain ⟨rfl, e1⟩ := e1
      simp only [List.map_cons, List.nodup_cons] at h2
      have hk := h4 (attName x b a, v) (by simp)
      have hf := h3 (attName x b a, v) (by simp)
      simp only at hk hf
      have h5 : attOne c D int x op et b s a =
          ([], .ok { s with flags := setFlag s.flags (attName x b a) .normal, atts := s.atts ++ [(attName x b a, v)] }) := by
        simp only [attOne]
        rw [if_neg (by simp [hf]), e2.1]
        simp only [hk]
      obtain ⟨f, h6⟩ := ih (s := { s with flags := setFlag s.flags (attName x b a) .normal, atts := s.atts ++ [(attName x b a, v)] }) ⟨e1, e2.2⟩ h2.2
        (fun p hp => by
          simp only [setFlag]
          rw [if_neg (fun h : p.1 = attName x b a => h2.1 (h ▸ List.mem_map_of_mem (f := (·.1)) hp))]
          exact h3 p (by simp [hp])) (fun p hp => h4 p (by simp [hp]))
      refine ⟨f, ?_⟩
      rw [chain, h5]
      simp only [h6, List.nil_append, List.append_assoc, List.singleton_append]

omit K in
theorem expand_plain (env : Env) (l : List (Buf × Buf)) : ∀ (f : Buf → AFlag) (seen : List Buf), ∃ g, expandNames c env 0 f seen l = .ok (l, g) := by
  induction l with
  | nil => intro f seen; exact ⟨f, rfl⟩
  | cons p l ih =>
    intro f seen
    obtain ⟨g, h⟩ := ih (setFlag f p.1 .unset) seen
    exact ⟨g, by rw [expandNames]; simp [h]⟩

/-- Tags with plain attributes only. -/
theorem stored {inn : Bool} (hD : C33.TextsOk D (internalUtf8X inn)) (hel : D.elems = []) {op : List Buf} {env : Env} {raw : Buf}
    {name : List Buf} (hn : QName x.e asc name) {as : List AttrSrc} (ha : ∀ a ∈ as, a.Valid x.e asc) {src : List (Buf × Buf)}
    (hv : C33.Values D (internalUtf8X inn) x asc op (D.elem raw) as src) (hnd : (src.map (·.1)).Nodup)
    (hk : ∀ p ∈ src, attKind c.ns p.1 = .plain) (he : elemName c env raw = .ok ⟨raw, none⟩) :
    ∃ t, storeAtts c D (internalUtf8X inn) x op (fun _ => .unset) env raw (tagText asc name as [] false) = ([], .ok t) ∧
      t.name = ⟨raw, none⟩ ∧ t.atts = src ∧ t.specified = src.length ∧ t.idIndex = none ∧ t.env = env ∧ t.binds = [] := by
  have hel' : D.elem raw = ⟨[], none⟩ := by simp [Dtd.elem, hel]
  have hf : C33.FlagsOk D := by intro raw d hd; simp [Dtd.elem, hel] at hd
  have hw := (C33.tag_values K.sup hD hf op raw hn ha (ws := []) (by simp [AllWS]) false src).2 hv
  obtain ⟨f, h1⟩ := chain_plain (c := c) _ (s := ⟨[], fun _ => .unset, env, [], 0⟩) hw hnd (fun _ _ => rfl) hk
  obtain ⟨g, h2⟩ := expand_plain (c := c) env src f []
  refine ⟨⟨src, src.length, none, g, env, [], ⟨raw, none⟩⟩, ?_, rfl, rfl, rfl, rfl, rfl, rfl⟩
  rw [storeAtts, tagText]
  simp only [h1]
  rw [hel']
  simp only [chain, List.nil_append, h2, he, List.append_nil, List.foldl_nil]

omit K in
theorem splitColon_none {b : Buf} (h : (0x3A : UInt8) ∉ b) : splitColon b = none := by
  induction b with
  | nil => rfl
  | cons c b ih =>
    simp only [List.mem_cons, not_or] at h
    rw [splitColon, if_neg (fun e => h.1 e.symm), ih h.2]; rfl

omit K in
/-- ASCII bytes occur in UTF-8 only for themselves. -/
theorem utf8_byte {ch : Nat} {d : UInt8} (hc : XmlChar ch) (hd : d < 0x80) (h : d ∈ utf8 ch) : ch = d.toNat := by
  have hc := xmlChar_lt hc
  have hd : d.toNat < 0x80 := hd
  have e : ∀ {a : Nat}, a < 256 → d = UInt8.ofNat a → d.toNat = a := by
    intro a ha h; rw [h]; exact toNat_ofNat ha
  simp only [utf8] at h
  split at h
  · simp only [List.mem_singleton] at h
    exact (e (by omega) h).symm
  · split at h
    · simp only [List.mem_cons, List.not_mem_nil, or_false] at h
      rcases h with h | h <;> (have := e (by omega) h; omega)
    · split at h
      · simp only [List.mem_cons, List.not_mem_nil, or_false] at h
        rcases h with h | h | h <;> (have := e (by omega) h; omega)
      · simp only [List.mem_cons, List.not_mem_nil, or_false] at h
        rcases h with h | h | h | h <;> (have := e (by omega) h; omega)

omit K in
theorem utf8s_byte {cs : List Nat} {d : UInt8} (hc : ∀ c ∈ cs, XmlChar c) (hd : d < 0x80) (h : d ∈ utf8s cs) : d.toNat ∈ cs := by
  simp only [utf8s, List.mem_flatten, List.mem_map] at h
  obtain ⟨l, ⟨c, hc', rfl⟩, h⟩ := h
  rw [← utf8_byte (hc c hc') hd h]; exact hc'

omit K in
theorem kind_plain {n : List Nat} (hc : ∀ c ∈ n, XmlChar c) (h1 : ns = true → 0x3A ∉ n) (h2 : ns = true → n ≠ str xmlnsName) : attKind ns (utf8s n) = .plain := by
  cases ns with
  | false => rfl
  | true =>
    have hcol : (0x3A : UInt8) ∉ utf8s n := fun h => h1 rfl (utf8s_byte hc (by decide) h)
    rw [attKind, if_neg (by simp), if_neg, if_neg]
    · rw [splitColon_none hcol]
    · intro h
      refine hcol (List.mem_of_mem_take (i := 6) ?_)
      rw [h]; simp
    · intro h
      refine h2 rfl (C35.utf8s_inj hc ?_ ?_)
      · decide
      · rw [h]; decide

omit K in
theorem elem_plain {env : Env} (he : env none = none) {n : List Nat} (hc : ∀ c ∈ n, XmlChar c) (h1 : c.ns = true → 0x3A ∉ n) :
    elemName c env (utf8s n) = .ok ⟨utf8s n, none⟩ := by
  rw [elemName]
  cases hns : c.ns with
  | false => rfl
  | true =>
    rw [splitColon_none (fun h => h1 hns (utf8s_byte hc (by decide) h)), he]
    rfl

theorem start_tag (N : Naming c.ns x enc ok) {inn : Bool} (hD : C33.TextsOk D (internalUtf8X inn)) (hel : D.elems = []) {op : List Buf} {env : Env}
    (henv : env none = none) {n : List Nat} {as : List (List Nat × List Nat)} (h1 : IsName c.ns n ∧ ∀ c ∈ n, ok c) (h2 : (as.map (·.1)).Nodup)
    (h3 : ∀ p ∈ as, IsName c.ns p.1 ∧ (∀ c ∈ p.1, ok c) ∧ (c.ns = true → p.1 ≠ str xmlnsName) ∧ (∀ c ∈ p.2, ok c)) :
    QName x.e asc (n.map enc) ∧ (∀ a ∈ as.map (src enc), a.Valid x.e asc) ∧
    ∃ t, storeAtts c D (internalUtf8X inn) x op (fun _ => .unset) env (converted x (n.map enc).flatten)
        (tagText asc (n.map enc) (as.map (src enc)) [] false) = ([], .ok t) ∧
      t.name = ⟨utf8s n, none⟩ ∧ t.atts = (as.map fun p => (utf8s p.1, utf8s p.2)) ∧ t.specified = as.length ∧ t.idIndex = none ∧
      t.env = env ∧ t.binds = [] := by
  have hq : QName x.e asc (n.map enc) := .plain _ (is_name N h1.1 h1.2)
  have hv : ∀ a ∈ as.map (src enc), a.Valid x.e asc := by
    intro a ha
    obtain ⟨p, hp, rfl⟩ := List.mem_map.1 ha
    obtain ⟨i1, i2, -, i4⟩ := h3 p hp
    exact src_valid K N i1 i2 i4
  refine ⟨hq, hv, ?_⟩
  rw [show converted x (n.map enc).flatten = utf8s n from K.conv h1.2]
  have hel' : D.elem (utf8s n) = ⟨[], none⟩ := by simp [Dtd.elem, hel]
  obtain ⟨t, i1, i2, i3, i4, i5, i6, i7⟩ := stored (c := c) (src := as.map fun p => (utf8s p.1, utf8s p.2)) (op := op) (env := env) (raw := utf8s n) K hD hel hq hv
    (src_values K (by rw [hel']) fun p hp => ⟨(h3 p hp).2.1, (h3 p hp).2.2.2⟩) (by
      rw [List.map_map]
      have : List.map ((fun p : Buf × Buf => p.1) ∘ fun p : List Nat × List Nat => (utf8s p.1, utf8s p.2)) as = (as.map (·.1)).map utf8s := by simp
      rw [this]
      refine List.pairwise_map.2 (List.Pairwise.imp_of_mem ?_ h2)
      intro a b ha hb hne e
      obtain ⟨p, hp, rfl⟩ := List.mem_map.1 ha
      obtain ⟨q, hq, rfl⟩ := List.mem_map.1 hb
      exact hne (C35.utf8s_inj (fun c hc => K.xml ((h3 p hp).2.1 c hc)) (fun c hc => K.xml ((h3 q hq).2.1 c hc)) e))
    (by
      intro p hp
      obtain ⟨q, hq, rfl⟩ := List.mem_map.1 hp
      obtain ⟨j1, j2, j3, -⟩ := h3 q hq
      exact kind_plain (fun c hc => K.xml (j2 c hc)) j1.2.2 j3)
    (elem_plain henv (fun c hc => K.xml (h1.2 c hc)) h1.1.2.2)
  exact ⟨t, i1, i2, i3, by rw [i4, List.length_map], i5, i6, i7⟩

/-! ### Nodes -/

theorem pair_enc {L : List Nat} {a b : UInt8} (ha : a < 0x80) (hb : b < 0x80) (xa : XmlChar a.toNat) (xb : XmlChar b.toNat) (h : ∀ c ∈ L, ok c)
    (hp : NoPair a.toNat b.toNat (L ++ [a.toNat])) : NoPair (asc a) (asc b) (L.map enc ++ [asc a]) := by
  have e : L.map enc ++ [asc a] = (L ++ [a.toNat]).map enc := by simp [K.ascii a ha]
  have h' : ∀ c ∈ L ++ [a.toNat], ok c := by
    intro c hc
    rcases List.mem_append.1 hc with hc | hc
    · exact h c hc
    · rw [List.mem_singleton] at hc; subst hc; exact K.asciiOk xa ha
  rw [e]
  generalize L ++ [a.toNat] = M at *
  clear e h
  induction M with
  | nil => trivial
  | cons c M ih =>
    cases M with
    | nil => trivial
    | cons d M =>
      refine ⟨fun hh => hp.1 ⟨K.eq_asc (h' c (by simp)) ha xa hh.1, K.eq_asc (h' d (by simp)) hb xb hh.2⟩, ih hp.2 fun c hc => h' c (by simp [hc])⟩

omit K in
theorem no_cr {cs : List Nat} (h : ∀ c ∈ cs, XmlChar c) (hn : 0x0D ∉ cs) : C14.lineEnds (utf8s cs) = utf8s cs :=
  C14.lineEnds_id fun hh => hn (utf8s_byte h (by decide) hh)

omit K in
theorem no_nul {cs : List Nat} (h : ∀ c ∈ cs, XmlChar c) : cstr (utf8s cs) = utf8s cs := by
  have h0 : (0 : UInt8) ∉ utf8s cs := fun hd => absurd (h _ (utf8s_byte h (by decide) hd)) (by decide)
  rw [cstr]
  generalize utf8s cs = b at h0
  induction b with
  | nil => rfl
  | cons d b ih =>
    simp only [List.mem_cons, not_or] at h0
    rw [List.takeWhile_cons_of_pos (by simpa using fun e => h0.1 e.symm), ih h0.2]

theorem forest_content (N : Naming c.ns x enc ok) {inn : Bool} (hD : C33.TextsOk D (internalUtf8X inn)) (hel : D.elems = []) {op : List Buf} {v : Env}
    (henv : v none = none) (f : Forest) : Ok c.ns ok f → ∀ {L : List Nat}, (∀ c ∈ L, ok c) → Safe L →
    Content c D (internalUtf8X inn) asc1 x asc op v (C12.text enc (serialise f ++ L)) (events f) (C12.text enc L) := by
  have S {ds : List UInt8} (h : ∀ d ∈ ds, d < 0x80) := text_str K h
  induction f with
  | nil => intro _ L _ _; exact .nil _
  | text cs f ih =>
    intro h L hL hs
    rw [serialise, List.append_assoc]
    refine escs_content K h.1 ?_ (serialise_safe f hs) (ih h.2 hL hs)
    intro d hd
    rcases List.mem_append.1 hd with hd | hd
    · exact serialise_ok K f h.2 d hd
    · exact hL d hd
  | comment cs f ih =>
    intro h L hL hs
    obtain ⟨h1, h2, h3, h4⟩ := h
    have i := ih h4 hL hs
    have j := Content.comment (ws := cs.map enc) ⟨K.chars h1, pair_enc K (by decide) (by decide) (by decide) (by decide) h1 h3⟩ i
    rw [show converted x (cs.map enc).flatten = utf8s cs from K.conv h1, no_cr (fun c hc => K.xml (h1 c hc)) h2] at j
    have e : C12.text enc (serialise (.comment cs f) ++ L) = commentText asc (cs.map enc) ++ C12.text enc (serialise f ++ L) := by
      simp only [serialise, text_app, S (show ∀ d ∈ [(0x3C : UInt8), 0x21, 0x2D, 0x2D], d < 0x80 by decide),
        S (show ∀ d ∈ [(0x2D : UInt8), 0x2D, 0x3E], d < 0x80 by decide), commentText, List.append_assoc]
      rfl
    rw [e]; exact j
  | pi t d f ih =>
    intro h L hL hs
    obtain ⟨⟨h1, h2, h3⟩, ⟨h4, h5, h6, h7⟩, h8⟩ := h
    have i := ih h8 hL hs
    have j := Content.pi (target := t.map enc) (sp := [0x20]) (ws := d.map enc)
      ⟨is_name N h1 h2, ?_, by intro d hd; simp only [List.mem_singleton] at hd; subst hd; rfl, by simp, K.chars h4,
        pair_enc K (by decide) (by decide) (by decide) (by decide) h4 h6, ?_⟩ i
    · rw [show converted x (t.map enc).flatten = utf8s t from K.conv h2, show converted x (d.map enc).flatten = utf8s d from K.conv h4,
        no_cr (fun c hc => K.xml (h4 c hc)) h5, no_nul (fun c hc => K.xml (h2 c hc))] at j
      have e : C12.text enc (serialise (.pi t d f) ++ L) = piText asc (t.map enc) [0x20] (d.map enc) ++ C12.text enc (serialise f ++ L) := by
        simp only [serialise, text_app, S (show ∀ d ∈ [(0x3C : UInt8), 0x3F], d < 0x80 by decide), S (show ∀ d ∈ [(0x20 : UInt8)], d < 0x80 by decide),
          S (show ∀ d ∈ [(0x3F : UInt8), 0x3E], d < 0x80 by decide), piText, List.append_assoc]
        rfl
      rw [e]; exact j
    · rintro ⟨cs, hc, he⟩
      refine h3 ⟨cs, hc, ?_⟩
      obtain ⟨p, q, r, rfl, hp, hq, hr⟩ := hc
      have hlt : ∀ d ∈ [p, q, r], d < 0x80 ∧ XmlChar d.toNat := by
        simp only [List.mem_cons, List.not_mem_nil, or_false]
        rintro d (rfl | rfl | rfl)
        · rcases hp with rfl | rfl <;> decide
        · rcases hq with rfl | rfl <;> decide
        · rcases hr with rfl | rfl <;> decide
      rw [← S fun d hd => (hlt d hd).1] at he
      have := congrArg (converted x) he
      rw [show converted x (t.map enc).flatten = utf8s t from K.conv h2, K.conv (str_ok K hlt)] at this
      exact C35.utf8s_inj (fun c hc => K.xml (h2 c hc)) (fun c hc => K.xml (str_ok K hlt c hc)) this
    · intro ch hch hh
      cases d with
      | nil => simp at hh
      | cons e d =>
        simp only [List.map_cons, List.head?_cons, Option.some.injEq] at hh
        have hlt : ch < 0x80 ∧ XmlChar ch.toNat := by
          rcases (C33.isWS_iff ch).1 hch with rfl | rfl | rfl | rfl <;> decide
        exact h7 ch hch (by rw [List.head?_cons, K.eq_asc (h4 e (by simp)) hlt.1 hlt.2 hh])
  | elem n as inner f ih1 ih2 =>
    intro h L hL hs
    obtain ⟨h1, h2, h3, h4, h5⟩ := h
    obtain ⟨hq, hv, t, i1, i2, i3, i4, i5, i6, i7⟩ := start_tag (op := op) K N hD hel henv h1 h2 h3
    have ok2 : ∀ d ∈ str [0x3C, 0x2F] ++ (n ++ (str [0x3E] ++ (serialise f ++ L))), ok d := by
      intro d hd
      simp only [List.mem_append] at hd
      rcases hd with hd | hd | hd | hd | hd
      · exact str_ok K (by decide) d hd
      · exact h1.2 d hd
      · exact str_ok K (by decide) d hd
      · exact serialise_ok K f h5 d hd
      · exact hL d hd
    have j1 := ih1 h4 ok2 (safe_lt (str [0x2F] ++ (n ++ (str [0x3E] ++ (serialise f ++ L)))))
    have j2 := ih2 h5 hL hs
    have e2 : C12.text enc (str [0x3C, 0x2F] ++ (n ++ (str [0x3E] ++ (serialise f ++ L)))) =
        endText asc (n.map enc).flatten [] ++ C12.text enc (serialise f ++ L) := by
      simp only [text_app, S (show ∀ d ∈ [(0x3C : UInt8), 0x2F], d < 0x80 by decide), S (show ∀ d ∈ [(0x3E : UInt8)], d < 0x80 by decide), endText]
      simp [spell, C12.text]
    rw [e2, ← i6] at j1
    rw [← i6] at j2
    rw [← i6] at i1
    have j := Content.element (ws := []) (sp := []) hq hv (by simp [AllWS]) (by simp [AllWS]) i1 j1 j2
    have e : C12.text enc (serialise (.elem n as inner f) ++ L) = tagText asc (n.map enc) (as.map (src enc)) [] false ++
        C12.text enc (serialise inner ++ (str [0x3C, 0x2F] ++ (n ++ (str [0x3E] ++ (serialise f ++ L))))) := by
      rw [tagText, srcs_text K]
      simp only [serialise, text_app, S (show ∀ d ∈ [(0x3C : UInt8)], d < 0x80 by decide), S (show ∀ d ∈ [(0x3E : UInt8)], d < 0x80 by decide), List.append_assoc]
      simp [spell, C12.text, closeText]
    rw [e, ← i6]
    have hfull : t.name.full c = utf8s n := by rw [i2]; rfl
    rw [hfull, i3, i4, i5, i7] at j
    simpa [events] using j

/-- **C48.**  A tree written in the obvious way in any of the encodings, and cut into pieces in any way, is parsed into
the events of the tree. -/
theorem round_trip (a : AllSet c) (N : Naming c.ns x enc ok) {inn : Bool} (hD : C33.TextsOk D (internalUtf8X inn)) (hel : D.elems = [])
    {n : List Nat} {as : List (List Nat × List Nat)} {inner : Forest} (h : Ok c.ns ok (.elem n as inner .nil))
    (xs : List Buf) (hx : xs.flatten = C12.text enc (serialise (.elem n as inner .nil))) :
    ∃ F s r, feed (parser c D (internalUtf8X inn) x) x.e CState.init [] xs = (F, .ok s r) ∧ flat F = events (.elem n as inner .nil) := by
  have hd : x.e.mb ∣ xs.flatten.length := by rw [hx]; exact K.dvd (serialise_ok K _ h)
  refine C55.accepted K.sup a (.internalUtf8 inn) rfl xs hd ?_
  rw [hx]
  obtain ⟨h1, h2, h3, h4, -⟩ := h
  have S {ds : List UInt8} (h : ∀ d ∈ ds, d < 0x80) := text_str K h
  have henv : rootEnv none = none := rfl
  obtain ⟨hq, hv, t, i1, i2, i3, i4, i5, i6, i7⟩ := start_tag (op := []) K N hD hel henv h1 h2 h3
  have ok2 : ∀ d ∈ str [0x3C, 0x2F] ++ (n ++ (str [0x3E] ++ [])), ok d := by
    intro d hd
    simp only [List.mem_append, List.not_mem_nil, or_false] at hd
    rcases hd with hd | hd | hd
    · exact str_ok K (by decide) d hd
    · exact h1.2 d hd
    · exact str_ok K (by decide) d hd
  have j1 := forest_content (op := []) K N hD hel henv inner h4 ok2 (safe_lt (str [0x2F] ++ (n ++ (str [0x3E] ++ []))))
  have e2 : C12.text enc (str [0x3C, 0x2F] ++ (n ++ (str [0x3E] ++ []))) = endText asc (n.map enc).flatten [] ++ [] := by
    simp only [text_app, S (show ∀ d ∈ [(0x3C : UInt8), 0x2F], d < 0x80 by decide), S (show ∀ d ∈ [(0x3E : UInt8)], d < 0x80 by decide), endText]
    simp [spell, C12.text]
  rw [e2, ← i6] at j1
  have j := Document.element (ws := []) (sp := []) hq hv (by simp [AllWS]) (by simp [AllWS]) i1 j1 .nil
  have e : C12.text enc (serialise (.elem n as inner .nil)) = tagText asc (n.map enc) (as.map (src enc)) [] false ++
      C12.text enc (serialise inner ++ (str [0x3C, 0x2F] ++ (n ++ (str [0x3E] ++ [])))) := by
    rw [tagText, srcs_text K]
    simp only [serialise, text_app, S (show ∀ d ∈ [(0x3C : UInt8)], d < 0x80 by decide), S (show ∀ d ∈ [(0x3E : UInt8)], d < 0x80 by decide), List.append_assoc]
    simp [spell, C12.text, closeText]
  rw [e]
  have hfull : t.name.full c = utf8s n := by rw [i2]; rfl
  rw [hfull, i3, i4, i5, i7] at j
  simpa [events] using j
end

/-! ### Non-vacuity -/

/-- `<r é="1&#9;&quot;"><!--a-b-->]]&gt;<p/><?t d?></r>`, where `<p/>` is written `<p></p>` -/
private def tree : Forest := .elem [0x72] [([0xE9], [0x31, 0x09, 0x22])]
  (.comment [0x61, 0x2D, 0x62] (.text [0x5D, 0x5D, 0x3E, 0x1F600] (.elem [0x70] [] .nil (.pi [0x74] [0x64] .nil)))) .nil

private theorem isName1 {ch : Nat} (h : (rangeBits nameStart).testBit ch = true) (h' : (rangeBits nameChar).testBit ch = true) (h3 : ch ≠ 0x3A) (ns : Bool) :
    IsName ns [ch] :=
  ⟨⟨ch, [], rfl, (rangeBits_spec _ _).1 h⟩, fun d hd => by rw [List.mem_singleton] at hd; rw [hd]; exact (rangeBits_spec _ _).1 h',
    fun _ h => h3 (List.mem_singleton.1 h).symm⟩

private theorem tree_ok (ns : Bool) : Ok ns XmlChar tree := by
  refine ⟨⟨isName1 (by decide +kernel) (by decide +kernel) (by decide) ns, by decide⟩, by decide, ?_,
    ⟨by decide, by decide, ⟨by decide, by decide, by decide, trivial⟩, by decide, ⟨⟨isName1 (by decide +kernel) (by decide +kernel) (by decide) ns, by decide⟩, by decide, by simp, trivial,
      ⟨⟨isName1 (by decide +kernel) (by decide +kernel) (by decide) ns, by decide, ?_⟩, ⟨by decide, by decide, ⟨by decide, trivial⟩, ?_⟩, trivial⟩⟩⟩, trivial⟩
  · intro p hp
    rw [List.mem_singleton] at hp
    subst hp
    exact ⟨isName1 (by decide +kernel) (by decide +kernel) (by decide) ns, by decide, by intro _; decide, by decide⟩
  · rintro ⟨cs, ⟨a, b, c, rfl, -⟩, h⟩
    simp [str] at h
  · intro c hc
    rcases (C33.isWS_iff c).1 hc with rfl | rfl | rfl | rfl <;> decide

/-- In UTF-16LE, byte by byte, with namespaces. -/
example : ∃ F s r, feed (parser { ns := true } default (internalUtf8X true) (little2X true)) (little2X true).e CState.init []
    ((C12.text C12.utf16le (serialise tree)).map fun d => [d]) = (F, .ok s r) ∧
    flat F = .startElement [0x72] [([0xC3, 0xA9], [0x31, 0x09, 0x22])] 1 none :: .comment [0x61, 0x2D, 0x62] ::
      ((utf8s [0x5D, 0x5D, 0x3E, 0x1F600]).map (fun d => .chars [d]) ++
        [.startElement [0x70] [] 0 none, .endElement [0x70], .pi [0x74] [0x64], .endElement [0x72]]) := by
  have hfl : ∀ b : Buf, (b.map fun d => [d]).flatten = b := by
    intro b; induction b with
    | nil => rfl
    | cons d b ih => rw [List.map_cons, List.flatten_cons, ih]; rfl
  obtain ⟨F, s, r, h1, h2⟩ := round_trip (c := { ns := true }) (D := default) (Coding.utf16le true) (by constructor <;> rfl) (Naming.utf16le true) (inn := true)
    (by intro n ent t h; cases h) rfl (tree_ok true) _ (hfl _)
  exact ⟨F, s, r, h1, h2.trans (by decide +kernel)⟩

end Verif.C48
