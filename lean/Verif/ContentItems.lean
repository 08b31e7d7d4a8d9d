import Verif.ContentRuns

/-! What the parser does for each construct of the grammar of content. -/

set_option autoImplicit false

namespace Verif
open C43 C53 Spec C04

/-! ### Name-start characters are name characters -/

theorem pages_sub : ∀ h < 256, ∀ i < 8,
    Tables.namingBitmap.getD ((Tables.nmstrtPages.getD h 0 <<< 3) + i) 0 &&&
      Tables.namingBitmap.getD ((Tables.namePages.getD h 0 <<< 3) + i) 0 =
        Tables.namingBitmap.getD ((Tables.nmstrtPages.getD h 0 <<< 3) + i) 0 := by decide +kernel

theorem pages_bit {h i b : Nat} (hh : h < 256) (hi : i < 8)
    (hb : (Tables.namingBitmap.getD ((Tables.nmstrtPages.getD h 0 <<< 3) + i) 0).testBit b = true) :
    (Tables.namingBitmap.getD ((Tables.namePages.getD h 0 <<< 3) + i) 0).testBit b = true := by
  rw [← pages_sub h hh i hi, Nat.testBit_and, Bool.and_eq_true] at hb
  exact hb.2

theorem ucs2_sub {hi lo : Nat} (h1 : hi < 256) (h2 : lo < 256) (h : ucs2Naming Tables.nmstrtPages hi lo = true) :
    ucs2Naming Tables.namePages hi lo = true :=
  pages_bit h1 (by rw [Nat.shiftRight_eq_div_pow]; omega) h

theorem utf8_sub {n : Nat} {b : Buf} (h : utf8Naming Tables.nmstrtPages n b = true) : utf8Naming Tables.namePages n b = true := by
  match n with
  | 0 | 1 => cases h
  | 2 =>
    rw [utf8Naming, utf8Naming2, Nat.add_assoc] at h ⊢
    refine pages_bit ?_ ?_ h
    · exact Nat.lt_of_le_of_lt Nat.and_le_right (by decide)
    · have h1 : (byteAt b 0).toNat &&& 3 ≤ 3 := Nat.and_le_right
      have h2 : (byteAt b 1).toNat >>> 5 &&& 1 ≤ 1 := Nat.and_le_right
      rw [Nat.shiftLeft_eq]; omega
  | 3 =>
    rw [utf8Naming, utf8Naming3, Nat.add_assoc] at h ⊢
    refine pages_bit ?_ ?_ h
    · have h1 : (byteAt b 0).toNat &&& 0xf ≤ 0xf := Nat.and_le_right
      have h2 : (byteAt b 1).toNat >>> 2 &&& 0xf ≤ 0xf := Nat.and_le_right
      rw [Nat.shiftLeft_eq]; omega
    · have h1 : (byteAt b 1).toNat &&& 3 ≤ 3 := Nat.and_le_right
      have h2 : (byteAt b 2).toNat >>> 5 &&& 1 ≤ 1 := Nat.and_le_right
      rw [Nat.shiftLeft_eq]; omega
  | n + 4 => cases h

theorem nmstrt_nameChar {e : Enc} {asc : UInt8 → Buf} (s : Supported e asc) {w : Buf} (h : e.NmstrtChar w) : e.NameChar w := by
  have h1 : ∀ n, e.isNmstrt n w = true → e.isName n w = true := by
    cases s <;> intro n h <;> first | exact utf8_sub h | cases h
  have h2 : e.isNmstrtMin w = true → e.isNameMin w = true := by
    cases s <;> intro h <;> first | exact ucs2_sub (UInt8.toNat_lt _) (UInt8.toNat_lt _) h | cases h
  simp only [Enc.NmstrtChar, Enc.NameChar] at *
  generalize e.bt w = t at *
  cases t <;> simp only at h ⊢ <;> first | exact h | exact ⟨h.1, h1 _ h.2⟩ | exact ⟨h.1, h2 h.2⟩

section
variable {c : Cfg} {D : Dtd} {int x : XEnc} {asc : UInt8 → Buf} {k : Nat} {opened : List Buf} {start : Nat}

theorem markup_verdict {e : Enc} {t : Tok} {w : Buf} (h : Markup e asc t w) : Mode.verdict .content t = .act := by
  cases h with
  | ref h => cases h <;> rfl
  | @tag name as ws empty => cases empty <;> cases as <;> rfl
  | endTag => rfl
  | comment => rfl
  | pi _ _ h => rcases pi_tok h with rfl | rfl <;> rfl
  | cdata => rfl

theorem flat_one {v : Ev} (h : ∀ s, v ≠ .chars s) (h' : ∀ s, v ≠ .dflt s) : flat [v] = [v] := by
  cases v <;> simp_all [flat, slice]

theorem flat_id {E : List Ev} (h : ∀ v ∈ E, (∀ s, v ≠ .chars s) ∧ ∀ s, v ≠ .dflt s) : flat E = E := by
  induction E with
  | nil => rfl
  | cons v E ih =>
    rw [show v :: E = [v] ++ E from rfl, flat_append, flat_one (h v (by simp)).1 (h v (by simp)).2,
      ih fun u hu => h u (by simp [hu])]

theorem flat_text (bs : Buf) : flat [.chars bs] = textEvs bs := by simp [flat, slice, textEvs]

variable (S : XSupported x asc) (a : AllSet c)
include S

theorem run_markup {s s' : CState} (hm : s.mode = .content) {t : Tok} {w b : Buf} {E : List Ev} (h : Markup x.e asc t w)
    (hd : x.e.mb ∣ (w ++ b).length) (ha : (sem c D int k x opened start).act s t w = (E, .ok s')) :
    run (sem c D int k x opened start) x.e false false s (w ++ b) =
      pre E (run (sem c D int k x opened start) x.e false false s' b) := by
  rw [run_act (n := w.length) (E := E) (s' := s') (t := t), List.drop_left' rfl]
  · rw [hm]; exact content_complete S.s h b hd
  · rw [hm]; exact markup_verdict h
  · rw [List.take_left' rfl]; exact ha

theorem run_markup_err {s : CState} (hm : s.mode = .content) {t : Tok} {w b : Buf} {E : List Ev} {err : XErr}
    (h : Markup x.e asc t w) (hd : x.e.mb ∣ (w ++ b).length)
    (ha : (sem c D int k x opened start).act s t w = (E, .error err)) :
    run (sem c D int k x opened start) x.e false false s (w ++ b) = (E, .err err) := by
  rw [run_act_err (n := w.length) (E := E) (t := t)]
  · rw [hm]; exact content_complete S.s h b hd
  · rw [hm]; exact markup_verdict h
  · rw [List.take_left' rfl]; exact ha

theorem markup_dvd {t : Tok} {w b : Buf} (h : Markup x.e asc t w) (hd : x.e.mb ∣ (w ++ b).length) :
    x.e.mb ∣ w.length ∧ x.e.mb ∣ b.length := by
  have h1 := Mode.tok_dvd S.s.mb S.s.even .content (w ++ b)
  rw [show Mode.tok .content x.e (w ++ b) = contentTok x.e (w ++ b) from rfl, content_complete S.s h b hd] at h1
  exact ⟨h1, dvd_rest S h1 hd⟩

theorem markup_pos {t : Tok} {w : Buf} (h : Markup x.e asc t w) : 0 < w.length := by
  have l := S.s.asc.len
  have hp : 0 < x.e.mb := Nat.succ_pos _
  cases h <;> simp only [spell, List.map_cons, List.cons_append, List.flatten_cons, List.length_append, l] <;> omega

/-! ### References -/

theorem charRef_markup {w : Buf} {n : Nat} (h : CharRefText asc w n) : Markup x.e asc .CHAR_REF w := by
  cases h with
  | dec ds h1 h2 => exact .ref (.dec ds h1 h2)
  | hex ds h1 h2 => exact .ref (.hex ds h1 h2)

theorem charRef_value {w : Buf} {n : Nat} (h : CharRefText asc w n) :
    charRefNumber x.e w = if XmlChar n then (n : Int) else -1 := by
  cases h with
  | dec ds h1 h2 =>
    have h := C09.charRef_dec S.s ds h1 h2 []
    rw [List.append_nil] at h; exact h
  | hex ds h1 h2 =>
    have h := C09.charRef_hex S.s ds h2 []
    rw [List.append_nil] at h; exact h

omit S in
theorem charRef_of {w : Buf} (h : Ref x.e asc .CHAR_REF w) : ∃ n, CharRefText asc (asc 0x26 ++ w) n := by
  cases h with
  | dec ds h1 h2 => exact ⟨_, .dec ds h1 h2⟩
  | hex ds h1 h2 => exact ⟨_, .hex ds h1 h2⟩

omit S in
theorem xmlChar_lt {n : Nat} (h : XmlChar n) : n < 0x110000 := by simp only [XmlChar] at h; omega

include a in
theorem act_charRef (s : CState) {w : Buf} {n : Nat} (h : CharRefText asc w n) (hx : XmlChar n) :
    (sem c D int k x opened start).act s .CHAR_REF w = ([.chars (utf8 n)], .ok s) := by
  have hv := charRef_value S h
  rw [if_pos hx] at hv
  have : ¬ ((n : Int) < 0) := by omega
  cases k <;> simp [sem, semOf, act, hv, this, toChars, a.chars, C11.encode_spec n (xmlChar_lt hx)]

theorem act_charRef_bad (s : CState) {w : Buf} {n : Nat} (h : CharRefText asc w n) (hx : ¬ XmlChar n) :
    (sem c D int k x opened start).act s .CHAR_REF w = ([], .error .BAD_CHAR_REF) := by
  have hv := charRef_value S h
  rw [if_neg hx] at hv
  cases k <;> simp [sem, semOf, act, hv]

theorem refName_text {name : Buf} : refName x.e (entityText asc name) = name := by
  have l := S.s.asc.len
  rw [refName, entityText, drop_char (l _)]
  simp only [List.length_append, l]
  rw [show x.e.mb + (name.length + x.e.mb) - 2 * x.e.mb = name.length by omega, List.take_left' rfl]

theorem predefined_name {n : List UInt8} {ch : UInt8} (h : (n, ch) ∈ C10.predefined) : x.e.Name (n.map asc) := by
  have hall : ∀ d ∈ n, x.e.NmstrtChar (asc d) ∧ x.e.NameChar (asc d) := by
    have : ∀ d ∈ n, d ∈ [(0x6C : UInt8), 0x74, 0x67, 0x61, 0x6D, 0x70, 0x71, 0x75, 0x6F, 0x73] := by
      simp only [C10.predefined, List.mem_cons, Prod.mk.injEq, List.not_mem_nil, or_false] at h
      rcases h with ⟨rfl, -⟩ | ⟨rfl, -⟩ | ⟨rfl, -⟩ | ⟨rfl, -⟩ | ⟨rfl, -⟩ <;> decide
    intro d hd
    have h2 := this d hd
    clear this hd h
    simp only [List.mem_cons, List.not_mem_nil, or_false] at h2
    cases S <;> rename_i ns <;> cases ns <;>
      rcases h2 with rfl | rfl | rfl | rfl | rfl | rfl | rfl | rfl | rfl | rfl <;>
      exact ⟨rfl, rfl⟩
  cases n with
  | nil => simp [C10.predefined] at h
  | cons d n =>
    refine ⟨asc d, n.map asc, rfl, (hall d (by simp)).1, ?_⟩
    intro v hv
    obtain ⟨d', h1, rfl⟩ := List.mem_map.1 hv
    exact (hall d' (by simp [h1])).2

omit S in
theorem entity_markup {name : List Buf} (h : x.e.Name name) : Markup x.e asc .ENTITY_REF (entityText asc name.flatten) :=
  .ref (.entity name h)

theorem not_predefined {name : List Buf} (h : x.e.Name name) (hn : ¬ Predefined asc name.flatten) :
    predefinedEntityName x.e name.flatten = 0 := by
  refine Classical.byContradiction fun h0 => hn ?_
  obtain ⟨n, h1, h2⟩ := (C10.predefined_iff S.s _ (name_dvd S.s h) _ h0).1 rfl
  exact ⟨n, _, h1, h2⟩

theorem is_predefined {name : List UInt8} {ch : UInt8} (h : (name, ch) ∈ C10.predefined) :
    predefinedEntityName x.e (spell asc name) = ch := by
  refine (C10.predefined_iff S.s _ (name_dvd S.s (predefined_name S h)) _ ?_).2 ⟨name, h, rfl⟩
  simp only [C10.predefined, List.mem_cons, Prod.mk.injEq, List.not_mem_nil, or_false] at h
  rcases h with ⟨-, rfl⟩ | ⟨-, rfl⟩ | ⟨-, rfl⟩ | ⟨-, rfl⟩ | ⟨-, rfl⟩ <;> decide

include a in
theorem act_predefined (s : CState) {name : List UInt8} {ch : UInt8} (h : (name, ch) ∈ C10.predefined) :
    (sem c D int k x opened start).act s .ENTITY_REF (entityText asc (spell asc name)) = ([.chars [ch]], .ok s) := by
  have h1 := is_predefined S h
  have h2 : ch ≠ 0 := by
    simp only [C10.predefined, List.mem_cons, Prod.mk.injEq, List.not_mem_nil, or_false] at h
    rcases h with ⟨-, rfl⟩ | ⟨-, rfl⟩ | ⟨-, rfl⟩ | ⟨-, rfl⟩ | ⟨-, rfl⟩ <;> decide
  cases k <;> simp [sem, semOf, act, actEntityRef, refName_text S, h1, h2, toChars, a.chars]

/-! ### Comments and processing instructions -/

theorem conv_no_zero {ws : List Buf} (h : x.e.Chars ws) : 0 ∉ converted x ws.flatten := by
  intro h0
  rw [conv_chars S h] at h0
  simp only [List.mem_flatten, List.mem_map] at h0
  obtain ⟨l, ⟨w, hw, rfl⟩, h0⟩ := h0
  have := conv_ascii_only S (h w hw) (d := 0) (by decide) h0
  have hc := h w hw
  rw [this] at hc
  revert hc
  cases S <;> rename_i ns <;> cases ns <;> decide +kernel

theorem cstr_chars {ws : List Buf} (h : x.e.Chars ws) : cstr (converted x ws.flatten) = converted x ws.flatten := by
  simpa [cstr] using C14.cstr_append (l := []) (conv_no_zero S h)

include a in
theorem act_comment (s : CState) {ws : List Buf} (h : CommentOk x.e asc ws) :
    (sem c D int k x opened start).act s .COMMENT (commentText asc ws) =
      ([.comment (C14.lineEnds (converted x ws.flatten))], .ok s) := by
  have := C14.comment_text c.al S new_inv rfl ws.flatten
  rw [cstr_chars S h.chars] at this
  cases k <;> simp [sem, semOf, act, a.comment, commentText, this]


omit S in
theorem chars_asc_ws (S : XSupported x asc) {sp : List UInt8} (h : AllWS sp) : x.e.Chars (sp.map asc) := by
  intro w hw
  obtain ⟨d, hd, rfl⟩ := List.mem_map.1 hw
  have hd := h d hd
  have : d = 0x20 ∨ d = 0x09 ∨ d = 0x0A ∨ d = 0x0D := by simpa [isWS, or_assoc] using hd
  rcases this with rfl | rfl | rfl | rfl <;> cases S <;> rename_i ns <;> cases ns <;> decide +kernel

theorem isSp_ws {d : UInt8} (h : isWS d = true) : C14.isSp x.e (asc d) = true := by
  have := sp_bt S.s h []
  rw [List.append_nil] at this
  rw [C14.isSp]
  rcases this with h | h | h <;> rw [h]

theorem isSp_inv {w : Buf} (hw : x.e.IsChar w) (h : C14.isSp x.e w = true) : ∃ d, isWS d = true ∧ w = asc d := by
  have hb : x.e.bt w = .S ∨ x.e.bt w = .CR ∨ x.e.bt w = .LF := by
    rw [C14.isSp] at h
    revert h
    generalize x.e.bt w = t
    cases t <;> simp
  have hl := Enc.isChar_len S.s.mb hw
  obtain ⟨d, h1, h2⟩ := space_split S.s hl hb
  have hlead : x.e.isLead w = false := by
    rw [Enc.isLead]
    rcases hb with h | h | h <;> rw [h]
  have hl2 := Enc.isChar_len_nl hw hlead
  refine ⟨d, h1, ?_⟩
  rw [List.drop_of_length_le (by omega), List.append_nil] at h2
  exact h2

theorem drop_spaces {sp : List UInt8} {ws : List Buf} (hsp : AllWS sp) (hw : x.e.Chars ws)
    (hf : ∀ c, isWS c = true → ws.head? ≠ some (asc c)) : (sp.map asc ++ ws).dropWhile (C14.isSp x.e) = ws := by
  induction sp with
  | nil =>
    cases ws with
    | nil => rfl
    | cons w ws =>
      rw [List.map_nil, List.nil_append, List.dropWhile_cons]
      split
      · rename_i h
        obtain ⟨d, h1, rfl⟩ := isSp_inv S (hw w (by simp)) h
        exact absurd rfl (hf d h1)
      · rfl
  | cons d sp ih =>
    rw [List.map_cons, List.cons_append, List.dropWhile_cons, if_pos (isSp_ws S (hsp d (by simp)))]
    exact ih fun c hc => hsp c (by simp [hc])

theorem ws_ne_quest {d : UInt8} (h : isWS d = true) : asc d ≠ asc 0x3F := by
  intro h2
  have := S.s.asc_inj h2
  subst this
  cases h

theorem noPair_spaces {sp : List UInt8} {ws : List Buf} (hsp : AllWS sp) (h : NoPair (asc 0x3F) (asc 0x3E) (ws ++ [asc 0x3F])) :
    NoPair (asc 0x3F) (asc 0x3E) (sp.map asc ++ ws ++ [asc 0x3F]) := by
  induction sp with
  | nil => exact h
  | cons d sp ih => exact .cons_ne (ws_ne_quest S (hsp d (by simp))) (ih fun c hc => hsp c (by simp [hc]))

/-- The text of a processing instruction, as the tokenizer sees it. -/
theorem pi_markup {target : List Buf} {sp : List UInt8} {ws : List Buf} (h : PiOk x.e asc target sp ws) :
    Markup x.e asc .PI (piText asc target sp ws) := by
  have ht : checkPiTarget x.e target.flatten = some .PI := (C07.checkPiTarget_spec S.s _).2.2.2 h.notXml
  cases sp with
  | nil =>
    have := h.sep rfl
    subst this
    exact Markup.pi (d := []) h.name .none ht
  | cons d sp =>
    have h1 : AllWS sp := fun c hc => h.space c (by simp [hc])
    have := Markup.pi (d := asc d ++ (sp.map asc ++ ws).flatten) h.name
      (.data d (sp.map asc ++ ws) (h.space d (by simp)) (by
        intro w hw
        rcases List.mem_append.1 hw with hw | hw
        · exact chars_asc_ws S h1 w hw
        · exact h.chars w hw) (noPair_spaces S h1 h.close)) ht
    have e1 : piText asc target (d :: sp) ws = spell asc [0x3C, 0x3F] ++ (target.flatten ++
        ((asc d ++ (sp.map asc ++ ws).flatten) ++ spell asc [0x3F, 0x3E])) := by
      simp [piText, spell]
    rw [e1]
    exact this

include a in
theorem act_pi (s : CState) {target : List Buf} {sp : List UInt8} {ws : List Buf} (h : PiOk x.e asc target sp ws) :
    (sem c D int k x opened start).act s .PI (piText asc target sp ws) =
      ([.pi (cstr (converted x target.flatten)) (C14.lineEnds (converted x ws.flatten))], .ok s) := by
  have hr : reportPI c.al x Pool.new (piText asc target sp ws) =
      some (cstr (converted x target.flatten), C14.lineEnds (converted x ws.flatten)) := by
    cases sp with
    | nil =>
      have := h.sep rfl
      subst this
      have := C14.pi_bare c.al S new_inv rfl h.name
      rw [List.flatten_nil, conv_nil S]
      simpa [piText, spell, C14.lineEnds_nil] using this
    | cons d sp =>
      have h1 : AllWS sp := fun c hc => h.space c (by simp [hc])
      have hc : x.e.Chars (sp.map asc ++ ws) := by
        intro w hw
        rcases List.mem_append.1 hw with hw | hw
        · exact chars_asc_ws S h1 w hw
        · exact h.chars w hw
      have := C14.pi_text c.al S new_inv rfl h.name (h.space d (by simp)) hc
      rw [drop_spaces S h1 h.chars h.first, cstr_chars S h.chars] at this
      simpa [piText, spell] using this
  cases k <;> simp [sem, semOf, act, a.pi, hr]

/-- Every processing instruction the tokenizer accepts has that form. -/
theorem pi_of_markup {target : List Buf} {d : Buf} (hn : x.e.Name target) (hb : PiBody x.e asc d)
    (ht : checkPiTarget x.e target.flatten = some .PI) : ∃ sp ws, PiOk x.e asc target sp ws ∧
      spell asc [0x3C, 0x3F] ++ (target.flatten ++ (d ++ spell asc [0x3F, 0x3E])) = piText asc target sp ws := by
  have hx := (C07.checkPiTarget_spec S.s _).2.2.1 ht
  cases hb with
  | none =>
    refine ⟨[], [], ⟨hn, hx, fun _ h => by simp at h, fun _ => rfl, fun _ h => by simp at h, trivial, by simp⟩, ?_⟩
    simp [piText, spell]
  | data d ws hd hw hp =>
    have key : ∀ ws : List Buf, x.e.Chars ws → NoPair (asc 0x3F) (asc 0x3E) (ws ++ [asc 0x3F]) → ∃ sp us, ws = sp.map asc ++ us ∧ AllWS sp ∧
        x.e.Chars us ∧ NoPair (asc 0x3F) (asc 0x3E) (us ++ [asc 0x3F]) ∧ ∀ c, isWS c = true → us.head? ≠ some (asc c) := by
      intro ws
      induction ws with
      | nil => intro h1 h2; exact ⟨[], [], rfl, fun _ h => by simp at h, h1, h2, by simp⟩
      | cons w ws ih =>
        intro h1 h2
        by_cases h : C14.isSp x.e w = true
        · obtain ⟨d, h3, rfl⟩ := isSp_inv S (h1 w (by simp)) h
          obtain ⟨sp, us, rfl, h4, h5, h6, h7⟩ := ih (fun v hv => h1 v (by simp [hv])) h2.tail
          refine ⟨d :: sp, us, rfl, ?_, h5, h6, h7⟩
          intro c hc
          rcases List.mem_cons.1 hc with rfl | hc
          · exact h3
          · exact h4 c hc
        · refine ⟨[], w :: ws, rfl, fun _ h => by simp at h, h1, h2, ?_⟩
          intro c hc h3
          simp only [List.head?_cons, Option.some.injEq] at h3
          subst h3
          exact h (isSp_ws S hc)
    obtain ⟨sp, us, rfl, h4, h5, h6, h7⟩ := key ws hw hp
    refine ⟨d :: sp, us, ⟨hn, hx, ?_, fun h => (by cases h), h5, h6, h7⟩, ?_⟩
    · intro c hc
      rcases List.mem_cons.1 hc with rfl | hc
      · exact hd
      · exact h4 c hc
    · simp [piText, spell]

/-! ### Tags -/

theorem qname_endName {name : List Buf} (h : QName x.e asc name) : EndName x.e asc name := by
  cases h with
  | plain _ h =>
    obtain ⟨w, vs, rfl, h1, h2⟩ := h
    exact ⟨w, vs, rfl, h1, fun v hv => .inl (h2 v hv)⟩
  | pair us vs h1 h2 hc =>
    obtain ⟨w, us, rfl, h3, h4⟩ := h1
    obtain ⟨v, vs, rfl, h5, h6⟩ := h2
    refine ⟨w, us ++ asc 0x3A :: v :: vs, rfl, h3, ?_⟩
    intro u hu
    simp only [List.mem_append, List.mem_cons] at hu
    rcases hu with hu | rfl | rfl | hu
    · exact .inl (h4 u hu)
    · exact .inr ⟨rfl, hc⟩
    · exact .inl (nmstrt_nameChar S.s h5)
    · exact .inl (h6 u hu)


theorem nameLength_endName {name : List Buf} (h : EndName x.e asc name) (r : Buf) (hr : nameLength x.e r = 0) :
    nameLength x.e (name.flatten ++ r) = name.flatten.length := by
  obtain ⟨w, vs, rfl, h1, h2⟩ := h
  have hall : ∀ v ∈ w :: vs, x.e.NameChar v ∨ (v = asc 0x3A ∧ x.e.bt (asc 0x3A) = .COLON) := by
    intro v hv
    rcases List.mem_cons.1 hv with rfl | hv
    · exact .inl (nmstrt_nameChar S.s h1)
    · exact h2 v hv
  generalize w :: vs = us at hall
  clear h1 h2
  induction us with
  | nil => exact hr
  | cons u us ih =>
    have ih := ih fun v hv => hall v (by simp [hv])
    rw [List.flatten_cons, List.append_assoc, List.length_append]
    rcases hall u (by simp) with h | ⟨rfl, hc⟩
    · have := C33.nameLength_add S.s.ok S.s.mb [u] (by intro v hv; simp at hv; subst hv; exact .inl h) (us.flatten ++ r)
      simp only [List.flatten_cons, List.flatten_nil, List.append_nil] at this
      rw [this, ih]
    · have hb := S.s.ok.bt_app (asc 0x3A) (us.flatten ++ r) (by rw [S.s.asc.len]; exact Nat.le_refl _)
      rw [nameLength, if_neg (asc_len_ok S.s _ _), hb, hc]
      simp only
      rw [drop_char (S.s.asc.len _), ih, S.s.asc.len]

/-- The raw name of a tag is what follows `<`. -/
theorem nameLength_stops {r : Buf} {sp : List UInt8} {d : UInt8} (hsp : AllWS sp) (hd : d = 0x3E ∨ d = 0x2F) :
    nameLength x.e (spell asc sp ++ (asc d ++ r)) = 0 := by
  rw [nameLength]
  split
  · rfl
  · cases sp with
    | nil =>
      rw [show spell asc [] ++ (asc d ++ r) = asc d ++ r from rfl]
      rcases hd with rfl | rfl
      · rw [asc_bt S.s (t := .GT) rfl r]
      · rw [asc_bt S.s (t := .SOL) rfl r]
    | cons c cs =>
      have := sp_bt S.s (hsp c (by simp)) (spell asc cs ++ (asc d ++ r))
      rw [show spell asc (c :: cs) ++ (asc d ++ r) = asc c ++ (spell asc cs ++ (asc d ++ r)) by simp [spell]]
      rcases this with h | h | h <;> rw [h]

theorem rawName_end {name : List Buf} (h : EndName x.e asc name) {sp : List UInt8} (hsp : AllWS sp) :
    rawName x (2 * x.e.mb) (endText asc name.flatten sp) = name.flatten := by
  have l := S.s.asc.len
  have h1 : (endText asc name.flatten sp).drop (2 * x.e.mb) = name.flatten ++ (spell asc sp ++ (asc 0x3E ++ [])) := by
    rw [endText, Nat.two_mul, ← List.drop_drop, drop_char (l _), drop_char (l _), List.append_nil]
  rw [rawName, h1, nameLength_endName S h _ (nameLength_stops S hsp (.inl rfl)), List.take_left' rfl]

theorem rawName_tag {name : List Buf} (h : QName x.e asc name) {as : List AttrSrc} (ha : ∀ a ∈ as, AttrSrc.Valid x.e asc a)
    {ws : List UInt8} (hws : AllWS ws) (empty : Bool) :
    rawName x x.e.mb (tagText asc name as ws empty) = name.flatten := by
  have l := S.s.asc.len
  rw [rawName, tagText, drop_char (l _), nameLength_endName S (qname_endName S h), List.take_left' rfl]
  cases as with
  | nil =>
    rw [attsText]
    cases empty
    · have := nameLength_stops S (r := []) hws (d := 0x3E) (.inl rfl)
      simpa [closeText] using this
    · have := nameLength_stops S (r := asc 0x3E) hws (d := 0x2F) (.inr rfl)
      simpa [closeText] using this
  | cons a as =>
    have h1 := ha a (by simp)
    cases hw : a.ws with
    | nil => exact absurd hw h1.ws1
    | cons d ds =>
      have h2 : isWS d = true := h1.ws d (by rw [hw]; simp)
      have : attsText asc (a :: as) ++ closeText asc ws empty = asc d ++ (spell asc ds ++ (a.name.flatten ++ a.tail asc) ++
          attsText asc as ++ closeText asc ws empty) := by
        simp [attsText, AttrSrc.text, hw, spell]
      rw [this]
      apply C14.nameLength_stop
      have := sp_bt S.s h2 (spell asc ds ++ (a.name.flatten ++ a.tail asc) ++ attsText asc as ++ closeText asc ws empty)
      rcases this with h | h | h
      · exact .inr (.inl h)
      · exact .inr (.inr (.inl h))
      · exact .inr (.inr (.inr h))

omit S in
theorem freeBindings_all (hn : c.endNs = true) (bs : List Binding) : ∀ v, (freeBindings c v bs).1 = bs.map fun d => Ev.endNs d.pre := by
  induction bs with
  | nil => intro v; rfl
  | cons d bs ih => intro v; simp [freeBindings, hn, ih]

omit S in
theorem flat_storeAtts {fl : Buf → AFlag} {env : Env} {raw b : Buf} {E : List Ev} {r : Except (XErr × List Binding) Stored}
    (h : storeAtts c D int x opened fl env raw b = (E, r)) : flat E = E := by
  have := storeAtts_events c D int x opened fl env raw b
  rw [h] at this
  refine flat_id fun v hv => ?_
  have := this v hv
  constructor <;> intro s <;> rintro rfl <;> cases this

omit S in
theorem flat_endNs (bs : List Binding) : flat (bs.map fun d => Ev.endNs d.pre) = bs.map fun d => Ev.endNs d.pre := by
  refine flat_id fun v hv => ?_
  obtain ⟨d, -, rfl⟩ := List.mem_map.1 hv
  exact ⟨fun _ h => (by cases h), fun _ h => (by cases h)⟩

omit S in
theorem tag_markup {name : List Buf} (h : QName x.e asc name) {as : List AttrSrc} (ha : ∀ a ∈ as, AttrSrc.Valid x.e asc a)
    {ws : List UInt8} (hws : AllWS ws) (empty : Bool) :
    Markup x.e asc (tagTok empty as.isEmpty) (tagText asc name as ws empty) := .tag empty h ha hws

/-- The state after a start tag. -/
def CState.push (s : CState) (raw : Buf) (t : Stored) : CState :=
  { s with tags := ⟨raw, t.name, t.binds⟩ :: s.tags, level := s.level + 1, env := t.env, flags := t.flags }

/-- The state after an end tag. -/
def CState.pop (s : CState) (tag : Tag) (tags : List Tag) : CState :=
  { s with tags := tags, level := s.level - 1, env := C31.undo s.env tag.binds,
           mode := if s.level - 1 = 0 then .epilog else s.mode }

include a in
theorem act_start (s : CState) {name : List Buf} (h : QName x.e asc name) {as : List AttrSrc} (ha : ∀ a ∈ as, AttrSrc.Valid x.e asc a)
    {ws : List UInt8} (hws : AllWS ws) {Es : List Ev} {t : Stored}
    (hs : storeAtts c D int x opened s.flags s.env (converted x name.flatten) (tagText asc name as ws false) = (Es, .ok t)) :
    (sem c D int k x opened start).act s (tagTok false as.isEmpty) (tagText asc name as ws false) =
      (Es ++ [.startElement (t.name.full c) t.atts t.specified t.idIndex], .ok (s.push name.flatten t)) := by
  have hr := rawName_tag S h ha hws false
  cases as <;> cases k <;> simp [sem, semOf, tagTok, act, actStart, hr, hs, orDefault, a.startElement, CState.push]

theorem act_start_err (s : CState) {name : List Buf} (h : QName x.e asc name) {as : List AttrSrc} (ha : ∀ a ∈ as, AttrSrc.Valid x.e asc a)
    {ws : List UInt8} (hws : AllWS ws) {Es : List Ev} {err : XErr} {bs : List Binding}
    (hs : storeAtts c D int x opened s.flags s.env (converted x name.flatten) (tagText asc name as ws false) = (Es, .error (err, bs))) :
    (sem c D int k x opened start).act s (tagTok false as.isEmpty) (tagText asc name as ws false) = (Es, .error err) := by
  have hr := rawName_tag S h ha hws false
  cases as <;> cases k <;> simp [sem, semOf, tagTok, act, actStart, hr, hs]

include a in
theorem act_empty (s : CState) {name : List Buf} (h : QName x.e asc name) {as : List AttrSrc} (ha : ∀ a ∈ as, AttrSrc.Valid x.e asc a)
    {ws : List UInt8} (hws : AllWS ws) {Es : List Ev} {t : Stored} (hf : s.flags = fun _ => .unset)
    (hs : storeAtts c D int x opened s.flags s.env (converted x name.flatten) (tagText asc name as ws true) = (Es, .ok t)) :
    (sem c D int k x opened start).act s (tagTok true as.isEmpty) (tagText asc name as ws true) =
      (Es ++ (.startElement (t.name.full c) t.atts t.specified t.idIndex :: .endElement (t.name.full c) ::
          (t.binds.map fun d => .endNs d.pre)), .ok { s with mode := if s.level = 0 then .epilog else s.mode }) := by
  have hr := rawName_tag S h ha hws true
  have h1 := (C31.storeAtts_declared a.startNs hs).1
  have h2 := C31.freeBindings_env c t.binds t.env
  have h3 := freeBindings_all (c := c) a.endNs t.binds t.env
  have h4 : t.flags = fun _ => .unset := by
    funext n; exact C28.flags_unset (by intro n; rw [hf]) hs n
  rw [h1] at h2
  rw [hf] at hs
  cases as <;> cases k <;> simp [sem, semOf, tagTok, act, actEmpty, hr, hs, a.startElement, a.endElement, h2, h3, h4, hf]

theorem act_empty_err (s : CState) {name : List Buf} (h : QName x.e asc name) {as : List AttrSrc} (ha : ∀ a ∈ as, AttrSrc.Valid x.e asc a)
    {ws : List UInt8} (hws : AllWS ws) {Es : List Ev} {err : XErr} {bs : List Binding}
    (hs : storeAtts c D int x opened s.flags s.env (converted x name.flatten) (tagText asc name as ws true) = (Es, .error (err, bs))) :
    ∃ E, (sem c D int k x opened start).act s (tagTok true as.isEmpty) (tagText asc name as ws true) = (E, .error err) := by
  have hr := rawName_tag S h ha hws true
  cases as <;> cases k <;> simp [sem, semOf, tagTok, act, actEmpty, hr, hs]

include a in
theorem act_endTag (s : CState) {name : List Buf} (h : EndName x.e asc name) {sp : List UInt8} (hsp : AllWS sp) {tag : Tag} {tags : List Tag}
    (hl : s.level ≠ start) (ht : s.tags = tag :: tags) (hn : name.flatten = tag.rawName) :
    (sem c D int k x opened start).act s .END_TAG (endText asc name.flatten sp) =
      (.endElement (tag.name.full c) :: (tag.binds.map fun d => .endNs d.pre), .ok (s.pop tag tags)) := by
  have hr := rawName_end S h hsp
  rw [hn] at hr
  have h2 := C31.freeBindings_env c tag.binds s.env
  have h3 := freeBindings_all (c := c) a.endNs tag.binds s.env
  cases k <;> simp [sem, semOf, act, actEnd, hr, ht, hl, hn, orDefault, a.endElement, h2, h3, CState.pop]

/-- An end tag is accepted only if it closes an element opened in the same entity, with the same name. -/
theorem act_endTag_ok {s s' : CState} {name : List Buf} (h : EndName x.e asc name) {sp : List UInt8} (hsp : AllWS sp) {E : List Ev}
    (ha : (sem c D int k x opened start).act s .END_TAG (endText asc name.flatten sp) = (E, .ok s')) :
    s.level ≠ start ∧ ∃ tag tags, s.tags = tag :: tags ∧ name.flatten = tag.rawName := by
  have hr := rawName_end S h hsp
  obtain ⟨ex, he⟩ := sem_semOf c D int k x opened start
  rw [he] at ha
  simp only [semOf, act, actEnd, hr] at ha
  split at ha
  · cases ha
  · refine ⟨by assumption, ?_⟩
    split at ha
    · cases ha
    · rename_i tag tags ht
      split at ha
      · cases ha
      · rename_i hne
        exact ⟨tag, tags, ht, Classical.byContradiction fun h => hne h⟩

end
end Verif
