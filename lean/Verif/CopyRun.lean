import Verif.CopyJoin

/-! # What the default handler is given: documents (C65) -/

set_option autoImplicit false

namespace Verif.C65
open C43 C53 C59 C60 C64 Spec Verif PState

/-! ### Encodings -/

/-- Text in UTF-8. -/
def recode : EncId → Buf → Buf
  | .latin1, b => b.flatMap fun d => utf8 d.toNat
  | _, b => b

theorem recode_append (i : EncId) (a b : Buf) : recode i (a ++ b) = recode i a ++ recode i b := by
  cases i <;> simp [recode]

theorem latin1_all (ns : Bool) (w : Buf) : converted (latin1X ns) w = w.flatMap fun d => utf8 d.toNat := by
  have hw : C12.text C12.byte1 (w.map (·.toNat)) = w := by
    induction w with
    | nil => rfl
    | cons d w ih => rw [List.map_cons, C12.text_cons, ih]; simp [C12.byte1]
  obtain ⟨k, h0, h1, -, -, -, h2⟩ := C12.latin1_faithful (w.map (·.toNat)) (by simp only [List.mem_map]; rintro c ⟨d, -, rfl⟩; exact d.toNat_lt)
    (4 * w.length + 4)
  rw [hw] at h1 h2
  have hlen : ∀ v : Buf, (utf8s (v.map (·.toNat))).length ≤ 4 * v.length := by
    intro v
    induction v with
    | nil => simp [utf8s]
    | cons d v ih =>
      rw [List.map_cons, C51.utf8s_cons, List.length_append, List.length_cons]
      have : (utf8 d.toNat).length ≤ 4 := by unfold utf8; split <;> (try split) <;> (try split) <;> simp
      omega
  have hk : k = w.length := by
    rcases Nat.lt_or_ge k (w.map (·.toNat)).length with hk | hk
    · have := (h2 hk).2
      rw [← List.map_take] at this
      have g := hlen (w.take (k + 1))
      have : (w.take (k + 1)).length ≤ w.length := by rw [List.length_take]; omega
      omega
    · simpa using Nat.le_antisymm h0 hk
  rw [show converted (latin1X ns) w = (latin1Convert w (4 * w.length + 4)).out from rfl, h1, hk,
    List.take_of_length_le (by simp)]
  simp [utf8s, List.flatMap_def]; rfl

theorem raw_recode (i : EncId) (h : C54.unitSize i = 1) (ns : Bool) (w : Buf) : raw (i.x ns) w = recode i w := by
  rw [raw, C04.pieces_flatten (C54.supported ns i)]
  cases i with
  | utf8 => rfl
  | ascii => rfl
  | latin1 => exact latin1_all ns w
  | utf16be => cases h
  | utf16le => cases h

/-- `u` is the text `a` recoded to UTF-8. -/
def Recodes : EncId → Buf → Buf → Prop
  | .utf8, a, u | .ascii, a, u => u = a
  | .latin1, a, u => u = a.flatMap fun d => utf8 d.toNat
  | .utf16le, a, u => ∀ cs, (∀ c ∈ cs, Scalar c) → a = C12.text C12.utf16le cs → u = utf8s cs
  | .utf16be, a, u => ∀ cs, (∀ c ∈ cs, Scalar c) → a = C12.text C12.utf16be cs → u = utf8s cs

theorem utf8s_len (cs : List Nat) : ∀ {enc : Nat → List UInt8}, (∀ c, 2 ≤ (enc c).length) → (utf8s cs).length ≤ 4 * (C12.text enc cs).length := by
  intro enc h
  induction cs with
  | nil => simp [utf8s]
  | cons d v ih =>
    rw [C51.utf8s_cons, List.length_append, C12.text_cons, List.length_append]
    have : (utf8 d).length ≤ 4 := by unfold utf8; split <;> (try split) <;> (try split) <;> simp
    have := h d
    omega

theorem faithful_all {x : XEnc} {enc : Nat → List UInt8} (h : C12.Faithful x.conv enc Scalar) (h2 : ∀ c, 2 ≤ (enc c).length) {cs : List Nat}
    (hc : ∀ c ∈ cs, Scalar c) : converted x (C12.text enc cs) = utf8s cs := by
  obtain ⟨k, h0, h1, -, -, -, h3⟩ := h cs hc (4 * (C12.text enc cs).length + 4)
  rw [converted, h1]
  rcases Nat.lt_or_ge k cs.length with hk | hk
  · have g := (h3 hk).2
    have e1 := utf8s_len (cs.take (k + 1)) h2
    have e2 : (C12.text enc (cs.take (k + 1))).length ≤ (C12.text enc cs).length := by
      have : C12.text enc cs = C12.text enc (cs.take (k + 1)) ++ C12.text enc (cs.drop (k + 1)) := by
        rw [C12.text, C12.text, C12.text, ← List.flatten_append, ← List.map_append, List.take_append_drop]
      rw [this, List.length_append]; omega
    omega
  · rw [List.take_of_length_le hk]

theorem units_le (c : Nat) : 2 ≤ (C12.utf16le c).length := by
  unfold C12.utf16le utf16; split <;> simp [le16]
theorem units_be (c : Nat) : 2 ≤ (C12.utf16be c).length := by
  unfold C12.utf16be utf16; split <;> simp [be16]

theorem raw_recodes (i : EncId) (ns : Bool) (a : Buf) : Recodes i a (raw (i.x ns) a) := by
  cases i with
  | utf8 => rw [raw_recode .utf8 rfl]; rfl
  | ascii => rw [raw_recode .ascii rfl]; rfl
  | latin1 => rw [raw_recode .latin1 rfl]; rfl
  | utf16le =>
    rintro cs hc rfl
    rw [raw_eq (C54.supported ns .utf16le)]
    exact faithful_all C12.utf16le_faithful units_le hc
  | utf16be =>
    rintro cs hc rfl
    rw [raw_eq (C54.supported ns .utf16be)]
    exact faithful_all C12.utf16be_faithful units_be hc

theorem recode_ascii (i : EncId) {w : Buf} (h : ∀ d ∈ w, d < 0x80) : recode i w = w := by
  cases i <;> try rfl
  induction w with
  | nil => rfl
  | cons d w ih =>
    have hd : d.toNat < 128 := h d (by simp)
    rw [show recode .latin1 (d :: w) = utf8 d.toNat ++ recode .latin1 w from by simp [recode], ih (fun e he => h e (by simp [he])), utf8, if_pos hd]
    simp

theorem asc_one {i : EncId} (h : C54.unitSize i = 1) : C54.ascOf i = asc1 := by cases i <;> first | rfl | cases h

/-- An XML declaration is ASCII text. -/
theorem head_ascii {c : PCfg} {i j : EncId} (h1 : C54.unitSize i = 1) {h : Buf} {d : Option C18.Src} (hh : Head c i h d j) : ∀ b ∈ h, b < 0x80 := by
  cases hh with
  | none => simp
  | decl d _ hv _ _ =>
    rw [asc_one h1]
    intro b hb
    have hid : ∀ v : Buf, spell asc1 v = v := by
      intro v; induction v with
      | nil => rfl
      | cons a v ih => rw [spell] at ih ⊢; rw [List.map_cons, List.flatten_cons, ih]; rfl
    simp only [xmlDeclText, hid, List.mem_append] at hb
    rw [show ((xmlName.map asc1).flatten) = xmlName from rfl] at hb
    rcases hb with hb | hb | hb | hb
    · revert b; decide
    · revert b; decide
    · exact (declChar_lt b (decl_chars hv b hb)).1
    · revert b; decide

/-! ### The first token -/

/-- What of `t` is an XML declaration, if it has one. -/
structure Begins (c : PCfg) (i : EncId) (t h : Buf) (d : Option C18.Src) (j : EncId) (r : Buf) : Prop where
  text : t = h ++ r
  head : Head c i h d j
  all : d = none → ∀ h' d' j' r', t = h' ++ r' → ¬ Head c i h' (some d') j'

theorem Head.unit_one {c : PCfg} {i j : EncId} {h : Buf} {d : Option C18.Src} (hh : Head c i h d j) (hi : C54.unitSize i = 1) : C54.unitSize j = 1 := by
  have := hh.unit
  rw [C54.mb_unit, C54.mb_unit, hi] at this
  exact this.symm

theorem lex_sound_any {e : Enc} {asc : UInt8 → Buf} (s : Supported e asc) {b : Buf} {n : Nat} {t : Tok} (ht : t.isError = false)
    (h : prologTok e b = ⟨t, n⟩) : ∃ w r r', Lexeme e asc t w r' ∧ b = w ++ r ∧ n = w.length := by
  have h1 : (prologTok e b).tok ≠ .NONE := by rw [h]; rintro rfl; cases ht
  have h2 : (prologTok e b).tok ≠ .PARTIAL := by rw [h]; rintro rfl; cases ht
  obtain ⟨-, y, hy, -, hd⟩ := tok_body s h1 h2
  obtain ⟨w, r, hl, hw, hn⟩ := lex_sound s hd ht ((tok_trunc s h1 h2).trans h)
  exact ⟨w, r ++ y, r, hl, by rw [← List.append_assoc, ← hw]; exact hy, hn⟩

theorem head_spelled {c : PCfg} {i j : EncId} {h : Buf} {d : Option C18.Src} (H : Head c i h d j) :
    ∃ l, h = spell (C54.ascOf i) l ∧ ∀ b ∈ l, b < 0x80 := by
  cases H with
  | none => exact ⟨[], rfl, by simp⟩
  | decl d _ hv h2 h3 =>
    refine ⟨[0x3C, 0x3F] ++ C07.xmlName ++ d.text ++ [0x3F, 0x3E], by simp [xmlDeclText, spell, xmlName, C07.xmlName], ?_⟩
    intro b hb
    simp only [List.mem_append] at hb
    rcases hb with ((hb | hb) | hb) | hb
    · revert b; decide
    · revert b; decide
    · exact (declChar_lt b (decl_chars hv b hb)).1
    · revert b; decide

theorem head_units {c : PCfg} {i j : EncId} {h : Buf} {d : Option C18.Src} (H : Head c i h d j) : (i.x c.c.ns).e.mb ∣ h.length := by
  obtain ⟨l, rfl, -⟩ := head_spelled H
  rw [spell, spell_length (C54.supported c.c.ns i).s]
  exact Nat.dvd_mul_left _ _

/-! ### Text in UTF-16 -/

theorem units_le2 (c : Nat) : 2 ∣ (C12.utf16le c).length := by
  unfold C12.utf16le utf16; split <;> simp [le16]
theorem units_be2 (c : Nat) : 2 ∣ (C12.utf16be c).length := by
  unfold C12.utf16be utf16; split <;> simp [be16]

theorem text_even {enc : Nat → List UInt8} (h : ∀ c, 2 ∣ (enc c).length) (cs : List Nat) : 2 ∣ (C12.text enc cs).length := by
  induction cs with
  | nil => exact Nat.dvd_zero _
  | cons c cs ih => rw [C12.text_cons, List.length_append]; exact Nat.dvd_add (h c) ih

theorem le_ascii {b : UInt8} (h : b < 0x80) : C12.utf16le b.toNat = ascL b := by
  have hb : b.toNat < 128 := h
  unfold C12.utf16le utf16
  rw [if_pos (by omega)]
  simp only [List.map_cons, List.map_nil, List.flatten_cons, List.flatten_nil, List.append_nil, le16, ascL]
  rw [Nat.mod_eq_of_lt (by omega), Nat.div_eq_of_lt (by omega)]
  simp
theorem be_ascii {b : UInt8} (h : b < 0x80) : C12.utf16be b.toNat = ascB b := by
  have hb : b.toNat < 128 := h
  unfold C12.utf16be utf16
  rw [if_pos (by omega)]
  simp only [List.map_cons, List.map_nil, List.flatten_cons, List.flatten_nil, List.append_nil, be16, ascB]
  rw [Nat.mod_eq_of_lt (by omega), Nat.div_eq_of_lt (by omega)]
  simp

theorem text_ascii {enc : Nat → List UInt8} {asc : UInt8 → Buf} (h : ∀ {b : UInt8}, b < 0x80 → enc b.toNat = asc b) (l : Buf) (hl : ∀ b ∈ l, b < 0x80) :
    C12.text enc (l.map (·.toNat)) = spell asc l := by
  induction l with
  | nil => rfl
  | cons b l ih =>
    rw [List.map_cons, C12.text_cons, h (hl b (by simp)), ih (fun b g => hl b (by simp [g]))]
    simp [spell]

theorem le_first {c : Nat} (hc : Scalar c) {b : UInt8} (h : b < 0x80) {u v : Buf} (e : C12.utf16le c ++ u = ascL b ++ v) : c = b.toNat ∧ u = v := by
  have hb : b.toNat < 128 := h
  unfold Scalar at hc
  unfold C12.utf16le utf16 at e
  split at e <;> simp [le16, ascL] at e
  · obtain ⟨e1, e2, e3⟩ := e
    have e1 := congrArg UInt8.toNat e1
    have e2 := congrArg UInt8.toNat e2
    simp at e1 e2
    exact ⟨by omega, e3⟩
  · obtain ⟨e1, e2, e3⟩ := e
    have e2 := congrArg UInt8.toNat e2
    simp at e2
    omega

theorem be_first {c : Nat} (hc : Scalar c) {b : UInt8} (h : b < 0x80) {u v : Buf} (e : C12.utf16be c ++ u = ascB b ++ v) : c = b.toNat ∧ u = v := by
  have hb : b.toNat < 128 := h
  unfold Scalar at hc
  unfold C12.utf16be utf16 at e
  split at e <;> simp [be16, ascB] at e
  · obtain ⟨e2, e1, e3⟩ := e
    have e1 := congrArg UInt8.toNat e1
    have e2 := congrArg UInt8.toNat e2
    simp at e1 e2
    exact ⟨by omega, e3⟩
  · obtain ⟨e2, e1, e3⟩ := e
    have e2 := congrArg UInt8.toNat e2
    simp at e2
    omega

/-- What follows ASCII characters. -/
theorem text_head {enc : Nat → List UInt8} {asc : UInt8 → Buf}
    (h : ∀ {c : Nat}, Scalar c → ∀ {b : UInt8}, b < 0x80 → ∀ {u v : Buf}, enc c ++ u = asc b ++ v → c = b.toNat ∧ u = v) (hne : ∀ b, asc b ≠ [])
    (l : Buf) : ∀ cs : List Nat, (∀ c ∈ cs, Scalar c) → (∀ b ∈ l, b < 0x80) → ∀ {a : Buf}, C12.text enc cs = spell asc l ++ a →
    ∃ ds, cs = l.map (·.toNat) ++ ds ∧ a = C12.text enc ds := by
  induction l with
  | nil => intro cs _ _ a e; exact ⟨cs, rfl, by simpa [spell] using e.symm⟩
  | cons b l ih =>
    intro cs hc hl a e
    cases cs with
    | nil =>
      have := congrArg List.length e
      simp [spell, C12.text] at this
      have hp := List.length_pos_iff.2 (hne b)
      omega
    | cons c cs =>
      rw [C12.text_cons, show spell asc (b :: l) = asc b ++ spell asc l from by simp [spell], List.append_assoc] at e
      obtain ⟨e1, e2⟩ := h (hc c (by simp)) (hl b (by simp)) e
      subst e1
      obtain ⟨ds, rfl, rfl⟩ := ih cs (fun c g => hc c (by simp [g])) (fun b g => hl b (by simp [g])) e2
      exact ⟨ds, rfl, rfl⟩

section
variable {c : PCfg} {i : EncId}

theorem ws_first {i : EncId} {a : UInt8} {u v : Buf} (h : C54.ascOf i a ++ u = C54.ascOf i 0x3C ++ v) : (0x3C : UInt8) = a := by
  cases i <;> simp [C54.ascOf, asc1, ascB, ascL] at h <;> exact h.1.symm

/-- Text whose first token is something else does not begin with an XML declaration, however it goes on. -/
theorem no_head {more : Bool} {b y : Buf} (h1 : ∀ n, seeToken (i.x c.c.ns) false false more c.isPE b ≠ .tok .XML_DECL n)
    (h2 : seeToken (i.x c.c.ns) false false more c.isPE b ≠ .wait) (hy : more = false → y = []) {h' r' : Buf} {d' : C18.Src} {j' : EncId}
    (hb : b ++ y = h' ++ r') : ¬ Head c i h' (some d') j' := by
  intro hh
  have S := C54.supported c.c.ns i
  generalize ho : some d' = o at hh
  cases hh with
  | none => cases ho
  | decl d2 _ hv h127 hn =>
    cases ho
    have ht := decl_token_any S (decl_body S hv) r'
    rw [show declOf (C54.ascOf i) (spell (C54.ascOf i) d'.text) ++ r' = b ++ y from hb.symm] at ht
    have whole : prologTok (i.x c.c.ns).e b = ⟨.XML_DECL, (xmlDeclText (C54.ascOf i) d').length⟩ → False := by
      intro g
      refine h1 (xmlDeclText (C54.ascOf i) d').length ?_
      rw [seeToken, g, seeRes, if_pos (by rfl)]
    rcases Bool.eq_false_or_eq_true more with rfl | rfl
    · have hst := C03.stable .prolog (i.x c.c.ns).e S.s.ok b y
      have e1 : ∀ b, C02.Entry.run .prolog (i.x c.c.ns).e b = prologTok (i.x c.c.ns).e b := fun _ => rfl
      rw [e1, e1, ht] at hst
      cases hq : prologTok (i.x c.c.ns).e b with
      | mk t n =>
        rw [hq] at hst whole
        by_cases hop : C03.openEnded t = true
        · by_cases he : t.isError = true
          · refine h2 ?_
            rw [seeToken, hq, seeRes, if_neg (by simp [he]), if_pos ⟨rfl, by rintro rfl; cases hop⟩]
          · obtain ⟨w, r, r2, hl, rfl, rfl⟩ := lex_sound_any S.s (by simpa using he) hq
            have hsp : t = .PROLOG_S := by
              cases t <;> first | rfl | (cases hop; done) | (exact absurd rfl he) | skip
              cases hl <;> simp_all [nameOps, charToks, parenOps]
            subst hsp
            obtain ⟨sp, s1, s2, rfl⟩ := C61.lex_space hl
            cases sp with
            | nil => exact s1 rfl
            | cons a sp =>
              have ha := s2 a (by simp)
              have h3C : (0x3C : UInt8) = a := by
                refine ws_first (i := i) (u := (sp.map (C54.ascOf i)).flatten ++ r ++ y) (v := ?_) ?_
                rotate_left
                · have := hb
                  simp only [spell, xmlDeclText, List.map_cons, List.flatten_cons, List.append_assoc] at this ⊢
                  exact this
              subst h3C
              cases ha
        · exact whole (hst (by simpa using hop)).symm
    · rw [hy rfl, List.append_nil] at ht
      exact whole ht

end

/-- What a call at the start of a document comes to: nothing yet, or an XML declaration or none and what follows. -/
def Starts (c : PCfg) (i : EncId) (more : Bool) (b : Buf) (r : Prolog) : Prop :=
  (more = true ∧ r = ([], start (.builtin i) .never, .done b)) ∨
  ∃ h d j b' E r', r = Prolog.pre E r' ∧ (∀ y, (more = false → y = []) → Begins c i (b ++ y) h d j (b' ++ y)) ∧ b = h ++ b' ∧
    POnly E ∧ ptext E = raw (i.x c.c.ns) h ∧ PEats c (j.x c.c.ns) b' r'

theorem decl_out {c : PCfg} {s s' : DState} {b : Bool} {w : Buf} {E : List PEv} {o : AOut} (h : actXmlDecl c s b w = (E, s', o)) : o ≠ .start ∧ o ≠ .ignore := by
  simp only [actXmlDecl] at h
  repeat' split at h
  all_goals (cases h; exact ⟨by simp, by simp⟩)

section
variable {c : PCfg} (A : Alone c) {i : EncId} {ext : Ext} {fuel : Nat}
include A

theorem start_call (more : Bool) (b : Buf) : Starts c i more b (prologCall c ext fuel [] more (start (.builtin i) .never) b) := by
  rw [C57.call_loop rfl]
  change Starts c i more b (prun c ext fuel (expandPE c ext fuel fuel []) false false true more [] (start (.builtin i) .never) b)
  have S := C54.supported c.c.ns i
  have J := joins_all S
  have hx : (start (.builtin i) .never).x c false = i.x c.c.ns := rfl
  have Q : Quiet (start (.builtin i) .never) := ⟨rfl, rfl, rfl⟩
  generalize hexp : expandPE c ext fuel fuel [] = expand
  -- no declaration
  have other (h1 : ∀ n, seeToken (i.x c.c.ns) false false more c.isPE b ≠ .tok .XML_DECL n)
      (h2 : seeToken (i.x c.c.ns) false false more c.isPE b ≠ .wait)
      (h3 : PEats c (i.x c.c.ns) b (prun c ext fuel expand false false true more [] (start (.builtin i) .never) b)) :
      Starts c i more b (prun c ext fuel expand false false true more [] (start (.builtin i) .never) b) :=
    .inr ⟨[], none, i, b, [], _, by simp [Prolog.pre], fun y hy => ⟨rfl, .none, fun _ h' d' j' r' hb => no_head h1 h2 hy hb⟩, rfl, .nil, J.nil.symm, h3⟩
  cases hs : seeToken (i.x c.c.ns) false false more c.isPE b with
  | wait =>
    refine .inl ⟨?_, by rw [prun.eq_def, hx]; simp only [hs]⟩
    refine Classical.byContradiction fun hmm => ?_
    simp only [Bool.not_eq_true] at hmm
    rw [hmm, A.isPE, seeToken, seeRes] at hs
    split at hs
    · cases hs
    · split at hs
      · simp_all
      · split at hs <;> try cases hs
        all_goals first | (simp at hs; done) | (split at hs <;> cases hs)
  | fail e => exact other (by simp [hs]) (by simp [hs]) (by rw [prun.eq_def, hx]; simp only [hs]; exact (Got.nil J b).some)
  | panic => exact other (by simp [hs]) (by simp [hs]) (by rw [prun.eq_def, hx]; simp only [hs]; exact (Got.nil J b).some)
  | endPE => rw [A.isPE] at hs; exact absurd hs see_pe
  | tok t k =>
    have hbom : t ≠ .BOM := fun h => seeToken_noBom (h ▸ hs)
    by_cases ht : t = .XML_DECL
    · subst ht
      rw [prun_after (by rw [hx]; exact hs)]
      -- the token
      have hq : prologTok (i.x c.c.ns).e b = ⟨.XML_DECL, k⟩ := by
        rw [seeToken] at hs
        generalize prologTok (i.x c.c.ns).e b = q at hs
        obtain ⟨u, n⟩ := q
        rw [seeRes] at hs
        split at hs
        · injection hs with g1 g2; simp only at g1 g2; rw [g1, g2]
        · split at hs
          · cases hs
          · cases u <;> simp [Tok.negate] at hs
            split at hs <;> cases hs
      obtain ⟨w, b', r2, hl, rfl, rfl⟩ := lex_sound_any S.s rfl hq
      have hmk := C61.lex_misc (.inr (.inr rfl)) hl
      rw [List.take_left]
      have hs1 : ({ start (.builtin i) .never with el := { (start (.builtin i) .never).el with p := { PState.init with h := .prolog1 } } } : DState) =
            begun (.builtin i) .never false := by
          simp [start, begun, peAfter]
      have hrd : pround c ext fuel expand false true [] (start (.builtin i) .never) .XML_DECL w =
          match actXmlDecl c (begun (.builtin i) .never false) false w with
          | (E, s, .go true) => (E ++ (toDefault c.c (s.x c false) w).map .ev, s, .go true)
          | r => r := by
        rw [pround, ← hs1]; rfl
      have hlv := leave_decl A (s := begun (.builtin i) .never false) (w := w) ⟨rfl, rfl, by simp [begun, peAfter]⟩ false
      have hback := fun hd => C61.head_back (c := c) (i := i) (s := begun (.builtin i) .never false) (hd := hd) A.unknown hmk rfl
      have fin {r : Acted} (hr : r = actXmlDecl c (begun (.builtin i) .never false) false w) (he : ∀ hd, r.2.2 ≠ .go hd) :
          Some1 (i.x c.c.ns) (w ++ b') r.1 := by
        rw [← hr] at hlv
        obtain ⟨E, s, o⟩ := r
        have e1 : (begun (.builtin i) .never false).x c false = i.x c.c.ns := rfl
        cases o with
        | go hd => exact absurd rfl (he hd)
        | start => exact ⟨hlv.1, [], w ++ b', rfl, by rw [J.nil]; have h2 := hlv.2.2; simp only at h2 ⊢; rw [h2]; rfl⟩
        | ignore => exact ⟨hlv.1, w, b', rfl, hlv.2.2.2.2⟩
        | fail e => exact got_some J (n := w.length) hlv.1 (by rw [List.take_left]; exact hlv.2)
        | panic => exact got_some J (n := w.length) hlv.1 (by rw [List.take_left]; exact hlv.2)
      rw [hrd]
      generalize hr : actXmlDecl c (begun (.builtin i) .never false) false w = r at hback
      obtain ⟨E, s, o⟩ := r
      have bad (hg : ∀ hd, o ≠ .go hd) (r' : Prolog) (h : PEats c (i.x c.c.ns) (w ++ b') r') : Starts c i more (w ++ b') r' := by
        refine .inr ⟨[], none, i, w ++ b', [], r', by simp [Prolog.pre], fun y hy => ⟨rfl, .none, fun _ h' d' j' r' hb hh => ?_⟩, rfl, .nil, J.nil.symm, h⟩
        generalize hd' : some d' = d2 at hh
        cases hh with
        | none => cases hd'
        | decl d2 _ hv h127 hn =>
          cases hd'
          have ht := decl_token_any S (decl_body S hv) r'
          rw [show declOf (C54.ascOf i) (spell (C54.ascOf i) d'.text) ++ r' = w ++ b' ++ y from hb.symm] at ht
          have hst := C03.stable .prolog (i.x c.c.ns).e S.s.ok (w ++ b') y
          have e1 : ∀ b, C02.Entry.run .prolog (i.x c.c.ns).e b = prologTok (i.x c.c.ns).e b := fun _ => rfl
          rw [e1, e1, ht, hq] at hst
          have hlen := hst rfl
          injection hlen with _ hlen
          rw [List.append_assoc] at hb
          have hw := (List.append_inj hb hlen.symm).1
          obtain ⟨E2, g1, -⟩ := decl_act (c := c) hv h127 hn .never
          rw [← hw, hr] at g1
          injection g1 with _ g1
          injection g1 with _ g1
          exact hg _ g1
      cases o with
      | go hd =>
        obtain ⟨d, j, hh⟩ := hback hd rfl
        have hh' := hh
        generalize hd' : some d = d' at hh
        cases hh with
        | none => cases hd'
        | decl d2 _ hv h127 hn =>
          cases hd'
          obtain ⟨E2, g1, -⟩ := decl_act (c := c) hv h127 hn .never
          rw [g1] at hr
          cases hr
          rw [g1] at hlv
          have hE : ptext E = raw (i.x c.c.ns) (xmlDeclText (C54.ascOf i) d) := by
            have := hlv.2.2.2.2
            rw [if_neg (by simp)] at this
            exact this
          have beg : ∀ y, (more = false → y = []) → Begins c i (xmlDeclText (C54.ascOf i) d ++ b' ++ y) (xmlDeclText (C54.ascOf i) d) (some d) j (b' ++ y) :=
            fun y _ => ⟨by rw [List.append_assoc], hh', fun h => by cases h⟩
          simp only [after]
          rw [List.drop_left]
          split
          · refine .inr ⟨_, some d, j, b', E, _, rfl, beg, rfl, hlv.1, hE, ?_⟩
            exact late_run A (joins_all (C54.supported c.c.ns j)) true more _ b' rfl _ ⟨rfl, rfl, by simp [begun, peAfter]⟩ (by simp [begun, Late, PState.init]) rfl
          · exact .inr ⟨_, some d, j, b', E, ([], begun (.builtin j) .never (alone d), .panic), by simp [Prolog.pre], beg, rfl, hlv.1, hE, (Got.nil (joins_all (C54.supported c.c.ns j)) b').some⟩
      | fail e => exact bad (by simp) _ (fin (r := (E, s, .fail e)) hr.symm (by simp))
      | panic => exact bad (by simp) _ (fin (r := (E, s, .panic)) hr.symm (by simp))
      | start => exact absurd rfl (decl_out hr).1
      | ignore => exact absurd rfl (decl_out hr).2
    · have hlr : PEats c (i.x c.c.ns) b (prun c ext fuel expand false false true more [] (start (.builtin i) .never) b) := by
        rw [prun_after (by rw [hx]; exact hs)]
        refine after_eats A J (see_splits J (by rw [A.isPE] at hs; exact hs)) ?_ (fun s' b' hb' q l e => late_run A J true more _ b' rfl s' q l e)
        have hn := next_first (p := PState.init) rfl rfl (i.x c.c.ns).e (t := t) ht hbom (b.take k)
        have hl := late_next (e := (i.x c.c.ns).e) (s := { PState.init with h := .prolog1 }) (t := t) (b := b.take k) (by simp [Late, PState.init])
        rw [← hn] at hl
        exact round_of A (s := start (.builtin i) .never)
          (s1 := { start (.builtin i) .never with el := { (start (.builtin i) .never).el with p := (PState.next (i.x c.c.ns).e PState.init t (b.take k)).1 } })
          ⟨rfl, rfl, rfl⟩ rfl hl.1 hl.2 hbom true
      exact other (fun n h => ht (by rw [hs] at h; injection h)) (by simp [hs]) hlr

end

/-! ### Nothing is left at the end -/

section
variable {c : Cfg} {D : Dtd} {int x : XEnc} {asc : UInt8 → Buf} (S : XSupported x asc)
include S

omit S in
theorem space_left {asc : UInt8 → Buf} (S : XSupported x asc) {b : Buf} {n : Nat} (h : prologTok x.e b = ⟨.PROLOG_S_NEG, n⟩) : (b.drop n).length < x.e.mb := by
  have h1 : (prologTok x.e b).tok ≠ .NONE := by rw [h]; simp
  have h2 : (prologTok x.e b).tok ≠ .PARTIAL := by rw [h]; simp
  obtain ⟨-, y, hy, hl, hd⟩ := tok_body S.s h1 h2
  have := Api.spaceNeg_next S.s.ok S.s.even ((tok_trunc S.s h1 h2).trans h) hd
  rw [hy, List.drop_append, this, List.nil_append, List.length_drop]
  omega

theorem run_end (n : Nat) : ∀ (via : Bool) (s : CState) (b : Buf), b.length = n → ∀ E s' q,
    run (parser c D int x) x.e false via s b = (E, .ok s' q) → q.length < x.e.mb := by
  have hpos : 0 < x.e.mb := Nat.succ_pos _
  induction n using Nat.strongRecOn with
  | _ n ih =>
    intro via s b hn E s' q h
    rw [run.eq_def] at h
    simp only at h
    have hprog := verdict_progress (m := (parser c D int x).mode s) (e := x.e) (b := b)
    cases hv : ((parser c D int x).mode s).verdict (((parser c D int x).mode s).tok x.e b).tok with
    | wait c => simp only [hv] at h; cases h
    | fail c => simp only [hv] at h; cases h
    | last t =>
      simp only [hv, Bool.false_eq_true, if_false] at h
      split at h
      · cases h
      · simp only [finish] at h
        split at h <;> cases h
        exact hpos
    | done =>
      simp only [hv, Bool.false_eq_true, if_false, finish] at h
      have hb : b = [] := by
        generalize (parser c D int x).mode s = m at hv
        cases m with
        | content =>
          refine contentTok_none (e := x.e) ?_
          generalize htk : (Mode.content.tok x.e b).tok = t at hv
          rw [show (contentTok x.e b).tok = t from htk]
          cases t <;> first | rfl | cases hv
        | cdata => generalize (Mode.cdata.tok x.e b).tok = t at hv; cases t <;> cases hv
        | epilog => generalize (Mode.epilog.tok x.e b).tok = t at hv; cases t <;> cases hv
      split at h <;> cases h
      rw [hb]; exact hpos
    | stop =>
      simp only [hv] at h
      cases h
      generalize (parser c D int x).mode s = m at hv
      cases m with
      | epilog =>
        suffices hb : b = [] by rw [hb]; exact hpos
        refine prologTok_none (e := x.e) ?_
        generalize htk : (Mode.epilog.tok x.e b).tok = t at hv
        rw [show (prologTok x.e b).tok = t from htk]
        cases t <;> first | rfl | cases hv
      | cdata => generalize (Mode.cdata.tok x.e b).tok = t at hv; cases t <;> cases hv
      | content => generalize (Mode.content.tok x.e b).tok = t at hv; cases t <;> cases hv
    | actStop =>
      simp only [hv] at h
      have hb : (b.drop (((parser c D int x).mode s).tok x.e b).next).length < x.e.mb := by
        generalize (parser c D int x).mode s = m at hv
        cases m with
        | epilog =>
          refine space_left S (n := _) ?_
          generalize htk : Mode.epilog.tok x.e b = t at hv
          rw [show prologTok x.e b = t from htk]
          obtain ⟨t, n⟩ := t
          cases t <;> first | rfl | cases hv
        | cdata => generalize (Mode.cdata.tok x.e b).tok = t at hv; cases t <;> cases hv
        | content => generalize (Mode.content.tok x.e b).tok = t at hv; cases t <;> cases hv
      split at h
      · cases h
      · split at h <;> cases h
        exact hb
    | act =>
      simp only [hv] at h
      have hg : ∀ s, (parser c D int x).stop s = .go := by intro s; unfold parser; cases D.fuel <;> rfl
      split at h
      · cases h
      · rw [if_pos (.inr (.inr (hg _))), if_pos (hprog hv)] at h
        simp only [pre] at h
        injection h with _ h
        exact ih _ (by rw [← hn]; exact hprog hv) _ _ _ rfl _ _ _ (Prod.ext rfl h)

theorem feed_end (xs : List Buf) : ∀ (s : CState) (r : Buf) E s' q, feed (parser c D int x) x.e s r xs = (E, .ok s' q) → q.length < x.e.mb := by
  induction xs with
  | nil => intro s r E s' q h; exact run_end S _ _ _ _ rfl _ _ _ h
  | cons y ys ih =>
    intro s r E s' q h
    cases ys with
    | nil => exact run_end S _ _ _ _ rfl _ _ _ h
    | cons z zs =>
      rw [feed] at h
      · generalize call (parser c D int x) x.e true s (r ++ y) = p at h
        obtain ⟨E1, o⟩ := p
        cases o with
        | err e => cases h
        | ok s1 r1 =>
          simp only [pre] at h
          injection h with _ h
          exact ih _ _ _ _ _ (Prod.ext rfl h)
      · simp

end

/-! ### Documents -/

/-- The handler calls of the content. -/
def inside : C57.DocEnd → List Ev
  | .content F _ => F
  | .prolog _ => []

/-- The default handler has been given, in order, the text `a` of `b = a ++ q`, and all of it if the document is accepted. -/
def Copies (x : XEnc) (b : Buf) (d : C57.Doc) : Prop :=
  POnly d.1 ∧ Only (inside d.2.2) ∧ ∃ a q, b = a ++ q ∧ ptext d.1 ++ text (inside d.2.2) = raw x a ∧
    (C61.Accepted d → q.length < x.e.mb ∧ (q ≠ [] → x.e.mb ∣ a.length))

section
variable {c : PCfg} (A : Alone c) {ext : Ext} {fuel : Nat} {x : XEnc} {asc : UInt8 → Buf} (S : XSupported x asc)
include A S

theorem copies_content {E : List PEv} {s : DState} {b q : Buf} (hg : Got x b E q) (hx : s.x c false = x) (xs : List Buf) :
    Copies x (b ++ xs.flatten) (E, s, C57.content c s q xs) := by
  obtain ⟨h1, a, rfl, h2, hT⟩ := hg
  have hf := eats_feed A (D := s.D.toDtd) (int := c.int) (joins_all S) xs CState.init q
  have he := fun E s' r => feed_end (c := c.c) (D := s.D.toDtd) (int := c.int) S xs CState.init q E s' r
  rw [← hx] at hf he
  simp only [C57.content]
  unfold C57.contentSem
  generalize Verif.feed (parser c.c s.D.toDtd c.int (s.x c false)) (s.x c false).e CState.init q xs = r at *
  obtain ⟨F, o⟩ := r
  obtain ⟨g1, a', q', g2, g3, g4⟩ := hf
  rw [hx] at g3
  refine ⟨h1, g1, a ++ a', q', ?_, ?_, ?_⟩
  · rw [List.append_assoc, g2, List.append_assoc]
  · simp only [inside]; rw [h2, hT.2]; exact congrArg _ g3
  · rintro ⟨E', z', F', u, r, hd⟩
    injection hd with _ hd
    injection hd with _ hd
    injection hd with _ hd
    subst hd
    rw [hx] at g4
    obtain ⟨rfl, g5⟩ := g4 _ _ rfl
    rw [hx] at he
    refine ⟨he _ _ _ rfl, fun hne => (hT.append (g5.resolve_right fun h => hne h.2)).1⟩

omit A S in
theorem copies_failed {E : List PEv} {s : DState} {b : Buf} {o : PEnd} (y : Buf) (h : Some1 x b E) : Copies x (b ++ y) (E, s, .prolog o) := by
  obtain ⟨h1, a, q, rfl, h2⟩ := h
  refine ⟨h1, .nil, a, q ++ y, by simp, by simpa [inside, text] using h2, ?_⟩
  rintro ⟨E', z', F', u, r, hd⟩
  cases hd

theorem copies_finish {b : Buf} {r : Prolog} (h : PEats c x b r) : Copies x b (C57.finishDoc c r) := by
  obtain ⟨E, s, o⟩ := r
  have e : b = b ++ [].flatten := by simp
  have e' : b = b ++ ([] : Buf) := by simp
  cases o with
  | content q => rw [e]; exact copies_content A S h.1 h.2 []
  | done q => rw [e']; exact copies_failed _ h.1.some
  | err c => rw [e']; exact copies_failed _ h
  | panic => rw [e']; exact copies_failed _ h

theorem copies_late (xs : List Buf) : ∀ (s : DState) (rest : Buf), Quiet s → Late s.el.p → s.x c false = x →
    Copies x (rest ++ xs.flatten) (C57.document c ext fuel s rest xs) := by
  induction xs with
  | nil => intro s rest Q L hx; rw [List.flatten_nil, List.append_nil]; exact copies_finish A S (late_call A (joins_all S) false Q L hx rest)
  | cons y ys ih =>
    intro s rest Q L hx
    cases ys with
    | nil =>
      rw [C57.document, List.flatten_cons, List.flatten_nil, List.append_nil]
      exact copies_finish A S (late_call A (joins_all S) false Q L hx _)
    | cons z zs =>
      rw [C57.document]
      · have h := late_call A (ext := ext) (fuel := fuel) (opened := []) (joins_all S) true Q L hx (rest ++ y)
        generalize prologCall c ext fuel [] true s (rest ++ y) = r at h
        obtain ⟨E, s', o⟩ := r
        rw [List.flatten_cons, ← List.append_assoc]
        cases o with
        | err e => exact copies_failed _ h
        | panic => exact copies_failed _ h
        | content q =>
          have := copies_content A S h.1 h.2 ([] :: z :: zs)
          rwa [List.flatten_cons (l := []), List.nil_append] at this
        | done q =>
          obtain ⟨⟨h1, a, h2, h3, hT⟩, hQ, hL, he⟩ := h
          have g := ih s' q hQ hL he
          simp only
          generalize C57.document c ext fuel s' q (z :: zs) = d at g
          obtain ⟨P, s2, o2⟩ := d
          obtain ⟨g1, g2, a', q', g3, g4, g5⟩ := g
          refine ⟨h1.append g1, g2, a ++ a', q', ?_, ?_, ?_⟩
          · rw [h2, List.append_assoc, g3, List.append_assoc]
          · simp only at g4 ⊢; rw [ptext_append, show ptext E = _ from h3, List.append_assoc, g4, hT.2]
          · rintro ⟨E', z', F', u, r, hd⟩
            injection hd with _ hd
            obtain ⟨k1, k2⟩ := g5 ⟨_, _, _, _, _, congrArg (Prod.mk P) hd⟩
            exact ⟨k1, fun hne => by rw [List.length_append]; exact Nat.dvd_add hT.1 (k2 hne)⟩
      · simp

end

/-- The document `b` begins with an XML declaration `h` or with none, and the default handler has been given `h` and what follows. -/
def Whole (c : PCfg) (i : EncId) (b : Buf) (D : C57.Doc) : Prop :=
  ∃ h d j r E D', Begins c i b h d j r ∧ D = (E ++ D'.1, D'.2) ∧ POnly E ∧ ptext E = raw (i.x c.c.ns) h ∧ Copies (j.x c.c.ns) r D'

section
variable {c : PCfg} (A : Alone c) {i : EncId} {ext : Ext} {fuel : Nat}
include A

omit A in
theorem Whole.of {b b' h : Buf} {d : Option C18.Src} {j : EncId} {E : List PEv} {D' : C57.Doc} (hB : Begins c i b h d j b') (h1 : POnly E)
    (h2 : ptext E = raw (i.x c.c.ns) h) (h3 : Copies (j.x c.c.ns) b' D') : Whole c i b (E ++ D'.1, D'.2) := ⟨h, d, j, b', E, D', hB, rfl, h1, h2, h3⟩

theorem whole_start (xs : List Buf) : ∀ rest : Buf, Whole c i (rest ++ xs.flatten) (C57.document c ext fuel (start (.builtin i) .never) rest xs) := by
  have last (b : Buf) : Whole c i b (C57.finishDoc c (prologCall c ext fuel [] false (start (.builtin i) .never) b)) := by
    rcases start_call A (ext := ext) (fuel := fuel) false b with ⟨h, -⟩ | ⟨h, d, j, b', E, r', hr, hB, rfl, h1, h2, h3⟩
    · cases h
    · have hB := hB [] (fun _ => rfl)
      rw [List.append_nil, List.append_nil] at hB
      have := Whole.of hB h1 h2 (copies_finish A (C54.supported c.c.ns j) h3)
      rw [hr]
      obtain ⟨E', s', o⟩ := r'
      cases o <;> exact this
  induction xs with
  | nil => intro rest; rw [List.flatten_nil, List.append_nil]; exact last rest
  | cons y ys ih =>
    intro rest
    cases ys with
    | nil => rw [C57.document, List.flatten_cons, List.flatten_nil, List.append_nil]; exact last _
    | cons z zs =>
      rw [C57.document]
      · rw [List.flatten_cons, ← List.append_assoc]
        rcases start_call A (ext := ext) (fuel := fuel) true (rest ++ y) with ⟨-, hw⟩ | ⟨h, d, j, b', E, r', hr, hB, hb, h1, h2, h3⟩
        · rw [hw]
          simp only
          have := ih (rest ++ y)
          simpa using this
        · have hB := hB (z :: zs).flatten (fun h => by cases h)
          have S := C54.supported c.c.ns j
          rw [hr]
          obtain ⟨E', s', o⟩ := r'
          cases o with
          | err e => exact Whole.of (D' := (E', s', .prolog (.err e))) hB h1 h2 (copies_failed _ h3)
          | panic => exact Whole.of (D' := (E', s', .prolog .panic)) hB h1 h2 (copies_failed _ h3)
          | content q =>
            have := copies_content A S h3.1 h3.2 ([] :: z :: zs)
            rw [List.flatten_cons (l := []), List.nil_append] at this
            exact Whole.of hB h1 h2 this
          | done q =>
            obtain ⟨⟨k1, a, k2, k3, hT⟩, hQ, hL, he⟩ := h3
            have g := copies_late A S (ext := ext) (fuel := fuel) (z :: zs) s' q hQ hL he
            simp only [Prolog.pre]
            generalize C57.document c ext fuel s' q (z :: zs) = d at g
            obtain ⟨P, s2, o2⟩ := d
            obtain ⟨g1, g2, a', q', g3, g4, g5⟩ := g
            simp only
            rw [List.append_assoc E]
            refine Whole.of (D' := (E' ++ P, s2, o2)) hB h1 h2 ⟨k1.append g1, g2, a ++ a', q', ?_, ?_, ?_⟩
            · rw [k2, List.append_assoc, g3, List.append_assoc]
            · simp only at g4 ⊢; rw [ptext_append, show ptext E' = _ from k3, List.append_assoc, g4, hT.2]
            · rintro ⟨E2, z', F', u, r, hd⟩
              injection hd with _ hd
              obtain ⟨l1, l2⟩ := g5 ⟨_, _, _, _, _, congrArg (Prod.mk P) hd⟩
              exact ⟨l1, fun hne => by rw [List.length_append]; exact Nat.dvd_add hT.1 (l2 hne)⟩
      · simp

end

end Verif.C65
