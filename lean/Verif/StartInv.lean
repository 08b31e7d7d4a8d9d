import Verif.DoctypeInv
import Verif.Props.C60

/-! The start of a document, backwards: the XML declaration and the prolog. -/

set_option autoImplicit false

namespace Verif.C61
open C43 C53 C59 C60 Spec Verif PState

section
variable {c : PCfg} {ext : Ext} {fuel : Nat} {expand : Bool → Buf → Buf → DState → Acted}
  {internal between allowClose more : Bool} {opened : List Buf}

/-- Except for an XML declaration the first token is treated like the later ones. -/
theorem prun_same {s : DState} (h0 : s.el.p.h = .prolog0) (h1 : s.el.p.documentEntity = true) {b : Buf}
    (ht : ∀ n, seeToken (s.x c internal) internal between more c.isPE b ≠ .tok .XML_DECL n)
    (hp : ∀ n, seeToken (s.x c internal) internal between more c.isPE b = .tok .BOM n → False)
    (he : (prun c ext fuel expand internal between allowClose more opened s b).2.2 ≠ .done b)
    (hs : ∀ u o, prun c ext fuel expand internal between allowClose more opened s b ≠ ([], u, .err o))
    (hq : (prun c ext fuel expand internal between allowClose more opened s b).2.2 ≠ .panic) :
    prun c ext fuel expand internal between allowClose more opened (s.withP { s.el.p with h := .prolog1 }) b =
      prun c ext fuel expand internal between allowClose more opened s b := by
  have hx : (s.withP { s.el.p with h := .prolog1 }).x c internal = s.x c internal := rfl
  rw [prun.eq_def] at he hq
  have hs' := hs
  rw [prun.eq_def] at hs'
  rw [prun.eq_def, prun.eq_def (s := s)]
  simp only [hx]
  cases hq' : seeToken (s.x c internal) internal between more c.isPE b with
  | wait => simp only [hq'] at he; exact absurd rfl he
  | fail e => simp only [hq'] at hs'; exact absurd rfl (hs' _ _)
  | panic => simp only [hq'] at hq; exact absurd rfl hq
  | endPE =>
    simp only [hq'] at he hs'
    split at he
    · rename_i h2
      simp only [if_pos h2] at hs'
      exact absurd rfl (hs' _ _)
    · exact absurd rfl he
  | tok t n =>
    simp only
    have hp := next_first h0 h1 (s.x c internal).e (t := t) (fun h => ht n (by rw [hq', h])) (fun h => hp n (by rw [hq', h])) (b.take n)
    have key : pround c ext fuel expand internal allowClose opened (s.withP { s.el.p with h := .prolog1 }) t (b.take n) =
        pround c ext fuel expand internal allowClose opened s t (b.take n) := by
      rw [pround, pround]
      simp only [hx, hp]
      rfl
    rw [key]

end

/-- The text of an XML declaration. -/
theorem decl_markup {x : XEnc} {asc : UInt8 → Buf} (S : XSupported x asc) {w : Buf} (h : Markup x.e asc .XML_DECL w) :
    ∃ d, PiBody x.e asc d ∧ w = spell asc [0x3C, 0x3F] ++ ((xmlName.map asc).flatten ++ (d ++ spell asc [0x3F, 0x3E])) := by
  generalize ht : Tok.XML_DECL = t at h
  cases h with
  | pi h1 h2 h3 =>
    subst ht
    refine ⟨_, h2, ?_⟩
    rw [(C07.checkPiTarget_spec S.s _).1.1 h3]
    rfl
  | ref h => cases h <;> cases ht
  | tag empty => cases empty <;> cases ‹List AttrSrc› <;> cases ht
  | _ => cases ht

theorem decl_inner {x : XEnc} {asc : UInt8 → Buf} (S : XSupported x asc) (d : Buf) :
    declText x.e (spell asc [0x3C, 0x3F] ++ ((xmlName.map asc).flatten ++ (d ++ spell asc [0x3F, 0x3E]))) = d := by
  have h5 : (spell asc ([0x3C, 0x3F] ++ xmlName)).length = 5 * x.e.mb := by
    rw [spell, spell_length S.s]; rfl
  have h2 : (spell asc [0x3F, 0x3E]).length = 2 * x.e.mb := by
    rw [spell, spell_length S.s]; rfl
  have h1 : spell asc [0x3C, 0x3F] ++ ((xmlName.map asc).flatten ++ (d ++ spell asc [0x3F, 0x3E])) =
      spell asc ([0x3C, 0x3F] ++ xmlName) ++ (d ++ spell asc [0x3F, 0x3E]) := by simp [spell]
  rw [declText, h1, List.drop_left' h5]
  refine List.take_left' ?_
  simp only [List.length_append, h5, h2]; omega

/-- Whether US-ASCII has the byte. -/
theorem ascii_classes (ns : Bool) : ∀ d : UInt8, d < 0x80 ∧ lone ((asciiX ns).e.bt [d]) = true ∨ lone ((asciiX ns).e.bt [d]) = false ∧
    (asciiX ns).e.bt [d] ≠ .LEAD2 ∧ (asciiX ns).e.bt [d] ≠ .LEAD3 ∧ (asciiX ns).e.bt [d] ≠ .LEAD4 := by
  cases ns <;> exact UInt8.forall_dec (by decide +kernel)

theorem ascii_char {ns : Bool} {w : Buf} (h : (asciiX ns).e.IsChar w) : ∀ d ∈ w, d < 0x80 := by
  cases w with
  | nil => simp
  | cons d r =>
    have hb : (asciiX ns).e.bt (d :: r) = (asciiX ns).e.bt [d] := by cases ns <;> rfl
    rw [Enc.IsChar, hb] at h
    have key := ascii_classes ns d
    generalize (asciiX ns).e.bt [d] = t at h key
    have hm : (asciiX ns).e.mb = 1 := rfl
    cases t <;> simp [lone, hm] at h key <;> (subst h; simpa using key)

theorem clean_body {i : EncId} {ns : Bool} {d : Buf} (h : PiBody (i.x ns).e (C54.ascOf i) d) : (i.x ns).Clean d := by
  rintro ⟨ns', hi⟩
  have ha : C54.ascOf i = asc1 := by
    have hm := congrArg (fun x : XEnc => x.e.mb) hi
    cases i <;> first | rfl | exact absurd hm (by cases ns <;> cases ns' <;> decide)
  rw [ha, hi] at h
  cases h with
  | none => simp
  | data e ws h1 h2 h3 =>
    intro b hb
    rcases List.mem_append.1 hb with hb | hb
    · rw [asc1, List.mem_singleton] at hb
      subst hb
      refine ?_
      revert h1
      exact UInt8.forall_dec (P := fun b => isWS b = true → b < 0x80) (by decide +kernel) _
    · obtain ⟨w, hw, hb⟩ := List.mem_flatten.1 hb
      exact ascii_char (h2 w hw) b hb

theorem act_decl {c : PCfg} {i : EncId} (hu : c.unknown = fun _ => none) {w : Buf} {s : DState} (hs : s.cur = .builtin i) {hd : Bool}
    (h : (actXmlDecl c s false w).2.2 = .go hd) :
    ∃ j, processXmlDecl c.c.ns i c.protocol false (declText (i.x c.c.ns).e w) = .proceed j := by
  have hx : s.cur.x c.c.ns = i.x c.c.ns := by rw [hs]; rfl
  rw [actXmlDecl] at h
  simp only [hx] at h
  split at h
  · cases h
  · cases h
  · rename_i o ho
    generalize hs1 : (if (!false && o.standalone == some true) = true then ({ s with D := { s.D with standalone := true }, pe := if s.pe = .unlessStandalone then .never else s.pe } : DState) else s) = s1 at h
    have hc1 : s1.cur = .builtin i := by rw [← hs1]; split <;> exact hs
    rw [hc1] at h
    split at h
    · cases h
    · simp only at h
      split at h
      · cases h
      · cases h
      · cases h
      · rename_i j hj; exact ⟨j, hj⟩
      · rw [hu] at h; cases h

/-- The declarations that are accepted, with the encoding in which the document goes on. -/
theorem head_back {c : PCfg} {i : EncId} (hu : c.unknown = fun _ => none) {w : Buf} (hw : Markup (i.x c.c.ns).e (C54.ascOf i) .XML_DECL w) {s : DState}
    (hs : s.cur = .builtin i) {hd : Bool} (h : (actXmlDecl c s false w).2.2 = .go hd) :
    ∃ d j, Head c i w (some d) j := by
  have S := C54.supported c.c.ns i
  obtain ⟨b, h1, rfl⟩ := decl_markup S hw
  have hc := clean_body h1
  obtain ⟨j, hj⟩ := act_decl hu hs h
  rw [decl_inner S] at hj
  cases hp : doParseXmlDecl (i.x c.c.ns) false b with
  | panic => rw [processXmlDecl, hp] at hj; cases hj
  | bad => rw [processXmlDecl, hp] at hj; cases hj
  | ok o =>
    obtain ⟨d, h2, h3, rfl, rfl⟩ := (C18.accepted_partial S false hc o).1 hp
    suffices hn : ∃ j, NextEnc c.protocol i d j by
      obtain ⟨j, hn⟩ := hn
      exact ⟨d, j, .decl d j h2 h3 hn⟩
    rcases Bool.eq_false_or_eq_true c.protocol with hpr | hpr
    · exact ⟨i, .given hpr⟩
    · have key := C54.declared_encoding c.c.ns i false h2 h3 hc
      cases he : d.encoding with
      | none => exact ⟨i, .silent he⟩
      | some a =>
        rw [hpr] at hj
        rw [he, Option.map_some, C54.expected, hj] at key
        have h0 := C18.val_zero (h2.encoding a he).1.value
        by_cases h16 : C16.SameName a.value (C16.codes ['U','T','F','-','1','6']) ∧ C54.unitSize i = 2
        · exact ⟨i, .utf16 a he h16.1 h16.2⟩
        · rw [if_neg h16] at key
          cases hk : getEncodingIndex (some a.value) with
          | none => rw [hk] at key; cases key
          | some k =>
            rw [hk] at key
            obtain ⟨n, g1, g2⟩ := (C16.index_iff a.value h0 k).1 hk
            by_cases hcm : C54.Compatible i k.enc
            · exact ⟨k.enc, .named a n k hpr he g1 g2 hcm⟩
            · simp only [if_neg hcm] at key
              cases key

section
variable {c : PCfg} {i : EncId} {ext : Ext} {fuel : Nat}

theorem peAfter_never (a : Bool) : peAfter a .never = .never := by simp [peAfter]

theorem never_untyped (cur : CurEnc) (a : Bool) (x : XEnc) (asc : UInt8 → Buf) :
    Untyped (reading c x asc .never) (frame (begun cur .never a)) { standalone := a } := by
  have := begun_untyped (c := c) cur .never a x asc
  rwa [peAfter_never] at this

/-- A document entity that comes to the root element begins with a prolog. -/
theorem start_parts (hu : c.unknown = fun _ => none) (hi : c.int = internalUtf8X c.c.ns) (hpe : c.isPE = false) {b r : Buf} {z : DState}
    (hd : (i.x c.c.ns).e.mb ∣ b.length) (hlen : b.length + 3 < 2 ^ 31) (hf : b.length < fuel)
    (h : (prologCall c ext fuel [] false (start (.builtin i) .never) b).2 = (z, .content r)) :
    ∃ h w d j A D', b = h ++ (w ++ r) ∧ (d = none → (prologTok (i.x c.c.ns).e b).tok ≠ .XML_DECL) ∧ Head c i h d j ∧
      PrologText (reading c (j.x c.c.ns) (C54.ascOf j) .never) { standalone := aloneIn d } w A D' ∧
      z.D = D' ∧ z.cur = .builtin j ∧ prologTok (j.x c.c.ns).e r = ⟨.INSTANCE_START, 0⟩ ∧ (j.x c.c.ns).e.mb ∣ r.length := by
  rw [C57.call_loop rfl] at h
  change (prun c ext fuel (expandPE c ext fuel fuel []) false false true false [] (start (.builtin i) .never) b).2 = _ at h
  have here (j : EncId) (b : Bool) : Here (reading c (j.x c.c.ns) (C54.ascOf j) .never) (frame (begun (.builtin j) .never b)) c.c.ns :=
    ⟨⟨rfl, hpe, rfl, rfl, rfl, C54.supported c.c.ns j⟩, rfl, by simp [reading, frame, begun, peAfter], hi⟩
  have P := (here i false).plain
  have texts (b : Bool) : C33.TextsOk (DTab.toDtd { standalone := b }) (internalUtf8X c.c.ns) := by
    intro n ent t h
    cases h
  have e : Ends (reading c (i.x c.c.ns) (C54.ascOf i) .never) ext fuel (expandPE c ext fuel fuel []) z (start (.builtin i) .never) b r :=
    ⟨rfl, hd, congrArg (·.2) h, congrArg (·.1) h⟩
  obtain ⟨t, w, b', rfl, L⟩ := e.tok P rfl rfl (by simp [start, PState.init])
  -- the rest
  have fin {j : EncId} {b : Buf} {a : Bool} (hl : b.length + 3 < 2 ^ 31) (hf : b.length < fuel)
      (e : Ends (reading c (j.x c.c.ns) (C54.ascOf j) .never) ext fuel (expandPE c ext fuel fuel []) z (begun (.builtin j) .never a) b r) :
      ∃ w A D', b = w ++ r ∧ PrologText (reading c (j.x c.c.ns) (C54.ascOf j) .never) { standalone := a } w A D' ∧
      z.D = D' ∧ z.cur = .builtin j ∧ prologTok (j.x c.c.ns).e r = ⟨.INSTANCE_START, 0⟩ ∧ (j.x c.c.ns).e.mb ∣ r.length := by
    obtain ⟨w, A, D', h1, h2, h3, h4, h5, h6⟩ := prolog_back (here j a) (never_untyped (.builtin j) a _ _) (texts a) hl (by simpa using hf)
      (begun_at (.builtin j) .never a) rfl e
    exact ⟨w, A, D', h1, h2, h5, h6, h3, h4⟩
  by_cases ht : t = .XML_DECL
  · subst ht
    have hm := lex_misc (.inr (.inr rfl)) L.lex
    rcases L.good with ⟨hg, g⟩ | ⟨g, -⟩
    · obtain ⟨d, j, hh⟩ := head_back (s := begun (.builtin i) .never false) (hd := hg) hu hm rfl (by
        have hs : ({ start (.builtin i) .never with el := { (start (.builtin i) .never).el with p := { PState.init with h := .prolog1 } } } : DState) =
            begun (.builtin i) .never false := by
          simp [start, begun, peAfter]
        rw [← hs]
        exact g)
      have hun := hh.unit
      generalize hd' : some d = d' at hh
      cases hh with
      | none => cases hd'
      | decl d _ hv h127 hn =>
        cases hd'
        obtain ⟨V, b1, b2⟩ := decl_step (ext := ext) (fuel := fuel) (expand := expandPE c ext fuel fuel []) (between := false) (allowClose := true)
          (more := false) (opened := []) hv h127 hn .never b' hd
        have b3 := congrArg (fun p : Prolog => p.2) b2
        simp only [hear, Prolog.pre] at b3
        rw [h] at b3
        have S := C54.supported c.c.ns i
        have hd2 : (j.x c.c.ns).e.mb ∣ b'.length := by
          rw [← hun]
          rw [List.length_append] at hd
          refine (Nat.dvd_add_right ?_).1 hd
          have e1 : xmlDeclText (C54.ascOf i) d = spell (C54.ascOf i) ([0x3C, 0x3F] ++ C07.xmlName ++ d.text ++ [0x3F, 0x3E]) := by
            simp [xmlDeclText, spell, xmlName, C07.xmlName]
          rw [e1, spell, spell_length S.s]
          exact Nat.dvd_mul_left _ _
        simp only [List.length_append] at hlen hf
        obtain ⟨w1, A, D', h1, h2, h3⟩ := fin (j := j) (a := alone d) (by omega) (by omega) ⟨rfl, hd2, (congrArg (·.2) b3).symm, (congrArg (·.1) b3).symm⟩
        exact ⟨_, w1, some d, j, A, D', by rw [h1], (fun h => by cases h), .decl d j hv h127 hn, h2, h3⟩
    · cases g
  · have hsee : seeToken (i.x c.c.ns) false false false c.isPE (w ++ b') = .tok t w.length := by
      have := L.tok
      simp only [reading] at this
      rw [seeToken, this, seeRes, if_pos (by simp [L.ok])]
    have key := prun_same (c := c) (ext := ext) (fuel := fuel) (expand := expandPE c ext fuel fuel []) (internal := false) (between := false)
      (allowClose := true) (more := false) (opened := []) (s := start (.builtin i) .never) rfl rfl (b := w ++ b')
      (fun n hn => ht (by rw [show (start (.builtin i) .never).x c false = i.x c.c.ns from rfl, hsee] at hn; injection hn))
      (fun n hn => seeToken_noBom hn) (by rw [h]; simp) (fun u o ho => by rw [ho] at h; cases h) (by rw [h]; simp)
    have hs : (start (.builtin i) .never).withP { (start (.builtin i) .never).el.p with h := .prolog1 } = begun (.builtin i) .never false := by
      simp [start, begun, peAfter, DState.withP]
    rw [hs] at key
    obtain ⟨w1, A, D', h1, h2, h3⟩ := fin (j := i) (a := false) hlen hf ⟨rfl, hd, by
      change (prun c ext fuel (expandPE c ext fuel fuel []) false false true false [] (begun (.builtin i) .never false) (w ++ b')).2.2 = _
      rw [key, h], by
      change (prun c ext fuel (expandPE c ext fuel fuel []) false false true false [] (begun (.builtin i) .never false) (w ++ b')).2.1 = _
      rw [key, h]⟩
    exact ⟨[], w1, none, i, A, D', h1, (fun _ => by rw [show prologTok (i.x c.c.ns).e (w ++ b') = ⟨t, w.length⟩ from L.tok]; exact ht), .none, h2, h3⟩

theorem start_back (hu : c.unknown = fun _ => none) (hi : c.int = internalUtf8X c.c.ns) (hpe : c.isPE = false) {b r : Buf} {z : DState}
    (hd : (i.x c.c.ns).e.mb ∣ b.length) (hlen : b.length + 3 < 2 ^ 31) (hf : b.length < fuel)
    (h : (prologCall c ext fuel [] false (start (.builtin i) .never) b).2 = (z, .content r)) :
    ∃ h w d j A D', b = h ++ (w ++ r) ∧ Head c i h d j ∧
      PrologText (reading c (j.x c.c.ns) (C54.ascOf j) .never) { standalone := aloneIn d } w A D' ∧
      z.D = D' ∧ z.cur = .builtin j ∧ prologTok (j.x c.c.ns).e r = ⟨.INSTANCE_START, 0⟩ ∧ (j.x c.c.ns).e.mb ∣ r.length := by
  obtain ⟨h, w, d, j, A, D', h1, -, h2⟩ := start_parts hu hi hpe hd hlen hf h
  exact ⟨h, w, d, j, A, D', h1, h2⟩

end

end Verif.C61
