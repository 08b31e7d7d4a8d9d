import Verif.ElemInv

/-! The internal subset, backwards. -/

set_option autoImplicit false

namespace Verif.C61
open C43 C53 C59 Spec Verif PState

/-! ### The texts of entities are legal -/

/-- Legal characters in UTF-8. -/
def LegalText (b : Buf) : Prop := ∃ cs : List Nat, (∀ c ∈ cs, XmlChar c) ∧ b = utf8s cs

theorem LegalText.nil : LegalText [] := ⟨[], by simp, rfl⟩

theorem LegalText.app {a b : Buf} (h1 : LegalText a) (h2 : LegalText b) : LegalText (a ++ b) := by
  obtain ⟨cs, g1, rfl⟩ := h1
  obtain ⟨ds, g2, rfl⟩ := h2
  refine ⟨cs ++ ds, ?_, (C51.utf8s_append _ _).symm⟩
  intro c hc
  rcases List.mem_append.1 hc with hc | hc
  · exact g1 c hc
  · exact g2 c hc

theorem LegalText.one {c : Nat} (h : XmlChar c) : LegalText (utf8 c) := ⟨[c], by simpa using h, (utf8s_one c).symm⟩

theorem LegalText.lf {b : Buf} (h : LegalText b) : LegalText (0x0A :: b) := by
  have : LegalText (utf8 0x0A) := .one (by decide)
  exact this.app h

theorem legal_lit {ns : Bool} {b : Buf} (h : LegalText b) : Lit (internalUtf8X ns).e asc1 b := by
  obtain ⟨cs, g, rfl⟩ := h
  induction cs with
  | nil => exact .nil
  | cons c cs ih =>
    rw [C51.utf8s_cons]
    exact .char _ _ ((internalUtf8Enc_isChar ns _).2 ⟨c, g c (by simp), rfl⟩) (ih fun d hd => g d (by simp [hd]))

theorem chars_strip {e : Enc} {asc : UInt8 → Buf} (s : Supported e asc) {us : List Buf} (hu : ∀ u ∈ us, e.Piece u) :
    ∀ {vs : List Buf} {r : Buf}, e.Chars vs → vs.flatten = us.flatten ++ r → e.Chars us ∧ ∃ ts, e.Chars ts ∧ r = ts.flatten := by
  induction us with
  | nil => intro vs r hv h; exact ⟨by simp [Enc.Chars], vs, hv, by simpa using h.symm⟩
  | cons u us ih =>
    intro vs r hv h
    have hp := hu u (by simp)
    cases vs with
    | nil =>
      have h1 := congrArg List.length h
      have h2 : 0 < e.mb := Nat.succ_pos _
      have h3 := hp.1
      simp only [List.flatten_cons, List.flatten_nil, List.length_append, List.length_nil] at h1
      omega
    | cons v vs =>
      rw [List.flatten_cons, List.flatten_cons, List.append_assoc] at h
      obtain ⟨rfl, h'⟩ := piece_unique s (char_piece s hv.head) hp h
      obtain ⟨g1, g2⟩ := ih (fun u h => hu u (by simp [h])) hv.tail h'
      refine ⟨?_, g2⟩
      intro w hw
      rcases List.mem_cons.1 hw with rfl | hw
      · exact hv.head
      · exact g1 w hw

theorem name_pieces {e : Enc} {asc : UInt8 → Buf} (s : Supported e asc) {us : List Buf} (h : e.Name us) : ∀ u ∈ us, e.Piece u := by
  intro u hu
  rcases C33.name_chars h u hu with h | h
  · exact name_piece s h
  · exact nmstrt_name s h

/-- A replacement text made without parameter entities consists of legal characters. -/
theorem repl_legal {par : Buf → Option Entity} {int x : XEnc} {asc : UInt8 → Buf} {le pes : Bool} {op : List Buf} {b out : Buf}
    (S : XSupported x asc) (h : C58.Repl par int x asc le pes op b out) :
    pes = false → ∀ us : List Buf, x.e.Chars us → us.flatten = b → LegalText out := by
  induction h with
  | nil => exact fun _ _ _ _ => .nil
  | @crlf x asc pes op r out _ ih =>
    intro hp us hu hb
    obtain ⟨-, ts, h1, h2⟩ := chars_strip S.s (us := [asc 0x0D, asc 0x0A]) (r := r) (by
      intro u hu
      simp only [List.mem_cons, List.not_mem_nil, or_false] at hu
      rcases hu with rfl | rfl
      · exact char_piece S.s (cr_char S)
      · exact char_piece S.s (lf_char S)) hu (by simpa using hb)
    exact (ih S hp ts h1 h2.symm).lf
  | @cr x asc pes op r out _ _ ih =>
    intro hp us hu hb
    obtain ⟨-, ts, h1, h2⟩ := chars_strip S.s (us := [asc 0x0D]) (r := r) (by
      intro u hu
      rw [List.mem_singleton.1 hu]
      exact char_piece S.s (cr_char S)) hu (by simpa using hb)
    exact (ih S hp ts h1 h2.symm).lf
  | @lf x asc le pes op r out _ ih =>
    intro hp us hu hb
    obtain ⟨-, ts, h1, h2⟩ := chars_strip S.s (us := [asc 0x0A]) (r := r) (by
      intro u hu
      rw [List.mem_singleton.1 hu]
      exact char_piece S.s (lf_char S)) hu (by simpa using hb)
    exact (ih S hp ts h1 h2.symm).lf
  | @char x asc le pes op r out w hw _ _ _ _ _ ih =>
    intro hp us hu hb
    obtain ⟨-, ts, h1, h2⟩ := chars_strip S.s (us := [w]) (r := r) (by
      intro u hu
      rw [List.mem_singleton.1 hu]
      exact char_piece S.s hw) hu (by simpa using hb)
    obtain ⟨c, h3, h4⟩ := conv_legal S hw
    rw [h4]
    exact (LegalText.one h3).app (ih S hp ts h1 h2.symm)
  | @dec x asc le pes op r out ds _ hd hx _ ih =>
    intro hp us hu hb
    obtain ⟨-, ts, h1, h2⟩ := chars_strip S.s (us := asc 0x26 :: asc 0x23 :: (ds.map asc ++ [asc 0x3B])) (r := r) (by
      intro u hu
      simp only [List.mem_cons, List.mem_append, List.mem_map, List.not_mem_nil, or_false] at hu
      rcases hu with rfl | rfl | ⟨d, hd', rfl⟩ | rfl
      · exact char_piece S.s (asc_char S.s (t := .AMP) rfl)
      · exact refChar_piece S.s (by decide)
      · exact refChar_piece S.s (by simp [refChar, hd d hd'])
      · exact refChar_piece S.s (by decide)) hu (by simpa [spell] using hb)
    exact (LegalText.one hx).app (ih S hp ts h1 h2.symm)
  | @hex x asc le pes op r out ds _ hd hx _ ih =>
    intro hp us hu hb
    obtain ⟨-, ts, h1, h2⟩ := chars_strip S.s (us := asc 0x26 :: asc 0x23 :: asc 0x78 :: (ds.map asc ++ [asc 0x3B])) (r := r) (by
      intro u hu
      simp only [List.mem_cons, List.mem_append, List.mem_map, List.not_mem_nil, or_false] at hu
      rcases hu with rfl | rfl | rfl | ⟨d, hd', rfl⟩ | rfl
      · exact char_piece S.s (asc_char S.s (t := .AMP) rfl)
      · exact refChar_piece S.s (by decide)
      · exact refChar_piece S.s (by decide)
      · exact refChar_piece S.s (by simp [refChar, hd d hd'])
      · exact refChar_piece S.s (by decide)) hu (by simpa [spell] using hb)
    exact (LegalText.one hx).app (ih S hp ts h1 h2.symm)
  | @entity x asc le pes op r out ws hn _ ih =>
    intro hp us hu hb
    obtain ⟨h0, ts, h1, h2⟩ := chars_strip S.s (us := asc 0x26 :: (ws ++ [asc 0x3B])) (r := r) (by
      intro u hu
      simp only [List.mem_cons, List.mem_append, List.not_mem_nil, or_false] at hu
      rcases hu with rfl | hu | rfl
      · exact char_piece S.s (asc_char S.s (t := .AMP) rfl)
      · exact name_pieces S.s hn u hu
      · exact refChar_piece S.s (by decide)) hu (by simpa using hb)
    refine LegalText.app ?_ (ih S hp ts h1 h2.symm)
    obtain ⟨cs, g1, g2⟩ := conv_legals S h0
    refine ⟨cs, g1, ?_⟩
    rw [← g2]
    simp
  | param => intro hp; cases hp

section
variable {k : Ctx} {z : DState} {D D' : DTab} {ns : Bool} {w : Buf} {A : List Said}

theorem texts_add (hT : C33.TextsOk D.toDtd (internalUtf8X ns)) {n : Buf} {e : Entity} (he : ∀ t, e.text = some t → LegalText t) :
    C33.TextsOk (addEntity D false n e).toDtd (internalUtf8X ns) := by
  intro m ent t h1 h2
  simp only [addEntity, Dtd.entity, DTab.toDtd, Bool.false_eq_true, if_false, List.find?_append] at h1
  cases h3 : D.gen.find? (·.1 = m) with
  | some p =>
    rw [h3] at h1
    refine hT m ent t ?_ h2
    rw [Dtd.entity, DTab.toDtd, h3]
    exact h1
  | none =>
    rw [h3] at h1
    simp only [Option.none_or, List.find?_cons, List.find?_nil] at h1
    split at h1
    · simp only [Option.map_some, Option.some.injEq] at h1
      subst h1
      exact legal_lit (he t h2)
    · cases h1

theorem def_legal (P : Plain k) (hk : D.keep = true) {p : Bool} {d : EntityDef} (h : EntityDefText k D p w d) (t : Buf)
    (ht : (d.entity k).text = some t) : LegalText t := by
  cases h with
  | value p q ws v h1 h2 =>
    simp only [EntityDef.entity, Option.some.injEq] at ht
    subst ht
    exact repl_legal P.S (h2 hk) (by rw [P.isPE, P.internal]; rfl) ws h1.chars rfl
  | external => cases ht
  | unparsed => cases ht

theorem atts_keeps {elem : Buf} {E : List PEv} (h : AttDefs k elem D w E D') :
    D'.gen = D.gen ∧ D'.par = D.par ∧ D'.keep = D.keep := by
  induction h with
  | nil => exact ⟨rfl, rfl, rfl⟩
  | cons h1 h2 ih =>
    cases h1 with
    | mk =>
      rw [ih.1, ih.2.1, ih.2.2]
      split
      · rw [addAtt]; split <;> exact ⟨rfl, rfl, rfl⟩
      · exact ⟨rfl, rfl, rfl⟩

/-- What declarations preserve. -/
theorem decl_keeps (P : Plain k) (h : Decl k D w A D') :
    (C33.TextsOk D.toDtd (internalUtf8X ns) → C33.TextsOk D'.toDtd (internalUtf8X ns)) ∧ D'.par.length ≤ D.par.length + w.length := by
  have ent {p : Bool} {sp : List UInt8} {nm : Buf} {w' : Buf} {d : EntityDef} {E : List PEv} (h4 : EntityDefText k D p w' d)
      (h6 : Counts k D p nm → E = d.report k p (converted k.x nm) ∧ D' = addEntity D p (converted k.x nm) (d.entity k))
      (h7 : ¬ Counts k D p nm → E = [] ∧ D' = D) :
      (C33.TextsOk D.toDtd (internalUtf8X ns) → C33.TextsOk D'.toDtd (internalUtf8X ns)) ∧ D'.par.length ≤ D.par.length + 1 := by
    by_cases hc : Counts k D p nm
    · rw [(h6 hc).2]
      cases p with
      | false => exact ⟨fun hT => texts_add hT (def_legal P hc.1 h4), by simp [addEntity]⟩
      | true => exact ⟨fun hT => hT, by simp [addEntity]⟩
    · rw [(h7 hc).2]; exact ⟨id, Nat.le_succ _⟩
  have hop (kw : List UInt8) : 1 ≤ (declOpen k.asc kw).length := by
    have := P.S.s.asc.len 0x3C
    have h2 : 0 < k.x.e.mb := Nat.succ_pos _
    simp only [declOpen, List.length_append]; omega
  cases h with
  | entity sp1 name sp2 w d sp3 h1 h2 h3 h4 h5 E _ h6 h7 =>
    obtain ⟨g1, g2⟩ := ent (sp := []) h4 h6 h7
    refine ⟨g1, ?_⟩
    have := hop kwENTITY
    rw [List.length_append]; omega
  | paramEntity sp0 sp1 name sp2 w d sp3 h0 h1 h2 h3 h4 h5 E _ h6 h7 =>
    obtain ⟨g1, g2⟩ := ent (sp := []) h4 h6 h7
    refine ⟨g1, ?_⟩
    have := hop kwENTITY
    rw [List.length_append]; omega
  | attlist sp1 name w sp2 E _ h1 h2 h3 h4 =>
    obtain ⟨g1, g2, g3⟩ := atts_keeps h3
    refine ⟨?_, by rw [g2]; omega⟩
    intro hT n ent t hn
    refine hT n ent t ?_
    rw [← hn, Dtd.entity, Dtd.entity, DTab.toDtd, DTab.toDtd, g1]
  | _ => exact ⟨id, Nat.le_add_right _ _⟩

end

/-! ### Declarations -/

theorem comment_back {e : Enc} {asc : UInt8 → Buf} {w : Buf} (h : Markup e asc .COMMENT w) : ∃ ws, CommentOk e asc ws ∧ w = commentText asc ws := by
  generalize ht : Tok.COMMENT = t at h
  cases h with
  | comment h1 h2 => exact ⟨_, ⟨h1, h2⟩, rfl⟩
  | ref h => cases h <;> cases ht
  | tag empty => cases empty <;> cases ‹List AttrSrc› <;> cases ht
  | pi _ _ h => rcases pi_tok h with rfl | rfl <;> cases ht
  | _ => cases ht

theorem pi_back {x : XEnc} {asc : UInt8 → Buf} (S : XSupported x asc) {w : Buf} (h : Markup x.e asc .PI w) :
    ∃ target sp ws, PiOk x.e asc target sp ws ∧ w = piText asc target sp ws := by
  generalize ht : Tok.PI = t at h
  cases h with
  | pi h1 h2 h3 =>
    subst ht
    obtain ⟨sp, ws, g1, g2⟩ := pi_of_markup S h1 h2 h3
    exact ⟨_, sp, ws, g1, g2⟩
  | ref h => cases h <;> cases ht
  | tag empty => cases empty <;> cases ‹List AttrSrc› <;> cases ht
  | _ => cases ht

section
variable {k : Ctx} {z : DState} {ext : Ext} {fuel : Nat} {expand : Bool → Buf → Buf → DState → Acted} {F : C59.Frame} {D : DTab} {s : DState} {h : Hd} {ns : Bool}
  {b r : Buf}

local notation "R" => Reach k.c ext fuel expand k.internal false true false k.opened k.x
local notation "En" => Ends k ext fuel expand z

theorem kw_drop (S : XSupported k.x k.asc) (v : Buf) : (k.asc 0x3C ++ (k.asc 0x21 ++ v)).drop (2 * k.x.e.mb) = v := by
  have l (d) := S.s.asc.len d
  rw [Nat.two_mul, ← List.drop_drop, List.drop_left' (l _), List.drop_left' (l _)]

/-- One declaration of the internal subset, or its end. -/
theorem decl_back (H : Here k F ns) (hT : C33.TextsOk D.toDtd (internalUtf8X ns)) (hlen : b.length + 3 < 2 ^ 31) (hf : D.par.length < fuel)
    (a : At F .internalSubset D s) (e : En s b r) :
    (∃ w b' A D', b = w ++ b' ∧ w ≠ [] ∧ Decl k D w A D') ∨ ∃ b' s', b = k.asc 0x5D ++ b' ∧ At F .doctype5 D s' ∧ En s' b' r := by
  have S := H.plain.S
  have h1 : s.pe = .never := by rw [← H.plain.pe, H.pe]; exact congrArg C59.Frame.pe a.frame
  have h2 : s.el.p.documentEntity = true := by rw [← H.plain.doc, H.doc]; exact congrArg C59.Frame.doc a.frame
  obtain ⟨t, w, b', rfl, g4⟩ := e.tok H.plain a.none_ h1 (by rw [a.h]; simp)
  obtain ⟨q, g5, g6, g7⟩ := g4.handled h2
  have g5' := g5
  have hne (hti : t ≠ .INSTANCE_START) : w ≠ [] := by
    rintro rfl
    have := g4.mb H.plain hti
    have h2 : 0 < k.x.e.mb := Nat.succ_pos _
    simp at this; omega
  simp only [handle, a.h, internalSubset] at g5
  split at g5
  · obtain ⟨sp, i1, i2, rfl⟩ := lex_space g4.lex
    cases sp with
    | nil => exact absurd rfl i1
    | cons d sp =>
      refine .inl ⟨k.asc d, spell k.asc sp ++ b', _, _, by rw [spell_cons, List.append_assoc], ?_, .space d (i2 d (by simp))⟩
      intro h0
      exact asc_ne S d [] (by rw [h0]; rfl)
  · obtain ⟨v, rfl, hr⟩ := lex_open g4.lex
    rw [kw_drop S] at g5
    have hlen' : b'.length + 3 < 2 ^ 31 := by simp only [List.length_append] at hlen; omega
    refine .inl ?_
    have fin {kw : List UInt8} (h : ∃ w b'' A D', b' = w ++ b'' ∧ Decl k D (declOpen k.asc kw ++ w) A D') (hv : v = spell k.asc kw) :
        ∃ w b'' A D', k.asc 0x3C ++ (k.asc 0x21 ++ v) ++ b' = w ++ b'' ∧ w ≠ [] ∧ Decl k D w A D' := by
      obtain ⟨w, b'', A, D', rfl, h⟩ := h
      subst hv
      exact ⟨declOpen k.asc kw ++ w, b'', A, D', by rw [declOpen]; simp only [List.append_assoc], fun h0 => hne (by simp) (List.append_eq_nil_iff.1 h0).1, h⟩
    split at g5
    · cases g5
      exact fin (entity_back H hf (a.go .entity0) hr (g4.quiet H.plain (by simp) g5' rfl)) (kw_eq H (by decide) ‹_›)
    split at g5
    · cases g5
      exact fin (attlist_back H hT (a.go .attlist0) hr (g4.quiet H.plain (by simp) g5' rfl)) (kw_eq H (by decide) ‹_›)
    split at g5
    · cases g5
      exact fin (element_back H hlen' (a.go .element0) hr (g4.quiet H.plain (by simp) g5' rfl)) (kw_eq H (by decide) ‹_›)
    split at g5
    · cases g5
      exact fin (notation_back H (a.go .notation0) hr (g4.quiet H.plain (by simp) g5' rfl)) (kw_eq H (by decide) ‹_›)
    · cases g5
  · obtain ⟨tg, sp, ws, i1, rfl⟩ := pi_back S (lex_misc (.inr (.inl rfl)) g4.lex)
    exact .inl ⟨_, b', _, _, rfl, hne (by simp), .pi tg sp ws i1⟩
  · obtain ⟨ws, i1, rfl⟩ := comment_back (lex_misc (.inl rfl) g4.lex)
    exact .inl ⟨_, b', _, _, rfl, hne (by simp), .comment ws i1⟩
  · obtain ⟨ws, rfl, i1⟩ := lex_peref g4.lex
    refine .inl ⟨_, b', _, _, rfl, hne (by simp), .refUnread ws i1 H.plain.pe ?_⟩
    cases g5
    rcases g7 with ⟨hd, g7⟩ | ⟨g7, -⟩
    · simp only [pact, actParamRef, paramRef] at g7
      rw [if_pos (by exact h1)] at g7
      simp only [standaloneCheck, askStandalone] at g7
      rw [Allowed]
      have hD : s.D = D := a.D
      have hs : (s.withP s.el.p).D = D := hD
      simp only [hs, DTab.drop] at g7
      cases hsa : D.standalone with
      | true => exact .inl rfl
      | false =>
        right
        intro hno
        simp [hsa, hno] at g7
    · cases g7
  · have hw := lex_rsqb g4.lex
    subst hw
    cases g5
    exact .inr ⟨b', _, rfl, a.go .doctype5, g4.quiet H.plain (by simp) g5' rfl⟩
  · have := g4.ok; cases this
  · cases g5

theorem subset_back (H : Here k F ns) (hd : F.doc = true) : ∀ (n : Nat) (b : Buf) (D : DTab) (s : DState), b.length = n →
    C33.TextsOk D.toDtd (internalUtf8X ns) → b.length + 3 < 2 ^ 31 → D.par.length + b.length < fuel → At F .internalSubset D s → En s b r →
    ∃ w A D' b' s', b = w ++ (k.asc 0x5D ++ b') ∧ Decls k D w A D' ∧ At F .doctype5 D' s' ∧ En s' b' r := by
  intro n
  induction n using Nat.strongRecOn with
  | _ n ih =>
  intro b D s hn hT hlen hf a e
  rcases decl_back H hT hlen (by omega) a e with ⟨w, b', A, D', rfl, hw, hD⟩ | ⟨b', s', rfl, i1, i2⟩
  · have hho : home F.doc = .internalSubset := by rw [hd]; rfl
    obtain ⟨s', E, -, a', q⟩ := run_decl (ext := ext) (fuel := fuel) (expand := expand) (between := false) (allowClose := true) (more := false)
      H.plain.S H.intOk H.doc H.pe (by omega) (by rw [hho]; exact a) hD (r := b') (.inr rfl)
    rw [hho] at a'
    have hwl : 0 < w.length := List.length_pos_iff.2 hw
    obtain ⟨k1, k2⟩ := decl_keeps (ns := ns) H.plain hD
    rw [List.length_append] at hn hlen hf
    obtain ⟨w2, A2, D2, b2, s2, j1, j2, j3, j4⟩ := ih b'.length (by omega) b' D' s' rfl (k1 hT) (by omega) (by omega) a' (e.step q)
    exact ⟨w ++ w2, A ++ A2, D2, b2, s2, by rw [j1, List.append_assoc], .cons hD j2, j3, j4⟩
  · exact ⟨[], [], D, b', s', rfl, .nil k D, i1, i2⟩

end

end Verif.C61
