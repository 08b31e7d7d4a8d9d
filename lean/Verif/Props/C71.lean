import Verif.TranscodeEnc
import Verif.Props.C61

/-! # C71: the encoding of a document does not matter

The same code points, in any two of the built-in encodings, with whatever byte order marks and XML declarations before
them, passed in any pieces: both texts are accepted or neither, the declarations read are the same, and the application
is told the same. -/

set_option autoImplicit false

namespace Verif.C71
open C43 C53 C59 C60 C61 Spec Verif PState

/-- `<?xml` and white space are not at the beginning. -/
def NoDecl (cs : List Nat) : Prop := ∀ (s : UInt8) (r : List Nat), isWS s = true → cs ≠ [0x3C, 0x3F, 0x78, 0x6D, 0x6C] ++ s.toNat :: r

/-- The bytes of a document that says `cs` in encoding `j`: a byte order mark or none, the XML declaration `d` or none, and the code
points.  `idx` is the encoding told to the parser, if any. -/
inductive Written (c : PCfg) (idx : EncIndex) (cs : List Nat) : Buf → Option C18.Src → EncId → Prop where
  | mk (m h : Buf) (d : Option C18.Src) (i j : EncId) (h1 : C60.Found idx m (h ++ C12.text (encOf j) cs) i) (h2 : Head c i h d j)
      (h3 : d = none → NoDecl cs) : Written c idx cs (m ++ (h ++ C12.text (encOf j) cs)) d j

/-! ### Proofs -/

section
variable {c : PCfg} {i j j' : EncId}

theorem decl_text_spell (asc : UInt8 → Buf) (d : C18.Src) :
    xmlDeclText asc d = spell asc ([0x3C, 0x3F] ++ C07.xmlName ++ d.text ++ [0x3F, 0x3E]) := by
  simp [xmlDeclText, spell, xmlName, C07.xmlName]

theorem head_dvd {h : Buf} {d : Option C18.Src} (H : Head c i h d j) : (i.x c.c.ns).e.mb ∣ h.length := by
  cases H with
  | none => exact Nat.dvd_zero _
  | decl d _ h1 h2 h3 =>
    rw [decl_text_spell, spell, spell_length (C54.supported c.c.ns i).s]
    exact Nat.dvd_mul_left _ _

/-- An XML declaration can be read in one way. -/
theorem head_unique {h h' r r' : Buf} {d d' : Option C18.Src} (H : Head c i h d j) (H' : Head c i h' d' j') (e : h ++ r = h' ++ r')
    (hd : (i.x c.c.ns).e.mb ∣ (h ++ r).length) (hs : d = none ↔ d' = none) : r = r' ∧ j = j' ∧ aloneIn d = aloneIn d' := by
  cases H with
  | none =>
    have := hs.1 rfl
    subst this
    cases H' with
    | none => exact ⟨by simpa using e, rfl, rfl⟩
  | decl d _ h1 h2 h3 =>
    cases H' with
    | none => exact absurd (hs.2 rfl) (by simp)
    | decl d' _ h1' h2' h3' =>
      have S := C54.supported c.c.ns i
      have t1 := decl_token S h1 r hd
      have t2 := decl_token S h1' r' (by rw [← e]; exact hd)
      rw [e, t2] at t1
      injection t1 with _ t1
      obtain ⟨e1, e2⟩ := List.append_inj e t1.symm
      obtain ⟨E, a1, -⟩ := decl_act (c := c) h1 h2 h3 .never
      obtain ⟨E', a2, -⟩ := decl_act (c := c) h1' h2' h3' .never
      rw [e1, a2] at a1
      simp only [Prod.mk.injEq, begun, DState.mk.injEq, CurEnc.builtin.injEq, DTab.mk.injEq] at a1
      exact ⟨e2, by simp_all, by simp only [aloneIn]; simp_all⟩

theorem starts_decl {d : C18.Src} (h : d.Valid false) : ∃ s r, isWS s = true ∧ d.text = s :: r := by
  have hv := h.needVersion rfl
  cases hver : d.version with
  | none => rw [hver] at hv; cases hv
  | some a =>
    have ha := (h.version a hver).1
    cases hws : a.ws with
    | nil => exact absurd hws ha.ws_ne
    | cons s ws =>
      refine ⟨s, d.text.tail, ha.ws s (by rw [hws]; simp), ?_⟩
      rw [C18.Src.text, hver, C18.txt, PAttr.text, hws]
      rfl

/-- Without `<?xml` there is no declaration. -/
theorem no_head {h r : Buf} {d : Option C18.Src} {cs : List Nat} (hc : ∀ ch ∈ cs, okOf i ch) (H : Head c i h d j) (hn : NoDecl cs)
    (e : C12.text (encOf i) cs = h ++ r) : d = none := by
  cases H with
  | none => rfl
  | decl d _ h1 h2 h3 =>
    obtain ⟨s, t, h4, h5⟩ := starts_decl h1
    have P := pair c.c.ns i i
    have hs : Same (encOf i) (encOf i) (Both i i) (C12.text (encOf i) cs) (C12.text (encOf i) cs) :=
      ⟨cs, fun ch hch => ⟨hc ch hch, hc ch hch, fun _ => rfl⟩, rfl, rfl⟩
    have e1 : xmlDeclText (C54.ascOf i) d ++ r = spell (C54.ascOf i) [0x3C, 0x3F, 0x78, 0x6D, 0x6C, s] ++ (spell (C54.ascOf i) (t ++ [0x3F, 0x3E]) ++ r) := by
      rw [decl_text_spell, h5]
      simp [spell, C07.xmlName]
    have hp : Plain7 [0x3C, 0x3F, 0x78, 0x6D, 0x6C, s] := by
      intro d hd
      simp only [List.mem_cons, List.not_mem_nil, or_false] at hd
      rcases hd with rfl | rfl | rfl | rfl | rfl | rfl
      any_goals decide
      exact isWS_plain h4
    rw [e, e1] at hs
    obtain ⟨r', -, r2, k1, k2, -⟩ := Same.spell P hp hs
    obtain ⟨k3, k4⟩ := (coding c.c.ns i).spell_text hp
    rw [e1, k2, k3, ← text_app] at e
    have := (coding c.c.ns i).text_inj hc (fun ch hch => by
      rcases List.mem_append.1 hch with hch | hch
      · exact k4 ch hch
      · exact (k1 ch hch).1) e
    exact absurd this (hn s r2 h4)

/-- The code points as a document: prolog, root element, what follows it; declarations, what is to be reported. -/
def Says' (c : PCfg) (j : EncId) (b : Bool) (cs : List Nat) (A : List Said) (D : DTab) (V : List Ev) : Prop :=
  ∃ w t, C12.text (encOf j) cs = w ++ t ∧ PrologText (reading c (j.x c.c.ns) (C54.ascOf j) .never) { standalone := b } w A D ∧
    Document (C64.full c.c) D.toDtd c.int asc1 (j.x c.c.ns) (C54.ascOf j) t V

theorem says_same (hi : c.int = internalUtf8X c.c.ns) {cs : List Nat} (hc : ∀ ch ∈ cs, Both j j' ch) (hl : (C12.text (encOf j') cs).length + 3 < 2 ^ 31)
    {b : Bool} {A : List Said} {D : DTab} {V : List Ev} (h : Says' c j b cs A D V) : Says' c j' b cs A D V := by
  obtain ⟨w, t, h1, h2, h3⟩ := h
  have P := pair c.c.ns j j'
  have hs : Same (encOf j) (encOf j') (Both j j') (C12.text (encOf j) cs) (C12.text (encOf j') cs) := ⟨cs, hc, rfl, rfl⟩
  rw [h1] at hs
  obtain ⟨w', t', i1, i2, i3⟩ := Same.prolog (k := reading c (j.x c.c.ns) (C54.ascOf j) .never) P h2 hs hl
  rw [hi] at h3
  refine ⟨w', t', i2, i1, ?_⟩
  rw [hi]
  exact Same.document P h3 i3

variable {idx : EncIndex} {cs : List Nat} {b : Buf} {d : Option C18.Src}

theorem written_dvd {h : Buf} (hc : ∀ ch ∈ cs, okOf j ch) (H : Head c i h d j) : (i.x c.c.ns).e.mb ∣ (h ++ C12.text (encOf j) cs).length := by
  rw [List.length_append]
  refine Nat.dvd_add (head_dvd H) ?_
  rw [H.unit]
  exact (coding c.c.ns j).dvd hc

/-- What is accepted says something. -/
theorem accepted_says (U : Usual c) (W : Written c idx cs b d j) (hc : ∀ ch ∈ cs, okOf j ch) (hl : b.length + 3 < 2 ^ 31) {ext : Ext} {fuel : Nat}
    (hf : b.length < fuel) {cur : CurEnc} {xs : List Buf} (hx : xs.flatten = b) (ha : Accepted (C60.parse c ext fuel idx (start cur .never) [] xs)) :
    ∃ A D V, Says' c j (aloneIn d) cs A D V := by
  obtain ⟨P, s, F, u, q, ha⟩ := ha
  cases W with
  | mk m h d i j h1 h2 h3 =>
    obtain ⟨ys, h4, h5⟩ := parse_found (c := c) (ext := ext) (fuel := fuel) h1 (start cur .never) xs [] hx
    rw [h5] at ha
    have hd := written_dvd hc h2
    simp only [List.length_append] at hl hf
    obtain ⟨h', w, t, d', j', A, V, g1, g0, g2, g3, g4, -⟩ := document_parts U (i := i) (xs := ys) (by rw [h4]; exact hd) (by rw [h4, List.length_append]; omega)
      (by rw [h4, List.length_append]; omega) ha
    rw [h4] at g1 g0
    have hs : d = none ↔ d' = none := by
      constructor
      · rintro rfl
        have hn := h3 rfl
        cases h2 with
        | none => exact no_head hc g2 hn g1
      · intro e
        cases h2 with
        | none => rfl
        | decl d _ k1 k2 k3 =>
          have := decl_token (C54.supported c.c.ns i) k1 _ hd
          exact absurd (by rw [this]) (g0 e)
    obtain ⟨e1, e2, e3⟩ := head_unique h2 g2 g1 hd hs
    subst e2
    rw [← e3] at g3
    exact ⟨A, s.D, V, w, t, e1, g3, g4⟩

/-- What says something is accepted. -/
theorem says_accepted (U : Usual c) (W : Written c idx cs b d j) (hc : ∀ ch ∈ cs, okOf j ch) {A : List Said} {D : DTab} {V : List Ev}
    (h : Says' c j (aloneIn d) cs A D V) : ∃ N, ∀ (ext : Ext) (fuel : Nat), N ≤ fuel → ∀ (cur : CurEnc) (xs : List Buf), xs.flatten = b →
      ∃ P s F u q, C60.parse c ext fuel idx (start cur .never) [] xs = (P, s, .content F (.ok u q)) ∧
        (∃ T E, heard P = T ++ E ∧ HeadTold c d T ∧ Says A E) ∧ s.D = D ∧ C64.own (C04.flat F) = V.filter (C64.wants c.c) := by
  obtain ⟨w, t, e, g3, g4⟩ := h
  cases W with
  | mk m h d i j h1 h2 h3 =>
    have hd := written_dvd hc h2
    rw [e] at h1 hd ⊢
    exact parsed U.expand U.intOk.1 U.intOk.2 U.other h1 h2 (by rw [peAfter_never]; exact g3) g4 hd

end

/-- **C71.**  The same code points `cs` in two encodings, each text with its own byte order mark and XML declaration or without; the
declarations agree in whether the document is standalone.  Both encodings can represent the code points and take them for the same
(`Both`: U+00AA, U+00B5 and U+00BA only between encodings that treat them alike).  In whatever pieces the texts are passed, one is accepted
iff the other is; then the declarations read are the same, the calls for the prolog say the same after that for the XML declaration, and the
calls for the content are the same. -/
theorem same {c : PCfg} {idx1 idx2 : EncIndex} {cs : List Nat} {b1 b2 : Buf} {d1 d2 : Option C18.Src} {j1 j2 : EncId} (U : Usual c)
    (W1 : Written c idx1 cs b1 d1 j1) (W2 : Written c idx2 cs b2 d2 j2) (hs : aloneIn d1 = aloneIn d2) (hc : ∀ ch ∈ cs, Both j1 j2 ch)
    (hl1 : b1.length + 3 < 2 ^ 31) (hl2 : b2.length + 3 < 2 ^ 31) :
    ∃ N, ∀ (ext1 ext2 : Ext) (fuel1 fuel2 : Nat), N ≤ fuel1 → N ≤ fuel2 → ∀ (cur1 cur2 : CurEnc) (xs1 xs2 : List Buf), xs1.flatten = b1 → xs2.flatten = b2 →
      (Accepted (C60.parse c ext1 fuel1 idx1 (start cur1 .never) [] xs1) ↔ Accepted (C60.parse c ext2 fuel2 idx2 (start cur2 .never) [] xs2)) ∧
      ∀ {P1 P2 : List PEv} {s1 s2 : DState} {F1 F2 : List Ev} {u1 u2 : CState} {q1 q2 : Buf},
        C60.parse c ext1 fuel1 idx1 (start cur1 .never) [] xs1 = (P1, s1, .content F1 (.ok u1 q1)) →
        C60.parse c ext2 fuel2 idx2 (start cur2 .never) [] xs2 = (P2, s2, .content F2 (.ok u2 q2)) →
        s1.D = s2.D ∧ C64.own (C04.flat F1) = C64.own (C04.flat F2) ∧
        ∃ A T1 E1 T2 E2, heard P1 = T1 ++ E1 ∧ heard P2 = T2 ++ E2 ∧ HeadTold c d1 T1 ∧ HeadTold c d2 T2 ∧ Says A E1 ∧ Says A E2 := by
  have k1 : ∀ ch ∈ cs, okOf j1 ch := fun ch h => (hc ch h).1
  have k2 : ∀ ch ∈ cs, okOf j2 ch := fun ch h => (hc ch h).2.1
  have l1 : (C12.text (encOf j1) cs).length + 3 < 2 ^ 31 := by cases W1; simp only [List.length_append] at hl1; omega
  have l2 : (C12.text (encOf j2) cs).length + 3 < 2 ^ 31 := by cases W2; simp only [List.length_append] at hl2; omega
  have hc' : ∀ ch ∈ cs, Both j2 j1 ch := fun ch h => ⟨(hc ch h).2.1, (hc ch h).1, fun o => ((hc ch h).2.2 o).symm⟩
  by_cases hg : ∃ A D V, Says' c j1 (aloneIn d1) cs A D V
  · obtain ⟨A, D, V, g1⟩ := hg
    have g2 := says_same U.int hc l2 g1
    rw [hs] at g2
    obtain ⟨N1, a1⟩ := says_accepted U W1 k1 g1
    obtain ⟨N2, a2⟩ := says_accepted U W2 k2 g2
    refine ⟨max N1 N2, fun ext1 ext2 fuel1 fuel2 f1 f2 cur1 cur2 xs1 xs2 x1 x2 => ?_⟩
    obtain ⟨P1, s1, F1, u1, q1, e1, ⟨T1, E1, t1, t2, t3⟩, t4, t5⟩ := a1 ext1 fuel1 (by omega) cur1 xs1 x1
    obtain ⟨P2, s2, F2, u2, q2, e2, ⟨T2, E2, v1, v2, v3⟩, v4, v5⟩ := a2 ext2 fuel2 (by omega) cur2 xs2 x2
    refine ⟨⟨fun _ => ⟨_, _, _, _, _, e2⟩, fun _ => ⟨_, _, _, _, _, e1⟩⟩, ?_⟩
    intro P1' P2' s1' s2' F1' F2' u1' u2' q1' q2' h1 h2
    rw [e1] at h1
    rw [e2] at h2
    cases h1
    cases h2
    exact ⟨t4.trans v4.symm, t5.trans v5.symm, A, T1, E1, T2, E2, t1, v1, t2, v2, t3, v3⟩
  · refine ⟨max (b1.length + 1) (b2.length + 1), fun ext1 ext2 fuel1 fuel2 f1 f2 cur1 cur2 xs1 xs2 x1 x2 => ?_⟩
    have n1 : ¬ Accepted (C60.parse c ext1 fuel1 idx1 (start cur1 .never) [] xs1) := fun ha => hg (accepted_says U W1 k1 hl1 (by omega) x1 ha)
    have n2 : ¬ Accepted (C60.parse c ext2 fuel2 idx2 (start cur2 .never) [] xs2) := fun ha => by
      obtain ⟨A, D, V, g⟩ := accepted_says U W2 k2 hl2 (by omega) x2 ha
      rw [← hs] at g
      exact hg ⟨A, D, V, says_same U.int hc' l1 g⟩
    exact ⟨⟨fun h => absurd h n1, fun h => absurd h n2⟩, fun h1 _ => absurd ⟨_, _, _, _, _, h1⟩ n1⟩

/-! ### Examples -/

/-- `<!DOCTYPE a [<!ENTITY b 'é'>]><a é='&b;'>µé</a>` -/
def exCs : List Nat := ("<!DOCTYPE a [<!ENTITY b '".toUTF8.toList.map (·.toNat)) ++ [0xE9] ++ ("'>]><a ".toUTF8.toList.map (·.toNat)) ++ [0xE9] ++
  ("='&b;'>".toUTF8.toList.map (·.toNat)) ++ [0xB5, 0xE9] ++ ("</a>".toUTF8.toList.map (·.toNat))

/-- `<?xml version="1.0" encoding='iso-8859-1'?>` -/
def exLatin : C18.Src where
  version := some ⟨[0x20], C16.codes ['v','e','r','s','i','o','n'], [], [], 0x22, C16.codes ['1','.','0']⟩
  encoding := some ⟨[0x20], C16.codes ['e','n','c','o','d','i','n','g'], [], [], 0x27, C16.codes ['i','s','o','-','8','8','5','9','-','1']⟩
  standalone := none
  trail := []

theorem latin_valid : exLatin.Valid false where
  version := by rintro a ⟨⟩; exact ⟨ex_attr _ (by decide +kernel) (by decide) (by decide) (by decide +kernel), rfl⟩
  encoding := by
    rintro a ⟨⟩
    exact ⟨ex_attr _ (by decide +kernel) (by decide) (by decide) (by decide +kernel), rfl, _, _, rfl, by decide⟩
  standalone := by rintro a ⟨⟩
  trail := by intro c hc; cases hc
  needVersion := fun _ => rfl
  needEncoding := fun h => by cases h
  noStandalone := fun h => by cases h

theorem latin_head : Head exCfg .utf8 (xmlDeclText asc1 exLatin) (some exLatin) .latin1 :=
  .decl exLatin _ latin_valid (by rintro a ⟨⟩; decide)
    (.named _ (C16.codes ['I','S','O','-','8','8','5','9','-','1']) .iso_8859_1 rfl rfl (by decide +kernel) (by decide +kernel) (by decide))

/-- The document in Latin-1, declared, and in UTF-16 with a byte order mark. -/
def exLatinText : Buf := xmlDeclText asc1 exLatin ++ C12.text (encOf .latin1) exCs
def exUtf16Text : Buf := [0xFF, 0xFE] ++ ([] ++ C12.text (encOf .utf16le) exCs)

theorem ex_latin : Written exCfg .noEnc exCs exLatinText (some exLatin) .latin1 := by
  have h : C60.Found .noEnc [] exLatinText .utf8 := by
    have h : exLatinText = 0x3C :: 0x3F :: exLatinText.drop 2 := by decide +kernel
    rw [h]; exact .plain 0x3C 0x3F _ (by decide) (by decide)
  exact .mk [] _ _ .utf8 .latin1 h latin_head (fun h => by cases h)

theorem ex_utf16 : Written exCfg .noEnc exCs exUtf16Text none .utf16le :=
  .mk _ _ _ _ _ (.le _) .none fun _ s r hs h => by
    have h1 : exCs.take 2 = [0x3C, 0x21] := by decide +kernel
    rw [h] at h1
    exact absurd h1 (by simp)

instance (i : EncId) (c : Nat) : Decidable (okOf i c) := by
  cases i <;> unfold okOf <;> unfold XmlChar <;> infer_instance

theorem ex_both : ∀ ch ∈ exCs, Both .latin1 .utf16le ch := by
  have h : ∀ ch ∈ exCs, okOf .latin1 ch ∧ okOf .utf16le ch := by decide +kernel
  exact fun ch hc => ⟨(h ch hc).1, (h ch hc).2, fun _ => rfl⟩

/-- The document in Latin-1 is accepted by evaluation, so that in UTF-16 is accepted in all pieces by the theorem. -/
example : ∃ N, ∀ (fuel : Nat), N ≤ fuel → ∀ xs : List Buf, xs.flatten = exUtf16Text →
    Accepted (C60.parse exCfg exExt fuel .noEnc (start (.builtin .utf8) .never) [] xs) := by
  obtain ⟨N, h⟩ := same ex_usual ex_latin ex_utf16 rfl ex_both (by decide +kernel) (by decide +kernel)
  have h0 : Accepted (C60.parse exCfg exExt 300 .noEnc (start (.builtin .utf8) .never) [] [exLatinText.take 70, exLatinText.drop 70]) :=
    ok_accepted.1 (by decide +kernel)
  obtain ⟨A, D, V, h1⟩ := accepted_says ex_usual ex_latin (fun ch hc => (ex_both ch hc).1) (by decide +kernel) (by decide +kernel)
    (List.flatten_cons.trans (by rw [List.flatten_cons, List.flatten_nil, List.append_nil, List.take_append_drop])) h0
  obtain ⟨M, h2⟩ := says_accepted ex_usual ex_latin (fun ch hc => (ex_both ch hc).1) h1
  refine ⟨N, fun fuel hf xs hx => ?_⟩
  obtain ⟨P, s, F, u, q, h3, -⟩ := h2 exExt (max M N) (by omega) (.builtin .utf8) [exLatinText] (by simp)
  exact (h exExt exExt (max M N) fuel (by omega) hf (.builtin .utf8) (.builtin .utf8) [exLatinText] xs (by simp) hx).1.1 ⟨_, _, _, _, _, h3⟩

/-- `<ª/>` -/
def exOdd : List Nat := [0x3C, 0xAA, 0x2F, 0x3E]

/-- The condition on U+00AA, U+00B5 and U+00BA cannot be left out: a document accepted in UTF-16 is refused in UTF-8. -/
theorem odd_differs :
    Written exCfg .noEnc exOdd ([0xFF, 0xFE] ++ ([] ++ C12.text (encOf .utf16le) exOdd)) none .utf16le ∧
    Written exCfg .noEnc exOdd ([0xEF, 0xBB, 0xBF] ++ ([] ++ C12.text (encOf .utf8) exOdd)) none .utf8 ∧
    (∀ ch ∈ exOdd, okOf .utf16le ch ∧ okOf .utf8 ch) ∧
    Accepted (C60.parse exCfg exExt 20 .noEnc (start (.builtin .utf8) .never) [] [[0xFF, 0xFE] ++ ([] ++ C12.text (encOf .utf16le) exOdd)]) ∧
    ¬ Accepted (C60.parse exCfg exExt 20 .noEnc (start (.builtin .utf8) .never) [] [[0xEF, 0xBB, 0xBF] ++ ([] ++ C12.text (encOf .utf8) exOdd)]) := by
  refine ⟨.mk _ _ _ _ _ (.le _) .none ?_, .mk _ _ _ _ _ (.utf8 _) .none ?_, by decide +kernel, ok_accepted.1 (by decide +kernel), ?_⟩
  · intro _ s r _ h; cases h
  · intro _ s r _ h; cases h
  · rw [← ok_accepted]; decide +kernel

end Verif.C71
