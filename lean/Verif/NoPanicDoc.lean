import Verif.NoPanicProlog

/-! Why no document makes the parser panic or report an error code reserved for its own malfunction (C72): whole documents. -/

set_option autoImplicit false

namespace Verif
open C43 C53 C59 C60 C61 C62 Spec PState

section
variable {c : PCfg} {z : Bool} {k : Nat} {ext : Ext} {fuel : Nat}

/-- The call that panics has seen a part of the document. -/
def BadDoc (c : PCfg) (s : DState) (b : Buf) : Prop := ∃ b' r, b = b' ++ r ∧ BadDecl c s b'

/-- What may become of a document. -/
def DocFine (bad : Prop) (d : C57.Doc) : Prop :=
  match d.2.2 with
  | .prolog (.err e) => e.Outer
  | .prolog .panic => bad
  | .prolog _ => False
  | .content _ o => Out.Fine XErr.Outer (fun _ => True) o

theorem content_fine (hc : Doc0 c) {s : DState} (hs : Base c s) (E : List PEv) (q : Buf) (xs : List Buf) (bad : Prop) :
    DocFine bad (E, s, C57.content c s q xs) := by
  obtain ⟨i, hi⟩ := hs.cur
  have hxs : s.x c false = i.x c.c.ns := by simp [DState.x, hi, CurEnc.x]
  have := feed_inner (c := c.c) hs.texts (C54.supported c.c.ns i) xs CState.init q ⟨rfl, Nat.le_refl _, by intro n h; cases h⟩
  unfold C57.content C57.contentSem DocFine
  simp only [hxs, hc.int]
  revert this
  generalize (Verif.feed (parser c.c s.D.toDtd (internalUtf8X c.c.ns) (i.x c.c.ns)) (i.x c.c.ns).e CState.init q xs).2 = o
  cases o with
  | err e => exact id
  | ok u r => exact fun _ => trivial

theorem finish_fine (hc : Doc0 c) {s : DState} (C : Calm c z s k) {b : Buf} (hk : k + b.length + 2 < 2 ^ 31) :
    DocFine (BadDoc c s b) (C57.finishDoc c (prologCall c ext fuel [] false s b)) := by
  have := call_fine (ext := ext) (fuel := fuel) (opened := []) hc false C hk
  generalize prologCall c ext fuel [] false s b = r at this
  obtain ⟨E, s1, o⟩ := r
  cases o with
  | done q => cases this.1
  | err e => exact this
  | panic => exact ⟨b, [], by simp, this⟩
  | content q => exact content_fine hc this E q [] _

theorem document_fine (hc : Doc0 c) (xs : List Buf) : ∀ {z k s} {rest : Buf}, Calm c z s k → k + (rest ++ xs.flatten).length + 2 < 2 ^ 31 →
    DocFine (BadDoc c s (rest ++ xs.flatten)) (C57.document c ext fuel s rest xs) := by
  induction xs with
  | nil =>
    intro z k s rest C hk
    rw [List.flatten_nil, List.append_nil] at hk ⊢
    exact finish_fine hc C hk
  | cons x xs ih =>
    intro z k s rest C hk
    cases xs with
    | nil =>
      rw [List.flatten_cons, List.flatten_nil, List.append_nil] at hk ⊢
      exact finish_fine hc C hk
    | cons y ys =>
      generalize hx : y :: ys = xs at ih hk
      rw [List.flatten_cons, ← List.append_assoc] at hk ⊢
      have hd : C57.document c ext fuel s rest (x :: xs) = match prologCall c ext fuel [] true s (rest ++ x) with
        | (E, s', .done q) => let d := C57.document c ext fuel s' q xs; (E ++ d.1, d.2)
        | (E, s', .content q) => (E, s', C57.content c s' q ([] :: xs))
        | (E, s', o) => (E, s', .prolog o) := by
        subst hx; rfl
      rw [hd]
      have h1 := call_fine (ext := ext) (fuel := fuel) (opened := []) (b := rest ++ x) hc true C (by rw [List.length_append (as := rest ++ x)] at hk; omega)
      generalize prologCall c ext fuel [] true s (rest ++ x) = r at h1
      obtain ⟨E, s1, o⟩ := r
      cases o with
      | err e => exact h1
      | panic => exact ⟨rest ++ x, _, rfl, h1⟩
      | content q => exact content_fine hc h1 E q _ _
      | done q =>
        obtain ⟨-, ⟨k', h2, h3⟩, h4⟩ := h1
        simp only at h2 h3 h4 ⊢
        have h5 := ih (z := false) (k := k') (s := s1) (rest := q) h2 (by simp only [List.length_append] at hk h3 ⊢; omega)
        revert h5
        unfold DocFine
        simp only
        split <;> first | exact id | skip
        rintro ⟨b', r, h6, h7⟩
        obtain ⟨rfl, rfl⟩ := h4 h7.1
        exact ⟨b', r, h6, h7⟩

theorem start_calm (i : EncId) : Calm c false (start (.builtin i) .never) 0 where
  pe := rfl
  cur := ⟨i, rfl⟩
  texts := by intro n ent t h; cases h
  none_ := rfl
  doc := rfl
  hd := rfl
  inv := ElemSim.Fresh.inv (s := (start (.builtin i) .never).el) ⟨.inl rfl, rfl, rfl, rfl⟩
  ign := rfl
  late := by simp

/-! ### The start -/

/-- `<?xml`, the text `d`, and `?>`. -/
def declOf (asc : UInt8 → Buf) (d : Buf) : Buf := spell asc [0x3C, 0x3F] ++ ((xmlName.map asc).flatten ++ (d ++ spell asc [0x3F, 0x3E]))

theorem bad_text {s : DState} {i : EncId} (hi : s.cur = .builtin i) {b : Buf} (h : BadDoc c s b) :
    ∃ d r, PiBody (i.x c.c.ns).e (C54.ascOf i) d ∧ b = declOf (C54.ascOf i) d ++ r ∧ doParseXmlDecl (i.x c.c.ns) false d = .panic := by
  obtain ⟨b', r, rfl, -, j, n, h1, h2, h3⟩ := h
  rw [hi] at h1
  cases h1
  have S := C54.supported c.c.ns i
  obtain ⟨h4, h5⟩ := decl_lex S.s h2
  obtain ⟨d, h6, h7⟩ := decl_markup S h4
  rw [h7, decl_inner S] at h3
  refine ⟨d, b'.drop n ++ r, h6, ?_, h3⟩
  rw [declOf, ← h7, ← List.append_assoc, List.take_append_drop]

/-- Text that begins with `<?` says in which encoding it is. -/
theorem found_scan {idx : EncIndex} {i : EncId} {b x d r : Buf} (h : initScan idx .prolog b = .scan i) (hb : b ++ x = declOf (C54.ascOf i) d ++ r) :
    C60.Found idx [] (b ++ x) i := by
  rw [hb]
  have h1 : i = .latin1 ∨ i = .ascii ∨ i = .utf8 → declOf (C54.ascOf i) d ++ r = 0x3C :: 0x3F :: ((xmlName.map (C54.ascOf i)).flatten ++ (d ++ spell (C54.ascOf i) [0x3F, 0x3E]) ++ r) := by
    rintro (rfl | rfl | rfl) <;> simp [declOf, spell, C54.ascOf, asc1]
  have h2 : i = .utf16be → ∃ u v, declOf (C54.ascOf i) d ++ r = 0x00 :: 0x3C :: u :: v := by
    rintro rfl
    exact ⟨_, _, rfl⟩
  have h3 : i = .utf16le → ∃ u v, declOf (C54.ascOf i) d ++ r = 0x3C :: 0x00 :: u :: v := by
    rintro rfl
    exact ⟨_, _, rfl⟩
  by_cases hi : i = .utf16be
  · obtain ⟨u, v, h2⟩ := h2 hi
    subst hi
    rw [h2]
    exact .plainBe _ _
  by_cases hi2 : i = .utf16le
  · obtain ⟨u, v, h3⟩ := h3 hi2
    subst hi2
    rw [h3]
    exact .plainLe _
  have h1 := h1 (by cases i <;> simp_all)
  rw [h1] at hb ⊢
  have : i = idx.enc := by
    match b with
    | [] => cases h
    | [p] =>
      simp at hb
      obtain ⟨rfl, -⟩ := hb
      simp [initScan] at h
    | p :: q :: b =>
      simp at hb
      obtain ⟨rfl, rfl, -⟩ := hb
      simp [initScan] at h
      exact h.symm
  subst this
  exact .plain _ _ _ (by decide) (by decide)

theorem found_bom {idx : EncIndex} {i : EncId} {b : Buf} {n : Nat} (h : initScan idx .prolog b = .bom i n) (x : Buf) :
    ∃ m, b ++ x = m ++ (b.drop n ++ x) ∧ C60.Found idx m (b.drop n ++ x) i := by
  match b with
  | [] => cases h
  | [p] => simp only [initScan] at h; (repeat' split at h) <;> cases h
  | p :: q :: b =>
    simp only [initScan] at h
    (repeat' split at h) <;> try (cases h; done)
    · rename_i h1 _
      cases h
      obtain ⟨rfl, rfl⟩ := h1
      exact ⟨[0xFE, 0xFF], rfl, .be _⟩
    · rename_i h1 _
      cases h
      obtain ⟨rfl, rfl⟩ := h1
      exact ⟨[0xFF, 0xFE], rfl, .le _⟩
    · rename_i _ _ _ h2
      have h1 : p = 0xEF ∧ q = 0xBB := by assumption
      cases h
      obtain ⟨rfl, rfl⟩ := h1
      subst h2
      exact ⟨[0xEF, 0xBB, 0xBF], rfl, .utf8 _⟩

/-- A document whose XML declaration names an encoding with a name of 127 characters. -/
def LongName (ns : Bool) (idx : EncIndex) (b : Buf) : Prop :=
  ∃ m t i d r v a q, C60.Found idx m t i ∧ b = m ++ t ∧ t = declOf (C54.ascOf i) d ++ r ∧ PiBody (i.x ns).e (C54.ascOf i) d ∧
    C18.VersionOk v ∧ C18.EncodingOk a ∧ a.value.length = 127 ∧ d = spell (C54.ascOf i) (v.text ++ a.text) ++ q

theorem long_iff {ns : Bool} {i : EncId} {d : Buf} (h : PiBody (i.x ns).e (C54.ascOf i) d) : doParseXmlDecl (i.x ns) false d = .panic ↔
    ∃ v a q, C18.VersionOk v ∧ C18.EncodingOk a ∧ a.value.length = 127 ∧ d = spell (C54.ascOf i) (v.text ++ a.text) ++ q := by
  rw [C18.panic_iff (C54.supported ns i) false (clean_body h)]
  constructor
  · rintro ⟨v, a, q, h1, h2, h3, h4, h5⟩
    cases v with
    | none => cases h3 rfl
    | some v => exact ⟨v, a, q, h1 v rfl, h2, h4, h5⟩
  · rintro ⟨v, a, q, h1, h2, h4, h5⟩
    exact ⟨some v, a, q, (by rintro p ⟨⟩; exact h1), h2, fun _ => rfl, h4, h5⟩

theorem doc_fine_mono {p q : Prop} (h : p → q) {d : C57.Doc} (hd : DocFine p d) : DocFine q d := by
  unfold DocFine at *
  split <;> rename_i h1 <;> simp only [h1] at hd <;> first | exact hd | exact h hd

theorem parse_fine (hc : Doc0 c) (idx : EncIndex) (cur : CurEnc) (xs : List Buf) : ∀ rest : Buf, (rest ++ xs.flatten).length + 2 < 2 ^ 31 →
    DocFine (LongName c.c.ns idx (rest ++ xs.flatten)) (C60.parse c ext fuel idx (start cur .never) rest xs) := by
  have det (b : Buf) (xs : List Buf) (hl : (b ++ xs.flatten).length + 2 < 2 ^ 31) (kk : XErr → C57.Doc)
      (hk : ∀ e : XErr, e.Outer → DocFine (LongName c.c.ns idx (b ++ xs.flatten)) (kk e)) :
      DocFine (LongName c.c.ns idx (b ++ xs.flatten)) (detect c ext fuel idx (start cur .never) b xs kk) := by
    unfold detect
    cases h : initScan idx .prolog b with
    | none => exact hk _ ⟨rfl, by simp⟩
    | more => exact hk _ ⟨rfl, by simp⟩
    | scan i =>
      have C := start_calm (c := c) i
      refine doc_fine_mono ?_ (document_fine hc ([] :: xs) C (by simpa using hl))
      intro hb
      obtain ⟨d, r, h1, h2, h3⟩ := bad_text rfl hb
      simp only [List.flatten_cons, List.nil_append] at h2
      obtain ⟨v, a, q, h4⟩ := (long_iff h1).1 h3
      exact ⟨[], b ++ xs.flatten, i, d, r, v, a, q, found_scan h h2, rfl, h2, h1, h4⟩
    | bom i n =>
      have C := start_calm (c := c) i
      refine doc_fine_mono ?_ (document_fine hc ([] :: xs) C (by simp only [List.flatten_cons, List.nil_append, List.length_append, List.length_drop] at hl ⊢; omega))
      intro hb
      obtain ⟨d, r, h1, h2, h3⟩ := bad_text rfl hb
      simp only [List.flatten_cons, List.nil_append] at h2
      obtain ⟨v, a, q, h4⟩ := (long_iff h1).1 h3
      obtain ⟨m, h5, h6⟩ := found_bom h xs.flatten
      exact ⟨m, _, i, d, r, v, a, q, h6, h5, h2, h1, h4⟩
  induction xs with
  | nil =>
    intro rest hl
    exact det rest [] hl _ fun e he => he
  | cons x xs ih =>
    intro rest hl
    have hl' : ((rest ++ x) ++ xs.flatten).length + 2 < 2 ^ 31 := by simpa using hl
    have hf : rest ++ (x :: xs).flatten = (rest ++ x) ++ xs.flatten := by simp
    rw [C60.parse, hf]
    refine det (rest ++ x) xs hl' _ fun e he => ?_
    split
    · exact he
    · exact ih (rest ++ x) hl'

/-! ### The documents that do make it panic -/

theorem decl_token_any {x : XEnc} {asc : UInt8 → Buf} (S : XSupported x asc) {d : Buf} (hb : PiBody x.e asc d) (r : Buf) :
    prologTok x.e (declOf asc d ++ r) = ⟨.XML_DECL, (declOf asc d).length⟩ := by
  have l (c) := S.s.asc.len c
  have ht := (C07.checkPiTarget_spec S.s (xmlName.map asc).flatten).1.2 rfl
  have hn := xml_name S
  have hm := l 0x20
  have hd : x.e.mb ∣ (declOf asc d).length := by
    have h1 : (spell asc [0x3C, 0x3F]).length = 2 * x.e.mb := by rw [spell, spell_length S.s]; rfl
    have h2 : (xmlName.map asc).flatten.length = 3 * x.e.mb := by rw [spell_length S.s]; rfl
    have h3 : (spell asc [0x3F, 0x3E]).length = 2 * x.e.mb := by rw [spell, spell_length S.s]; rfl
    have h4 : x.e.mb ∣ d.length := by
      cases hb with
      | none => exact Nat.dvd_zero _
      | data c ws h1 h2 h3 =>
        rw [List.length_append, l]
        exact Nat.dvd_add (Nat.dvd_refl _) (chars_dvd S.s (fun w hw => char_piece S.s (h2 w hw)))
    simp only [declOf, List.length_append, h1, h2, h3]
    exact Nat.dvd_add (Nat.dvd_mul_left _ _) (Nat.dvd_add (Nat.dvd_mul_left _ _) (Nat.dvd_add h4 (Nat.dvd_mul_left _ _)))
  rw [prologTok_eq (by simp [declOf, spell, l]), truncBuf_dvd _ _ _ hd]
  generalize truncBuf x.e r = r
  unfold declOf
  generalize xmlName.map asc = target at *
  simp only [spell, List.map_cons, List.map_nil, List.flatten_cons, List.flatten_nil, List.append_nil, List.append_assoc] at hd ⊢
  simp only [prologTokBody, asc_bt S.s (t := .LT) rfl, drop_char (l _), asc_bt S.s (t := .QUEST) rfl]
  rw [if_neg (asc_len_ok S.s _ _), Nat.two_mul, ← List.drop_drop, drop_char (l _), drop_char (l _),
    (pi_at S.s _ _ _ _ rfl).2 ⟨target, _, _, hn, rfl, (tail_iff S.s _ _).2 ⟨d, r, hb, rfl, rfl⟩, rfl, ht⟩]
  simp only [List.length_append, l, Res.mk.injEq, true_and]; omega

theorem long_panics (hc : Doc0 c) {idx : EncIndex} {xs : List Buf} (h : LongName c.c.ns idx xs.flatten) (cur : CurEnc) (pe : PEParsing) :
    (C60.parse c ext fuel idx (start cur pe) [] xs).2.2 = .prolog .panic := by
  obtain ⟨m, t, i, d, r, v, a, q, h1, h2, h3, h4, h5⟩ := h
  have S := C54.supported c.c.ns i
  have hp := (long_iff h4).2 ⟨v, a, q, h5⟩
  obtain ⟨ys, g1, g2⟩ := parse_found (c := c) (ext := ext) (fuel := fuel) h1 (start cur pe) xs [] (by simpa using h2)
  rw [g2]
  have hxs : (start (.builtin i) pe).x c false = i.x c.c.ns := rfl
  have key : (prologCall c ext fuel [] false (start (.builtin i) pe) ys.flatten).2.2 = .panic := by
    rw [C57.call_loop rfl]
    change (prun c ext fuel (expandPE c ext fuel fuel []) false false true false [] (start (.builtin i) pe) ys.flatten).2.2 = _
    rw [prun.eq_def]
    have hsee : seeToken ((start (.builtin i) pe).x c false) false false false c.isPE ys.flatten = .tok .XML_DECL (declOf (C54.ascOf i) d).length := by
      rw [hxs, seeToken, g1, h3, decl_token_any S h4]
      rfl
    simp only [hsee]
    have hw : ys.flatten.take (declOf (C54.ascOf i) d).length = declOf (C54.ascOf i) d := by rw [g1, h3, List.take_left]
    rw [hw]
    have hr : pround c ext fuel (expandPE c ext fuel fuel []) false true [] (start (.builtin i) pe) .XML_DECL (declOf (C54.ascOf i) d) =
        ([], { start (.builtin i) pe with el := { (start (.builtin i) pe).el with p := { PState.init with h := .prolog1 } } }, .panic) := by
      rw [pround]
      have hn : (start (.builtin i) pe).el.p.next ((start (.builtin i) pe).x c false).e .XML_DECL (declOf (C54.ascOf i) d) =
        ({ PState.init with h := .prolog1 }, .XML_DECL) := rfl
      simp only [hn, pact, actXmlDecl]
      have hcx : (start (.builtin i) pe).cur.x c.c.ns = i.x c.c.ns := rfl
      rw [hcx, show declText (i.x c.c.ns).e (declOf (C54.ascOf i) d) = d from decl_inner S d, hp]
    rw [hr]
  have ho : c.OtherOk := by
    intro n y h
    rw [hc.unknown] at h
    cases h
  have := C57.documents_ready (ext := ext) (fuel := fuel) ho ys (start (.builtin i) pe) [] S.cuts rfl (by
    intro q hq
    rw [List.nil_append, key] at hq
    cases hq)
  rw [List.nil_append] at this
  generalize prologCall c ext fuel [] false (start (.builtin i) pe) ys.flatten = p at this key
  obtain ⟨E, s1, o⟩ := p
  simp only at key
  subst key
  have hs : ({ start cur pe with cur := .builtin i } : DState) = start (.builtin i) pe := rfl
  rw [hs]
  generalize C57.document c ext fuel (start (.builtin i) pe) [] ys = g at this
  obtain ⟨E2, s2, o⟩ := g
  obtain ⟨-, k2⟩ := this
  rcases o with (_ | _ | _ | _) | _ <;> simp only [C57.finishDoc] at k2 ⊢

end
end Verif
