import Verif.Transcode

/-! The same document, from the root element on, in two encodings. -/

set_option autoImplicit false

namespace Verif
open C43 C53 Spec

section
variable {x y : XEnc} {asc asc' : UInt8 → Buf} {enc enc' : Nat → Buf} {ok : Nat → Prop} (P : Pair x asc enc y asc' enc' ok)

/-! ### Tags -/

/-- Two attribute specifications with the same name and value. -/
structure AttSame (x : XEnc) (asc : UInt8 → Buf) (y : XEnc) (asc' : UInt8 → Buf) (enc enc' : Nat → Buf) (ok : Nat → Prop) (a a' : AttrSrc) : Prop where
  valid : a.Valid x.e asc
  valid' : a'.Valid y.e asc'
  name : converted x a.name.flatten = converted y a'.name.flatten
  value : Same enc enc' ok a.value a'.value

inductive AttsSame (x : XEnc) (asc : UInt8 → Buf) (y : XEnc) (asc' : UInt8 → Buf) (enc enc' : Nat → Buf) (ok : Nat → Prop) :
    List AttrSrc → List AttrSrc → Prop
  | nil : AttsSame x asc y asc' enc enc' ok [] []
  | cons {a a' : AttrSrc} {as as' : List AttrSrc} : AttSame x asc y asc' enc enc' ok a a' → AttsSame x asc y asc' enc enc' ok as as' →
      AttsSame x asc y asc' enc enc' ok (a :: as) (a' :: as')

theorem AttsSame.valid {as as' : List AttrSrc} (h : AttsSame x asc y asc' enc enc' ok as as') : ∀ a ∈ as', AttrSrc.Valid y.e asc' a := by
  induction h with
  | nil => simp
  | cons h _ ih =>
    intro a ha
    rcases List.mem_cons.1 ha with rfl | ha
    · exact h.valid'
    · exact ih a ha

/-- The value found for a valid attribute is that of the literal, whether or not the tokenizer took it for normalised. -/
theorem attValue_eq {D : Dtd} {ns : Bool} (S : XSupported x asc) {op : List Buf} {et : ElemType} {a : AttrSrc} (pre rest name : Buf) (n : Bool)
    (hn : n = true → Plain x.e asc true a.value) :
    attValue D (internalUtf8X ns) x op et (pre ++ (a.text asc ++ rest)) (attAt x.e asc pre.length a n) name =
      storeAttributeValue D D.mustDeclare (internalUtf8X ns) x (declCdata D et name) op a.value := by
  rw [attValue, C33.att_literal S]
  cases n with
  | false => rfl
  | true =>
    have hp := hn rfl
    have hi : XSupported (internalUtf8X ns) asc1 := .internalUtf8 ns
    have h1 := C33.plain_norm (D := D) (check := D.mustDeclare) (int := internalUtf8X ns) (le := x.e.lineEnds asc) (op := op) S hp
    have := C33.complete (isCdata := declCdata D et name) hi (C33.line_ends_internal ns) h1 S rfl []
    rw [C34.attr] at this
    simp only [attAt, Bool.not_true, Bool.false_eq_true, if_false]
    rw [storeAttributeValue, this]
    simp only
    cases hc : declCdata D et name with
    | true => simp [C33.put]
    | false =>
      have hcol := C33.plain_collapse S hp
      rw [← C33.collapse_eq] at hcol
      simp only [Bool.not_false, Bool.true_and, beq_iff_eq]
      rw [hcol]

include P

theorem Same.att {a : AttrSrc} (ha : a.Valid x.e asc) {r b : Buf} (h : Same enc enc' ok (a.text asc ++ r) b) :
    ∃ a' r', AttSame x asc y asc' enc enc' ok a a' ∧ b = a'.text asc' ++ r' ∧ Same enc enc' ok r r' := by
  have hq : a.q < 0x80 ∧ XmlChar a.q.toNat := by rcases ha.q with h | h <;> rw [h] <;> decide
  simp only [AttrSrc.text, AttrSrc.tail, List.append_assoc] at h
  obtain ⟨r1, rfl, h1⟩ := Same.spell P (allWS_plain ha.ws) h
  obtain ⟨cs, r2, i1, i2, i3, rfl, h2⟩ := h1.qname P ha.name
  obtain ⟨r3, rfl, h3⟩ := Same.spell P (allWS_plain ha.s1) h2
  obtain ⟨r4, rfl, h4⟩ := h3.lit P (by decide) (by decide)
  obtain ⟨r5, rfl, h5⟩ := Same.spell P (allWS_plain ha.s2) h4
  obtain ⟨r6, rfl, h6⟩ := h5.lit P hq.1 hq.2
  obtain ⟨v', r7, j1, rfl, j3, h7⟩ := Same.value P ha.q ha.value h6
  obtain ⟨r8, rfl, h8⟩ := h7.lit P hq.1 hq.2
  refine ⟨⟨a.ws, cs.map enc', a.s1, a.s2, a.q, v'⟩, r8, ⟨ha, ⟨ha.ws1, ha.ws, i3, ha.s1, ha.s2, ha.q, j1⟩, ?_, j3⟩, ?_, h8⟩
  · rw [i2, P.conv i1]
  · simp only [AttrSrc.text, AttrSrc.tail, List.append_assoc]

theorem Same.atts {as : List AttrSrc} (ha : ∀ a ∈ as, a.Valid x.e asc) : ∀ {r b : Buf}, Same enc enc' ok (attsText asc as ++ r) b →
    ∃ as' r', AttsSame x asc y asc' enc enc' ok as as' ∧ b = attsText asc' as' ++ r' ∧ Same enc enc' ok r r' := by
  induction as with
  | nil => intro r b h; exact ⟨[], b, .nil, rfl, h⟩
  | cons a as ih =>
    intro r b h
    have e (asc : UInt8 → Buf) (a : AttrSrc) (as : List AttrSrc) : attsText asc (a :: as) = a.text asc ++ attsText asc as := by simp [attsText]
    rw [e, List.append_assoc] at h
    obtain ⟨a', r1, h1, rfl, h2⟩ := Same.att P (ha a (by simp)) h
    obtain ⟨as', r2, h3, rfl, h4⟩ := ih (fun b hb => ha b (by simp [hb])) h2
    exact ⟨a' :: as', r2, .cons h1 h3, by rw [e, List.append_assoc], h4⟩

/-- The attributes of a tag: one after the other. -/
theorem chain_same {c : Cfg} {D : Dtd} {ns : Bool} {op : List Buf} {et : ElemType} (rest rest' : Buf) {p p' : Nat} {as as' : List AttrSrc}
    {l l' : List Att} (h : AttsAt x.e asc p as l) (hs : AttsSame x asc y asc' enc enc' ok as as') : AttsAt y.e asc' p' as' l' →
    ∀ pre pre' : Buf, pre.length = p → pre'.length = p' → ∀ s : AState,
      chain (attOne c D (internalUtf8X ns) x op et (pre ++ (attsText asc as ++ rest))) s l =
        chain (attOne c D (internalUtf8X ns) y op et (pre' ++ (attsText asc' as' ++ rest'))) s l' := by
  induction h generalizing p' as' l' with
  | nil =>
    intro h' pre pre' _ _ s
    cases hs
    cases h'
    rfl
  | @cons p a as l n hn h ih =>
    intro h' pre pre' hp hp' s
    cases hs with
    | @cons _ a' _ as' h1 h2 =>
      cases h' with
      | @cons _ _ _ l' n' hn' h' =>
        subst hp
        subst hp'
        have hb : pre ++ (attsText asc (a :: as) ++ rest) = pre ++ (a.text asc ++ (attsText asc as ++ rest)) := by simp [attsText]
        have hb' : pre ++ (attsText asc (a :: as) ++ rest) = (pre ++ a.text asc) ++ (attsText asc as ++ rest) := by simp [attsText]
        have hc : pre' ++ (attsText asc' (a' :: as') ++ rest') = pre' ++ (a'.text asc' ++ (attsText asc' as' ++ rest')) := by simp [attsText]
        have hc' : pre' ++ (attsText asc' (a' :: as') ++ rest') = (pre' ++ a'.text asc') ++ (attsText asc' as' ++ rest') := by simp [attsText]
        have one : attOne c D (internalUtf8X ns) x op et (pre ++ (attsText asc (a :: as) ++ rest)) s (attAt x.e asc pre.length a n) =
            attOne c D (internalUtf8X ns) y op et (pre' ++ (attsText asc' (a' :: as') ++ rest')) s (attAt y.e asc' pre'.length a' n') := by
          rw [hb, hc]
          simp only [attOne]
          rw [C33.att_name P.src.sup h1.valid, C33.att_name P.dst.sup h1.valid', attValue_eq P.src.sup _ _ _ _ hn,
            attValue_eq P.dst.sup _ _ _ _ hn', h1.name, stored_same P h1.valid.q h1.valid.value h1.value]
        rw [chain, chain, one]
        split
        · rfl
        · rename_i E s' _
          rw [hb', hc', ih h2 h' (pre ++ a.text asc) (pre' ++ a'.text asc') (by simp) (by simp)]

theorem Same.tag {c : Cfg} {ns : Bool} {name : List Buf} {as : List AttrSrc} {ws : List UInt8} {empty : Bool} {r b : Buf}
    (h : Same enc enc' ok (tagText asc name as ws empty ++ r) b) (hn : QName x.e asc name) (ha : ∀ a ∈ as, AttrSrc.Valid x.e asc a) (hw : AllWS ws) :
    ∃ (cs : List Nat) (as' : List AttrSrc) (r' : Buf), (∀ c ∈ cs, ok c) ∧ name = cs.map enc ∧ QName y.e asc' (cs.map enc') ∧
      (∀ a ∈ as', AttrSrc.Valid y.e asc' a) ∧ b = tagText asc' (cs.map enc') as' ws empty ++ r' ∧ Same enc enc' ok r r' ∧
      ∀ (D : Dtd) (op : List Buf) (fl : Buf → AFlag) (v : Env), storeAtts c D (internalUtf8X ns) x op fl v (converted x name.flatten) (tagText asc name as ws empty) =
        storeAtts c D (internalUtf8X ns) y op fl v (converted y (cs.map enc').flatten) (tagText asc' (cs.map enc') as' ws empty) := by
  simp only [tagText, closeText, List.append_assoc] at h
  obtain ⟨r1, rfl, h1⟩ := h.lit P (by decide) (by decide)
  obtain ⟨cs, r2, i1, rfl, i3, rfl, h2⟩ := h1.qname P hn
  obtain ⟨as', r3, j1, rfl, h3⟩ := Same.atts P ha h2
  obtain ⟨r4, rfl, h4⟩ := Same.spell P (allWS_plain hw) h3
  have hend : ∃ r5, r4 = (if empty then asc' 0x2F else []) ++ (asc' 0x3E ++ r5) ∧ Same enc enc' ok r r5 := by
    cases empty with
    | true =>
      simp only [if_true] at h4
      obtain ⟨r6, rfl, h5⟩ := h4.lit P (by decide) (by decide)
      obtain ⟨r7, rfl, h6⟩ := h5.lit P (by decide) (by decide)
      exact ⟨r7, rfl, h6⟩
    | false =>
      simp only [Bool.false_eq_true, if_false, List.nil_append] at h4
      obtain ⟨r7, rfl, h6⟩ := h4.lit P (by decide) (by decide)
      exact ⟨r7, rfl, h6⟩
  obtain ⟨r5, rfl, h5⟩ := hend
  refine ⟨cs, as', r5, i1, rfl, i3, j1.valid, by simp only [tagText, closeText, List.append_assoc], h5, ?_⟩
  intro D op fl v
  have g1 := getAtts_spec P.src.sup.s hn ha hw empty []
  have g2 := getAtts_spec P.dst.sup.s i3 j1.valid hw empty []
  rw [List.append_nil] at g1 g2
  have e (asc : UInt8 → Buf) (n : List Buf) (as : List AttrSrc) : tagText asc n as ws empty = (asc 0x3C ++ n.flatten) ++ (attsText asc as ++ closeText asc ws empty) := by
    rw [tagText, List.append_assoc]
  have key := chain_same P (c := c) (D := D) (ns := ns) (op := op) (et := D.elem (converted x (cs.map enc).flatten)) (closeText asc ws empty) (closeText asc' ws empty)
    g1 j1 g2 (asc 0x3C ++ (cs.map enc).flatten) (asc' 0x3C ++ (cs.map enc').flatten) (by simp [P.src.sup.s.asc.len]) (by simp [P.dst.sup.s.asc.len])
    ⟨[], fl, v, [], 0⟩
  rw [← e, ← e] at key
  rw [storeAtts, storeAtts]
  simp only [← P.conv i1]
  rw [show getAtts x.e (tagText asc (cs.map enc) as ws empty) = getAtts x.e (asc 0x3C ++ ((cs.map enc).flatten ++ (attsText asc as ++ closeText asc ws empty))) from rfl,
    show getAtts y.e (tagText asc' (cs.map enc') as' ws empty) = getAtts y.e (asc' 0x3C ++ ((cs.map enc').flatten ++ (attsText asc' as' ++ closeText asc' ws empty))) from rfl,
    key]

/-! ### Comments, processing instructions, CDATA sections -/

theorem noPair_map {cs : List Nat} (h : ∀ c ∈ cs, ok c) {d e : UInt8} (hd : d < 0x80) (hx : XmlChar d.toNat) (he : e < 0x80) (hy : XmlChar e.toNat)
    (hn : NoPair (asc d) (asc e) (cs.map enc ++ [asc d])) : NoPair (asc' d) (asc' e) (cs.map enc' ++ [asc' d]) := by
  induction cs with
  | nil => trivial
  | cons c cs ih =>
    have hc := h c (by simp)
    have ih := ih (fun c hc => h c (by simp [hc]))
    cases cs with
    | nil =>
      simp only [List.map_cons, List.map_nil, List.cons_append, List.nil_append, NoPair, and_true] at hn ⊢
      rintro ⟨h1, h2⟩
      refine hn ⟨(P.eq_iff hc hd hx).2 h1, ?_⟩
      have := P.dst.sup.s.asc_inj h2
      rw [this]
    | cons c2 cs =>
      simp only [List.map_cons, List.cons_append, NoPair] at hn ih ⊢
      refine ⟨?_, ih hn.2⟩
      rintro ⟨h1, h2⟩
      exact hn.1 ⟨(P.eq_iff hc hd hx).2 h1, (P.eq_iff (h c2 (by simp)) he hy).2 h2⟩

omit P in
theorem chars_pieces {e : Enc} {a : UInt8 → Buf} (s : Supported e a) {ws : List Buf} (h : e.Chars ws) : ∀ w ∈ ws, e.Piece w :=
  fun w hw => char_piece s (h w hw)

theorem Same.comment {ws : List Buf} {r b : Buf} (h : Same enc enc' ok (commentText asc ws ++ r) b) (hc : CommentOk x.e asc ws) :
    ∃ (cs : List Nat) (r' : Buf), (∀ c ∈ cs, ok c) ∧ ws = cs.map enc ∧ CommentOk y.e asc' (cs.map enc') ∧ b = commentText asc' (cs.map enc') ++ r' ∧
      Same enc enc' ok r r' := by
  simp only [commentText, List.append_assoc] at h
  obtain ⟨r1, rfl, h1⟩ := Same.spell P (by decide) h
  obtain ⟨cs, r2, i1, rfl, rfl, h2⟩ := h1.pieces P (chars_pieces P.src.sup.s hc.chars)
  obtain ⟨r3, rfl, h3⟩ := Same.spell P (by decide) h2
  exact ⟨cs, r3, i1, rfl, ⟨P.dst.chars i1, noPair_map P i1 (by decide) (by decide) (by decide) (by decide) hc.hyphens⟩, by
    simp only [commentText, List.append_assoc]; rfl, h3⟩

omit P in
theorem xmlAnyCase_plain {cs : List UInt8} (h : C07.XmlAnyCase cs) : Plain7 cs := by
  obtain ⟨a, b, c, rfl, h1, h2, h3⟩ := h
  intro d hd
  simp only [List.mem_cons, List.not_mem_nil, or_false] at hd
  rcases hd with rfl | rfl | rfl
  · rcases h1 with rfl | rfl <;> decide
  · rcases h2 with rfl | rfl <;> decide
  · rcases h3 with rfl | rfl <;> decide

theorem Same.pi {target ws : List Buf} {sp : List UInt8} {r b : Buf} (h : Same enc enc' ok (piText asc target sp ws ++ r) b) (hc : PiOk x.e asc target sp ws) :
    ∃ (cs ds : List Nat) (r' : Buf), (∀ c ∈ cs, ok c) ∧ (∀ c ∈ ds, ok c) ∧ target = cs.map enc ∧ ws = ds.map enc ∧
      PiOk y.e asc' (cs.map enc') sp (ds.map enc') ∧ b = piText asc' (cs.map enc') sp (ds.map enc') ++ r' ∧ Same enc enc' ok r r' := by
  simp only [piText, List.append_assoc] at h
  obtain ⟨r1, rfl, h1⟩ := Same.spell P (by decide) h
  obtain ⟨cs, r2, i1, rfl, i3, rfl, h2⟩ := h1.name P hc.name
  obtain ⟨r3, rfl, h3⟩ := Same.spell P (allWS_plain hc.space) h2
  obtain ⟨ds, r4, j1, rfl, rfl, h4⟩ := h3.pieces P (chars_pieces P.src.sup.s hc.chars)
  obtain ⟨r5, rfl, h5⟩ := Same.spell P (by decide) h4
  refine ⟨cs, ds, r5, i1, j1, rfl, rfl, ⟨i3, ?_, hc.space, ?_, P.dst.chars j1, ?_, ?_⟩, by simp only [piText, List.append_assoc]; rfl, h5⟩
  · rintro ⟨n, h6, h7⟩
    exact hc.notXml ⟨n, h6, (P.spell_iff i1 (xmlAnyCase_plain h6)).2 h7⟩
  · intro h6
    have := hc.sep h6
    rw [List.map_eq_nil_iff] at this ⊢
    exact this
  · exact noPair_map P j1 (by decide) (by decide) (by decide) (by decide) hc.close
  · intro d hd h6
    have hp := allWS_plain (ds := [d]) (by intro e he; simp at he; subst he; exact hd) d (by simp)
    cases ds with
    | nil => simp at h6
    | cons e ds =>
      simp only [List.map_cons, List.head?_cons, Option.some.injEq] at h6
      exact hc.first d hd (by simp only [List.map_cons, List.head?_cons, Option.some.injEq]; exact (P.eq_iff (j1 e (by simp)) hp.1 hp.2).2 h6)

theorem Pair.plain {c : Nat} (h : ok c) (hp : x.e.Plain asc (enc c)) : y.e.Plain asc' (enc' c) := by
  refine ⟨P.dst.char h, P.ne h (by decide) (by decide) hp.2.1, fun he => ?_⟩
  rw [← P.ends]
  exact hp.2.2 ((P.eq_iff h (by decide) (by decide)).2 he)

theorem Same.cdata {b r : Buf} {E : List Ev} (hc : Cdata x asc b E r) : ∀ {b' : Buf}, Same enc enc' ok b b' →
    ∃ r', Cdata y asc' b' E r' ∧ Same enc enc' ok r r' := by
  induction hc with
  | close r =>
    intro b' h
    obtain ⟨r', rfl, h1⟩ := Same.spell P (by decide) h
    exact ⟨r', .close r', h1⟩
  | char h1 h2 _ ih =>
    intro b' h
    have hs := fun hh => h2 ((P.startsClose h).2 hh)
    obtain ⟨c, r1, i1, rfl, rfl, i4⟩ := h.char P (char_piece P.src.sup.s h1.1)
    obtain ⟨r', j1, j2⟩ := ih i4
    refine ⟨r', ?_, j2⟩
    rw [P.conv1 i1]
    exact .char (P.plain i1 h1) hs j1
  | lf _ ih =>
    intro b' h
    obtain ⟨r1, rfl, h1⟩ := h.lit P (by decide) (by decide)
    obtain ⟨r', j1, j2⟩ := ih h1
    exact ⟨r', .lf j1, j2⟩
  | crlf h0 _ ih =>
    intro b' h
    obtain ⟨r1, rfl, h1⟩ := h.lit P (by decide) (by decide)
    obtain ⟨r1, rfl, h2⟩ := h1.lit P (by decide) (by decide)
    obtain ⟨r', j1, j2⟩ := ih h2
    exact ⟨r', .crlf (by rw [← P.ends]; exact h0) j1, j2⟩
  | cr h0 h1 _ ih =>
    intro b' h
    obtain ⟨r1, rfl, h2⟩ := h.lit P (by decide) (by decide)
    obtain ⟨r', j1, j2⟩ := ih h2
    exact ⟨r', .cr (by rw [← P.ends]; exact h0) (P.noLf h2 h1) j1, j2⟩

theorem Same.entity {name : List Buf} {r b : Buf} (h : Same enc enc' ok (entityText asc name.flatten ++ r) b) (hn : x.e.Name name) :
    ∃ (cs : List Nat) (r' : Buf), (∀ c ∈ cs, ok c) ∧ name = cs.map enc ∧ y.e.Name (cs.map enc') ∧ b = entityText asc' (cs.map enc').flatten ++ r' ∧
      Same enc enc' ok r r' := by
  simp only [entityText, List.append_assoc] at h
  obtain ⟨r1, rfl, h1⟩ := h.lit P (by decide) (by decide)
  obtain ⟨cs, r2, i1, rfl, i3, rfl, h2⟩ := h1.name P hn
  obtain ⟨r3, rfl, h3⟩ := h2.lit P (by decide) (by decide)
  exact ⟨cs, r3, i1, rfl, i3, by simp only [entityText, List.append_assoc], h3⟩

theorem Same.endTag {cs : List Nat} (hc : ∀ c ∈ cs, ok c) {sp : List UInt8} (hs : AllWS sp) {r b : Buf}
    (h : Same enc enc' ok (endText asc (cs.map enc).flatten sp ++ r) b) :
    ∃ r', b = endText asc' (cs.map enc').flatten sp ++ r' ∧ Same enc enc' ok r r' := by
  simp only [endText, List.append_assoc] at h
  obtain ⟨r1, rfl, h1⟩ := h.lit P (by decide) (by decide)
  obtain ⟨r2, rfl, h2⟩ := h1.lit P (by decide) (by decide)
  have hp : ∀ u ∈ cs.map enc, x.e.Piece u := by
    intro u hu
    obtain ⟨c, h3, rfl⟩ := List.mem_map.1 hu
    exact P.src.piece (hc c h3)
  obtain ⟨ds, r3, i1, i2, rfl, h3⟩ := h2.pieces P hp
  have : cs = ds := P.src.text_inj hc i1 (by rw [C12.text, C12.text, i2])
  subst this
  obtain ⟨r4, rfl, h4⟩ := Same.spell P (allWS_plain hs) h3
  obtain ⟨r5, rfl, h5⟩ := h4.lit P (by decide) (by decide)
  exact ⟨r5, by simp only [endText, List.append_assoc]; rfl, h5⟩

/-! ### Content -/

/-- Content in one encoding is content in the other, reported alike. -/
theorem Same.content {c : Cfg} {D : Dtd} {ns : Bool} {iasc : UInt8 → Buf} {x0 : XEnc} {asc0 : UInt8 → Buf} {op : List Buf} {v : Env} {b r : Buf} {E : List Ev}
    (hc : Content c D (internalUtf8X ns) iasc x0 asc0 op v b E r) : x0 = x → asc0 = asc → ∀ {b' : Buf}, Same enc enc' ok b b' →
    ∃ r', Content c D (internalUtf8X ns) iasc y asc' op v b' E r' ∧ Same enc enc' ok r r' := by
  induction hc with
  | nil r => rintro rfl rfl b' h; exact ⟨b', .nil b', h⟩
  | char h1 h2 h3 h4 _ ih =>
    rintro rfl rfl b' h
    have hs := fun hh => h4 ((P.startsClose h).2 hh)
    obtain ⟨c, r1, i1, rfl, rfl, i4⟩ := h.char P (char_piece P.src.sup.s h1.1)
    obtain ⟨r', j1, j2⟩ := ih rfl rfl i4
    refine ⟨r', ?_, j2⟩
    rw [P.conv1 i1]
    exact .char (P.plain i1 h1) (P.ne i1 (by decide) (by decide) h2) (P.ne i1 (by decide) (by decide) h3) hs j1
  | lf _ ih =>
    rintro rfl rfl b' h
    obtain ⟨r1, rfl, h1⟩ := h.lit P (by decide) (by decide)
    obtain ⟨r', j1, j2⟩ := ih rfl rfl h1
    exact ⟨r', .lf j1, j2⟩
  | crlf h0 _ ih =>
    rintro rfl rfl b' h
    obtain ⟨r1, rfl, h1⟩ := h.lit P (by decide) (by decide)
    obtain ⟨r1, rfl, h2⟩ := h1.lit P (by decide) (by decide)
    obtain ⟨r', j1, j2⟩ := ih rfl rfl h2
    exact ⟨r', .crlf (by rw [← P.ends]; exact h0) j1, j2⟩
  | cr h0 h1 _ ih =>
    rintro rfl rfl b' h
    obtain ⟨r1, rfl, h2⟩ := h.lit P (by decide) (by decide)
    obtain ⟨r', j1, j2⟩ := ih rfl rfl h2
    exact ⟨r', .cr (by rw [← P.ends]; exact h0) (P.noLf h2 h1) j1, j2⟩
  | charRef h1 h2 _ ih =>
    rintro rfl rfl b' h
    obtain ⟨w', r1, i1, rfl, -, i4⟩ := h.charRef P h1
    obtain ⟨r', j1, j2⟩ := ih rfl rfl i4
    exact ⟨r', .charRef i1 h2 j1, j2⟩
  | predefined h1 _ ih =>
    rintro rfl rfl b' h
    simp only [entityText, List.append_assoc] at h
    obtain ⟨r1, rfl, h2⟩ := h.lit P (by decide) (by decide)
    obtain ⟨r2, rfl, h3⟩ := Same.spell P (predefined_plain h1) h2
    obtain ⟨r3, rfl, h4⟩ := h3.lit P (by decide) (by decide)
    obtain ⟨r', j1, j2⟩ := ih rfl rfl h4
    have := Content.predefined h1 j1
    simp only [entityText, List.append_assoc] at this
    exact ⟨r', this, j2⟩
  | entity h1 h2 h3 h4 h5 h6 h7 h8 _ _ ih =>
    rintro rfl rfl b' h
    obtain ⟨cs, r1, i1, rfl, i3, rfl, i5⟩ := h.entity P h1
    obtain ⟨r', j1, j2⟩ := ih rfl rfl i5
    rw [P.conv i1] at h3 h7 h8
    exact ⟨r', .entity i3 (P.predefined i1 h2) h3 h4 h5 h6 h7 h8 j1, j2⟩
  | external h1 h2 h3 h4 h5 h6 h7 h8 _ ih =>
    rintro rfl rfl b' h
    obtain ⟨cs, r1, i1, rfl, i3, rfl, i5⟩ := h.entity P h1
    obtain ⟨r', j1, j2⟩ := ih rfl rfl i5
    rw [P.conv i1] at h3 h7 h8
    exact ⟨r', .external i3 (P.predefined i1 h2) h3 h4 h5 h6 h7 h8 j1, j2⟩
  | skipped h1 h2 h3 h4 _ ih =>
    rintro rfl rfl b' h
    obtain ⟨cs, r1, i1, rfl, i3, rfl, i5⟩ := h.entity P h1
    obtain ⟨r', j1, j2⟩ := ih rfl rfl i5
    rw [P.conv i1] at h3 ⊢
    exact ⟨r', .skipped i3 (P.predefined i1 h2) h3 h4 j1, j2⟩
  | comment h1 _ ih =>
    rintro rfl rfl b' h
    obtain ⟨cs, r1, i1, rfl, i3, rfl, i5⟩ := h.comment P h1
    obtain ⟨r', j1, j2⟩ := ih rfl rfl i5
    rw [P.conv i1]
    exact ⟨r', .comment i3 j1, j2⟩
  | pi h1 _ ih =>
    rintro rfl rfl b' h
    obtain ⟨cs, ds, r1, i1, i2, rfl, rfl, i3, rfl, i5⟩ := h.pi P h1
    obtain ⟨r', j1, j2⟩ := ih rfl rfl i5
    rw [P.conv i1, P.conv i2]
    exact ⟨r', .pi i3 j1, j2⟩
  | cdata h1 _ ih =>
    rintro rfl rfl b' h
    obtain ⟨r1, rfl, h2⟩ := Same.spell P (ds := [0x3C, 0x21, 0x5B, 0x43, 0x44, 0x41, 0x54, 0x41, 0x5B]) (by decide) h
    obtain ⟨r2, h3, h4⟩ := Same.cdata P h1 h2
    obtain ⟨r', j1, j2⟩ := ih rfl rfl h4
    exact ⟨r', .cdata h3 j1, j2⟩
  | empty h1 h2 h3 h4 _ ih =>
    rintro rfl rfl b' h
    obtain ⟨cs, as', r1, i1, rfl, i3, i4, rfl, i6, i7⟩ := h.tag P h1 h2 h3
    obtain ⟨r', j1, j2⟩ := ih rfl rfl i6
    rw [i7] at h4
    exact ⟨r', .empty i3 i4 h3 h4 j1, j2⟩
  | element h1 h2 h3 h3' h4 _ _ ih ih2 =>
    rintro rfl rfl b' h
    obtain ⟨cs, as', r1, i1, rfl, i3, i4, rfl, i6, i7⟩ := h.tag P h1 h2 h3
    obtain ⟨r2, j1, j2⟩ := ih rfl rfl i6
    obtain ⟨r3, rfl, j3⟩ := Same.endTag P i1 h3' j2
    obtain ⟨r', k1, k2⟩ := ih2 rfl rfl j3
    rw [i7] at h4
    exact ⟨r', .element i3 i4 h3 h3' h4 j1 k1, k2⟩

theorem Same.misc {b : Buf} {E : List Ev} (hc : Misc x asc b E) : ∀ {b' : Buf}, Same enc enc' ok b b' → Misc y asc' b' E := by
  induction hc with
  | nil =>
    intro b' h
    have := h.nil_inv P
    subst this
    exact .nil
  | @space ch _ _ h1 _ ih =>
    intro b' h
    have hp := allWS_plain (ds := [ch]) (by intro e he; simp at he; subst he; exact h1) ch (by simp)
    obtain ⟨r1, rfl, h2⟩ := h.lit P hp.1 hp.2
    exact .space h1 (ih h2)
  | comment h1 _ ih =>
    intro b' h
    obtain ⟨cs, r1, i1, rfl, i3, rfl, i5⟩ := h.comment P h1
    rw [P.conv i1]
    exact .comment i3 (ih i5)
  | pi h1 _ ih =>
    intro b' h
    obtain ⟨cs, ds, r1, i1, i2, rfl, rfl, i3, rfl, i5⟩ := h.pi P h1
    rw [P.conv i1, P.conv i2]
    exact .pi i3 (ih i5)

/-- A document in one encoding is a document in the other, reported alike. -/
theorem Same.document {c : Cfg} {D : Dtd} {ns : Bool} {iasc : UInt8 → Buf} {b : Buf} {E : List Ev}
    (hc : Document c D (internalUtf8X ns) iasc x asc b E) {b' : Buf} (h : Same enc enc' ok b b') : Document c D (internalUtf8X ns) iasc y asc' b' E := by
  cases hc with
  | empty h1 h2 h3 h4 h5 =>
    obtain ⟨cs, as', r1, i1, rfl, i3, i4, rfl, i6, i7⟩ := h.tag P h1 h2 h3
    rw [i7] at h4
    exact .empty i3 i4 h3 h4 (Same.misc P h5 i6)
  | element h1 h2 h3 h3' h4 h5 h6 =>
    obtain ⟨cs, as', r1, i1, rfl, i3, i4, rfl, i6, i7⟩ := h.tag P h1 h2 h3
    obtain ⟨r2, j1, j2⟩ := Same.content P h5 rfl rfl i6
    obtain ⟨r3, rfl, j3⟩ := Same.endTag P i1 h3' j2
    rw [i7] at h4
    exact .element i3 i4 h3 h3' h4 j1 (Same.misc P h6 j3)

end

end Verif
