import Verif.ContentItems

/-! The content loop accepts exactly the content of the grammar, and reports what the grammar says. -/

set_option autoImplicit false

namespace Verif
open C43 C53 Spec C04

section
variable {c : Cfg} {D : Dtd} {int : XEnc} {iasc : UInt8 → Buf}

/-- In content, inside at least one element; the flags of attribute names are clear between tags
(`C28.flags_unset`). -/
structure In (start : Nat) (v : Env) (s : CState) : Prop where
  mode : s.mode = .content
  env : s.env = v
  flags : s.flags = fun _ => .unset
  level : 1 ≤ s.level
  start : start ≤ s.level

theorem In.push {start : Nat} {v : Env} {s : CState} (h : In start v s) {raw : Buf} {t : Stored}
    (hf : t.flags = fun _ => .unset) : In start t.env (s.push raw t) :=
  ⟨h.mode, rfl, hf, Nat.le_succ_of_le h.level, Nat.le_succ_of_le h.start⟩

theorem pop_push {s : CState} {raw : Buf} {t : Stored} (hu : C31.undo t.env t.binds = s.env) (hl : 1 ≤ s.level)
    (hf : t.flags = s.flags) : (s.push raw t).pop ⟨raw, t.name, t.binds⟩ s.tags = s := by
  obtain ⟨tags, level, mode, env, flags⟩ := s
  simp only at hl hu hf
  simp only [CState.pop, CState.push, hu, hf, Nat.add_sub_cancel]
  rw [if_neg (by omega)]

theorem After.preIf {E E' : List Ev} {q r : Ran CState} (h : After E q r) (hf : flat E' = E') :
    After (E' ++ E) q (Verif.pre E' r) := by
  refine ⟨h.1, fun s rest hq => ?_⟩
  rw [Verif.pre, flat_append, hf, h.2 s rest hq, List.append_assoc]

variable (a : AllSet c) (I : XSupported int iasc) (hi : int.e.mb = 1)
include a I hi

/-- **Completeness**: content of the grammar is parsed, with its events. -/
theorem content_run {x : XEnc} {asc : UInt8 → Buf} {opened : List Buf} {v : Env} {b : Buf} {E : List Ev} {r : Buf}
    (h : Content c D int iasc x asc opened v b E r) : ∀ {k start : Nat} {s : CState}, XSupported x asc →
    C34.avail D opened ≤ k → In start v s → x.e.mb ∣ b.length →
    x.e.mb ∣ r.length ∧ After E (run (sem c D int k x opened start) x.e false false s r)
      (run (sem c D int k x opened start) x.e false false s b) := by
  induction h with
  | nil r => intro k start s S hk hs hd; exact ⟨hd, rfl, fun _ _ _ => rfl⟩
  | @char x asc opened v w b r E h1 h2 h3 h4 _ ih =>
    intro k start s S hk hs hd
    have hd := dvd_rest S (S.s.dvd h1.1) hd
    have ih := ih S hk hs hd
    exact ⟨ih.1, .trans (run_char S a hs.mode h1 h2 h3 h4 hd) ih.2⟩
  | lf _ ih =>
    intro k start s S hk hs hd
    have hd := dvd_asc S hd
    have ih := ih S hk hs hd
    exact ⟨ih.1, .trans (run_lf S a hs.mode hd) ih.2⟩
  | crlf hl _ ih =>
    intro k start s S hk hs hd
    have hd := dvd_asc S (dvd_asc S hd)
    have ih := ih S hk hs hd
    exact ⟨ih.1, .trans (run_crlf S a hs.mode hl hd) ih.2⟩
  | cr hl hn _ ih =>
    intro k start s S hk hs hd
    have hd := dvd_asc S hd
    have ih := ih S hk hs hd
    exact ⟨ih.1, .trans (run_cr S a hs.mode hl hn hd) ih.2⟩
  | @charRef x asc opened v w b r n E h1 h2 _ ih =>
    intro k start s S hk hs hd
    have m := charRef_markup S h1
    have ih := ih S hk hs (markup_dvd S m hd).2
    refine ⟨ih.1, .trans ?_ ih.2⟩
    rw [run_markup S hs.mode m hd (act_charRef S a s h1 h2)]
    exact .pre _ (flat_text _)
  | @predefined x asc opened v name ch b r E h1 _ ih =>
    intro k start s S hk hs hd
    have m : Markup x.e asc .ENTITY_REF (entityText asc (spell asc name)) := entity_markup (predefined_name S h1)
    have ih := ih S hk hs (markup_dvd S m hd).2
    refine ⟨ih.1, .trans ?_ ih.2⟩
    rw [run_markup S hs.mode m hd (act_predefined S a s h1)]
    exact .pre _ (flat_text _)
  | @entity x asc opened v name ent t b r E1 E h1 h2 h3 h4 h5 h6 h7 _ _ ih1 ih =>
    intro k start s S hk hs hd
    have m : Markup x.e asc .ENTITY_REF (entityText asc name.flatten) := entity_markup h1
    have ih := ih S hk hs (markup_dvd S m hd).2
    have hlt := C34.avail_lt h3 h7
    obtain ⟨k, rfl⟩ : ∃ k', k = k' + 1 := ⟨k - 1, by omega⟩
    have i1 := (ih1 (k := k) (start := s.level) (s := s) I (by omega)
      ⟨hs.mode, hs.env, hs.flags, hs.level, Nat.le_refl _⟩ (by rw [hi]; exact Nat.one_dvd _)).2
    rw [run_nil a hs.mode] at i1
    have hfin : finish (sem c D int k int (converted x name.flatten :: opened) s.level) s [] = .ok s [] := by
      obtain ⟨ex, he⟩ := sem_semOf c D int k int (converted x name.flatten :: opened) s.level
      rw [he]
      have := hs.level
      simp only [finish, semOf]
      rw [if_neg (by omega), if_neg (by simp)]
    rw [hfin] at i1
    obtain ⟨j1, j2⟩ := i1
    have j2 := j2 s [] rfl
    refine ⟨ih.1, .trans ?_ ih.2⟩
    cases hq : run (sem c D int k int (converted x name.flatten :: opened) s.level) int.e false false s t with
    | mk E' o =>
      rw [hq] at j1 j2
      simp only at j1 j2
      subst j1
      rw [run_markup S hs.mode m hd (E := E') (s' := s)]
      · exact .pre _ (by rw [j2]; simp [flat])
      · have h6' : (D.mustDeclare && !ent.isInternal) = false := by
          cases hm : D.mustDeclare with
          | false => rfl
          | true => rw [h6 hm]; rfl
        simp only [sem, semOf, act, actEntityRef, refName_text S, not_predefined S h1 h2, ne_eq, not_true_eq_false, if_false, h3,
          h6', Bool.false_eq_true, h7, h5, Option.isSome_none, h4, a.expandInternal, Bool.not_true, hq, Ran.toAct]
  | @external x asc opened v name ent b r E h1 h2 h3 h4 h5 h6 h7 h8 _ ih =>
    intro k start s S hk hs hd
    have m : Markup x.e asc .ENTITY_REF (entityText asc name.flatten) := entity_markup h1
    have ih := ih S hk hs (markup_dvd S m hd).2
    refine ⟨ih.1, .trans (E1 := [_]) ?_ ih.2⟩
    rw [run_markup S hs.mode m hd (E := [.externalRef none ent.systemId ent.publicId]) (s' := s)]
    · exact .pre _ rfl
    · have h6' : (D.mustDeclare && !ent.isInternal) = false := by
        cases hm : D.mustDeclare with
        | false => rfl
        | true => rw [h6 hm]; rfl
      cases k <;> simp [sem, semOf, act, actEntityRef, refName_text S, not_predefined S h1 h2, h3,
        h6', h7, h5, h4, a.externalRef, h8]
  | @skipped x asc opened v name b r E h1 h2 h3 h4 _ ih =>
    intro k start s S hk hs hd
    have m : Markup x.e asc .ENTITY_REF (entityText asc name.flatten) := entity_markup h1
    have ih := ih S hk hs (markup_dvd S m hd).2
    refine ⟨ih.1, .trans (E1 := [_]) ?_ ih.2⟩
    rw [run_markup S hs.mode m hd (E := [.skippedEntity (converted x name.flatten) false]) (s' := s)]
    · exact .pre _ rfl
    · cases k <;> simp [sem, semOf, act, actEntityRef, refName_text S, not_predefined S h1 h2, h3, h4, orDefault, a.skipped]
  | @comment x asc opened v ws b r E h1 _ ih =>
    intro k start s S hk hs hd
    have m : Markup x.e asc .COMMENT (commentText asc ws) := .comment h1.chars h1.hyphens
    have ih := ih S hk hs (markup_dvd S m hd).2
    refine ⟨ih.1, .trans (E1 := [_]) ?_ ih.2⟩
    rw [run_markup S hs.mode m hd (act_comment S a s h1)]
    exact .pre _ rfl
  | pi h1 _ ih =>
    intro k start s S hk hs hd
    have m := pi_markup S h1
    have ih := ih S hk hs (markup_dvd S m hd).2
    refine ⟨ih.1, .trans (E1 := [_]) ?_ ih.2⟩
    rw [run_markup S hs.mode m hd (act_pi S a s h1)]
    exact .pre _ rfl
  | @cdata x asc opened v b b2 r E1 E h1 _ ih =>
    intro k start s S hk hs hd
    have m : Markup x.e asc .CDATA_SECT_OPEN (cdataOpen asc) := .cdata
    have hr := run_cdata (k := k) (D := D) (int := int) (opened := opened) (start := start) S a h1 hs.mode (markup_dvd S m hd).2
    have ih := ih S hk hs hr.1
    refine ⟨ih.1, ?_⟩
    rw [run_markup S hs.mode m hd (E := [.startCdata]) (s' := { s with mode := .cdata })]
    · have := (hr.2.trans ih.2).preIf (E' := [.startCdata]) rfl
      simpa using this
    · cases k <;> simp [sem, semOf, act, orDefault, a.startCdata]
  | @empty x asc opened v name as ws b r t Es E h1 h2 h3 h4 _ ih =>
    intro k start s S hk hs hd
    have m := tag_markup h1 h2 h3 true
    have ih := ih S hk hs (markup_dvd S m hd).2
    refine ⟨ih.1, .trans ?_ ih.2⟩
    rw [← hs.flags, ← hs.env] at h4
    have ha := act_empty (start := start) (k := k) S a s h1 h2 h3 hs.flags h4
    have hl := hs.level
    rw [if_neg (by omega)] at ha
    rw [run_markup S hs.mode m hd ha]
    refine .pre _ ?_
    rw [flat_append, flat_storeAtts h4, show ∀ (u v : Ev) l, (u :: v :: l) = [u, v] ++ l from fun _ _ _ => rfl, flat_append, flat_endNs]
    rfl
  | @element x asc opened v name as ws sp b b2 r t Es E1 E h1 h2 h3 h4 h5 _ _ ih1 ih =>
    intro k start s S hk hs hd
    have m := tag_markup h1 h2 h3 false
    rw [← hs.flags, ← hs.env] at h5
    have hf : t.flags = fun _ => .unset := by
      funext n; exact C28.flags_unset (by intro n; rw [hs.flags]) h5 n
    have i1 := ih1 (k := k) (start := start) S hk (hs.push (raw := name.flatten) hf) (markup_dvd S m hd).2
    have m2 : Markup x.e asc .END_TAG (endText asc name.flatten sp) := .endTag (qname_endName S h1) h4
    have ih := ih S hk hs (markup_dvd S m2 i1.1).2
    have hl := hs.level
    have hst := hs.start
    refine ⟨ih.1, ?_⟩
    rw [run_markup S hs.mode m hd (act_start S a s h1 h2 h3 h5)]
    have i2 := i1.2
    rw [run_markup S (hs.push hf).mode m2 i1.1 (act_endTag S a (s.push name.flatten t) (qname_endName S h1) h4
      (by simp only [CState.push]; omega) rfl rfl),
      pop_push (C31.storeAtts_declared a.startNs h5).1 hl (by rw [hf, hs.flags])] at i2
    have h6 : flat (Es ++ [Ev.startElement (t.name.full c) t.atts t.specified t.idIndex]) =
        Es ++ [.startElement (t.name.full c) t.atts t.specified t.idIndex] := by
      rw [flat_append, flat_storeAtts h5]; rfl
    have h7 : flat (Ev.endElement (t.name.full c) :: (t.binds.map fun d => .endNs d.pre)) =
        .endElement (t.name.full c) :: (t.binds.map fun d => .endNs d.pre) := by
      rw [show ∀ (v : Ev) l, (v :: l) = [v] ++ l from fun _ _ => rfl, flat_append, flat_endNs]; rfl
    have := ((i2.trans (ih.2.preIf h7))).preIf h6
    simpa using this


/-! ### Soundness -/

omit a I hi in
theorem contentTok_none {e : Enc} {b : Buf} (h : (contentTok e b).tok = .NONE) : b = [] := by
  have hb : ∀ b, (contentTokBody e b).tok ≠ .NONE := by
    intro b
    have h1 := scanLt_tok e
    have h2 := scanRef_tok e
    fun_cases contentTokBody e b <;> grind [Tok.fail, Tok.markup, → invalidCases_fail, contentLoop_tok]
  rw [contentTok] at h
  split at h
  · rename_i hb'; simpa using hb'
  · split at h
    · cases h
    · exact absurd h (hb _)

omit a I hi in
/-- What expanding an entity is. -/
theorem sem_expand (c : Cfg) (D : Dtd) (int : XEnc) (k : Nat) (x : XEnc) (opened : List Buf) (start : Nat) :
    ∃ ex, sem c D int k x opened start = semOf c D int x opened start ex ∧
      ∀ name t s E s', ex name t s = (E, .ok s') → ∃ k', k' < k ∧ ∃ r',
        run (sem c D int k' int (name :: opened) s.level) int.e false false s t = (E, .ok s' r') := by
  cases k with
  | zero => exact ⟨_, rfl, fun name t s E s' h => by cases h⟩
  | succ k =>
    refine ⟨_, rfl, fun name t s E s' h => ⟨k, Nat.lt_succ_self k, ?_⟩⟩
    cases hq : run (sem c D int k int (name :: opened) s.level) int.e false false s t with
    | mk E' o =>
      rw [hq] at h
      cases o with
      | err e => cases h
      | ok s1 r1 => cases h; exact ⟨_, rfl⟩

omit a I hi in
theorem After.ok {E F : List Ev} {q : Ran CState} {s2 : CState} {r2 : Buf} (h : After E q (F, .ok s2 r2)) :
    ∃ F', q = (F', .ok s2 r2) ∧ flat F = E ++ flat F' := by
  obtain ⟨F', o⟩ := q
  have h1 := h.1
  simp only at h1
  subst h1
  exact ⟨F', rfl, h.2 _ _ rfl⟩

omit a I hi in
theorem Cdata.suffix {x : XEnc} {asc : UInt8 → Buf} {b r : Buf} {E : List Ev} (h : Cdata x asc b E r) : ∃ u, b = u ++ r := by
  induction h with
  | close r => exact ⟨_, rfl⟩
  | char _ _ _ ih => obtain ⟨u, rfl⟩ := ih; exact ⟨_, (List.append_assoc ..).symm⟩
  | lf _ ih => obtain ⟨u, rfl⟩ := ih; exact ⟨_, (List.append_assoc ..).symm⟩
  | @crlf _ _ _ _ _ ih => obtain ⟨u, rfl⟩ := ih; exact ⟨asc 0x0D ++ (asc 0x0A ++ u), by simp⟩
  | cr _ _ _ ih => obtain ⟨u, rfl⟩ := ih; exact ⟨_, (List.append_assoc ..).symm⟩

/-- What may follow content in a successful run of the content loop from state `s`: the end of the text, with
all elements opened in this entity closed, or the end tag of the innermost element.
`G` are the remaining events. -/
inductive Follows (c : Cfg) (D : Dtd) (int : XEnc) (k : Nat) (x : XEnc) (asc : UInt8 → Buf) (opened : List Buf) (start : Nat)
    (s : CState) : Buf → List Ev → CState → Buf → Prop
  | eof : start = s.level → Follows c D int k x asc opened start s [] [] s []
  | endTag {tag : Tag} {tags : List Tag} {sp : List UInt8} {b2 : Buf} {F : List Ev} {s2 : CState} {r2 : Buf} :
      start ≠ s.level → s.tags = tag :: tags → AllWS sp → x.e.mb ∣ b2.length →
      run (sem c D int k x opened start) x.e false false (s.pop tag tags) b2 = (F, .ok s2 r2) →
      Follows c D int k x asc opened start s (endText asc tag.rawName sp ++ b2)
        (.endElement (tag.name.full c) :: (tag.binds.map fun d => .endNs d.pre) ++ flat F) s2 r2

/-- **Soundness**: whatever the content loop accepts is content of the grammar, up to the end of the text or to
the end tag of the element it started in, and the events are those of the grammar. -/
theorem content_parsed (k : Nat) : ∀ (n : Nat) {b : Buf}, b.length = n → ∀ {x : XEnc} {asc : UInt8 → Buf} {opened : List Buf}
    {start : Nat} {v : Env} {s : CState} {F : List Ev} {s2 : CState} {r2 : Buf}, XSupported x asc →
    In start v s → x.e.mb ∣ b.length →
    run (sem c D int k x opened start) x.e false false s b = (F, .ok s2 r2) →
    ∃ E b1 G, Content c D int iasc x asc opened v b E b1 ∧ b1.length ≤ b.length ∧ flat F = E ++ G ∧
      Follows c D int k x asc opened start s b1 G s2 r2 := by
  induction k using Nat.strongRecOn with
  | _ k ihk =>
  intro n
  induction n using Nat.strongRecOn with
  | _ n ih =>
    intro b hn x asc opened start v s F s2 r2 S hs hd hr
    have hpos : 0 < x.e.mb := Nat.succ_pos _
    have item : ∀ {w r : Buf} {E : List Ev}, b = w ++ r → After E (run (sem c D int k x opened start) x.e false false s r)
          (run (sem c D int k x opened start) x.e false false s (w ++ r)) → 0 < w.length → x.e.mb ∣ r.length →
        (∀ E1 b1, Content c D int iasc x asc opened v r E1 b1 → Content c D int iasc x asc opened v (w ++ r) (E ++ E1) b1) →
        ∃ E b1 G, Content c D int iasc x asc opened v b E b1 ∧ b1.length ≤ b.length ∧ flat F = E ++ G ∧
          Follows c D int k x asc opened start s b1 G s2 r2 := by
      intro w r E hb ha hw hdr hc
      rw [← hb, hr] at ha
      obtain ⟨F', h1, h2⟩ := ha.ok
      obtain ⟨E1, b1, G, h3, h4, h5, h6⟩ := ih r.length (by rw [← hn, hb, List.length_append]; omega) rfl S hs hdr h1
      refine ⟨E ++ E1, b1, G, ?_, ?_, ?_, h6⟩
      · rw [hb]; exact hc E1 b1 h3
      · rw [hb, List.length_append]; omega
      · rw [h2, h5, List.append_assoc]
    have fails : ∀ {t : Tok} {w r : Buf} {E : List Ev} {err : XErr}, b = w ++ r → Markup x.e asc t w →
        (sem c D int k x opened start).act s t w = (E, .error err) → False := by
      intro t w r E err hb m ha
      rw [hb] at hr hd
      rw [run_markup_err S hs.mode m hd ha] at hr
      cases hr
    obtain ⟨ex, he, hex⟩ := sem_expand c D int k x opened start
    have tokc : s.mode.tok x.e b = contentTok x.e b := by rw [hs.mode]; rfl
    by_cases hdata : (contentTok x.e b).tok = .DATA_CHARS ∨ (contentTok x.e b).tok = .DATA_NEWLINE ∨
        (contentTok x.e b).tok = .TRAILING_CR ∨ (contentTok x.e b).tok = .TRAILING_RSQB
    · rcases content_first S.s hd (t := (contentTok x.e b).tok) (n := (contentTok x.e b).next) rfl hdata with
        ⟨w, r, rfl, h1, h2, h3, h4⟩ | ⟨r, rfl⟩ | ⟨hl, r, rfl⟩
      · have hd' := dvd_rest S (S.s.dvd h1.1) hd
        have hw := Enc.isChar_len S.s.mb h1.1
        exact item rfl (run_char S a hs.mode h1 h2 h3 h4 hd') (by omega) hd' fun E1 b1 h => .char h1 h2 h3 h4 h
      · have hd' := dvd_asc S hd
        exact item rfl (run_lf S a hs.mode hd') (by rw [S.s.asc.len]; omega) hd' fun E1 b1 h => .lf h
      · by_cases hn : ∃ r', r = asc 0x0A ++ r'
        · obtain ⟨r', rfl⟩ := hn
          have hd' := dvd_asc S (dvd_asc S hd)
          refine item (w := asc 0x0D ++ asc 0x0A) (E := textEvs [0x0A]) (by simp) ?_ (by rw [List.length_append, S.s.asc.len]; omega) hd' fun E1 b1 h => ?_
          · rw [List.append_assoc]; exact run_crlf S a hs.mode hl hd'
          · rw [List.append_assoc]; exact .crlf hl h
        · have hn : ∀ b', r ≠ asc 0x0A ++ b' := fun b' h => hn ⟨b', h⟩
          have hd' := dvd_asc S hd
          exact item rfl (run_cr S a hs.mode hl hn hd') (by rw [S.s.asc.len]; omega) hd' fun E1 b1 h => .cr hl hn h
    · by_cases hnone : (contentTok x.e b).tok = .NONE
      · have := contentTok_none hnone
        subst this
        rw [run_nil a hs.mode] at hr
        rw [he] at hr
        simp only [finish, semOf] at hr
        split at hr
        · cases hr
        · rename_i hf
          split at hf
          · cases hf
          · split at hf
            · cases hf
            · rename_i h0 hl
              cases hr
              exact ⟨[], [], [], .nil _, Nat.le_refl _, rfl, .eof (Classical.byContradiction fun h => hl fun h' => h h'.symm)⟩
      · have hok : (contentTok x.e b).tok.isError = false := by
          rw [run_go sem_go, sem_mode, tokc, hs.mode] at hr
          have ht := contentTok_tok x.e b
          revert hr hdata hnone ht
          generalize (contentTok x.e b).tok = t
          intro hr hdata hnone ht
          cases t <;> first | rfl | (simp [Mode.verdict] at hr; done) | (simp at hdata; done) | (simp at hnone; done) |
            (simp [Tok.fail, Tok.markup] at ht; done)
        obtain ⟨w, r, m, rfl, -⟩ := content_sound S.s hd hok (fun h => hdata (.inl h)) (fun h => hdata (.inr (.inl h))) (n := (contentTok x.e b).next) rfl
        generalize (contentTok x.e (w ++ r)).tok = t at m
        clear hdata hnone hok tokc
        have hdr := (markup_dvd S m hd).2
        have hwp := markup_pos S m
        have step : ∀ {E : List Ev}, flat E = E → (sem c D int k x opened start).act s t w = (E, .ok s) →
            (∀ E1 b1, Content c D int iasc x asc opened v r E1 b1 → Content c D int iasc x asc opened v (w ++ r) (E ++ E1) b1) →
            ∃ E b1 G, Content c D int iasc x asc opened v (w ++ r) E b1 ∧ b1.length ≤ (w ++ r).length ∧ flat F = E ++ G ∧
              Follows c D int k x asc opened start s b1 G s2 r2 := by
          intro E hE ha hc
          refine item rfl ?_ hwp hdr hc
          rw [run_markup S hs.mode m hd ha]
          exact .pre _ hE
        cases m with
        | @ref _ w h =>
          cases h with
          | entity name hname =>
            have m := entity_markup (asc := asc) hname
            by_cases hp : Predefined asc name.flatten
            · obtain ⟨nm, ch, h1, h2⟩ := hp
              rw [h2] at m hr hd item hwp hn ⊢
              refine item (E := textEvs [ch]) rfl ?_ hwp hdr fun E1 b1 h => .predefined h1 h
              have := run_markup (D := D) (int := int) (k := k) (opened := opened) (start := start) S hs.mode m hd (act_predefined S a s h1)
              rw [entityText] at this
              rw [this]
              exact .pre _ (flat_text _)
            · have hz := not_predefined S hname hp
              have hrn := refName_text (x := x) S (name := name.flatten)
              rw [entityText] at hrn m
              cases hD1 : D.entity (converted x name.flatten) with
              | none =>
                cases hmd : D.mustDeclare with
                | true => exact (fails rfl m (E := []) (err := .UNDEFINED_ENTITY) (by
                    simp [he, semOf, act, actEntityRef, hrn, hz, hD1, hmd])).elim
                | false => exact step (E := [.skippedEntity (converted x name.flatten) false]) rfl (by
                    simp [he, semOf, act, actEntityRef, hrn, hz, hD1, hmd, orDefault, a.skipped]) fun E1 b1 h => .skipped hname hp hD1 hmd h
              | some ent =>
                cases hpe : (D.mustDeclare && !ent.isInternal) with
                | true => exact (fails rfl m (E := []) (err := .ENTITY_DECLARED_IN_PE) (by
                    simp only [he, semOf, act, actEntityRef, hrn, hz, ne_eq, not_true_eq_false, if_false, hD1, hpe, if_true])).elim
                | false =>
                  have hmd : D.mustDeclare = true → ent.isInternal = true := by
                    intro h; rw [h] at hpe; simpa using hpe
                  by_cases hop : converted x name.flatten ∈ opened
                  · exact (fails rfl m (E := []) (err := .RECURSIVE_ENTITY_REF) (by
                      simp [he, semOf, act, actEntityRef, hrn, hz, hD1, hpe, hop])).elim
                  cases hnt : ent.notation_ with
                  | some _ => exact (fails rfl m (E := []) (err := .BINARY_ENTITY_REF) (by
                      simp [he, semOf, act, actEntityRef, hrn, hz, hD1, hpe, hop, hnt])).elim
                  | none =>
                    cases htx : ent.text with
                    | none =>
                      cases hro : c.refOk (converted x name.flatten) ent with
                      | false => exact (fails rfl m (E := [.externalRef none ent.systemId ent.publicId]) (err := .EXTERNAL_ENTITY_HANDLING) (by
                          simp [he, semOf, act, actEntityRef, hrn, hz, hD1, hpe, hop, hnt, htx, a.externalRef, hro])).elim
                      | true =>
                        exact step (E := [.externalRef none ent.systemId ent.publicId]) rfl (by
                          simp [he, semOf, act, actEntityRef, hrn, hz, hD1, hpe, hop, hnt, htx, a.externalRef, hro])
                            fun E1 b1 h => .external hname hp hD1 htx hnt hmd hop hro h
                    | some tx =>
                      have hact : (sem c D int k x opened start).act s .ENTITY_REF (asc 0x26 ++ (name.flatten ++ asc 0x3B)) =
                          ex (converted x name.flatten) tx s := by
                        simp only [he, semOf, act, actEntityRef, hrn, hz, ne_eq, not_true_eq_false, if_false, hD1, hpe, Bool.false_eq_true,
                          hop, hnt, Option.isSome_none, htx, a.expandInternal, Bool.not_true]
                      cases hq : ex (converted x name.flatten) tx s with
                      | mk E' o =>
                        rw [hq] at hact
                        cases o with
                        | error e => exact (fails rfl m hact).elim
                        | ok s' =>
                          obtain ⟨k', hk, r', hq⟩ := hex _ _ _ _ _ hq
                          obtain ⟨E1, b1, G, i1, -, i3, i4⟩ := ihk k' hk _ rfl I
                            (⟨hs.mode, hs.env, hs.flags, hs.level, Nat.le_refl _⟩ : In s.level v s) (by rw [hi]; exact Nat.one_dvd _) hq
                          cases i4 with
                          | endTag h => exact absurd rfl h
                          | eof =>
                            rw [List.append_nil] at i3
                            refine item (E := E1) rfl ?_ hwp hdr fun E2 b2 h => .entity hname hp hD1 htx hnt hmd hop i1 h
                            rw [run_markup S hs.mode m hd hact]
                            exact .pre _ i3
          | dec ds h1 h2 =>
            by_cases hx : XmlChar (numeral 10 ds)
            · refine item rfl ?_ hwp hdr fun E1 b1 h => .charRef (.dec ds h1 h2) hx h
              rw [run_markup S hs.mode (.ref (.dec ds h1 h2)) hd (act_charRef S a s (.dec ds h1 h2) hx)]
              exact .pre _ (flat_text _)
            · exact (fails rfl (.ref (.dec ds h1 h2)) (act_charRef_bad S s (.dec ds h1 h2) hx)).elim
          | hex ds h1 h2 =>
            by_cases hx : XmlChar (numeral 16 ds)
            · refine item rfl ?_ hwp hdr fun E1 b1 h => .charRef (.hex ds h1 h2) hx h
              rw [run_markup S hs.mode (.ref (.hex ds h1 h2)) hd (act_charRef S a s (.hex ds h1 h2) hx)]
              exact .pre _ (flat_text _)
            · exact (fails rfl (.ref (.hex ds h1 h2)) (act_charRef_bad S s (.hex ds h1 h2) hx)).elim
        | comment h1 h2 => exact step rfl (act_comment S a s ⟨h1, h2⟩) fun E1 b1 h => .comment ⟨h1, h2⟩ h
        | @pi target d t h1 h2 h3 =>
          rcases pi_tok h3 with rfl | rfl
          · obtain ⟨sp, ws, h4, h5⟩ := pi_of_markup S h1 h2 h3
            rw [h5] at step ⊢
            exact step rfl (act_pi S a s h4) fun E1 b1 h => .pi h4 h
          · exact (fails rfl (.pi h1 h2 h3) (E := []) (err := .MISPLACED_XML_PI) (by simp [he, semOf, act])).elim
        | cdata =>
          have ha : (sem c D int k x opened start).act s .CDATA_SECT_OPEN (spell asc ([0x3C, 0x21, 0x5B] ++ CDATA_LSQB)) =
              ([.startCdata], .ok { s with mode := .cdata }) := by simp [he, semOf, act, orDefault, a.startCdata]
          have hr' := hr
          rw [run_markup S hs.mode .cdata hd ha] at hr'
          cases hq : run (sem c D int k x opened start) x.e false false { s with mode := .cdata } r with
          | mk F' o =>
            rw [hq] at hr'
            simp only [pre] at hr'
            injection hr' with hF ho
            subst ho
            obtain ⟨Ec, r', hc, hlt⟩ := cdata_sound S a _ rfl hs.mode hdr hq
            have hcr := run_cdata (k := k) (D := D) (int := int) (opened := opened) (start := start) S a hc hs.mode hdr
            obtain ⟨u, hu⟩ := hc.suffix
            subst hu
            refine item (w := spell asc ([0x3C, 0x21, 0x5B] ++ CDATA_LSQB) ++ u) (E := .startCdata :: (Ec ++ [.endCdata])) (by simp) ?_
              (by rw [List.length_append]; omega) hcr.1 fun E1 b1 h => ?_
            · rw [List.append_assoc, run_markup S hs.mode .cdata hd ha]
              exact hcr.2.preIf (E' := [.startCdata]) rfl
            · have := Content.cdata hc h
              rw [List.append_assoc]
              simpa [cdataOpen, CDATA_LSQB] using this
        | @tag name as ws empty h1 h2 h3 =>
          have m := tag_markup (asc := asc) h1 h2 h3 empty
          rw [show asc 0x3C ++ (name.flatten ++ (attsText asc as ++ closeText asc ws empty)) = tagText asc name as ws empty from rfl] at *
          cases empty with
          | true =>
            cases hst : storeAtts c D int x opened s.flags s.env (converted x name.flatten) (tagText asc name as ws true) with
            | mk Es o =>
              cases o with
              | error e =>
                obtain ⟨E, hE⟩ := act_empty_err (k := k) (start := start) S s h1 h2 h3 hst
                exact (fails rfl m hE).elim
              | ok t =>
                have ha := act_empty (start := start) (k := k) S a s h1 h2 h3 hs.flags hst
                have hl := hs.level
                rw [if_neg (by omega)] at ha
                refine step ?_ ha fun E1 b1 h => ?_
                · rw [flat_append, flat_storeAtts hst, show ∀ (u v : Ev) l, (u :: v :: l) = [u, v] ++ l from fun _ _ _ => rfl,
                    flat_append, flat_endNs]
                  rfl
                · rw [hs.flags, hs.env] at hst
                  exact .empty h1 h2 h3 hst h
          | false =>
            cases hst : storeAtts c D int x opened s.flags s.env (converted x name.flatten) (tagText asc name as ws false) with
            | mk Es o =>
              cases o with
              | error e => exact (fails rfl m (act_start_err (k := k) (start := start) S s h1 h2 h3 hst)).elim
              | ok t =>
                have ha := act_start (start := start) (k := k) S a s h1 h2 h3 hst
                have hl := hs.level
                have hsl := hs.start
                have hf : t.flags = fun _ => .unset := by
                  funext n; exact C28.flags_unset (by intro n; rw [hs.flags]) hst n
                have hr' := hr
                rw [run_markup S hs.mode m hd ha] at hr'
                cases hq : run (sem c D int k x opened start) x.e false false (s.push name.flatten t) r with
                | mk F' o =>
                  rw [hq] at hr'
                  simp only [pre] at hr'
                  injection hr' with hF ho
                  subst ho
                  obtain ⟨E1, b1, G, i1, i2, i3, i4⟩ := ih r.length (by rw [← hn, List.length_append]; omega) rfl S (hs.push hf) hdr hq
                  cases i4 with
                  | eof h => simp only [CState.push] at h; omega
                  | @endTag tag tags sp b2 F2 _ _ j1 j2 j3 j4 j5 =>
                    simp only [CState.push] at j2
                    injection j2 with j2 j2'
                    subst j2 j2'
                    rw [pop_push (C31.storeAtts_declared a.startNs hst).1 hl (by rw [hf, hs.flags])] at j5
                    have hlen : b2.length < n := by
                      rw [← hn, List.length_append]; rw [List.length_append] at i2; omega
                    obtain ⟨E2, b3, G, k1, k2, k3, k4⟩ := ih b2.length hlen rfl S hs j4 j5
                    rw [hs.flags, hs.env] at hst
                    refine ⟨_, b3, G, .element h1 h2 h3 j3 hst i1 k1, ?_, ?_, k4⟩
                    · rw [List.length_append]; rw [List.length_append] at i2; omega
                    · rw [← hF, flat_append, flat_append, flat_storeAtts hst, i3, k3]
                      simp [flat, slice]
        | @endTag name sp h1 h2 =>
          rw [show asc 0x3C ++ (asc 0x2F ++ (name.flatten ++ (spell asc sp ++ asc 0x3E))) = endText asc name.flatten sp from rfl] at *
          have m : Markup x.e asc .END_TAG (endText asc name.flatten sp) := .endTag h1 h2
          cases hq : (sem c D int k x opened start).act s .END_TAG (endText asc name.flatten sp) with
          | mk E o =>
            cases o with
            | error e => exact (fails rfl m hq).elim
            | ok s' =>
              obtain ⟨g1, tag, tags, g2, g3⟩ := act_endTag_ok S h1 h2 hq
              have ha := act_endTag (k := k) (D := D) (int := int) (opened := opened) (start := start) S a s h1 h2 g1 g2 g3
              have hr' := hr
              rw [run_markup S hs.mode m hd ha] at hr'
              cases hq : run (sem c D int k x opened start) x.e false false (s.pop tag tags) r with
              | mk F' o =>
                rw [hq] at hr'
                simp only [pre] at hr'
                injection hr' with hF ho
                subst ho
                rw [g3]
                refine ⟨[], _, _, .nil _, Nat.le_refl _, ?_, .endTag (fun h => g1 h.symm) g2 h2 hdr hq⟩
                rw [← hF, show ∀ (v : Ev) l, (v :: l) = [v] ++ l from fun _ _ => rfl, flat_append, flat_append, flat_endNs]
                simp [flat, slice]

end
end Verif
