import Verif.PrologActs
import Verif.PrologToks
import Verif.Props.C04Parser

/-! Lemmas for C57: the prolog loop on a buffer and on a longer one. -/

set_option autoImplicit false

namespace Verif
open PState C43

/-! ### White space in the grammar machine -/

theorem next_space (e e' : Enc) (p : PState) (b b' : Buf) : p.next e .PROLOG_S b = p.next e' .PROLOG_S b' := by
  obtain ⟨h, lv, rn, il, de, iv⟩ := p
  cases h <;> rfl

theorem next_space_role {e : Enc} {p : PState} {b : Buf} (hn : p.roleNone.none_ = true) :
    (p.next e .PROLOG_S b).2 = .ERROR ∨
      ((p.next e .PROLOG_S b).2.none_ = true ∧
        (p.next e .PROLOG_S b).1.next e .PROLOG_S b = p.next e .PROLOG_S b) := by
  obtain ⟨h, lv, rn, il, de, iv⟩ := p
  simp only at hn
  cases h <;> first
    | exact .inr ⟨rfl, rfl⟩
    | exact .inr ⟨hn, rfl⟩
    | exact .inl rfl
    | (cases de <;> first | exact .inl rfl | exact .inr ⟨rfl, rfl⟩)

/-! ### What is not touched by declarations -/

/-- The encoding and the processor are the same. -/
def Still (s s' : DState) : Prop := s'.cur = s.cur ∧ s'.ignoring = s.ignoring

section
variable {c : PCfg} {ext : Ext} {fuel : Nat} {expand : Bool → Buf → Buf → DState → Acted}
  {internal allowClose : Bool} {opened : List Buf}

theorem setDecl_still (s : DState) (f : Entity → Entity) : Still s (s.setDecl f) := by
  unfold DState.setDecl; split <;> exact ⟨rfl, rfl⟩

theorem callExt_still (s : DState) (opened : List Buf) (ent : Entity) : Still s (callExt ext s opened ent).2.1 :=
  ⟨rfl, rfl⟩

theorem readSubset_still (atRoot : Bool) (s : DState) : Still s (readSubset c ext opened atRoot s).2.1 := by
  unfold readSubset
  simp only []
  (repeat' split) <;> exact ⟨rfl, rfl⟩

theorem actDoctypeClose_still (s : DState) : Still s (actDoctypeClose c ext opened allowClose s).2.1 := by
  unfold actDoctypeClose
  simp only []
  split
  · exact ⟨rfl, rfl⟩
  · have h : Still s (if s.dName.isSome then { s with tmp := [] } else s) := by split <;> exact ⟨rfl, rfl⟩
    generalize (if s.dName.isSome then { s with tmp := [] } else s) = u at h ⊢
    split
    · have h2 := readSubset_still (c := c) (ext := ext) (opened := opened) false u
      generalize readSubset c ext opened false u = q at h2
      obtain ⟨E, v, o⟩ := q
      cases o <;> exact ⟨h2.1.trans h.1, h2.2.trans h.2⟩
    · exact h

theorem actInstanceStart_still (s : DState) : Still s (actInstanceStart c ext opened s).2.1 := by
  unfold actInstanceStart
  split
  · have h2 := readSubset_still (c := c) (ext := ext) (opened := opened) true s
    generalize readSubset c ext opened true s = q at h2
    obtain ⟨E, v, o⟩ := q
    cases o <;> exact h2
  · exact ⟨rfl, rfl⟩

theorem actAttlist_still (s : DState) (x : XEnc) (r : Role) (w : Buf) : Still s (actAttlist c s x r w) := by
  unfold actAttlist
  split <;> first | exact ⟨rfl, rfl⟩ | (split <;> exact ⟨rfl, rfl⟩)

theorem reportAttribute_still (s : DState) (v : Option Buf) (b : Bool) : Still s (reportAttribute c s v b).2.1 := by
  unfold reportAttribute
  split
  · exact ⟨rfl, rfl⟩
  · split <;> exact ⟨rfl, rfl⟩

theorem actAttDefault_still (s : DState) (x : XEnc) (r : Role) (w : Buf) :
    Still s (actAttDefault c s x internal r w).2.1 := by
  unfold actAttDefault
  split
  · exact ⟨rfl, rfl⟩
  · split
    · exact reportAttribute_still _ _ _
    · exact reportAttribute_still _ _ _
    · split
      · exact ⟨rfl, rfl⟩
      · exact reportAttribute_still _ _ _

theorem actEntity_still (s : DState) (x : XEnc) (r : Role) (w : Buf) :
    Still s (actEntity c ext fuel opened s x internal r w).2.1 := by
  unfold actEntity
  split
  · (repeat' split) <;> exact ⟨rfl, rfl⟩
  · (repeat' split) <;> exact ⟨rfl, rfl⟩
  · split
    · exact ⟨rfl, rfl⟩
    · exact setDecl_still (s.setSh _) _
  · (repeat' split) <;> first | exact ⟨rfl, rfl⟩ | exact setDecl_still _ _
  · (repeat' split) <;> first | exact ⟨rfl, rfl⟩ | exact setDecl_still _ _
  · (repeat' split) <;> exact ⟨rfl, rfl⟩
  · simp only []
    (repeat' split) <;> first | exact ⟨rfl, rfl⟩ | exact setDecl_still _ _
  · exact ⟨rfl, rfl⟩

theorem actNotation_still (s : DState) (x : XEnc) (r : Role) (w : Buf) : Still s (actNotation c s x r w).2.1 := by
  unfold actNotation
  (repeat' split) <;> exact ⟨rfl, rfl⟩

theorem docEntry_still (s : DState) : Still s (docEntry s) := by
  unfold docEntry; split <;> exact ⟨rfl, rfl⟩

theorem docSystemSet_still (s : DState) (x : XEnc) (w : Buf) : Still s (docSystemSet c x w s) := by
  unfold docSystemSet; split
  · exact setDecl_still _ _
  · exact ⟨rfl, rfl⟩

theorem docPublicSet_still (s : DState) (x : XEnc) (w : Buf) : Still s (docPublic.docPublicSet x w s) := by
  unfold docPublic.docPublicSet; split
  · exact setDecl_still _ _
  · exact ⟨rfl, rfl⟩

theorem Still.trans {s t u : DState} (h : Still s t) (h' : Still t u) : Still s u :=
  ⟨h'.1.trans h.1, h'.2.trans h.2⟩

theorem docSystem_still (s : DState) (x : XEnc) (w : Buf) : Still s (docSystem c x w s).2.1 := by
  unfold docSystem
  simp only []
  generalize (if s.pe = .never then askStandalone c s.D else ([], false)) = a
  split
  · exact ⟨rfl, rfl⟩
  · exact (docEntry_still s).trans (docSystemSet_still _ _ _)

theorem docPublic_still (s : DState) (x : XEnc) (w : Buf) : Still s (docPublic c x w s).2.1 := by
  unfold docPublic
  split
  · exact ⟨rfl, rfl⟩
  · split
    · exact Still.trans (t := docPublic.docPublicId x w s) ⟨rfl, rfl⟩ (docPublicSet_still _ _ _)
    · exact docPublicSet_still _ _ _

theorem actDoctype_still (s : DState) (x : XEnc) (r : Role) (w : Buf) : Still s (actDoctype c s x r w).2.1 := by
  unfold actDoctype
  split
  · split <;> exact ⟨rfl, rfl⟩
  · split <;> exact ⟨rfl, rfl⟩
  · refine Still.trans ?_ (docPublic_still _ _ _)
    exact ⟨rfl, rfl⟩
  · refine Still.trans ?_ (docSystem_still _ _ _)
    split <;> exact ⟨rfl, rfl⟩
  · exact ⟨rfl, rfl⟩

theorem actComment_still (s : DState) (x : XEnc) (w : Buf) : Still s (actComment c s x w).2.1 := by
  unfold actComment
  (repeat' split) <;> exact ⟨rfl, rfl⟩

theorem actPI_still (s : DState) (x : XEnc) (w : Buf) : Still s (actPI c s x w).2.1 := by
  unfold actPI
  simp only []
  (repeat' split) <;> exact ⟨rfl, rfl⟩

theorem actElement_still (s : DState) (x : XEnc) (r : Role) (t : Tok) (w : Buf) :
    Still s (actElement c s x r t w).2.1 := by
  unfold actElement
  split <;> exact ⟨rfl, rfl⟩

/-- What a reference does to the encoding and the processor is what the entity's text does. -/
def StillExpand (P : DState → DState → Prop) (expand : Bool → Buf → Buf → DState → Acted) : Prop :=
  ∀ b n t s, P s (expand b n t s).2.1

theorem standaloneCheck_still (s : DState) (b : Bool) : Still s (standaloneCheck c s b).2.1 := ⟨rfl, rfl⟩

/-- Relations coarser than `Still`. -/
structure StillRel (P : DState → DState → Prop) : Prop where
  still : ∀ {s s'}, Still s s' → P s s'
  trans : ∀ {s t u}, P s t → P t u → P s u

theorem handleRef_still {P : DState → DState → Prop} (H : StillRel P) (he : StillExpand P expand) (s : DState)
    (r : Role) (name : Buf) (ent : Entity) : P s (handleRef c ext expand opened s r name ent).2.1 := by
  unfold handleRef
  split
  · exact H.still ⟨rfl, rfl⟩
  · split
    · rename_i t _
      have h := he (r = .PARAM_ENTITY_REF) name t s
      generalize expand _ name t s = q at h ⊢
      obtain ⟨E, u, o⟩ := q
      cases o <;> exact h
    · simp only []
      apply H.still
      (repeat' split) <;> exact ⟨rfl, rfl⟩

theorem actParamRef_still {P : DState → DState → Prop} (H : StillRel P) (he : StillExpand P expand) (s : DState)
    (x : XEnc) (r : Role) (w : Buf) : P s (actParamRef c ext expand opened s x internal r w).2.1 := by
  unfold actParamRef
  refine H.trans (t := { s with D := { s.D with hasPERefs := true } }) (H.still ⟨rfl, rfl⟩) ?_
  generalize ({ s with D := { s.D with hasPERefs := true } } : DState) = s
  unfold paramRef
  split
  · exact H.still ⟨rfl, rfl⟩
  · simp only []
    generalize (s.el.p.documentEntity && if s.D.standalone then !internal else !s.D.hasPERefs) = must
    split
    · apply H.still; (repeat' split) <;> exact ⟨rfl, rfl⟩
    · rename_i ent _
      split
      · exact H.still ⟨rfl, rfl⟩
      · unfold handleRefCheck
        have h := handleRef_still (c := c) (ext := ext) (opened := opened) H he s r (converted x (refName x.e w)) ent
        generalize handleRef c ext expand opened s r (converted x (refName x.e w)) ent = q at h ⊢
        obtain ⟨E, u, o⟩ := q
        cases o with
        | go hd => exact H.trans h (H.still ⟨rfl, rfl⟩)
        | _ => exact h

theorem pact_still {P : DState → DState → Prop} (H : StillRel P) (he : StillExpand P expand)
    (hx : ∀ s b w, P s (actXmlDecl c s b w).2.1) (s : DState) (r : Role) (t : Tok) (w : Buf) :
    P s (pact c ext fuel expand internal allowClose opened s r t w).2.1 := by
  unfold pact
  simp only []
  split
  all_goals first
    | with_reducible exact hx _ _ _
    | with_reducible exact H.still (actDoctype_still _ _ _ _)
    | with_reducible exact H.still (actDoctypeClose_still _)
    | with_reducible exact H.still (actInstanceStart_still _)
    | with_reducible exact H.still (actAttDefault_still _ _ _ _)
    | with_reducible exact H.still (actEntity_still _ _ _ _)
    | with_reducible exact H.still (actNotation_still _ _ _ _)
    | with_reducible exact actParamRef_still H he _ _ _ _
    | with_reducible exact H.still (actPI_still _ _ _)
    | with_reducible exact H.still (actComment_still _ _ _)
    | with_reducible exact H.still (actElement_still _ _ _ _ _)
    | with_reducible exact H.still (actAttlist_still _ _ _ _)
    | exact H.still ⟨rfl, rfl⟩

theorem pround_still {P : DState → DState → Prop} (H : StillRel P) (he : StillExpand P expand)
    (hx : ∀ s b w, P s (actXmlDecl c s b w).2.1) (s : DState) (t : Tok) (w : Buf) :
    P s (pround c ext fuel expand internal allowClose opened s t w).2.1 := by
  rw [pround_eq]
  refine H.trans (t := s.told (s.x c internal).e t w) (H.still ⟨rfl, rfl⟩) ?_
  have h := pact_still (c := c) (ext := ext) (fuel := fuel) (internal := internal) (allowClose := allowClose)
    (opened := opened) H he hx (s.told (s.x c internal).e t w) (s.el.p.next (s.x c internal).e t w).2 t w
  generalize pact c ext fuel expand internal allowClose opened _ _ t w = q at h ⊢
  obtain ⟨E, u, o⟩ := q
  cases o with
  | go d => cases d <;> exact h
  | _ => exact h

end

/-! ### Tokens -/

theorem nd_name {t : Tok} (h : t.fail ∨ t.namey ∨ t.nameyNeg ∨ t.nameyOp) : t ≠ .DATA_CHARS := by
  intro ht
  subst ht
  revert h
  unfold Tok.fail Tok.namey Tok.nameyNeg Tok.nameyOp
  simp

theorem prologTok_not_data {e : Enc} {b : Buf} : (prologTok e b).tok ≠ .DATA_CHARS := by
  intro h
  unfold prologTok at h
  split at h
  · cases h
  · split at h
    · cases h
    · generalize truncBuf e b = b at h
      have hl := fun o => scanLit_tok e o (b.drop e.mb) e.mb
      have hn := fun t ht => nd_name (prologName_tok e t false (b.drop e.mb) e.mb ht)
      have hp := scanPercent_tok e (b.drop e.mb) e.mb
      have hd := scanDecl_toks e (b.drop (2 * e.mb)) (2 * e.mb)
      have hpi := scanPi_tok e (b.drop (2 * e.mb)) (2 * e.mb)
      have hs := prologSpace_tok e (b.drop e.mb) e.mb
      have hpn := scanPoundName_tok e (b.drop e.mb) e.mb
      have h1 : Tok.namey .NAME := .inl rfl
      have h2 : Tok.namey .NMTOKEN := .inr (.inl rfl)
      unfold prologTokBody at h
      split at h
      · exact absurd h (nd_name (prologLead_tok _ _ _))
      · exact absurd h (nd_name (prologLead_tok _ _ _))
      · exact absurd h (nd_name (prologLead_tok _ _ _))
      · have := hl .QUOT; rw [h] at this; simp [Tok.fail] at this
      · have := hl .APOS; rw [h] at this; simp [Tok.fail] at this
      · split at h
        · cases h
        · split at h
          · rw [h] at hd; simp [Tok.fail] at hd
          · rw [h] at hpi; simp [Tok.fail] at hpi
          all_goals cases h
      · split at h
        · cases h
        · rw [hs] at h; cases h
      · rw [hs] at h; cases h
      · rw [hs] at h; cases h
      · rw [h] at hp; simp [Tok.fail] at hp
      · cases h
      · cases h
      · (repeat' split at h) <;> cases h
      · cases h
      · (repeat' split at h) <;> cases h
      · cases h
      · cases h
      · rw [h] at hpn; simp [Tok.fail] at hpn
      · exact absurd h (hn _ h1)
      · exact absurd h (hn _ h1)
      · exact absurd h (hn _ h2)
      · exact absurd h (hn _ h2)
      · exact absurd h (hn _ h2)
      · exact absurd h (hn _ h2)
      · split at h
        · exact absurd h (hn _ h1)
        · split at h
          · exact absurd h (hn _ h2)
          · cases h
      · cases h

/-- White space that goes on in the longer buffer goes on right where it stopped in the shorter one. -/
theorem prolog_space_cut {e : Enc} (ok : e.Ok) (ev : e.Even) {b : Buf} {n : Nat} (x : Buf)
    (h : prologTok e b = ⟨.PROLOG_S, n⟩) :
    n ≤ b.length ∧ e.mb ∣ n ∧ (prologTok e (b ++ x) = ⟨.PROLOG_S, n⟩ ∨
      ∃ m, prologTok e (b ++ x) = ⟨.PROLOG_S, n + m⟩ ∧ prologTok e ((b ++ x).drop n) = ⟨.PROLOG_S, m⟩) := by
  obtain ⟨h1, h2, h3⟩ := space_cut ok ev x (.inl rfl) h
  refine ⟨h1, h2, ?_⟩
  rcases h3 with h3 | h3 | ⟨h3, _⟩
  · exact .inl h3
  · exact .inr h3
  · exfalso
    have hb := tok_long (m := .epilog) h (by simp) (by simp)
    obtain ⟨y, hy⟩ := truncBuf_app e b x
    rw [prologTok_eq hb] at h
    rw [prologTok_eq (by rw [List.length_append]; omega), hy] at h3
    have hl := truncBuf_len hb
    have hbt := ok.bt_app (truncBuf e b) y hl
    rcases prologTokBody_space (.inr rfl) h3 with ⟨h4, _⟩ | ⟨_, _, h4, h5⟩
    · cases h4
    · rw [hbt] at h4
      rw [List.length_append] at h5
      have h6 : (truncBuf e b).length = e.mb := by omega
      simp only [prologTokBody, h4, if_pos h6] at h
      cases h

theorem ignoreLoop_cases (e : Enc) (l : Nat) (b : Buf) (p : Nat) : (ignoreLoop e l b p).tok = .IGNORE_SECT ∨
    (ignoreLoop e l b p).tok = .INVALID ∨ (ignoreLoop e l b p).tok = .PARTIAL_CHAR ∨ (ignoreLoop e l b p).tok = .PARTIAL := by
  fun_induction ignoreLoop e l b p <;> grind [Tok.fail, → invalidCases_fail]

/-- An IGNORE section that is closed, or wrong, stays so. -/
theorem ignoreSection_app {x : XEnc} (ok : x.e.Ok) {b : Buf} (v : Buf) :
    ignoreSection x true b = .wait ∨ ignoreSection x false (b ++ v) = ignoreSection x true b := by
  have hs := C03.stable .ignore x.e ok b v
  simp only [C02.Entry.run] at hs
  have ht : (ignoreSectionTok x.e b).tok = .IGNORE_SECT ∨ (ignoreSectionTok x.e b).tok = .INVALID ∨
      (ignoreSectionTok x.e b).tok = .PARTIAL_CHAR ∨ (ignoreSectionTok x.e b).tok = .PARTIAL :=
    ignoreLoop_cases _ _ _ _
  rcases ht with ht | ht | ht | ht
  · right
    have h2 := hs (by rw [ht]; rfl)
    simp only [ignoreSection, h2, ht]
  · right
    have h2 := hs (by rw [ht]; rfl)
    simp only [ignoreSection, h2, ht]
  · left; simp only [ignoreSection, ht, if_true]
  · left; simp only [ignoreSection, ht, if_true]

theorem ignoreSection_closed {x : XEnc} {more : Bool} {b : Buf} {k : Nat} (h : ignoreSection x more b = .closed k) :
    0 < k ∧ k ≤ b.length := by
  have hn := C02.next_in_buffer .ignore x.e b
  have hp := C02.progress .ignore x.e b
  simp only [C02.Entry.run] at hn hp
  unfold ignoreSection at h
  simp only [] at h
  split at h
  · rename_i ht
    cases h
    rw [ht] at hp
    exact ⟨hp rfl (by simp), hn⟩
  · cases h
  · split at h <;> cases h
  · split at h <;> cases h
  · split at h <;> cases h
  · cases h

theorem ignoreSection_final {x : XEnc} {b : Buf} : ignoreSection x false b ≠ .wait := by
  unfold ignoreSection
  simp only []
  split <;> simp

/-- What is seen in a buffer to which more will be added, and in the longer one. -/
theorem seeToken_app {x : XEnc} (ok : x.e.Ok) (isPE : Bool) (b v : Buf) :
    seeToken x false false true isPE b = .wait ∨
    (seeToken x false false true isPE b = .fail .INVALID_TOKEN ∧
      seeToken x false false false isPE (b ++ v) = .fail .INVALID_TOKEN) ∨
    (∃ t n, seeToken x false false true isPE b = .tok t n ∧ n ≤ b.length ∧
      seeToken x false false false isPE (b ++ v) = .tok t n) ∨
    (∃ n, seeToken x false false true isPE b = .tok .PROLOG_S n ∧ prologTok x.e b = ⟨.PROLOG_S, n⟩) := by
  have hn := C02.next_in_buffer .prolog x.e b
  have hs := C03.stable .prolog x.e ok b v
  have hd := prologTok_not_data (e := x.e) (b := b)
  simp only [C02.Entry.run] at hn hs
  unfold seeToken
  generalize hr : prologTok x.e b = r at hn hs hd ⊢
  obtain ⟨t, n⟩ := r
  simp only at hn hs hd
  by_cases hp : t = .PROLOG_S
  · subst hp
    exact .inr (.inr (.inr ⟨n, rfl, rfl⟩))
  · by_cases he : t.isError = true
    · by_cases hi : t = .INVALID
      · subst hi
        right; left
        rw [hs rfl]
        exact ⟨rfl, rfl⟩
      · left
        simp [seeRes, he, hi]
    · right; right; left
      refine ⟨t, n, by simp [seeRes, he], hn, ?_⟩
      rw [hs (by clear hs hr; revert he hp hd; cases t <;> decide)]
      simp [seeRes, he]

/-! ### Encodings -/

/-- What is needed of an encoding: more input does not change a character, tokens are whole code units, and white
space may be cut anywhere between tokens when it is converted. -/
structure XEnc.Cuts (x : XEnc) : Prop where
  ok : x.e.Ok
  even : x.e.Even
  mb2 : x.e.mb ≤ 2
  space : ∀ b n v, prologTok x.e b = ⟨.PROLOG_S, n⟩ →
    (pieces x (b.take n ++ v)).flatten = (pieces x (b.take n)).flatten ++ (pieces x v).flatten

theorem XSupported.cuts {x : XEnc} {asc : UInt8 → Buf} (s : XSupported x asc) : x.Cuts where
  ok := s.s.ok
  even := s.s.even
  mb2 := s.s.mb
  space b n v h := by
    obtain ⟨ws, hw, he⟩ := space_chars s.s (.inl rfl) h
    rw [he]
    exact C04.pieces_app s hw v

theorem EncId.cuts (i : EncId) (ns : Bool) : (i.x ns).Cuts := by
  cases i
  · exact (XSupported.latin1 ns).cuts
  · exact (XSupported.ascii ns).cuts
  · exact (XSupported.utf8 ns).cuts
  · exact (XSupported.utf16be ns).cuts
  · exact (XSupported.utf16le ns).cuts

/-- The encodings which the application's handler provides. -/
def PCfg.OtherOk (c : PCfg) : Prop := ∀ n y, c.unknown n = some y → y.Cuts ∧ y.e.mb = 1

/-- What a step does to the encoding; the processor is not changed. -/
structure Enced (c : PCfg) (s s' : DState) : Prop where
  ignoring : s'.ignoring = s.ignoring
  cuts : (s.x c false).Cuts → (s'.x c false).Cuts
  mb : (s'.x c false).e.mb ∣ (s.x c false).e.mb

section
variable {c : PCfg} {ext : Ext} {fuel : Nat} {expand : Bool → Buf → Buf → DState → Acted}
  {internal between allowClose more : Bool} {opened : List Buf}

theorem enced_rel : StillRel (Enced c) where
  still {s s'} h := by
    have : s'.x c false = s.x c false := by simp only [DState.x, h.1]
    exact ⟨h.2, by rw [this]; exact id, by rw [this]; exact Nat.dvd_refl _⟩
  trans h h' := ⟨h'.ignoring.trans h.ignoring, fun g => h'.cuts (h.cuts g), Nat.dvd_trans h'.mb h.mb⟩

theorem actXmlDecl_enced (ho : c.OtherOk) (s : DState) (b : Bool) (w : Buf) : Enced c s (actXmlDecl c s b w).2.1 := by
  unfold actXmlDecl
  simp only []
  split
  · exact enced_rel.still ⟨rfl, rfl⟩
  · exact enced_rel.still ⟨rfl, rfl⟩
  · rename_i o _
    have h1 : Still s (if (!b && o.standalone == some true) = true then
        { s with D := { s.D with standalone := true }
                 pe := if s.pe = .unlessStandalone then .never else s.pe } else s) := by
      split <;> exact ⟨rfl, rfl⟩
    generalize (if (!b && o.standalone == some true) = true then
        { s with D := { s.D with standalone := true }
                 pe := if s.pe = .unlessStandalone then .never else s.pe } else s) = u at h1 ⊢
    refine enced_rel.trans (enced_rel.still h1) ?_
    split
    · exact enced_rel.still ⟨rfl, rfl⟩
    · split
      · exact enced_rel.still ⟨rfl, rfl⟩
      · rename_i i hi
        split
        · exact enced_rel.still ⟨rfl, rfl⟩
        · exact enced_rel.still ⟨rfl, rfl⟩
        · exact enced_rel.still ⟨rfl, rfl⟩
        · rename_i j hj
          refine ⟨rfl, fun _ => EncId.cuts j c.c.ns, ?_⟩
          have hx : u.x c false = i.x c.c.ns := by simp only [DState.x, hi, CurEnc.x]; rfl
          rw [hx]
          show (j.x c.c.ns).e.mb ∣ (i.x c.c.ns).e.mb
          have : (j.x c.c.ns).e.mb = (i.x c.c.ns).e.mb := by
            unfold processXmlDecl at hj
            split at hj
            · cases hj
            · cases hj
            · split at hj
              · cases hj; rfl
              · split at hj
                · cases hj; rfl
                · cases hj
                · cases hj
                · cases hj; rfl
                · split at hj
                  · cases hj
                  · rename_i hm
                    cases hj
                    have := fun h => hm (.inl h)
                    exact Classical.byContradiction this
          rw [this]; exact Nat.dvd_refl _
        · split
          · exact enced_rel.still ⟨rfl, rfl⟩
          · rename_i y hy
            refine ⟨rfl, fun _ => (ho _ _ hy).1, ?_⟩
            show y.e.mb ∣ _
            rw [(ho _ _ hy).2]
            exact Nat.one_dvd _

theorem pround_enced (ho : c.OtherOk) (he : StillExpand (Enced c) expand) (s : DState) (t : Tok) (w : Buf) :
    Enced c s (pround c ext fuel expand internal allowClose opened s t w).2.1 :=
  pround_still enced_rel he (actXmlDecl_enced ho) s t w

/-- A run on a final buffer. -/
theorem prun_enced (ho : c.OtherOk) (he : StillExpand (Enced c) expand) (s : DState) (b : Buf) :
    Enced c s (prun c ext fuel expand internal between allowClose false opened s b).2.1 := by
  induction hn : b.length using Nat.strongRecOn generalizing s b with
  | _ n ih =>
    subst hn
    rw [prun.eq_def]
    simp only []
    cases seeToken (s.x c internal) internal between false c.isPE b with
    | wait => exact enced_rel.still ⟨rfl, rfl⟩
    | fail e => exact enced_rel.still ⟨rfl, rfl⟩
    | panic => exact enced_rel.still ⟨rfl, rfl⟩
    | endPE =>
      simp only []
      split
      · exact enced_rel.still ⟨rfl, rfl⟩
      · exact enced_rel.still ⟨rfl, rfl⟩
    | tok t n =>
      simp only []
      have hr := pround_enced (ext := ext) (fuel := fuel) (internal := internal) (allowClose := allowClose)
        (opened := opened) ho he s t (b.take n)
      generalize pround c ext fuel expand internal allowClose opened s t (b.take n) = r at hr
      obtain ⟨E, s', o⟩ := r
      cases o with
      | fail e => exact hr
      | panic => exact hr
      | start => exact hr
      | go d =>
        simp only []
        split
        · rename_i hlt
          exact enced_rel.trans hr (ih _ hlt s' _ rfl)
        · exact hr
      | ignore =>
        simp only []
        have hf := ignoreSection_final (x := s'.x c internal) (b := b.drop n)
        generalize ignoreSection (s'.x c internal) false (b.drop n) = q at hf
        cases q with
        | wait => exact absurd rfl hf
        | err e => exact hr
        | closed k =>
          simp only []
          split
          · rename_i hlt
            exact enced_rel.trans hr (ih _ hlt s' _ rfl)
          · exact hr

theorem expandPE_enced (ho : c.OtherOk) (k : Nat) (opened : List Buf) :
    StillExpand (Enced c) (expandPE c ext fuel k opened) := by
  induction k generalizing opened with
  | zero => intro b n t s; exact enced_rel.still ⟨rfl, rfl⟩
  | succ k ih =>
    intro b n t s
    have h := prun_enced (ext := ext) (fuel := fuel) (internal := true) (between := b) (allowClose := false)
      (opened := n :: opened) ho (ih (n :: opened)) s t
    unfold expandPE
    generalize prun c ext fuel (expandPE c ext fuel k (n :: opened)) true b false false (n :: opened) s t = q at h ⊢
    obtain ⟨E, u, o⟩ := q
    cases o <;> exact h

end

/-! ### `role_none` -/

def NoneStays (s : DState) (_ : List PEv) (s' : DState) : Prop :=
  s.el.p.roleNone.none_ = true → s'.el.p.roleNone.none_ = true

section
variable {c : PCfg} {ext : Ext} {fuel : Nat} {expand : Bool → Buf → Buf → DState → Acted} {r : Role}

theorem Act.noneStays (he : ExpandRel NoneStays expand) {s s' : DState} {E : List PEv}
    (h : Act c ext expand r s E s') : NoneStays s E s' := by
  induction h with
  | trans _ _ ih1 ih2 => exact fun h => ih2 (ih1 h)
  | frame s s' E _ _ hp _ => intro h; rw [hp]; exact h
  | expand hr s b n t => exact he b n t s
  | set hr s f => rw [DState.setDecl_eq]; split <;> exact id
  | _ => exact id

theorem none_runRel : RunRel c ext fuel NoneStays where
  refl s := id
  trans h h' := fun g => h' (h g)
  ignoring s b := id
  dflt s L := id
  ended s e := fun g => (next_facts g).none_
  act expand internal allowClose opened s t w he := by
    intro g
    have hf := (next_facts (e := (s.x c internal).e) (t := t) (b := w) g).none_
    have h := pact_acts (c := c) (ext := ext) (expand := expand) (r := (s.el.p.next (s.x c internal).e t w).2) fuel internal
      allowClose opened (s.told (s.x c internal).e t w) t w
    generalize pact c ext fuel expand internal allowClose opened (s.told (s.x c internal).e t w)
      (s.el.p.next (s.x c internal).e t w).2 t w = q at h ⊢
    obtain ⟨E, s', o⟩ := q
    simp only at h ⊢
    cases h with
    | plain _ h => exact Act.noneStays he h hf
    | report h => exact Act.noneStays he h hf
    | name hr h =>
      rcases h with rfl | ⟨k0, v, _, _, rfl⟩ <;> exact hf

end

/-! ### Comparing results -/

/-- Text for the default handler cut into single bytes. -/
def PEv.slice : PEv → List PEv
  | .ev (.dflt s) => s.map fun c => .ev (.dflt [c])
  | v => [v]

/-- Handler calls regardless of how text for the default handler is sliced. -/
def pflat (E : List PEv) : List PEv := E.flatMap PEv.slice

theorem pflat_append (A B : List PEv) : pflat (A ++ B) = pflat A ++ pflat B := by simp [pflat]

theorem pflat_dflt (ps : List Buf) :
    pflat ((ps.map Ev.dflt).map .ev) = ps.flatten.map fun c => .ev (.dflt [c]) := by
  induction ps with
  | nil => rfl
  | cons p ps ih =>
    rw [List.map_cons, List.map_cons, show (PEv.ev (Ev.dflt p) :: (ps.map Ev.dflt).map .ev) =
      [PEv.ev (Ev.dflt p)] ++ (ps.map Ev.dflt).map .ev from rfl, pflat_append, ih]
    simp [pflat, PEv.slice]

section
variable {c : PCfg} {ext : Ext} {fuel : Nat} {expand : Bool → Buf → Buf → DState → Acted}
  {allowClose : Bool} {opened : List Buf}

theorem toDefault_space {x : XEnc} (hx : x.Cuts) {b : Buf} {n : Nat} (h : prologTok x.e b = ⟨.PROLOG_S, n⟩) (v : Buf) :
    pflat ((toDefault c.c x (b.take n ++ v)).map .ev) =
      pflat ((toDefault c.c x (b.take n)).map .ev) ++ pflat ((toDefault c.c x v).map .ev) := by
  unfold toDefault
  split
  · rw [pflat_dflt, pflat_dflt, pflat_dflt, hx.space _ _ _ h, List.map_append]
  · rfl

/-- Whether white space goes to the default handler. -/
def spaceHd (c : PCfg) (s : DState) : Role → Bool
  | .NONE => true
  | .DOCTYPE_NONE => !c.startDoctype
  | .ENTITY_NONE => !(s.D.keep && c.entityDecl)
  | .NOTATION_NONE => !c.notationDecl
  | .ATTLIST_NONE => !(s.D.keep && c.attlistDecl)
  | _ => !c.elementDecl

/-- What a round does for white space. -/
def spaceRound (c : PCfg) (s : DState) (r : Role) (w : Buf) : Acted :=
  (if spaceHd c s r then (toDefault c.c (s.x c false) w).map .ev else [], s, .go (spaceHd c s r))

theorem pround_space {s : DState} (hn : s.el.p.roleNone.none_ = true) :
    (∃ u, ∀ w, pround c ext fuel expand false allowClose opened s .PROLOG_S w = ([], u, .fail (errorCode .PROLOG_S).toX)) ∨
    (∃ r u, u.x c false = s.x c false ∧ (∀ w, pround c ext fuel expand false allowClose opened s .PROLOG_S w = spaceRound c u r w) ∧
      ∀ w, pround c ext fuel expand false allowClose opened u .PROLOG_S w = spaceRound c u r w) := by
  have key : ∀ (s : DState) (r : Role) w, r.none_ = true →
      (pact c ext fuel expand false allowClose opened s r .PROLOG_S w).told c false w = spaceRound c s r w := by
    intro s r w hr
    have tg : ∀ hd : Bool, Acted.told c false w ([], s, .go hd) =
        (if hd then (toDefault c.c (s.x c false) w).map .ev else [], s, .go hd) := by
      intro hd; cases hd <;> rfl
    cases r <;> first
      | (cases hr; done)
      | exact tg _
  have e1 : ∀ w, (s.el.p.next (s.x c false).e .PROLOG_S w) = (s.el.p.next (s.x c false).e .PROLOG_S []) :=
    fun w => next_space _ _ _ _ _
  have h := next_space_role (e := (s.x c false).e) (b := []) hn
  generalize hq : s.el.p.next (s.x c false).e .PROLOG_S [] = q at h e1
  obtain ⟨p', r⟩ := q
  simp only at h
  let u : DState := { s with el := { s.el with p := p' } }
  have hu : ∀ w, s.told (s.x c false).e .PROLOG_S w = u := by
    intro w; simp only [DState.told, e1 w, u]
  rcases h with rfl | ⟨hr, hp⟩
  · left
    refine ⟨u, fun w => ?_⟩
    rw [pround_eq, hu w, e1 w]
    rfl
  · right
    refine ⟨r, u, rfl, fun w => ?_, fun w => ?_⟩
    · rw [pround_eq, hu w, e1 w]
      exact key u r w hr
    · have e2 : u.el.p.next (u.x c false).e .PROLOG_S w = (p', r) := by
        rw [← hp]; exact next_space _ _ _ _ _
      have e3 : u.told (u.x c false).e .PROLOG_S w = u := by
        simp only [DState.told, e2, u]
      rw [pround_eq, e3, e2]
      exact key u r w hr

end

/-! ### Whole units -/

theorem ignoreLoop_unit {e : Enc} (h2 : e.mb = 2) (ev : e.Even) (l : Nat) (b : Buf) (p : Nat) (hp : p % 2 = 0) :
    (ignoreLoop e l b p).next % 2 = 0 := by
  fun_induction ignoreLoop e l b p <;> unit []

theorem ignoreSection_dvd {x : XEnc} (hx : x.Cuts) {more : Bool} {b : Buf} {k : Nat}
    (h : ignoreSection x more b = .closed k) : x.e.mb ∣ k := by
  have hk : k = (ignoreSectionTok x.e b).next := by
    unfold ignoreSection at h
    simp only [] at h
    split at h
    · cases h; rfl
    · cases h
    · split at h <;> cases h
    · split at h <;> cases h
    · split at h <;> cases h
    · cases h
  have h1 : x.e.mb = x.e.m + 1 := rfl
  have := hx.mb2
  by_cases h2 : x.e.mb = 2
  · rw [h2, hk]
    exact Nat.dvd_of_mod_eq_zero (ignoreLoop_unit h2 hx.even _ _ _ rfl)
  · rw [show x.e.mb = 1 by omega]; exact Nat.one_dvd _

theorem dvd_length_drop {m n : Nat} {b : Buf} (h : m ∣ b.length) (hn : m ∣ n) : m ∣ (b.drop n).length := by
  rw [List.length_drop]
  exact Nat.dvd_sub h hn

theorem seeToken_dvd {x : XEnc} (hx : x.Cuts) {internal between more isPE : Bool} {b : Buf} {t : Tok} {n : Nat}
    (h : seeToken x internal between more isPE b = .tok t n) (hb : x.e.mb ∣ b.length) : x.e.mb ∣ n := by
  have hd : x.e.mb ∣ (prologTok x.e b).next := Mode.tok_dvd hx.mb2 hx.even .epilog b
  unfold seeToken seeRes at h
  split at h
  · cases h; exact hd
  · split at h
    · cases h
    · split at h
      · cases h
      · cases h
      · cases h
      · cases h; exact hd
      · (repeat' split at h) <;> cases h
      · split at h
        · cases h; exact hb
        · cases h

/-- What a run does to the encoding. -/
def EncKept (c : PCfg) (s s' : DState) : Prop :=
  ((s.x c false).Cuts → (s'.x c false).Cuts) ∧ (s'.x c false).e.mb ∣ (s.x c false).e.mb

section
variable {c : PCfg} {ext : Ext} {fuel : Nat} {expand : Bool → Buf → Buf → DState → Acted}
  {internal between allowClose more : Bool} {opened : List Buf}

theorem Enced.kept {s s' : DState} (h : Enced c s s') : EncKept c s s' := ⟨h.cuts, h.mb⟩

theorem EncKept.trans {s t u : DState} (h : EncKept c s t) (h' : EncKept c t u) : EncKept c s u :=
  ⟨fun g => h'.1 (h.1 g), Nat.dvd_trans h'.2 h.2⟩

theorem EncKept.refl (s : DState) : EncKept c s s := ⟨id, Nat.dvd_refl _⟩

/-- The encoding after a run, and where the root element is found. -/
theorem prun_kept (ho : c.OtherOk) (he : StillExpand (Enced c) expand) (s : DState) (b : Buf) :
    EncKept c s (prun c ext fuel expand false between allowClose more opened s b).2.1 ∧
    (∀ q, (prun c ext fuel expand false between allowClose more opened s b).2.2 = .content q → (s.x c false).Cuts →
      (s.x c false).e.mb ∣ b.length →
      ((prun c ext fuel expand false between allowClose more opened s b).2.1.x c false).e.mb ∣ q.length) := by
  induction hn : b.length using Nat.strongRecOn generalizing s b with
  | _ n ih =>
    subst hn
    rw [prun.eq_def]
    simp only []
    cases hsee : seeToken (s.x c false) false between more c.isPE b with
    | wait => exact ⟨.refl s, fun q h => by cases h⟩
    | fail e => exact ⟨.refl s, fun q h => by cases h⟩
    | panic => exact ⟨.refl s, fun q h => by cases h⟩
    | endPE =>
      simp only []
      split
      · exact ⟨.refl s, fun q h => by cases h⟩
      · exact ⟨.refl s, fun q h => by cases h⟩
    | tok t n =>
      simp only []
      have hr := (pround_enced (ext := ext) (fuel := fuel) (internal := false) (allowClose := allowClose)
        (opened := opened) ho he s t (b.take n)).kept
      generalize pround c ext fuel expand false allowClose opened s t (b.take n) = r at hr
      obtain ⟨E, s', o⟩ := r
      cases o with
      | fail e => exact ⟨hr, fun q h => by cases h⟩
      | panic => exact ⟨hr, fun q h => by cases h⟩
      | start => exact ⟨hr, fun q h _ hb => by cases h; exact Nat.dvd_trans hr.2 hb⟩
      | go d =>
        simp only []
        split
        · rename_i hlt
          have hi := ih _ hlt s' _ rfl
          refine ⟨hr.trans hi.1, fun q h hc hb => hi.2 q h (hr.1 hc) ?_⟩
          exact Nat.dvd_trans hr.2 (dvd_length_drop hb (seeToken_dvd hc hsee hb))
        · exact ⟨hr, fun q h => by cases h⟩
      | ignore =>
        simp only []
        cases hig : ignoreSection (s'.x c false) more (b.drop n) with
        | wait => exact ⟨hr, fun q h => by cases h⟩
        | err e => exact ⟨hr, fun q h => by cases h⟩
        | closed k =>
          simp only []
          split
          · rename_i hlt
            have hi := ih _ hlt s' _ rfl
            refine ⟨hr.trans hi.1, fun q h hc hb => hi.2 q h (hr.1 hc) ?_⟩
            exact dvd_length_drop (Nat.dvd_trans hr.2 (dvd_length_drop hb (seeToken_dvd hc hsee hb)))
              (ignoreSection_dvd (hr.1 hc) hig)
          · exact ⟨hr, fun q h => by cases h⟩

theorem prologCall_kept (ho : c.OtherOk) (s : DState) (b : Buf) :
    EncKept c s (prologCall c ext fuel opened more s b).2.1 ∧
    (∀ q, (prologCall c ext fuel opened more s b).2.2 = .content q → (s.x c false).Cuts →
      (s.x c false).e.mb ∣ b.length → ((prologCall c ext fuel opened more s b).2.1.x c false).e.mb ∣ q.length) := by
  have he := expandPE_enced (ext := ext) (fuel := fuel) ho fuel opened
  unfold prologCall
  simp only []
  split
  · cases hig : ignoreSection (s.x c false) more b with
    | wait => exact ⟨.refl s, fun q h => by cases h⟩
    | err e => exact ⟨.refl s, fun q h => by cases h⟩
    | closed k =>
      have hi := prun_kept (ext := ext) (fuel := fuel) (between := false) (allowClose := true) (more := more)
        (opened := opened) ho he { s with ignoring := false } (b.drop k)
      refine ⟨hi.1, fun q h hc hb => hi.2 q h hc ?_⟩
      exact dvd_length_drop hb (ignoreSection_dvd hc hig)
  · exact prun_kept ho he s b

end

end Verif
