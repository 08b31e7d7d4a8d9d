import Verif.NoPanicRole
import Verif.ElemReach
import Verif.StartInv

/-! Why no document makes the parser panic or report an error code reserved for its own malfunction (C72): the prolog. -/

set_option autoImplicit false

namespace Verif
open C43 C53 C61 C62 Spec PState

/-- Errors for which a document can be to blame. -/
def XErr.Outer (e : XErr) : Prop := e.inner = false ∧ e ≠ .DIVERGED

theorem PErr.outer (e : PErr) : e.toX.Outer := by cases e <;> exact ⟨rfl, by simp [PErr.toX]⟩

/-! ### What holds between two tokens -/

/-- The settings which the claim is about: no handler for unknown encodings, the document entity. -/
structure Doc0 (c : PCfg) : Prop where
  unknown : c.unknown = fun _ => none
  int : c.int = internalUtf8X c.c.ns
  isPE : c.isPE = false

/-- What the content needs of the prolog. -/
structure Base (c : PCfg) (s : DState) : Prop where
  pe : s.pe = .never
  cur : ∃ i, s.cur = .builtin i
  texts : C33.TextsOk s.D.toDtd (internalUtf8X c.c.ns)

/-- After `k` tokens; `z` says that the start of the document is over. -/
structure Calm (c : PCfg) (z : Bool) (s : DState) (k : Nat) : Prop extends Base c s where
  none_ : s.el.p.roleNone.none_ = true
  doc : s.el.p.documentEntity = true
  hd : docHd s.el.p.h = true
  inv : ElemSim.Inv c.elementDecl true s.el k
  ign : s.ignoring = false
  late : z = true → s.el.p.h ≠ .prolog0

section
variable {c : PCfg} {z : Bool}

theorem texts_same {D D' : DTab} {int : XEnc} (h : C33.TextsOk D.toDtd int) (hg : D'.gen = D.gen) : C33.TextsOk D'.toDtd int := by
  intro n ent t hn ht
  refine h n ent t ?_ ht
  show tabGet D.gen n = _
  rw [← hg]
  exact hn

theorem texts_put {D : DTab} {int : XEnc} (h : C33.TextsOk D.toDtd int) {D' : DTab} {m : Buf} {v : Entity} (hv : v.text = none) (hg : D'.gen = tabPut D.gen m v) :
    C33.TextsOk D'.toDtd int := by
  intro n ent t hn ht
  replace hn : tabGet (tabPut D.gen m v) n = some ent := by rw [← hg]; exact hn
  by_cases hm : n = m
  · subst hm
    rw [tabGet_tabPut_eq] at hn
    cases hd : tabGet D.gen n with
    | none => rw [hd] at hn; cases hn; simp [hv] at ht
    | some w => rw [hd] at hn; cases hn; exact h n w t hd ht
  · rw [tabGet_tabPut_ne hm] at hn
    exact h n ent t hn ht

theorem texts_set {D : DTab} {int : XEnc} (h : C33.TextsOk D.toDtd int) {D' : DTab} {m : Buf} {f : Entity → Entity}
    (hf : ∀ e t, (f e).text = some t → e.text = some t ∨ Lit int.e asc1 t) (hg : D'.gen = tabSet D.gen m f) :
    C33.TextsOk D'.toDtd int := by
  intro n ent t hn ht
  replace hn : tabGet (tabSet D.gen m f) n = some ent := by rw [← hg]; exact hn
  by_cases hm : n = m
  · subst hm
    rw [tabGet_tabSet_eq] at hn
    cases hd : tabGet D.gen n with
    | none => rw [hd] at hn; cases hn
    | some w =>
      rw [hd] at hn
      cases hn
      rcases hf w t ht with h1 | h1
      · exact h n w t hd h1
      · exact h1
  · rw [tabGet_tabSet_ne hm] at hn
    exact h n ent t hn ht

theorem setDecl_el (s : DState) (f : Entity → Entity) :
    (s.setDecl f).el = s.el ∧ (s.setDecl f).pe = s.pe ∧ (s.setDecl f).cur = s.cur ∧ (s.setDecl f).ignoring = s.ignoring := by
  unfold DState.setDecl
  split <;> exact ⟨rfl, rfl, rfl, rfl⟩

theorem setDecl_texts {s : DState} {int : XEnc} (h : C33.TextsOk s.D.toDtd int) {f : Entity → Entity}
    (hf : ∀ e t, (f e).text = some t → e.text = some t ∨ Lit int.e asc1 t) : C33.TextsOk (s.setDecl f).D.toDtd int := by
  unfold DState.setDecl
  split
  · exact h
  · exact texts_same h rfl
  · exact texts_set h hf rfl

theorem Calm.same {s s' : DState} {k : Nat} (h : Calm c z s k) (he : s'.el = s.el) (hp : s'.pe = s.pe) (hc : s'.cur = s.cur) (hi : s'.ignoring = s.ignoring)
    (hg : s'.D.gen = s.D.gen) : Calm c z s' k where
  pe := hp.trans h.pe
  cur := hc ▸ h.cur
  texts := texts_same h.texts hg
  none_ := he ▸ h.none_
  doc := he ▸ h.doc
  hd := he ▸ h.hd
  inv := he ▸ h.inv
  ign := hi.trans h.ign
  late := he ▸ h.late

theorem Calm.tab {s : DState} {k : Nat} (h : Calm c z s k) {D' : DTab} (hg : D'.gen = s.D.gen) : Calm c z { s with D := D' } k :=
  h.same rfl rfl rfl rfl hg

theorem Calm.setDecl {s : DState} {k : Nat} (h : Calm c z s k) {f : Entity → Entity}
    (hf : ∀ e t, (f e).text = some t → e.text = some t ∨ Lit (internalUtf8X c.c.ns).e asc1 t) : Calm c z (s.setDecl f) k where
  pe := (setDecl_el s f).2.1.trans h.pe
  cur := (setDecl_el s f).2.2.1 ▸ h.cur
  texts := setDecl_texts h.texts hf
  none_ := (setDecl_el s f).1 ▸ h.none_
  doc := (setDecl_el s f).1 ▸ h.doc
  hd := (setDecl_el s f).1 ▸ h.hd
  inv := (setDecl_el s f).1 ▸ h.inv
  ign := (setDecl_el s f).2.2.2.trans h.ign
  late := (setDecl_el s f).1 ▸ h.late

/-! ### Element declarations -/

theorem inv_calls {decl doc : Bool} {s : EState} {k : Nat} (l : List (List UInt8 × Block)) (h : ElemSim.Inv decl doc s k) :
    ElemSim.Inv decl doc { s with calls := l } k := by
  obtain ⟨h1, h2, h3⟩ := h
  refine ⟨h1, h2, ?_⟩
  rcases h3 with h3 | ⟨n, c0, z, h3, h4⟩
  · exact .inl h3
  · cases z with
    | fin d =>
      obtain ⟨g1, g2, g3, g4, g5, g6, g7⟩ := h3
      exact .inl ⟨by show ElemSim.inElem s.p.h = false; rw [g3]; rfl, by show s.p.h ≠ _; rw [g3]; simp, g5, g6, g2⟩
    | _ =>
      refine .inr ⟨n, l, _, ?_, h4⟩
      obtain ⟨g1, g2⟩ := h3
      exact ⟨⟨g1.doc, g1.size, rfl, g1.name⟩, g2⟩

theorem inv_name {decl doc : Bool} {s : EState} {k : Nat} (m : List UInt8) (h : ElemSim.Inv decl doc s k) :
    ElemSim.Inv decl doc { s with declName := m } k := by
  obtain ⟨h1, h2, h3⟩ := h
  refine ⟨h1, h2, ?_⟩
  rcases h3 with h3 | ⟨n, c0, z, h3, h4⟩
  · exact .inl h3
  · cases z with
    | fin d =>
      obtain ⟨g1, g2, g3, g4, g5, g6, g7⟩ := h3
      exact .inl ⟨by show ElemSim.inElem s.p.h = false; rw [g3]; rfl, by show s.p.h ≠ _; rw [g3]; simp, g5, g6, g2⟩
    | _ =>
      refine .inr ⟨m, c0, _, ?_, h4⟩
      obtain ⟨g1, g2⟩ := h3
      exact ⟨⟨g1.doc, g1.size, g1.calls, fun _ => rfl⟩, g2⟩

/-! ### Rounds -/

/-- What a round may come to. -/
def Acted.Fine (bad : Prop) (c : PCfg) (z : Bool) (k : Nat) (a : Acted) : Prop :=
  match a.2.2 with
  | .fail e => e.Outer
  | .panic => bad
  | .start => Base c a.2.1
  | .go _ => Calm c z a.2.1 k
  | .ignore => False

theorem norm_some (t : Buf) : ∃ d, normalizeLines (t ++ [0]) = some d := by
  obtain ⟨m, h, -⟩ := C14.normalize_any t
  exact ⟨m, h⟩

variable {bad : Prop} {k : Nat} {ext : Ext} {fuel : Nat} {expand : Bool → Buf → Buf → DState → Acted} {opened : List Buf}

theorem fine_go {E : List PEv} {s : DState} {h : Bool} (hs : Calm c z s k) : Acted.Fine bad c z k (E, s, .go h) := hs

theorem fine_fail {E : List PEv} {s : DState} {e : XErr} (h1 : e.inner = false) (h2 : e ≠ .DIVERGED) : Acted.Fine bad c z k (E, s, .fail e) := ⟨h1, h2⟩

theorem keeps_text {f : Entity → Entity} {int : XEnc} (h : ∀ e, (f e).text = e.text) : ∀ e t, (f e).text = some t → e.text = some t ∨ Lit int.e asc1 t := by
  intro e t ht
  rw [h] at ht
  exact .inl ht

theorem doctype_fine {s : DState} (hs : Calm c z s k) (x : XEnc) (r : Role) (w : Buf) : Acted.Fine bad c z k (actDoctype c s x r w) := by
  unfold actDoctype
  split
  · split
    · exact fine_go (hs.same rfl rfl rfl rfl rfl)
    · exact fine_go (hs.same rfl rfl rfl rfl rfl)
  · split
    · exact fine_go (hs.same rfl rfl rfl rfl rfl)
    · exact fine_go hs
  · generalize hs1 : ({ s with foreign := false, decl := some (true, hashName), D := { s.D with par := tabPut s.D.par hashName .zero, hasPERefs := true } } : DState) = s1
    have C : Calm c z s1 k := hs1 ▸ hs.same rfl rfl rfl rfl rfl
    have set {s : DState} (C : Calm c z s k) : Calm c z (docPublic.docPublicSet x w s) k := by
      unfold docPublic.docPublicSet
      split
      · exact C.setDecl (keeps_text fun _ => rfl)
      · exact C
    unfold docPublic
    split
    · exact fine_fail rfl (by simp)
    · split
      · exact fine_go (set (C.same rfl rfl rfl rfl rfl))
      · exact fine_go (set C)
  · generalize hs1 : (if c.startDoctype then ({ s with foreign := false, D := { s.D with hasPERefs := true }, dSys := some (s.tmp ++ converted x (refName x.e w)), tmp := [] } : DState)
      else { s with foreign := false, D := { s.D with hasPERefs := true }, dSys := some hashName }) = s1
    have C : Calm c z s1 k := by
      rw [← hs1]
      split <;> exact hs.same rfl rfl rfl rfl rfl
    have C1 : Calm c z (docEntry s1) k := by
      unfold docEntry
      split
      · exact C.same rfl rfl rfl rfl rfl
      · exact C
    unfold docSystem
    simp only
    generalize (if s1.pe = .never then askStandalone c s1.D else ([], false)) = a
    split
    · exact fine_fail rfl (by simp)
    · refine fine_go ?_
      unfold docSystemSet
      split
      · exact C1.setDecl (keeps_text fun _ => rfl)
      · exact C1
  · exact fine_go hs

theorem subset_same {s : DState} (hpe : s.pe = .never) (atRoot : Bool) :
    readSubset c ext opened atRoot s = ([], { s with D := { s.D with hasPERefs := true } }, .go true) := by
  simp only [readSubset]
  rw [if_neg (by simp [hpe])]

theorem close_fine {s : DState} (hs : Calm c z s k) (allowClose : Bool) : Acted.Fine bad c z k (actDoctypeClose c ext opened allowClose s) := by
  unfold actDoctypeClose
  split
  · exact fine_fail rfl (by simp)
  · simp only
    generalize hs1 : (if s.dName.isSome then ({ s with tmp := [] } : DState) else s) = s1
    have C : Calm c z s1 k := by
      rw [← hs1]
      split
      · exact hs.same rfl rfl rfl rfl rfl
      · exact hs
    split
    · rw [subset_same C.pe]
      exact fine_go (C.same rfl rfl rfl rfl rfl)
    · exact fine_go C

theorem inst_fine {s : DState} (hs : Base c s) : Acted.Fine bad c z k (actInstanceStart c ext opened s) := by
  unfold actInstanceStart
  split
  · rw [subset_same hs.pe]
    exact (show Base c _ from ⟨hs.pe, hs.cur, texts_same hs.texts rfl⟩)
  · exact hs

theorem attlist_calm {s : DState} (hs : Calm c z s k) (x : XEnc) (r : Role) (w : Buf) : Calm c z (actAttlist c s x r w) k := by
  unfold actAttlist
  split
  · exact ⟨⟨hs.pe, hs.cur, hs.texts⟩, hs.none_, hs.doc, hs.hd, inv_name _ hs.inv, hs.ign, hs.late⟩
  all_goals first
    | exact hs.same rfl rfl rfl rfl rfl
    | exact hs
    | (split
       · exact hs.same rfl rfl rfl rfl rfl
       · exact hs)

theorem report_fine {s : DState} (hs : Calm c z s k) (v : Option Buf) (q : Bool) : Acted.Fine bad c z k (reportAttribute c s v q) := by
  unfold reportAttribute
  split
  · exact fine_go hs
  · split
    · exact fine_go hs
    · exact fine_go (hs.same rfl rfl rfl rfl rfl)
    · exact fine_go (hs.same rfl rfl rfl rfl rfl)

theorem define_gen (ns : Bool) (D : DTab) (el a : Buf) (ic ii : Bool) (v : Option Buf) : (defineAttribute ns D el a ic ii v).gen = D.gen := by
  unfold defineAttribute
  simp only
  split <;> rfl

theorem default_fine (hc : Doc0 c) {s : DState} (hs : Calm c z s k) {x : XEnc} {asc : UInt8 → Buf} (S : XSupported x asc) {r : Role} {w : Buf}
    (hl : r = .DEFAULT_ATTRIBUTE_VALUE ∨ r = .FIXED_ATTRIBUTE_VALUE → Wh x.e (refName x.e w))
    (hr : r = .IMPLIED_ATTRIBUTE_VALUE ∨ r = .REQUIRED_ATTRIBUTE_VALUE ∨ r = .DEFAULT_ATTRIBUTE_VALUE ∨ r = .FIXED_ATTRIBUTE_VALUE) (internal : Bool) :
    Acted.Fine bad c z k (actAttDefault c s x internal r w) := by
  unfold actAttDefault
  split
  · exact fine_go hs
  · split
    · exact report_fine (hs.tab (define_gen ..)) _ _
    · exact report_fine (hs.tab (define_gen ..)) _ _
    · rename_i h1 h2
      have hw := hl (by rcases hr with h | h | h | h <;> simp_all)
      split
      · rename_i e he
        rw [hc.int] at he
        exact store_wh hs.texts S hw he
      · exact report_fine (hs.tab (define_gen ..)) _ _

theorem entity_fine (hc : Doc0 c) {s : DState} (hs : Calm c z s k) {x : XEnc} {asc : UInt8 → Buf} (S : XSupported x asc) {r : Role} {w : Buf}
    (hl : r = .ENTITY_VALUE → LitVal x.e (refName x.e w)) : Acted.Fine bad c z k (actEntity c ext fuel opened s x false r w) := by
  unfold actEntity
  split
  · split
    · exact fine_go (hs.same rfl rfl rfl rfl rfl)
    · split
      · split
        · exact fine_go (hs.same rfl rfl rfl rfl rfl)
        · exact fine_go ⟨⟨hs.pe, hs.cur, texts_put hs.texts (m := converted x w) (v := newEntity c false) rfl rfl⟩, hs.none_, hs.doc, hs.hd, hs.inv, hs.ign, hs.late⟩
      · exact fine_go (hs.same rfl rfl rfl rfl rfl)
  · split
    · split
      · exact fine_go (hs.same rfl rfl rfl rfl rfl)
      · exact fine_go (hs.same rfl rfl rfl rfl rfl)
    · exact fine_go (hs.same rfl rfl rfl rfl rfl)
  · split
    · exact fine_go hs
    · have hv := hl rfl
      have key := store_ev (ext := ext) (pe := s.pe) (pool := []) hc.isPE S fuel opened s.sh hv.1
      simp only
      cases he : (storeEntityValue c ext s.pe fuel x false opened s.sh [] (refName x.e w)).err with
      | some q =>
        have := key.1 q he
        exact this
      | none =>
        obtain ⟨us, h1, h2⟩ := hv.2 (key.2 he)
        have hlit : Lit x.e asc (refName x.e w) := h2 ▸ h1.lit
        obtain ⟨out, g1, g2⟩ := C58.sound S hc.isPE fuel opened _ rfl hlit he
        have hlegal := repl_legal S g1 rfl us h1 h2.symm
        simp only [g2]
        have hsh : s.setSh s.sh = s := rfl
        rw [hsh]
        refine fine_go (hs.setDecl ?_)
        intro e t ht
        simp only [List.nil_append, Option.some.injEq] at ht
        exact .inr (ht ▸ legal_lit hlegal)
  · split
    · exact fine_fail rfl (by simp)
    · split
      · exact fine_go (hs.setDecl (keeps_text fun _ => rfl))
      · exact fine_go hs
  · split
    · exact fine_go (hs.setDecl (keeps_text fun _ => rfl))
    · exact fine_go hs
  · split
    · exact fine_go hs
    · split <;> exact fine_go hs
  · split
    · have C := hs.setDecl (f := fun e => { e with notation_ := some (converted x w) }) (keeps_text fun _ => rfl)
      simp only
      split
      · exact fine_go C
      · split
        · exact fine_go C
        · split <;> exact fine_go C
    · exact fine_go hs
  · exact fine_go hs

theorem notation_fine {s : DState} (hs : Calm c z s k) (x : XEnc) (r : Role) (w : Buf) : Acted.Fine bad c z k (actNotation c s x r w) := by
  unfold actNotation
  (repeat' split) <;> first
    | exact fine_fail rfl (by simp)
    | exact fine_go (hs.same rfl rfl rfl rfl rfl)

theorem check_fine {s : DState} (hs : Calm c z s k) (h : Bool) : Acted.Fine bad c z k (standaloneCheck c s h) := by
  simp only [standaloneCheck]
  split
  · exact fine_fail rfl (by simp)
  · exact fine_go hs

theorem comment_fine {s : DState} (hs : Calm c z s k) (x : XEnc) (w : Buf) : Acted.Fine bad c z k (actComment c s x w) := by
  unfold actComment
  split
  · split
    · exact fine_go (hs.same rfl rfl rfl rfl rfl)
    · rename_i h
      obtain ⟨d, hd⟩ := norm_some (s.tmp ++ converted x ((w.drop (4 * x.e.mb)).take (w.length - 4 * x.e.mb - 3 * x.e.mb)))
      rw [hd] at h
      cases h
  · exact fine_go hs

theorem pi_fine {s : DState} (hs : Calm c z s k) (x : XEnc) (w : Buf) : Acted.Fine bad c z k (actPI c s x w) := by
  unfold actPI
  split
  · simp only
    split
    · exact fine_go (hs.same rfl rfl rfl rfl rfl)
    · rename_i h
      obtain ⟨d, hd⟩ := norm_some (converted x ((skipS x.e ((w.drop (2 * x.e.mb)).drop (nameLength x.e (w.drop (2 * x.e.mb))))).take
        ((skipS x.e ((w.drop (2 * x.e.mb)).drop (nameLength x.e (w.drop (2 * x.e.mb))))).length - 2 * x.e.mb)))
      rw [hd] at h
      cases h
  · exact fine_go hs

/-- The XML declaration: its encoding name is the only thing that can go wrong. -/
theorem decl_fine (hc : Doc0 c) {s : DState} (hs : Calm c z s k) {i : EncId} (hi : s.cur = .builtin i) {w : Buf}
    (hw : Markup (i.x c.c.ns).e (C54.ascOf i) .XML_DECL w) :
    Acted.Fine (doParseXmlDecl (i.x c.c.ns) false (declText (i.x c.c.ns).e w) = .panic) c z k (actXmlDecl c s false w) := by
  have S := C54.supported c.c.ns i
  have hx : s.cur.x c.c.ns = i.x c.c.ns := by rw [hi]; rfl
  unfold actXmlDecl
  simp only [hx]
  cases ho : doParseXmlDecl (i.x c.c.ns) false (declText (i.x c.c.ns).e w) with
  | panic => exact rfl
  | bad => exact fine_fail rfl (by simp)
  | ok o =>
    simp only
    obtain ⟨b, h1, rfl⟩ := decl_markup S hw
    have hcl := clean_body h1
    rw [decl_inner S] at ho ⊢
    obtain ⟨d, h2, h3, h4, rfl⟩ := (C18.accepted_partial S false hcl o).1 ho
    generalize hs1 : (if (!false && (d.out (i.x c.c.ns) (C54.ascOf i)).standalone == some true) = true then
      ({ s with D := { s.D with standalone := true }, pe := if s.pe = .unlessStandalone then .never else s.pe } : DState) else s) = s1
    have C1 : Calm c z s1 k := by
      rw [← hs1]
      split
      · exact ⟨⟨by simp [hs.pe], hs.cur, texts_same hs.texts rfl⟩, hs.none_, hs.doc, hs.hd, hs.inv, hs.ign, hs.late⟩
      · exact hs
    have hi1 : s1.cur = .builtin i := by rw [← hs1]; split <;> exact hi
    obtain ⟨v, hv, -⟩ := C60.call_some S c.c.al h2
    rw [hv, hi1]
    generalize hE : (if c.xmlDecl = true then Option.map (fun d => [PEv.xmlDecl d]) (some v) else some _) = E
    cases E with
    | none => revert hE; split <;> simp
    | some E =>
      simp only [processXmlDecl, ho]
      have hp : ∀ on e, (d.out (i.x c.c.ns) (C54.ascOf i)).encoding ≠ some (on, e, .panic) := by
        intro on e he
        simp only [C18.Src.out] at he
        cases hd : d.encoding with
        | none => rw [hd] at he; cases he
        | some a =>
          rw [hd] at he
          simp only [Option.map_some, Option.some.injEq, Prod.mk.injEq] at he
          exact h3 a hd ((C18.find_panic S (h2.encoding a hd).1.value).1 he.2.2)
      by_cases hpr : c.protocol = true
      · simp only [hpr, if_true]
        exact fine_go ⟨⟨C1.pe, ⟨_, rfl⟩, C1.texts⟩, C1.none_, C1.doc, C1.hd, C1.inv, C1.ign, C1.late⟩
      · simp only [hpr]
        generalize (d.out (i.x c.c.ns) (C54.ascOf i)).encoding = en at hp
        obtain _ | ⟨on, e, f⟩ := en
        · exact fine_go ⟨⟨C1.pe, ⟨_, rfl⟩, C1.texts⟩, C1.none_, C1.doc, C1.hd, C1.inv, C1.ign, C1.late⟩
        · cases f with
          | panic => exact absurd rfl (hp on e)
          | unknown =>
            simp only [hc.unknown]
            exact fine_fail rfl (by simp)
          | same => exact fine_go ⟨⟨C1.pe, ⟨_, rfl⟩, C1.texts⟩, C1.none_, C1.doc, C1.hd, C1.inv, C1.ign, C1.late⟩
          | builtin j =>
            simp only
            by_cases hj : (j.x c.c.ns).e.mb ≠ (i.x c.c.ns).e.mb ∨ ((j.x c.c.ns).e.mb = 2 ∧ j ≠ i)
            · simp only [if_pos hj]
              exact fine_fail rfl (by simp)
            · simp only [if_neg hj]
              exact fine_go ⟨⟨C1.pe, ⟨_, rfl⟩, C1.texts⟩, C1.none_, C1.doc, C1.hd, C1.inv, C1.ign, C1.late⟩

/-- What a token does. -/
theorem pact_fine (hc : Doc0 c) {s : DState} {i : EncId} (hi : s.cur = .builtin i) (B : Base c s) (hn : s.el.p.roleNone.none_ = true)
    (hde : s.el.p.documentEntity = true) (hh : docHd s.el.p.h = true) (hg : s.ignoring = false) (hz : z = true → s.el.p.h ≠ .prolog0)
    {h0 : Hd} {t : Tok} {w : Buf} {r : Role} (F : RoleFits h0 t r)
    (hact : (∃ s', ({ s.el with calls := [] } : EState).act c.elementDecl (converted (i.x c.c.ns)) (i.x c.c.ns).e t w r = .ok s' ∧
        s'.p = s.el.p ∧ ElemSim.Inv c.elementDecl true s' k) ∨
      (∃ s', ({ s.el with calls := [] } : EState).act c.elementDecl (converted (i.x c.c.ns)) (i.x c.c.ns).e t w r = .start s') ∨
      ∃ e, ({ s.el with calls := [] } : EState).act c.elementDecl (converted (i.x c.c.ns)) (i.x c.c.ns).e t w r = .err e)
    (hl : t = .LITERAL → LitVal (i.x c.c.ns).e (refName (i.x c.c.ns).e w))
    (hx : t = .XML_DECL → Markup (i.x c.c.ns).e (C54.ascOf i) .XML_DECL w) (allowClose : Bool) :
    Acted.Fine (h0 = .prolog0 ∧ t = .XML_DECL ∧ doParseXmlDecl (i.x c.c.ns) false (declText (i.x c.c.ns).e w) = .panic) c z k
      (pact c ext fuel expand false allowClose opened s r t w) := by
  have S := C54.supported c.c.ns i
  have hxs : s.x c false = i.x c.c.ns := by simp [DState.x, hi, CurEnc.x]
  have calm (hq : ElemSim.quietRole r = true) : Calm c z s k := by
    refine ⟨B, hn, hde, hh, ?_, hg, hz⟩
    rw [ElemSim.act_quiet hq] at hact
    rcases hact with ⟨s', h1, -, h2⟩ | ⟨s', h1⟩ | ⟨e, h1⟩
    · cases h1
      have := inv_calls s.el.calls h2
      exact this
    · cases h1
    · cases h1
  have elem (hr : r ≠ .INSTANCE_START) : Acted.Fine (h0 = .prolog0 ∧ t = .XML_DECL ∧ doParseXmlDecl (i.x c.c.ns) false (declText (i.x c.c.ns).e w) = .panic) c z k
      (actElement c s (i.x c.c.ns) r t w) := by
    unfold actElement
    rcases hact with ⟨s', h1, h3, h2⟩ | ⟨s', h1⟩ | ⟨e, h1⟩
    · simp only [h1]
      refine fine_go ⟨⟨B.pe, ⟨i, hi⟩, B.texts⟩, ?_, ?_, ?_, inv_calls [] h2, hg, ?_⟩
      · show s'.p.roleNone.none_ = true
        rw [h3]; exact hn
      · show s'.p.documentEntity = true
        rw [h3]; exact hde
      · show docHd s'.p.h = true
        rw [h3]; exact hh
      · show z = true → s'.p.h ≠ .prolog0
        rw [h3]; exact hz
    · exact absurd (C61.act_start h1) hr
    · simp only [h1]
      exact e.outer
  unfold pact
  simp only [hxs]
  cases r
  case XML_DECL =>
    have ht := F.xml rfl
    have := decl_fine hc (calm rfl) hi (hx ht.1)
    revert this
    unfold Acted.Fine
    simp only
    cases (actXmlDecl c s false w).2.2 <;> first | exact id | (intro h; exact ⟨ht.2, ht.1, h⟩)
  case TEXT_DECL => exact absurd rfl F.text
  case IGNORE_SECT => exact absurd rfl F.ign
  case INSTANCE_START => exact inst_fine B
  case ERROR => exact (errorCode t).outer
  case ENTITY_VALUE => exact entity_fine hc (calm rfl) S (fun _ => hl (F.val (.inl rfl)))
  case DEFAULT_ATTRIBUTE_VALUE => exact default_fine hc (calm rfl) S (fun _ => (hl (F.val (.inr (.inl rfl)))).1) (by simp) _
  case FIXED_ATTRIBUTE_VALUE => exact default_fine hc (calm rfl) S (fun _ => (hl (F.val (.inr (.inr rfl)))).1) (by simp) _
  case PARAM_ENTITY_REF =>
    unfold actParamRef paramRef
    rw [if_pos (by exact B.pe)]
    refine check_fine (Calm.same (s := s) (calm rfl) ?_ ?_ ?_ ?_ ?_) _ <;> rfl
  case INNER_PARAM_ENTITY_REF =>
    unfold actParamRef paramRef
    rw [if_pos (by exact B.pe)]
    refine check_fine (Calm.same (s := s) (calm rfl) ?_ ?_ ?_ ?_ ?_) _ <;> rfl
  all_goals first
    | exact elem (by simp)
    | exact fine_go (calm rfl)
    | exact fine_go (attlist_calm (calm rfl) _ _ _)
    | exact doctype_fine (calm rfl) _ _ _
    | exact close_fine (calm rfl) _
    | exact notation_fine (calm rfl) _ _ _
    | exact comment_fine (calm rfl) _ _
    | exact pi_fine (calm rfl) _ _
    | exact default_fine hc (calm rfl) S (by simp) (by simp) _
    | exact entity_fine hc (calm rfl) S (by simp)

/-! ### Tokens -/

theorem handle_inst {e : Enc} {p : PState} (hn : p.roleNone.none_ = true) (hh : docHd p.h = true) (he : p.h ≠ .error) {w : Buf}
    {q : PState × Role} (h : p.handle e .INSTANCE_START w = some q) : q.2 = .INSTANCE_START := by
  obtain ⟨g, lv, rn, il, de, iv⟩ := p
  cases g <;>
    first
    | (simp [docHd] at hh; done)
    | (simp at he; done)
    | (simp only [handle, prolog0, prolog1, prolog2, doctype0, doctype1, doctype2, doctype3, doctype4, doctype5, internalSubset,
      entity0, entity1, entity2, entity3, entity4, entity5, entity6, entity7, entity8, entity9, entity10, notation0, notation1,
      notation2, notation3, notation4, attlist0, attlist1, attlist2, attlist3, attlist4, attlist5, attlist6, attlist7, attlist8, attlist9, element0,
      element1, element2, element3, element4, element5, element6, element7, declClose, go, stay, close, top, closeGroup] at h
       first
       | (cases h; done)
       | (injection h with h; subst h; rfl))

theorem next_inst {e : Enc} {p : PState} (hn : p.roleNone.none_ = true) (hde : p.documentEntity = true) (hh : docHd p.h = true) (he : p.h ≠ .error) (w : Buf) :
    (p.next e .INSTANCE_START w).2 = .INSTANCE_START ∨ (p.next e .INSTANCE_START w).2 = .ERROR := by
  rw [next]
  cases h : p.handle e .INSTANCE_START w with
  | some q => exact .inl (handle_inst hn hh he h)
  | none =>
    have hf : p.fall = p := by
      obtain ⟨g, lv, rn, il, de, iv⟩ := p
      cases g <;> first | rfl | (simp [docHd] at hh)
    simp only [Option.getD_none, hf, common, hde, Bool.not_true, Bool.false_and, if_neg Bool.false_ne_true]
    exact .inr trivial

theorem Calm.ok {s : DState} (h : Calm c z s k) : s.el.p.h ≠ .error := by
  obtain ⟨-, -, h3⟩ := h.inv
  rcases h3 with h3 | ⟨n, c0, y, h3, -⟩
  · exact h3.2.1
  · cases y with
    | fin d => rw [h3.2.2.1]; simp
    | _ => rw [h3.2.1]; simp

/-- What is seen at a place in the prolog. -/
def Seen.Fine (e : Enc) (more : Bool) (b : Buf) : Verif.Seen → Prop
  | .tok t n => (t ≠ .INSTANCE_START → (b.drop n).length < b.length) ∧ t ≠ .BOM ∧ (t = .XML_DECL → prologTok e b = ⟨.XML_DECL, n⟩)
  | .wait => more = true
  | .endPE => False
  | .fail c => c.Outer
  | .panic => False

theorem see_fine {e : Enc} {asc : UInt8 → Buf} (s : Supported e asc) (more : Bool) (b : Buf) : Seen.Fine e more b (seeRes false false more false (prologTok e b) b) := by
  by_cases h1 : (prologTok e b).tok = .NONE
  · rw [seeRes, h1, if_neg (by decide)]
    split
    · rename_i h
      exact h.1
    · exact ⟨rfl, by simp⟩
  by_cases h2 : (prologTok e b).tok = .PARTIAL
  · rw [seeRes, h2, if_neg (by decide)]
    split
    · rename_i h
      exact h.1
    · exact ⟨rfl, by simp⟩
  have hb : b ≠ [] := by
    rintro rfl
    exact h1 (by simp [prologTok])
  have hpos : 0 < b.length := List.length_pos_iff.2 hb
  obtain ⟨g1, -⟩ := tok_body s h1 h2
  have B := body_tok e (truncBuf e b)
  rw [← g1] at B
  unfold seeRes
  split
  · rename_i h3
    have h3 : (prologTok e b).tok.isError = false := by simpa using h3
    refine ⟨fun h4 => ?_, B.bom, fun h4 => ?_⟩
    · have := C02.progress .prolog e b h3 h4
      simp only [C02.Entry.run] at this
      rw [List.length_drop]
      omega
    · rw [← h4]
  · rename_i h3
    have h3 : (prologTok e b).tok.isError = true := by simpa using h3
    split
    · rename_i h
      exact h.1
    · have hl := B.err h3
      have hsp := B.sp
      have hmb : 0 < e.mb := Nat.succ_pos _
      simp only [Tok.late, Tok.fail, Tok.nameyNeg] at hl
      have neg (t : Tok) (ht : t ≠ .BOM) (ht2 : t ≠ .XML_DECL) : Seen.Fine e more b (.tok t b.length) := by
        refine ⟨fun _ => ?_, ht, fun h => absurd h ht2⟩
        simpa using hpos
      rcases hl with (h | h | h) | h | h | h | h | h | (h | h | h) <;> simp only [h] <;> first
        | exact ⟨rfl, by simp⟩
        | (simp only [Tok.negate]; exact neg _ (by simp) (by simp))
        | (refine ⟨fun _ => ?_, by simp, by simp⟩
           rw [List.length_drop, hsp h]
           omega)

/-! ### The loop -/

/-- The one way to make the library panic: the declared encoding. -/
def BadDecl (c : PCfg) (s : DState) (b : Buf) : Prop :=
  s.el.p.h = .prolog0 ∧ ∃ i n, s.cur = .builtin i ∧ prologTok (i.x c.c.ns).e b = ⟨.XML_DECL, n⟩ ∧
    doParseXmlDecl (i.x c.c.ns) false (declText (i.x c.c.ns).e (b.take n)) = .panic

theorem decl_lex {e : Enc} {asc : UInt8 → Buf} (s : Supported e asc) {b : Buf} {n : Nat} (h : prologTok e b = ⟨.XML_DECL, n⟩) :
    Markup e asc .XML_DECL (b.take n) ∧ n ≤ b.length := by
  have h1 : (prologTok e b).tok ≠ .NONE := by rw [h]; simp
  have h2 : (prologTok e b).tok ≠ .PARTIAL := by rw [h]; simp
  have ht := tok_trunc s h1 h2
  obtain ⟨-, r, g2, -, g4⟩ := tok_body s h1 h2
  rw [h] at ht
  obtain ⟨w, r', l1, l2, l3⟩ := lex_sound s g4 rfl ht
  have hm := lex_misc (.inr (.inr rfl)) l1
  rw [l2, List.append_assoc] at g2
  rw [g2, l3, List.take_left]
  exact ⟨hm, by simp⟩

theorem pround_fine (hc : Doc0 c) {s : DState} (C : Calm c z s k) (hk : k + 2 < 2 ^ 31) {i : EncId} (hi : s.cur = .builtin i) {b : Buf} {t : Tok} {n : Nat} {more : Bool}
    (hs : seeRes false false more false (prologTok (i.x c.c.ns).e b) b = .tok t n) (allowClose : Bool) :
    Acted.Fine (BadDecl c s b) c true (k + 1) (pround c ext fuel expand false allowClose opened s t (b.take n)) ∧
    (t = .INSTANCE_START → ∀ d, (pround c ext fuel expand false allowClose opened s t (b.take n)).2.2 ≠ .go d) := by
  have S := C54.supported c.c.ns i
  have hxs : s.x c false = i.x c.c.ns := by simp [DState.x, hi, CurEnc.x]
  have hsee := see_fine S.s more b
  rw [hs] at hsee
  obtain ⟨⟨n1, n2, n3, n4⟩, F⟩ := next_doc (e := (i.x c.c.ns).e) C.none_ C.doc C.hd t (b.take n)
  have hin := next_inst (e := (i.x c.c.ns).e) C.none_ C.doc C.hd C.ok (b.take n)
  have hp : Acted.Fine (BadDecl c s b) c true (k + 1) (pact c ext fuel expand false allowClose opened
      { s with el := { s.el with p := (s.el.p.next (i.x c.c.ns).e t (b.take n)).1 } } (s.el.p.next (i.x c.c.ns).e t (b.take n)).2 t (b.take n)) := by
    have := pact_fine (ext := ext) (fuel := fuel) (expand := expand) (opened := opened) (k := k + 1) (z := true) hc
      (s := { s with el := { s.el with p := (s.el.p.next (i.x c.c.ns).e t (b.take n)).1 } }) (t := t) (w := b.take n)
      hi ⟨C.pe, C.cur, C.texts⟩ n1 n2 n3 C.ign (fun _ h => hsee.2.1 (n4 h)) F
      (by
        have := ElemSim.inv_step (nm := converted (i.x c.c.ns)) S.s hk (inv_calls [] C.inv) t (b.take n)
        rcases this with ⟨s', h1, h2⟩ | h | h
        · exact .inl ⟨s', h1, by have := ElemSim.step_p h1; exact this, h2⟩
        · exact .inr (.inl h)
        · exact .inr (.inr h))
      (fun ht => by subst ht; exact lit_val S.s hs)
      (fun ht => (decl_lex S.s (hsee.2.2 ht)).1) allowClose
    revert this
    unfold Acted.Fine
    simp only
    split <;> first | exact id | skip
    intro h
    exact ⟨h.1, i, n, hi, hsee.2.2 h.2.1, h.2.2⟩
  unfold pround
  simp only [hxs]
  refine ⟨?_, ?_⟩
  · split
    · rename_i h
      rw [h] at hp
      exact hp
    · exact hp
  · rintro rfl d
    have key : ∀ d, (pact c ext fuel expand false allowClose opened
        { s with el := { s.el with p := (s.el.p.next (i.x c.c.ns).e .INSTANCE_START (b.take n)).1 } }
        (s.el.p.next (i.x c.c.ns).e .INSTANCE_START (b.take n)).2 .INSTANCE_START (b.take n)).2.2 ≠ .go d := by
      intro d
      rcases hin with h | h
      · rw [h]
        simp only [pact]
        unfold actInstanceStart
        split
        · rw [subset_same (by exact C.pe)]
          simp
        · simp
      · rw [h]
        simp [pact]
    split
    · rename_i h
      exact absurd (by rw [h]) (key true)
    · exact key d

/-- What a run may come to. -/
def Prolog.Fine (c : PCfg) (more : Bool) (s : DState) (k : Nat) (b : Buf) (r : Prolog) : Prop :=
  match r.2.2 with
  | .done q => more = true ∧ (∃ k', Calm c false r.2.1 k' ∧ k' + q.length ≤ k + b.length) ∧ (r.2.1.el.p.h = .prolog0 → r.2.1 = s ∧ q = b)
  | .content _ => Base c r.2.1
  | .err e => e.Outer
  | .panic => BadDecl c s b

theorem Calm.early {s : DState} (h : Calm c z s k) : Calm c false s k := ⟨h.toBase, h.none_, h.doc, h.hd, h.inv, h.ign, by simp⟩

theorem prun_fine (hc : Doc0 c) (more allowClose : Bool) (m : Nat) : ∀ {b : Buf}, b.length = m → ∀ {z k s}, Calm c z s k → k + b.length + 2 < 2 ^ 31 →
    Prolog.Fine c more s k b (prun c ext fuel expand false false allowClose more opened s b) := by
  induction m using Nat.strongRecOn with
  | _ m ih =>
    rintro b rfl z k s C hk
    obtain ⟨i, hi⟩ := C.cur
    have S := C54.supported c.c.ns i
    have hxs : s.x c false = i.x c.c.ns := by simp [DState.x, hi, CurEnc.x]
    have hsee := see_fine S.s more b
    rw [prun.eq_def]
    simp only [hxs, seeToken, hc.isPE]
    cases hs : seeRes false false more false (prologTok (i.x c.c.ns).e b) b with
    | wait => exact ⟨by rw [hs] at hsee; exact hsee, ⟨k, C.early, Nat.le_refl _⟩, fun _ => ⟨rfl, rfl⟩⟩
    | fail e => rw [hs] at hsee; exact hsee
    | panic => rw [hs] at hsee; exact hsee.elim
    | endPE => rw [hs] at hsee; exact hsee.elim
    | tok t n =>
      rw [hs] at hsee
      obtain ⟨hp, hgo⟩ := pround_fine (ext := ext) (fuel := fuel) (expand := expand) (opened := opened) hc C (by omega) hi hs allowClose
      simp only
      generalize pround c ext fuel expand false allowClose opened s t (b.take n) = a at hp hgo
      obtain ⟨E, s1, o⟩ := a
      cases o with
      | fail e => exact hp
      | panic => exact hp
      | start => exact hp
      | ignore => exact hp.elim
      | go d =>
        have hlt := hsee.1 (fun h => hgo h d rfl)
        simp only [if_pos hlt]
        have hp : Calm c true s1 (k + 1) := hp
        have := ih _ hlt rfl hp (by omega)
        revert this
        simp only [Prolog.pre]
        generalize prun c ext fuel expand false false allowClose more opened s1 (b.drop n) = r
        obtain ⟨E2, s2, o⟩ := r
        cases o with
        | err e => exact id
        | content q => exact id
        | panic => exact fun h => absurd h.1 (hp.late rfl)
        | done q =>
          rintro ⟨hm, ⟨k', h1, h2⟩, h3⟩
          refine ⟨hm, ⟨k', h1, Nat.le_trans h2 (by omega)⟩, fun h => ?_⟩
          obtain ⟨h4, -⟩ := h3 h
          have h : s2.el.p.h = .prolog0 := h
          rw [show s2 = s1 from h4] at h
          exact absurd h (hp.late rfl)

theorem call_fine (hc : Doc0 c) (more : Bool) {b : Buf} {s : DState} (C : Calm c z s k) (hk : k + b.length + 2 < 2 ^ 31) :
    Prolog.Fine c more s k b (prologCall c ext fuel opened more s b) := by
  unfold prologCall
  simp only [C.ign]
  exact prun_fine hc more true _ rfl C hk

end
end Verif
