import Verif.SubsetChild

/-! # The external subset and external parameter entities: the derivation (C69) -/

set_option autoImplicit false

namespace Verif.C69
open C43 C53 C59 C60 Spec Verif PState

/-! ### The table -/

/-- What has been declared stays; the identifiers of the external subset do. -/
theorem find_keep {t u : List (Buf × Entity)} {n : Buf} {e : Entity} (h : tabGet t n = some e) : tabGet (t ++ u) n = some e := by
  rw [tabGet] at h ⊢
  rw [List.find?_append]
  cases hf : t.find? (·.1 = n) with
  | none => rw [hf] at h; cases h
  | some p => rw [hf] at h; exact h

theorem attDefs_par {k : Ctx} {elem : Buf} {D D' : DTab} {w : Buf} {E : List PEv} (h : AttDefs k elem D w E D') : D'.par = D.par := by
  induction h with
  | nil => rfl
  | cons h1 h2 ih =>
    rw [ih]
    cases h1
    split
    · rw [addAtt]; simp only; split <;> rfl
    · rfl

theorem addEntity_par {D : DTab} {n : Buf} {e : Entity} (h : tabGet D.par n = some e) (b : Bool) (m : Buf) (f : Entity) :
    tabGet (addEntity D b m f).par n = some e := by
  rw [addEntity]; split
  · exact find_keep h
  · exact h

theorem decl_par {k : Ctx} {D D' : DTab} {w : Buf} {A : List Said} (h : Decl k D w A D') {n : Buf} {e : Entity} (hg : tabGet D.par n = some e) :
    tabGet D'.par n = some e := by
  cases h with
  | space => exact hg
  | comment => exact hg
  | pi => exact hg
  | entity _ name _ _ _ _ _ _ _ _ _ _ _ h6 h7 =>
    by_cases hc : Counts k D false name.flatten
    · rw [(h6 hc).2]; exact addEntity_par hg _ _ _
    · rw [(h7 hc).2]; exact hg
  | paramEntity _ _ name _ _ _ _ _ _ _ _ _ _ _ _ h6 h7 =>
    by_cases hc : Counts k D true name.flatten
    · rw [(h6 hc).2]; exact addEntity_par hg _ _ _
    · rw [(h7 hc).2]; exact hg
  | notation_ => exact hg
  | attlist _ _ _ _ _ _ _ _ h3 => rw [attDefs_par h3]; exact hg
  | element => exact hg
  | refUnread => exact hg
  | refUnknown => exact hg
  | refExternal => exact hg

theorem settled_par (D : DTab) : (settled D).par = D.par := by rw [settled]; split <;> rfl

theorem xdecls_par {docs : ExtReq → Option ExtDoc} {k : Ctx} {n : Nat} {D D' : DTab} {w : Buf} {A : List Said} (h : XDecls docs k n D w A D')
    {m : Buf} {e : Entity} : tabGet D.par m = some e → tabGet D'.par m = some e := by
  induction h with
  | nil => exact id
  | cons h1 _ ih => exact fun h => ih (decl_par h1 h)
  | ref _ _ _ _ _ _ _ _ _ _ _ ih1 ih2 => exact fun h => ih2 (ih1 h)
  | ext _ _ _ _ _ _ _ _ _ _ _ _ _ _ _ _ _ _ _ ih1 ih2 => exact fun h => ih2 (by rw [settled_par]; exact ih1 h)
  | skip _ _ _ _ _ _ _ _ _ _ _ _ ih => exact fun h => ih h
  | include_ _ _ _ _ _ _ _ _ ih1 ih2 => exact fun h => ih2 (ih1 h)
  | ignore _ _ _ _ _ _ _ _ ih => exact ih

/-! ### The parser for the entity -/

theorem resolver_child (c : PCfg) (e : EncIndex) (docs : ExtReq → Option ExtDoc) (fuel : Nat) (d : Nat) :
    resolver (c.toChild e) docs fuel d = resolver c docs fuel d := by
  induction d with
  | zero => rfl
  | succ d ih =>
    funext req sh
    simp only [resolver, ih]
    rfl

theorem end_child {c : PCfg} {ext : Ext} {fuel : Nat} {expand : Bool → Buf → Buf → DState → Acted} {opened : List Buf} {F : C59.Frame} {D : DTab}
    {s : DState} (hc : c.isPE = true) (a : At F (home F.doc) D s) (hl : F.includes = 0) :
    prun c ext fuel expand false false true false opened s [] = ([], s, .done []) := by
  have hdoc : s.el.p.documentEntity = F.doc := congrArg C59.Frame.doc a.frame
  have hi : s.el.p.includeLevel = F.includes := congrArg C59.Frame.includes a.frame
  rw [prun]
  have : seeToken (s.x c false) false false false c.isPE [] = .endPE := by
    rw [seeToken, show prologTok (s.x c false).e [] = ⟨.NONE, 0⟩ from by simp [prologTok], hc]
    rfl
  simp only [this]
  rw [home_none (by rw [hdoc]; exact a.h) (by rw [hi]; exact hl)]
  rfl

/-- The state of the new parser, with the encoding `i`, in the entity's first call. -/
def begun (i : EncId) (pe : PEParsing) (sh : Shared) : DState :=
  { (childNew .noEnc ⟨false, [], pe, none, none, none⟩ sh).s with D := { sh.D with peRead := true }, cur := .builtin i }

def childFrame (i : EncId) (pe : PEParsing) : C59.Frame := ⟨.builtin i, pe, none, none, none, false, false, false, 0, false⟩

theorem begun_at {i : EncId} {pe : PEParsing} {sh : Shared} (h1 : sh.scaf.inEldecl = false) (h2 : sh.scaf.strLen = 0) (j : EncId) :
    At (childFrame j pe) (home false) { sh.D with peRead := true }
      { (begun i pe sh).withP { (begun i pe sh).el.p with h := .externalSubset1 } with cur := .builtin j } :=
  ⟨rfl, rfl, rfl, rfl, rfl, ⟨h1, h2, .inl rfl⟩⟩

/-- What the derivation gives for a text. -/
def Runs (docs : ExtReq → Option ExtDoc) (k : Ctx) (n : Nat) (D : DTab) (w : Buf) (A : List Said) (D' : DTab) (N : Nat) : Prop :=
  ∀ (fuel d dd : Nat), N ≤ fuel → N ≤ d → N ≤ dd → ∀ (between allowClose more : Bool) (F : C59.Frame) (s : DState) (r : Buf),
    k.doc = F.doc → k.pe = F.pe → F.includes = UInt32.ofNat n → F.inValue = false → At F (home F.doc) D s → r ≠ [] ∨ more = false →
    ∃ s' E, Says A E ∧ At F (home F.doc) D' s' ∧
      Reach k.c (resolver k.c docs fuel dd) fuel (expandPE k.c (resolver k.c docs fuel dd) fuel d k.opened) k.internal between allowClose more k.opened
        k.x s (w ++ r) E s' r

/-- The external entity handler is called, and reads the entity. -/
theorem read_entity {docs : ExtReq → Option ExtDoc} {k : Ctx} (ho : k.c.OtherOk) {D D' : DTab} {m h t : Buf} {i j : EncId} {d : Option C18.Src} {A : List Said}
    {o : List Buf} {ent : Entity} {doc : ExtDoc}
    (g1 : docs (request k o ent) = some doc) (g2 : doc.pieces ≠ [])
    (g3 : doc.pieces.flatten = m ++ (h ++ t)) (g4 : Opens doc.enc m (h ++ t) i)
    (g5 : C66.TextHead (theirs k.c doc.enc) i h d j) (g6 : C54.unitSize i ∣ (h ++ t).length)
    {N : Nat} (hN : Runs docs (apart k doc.enc j o) 0 { D with hasPERefs := true, peRead := true } t A D' N)
    {fuel dd : Nat} (hf : N ≤ fuel) (hdd : N ≤ dd) {s : DState} (hD : s.D = { D with hasPERefs := true }) (hv : s.el.p.inEntityValue = false)
    (hpe : s.pe = k.pe) (he : s.el.inEldecl = false) (hl : s.el.strLen = 0) :
    ∃ G sh, Says (calls (entered k doc.enc ent d) ++ A) (heard G) ∧ sh.D = D' ∧ sh.scaf.inEldecl = false ∧ sh.scaf.strLen = 0 ∧
      callExt (resolver k.c docs fuel (dd + 1)) s o ent = (G, s.setSh sh, true) := by
  have S := C54.supported k.c.c.ns i
  let sh0 : Shared := { s.sh with D := { s.D with peRead := false } }
  have g5 : C66.TextHead (k.c.toChild doc.enc) i h d j := g5
  have hc : (k.c.toChild doc.enc).isPE = true := rfl
  obtain ⟨s1, E, h1, a1, r1⟩ := hN fuel fuel dd hf hf hdd false true false (childFrame j k.pe)
    { (begun i k.pe sh0).withP { (begun i k.pe sh0).el.p with h := .externalSubset1 } with cur := .builtin j } [] rfl rfl rfl rfl
    (by
      have := begun_at (i := i) (pe := k.pe) (sh := sh0) he hl j
      rw [show ({ sh0.D with peRead := true } : DTab) = { D with hasPERefs := true, peRead := true } by
        show ({ s.D with peRead := true } : DTab) = _
        rw [hD]] at this
      exact this) (.inr rfl)
  have hu : (j.x k.c.c.ns).e.mb = (i.x k.c.c.ns).e.mb := by rw [C54.mb_unit, C54.mb_unit, g5.unit]
  have hmb : (i.x k.c.c.ns).e.mb ∣ (h ++ t).length := by rw [C54.mb_unit]; exact g6
  have hmt : (j.x k.c.c.ns).e.mb ∣ (t ++ []).length := by
    rw [hu, List.append_nil]
    cases g5 with
    | none => exact hmb
    | decl d j h1 h127 hn =>
      rw [List.length_append] at hmb
      refine (Nat.dvd_add_right ?_).1 hmb
      rw [xmlDeclText, ← spell, ← spell_append, ← spell_append, ← spell_append, spell, spell_length S.s]
      exact Nat.dvd_mul_left _ _
  obtain ⟨r1, -, -⟩ := r1 rfl hmt
  rw [List.append_nil, show (apart k doc.enc j o).c = k.c.toChild doc.enc from rfl, show (apart k doc.enc j o).internal = false from rfl,
    show (apart k doc.enc j o).opened = o from rfl, resolver_child, end_child hc a1 rfl, hear_pre_nil] at r1
  have hr : hear (prologCall (k.c.toChild doc.enc) (resolver k.c docs fuel dd) fuel o false (begun i k.pe sh0) (h ++ t)) =
      (C66.textTold (k.c.toChild doc.enc) d ++ E, s1, .done []) := by
    show hear (prun _ _ _ _ _ _ _ _ _ _ _) = _
    cases g5 with
    | none => exact prun_ext0 rfl r1
    | decl d j h1 h127 hn =>
      rw [text_step h1 h127 hn rfl rfl t hmb, r1]
      rfl
  obtain ⟨G, enc, ph, h3, h4⟩ := child_pieces (c := k.c.toChild doc.enc) ho g4 (s := begun doc.enc.enc k.pe sh0) rfl rfl rfl g2 g3 hr
  have hnew : childParse (k.c.toChild doc.enc) (resolver k.c docs fuel dd) fuel o (childNew doc.enc (request k o ent) sh0) [] doc.pieces =
      ⟨G, ⟨s1, enc, ph⟩, [], .done []⟩ := by
    rw [← h4]
    obtain ⟨b, bs, hb⟩ := List.exists_cons_of_ne_nil g2
    rw [hb, childParse, childParse]
    rfl
  refine ⟨.extRef ent.base ent.systemId ent.publicId :: G, s1.sh, ?_, a1.D, a1.rest.eldecl, a1.rest.len, ?_⟩
  · show Says _ (.extRef ent.base ent.systemId ent.publicId :: heard G)
    rw [h3, entered, ← List.cons_append]
    exact (says_calls _).append h1
  · have hq : (⟨s.el.p.inEntityValue, o, s.pe, ent.base, ent.systemId, ent.publicId⟩ : ExtReq) = request k o ent := by rw [hv, hpe]; rfl
    rw [callExt]
    simp only
    rw [show ({ s with D := { s.D with peRead := false } } : DState).sh = sh0 from rfl, hq]
    simp only [resolver, g1]
    rw [show (request k o ent).opened = o from rfl, hnew]
    rfl

/-- The handler does nothing. -/
theorem callExt_skip {docs : ExtReq → Option ExtDoc} {k : Ctx} {o : List Buf} {ent : Entity} (g1 : docs (request k o ent) = none) {fuel dd : Nat} {s : DState}
    (hv : s.el.p.inEntityValue = false) (hpe : s.pe = k.pe) :
    callExt (resolver k.c docs fuel (dd + 1)) s o ent =
      ([.extRef ent.base ent.systemId ent.publicId], { s with D := { s.D with peRead := false } }, true) := by
  have hq : (⟨s.el.p.inEntityValue, o, s.pe, ent.base, ent.systemId, ent.publicId⟩ : ExtReq) = request k o ent := by rw [hv, hpe]; rfl
  rw [callExt]
  simp only
  rw [hq]
  simp only [resolver, g1]
  rfl

theorem includes_succ (n : Nat) : UInt32.ofNat (n + 1) = UInt32.ofNat n + 1 := UInt32.ofNat_add n 1

theorem includes_ne {n : Nat} (h : n + 1 < 2 ^ 32) : UInt32.ofNat n + 1 ≠ 0 := by
  rw [← includes_succ]
  intro h0
  have := congrArg UInt32.toNat h0
  rw [UInt32.toNat_ofNat_of_lt' (by exact h)] at this
  exact absurd this (by simp)

/-- Declarations, sections and references. -/
theorem run_xdecls {docs : ExtReq → Option ExtDoc} {k : Ctx} {n : Nat} {D : DTab} {w : Buf} {A : List Said} {D' : DTab} (h : XDecls docs k n D w A D') :
    XSupported k.x k.asc → IntOk k → k.c.OtherOk → ∃ N, Runs docs k n D w A D' N := by
  induction h with
  | nil k n D =>
    intro S hi ho
    exact ⟨0, fun fuel d dd _ _ _ between allowClose more F s r _ _ _ _ a _ => ⟨s, [], .nil, a, Reach.refl _ _⟩⟩
  | @cons k n D D' D'' w w' A A' h1 h2 ih =>
    intro S hi ho
    obtain ⟨N, hN⟩ := ih S hi ho
    refine ⟨max N (D.par.length + 1), fun fuel d dd hf hd hdd between allowClose more F s r hdoc hpe hl hv a hr => ?_⟩
    obtain ⟨s1, E1, e1, a1, r1⟩ := run_decl (ext := resolver k.c docs fuel dd) (fuel := fuel) (expand := expandPE k.c (resolver k.c docs fuel dd) fuel d k.opened)
      (between := between) (allowClose := allowClose) (more := more) (r := w' ++ r) S hi hdoc hpe (by omega) a h1 (by
        rcases hr with hr | hr
        · exact .inl fun h => hr (List.append_eq_nil_iff.1 h).2
        · exact .inr hr)
    obtain ⟨s2, E2, e2, a2, r2⟩ := hN fuel d dd (by omega) (by omega) (by omega) between allowClose more F s1 r hdoc hpe hl hv a1 hr
    refine ⟨s2, E1 ++ E2, e1.append e2, a2, ?_⟩
    rw [List.append_assoc]
    exact r1.trans r2
  | @ref k D D' D'' w' t A A' name ent h1 h2 h3 h4 h5 h6 h7 h8 h9 ih1 ih2 =>
    intro S hi ho
    obtain ⟨N1, hN1⟩ := ih1 hi.int ⟨hi.int, hi.ends⟩ ho
    obtain ⟨N2, hN2⟩ := ih2 S hi ho
    refine ⟨max (N1 + 1) N2, fun fuel d dd hf hd hdd between allowClose more F s r hdoc hpe hl hv a hr => ?_⟩
    obtain ⟨d, rfl⟩ : ∃ d', d = d' + 1 := ⟨d - 1, by omega⟩
    obtain ⟨s1, E1, e1, a1, r1⟩ := hN1 fuel d dd (by omega) (by omega) (by omega) true false false F { s with D := { D with hasPERefs := true } } []
      hdoc hpe hl hv a.refs (.inr rfl)
    have hmb : k.c.int.e.mb = 1 := by
      rw [← hi.int.s.asc.len 0]; rfl
    obtain ⟨r1, -, -⟩ := r1 rfl (by
      show k.c.int.e.mb ∣ _
      rw [hmb]; exact Nat.one_dvd _)
    rw [List.append_nil] at r1
    have he := end_text (c := k.c) (ext := resolver k.c docs fuel dd) (fuel := fuel)
      (expand := expandPE k.c (resolver k.c docs fuel dd) fuel d (converted k.x name.flatten :: k.opened))
      (opened := converted k.x name.flatten :: k.opened) a1 hl
    rw [show (k.inside (converted k.x name.flatten)).opened = converted k.x name.flatten :: k.opened from rfl,
      show (k.inside (converted k.x name.flatten)).c = k.c from rfl, show (k.inside (converted k.x name.flatten)).internal = true from rfl, he] at r1
    obtain ⟨G, hG, hq⟩ := of_hear (E := E1) (s := s1) (o := .done []) (by rw [r1, hear_pre_nil])
    have hp := ref_known (k := k) (ext := resolver k.c docs fuel dd) (expand := expandPE k.c (resolver k.c docs fuel dd) fuel (d + 1) k.opened) (E := G) (D' := D') (s' := s1) (hd := false)
      S a hdoc hpe h2 h3 h4 h8 a1 (by
        rw [handleRef, if_neg h5, h6]
        simp only [decide_true, expandPE, hq, Prolog.toActed])
    have r2 := run_ref (fuel := fuel) (between := between) (allowClose := allowClose) (more := more) S a h1 a1 ⟨false, hp⟩ (w' ++ r)
    rw [show heard (G ++ asked k D') = E1 ++ asked k D' by rw [heard_append, hG, heard_asked]] at r2
    obtain ⟨s2, E2, e2, a2, r3⟩ := hN2 fuel (d + 1) dd (by omega) (by omega) (by omega) between allowClose more F s1 r hdoc hpe hl hv a1 hr
    refine ⟨s2, E1 ++ asked k D' ++ E2, (e1.append (says_calls _)).append e2, a2, ?_⟩
    rw [List.append_assoc]
    exact r2.trans r3
  | @ext k n D D' D'' w' m h t i j d A A' name ent doc h1 h2 h3 h4 h5 h6 h7 g1 g2 g3 g4 g5 g6 g7 h8 h9 ih1 ih2 =>
    intro S hi ho
    obtain ⟨N1, hN1⟩ := ih1 (C54.supported _ j) ⟨hi.int, hi.ends⟩ ho
    obtain ⟨N2, hN2⟩ := ih2 S hi ho
    refine ⟨max (N1 + 1) N2, fun fuel dx dd hf hd hdd between allowClose more F s r hdoc hpe hl hv a hr => ?_⟩
    obtain ⟨dd, rfl⟩ : ∃ d', dd = d' + 1 := ⟨dd - 1, by omega⟩
    have hpe' : s.pe = k.pe := (congrArg C59.Frame.pe a.frame).trans hpe.symm
    have hv' : s.el.p.inEntityValue = false := (congrArg C59.Frame.inValue a.frame).trans hv
    obtain ⟨G, sh, e1, hD, hel, hle, hcall⟩ := read_entity ho g1 g2 g3 g4 g5 g6 hN1 (fuel := fuel) (dd := dd) (by omega) (by omega)
      (s := { s with D := { D with hasPERefs := true } }) rfl hv' hpe' a.rest.eldecl a.rest.len
    let s0 : DState := DState.setSh { s with D := { D with hasPERefs := true } } sh
    have a1 : At F (home F.doc) (settled D') { s0 with D := settled D' } := ⟨a.h, a.none_, a.frame, rfl, a.tmp, ⟨hel, hle, a.rest.size⟩⟩
    have hst : (settled D').standalone = D'.standalone := by rw [settled]; split <;> rfl
    have h8' : Allowed k (settled D') := by rw [Allowed, hst]; exact h8
    have hask : asked k (settled D') = asked k D' := by rw [asked, asked, hst]
    have hsD : s0.D = D' := hD
    have hp := ref_known (k := k) (ext := resolver k.c docs fuel (dd + 1)) (expand := expandPE k.c (resolver k.c docs fuel (dd + 1)) fuel dx k.opened)
      (E := G ++ if D'.peRead then asked k D' else []) (D' := settled D') (s' := { s0 with D := settled D' }) (hd := false)
      S a hdoc hpe h2 h3 h4 h8' a1 (by
        rw [handleRef, if_neg h5, h6]
        simp only [h7, if_true, hcall, Bool.not_true, Bool.false_eq_true, if_false]
        rw [show DState.setSh { s with D := { D with hasPERefs := true } } sh = s0 from rfl, settled, hsD]
        cases hr : D'.peRead with
        | true =>
          simp only [Bool.not_true, Bool.false_eq_true, if_false, if_true, standaloneCheck, hsD, ask_ok k rfl h8, Acted.pre]
          rw [← hsD]
        | false =>
          simp only [Bool.not_false, if_true, Bool.false_eq_true, if_false, List.append_nil, DTab.drop, hr])
    have r2 := run_ref (fuel := fuel) (between := between) (allowClose := allowClose) (more := more) S a h1 a1 ⟨false, hp⟩ (w' ++ r)
    rw [show heard (G ++ (if D'.peRead then asked k D' else []) ++ asked k (settled D')) = heard G ++ asks k D' by
      rw [hask, asks]
      split
      · rw [heard_append, heard_append, heard_asked, List.append_assoc]
      · rw [List.append_nil, heard_append, heard_asked]] at r2
    obtain ⟨s2, E2, e2, a2, r3⟩ := hN2 fuel dx (dd + 1) (by omega) (by omega) (by omega) between allowClose more F _ r hdoc hpe hl hv a1 hr
    refine ⟨s2, heard G ++ asks k D' ++ E2, (e1.append (says_calls _)).append e2, a2, ?_⟩
    rw [List.append_assoc]
    exact r2.trans r3
  | @skip k n D D' w' A' name ent h1 h2 h3 h4 h5 h6 h7 g1 h8 h9 ih =>
    intro S hi ho
    obtain ⟨N, hN⟩ := ih S hi ho
    refine ⟨max N 1, fun fuel dx dd hf hd hdd between allowClose more F s r hdoc hpe hl hv a hr => ?_⟩
    obtain ⟨dd, rfl⟩ : ∃ d', dd = d' + 1 := ⟨dd - 1, by omega⟩
    have hpe' : s.pe = k.pe := (congrArg C59.Frame.pe a.frame).trans hpe.symm
    have hv' : s.el.p.inEntityValue = false := (congrArg C59.Frame.inValue a.frame).trans hv
    have hcall := callExt_skip (fuel := fuel) (dd := dd) g1 (s := { s with D := { D with hasPERefs := true } }) hv' hpe'
    have a1 : At F (home F.doc) { unread D with peRead := false } { s with D := { unread D with peRead := false } } :=
      ⟨a.h, a.none_, a.frame, rfl, a.tmp, a.rest⟩
    have hp := ref_known (k := k) (ext := resolver k.c docs fuel (dd + 1)) (expand := expandPE k.c (resolver k.c docs fuel (dd + 1)) fuel dx k.opened)
      (E := [.extRef ent.base ent.systemId ent.publicId]) (D' := { unread D with peRead := false }) (s' := { s with D := { unread D with peRead := false } })
      (hd := false) S a hdoc hpe h2 h3 h4 h8 a1 (by
        rw [handleRef, if_neg h5, h6]
        simp only [h7, if_true, hcall, Bool.not_true, Bool.false_eq_true, if_false]
        rfl)
    have r2 := run_ref (fuel := fuel) (between := between) (allowClose := allowClose) (more := more) S a h1 a1 ⟨false, hp⟩ (w' ++ r)
    rw [show heard ([PEv.extRef ent.base ent.systemId ent.publicId] ++ asked k { unread D with peRead := false }) =
      .extRef ent.base ent.systemId ent.publicId :: asked k D by
      rw [heard_append, heard_asked]; rfl] at r2
    obtain ⟨s2, E2, e2, a2, r3⟩ := hN fuel dx (dd + 1) (by omega) (by omega) (by omega) between allowClose more F _ r hdoc hpe hl hv a1 hr
    refine ⟨s2, (.extRef ent.base ent.systemId ent.publicId :: asked k D) ++ E2, (says_calls _).append e2, a2, ?_⟩
    rw [List.append_assoc]
    exact r2.trans r3
  | @include_ k n D D' D'' w w' A A' sp1 sp2 h1 h2 h3 h4 h5 h6 ih1 ih2 =>
    intro S hi ho
    obtain ⟨N1, hN1⟩ := ih1 S hi ho
    obtain ⟨N2, hN2⟩ := ih2 S hi ho
    refine ⟨max N1 N2, fun fuel d dd hf hd hdd between allowClose more F s r hdoc hpe hl hv a hr => ?_⟩
    have hh : home F.doc = .externalSubset1 := by rw [← hdoc, h3]; rfl
    rw [hh] at a ⊢
    obtain ⟨s1, a1, r1⟩ := include_start (ext := resolver k.c docs fuel dd) (fuel := fuel) (expand := expandPE k.c (resolver k.c docs fuel dd) fuel d k.opened)
      (between := between) (allowClose := allowClose) (more := more) S a h1 h2 (w ++ (spell k.asc [0x5D, 0x5D, 0x3E] ++ (w' ++ r)))
    obtain ⟨s2, E2, e2, a2, r2⟩ := hN1 fuel d dd (by omega) (by omega) (by omega) between allowClose more (deeper F) s1
      (spell k.asc [0x5D, 0x5D, 0x3E] ++ (w' ++ r)) hdoc hpe (by rw [includes_succ, ← hl]; rfl) hv (by
        show At (deeper F) (home F.doc) _ _
        rw [hh]; exact a1) (.inl (by
        intro h0
        have hs := spell_min S.s (kw := [0x5D, 0x5D, 0x3E]) (by simp)
        have : 0 < k.x.e.mb := Nat.succ_pos _
        rw [(List.append_eq_nil_iff.1 h0).1, List.length_nil] at hs
        omega))
    have a2' : At (deeper F) .externalSubset1 D' s2 := by
      have := a2
      rw [show (deeper F).doc = F.doc from rfl, hh] at this
      exact this
    obtain ⟨s3, a3, r3⟩ := include_end (ext := resolver k.c docs fuel dd) (fuel := fuel) (expand := expandPE k.c (resolver k.c docs fuel dd) fuel d k.opened)
      (between := between) (allowClose := allowClose) (more := more) S (by rw [hl]; exact includes_ne h4) a2' (w' ++ r)
    obtain ⟨s4, E4, e4, a4, r4⟩ := hN2 fuel d dd (by omega) (by omega) (by omega) between allowClose more F s3 r hdoc hpe hl hv (by rw [hh]; exact a3) hr
    rw [hh] at a4
    refine ⟨s4, E2 ++ E4, e2.append e4, a4, ?_⟩
    simp only [List.append_assoc]
    have := ((r1.then r2).trans (r3.then r4))
    simpa only [List.nil_append] using this
  | @ignore k n D D' w' A' sp1 sp2 ws h1 h2 h3 h4 h5 ih =>
    intro S hi ho
    obtain ⟨N, hN⟩ := ih S hi ho
    refine ⟨N, fun fuel d dd hf hd hdd between allowClose more F s r hdoc hpe hl hv a hr => ?_⟩
    have hh : home F.doc = .externalSubset1 := by rw [← hdoc, h3]; rfl
    rw [hh] at a ⊢
    obtain ⟨s1, a1, r1⟩ := run_ignore (ext := resolver k.c docs fuel dd) (fuel := fuel) (expand := expandPE k.c (resolver k.c docs fuel dd) fuel d k.opened)
      (between := between) (allowClose := allowClose) (more := more) S a h1 h2 h4 (w' ++ r)
    obtain ⟨s2, E2, e2, a2, r2⟩ := hN fuel d dd hf hd hdd between allowClose more F s1 r hdoc hpe hl hv (by rw [hh]; exact a1) hr
    rw [hh] at a2
    refine ⟨s2, E2, e2, a2, ?_⟩
    simp only [List.append_assoc]
    exact r1.then r2

end Verif.C69
