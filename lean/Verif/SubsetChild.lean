import Verif.SubsetSect
import Verif.PrologStart

/-! # Parsers for external parameter entities: the start, and the pieces (C69) -/

set_option autoImplicit false

namespace Verif.C69
open C43 C53 C59 C60 Spec Verif PState

section
variable {c : PCfg} {ext : Ext} {fuel : Nat} {expand : Bool → Buf → Buf → DState → Acted}
  {between allowClose : Bool} {opened : List Buf}

/-! ### The first token -/

theorem next_ext0 {p : PState} (h0 : p.h = .externalSubset0) (e : Enc) {t : Tok} (ht : t ≠ .XML_DECL) (w : Buf) :
    p.next e t w = PState.next e { p with h := .externalSubset1 } t w := by
  obtain ⟨hd, lv, rn, il, de, iv⟩ := p
  simp only at h0
  subst h0
  simp [PState.next, PState.handle, externalSubset0, ht, fall]

theorem xmlDecl_ext1 {p : PState} (h0 : p.h = .externalSubset1) (e : Enc) (w : Buf) : (p.next e .XML_DECL w).2 = .ERROR := by
  simp [PState.next, PState.handle, h0, externalSubset1, internalSubset, common, fall]

/-- Except for a text declaration the first token is treated like the later ones. -/
theorem prun_ext0 {s : DState} (h0 : s.el.p.h = .externalSubset0) {b : Buf} {E : List PEv} {s' : DState} {r : Buf}
    (h : hear (prun c ext fuel expand false between allowClose false opened (s.withP { s.el.p with h := .externalSubset1 }) b) = (E, s', .done r)) :
    hear (prun c ext fuel expand false between allowClose false opened s b) = (E, s', .done r) := by
  have hx : (s.withP { s.el.p with h := .externalSubset1 }).x c false = s.x c false := rfl
  rw [← h]
  congr 1
  rw [prun.eq_def] at h
  rw [prun.eq_def, prun.eq_def (s := s.withP { s.el.p with h := .externalSubset1 })]
  simp only [hx] at h ⊢
  cases hq : seeToken (s.x c false) false between false c.isPE b with
  | wait =>
    rw [seeToken] at hq
    generalize prologTok (s.x c false).e b = q at hq
    obtain ⟨t, m⟩ := q
    cases t <;> simp [seeRes, Tok.isError, Tok.negate] at hq <;> grind
  | fail e => simp only [hq] at h; cases h
  | panic => simp only [hq] at h; cases h
  | endPE =>
    simp only
    rw [next_ext0 h0 _ (by simp) []]
    rfl
  | tok t n =>
    simp only [hq] at h ⊢
    have ht : t ≠ .XML_DECL := by
      rintro rfl
      have h2 := xmlDecl_ext1 (p := { s.el.p with h := .externalSubset1 }) rfl (s.x c false).e (b.take n)
      rw [pround] at h
      simp only [hx] at h
      rw [show (s.withP { s.el.p with h := .externalSubset1 }).el.p = { s.el.p with h := .externalSubset1 } from rfl] at h
      simp only [h2, pact] at h
      cases h
    have hp := next_ext0 h0 (s.x c false).e ht (b.take n)
    have key : pround c ext fuel expand false allowClose opened (s.withP { s.el.p with h := .externalSubset1 }) t (b.take n) =
        pround c ext fuel expand false allowClose opened s t (b.take n) := by
      rw [pround, pround]
      simp only [hx, hp]
      rfl
    rw [key]

/-! ### The text declaration -/

theorem text_ptoken {x : XEnc} {asc : UInt8 → Buf} (S : XSupported x asc) {d : C18.Src} (h : d.Valid true) (r : Buf)
    (hd : x.e.mb ∣ (xmlDeclText asc d ++ r).length) :
    prologTok x.e (xmlDeclText asc d ++ r) = ⟨.XML_DECL, (xmlDeclText asc d).length⟩ := by
  have l (c) := S.s.asc.len c
  have ht := (C07.checkPiTarget_spec S.s (xmlName.map asc).flatten).1.2 rfl
  have hb := C66.text_body S h
  have hn := xml_name S
  unfold xmlDeclText at hd ⊢
  generalize (spell asc d.text) = b at *
  generalize xmlName.map asc = target at *
  simp only [spell, List.map_cons, List.map_nil, List.flatten_cons, List.flatten_nil, List.append_nil, List.append_assoc] at hd ⊢
  rw [prologTok_eq (by rw [List.length_append, l]; omega), trunc_whole S.s hd]
  simp only [prologTokBody, asc_bt S.s (t := .LT) rfl, drop_char (l _), asc_bt S.s (t := .QUEST) rfl]
  rw [if_neg (asc_len_ok S.s _ _), Nat.two_mul, ← List.drop_drop, drop_char (l _), drop_char (l _),
    (pi_at S.s _ _ _ _ rfl).2 ⟨target, _, _, hn, rfl, (tail_iff S.s _ _).2 ⟨b, r, hb, rfl, rfl⟩, rfl, ht⟩]
  simp only [List.length_append, l, Res.mk.injEq, true_and]; omega

/-- It is read, and the rest in the encoding it names. -/
theorem text_step {more : Bool} {i j : EncId} {d : C18.Src} (h : d.Valid true) (h127 : ∀ a ∈ d.encoding, a.value.length ≠ 127)
    (hn : NextEnc c.protocol i d j) {s : DState} (h0 : s.el.p.h = .externalSubset0) (hs : s.cur = .builtin i) (r : Buf)
    (hd : (i.x c.c.ns).e.mb ∣ (xmlDeclText (C54.ascOf i) d ++ r).length) :
    hear (prun c ext fuel expand false between allowClose more opened s (xmlDeclText (C54.ascOf i) d ++ r)) =
      Prolog.pre (C66.textTold c (some d)) (hear (prun c ext fuel expand false between allowClose more opened
        { s.withP { s.el.p with h := .externalSubset1 } with cur := .builtin j } r)) := by
  have S := C54.supported c.c.ns i
  obtain ⟨E, h1, h2⟩ := C66.text_act (c := c) h h127 hn (s := s.withP { s.el.p with h := .externalSubset1 }) hs
  have hE : heard E = C66.textTold c (some d) := by
    rw [h2]
    by_cases hx : c.xmlDecl = true
    · rw [if_pos hx, C66.textTold, if_pos hx]; rfl
    · rw [if_neg hx, heard_dflt, C66.textTold, if_neg hx]
  have hx : s.x c false = i.x c.c.ns := by simp [DState.x, hs, CurEnc.x]
  have hl : 0 < (xmlDeclText (C54.ascOf i) d).length := by
    rw [xmlDeclText, List.length_append, spell, spell_length S.s]
    have : 0 < (i.x c.c.ns).e.mb := Nat.succ_pos _
    simp only [List.length_cons, List.length_nil]
    omega
  have hsee : seeToken (s.x c false) false between more c.isPE (xmlDeclText (C54.ascOf i) d ++ r) =
      .tok .XML_DECL (xmlDeclText (C54.ascOf i) d).length := by
    rw [seeToken, hx, text_ptoken S h r hd]
    rfl
  have hround : pround c ext fuel expand false allowClose opened s .XML_DECL (xmlDeclText (C54.ascOf i) d) =
      (E, { s.withP { s.el.p with h := .externalSubset1 } with cur := .builtin j }, .go false) := by
    rw [pround]
    have hp : s.el.p.next (s.x c false).e .XML_DECL (xmlDeclText (C54.ascOf i) d) = ({ s.el.p with h := .externalSubset1 }, .TEXT_DECL) := by
      simp [PState.next, PState.handle, h0, externalSubset0, PState.go]
    simp only [hp, pact]
    rw [show ({ s with el := { s.el with p := { s.el.p with h := .externalSubset1 } } } : DState) = s.withP { s.el.p with h := .externalSubset1 } from rfl, h1]
  rw [prun.eq_def]
  simp only [hsee]
  rw [List.take_left' rfl, hround]
  simp only
  rw [List.drop_left' rfl, if_pos (by rw [List.length_append]; omega), hear_pre, hE]

/-! ### The pieces -/

/-- The same as a call of `prologProcessor`. -/
def asProlog (r : Prolog) (enc : Option EncIndex) (ph : Phase) (q : Buf) : Childed := ⟨r.1, ⟨r.2.1, enc, ph⟩, [], .done q⟩

theorem parEnt_prolog {more : Bool} {s : DState} (hi : s.ignoring = false) (ph : Phase) {b q : Buf}
    (h : (prologCall c ext fuel opened more s b).2.2 = .done q) :
    ∃ ph', (ph' = ph ∨ ph' = .prolog) ∧ (ph' = ph → (prologCall c ext fuel opened more s b).2.1 = s ∨ ph' = .prolog) ∧
      parEntCall c ext fuel opened more ⟨s, none, ph⟩ b = asProlog (prologCall c ext fuel opened more s b) none ph' q := by
  have hset : Child.set ⟨s, none, ph⟩ (prologTok (s.cur.x c.c.ns).e b, none, s.cur) = ⟨s, none, ph⟩ := rfl
  have hb := C59.prologTok_noBom (s.cur.x c.c.ns).e b
  have go : ∃ ph', (ph' = ph ∨ ph' = .prolog) ∧ (ph' = ph → (prologCall c ext fuel opened more s b).2.1 = s ∨ ph' = .prolog) ∧
      (⟨(prologCall c ext fuel opened more s b).1, ⟨(prologCall c ext fuel opened more s b).2.1, none, .prolog⟩, [],
        (prologCall c ext fuel opened more s b).2.2⟩ : Childed) = asProlog (prologCall c ext fuel opened more s b) none ph' q :=
    ⟨.prolog, .inr rfl, fun _ => .inr rfl, by rw [asProlog, h]⟩
  have hcall : ∀ u, seeToken (s.x c false) false false more c.isPE b = u → (u = .wait → prologCall c ext fuel opened more s b = ([], s, .done b)) ∧
      (∀ e, u = .fail e → (prologCall c ext fuel opened more s b).2.2 = .err e) := by
    intro u hu
    refine ⟨fun h => ?_, fun e h => ?_⟩
    · rw [C57.call_loop hi, C57.loop, prun.eq_def]; simp only [hu, h]
    · rw [C57.call_loop hi, C57.loop, prun.eq_def]; simp only [hu, h]
  unfold parEntCall
  simp only [firstTok, hset]
  rw [seeToken, show s.x c false = s.cur.x c.c.ns from rfl] at hcall
  generalize prologTok (s.cur.x c.c.ns).e b = tk at hcall hb ⊢
  obtain ⟨t, n⟩ := tk
  simp only at hcall hb ⊢
  by_cases he : t.isError = true
  · rw [if_pos he]
    by_cases hm : more = true ∧ t ≠ .INVALID
    · have h1 := (hcall _ rfl).1 (by rw [seeRes, if_neg (by simp [he]), if_pos hm])
      have h2 : evTokEnd more t b = .wait b := by unfold evTokEnd; rw [if_pos hm]
      simp only [h2]
      refine ⟨ph, .inl rfl, fun _ => .inl (by rw [h1]), ?_⟩
      rw [h1] at h ⊢
      cases h
      rfl
    · unfold evTokEnd
      rw [if_neg hm]
      have hs : seeRes false false more c.isPE ⟨t, n⟩ b = match t with
          | .INVALID => .fail .INVALID_TOKEN
          | .PARTIAL => .fail .UNCLOSED_TOKEN
          | .PARTIAL_CHAR => .fail .PARTIAL_CHAR
          | t => seeRes false false more c.isPE ⟨t, n⟩ b := by
        cases t <;> simp only [seeRes, he, Bool.not_true, Bool.false_eq_true, if_false, if_neg hm]
      cases t <;> first
        | (have h1 := (hcall _ rfl).2 _ hs; rw [h] at h1; cases h1; done)
        | exact go
  · rw [if_neg he, if_neg hb]
    exact go

/-- Once the encoding is known, the calls are those of a prolog. -/
theorem child_feed (bs : List Buf) : ∀ (b : Buf) (s : DState) (left : Buf) (ph : Phase), (ph = .parEnt ∧ s.ignoring = false ∨ ph = .prolog) → ∀ q,
    (C57.feed c ext fuel opened s left (b :: bs)).2.2 = .done q →
    ∃ ph', childParse c ext fuel opened ⟨s, none, ph⟩ left (b :: bs) =
      asProlog (C57.feed c ext fuel opened s left (b :: bs)) none ph' q := by
  have one : ∀ (more : Bool) (s : DState) (b : Buf) (ph : Phase), (ph = .parEnt ∧ s.ignoring = false ∨ ph = .prolog) → ∀ q,
      (prologCall c ext fuel opened more s b).2.2 = .done q →
      ∃ ph', (ph' = .parEnt ∧ (prologCall c ext fuel opened more s b).2.1.ignoring = false ∨ ph' = .prolog) ∧
        childCall c ext fuel opened more ⟨s, none, ph⟩ b = asProlog (prologCall c ext fuel opened more s b) none ph' q := by
    intro more s b ph hph q hq
    rcases hph with ⟨rfl, hi⟩ | rfl
    · obtain ⟨ph', h1, h2, h3⟩ := parEnt_prolog hi .parEnt hq
      refine ⟨ph', ?_, h3⟩
      rcases h1 with rfl | rfl
      · rcases h2 rfl with h2 | h2
        · rw [h2]; exact .inl ⟨rfl, hi⟩
        · cases h2
      · exact .inr rfl
    · exact ⟨.prolog, .inr rfl, by simp only [childCall, asProlog, hq]⟩
  induction bs with
  | nil =>
    intro b s left ph hph q hq
    rw [C57.feed] at hq ⊢
    obtain ⟨ph', -, h3⟩ := one false s (left ++ b) ph hph q hq
    refine ⟨ph', ?_⟩
    rw [childParse]
    simp only [List.isEmpty_nil, Bool.not_true, h3]
    simp [asProlog, childParse]
  | cons b' bs ih =>
    intro b s left ph hph q hq
    rw [C57.feed] at hq ⊢
    · cases hr : (prologCall c ext fuel opened true s (left ++ b)).2.2 with
      | done q' =>
        obtain ⟨ph', g, h3⟩ := one true s (left ++ b) ph hph q' hr
        rcases hp : prologCall c ext fuel opened true s (left ++ b) with ⟨E, s', o⟩
        rw [hp] at hr hq h3 g
        simp only at hr
        subst hr
        simp only at hq ⊢
        obtain ⟨ph'', h4⟩ := ih b' s' q' ph' g q hq
        refine ⟨ph'', ?_⟩
        rw [childParse]
        simp only [List.isEmpty_cons, Bool.not_false, h3, asProlog]
        rw [h4]
        simp [asProlog, Prolog.pre]
      | content q' =>
        rcases hp : prologCall c ext fuel opened true s (left ++ b) with ⟨E, s', o⟩
        rw [hp] at hr hq
        simp only at hr
        subst hr
        cases hq
      | err e =>
        rcases hp : prologCall c ext fuel opened true s (left ++ b) with ⟨E, s', o⟩
        rw [hp] at hr hq
        simp only at hr
        subst hr
        cases hq
      | panic =>
        rcases hp : prologCall c ext fuel opened true s (left ++ b) with ⟨E, s', o⟩
        rw [hp] at hr hq
        simp only at hr
        subst hr
        cases hq
    all_goals simp

/-! ### The encoding -/

theorem Opens.cut {idx : EncIndex} {m t : Buf} {i : EncId} (h : Opens idx m t i) {b x : Buf} (hb : b ++ x = m ++ t) :
    initScan idx .prolog b = decision m i ∨ initScan idx .prolog b = .more ∨ initScan idx .prolog b = .none := by
  cases h with
  | found h => exact h.cut hb
  | one a h1 h2 =>
    rw [List.nil_append] at hb
    cases b with
    | nil => exact .inr (.inr rfl)
    | cons p b =>
      simp only [List.cons_append, List.cons.injEq, List.append_eq_nil_iff] at hb
      obtain ⟨rfl, rfl, -⟩ := hb
      left
      simp [initScan, decision, h1, h2]
  | empty =>
    simp only [List.nil_append, List.append_eq_nil_iff] at hb
    rw [hb.1]; exact .inr (.inr rfl)

theorem Opens.whole {idx : EncIndex} {m t : Buf} {i : EncId} (h : Opens idx m t i) :
    initScan idx .prolog (m ++ t) = decision m i ∨ (m ++ t = [] ∧ i = idx.enc ∧ t = []) := by
  cases h with
  | found h => exact .inl h.whole
  | one a h1 h2 => left; simp [initScan, decision, h1, h2]
  | empty => exact .inr ⟨rfl, rfl, rfl⟩

theorem Opens.long {idx : EncIndex} {m t : Buf} {i : EncId} (h : Opens idx m t i) {b x : Buf} (hb : b ++ x = m ++ t)
    (hd : initScan idx .prolog b = decision m i) : m.length ≤ b.length := by
  cases h with
  | found h => exact h.long hb hd
  | one => simp
  | empty => simp

theorem feed_left (s : DState) (left b : Buf) (bs : List Buf) :
    C57.feed c ext fuel opened s left (b :: bs) = C57.feed c ext fuel opened s [] ((left ++ b) :: bs) := by
  cases bs <;> simp [C57.feed]

/-- The detection finds the encoding wherever the entity is cut. -/
theorem child_opens {idx : EncIndex} {m t : Buf} {i : EncId} (h : Opens idx m t i) {s : DState} (hs : s.cur = .builtin idx.enc)
    (hi : s.ignoring = false) (bs : List Buf) : ∀ (b left : Buf), left ++ (b :: bs).flatten = m ++ t →
    ∃ ys : List Buf, ys.flatten = t ∧ ∀ q, (C57.feed c ext fuel opened { s with cur := .builtin i } [] ys).2.2 = .done q →
      ∃ enc ph, childParse c ext fuel opened ⟨s, some idx, .parEnt⟩ left (b :: bs) =
        asProlog (C57.feed c ext fuel opened { s with cur := .builtin i } [] ys) enc ph q := by
  have known (b left : Buf) (bs : List Buf) (hb : left ++ (b :: bs).flatten = m ++ t) (hd : initScan idx .prolog (left ++ b) = decision m i) :
      ∃ ys : List Buf, ys.flatten = t ∧ ∀ q, (C57.feed c ext fuel opened { s with cur := .builtin i } [] ys).2.2 = .done q →
      ∃ enc ph, childParse c ext fuel opened ⟨s, some idx, .parEnt⟩ left (b :: bs) =
        asProlog (C57.feed c ext fuel opened { s with cur := .builtin i } [] ys) enc ph q := by
    rw [List.flatten_cons, ← List.append_assoc] at hb
    have hl := h.long hb hd
    refine ⟨(left ++ b).drop m.length :: bs, ?_, fun q hq => ?_⟩
    · have h2 := congrArg (List.drop m.length) hb
      rw [List.drop_left' rfl, List.drop_append_of_le_length hl] at h2
      rw [List.flatten_cons, h2]
    · by_cases hm : m = []
      · subst hm
        rw [List.length_nil, List.drop_zero] at hq ⊢
        obtain ⟨ph, h3⟩ := child_feed bs (left ++ b) { s with cur := .builtin i } [] .parEnt (.inl ⟨rfl, hi⟩) q hq
        refine ⟨none, ph, ?_⟩
        rw [← h3, childParse, childParse]
        have : childCall c ext fuel opened (!bs.isEmpty) ⟨s, some idx, .parEnt⟩ (left ++ b) =
            childCall c ext fuel opened (!bs.isEmpty) ⟨{ s with cur := .builtin i }, none, .parEnt⟩ ([] ++ (left ++ b)) := by
          rw [decision, if_pos rfl] at hd
          simp only [childCall, parEntCall, firstTok, hd, List.nil_append]
          rfl
        rw [this]
      · rw [decision, if_neg hm] at hd
        obtain ⟨ph, h3⟩ := child_feed bs ((left ++ b).drop m.length) { s with cur := .builtin i } [] .prolog (.inr rfl) q hq
        refine ⟨none, ph, ?_⟩
        rw [← h3, childParse, childParse]
        have : childCall c ext fuel opened (!bs.isEmpty) ⟨s, some idx, .parEnt⟩ (left ++ b) =
            childCall c ext fuel opened (!bs.isEmpty) ⟨{ s with cur := .builtin i }, none, .prolog⟩ ([] ++ (left ++ b).drop m.length) := by
          simp only [childCall, parEntCall, firstTok, hd, List.nil_append]
          rfl
        rw [this]
  induction bs with
  | nil =>
    intro b left hb
    have hb' : left ++ b = m ++ t := by simpa using hb
    rcases h.whole with hw | ⟨h0, rfl, rfl⟩
    · exact known b left [] hb (by rw [hb']; exact hw)
    · refine ⟨[[]], rfl, fun q hq => ?_⟩
      have hs' : ({ s with cur := .builtin idx.enc } : DState) = s := by rw [← hs]
      rw [hs'] at hq ⊢
      rw [h0] at hb'
      refine ⟨some idx, .prolog, ?_⟩
      rw [C57.feed] at hq ⊢
      rw [childParse, hb']
      simp only [childCall, parEntCall, firstTok, initScan, evTokEnd, List.isEmpty_nil, Bool.not_true, Bool.false_eq_true, false_and, if_false,
        Tok.isError, if_true]
      rw [show Child.set ⟨s, some idx, .parEnt⟩ (⟨.NONE, 0⟩, some idx, s.cur) = ⟨s, some idx, .parEnt⟩ from rfl]
      simp only [List.nil_append] at hq ⊢
      rw [hq]
      simp [asProlog, childParse]
  | cons b' bs ih =>
    intro b left hb
    have hb1 : (left ++ b) ++ (b' :: bs).flatten = m ++ t := by rw [← hb, List.flatten_cons (l := b), List.append_assoc]
    by_cases hd : initScan idx .prolog (left ++ b) = decision m i
    · exact known b left _ hb hd
    · obtain ⟨ys, h1, h2⟩ := ih b' (left ++ b) hb1
      refine ⟨ys, h1, fun q hq => ?_⟩
      obtain ⟨enc, ph, h3⟩ := h2 q hq
      refine ⟨enc, ph, ?_⟩
      rw [← h3]
      have hcall : childCall c ext fuel opened true ⟨s, some idx, .parEnt⟩ (left ++ b) = ⟨[], ⟨s, some idx, .parEnt⟩, [], .done (left ++ b)⟩ := by
        rcases h.cut hb1 with hc | hc | hc
        · exact absurd hc hd
        · simp only [childCall, parEntCall, firstTok, hc]
          rfl
        · simp only [childCall, parEntCall, firstTok, hc]
          rfl
      conv => lhs; rw [childParse]
      simp only [List.isEmpty_cons, Bool.not_false, hcall, List.nil_append]

/-- Pieces of any size: it is as if the text had been passed in one. -/
theorem child_pieces (ho : c.OtherOk) {idx : EncIndex} {m t : Buf} {i : EncId} (h : Opens idx m t i) {s : DState} (hs : s.cur = .builtin idx.enc)
    (hi : s.ignoring = false) (hn : s.el.p.roleNone.none_ = true) {xs : List Buf} (h0 : xs ≠ []) (hx : xs.flatten = m ++ t) {E : List PEv}
    {s' : DState} {q : Buf} (hr : hear (prologCall c ext fuel opened false { s with cur := .builtin i } t) = (E, s', .done q)) :
    ∃ G enc ph, heard G = E ∧ childParse c ext fuel opened ⟨s, some idx, .parEnt⟩ [] xs = ⟨G, ⟨s', enc, ph⟩, [], .done q⟩ := by
  obtain ⟨b, bs, rfl⟩ := List.exists_cons_of_ne_nil h0
  obtain ⟨ys, h1, h2⟩ := child_opens (c := c) (ext := ext) (fuel := fuel) (opened := opened) h hs hi bs b [] (by rw [List.nil_append]; exact hx)
  obtain ⟨G, g1, g2⟩ := of_hear hr
  have hsame := C57.chunks (ext := ext) (fuel := fuel) (opened := opened) ho ys { s with cur := .builtin i } []
    (C54.supported c.c.ns i).cuts hn
  rw [List.nil_append, h1, g2] at hsame
  rcases hf : C57.feed c ext fuel opened { s with cur := .builtin i } [] ys with ⟨G', s1, o⟩
  rw [hf] at hsame h2
  obtain ⟨h3, h4⟩ := hsame
  cases o with
  | done q' =>
    simp only at h3 h4
    obtain ⟨rfl, rfl⟩ := h4
    obtain ⟨enc, ph, h5⟩ := h2 q' rfl
    refine ⟨G', enc, ph, ?_, by rw [h5]; rfl⟩
    rw [← g1, ← heard_pflat G', h3, heard_pflat]
  | content q' => exact h4.elim
  | err e => exact h4.elim
  | panic => exact h4.elim

end

end Verif.C69
