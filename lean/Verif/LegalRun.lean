import Verif.LegalRounds

/-! Why every string reported from a prolog is legal text, also if the prolog turns out to be ill-formed (C62): runs and documents. -/

set_option autoImplicit false

namespace Verif
open C43 C53 C59 C60 C61 C62 Spec PState

/-! ### Tokens -/

section
variable {e : Enc} {asc : UInt8 → Buf} (s : Supported e asc)
include s

theorem lit_quotes {more : Bool} {b : Buf} {n : Nat} (h : seeRes false false more false (prologTok e b) b = .tok .LITERAL n)
    (hd : more = false → e.mb ∣ b.length) : ∃ us, e.Chars us ∧ refName e (b.take n) = us.flatten := by
  have hlen (c) := s.asc.len c
  by_cases h0 : (prologTok e b).tok.isError = true
  · have ht : n = b.length ∧ more = false := by
      revert h h0
      generalize prologTok e b = r
      obtain ⟨t, m⟩ := r
      intro h h0
      simp only [seeRes, h0] at h
      cases more <;> cases t <;> simp [Tok.negate] at h <;> grind
    obtain ⟨rfl, hm⟩ := ht
    obtain ⟨us, h1, h2⟩ := (lit_val s h).2 (by
      rw [refName, List.take_length, List.length_take, List.length_drop]
      have h1 := hd hm
      have h2 := Nat.dvd_sub h1 (Nat.dvd_refl e.mb)
      have h3 := Nat.dvd_sub h1 (Nat.dvd_mul_left e.mb 2)
      rw [Nat.min_def]
      split <;> assumption)
    exact ⟨us, h1, h2⟩
  · rw [seeRes, if_pos (by simpa using h0)] at h
    injection h with ht hn
    have k1 := tok_trunc s (b := b) (by simp [ht]) (by simp [ht])
    obtain ⟨-, r0, k2, -, k3⟩ := tok_body s (b := b) (by simp [ht]) (by simp [ht])
    obtain ⟨w, r, g1, g2, g3⟩ := lex_sound s (t := .LITERAL) (n := n) k3 rfl (by rw [k1, ← ht, ← hn])
    rw [k2, g2, g3, List.append_assoc, List.take_left' rfl]
    obtain ⟨q, ws, rfl, g4, -⟩ := lex_lit g1
    have hr := refName_lit hlen q ws.flatten []
    rw [List.append_nil] at hr
    exact ⟨ws, g4.chars, by rw [litText, hr]; simp⟩

theorem misc_lex {more : Bool} {b : Buf} {t : Tok} {n : Nat} (ht : t = .COMMENT ∨ t = .PI)
    (h : seeRes false false more false (prologTok e b) b = .tok t n) : Markup e asc t (b.take n) := by
  have h0 : (prologTok e b).tok.isError = false := by
    cases h0 : (prologTok e b).tok.isError with
    | false => rfl
    | true =>
      exfalso
      revert h h0
      generalize prologTok e b = r
      obtain ⟨u, m⟩ := r
      intro h h0
      simp only [seeRes, h0] at h
      rcases ht with rfl | rfl <;> cases more <;> cases u <;> simp [Tok.negate] at h
  rw [seeRes, if_pos (by simpa using h0)] at h
  injection h with h1 h2
  have hn : t ≠ .NONE ∧ t ≠ .PARTIAL := by rcases ht with rfl | rfl <;> simp
  have k1 := tok_trunc s (b := b) (by rw [h1]; exact hn.1) (by rw [h1]; exact hn.2)
  obtain ⟨-, r0, k2, -, k3⟩ := tok_body s (b := b) (by rw [h1]; exact hn.1) (by rw [h1]; exact hn.2)
  obtain ⟨w, r, g1, g2, g3⟩ := lex_sound s (t := t) (n := n) k3 (by rcases ht with rfl | rfl <;> rfl) (by rw [k1, ← h1, ← h2])
  rw [k2, g2, g3, List.append_assoc, List.take_left' rfl]
  exact lex_misc (by rcases ht with h | h <;> simp [h]) g1

end

section
variable {c : PCfg} {z : Bool} {k : Nat} {ext : Ext} {fuel : Nat} {expand : Bool → Buf → Buf → DState → Acted} {opened : List Buf}

theorem element_legal {s : DState} (hs : Ids s) (ht : s.tmp = []) (x : XEnc) (r : Role) (t : Tok) (w : Buf) : Acted.Legal c (actElement c s x r t w) := by
  unfold actElement
  split
  · exact legal_fail (by simp)
  · exact ⟨by simp, by simp⟩
  · exact ⟨by simp, by simp⟩
  · refine legal_go ?_ (hs.same rfl rfl rfl rfl rfl) ht
    intro v hv
    obtain ⟨p, -, rfl⟩ := List.mem_map.1 hv
    trivial

/-- What a token does. -/
theorem pact_legal (hc : Doc0 c) {s : DState} {i : EncId} (hi : s.cur = .builtin i) (B : Base c s) (hs : Ids s) {h0 : Hd} (ht : Left c h0 s) {t : Tok} {r : Role} {w : Buf}
    (F : RoleText h0 t s.el.p.h r) (V : RoleFits h0 t r) (hl : t = .LITERAL → InQuotes (i.x c.c.ns) w)
    (hm : t = .COMMENT ∨ t = .PI → Markup (i.x c.c.ns).e (C54.ascOf i) t w) (allowClose : Bool) :
    Acted.Legal c (pact c ext fuel expand false allowClose opened s r t w) := by
  have S := C54.supported c.c.ns i
  have hxs : s.x c false = i.x c.c.ns := by simp [DState.x, hi, CurEnc.x]
  have dflt (hr : r = .IMPLIED_ATTRIBUTE_VALUE ∨ r = .REQUIRED_ATTRIBUTE_VALUE ∨ r = .DEFAULT_ATTRIBUTE_VALUE ∨ r = .FIXED_ATTRIBUTE_VALUE) :
      Acted.Legal c (actAttDefault c s (i.x c.c.ns) false r w) :=
    default_round hc S hs ht B.texts hr (fun h => hl (V.val (by rcases h with h | h <;> simp [h]))) false
  by_cases hp : pend h0 = true
  · rcases F.pend hp with ⟨h1, h2⟩ | h1 | h1
    · rcases h1 with rfl | rfl | rfl
      · refine ⟨by simp [pact], fun _ _ => ⟨hs, ?_⟩⟩
        show Left c s.el.p.h s
        rcases ht with ht | ⟨-, g⟩
        · exact .inl ht
        · exact .inr ⟨h2, g⟩
      · simp only [pact, hxs]
        exact attlist_left hs ht (.inl rfl) (fun _ => h2) _
      · simp only [pact, hxs]
        exact attlist_left hs ht (.inr (.inl rfl)) (fun _ => h2) _
    · have := dflt h1
      unfold pact
      rcases h1 with rfl | rfl | rfl | rfl <;> simpa only [hxs] using this
    · subst h1
      exact ⟨by simp [pact], by simp [pact]⟩
  · have tm : s.tmp = [] := by
      rcases ht with ht | ⟨g, -⟩
      · exact ht
      · exact absurd g hp
    have hp' : pend h0 = false := by simpa using hp
    unfold pact
    simp only [hxs]
    have lit := F.lit
    cases r
    case XML_DECL => exact decl_round hs tm
    case TEXT_DECL => exact absurd rfl V.text
    case IGNORE_SECT => exact absurd rfl V.ign
    case INSTANCE_START => exact inst_legal B.pe
    case DOCTYPE_CLOSE => exact close_legal B.pe hs tm _
    case PARAM_ENTITY_REF =>
      unfold actParamRef paramRef
      rw [if_pos (by exact B.pe)]
      simp only [standaloneCheck]
      split
      · exact legal_fail (ask_legal _ _)
      · exact legal_go (ask_legal _ _) (hs.same rfl rfl rfl rfl rfl) tm
    case INNER_PARAM_ENTITY_REF =>
      unfold actParamRef paramRef
      rw [if_pos (by exact B.pe)]
      simp only [standaloneCheck]
      split
      · exact legal_fail (ask_legal _ _)
      · exact legal_go (ask_legal _ _) (hs.same rfl rfl rfl rfl rfl) tm
    case COMMENT =>
      have ht := F.com rfl
      subst ht
      exact comment_round S hs tm (comment_back (hm (.inl rfl)))
    case PI =>
      have ht := F.pi rfl
      subst ht
      exact pi_round S hs tm (pi_back S (hm (.inr rfl)))
    case ENTITY_VALUE => exact entity_legal hc S hs tm fun _ => hl (V.val (.inl rfl))
    case DOCTYPE_SYSTEM_ID => exact doctype_legal S hs tm fun _ => hl (lit (by simp))
    case DOCTYPE_PUBLIC_ID => exact doctype_legal S hs tm fun _ => hl (lit (by simp))
    case NOTATION_SYSTEM_ID => exact notation_legal S hs tm fun _ => hl (lit (by simp))
    case NOTATION_PUBLIC_ID => exact notation_legal S hs tm fun _ => hl (lit (by simp))
    case ENTITY_SYSTEM_ID => exact entity_legal hc S hs tm fun _ => hl (lit (by simp))
    case ENTITY_PUBLIC_ID => exact entity_legal hc S hs tm fun _ => hl (lit (by simp))
    all_goals first
      | exact legal_silent hs tm
      | exact element_legal hs tm _ _ _ _
      | exact dflt (by simp)
      | exact attlist_left hs ht (.inl rfl) F.enum _
      | exact attlist_left hs ht (.inr (.inl rfl)) F.enum _
      | exact attlist_left hs ht (.inr (.inr ⟨by simp, by simp, hp'⟩)) (by simp) _
      | exact doctype_legal S hs tm (by simp)
      | exact notation_legal S hs tm (by simp)
      | exact entity_legal hc S hs tm (by simp)
      | exact legal_fail (by simp)

theorem pround_legal (hc : Doc0 c) {s : DState} (C : Calm c z s k) (hs : Ids s) (ht : Left c s.el.p.h s) {i : EncId} (hi : s.cur = .builtin i) {b : Buf} {t : Tok} {n : Nat} {more : Bool}
    (h : seeRes false false more false (prologTok (i.x c.c.ns).e b) b = .tok t n) (hd : more = false → (i.x c.c.ns).e.mb ∣ b.length) (allowClose : Bool) :
    Acted.Legal c (pround c ext fuel expand false allowClose opened s t (b.take n)) := by
  have S := C54.supported c.c.ns i
  have hxs : s.x c false = i.x c.c.ns := by simp [DState.x, hi, CurEnc.x]
  have V := (next_doc (e := (i.x c.c.ns).e) C.none_ C.doc C.hd t (b.take n)).2
  have F := next_text (e := (i.x c.c.ns).e) C.none_ C.doc C.hd t (b.take n)
  have hp := pact_legal (ext := ext) (fuel := fuel) (expand := expand) (opened := opened) hc
    (s := { s with el := { s.el with p := (s.el.p.next (i.x c.c.ns).e t (b.take n)).1 } }) hi ⟨C.pe, C.cur, C.texts⟩
    (by refine Ids.same hs ?_ ?_ ?_ ?_ ?_ <;> rfl) (h0 := s.el.p.h) (t := t) (r := (s.el.p.next (i.x c.c.ns).e t (b.take n)).2) (w := b.take n)
    (by exact ht) F V (fun e => by subst e; exact lit_quotes S.s h hd) (fun e => misc_lex S.s e h) allowClose
  unfold pround
  simp only [hxs]
  split
  · rename_i E s1 he
    rw [he] at hp
    refine ⟨fun v hv => ?_, hp.2⟩
    rcases List.mem_append.1 hv with hv | hv
    · exact hp.1 v hv
    · exact legal_dflt _ _ _ v hv
  · exact hp

/-- The number of bytes of a token. -/
theorem tok_whole {x : XEnc} (hx : x.Cuts) {more : Bool} {b : Buf} {t : Tok} {n : Nat} (h : seeRes false false more false (prologTok x.e b) b = .tok t n)
    (hd : more = false → x.e.mb ∣ b.length) : x.e.mb ∣ n ∧ n ≤ b.length := by
  have h1 : x.e.mb ∣ (prologTok x.e b).next := Mode.tok_dvd hx.mb2 hx.even .epilog b
  have h2 : (prologTok x.e b).next ≤ b.length := C02.next_in_buffer .prolog x.e b
  revert h h1 h2
  generalize prologTok x.e b = r
  obtain ⟨u, m⟩ := r
  intro h h1 h2
  unfold seeRes at h
  split at h
  · cases h; exact ⟨h1, h2⟩
  · split at h
    · cases h
    · rename_i h3
      cases more with
      | true =>
        have : u = .INVALID := by simpa using h3
        subst this
        cases h
      | false =>
        have hd := hd rfl
        split at h <;> try (cases h; done)
        · cases h; exact ⟨h1, h2⟩
        all_goals
          split at h <;> first
            | (cases h; done)
            | (split at h <;> cases h; done)
            | (cases h; exact ⟨hd, Nat.le_refl _⟩)

/-- What a run reports; `l` bytes are still to come. -/
def Prolog.Legal (c : PCfg) (l : Nat) (r : Prolog) : Prop :=
  (∀ v ∈ r.1, LegalDecl v) ∧ ∀ q, r.2.2 = .done q → Ids r.2.1 ∧ Left c r.2.1.el.p.h r.2.1 ∧ (r.2.1.x c false).e.mb ∣ q.length + l

theorem prun_legal (hc : Doc0 c) (he : StillExpand (Enced c) expand) (more allowClose : Bool) {l : Nat} (hl : more = false → l = 0) (m : Nat) : ∀ {b : Buf}, b.length = m → ∀ {z k s}, Calm c z s k → k + b.length + 2 < 2 ^ 31 →
    Ids s → Left c s.el.p.h s → (s.x c false).e.mb ∣ b.length + l →
    Prolog.Legal c l (prun c ext fuel expand false false allowClose more opened s b) := by
  have ho : c.OtherOk := by
    intro n y h
    rw [hc.unknown] at h
    cases h
  induction m using Nat.strongRecOn with
  | _ m ih =>
    rintro b rfl z k s C hk hs ht hd
    obtain ⟨i, hi⟩ := C.cur
    have S := C54.supported c.c.ns i
    have hxs : s.x c false = i.x c.c.ns := by simp [DState.x, hi, CurEnc.x]
    have hd0 : more = false → (i.x c.c.ns).e.mb ∣ b.length := by
      intro h
      rw [hl h, hxs] at hd
      exact hd
    have hsee := see_fine S.s more b
    rw [prun.eq_def]
    simp only [hxs, seeToken, hc.isPE]
    cases h : seeRes false false more false (prologTok (i.x c.c.ns).e b) b with
    | wait =>
      refine ⟨by simp, fun q hq => ?_⟩
      cases hq
      exact ⟨hs, ht, hd⟩
    | fail e => exact ⟨by simp, by simp⟩
    | panic => exact ⟨by simp, by simp⟩
    | endPE => rw [h] at hsee; exact hsee.elim
    | tok t n =>
      rw [h] at hsee
      obtain ⟨hp, hgo⟩ := pround_fine (ext := ext) (fuel := fuel) (expand := expand) (opened := opened) hc C (by omega) hi h allowClose
      have hg := pround_legal (ext := ext) (fuel := fuel) (expand := expand) (opened := opened) hc C hs ht hi h hd0 allowClose
      have hk' := (pround_enced (ext := ext) (fuel := fuel) (internal := false) (allowClose := allowClose) (opened := opened) ho he s t (b.take n)).mb
      obtain ⟨hn, hle⟩ := tok_whole S.cuts h hd0
      simp only
      generalize pround c ext fuel expand false allowClose opened s t (b.take n) = a at hp hgo hg hk'
      obtain ⟨E, s1, o⟩ := a
      cases o with
      | fail e => exact ⟨hg.1, by simp⟩
      | panic => exact ⟨hg.1, by simp⟩
      | start => exact ⟨hg.1, by simp⟩
      | ignore => exact hp.elim
      | go d =>
        have hlt := hsee.1 (fun h => hgo h d rfl)
        simp only [if_pos hlt]
        have hp : Calm c true s1 (k + 1) := hp
        obtain ⟨h1, h2⟩ := hg.2 d rfl
        have := ih _ hlt rfl hp (by omega) h1 h2 (by
          rw [hxs] at hd hk'
          refine Nat.dvd_trans hk' ?_
          rw [List.length_drop] at hlt ⊢
          have : b.length - n + l = b.length + l - n := by omega
          rw [this]
          exact Nat.dvd_sub hd hn)
        refine ⟨fun v hv => ?_, this.2⟩
        rcases List.mem_append.1 hv with hv | hv
        · exact hg.1 v hv
        · exact this.1 v hv

theorem call_legal (hc : Doc0 c) {more : Bool} {l : Nat} (hl : more = false → l = 0) {b : Buf} {s : DState} (C : Calm c z s k) (hk : k + b.length + 2 < 2 ^ 31)
    (hs : Ids s) (ht : Left c s.el.p.h s) (hd : (s.x c false).e.mb ∣ b.length + l) : Prolog.Legal c l (prologCall c ext fuel opened more s b) := by
  have ho : c.OtherOk := by
    intro n y h
    rw [hc.unknown] at h
    cases h
  unfold prologCall
  simp only [C.ign]
  exact prun_legal hc (expandPE_enced ho fuel opened) more true hl _ rfl C hk hs ht hd

theorem finish_legal (hc : Doc0 c) {s : DState} (C : Calm c z s k) {b : Buf} (hk : k + b.length + 2 < 2 ^ 31) (hs : Ids s) (ht : Left c s.el.p.h s)
    (hd : (s.x c false).e.mb ∣ b.length) : ∀ v ∈ (C57.finishDoc c (prologCall c ext fuel [] false s b)).1, LegalDecl v := by
  have h1 := (call_legal (ext := ext) (fuel := fuel) (opened := []) (more := false) (l := 0) hc (by simp) C hk hs ht hd).1
  revert h1
  generalize prologCall c ext fuel [] false s b = r
  obtain ⟨E, s1, o⟩ := r
  cases o <;> exact id

theorem doc_legal (hc : Doc0 c) (xs : List Buf) : ∀ {z k s} {rest : Buf}, Calm c z s k → k + (rest ++ xs.flatten).length + 2 < 2 ^ 31 →
    Ids s → Left c s.el.p.h s → (s.x c false).e.mb ∣ (rest ++ xs.flatten).length →
    ∀ v ∈ (C57.document c ext fuel s rest xs).1, LegalDecl v := by
  induction xs with
  | nil =>
    intro z k s rest C hk hs ht hd
    rw [List.flatten_nil, List.append_nil] at hk hd
    exact finish_legal hc C hk hs ht hd
  | cons x xs ih =>
    intro z k s rest C hk hs ht hd
    cases xs with
    | nil =>
      rw [List.flatten_cons, List.flatten_nil, List.append_nil] at hk hd
      exact finish_legal hc C hk hs ht hd
    | cons y ys =>
      generalize hx : y :: ys = xs at ih hk hd
      rw [List.flatten_cons, ← List.append_assoc, List.length_append] at hk hd
      have hdoc : C57.document c ext fuel s rest (x :: xs) = match prologCall c ext fuel [] true s (rest ++ x) with
        | (E, s', .done q) => let d := C57.document c ext fuel s' q xs; (E ++ d.1, d.2)
        | (E, s', .content q) => (E, s', C57.content c s' q ([] :: xs))
        | (E, s', o) => (E, s', .prolog o) := by
        subst hx; rfl
      rw [hdoc]
      have h1 := call_fine (ext := ext) (fuel := fuel) (opened := []) (b := rest ++ x) hc true C (by omega)
      have h2 := call_legal (ext := ext) (fuel := fuel) (opened := []) (b := rest ++ x) (more := true) (l := xs.flatten.length) hc (by simp) C (by omega) hs ht hd
      generalize prologCall c ext fuel [] true s (rest ++ x) = r at h1 h2
      obtain ⟨E, s1, o⟩ := r
      cases o with
      | err e => exact h2.1
      | panic => exact h2.1
      | content q => exact h2.1
      | done q =>
        obtain ⟨-, ⟨k', h3, h4⟩, -⟩ := h1
        obtain ⟨h5, h6, h7⟩ := h2.2 q rfl
        intro v hv
        rcases List.mem_append.1 hv with hv | hv
        · exact h2.1 v hv
        · exact ih (z := false) (k := k') (s := s1) (rest := q) h3 (by simp only [List.length_append] at h4 hk ⊢; omega) h5 h6
            (by rw [List.length_append]; exact h7) v hv

theorem start_ids (cur : CurEnc) : Ids (start cur .never) where
  sys := by intro t h; cases h
  pub := by intro t h; cases h
  npub := by intro t h; cases h
  gen := by intro n e h; cases h
  par := by intro n e h; cases h

/-- Every string reported from the prolog of a document of whole code units. -/
theorem parse_legal (hc : Doc0 c) {idx : EncIndex} {m t : Buf} {i : EncId} (hf : C60.Found idx m t i) (hm : (i.x c.c.ns).e.mb ∣ t.length)
    (hl : t.length + 2 < 2 ^ 31) (cur : CurEnc) (xs : List Buf) (hx : xs.flatten = m ++ t) :
    ∀ v ∈ (C60.parse c ext fuel idx (start cur .never) [] xs).1, LegalDecl v := by
  obtain ⟨ys, g1, g2⟩ := parse_found (c := c) (ext := ext) (fuel := fuel) hf (start cur .never) xs [] (by simpa using hx)
  rw [g2]
  have hs : ({ start cur .never with cur := .builtin i } : DState) = start (.builtin i) .never := rfl
  rw [hs]
  exact doc_legal hc ys (start_calm i) (by rw [List.nil_append, g1]; omega) (start_ids _) (.inl rfl) (by rw [List.nil_append, g1]; exact hm)

end
end Verif
