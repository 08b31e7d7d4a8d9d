import Verif.Document

/-! The parser accepts exactly the documents of the grammar. -/

set_option autoImplicit false

namespace Verif
open C43 C53 Spec C04

theorem scanDeclLoop_tok (e : Enc) (b : Buf) (p : Nat) :
    (scanDeclLoop e b p).tok.fail ∨ (scanDeclLoop e b p).tok = .DECL_OPEN := by
  fun_induction scanDeclLoop e b p <;> grind [Tok.fail]

section
variable {e : Enc}

theorem prologName_inst (t c b p) (ht : t = .NAME ∨ t = .NMTOKEN ∨ t = .PREFIXED_NAME) :
    (prologName e t c b p).tok ≠ .INSTANCE_START := by
  fun_induction prologName e t c b p <;> grind [Tok.fail, → nameCases_fail, prologNameTok, Tok.negate]

theorem scanPercent_inst (b p) : (scanPercent e b p).tok ≠ .INSTANCE_START := by
  have h : ∀ t b p, t ≠ .INSTANCE_START → (scanNameSemi e t b p).tok ≠ .INSTANCE_START := by
    intro t b p ht
    fun_induction scanNameSemi e t b p <;> grind [Tok.fail, → nameCases_fail]
  fun_cases scanPercent e b p <;> grind [Tok.fail, → nmstrtCases_fail]

theorem scanPoundName_inst (b p) : (scanPoundName e b p).tok ≠ .INSTANCE_START := by
  have h : ∀ b p, (scanPoundNameLoop e b p).tok ≠ .INSTANCE_START := by
    intro b p
    fun_induction scanPoundNameLoop e b p <;> grind [Tok.fail, → nameCases_fail]
  fun_cases scanPoundName e b p <;> grind [Tok.fail, → nmstrtCases_fail]

theorem scanLit_inst (q b p) : (scanLit e q b p).tok ≠ .INSTANCE_START := by
  fun_induction scanLit e q b p <;> grind [Tok.fail, → invalidCases_fail]

theorem prologLead_inst (k b) : (prologLead e k b).tok ≠ .INSTANCE_START := by
  fun_cases prologLead e k b <;> grind [prologName_inst]

theorem scanDecl_inst (b p) : (scanDecl e b p).tok ≠ .INSTANCE_START := by
  have h1 := scanComment_tok e (b.drop e.mb) (p + e.mb)
  have h2 := scanDeclLoop_tok e (b.drop e.mb) (p + e.mb)
  fun_cases scanDecl e b p <;> grind [Tok.fail]

theorem prologTokBody_inst {b} (h1 : e.bt b ≠ .LT) : (prologTokBody e b).tok ≠ .INSTANCE_START := by
  have a1 := fun k => prologLead_inst (e := e) k b
  have a2 := fun k => scanLit_inst (e := e) k (b.drop e.mb) e.mb
  have a3 := scanPercent_inst (e := e) (b.drop e.mb) e.mb
  have a4 := scanPoundName_inst (e := e) (b.drop e.mb) e.mb
  have a5 := fun t => prologName_inst (e := e) t false (b.drop e.mb) e.mb
  have hs := prologSpace_tok e (b.drop e.mb) e.mb
  simp only [prologTokBody]
  generalize e.bt b = t at *
  cases t <;> simp only <;> grind

end

section
variable {e : Enc} {asc : UInt8 → Buf} (s : Supported e asc)
include s

/-- Comments and processing instructions are the same in the prolog as in content. -/
theorem prolog_misc {b : Buf} {t : Tok} {n : Nat} (hd : e.mb ∣ b.length) (ht : t = .COMMENT ∨ t = .PI) :
    prologTok e b = ⟨t, n⟩ ↔ contentTok e b = ⟨t, n⟩ := by
  have l (c) := s.asc.len c
  have hte : t.isError = false := by rcases ht with rfl | rfl <;> rfl
  rw [content_lt s hd hte (by rcases ht with rfl | rfl <;> simp) (by rcases ht with rfl | rfl <;> simp)
    (by rcases ht with rfl | rfl <;> simp) (by rcases ht with rfl | rfl <;> simp)]
  have key : ∀ r, prologTokBody e (asc 0x3C ++ r) = ⟨t, n⟩ ↔ scanLt e r e.mb = ⟨t, n⟩ := by
    intro r
    simp only [prologTokBody, asc_bt s (t := .LT) rfl, drop_char (l _)]
    rw [scanLt]
    have h2 := scanStartTag_tok e (.name false)
    have h3 := scanDeclLoop_space (e := e)
    by_cases hr : r.length < e.mb
    · rw [if_pos hr, if_pos hr]
    rw [if_neg hr, if_neg hr]
    have h4 : (asc 0x3C ++ r).drop (2 * e.mb) = r.drop e.mb := by
      rw [Nat.two_mul, ← List.drop_drop, drop_char (l _)]
    rw [h4]
    have bad : ∀ {u : Tok} {m : Nat}, u.isError = true ∨ u = .INSTANCE_START ∨ u = .COND_SECT_OPEN → (⟨u, m⟩ : Res) ≠ ⟨t, n⟩ := by
      rintro u m hu h
      injection h with h _
      subst h
      rcases hu with h | h | h
      · rw [hte] at h; cases h
      · rcases ht with h' | h' <;> rw [h] at h' <;> cases h'
      · rcases ht with h' | h' <;> rw [h] at h' <;> cases h'
    have tk : ∀ {q : Res} {u : Tok}, q.tok.fail ∨ q.tok = u → u ≠ .COMMENT → u ≠ .PI → q ≠ ⟨t, n⟩ := by
      rintro q u hq h1 h2 rfl
      rcases hq with h | h
      · exact not_fail hte h rfl
      · simp only at h; subst h; rcases ht with h | h
        · exact h1 h
        · exact h2 h
    by_cases hx : e.bt r = .EXCL
    · rw [nmstrtCases_other _ (by rw [hx]; rfl)]
      simp only [hx, scanDecl]
      split
      · exact Iff.rfl
      · have h5 : (r.drop e.mb).drop e.mb = r.drop (2 * e.mb) := by rw [List.drop_drop, ← Nat.two_mul]
        rw [h5, show 2 * e.mb + e.mb = e.mb + 2 * e.mb by omega]
        generalize e.bt (r.drop e.mb) = u
        have h6 := scanDeclLoop_tok e (r.drop (2 * e.mb)) (e.mb + 2 * e.mb)
        have h7 := scanCdataSection_tok e (r.drop (2 * e.mb)) (e.mb + 2 * e.mb)
        cases u <;> simp only <;> first
          | exact Iff.rfl
          | exact ⟨fun h => absurd h (tk h6 (by simp) (by simp)), fun h => absurd h (bad (.inl rfl))⟩
          | exact ⟨fun h => absurd h (bad (.inr (.inr rfl))), fun h => absurd h (tk h7 (by simp) (by simp))⟩
          | exact ⟨fun h => absurd h (bad (.inl rfl)), fun h => absurd h (bad (.inl rfl))⟩
    · by_cases hq : e.bt r = .QUEST
      · rw [nmstrtCases_other _ (by rw [hq]; rfl)]
        simp only [hq, Nat.two_mul]
      · constructor
        · intro h
          exfalso
          revert h
          generalize e.bt r = u at *
          cases u <;> simp only <;> first
            | exact (hx rfl).elim
            | exact (hq rfl).elim
            | exact bad (.inl rfl)
            | exact bad (.inr (.inl rfl))
        · intro h
          exfalso
          split at h
          · rename_i h1; exact not_fail hte (nmstrtCases_fail h1) h
          · rename_i k _
            have h3 := h2 (r.drop (k + 1)) (e.mb + (k + 1))
            rw [h] at h3
            rcases ht with rfl | rfl <;> simp [Tok.fail] at h3
          · have h3 := scanEndTag_tok e (r.drop e.mb) (e.mb + e.mb)
            revert h
            generalize e.bt r = u at *
            cases u <;> simp only <;> first
              | exact (hx rfl).elim
              | exact (hq rfl).elim
              | exact tk h3 (by simp) (by simp)
              | exact bad (.inl rfl)
  constructor
  · intro h
    have hb := tok_long (m := .epilog) h (by rcases ht with rfl | rfl <;> simp) (by rcases ht with rfl | rfl <;> simp)
    rw [prologTok_eq hb, trunc_whole s hd] at h
    have hlt : e.bt b = .LT := by
      refine Classical.byContradiction fun h1 => ?_
      have h2 : e.bt b ≠ .CR ∧ e.bt b ≠ .S ∧ e.bt b ≠ .LF := by
        have hs := prologSpace_tok e (b.drop e.mb) e.mb
        refine ⟨fun h2 => ?_, fun h2 => ?_, fun h2 => ?_⟩ <;> simp only [prologTokBody, h2] at h
        · split at h
          · rcases ht with rfl | rfl <;> cases h
          · rw [h] at hs; rcases ht with rfl | rfl <;> cases hs
        · rw [h] at hs; rcases ht with rfl | rfl <;> cases hs
        · rw [h] at hs; rcases ht with rfl | rfl <;> cases hs
      have := prologTokBody_misc h1 h2.1 h2.2.1 h2.2.2
      rw [h] at this
      rcases ht with rfl | rfl <;> cases this
    have hb2 := single_split s (c := 0x3C) rfl hb hlt
    refine ⟨_, hb2, ?_⟩
    rw [hb2] at h
    exact (key _).1 h
  · rintro ⟨r, rfl, h⟩
    rw [prologTok_eq (by rw [List.length_append, l]; omega), trunc_whole s hd]
    exact (key _).2 h

end

section
variable {c : Cfg} {D : Dtd} {int x : XEnc} {asc : UInt8 → Buf} {opened : List Buf} {start k : Nat}
variable (S : XSupported x asc) (a : AllSet c)
include S a

omit S in
theorem act_space (s : CState) (w : Buf) : (sem c D int k x opened start).act s .PROLOG_S w = ([], .ok s) := by
  cases k <;> simp [sem, semOf, act, toDefault, a.dflt]

omit S in
theorem run_prologS {s : CState} (hm : s.mode = .epilog) {b : Buf} {n : Nat} (h : prologTok x.e b = ⟨.PROLOG_S, n⟩) :
    run (sem c D int k x opened start) x.e false false s b =
      run (sem c D int k x opened start) x.e false false s (b.drop n) := by
  rw [run_act (n := n) (t := .PROLOG_S) (E := []) (s' := s) (by rw [hm]; exact h) (by rw [hm]; rfl) (act_space a s _)]
  rfl

omit S in
theorem run_epilog_nil {s : CState} (hm : s.mode = .epilog) :
    run (sem c D int k x opened start) x.e false false s [] = ([], .ok s []) := by
  rw [run_go sem_go, sem_mode, hm, show Mode.tok .epilog x.e [] = ⟨.NONE, 0⟩ from rfl]
  rfl

/-- White space after the root element is skipped. -/
theorem run_space {s : CState} (hm : s.mode = .epilog) {ch : UInt8} (hc : isWS ch = true) {b : Buf} (hd : x.e.mb ∣ (asc ch ++ b).length) :
    run (sem c D int k x opened start) x.e false false s (asc ch ++ b) =
      run (sem c D int k x opened start) x.e false false s b := by
  have l := S.s.asc.len ch
  have hp : 0 < x.e.mb := Nat.succ_pos _
  have hdb := dvd_asc S hd
  have hb : x.e.mb ≤ (asc ch ++ b).length := by rw [List.length_append]; omega
  have hbt : x.e.bt (asc ch ++ b) = .S ∨ x.e.bt (asc ch ++ b) = .CR ∨ x.e.bt (asc ch ++ b) = .LF := by
    rw [ws_bt S.s hc b]; (repeat' split) <;> simp
  have htok : prologTok x.e (asc ch ++ b) = prologTokBody x.e (asc ch ++ b) := by rw [prologTok_eq hb, trunc_whole S.s hd]
  by_cases hcr : x.e.bt (asc ch ++ b) = .CR ∧ b = []
  · obtain ⟨hcr, rfl⟩ := hcr
    have ht : prologTok x.e (asc ch ++ []) = ⟨.PROLOG_S_NEG, x.e.mb⟩ := by
      rw [htok]
      simp only [prologTokBody, hcr]
      rw [if_pos (by simpa using l)]
    rw [run_epilog_nil a hm, run_go sem_go, sem_mode, hm, show Mode.tok .epilog x.e (asc ch ++ []) = _ from ht]
    simp only [Mode.verdict, act_space a]
    rw [List.drop_of_length_le (by simp [l])]
  · have hl : x.e.bt (asc ch ++ b) = .CR ∧ (asc ch ++ b).length ≠ x.e.mb ∨ x.e.bt (asc ch ++ b) = .S ∨ x.e.bt (asc ch ++ b) = .LF := by
      rcases hbt with h | h | h
      · exact .inr (.inl h)
      · refine .inl ⟨h, fun h' => hcr ⟨h, ?_⟩⟩
        rw [List.length_append] at h'
        exact List.length_eq_zero_iff.1 (by omega)
      · exact .inr (.inr h)
    have h1 : prologTokBody x.e (asc ch ++ b) = prologSpace x.e b x.e.mb := by
      simp only [prologTokBody]
      rcases hl with ⟨h, h2⟩ | h | h <;> simp only [h, drop_char l]
      rw [if_neg h2]
    have one : prologSpace x.e b x.e.mb = ⟨.PROLOG_S, x.e.mb⟩ →
        run (sem c D int k x opened start) x.e false false s (asc ch ++ b) =
          run (sem c D int k x opened start) x.e false false s b := by
      intro h
      rw [run_prologS a hm (n := x.e.mb) (by rw [htok, h1, h]), drop_char l]
    by_cases hbl : b.length < x.e.mb
    · apply one; rw [prologSpace, if_pos hbl]
    by_cases hs : x.e.bt b = .CR ∧ b.length ≠ x.e.mb ∨ x.e.bt b = .S ∨ x.e.bt b = .LF
    · obtain ⟨h2, h3⟩ := prologSpace_long (n := x.e.mb) hs (by omega)
      have h4 : prologTok x.e b = prologTokBody x.e b := by rw [prologTok_eq (by omega), trunc_whole S.s hdb]
      cases hq : prologTokBody x.e b with
      | mk t n =>
        rw [hq] at h2 h3 h4
        simp only at h3
        subst h3
        rw [run_prologS a hm h4, run_prologS a hm (n := x.e.mb + n) (by rw [htok, h1, h2]; rfl), ← List.drop_drop, drop_char l]
    · apply one
      rw [prologSpace, if_neg hbl]
      generalize x.e.bt b = u at *
      cases u <;> simp only <;> simp at hs
      rw [if_pos hs]

omit a in
theorem run_misc {s s' : CState} (hm : s.mode = .epilog) {t : Tok} {w b : Buf} {E : List Ev} (h : Markup x.e asc t w)
    (ht : t = .COMMENT ∨ t = .PI) (hd : x.e.mb ∣ (w ++ b).length) (ha : (sem c D int k x opened start).act s t w = (E, .ok s')) :
    run (sem c D int k x opened start) x.e false false s (w ++ b) =
      pre E (run (sem c D int k x opened start) x.e false false s' b) := by
  rw [run_act (n := w.length) (E := E) (s' := s') (t := t), List.drop_left' rfl]
  · rw [hm]; exact (prolog_misc S.s hd ht).2 (content_complete S.s h b hd)
  · rw [hm]; rcases ht with rfl | rfl <;> rfl
  · rw [List.take_left' rfl]; exact ha

/-- **Completeness** after the root element. -/
theorem misc_run {b : Buf} {E : List Ev} (h : Misc x asc b E) {s : CState} (hm : s.mode = .epilog) : x.e.mb ∣ b.length →
    ∃ F, run (sem c D int k x opened start) x.e false false s b = (F, .ok s []) ∧ flat F = E := by
  induction h with
  | nil => intro _; exact ⟨[], run_epilog_nil a hm, rfl⟩
  | space h1 _ ih =>
    intro hd
    rw [run_space S a hm h1 hd]
    exact ih (dvd_asc S hd)
  | @comment ws b E h1 _ ih =>
    intro hd
    have m : Markup x.e asc .COMMENT (commentText asc ws) := .comment h1.chars h1.hyphens
    obtain ⟨F, i1, i2⟩ := ih (markup_dvd S m hd).2
    rw [run_misc S hm m (.inl rfl) hd (act_comment S a s h1), i1]
    exact ⟨_, rfl, by rw [flat_append, i2]; rfl⟩
  | pi h1 _ ih =>
    intro hd
    have m := pi_markup S h1
    obtain ⟨F, i1, i2⟩ := ih (markup_dvd S m hd).2
    rw [run_misc S hm m (.inr rfl) hd (act_pi S a s h1), i1]
    exact ⟨_, rfl, by rw [flat_append, i2]; rfl⟩

/-- **Soundness** after the root element. -/
theorem misc_parsed (n : Nat) : ∀ {b : Buf}, b.length = n → ∀ {s s2 : CState} {F : List Ev} {r2 : Buf}, s.mode = .epilog →
    x.e.mb ∣ b.length → run (sem c D int k x opened start) x.e false false s b = (F, .ok s2 r2) →
    Misc x asc b (flat F) := by
  induction n using Nat.strongRecOn with
  | _ n ih =>
    intro b hn s s2 F r2 hm hd hr
    have hp : 0 < x.e.mb := Nat.succ_pos _
    by_cases hb0 : b = []
    · subst hb0
      rw [run_epilog_nil a hm] at hr
      cases hr
      exact .nil
    have hb : x.e.mb ≤ b.length := Nat.le_of_dvd (List.length_pos_iff.2 hb0) hd
    by_cases hsp : x.e.bt b = .S ∨ x.e.bt b = .CR ∨ x.e.bt b = .LF
    · obtain ⟨ch, h1, h2⟩ := space_split S.s hb hsp
      rw [h2] at hd hr ⊢
      rw [run_space S a hm h1 hd] at hr
      exact .space h1 (ih _ (by rw [← hn, List.length_drop]; omega) rfl hm (dvd_asc S hd) hr)
    · have hbody : prologTok x.e b = prologTokBody x.e b := by rw [prologTok_eq hb, trunc_whole S.s hd]
      have ht : (prologTok x.e b).tok = .COMMENT ∨ (prologTok x.e b).tok = .PI := by
        have hns : (prologTok x.e b).tok.space = false := by
          rw [hbody]
          cases ht : (prologTokBody x.e b).tok.space with
          | false => rfl
          | true =>
            exfalso
            by_cases hlt : x.e.bt b = .LT
            · have a1 := scanDecl_space (e := x.e) (b.drop (2 * x.e.mb)) (2 * x.e.mb)
              have a2 := scanPi_space (e := x.e) (b.drop (2 * x.e.mb)) (2 * x.e.mb)
              have : (prologTokBody x.e b).tok.space = false := by
                simp only [prologTokBody, hlt]
                (repeat' split) <;> first | exact a1 | exact a2 | rfl
              rw [ht] at this; cases this
            · have := misc_space (prologTokBody_misc hlt (fun h => hsp (.inr (.inl h))) (fun h => hsp (.inl h)) (fun h => hsp (.inr (.inr h))))
              rw [ht] at this; cases this
        rw [run_go sem_go, sem_mode, hm] at hr
        simp only [Mode.tok] at hr
        revert hr hns
        generalize (prologTok x.e b).tok = t
        intro hr hns
        cases t <;> first | (left; rfl) | (right; rfl) | (simp [Mode.verdict] at hr; done) | (simp [Tok.space] at hns; done)
      have hte : (prologTok x.e b).tok.isError = false := by rcases ht with h | h <;> rw [h] <;> rfl
      obtain ⟨w, r, m, rfl, -⟩ := content_sound S.s hd (t := (prologTok x.e b).tok) (n := (prologTok x.e b).next) hte
        (by rcases ht with h | h <;> rw [h] <;> simp) (by rcases ht with h | h <;> rw [h] <;> simp) ((prolog_misc S.s hd ht).1 rfl)
      generalize (prologTok x.e (w ++ r)).tok = t at m ht
      have hdr := (markup_dvd S m hd).2
      have hwp := markup_pos S m
      have step : ∀ {E : List Ev}, flat E = E → (sem c D int k x opened start).act s t w = (E, .ok s) →
          ∃ G, flat F = E ++ G ∧ Misc x asc r G := by
        intro E hE ha
        rw [run_misc S hm m ht hd ha] at hr
        cases hq : run (sem c D int k x opened start) x.e false false s r with
        | mk F' o =>
          rw [hq] at hr
          simp only [pre] at hr
          injection hr with hF ho
          subst ho
          refine ⟨flat F', by rw [← hF, flat_append, hE], ih r.length (by rw [← hn, List.length_append]; omega) rfl hm hdr hq⟩
      cases m with
      | comment h1 h2 =>
        obtain ⟨G, g1, g2⟩ := step rfl (act_comment S a s ⟨h1, h2⟩)
        rw [g1]; exact .comment ⟨h1, h2⟩ g2
      | pi h1 h2 h3 =>
        rcases pi_tok h3 with rfl | rfl
        · obtain ⟨sp, ws, h4, h5⟩ := pi_of_markup S h1 h2 h3
          rw [h5] at step ⊢
          obtain ⟨G, g1, g2⟩ := step rfl (act_pi S a s h4)
          rw [g1]; exact .pi h4 g2
        · rcases ht with h | h <;> cases h
      | @ref _ _ h => cases h <;> rcases ht with h | h <;> cases h
      | @tag name as ws empty =>
        revert ht; cases empty <;> cases as.isEmpty <;> rintro (h | h) <;> cases h
      | endTag => rcases ht with h | h <;> cases h
      | cdata => rcases ht with h | h <;> cases h


/-! ### The whole document -/

variable {iasc : UInt8 → Buf} (I : XSupported int iasc) (hi : int.e.mb = 1)

omit a in
/-- Where the prolog ends, a start tag or empty-element tag begins. -/
theorem instance_tag {b : Buf} (hd : x.e.mb ∣ b.length) (h : prologTok x.e b = ⟨.INSTANCE_START, 0⟩) :
    (contentTok x.e b).tok.fail ∨ ∃ emp no, (contentTok x.e b).tok = tagTok emp no := by
  have l (c) := S.s.asc.len c
  have hb := tok_long (m := .epilog) h (by simp) (by simp)
  rw [prologTok_eq hb, trunc_whole S.s hd] at h
  have hlt : x.e.bt b = .LT := Classical.byContradiction fun h1 => prologTokBody_inst h1 (by rw [h])
  have hb2 := single_split S.s (c := 0x3C) rfl hb hlt
  simp only [prologTokBody, hlt] at h
  generalize b.drop x.e.mb = r at *
  subst hb2
  rw [← List.nil_append r] at hd ⊢
  rw [content_of_lt S.s hd (t := (scanLt x.e ([] ++ r) x.e.mb).tok) (n := (scanLt x.e ([] ++ r) x.e.mb).next) rfl, List.nil_append]
  simp only
  rw [scanLt]
  split at h
  · cases h
  rename_i hr
  rw [if_neg hr]
  have h2 := scanStartTag_tok x.e (.name false)
  split
  · rename_i h1; exact .inl (nmstrtCases_fail h1)
  · rename_i k _
    rcases h2 (r.drop (k + 1)) (x.e.mb + (k + 1)) with h3 | h3 | h3 | h3 | h3
    · exact .inl h3
    · exact .inr ⟨false, false, h3⟩
    · exact .inr ⟨true, false, h3⟩
    · exact .inr ⟨false, true, h3⟩
    · exact .inr ⟨true, true, h3⟩
  · rename_i hn
    exfalso
    have a1 := scanDecl_inst (e := x.e) ((asc 60 ++ r).drop (2 * x.e.mb)) (2 * x.e.mb)
    have a2 := scanPi_tok x.e ((asc 60 ++ r).drop (2 * x.e.mb)) (2 * x.e.mb)
    simp only [nmstrtCases] at hn
    generalize x.e.bt r = u at *
    cases u <;> simp only at h hn <;> grind [Tok.fail]

include I hi in
/-- **Completeness**: a document of the grammar is accepted, with its events. -/
theorem doc_run {b : Buf} {E : List Ev} (h : Document c D int iasc x asc b E) (hd : x.e.mb ∣ b.length) :
    ∃ F s, run (parser c D int x) x.e false false CState.init b = (F, .ok s []) ∧ flat F = E := by
  rw [parser]
  have hav : C34.avail D [] ≤ D.fuel := C34.avail_le D _
  cases h with
  | @empty name as ws b t Es E h1 h2 h3 h4 h5 =>
    have m := tag_markup h1 h2 h3 true
    have ha := act_empty (start := 0) (k := D.fuel) S a CState.init h1 h2 h3 rfl h4
    obtain ⟨F, i1, i2⟩ := misc_run (c := c) (D := D) (int := int) (opened := []) (start := 0) (k := D.fuel) S a h5
      (s := { CState.init with mode := .epilog }) rfl (markup_dvd S m hd).2
    rw [if_pos (show CState.init.level = 0 from rfl)] at ha
    rw [run_markup S rfl m hd ha, i1]
    refine ⟨_, _, rfl, ?_⟩
    rw [flat_append, i2, flat_append, flat_storeAtts h4, show ∀ (u v : Ev) l, (u :: v :: l) = [u, v] ++ l from fun _ _ _ => rfl,
      flat_append, flat_endNs]
    rfl
  | @element name as ws sp b b2 t Es E1 E h1 h2 h3 h4 h5 h6 h7 =>
    have m := tag_markup h1 h2 h3 false
    have hf : t.flags = fun _ => .unset := by
      funext n; exact C28.flags_unset (fun _ => rfl) h5 n
    have hin : In 0 t.env (CState.init.push name.flatten t) := ⟨rfl, rfl, hf, Nat.le_refl _, Nat.zero_le _⟩
    have i1 := content_run a I hi h6 (k := D.fuel) (start := 0) S hav hin (markup_dvd S m hd).2
    have m2 : Markup x.e asc .END_TAG (endText asc name.flatten sp) := .endTag (qname_endName S h1) h4
    have i2 := i1.2
    rw [run_markup S hin.mode m2 i1.1 (act_endTag S a (CState.init.push name.flatten t) (qname_endName S h1) h4
      (by simp [CState.push]) rfl rfl)] at i2
    obtain ⟨F, j1, j2⟩ := misc_run (c := c) (D := D) (int := int) (opened := []) (start := 0) (k := D.fuel) S a h7
      (s := (CState.init.push name.flatten t).pop ⟨name.flatten, t.name, t.binds⟩ []) rfl (markup_dvd S m2 i1.1).2
    rw [show CState.init.tags = [] from rfl, j1] at i2
    rw [run_markup S rfl m hd (act_start S a CState.init h1 h2 h3 h5)]
    obtain ⟨k1, k2⟩ := i2
    have k2 := k2 _ _ rfl
    cases hq : run (sem c D int D.fuel x [] 0) x.e false false (CState.init.push name.flatten t) b with
    | mk F' o =>
      rw [hq] at k1 k2
      simp only [pre] at k1 k2
      subst k1
      refine ⟨_, _, rfl, ?_⟩
      simp only
      have hn : flat (Ev.endElement (t.name.full c) :: (t.binds.map fun d => .endNs d.pre)) =
          .endElement (t.name.full c) :: (t.binds.map fun d => .endNs d.pre) := by
        rw [show ∀ (v : Ev) l, (v :: l) = [v] ++ l from fun _ _ => rfl, flat_append, flat_endNs]; rfl
      rw [flat_append, flat_append, flat_storeAtts h5, k2, flat_append, hn, j2]
      simp [flat, slice]

include I hi in
/-- **Soundness**: what is accepted is a document of the grammar. -/
theorem doc_parsed {b : Buf} {F : List Ev} {s : CState} {r : Buf} (hd : x.e.mb ∣ b.length)
    (hb : prologTok x.e b = ⟨.INSTANCE_START, 0⟩)
    (hr : run (parser c D int x) x.e false false CState.init b = (F, .ok s r)) :
    Document c D int iasc x asc b (flat F) := by
  rw [parser] at hr
  have hok : ∃ emp no, (contentTok x.e b).tok = tagTok emp no := by
    rcases instance_tag S hd hb with h | h
    · rw [run_go sem_go, sem_mode] at hr
      simp only [CState.init, Mode.tok] at hr
      rcases h with h | h | h <;> rw [h] at hr <;> simp [Mode.verdict] at hr
    · exact h
  obtain ⟨emp, no, ht⟩ := hok
  obtain ⟨w, r, m, rfl, -⟩ := content_sound S.s hd (t := tagTok emp no) (n := (contentTok x.e b).next)
    (by cases emp <;> cases no <;> rfl) (by cases emp <;> cases no <;> simp [tagTok]) (by cases emp <;> cases no <;> simp [tagTok])
    (by rw [← ht])
  generalize htt : tagTok emp no = t at m
  have hdr := (markup_dvd S m hd).2
  cases m with
  | @ref _ w h => cases h <;> cases emp <;> cases no <;> cases htt
  | endTag => cases emp <;> cases no <;> cases htt
  | comment => cases emp <;> cases no <;> cases htt
  | cdata => cases emp <;> cases no <;> cases htt
  | pi h1 h2 h3 => rcases pi_tok h3 with rfl | rfl <;> cases emp <;> cases no <;> cases htt
  | @tag name as ws empty h1 h2 h3 =>
    have m := tag_markup (asc := asc) h1 h2 h3 empty
    rw [show asc 0x3C ++ (name.flatten ++ (attsText asc as ++ closeText asc ws empty)) = tagText asc name as ws empty from rfl] at *
    cases empty with
    | true =>
      cases hst : storeAtts c D int x [] CState.init.flags CState.init.env (converted x name.flatten) (tagText asc name as ws true) with
      | mk Es o =>
        cases o with
        | error e =>
          obtain ⟨E, hE⟩ := act_empty_err (k := D.fuel) (start := 0) S CState.init h1 h2 h3 hst
          rw [run_markup_err S rfl m hd hE] at hr
          cases hr
        | ok t =>
          have ha := act_empty (start := 0) (k := D.fuel) S a CState.init h1 h2 h3 rfl hst
          rw [if_pos (show CState.init.level = 0 from rfl)] at ha
          rw [run_markup S rfl m hd ha] at hr
          cases hq : run (sem c D int D.fuel x [] 0) x.e false false { CState.init with mode := .epilog } r with
          | mk F' o =>
            rw [hq] at hr
            simp only [pre] at hr
            injection hr with hF ho
            subst ho
            have := misc_parsed S a _ rfl rfl hdr hq
            rw [← hF, flat_append, flat_append, flat_storeAtts hst, show ∀ (u v : Ev) l, (u :: v :: l) = [u, v] ++ l from fun _ _ _ => rfl,
              flat_append, flat_endNs]
            exact .empty h1 h2 h3 hst this
    | false =>
      cases hst : storeAtts c D int x [] CState.init.flags CState.init.env (converted x name.flatten) (tagText asc name as ws false) with
      | mk Es o =>
        cases o with
        | error e =>
          rw [run_markup_err S rfl m hd (act_start_err (k := D.fuel) (start := 0) S CState.init h1 h2 h3 hst)] at hr
          cases hr
        | ok t =>
          rw [run_markup S rfl m hd (act_start (start := 0) (k := D.fuel) S a CState.init h1 h2 h3 hst)] at hr
          have hf : t.flags = fun _ => .unset := by
            funext n; exact C28.flags_unset (fun _ => rfl) hst n
          have hin : In 0 t.env (CState.init.push name.flatten t) := ⟨rfl, rfl, hf, Nat.le_refl _, Nat.zero_le _⟩
          cases hq : run (sem c D int D.fuel x [] 0) x.e false false (CState.init.push name.flatten t) r with
          | mk F' o =>
            rw [hq] at hr
            simp only [pre] at hr
            injection hr with hF ho
            subst ho
            obtain ⟨E1, b1, G, i1, i2, i3, i4⟩ := content_parsed a I hi D.fuel _ rfl S hin hdr hq
            cases i4 with
            | eof h => cases h
            | @endTag tag tags sp b2 F2 _ _ j1 j2 j3 j4 j5 =>
              simp only [CState.push] at j2
              injection j2 with j2 j2'
              subst j2 j2'
              have := misc_parsed S a _ rfl rfl j4 j5
              have hd := Document.element h1 h2 h3 j3 hst i1 this
              rw [← hF, flat_append, flat_append, flat_storeAtts hst, i3]
              simpa [flat, slice] using hd

end
end Verif
