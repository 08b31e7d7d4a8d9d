import Verif.Props.C62

/-! Why no document makes the parser panic or report an error code reserved for its own malfunction (C72): the content. -/

set_option autoImplicit false

namespace Verif
open C43 C53 C61 C62 Spec

/-- Error codes for which no document is to blame: XML_ERROR_UNEXPECTED_STATE, and XML_ERROR_NO_MEMORY where the
allocator does not fail. -/
def XErr.inner : XErr → Bool
  | .UNEXPECTED_STATE | .NO_MEMORY => true
  | _ => false

/-! ### Values -/

theorem nameCases_whole {e : Enc} {b : Buf} {p : Nat} :
    (∀ k, nameCases e b p = .adv k → e.charLen b = k + 1) ∧
    ∀ r, nameCases e b p = .ret r → r.tok = .PARTIAL_CHAR → b.length < e.charLen b := by
  simp only [nameCases, Enc.charLen]
  generalize e.bt b = t
  constructor <;> (cases t <;> grind [Enc.mb])

theorem nmstrtCases_whole {e : Enc} {b : Buf} {p : Nat} :
    (∀ k, nmstrtCases e b p = .adv k → e.charLen b = k + 1) ∧
    ∀ r, nmstrtCases e b p = .ret r → r.tok = .PARTIAL_CHAR → b.length < e.charLen b := by
  simp only [nmstrtCases, Enc.charLen]
  generalize e.bt b = t
  constructor <;> (cases t <;> grind [Enc.mb])

theorem scanNameSemi_whole {e : Enc} {t : Tok} (ht : t ≠ .PARTIAL_CHAR) (b : Buf) (p : Nat) (h : WholeChars e b) :
    (scanNameSemi e t b p).tok ≠ .PARTIAL_CHAR := by
  fun_induction scanNameSemi e t b p with
  | case1 => simp
  | case2 b p hb r hr =>
    intro hp
    have := nameCases_whole.2 r hr hp
    rcases h.cases' with h | ⟨h, _⟩ <;> omega
  | case3 b p hb k hk ih =>
    refine ih ?_
    rcases h.cases' with h | ⟨_, h⟩
    · omega
    · rw [nameCases_whole.1 k hk] at h; exact h
  | case4 => simpa using ht
  | case5 => simp

theorem scanDecLoop_whole (e : Enc) (b : Buf) (p : Nat) : (scanDecLoop e b p).tok ≠ .PARTIAL_CHAR := by
  fun_induction scanDecLoop e b p <;> simp_all

theorem scanHexLoop_whole (e : Enc) (b : Buf) (p : Nat) : (scanHexLoop e b p).tok ≠ .PARTIAL_CHAR := by
  fun_induction scanHexLoop e b p <;> simp_all

theorem scanRef_whole {e : Enc} (b : Buf) (p : Nat) (h : WholeChars e b) : (scanRef e b p).tok ≠ .PARTIAL_CHAR := by
  rw [scanRef]
  split
  · simp
  · rename_i hb
    split
    · rename_i r hr
      intro hp
      have := nmstrtCases_whole.2 r hr hp
      rcases h.cases' with h | ⟨h, _⟩ <;> omega
    · rename_i k hk
      refine scanNameSemi_whole (by simp) _ _ ?_
      rcases h.cases' with h | ⟨_, h⟩
      · omega
      · rw [nmstrtCases_whole.1 k hk] at h; exact h
    · split
      · rw [scanCharRef]
        split
        · split
          · rw [scanHexCharRef]
            split
            · split <;> first | exact scanHexLoop_whole _ _ _ | simp
            · simp
          · split
            · exact scanDecLoop_whole _ _ _
            · simp
        · simp
      · simp

theorem piece_whole {e : Enc} {asc : UInt8 → Buf} (s : Supported e asc) {w r : Buf} (hw : e.Piece w) (h : WholeChars e r) : WholeChars e (w ++ r) := by
  have hc : e.charLen (w ++ r) = w.length := by rw [charLen_app s.ok _ _ hw.1, hw.2]
  refine .cons _ ?_ ?_ ?_
  · rw [List.length_append]; have := hw.1; omega
  · rw [hc, List.length_append]; omega
  · rw [hc, List.drop_left' rfl]; exact h

theorem pieces_whole {e : Enc} {asc : UInt8 → Buf} (s : Supported e asc) {ws : List Buf} (hw : ∀ w ∈ ws, e.Piece w) {r : Buf} (h : WholeChars e r) :
    WholeChars e (ws.flatten ++ r) := by
  induction ws with
  | nil => exact h
  | cons w ws ih =>
    rw [List.flatten_cons, List.append_assoc]
    exact piece_whole s (hw w (by simp)) (ih fun v hv => hw v (by simp [hv]))

theorem lit_whole {e : Enc} {asc : UInt8 → Buf} (s : Supported e asc) {b : Buf} (h : Lit e asc b) : WholeChars e b := by
  induction h with
  | nil => exact .nil
  | char w r hw _ ih => exact piece_whole s (char_piece s hw) ih
  | ref t w r hw _ ih =>
    obtain ⟨us, rfl, h2⟩ := ref_pieces s hw
    exact piece_whole s (char_piece s (asc_char s (t := .AMP) rfl)) (pieces_whole s (fun u hu => (h2 u hu).1) ih)

section
variable {D : Dtd} {check : Bool} {int : XEnc} {isCdata : Bool}

theorem loop_amp' {x : XEnc} {asc : UInt8 → Buf} (s : XSupported x asc) {ex : Buf → Buf → Buf → Except XErr Buf} {opened : List Buf} {pool r : Buf}
    (hl : Lit x.e asc (asc 0x26 ++ r)) :
    (∃ t w r', Ref x.e asc t w ∧ r = w ++ r') ∨ attrLoop D check x isCdata ex opened pool (asc 0x26 ++ r) = .error .INVALID_TOKEN := by
  have ht := avt_amp s.s r
  have hw : WholeChars x.e r := by
    have := lit_whole s.s hl
    rcases this.cases' with h | ⟨_, h⟩
    · have := asc_len_ok s.s 0x26 r; omega
    · rw [charLen_app s.s.ok _ _ (by rw [s.s.asc.len]; exact Nat.le_refl _)] at h
      rw [← (char_piece s.s (asc_char s.s (t := .AMP) rfl)).2, List.drop_left' rfl] at h
      exact h
  cases hr : scanRef x.e r x.e.mb with
  | mk t n =>
    rw [hr] at ht
    cases he : t.isError with
    | false =>
      obtain ⟨w, r', h1, h2, _⟩ := (scanRef_iff s.s r _ n t he).1 hr
      exact .inl ⟨t, w, r', h1, h2⟩
    | true =>
      right
      rw [attrLoop.eq_def]
      simp only [attrStep, ht]
      have hf := scanRef_tok x.e r x.e.mb
      have hp := scanRef_whole r x.e.mb hw
      rw [hr] at hf hp
      simp only at hf hp
      rcases hf with (rfl | rfl | rfl) | rfl | rfl
      · rfl
      · rfl
      · exact absurd rfl hp
      · cases he
      · cases he

/-- The evaluation of a literal does not end in an error reserved for malfunctions. -/
theorem attr_inner (hi : XSupported int asc1) (hie : int.e.lineEnds asc1 = false) (hD : C33.TextsOk D int) (k : Nat) :
    ∀ op, C34.avail D op ≤ k → ∀ x asc, XSupported x asc → ∀ n b, b.length = n → Lit x.e asc b →
    ∀ pool e, C34.attr D check int isCdata x op pool b = .error e → e.inner = false := by
  induction k using Nat.strongRecOn with
  | _ k ihk =>
    intro op hk x asc s n
    induction n using Nat.strongRecOn with
    | _ n ih =>
      intro b hb hlit pool q h
      have hmb : 0 < x.e.mb := Nat.succ_pos _
      have l (c) := s.s.asc.len c
      have key : ∀ r0, b = asc 0x26 ++ r0 → q.inner = false := by
        rintro r0 rfl
        rw [C34.attr_recursion] at h
        rcases loop_amp' (D := D) (check := check) (isCdata := isCdata) (ex := fun n p t => C34.attr D check int isCdata int (n :: op) p t)
          (opened := op) (pool := pool) s hlit with ⟨t, w, r, hw, rfl⟩ | he
        case inr => rw [he] at h; cases h; rfl
        have hlr := lit_amp s.s hw hlit
        have hlen : r.length < n := by
          rw [← hb]; simp only [List.length_append, l]; omega
        cases hw with
        | entity ws hn =>
          simp only [List.append_assoc] at h ⊢
          rw [loop_entity s hn] at h
          cases hv : refValue D check x (fun n p t => C34.attr D check int isCdata int (n :: op) p t) op pool ws.flatten with
          | ok p =>
            rw [hv] at h
            simp only at h
            rw [← C34.attr_recursion] at h
            exact ih _ hlen r rfl hlr _ _ h
          | error e =>
            rw [hv] at h
            cases h
            rw [refValue] at hv
            split at hv
            · cases hv
            · split at hv
              · split at hv <;> cases hv; rfl
              · rename_i ent hd
                split at hv
                · cases hv; rfl
                · split at hv
                  · cases hv; rfl
                  · rename_i ho
                    split at hv
                    · cases hv; rfl
                    · split at hv
                      · cases hv; rfl
                      · rename_i t ht
                        have hlt := C34.avail_lt hd ho
                        exact ihk (C34.avail D (converted x ws.flatten :: op)) (by omega) _ (Nat.le_refl _) int asc1 hi _ t rfl (hD _ _ _ hd ht) _ _ hv
        | dec ds h0 hd =>
          simp only [List.append_assoc] at h ⊢
          rw [← spell, C33.loop_dec s h0 hd] at h
          split at h
          · rw [← C34.attr_recursion] at h
            exact ih _ hlen r rfl hlr _ _ h
          · cases h; rfl
        | hex ds h0 hd =>
          simp only [List.append_assoc] at h ⊢
          rw [← spell, C33.loop_hex s h0 hd] at h
          split at h
          · rw [← C34.attr_recursion] at h
            exact ih _ hlen r rfl hlr _ _ h
          · cases h; rfl
      cases hlit with
      | nil => rw [C34.attr_recursion, loop_nil] at h; cases h
      | ref t w r hw hr => exact key _ rfl
      | char w r hw hr =>
        have hwl := x.e.isChar_len s.s.mb hw
        have hlen : r.length < n := by rw [← hb, List.length_append]; omega
        by_cases h2 : w = asc 0x26
        · exact key r (by rw [h2])
        by_cases h1 : w = asc 0x3C
        · rw [h1, C34.attr_recursion, loop_lt s] at h; cases h; rfl
        by_cases h3 : ∃ c, isWS c = true ∧ w = asc c
        · obtain ⟨c, hc, rfl⟩ := h3
          by_cases h4 : x.e.lineEnds asc = true ∧ c = 0x0D ∧ ∃ r', r = asc 0x0A ++ r'
          · obtain ⟨hl, rfl, r', rfl⟩ := h4
            rw [C34.attr_recursion, loop_crlf s hl, ← C34.attr_recursion] at h
            have hr' : Lit x.e asc r' := by
              refine lit_strip s.s (us := [asc 0x0A]) ?_ (by simpa using hr)
              intro u hu
              simp only [List.mem_cons, List.not_mem_nil, or_false] at hu
              subst hu
              exact ⟨char_piece s.s (C33.ws_char s.s rfl), fun he => absurd (s.s.asc_inj he) (by decide)⟩
            exact ih _ (by simp only [List.length_append, l] at hlen; omega) r' rfl hr' _ _ h
          · have hr' : x.e.lineEnds asc = true → c = 0x0D → ∀ r', r ≠ asc 0x0A ++ r' := fun i1 i2 r' i3 => h4 ⟨i1, i2, r', i3⟩
            rw [C34.attr_recursion, loop_ws s hc hr', ← C34.attr_recursion] at h
            exact ih _ hlen r rfl hr _ _ h
        · have h4 : ∀ c : UInt8, c = 0x20 ∨ c = 0x09 ∨ c = 0x0A ∨ c = 0x0D → w ≠ asc c :=
            fun c hc he => h3 ⟨c, (C33.isWS_iff c).2 hc, he⟩
          rw [C34.attr_recursion, loop_data s (C33.data_of hw h1 h2 h4) hr, ← C34.attr_recursion] at h
          exact ih _ hlen r rfl hr _ _ h

theorem store_inner {ns : Bool} (hD : C33.TextsOk D (internalUtf8X ns)) {x : XEnc} {asc : UInt8 → Buf} (S : XSupported x asc) {op : List Buf} {b : Buf}
    (hb : Lit x.e asc b) {e : XErr} (h : storeAttributeValue D check (internalUtf8X ns) x isCdata op b = .error e) : e.inner = false := by
  rw [storeAttributeValue] at h
  split at h
  · rename_i e' h'
    cases h
    exact attr_inner (.internalUtf8 ns) (C33.line_ends_internal ns) hD _ op (Nat.le_refl _) x asc S _ b rfl hb _ _ h'
  · cases h

end

/-! ### Tags -/

/-- What an outcome's error satisfies, or its state. -/
def Fine {ε σ : Type} (P : ε → Prop) (I : σ → Prop) : Except ε σ → Prop
  | .error e => P e
  | .ok s => I s


/-- Names carry the flag for a prefix only if they have one. -/
def FlagsFit (f : Buf → AFlag) : Prop := ∀ n, f n = .prefixed → (splitColon n).isSome = true

theorem setFlag_fit {f : Buf → AFlag} (h : FlagsFit f) {n : Buf} {g : AFlag} (hg : g = .prefixed → (splitColon n).isSome = true) :
    FlagsFit (setFlag f n g) := by
  intro m hm
  rw [setFlag] at hm
  split at hm
  · rename_i he; rw [he]; exact hg hm
  · exact h m hm

theorem attKind_colon {ns : Bool} {n p : Buf} (h : attKind ns n = .prefixed p) : (splitColon n).isSome = true := by
  rw [attKind] at h
  repeat' split at h
  all_goals cases h
  rename_i hs; rw [hs]; rfl

theorem bindingError_inner {p : Option Buf} {uri : Buf} {e : XErr} (h : bindingError p uri = some e) : e.inner = false := by
  rw [bindingError] at h
  simp only at h
  repeat' split at h
  all_goals first | (cases h; rfl) | cases h

theorem addBinding_inner {c : Cfg} {v : Env} {bs : List Binding} {p : Option Buf} {att uri : Buf} {E : List Ev} {e : XErr}
    (h : addBinding c v bs p att uri = (E, .error e)) : e.inner = false := by
  rw [addBinding] at h
  split at h
  · cases h; exact bindingError_inner (by assumption)
  · cases h

/-- A chain of steps keeps what its steps keep, and fails as they do. -/
theorem chain_inv {α σ ε : Type} {f : σ → α → List Ev × Except ε σ} {I : σ → Prop} {P : ε → Prop} (l : List α)
    (hf : ∀ a ∈ l, ∀ s, I s → ∀ E o, f s a = (E, o) → Fine (fun e => P e) (fun s' => I s') (o)) :
    ∀ s, I s → ∀ E o, chain f s l = (E, o) → Fine (fun e => P e) (fun s' => I s') (o) := by
  induction l with
  | nil => intro s hs E o h; cases h; exact hs
  | cons a l ih =>
    intro s hs E o h
    rw [chain] at h
    have h1 := hf a (by simp) s hs
    split at h
    · rename_i E' e hr
      cases h; exact h1 _ _ hr
    · rename_i E' s' hr
      simp only [Prod.mk.injEq] at h
      refine ih (fun a ha => hf a (by simp [ha])) s' (h1 _ _ hr) _ o (Prod.ext rfl h.2)

theorem expandNames_inner (c : Cfg) (env : Env) (l : List (Buf × Buf)) : ∀ n f seen, FlagsFit f →
    Fine (fun e => e.inner = false) (fun r => FlagsFit r.2) (expandNames c env n f seen l) := by
  induction l with
  | nil => intro n f seen h; rw [expandNames]; exact h
  | cons a l ih =>
    intro n f seen h
    obtain ⟨name, v⟩ := a
    have h' : FlagsFit (setFlag f name .unset) := setFlag_fit h (by simp)
    rw [expandNames]
    simp only
    split
    · rename_i hp
      have := h name hp.2
      split
      · rename_i hs; rw [hs] at this; cases this
      · split
        · rfl
        · split
          · rfl
          · rename_i p l' _ _ uri _ _
            have := ih (n - 1) _ ((uri ++ c.sepB ++ l' ++ c.suffix p) :: seen) h'
            generalize expandNames c env (n - 1) _ _ l = o at this ⊢
            cases o <;> exact this
    · have := ih n _ seen h'
      generalize expandNames c env n _ seen l = o at this ⊢
      cases o <;> exact this

theorem attsAt_lit {x : XEnc} {asc : UInt8 → Buf} (S : XSupported x asc) (rest : Buf) {p : Nat} {as : List AttrSrc} {l : List Att}
    (h : AttsAt x.e asc p as l) : ∀ (pre : Buf), pre.length = p → (∀ a ∈ as, a.Valid x.e asc) →
    ∀ a ∈ l, Lit x.e asc (attLiteral (pre ++ (attsText asc as ++ rest)) a) := by
  induction h with
  | nil => intro _ _ _ a h; cases h
  | @cons p a as l n hn h ih =>
    intro pre hp ha a' h'
    subst hp
    have hb : pre ++ (attsText asc (a :: as) ++ rest) = pre ++ (a.text asc ++ (attsText asc as ++ rest)) := by
      simp [attsText]
    have hb' : pre ++ (attsText asc (a :: as) ++ rest) = (pre ++ a.text asc) ++ (attsText asc as ++ rest) := by
      simp [attsText]
    rcases List.mem_cons.1 h' with rfl | h'
    · rw [hb, C33.att_literal S]
      exact (ha a (by simp)).value.lit
    · rw [hb']
      exact ih (pre ++ a.text asc) (by simp) (fun a h => ha a (by simp [h])) a' h'

section
variable {c : Cfg} {D : Dtd} {ns : Bool} {x : XEnc} {asc : UInt8 → Buf} {opened : List Buf} {start : Nat}
  {expand : Buf → Buf → CState → List Ev × Except XErr CState}
variable (S : XSupported x asc) (hD : C33.TextsOk D (internalUtf8X ns))
include S hD

theorem storeAtts_inner {name : List Buf} (hn : QName x.e asc name) {as : List AttrSrc}
    (ha : ∀ a ∈ as, AttrSrc.Valid x.e asc a) {ws : List UInt8} (hw : AllWS ws) (empty : Bool) {flags : Buf → AFlag} (hf : FlagsFit flags)
    {env : Env} {raw : Buf} {E : List Ev} {o : Except AErr Stored}
    (h : storeAtts c D (internalUtf8X ns) x opened flags env raw
      (asc 0x3C ++ (name.flatten ++ (attsText asc as ++ closeText asc ws empty))) = (E, o)) :
    Fine (fun e => e.1.inner = false) (fun r => FlagsFit r.flags) (o) := by
  have hl : ∀ a ∈ getAtts x.e (asc 0x3C ++ (name.flatten ++ (attsText asc as ++ closeText asc ws empty))),
      Lit x.e asc (attLiteral (asc 0x3C ++ (name.flatten ++ (attsText asc as ++ closeText asc ws empty))) a) := by
    have h := getAtts_spec S.s hn ha hw empty []
    rw [List.append_nil] at h
    have := attsAt_lit S (closeText asc ws empty) h (asc 0x3C ++ name.flatten) (by simp [S.s.asc.len]) ha
    rw [List.append_assoc] at this
    exact this
  generalize asc 0x3C ++ (name.flatten ++ (attsText asc as ++ closeText asc ws empty)) = b at hl h
  have h1 := chain_inv (f := attOne c D (internalUtf8X ns) x opened (D.elem raw) b) (I := fun s => FlagsFit s.flags) (P := fun e => e.1.inner = false)
    (getAtts x.e b) (by
      intro a ha s hs E o he
      have hla := hl a ha
      simp only [attOne] at he
      split at he
      · cases he; rfl
      · split at he
        · rename_i hv
          cases he
          rw [attValue] at hv
          split at hv
          · exact store_inner hD S hla hv
          · cases hv
        · split at he
          · cases he; exact setFlag_fit hs (by simp)
          · rename_i hk
            cases he; exact setFlag_fit hs (fun _ => attKind_colon hk)
          · split at he
            · rename_i hb; cases he; exact addBinding_inner hb
            · cases he; exact setFlag_fit hs (by simp))
  have h2 := chain_inv (f := defOne c) (I := fun s => FlagsFit s.flags) (P := fun e => e.1.inner = false)
    (D.elem raw).atts (by
      intro a ha s hs E o he
      simp only [defOne] at he
      split at he
      · cases he; exact hs
      · split at he
        · cases he; exact hs
        · split at he
          · cases he; exact setFlag_fit hs (by simp)
          · rename_i hk
            cases he; exact setFlag_fit hs (fun _ => attKind_colon hk)
          · split at he
            · rename_i hb; cases he; exact addBinding_inner hb
            · cases he; exact hs)
  rw [storeAtts] at h
  simp only at h
  split at h
  · rename_i hc
    cases h
    exact h1 _ hf _ _ hc
  · rename_i s hc
    have h3 := h1 _ hf _ _ hc
    split at h
    · rename_i hc
      cases h
      exact h2 _ h3 _ _ hc
    · rename_i s' hc
      have h4 := h2 _ h3 _ _ hc
      have h5 := expandNames_inner c s'.env s'.atts s'.nPre s'.flags [] h4
      split at h
      · rename_i he
        rw [he] at h5
        cases h; exact h5
      · rename_i atts f he
        rw [he] at h5
        split at h
        · rename_i hn
          cases h
          rw [elemName] at hn
          repeat' split at hn
          all_goals first | (cases hn; rfl) | cases hn
        · cases h
          have hfold : ∀ (bs : List Binding) (f : Buf → AFlag), FlagsFit f → FlagsFit (bs.foldl (fun f b => setFlag f b.att .unset) f) := by
            intro bs
            induction bs with
            | nil => intro f h; exact h
            | cons b bs ih => intro f h; exact ih _ (setFlag_fit h (by simp))
          exact hfold _ _ h5

/-- The state of the content parser: as many open elements as the level says. -/
structure Sane (start : Nat) (s : CState) : Prop where
  tags : s.tags.length = s.level
  start : start ≤ s.level
  flags : FlagsFit s.flags

theorem act_inner (hE : ∀ n t s, (∃ ent, D.entity n = some ent ∧ ent.text = some t) → Sane s.level s →
      Fine (fun e => e.inner = false) (fun s' => Sane s.level s') ((expand n t s).2))
    {s : CState} (hs : Sane start s) {b w : Buf} {t : Tok} (hb : x.e.mb ∣ b.length)
    (h : Entered s.mode x.e b t w) :
    Fine (fun e => e.inner = false) (fun s' => Sane start s') ((act c D (internalUtf8X ns) x opened start expand s t w).2) := by
  have hw : (∃ m, Markup x.e asc t m ∧ w = m) ∨ (t = .DATA_CHARS ∧ ∃ ws, x.e.Chars ws ∧ w = ws.flatten) ∨
      t = .DATA_NEWLINE ∨ t = .CDATA_SECT_CLOSE ∨ t = .PROLOG_S := entered_text S hb h
  clear h
  rcases hw with ⟨m, hm, rfl⟩ | ⟨rfl, ws, h1, rfl⟩ | rfl | rfl | rfl
  · cases hm with
    | @ref _ w h =>
      by_cases hc : t = .CHAR_REF
      · subst hc
        simp only [act]
        split
        · rfl
        · exact hs
      · have ht : t = .ENTITY_REF := by cases h <;> first | rfl | exact absurd rfl hc
        subst ht
        generalize asc 0x26 ++ w = w
        simp only [act]
        rw [actEntityRef]
        simp only
        split
        · exact hs
        · split
          · split
            · rfl
            · exact hs
          · rename_i ent he
            split
            · rfl
            · split
              · rfl
              · split
                · rfl
                · split
                  · rename_i u hu
                    split
                    · exact hs
                    · have := hE (converted x (refName x.e w)) u s ⟨ent, he, hu⟩ ⟨hs.tags, Nat.le_refl _, hs.flags⟩
                      generalize (expand _ u s).2 = o at this ⊢
                      cases o with
                      | error e => exact this
                      | ok s' => exact ⟨this.tags, Nat.le_trans hs.start this.start, this.flags⟩
                  · split
                    · simp only
                      split <;> first | exact hs | rfl
                    · exact hs
    | tag empty h1 h2 h3 =>
      rename_i as _
      have h4 := fun raw E o => storeAtts_inner (c := c) (opened := opened) (env := s.env) S hD h1 h2 h3 empty hs.flags (raw := raw) (E := E) (o := o)
      have e1 : ∀ w, (∀ raw E o, storeAtts c D (internalUtf8X ns) x opened s.flags s.env raw w = (E, o) →
          Fine (fun e => e.1.inner = false) (fun r => FlagsFit r.flags) (o)) →
          Fine (fun e => e.inner = false) (fun s' => Sane start s') ((actStart c D (internalUtf8X ns) x opened s w).2) := by
        intro w h4
        rw [actStart]
        split
        · rename_i hr; exact h4 _ _ _ hr
        · rename_i hr
          exact ⟨by simp [hs.tags], Nat.le_succ_of_le hs.start, h4 _ _ _ hr⟩
      have e2 : ∀ w, (∀ raw E o, storeAtts c D (internalUtf8X ns) x opened s.flags s.env raw w = (E, o) →
          Fine (fun e => e.1.inner = false) (fun r => FlagsFit r.flags) (o)) →
          Fine (fun e => e.inner = false) (fun s' => Sane start s') ((actEmpty c D (internalUtf8X ns) x opened s w).2) := by
        intro w h4
        rw [actEmpty]
        simp only
        split
        · rename_i hr; exact h4 _ _ _ hr
        · rename_i hr
          exact ⟨hs.tags, hs.start, h4 _ _ _ hr⟩
      have e1 := e1 _ h4
      have e2 := e2 _ h4
      cases empty <;> cases as <;> first | exact e1 | exact e2
    | endTag =>
      simp only [act]
      rw [actEnd]
      split
      · rfl
      · rename_i hne
        have h1 := hs.tags
        have h2 := hs.start
        split
        · rename_i ht
          rw [ht] at h1
          simp at h1
          omega
        · rename_i tag tags ht
          rw [ht] at h1
          simp at h1
          split
          · rfl
          · exact ⟨by simp only; omega, by simp only; omega, hs.flags⟩
    | @comment ws h1 h2 =>
      simp only [act]
      split
      · have := C14.comment_text c.al S new_inv rfl ws.flatten
        rw [this]
        exact hs
      · exact hs
    | @pi target d t h1 h2 h3 =>
      rcases pi_tok h3 with rfl | rfl
      · obtain ⟨sp, us, g1, g2⟩ := pi_of_markup S h1 h2 h3
        rw [g2]
        have := act_pi (c := { al := c.al }) (D := D) (int := x) (k := 0) (opened := []) (start := 0) S
          ⟨rfl, rfl, rfl, rfl, rfl, rfl, rfl, rfl, rfl, rfl, rfl, rfl, rfl⟩ s g1
        simp only [sem, semOf, act, if_true] at this
        simp only [act]
        generalize reportPI c.al x Pool.new (piText asc target sp us) = o at this
        cases o with
        | none => cases this
        | some o => split <;> exact hs
      · simp only [act]; rfl
    | cdata => exact ⟨hs.tags, hs.start, hs.flags⟩
  · exact hs
  · exact hs
  · exact ⟨hs.tags, hs.start, hs.flags⟩
  · exact hs

end

/-- What an outcome's error satisfies, or the state it leaves. -/
def Out.Fine {σ : Type} (P : XErr → Prop) (I : σ → Prop) : Out σ → Prop
  | .err e => P e
  | .ok s _ => I s

theorem verdict_last_tok {m : Mode} {t u : Tok} (h : m.verdict t = .last u) : u = .DATA_CHARS ∨ u = .DATA_NEWLINE := by
  cases m <;> cases t <;> simp [Mode.verdict] at h <;> simp [← h]

theorem verdict_wait {m : Mode} {t : Tok} {e : XErr} (h : m.verdict t = .wait e) : e.inner = false := by
  cases m <;> cases t <;> simp [Mode.verdict] at h <;> subst h <;> rfl

theorem verdict_fail {m : Mode} {e : Enc} {b : Buf} {f : XErr} (h : m.verdict (m.tok e b).tok = .fail f) : f.inner = false := by
  have h1 := cdataSectionTok_tok e b
  cases m with
  | cdata =>
    change Mode.cdata.verdict (cdataSectionTok e b).tok = _ at h
    generalize (cdataSectionTok e b).tok = t at *
    cases t <;> simp [Mode.verdict, Tok.fail] at h h1 <;> subst h <;> rfl
  | content =>
    generalize (Mode.content.tok e b).tok = t at *
    cases t <;> simp [Mode.verdict] at h <;> subst h <;> rfl
  | epilog =>
    generalize (Mode.epilog.tok e b).tok = t at *
    cases t <;> simp [Mode.verdict] at h <;> subst h <;> rfl

theorem run_fine {σ : Type} {M : Sem σ} {I : σ → Prop} {e : Enc} (hm : e.mb ≤ 2) (ev : e.Even)
    (H0 : ∀ s t w, I s → t = .DATA_CHARS ∨ t = .DATA_NEWLINE ∨ t = .PROLOG_S → Verif.Fine (fun e => e.inner = false) I (M.act s t w).2)
    (H : ∀ s b t w, I s → e.mb ∣ b.length → Entered (M.mode s) e b t w → Verif.Fine (fun e => e.inner = false) I (M.act s t w).2)
    (hf : ∀ s e, M.fin s = some e → e.inner = false) (n : Nat) :
    ∀ (more via : Bool) (s : σ) (b : Buf), b.length = n → I s → Out.Fine (fun e => e.inner = false) I (run M e more via s b).2 := by
  induction n using Nat.strongRecOn with
  | _ n ih =>
    intro more via s b hn hs
    have hfin : ∀ s r, I s → Out.Fine (fun e => e.inner = false) I (finish M s r) := by
      intro s r hs
      rw [finish]
      split
      · exact hf _ _ (by assumption)
      · exact hs
    have hfail := fun f => verdict_fail (m := M.mode s) (e := e) (b := b) (f := f)
    rw [run.eq_def]
    simp only
    generalize hr : (M.mode s).tok e b = r at *
    obtain ⟨t, k⟩ := r
    simp only at hfail ⊢
    cases hverd : (M.mode s).verdict t with
    | wait c => simp only; split; exact hs; exact verdict_wait hverd
    | last u =>
      simp only
      split
      · exact hs
      · have := H0 s u b hs (by rcases verdict_last_tok hverd with h | h <;> simp [h])
        split <;> rename_i ha <;> rw [ha] at this
        · exact this
        · exact hfin _ _ this
    | done => simp only; split; exact hs; exact hfin _ _ hs
    | stop => exact hs
    | fail c => exact hfail c hverd
    | actStop =>
      simp only
      have := H0 s .PROLOG_S (b.take k) hs (.inr (.inr rfl))
      split <;> rename_i ha <;> rw [ha] at this
      · exact this
      · simp only; split; rfl; exact this
    | act =>
      simp only
      have hne : t ≠ .NONE ∧ t ≠ .PARTIAL := by
        constructor <;> rintro rfl <;> revert hverd <;> cases M.mode s <;> simp [Mode.verdict]
      obtain ⟨g1, g2, g3⟩ := trunc_tok (M.mode s) hr hne.1 hne.2
      have := H s (truncBuf e b) t (b.take k) hs g3 (.inl ⟨hverd, k, g1, g2⟩)
      split
      · rename_i ha
        rw [ha] at this; exact this
      · rename_i E s' ha
        rw [ha] at this
        split
        · split
          · rename_i hlt
            exact ih _ (by omega) _ _ _ _ rfl this
          · exact this
        · split; exact this; rfl

section
variable {c : Cfg} {D : Dtd} {ns : Bool}
variable (hD : C33.TextsOk D (internalUtf8X ns))
include hD

omit hD in
theorem act_data_fine {x : XEnc} {opened : List Buf} {start : Nat} {expand : Buf → Buf → CState → List Ev × Except XErr CState} {s : CState}
    {t : Tok} {w : Buf} (hs : Sane start s) (ht : t = .DATA_CHARS ∨ t = .DATA_NEWLINE ∨ t = .PROLOG_S) :
    Fine (fun e => e.inner = false) (Sane start) (act c D (internalUtf8X ns) x opened start expand s t w).2 := by
  rcases ht with rfl | rfl | rfl <;> exact hs

omit hD in
theorem fin_inner {x : XEnc} {opened : List Buf} {start : Nat} {expand : Buf → Buf → CState → List Ev × Except XErr CState} (s : CState) (e : XErr)
    (h : (semOf c D (internalUtf8X ns) x opened start expand).fin s = some e) : e.inner = false := by
  simp only [semOf] at h
  repeat' split at h
  all_goals first | (cases h; rfl) | cases h

/-- At any depth of entities. -/
theorem sem_inner (k : Nat) : ∀ {x : XEnc} {asc : UInt8 → Buf}, XSupported x asc → ∀ (opened : List Buf) (start : Nat) (more via : Bool) (s : CState) (b : Buf),
    Sane start s → Out.Fine (fun e => e.inner = false) (Sane start) (run (sem c D (internalUtf8X ns) k x opened start) x.e more via s b).2 := by
  induction k with
  | zero =>
    intro x asc S opened start more via s b hs
    refine run_fine S.s.mb S.s.even (fun s t w => act_data_fine) ?_ fin_inner _ more via s b rfl hs
    intro s b t w hs hd' h
    exact act_inner (expand := fun _ _ _ => ([], .error .DIVERGED)) S hD (fun _ _ _ _ _ => rfl) hs hd' h
  | succ k ih =>
    intro x asc S opened start more via s b hs
    refine run_fine S.s.mb S.s.even (fun s t w => act_data_fine) ?_ fin_inner _ more via s b rfl hs
    intro s b t w hs hd' h
    refine act_inner S hD (fun n t s _ hs => ?_) hs hd' h
    have := ih (XSupported.internalUtf8 ns) (n :: opened) s.level false false s t hs
    rw [Ran.toAct.eq_def]
    split <;> rename_i hr <;> rw [hr] at this <;> exact this

/-- Content in any pieces ends with no internal error. -/
theorem feed_inner {x : XEnc} {asc : UInt8 → Buf} (S : XSupported x asc) (chunks : List Buf) : ∀ (s : CState) (rest : Buf), Sane 0 s →
    Out.Fine (fun e => e.inner = false ∧ e ≠ .DIVERGED) (Sane 0) (Verif.feed (parser c D (internalUtf8X ns) x) x.e s rest chunks).2 := by
  have R := fun more via s b h => sem_inner (c := c) hD D.fuel S [] 0 more via s b h
  have key : ∀ (s : CState) (rest : Buf), Sane 0 s →
      Out.Fine (fun e => e.inner = false) (Sane 0) (Verif.feed (parser c D (internalUtf8X ns) x) x.e s rest chunks).2 := by
    induction chunks with
    | nil => intro s rest hs; exact R _ _ _ _ hs
    | cons ch chunks ih =>
      intro s rest hs
      cases chunks with
      | nil => exact R _ _ _ _ hs
      | cons ch2 chunks =>
        rw [Verif.feed]
        · have h1 := R true ((parser c D (internalUtf8X ns) x).mode s == .cdata) s (rest ++ ch) hs
          split
          · rename_i E s' r hr
            rw [call] at hr
            change Out.Fine _ _ (run (parser c D (internalUtf8X ns) x) x.e true _ s (rest ++ ch)).2 at h1
            rw [hr] at h1
            exact ih s' _ h1
          · rename_i E c' hr
            rw [call] at hr
            change Out.Fine _ _ (run (parser c D (internalUtf8X ns) x) x.e true _ s (rest ++ ch)).2 at h1
            rw [hr] at h1
            exact h1
        · simp
  intro s rest hs
  have h1 := key s rest hs
  have h2 := C34.content_terminates c D (internalUtf8X ns) x x.e chunks s rest
  generalize Verif.feed (parser c D (internalUtf8X ns) x) x.e s rest chunks = r at *
  obtain ⟨E, o⟩ := r
  cases o with
  | ok s r => exact h1
  | err e => exact ⟨h1, fun h => h2 E (by rw [h])⟩

end

end Verif
