import Verif.NoPanicDoc

/-! Why every string reported from a prolog is legal text, also if the prolog turns out to be ill-formed (C62). -/

set_option autoImplicit false

namespace Verif
open C43 C53 C59 C60 C61 C62 Spec PState

/-! ### Entity values that are given up -/

section
variable {c : PCfg} {ext : Ext} {pe : PEParsing} {x : XEnc} {asc : UInt8 → Buf}

/-- `&` that begins no reference. -/
theorem ev_amp_stop {rec : Buf → Shared → Buf → Buf → EVal} {opened : List Buf} (s : XSupported x asc) {r : Buf} (sh : Shared) (pool : Buf)
    (h : ¬ ∃ t w r', Ref x.e asc t w ∧ r = w ++ r') :
    (evLoop c ext pe x false rec opened sh pool (asc 0x26 ++ r)).pool = pool ∧
    (evLoop c ext pe x false rec opened sh pool (asc 0x26 ++ r)).E = [] ∧
    (evLoop c ext pe x false rec opened sh pool (asc 0x26 ++ r)).sh = sh := by
  have ht := evt_amp s.s r
  have hf := scanRef_tok x.e r x.e.mb
  cases hr : scanRef x.e r x.e.mb with
  | mk t n =>
    rw [hr] at ht hf
    cases he : t.isError with
    | false =>
      obtain ⟨w, r', h1, h2, _⟩ := (scanRef_iff s.s r _ n t he).1 hr
      exact absurd ⟨t, w, r', h1, h2⟩ h
    | true =>
      rw [evLoop.eq_def]
      simp only [evStep, ht]
      simp only at hf
      rcases hf with (rfl | rfl | rfl) | rfl | rfl
      · exact ⟨rfl, rfl, rfl⟩
      · exact ⟨rfl, rfl, rfl⟩
      · exact ⟨rfl, rfl, rfl⟩
      · cases he
      · cases he

theorem ev_pct_stop {rec : Buf → Shared → Buf → Buf → EVal} {opened : List Buf} (s : XSupported x asc) (hp : (c.isPE || false) = false)
    (r : Buf) (sh : Shared) (pool : Buf) :
    (evLoop c ext pe x false rec opened sh pool (asc 0x25 ++ r)).pool = pool ∧
    (evLoop c ext pe x false rec opened sh pool (asc 0x25 ++ r)).E = [] ∧
    (evLoop c ext pe x false rec opened sh pool (asc 0x25 ++ r)).sh = sh := by
  rw [evLoop.eq_def]
  simp only [evStep, evt_pct s.s]
  have hf := scanPercent_tok x.e r x.e.mb
  generalize scanPercent x.e r x.e.mb = q at hf
  obtain ⟨t, n⟩ := q
  simp only at hf
  rcases hf with (rfl | rfl | rfl) | rfl | rfl
  · simp
  · simp
  · simp
  · simp
  · simp [hp]

/-- What has been stored of an entity value is legal text, however far the program came. -/
theorem store_pool (s : XSupported x asc) (hp : c.isPE = false) (k : Nat) (op : List Buf) (sh : Shared) (n : Nat) :
    ∀ {us : List Buf}, us.flatten.length = n → x.e.Chars us → ∀ {pool : Buf}, LegalText pool →
    LegalText (storeEntityValue c ext pe k x false op sh pool us.flatten).pool ∧
    (storeEntityValue c ext pe k x false op sh pool us.flatten).E = [] ∧
    (storeEntityValue c ext pe k x false op sh pool us.flatten).sh = sh := by
  have hp' : (c.isPE || false) = false := by rw [hp]; rfl
  induction n using Nat.strongRecOn with
  | _ n ih =>
    intro us hb hu pool hpool
    have hmb : 0 < x.e.mb := Nat.succ_pos _
    have l (c) := s.s.asc.len c
    cases us with
    | nil => rw [List.flatten_nil, C58.store_eq, ev_nil]; exact ⟨hpool, rfl, rfl⟩
    | cons w ws =>
      have hw := hu.head
      have hr := hu.tail
      have hwl := x.e.isChar_len s.s.mb hw
      rw [List.flatten_cons] at hb ⊢
      have hlen : ws.flatten.length < n := by rw [← hb, List.length_append]; omega
      by_cases h1 : w = asc 0x26
      · subst h1
        by_cases hex : ∃ t w r', Ref x.e asc t w ∧ ws.flatten = w ++ r'
        · obtain ⟨t, w, r, hw, h2⟩ := hex
          obtain ⟨vs, g1, g2⟩ := ref_pieces s.s hw
          obtain ⟨hv, ts, ht, rfl⟩ := chars_strip s.s (us := vs) (r := r) (fun u h => (g2 u h).1) hr (by rw [← g1]; exact h2)
          have hlen : ts.flatten.length < n := by
            rw [h2, List.length_append] at hlen
            omega
          rw [h2]
          cases hw with
          | entity nm hn =>
            simp only [List.append_assoc]
            rw [C58.store_eq, ev_entity s hn, ← C58.store_eq]
            refine ih _ hlen rfl ht (hpool.app ?_)
            have hc : x.e.Chars (asc 0x26 :: vs) := by
              intro u hu
              rcases List.mem_cons.1 hu with rfl | hu
              · exact asc_char s.s (t := .AMP) rfl
              · exact hv u hu
            have := conv_legals s hc
            rw [List.flatten_cons, ← g1] at this
            exact this
          | dec ds h0 hd =>
            simp only [List.append_assoc]
            rw [← spell, C58.store_eq, ev_dec s h0 hd]
            split
            · rename_i hx
              rw [← C58.store_eq]
              exact ih _ hlen rfl ht (hpool.app (.one hx))
            · exact ⟨hpool, rfl, rfl⟩
          | hex ds h0 hd =>
            simp only [List.append_assoc]
            rw [← spell, C58.store_eq, ev_hex s h0 hd]
            split
            · rename_i hx
              rw [← C58.store_eq]
              exact ih _ hlen rfl ht (hpool.app (.one hx))
            · exact ⟨hpool, rfl, rfl⟩
        · rw [C58.store_eq]
          obtain ⟨h2, h3⟩ := ev_amp_stop (c := c) (ext := ext) (pe := pe) (rec := C58.recOf c ext pe op k) (opened := op) s sh pool hex
          rw [h2]
          exact ⟨hpool, h3⟩
      by_cases h2 : w = asc 0x25
      · subst h2
        rw [C58.store_eq]
        obtain ⟨h2, h3⟩ := ev_pct_stop (c := c) (ext := ext) (pe := pe) (rec := C58.recOf c ext pe op k) (opened := op) s hp' ws.flatten sh pool
        rw [h2]
        exact ⟨hpool, h3⟩
      have hnl : LegalText (pool ++ [0x0A]) := hpool.app (LegalText.lf .nil)
      by_cases h3 : w = asc 0x0A
      · subst h3
        rw [C58.store_eq, ev_lf s, ← C58.store_eq]
        exact ih _ hlen rfl hr hnl
      by_cases h4 : x.e.lineEnds asc = true ∧ w = asc 0x0D
      · obtain ⟨hl, rfl⟩ := h4
        by_cases h5 : ∃ r', ws.flatten = asc 0x0A ++ r'
        · obtain ⟨r', h5⟩ := h5
          obtain ⟨-, ts, ht, rfl⟩ := chars_strip s.s (us := [asc 0x0A]) (r := r') (by
            intro u hu
            rw [List.mem_singleton.1 hu]
            exact char_piece s.s (lf_char s)) hr (by simpa using h5)
          rw [h5, C58.store_eq, ev_crlf s hl, ← C58.store_eq]
          refine ih _ ?_ rfl ht hnl
          rw [h5] at hlen
          simp only [List.length_append, l] at hlen
          omega
        · have h6 : ∀ r', ws.flatten ≠ asc 0x0A ++ r' := fun r' h => h5 ⟨r', h⟩
          rw [C58.store_eq, ev_cr s hl h6, ← C58.store_eq]
          exact ih _ hlen rfl hr hnl
      · have h5 : x.e.lineEnds asc = true → w ≠ asc 0x0D := fun i1 i2 => h4 ⟨i1, i2⟩
        rw [C58.store_eq, ev_char s ⟨hw, h1, h2, h3, h5⟩ (hr.lit (asc := asc)).ev, ← C58.store_eq]
        obtain ⟨ch, g1, g2⟩ := conv_legal s hw
        exact ih _ hlen rfl hr (hpool.app (g2 ▸ .one g1))

/-! ### Public identifiers -/

theorem legal_words (b : Buf) : ∀ p : Buf, LegalText (p ++ b) → ∃ w ws, C37.split b = w :: ws ∧ LegalText (p ++ w) ∧ ∀ v ∈ ws, LegalText v := by
  induction b with
  | nil => exact fun p h => ⟨[], [], rfl, h, by simp⟩
  | cons d b ih =>
    intro p h
    cases hd : C37.blank d with
    | true =>
      rw [C37.split_blank hd]
      have h80 : d < 0x80 := UInt8.forall_dec (P := fun d => C37.blank d = true → d < 0x80) (by decide +kernel) d hd
      obtain ⟨h1, h2⟩ := legal_cut h80 h
      obtain ⟨w, ws, g1, g2, g3⟩ := ih [] h2
      refine ⟨[], _, rfl, by simpa using h1, ?_⟩
      rw [g1]
      intro v hv
      rcases List.mem_cons.1 hv with rfl | hv
      · exact g2
      · exact g3 v hv
    | false =>
      obtain ⟨w, ws, g1, g2, g3⟩ := ih (p ++ [d]) (by simpa using h)
      exact ⟨d :: w, ws, C37.split_char hd g1, by simpa using g2, g3⟩

theorem legal_pubNorm {b : Buf} (h : LegalText b) (h0 : 0 ∉ b) : LegalText (pubNorm b) := by
  obtain ⟨m, h1, h2⟩ := C37.normalize_spec b [] h0
  rw [pubNorm, h1, Option.map_some, Option.getD_some, h2, C37.normal]
  have hw : ∀ w ∈ C37.words b, LegalText w := by
    intro w hw
    obtain ⟨u, us, g1, g2, g3⟩ := legal_words b [] h
    have := (List.mem_filter.1 hw).1
    rw [g1] at this
    rcases List.mem_cons.1 this with rfl | h
    · exact g2
    · exact g3 w h
  revert hw
  generalize C37.words b = ws
  intro hw
  induction ws with
  | nil => exact .nil
  | cons w ws ih =>
    cases ws with
    | nil => simpa [List.intercalate] using hw w (by simp)
    | cons v ws =>
      have := ih fun u hu => hw u (by simp [hu])
      simp only [List.intercalate, List.intersperse, List.flatten_cons] at this ⊢
      exact (hw w (by simp)).app ((legal_byte (d := 0x20) (by decide) (by decide)).app this)

end

/-! ### What is remembered -/

/-- The identifiers of an entity are legal. -/
def EntIds (e : Entity) : Prop := (∀ t ∈ e.systemId, LegalText t) ∧ ∀ t ∈ e.publicId, LegalText t

def TabIds (T : List (Buf × Entity)) : Prop := ∀ n e, tabGet T n = some e → EntIds e

theorem TabIds.put {T : List (Buf × Entity)} (h : TabIds T) {m : Buf} {v : Entity} (hv : EntIds v) : TabIds (tabPut T m v) := by
  intro n e hn
  by_cases hm : n = m
  · subst hm
    rw [tabGet_tabPut_eq] at hn
    cases hd : tabGet T n with
    | none => rw [hd] at hn; cases hn; exact hv
    | some w => rw [hd] at hn; cases hn; exact h n w hd
  · rw [tabGet_tabPut_ne hm] at hn
    exact h n e hn

theorem TabIds.set {T : List (Buf × Entity)} (h : TabIds T) {m : Buf} {f : Entity → Entity} (hf : ∀ e, EntIds e → EntIds (f e)) :
    TabIds (tabSet T m f) := by
  intro n e hn
  by_cases hm : n = m
  · subst hm
    rw [tabGet_tabSet_eq] at hn
    cases hd : tabGet T n with
    | none => rw [hd] at hn; cases hn
    | some w => rw [hd] at hn; cases hn; exact hf w (h n w hd)
  · rw [tabGet_tabSet_ne hm] at hn
    exact h n e hn

theorem entIds_zero : EntIds .zero := ⟨fun t h => by simp [Entity.zero] at h, fun t h => by simp [Entity.zero] at h⟩

/-- The identifiers kept between tokens. -/
structure Ids (s : DState) : Prop where
  sys : ∀ t ∈ s.dSys, LegalText t
  pub : ∀ t ∈ s.dPub, LegalText t
  npub : ∀ t ∈ s.nPub, LegalText t
  gen : TabIds s.D.gen
  par : TabIds s.D.par

/-- The states in the middle of an attribute definition. -/
def pend : Hd → Bool
  | .attlist3 | .attlist4 | .attlist6 | .attlist7 | .attlist8 | .attlist9 => true
  | _ => false

/-- What may be left in the pool for strings in the making: the type of the attribute being declared. -/
def Left (c : PCfg) (h : Hd) (s : DState) : Prop :=
  s.tmp = [] ∨ (pend h = true ∧ s.D.keep = true ∧ c.attlistDecl = true ∧ s.ty = .built)

/-- A round has made legal calls and leaves a state that lets the next do so. -/
def Acted.Legal (c : PCfg) (a : Acted) : Prop :=
  (∀ v ∈ a.1, LegalDecl v) ∧ ∀ d, a.2.2 = .go d → Ids a.2.1 ∧ Left c a.2.1.el.p.h a.2.1

theorem Ids.same {s s' : DState} (h : Ids s) (h1 : s'.dSys = s.dSys) (h2 : s'.dPub = s.dPub) (h3 : s'.nPub = s.nPub) (h4 : s'.D.gen = s.D.gen)
    (h5 : s'.D.par = s.D.par) : Ids s' := ⟨h1 ▸ h.sys, h2 ▸ h.pub, h3 ▸ h.npub, h4 ▸ h.gen, h5 ▸ h.par⟩

theorem Ids.setDecl {s : DState} (h : Ids s) {f : Entity → Entity} (hf : ∀ e, EntIds e → EntIds (f e)) : Ids (s.setDecl f) := by
  unfold DState.setDecl
  split
  · exact h
  · exact ⟨h.sys, h.pub, h.npub, h.gen, h.par.set hf⟩
  · exact ⟨h.sys, h.pub, h.npub, h.gen.set hf, h.par⟩

theorem setDecl_tmp (s : DState) (f : Entity → Entity) : (s.setDecl f).tmp = s.tmp := by
  unfold DState.setDecl
  split <;> rfl

theorem declEnt_ids {s : DState} (h : Ids s) {p : Bool} {n : Buf} {e : Entity} (he : s.declEnt = some (p, n, e)) : EntIds e := by
  unfold DState.declEnt at he
  split at he
  · cases he
  · rename_i m _
    cases hg : tabGet s.D.par m with
    | none => rw [hg] at he; cases he
    | some v => rw [hg] at he; cases he; exact h.par _ _ hg
  · rename_i m _
    cases hg : tabGet s.D.gen m with
    | none => rw [hg] at he; cases he
    | some v => rw [hg] at he; cases he; exact h.gen _ _ hg

/-! ### Roles -/

/-- Which roles tokens may have, as far as needed here. -/
structure RoleText (h : Hd) (t : Tok) (h' : Hd) (r : Role) : Prop where
  pend : pend h = true → (r = .ATTLIST_NONE ∨ r = .ATTRIBUTE_ENUM_VALUE ∨ r = .ATTRIBUTE_NOTATION_VALUE) ∧ pend h' = true ∨
    (r = .IMPLIED_ATTRIBUTE_VALUE ∨ r = .REQUIRED_ATTRIBUTE_VALUE ∨ r = .DEFAULT_ATTRIBUTE_VALUE ∨ r = .FIXED_ATTRIBUTE_VALUE) ∨ r = .ERROR
  enum : r = .ATTRIBUTE_ENUM_VALUE ∨ r = .ATTRIBUTE_NOTATION_VALUE → Verif.pend h' = true
  lit : r = .DOCTYPE_SYSTEM_ID ∨ r = .DOCTYPE_PUBLIC_ID ∨ r = .ENTITY_SYSTEM_ID ∨ r = .ENTITY_PUBLIC_ID ∨ r = .NOTATION_SYSTEM_ID ∨
    r = .NOTATION_PUBLIC_ID → t = .LITERAL
  com : r = .COMMENT → t = .COMMENT
  pi : r = .PI → t = .PI

theorem none_text {h h' : Hd} {t : Tok} {r : Role} (hr : r.none_ = true) (hh : pend h = false) : RoleText h t h' r := by
  constructor <;> (cases r <;> simp_all [Role.none_])

theorem handle_text {e : Enc} {p : PState} (hn : p.roleNone.none_ = true) (hde : p.documentEntity = true) (hh : docHd p.h = true) {t : Tok} {w : Buf}
    {q : PState × Role} (h : p.handle e t w = some q) : RoleText p.h t q.1.h q.2 := by
  obtain ⟨g, lv, rn, il, de, iv⟩ := p
  simp only at hde hn
  subst hde
  cases g <;>
    first
    | (simp [docHd] at hh; done)
    | (simp only [handle, prolog0, prolog1, prolog2, doctype0, doctype1, doctype2, doctype3, doctype4, doctype5, internalSubset,
      entity0, entity1, entity2, entity3, entity4, entity5, entity6, entity7, entity8, entity9, entity10, notation0, notation1,
      notation2, notation3, notation4, attlist0, attlist1, attlist2, attlist3, attlist4, attlist5, attlist6, attlist7, attlist8, attlist9, element0,
      element1, element2, element3, element4, element5, element6, element7, declClose, go, stay, close, top, closeGroup] at h
       (repeat' split at h) <;> first
      | (cases h; done)
      | (injection h with h; subst h; exact none_text hn rfl)
      | (injection h with h; subst h; constructor <;> simp [Verif.pend]))

theorem next_text {e : Enc} {p : PState} (hn : p.roleNone.none_ = true) (hde : p.documentEntity = true) (hh : docHd p.h = true) (t : Tok) (w : Buf) :
    RoleText p.h t (p.next e t w).1.h (p.next e t w).2 := by
  rw [next]
  cases h : p.handle e t w with
  | some q => exact handle_text hn hde hh h
  | none =>
    have hf : p.fall = p := by
      obtain ⟨g, lv, rn, il, de, iv⟩ := p
      cases g <;> first | rfl | (simp [docHd] at hh)
    simp only [Option.getD_none, hf, common, hde, Bool.not_true, Bool.false_and, if_neg Bool.false_ne_true]
    constructor <;> simp

end Verif
