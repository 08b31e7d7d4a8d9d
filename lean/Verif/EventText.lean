import Verif.SubsetInv

/-! Texts handed to handlers consist of legal characters: lemmas about texts, tokens and attribute values. -/

set_option autoImplicit false

namespace Verif.C62
open C43 C53 C61 Spec Verif

/-! ### Legal texts -/

theorem legal_cons {c : Nat} {b : Buf} (hc : XmlChar c) (h : LegalText b) : LegalText (utf8 c ++ b) := (LegalText.one hc).app h

theorem legal_byte {d : UInt8} (hd : d < 0x80) (hx : XmlChar d.toNat) : LegalText [d] := by
  have := LegalText.one hx
  rwa [← C33.utf8_one hd] at this

/-- A text cut at an ASCII character. -/
theorem legal_cut {d : UInt8} (hd : d < 0x80) : ∀ {a b : Buf}, LegalText (a ++ d :: b) → LegalText a ∧ LegalText b := by
  intro a b h
  obtain ⟨cs, h1, h2⟩ := h
  induction cs generalizing a with
  | nil => cases a <;> simp [utf8s] at h2
  | cons c cs ih =>
    rw [C51.utf8s_cons] at h2
    have hx := h1 c (by simp)
    have ht : ∀ c ∈ cs, XmlChar c := fun d hd => h1 d (by simp [hd])
    rcases List.append_eq_append_iff.1 h2 with ⟨a', g1, g2⟩ | ⟨c', g1, g2⟩
    · cases a' with
      | nil =>
        rw [List.append_nil] at g1
        obtain ⟨-, g⟩ := ih (a := []) ht (by simpa using g2)
        exact ⟨by rw [← g1]; exact .one hx, g⟩
      | cons u a' =>
        simp only [List.cons_append, List.cons.injEq] at g2
        obtain ⟨rfl, g2⟩ := g2
        have hm : d ∈ utf8 c := by rw [g1]; simp
        have h3 := utf8_lt hm hd (by unfold XmlChar at hx; omega)
        rw [h3] at g1
        cases a with
        | cons _ a => cases a <;> simp at g1
        | nil =>
          simp only [List.nil_append, List.cons.injEq, true_and] at g1
          cases g1
          exact ⟨.nil, cs, ht, by simpa using g2⟩
    · obtain ⟨g3, g4⟩ := ih (a := c') ht (by simpa using g2.symm)
      exact ⟨by rw [g1]; exact legal_cons hx g3, g4⟩

theorem legal_squeeze (b : Buf) : ∀ p : Buf, LegalText (p ++ b) → LegalText (p ++ C33.squeeze b) := by
  fun_induction C33.squeeze b with
  | case1 => exact fun _ h => h
  | case2 => exact fun _ h => h
  | case3 c d r h ih =>
    intro p hp
    obtain ⟨rfl, rfl⟩ := h
    obtain ⟨h1, h2⟩ := legal_cut (by decide) hp
    exact ih p (h1.app h2)
  | case4 c d r h ih =>
    intro p hp
    have := ih (p ++ [c]) (by simpa using hp)
    simpa using this

theorem legal_dropRev (l : Buf) : LegalText l.reverse → LegalText (l.dropWhile (· == 0x20)).reverse := by
  induction l with
  | nil => exact fun h => h
  | cons c l ih =>
    intro h
    rw [List.dropWhile_cons]
    split
    · rename_i hc
      have hc : c = 0x20 := by simpa using hc
      subst hc
      rw [List.reverse_cons] at h
      exact ih (legal_cut (by decide) h).1
    · exact h

theorem legal_drop (l : Buf) : LegalText l → LegalText (l.dropWhile (· == 0x20)) := by
  induction l with
  | nil => exact fun h => h
  | cons c l ih =>
    intro h
    rw [List.dropWhile_cons]
    split
    · rename_i hc
      have hc : c = 0x20 := by simpa using hc
      subst hc
      exact ih (legal_cut (a := []) (by decide) h).2
    · exact h

theorem legal_collapse {b : Buf} (h : LegalText b) : LegalText (C33.collapse b) := by
  rw [C33.collapse, C33.trim]
  exact legal_dropRev _ (by rw [List.reverse_reverse]; exact legal_drop _ (legal_squeeze b [] h))

theorem legal_lineEnds (b : Buf) : ∀ p : Buf, LegalText (p ++ b) → LegalText (p ++ C14.lineEnds b) := by
  have hl : LegalText [0x0A] := legal_byte (by decide) (by decide)
  fun_induction C14.lineEnds b with
  | case1 => exact fun _ h => h
  | case2 =>
    intro p h
    exact (legal_cut (by decide) h).1.app hl
  | case3 d r ih2 ih1 =>
    intro p h
    obtain ⟨h1, h2⟩ := legal_cut (by decide) h
    split
    · rename_i hd
      subst hd
      obtain ⟨-, h3⟩ := legal_cut (a := []) (by decide) h2
      have := ih2 (p ++ [0x0A]) ((h1.app hl).app h3)
      simpa using this
    · have := ih1 (p ++ [0x0A]) ((h1.app hl).app h2)
      simpa using this
  | case4 c d r hc ih =>
    intro p h
    have := ih (p ++ [c]) (by simpa using h)
    simpa using this
  | case5 => exact fun _ h => h

/-! ### Attribute values -/

theorem legal_predefined {n : List UInt8} {c : UInt8} (h : (n, c) ∈ C10.predefined) : LegalText [c] := by
  simp only [C10.predefined, List.mem_cons, Prod.mk.injEq, List.not_mem_nil, or_false] at h
  rcases h with ⟨_, rfl⟩ | ⟨_, rfl⟩ | ⟨_, rfl⟩ | ⟨_, rfl⟩ | ⟨_, rfl⟩ <;> exact legal_byte (by decide) (by decide)

theorem norm_legal {D : Dtd} {check ns : Bool} {x : XEnc} {asc : UInt8 → Buf} {le : Bool} {op : List Buf} {b out : Buf}
    (h : C33.Norm D check (internalUtf8X ns) x asc le op b out) : XSupported x asc → LegalText out := by
  have hs : LegalText [0x20] := legal_byte (by decide) (by decide)
  induction h with
  | nil => exact fun _ => .nil
  | crlf _ ih => exact fun S => hs.app (ih S)
  | space _ _ _ _ ih => exact fun S => hs.app (ih S)
  | char w hw _ _ _ _ ih =>
    intro S
    obtain ⟨c, h1, h2⟩ := conv_legal S hw
    rw [h2]
    exact legal_cons h1 (ih S)
  | dec _ _ _ hx _ ih => exact fun S => legal_cons hx (ih S)
  | hex _ _ _ hx _ ih => exact fun S => legal_cons hx (ih S)
  | predefined _ _ hn _ ih => exact fun S => (legal_predefined hn).app (ih S)
  | entity _ _ _ _ _ _ _ _ _ _ _ _ _ ih1 ih2 => exact fun S => (ih1 (.internalUtf8 ns)).app (ih2 S)
  | skipped _ _ _ _ _ _ ih => exact ih

theorem value_legal {D : Dtd} {check ns : Bool} {x : XEnc} {asc : UInt8 → Buf} (S : XSupported x asc) (hD : C33.TextsOk D (internalUtf8X ns))
    {cd : Bool} {op : List Buf} {b v : Buf} (hb : Lit x.e asc b)
    (h : storeAttributeValue D check (internalUtf8X ns) x cd op b = .ok v) : LegalText v := by
  obtain ⟨out, h1, rfl⟩ := (C33.literal_value S hD cd op hb v).1 h
  have := norm_legal h1 S
  split
  · exact this
  · exact legal_collapse this

/-- The value of every attribute found in a tag. -/
theorem atts_legal {D : Dtd} {ns : Bool} {x : XEnc} {asc : UInt8 → Buf} (S : XSupported x asc) (hD : C33.TextsOk D (internalUtf8X ns))
    (op : List Buf) (et : ElemType) (rest : Buf) {p : Nat} {as : List AttrSrc} {l : List Att} (h : AttsAt x.e asc p as l) :
    ∀ pre : Buf, pre.length = p → (∀ a ∈ as, AttrSrc.Valid x.e asc a) → ∀ a ∈ l, ∀ name v,
      attValue D (internalUtf8X ns) x op et (pre ++ (attsText asc as ++ rest)) a name = .ok v → LegalText v := by
  induction h with
  | nil => intro _ _ _ a ha; simp at ha
  | @cons p a as l n hn h ih =>
    intro pre hp ha u hu name v hv
    subst hp
    have hb : pre ++ (attsText asc (a :: as) ++ rest) = pre ++ (a.text asc ++ (attsText asc as ++ rest)) := by simp [attsText]
    have hb' : pre ++ (attsText asc (a :: as) ++ rest) = (pre ++ a.text asc) ++ (attsText asc as ++ rest) := by simp [attsText]
    rcases List.mem_cons.1 hu with rfl | hu
    · rw [hb, attValue, C33.att_literal S] at hv
      cases n with
      | false =>
        simp only [attAt, Bool.not_false, if_true] at hv
        exact value_legal S hD (ha a (by simp)).value.lit hv
      | true =>
        simp only [attAt, Bool.not_true, Bool.false_eq_true, if_false, Except.ok.injEq] at hv
        rw [← hv]
        exact norm_legal (D := D) (check := false) (ns := ns) (le := true) (op := []) (C33.plain_norm S (hn rfl)) S
    · rw [hb'] at hv
      exact ih (pre ++ a.text asc) (by simp) (fun a h => ha a (by simp [h])) u hu name v hv

/-- The default values of attributes are legal. -/
def DefaultsOk (D : Dtd) : Prop := ∀ raw, ∀ d ∈ (D.elem raw).atts, ∀ v, d.value = some v → LegalText v

theorem chain_inv {α σ ε : Type} {f : σ → α → List Ev × Except ε σ} {Q : σ → Prop} : ∀ (as : List α) (s : σ),
    (∀ s, ∀ a ∈ as, Q s → ∀ E s', f s a = (E, .ok s') → Q s') → Q s → ∀ E s', chain f s as = (E, .ok s') → Q s'
  | [], s, _, hq, E, s', h => by
    rw [chain] at h
    cases h
    exact hq
  | a :: as, s, H, hq, E, s', h => by
    rw [chain] at h
    split at h
    · cases h
    · rename_i E1 s1 h1
      simp only [Prod.mk.injEq] at h
      exact chain_inv as s1 (fun s b hb => H s b (by simp [hb])) (H s a (by simp) hq _ _ h1) _ _ (Prod.ext rfl h.2)

/-- All values are legal. -/
def Vals (as : List (Buf × Buf)) : Prop := ∀ p ∈ as, LegalText p.2

theorem Vals.snoc {as : List (Buf × Buf)} {n v : Buf} (h : Vals as) (hv : LegalText v) : Vals (as ++ [(n, v)]) := by
  intro p hp
  rcases List.mem_append.1 hp with hp | hp
  · exact h p hp
  · rw [List.mem_singleton.1 hp]; exact hv

theorem expand_vals {c : Cfg} {env : Env} : ∀ (as : List (Buf × Buf)) (n : Nat) (f : Buf → AFlag) (seen : List Buf) (bs : List (Buf × Buf))
    (g : Buf → AFlag), expandNames c env n f seen as = .ok (bs, g) → bs.map (·.2) = as.map (·.2)
  | [], n, f, seen, bs, g, h => by
    rw [expandNames] at h
    cases h; rfl
  | (name, v) :: as, n, f, seen, bs, g, h => by
    rw [expandNames] at h
    simp only at h
    (repeat' split at h) <;> cases h <;> simp only [List.map_cons] <;> rename_i hr <;> rw [expand_vals _ _ _ _ _ _ hr]

theorem stored_legal {c : Cfg} {D : Dtd} {ns : Bool} {x : XEnc} {asc : UInt8 → Buf} (S : XSupported x asc)
    (hD : C33.TextsOk D (internalUtf8X ns)) (hd : DefaultsOk D) {op : List Buf} {flags : Buf → AFlag} {env : Env} {raw : Buf}
    {name : List Buf} (hn : QName x.e asc name) {as : List AttrSrc} (ha : ∀ a ∈ as, AttrSrc.Valid x.e asc a) {ws : List UInt8} (hw : AllWS ws)
    (empty : Bool) {E : List Ev} {t : Stored}
    (h : storeAtts c D (internalUtf8X ns) x op flags env raw
      (asc 0x3C ++ (name.flatten ++ (attsText asc as ++ closeText asc ws empty))) = (E, .ok t)) : Vals t.atts := by
  have hg := getAtts_spec S.s hn ha hw empty []
  rw [List.append_nil] at hg
  have hv := atts_legal S hD op (D.elem raw) (closeText asc ws empty) hg (asc 0x3C ++ name.flatten) (by simp [S.s.asc.len]) ha
  rw [List.append_assoc] at hv
  generalize asc 0x3C ++ (name.flatten ++ (attsText asc as ++ closeText asc ws empty)) = b at *
  rw [storeAtts] at h
  split at h
  · cases h
  · rename_i E1 s1 h1
    have q1 : Vals s1.atts := by
      refine chain_inv (Q := fun s : AState => Vals s.atts) _ _ ?_ (by intro p hp; simp at hp) _ _ h1
      intro s a ha hq E s' hs
      rw [attOne] at hs
      split at hs
      · cases hs
      · split at hs
        · cases hs
        · rename_i v hav
          have := hv a ha _ v hav
          split at hs
          · cases hs; exact hq.snoc this
          · cases hs; exact hq.snoc this
          · split at hs
            · cases hs
            · cases hs; exact hq
    simp only at h
    split at h
    · cases h
    · rename_i E2 s2 h2
      have q2 : Vals s2.atts := by
        refine chain_inv (Q := fun s : AState => Vals s.atts) _ _ ?_ q1 _ _ h2
        intro s d hdm hq E s' hs
        rw [defOne] at hs
        split at hs
        · cases hs; exact hq
        · rename_i v hdv
          have := hd raw d hdm v hdv
          split at hs
          · cases hs; exact hq
          · split at hs
            · cases hs; exact hq.snoc this
            · cases hs; exact hq.snoc this
            · split at hs
              · cases hs
              · cases hs; exact hq
      split at h
      · cases h
      · rename_i atts f h3
        split at h
        · cases h
        · cases h
          have := expand_vals _ _ _ _ _ _ h3
          intro p hp
          have hp2 : p.2 ∈ atts.map (·.2) := List.mem_map.2 ⟨p, hp, rfl⟩
          rw [this] at hp2
          obtain ⟨q, hq, h5⟩ := List.mem_map.1 hp2
          rw [← h5]
          exact q2 q hq

/-! ### Pieces of a long text -/

theorem loop_prefix {e : Enc} {step : Buf → Nat → CStep} (hs : CharStep e step) (hu : C12.Uniform step)
    (hl : ∀ w, e.IsChar w → 0 < w.length)
    (hx : ∀ w, e.IsChar w → LegalText (convLoop step w (4 * w.length + 4)).out) (ws : List Buf) (hw : e.Chars ws) (cap : Nat) :
    LegalText (convLoop step ws.flatten cap).out ∧ ∃ vs, e.Chars vs ∧ (convLoop step ws.flatten cap).rest = vs.flatten := by
  induction ws generalizing cap with
  | nil =>
    rw [List.flatten_nil, convLoop, dif_pos rfl]
    exact ⟨.nil, [], hw, rfl⟩
  | cons w ws ih =>
    obtain ⟨o, ho⟩ := hs w hw.head
    have h0 := hl w hw.head
    have hne : w ≠ [] := by rintro rfl; simp at h0
    have hne2 : w ++ ws.flatten ≠ [] := by simp [hne]
    have hlo : LegalText o := by
      have h1 := hx w hw.head
      have h2 := ho [] (4 * w.length + 4) (by omega)
      rw [List.append_nil] at h2
      rwa [loop1 hne h2 (by omega)] at h1
    have h4 := ho ws.flatten 4 (by omega)
    have hcap : step (w ++ ws.flatten) cap = .emit o (w.length - 1) ∨ step (w ++ ws.flatten) cap = .stop .outputExhausted := by
      rcases hu _ hne2 with ⟨w', k, h⟩ | h
      · rcases h 4 with ⟨_, h2⟩ | ⟨_, h2⟩
        · rw [h4] at h2
          injection h2 with h2 h3
          subst h2 h3
          rcases h cap with ⟨_, h⟩ | ⟨_, h⟩
          · exact .inl h
          · exact .inr h
        · rw [h4] at h2; cases h2
      · rcases h 4 with h | h <;> rw [h4] at h <;> cases h
    rw [List.flatten_cons, convLoop, dif_neg hne2]
    rcases hcap with h | h
    · rw [h]
      simp only
      rw [show w.length - 1 + 1 = w.length by omega, List.drop_left]
      obtain ⟨g1, g2⟩ := ih hw.tail (cap - o.length)
      exact ⟨hlo.app g1, g2⟩
    · rw [h]
      exact ⟨.nil, w :: ws, hw, rfl⟩

theorem conv_prefix {x : XEnc} {asc : UInt8 → Buf} (S : XSupported x asc) (hu : x.isUtf8 = false) {ws : List Buf} (hw : x.e.Chars ws) (cap : Nat) :
    LegalText (x.conv ws.flatten cap).out ∧ ∃ vs, x.e.Chars vs ∧ (x.conv ws.flatten cap).rest = vs.flatten := by
  have hl : ∀ w, x.e.IsChar w → 0 < w.length := by
    intro w hw
    have := Enc.isChar_len S.s.mb hw
    have : x.e.mb = x.e.m + 1 := rfl
    omega
  have hx : ∀ w, x.e.IsChar w → LegalText (x.conv w (4 * w.length + 4)).out := by
    intro w hw
    obtain ⟨c, h1, h2⟩ := conv_legal S hw
    have h3 : (x.conv w (4 * w.length + 4)).out = utf8 c := h2
    rw [h3]
    exact .one h1
  have hdv := S.s.dvds hw
  have hdv1 : ∀ w, x.e.IsChar w → x.e.mb ∣ w.length := by
    intro w hw
    have := S.s.dvds (ws := [w]) (by intro u hu; rw [List.mem_singleton.1 hu]; exact hw)
    simpa using this
  cases S with
  | utf8 ns => cases hu
  | internalUtf8 ns => cases hu
  | ascii ns => cases hu
  | latin1 ns => exact loop_prefix (latin1_charStep ns) C12.uniform_latin1 hl hx ws hw cap
  | utf16le ns =>
    have hdv : 2 ∣ ws.flatten.length := hdv
    simp only [little2X, little2Convert] at hx ⊢
    rw [C12.take_even (by omega)]
    refine loop_prefix (little2_charStep ns) (C12.uniform_utf16 _ _) hl ?_ ws hw cap
    intro w hw
    have h2 : 2 ∣ w.length := hdv1 w hw
    have := hx w hw
    rwa [C12.take_even (by omega)] at this
  | utf16be ns =>
    have hdv : 2 ∣ ws.flatten.length := hdv
    simp only [big2X, big2Convert] at hx ⊢
    rw [C12.take_even (by omega)]
    refine loop_prefix (big2_charStep ns) (C12.uniform_utf16 _ _) hl ?_ ws hw cap
    intro w hw
    have h2 : 2 ∣ w.length := hdv1 w hw
    have := hx w hw
    rwa [C12.take_even (by omega)] at this

theorem deliver_legal {x : XEnc} {asc : UInt8 → Buf} (S : XSupported x asc) (hu : x.isUtf8 = false) (n : Nat) : ∀ (ws : List Buf), x.e.Chars ws →
    ws.flatten.length = n → ∀ p ∈ deliver x ws.flatten, LegalText p := by
  induction n using Nat.strongRecOn with
  | _ n ih =>
    intro ws hw hn p hp
    obtain ⟨h1, vs, h2, h3⟩ := conv_prefix S hu hw 1024
    rw [deliver] at hp
    split at hp
    · rename_i h
      rcases List.mem_cons.1 hp with rfl | hp
      · exact h1
      · rw [h3] at hp h
        exact ih _ (by omega) vs h2 rfl p hp
    · rw [List.mem_singleton.1 hp]; exact h1

/-- Every call of a handler with a part of a text gets whole, legal characters. -/
theorem pieces_legal {x : XEnc} {asc : UInt8 → Buf} (S : XSupported x asc) {ws : List Buf} (hw : x.e.Chars ws) :
    ∀ p ∈ pieces x ws.flatten, LegalText p := by
  intro p hp
  rw [pieces] at hp
  split at hp
  · rename_i hu
    rw [List.mem_singleton.1 hp]
    obtain ⟨cs, h1, h2⟩ := conv_legals S hw
    refine ⟨cs, h1, ?_⟩
    rw [← h2, conv_chars S hw]
    congr 1
    clear hp h2 h1
    induction ws with
    | nil => rfl
    | cons w ws ih => rw [List.map_cons, conv_one S hw.head hu, ← ih hw.tail]
  · rename_i hu
    exact deliver_legal S (by simpa using hu) _ ws hw rfl p hp

/-! ### Tokens of character data -/

theorem content_data {e : Enc} {asc : UInt8 → Buf} (s : Supported e asc) {b : Buf} {n : Nat} (h : contentTok e b = ⟨.DATA_CHARS, n⟩) :
    ∃ ws, e.Chars ws ∧ b.take n = ws.flatten := by
  obtain ⟨ws, r, -, h2, h3, h4, -⟩ := C05.data_token s b n h
  exact ⟨ws, fun w hw => (h2 w hw).1, by rw [h3, h4, List.take_left' rfl]⟩

theorem cdata_data {e : Enc} {asc : UInt8 → Buf} (s : Supported e asc) {b : Buf} (hd : e.mb ∣ b.length) {n : Nat}
    (h : cdataSectionTok e b = ⟨.DATA_CHARS, n⟩) : ∃ ws, e.Chars ws ∧ b.take n = ws.flatten := by
  by_cases hb : e.mb ≤ b.length
  · rw [cdataSectionTok_eq hb, trunc_whole s hd] at h
    obtain ⟨w, ws, r, h1, -, -, h2, h3⟩ := cdataTokBody_data s b n hb h
    exact ⟨w :: ws, fun u hu => (h1 u hu).1, by rw [h2, h3, List.take_left' rfl]⟩
  · have : b = [] := by
      rcases Nat.eq_zero_or_pos b.length with h5 | h5
      · exact List.length_eq_zero_iff.1 h5
      · exact absurd (Nat.le_of_dvd h5 hd) hb
    subst this
    exact ⟨[], fun _ h => by simp at h, by simp⟩

theorem trailing_data {e : Enc} {asc : UInt8 → Buf} (s : Supported e asc) {b : Buf} (hd : e.mb ∣ b.length) {n : Nat}
    (h : contentTok e b = ⟨.TRAILING_RSQB, n⟩) : ∃ ws, e.Chars ws ∧ b = ws.flatten := by
  have hc : e.IsChar (asc 0x5D) := asc_char s (t := .RSQB) rfl
  rcases content_first s hd h (by simp) with ⟨w, r, h1, h2, h3, h4, h5'⟩ | ⟨r, rfl⟩ | ⟨hl, r, rfl⟩
  · subst h1
    have hcr : e.bt w ≠ .CR := by
      intro hb
      have := cr_asc s h2.1 hb
      subst this
      have := h2.2.2 rfl
      simp only [Enc.lineEnds, hb] at this
      revert this
      decide
    rcases content_char s h2.1 h3 h4 h2.2.1 hcr (by assumption) hd with h5 | ⟨rfl, h6, -⟩
    · rw [h5] at h
      rcases contentLoop_tok e r 0 with h6 | h6
      · have := congrArg Res.tok h
        rw [Res.shift, h6] at this; cases this
      · have := congrArg Res.tok h
        simp only [Res.shift] at this
        rw [this] at h6; cases h6
    · rcases h6 with rfl | rfl
      · exact ⟨[asc 0x5D], by intro u hu; rw [List.mem_singleton.1 hu]; exact hc, by simp⟩
      · refine ⟨[asc 0x5D, asc 0x5D], ?_, by simp⟩
        intro u hu
        simp only [List.mem_cons, List.not_mem_nil, or_false, or_self] at hu
        rw [hu]; exact hc
  · rw [content_lf s hd] at h; cases h
  · by_cases hn : ∀ r', r ≠ asc 0x0A ++ r'
    · have := content_cr s hl hd hn
      grind
    · have : ∃ r', r = asc 0x0A ++ r' := by
        apply Classical.byContradiction
        intro hh
        exact hn fun r' hr => hh ⟨r', hr⟩
      obtain ⟨r', rfl⟩ := this
      rw [content_crlf s hl hd] at h; cases h

end Verif.C62
