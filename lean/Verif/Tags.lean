import Verif.NameTables

/-! The grammar of references and start tags, and that the scanners recognise exactly it. -/

namespace Verif
open Tables Spec

theorem Tok.fail_err {t : Tok} (h : t.fail) : t.isError = true := by
  rcases h with rfl | rfl | rfl <;> rfl

/-- The text of a reference after its `&`. -/
inductive Ref (e : Enc) (asc : UInt8 → Buf) : Tok → Buf → Prop
  | entity (ws : List Buf) : e.Name ws → Ref e asc .ENTITY_REF (ws.flatten ++ asc 0x3B)
  | dec (ds : List UInt8) : ds ≠ [] → (∀ d ∈ ds, isDec d = true) →
      Ref e asc .CHAR_REF (asc 0x23 ++ ((ds.map asc).flatten ++ asc 0x3B))
  | hex (ds : List UInt8) : ds ≠ [] → (∀ d ∈ ds, (isDec d || isHexLetter d) = true) →
      Ref e asc .CHAR_REF (asc 0x23 ++ (asc 0x78 ++ ((ds.map asc).flatten ++ asc 0x3B)))

theorem spell_length {e asc} (s : Supported e asc) (ds : List UInt8) :
    ((ds.map asc).flatten).length = ds.length * e.mb := by
  induction ds with
  | nil => simp
  | cons d ds ih => simp [ih, s.asc.len, Nat.add_mul]; omega

/-- `scanRef` recognises exactly the references. -/
theorem scanRef_iff {e asc} (s : Supported e asc) (b : Buf) (p n : Nat) (t : Tok)
    (ht : t.isError = false) :
    scanRef e b p = ⟨t, n⟩ ↔ ∃ w r, Ref e asc t w ∧ b = w ++ r ∧ n = p + w.length := by
  have l (c) := s.asc.len c
  constructor
  · intro h
    have hcases : t = .CHAR_REF ∨ t = .ENTITY_REF := by
      rcases scanRef_tok e b p with h1 | h1 | h1
      · have := Tok.fail_err h1
        rw [h, ht] at this; cases this
      · rw [h] at h1; exact .inl h1
      · rw [h] at h1; exact .inr h1
    rcases hcases with rfl | rfl
    · rcases (C09.charRef_token s b p n).1 h with ⟨ds, r, h1, h2, rfl, rfl⟩ | ⟨ds, r, h1, h2, rfl, rfl⟩
      · refine ⟨_, r, .dec ds h1 h2, by simp, ?_⟩
        simp [l, spell_length s, Nat.add_mul]; omega
      · refine ⟨_, r, .hex ds h1 h2, by simp, ?_⟩
        simp [l, spell_length s, Nat.add_mul]; omega
    · rw [scanRef] at h
      split at h
      · cases h
      split at h
      · rename_i h2
        have := Tok.fail_err (nmstrtCases_fail h2)
        rw [h] at this; cases this
      · rename_i hb _ k h2
        obtain ⟨hc, hl⟩ := nmstrtCases_split s.ok s.mb (by omega) h2
        obtain ⟨ws, r, i1, i2, i3⟩ := (scanNameSemi_iff s _ ht _ _ _).1 h
        refine ⟨(b.take (k + 1) :: ws).flatten ++ asc 0x3B, r, .entity _ ⟨_, _, rfl, hc, i1⟩, ?_, ?_⟩
        · rw [List.flatten_cons, List.append_assoc, List.append_assoc, ← i2,
            List.take_append_drop]
        · rw [i3, List.flatten_cons, List.length_append, List.length_append, l, List.length_take,
            Nat.min_eq_left hl]; omega
      · split at h
        · rcases scanCharRef_tok e (b.drop e.mb) (p + e.mb) with h1 | h1
          · have := Tok.fail_err h1
            rw [h] at this; cases this
          · rw [h] at h1; cases h1
        · cases h
  · rintro ⟨w, r, hr, rfl, rfl⟩
    cases hr with
    | entity ws hn =>
      obtain ⟨w, vs, rfl, h1, h2⟩ := hn
      rw [List.flatten_cons, List.append_assoc, List.append_assoc]
      obtain ⟨k, hk, hk2⟩ := nmstrtCases_char s.ok s.mb h1 (vs.flatten ++ (asc 0x3B ++ r)) p
      have := h1.len s.mb
      rw [scanRef, if_neg (by rw [List.length_append]; omega), hk]
      simp only
      rw [← hk2, List.drop_left' rfl, (scanNameSemi_iff s _ ht _ _ _).2 ⟨vs, r, h2, by simp, rfl⟩]
      simp [l]; omega
    | dec ds h1 h2 =>
      rw [List.append_assoc, List.append_assoc]
      refine (C09.charRef_token s _ p _).2 (.inl ⟨ds, r, h1, h2, rfl, ?_⟩)
      simp [l, spell_length s, Nat.add_mul]; omega
    | hex ds h1 h2 =>
      rw [List.append_assoc, List.append_assoc, List.append_assoc]
      refine (C09.charRef_token s _ p _).2 (.inr ⟨ds, r, h1, h2, rfl, ?_⟩)
      simp [l, spell_length s, Nat.add_mul]; omega

/-- The class COLON (namespace-aware tables) is only at `:`. -/
theorem colon_table : ∀ t ∈ allTables, ∀ c : UInt8, tableBt t c = .COLON → c = 0x3A := by
  intro t ht c hc
  have h3 : ∀ t ∈ allTables, ∀ n < 256, tableBt t (UInt8.ofNat n) = .COLON → n = 0x3A := by
    decide +kernel
  have := h3 t ht c.toNat c.toNat_lt (by rw [UInt8.ofNat_toNat]; exact hc)
  rw [← UInt8.toNat_inj]; exact this

theorem colon_split {e asc} (s : Supported e asc) {b : Buf} (hb : e.mb ≤ b.length)
    (h : e.bt b = .COLON) : b = asc 0x3A ++ b.drop e.mb ∧ e.bt (asc 0x3A) = .COLON := by
  have key : b.take e.mb = asc 0x3A := by
    have one : ∀ t ∈ allTables, 1 ≤ b.length → tableBt t (byteAt b 0) = .COLON →
        b.take 1 = asc1 0x3A := by
      intro t ht hb h
      rw [take1 hb, colon_table t ht _ h]; rfl
    have uni : ∀ x y, unicodeByteType x y ≠ .COLON := by
      intro x y; simp only [unicodeByteType]; grind
    cases s with
    | utf8 ns => exact one _ (table_mem ns).1 hb h
    | internalUtf8 ns => exact one _ (table_mem ns).2.1 hb h
    | latin1 ns => exact one _ (table_mem ns).2.2.1 hb h
    | ascii ns => exact one _ (table_mem ns).2.2.2 hb h
    | utf16le ns =>
      have hb : 2 ≤ b.length := hb
      have h : (if byteAt b 1 = 0 then _ else _) = ByteType.COLON := h
      split at h
      · rename_i h0
        show b.take 2 = ascL 0x3A
        rw [take2 hb, colon_table _ (table_mem ns).2.2.1 _ h, h0]; rfl
      · exact absurd h (uni _ _)
    | utf16be ns =>
      have hb : 2 ≤ b.length := hb
      have h : (big2Bt? (if ns then latin1EncodingTableNS else latin1EncodingTable) b).getD .NONXML
        = ByteType.COLON := h
      rw [big2Bt?] at h
      split at h
      · rename_i h0
        split at h
        · show b.take 2 = ascB 0x3A
          rw [take2 hb, colon_table _ (table_mem ns).2.2.1 _ h, h0]; rfl
        · cases h
      · exact absurd h (uni _ _)
  have h1 : b = asc 0x3A ++ b.drop e.mb := by rw [← key, List.take_append_drop]
  refine ⟨h1, ?_⟩
  rw [h1, s.ok.bt_app _ _ (by rw [s.asc.len]; exact Nat.le_refl _)] at h
  exact h

/-- A QName as the tokenizer sees it: a name, or two joined by a colon (when the encoding tables
are the namespace-aware ones; otherwise the colon is an ordinary name character). -/
inductive QName (e : Enc) (asc : UInt8 → Buf) : List Buf → Prop
  | plain (ws) : e.Name ws → QName e asc ws
  | pair (us vs) : e.Name us → e.Name vs → e.bt (asc 0x3A) = .COLON →
      QName e asc (us ++ asc 0x3A :: vs)

/-- An attribute value between quotes `q`. -/
inductive Value (e : Enc) (asc : UInt8 → Buf) (q : UInt8) : Buf → Prop
  | nil : Value e asc q []
  | char (w v : Buf) : e.IsChar w → w ≠ asc 0x3C → w ≠ asc 0x26 → w ≠ asc q → Value e asc q v →
      Value e asc q (w ++ v)
  | ref (t : Tok) (w v : Buf) : Ref e asc t w → Value e asc q v → Value e asc q (asc 0x26 ++ (w ++ v))

/-- All white space. -/
def AllWS (cs : List UInt8) : Prop := ∀ c ∈ cs, isWS c = true

/-- The spelling of ASCII text. -/
def spell (asc : UInt8 → Buf) (cs : List UInt8) : Buf := (cs.map asc).flatten

/-- One attribute specification with the white space before it. -/
structure AttrSrc where
  ws : List UInt8
  name : List Buf
  s1 : List UInt8
  s2 : List UInt8
  q : UInt8
  value : Buf

/-- `S Name S? '=' S? '"' value '"'` -/
structure AttrSrc.Valid (e : Enc) (asc : UInt8 → Buf) (a : AttrSrc) : Prop where
  ws1 : a.ws ≠ []
  ws : AllWS a.ws
  name : QName e asc a.name
  s1 : AllWS a.s1
  s2 : AllWS a.s2
  q : a.q = 0x22 ∨ a.q = 0x27
  value : Value e asc a.q a.value

/-- The text of an attribute specification from its `=`'s white space on. -/
def AttrSrc.tail (asc : UInt8 → Buf) (a : AttrSrc) : Buf :=
  spell asc a.s1 ++ (asc 0x3D ++ (spell asc a.s2 ++ (asc a.q ++ (a.value ++ asc a.q))))

def AttrSrc.text (asc : UInt8 → Buf) (a : AttrSrc) : Buf :=
  spell asc a.ws ++ (a.name.flatten ++ a.tail asc)

/-- The end of a tag: white space, an optional `/`, and `>`. -/
def closeText (asc : UInt8 → Buf) (ws : List UInt8) (empty : Bool) : Buf :=
  spell asc ws ++ ((if empty then asc 0x2F else []) ++ asc 0x3E)

def attsText (asc : UInt8 → Buf) (as : List AttrSrc) : Buf := (as.map (AttrSrc.text asc)).flatten

/-- What may follow an attribute value. -/
structure Rest (e : Enc) (asc : UInt8 → Buf) (b : Buf) (t : Tok) (m : Nat) (as : List AttrSrc)
    (ws : List UInt8) (empty : Bool) (r : Buf) : Prop where
  atts : ∀ a ∈ as, a.Valid e asc
  space : AllWS ws
  text : b = attsText asc as ++ (closeText asc ws empty ++ r)
  tok : t = if empty then .EMPTY_ELEMENT_WITH_ATTS else .START_TAG_WITH_ATTS
  len : m = (attsText asc as).length + (closeText asc ws empty).length

def RClose (e : Enc) (asc : UInt8 → Buf) (b : Buf) (t : Tok) (m : Nat) : Prop :=
  ∃ as ws empty r, Rest e asc b t m as ws empty r

def RValue (e : Enc) (asc : UInt8 → Buf) (q : UInt8) (b : Buf) (t : Tok) (m : Nat) : Prop :=
  ∃ v r k, Value e asc q v ∧ b = v ++ (asc q ++ r) ∧ RClose e asc r t k ∧ m = v.length + e.mb + k

def ROpen (e : Enc) (asc : UInt8 → Buf) (b : Buf) (t : Tok) (m : Nat) : Prop :=
  ∃ s2 q r k, AllWS s2 ∧ (q = 0x22 ∨ q = 0x27) ∧ b = spell asc s2 ++ (asc q ++ r) ∧
    RValue e asc q r t k ∧ m = (spell asc s2).length + e.mb + k

def REq (e : Enc) (asc : UInt8 → Buf) (b : Buf) (t : Tok) (m : Nat) : Prop :=
  ∃ s1 r k, AllWS s1 ∧ b = spell asc s1 ++ (asc 0x3D ++ r) ∧ ROpen e asc r t k ∧
    m = (spell asc s1).length + e.mb + k

def RName2 (e : Enc) (asc : UInt8 → Buf) (b : Buf) (t : Tok) (m : Nat) : Prop :=
  ∃ (vs : List Buf) (r : Buf) (k : Nat), (∀ v ∈ vs, e.NameChar v) ∧ b = vs.flatten ++ r ∧
    REq e asc r t k ∧ m = vs.flatten.length + k

def RColon (e : Enc) (asc : UInt8 → Buf) (b : Buf) (t : Tok) (m : Nat) : Prop :=
  ∃ (w : Buf) (r : Buf) (k : Nat), e.NmstrtChar w ∧ b = w ++ r ∧ RName2 e asc r t k ∧
    m = w.length + k

def RName (e : Enc) (asc : UInt8 → Buf) (b : Buf) (t : Tok) (m : Nat) : Prop :=
  RName2 e asc b t m ∨
  ∃ (vs : List Buf) (r : Buf) (k : Nat), (∀ v ∈ vs, e.NameChar v) ∧
    b = vs.flatten ++ (asc 0x3A ++ r) ∧ e.bt (asc 0x3A) = .COLON ∧ RColon e asc r t k ∧
    m = vs.flatten.length + e.mb + k

def RSol (e : Enc) (asc : UInt8 → Buf) (b : Buf) (t : Tok) (m : Nat) : Prop :=
  ∃ r, b = asc 0x3E ++ r ∧ t = .EMPTY_ELEMENT_WITH_ATTS ∧ m = e.mb

def RWs (e : Enc) (asc : UInt8 → Buf) (b : Buf) (t : Tok) (m : Nat) : Prop :=
  ∃ (ws : List UInt8) (r : Buf) (k : Nat), AllWS ws ∧ b = spell asc ws ++ r ∧
    m = (spell asc ws).length + k ∧
    ((∃ w r2 k2, e.NmstrtChar w ∧ r = w ++ r2 ∧ RName e asc r2 t k2 ∧ k = w.length + k2) ∨
     (∃ r2, r = asc 0x3E ++ r2 ∧ t = .START_TAG_WITH_ATTS ∧ k = e.mb) ∨
     (∃ r2 k2, r = asc 0x2F ++ r2 ∧ RSol e asc r2 t k2 ∧ k = e.mb + k2))

/-- The text still to come in each state of `scanAtts`. -/
def AttRes (e : Enc) (asc : UInt8 → Buf) (st : AttSt) (b : Buf) (t : Tok) (m : Nat) : Prop :=
  match st with
  | .name false => RName e asc b t m
  | .name true => RName2 e asc b t m
  | .colon => RColon e asc b t m
  | .toEq => REq e asc b t m
  | .toOpen => ROpen e asc b t m
  | .value op => ∃ q, op.single = some q ∧ (q = 0x22 ∨ q = 0x27) ∧ RValue e asc q b t m
  | .close => RClose e asc b t m
  | .ws => RWs e asc b t m
  | .sol => RSol e asc b t m

theorem AllWS.cons {c cs} (h : isWS c = true) (h2 : AllWS cs) : AllWS (c :: cs) := by
  intro d hd
  rcases List.mem_cons.1 hd with rfl | hd
  · exact h
  · exact h2 d hd

/-- One attribute in front of a rest. -/
theorem REq.front {e asc} {t} {c : UInt8} (lq : ∀ c, (asc c).length = e.mb)
    (hc : isWS c = true) {ws : List UInt8} (h1 : AllWS ws) {name : List Buf} {r3 : Buf} {k3 : Nat}
    (hq : QName e asc name) (h : REq e asc r3 t k3) :
    ∃ as ws2 emp r, as ≠ [] ∧ Rest e asc (asc c ++ (spell asc ws ++ (name.flatten ++ r3))) t
      (e.mb + ((spell asc ws).length + (name.flatten.length + k3))) as ws2 emp r := by
  have hs : spell asc (c :: ws) = asc c ++ spell asc ws := by simp [spell]
  obtain ⟨s1, r4, k4, g1, rfl, ⟨s2, q, r5, k5, g2, g3, rfl,
      ⟨v, r6, k6, g4, rfl, ⟨as, ws2, emp, r7, ⟨j1, j2, rfl, j4, rfl⟩⟩, rfl⟩, rfl⟩, rfl⟩ := h
  refine ⟨⟨c :: ws, name, s1, s2, q, v⟩ :: as, ws2, emp, r7, by simp, ⟨?_, j2, ?_, j4, ?_⟩⟩
  · intro a ha
    rcases List.mem_cons.1 ha with rfl | ha
    · exact ⟨by simp, h1.cons hc, hq, g1, g2, g3, g4⟩
    · exact j1 a ha
  · simp [attsText, AttrSrc.text, AttrSrc.tail, hs]
  · simp only [attsText, AttrSrc.text, AttrSrc.tail, hs, List.map_cons, List.flatten_cons,
      List.length_append, lq]; omega

theorem RName.front {e asc} {t} {c : UInt8} (lq : ∀ c, (asc c).length = e.mb)
    (hc : isWS c = true) {ws : List UInt8} (h1 : AllWS ws) {w r2 : Buf} {k2 : Nat}
    (h5 : e.NmstrtChar w) (h6 : RName e asc r2 t k2) :
    ∃ as ws2 emp r, as ≠ [] ∧ Rest e asc (asc c ++ (spell asc ws ++ (w ++ r2))) t
      (e.mb + ((spell asc ws).length + (w.length + k2))) as ws2 emp r := by
  rcases h6 with ⟨vs, r3, k3, i1, rfl, i3, rfl⟩ | ⟨vs, r3, k3, i1, rfl, i3, ⟨w2, r4, k4, i4, rfl, ⟨vs2, r5, k5, i5, rfl, i6, rfl⟩, rfl⟩, rfl⟩
  · have := i3.front lq hc h1 (name := w :: vs) (.plain _ ⟨_, _, rfl, h5, i1⟩)
    simpa only [List.flatten_cons, List.append_assoc, List.length_append, Nat.add_assoc] using this
  · have := i6.front lq hc h1 (name := (w :: vs) ++ asc 0x3A :: (w2 :: vs2))
      (.pair _ _ ⟨_, _, rfl, h5, i1⟩ ⟨_, _, rfl, i4, i5⟩ i3)
    simpa only [List.flatten_append, List.flatten_cons, List.append_assoc, List.length_append,
      Nat.add_assoc, lq] using this

theorem RWs.toClose {e asc} {b : Buf} {t m} {c : UInt8} (lq : ∀ c, (asc c).length = e.mb)
    (hc : isWS c = true) (h : RWs e asc b t m) : RClose e asc (asc c ++ b) t (e.mb + m) := by
  obtain ⟨ws, r, k, h1, rfl, rfl, h4⟩ := h
  have hs : spell asc (c :: ws) = asc c ++ spell asc ws := by simp [spell]
  rcases h4 with ⟨w, r2, k2, h5, rfl, h6, rfl⟩ | ⟨r2, rfl, rfl, rfl⟩ | ⟨r2, k2, rfl, ⟨r3, rfl, rfl, rfl⟩, rfl⟩
  · obtain ⟨as, ws2, emp, r, _, h⟩ := h6.front lq hc h1 h5
    exact ⟨as, ws2, emp, r, h⟩
  · refine ⟨[], c :: ws, false, r2, ⟨by simp, h1.cons hc, ?_, rfl, ?_⟩⟩
    · simp [attsText, closeText, hs]
    · simp [attsText, closeText, hs, lq]
  · refine ⟨[], c :: ws, true, r3, ⟨by simp, h1.cons hc, ?_, rfl, ?_⟩⟩
    · simp [attsText, closeText, hs]
    · simp [attsText, closeText, hs, lq]

theorem RName2.char {e asc} {w b : Buf} {t m} (hw : e.NameChar w) (h : RName2 e asc b t m) :
    RName2 e asc (w ++ b) t (w.length + m) := by
  obtain ⟨vs, r, k, h1, rfl, h3, rfl⟩ := h
  exact ⟨w :: vs, r, k, List.forall_mem_cons.2 ⟨hw, h1⟩, by simp, h3, by simp; omega⟩

theorem RName.char {e asc} {w b : Buf} {t m} (hw : e.NameChar w) (h : RName e asc b t m) :
    RName e asc (w ++ b) t (w.length + m) := by
  rcases h with h | ⟨vs, r, k, h1, rfl, h3, h4, rfl⟩
  · exact .inl (h.char hw)
  · exact .inr ⟨w :: vs, r, k, List.forall_mem_cons.2 ⟨hw, h1⟩, by simp, h3, h4, by simp; omega⟩

theorem REq.ws {e asc} {b : Buf} {t m} {c} (l : (asc c).length = e.mb) (hc : isWS c = true)
    (h : REq e asc b t m) : REq e asc (asc c ++ b) t (e.mb + m) := by
  obtain ⟨s1, r, k, h1, rfl, h3, rfl⟩ := h
  exact ⟨c :: s1, r, k, h1.cons hc, by simp [spell], h3, by simp [spell, l]; omega⟩

theorem ROpen.ws {e asc} {b : Buf} {t m} {c} (l : (asc c).length = e.mb) (hc : isWS c = true)
    (h : ROpen e asc b t m) : ROpen e asc (asc c ++ b) t (e.mb + m) := by
  obtain ⟨s1, q, r, k, h1, h2, rfl, h3, rfl⟩ := h
  exact ⟨c :: s1, q, r, k, h1.cons hc, h2, by simp [spell], h3, by simp [spell, l]; omega⟩

theorem RWs.ws {e asc} {b : Buf} {t m} {c} (l : (asc c).length = e.mb) (hc : isWS c = true)
    (h : RWs e asc b t m) : RWs e asc (asc c ++ b) t (e.mb + m) := by
  obtain ⟨s1, r, k, h1, rfl, rfl, h3⟩ := h
  exact ⟨c :: s1, r, k, h1.cons hc, by simp [spell], by simp [spell, l]; omega, h3⟩

theorem RValue.char {e asc q} {w b : Buf} {t m} (h1 : e.IsChar w) (h2 : w ≠ asc 0x3C)
    (h3 : w ≠ asc 0x26) (h4 : w ≠ asc q) (h : RValue e asc q b t m) :
    RValue e asc q (w ++ b) t (w.length + m) := by
  obtain ⟨v, r, k, i1, rfl, i3, rfl⟩ := h
  exact ⟨w ++ v, r, k, .char w v h1 h2 h3 h4 i1, by simp, i3, by simp; omega⟩

theorem RValue.ref {e asc q} {w b : Buf} {t t' m} (l : (asc 0x26).length = e.mb)
    (h1 : Ref e asc t' w) (h : RValue e asc q b t m) :
    RValue e asc q (asc 0x26 ++ (w ++ b)) t (e.mb + w.length + m) := by
  obtain ⟨v, r, k, i1, rfl, i3, rfl⟩ := h
  exact ⟨asc 0x26 ++ (w ++ v), r, k, .ref _ w v h1 i1, by simp, i3, by simp [l]; omega⟩

/-- The single-character class at the front of a buffer. -/
theorem single_split {e asc} (s : Supported e asc) {b : Buf} {k : ByteType} {c : UInt8}
    (hk : k.single = some c) (hb : e.mb ≤ b.length) (h : e.bt b = k) : b = asc c ++ b.drop e.mb := by
  rw [← (s.asc.cls b k c hk hb).1 h, List.take_append_drop]

theorem space_split {e asc} (s : Supported e asc) {b : Buf} (hb : e.mb ≤ b.length)
    (h : e.bt b = .S ∨ e.bt b = .CR ∨ e.bt b = .LF) :
    ∃ c, isWS c = true ∧ b = asc c ++ b.drop e.mb :=
  s.class_split spaceClass hb (by rcases h with h | h | h <;> rw [h] <;> rfl)

theorem fin {e asc st st' t} {b w : Buf} {k p n : Nat} (hb : b = w ++ b.drop k)
    (h : ∃ m, n = p + k + m ∧ AttRes e asc st' (b.drop k) t m)
    (hq : ∀ r m, AttRes e asc st' r t m → AttRes e asc st (w ++ r) t (k + m)) :
    ∃ m, n = p + m ∧ AttRes e asc st b t m := by
  obtain ⟨m, h1, h2⟩ := h
  refine ⟨k + m, by omega, ?_⟩
  rw [hb]; exact hq _ _ h2

theorem take_split {b : Buf} (k : Nat) : b = b.take k ++ b.drop k := (List.take_append_drop _ _).symm

theorem name_adv {e asc} (s : Supported e asc) {b : Buf} {p k} (hb : ¬ b.length < e.mb)
    (h : nameCases e b p = .adv k) :
    ∃ w, e.NameChar w ∧ w.length = k + 1 ∧ b = w ++ b.drop (k + 1) := by
  obtain ⟨hw, hl⟩ := nameCases_split s.ok s.mb (by omega) h
  exact ⟨_, hw, by simp [hl], take_split _⟩

theorem nmstrt_adv {e asc} (s : Supported e asc) {b : Buf} {p k} (hb : ¬ b.length < e.mb)
    (h : nmstrtCases e b p = .adv k) :
    ∃ w, e.NmstrtChar w ∧ w.length = k + 1 ∧ b = w ++ b.drop (k + 1) := by
  obtain ⟨hw, hl⟩ := nmstrtCases_split s.ok s.mb (by omega) h
  exact ⟨_, hw, by simp [hl], take_split _⟩

theorem allWS_nil : AllWS [] := fun _ h => by cases h

/-- Soundness of `scanAtts`. -/
theorem scanAtts_sound {e asc} (s : Supported e asc) (st : AttSt) (b : Buf) (p : Nat) (t : Tok)
    (n : Nat) (ht : t.isError = false) (hst : ∀ op, st = .value op → op = .QUOT ∨ op = .APOS)
    (h : scanAtts e st b p = ⟨t, n⟩) : ∃ m, n = p + m ∧ AttRes e asc st b t m := by
  have l (c) := s.asc.len c
  have bad : ∀ {r : Res}, r.tok.fail → r = ⟨t, n⟩ → False := by
    intro r h1 h2
    have := Tok.fail_err h1
    rw [h2, ht] at this; cases this
  have two : ∀ {op : ByteType}, (op = .QUOT ∨ op = .APOS) →
      ∃ q, op.single = some q ∧ (q = 0x22 ∨ q = 0x27) := by
    rintro op (rfl | rfl)
    · exact ⟨_, rfl, .inl rfl⟩
    · exact ⟨_, rfl, .inr rfl⟩
  have eq1 : ∀ {b t m}, ROpen e asc b t m → REq e asc (asc 0x3D ++ b) t (e.mb + m) := by
    intro b t m h
    exact ⟨[], b, m, allWS_nil, by simp [spell], h, by simp [spell]⟩
  have nm : ∀ {hc b t m}, REq e asc b t m → AttRes e asc (.name hc) b t m := by
    intro hc b t m h
    have : RName2 e asc b t m := ⟨[], b, m, by simp, by simp, h, by simp⟩
    cases hc
    · exact .inl this
    · exact this
  fun_induction scanAtts e st b p with
  | case1 | case4 | case10 | case13 | case18 | case24 | case30 | case31 | case38 | case46 | case47 =>
    cases h; cases ht
  | case2 b p hb hc r h1 => exact (bad (nameCases_fail h1) h).elim
  | case3 b p hb hc k h1 ih =>
    obtain ⟨w, hw, hl, hbw⟩ := name_adv s hb h1
    refine fin hbw (ih (by simp) h) ?_
    intro r m hr
    rw [← hl]
    cases hc
    · exact RName.char hw hr
    · exact RName2.char hw hr
  | case5 b p hb hc h1 h2 h3 ih =>
    obtain ⟨i1, i2⟩ := colon_split s (by omega) h2
    refine fin i1 (ih (by simp) h) ?_
    intro r m hr
    cases hc
    · exact .inr ⟨[], r, m, by simp, by simp, i2, hr, by simp⟩
    · simp at h3
  | case6 b p hb hc h1 h2 ih =>
    obtain ⟨c, i1, i2⟩ := space_split s (by omega) (.inl h2)
    exact fin i2 (ih (by simp) h) (fun r m hr => nm (REq.ws (l c) i1 hr))
  | case7 b p hb hc h1 h2 ih =>
    obtain ⟨c, i1, i2⟩ := space_split s (by omega) (.inr (.inl h2))
    exact fin i2 (ih (by simp) h) (fun r m hr => nm (REq.ws (l c) i1 hr))
  | case8 b p hb hc h1 h2 ih =>
    obtain ⟨c, i1, i2⟩ := space_split s (by omega) (.inr (.inr h2))
    exact fin i2 (ih (by simp) h) (fun r m hr => nm (REq.ws (l c) i1 hr))
  | case9 b p hb hc h1 h2 ih =>
    exact fin (single_split s rfl (by omega) h2) (ih (by simp) h) (fun r m hr => nm (eq1 hr))
  | case11 b p hb r h1 => exact (bad (nmstrtCases_fail h1) h).elim
  | case12 b p hb k h1 ih =>
    obtain ⟨w, hw, hl, hbw⟩ := nmstrt_adv s hb h1
    refine fin hbw (ih (by simp) h) ?_
    intro r m hr
    rw [← hl]
    exact ⟨_, r, m, hw, rfl, hr, rfl⟩
  | case14 b p hb h2 ih =>
    exact fin (single_split s rfl (by omega) h2) (ih (by simp) h) (fun r m hr => eq1 hr)
  | case15 b p hb h2 ih =>
    obtain ⟨c, i1, i2⟩ := space_split s (by omega) (.inl h2)
    exact fin i2 (ih (by simp) h) (fun r m hr => (REq.ws (l c) i1 hr))
  | case16 b p hb h2 ih =>
    obtain ⟨c, i1, i2⟩ := space_split s (by omega) (.inr (.inr h2))
    exact fin i2 (ih (by simp) h) (fun r m hr => (REq.ws (l c) i1 hr))
  | case17 b p hb h2 ih =>
    obtain ⟨c, i1, i2⟩ := space_split s (by omega) (.inr (.inl h2))
    exact fin i2 (ih (by simp) h) (fun r m hr => (REq.ws (l c) i1 hr))
  | case19 b p hb h2 ih =>
    refine fin (single_split s rfl (by omega) h2) (ih (by simp) h) ?_
    rintro r m ⟨q, i1, i2, i3⟩
    cases i1
    exact ⟨[], _, r, m, allWS_nil, .inl rfl, by simp [spell], i3, by simp [spell]⟩
  | case20 b p hb h2 ih =>
    refine fin (single_split s rfl (by omega) h2) (ih (by simp) h) ?_
    rintro r m ⟨q, i1, i2, i3⟩
    cases i1
    exact ⟨[], _, r, m, allWS_nil, .inr rfl, by simp [spell], i3, by simp [spell]⟩
  | case21 b p hb h2 ih =>
    obtain ⟨c, i1, i2⟩ := space_split s (by omega) (.inl h2)
    exact fin i2 (ih (by simp) h) (fun r m hr => (ROpen.ws (l c) i1 hr))
  | case22 b p hb h2 ih =>
    obtain ⟨c, i1, i2⟩ := space_split s (by omega) (.inr (.inr h2))
    exact fin i2 (ih (by simp) h) (fun r m hr => (ROpen.ws (l c) i1 hr))
  | case23 b p hb h2 ih =>
    obtain ⟨c, i1, i2⟩ := space_split s (by omega) (.inr (.inl h2))
    exact fin i2 (ih (by simp) h) (fun r m hr => (ROpen.ws (l c) i1 hr))
  | case25 b p hb ih =>
    obtain ⟨q, i1, i2⟩ := two (hst _ rfl)
    refine fin (single_split s i1 (by omega) rfl) (ih (by simp) h) ?_
    intro r m hr
    exact ⟨q, i1, i2, [], r, m, .nil, by simp, hr, by simp⟩
  | case26 b p hb op h1 r h2 => exact (bad (invalidCases_fail h2) h).elim
  | case27 b p hb op h1 k h2 ih =>
    obtain ⟨q, i1, i2⟩ := two (hst _ rfl)
    obtain ⟨w, j1, j2, j3, j4⟩ := adv_split s h2
    refine fin j4 (ih hst h) ?_
    rintro r m ⟨q', g1, g2, g3⟩
    refine ⟨q', g1, g2, ?_⟩
    rw [← j3]
    exact g3.char j1 (lead_ne s j2 (t := .LT) rfl) (lead_ne s j2 (t := .AMP) rfl) (lead_ne s j2 g1)
  | case28 b p hb op h1 h2 h3 h4 => rw [h, ht] at h4; cases h4
  | case29 b p hb op h1 h2 h3 h4 h5 ih =>
    have h6 : (scanRef e (b.drop e.mb) (p + e.mb)).tok.isError = false := by simpa using h4
    obtain ⟨w, r, i1, i2, i3⟩ := (scanRef_iff s _ _
      (scanRef e (b.drop e.mb) (p + e.mb)).next _ h6).1 rfl
    have hb2 := single_split s (c := 0x26) rfl (by omega) h3
    generalize scanRef e (b.drop e.mb) (p + e.mb) = z at *
    have hd : z.next - p = e.mb + w.length := by rw [i3]; omega
    have hn : z.next = p + (e.mb + w.length) := by rw [i3]; omega
    rw [hd, hn] at ih h
    refine fin (w := asc 0x26 ++ w) ?_ (ih hst h) ?_
    · rw [← List.drop_drop, i2, List.drop_left' rfl, List.append_assoc, ← i2]
      exact hb2
    · rintro r m ⟨q', g1, g2, g3⟩
      refine ⟨q', g1, g2, ?_⟩
      rw [List.append_assoc]
      exact g3.ref (l _) i1
  | case32 b p hb op h1 h2 h3 h4 ih =>
    obtain ⟨w, j1, j2, j3, j4, j5⟩ := other_split s hb h2
    refine fin j4 (ih hst h) ?_
    rintro r m ⟨q', g1, g2, g3⟩
    refine ⟨q', g1, g2, ?_⟩
    rw [← j3]
    rw [j5] at h1 h3 h4
    exact g3.char j1 (bt_ne s (t := .LT) rfl h4) (bt_ne s (t := .AMP) rfl h3) (bt_ne s g1 h1)
  | case33 b p hb h2 ih =>
    obtain ⟨c, i1, i2⟩ := space_split s (by omega) (.inl h2)
    exact fin i2 (ih (by simp) h) (fun r m hr => (RWs.toClose l i1 hr))
  | case34 b p hb h2 ih =>
    obtain ⟨c, i1, i2⟩ := space_split s (by omega) (.inr (.inl h2))
    exact fin i2 (ih (by simp) h) (fun r m hr => (RWs.toClose l i1 hr))
  | case35 b p hb h2 ih =>
    obtain ⟨c, i1, i2⟩ := space_split s (by omega) (.inr (.inr h2))
    exact fin i2 (ih (by simp) h) (fun r m hr => (RWs.toClose l i1 hr))
  | case36 b p hb h2 ih =>
    refine fin (single_split s rfl (by omega) h2) (ih (by simp) h) ?_
    rintro r m ⟨r', rfl, rfl, rfl⟩
    exact ⟨[], [], true, r', ⟨by simp, allWS_nil, by simp [attsText, closeText, spell], rfl,
      by simp [attsText, closeText, spell, l]⟩⟩
  | case37 b p hb h2 =>
    cases h
    refine ⟨e.mb, rfl, [], [], false, b.drop e.mb, ⟨by simp, allWS_nil, ?_, rfl,
      by simp [attsText, closeText, spell, l]⟩⟩
    simpa [attsText, closeText, spell] using single_split s (c := 0x3E) rfl (by omega) h2
  | case39 b p hb r h1 => exact (bad (nmstrtCases_fail h1) h).elim
  | case40 b p hb k h1 ih =>
    obtain ⟨w, hw, hl, hbw⟩ := nmstrt_adv s hb h1
    refine fin hbw (ih (by simp) h) ?_
    intro r m hr
    rw [← hl]
    exact ⟨[], _, _, allWS_nil, by simp [spell], by simp [spell], .inl ⟨_, r, m, hw, rfl, hr, rfl⟩⟩
  | case41 b p hb h1 h2 ih =>
    obtain ⟨c, i1, i2⟩ := space_split s (by omega) (.inl h2)
    exact fin i2 (ih (by simp) h) (fun r m hr => (RWs.ws (l c) i1 hr))
  | case42 b p hb h1 h2 ih =>
    obtain ⟨c, i1, i2⟩ := space_split s (by omega) (.inr (.inl h2))
    exact fin i2 (ih (by simp) h) (fun r m hr => (RWs.ws (l c) i1 hr))
  | case43 b p hb h1 h2 ih =>
    obtain ⟨c, i1, i2⟩ := space_split s (by omega) (.inr (.inr h2))
    exact fin i2 (ih (by simp) h) (fun r m hr => (RWs.ws (l c) i1 hr))
  | case44 b p hb h1 h2 =>
    cases h
    refine ⟨e.mb, rfl, [], b, e.mb, allWS_nil, by simp [spell], by simp [spell], 
      .inr (.inl ⟨b.drop e.mb, ?_, rfl, rfl⟩)⟩
    exact single_split s (c := 0x3E) rfl (by omega) h2
  | case45 b p hb h1 h2 ih =>
    refine fin (single_split s rfl (by omega) h2) (ih (by simp) h) ?_
    intro r m hr
    exact ⟨[], _, _, allWS_nil, by simp [spell], by simp [spell], .inr (.inr ⟨r, m, rfl, hr, rfl⟩)⟩
  | case48 b p hb h1 =>
    cases h
    exact ⟨e.mb, rfl, b.drop e.mb, mat_split s (by decide) (by omega) (by simpa using h1), rfl, rfl⟩

/-! ### Completeness: one step at a time -/

section
variable {e : Enc} {asc : UInt8 → Buf} (s : Supported e asc)
include s

theorem sp_bt {c} (hc : isWS c = true) (r : Buf) :
    e.bt (asc c ++ r) = .S ∨ e.bt (asc c ++ r) = .CR ∨ e.bt (asc c ++ r) = .LF := by
  simpa [or_assoc] using s.class_app spaceClass hc r

theorem sp_nn {c} (hc : isWS c = true) (r : Buf) : (e.bt (asc c ++ r)).nonName = true := by
  rcases sp_bt s hc r with h | h | h <;> rw [h] <;> rfl

theorem asc_len_ok (c : UInt8) (r : Buf) : ¬ (asc c ++ r).length < e.mb := by
  have := s.asc.len c
  rw [List.length_append]; omega

theorem atts_name {w : Buf} (hw : e.NameChar w) (hc : Bool) (r : Buf) (p) :
    scanAtts e (.name hc) (w ++ r) p = scanAtts e (.name hc) r (p + w.length) := by
  obtain ⟨k, h1, h2⟩ := nameCases_char s.ok s.mb hw r p
  have := hw.len s.mb
  conv => lhs; rw [scanAtts, if_neg (by rw [List.length_append]; omega)]
  simp only [h1]
  rw [← h2, List.drop_left]

theorem atts_colon1 (h : e.bt (asc 0x3A) = .COLON) (r : Buf) (p) :
    scanAtts e (.name false) (asc 0x3A ++ r) p = scanAtts e .colon r (p + e.mb) := by
  have hb : e.bt (asc 0x3A ++ r) = .COLON := by
    rw [s.ok.bt_app _ _ (by rw [s.asc.len]; exact Nat.le_refl _), h]
  conv => lhs; rw [scanAtts, if_neg (asc_len_ok s _ r)]
  simp only [nameCases_other p (show (e.bt (asc 0x3A ++ r)).nonName = true by rw [hb]; rfl), hb]
  rw [drop_char (s.asc.len _)]; simp

theorem atts_colon2 {w : Buf} (hw : e.NmstrtChar w) (r : Buf) (p) :
    scanAtts e .colon (w ++ r) p = scanAtts e (.name true) r (p + w.length) := by
  obtain ⟨k, h1, h2⟩ := nmstrtCases_char s.ok s.mb hw r p
  have := hw.len s.mb
  conv => lhs; rw [scanAtts, if_neg (by rw [List.length_append]; omega)]
  simp only [h1]
  rw [← h2, List.drop_left]

theorem atts_name_ws {c} (hc : isWS c = true) (h : Bool) (r : Buf) (p) :
    scanAtts e (.name h) (asc c ++ r) p = scanAtts e .toEq r (p + e.mb) := by
  conv => lhs; rw [scanAtts, if_neg (asc_len_ok s _ r)]
  simp only [nameCases_other p (sp_nn s hc r), drop_char (s.asc.len _)]
  rcases sp_bt s hc r with h | h | h <;> rw [h]

theorem atts_name_eq (h : Bool) (r : Buf) (p) :
    scanAtts e (.name h) (asc 0x3D ++ r) p = scanAtts e .toOpen r (p + e.mb) := by
  have hb := asc_bt s (t := .EQUALS) rfl r
  conv => lhs; rw [scanAtts, if_neg (asc_len_ok s _ r)]
  simp only [nameCases_other p (show (e.bt (asc 0x3D ++ r)).nonName = true by rw [hb]; rfl), hb,
    drop_char (s.asc.len _)]

theorem atts_toEq_ws {c} (hc : isWS c = true) (r : Buf) (p) :
    scanAtts e .toEq (asc c ++ r) p = scanAtts e .toEq r (p + e.mb) := by
  conv => lhs; rw [scanAtts, if_neg (asc_len_ok s _ r)]
  simp only [drop_char (s.asc.len _)]
  rcases sp_bt s hc r with h | h | h <;> rw [h]

theorem atts_toEq_eq (r : Buf) (p) :
    scanAtts e .toEq (asc 0x3D ++ r) p = scanAtts e .toOpen r (p + e.mb) := by
  conv => lhs; rw [scanAtts, if_neg (asc_len_ok s _ r)]
  simp only [asc_bt s (t := .EQUALS) rfl r, drop_char (s.asc.len _)]

theorem atts_toOpen_ws {c} (hc : isWS c = true) (r : Buf) (p) :
    scanAtts e .toOpen (asc c ++ r) p = scanAtts e .toOpen r (p + e.mb) := by
  conv => lhs; rw [scanAtts, if_neg (asc_len_ok s _ r)]
  simp only [drop_char (s.asc.len _)]
  rcases sp_bt s hc r with h | h | h <;> rw [h]

theorem atts_toOpen_q {op : ByteType} (ho : op = .QUOT ∨ op = .APOS) {q} (hq : op.single = some q)
    (r : Buf) (p) : scanAtts e .toOpen (asc q ++ r) p = scanAtts e (.value op) r (p + e.mb) := by
  conv => lhs; rw [scanAtts, if_neg (asc_len_ok s _ r)]
  simp only [asc_bt s hq r, drop_char (s.asc.len _)]
  rcases ho with rfl | rfl <;> rfl

theorem atts_value_char {op : ByteType} {q} (hq : op.single = some q) {w : Buf} (hw : e.IsChar w)
    (h1 : w ≠ asc 0x3C) (h2 : w ≠ asc 0x26) (h3 : w ≠ asc q) (r : Buf) (p) :
    scanAtts e (.value op) (w ++ r) p = scanAtts e (.value op) r (p + w.length) := by
  have hl := e.isChar_len s.mb hw
  rw [Ne, ← char_bt s hw (t := .LT) rfl r] at h1
  rw [Ne, ← char_bt s hw (t := .AMP) rfl r] at h2
  rw [Ne, ← char_bt s hw hq r] at h3
  conv => lhs; rw [scanAtts, if_neg (by rw [List.length_append]; omega)]
  simp only [if_neg h3]
  cases hlead : e.isLead w with
  | true =>
    obtain ⟨i1, i2⟩ := invalidCases_lead s.ok s.mb hw hlead r p
    simp only [i1]
    rw [show w.length - 1 + 1 = w.length by omega, List.drop_left]
  | false =>
    have hlen : w.length = e.mb := by
      simp only [Enc.IsChar, Enc.isLead] at hw hlead
      generalize e.bt w = t at *
      cases t <;> simp_all
    simp only [invalidCases_nl s.ok s.mb hw hlead r p]
    generalize e.bt (w ++ r) = t at *
    cases t <;> first | exact absurd rfl h1 | exact absurd rfl h2 | (simp only [drop_char hlen, hlen])

theorem atts_value_ref {op : ByteType} {q} (hq : op.single = some q) (hne : op ≠ .AMP) {t : Tok}
    {w : Buf} (hw : Ref e asc t w) (ht : t.isError = false) (r : Buf) (p) :
    scanAtts e (.value op) (asc 0x26 ++ (w ++ r)) p =
      scanAtts e (.value op) r (p + (e.mb + w.length)) := by
  have hb := asc_bt s (t := .AMP) rfl (w ++ r)
  have hr := (scanRef_iff s (w ++ r) (p + e.mb) _ t ht).2 ⟨w, r, hw, rfl, rfl⟩
  conv => lhs; rw [scanAtts, if_neg (asc_len_ok s _ _)]
  simp only [hb, if_neg (Ne.symm hne), invalidCases_asc s (t := .AMP) rfl,
    drop_char (s.asc.len 0x26), hr, ht]
  have := s.asc.len 0x26
  have h0 : 0 < e.mb := Nat.succ_pos _
  rw [if_neg (by simp), if_pos (by omega)]
  rw [show p + e.mb + w.length - p = (asc 0x26 ++ w).length by rw [List.length_append]; omega,
    ← List.append_assoc, List.drop_left, Nat.add_assoc]

theorem Ref.ok {t : Tok} {w : Buf} (h : Ref e asc t w) : t.isError = false := by
  cases h <;> rfl

theorem atts_value {op : ByteType} {q} (hq : op.single = some q) (hne : op ≠ .AMP) {v : Buf}
    (hv : Value e asc q v) (r : Buf) (p) :
    scanAtts e (.value op) (v ++ r) p = scanAtts e (.value op) r (p + v.length) := by
  induction hv generalizing p with
  | nil => simp
  | char w v h1 h2 h3 h4 h5 ih =>
    rw [List.append_assoc, atts_value_char s hq h1 h2 h3 h4, ih, List.length_append, Nat.add_assoc]
  | ref t w v h1 h2 ih =>
    rw [List.append_assoc, List.append_assoc, atts_value_ref s hq hne h1 (Ref.ok s h1), ih,
      List.length_append, List.length_append, s.asc.len]
    congr 1; omega

theorem atts_value_close {op : ByteType} {q} (hq : op.single = some q) (r : Buf) (p) :
    scanAtts e (.value op) (asc q ++ r) p = scanAtts e .close r (p + e.mb) := by
  conv => lhs; rw [scanAtts, if_neg (asc_len_ok s _ _)]
  simp only [if_pos (asc_bt s hq r), drop_char (s.asc.len _)]

theorem atts_close_ws {c} (hc : isWS c = true) (r : Buf) (p) :
    scanAtts e .close (asc c ++ r) p = scanAtts e .ws r (p + e.mb) := by
  conv => lhs; rw [scanAtts, if_neg (asc_len_ok s _ r)]
  simp only [drop_char (s.asc.len _)]
  rcases sp_bt s hc r with h | h | h <;> rw [h]

theorem atts_close_sol (r : Buf) (p) :
    scanAtts e .close (asc 0x2F ++ r) p = scanAtts e .sol r (p + e.mb) := by
  conv => lhs; rw [scanAtts, if_neg (asc_len_ok s _ r)]
  simp only [asc_bt s (t := .SOL) rfl r, drop_char (s.asc.len _)]

theorem atts_close_gt (r : Buf) (p) :
    scanAtts e .close (asc 0x3E ++ r) p = ⟨.START_TAG_WITH_ATTS, p + e.mb⟩ := by
  conv => lhs; rw [scanAtts, if_neg (asc_len_ok s _ r)]
  simp only [asc_bt s (t := .GT) rfl r]

theorem atts_ws_nm {w : Buf} (hw : e.NmstrtChar w) (r : Buf) (p) :
    scanAtts e .ws (w ++ r) p = scanAtts e (.name false) r (p + w.length) := by
  obtain ⟨k, h1, h2⟩ := nmstrtCases_char s.ok s.mb hw r p
  have := hw.len s.mb
  conv => lhs; rw [scanAtts, if_neg (by rw [List.length_append]; omega)]
  simp only [h1]
  rw [← h2, List.drop_left]

theorem atts_ws_ws {c} (hc : isWS c = true) (r : Buf) (p) :
    scanAtts e .ws (asc c ++ r) p = scanAtts e .ws r (p + e.mb) := by
  conv => lhs; rw [scanAtts, if_neg (asc_len_ok s _ r)]
  simp only [nmstrtCases_other p (sp_nn s hc r), drop_char (s.asc.len _)]
  rcases sp_bt s hc r with h | h | h <;> rw [h]

theorem atts_ws_sol (r : Buf) (p) :
    scanAtts e .ws (asc 0x2F ++ r) p = scanAtts e .sol r (p + e.mb) := by
  have hb := asc_bt s (t := .SOL) rfl r
  conv => lhs; rw [scanAtts, if_neg (asc_len_ok s _ r)]
  simp only [nmstrtCases_other p (show (e.bt (asc 0x2F ++ r)).nonName = true by rw [hb]; rfl), hb,
    drop_char (s.asc.len _)]

theorem atts_ws_gt (r : Buf) (p) :
    scanAtts e .ws (asc 0x3E ++ r) p = ⟨.START_TAG_WITH_ATTS, p + e.mb⟩ := by
  have hb := asc_bt s (t := .GT) rfl r
  conv => lhs; rw [scanAtts, if_neg (asc_len_ok s _ r)]
  simp only [nmstrtCases_other p (show (e.bt (asc 0x3E ++ r)).nonName = true by rw [hb]; rfl), hb]

theorem atts_sol (r : Buf) (p) :
    scanAtts e .sol (asc 0x3E ++ r) p = ⟨.EMPTY_ELEMENT_WITH_ATTS, p + e.mb⟩ := by
  conv => lhs; rw [scanAtts, if_neg (asc_len_ok s _ r)]
  simp [(s.matches_asc (c := 0x3E) (d := 0x3E) (by decide) r).2 rfl]

/-! Runs -/

theorem run_ws (st : AttSt) (hst : ∀ c, isWS c = true → ∀ r p,
      scanAtts e st (asc c ++ r) p = scanAtts e st r (p + e.mb)) (cs : List UInt8) (hcs : AllWS cs)
    (r : Buf) (p) : scanAtts e st (spell asc cs ++ r) p =
      scanAtts e st r (p + (spell asc cs).length) := by
  induction cs generalizing p with
  | nil => simp [spell]
  | cons c cs ih =>
    have h1 : spell asc (c :: cs) = asc c ++ spell asc cs := by simp [spell]
    rw [h1, List.append_assoc, hst c (hcs c List.mem_cons_self),
      ih (fun d hd => hcs d (List.mem_cons_of_mem _ hd)), List.length_append, s.asc.len, Nat.add_assoc]

theorem run_name (hc : Bool) (vs : List Buf) (h : ∀ v ∈ vs, e.NameChar v) (r : Buf) (p) :
    scanAtts e (.name hc) (vs.flatten ++ r) p = scanAtts e (.name hc) r (p + vs.flatten.length) := by
  induction vs generalizing p with
  | nil => simp
  | cons v vs ih =>
    rw [List.flatten_cons, List.append_assoc, atts_name s (h v List.mem_cons_self),
      ih (fun d hd => h d (List.mem_cons_of_mem _ hd)), List.length_append, Nat.add_assoc]

/-- From the white space before a name to after the `=`. -/
theorem run_qname {ws : List Buf} (h : QName e asc ws) {s1 : List UInt8} (h1 : AllWS s1) (r : Buf) (p) :
    scanAtts e .ws (ws.flatten ++ (spell asc s1 ++ (asc 0x3D ++ r))) p =
      scanAtts e .toOpen r (p + (ws.flatten.length + (spell asc s1).length + e.mb)) := by
  have key : ∀ hc p, scanAtts e (.name hc) (spell asc s1 ++ (asc 0x3D ++ r)) p =
      scanAtts e .toOpen r (p + ((spell asc s1).length + e.mb)) := by
    intro hc p
    cases s1 with
    | nil => simpa [spell] using atts_name_eq s hc r p
    | cons c cs =>
      have h2 : spell asc (c :: cs) = asc c ++ spell asc cs := by simp [spell]
      rw [h2, List.append_assoc, atts_name_ws s (h1 c List.mem_cons_self),
        run_ws s .toEq (fun c hc r p => atts_toEq_ws s hc r p) cs
          (fun d hd => h1 d (List.mem_cons_of_mem _ hd)), atts_toEq_eq s, List.length_append,
        s.asc.len]
      congr 1; omega
  cases h with
  | plain _ h =>
    obtain ⟨w, vs, rfl, i1, i2⟩ := h
    rw [List.flatten_cons, List.append_assoc, atts_ws_nm s i1, run_name s _ _ i2, key,
      List.length_append]
    congr 1; omega
  | pair us vs h1 h2 h3 =>
    obtain ⟨w, us, rfl, i1, i2⟩ := h1
    obtain ⟨w2, vs, rfl, j1, j2⟩ := h2
    simp only [List.flatten_append, List.flatten_cons, List.append_assoc]
    rw [atts_ws_nm s i1, run_name s _ _ i2, atts_colon1 s h3, atts_colon2 s j1, run_name s _ _ j2,
      key]
    simp only [List.length_append, s.asc.len]
    congr 1; omega

/-- Completeness of `scanAtts` after an attribute value. -/
theorem scanAtts_complete (as : List AttrSrc) (has : ∀ a ∈ as, a.Valid e asc) (ws : List UInt8)
    (hws : AllWS ws) (emp : Bool) (r : Buf) (p : Nat) :
    scanAtts e .close (attsText asc as ++ (closeText asc ws emp ++ r)) p =
      ⟨if emp then .EMPTY_ELEMENT_WITH_ATTS else .START_TAG_WITH_ATTS,
        p + ((attsText asc as).length + (closeText asc ws emp).length)⟩ := by
  induction as generalizing p with
  | nil =>
    have h0 : attsText asc [] = [] := rfl
    have hc : ∀ c cs, spell asc (c :: cs) = asc c ++ spell asc cs := by intros; simp [spell]
    rw [h0, List.nil_append, closeText, List.append_assoc]
    cases ws with
    | nil =>
      cases emp
      · simpa [spell, s.asc.len] using atts_close_gt s r p
      · simp [spell, atts_close_sol s, atts_sol s, s.asc.len]; omega
    | cons c cs =>
      rw [hc, List.append_assoc, atts_close_ws s (hws c List.mem_cons_self),
        run_ws s .ws (fun c hc r p => atts_ws_ws s hc r p) cs
          (fun d hd => hws d (List.mem_cons_of_mem _ hd))]
      cases emp
      · simp [atts_ws_gt s, s.asc.len]; omega
      · simp [atts_ws_sol s, atts_sol s, s.asc.len]; omega
  | cons a as ih =>
    have ha := has a List.mem_cons_self
    obtain ⟨op, ho, hq, hne⟩ : ∃ op : ByteType, (op = .QUOT ∨ op = .APOS) ∧ op.single = some a.q ∧
        op ≠ .AMP := by
      rcases ha.q with h | h <;> rw [h]
      · exact ⟨.QUOT, .inl rfl, rfl, by decide⟩
      · exact ⟨.APOS, .inr rfl, rfl, by decide⟩
    obtain ⟨c, cs, hcs⟩ := List.exists_cons_of_ne_nil ha.ws1
    have hw := ha.ws
    rw [hcs] at hw
    have h1 : attsText asc (a :: as) = a.text asc ++ attsText asc as := by simp [attsText]
    have h2 : spell asc a.ws = asc c ++ spell asc cs := by simp [spell, hcs]
    rw [h1]
    simp only [AttrSrc.text, AttrSrc.tail, h2, List.append_assoc]
    rw [atts_close_ws s (hw c List.mem_cons_self),
      run_ws s .ws (fun c hc r p => atts_ws_ws s hc r p) cs
          (fun d hd => hw d (List.mem_cons_of_mem _ hd)),
      run_qname s ha.name ha.s1, run_ws s .toOpen (fun c hc r p => atts_toOpen_ws s hc r p) _ ha.s2,
      atts_toOpen_q s ho hq, atts_value s hq hne ha.value, atts_value_close s hq,
      ih (fun a h => has a (List.mem_cons_of_mem _ h))]
    simp only [List.length_append, s.asc.len, Res.mk.injEq, true_and]
    omega

end

/-! ### Start tags -/

/-- The token of a tag: empty-element or start tag, with or without attributes. -/
def tagTok (empty noAtts : Bool) : Tok :=
  match empty, noAtts with
  | false, false => .START_TAG_WITH_ATTS
  | false, true => .START_TAG_NO_ATTS
  | true, false => .EMPTY_ELEMENT_WITH_ATTS
  | true, true => .EMPTY_ELEMENT_NO_ATTS

/-- What follows the element name. -/
def STail (e : Enc) (asc : UInt8 → Buf) (b : Buf) (t : Tok) (m : Nat) : Prop :=
  ∃ as ws empty r, (∀ a ∈ as, AttrSrc.Valid e asc a) ∧ AllWS ws ∧
    b = attsText asc as ++ (closeText asc ws empty ++ r) ∧ t = tagTok empty as.isEmpty ∧
    m = (attsText asc as).length + (closeText asc ws empty).length

def SName2 (e : Enc) (asc : UInt8 → Buf) (b : Buf) (t : Tok) (m : Nat) : Prop :=
  ∃ (vs : List Buf) (r : Buf) (k : Nat), (∀ v ∈ vs, e.NameChar v) ∧ b = vs.flatten ++ r ∧
    STail e asc r t k ∧ m = vs.flatten.length + k

def SColon (e : Enc) (asc : UInt8 → Buf) (b : Buf) (t : Tok) (m : Nat) : Prop :=
  ∃ (w : Buf) (r : Buf) (k : Nat), e.NmstrtChar w ∧ b = w ++ r ∧ SName2 e asc r t k ∧
    m = w.length + k

def SName (e : Enc) (asc : UInt8 → Buf) (b : Buf) (t : Tok) (m : Nat) : Prop :=
  SName2 e asc b t m ∨
  ∃ (vs : List Buf) (r : Buf) (k : Nat), (∀ v ∈ vs, e.NameChar v) ∧
    b = vs.flatten ++ (asc 0x3A ++ r) ∧ e.bt (asc 0x3A) = .COLON ∧ SColon e asc r t k ∧
    m = vs.flatten.length + e.mb + k

def LtRes (e : Enc) (asc : UInt8 → Buf) (st : LtSt) (b : Buf) (t : Tok) (m : Nat) : Prop :=
  match st with
  | .name false => SName e asc b t m
  | .name true => SName2 e asc b t m
  | .colon => SColon e asc b t m
  | .ws => ∀ c, isWS c = true → STail e asc (asc c ++ b) t (e.mb + m)

theorem SName2.char {e asc} {w b : Buf} {t m} (hw : e.NameChar w) (h : SName2 e asc b t m) :
    SName2 e asc (w ++ b) t (w.length + m) := by
  obtain ⟨vs, r, k, h1, rfl, h3, rfl⟩ := h
  exact ⟨w :: vs, r, k, List.forall_mem_cons.2 ⟨hw, h1⟩, by simp, h3, by simp; omega⟩

theorem SName.char {e asc} {w b : Buf} {t m} (hw : e.NameChar w) (h : SName e asc b t m) :
    SName e asc (w ++ b) t (w.length + m) := by
  rcases h with h | ⟨vs, r, k, h1, rfl, h3, h4, rfl⟩
  · exact .inl (h.char hw)
  · exact .inr ⟨w :: vs, r, k, List.forall_mem_cons.2 ⟨hw, h1⟩, by simp, h3, h4, by simp; omega⟩

theorem STail.ws {e asc} {b : Buf} {t m} {c} (l : (asc c).length = e.mb) (hc : isWS c = true)
    (h : STail e asc b t m) : STail e asc (asc c ++ b) t (e.mb + m) := by
  have hs : ∀ ws, spell asc (c :: ws) = asc c ++ spell asc ws := by intro; simp [spell]
  obtain ⟨as, ws, emp, r, h1, h2, rfl, h3, rfl⟩ := h
  cases as with
  | nil =>
    refine ⟨[], c :: ws, emp, r, h1, h2.cons hc, ?_, h3, ?_⟩
    · simp [attsText, closeText, hs]
    · simp [attsText, closeText, hs, l]
  | cons a as =>
    have ha := h1 a List.mem_cons_self
    refine ⟨{ a with ws := c :: a.ws } :: as, ws, emp, r, ?_, h2, ?_, h3, ?_⟩
    · intro x hx
      rcases List.mem_cons.1 hx with rfl | hx
      · exact ⟨by simp, ha.ws.cons hc, ha.name, ha.s1, ha.s2, ha.q, ha.value⟩
      · exact h1 x (List.mem_cons_of_mem _ hx)
    · simp [attsText, AttrSrc.text, AttrSrc.tail, hs]
    · simp [attsText, AttrSrc.text, AttrSrc.tail, hs, l]; omega

theorem finS {e asc st st' t} {b w : Buf} {k p n : Nat} (hb : b = w ++ b.drop k)
    (h : ∃ m, n = p + k + m ∧ LtRes e asc st' (b.drop k) t m)
    (hq : ∀ r m, LtRes e asc st' r t m → LtRes e asc st (w ++ r) t (k + m)) :
    ∃ m, n = p + m ∧ LtRes e asc st b t m := by
  obtain ⟨m, h1, h2⟩ := h
  refine ⟨k + m, by omega, ?_⟩
  rw [hb]; exact hq _ _ h2

theorem scanLtHelper_sound {e asc} (s : Supported e asc) {b : Buf} {p n : Nat} {t : Tok}
    (ht : t.isError = false) (h : scanLtHelper e b p = ⟨t, n⟩)
    (hb : b = asc 0x2F ++ b.drop e.mb) :
    ∃ r, b = asc 0x2F ++ (asc 0x3E ++ r) ∧ t = .EMPTY_ELEMENT_NO_ATTS ∧ n = p + 2 * e.mb := by
  rw [scanLtHelper] at h
  split at h
  · cases h; cases ht
  · split at h
    · cases h; cases ht
    · rename_i h1 h2
      cases h
      refine ⟨(b.drop e.mb).drop e.mb, ?_, rfl, rfl⟩
      rw [← mat_split s (by decide) (by omega) (by simpa using h2)]; exact hb

/-- Soundness of `scanStartTag`. -/
theorem scanStartTag_sound {e asc} (s : Supported e asc) (st : LtSt) (b : Buf) (p : Nat) (t : Tok)
    (n : Nat) (ht : t.isError = false)
    (h : scanStartTag e st b p = ⟨t, n⟩) : ∃ m, n = p + m ∧ LtRes e asc st b t m := by
  have l (c) := s.asc.len c
  have bad : ∀ {r : Res}, r.tok.fail → r = ⟨t, n⟩ → False := by
    intro r h1 h2
    have := Tok.fail_err h1
    rw [h2, ht] at this; cases this
  have nm : ∀ {hc b t m}, STail e asc b t m → LtRes e asc (.name hc) b t m := by
    intro hc b t m h
    have : SName2 e asc b t m := ⟨[], b, m, by simp, by simp, h, by simp⟩
    cases hc
    · exact .inl this
    · exact this
  have gt : ∀ {b : Buf}, e.mb ≤ b.length → e.bt b = .GT →
      STail e asc b .START_TAG_NO_ATTS e.mb := by
    intro b hb h
    refine ⟨[], [], false, b.drop e.mb, by simp, allWS_nil, ?_, rfl, by simp [attsText, closeText, spell, l]⟩
    simpa [attsText, closeText, spell] using single_split s (c := 0x3E) rfl hb h
  have sol : ∀ {b : Buf} {p}, e.mb ≤ b.length → e.bt b = .SOL → scanLtHelper e b p = ⟨t, n⟩ →
      ∃ m, n = p + m ∧ STail e asc b t m := by
    intro b p hb h1 h2
    obtain ⟨r, h3, rfl, h4⟩ := scanLtHelper_sound s ht h2 (single_split s (c := 0x2F) rfl hb h1)
    refine ⟨2 * e.mb, h4, [], [], true, r, by simp, allWS_nil, ?_, rfl, ?_⟩
    · simpa [attsText, closeText, spell] using h3
    · simp [attsText, closeText, spell, l]; omega
  fun_induction scanStartTag e st b p with
  | case1 | case4 | case14 | case22 => cases h; cases ht
  | case12 b p hb r h1 | case15 b p hb r h1 => exact (bad (nmstrtCases_fail h1) h).elim
  | case2 b p hb hc r h1 => exact (bad (nameCases_fail h1) h).elim
  | case3 b p hb hc k h1 ih =>
    obtain ⟨w, hw, hl, hbw⟩ := name_adv s hb h1
    refine finS hbw (ih h) ?_
    intro r m hr
    rw [← hl]
    cases hc
    · exact SName.char hw hr
    · exact SName2.char hw hr
  | case5 b p hb hc h1 h2 h3 ih =>
    obtain ⟨i1, i2⟩ := colon_split s (by omega) h2
    refine finS i1 (ih h) ?_
    intro r m hr
    cases hc
    · exact .inr ⟨[], r, m, by simp, by simp, i2, hr, by simp⟩
    · simp at h3
  | case6 b p hb hc h1 h2 ih =>
    obtain ⟨c, i1, i2⟩ := space_split s (by omega) (.inl h2)
    exact finS i2 (ih h) (fun r m hr => nm (hr c i1))
  | case7 b p hb hc h1 h2 ih =>
    obtain ⟨c, i1, i2⟩ := space_split s (by omega) (.inr (.inl h2))
    exact finS i2 (ih h) (fun r m hr => nm (hr c i1))
  | case8 b p hb hc h1 h2 ih =>
    obtain ⟨c, i1, i2⟩ := space_split s (by omega) (.inr (.inr h2))
    exact finS i2 (ih h) (fun r m hr => nm (hr c i1))
  | case9 b p hb hc h1 h2 => cases h; exact ⟨e.mb, rfl, nm (gt (by omega) h2)⟩
  | case10 b p hb hc h1 h2 =>
    obtain ⟨m, i1, i2⟩ := sol (by omega) h2 h
    exact ⟨m, i1, nm i2⟩
  | case11 b p hb hc h1 => cases h; cases ht
  | case13 b p hb k h1 ih =>
    obtain ⟨w, hw, hl, hbw⟩ := nmstrt_adv s hb h1
    refine finS hbw (ih h) ?_
    intro r m hr
    rw [← hl]
    exact ⟨_, r, m, hw, rfl, hr, rfl⟩
  | case16 b p hb k h1 =>
    obtain ⟨w, hw, hl, hbw⟩ := nmstrt_adv s hb h1
    obtain ⟨m, i1, i2⟩ := scanAtts_sound s _ _ _ _ _ ht (by simp) h
    refine ⟨w.length + m, by omega, ?_⟩
    intro c hc
    obtain ⟨as, ws2, emp, r, j1, j2⟩ := RName.front l hc (ws := []) allWS_nil hw i2
    refine ⟨as, ws2, emp, r, j2.atts, j2.space, ?_, ?_, ?_⟩
    · have := j2.text
      rw [← this, ← hbw]; simp [spell]
    · cases as with
      | nil => exact absurd rfl j1
      | cons a as => have := j2.tok; cases emp <;> exact this
    · have := j2.len
      simpa [spell] using this
  | case17 b p hb h1 h2 =>
    cases h; exact ⟨e.mb, rfl, fun c hc => (gt (by omega) h2).ws (l c) hc⟩
  | case18 b p hb h1 h2 =>
    obtain ⟨m, i1, i2⟩ := sol (by omega) h2 h
    exact ⟨m, i1, fun c hc => i2.ws (l c) hc⟩
  | case19 b p hb h1 h2 ih =>
    obtain ⟨d, i1, i2⟩ := space_split s (by omega) (.inl h2)
    exact finS i2 (ih h) (fun r m hr c hc => (hr d i1).ws (l c) hc)
  | case20 b p hb h1 h2 ih =>
    obtain ⟨d, i1, i2⟩ := space_split s (by omega) (.inr (.inl h2))
    exact finS i2 (ih h) (fun r m hr c hc => (hr d i1).ws (l c) hc)
  | case21 b p hb h1 h2 ih =>
    obtain ⟨d, i1, i2⟩ := space_split s (by omega) (.inr (.inr h2))
    exact finS i2 (ih h) (fun r m hr c hc => (hr d i1).ws (l c) hc)

/-! Completeness of `scanStartTag`. -/

section
variable {e : Enc} {asc : UInt8 → Buf} (s : Supported e asc)
include s

theorem stag_name {w : Buf} (hw : e.NameChar w) (hc : Bool) (r : Buf) (p) :
    scanStartTag e (.name hc) (w ++ r) p = scanStartTag e (.name hc) r (p + w.length) := by
  obtain ⟨k, h1, h2⟩ := nameCases_char s.ok s.mb hw r p
  have := hw.len s.mb
  conv => lhs; rw [scanStartTag, if_neg (by rw [List.length_append]; omega)]
  simp only [h1]
  rw [← h2, List.drop_left]

theorem stag_names (hc : Bool) (vs : List Buf) (h : ∀ v ∈ vs, e.NameChar v) (r : Buf) (p) :
    scanStartTag e (.name hc) (vs.flatten ++ r) p =
      scanStartTag e (.name hc) r (p + vs.flatten.length) := by
  induction vs generalizing p with
  | nil => simp
  | cons v vs ih =>
    rw [List.flatten_cons, List.append_assoc, stag_name s (h v List.mem_cons_self),
      ih (fun d hd => h d (List.mem_cons_of_mem _ hd)), List.length_append, Nat.add_assoc]

theorem stag_colon1 (h : e.bt (asc 0x3A) = .COLON) (r : Buf) (p) :
    scanStartTag e (.name false) (asc 0x3A ++ r) p = scanStartTag e .colon r (p + e.mb) := by
  have hb : e.bt (asc 0x3A ++ r) = .COLON := by
    rw [s.ok.bt_app _ _ (by rw [s.asc.len]; exact Nat.le_refl _), h]
  conv => lhs; rw [scanStartTag, if_neg (asc_len_ok s _ r)]
  simp only [nameCases_other p (show (e.bt (asc 0x3A ++ r)).nonName = true by rw [hb]; rfl), hb]
  rw [drop_char (s.asc.len _)]; simp

theorem stag_colon2 {w : Buf} (hw : e.NmstrtChar w) (r : Buf) (p) :
    scanStartTag e .colon (w ++ r) p = scanStartTag e (.name true) r (p + w.length) := by
  obtain ⟨k, h1, h2⟩ := nmstrtCases_char s.ok s.mb hw r p
  have := hw.len s.mb
  conv => lhs; rw [scanStartTag, if_neg (by rw [List.length_append]; omega)]
  simp only [h1]
  rw [← h2, List.drop_left]

theorem ltHelper (r : Buf) (p) : scanLtHelper e (asc 0x2F ++ (asc 0x3E ++ r)) p =
    ⟨.EMPTY_ELEMENT_NO_ATTS, p + 2 * e.mb⟩ := by
  rw [scanLtHelper]
  simp only [drop_char (s.asc.len 0x2F)]
  rw [if_neg (asc_len_ok s _ r)]
  simp [(s.matches_asc (c := 0x3E) (d := 0x3E) (by decide) r).2 rfl]

theorem stag_ws_ws {c} (hc : isWS c = true) (r : Buf) (p) :
    scanStartTag e .ws (asc c ++ r) p = scanStartTag e .ws r (p + e.mb) := by
  conv => lhs; rw [scanStartTag, if_neg (asc_len_ok s _ r)]
  simp only [nmstrtCases_other p (sp_nn s hc r), drop_char (s.asc.len _)]
  rcases sp_bt s hc r with h | h | h <;> rw [h]

theorem stag_name_ws {c} (hc : isWS c = true) (h : Bool) (r : Buf) (p) :
    scanStartTag e (.name h) (asc c ++ r) p = scanStartTag e .ws r (p + e.mb) := by
  conv => lhs; rw [scanStartTag, if_neg (asc_len_ok s _ r)]
  simp only [nameCases_other p (sp_nn s hc r), drop_char (s.asc.len _)]
  rcases sp_bt s hc r with h | h | h <;> rw [h]

theorem stag_run_ws (cs : List UInt8) (hcs : AllWS cs) (r : Buf) (p) :
    scanStartTag e .ws (spell asc cs ++ r) p = scanStartTag e .ws r (p + (spell asc cs).length) := by
  induction cs generalizing p with
  | nil => simp [spell]
  | cons c cs ih =>
    have h1 : spell asc (c :: cs) = asc c ++ spell asc cs := by simp [spell]
    rw [h1, List.append_assoc, stag_ws_ws s (hcs c List.mem_cons_self),
      ih (fun d hd => hcs d (List.mem_cons_of_mem _ hd)), List.length_append, s.asc.len, Nat.add_assoc]

theorem stag_ws_nm {w : Buf} (hw : e.NmstrtChar w) (r : Buf) (p) :
    scanStartTag e .ws (w ++ r) p = scanAtts e (.name false) r (p + w.length) := by
  obtain ⟨k, h1, h2⟩ := nmstrtCases_char s.ok s.mb hw r p
  have := hw.len s.mb
  conv => lhs; rw [scanStartTag, if_neg (by rw [List.length_append]; omega)]
  simp only [h1]
  rw [← h2, List.drop_left]

theorem stag_close_gt (st : LtSt) (hst : st ≠ .colon) (r : Buf) (p) :
    scanStartTag e st (asc 0x3E ++ r) p = ⟨.START_TAG_NO_ATTS, p + e.mb⟩ := by
  have hb := asc_bt s (t := .GT) rfl r
  have hn : (e.bt (asc 0x3E ++ r)).nonName = true := by rw [hb]; rfl
  conv => lhs; rw [scanStartTag.eq_def, if_neg (asc_len_ok s _ r)]
  cases st with
  | colon => exact absurd rfl hst
  | _ => simp only [nameCases_other p hn, nmstrtCases_other p hn, hb]

theorem stag_close_sol (st : LtSt) (hst : st ≠ .colon) (r : Buf) (p) :
    scanStartTag e st (asc 0x2F ++ (asc 0x3E ++ r)) p = ⟨.EMPTY_ELEMENT_NO_ATTS, p + 2 * e.mb⟩ := by
  have hb := asc_bt s (t := .SOL) rfl (asc 0x3E ++ r)
  have hn : (e.bt (asc 0x2F ++ (asc 0x3E ++ r))).nonName = true := by rw [hb]; rfl
  conv => lhs; rw [scanStartTag.eq_def, if_neg (asc_len_ok s _ _)]
  cases st with
  | colon => exact absurd rfl hst
  | _ => simp only [nameCases_other p hn, nmstrtCases_other p hn, hb, ltHelper s]

/-- After white space following the element name, `scanStartTag` behaves as `scanAtts` does after
white space, when an attribute follows. -/
theorem stag_ws_name {name : List Buf} (h : QName e asc name) (r : Buf) (p) :
    scanStartTag e .ws (name.flatten ++ r) p = scanAtts e .ws (name.flatten ++ r) p := by
  obtain ⟨w, r', i1, i2⟩ : ∃ w r', e.NmstrtChar w ∧ name.flatten ++ r = w ++ r' := by
    cases h with
    | plain _ h => obtain ⟨w, vs, rfl, i1, i2⟩ := h; exact ⟨w, _, i1, by simp; rfl⟩
    | pair us vs h _ _ => obtain ⟨w, us, rfl, i1, i2⟩ := h; exact ⟨w, _, i1, by simp; rfl⟩
  rw [i2, stag_ws_nm s i1, atts_ws_nm s i1]

/-- From the end of the element name. -/
theorem stag_tail (hc : Bool) (as : List AttrSrc) (has : ∀ a ∈ as, a.Valid e asc) (ws : List UInt8)
    (hws : AllWS ws) (emp : Bool) (r : Buf) (p : Nat) :
    scanStartTag e (.name hc) (attsText asc as ++ (closeText asc ws emp ++ r)) p =
      ⟨tagTok emp as.isEmpty, p + ((attsText asc as).length + (closeText asc ws emp).length)⟩ := by
  have hcons : ∀ c cs, spell asc (c :: cs) = asc c ++ spell asc cs := by intros; simp [spell]
  cases as with
  | nil =>
    have h0 : attsText asc [] = [] := rfl
    rw [h0, List.nil_append, closeText, List.append_assoc]
    cases ws with
    | nil =>
      cases emp
      · simpa [spell, s.asc.len, tagTok] using stag_close_gt s (.name hc) (by simp) r p
      · have := stag_close_sol s (.name hc) (by simp) r p
        simp [spell, s.asc.len, tagTok, this]; omega
    | cons c cs =>
      rw [hcons, List.append_assoc, stag_name_ws s (hws c List.mem_cons_self),
        stag_run_ws s cs (fun d hd => hws d (List.mem_cons_of_mem _ hd))]
      cases emp
      · simp [stag_close_gt s .ws (by simp), s.asc.len, tagTok]; omega
      · simp [stag_close_sol s .ws (by simp), s.asc.len, tagTok]; omega
  | cons a as =>
    have ha := has a List.mem_cons_self
    obtain ⟨c, cs, hcs⟩ := List.exists_cons_of_ne_nil ha.ws1
    have hw := ha.ws
    rw [hcs] at hw
    have h2 : spell asc a.ws = asc c ++ spell asc cs := by simp [spell, hcs]
    have h1 : attsText asc (a :: as) ++ (closeText asc ws emp ++ r) = asc c ++ (spell asc cs ++
        (a.name.flatten ++ (a.tail asc ++ (attsText asc as ++ (closeText asc ws emp ++ r))))) := by
      simp [attsText, AttrSrc.text, h2]
    have h3 := scanAtts_complete s (a :: as) has ws hws emp r p
    rw [h1, atts_close_ws s (hw c List.mem_cons_self), run_ws s .ws (fun c hc r p => atts_ws_ws s hc r p) cs
          (fun d hd => hw d (List.mem_cons_of_mem _ hd))] at h3
    rw [h1, stag_name_ws s (hw c List.mem_cons_self),
      stag_run_ws s cs (fun d hd => hw d (List.mem_cons_of_mem _ hd)), stag_ws_name s ha.name, h3]
    cases emp <;> rfl

theorem lt_tag_complete {name : List Buf} (hn : QName e asc name) (as : List AttrSrc)
    (has : ∀ a ∈ as, a.Valid e asc) (ws : List UInt8) (hws : AllWS ws) (emp : Bool) (r : Buf) (p : Nat) :
    scanLt e (name.flatten ++ (attsText asc as ++ (closeText asc ws emp ++ r))) p =
      ⟨tagTok emp as.isEmpty,
        p + (name.flatten.length + ((attsText asc as).length + (closeText asc ws emp).length))⟩ := by
  have start : ∀ {w : Buf}, e.NmstrtChar w → ∀ r, scanLt e (w ++ r) p =
      scanStartTag e (.name false) r (p + w.length) := by
    intro w hw r
    obtain ⟨k, h1, h2⟩ := nmstrtCases_char s.ok s.mb hw r p
    have := hw.len s.mb
    rw [scanLt, if_neg (by rw [List.length_append]; omega)]
    simp only [h1]
    rw [← h2, List.drop_left]
  cases hn with
  | plain _ h =>
    obtain ⟨w, vs, rfl, i1, i2⟩ := h
    rw [List.flatten_cons, List.append_assoc, start i1, stag_names s _ _ i2, stag_tail s _ as has ws hws,
      List.length_append]
    congr 1; omega
  | pair us vs h1 h2 h3 =>
    obtain ⟨w, us, rfl, i1, i2⟩ := h1
    obtain ⟨w2, vs, rfl, j1, j2⟩ := h2
    simp only [List.flatten_append, List.flatten_cons, List.append_assoc]
    rw [start i1, stag_names s _ _ i2, stag_colon1 s h3, stag_colon2 s j1, stag_names s _ _ j2,
      stag_tail s _ as has ws hws]
    simp only [List.length_append, s.asc.len]
    congr 1; omega

theorem lt_tag_sound {b : Buf} {p n : Nat} {empty noAtts : Bool}
    (h : scanLt e b p = ⟨tagTok empty noAtts, n⟩) :
    ∃ name as ws r, QName e asc name ∧ (∀ a ∈ as, AttrSrc.Valid e asc a) ∧ AllWS ws ∧
      b = name.flatten ++ (attsText asc as ++ (closeText asc ws empty ++ r)) ∧ as.isEmpty = noAtts ∧
      n = p + (name.flatten.length + ((attsText asc as).length + (closeText asc ws empty).length)) := by
  have ht : (tagTok empty noAtts).isError = false := by cases empty <;> cases noAtts <;> rfl
  have bad : ∀ {r : Res}, r.tok.fail → r = ⟨tagTok empty noAtts, n⟩ → False := by
    intro r h1 h2
    have := Tok.fail_err h1
    rw [h2, ht] at this; cases this
  have tinj : ∀ {a b c d}, tagTok a b = tagTok c d → a = c ∧ b = d := by
    intro a b c d; cases a <;> cases b <;> cases c <;> cases d <;> simp [tagTok]
  have nt : ∀ t : Tok, (t.fail ∨ t = .COMMENT ∨ t = .CDATA_SECT_OPEN ∨ t = .PI ∨ t = .XML_DECL ∨
      t = .END_TAG) → ∀ {r : Res}, r.tok = t → r = ⟨tagTok empty noAtts, n⟩ → False := by
    rintro t h1 r rfl h2
    rcases h1 with h1 | h1
    · exact bad h1 h2
    · rw [h2] at h1
      cases empty <;> cases noAtts <;> simp [tagTok] at h1
  rw [scanLt] at h
  split at h
  · exact (bad (by simp [Tok.fail]) h).elim
  rename_i hb
  split at h
  · rename_i h1; exact (bad (nmstrtCases_fail h1) h).elim
  · rename_i k h1
    obtain ⟨w, hw, hl, hbw⟩ := nmstrt_adv s hb h1
    obtain ⟨m, i1, i2⟩ := scanStartTag_sound s _ _ _ _ _ ht h
    rcases i2 with ⟨vs, r3, k3, j1, j2, ⟨as, ws, emp, r, g1, g2, rfl, g3, rfl⟩, rfl⟩ |
      ⟨vs, r3, k3, j1, j2, j3, ⟨w2, r4, k4, j4, rfl, ⟨vs2, r5, k5, j5, rfl, ⟨as, ws, emp, r, g1, g2, rfl, g3, rfl⟩, rfl⟩, rfl⟩, rfl⟩
    · obtain ⟨rfl, rfl⟩ := tinj g3
      refine ⟨w :: vs, as, ws, r, .plain _ ⟨_, _, rfl, hw, j1⟩, g1, g2, ?_, rfl, ?_⟩
      · rw [hbw, j2]; simp
      · rw [List.flatten_cons, List.length_append]; omega
    · obtain ⟨rfl, rfl⟩ := tinj g3
      refine ⟨(w :: vs) ++ asc 0x3A :: (w2 :: vs2), as, ws, r, .pair _ _ ⟨_, _, rfl, hw, j1⟩ ⟨_, _, rfl, j4, j5⟩ j3, g1, g2, ?_, rfl, ?_⟩
      · rw [hbw, j2]; simp
      · simp only [List.flatten_append, List.flatten_cons, List.length_append, s.asc.len]; omega
  · split at h
    · split at h
      · exact (bad (by simp [Tok.fail]) h).elim
      split at h
      · rcases scanComment_tok e (b.drop (2 * e.mb)) (p + 2 * e.mb) with h1 | h1
        · exact (bad h1 h).elim
        · exact (nt _ (.inr (.inl rfl)) h1 h).elim
      · rcases scanCdataSection_tok e (b.drop (2 * e.mb)) (p + 2 * e.mb) with h1 | h1
        · exact (bad h1 h).elim
        · exact (nt _ (.inr (.inr (.inl rfl))) h1 h).elim
      · exact (bad (by simp [Tok.fail]) h).elim
    · rcases scanPi_tok e (b.drop e.mb) (p + e.mb) with h1 | h1 | h1
      · exact (bad h1 h).elim
      · exact (nt _ (by simp) h1 h).elim
      · exact (nt _ (by simp) h1 h).elim
    · rcases scanEndTag_tok e (b.drop e.mb) (p + e.mb) with h1 | h1
      · exact (bad h1 h).elim
      · exact (nt _ (by simp) h1 h).elim
    · exact (bad (by simp [Tok.fail]) h).elim

/-! ### End tags -/

/-- The name in an end tag: a name whose later characters may also be colons. -/
def EndName (e : Enc) (asc : UInt8 → Buf) (ws : List Buf) : Prop :=
  ∃ w vs, ws = w :: vs ∧ e.NmstrtChar w ∧
    ∀ v ∈ vs, e.NameChar v ∨ (v = asc 0x3A ∧ e.bt (asc 0x3A) = .COLON)

def ERes (e : Enc) (asc : UInt8 → Buf) (ws : Bool) (b : Buf) (n p : Nat) : Prop :=
  ∃ (vs : List Buf) (sp : List UInt8) (r : Buf), (ws = true → vs = []) ∧
    (∀ v ∈ vs, e.NameChar v ∨ (v = asc 0x3A ∧ e.bt (asc 0x3A) = .COLON)) ∧ AllWS sp ∧
    b = vs.flatten ++ (spell asc sp ++ (asc 0x3E ++ r)) ∧
    n = p + (vs.flatten.length + ((spell asc sp).length + e.mb))

theorem scanEndTagLoop_sound (ws : Bool) (b : Buf) (p n : Nat)
    (h : scanEndTagLoop e ws b p = ⟨.END_TAG, n⟩) : ERes e asc ws b n p := by
  have l (c) := s.asc.len c
  have hcons : ∀ c cs, spell asc (c :: cs) = asc c ++ spell asc cs := by intros; simp [spell]
  have sp : ∀ {b : Buf} {p} (ws), ¬ b.length < e.mb →
      (e.bt b = .S ∨ e.bt b = .CR ∨ e.bt b = .LF) → ERes e asc true (b.drop e.mb) n (p + e.mb) →
      ERes e asc ws b n p := by
    rintro b p ws hb h ⟨vs, sp, r, i1, i2, i3, i4, i5⟩
    cases i1 rfl
    obtain ⟨c, j1, j2⟩ := space_split s (by omega) h
    refine ⟨[], c :: sp, r, by simp, by simp, i3.cons j1, ?_, ?_⟩
    · rw [j2, i4, hcons]; simp
    · rw [i5, hcons]; simp [l]; omega
  have gt : ∀ {b : Buf} {p} (ws), ¬ b.length < e.mb → e.bt b = .GT → n = p + e.mb →
      ERes e asc ws b n p := by
    intro b p ws hb h hn
    refine ⟨[], [], b.drop e.mb, by simp, by simp, allWS_nil, ?_, ?_⟩
    · simpa [spell] using single_split s (c := 0x3E) rfl (by omega) h
    · simpa [spell] using hn
  fun_induction scanEndTagLoop e ws b p with
  | case1 | case6 | case14 => cases h
  | case2 b p hb h1 ih => exact sp _ hb (.inl h1) (ih h)
  | case3 b p hb h1 ih => exact sp _ hb (.inr (.inl h1)) (ih h)
  | case4 b p hb h1 ih => exact sp _ hb (.inr (.inr h1)) (ih h)
  | case5 b p hb h1 => cases h; exact gt _ hb h1 rfl
  | case7 _ b p hb hw r h1 =>
    have := nameCases_fail h1; rw [h] at this; simp [Tok.fail] at this
  | case8 ws b p hb hw k h1 ih =>
    obtain ⟨w, hw', hl, hbw⟩ := name_adv s hb h1
    obtain ⟨vs, sp, r, i1, i2, i3, i4, i5⟩ := ih h
    refine ⟨w :: vs, sp, r, by simpa using hw, List.forall_mem_cons.2 ⟨.inl hw', i2⟩, i3, ?_, ?_⟩
    · rw [hbw, i4]; simp
    · rw [i5, List.flatten_cons, List.length_append]; omega
  | case9 ws b p hb hw h0 h1 ih => exact sp _ hb (.inl h1) (ih h)
  | case10 ws b p hb hw h0 h1 ih => exact sp _ hb (.inr (.inl h1)) (ih h)
  | case11 ws b p hb hw h0 h1 ih => exact sp _ hb (.inr (.inr h1)) (ih h)
  | case12 ws b p hb hw h0 h1 ih =>
    obtain ⟨j1, j2⟩ := colon_split s (by omega) h1
    obtain ⟨vs, sp, r, i1, i2, i3, i4, i5⟩ := ih h
    refine ⟨asc 0x3A :: vs, sp, r, by simpa using hw, List.forall_mem_cons.2 ⟨.inr ⟨rfl, j2⟩, i2⟩, i3, ?_, ?_⟩
    · rw [j1, i4]; simp
    · rw [i5, List.flatten_cons, List.length_append, l]; omega
  | case13 ws b p hb hw h0 h1 => cases h; exact gt _ hb h1 rfl

theorem scanEndTagLoop_complete (vs : List Buf) (sp : List UInt8) (r : Buf) (p : Nat)
    (h1 : ∀ v ∈ vs, e.NameChar v ∨ (v = asc 0x3A ∧ e.bt (asc 0x3A) = .COLON)) (h2 : AllWS sp) :
    scanEndTagLoop e false (vs.flatten ++ (spell asc sp ++ (asc 0x3E ++ r))) p =
      ⟨.END_TAG, p + (vs.flatten.length + ((spell asc sp).length + e.mb))⟩ := by
  have l (c) := s.asc.len c
  have hcons : ∀ c cs, spell asc (c :: cs) = asc c ++ spell asc cs := by intros; simp [spell]
  have gt : ∀ ws p, scanEndTagLoop e ws (asc 0x3E ++ r) p = ⟨.END_TAG, p + e.mb⟩ := by
    intro ws p
    have hb := asc_bt s (t := .GT) rfl r
    have hn : (e.bt (asc 0x3E ++ r)).nonName = true := by rw [hb]; rfl
    conv => lhs; rw [scanEndTagLoop, if_neg (asc_len_ok s _ r)]
    cases ws <;> simp [hb, nameCases_other p hn]
  have sp1 : ∀ {c}, isWS c = true → ∀ ws r p, scanEndTagLoop e ws (asc c ++ r) p =
      scanEndTagLoop e true r (p + e.mb) := by
    intro c hc ws r p
    conv => lhs; rw [scanEndTagLoop, if_neg (asc_len_ok s _ r)]
    rcases sp_bt s hc r with h | h | h <;> cases ws <;>
      simp [h, nameCases_other p (sp_nn s hc r), drop_char (l c)]
  have run : ∀ (sp : List UInt8), AllWS sp → ∀ ws p, scanEndTagLoop e ws (spell asc sp ++ (asc 0x3E ++ r)) p =
      ⟨.END_TAG, p + ((spell asc sp).length + e.mb)⟩ := by
    intro sp
    induction sp with
    | nil => intro _ ws p; simpa [spell] using gt ws p
    | cons c cs ih =>
      intro h ws p
      rw [hcons, List.append_assoc, sp1 (h c List.mem_cons_self), ih (fun d hd => h d (List.mem_cons_of_mem _ hd)),
        List.length_append, l]
      congr 1; omega
  induction vs generalizing p with
  | nil => simpa using run sp h2 false p
  | cons v vs ih =>
    have step : scanEndTagLoop e false (v ++ (vs.flatten ++ (spell asc sp ++ (asc 0x3E ++ r)))) p =
        scanEndTagLoop e false (vs.flatten ++ (spell asc sp ++ (asc 0x3E ++ r))) (p + v.length) := by
      generalize vs.flatten ++ (spell asc sp ++ (asc 0x3E ++ r)) = x
      rcases h1 v List.mem_cons_self with hv | ⟨rfl, hv⟩
      · obtain ⟨k, i1, i2⟩ := nameCases_char s.ok s.mb hv x p
        have := hv.len s.mb
        conv => lhs; rw [scanEndTagLoop, if_neg (by rw [List.length_append]; omega)]
        simp only [i1]
        rw [← i2, List.drop_left]; rfl
      · have hb : e.bt (asc 0x3A ++ x) = .COLON := by
          rw [s.ok.bt_app _ _ (by rw [s.asc.len]; exact Nat.le_refl _), hv]
        conv => lhs; rw [scanEndTagLoop, if_neg (asc_len_ok s _ x)]
        simp [nameCases_other p (show (e.bt (asc 0x3A ++ x)).nonName = true by rw [hb]; rfl), hb,
          drop_char (l _), l]
    rw [List.flatten_cons, List.append_assoc, step, ih _ (fun d hd => h1 d (List.mem_cons_of_mem _ hd)),
      List.length_append]
    congr 1; omega

/-- End tags are recognised exactly. -/
theorem scanEndTag_iff (b : Buf) (p n : Nat) : scanEndTag e b p = ⟨.END_TAG, n⟩ ↔
    ∃ name sp r, EndName e asc name ∧ AllWS sp ∧ b = name.flatten ++ (spell asc sp ++ (asc 0x3E ++ r)) ∧
      n = p + (name.flatten.length + ((spell asc sp).length + e.mb)) := by
  constructor
  · intro h
    rw [scanEndTag] at h
    split at h
    · cases h
    rename_i hb
    split at h
    · rename_i h1; have := nmstrtCases_fail h1; rw [h] at this; simp [Tok.fail] at this
    · rename_i k h1
      obtain ⟨w, hw, hl, hbw⟩ := nmstrt_adv s hb h1
      obtain ⟨vs, sp, r, _, i2, i3, i4, i5⟩ := scanEndTagLoop_sound s _ _ _ _ h
      refine ⟨w :: vs, sp, r, ⟨w, vs, rfl, hw, i2⟩, i3, ?_, ?_⟩
      · rw [hbw, i4]; simp
      · rw [i5, List.flatten_cons, List.length_append]; omega
    · cases h
  · rintro ⟨name, sp, r, ⟨w, vs, rfl, hw, h1⟩, h2, rfl, rfl⟩
    obtain ⟨k, i1, i2⟩ := nmstrtCases_char s.ok s.mb hw (vs.flatten ++ (spell asc sp ++ (asc 0x3E ++ r))) p
    have := hw.len s.mb
    rw [List.flatten_cons, List.append_assoc, scanEndTag, if_neg (by rw [List.length_append]; omega)]
    simp only [i1]
    rw [← i2, List.drop_left, scanEndTagLoop_complete s vs sp r _ h1 h2, List.length_append]
    congr 1; omega

end

end Verif
