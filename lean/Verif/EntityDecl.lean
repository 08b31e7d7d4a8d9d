import Verif.EntityRun

/-! # The text declaration of an external entity, forwards and backwards -/

set_option autoImplicit false

namespace Verif.C66
open C43 C53 C60 C61 Spec Verif

/-- What the handler is told of a text declaration: instead of the version, the name of the encoding (C19), or nothing
if there is no version; that there is an encoding; nothing about standalone. -/
def textTold (c : PCfg) : Option C18.Src → List PEv
  | none => []
  | some d => if c.xmlDecl then [.xmlDecl ⟨d.version.bind fun _ => d.encoding.map (·.value), true, none⟩] else []

/-- What an external parsed entity read in encoding `i` begins with: nothing, or a text declaration, after which it is
read in encoding `j`. -/
inductive TextHead (c : PCfg) (i : EncId) : Buf → Option C18.Src → EncId → Prop where
  | none : TextHead c i [] none i
  | decl (d : C18.Src) (j : EncId) (h : d.Valid true) (h127 : ∀ a ∈ d.encoding, a.value.length ≠ 127)
      (hn : NextEnc c.protocol i d j) : TextHead c i (xmlDeclText (C54.ascOf i) d) (some d) j

theorem TextHead.unit {c : PCfg} {i j : EncId} {w : Buf} {d : Option C18.Src} (h : TextHead c i w d j) :
    C54.unitSize i = C54.unitSize j := by
  cases h with
  | none => rfl
  | decl d j _ _ hn => exact hn.unit

section
variable {x : XEnc} {asc : UInt8 → Buf}

theorem text_body (S : XSupported x asc) {d : C18.Src} (h : d.Valid true) : PiBody x.e asc (spell asc d.text) := by
  have hch := decl_chars h
  have first : ∃ c r, d.text = c :: r ∧ isWS c = true := by
    have of (a : PAttr) (ha : a.Valid) (y : List UInt8) : ∃ c r, a.text ++ y = c :: r ∧ isWS c = true := by
      cases hws : a.ws with
      | nil => exact absurd hws ha.ws_ne
      | cons c cs =>
        have h1 : ∃ r, a.text ++ y = c :: r := by rw [PAttr.text, hws]; exact ⟨_, rfl⟩
        obtain ⟨r, h1⟩ := h1
        exact ⟨c, r, h1, ha.ws c (by rw [hws]; simp)⟩
    cases hver : d.version with
    | some a =>
      rw [C18.Src.text, hver, C18.txt]
      exact of a (h.version a hver).1 _
    | none =>
      have hv := h.needEncoding rfl
      cases hen : d.encoding with
      | none => rw [hen] at hv; cases hv
      | some a =>
        rw [C18.Src.text, hver, hen]
        exact of a (h.encoding a hen).1 _
  obtain ⟨c, r, hr, hc⟩ := first
  rw [hr, spell_cons]
  rw [hr] at hch
  refine .data c (r.map asc) hc ?_ ?_
  · intro w hw
    obtain ⟨k, hk, rfl⟩ := List.mem_map.1 hw
    exact declChar_char S (hch k (by simp [hk]))
  · refine noQuest fun w hw => ?_
    obtain ⟨k, hk, rfl⟩ := List.mem_map.1 hw
    intro he
    exact (declChar_lt k (hch k (by simp [hk]))).2 (S.s.asc_inj he)

theorem text_markup (S : XSupported x asc) {d : C18.Src} (h : d.Valid true) : Markup x.e asc .XML_DECL (xmlDeclText asc d) :=
  .pi (xml_name S) (text_body S h) ((C07.checkPiTarget_spec S.s _).1.2 rfl)

theorem text_token (S : XSupported x asc) {d : C18.Src} (h : d.Valid true) (r : Buf) (hd : x.e.mb ∣ (xmlDeclText asc d ++ r).length) :
    contentTok x.e (xmlDeclText asc d ++ r) = ⟨.XML_DECL, (xmlDeclText asc d).length⟩ :=
  content_complete S.s (text_markup S h) r hd

theorem text_call (S : XSupported x asc) (al : Allocator) {d : C18.Src} (h : d.Valid true) :
    xmlDeclCall al x Pool.new (d.out x asc) = some ⟨d.version.bind fun _ => d.encoding.map (·.value), true, none⟩ := by
  have hv := h.needEncoding rfl
  have hs := h.noStandalone rfl
  cases he : d.encoding with
  | none => rw [he] at hv; cases hv
  | some b =>
    have key : ∀ {v}, xmlDeclCall al x Pool.new (d.out x asc) = some v → v.hasEncoding = true ∧ v.standalone = none := by
      intro v hv
      refine ⟨?_, ?_⟩
      · rw [call_encoding hv]; simp [C18.Src.out, he]
      · rw [C19.standalone_reported al hv]; simp [hs]
    cases hver : d.version with
    | some a =>
      have := C19.version_with_encoding S al C43.new_inv rfl h hver he
      obtain ⟨v, hv, hw⟩ := Option.map_eq_some_iff.1 this
      rw [hv]
      obtain ⟨k1, k2⟩ := key hv
      obtain ⟨ver, en, sa⟩ := v
      simp only at hw k1 k2
      rw [hw, k1, k2]
      rfl
    | none =>
      have hd : d.out x asc = ⟨none, some (spell asc b.value ++ (asc b.q ++ spell asc (C18.txt d.standalone ++ d.trail)),
          spell asc b.value, findEncoding x (spell asc b.value)), none⟩ := by
        simp [C18.Src.out, hver, he, hs]
      rw [hd]
      have hok := (h.encoding b he).1
      obtain ⟨q, h1⟩ : ∃ q, Pool.new.storeCString al x ((spell asc b.value ++ (asc b.q ++ spell asc (C18.txt d.standalone ++ d.trail))).take
          (nameLength x.e (spell asc b.value ++ (asc b.q ++ spell asc (C18.txt d.standalone ++ d.trail))))) = some q := by
        generalize List.take _ _ = b
        obtain ⟨q, hq, -⟩ := C43.append_keeps al (C43.supported_drains S) C43.new_inv b
        exact ⟨_, by rw [Pool.storeCString, hq]; rfl⟩
      simp only [xmlDeclCall, h1]
      rfl

end

theorem text_next {ns protocol : Bool} {i j : EncId} {d : C18.Src} (h : d.Valid true) (h127 : ∀ a ∈ d.encoding, a.value.length ≠ 127)
    (hn : NextEnc protocol i d j) : processXmlDecl ns i protocol true (spell (C54.ascOf i) d.text) = .proceed j := by
  have hc := clean_of (i := i) (ns := ns) (decl_chars h)
  have key : protocol = true → processXmlDecl ns i protocol true (spell (C54.ascOf i) d.text) = .proceed i := by
    rintro rfl
    exact C54.protocol_wins ns i true _ _ ((C18.accepted_partial (C54.supported ns i) true hc _).2 ⟨d, h, h127, rfl, rfl⟩)
  have key2 : protocol = false → processXmlDecl ns i protocol true (spell (C54.ascOf i) d.text) =
      C54.expected i (d.encoding.map (·.value)) := by
    rintro rfl
    exact C54.declared_encoding ns i true h h127 hc
  cases hn with
  | given hp => exact key hp
  | silent he =>
    rcases Bool.eq_false_or_eq_true protocol with hp | hp
    · exact key hp
    · rw [key2 hp, he]; rfl
  | utf16 a h1 h2 h3 =>
    rcases Bool.eq_false_or_eq_true protocol with hp | hp
    · exact key hp
    · rw [key2 hp, h1, Option.map_some, C54.expected, if_pos ⟨h2, h3⟩]
  | named a n k hp h1 h2 h3 h4 =>
    have h0 := C18.val_zero (h.encoding a h1).1.value
    rw [key2 hp, h1, Option.map_some, C54.expected]
    have hk := (C16.index_iff a.value h0 k).2 ⟨n, h2, h3⟩
    split
    · rename_i h5
      have : k.enc = i := by
        refine h4.2 ?_
        rw [← h4.1]; exact h5.2
      rw [this]
    · rw [hk]
      simp only [if_pos h4]

/-- The step of the parser. -/
theorem text_act {c : PCfg} {i j : EncId} {d : C18.Src} (h : d.Valid true) (h127 : ∀ a ∈ d.encoding, a.value.length ≠ 127)
    (hn : NextEnc c.protocol i d j) {s : DState} (hs : s.cur = .builtin i) :
    ∃ E, actXmlDecl c s true (xmlDeclText (C54.ascOf i) d) = (E, { s with cur := .builtin j }, .go false) ∧
      E = if c.xmlDecl then textTold c (some d) else (toDefault c.c (i.x c.c.ns) (xmlDeclText (C54.ascOf i) d)).map .ev := by
  have S := C54.supported c.c.ns i
  have hc := clean_of (i := i) (ns := c.c.ns) (decl_chars h)
  have hp := (C18.accepted_partial S true hc _).2 ⟨d, h, h127, rfl, rfl⟩
  have hq := text_next (ns := c.c.ns) h h127 hn
  have hv := text_call S c.c.al h
  have hx : s.cur.x c.c.ns = i.x c.c.ns := by rw [hs]; rfl
  refine ⟨_, ?_, rfl⟩
  rw [actXmlDecl]
  simp only [hx]
  rw [decl_text S, hp]
  simp only [Bool.not_true, Bool.false_and, Bool.false_eq_true, if_false, hv, hs, hq]
  by_cases hx : c.xmlDecl = true
  · simp only [if_pos hx, textTold, Option.map_some]
  · simp only [if_neg hx]

theorem act_text {c : PCfg} {i : EncId} (hu : c.unknown = fun _ => none) {w : Buf} {s : DState} (hs : s.cur = .builtin i) {hd : Bool}
    (h : (actXmlDecl c s true w).2.2 = .go hd) :
    ∃ j, processXmlDecl c.c.ns i c.protocol true (declText (i.x c.c.ns).e w) = .proceed j := by
  have hx : s.cur.x c.c.ns = i.x c.c.ns := by rw [hs]; rfl
  rw [actXmlDecl] at h
  simp only [Bool.not_true, Bool.false_and, Bool.false_eq_true, if_false, hs] at h
  split at h
  · cases h
  · cases h
  · split at h
    · cases h
    · split at h
      · cases h
      · cases h
      · cases h
      · rename_i j hj; exact ⟨j, hj⟩
      · rw [hu] at h; cases h

/-- The declarations that are accepted, with the encoding in which the entity goes on. -/
theorem text_back {c : PCfg} {i : EncId} (hu : c.unknown = fun _ => none) {w : Buf} (hw : Markup (i.x c.c.ns).e (C54.ascOf i) .XML_DECL w)
    {s : DState} (hs : s.cur = .builtin i) {hd : Bool} (h : (actXmlDecl c s true w).2.2 = .go hd) :
    ∃ d j, w = xmlDeclText (C54.ascOf i) d ∧ d.Valid true ∧ (∀ a ∈ d.encoding, a.value.length ≠ 127) ∧ NextEnc c.protocol i d j := by
  have S := C54.supported c.c.ns i
  obtain ⟨b, h1, rfl⟩ := decl_markup S hw
  have hc := clean_body h1
  obtain ⟨j, hj⟩ := act_text hu hs h
  rw [decl_inner S] at hj
  cases hp : doParseXmlDecl (i.x c.c.ns) true b with
  | panic => rw [processXmlDecl, hp] at hj; cases hj
  | bad => rw [processXmlDecl, hp] at hj; cases hj
  | ok o =>
    obtain ⟨d, h2, h3, rfl, rfl⟩ := (C18.accepted_partial S true hc o).1 hp
    suffices hn : ∃ j, NextEnc c.protocol i d j by
      obtain ⟨j, hn⟩ := hn
      exact ⟨d, j, rfl, h2, h3, hn⟩
    rcases Bool.eq_false_or_eq_true c.protocol with hpr | hpr
    · exact ⟨i, .given hpr⟩
    · have key := C54.declared_encoding c.c.ns i true h2 h3 hc
      cases he : d.encoding with
      | none => exact ⟨i, .silent he⟩
      | some a =>
        rw [hpr] at hj
        rw [he, Option.map_some, C54.expected, hj] at key
        have h0 := C18.val_zero (h2.encoding a he).1.value
        by_cases h16 : C16.SameName a.value (C16.codes ['U','T','F','-','1','6']) ∧ C54.unitSize i = 2
        · exact ⟨i, .utf16 a he h16.1 h16.2⟩
        · rw [if_neg h16] at key
          cases hk : getEncodingIndex (some a.value) with
          | none => rw [hk] at key; cases key
          | some k =>
            rw [hk] at key
            obtain ⟨n, g1, g2⟩ := (C16.index_iff a.value h0 k).1 hk
            by_cases hcm : C54.Compatible i k.enc
            · exact ⟨k.enc, .named a n k hpr he g1 g2 hcm⟩
            · simp only [if_neg hcm] at key
              cases key

end Verif.C66
