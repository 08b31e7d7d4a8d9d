import Verif.Props.C59
import Verif.Props.C54

/-! # The XML declaration at the start of a document -/

set_option autoImplicit false

namespace Verif.C60
open C43 C53 C59 Spec Verif PState

/-! ### The text of a declaration -/

/-- The characters that a declaration is written with. -/
def declChar (c : UInt8) : Bool := isWS c || isVal c || c == 0x22 || c == 0x27 || c == 0x3D

theorem ws_declChar {ws : List UInt8} (h : AllWS ws) : ∀ c ∈ ws, declChar c = true := by
  intro c hc
  simp [declChar, h c hc]

theorem attr_declChar {a : PAttr} (h : a.Valid) (hn : ∀ c ∈ a.name, isVal c = true) : ∀ c ∈ a.text, declChar c = true := by
  intro c hc
  simp only [PAttr.text, List.mem_append, List.mem_singleton] at hc
  rcases hc with ((((((hc | hc) | hc) | rfl) | hc) | hc) | hc) | hc
  · exact ws_declChar h.ws c hc
  · simp [declChar, hn c hc]
  · exact ws_declChar h.s1 c hc
  · decide
  · exact ws_declChar h.s2 c hc
  · rcases h.q with h | h <;> rw [hc, h] <;> decide
  · simp [declChar, h.value c hc]
  · rcases h.q with h | h <;> rw [hc, h] <;> decide

theorem decl_chars {t : Bool} {d : C18.Src} (h : d.Valid t) : ∀ c ∈ d.text, declChar c = true := by
  have n1 : ∀ c ∈ C16.codes ['v','e','r','s','i','o','n'], isVal c = true := by decide +kernel
  have n2 : ∀ c ∈ C16.codes ['e','n','c','o','d','i','n','g'], isVal c = true := by decide +kernel
  have n3 : ∀ c ∈ C16.codes ['s','t','a','n','d','a','l','o','n','e'], isVal c = true := by decide +kernel
  have tx : ∀ {o : Option PAttr} {c : UInt8}, c ∈ C18.txt o → ∃ a, o = some a ∧ c ∈ a.text := by
    intro o c hc
    cases o with
    | none => simp [C18.txt] at hc
    | some a => exact ⟨a, rfl, hc⟩
  intro c hc
  rw [C18.Src.text, List.mem_append, List.mem_append, List.mem_append] at hc
  rcases hc with hc | hc | hc | hc
  · obtain ⟨a, ha, hc⟩ := tx hc
    have := h.version a ha
    exact attr_declChar this.1 (by rw [this.2]; exact n1) c hc
  · obtain ⟨a, ha, hc⟩ := tx hc
    have := h.encoding a ha
    exact attr_declChar this.1 (by rw [this.2.1]; exact n2) c hc
  · obtain ⟨a, ha, hc⟩ := tx hc
    have := h.standalone a ha
    exact attr_declChar this.1 (by rw [this.2.1]; exact n3) c hc
  · exact ws_declChar h.trail c hc

/-- Neither the class of a lead byte nor that of something which is no character. -/
def plainClass : ByteType → Bool
  | .NONXML | .MALFORM | .TRAIL | .LEAD2 | .LEAD3 | .LEAD4 => false
  | _ => true

theorem declChar_class : ∀ t ∈ allTables, ∀ c : UInt8, declChar c = true → plainClass (tableBt t c) = true := by
  intro t ht
  simp only [allTables, List.mem_cons, List.not_mem_nil, or_false] at ht
  rcases ht with rfl | rfl | rfl | rfl | rfl | rfl | rfl | rfl <;>
    exact UInt8.forall_dec (by decide +kernel)

theorem declChar_lt : ∀ c : UInt8, declChar c = true → c < 0x80 ∧ c ≠ 0x3F :=
  UInt8.forall_dec (by decide +kernel)

section
variable {x : XEnc} {asc : UInt8 → Buf}

theorem declChar_char (S : XSupported x asc) {c : UInt8} (h : declChar c = true) : x.e.IsChar (asc c) := by
  obtain ⟨t, ht, hb⟩ := C19.bt_asc S.s c (declChar_lt c h).1 []
  have hc := declChar_class t ht c h
  rw [List.append_nil] at hb
  rw [Enc.IsChar, hb]
  generalize tableBt t c = k at hc
  cases k <;> first | exact S.s.asc.len c | cases hc

theorem noQuest {a b : Buf} {ws : List Buf} (h : ∀ w ∈ ws, w ≠ a) : NoPair a b (ws ++ [a]) := by
  induction ws with
  | nil => exact trivial
  | cons w ws ih => exact .cons_ne (h w (by simp)) (ih fun v hv => h v (by simp [hv]))

/-- `<?xml`, what the grammar has between, `?>`. -/
def xmlDeclText (asc : UInt8 → Buf) (d : C18.Src) : Buf :=
  spell asc [0x3C, 0x3F] ++ ((xmlName.map asc).flatten ++ (spell asc d.text ++ spell asc [0x3F, 0x3E]))

theorem decl_body (S : XSupported x asc) {d : C18.Src} (h : d.Valid false) : PiBody x.e asc (spell asc d.text) := by
  have hch := decl_chars h
  have hv := h.needVersion rfl
  cases hver : d.version with
  | none => rw [hver] at hv; cases hv
  | some a =>
    have ha := (h.version a hver).1
    cases hws : a.ws with
    | nil => exact absurd hws ha.ws_ne
    | cons c cs =>
      have ht : ∃ r, d.text = c :: r := by
        rw [C18.Src.text, hver, C18.txt, PAttr.text, hws]
        exact ⟨_, rfl⟩
      obtain ⟨r, hr⟩ := ht
      rw [hr, spell_cons]
      rw [hr] at hch
      refine .data c (r.map asc) (ha.ws c (by rw [hws]; simp)) ?_ ?_
      · intro w hw
        obtain ⟨k, hk, rfl⟩ := List.mem_map.1 hw
        exact declChar_char S (hch k (by simp [hk]))
      · refine noQuest fun w hw => ?_
        obtain ⟨k, hk, rfl⟩ := List.mem_map.1 hw
        intro he
        exact (declChar_lt k (hch k (by simp [hk]))).2 (S.s.asc_inj he)

theorem xml_name (S : XSupported x asc) : x.e.Name (xmlName.map asc) := by
  have s := S.s
  have h7 : ∀ c, (c = 0x78 ∨ c = 0x6D ∨ c = 0x6C) → x.e.bt (asc c) = .NMSTRT := by
    cases S <;> rename_i ns <;> cases ns <;> rintro c (rfl | rfl | rfl) <;> decide +kernel
  refine ⟨asc 0x78, [asc 0x6D, asc 0x6C], rfl, ?_, ?_⟩
  · simp only [Enc.NmstrtChar, h7 0x78 (by simp), s.asc.len]
  · intro w hw
    simp only [List.mem_cons, List.not_mem_nil, or_false] at hw
    rcases hw with rfl | rfl
    · simp only [Enc.NameChar, h7 0x6D (by simp), s.asc.len]
    · simp only [Enc.NameChar, h7 0x6C (by simp), s.asc.len]

/-- It is one token. -/
theorem decl_token (S : XSupported x asc) {d : C18.Src} (h : d.Valid false) (r : Buf)
    (hd : x.e.mb ∣ (xmlDeclText asc d ++ r).length) :
    prologTok x.e (xmlDeclText asc d ++ r) = ⟨.XML_DECL, (xmlDeclText asc d).length⟩ := by
  have l (c) := S.s.asc.len c
  have ht := (C07.checkPiTarget_spec S.s (xmlName.map asc).flatten).1.2 rfl
  have hb := decl_body S h
  have hn := xml_name S
  unfold xmlDeclText at hd ⊢
  generalize (spell asc d.text) = b at *
  generalize xmlName.map asc = target at *
  simp only [spell, List.map_cons, List.map_nil, List.flatten_cons, List.flatten_nil, List.append_nil, List.append_assoc] at hd ⊢
  rw [prologTok_eq (by rw [List.length_append, l]; omega), trunc_whole S.s hd]
  simp only [prologTokBody, asc_bt S.s (t := .LT) rfl, drop_char (l _), asc_bt S.s (t := .QUEST) rfl]
  rw [if_neg (asc_len_ok S.s _ _), Nat.two_mul, ← List.drop_drop, drop_char (l _), drop_char (l _),
    (pi_at S.s _ _ _ _ rfl).2 ⟨target, _, _, hn, rfl, (tail_iff S.s _ _).2 ⟨b, r, hb, rfl, rfl⟩, rfl, ht⟩]
  simp only [List.length_append, l, Res.mk.injEq, true_and]; omega

theorem decl_text (S : XSupported x asc) (d : C18.Src) : declText x.e (xmlDeclText asc d) = spell asc d.text := by
  have l (c) := S.s.asc.len c
  have h1 : xmlDeclText asc d = spell asc ([0x3C, 0x3F] ++ xmlName) ++ (spell asc d.text ++ spell asc [0x3F, 0x3E]) := by
    simp [xmlDeclText, spell]
  have h5 : (spell asc ([0x3C, 0x3F] ++ xmlName)).length = 5 * x.e.mb := by
    rw [spell, spell_length S.s]; rfl
  have h2 : (spell asc [0x3F, 0x3E]).length = 2 * x.e.mb := by
    rw [spell, spell_length S.s]; rfl
  rw [declText, h1, List.drop_left' h5]
  refine List.take_left' ?_
  simp only [List.length_append, h5, h2]; omega

theorem clean_of {d : C18.Src} {i : EncId} {ns : Bool} (h : ∀ c ∈ d.text, declChar c = true) :
    (i.x ns).Clean (spell (C54.ascOf i) d.text) := by
  rintro ⟨ns', hi⟩ b hb
  have hi : C54.ascOf i = asc1 := by
    have hm := congrArg (fun x : XEnc => x.e.mb) hi
    cases i <;> first | rfl | exact absurd hm (by cases ns <;> cases ns' <;> decide)
  rw [hi] at hb
  simp only [spell, List.mem_flatten, List.mem_map] at hb
  obtain ⟨w, ⟨c, hc, rfl⟩, hb⟩ := hb
  simp only [asc1, List.mem_singleton] at hb
  rw [hb]
  exact (declChar_lt c (h c hc)).1

end

/-! ### What it does -/

/-- The encoding after the declaration: the one in use if the application has named it, or if none is declared;
otherwise the one declared, which must agree with the one in use as far as that shows (C54). -/
inductive NextEnc (protocol : Bool) (i : EncId) (d : C18.Src) : EncId → Prop where
  | given (h : protocol = true) : NextEnc protocol i d i
  | silent (h : d.encoding = none) : NextEnc protocol i d i
  | utf16 (a : PAttr) (h1 : d.encoding = some a) (h2 : C16.SameName a.value (C16.codes ['U','T','F','-','1','6'])) (h3 : C54.unitSize i = 2) :
      NextEnc protocol i d i
  | named (a : PAttr) (n : List UInt8) (k : EncIndex) (hp : protocol = false) (h1 : d.encoding = some a) (h2 : (n, k) ∈ C16.names)
      (h3 : C16.SameName a.value n) (h4 : C54.Compatible i k.enc) : NextEnc protocol i d k.enc

/-- Standalone, as declared. -/
def alone (d : C18.Src) : Bool := (d.standalone.map fun a => decide (a.value = C16.codes ['y','e','s'])) == some true

/-- Parameter entities are not read if they should not be for a standalone document. -/
def peAfter (b : Bool) (pe : PEParsing) : PEParsing := if b = true ∧ pe = .unlessStandalone then .never else pe

/-- What is passed as the version, which is wrong (C19): the name of the encoding, or the version with the rest of the declaration. -/
def versionTold (d : C18.Src) : Option Buf :=
  match d.encoding with
  | some e => some e.value
  | none => d.version.map fun a => a.value ++ [a.q] ++ C18.txt d.standalone ++ d.trail

/-- The handler, if there is one, is told a version, whether an encoding is declared, and standalone. -/
def Told (c : PCfg) (d : C18.Src) (V : List PEv) : Prop :=
  V = if c.xmlDecl then
      [.xmlDecl ⟨versionTold d, d.encoding.isSome, d.standalone.map fun a => decide (a.value = C16.codes ['y','e','s'])⟩]
    else []

/-- The state after the declaration. -/
def begun (cur : CurEnc) (pe : PEParsing) (b : Bool) : DState :=
  { el := { p := { PState.init with h := .prolog1 } }, cur := cur, pe := peAfter b pe, D := { standalone := b } }

theorem call_some {x : XEnc} {asc : UInt8 → Buf} (S : XSupported x asc) (al : Allocator) {d : C18.Src} (h : d.Valid false) :
    ∃ v, xmlDeclCall al x Pool.new (d.out x asc) = some v ∧ v.version = versionTold d := by
  have hv := h.needVersion rfl
  cases hver : d.version with
  | none => rw [hver] at hv; cases hv
  | some a =>
    cases he : d.encoding with
    | none =>
      have := C19.version_no_encoding S al C43.new_inv rfl h hver he
      obtain ⟨v, hv, hw⟩ := Option.map_eq_some_iff.1 this
      exact ⟨v, hv, by rw [hw, versionTold, he, hver]; rfl⟩
    | some b =>
      have := C19.version_with_encoding S al C43.new_inv rfl h hver he
      obtain ⟨v, hv, hw⟩ := Option.map_eq_some_iff.1 this
      exact ⟨v, hv, by rw [hw, versionTold, he]⟩

theorem call_encoding {al : Allocator} {x : XEnc} {p : Pool} {o : DeclOut} {v : DeclCall} (h : xmlDeclCall al x p o = some v) :
    v.hasEncoding = o.encoding.isSome := by
  simp only [xmlDeclCall, Option.bind_eq_some_iff] at h
  obtain ⟨p1, _, h2⟩ := h
  split at h2
  · cases h2; rfl
  · simp only [Option.map_eq_some_iff] at h2
    obtain ⟨_, _, rfl⟩ := h2; rfl

theorem next_enc {ns protocol : Bool} {i j : EncId} {d : C18.Src} (h : d.Valid false) (h127 : ∀ a ∈ d.encoding, a.value.length ≠ 127)
    (hn : NextEnc protocol i d j) : processXmlDecl ns i protocol false (spell (C54.ascOf i) d.text) = .proceed j := by
  have hc := clean_of (i := i) (ns := ns) (decl_chars h)
  have key : protocol = true → processXmlDecl ns i protocol false (spell (C54.ascOf i) d.text) = .proceed i := by
    rintro rfl
    exact C54.protocol_wins ns i false _ _ ((C18.accepted_partial (C54.supported ns i) false hc _).2 ⟨d, h, h127, rfl, rfl⟩)
  have key2 : protocol = false → processXmlDecl ns i protocol false (spell (C54.ascOf i) d.text) =
      C54.expected i (d.encoding.map (·.value)) := by
    rintro rfl
    exact C54.declared_encoding ns i false h h127 hc
  cases hn with
  | given hp => exact key hp
  | silent he =>
    rcases Bool.eq_false_or_eq_true protocol with hp | hp
    · exact key hp
    · rw [key2 hp, he]; rfl
  | utf16 a h1 h2 h3 =>
    rcases Bool.eq_false_or_eq_true protocol with hp | hp
    · exact key hp
    · rw [key2 hp, h1, Option.map_some, C54.expected, if_pos ⟨h2, h3⟩]
  | named a n k hp h1 h2 h3 h4 =>
    have h0 := C18.val_zero (h.encoding a h1).1.value
    rw [key2 hp, h1, Option.map_some, C54.expected]
    have hk := (C16.index_iff a.value h0 k).2 ⟨n, h2, h3⟩
    split
    · rename_i h5
      have : k.enc = i := by
        refine h4.2 ?_
        rw [← h4.1]; exact h5.2
      rw [this]
    · rw [hk]
      simp only [if_pos h4]

/-- The step of the parser. -/
theorem decl_act {c : PCfg} {i j : EncId} {d : C18.Src} (h : d.Valid false) (h127 : ∀ a ∈ d.encoding, a.value.length ≠ 127)
    (hn : NextEnc c.protocol i d j) (pe : PEParsing) :
    ∃ E, actXmlDecl c (begun (.builtin i) pe false) false (xmlDeclText (C54.ascOf i) d) = (E, begun (.builtin j) pe (alone d), .go false) ∧
      Told c d (heard E) := by
  have S := C54.supported c.c.ns i
  have hc := clean_of (i := i) (ns := c.c.ns) (decl_chars h)
  have hp := (C18.accepted_partial S false hc _).2 ⟨d, h, h127, rfl, rfl⟩
  have hq := next_enc (ns := c.c.ns) h h127 hn
  obtain ⟨v, hv, hver⟩ := call_some S c.c.al h
  have hE : ∃ E, (if c.xmlDecl then (xmlDeclCall c.c.al (i.x c.c.ns) Pool.new (d.out (i.x c.c.ns) (C54.ascOf i))).map fun d => [PEv.xmlDecl d]
      else some ((toDefault c.c (i.x c.c.ns) (xmlDeclText (C54.ascOf i) d)).map .ev)) = some E ∧ Told c d (heard E) := by
    unfold Told
    by_cases hx : c.xmlDecl = true
    · simp only [if_pos hx]
      rw [hv]
      refine ⟨_, rfl, ?_⟩
      have h1 : v.hasEncoding = d.encoding.isSome := by rw [call_encoding hv]; cases he : d.encoding <;> simp [C18.Src.out, he]
      have h2 := C19.standalone_reported c.c.al hv
      obtain ⟨ver, en, sa⟩ := v
      simp only at h1 h2 hver
      rw [h1, h2, hver]
      rfl
    · simp only [if_neg hx]
      exact ⟨_, rfl, heard_dflt _ _ _⟩
  obtain ⟨E, hE, hT⟩ := hE
  refine ⟨E, ?_, hT⟩
  have hal : ((d.out (i.x c.c.ns) (C54.ascOf i)).standalone == some true) = alone d := rfl
  rw [actXmlDecl]
  simp only [show (begun (.builtin i) pe false).cur.x c.c.ns = i.x c.c.ns from rfl]
  rw [decl_text S, hp]
  simp only [hal, Bool.not_false, Bool.true_and]
  rw [hE]
  cases hb : alone d with
  | true =>
    simp only [if_true, begun, hq]
    simp [peAfter]
  | false =>
    simp only [Bool.false_eq_true, if_false, begun, hq]

section
variable {c : PCfg} {ext : Ext} {fuel : Nat} {expand : Bool → Buf → Buf → DState → Acted} {between allowClose more : Bool}
  {opened : List Buf}

/-- The declaration is read, and then the rest in the encoding it names. -/
theorem decl_step {i j : EncId} {d : C18.Src} (h : d.Valid false) (h127 : ∀ a ∈ d.encoding, a.value.length ≠ 127)
    (hn : NextEnc c.protocol i d j) (pe : PEParsing) (r : Buf) (hd : (i.x c.c.ns).e.mb ∣ (xmlDeclText (C54.ascOf i) d ++ r).length) :
    ∃ V, Told c d V ∧
      hear (prun c ext fuel expand false between allowClose more opened (start (.builtin i) pe) (xmlDeclText (C54.ascOf i) d ++ r)) =
        Prolog.pre V (hear (prun c ext fuel expand false between allowClose more opened (begun (.builtin j) pe (alone d)) r)) := by
  have S := C54.supported c.c.ns i
  obtain ⟨E, h1, h2⟩ := decl_act (c := c) h h127 hn pe
  refine ⟨heard E, h2, ?_⟩
  have htok := decl_token S h r hd
  have hl : 0 < (xmlDeclText (C54.ascOf i) d).length := by
    rw [xmlDeclText, List.length_append, spell, spell_length S.s]
    have : 0 < (i.x c.c.ns).e.mb := Nat.succ_pos _
    simp only [List.length_cons, List.length_nil]
    omega
  have hsee : seeToken ((start (.builtin i) pe).x c false) false between more c.isPE (xmlDeclText (C54.ascOf i) d ++ r) =
      .tok .XML_DECL (xmlDeclText (C54.ascOf i) d).length := by
    rw [seeToken, show (start (.builtin i) pe).x c false = i.x c.c.ns from rfl, htok]
    rfl
  have hround : pround c ext fuel expand false allowClose opened (start (.builtin i) pe) .XML_DECL (xmlDeclText (C54.ascOf i) d) =
      (E, begun (.builtin j) pe (alone d), .go false) := by
    rw [pround]
    have hp : (start (.builtin i) pe).el.p.next ((start (.builtin i) pe).x c false).e .XML_DECL (xmlDeclText (C54.ascOf i) d) =
        ({ PState.init with h := .prolog1 }, .XML_DECL) := rfl
    have hs : ({ start (.builtin i) pe with el := { (start (.builtin i) pe).el with p := { PState.init with h := .prolog1 } } } : DState) =
        begun (.builtin i) pe false := by
      simp [start, begun, peAfter]
    simp only [hp, hs, pact, h1]
  rw [prun.eq_def]
  simp only [hsee]
  rw [List.take_left' rfl, hround]
  simp only
  rw [List.drop_left' rfl, if_pos (by rw [List.length_append]; omega), hear_pre]

theorem begun_at (cur : CurEnc) (pe : PEParsing) (b : Bool) : At (frame (begun cur pe b)) .prolog1 { standalone := b } (begun cur pe b) where
  h := rfl
  none_ := rfl
  frame := rfl
  D := rfl
  tmp := rfl
  rest := ⟨rfl, rfl, .inl rfl⟩

theorem begun_untyped (cur : CurEnc) (pe : PEParsing) (b : Bool) (x : XEnc) (asc : UInt8 → Buf) :
    Untyped (reading c x asc (peAfter b pe)) (frame (begun cur pe b)) { standalone := b } where
  doc := rfl
  fdoc := rfl
  pe := rfl
  foreign := rfl
  includes := rfl
  name := rfl
  keep := rfl
  hash := rfl

end

end Verif.C60
