import Verif.Props.C35

/-! C50: references to entities that are not declared, not parsed, or external. -/

set_option autoImplicit false

namespace Verif.C50
open Verif C43 C53 Spec C04

/-! ### Specification -/

/-- Nothing outside the document entity's internal subset could declare an entity: there are no external
subset and no parameter entity references, or the document is standalone (XML 1.0, section 4.1, "Entity Declared"). -/
def NothingElse (D : Dtd) : Prop := D.hasPERefs = false ∨ D.standalone = true

/-- The references that are errors in content, with the error. -/
inductive Wrong (D : Dtd) (opened : List Buf) (name : Buf) : XErr → Prop
  | undeclared : D.entity name = none → NothingElse D → Wrong D opened name .UNDEFINED_ENTITY
  | elsewhere {ent : Entity} : D.entity name = some ent → NothingElse D → ent.isInternal = false →
      Wrong D opened name .ENTITY_DECLARED_IN_PE
  | recursive {ent : Entity} : D.entity name = some ent → (NothingElse D → ent.isInternal = true) → name ∈ opened →
      Wrong D opened name .RECURSIVE_ENTITY_REF
  | unparsed {ent : Entity} : D.entity name = some ent → (NothingElse D → ent.isInternal = true) → name ∉ opened →
      ent.notation_ ≠ none → Wrong D opened name .BINARY_ENTITY_REF

/-- The references that are errors in attribute values. -/
inductive WrongValue (D : Dtd) (opened : List Buf) (name : Buf) : XErr → Prop
  | content {err : XErr} : Wrong D opened name err → WrongValue D opened name err
  | external {ent : Entity} : D.entity name = some ent → (NothingElse D → ent.isInternal = true) → name ∉ opened →
      ent.notation_ = none → ent.text = none → WrongValue D opened name .ATTRIBUTE_EXTERNAL_ENTITY_REF

/-- A reference to an unparsed entity is always an error. -/
theorem unparsed_wrong {D : Dtd} {opened : List Buf} {name : Buf} {ent : Entity} (h : D.entity name = some ent)
    (hn : ent.notation_ ≠ none) : ∃ err, Wrong D opened name err := by
  by_cases h1 : NothingElse D ∧ ent.isInternal = false
  · exact ⟨_, .elsewhere h h1.1 h1.2⟩
  · have h2 : NothingElse D → ent.isInternal = true := by
      intro h3
      cases hi : ent.isInternal with
      | true => rfl
      | false => exact absurd ⟨h3, hi⟩ h1
    by_cases h3 : name ∈ opened
    · exact ⟨_, .recursive h h2 h3⟩
    · exact ⟨_, .unparsed h h2 h3 hn⟩

/-- A reference to an external entity is always an error in an attribute value. -/
theorem external_wrong {D : Dtd} {opened : List Buf} {name : Buf} {ent : Entity} (h : D.entity name = some ent)
    (hn : ent.text = none) : ∃ err, WrongValue D opened name err := by
  by_cases hno : ent.notation_ = none
  · by_cases h1 : NothingElse D ∧ ent.isInternal = false
    · exact ⟨_, .content (.elsewhere h h1.1 h1.2)⟩
    · have h2 : NothingElse D → ent.isInternal = true := by
        intro h3
        cases hi : ent.isInternal with
        | true => rfl
        | false => exact absurd ⟨h3, hi⟩ h1
      by_cases h3 : name ∈ opened
      · exact ⟨_, .content (.recursive h h2 h3)⟩
      · exact ⟨_, .external h h2 h3 hno hn⟩
  · obtain ⟨err, h⟩ := unparsed_wrong (opened := opened) h hno
    exact ⟨err, .content h⟩

theorem nothing_iff (D : Dtd) : D.mustDeclare = true ↔ NothingElse D := by
  simp only [Dtd.mustDeclare, NothingElse, Bool.or_eq_true, Bool.not_eq_true']

theorem not_nothing {D : Dtd} (h : ¬ NothingElse D) : D.mustDeclare = false := by
  cases hm : D.mustDeclare with
  | false => rfl
  | true => exact absurd ((nothing_iff D).1 hm) h

theorem guard {D : Dtd} {ent : Entity} (h : NothingElse D → ent.isInternal = true) : (D.mustDeclare && !ent.isInternal) = false := by
  cases hm : D.mustDeclare with
  | false => rfl
  | true => rw [h ((nothing_iff D).1 hm)]; rfl

section
variable {c : Cfg} {D : Dtd} {int x : XEnc} {asc : UInt8 → Buf} (S : XSupported x asc)
include S

/-! ### Content -/

theorem act_wrong {k : Nat} {opened : List Buf} {start : Nat} (s : CState) {name : List Buf} (hn : x.e.Name name) (hp : ¬ Predefined asc name.flatten)
    {err : XErr} (h : Wrong D opened (converted x name.flatten) err) :
    (sem c D int k x opened start).act s .ENTITY_REF (entityText asc name.flatten) = ([], .error err) := by
  have h0 := not_predefined S hn hp
  cases h with
  | undeclared h1 h2 => cases k <;> simp [sem, semOf, act, actEntityRef, refName_text S, h0, h1, (nothing_iff D).2 h2]
  | elsewhere h1 h2 h3 => cases k <;> simp [sem, semOf, act, actEntityRef, refName_text S, h0, h1, (nothing_iff D).2 h2, h3]
  | recursive h1 h2 h3 => cases k <;> simp [sem, semOf, act, actEntityRef, refName_text S, h0, h1, guard h2, h3]
  | unparsed h1 h2 h3 h4 =>
    have h4 : ¬ (Option.isSome _ = false) := fun h => h4 (Option.isSome_eq_false_iff.1 h |> Option.isNone_iff_eq_none.1)
    cases k <;> simp [sem, semOf, act, actEntityRef, refName_text S, h0, h1, guard h2, h3, h4]

/-- An error met at this point is reported however the text is cut. -/
theorem chunks_err {s : CState} (hm : s.mode = .content) {b : Buf} {err : XErr} (hd : x.e.mb ∣ b.length)
    (he : err ≠ .INVALID_TOKEN ∧ err ≠ .UNCLOSED_TOKEN ∧ err ≠ .PARTIAL_CHAR)
    (h : (run (parser c D int x) x.e false false s b).2 = .err err) (xs : List Buf) (hx : xs.flatten = b) :
    ∃ F, feed (parser c D int x) x.e s [] xs = (F, .err err) := by
  subst hx
  have h1 := parser_chunks S c D int s xs hd
  rw [show call (parser c D int x) x.e false s xs.flatten = run (parser c D int x) x.e false false s xs.flatten by
    rw [call, parser, sem_mode, hm]; rfl] at h1
  generalize run (parser c D int x) x.e false false s xs.flatten = q at *
  generalize feed (parser c D int x) x.e s [] xs = p at *
  obtain ⟨F, o⟩ := q
  obtain ⟨G, o'⟩ := p
  simp only at h
  subst h
  cases o' with
  | ok s r => simp [Same] at h1
  | err e =>
    simp only [Same] at h1
    rcases h1.2 with rfl | ⟨rfl, h2⟩
    · exact ⟨G, rfl⟩
    · rcases h2 with h2 | h2 | h2
      · exact absurd h2 he.1
      · exact absurd h2 he.2.1
      · exact absurd h2 he.2.2

omit S in
theorem wrong_code {opened : List Buf} {name : Buf} {err : XErr} (h : Wrong D opened name err) :
    err ≠ .INVALID_TOKEN ∧ err ≠ .UNCLOSED_TOKEN ∧ err ≠ .PARTIAL_CHAR := by cases h <;> decide

/-- **C50, errors in content.**  A wrong reference in content, at any point of a document cut in any way, ends
the parse with the error; nothing of it is reported. -/
theorem content_wrong {s : CState} (hm : s.mode = .content) {name : List Buf} (hn : x.e.Name name) (hp : ¬ Predefined asc name.flatten)
    {err : XErr} (h : Wrong D [] (converted x name.flatten) err) (r : Buf) (xs : List Buf)
    (hx : xs.flatten = entityText asc name.flatten ++ r) (hd : x.e.mb ∣ xs.flatten.length) :
    ∃ F, feed (parser c D int x) x.e s [] xs = (F, .err err) := by
  refine chunks_err S hm (hx ▸ hd) (wrong_code h) ?_ xs hx
  rw [parser, run_markup_err S hm (entity_markup hn) (hx ▸ hd) (act_wrong S s hn hp h)]

/-- **C50, skipped references.**  A reference to an undeclared entity that might be declared elsewhere is
reported as skipped, and the parse goes on. -/
theorem content_skipped (a : AllSet c) {s : CState} (hm : s.mode = .content) {name : List Buf} (hn : x.e.Name name)
    (hp : ¬ Predefined asc name.flatten) (h : D.entity (converted x name.flatten) = none) (he : ¬ NothingElse D) (r : Buf)
    (xs : List Buf) (hx : xs.flatten = entityText asc name.flatten ++ r) (hd : x.e.mb ∣ xs.flatten.length)
    (G : List Ev) (s2 : CState) (r2 : Buf) :
    (∃ F, feed (parser c D int x) x.e s [] xs = (F, .ok s2 r2) ∧ flat F = G) ↔
    ∃ F', feed (parser c D int x) x.e s [] [r] = (F', .ok s2 r2) ∧
      G = .skippedEntity (converted x name.flatten) false :: flat F' := by
  refine C06.item_iff S hm (E := [.skippedEntity (converted x name.flatten) false]) (entity_markup hn) ?_ rfl xs hx hd G s2 r2
  have h0 := not_predefined S hn hp
  rw [parser]
  cases D.fuel <;> simp [sem, semOf, act, actEntityRef, refName_text S, h0, h, not_nothing he, orDefault, a.skipped]

/-- **C50, undeclared entities.**  A reference to an undeclared entity is an error exactly if nothing else could
declare it. -/
theorem undeclared_iff (a : AllSet c) {s : CState} (hm : s.mode = .content) {name : List Buf} (hn : x.e.Name name)
    (hp : ¬ Predefined asc name.flatten) (h : D.entity (converted x name.flatten) = none)
    {r : Buf} {F' : List Ev} {s2 : CState} {r2 : Buf} (hr : feed (parser c D int x) x.e s [] [r] = (F', .ok s2 r2))
    (xs : List Buf) (hx : xs.flatten = entityText asc name.flatten ++ r) (hd : x.e.mb ∣ xs.flatten.length) :
    (∃ F, feed (parser c D int x) x.e s [] xs = (F, .err .UNDEFINED_ENTITY)) ↔ NothingElse D := by
  constructor
  · rintro ⟨F, h1⟩
    refine Classical.byContradiction fun he => ?_
    obtain ⟨F2, h2, -⟩ := (content_skipped S a hm hn hp h he r xs hx hd _ s2 r2).2 ⟨F', hr, rfl⟩
    rw [h1] at h2
    cases h2
  · intro he
    exact content_wrong S hm hn hp (.undeclared h he) r xs hx hd

/-! ### Attribute values -/

omit S in
theorem wrong_refValue {ex : Buf → Buf → Buf → Except XErr Buf} {opened : List Buf} {name pool : Buf} (hz : predefinedEntityName x.e name = 0) {err : XErr}
    (h : WrongValue D opened (converted x name) err) : refValue D D.mustDeclare x ex opened pool name = .error err := by
  rw [refValue, if_neg (by simp [hz])]
  cases h with
  | content h =>
    cases h with
    | undeclared h1 h2 => simp [h1, (nothing_iff D).2 h2]
    | elsewhere h1 h2 h3 => simp [h1, (nothing_iff D).2 h2, h3]
    | recursive h1 h2 h3 => simp [h1, guard h2, h3]
    | unparsed h1 h2 h3 h4 =>
      have h4 : ¬ (Option.isSome _ = false) := fun h => h4 (Option.isSome_eq_false_iff.1 h |> Option.isNone_iff_eq_none.1)
      simp [h1, guard h2, h3, h4]
  | external h1 h2 h3 h4 h5 => simp [h1, guard h2, h3, h4, h5]

omit S in
theorem lit_app {e : Enc} {asc : UInt8 → Buf} {r q : Buf} (h : Lit e asc r) (hq : Lit e asc q) : Lit e asc (r ++ q) := by
  induction h with
  | nil => exact hq
  | char w r hw _ ih => rw [List.append_assoc]; exact .char w _ hw ih
  | ref t w r hw _ ih => rw [List.append_assoc, List.append_assoc]; exact .ref t w _ hw ih

omit S in
theorem lit_long {e : Enc} {asc : UInt8 → Buf} (s : Supported e asc) {r : Buf} (h : Lit e asc r) (hr : r ≠ []) : e.mb ≤ r.length := by
  cases h with
  | nil => exact absurd rfl hr
  | char w r hw _ => have := (char_piece s hw).1; simp only [List.length_append]; omega
  | ref t w r hw _ => simp only [List.length_append, s.asc.len]; omega

omit S in
/-- Up to an ampersand. -/
theorem value_prefix {check : Bool} {isCdata : Bool} {x : XEnc} {asc : UInt8 → Buf} {le : Bool} {op : List Buf} {b out : Buf} (hi : XSupported int asc1)
    (hie : int.e.lineEnds asc1 = false) (h : C33.Norm D check int x asc le op b out) :
    XSupported x asc → x.e.lineEnds asc = le → ∀ (q pool : Buf), Lit x.e asc (asc 0x26 ++ q) →
    C34.attr D check int isCdata x op pool (b ++ (asc 0x26 ++ q)) =
      C34.attr D check int isCdata x op (C33.put isCdata pool out) (asc 0x26 ++ q) := by
  induction h with
  | nil => intro s hl q pool hq; rw [List.nil_append, C33.put_nil]
  | crlf h ih =>
    intro s hl q pool hq
    rw [List.append_assoc, List.append_assoc, C34.attr_recursion, loop_crlf s hl, ← C34.attr_recursion, ih s hl _ _ hq, C33.put_cons, C33.put_space]
  | @space x asc le op r out c hc hr h ih =>
    intro s hl q pool hq
    have hr' : x.e.lineEnds asc = true → c = 0x0D → ∀ r', r ++ (asc 0x26 ++ q) ≠ asc 0x0A ++ r' := by
      intro h1 h2 r' h3
      by_cases h4 : r = []
      · subst h4
        have h3 : asc 0x26 ++ q = asc 0x0A ++ r' := h3
        have := (List.append_inj h3 (by simp [s.s.asc.len])).1
        exact absurd (s.s.asc_inj this) (by decide)
      · have h5 := lit_long s.s (C33.norm_lit h s.s) h4
        refine hr (hl ▸ h1) h2 (r.drop x.e.mb) ?_
        have h6 : r.take x.e.mb = asc 0x0A := by
          have := congrArg (List.take x.e.mb) h3
          rw [List.take_append_of_le_length h5, List.take_left' (s.s.asc.len _)] at this
          exact this
        rw [← h6, List.take_append_drop]
    rw [List.append_assoc, C34.attr_recursion, loop_ws s ((C33.isWS_iff c).2 hc) hr', ← C34.attr_recursion, ih s hl _ _ hq, C33.put_cons, C33.put_space]
  | char w hw h1 h2 h3 h ih =>
    intro s hl q pool hq
    rw [List.append_assoc, C34.attr_recursion, loop_data s (C33.data_of hw h1 h2 h3) (lit_app (C33.norm_lit h s.s) hq), ← C34.attr_recursion, ih s hl _ _ hq, C33.put_app,
      C33.put_conv s hw (h3 _ (by simp))]
  | dec ds h0 hd hx h ih =>
    intro s hl q pool hq
    simp only [List.append_assoc]
    rw [C34.attr_recursion, C33.loop_dec s h0 hd, if_pos hx, ← C34.attr_recursion, ih s hl _ _ hq, C33.put_app, C33.space_mem hx]
  | hex ds h0 hd hx h ih =>
    intro s hl q pool hq
    simp only [List.append_assoc]
    rw [C34.attr_recursion, C33.loop_hex s h0 hd, if_pos hx, ← C34.attr_recursion, ih s hl _ _ hq, C33.put_app, C33.space_mem hx]
  | predefined n c hn h ih =>
    intro s hl q pool hq
    obtain ⟨ws, h1, h2⟩ := C33.predef_name s.s hn
    have h3 := (C10.predefined_iff s.s ws.flatten (name_dvd s.s h1) c (C33.predef_space hn).2).2 ⟨n, hn, h2⟩
    simp only [List.append_assoc]
    rw [C34.attr_recursion, ← h2, loop_entity s h1, refValue, h3, if_pos (C33.predef_space hn).2]
    simp only
    rw [← C34.attr_recursion, ih s hl _ _ hq, C33.put_cons, C33.put_plain _ _ (o := [c])]
    simp only [List.mem_cons, List.not_mem_nil, or_false]
    exact (C33.predef_space hn).1.symm
  | entity ws ent t out' hn hp hd hc ho hno ht hin h ihin ih =>
    intro s hl q pool hq
    simp only [List.append_assoc]
    rw [C34.attr_recursion, loop_entity s hn, refValue, if_neg (by rw [(C33.predef_zero s hn).2 hp]; simp), hd]
    simp only
    rw [if_neg (by cases check <;> simp_all), if_neg ho, if_neg (by simp [hno]), ht]
    simp only
    rw [C33.complete hi hie hin hi hie]
    simp only
    rw [← C34.attr_recursion, ih s hl _ _ hq, C33.put_app]
  | skipped ws hn hp hd hc h ih =>
    intro s hl q pool hq
    simp only [List.append_assoc]
    rw [C34.attr_recursion, loop_entity s hn, refValue, if_neg (by rw [(C33.predef_zero s hn).2 hp]; simp), hd, hc]
    simp only [Bool.false_eq_true, if_false]
    rw [← hc, ← C34.attr_recursion, ih s hl _ _ hq]

/-- **C50, attribute values.**  The first wrong reference in a value decides the error. -/
theorem value_wrong {ns : Bool} {isCdata : Bool} {op : List Buf} {u out : Buf}
    (hu : C33.Norm D D.mustDeclare (internalUtf8X ns) x asc (x.e.lineEnds asc) op u out)
    {name : List Buf} (hn : x.e.Name name) (hp : ¬ Predefined asc name.flatten) {err : XErr}
    (h : WrongValue D op (converted x name.flatten) err) {v : Buf} (hv : Lit x.e asc v) :
    storeAttributeValue D D.mustDeclare (internalUtf8X ns) x isCdata op (u ++ (entityText asc name.flatten ++ v)) = .error err := by
  have h1 : Lit x.e asc (asc 0x26 ++ (name.flatten ++ (asc 0x3B ++ v))) := by
    have := Lit.ref _ _ _ (Ref.entity (asc := asc) name hn) hv
    simpa [List.append_assoc] using this
  have h2 := value_prefix (isCdata := isCdata) (.internalUtf8 ns) (C33.line_ends_internal ns) hu S rfl (name.flatten ++ (asc 0x3B ++ v)) [] h1
  rw [C34.attr_recursion (b := asc 0x26 ++ _), loop_entity S hn, wrong_refValue (not_predefined S hn hp) h] at h2
  simp only at h2
  rw [storeAttributeValue, show appendAttributeValue D D.mustDeclare (internalUtf8X ns) isCdata D.fuel x op []
    (u ++ (entityText asc name.flatten ++ v)) = .error err from ?_]
  rw [← h2, C34.attr]
  simp [entityText, List.append_assoc]

omit S in
theorem wrongValue_code {opened : List Buf} {name : Buf} {err : XErr} (h : WrongValue D opened name err) :
    err ≠ .INVALID_TOKEN ∧ err ≠ .UNCLOSED_TOKEN ∧ err ≠ .PARTIAL_CHAR := by
  cases h with
  | content h => exact wrong_code h
  | external => decide

/-- The attribute's value has a wrong reference after text that is in order. -/
inductive Bad (D : Dtd) (ns : Bool) (x : XEnc) (asc : UInt8 → Buf) (opened : List Buf) (v : Buf) (err : XErr) : Prop
  | mk {u out w : Buf} {name : List Buf} :
      C33.Norm D D.mustDeclare (internalUtf8X ns) x asc (x.e.lineEnds asc) opened u out → x.e.Name name →
      ¬ Predefined asc name.flatten → WrongValue D opened (converted x name.flatten) err → Lit x.e asc w →
      v = u ++ (entityText asc name.flatten ++ w) → Bad D ns x asc opened v err

theorem bad_value {ns : Bool} {isCdata : Bool} {op : List Buf} {v : Buf} {err : XErr} (h : Bad D ns x asc op v err) :
    storeAttributeValue D D.mustDeclare (internalUtf8X ns) x isCdata op v = .error err := by
  obtain ⟨h1, h2, h3, h4, h5, rfl⟩ := h
  exact value_wrong S h1 h2 h3 h4 h5

/-- No value. -/
theorem bad_no_value {ns : Bool} (hD : C33.TextsOk D (internalUtf8X ns)) {isCdata : Bool} {op : List Buf} {v : Buf} {err : XErr}
    (hv : Lit x.e asc v) (h : Bad D ns x asc op v err) (w : Buf) : ¬ C33.ValueOf D (internalUtf8X ns) x asc op isCdata v w := by
  intro h1
  have h2 := (C33.literal_value (check := D.mustDeclare) S hD isCdata op hv w).2 h1
  rw [bad_value S h] at h2
  cases h2

omit S in
theorem no_values {ns : Bool} {op : List Buf} {et : ElemType} {a : AttrSrc} {as : List AttrSrc} (ha : a ∈ as)
    (h : ∀ cd w, ¬ C33.ValueOf D (internalUtf8X ns) x asc op cd a.value w) : ∀ src, ¬ C33.Values D (internalUtf8X ns) x asc op et as src := by
  intro src hv
  induction hv with
  | nil => simp at ha
  | @cons a' as v src hv _ ih =>
    rcases List.mem_cons.1 ha with rfl | ha
    · exact h _ _ hv
    · exact ih ha

/-- A tag with such a value is an error. -/
theorem stored_bad {ns : Bool} (hD : C33.TextsOk D (internalUtf8X ns)) (hf : C33.FlagsOk D) {op : List Buf} {raw : Buf} {env : Env}
    {name : List Buf} (hn : QName x.e asc name) {as : List AttrSrc} (ha : ∀ a ∈ as, a.Valid x.e asc) {ws : List UInt8} (hw : AllWS ws) (empty : Bool)
    {a : AttrSrc} (hm : a ∈ as) {err : XErr} (hb : Bad D ns x asc op a.value err) :
    ∃ E err' bs, storeAtts c D (internalUtf8X ns) x op (fun _ => .unset) env raw (tagText asc name as ws empty) = (E, .error (err', bs)) := by
  cases hs : storeAtts c D (internalUtf8X ns) x op (fun _ => .unset) env raw (tagText asc name as ws empty) with
  | mk E o =>
    cases o with
    | error p => exact ⟨E, p.1, p.2, rfl⟩
    | ok t =>
      obtain ⟨E1, E2, s1, s2, h1, -⟩ := C31.storeAtts_ok hs
      obtain ⟨src, -, h2⟩ := C28.chain_first _ (C28.init_first c (fun _ => rfl) env) h1
      have h3 := (C33.tag_values S hD hf op raw hn ha hw empty src).1 h2
      exact absurd h3 (no_values hm (fun cd w => bad_no_value S hD (ha a hm).value.lit hb w) src)

/-- … and if it is the first value, this is the error. -/
theorem stored_first {ns : Bool} (hD : C33.TextsOk D (internalUtf8X ns)) {op : List Buf} {raw : Buf} {env : Env}
    {name : List Buf} (hn : QName x.e asc name) {a : AttrSrc} {as : List AttrSrc} (ha : ∀ b ∈ a :: as, b.Valid x.e asc) {ws : List UInt8} (hw : AllWS ws)
    (empty : Bool) {err : XErr} (hb : Bad D ns x asc op a.value err) :
    storeAtts c D (internalUtf8X ns) x op (fun _ => .unset) env raw (tagText asc name (a :: as) ws empty) = ([], .error (err, [])) := by
  have h := getAtts_spec S.s hn ha hw empty []
  have hv := ha a (by simp)
  rw [List.append_nil] at h
  rw [storeAtts, tagText]
  have hb1 : asc 0x3C ++ (name.flatten ++ (attsText asc (a :: as) ++ closeText asc ws empty)) =
      (asc 0x3C ++ name.flatten) ++ (a.text asc ++ (attsText asc as ++ closeText asc ws empty)) := by
    simp [attsText]
  generalize hl : getAtts x.e _ = l at h
  cases h with
  | @cons _ _ _ l n hp h =>
    have h1 : attName x (asc 0x3C ++ (name.flatten ++ (attsText asc (a :: as) ++ closeText asc ws empty)))
        (attAt x.e asc (x.e.mb + name.flatten.length) a n) = converted x a.name.flatten := by
      rw [hb1]
      have := C33.att_name S hv (asc 0x3C ++ name.flatten) (attsText asc as ++ closeText asc ws empty) n
      simpa [S.s.asc.len] using this
    have h2 : attLiteral (asc 0x3C ++ (name.flatten ++ (attsText asc (a :: as) ++ closeText asc ws empty)))
        (attAt x.e asc (x.e.mb + name.flatten.length) a n) = a.value := by
      rw [hb1]
      have := C33.att_literal S a (asc 0x3C ++ name.flatten) (attsText asc as ++ closeText asc ws empty) n
      simpa [S.s.asc.len] using this
    have hn : n = false := by
      cases n with
      | false => rfl
      | true => exact absurd ⟨_, C33.plain_norm S (hp rfl), rfl⟩ (bad_no_value (isCdata := true) S hD hv.value.lit hb (converted x a.value))
    subst hn
    have h3 : attOne c D (internalUtf8X ns) x op (D.elem raw)
        (asc 0x3C ++ (name.flatten ++ (attsText asc (a :: as) ++ closeText asc ws empty))) ⟨[], fun _ => .unset, env, [], 0⟩
        (attAt x.e asc (x.e.mb + name.flatten.length) a false) = ([], .error (err, [])) := by
      rw [attOne, h1]
      simp only [ne_eq, not_true_eq_false, if_false]
      rw [attValue, h2, if_pos (by rfl), bad_value S hb]
    simp only
    rw [chain, h3]

/-! ### Documents -/

variable (a : AllSet c) {ns : Bool}
include a

/-- Errors of markup met inside some elements. -/
theorem inside_err {iasc : UInt8 → Buf} (I : XSupported int iasc) (hi : int.e.mb = 1) {b r w : Buf} {p : Buf × Env} {path : List (Buf × Env)} {t : Tok}
    (h : C27.Inside c D int iasc x asc b (p :: path) (w ++ r)) (hm : Markup x.e asc t w)
    {err : XErr} (he : err ≠ .INVALID_TOKEN ∧ err ≠ .UNCLOSED_TOKEN ∧ err ≠ .PARTIAL_CHAR)
    (hact : ∀ s : CState, s.flags = (fun _ => .unset) → s.env = p.2 → ∃ E, (parser c D int x).act s t w = (E, .error err))
    (hd : x.e.mb ∣ b.length) (xs : List Buf) (hx : xs.flatten = b) :
    ∃ F, feed (parser c D int x) x.e CState.init [] xs = (F, .err err) := by
  obtain ⟨i1, -, s, E, i3, i4⟩ := C27.inside_run S a I hi h hd
  obtain ⟨Ea, ha⟩ := hact s i3.flags i3.in_.env
  have h1 := i4.1
  rw [parser, run_markup_err S i3.in_.mode hm i1 ha] at h1
  exact chunks_err S rfl hd he h1 xs hx

/-- **C50, documents**: a wrong reference in the content of an element, at any depth. -/
theorem document_wrong {b r : Buf} {p : Buf × Env} {path : List (Buf × Env)} {name : List Buf}
    (h : C27.Inside c D (internalUtf8X ns) asc1 x asc b (p :: path) (entityText asc name.flatten ++ r))
    (hn : x.e.Name name) (hp : ¬ Predefined asc name.flatten) {err : XErr} (hw : Wrong D [] (converted x name.flatten) err)
    (hd : x.e.mb ∣ b.length) (xs : List Buf) (hx : xs.flatten = b) :
    ∃ F, feed (parser c D (internalUtf8X ns) x) x.e CState.init [] xs = (F, .err err) :=
  inside_err S a (.internalUtf8 ns) rfl h (entity_markup hn) (wrong_code hw)
    (fun s _ _ => ⟨[], act_wrong S s hn hp hw⟩) hd xs hx

/-- **C50, documents**: a wrong reference in the first attribute value of a tag inside an element, at any depth. -/
theorem document_value {b r : Buf} {p : Buf × Env} {path : List (Buf × Env)} {name : List Buf} (hD : C33.TextsOk D (internalUtf8X ns))
    {at1 : AttrSrc} {as : List AttrSrc} {ws : List UInt8} {empty : Bool}
    (h : C27.Inside c D (internalUtf8X ns) asc1 x asc b (p :: path) (tagText asc name (at1 :: as) ws empty ++ r))
    (hn : QName x.e asc name) (ha : ∀ b ∈ at1 :: as, b.Valid x.e asc) (hw : AllWS ws)
    {err : XErr} (hb : Bad D ns x asc [] at1.value err)
    (hd : x.e.mb ∣ b.length) (xs : List Buf) (hx : xs.flatten = b) :
    ∃ F, feed (parser c D (internalUtf8X ns) x) x.e CState.init [] xs = (F, .err err) := by
  have he : err ≠ .INVALID_TOKEN ∧ err ≠ .UNCLOSED_TOKEN ∧ err ≠ .PARTIAL_CHAR := by
    obtain ⟨-, -, -, h4, -, -⟩ := hb; exact wrongValue_code h4
  refine inside_err S a (.internalUtf8 ns) rfl h (tag_markup hn ha hw empty) he (fun s hs _ => ?_) hd xs hx
  have h1 := stored_first (c := c) (raw := converted x name.flatten) (env := s.env) S hD hn ha hw empty hb
  rw [← hs] at h1
  cases empty with
  | false => exact ⟨_, act_start_err S s hn ha hw h1⟩
  | true => exact act_empty_err S s hn ha hw h1

/-- **C50, documents**: a wrong reference in any attribute value: the document is refused. -/
theorem document_refused {b r : Buf} {p : Buf × Env} {path : List (Buf × Env)} {name : List Buf} (hD : C33.TextsOk D (internalUtf8X ns))
    (hf : C33.FlagsOk D) {as : List AttrSrc} {ws : List UInt8} {empty : Bool}
    (h : C27.Inside c D (internalUtf8X ns) asc1 x asc b (p :: path) (tagText asc name as ws empty ++ r))
    (hn : QName x.e asc name) (ha : ∀ b ∈ as, b.Valid x.e asc) (hw : AllWS ws) {a1 : AttrSrc} (hm : a1 ∈ as)
    {err : XErr} (hb : Bad D ns x asc [] a1.value err)
    (hd : x.e.mb ∣ b.length) (xs : List Buf) (hx : xs.flatten = b) :
    ∃ F err', feed (parser c D (internalUtf8X ns) x) x.e CState.init [] xs = (F, .err err') := by
  obtain ⟨i1, -, s, E, i3, i4⟩ := C27.inside_run S a (.internalUtf8 ns) rfl h hd
  obtain ⟨Es, err', bs, h1⟩ := stored_bad (c := c) (raw := converted x name.flatten) (env := s.env) S hD hf hn ha hw empty hm hb
  rw [← i3.flags] at h1
  have hact : ∃ E, (parser c D (internalUtf8X ns) x).act s (tagTok empty as.isEmpty) (tagText asc name as ws empty) = (E, .error err') := by
    cases empty with
    | false => exact ⟨_, act_start_err S s hn ha hw h1⟩
    | true => exact act_empty_err S s hn ha hw h1
  obtain ⟨Ea, hact⟩ := hact
  have h2 := i4.1
  rw [parser, run_markup_err S i3.in_.mode (tag_markup hn ha hw empty) i1 hact] at h2
  obtain ⟨F, h3 | ⟨h3, -⟩⟩ := C27.chunks_err S hd h2 xs hx
  · exact ⟨F, _, h3⟩
  · exact ⟨F, _, h3⟩
end

/-! ### Non-vacuity -/

private theorem cname : (utf8Enc false).Name [[0x63]] := ⟨[0x63], [], rfl, C27.hexLetter (by decide +kernel), by simp⟩

private theorem cnot : ¬ Predefined asc1 [[0x63]].flatten := by
  rintro ⟨n, ch, h1, h2⟩
  simp only [C10.predefined, List.mem_cons, Prod.mk.injEq, List.not_mem_nil, or_false] at h1
  rcases h1 with h | h | h | h | h <;> (rw [h.1] at h2; revert h2; decide)

private theorem cwrong : Wrong default [] (converted (utf8X false) [[0x63]].flatten) .UNDEFINED_ENTITY :=
  .undeclared rfl (.inl rfl)

/-- `<a><b>&c;</b></a>`, in two pieces -/
example : ∃ F, feed (parser {} default (internalUtf8X false) (utf8X false)) (utf8Enc false) CState.init []
    ["<a><b>&".toUTF8.toList, "c;</b></a>".toUTF8.toList] = (F, .err .UNDEFINED_ENTITY) := by
  obtain ⟨v, w, h⟩ := C27.two (entityText asc1 [[0x63]].flatten ++ "</b></a>".toUTF8.toList)
  exact document_wrong (.utf8 false) C55.allSet_default h cname cnot cwrong (Nat.one_dvd _) _ (by decide +kernel)

private def att : AttrSrc := ⟨[0x20], [[0x64]], [], [], 0x22, [0x20] ++ entityText asc1 [0x63]⟩

private theorem attBad : Bad default false (utf8X false) asc1 [] att.value .UNDEFINED_ENTITY :=
  .mk (u := [0x20]) (w := []) (name := [[0x63]]) (.space 0x20 (.inl rfl) (fun _ h => absurd h (by decide)) .nil) cname cnot (.content cwrong) .nil
    (by decide)

private theorem attValid : att.Valid (utf8Enc false) asc1 where
  ws1 := by decide
  ws := by intro c h; simp only [att, List.mem_singleton] at h; subst h; rfl
  name := C27.letter false (by decide +kernel)
  s1 := by simp [AllWS, att]
  s2 := by simp [AllWS, att]
  q := .inl rfl
  value := by
    have h : Value (utf8Enc false) asc1 0x22 ([0x20] ++ (asc1 0x26 ++ (([[0x63]].flatten ++ asc1 0x3B) ++ []))) :=
      .char [0x20] _ ((utf8Enc_isChar false _).2 ⟨0x20, by decide, by decide⟩) (by decide) (by decide) (by decide)
        (.ref _ _ _ (Ref.entity [[0x63]] cname) .nil)
    exact (by decide : [0x20] ++ (asc1 0x26 ++ (([[0x63]].flatten ++ asc1 0x3B) ++ [])) = att.value) ▸ h

/-- `<a><b><c d=" &c;"/></b></a>` -/
example : ∃ F, feed (parser {} default (internalUtf8X false) (utf8X false)) (utf8Enc false) CState.init []
    ["<a><b><c d=\" ".toUTF8.toList, "&c;\"/></b></a>".toUTF8.toList] = (F, .err .UNDEFINED_ENTITY) := by
  obtain ⟨v, w, h⟩ := C27.two (tagText asc1 [[0x63]] [att] [] true ++ "</b></a>".toUTF8.toList)
  have hD : C33.TextsOk default (internalUtf8X false) := by intro n ent t h; cases h
  exact document_value (.utf8 false) C55.allSet_default hD h (C27.letter false (by decide +kernel)) (fun b hb => List.mem_singleton.1 hb ▸ attValid) (by simp [AllWS]) attBad
    (Nat.one_dvd _) _ (by decide +kernel)

/-- A declaration the parser has not read might exist: the reference is skipped. -/
private def outer : Dtd := { (default : Dtd) with hasPERefs := true }
example : ¬ NothingElse outer := by simp [NothingElse, outer]; rfl
example : (feed (parser {} outer (internalUtf8X false) (utf8X false)) (utf8Enc false) CState.init []
    ["<a>&".toUTF8.toList, "c;</a>".toUTF8.toList]).1 = [.startElement [0x61] [] 0 none, .skippedEntity [0x63] false, .endElement [0x61]] := by
  decide +kernel
/-- An unparsed entity. -/
private def image : Dtd := { (default : Dtd) with ents := [([0x63], ⟨none, true, some [0x67], none, none, none⟩)] }
example : Wrong image [] [0x63] .BINARY_ENTITY_REF := .unparsed rfl (fun _ => rfl) (by simp) (by simp)
example : (feed (parser {} image (internalUtf8X false) (utf8X false)) (utf8Enc false) CState.init []
    ["<a>&c;</a>".toUTF8.toList]).2.code = some .BINARY_ENTITY_REF := by decide +kernel

end Verif.C50
