import Verif.AttNorm

/-! # C33: attribute values are normalised as XML 1.0 section 3.3.3 demands -/

namespace Verif.C33
open C43 Spec Verif

/-! ### Specification -/

/-- The value a literal stands for before spaces are collapsed (XML 1.0, 3.3.3), read off its characters:
white space and line ends become spaces, character references and references to the five predefined
entities the character, entity references the value of the replacement text; other characters stand for
themselves.  `x`, `asc`: encoding of the literal and its spelling of ASCII characters; `le`: whether CR LF is
one line end (documents) or not (replacement text, whose line ends were normalised when it was read);
`opened`: entities being expanded.  `check` says whether a reference must be declared, in the document itself
(XML 1.0, section 4.1); otherwise a reference to an undeclared entity stands for nothing. -/
inductive Norm (D : Dtd) (check : Bool) (int : XEnc) : XEnc → (UInt8 → Buf) → Bool → List Buf → Buf → Buf → Prop where
  | nil {x asc le op} : Norm D check int x asc le op [] []
  | crlf {x asc op r out} (h : Norm D check int x asc true op r out) :
      Norm D check int x asc true op (asc 0x0D ++ (asc 0x0A ++ r)) (0x20 :: out)
  | space {x asc le op r out} (c : UInt8) (hc : c = 0x20 ∨ c = 0x09 ∨ c = 0x0A ∨ c = 0x0D)
      (hr : le = true → c = 0x0D → ∀ r', r ≠ asc 0x0A ++ r') (h : Norm D check int x asc le op r out) :
      Norm D check int x asc le op (asc c ++ r) (0x20 :: out)
  | char {x asc le op r out} (w : Buf) (hw : x.e.IsChar w) (h1 : w ≠ asc 0x3C) (h2 : w ≠ asc 0x26)
      (h3 : ∀ c : UInt8, c = 0x20 ∨ c = 0x09 ∨ c = 0x0A ∨ c = 0x0D → w ≠ asc c) (h : Norm D check int x asc le op r out) :
      Norm D check int x asc le op (w ++ r) (converted x w ++ out)
  | dec {x asc le op r out} (ds : List UInt8) (h0 : ds ≠ []) (hd : ∀ d ∈ ds, isDec d = true)
      (hx : XmlChar (numeral 10 ds)) (h : Norm D check int x asc le op r out) :
      Norm D check int x asc le op (asc 0x26 ++ (asc 0x23 ++ (spell asc ds ++ (asc 0x3B ++ r)))) (utf8 (numeral 10 ds) ++ out)
  | hex {x asc le op r out} (ds : List UInt8) (h0 : ds ≠ []) (hd : ∀ d ∈ ds, (isDec d || isHexLetter d) = true)
      (hx : XmlChar (numeral 16 ds)) (h : Norm D check int x asc le op r out) :
      Norm D check int x asc le op (asc 0x26 ++ (asc 0x23 ++ (asc 0x78 ++ (spell asc ds ++ (asc 0x3B ++ r)))))
        (utf8 (numeral 16 ds) ++ out)
  | predefined {x asc le op r out} (n : List UInt8) (c : UInt8) (hn : (n, c) ∈ C10.predefined)
      (h : Norm D check int x asc le op r out) :
      Norm D check int x asc le op (asc 0x26 ++ (spell asc n ++ (asc 0x3B ++ r))) (c :: out)
  | entity {x asc le op r out} (ws : List Buf) (ent : Entity) (t out' : Buf) (hn : x.e.Name ws)
      (hp : ∀ n c, (n, c) ∈ C10.predefined → ws.flatten ≠ spell asc n)
      (hd : D.entity (converted x ws.flatten) = some ent) (hc : check = true → ent.isInternal = true)
      (ho : converted x ws.flatten ∉ op) (hno : ent.notation_ = none) (ht : ent.text = some t)
      (hin : Norm D check int int asc1 false (converted x ws.flatten :: op) t out')
      (h : Norm D check int x asc le op r out) :
      Norm D check int x asc le op (asc 0x26 ++ (ws.flatten ++ (asc 0x3B ++ r))) (out' ++ out)
  | skipped {x asc le op r out} (ws : List Buf) (hn : x.e.Name ws)
      (hp : ∀ n c, (n, c) ∈ C10.predefined → ws.flatten ≠ spell asc n)
      (hd : D.entity (converted x ws.flatten) = none) (hc : check = false) (h : Norm D check int x asc le op r out) :
      Norm D check int x asc le op (asc 0x26 ++ (ws.flatten ++ (asc 0x3B ++ r))) out

/-- Runs of spaces become one space. -/
def squeeze : Buf → Buf
  | [] => []
  | [c] => [c]
  | c :: d :: r => if c = 0x20 ∧ d = 0x20 then squeeze (d :: r) else c :: squeeze (d :: r)

/-- No spaces at the ends. -/
def trim (b : Buf) : Buf := ((b.dropWhile (· == 0x20)).reverse.dropWhile (· == 0x20)).reverse

/-- The further processing for types other than CDATA. -/
def collapse (b : Buf) : Buf := trim (squeeze b)

/-! ### The string under construction -/

/-- Appending a byte when runs of spaces are dropped. -/
def put1 (p : Buf) (c : UInt8) : Buf := if c = 0x20 then pushSpace false p else p ++ [c]

def put (isCdata : Bool) (p out : Buf) : Buf := if isCdata then p ++ out else out.foldl put1 p

theorem put_nil (c p) : put c p [] = p := by cases c <;> simp [put]

theorem put_app (c p a b) : put c p (a ++ b) = put c (put c p a) b := by
  cases c <;> simp [put, List.foldl_append]

theorem put_space (c p) : put c p [0x20] = pushSpace c p := by
  cases c <;> simp [put, put1, pushSpace]

theorem put_plain (c p) {o : Buf} (h : (0x20 : UInt8) ∉ o) : put c p o = p ++ o := by
  cases c
  · simp only [put, Bool.false_eq_true, if_false]
    induction o generalizing p with
    | nil => simp
    | cons a o ih =>
      have ha : a ≠ 0x20 := fun e => h (by simp [e])
      rw [List.foldl_cons, ih _ (fun hm => h (by simp [hm])), put1, if_neg ha, List.append_assoc]; rfl
  · simp [put]

theorem put_cons (c p a b) : put c p (a :: b) = put c (put c p [a]) b := put_app c p [a] b

section
variable {D : Dtd} {check : Bool} {int : XEnc} {isCdata : Bool}

/-- The texts of entities are strings of characters. -/
def TextsOk (D : Dtd) (int : XEnc) : Prop :=
  ∀ n ent t, D.entity n = some ent → ent.text = some t → Lit int.e asc1 t

theorem isWS_iff (c : UInt8) : isWS c = true ↔ c = 0x20 ∨ c = 0x09 ∨ c = 0x0A ∨ c = 0x0D := by
  simp [isWS, or_assoc]

theorem space_mem {n : Nat} (h : XmlChar n) : (if n = 0x20 then pushSpace isCdata p else p ++ utf8 n) = put isCdata p (utf8 n) := by
  split
  · rename_i h1; subst h1; rw [show utf8 32 = [0x20] by decide, put_space]
  · rename_i h1
    rw [put_plain]
    intro hm
    have := utf8_lt hm (by decide) (by unfold XmlChar at h; omega)
    exact h1 ((utf8_ascii 0x20 (by omega)).1 this)

theorem predef_zero {x : XEnc} {asc} (s : XSupported x asc) {ws : List Buf} (hn : x.e.Name ws) :
    predefinedEntityName x.e ws.flatten = 0 ↔ ∀ n c, (n, c) ∈ C10.predefined → ws.flatten ≠ spell asc n := by
  have h0 : ∀ n c, (n, c) ∈ C10.predefined → c ≠ 0 := by
    intro n c h
    simp only [C10.predefined, List.mem_cons, Prod.mk.injEq, List.not_mem_nil, or_false] at h
    rcases h with ⟨_, rfl⟩ | ⟨_, rfl⟩ | ⟨_, rfl⟩ | ⟨_, rfl⟩ | ⟨_, rfl⟩ <;> decide
  constructor
  · intro h n c hm he
    have := (C10.predefined_iff s.s ws.flatten (name_dvd s.s hn) c (h0 n c hm)).2 ⟨n, hm, he⟩
    rw [h] at this
    exact h0 n c hm this.symm
  · intro h
    apply Classical.byContradiction
    intro hne
    obtain ⟨n, hm, he⟩ := (C10.predefined_iff s.s ws.flatten (name_dvd s.s hn) _ hne).1 rfl
    exact h n _ hm he

theorem predef_name {e : Enc} {asc} (s : Supported e asc) {n c} (h : (n, c) ∈ C10.predefined) : ∃ ws, e.Name ws ∧ ws.flatten = spell asc n := by
  have hb : ∀ c ∈ ([0x6C, 0x74, 0x67, 0x61, 0x6D, 0x70, 0x71, 0x75, 0x6F, 0x73] : List UInt8), e.bt (asc c) = .NMSTRT ∨ e.bt (asc c) = .HEX := by
    intro c hc
    simp only [List.mem_cons, List.not_mem_nil, or_false] at hc
    rcases hc with rfl | rfl | rfl | rfl | rfl | rfl | rfl | rfl | rfl | rfl <;> cases s <;> rename_i ns <;> cases ns <;>
      decide +kernel
  have h1 : ∀ c ∈ ([0x6C, 0x74, 0x67, 0x61, 0x6D, 0x70, 0x71, 0x75, 0x6F, 0x73] : List UInt8), e.NmstrtChar (asc c) ∧ e.NameChar (asc c) := by
    intro c hc
    have := s.asc.len c
    simp only [Enc.NmstrtChar, Enc.NameChar]
    rcases hb c hc with h | h <;> rw [h] <;> exact ⟨this, this⟩
  refine ⟨n.map asc, ?_, rfl⟩
  simp only [C10.predefined, List.mem_cons, Prod.mk.injEq, List.not_mem_nil, or_false] at h
  rcases h with ⟨rfl, _⟩ | ⟨rfl, _⟩ | ⟨rfl, _⟩ | ⟨rfl, _⟩ | ⟨rfl, _⟩ <;>
    (refine ⟨_, _, rfl, (h1 _ (by simp)).1, ?_⟩
     intro v hv
     simp only [List.map_cons, List.map_nil, List.mem_cons, List.not_mem_nil, or_false] at hv
     rcases hv with rfl | rfl | rfl | rfl <;> exact (h1 _ (by simp)).2)

theorem ws_char {e : Enc} {asc} (s : Supported e asc) {c} (hc : isWS c = true) : e.IsChar (asc c) := by
  have h := ws_bt s hc []
  rw [List.append_nil] at h
  have hl := s.asc.len c
  have : e.bt (asc c) = .CR ∨ e.bt (asc c) = .LF ∨ e.bt (asc c) = .S := by
    rw [h]; (repeat' split) <;> simp
  simp only [Enc.IsChar]
  rcases this with h | h | h <;> rw [h] <;> exact hl

theorem norm_lit {x : XEnc} {asc le op b out} (h : Norm D check int x asc le op b out) : Supported x.e asc → Lit x.e asc b := by
  induction h with
  | nil => exact fun s => .nil
  | crlf h ih => exact fun s => .char _ _ (ws_char s rfl) (.char _ _ (ws_char s rfl) (ih s))
  | space c hc hr h ih => exact fun s => .char _ _ (ws_char s ((isWS_iff c).2 hc)) (ih s)
  | char w hw h1 h2 h3 h ih => exact fun s => .char _ _ hw (ih s)
  | dec ds h0 hd hx h ih =>
    intro s
    have := Lit.ref _ _ _ (Ref.dec ds h0 hd) (ih s)
    simp only [List.append_assoc] at this
    exact this
  | hex ds h0 hd hx h ih =>
    intro s
    have := Lit.ref _ _ _ (Ref.hex ds h0 hd) (ih s)
    simp only [List.append_assoc] at this
    exact this
  | predefined n c hn h ih =>
    intro s
    obtain ⟨ws, h1, h2⟩ := predef_name s hn
    have := Lit.ref _ _ _ (Ref.entity ws h1) (ih s)
    simp only [List.append_assoc] at this
    rw [← h2]
    exact this
  | entity ws ent t out' hn hp hd hc ho hno ht hin h ihin ih =>
    intro s
    have := Lit.ref _ _ _ (Ref.entity ws hn) (ih s)
    simp only [List.append_assoc] at this
    exact this
  | skipped ws hn hp hd hc h ih =>
    intro s
    have := Lit.ref _ _ _ (Ref.entity ws hn) (ih s)
    simp only [List.append_assoc] at this
    exact this

theorem predef_space {n c} (h : (n, c) ∈ C10.predefined) : c ≠ 0x20 ∧ c ≠ 0 := by
  simp only [C10.predefined, List.mem_cons, Prod.mk.injEq, List.not_mem_nil, or_false] at h
  rcases h with ⟨_, rfl⟩ | ⟨_, rfl⟩ | ⟨_, rfl⟩ | ⟨_, rfl⟩ | ⟨_, rfl⟩ <;> decide

theorem data_of {x : XEnc} {asc : UInt8 → Buf} {w : Buf} (hw : x.e.IsChar w) (h1 : w ≠ asc 0x3C) (h2 : w ≠ asc 0x26)
    (h3 : ∀ c : UInt8, c = 0x20 ∨ c = 0x09 ∨ c = 0x0A ∨ c = 0x0D → w ≠ asc c) : x.e.DataChar asc w :=
  ⟨hw, h1, h2, fun c hc => h3 c ((isWS_iff c).1 hc)⟩

theorem put_conv {x : XEnc} {asc} (s : XSupported x asc) {w : Buf} (hw : x.e.IsChar w) (h : w ≠ asc 0x20) (c p) :
    put c p (converted x w) = p ++ converted x w :=
  put_plain c p fun hm => h (conv_ascii_only s hw (by decide) hm)

theorem loop_dec {x : XEnc} {asc} (s : XSupported x asc) {ex op} {ds : List UInt8} (h0 : ds ≠ []) (hd : ∀ d ∈ ds, isDec d = true) (pool r : Buf) :
    attrLoop D check x isCdata ex op pool (asc 0x26 ++ (asc 0x23 ++ (spell asc ds ++ (asc 0x3B ++ r)))) =
      if XmlChar (numeral 10 ds) then
        attrLoop D check x isCdata ex op (if numeral 10 ds = 0x20 then pushSpace isCdata pool else pool ++ utf8 (numeral 10 ds)) r
      else .error .BAD_CHAR_REF := by
  have := loop_charRef (D := D) (check := check) (isCdata := isCdata) (ex := ex) (opened := op) s (Ref.dec ds h0 hd) (numeral 10 ds) r
    (by simpa only [List.append_assoc] using C09.charRef_dec s.s ds h0 hd r) pool
  simp only [List.append_assoc] at this
  exact this

theorem loop_hex {x : XEnc} {asc} (s : XSupported x asc) {ex op} {ds : List UInt8} (h0 : ds ≠ [])
    (hd : ∀ d ∈ ds, (isDec d || isHexLetter d) = true) (pool r : Buf) :
    attrLoop D check x isCdata ex op pool (asc 0x26 ++ (asc 0x23 ++ (asc 0x78 ++ (spell asc ds ++ (asc 0x3B ++ r))))) =
      if XmlChar (numeral 16 ds) then
        attrLoop D check x isCdata ex op (if numeral 16 ds = 0x20 then pushSpace isCdata pool else pool ++ utf8 (numeral 16 ds)) r
      else .error .BAD_CHAR_REF := by
  have := loop_charRef (D := D) (check := check) (isCdata := isCdata) (ex := ex) (opened := op) s (Ref.hex ds h0 hd) (numeral 16 ds) r
    (by simpa only [List.append_assoc] using C09.charRef_hex s.s ds hd r) pool
  simp only [List.append_assoc] at this
  exact this

/-- Whatever the specification derives, the program computes. -/
theorem complete {x : XEnc} {asc le op b out} (hi : XSupported int asc1) (hie : int.e.lineEnds asc1 = false)
    (h : Norm D check int x asc le op b out) :
    XSupported x asc → x.e.lineEnds asc = le → ∀ pool,
    C34.attr D check int isCdata x op pool b = .ok (put isCdata pool out) := by
  induction h with
  | nil =>
    intro s hl pool
    rw [C34.attr_recursion, loop_nil, put_nil]
  | crlf h ih =>
    intro s hl pool
    rw [C34.attr_recursion, loop_crlf s hl, ← C34.attr_recursion, ih s hl, put_cons, put_space]
  | space c hc hr h ih =>
    intro s hl pool
    rw [C34.attr_recursion, loop_ws s ((isWS_iff c).2 hc) (by rw [hl]; exact hr), ← C34.attr_recursion, ih s hl, put_cons, put_space]
  | char w hw h1 h2 h3 h ih =>
    intro s hl pool
    rw [C34.attr_recursion, loop_data s (data_of hw h1 h2 h3) (norm_lit h s.s), ← C34.attr_recursion, ih s hl, put_app,
      put_conv s hw (h3 _ (by simp))]
  | dec ds h0 hd hx h ih =>
    intro s hl pool
    rw [C34.attr_recursion, loop_dec s h0 hd, if_pos hx, ← C34.attr_recursion, ih s hl, put_app, space_mem hx]
  | hex ds h0 hd hx h ih =>
    intro s hl pool
    rw [C34.attr_recursion, loop_hex s h0 hd, if_pos hx, ← C34.attr_recursion, ih s hl, put_app, space_mem hx]
  | predefined n c hn h ih =>
    intro s hl pool
    obtain ⟨ws, h1, h2⟩ := predef_name s.s hn
    have h3 := (C10.predefined_iff s.s ws.flatten (name_dvd s.s h1) c (predef_space hn).2).2 ⟨n, hn, h2⟩
    rw [C34.attr_recursion, ← h2, loop_entity s h1, refValue, h3, if_pos (predef_space hn).2]
    simp only
    rw [← C34.attr_recursion, ih s hl, put_cons, put_plain _ _ (o := [c])]
    simp only [List.mem_cons, List.not_mem_nil, or_false]
    exact (predef_space hn).1.symm
  | entity ws ent t out' hn hp hd hc ho hno ht hin h ihin ih =>
    intro s hl pool
    rw [C34.attr_recursion, loop_entity s hn, refValue, if_neg (by rw [(predef_zero s hn).2 hp]; simp), hd]
    simp only
    rw [if_neg (by cases check <;> simp_all), if_neg ho, if_neg (by simp [hno]), ht]
    simp only
    rw [ihin hi hie]
    simp only
    rw [← C34.attr_recursion, ih s hl, put_app]
  | skipped ws hn hp hd hc h ih =>
    intro s hl pool
    rw [C34.attr_recursion, loop_entity s hn, refValue, if_neg (by rw [(predef_zero s hn).2 hp]; simp), hd, hc]
    simp only [Bool.false_eq_true, if_false]
    rw [← hc, ← C34.attr_recursion, ih s hl]

/-- Whatever the program computes, the specification derives. -/
theorem sound (hi : XSupported int asc1) (hie : int.e.lineEnds asc1 = false) (hD : TextsOk D int) (k : Nat) :
    ∀ op, C34.avail D op ≤ k → ∀ x asc le, XSupported x asc → x.e.lineEnds asc = le → ∀ n b, b.length = n → Lit x.e asc b →
    ∀ pool q, C34.attr D check int isCdata x op pool b = .ok q →
    ∃ out, Norm D check int x asc le op b out ∧ q = put isCdata pool out := by
  induction k using Nat.strongRecOn with
  | _ k ihk =>
    intro op hk x asc le s hl n
    induction n using Nat.strongRecOn with
    | _ n ih =>
      intro b hb hlit pool q h
      have hmb : 0 < x.e.mb := Nat.succ_pos _
      have l (c) := s.s.asc.len c
      have key : ∀ r0, b = asc 0x26 ++ r0 → ∃ out, Norm D check int x asc le op b out ∧ q = put isCdata pool out := by
        rintro r0 rfl
        rw [C34.attr_recursion] at h
        obtain ⟨t, w, r, hw, rfl⟩ := loop_amp s h
        have hlr := lit_amp s.s hw hlit
        have hlen : r.length < n := by
          rw [← hb]; simp only [List.length_append, l]; omega
        cases hw with
        | entity ws hn =>
          simp only [List.append_assoc] at h ⊢
          rw [loop_entity s hn, refValue] at h
          by_cases hp : predefinedEntityName x.e ws.flatten = 0
          · rw [if_neg (by rw [hp]; simp)] at h
            have hp' := (predef_zero s hn).1 hp
            cases hd : D.entity (converted x ws.flatten) with
            | none =>
              rw [hd] at h
              simp only at h
              cases hc : check with
              | true => rw [hc] at h; cases h
              | false =>
                rw [hc] at h ih
                simp only [Bool.false_eq_true, if_false] at h
                rw [← C34.attr_recursion] at h
                obtain ⟨out, h1, h2⟩ := ih _ hlen r rfl hlr _ _ h
                exact ⟨out, .skipped ws hn hp' hd rfl h1, h2⟩
            | some ent =>
              rw [hd] at h
              simp only at h
              split at h
              · cases h
              rename_i p hv
              split at hv
              · cases hv
              split at hv
              · cases hv
              split at hv
              · cases hv
              rename_i hc ho hno
              cases ht : ent.text with
              | none => rw [ht] at hv; cases hv
              | some t =>
                rw [ht] at hv
                simp only at hv
                have hlt := C34.avail_lt hd ho
                obtain ⟨out', i1, i2⟩ := ihk (C34.avail D (converted x ws.flatten :: op)) (by omega) _ (Nat.le_refl _) int asc1 false
                  hi hie _ t rfl (hD _ _ _ hd ht) _ _ hv
                rw [← C34.attr_recursion] at h
                obtain ⟨out, h1, h2⟩ := ih _ hlen r rfl hlr _ _ h
                refine ⟨out' ++ out, .entity ws ent t out' hn hp' hd ?_ ho ?_ ht i1 h1, ?_⟩
                · intro hck; rw [hck] at hc; simpa using hc
                · simpa using hno
                · rw [h2, i2, put_app]
          · rw [if_pos hp] at h
            simp only at h
            obtain ⟨m, h1, h2⟩ := (C10.predefined_iff s.s ws.flatten (name_dvd s.s hn) _ hp).1 rfl
            rw [← C34.attr_recursion] at h
            obtain ⟨out, h3, h4⟩ := ih _ hlen r rfl hlr _ _ h
            refine ⟨predefinedEntityName x.e ws.flatten :: out, ?_, ?_⟩
            · have := Norm.predefined m _ h1 h3
              rw [spell, ← h2] at this
              exact this
            · rw [h4, put_cons, put_plain _ _ (o := [predefinedEntityName x.e ws.flatten])]
              simp only [List.mem_cons, List.not_mem_nil, or_false]
              exact (predef_space h1).1.symm
        | dec ds h0 hd =>
          simp only [List.append_assoc] at h ⊢
          rw [← spell, loop_dec s h0 hd] at h
          split at h
          · rename_i hx
            rw [space_mem hx, ← C34.attr_recursion] at h
            obtain ⟨out, h1, h2⟩ := ih _ hlen r rfl hlr _ _ h
            refine ⟨utf8 (numeral 10 ds) ++ out, ?_, ?_⟩
            · exact .dec ds h0 hd hx h1
            · rw [h2, put_app]
          · cases h
        | hex ds h0 hd =>
          simp only [List.append_assoc] at h ⊢
          rw [← spell, loop_hex s h0 hd] at h
          split at h
          · rename_i hx
            rw [space_mem hx, ← C34.attr_recursion] at h
            obtain ⟨out, h1, h2⟩ := ih _ hlen r rfl hlr _ _ h
            refine ⟨utf8 (numeral 16 ds) ++ out, ?_, ?_⟩
            · exact .hex ds h0 hd hx h1
            · rw [h2, put_app]
          · cases h
      cases hlit with
      | nil =>
        rw [C34.attr_recursion, loop_nil] at h
        cases h
        exact ⟨[], .nil, (put_nil _ _).symm⟩
      | ref t w r hw hr => exact key _ rfl
      | char w r hw hr =>
        have hwl := x.e.isChar_len s.s.mb hw
        have hlen : r.length < n := by rw [← hb, List.length_append]; omega
        by_cases h2 : w = asc 0x26
        · exact key r (by rw [h2])
        by_cases h1 : w = asc 0x3C
        · rw [h1, C34.attr_recursion, loop_lt s] at h; cases h
        by_cases h3 : ∃ c, isWS c = true ∧ w = asc c
        · obtain ⟨c, hc, rfl⟩ := h3
          by_cases h4 : le = true ∧ c = 0x0D ∧ ∃ r', r = asc 0x0A ++ r'
          · obtain ⟨rfl, rfl, r', rfl⟩ := h4
            rw [C34.attr_recursion, loop_crlf s hl, ← C34.attr_recursion] at h
            have hr' : Lit x.e asc r' := by
              refine lit_strip s.s (us := [asc 0x0A]) ?_ (by simpa using hr)
              intro u hu
              simp only [List.mem_cons, List.not_mem_nil, or_false] at hu
              subst hu
              exact ⟨char_piece s.s (ws_char s.s rfl), fun he => absurd (s.s.asc_inj he) (by decide)⟩
            obtain ⟨out, h5, h6⟩ := ih _ (by simp only [List.length_append, l] at hlen; omega) r' rfl hr' _ _ h
            exact ⟨_, .crlf h5, by rw [h6, put_cons, put_space]⟩
          · have hr' : le = true → c = 0x0D → ∀ r', r ≠ asc 0x0A ++ r' := fun i1 i2 r' i3 => h4 ⟨i1, i2, r', i3⟩
            rw [C34.attr_recursion, loop_ws s hc (by rw [hl]; exact hr'), ← C34.attr_recursion] at h
            obtain ⟨out, h5, h6⟩ := ih _ hlen r rfl hr _ _ h
            exact ⟨_, .space c ((isWS_iff c).1 hc) hr' h5, by rw [h6, put_cons, put_space]⟩
        · have h4 : ∀ c : UInt8, c = 0x20 ∨ c = 0x09 ∨ c = 0x0A ∨ c = 0x0D → w ≠ asc c :=
            fun c hc he => h3 ⟨c, (isWS_iff c).2 hc, he⟩
          rw [C34.attr_recursion, loop_data s (data_of hw h1 h2 h4) hr, ← C34.attr_recursion] at h
          obtain ⟨out, h5, h6⟩ := ih _ hlen r rfl hr _ _ h
          exact ⟨_, .char w hw h1 h2 h4 h5, by rw [h6, put_app, put_conv s hw (h4 _ (by simp))]⟩

end

/-! ### Collapsing -/

theorem squeeze_cons {c : UInt8} (h : c ≠ 0x20) (r : Buf) : squeeze (c :: r) = c :: squeeze r := by
  cases r with
  | nil => rfl
  | cons d r => rw [squeeze, if_neg (fun h' => h h'.1)]

theorem squeeze_space (r : Buf) : squeeze (0x20 :: r) = 0x20 :: squeeze (r.dropWhile (· == 0x20)) := by
  induction r with
  | nil => rfl
  | cons d r ih =>
    by_cases h : d = 0x20
    · subst h
      rw [squeeze, if_pos ⟨rfl, rfl⟩, ih, List.dropWhile_cons_of_pos (by rfl)]
    · rw [squeeze, if_neg (fun h' => h h'.2), List.dropWhile_cons_of_neg (by simpa using h)]

theorem put_false (out : Buf) : ∀ p, put false p out =
    p ++ (if p.getLast?.getD 0x20 = 0x20 then squeeze (out.dropWhile (· == 0x20)) else squeeze out) := by
  induction out with
  | nil => intro p; simp [put, squeeze]
  | cons c r ih =>
    intro p
    rw [put_cons, ih]
    have e : put false p [c] = put1 p c := rfl
    rw [e, put1]
    by_cases hc : c = 0x20
    · subst hc
      rw [if_pos rfl, pushSpace, List.dropWhile_cons_of_pos (by rfl)]
      by_cases hp : p.getLast?.getD 0x20 = 0x20
      · rw [if_pos (show p.getLast?.getD 0x20 = 0x20 from hp)]
        have : (!false && (p.isEmpty || p.getLast? == some 0x20)) = true := by
          cases hq : p.getLast? with
          | none => simp [List.getLast?_eq_none_iff.1 hq]
          | some d => rw [hq] at hp; simp at hp; simp [hp]
        simp only [this, if_true, hp]
      · have : (!false && (p.isEmpty || p.getLast? == some 0x20)) = false := by
          cases hq : p.getLast? with
          | none => rw [hq] at hp; simp at hp
          | some d =>
            rw [hq] at hp; simp at hp
            have : p ≠ [] := by rintro rfl; simp at hq
            simp [hp, this]
        simp only [this, Bool.false_eq_true, if_false, if_neg hp]
        rw [List.getLast?_append, if_pos (by simp), squeeze_space]
        simp
    · rw [if_neg hc, List.getLast?_append, if_neg (by simpa using hc), squeeze_cons hc,
        List.dropWhile_cons_of_neg (by simpa using hc), squeeze_cons hc]
      simp

theorem drop_squeeze (out : Buf) : (squeeze out).dropWhile (· == 0x20) = squeeze (out.dropWhile (· == 0x20)) := by
  induction out with
  | nil => rfl
  | cons c r ih =>
    by_cases hc : c = 0x20
    · subst hc
      rw [squeeze_space, List.dropWhile_cons_of_pos (by rfl), List.dropWhile_cons_of_pos (by rfl)]
      generalize hd : r.dropWhile (· == 0x20) = d
      cases d with
      | nil => rfl
      | cons a d =>
        have : a ≠ 0x20 := by
          have := List.head_dropWhile_not (· == (0x20 : UInt8)) (l := r) (by rw [hd]; simp)
          simp only [hd, List.head_cons] at this
          simpa using this
        rw [squeeze_cons this, List.dropWhile_cons_of_neg (by simpa using this)]
    · rw [squeeze_cons hc, List.dropWhile_cons_of_neg (by simpa using hc),
        List.dropWhile_cons_of_neg (by simpa using hc), squeeze_cons hc]

theorem squeeze_head (d : UInt8) (r : Buf) : ∃ q, squeeze (d :: r) = d :: q := by
  by_cases h : d = 0x20
  · subst h; exact ⟨_, squeeze_space r⟩
  · exact ⟨_, squeeze_cons h r⟩

theorem squeeze_pairs (out : Buf) : ∀ a b, squeeze out ≠ a ++ 0x20 :: 0x20 :: b := by
  induction out with
  | nil => intro a b h; cases a <;> cases h
  | cons c r ih =>
    intro a b h
    cases r with
    | nil => cases a <;> simp [squeeze] at h
    | cons d r =>
      rw [squeeze] at h
      split at h
      · exact ih a b h
      · rename_i hn
        cases a with
        | nil =>
          obtain ⟨q, hq⟩ := squeeze_head d r
          rw [hq] at h
          simp only [List.nil_append, List.cons.injEq] at h
          exact hn ⟨h.1, h.2.1⟩
        | cons a0 a =>
          simp only [List.cons_append, List.cons.injEq] at h
          exact ih a b h.2

/-- The program's way of collapsing spaces is the specified one. -/
theorem collapse_eq (out : Buf) :
    (if (put false [] out).getLast? = some 0x20 then (put false [] out).dropLast else put false [] out) = collapse out := by
  have h : put false [] out = squeeze (out.dropWhile (· == 0x20)) := by rw [put_false]; simp
  rw [collapse, trim, drop_squeeze, h]
  have hp := squeeze_pairs (out.dropWhile (· == 0x20))
  generalize squeeze (out.dropWhile (· == 0x20)) = y at hp
  by_cases hy : y = []
  · subst hy; rfl
  · obtain ⟨p, c, rfl⟩ : ∃ p c, y = p ++ [c] := ⟨_, _, (List.dropLast_concat_getLast hy).symm⟩
    by_cases hc : c = 0x20
    · subst hc
      rw [if_pos (by simp), List.dropLast_concat, List.reverse_append, List.reverse_singleton, List.singleton_append,
        List.dropWhile_cons_of_pos (by rfl)]
      by_cases hq : p = []
      · subst hq; rfl
      · obtain ⟨q, d, rfl⟩ : ∃ q d, p = q ++ [d] := ⟨_, _, (List.dropLast_concat_getLast hq).symm⟩
        have hd : d ≠ 0x20 := by
          rintro rfl
          exact hp q [] (by simp)
        rw [List.reverse_append, List.reverse_singleton, List.singleton_append,
          List.dropWhile_cons_of_neg (by simpa using hd)]
        simp
    · rw [if_neg (by simpa using hc), List.reverse_append, List.reverse_singleton, List.singleton_append,
        List.dropWhile_cons_of_neg (by simpa using hc)]
      simp

/-! ### Literals which need no normalisation -/

theorem plain_chars {e : Enc} {asc st v} (s : Supported e asc) (h : Plain e asc st v) : ∃ ws, e.Chars ws ∧ v = ws.flatten := by
  induction h with
  | nil => exact ⟨[], .nil, rfl⟩
  | char w v h1 _ _ _ _ ih =>
    obtain ⟨ws, h2, rfl⟩ := ih
    exact ⟨w :: ws, .cons h1 h2, rfl⟩
  | space v _ _ _ ih =>
    obtain ⟨ws, h2, rfl⟩ := ih
    exact ⟨asc 0x20 :: ws, .cons (ws_char s rfl) h2, rfl⟩

theorem conv_space {x asc} (s : XSupported x asc) : converted x (asc 0x20) = [0x20] := by
  cases s <;> rename_i ns <;> cases ns <;> decide +kernel

theorem conv_cons {x asc} (s : XSupported x asc) {w v : Buf} {st} (hw : x.e.IsChar w) (hv : Plain x.e asc st v) :
    converted x (w ++ v) = converted x w ++ converted x v := by
  obtain ⟨ws, h, rfl⟩ := plain_chars s.s hv
  have := conv_app s (ws := [w]) (.cons hw .nil) h
  simpa using this

theorem plain_norm {D check int} {x : XEnc} {asc le op st v} (s : XSupported x asc) (h : Plain x.e asc st v) :
    Norm D check int x asc le op v (converted x v) := by
  induction h with
  | nil => rw [conv_nil s]; exact .nil
  | char w v h1 h2 h3 h4 h5 ih =>
    rw [conv_cons s h1 h5]
    exact .char w h1 h2 h3 (fun c hc => h4 c ((isWS_iff c).2 hc)) ih
  | space v h1 h2 h3 ih =>
    rw [conv_cons s (ws_char s.s rfl) h3, conv_space s]
    exact .space 0x20 (.inl rfl) (fun _ h => absurd h (by decide)) ih

theorem plain_squeeze {x : XEnc} {asc} (s : XSupported x asc) (n : Nat) : ∀ {st v}, v.length < n → Plain x.e asc st v → ∀ (p : Buf),
    (st = false → p.getLast?.getD 0x20 ≠ 0x20) →
    put false p (converted x v) = p ++ converted x v ∧
    ((p ++ converted x v).getLast? = some 0x20 → v = [] ∧ p.getLast? = some 0x20) := by
  have char : ∀ {w v : Buf}, x.e.IsChar w → (∀ c, isWS c = true → w ≠ asc c) → Plain x.e asc false v →
      (∀ (p : Buf), (false = false → p.getLast?.getD 0x20 ≠ 0x20) →
        put false p (converted x v) = p ++ converted x v ∧
        ((p ++ converted x v).getLast? = some 0x20 → v = [] ∧ p.getLast? = some 0x20)) →
      ∀ p : Buf, put false p (converted x (w ++ v)) = p ++ converted x (w ++ v) ∧
        (p ++ converted x (w ++ v)).getLast? ≠ some 0x20 := by
    intro w v h1 h4 h5 ih p
    have hns : (0x20 : UInt8) ∉ converted x w := fun hm => h4 0x20 rfl (conv_ascii_only s h1 (by decide) hm)
    have hl : (p ++ converted x w).getLast? = some ((converted x w).getLast (conv_ne_nil s h1)) := by
      rw [List.getLast?_append, List.getLast?_eq_some_getLast (conv_ne_nil s h1)]; rfl
    have hne : (p ++ converted x w).getLast?.getD 0x20 ≠ 0x20 := by
      rw [hl]
      intro h
      exact hns (h ▸ List.getLast_mem _)
    obtain ⟨i1, i2⟩ := ih (p ++ converted x w) (fun _ => hne)
    rw [conv_cons s h1 h5, put_app, put_plain _ _ hns, i1, ← List.append_assoc]
    refine ⟨rfl, fun h => ?_⟩
    obtain ⟨_, h'⟩ := i2 h
    rw [h'] at hne
    exact hne rfl
  induction n with
  | zero => intro st v h; omega
  | succ n ih =>
    intro st v hlt h p hp
    have len : ∀ {w : Buf}, x.e.IsChar w → 0 < w.length := fun hw => by
      have := x.e.isChar_len s.s.mb hw
      simp only [Enc.mb] at this; omega
    cases h with
    | nil => rw [conv_nil s]; simp [put_nil]
    | char w v h1 h2 h3 h4 h5 =>
      have := len h1
      rw [List.length_append] at hlt
      obtain ⟨j1, j2⟩ := char h1 h4 h5 (ih (by omega) h5) p
      exact ⟨j1, fun h => absurd h j2⟩
    | space v h1 h2 h3 =>
      have hp := hp rfl
      have hpe : put false p [0x20] = p ++ [0x20] := by
        rw [put_false, if_neg hp]; rfl
      rw [conv_cons s (ws_char s.s rfl) h3, conv_space s, put_app, hpe, ← List.append_assoc]
      cases h3 with
      | nil => exact absurd rfl h1
      | space v _ _ _ => exact absurd rfl (h2 v)
      | char w v k1 k2 k3 k4 k5 =>
        have := len k1
        simp only [List.length_append] at hlt
        obtain ⟨j1, j2⟩ := char k1 k4 k5 (ih (by omega) k5) (p ++ [0x20])
        exact ⟨j1, fun h => absurd h j2⟩

theorem plain_collapse {x : XEnc} {asc v} (s : XSupported x asc) (h : Plain x.e asc true v) :
    collapse (converted x v) = converted x v := by
  obtain ⟨h1, h2⟩ := plain_squeeze s _ (Nat.lt_succ_self _) h [] (fun h => by cases h)
  rw [← collapse_eq, h1, if_neg]
  · rfl
  · intro h3; exact absurd (h2 h3).2 (by simp)

/-! ### Theorems -/

/-- The value of an attribute written as the literal `b` in encoding `x`; `isCdata`: declared as CDATA, or
not declared. -/
def ValueOf (D : Dtd) (int x : XEnc) (asc : UInt8 → Buf) (opened : List Buf) (isCdata : Bool) (b v : Buf) : Prop :=
  ∃ out, Norm D D.mustDeclare int x asc (x.e.lineEnds asc) opened b out ∧ v = if isCdata then out else collapse out

/-- In documents CR LF is one line end; in replacement text it is two characters. -/
theorem line_ends {x asc} (s : XSupported x asc) (h : ∀ ns, x ≠ internalUtf8X ns) : x.e.lineEnds asc = true := by
  cases s with
  | internalUtf8 ns => exact absurd rfl (h ns)
  | _ ns => cases ns <;> decide +kernel

theorem line_ends_internal (ns : Bool) : (internalUtf8X ns).e.lineEnds asc1 = false := by cases ns <;> decide +kernel

/-- **C33, literals.**  `storeAttributeValue` accepts a literal with value `v` iff `v` is its normalised
value: white space is replaced, references are replaced, and unless the type is CDATA leading and trailing
spaces go and runs of spaces become one. -/
theorem literal_value {D : Dtd} {check : Bool} {ns : Bool} {x : XEnc} {asc} (s : XSupported x asc) (hD : TextsOk D (internalUtf8X ns))
    (isCdata : Bool) (opened : List Buf) {b : Buf} (hb : Lit x.e asc b) (v : Buf) :
    storeAttributeValue D check (internalUtf8X ns) x isCdata opened b = .ok v ↔
      ∃ out, Norm D check (internalUtf8X ns) x asc (x.e.lineEnds asc) opened b out ∧
        v = if isCdata then out else collapse out := by
  have hi : XSupported (internalUtf8X ns) asc1 := .internalUtf8 ns
  have hie : (internalUtf8X ns).e.lineEnds asc1 = false := by cases ns <;> decide +kernel
  have key : ∀ out : Buf, (if !isCdata && (put isCdata [] out).getLast? == some 0x20 then (put isCdata [] out).dropLast
      else put isCdata [] out) = if isCdata then out else collapse out := by
    intro out
    cases isCdata with
    | true => simp [put]
    | false => rw [← collapse_eq]; simp
  rw [storeAttributeValue]
  constructor
  · intro h
    split at h
    · cases h
    · rename_i q hq
      obtain ⟨out, h1, rfl⟩ := sound hi hie hD _ opened (Nat.le_refl _) x asc _ s rfl _ b rfl hb [] q hq
      rw [key] at h
      cases h
      exact ⟨out, h1, rfl⟩
  · rintro ⟨out, h1, rfl⟩
    have := complete (isCdata := isCdata) hi hie h1 s rfl []
    rw [C34.attr] at this
    rw [this]
    simp only
    rw [key]

/-! #### Whole tags -/

theorem nameLength_add {e : Enc} (ok : e.Ok) (hm : e.mb ≤ 2) (ws : List Buf) (hw : ∀ w ∈ ws, e.NameChar w ∨ e.NmstrtChar w)
    (r : Buf) : nameLength e (ws.flatten ++ r) = ws.flatten.length + nameLength e r := by
  induction ws with
  | nil => simp
  | cons w ws ih =>
    have hc := hw w (by simp)
    have hlen : e.mb ≤ w.length := hc.elim (·.len hm) (·.len hm)
    rw [List.flatten_cons, List.append_assoc, nameLength,
      if_neg (by rw [List.length_append]; omega), ok.bt_app _ _ hlen, List.length_append, Nat.add_assoc]
    have ih := ih (fun v hv => hw v (by simp [hv]))
    simp only [Enc.NameChar, Enc.NmstrtChar] at hc
    generalize e.bt w = t at hc
    cases t <;> simp only [or_false, false_or, or_self] at hc ⊢ <;>
      first
        | (rw [List.drop_left' (hc.elim (·.1) (·.1)), ih, hc.elim (·.1) (·.1)]; done)
        | (rw [List.drop_left' hc.1, ih, hc.1]; done)
        | (rw [List.drop_left' hc, ih, hc]; done)

theorem name_chars {e : Enc} {ws : List Buf} (hw : e.Name ws) : ∀ w ∈ ws, e.NameChar w ∨ e.NmstrtChar w := by
  obtain ⟨w, vs, rfl, h1, h2⟩ := hw
  intro v hv
  rcases List.mem_cons.1 hv with rfl | hv
  · exact .inr h1
  · exact .inl (h2 v hv)

theorem nameLength_qname {e : Enc} {asc} (s : Supported e asc) {n : List Buf} (hn : QName e asc n) (r : Buf)
    (hr : nameLength e r = 0) : nameLength e (n.flatten ++ r) = n.flatten.length := by
  cases hn with
  | plain _ h => rw [nameLength_add s.ok s.mb _ (name_chars h), hr]; rfl
  | pair us vs h1 h2 hc =>
    simp only [List.flatten_append, List.flatten_cons, List.append_assoc, List.length_append]
    have hb := s.ok.bt_app (asc 0x3A) (vs.flatten ++ r) (by rw [s.asc.len]; exact Nat.le_refl _)
    rw [nameLength_add s.ok s.mb _ (name_chars h1), nameLength, if_neg (asc_len_ok s _ _), hb, hc]
    simp only
    rw [drop_char (s.asc.len _), nameLength_add s.ok s.mb _ (name_chars h2), hr, s.asc.len]
    rfl

theorem nameLength_eq {e : Enc} {asc} (s : Supported e asc) {s1} (h1 : AllWS s1) (r : Buf) :
    nameLength e (spell asc s1 ++ (asc 0x3D ++ r)) = 0 := by
  rw [nameLength]
  split
  · rfl
  · cases s1 with
    | nil =>
      have hb := asc_bt s (t := .EQUALS) rfl r
      rw [show spell asc [] ++ (asc 0x3D ++ r) = asc 0x3D ++ r from rfl, hb]
    | cons c cs =>
      have := sp_bt s (h1 c (by simp)) (spell asc cs ++ (asc 0x3D ++ r))
      rw [show spell asc (c :: cs) ++ (asc 0x3D ++ r) = asc c ++ (spell asc cs ++ (asc 0x3D ++ r)) by simp [spell]]
      rcases this with h | h | h <;> rw [h]

theorem att_name {x : XEnc} {asc} (s : XSupported x asc) {a : AttrSrc} (ha : a.Valid x.e asc) (pre rest : Buf) (n : Bool) :
    attName x (pre ++ (a.text asc ++ rest)) (attAt x.e asc pre.length a n) = converted x a.name.flatten := by
  have h : pre ++ (a.text asc ++ rest) = (pre ++ spell asc a.ws) ++ (a.name.flatten ++ (a.tail asc ++ rest)) := by
    simp [AttrSrc.text]
  rw [attName]
  simp only [attAt]
  rw [h, List.drop_left' (by simp), nameLength_qname s.s ha.name, List.take_left' rfl]
  rw [AttrSrc.tail]
  simp only [List.append_assoc]
  exact nameLength_eq s.s ha.s1 _

theorem att_literal {x : XEnc} {asc} (s : XSupported x asc) (a : AttrSrc) (pre rest : Buf) (n : Bool) :
    attLiteral (pre ++ (a.text asc ++ rest)) (attAt x.e asc pre.length a n) = a.value := by
  have h : pre ++ (a.text asc ++ rest) =
      (pre ++ spell asc a.ws ++ a.name.flatten ++ spell asc a.s1 ++ asc 0x3D ++ spell asc a.s2 ++ asc a.q) ++
        (a.value ++ (asc a.q ++ rest)) := by
    simp [AttrSrc.text, AttrSrc.tail]
  rw [attLiteral]
  simp only [attAt]
  rw [h, List.drop_left' (by simp [s.s.asc.len, Nat.add_assoc]), Nat.add_sub_cancel_left, List.take_left' rfl]

/-- Is the attribute of type CDATA: the first declaration counts, and without declaration it is. -/
def typeCdata (et : ElemType) (name : Buf) : Bool :=
  match et.atts.find? (·.name = name) with
  | some d => d.isCdata
  | none => true

/-- The flags `maybeTokenized` are up to date. -/
def FlagsOk (D : Dtd) : Prop := ∀ raw, ∀ d ∈ (D.elem raw).atts, d.isCdata = false → d.name ∈ D.maybeTok

theorem declCdata_eq {D : Dtd} (h : FlagsOk D) (raw name : Buf) : declCdata D (D.elem raw) name = typeCdata (D.elem raw) name := by
  rw [declCdata, typeCdata]
  cases hf : (D.elem raw).atts.find? (·.name = name) with
  | none => simp
  | some d =>
    have h1 := List.mem_of_find?_eq_some hf
    have h2 := List.find?_some hf
    simp only [decide_eq_true_eq] at h2
    split
    · rfl
    · rename_i hn
      cases hc : d.isCdata with
      | true => exact hc.symm
      | false => exact absurd (h2 ▸ h raw d h1 hc) hn

/-- The names and values `src` for the attributes `as` of a tag. -/
inductive Values (D : Dtd) (int x : XEnc) (asc : UInt8 → Buf) (opened : List Buf) (et : ElemType) :
    List AttrSrc → List (Buf × Buf) → Prop where
  | nil : Values D int x asc opened et [] []
  | cons {a as v src} (h : ValueOf D int x asc opened (typeCdata et (converted x a.name.flatten)) a.value v)
      (hs : Values D int x asc opened et as src) :
      Values D int x asc opened et (a :: as) ((converted x a.name.flatten, v) :: src)

theorem one_value {D : Dtd} {ns x asc} (s : XSupported x asc) (hD : TextsOk D (internalUtf8X ns)) (hf : FlagsOk D)
    (opened : List Buf) (raw : Buf) {a : AttrSrc} (ha : a.Valid x.e asc) (pre rest : Buf) (n : Bool)
    (hn : n = true → Plain x.e asc true a.value) (v : Buf) :
    attValue D (internalUtf8X ns) x opened (D.elem raw) (pre ++ (a.text asc ++ rest)) (attAt x.e asc pre.length a n)
        (converted x a.name.flatten) = .ok v ↔
      ValueOf D (internalUtf8X ns) x asc opened (typeCdata (D.elem raw) (converted x a.name.flatten)) a.value v := by
  have lv := fun v => literal_value (check := D.mustDeclare) s hD (typeCdata (D.elem raw) (converted x a.name.flatten)) opened ha.value.lit v
  rw [attValue, att_literal s, declCdata_eq hf]
  cases n with
  | false => simp only [attAt, Bool.not_false, if_true]; exact lv v
  | true =>
    have hp := hn rfl
    simp only [attAt, Bool.not_true, Bool.false_eq_true, if_false, Except.ok.injEq]
    have hv : ValueOf D (internalUtf8X ns) x asc opened (typeCdata (D.elem raw) (converted x a.name.flatten)) a.value
        (converted x a.value) :=
      ⟨_, plain_norm s hp, by split; rfl; exact (plain_collapse s hp).symm⟩
    constructor
    · rintro rfl; exact hv
    · intro h
      have h1 := (lv _).2 h
      have h2 := (lv _).2 hv
      rw [h1] at h2
      cases h2; rfl

theorem at_values {D : Dtd} {ns x asc} (s : XSupported x asc) (hD : TextsOk D (internalUtf8X ns)) (hf : FlagsOk D)
    (opened : List Buf) (raw : Buf) (rest : Buf) {p as l} (h : AttsAt x.e asc p as l) : ∀ (pre : Buf), pre.length = p →
    (∀ a ∈ as, a.Valid x.e asc) → ∀ src,
    (C28.Written D (internalUtf8X ns) x opened (D.elem raw) (pre ++ (attsText asc as ++ rest)) l src ↔
      Values D (internalUtf8X ns) x asc opened (D.elem raw) as src) := by
  induction h with
  | nil =>
    intro pre _ _ src
    constructor
    · rintro ⟨h, _⟩
      cases src with
      | nil => exact .nil
      | cons _ _ => cases h
    · intro h; cases h; exact ⟨rfl, rfl⟩
  | @cons p a as l n hn h ih =>
    intro pre hp ha src
    subst hp
    have hb : pre ++ (attsText asc (a :: as) ++ rest) = pre ++ (a.text asc ++ (attsText asc as ++ rest)) := by
      simp [attsText]
    have hb' : pre ++ (attsText asc (a :: as) ++ rest) = (pre ++ a.text asc) ++ (attsText asc as ++ rest) := by
      simp [attsText]
    have ih := ih (pre ++ a.text asc) (by simp) (fun a h => ha a (by simp [h]))
    rw [← hb'] at ih
    have h1 := att_name s (ha a (by simp)) pre (attsText asc as ++ rest) n
    have h2 := one_value s hD hf opened raw (ha a (by simp)) pre (attsText asc as ++ rest) n hn
    rw [← hb] at h1 h2
    generalize pre ++ (attsText asc (a :: as) ++ rest) = b at *
    cases src with
    | nil =>
      constructor
      · rintro ⟨h, _⟩; cases h
      · intro h; cases h
    | cons q src =>
      obtain ⟨m, v⟩ := q
      rw [C28.Written]
      simp only [List.map_cons, List.cons.injEq, h1, h2]
      constructor
      · rintro ⟨⟨rfl, i1⟩, i2, i3⟩
        exact .cons i2 ((ih src).1 ⟨i1, i3⟩)
      · intro hv
        cases hv with
        | cons hv hs =>
          obtain ⟨i1, i3⟩ := (ih src).2 hs
          exact ⟨⟨rfl, i1⟩, hv, i3⟩

/-- **C33, tags.**  In a tag as the tokenizer accepts it (`C53.start_tag`) the names found are those written
and the values are the normalised ones, whether or not the tokenizer deems a literal to need normalisation. -/
theorem tag_values {D : Dtd} {ns x asc} (s : XSupported x asc) (hD : TextsOk D (internalUtf8X ns)) (hf : FlagsOk D)
    (opened : List Buf) (raw : Buf) {name : List Buf} (hn : QName x.e asc name) {as : List AttrSrc}
    (ha : ∀ a ∈ as, a.Valid x.e asc) {ws} (hw : AllWS ws) (empty : Bool) (src : List (Buf × Buf)) :
    let b := asc 0x3C ++ (name.flatten ++ (attsText asc as ++ closeText asc ws empty))
    C28.Written D (internalUtf8X ns) x opened (D.elem raw) b (getAtts x.e b) src ↔
      Values D (internalUtf8X ns) x asc opened (D.elem raw) as src := by
  intro b
  have h := getAtts_spec s.s hn ha hw empty []
  rw [List.append_nil] at h
  have := at_values s hD hf opened raw (closeText asc ws empty) h (asc 0x3C ++ name.flatten)
    (by simp [s.s.asc.len]) ha src
  rw [List.append_assoc] at this
  exact this

/-- **C33, reported attributes.**  When a tag is accepted, the reported values are the normalised values of
the literals written, in order, followed by defaults (see C28). -/
theorem reported_values {c : Cfg} {D : Dtd} {ns x asc} (s : XSupported x asc) (hD : TextsOk D (internalUtf8X ns)) (hf : FlagsOk D)
    (opened : List Buf) (raw : Buf) {name : List Buf} (hn : QName x.e asc name) {as : List AttrSrc}
    (ha : ∀ a ∈ as, a.Valid x.e asc) {ws} (hw : AllWS ws) (empty : Bool) {flags env E r} (hfl : ∀ n, flags n = .unset)
    (hd : ((C28.declaredDefaults (D.elem raw)).map (·.1)).Nodup)
    (h : storeAtts c D (internalUtf8X ns) x opened flags env raw
      (asc 0x3C ++ (name.flatten ++ (attsText asc as ++ closeText asc ws empty))) = (E, .ok r)) :
    ∃ src, Values D (internalUtf8X ns) x asc opened (D.elem raw) as src ∧
      r.atts.map (·.2) = ((src ++ C28.defaults (D.elem raw) src).filter fun p => !C28.isDecl c.ns p.1).map (·.2) := by
  obtain ⟨src, h1, _, h2, _⟩ := C28.attributes hfl hd h
  refine ⟨src, (tag_values s hD hf opened raw hn ha hw empty src).1 h1, ?_⟩
  have := congrArg (List.map Prod.snd) h2
  rw [List.map_map, List.map_map] at this
  exact this.symm

/-! ### Examples -/

/-- `<!ENTITY e "1&#10; &#38;lt;">` (replacement text as stored) and `<!ATTLIST r t NMTOKENS #IMPLIED>`. -/
def exDtd : Dtd where
  ents := [([0x65], ⟨some "1\n &lt;".toUTF8.toList, true, none, none, none, none⟩)]
  elems := [([0x72], { atts := [{ name := [0x74], isCdata := false, value := none }], idAtt := none })]
  maybeTok := [[0x74]]
  hasPERefs := false
  standalone := false

theorem ascii_lit {e : Enc} (he : ∀ c : UInt8, XmlChar c.toNat → c < 0x80 → e.IsChar [c]) (asc) :
    ∀ l : Buf, (∀ c ∈ l, XmlChar c.toNat ∧ c < 0x80) → Lit e asc l
  | [], _ => .nil
  | c :: l, h => .char [c] l (he c (h c (by simp)).1 (h c (by simp)).2) (ascii_lit he asc l fun d hd => h d (by simp [hd]))

theorem utf8_one {c : UInt8} (h : c < 0x80) : [c] = utf8 c.toNat := by
  have : c.toNat < 0x80 := h
  rw [utf8, if_pos this]
  simp

instance (n : Nat) : Decidable (XmlChar n) := by unfold XmlChar; infer_instance

theorem exTexts : TextsOk exDtd (internalUtf8X false) := by
  intro n ent t h1 h2
  have : t = "1\n &lt;".toUTF8.toList := by
    simp only [Dtd.entity, exDtd, List.find?_cons, List.find?_nil] at h1
    split at h1 <;> cases h1
    cases h2; rfl
  subst this
  exact ascii_lit (fun c h1 h2 => (internalUtf8Enc_isChar false _).2 ⟨_, h1, utf8_one h2⟩) _ _ (by decide +kernel)

theorem exFlags : FlagsOk exDtd := by
  intro raw d hd hc
  simp only [Dtd.elem, exDtd, List.find?_cons, List.find?_nil] at hd ⊢
  split at hd
  · simp at hd; subst hd; simp
  · simp at hd

/-- CDATA: white space and line ends become single spaces; character references stay what they are. -/
example : (storeAttributeValue exDtd true (internalUtf8X false) (utf8X false) true [] " a\r\n\t&e;&#13;&#32;".toUTF8.toList).toOption =
    some " a  1  <\r ".toUTF8.toList := by decide +kernel
/-- Other types. -/
example : (storeAttributeValue exDtd true (internalUtf8X false) (utf8X false) false [] " a\r\n\t&e;&#13;&#32;".toUTF8.toList).toOption =
    some "a 1 <\r".toUTF8.toList := by decide +kernel
example : collapse " a  1  <\r ".toUTF8.toList = "a 1 <\r".toUTF8.toList := by decide +kernel
/-- The hypotheses of `literal_value` hold of it, so the specification derives the value. -/
example : ∃ out, Norm exDtd true (internalUtf8X false) (utf8X false) asc1 ((utf8X false).e.lineEnds asc1) [] " a\r\n\t&e;".toUTF8.toList out ∧
    "a 1 <".toUTF8.toList = collapse out := by
  have hl : Lit (utf8X false).e asc1 " a\r\n\t&e;".toUTF8.toList :=
    ascii_lit (fun c h1 h2 => (utf8Enc_isChar false _).2 ⟨_, h1, utf8_one h2⟩) _ _ (by decide +kernel)
  refine (literal_value (check := true) (.utf8 false) exTexts false [] hl "a 1 <".toUTF8.toList).1 ?_
  have h : (storeAttributeValue exDtd true (internalUtf8X false) (utf8X false) false [] " a\r\n\t&e;".toUTF8.toList).toOption =
    some "a 1 <".toUTF8.toList := by decide +kernel
  revert h
  cases storeAttributeValue exDtd true (internalUtf8X false) (utf8X false) false [] " a\r\n\t&e;".toUTF8.toList with
  | error c => intro h; cases h
  | ok v => intro h; rw [Option.some.inj h]
/-- A tag: `t` is NMTOKENS, `u` is not declared. -/
example : (feed (parser {} exDtd (internalUtf8X false) (utf8X false)) (utf8Enc false) CState.init []
    ["<r t=' x &e;' u=' x &e;' v='x y'/>".toUTF8.toList]).1 =
      [.startElement [0x72] [([0x74], "x 1 <".toUTF8.toList), ([0x75], " x 1  <".toUTF8.toList), ([0x76], "x y".toUTF8.toList)] 3 none,
       .endElement [0x72]] := by decide +kernel

end Verif.C33
