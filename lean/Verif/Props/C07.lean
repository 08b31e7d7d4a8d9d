import Verif.Names

/-! C07: processing instructions: reserved targets and termination. -/

namespace Verif.C07
open Verif Spec

/-- `xml` in lower case. -/
def xmlName : List UInt8 := [0x78, 0x6D, 0x6C]

/-- `xml` in any mixture of cases. -/
def XmlAnyCase (cs : List UInt8) : Prop :=
  ∃ a b c, cs = [a, b, c] ∧ (a = 0x78 ∨ a = 0x58) ∧ (b = 0x6D ∨ b = 0x4D) ∧ (c = 0x6C ∨ c = 0x4C)

/-- The spelling of an ASCII string in the encoding. -/
abbrev spell (asc : UInt8 → Buf) (cs : List UInt8) : Buf := (cs.map asc).flatten

theorem checkPiTarget_spec {e asc} (s : Supported e asc) (t : Buf) :
    (checkPiTarget e t = some .XML_DECL ↔ t = spell asc xmlName) ∧
    (checkPiTarget e t = none ↔ (∃ cs, XmlAnyCase cs ∧ t = spell asc cs) ∧ t ≠ spell asc xmlName) ∧
    (checkPiTarget e t = some .PI ↔ ¬ ∃ cs, XmlAnyCase cs ∧ t = spell asc cs) := by
  have l (c) := s.asc.len c
  have ne : ∀ a b : UInt8, a ≠ b → asc a ≠ asc b := fun a b h h2 => h (s.asc_inj h2)
  by_cases hl : t.length = e.mb * 3
  · obtain ⟨ws, h1, h2, rfl⟩ := cut e.mb 3 t (by omega)
    match ws, h1 with
    | [w1, w2, w3], _ =>
      have l1 := h2 w1 (by simp)
      have l2 := h2 w2 (by simp)
      have l3 := h2 w3 (by simp)
      have inj : ∀ a b c, [w1, w2, w3].flatten = spell asc [a, b, c] ↔
          w1 = asc a ∧ w2 = asc b ∧ w3 = asc c := by
        intro a b c
        simp only [spell, List.map_cons, List.map_nil, List.flatten_cons, List.flatten_nil,
          List.append_nil]
        constructor
        · intro h
          obtain ⟨i1, i2⟩ := List.append_inj h (by rw [l1, l])
          obtain ⟨i2, i3⟩ := List.append_inj i2 (by rw [l2, l])
          exact ⟨i1, i2, i3⟩
        · rintro ⟨rfl, rfl, rfl⟩; rfl
      have any : (∃ cs, XmlAnyCase cs ∧ [w1, w2, w3].flatten = spell asc cs) ↔
          (w1 = asc 0x78 ∨ w1 = asc 0x58) ∧ (w2 = asc 0x6D ∨ w2 = asc 0x4D) ∧
          (w3 = asc 0x6C ∨ w3 = asc 0x4C) := by
        constructor
        · rintro ⟨cs, ⟨a, b, c, rfl, ha, hb, hc⟩, h⟩
          obtain ⟨rfl, rfl, rfl⟩ := (inj a b c).1 h
          exact ⟨ha.imp (congrArg asc) (congrArg asc), hb.imp (congrArg asc) (congrArg asc),
            hc.imp (congrArg asc) (congrArg asc)⟩
        · rintro ⟨ha, hb, hc⟩
          have : ∃ a, (a = 0x78 ∨ a = 0x58) ∧ w1 = asc a := by
            rcases ha with h | h <;> exact ⟨_, by simp, h⟩
          obtain ⟨a, ha, ha2⟩ := this
          have : ∃ a, (a = 0x6D ∨ a = 0x4D) ∧ w2 = asc a := by
            rcases hb with h | h <;> exact ⟨_, by simp, h⟩
          obtain ⟨b, hb, hb2⟩ := this
          have : ∃ a, (a = 0x6C ∨ a = 0x4C) ∧ w3 = asc a := by
            rcases hc with h | h <;> exact ⟨_, by simp, h⟩
          obtain ⟨c, hc, hc2⟩ := this
          exact ⟨[a, b, c], ⟨a, b, c, rfl, ha, hb, hc⟩, (inj a b c).2 ⟨ha2, hb2, hc2⟩⟩
      have d1 : [w1, w2, w3].flatten.drop e.mb = w2 ++ (w3 ++ []) := by
        simp only [List.flatten_cons, List.flatten_nil]; exact drop_char l1
      have d2 : [w1, w2, w3].flatten.drop (2 * e.mb) = w3 ++ [] := by
        rw [Nat.two_mul, ← List.drop_drop, d1]; exact drop_char l2
      have a1 : ∀ x : UInt8, x < 0x80 → (e.toAscii [w1, w2, w3].flatten = x ↔ w1 = asc x) := by
        intro x hx
        simp only [List.flatten_cons]; exact toAscii_iff s _ l1 hx
      have a2 : ∀ x : UInt8, x < 0x80 →
          (e.toAscii ([w1, w2, w3].flatten.drop e.mb) = x ↔ w2 = asc x) := by
        intro x hx
        rw [d1]; exact toAscii_iff s _ l2 hx
      have a3 : ∀ x : UInt8, x < 0x80 →
          (e.toAscii ([w1, w2, w3].flatten.drop (2 * e.mb)) = x ↔ w3 = asc x) := by
        intro x hx
        rw [d2]; exact toAscii_iff s _ l3 hx
      simp only [any, xmlName, inj, ne_eq]
      rw [checkPiTarget, if_neg (by rw [hl]; simp)]
      simp only [Bool.not_eq_true', Bool.or_eq_true, Bool.or_eq_false_iff, beq_iff_eq,
        beq_eq_false_iff_ne, ne_eq, a1 0x78 (by decide), a1 0x58 (by decide), a2 0x6D (by decide),
        a2 0x4D (by decide), a3 0x6C (by decide), a3 0x4C (by decide)]
      have n1 := ne 0x78 0x58 (by decide)
      have n2 := ne 0x6D 0x4D (by decide)
      have n3 := ne 0x6C 0x4C (by decide)
      clear a1 a2 a3 d1 d2 any inj l1 l2 l3 h2 hl l ne
      grind
  · have h3 : ∀ a b c, t ≠ spell asc [a, b, c] := by
      rintro a b c rfl
      apply hl
      simp [spell, l]; omega
    rw [checkPiTarget, if_pos hl]
    have h4 : ¬ ∃ cs, XmlAnyCase cs ∧ t = spell asc cs := by
      rintro ⟨cs, ⟨a, b, c, rfl, -⟩, h⟩; exact h3 a b c h
    simp [h3, h4, xmlName]

/-- What follows the target of a PI: `?>`, or white space, data without `?>`, and `?>`;
`n` bytes in all. -/
inductive Tail (e : Enc) (asc : UInt8 → Buf) : Buf → Nat → Prop
  | close (r) : Tail e asc (asc 0x3F ++ (asc 0x3E ++ r)) (2 * e.mb)
  | data (c : UInt8) (ws : List Buf) (r : Buf) : isWS c = true → e.Chars ws →
      NoPair (asc 0x3F) (asc 0x3E) (ws ++ [asc 0x3F]) →
      Tail e asc (asc c ++ (ws.flatten ++ (asc 0x3F ++ (asc 0x3E ++ r))))
        (ws.flatten.length + 3 * e.mb)

theorem fail_err {t : Tok} (h : t.fail) : t.isError = true := by
  rcases h with rfl | rfl | rfl <;> rfl

theorem target_sound {e asc} (s : Supported e asc) (tgt : Buf) (p0 : Nat) (b : Buf) (p n : Nat)
    (t : Tok) (ht : t.isError = false) (pre : Buf) (h0 : tgt = pre ++ b) (hp : p = p0 + pre.length)
    (h : scanPiTarget e tgt p0 b p = ⟨t, n⟩) :
    ∃ (ws : List Buf) (r : Buf) (m : Nat), (∀ w ∈ ws, e.NameChar w) ∧ b = ws.flatten ++ r ∧
      checkPiTarget e (pre ++ ws.flatten) = some t ∧ Tail e asc r m ∧
      n = p + ws.flatten.length + m := by
  have space : ∀ (b : Buf) (p : Nat) (t' : Tok) (pre : Buf), tgt = pre ++ b → p = p0 + pre.length →
      ¬ b.length < e.mb → (e.bt b == .S || e.bt b == .CR || e.bt b == .LF) = true →
      checkPiTarget e (tgt.take (p - p0)) = some t' →
      scanPiData e t' (b.drop e.mb) (p + e.mb) = ⟨t, n⟩ →
      ∃ (ws : List Buf) (r : Buf) (m : Nat), (∀ w ∈ ws, e.NameChar w) ∧ b = ws.flatten ++ r ∧
      checkPiTarget e (pre ++ ws.flatten) = some t ∧ Tail e asc r m ∧
      n = p + ws.flatten.length + m := by
    intro b p t' pre h0 hp h1 h3 hchk h
    obtain ⟨c, hc, hb⟩ := s.class_split spaceClass (b := b) (by omega) h3
    have ht' : t' = t := by
      rcases scanPiData_tok e t' (b.drop e.mb) (p + e.mb) with h4 | h4
      · have := fail_err h4
        rw [h, ht] at this; cases this
      · rw [h] at h4; exact h4.symm
    subst ht'
    obtain ⟨ws, r, i1, i2, i3, i4⟩ := scanPiData_sound s t' _ _ _ ht h
    refine ⟨[], b, ws.flatten.length + 3 * e.mb, by simp, by simp, ?_, ?_, by simp [i4]; omega⟩
    · simp only [List.flatten_nil, List.append_nil]
      rw [h0, hp, Nat.add_sub_cancel_left, List.take_left' rfl] at hchk; exact hchk
    · rw [hb, i3]; exact .data _ ws r hc i1 i2
  fun_induction scanPiTarget e tgt p0 b p generalizing pre with
  | case2 b p h1 r h2 =>
    have := fail_err (nameCases_fail h2)
    rw [h, ht] at this; cases this
  | case3 b p h1 k h2 ih =>
    obtain ⟨hc, hl⟩ := nameCases_split s.ok s.mb (by omega) h2
    obtain ⟨ws, r, m, i1, i2, i3, i4, i5⟩ := ih (pre ++ b.take (k + 1))
      (by rw [h0, List.append_assoc, List.take_append_drop])
      (by rw [List.length_append, List.length_take, Nat.min_eq_left hl]; omega) h
    refine ⟨b.take (k + 1) :: ws, r, m, ?_, ?_, ?_, i4, ?_⟩
    · intro w hw
      rcases List.mem_cons.1 hw with rfl | hw
      · exact hc
      · exact i1 w hw
    · rw [List.flatten_cons, List.append_assoc, ← i2, List.take_append_drop]
    · rw [List.flatten_cons, ← List.append_assoc]; exact i3
    · rw [i5, List.flatten_cons, List.length_append, List.length_take, Nat.min_eq_left hl]; omega
  | case5 b p h1 h2 h3 t' hchk => exact space b p t' pre h0 hp h1 (by rw [h3]; rfl) hchk h
  | case7 b p h1 h2 h3 t' hchk => exact space b p t' pre h0 hp h1 (by rw [h3]; rfl) hchk h
  | case9 b p h1 h2 h3 t' hchk => exact space b p t' pre h0 hp h1 (by rw [h3]; rfl) hchk h
  | case12 b p h1 h2 h3 t' hchk h4 h5 =>
    injection h with ht' hn
    subst ht'
    have e1 := bt_split s (t := .QUEST) rfl (by omega) h3
    have e2 := mat_split s (c := 0x3E) (by decide) (by omega) h5
    refine ⟨[], b, 2 * e.mb, by simp, by simp, ?_, ?_, by simp [← hn]⟩
    · simp only [List.flatten_nil, List.append_nil]
      rw [h0, hp, Nat.add_sub_cancel_left, List.take_left' rfl] at hchk; exact hchk
    · rw [e1, e2]; exact .close _
  | _ => cases h; cases ht

theorem target_complete {e asc} (s : Supported e asc) (tgt : Buf) (p0 : Nat) (ws : List Buf)
    (r : Buf) (m p : Nat) (t : Tok) (pre : Buf) (h0 : tgt = pre ++ (ws.flatten ++ r))
    (hp : p = p0 + pre.length) (hw : ∀ w ∈ ws, e.NameChar w)
    (hc : checkPiTarget e (pre ++ ws.flatten) = some t) (hr : Tail e asc r m) :
    scanPiTarget e tgt p0 (ws.flatten ++ r) p = ⟨t, p + ws.flatten.length + m⟩ := by
  have l (c) := s.asc.len c
  induction ws generalizing p pre with
  | nil =>
    simp only [List.flatten_nil, List.nil_append, List.append_nil] at h0 hc ⊢
    have htk : tgt.take (p - p0) = pre := by
      rw [h0, hp, Nat.add_sub_cancel_left, List.take_left' rfl]
    cases hr with
    | close r =>
      have hb := asc_bt s (t := .QUEST) rfl (asc 0x3E ++ r)
      rw [scanPiTarget, if_neg (by rw [List.length_append]; have := l 0x3F; omega),
        nameCases_other _ (by rw [hb]; rfl)]
      simp only [hb, htk, hc, drop_char (l 0x3F)]
      rw [if_neg (by rw [List.length_append]; have := l 0x3E; omega),
        if_pos (asc_mat s _ (by decide) _)]
      simp
    | data c ws r h1 h2 h3 =>
      have hb := s.class_app spaceClass h1 (ws.flatten ++ (asc 0x3F ++ (asc 0x3E ++ r)))
      have hd := scanPiData_complete s t ws r (p + e.mb) h2 h3
      rw [scanPiTarget, if_neg (by rw [List.length_append]; have := l c; omega),
        nameCases_other _ (by
          revert hb; generalize e.bt _ = y; cases y <;> simp [ByteType.nonName])]
      simp only [htk, hc, drop_char (l c), hd, List.length_nil, Nat.add_zero]
      have he : p + e.mb + ws.flatten.length + 2 * e.mb = p + (ws.flatten.length + 3 * e.mb) := by
        omega
      rw [he]
      revert hb
      generalize e.bt _ = y
      cases y <;> simp
  | cons w ws ih =>
    have h1 := hw w (by simp)
    rw [List.flatten_cons, List.append_assoc] at h0 ⊢
    obtain ⟨k, hk, hk2⟩ := nameCases_char s.ok s.mb h1 (ws.flatten ++ r) p
    have := h1.len s.mb
    rw [scanPiTarget, if_neg (by rw [List.length_append]; omega), hk]
    simp only
    rw [← hk2, List.drop_left' rfl, ih (p + w.length) (pre ++ w) (by rw [h0, List.append_assoc])
      (by rw [hp, List.length_append]; omega) (fun w h => hw w (by simp [h]))
      (by rw [List.append_assoc]; exact hc), List.length_append]
    congr 1; omega

/-- C07: after `<?`, a token of type `t` (a PI or an XML declaration) and `n` bytes is recognised
exactly when a Name `target`, whose classification gives `t`, and then `?>` or white space, legal
characters without `?>`, and `?>` follow. -/
theorem pi_iff {e asc} (s : Supported e asc) (b : Buf) (n : Nat) (t : Tok) (ht : t.isError = false) :
    scanPi e b 0 = ⟨t, n⟩ ↔ ∃ (target : List Buf) (r : Buf) (m : Nat), e.Name target ∧
      b = target.flatten ++ r ∧ Tail e asc r m ∧ n = target.flatten.length + m ∧
      checkPiTarget e target.flatten = some t := by
  constructor
  · intro h
    rw [scanPi] at h
    split at h
    · cases h; cases ht
    · split at h
      · rename_i h2
        have := fail_err (nmstrtCases_fail h2)
        rw [h, ht] at this; cases this
      · rename_i k h2
        obtain ⟨hc, hl⟩ := nmstrtCases_split s.ok s.mb (by omega) h2
        obtain ⟨ws, r, m, i1, i2, i3, i4, i5⟩ := target_sound s b 0 _ _ n t ht (b.take (k + 1))
          (List.take_append_drop _ _).symm
          (by rw [List.length_take, Nat.min_eq_left hl]) h
        refine ⟨b.take (k + 1) :: ws, r, m, ⟨_, _, rfl, hc, i1⟩, ?_, i4, ?_, ?_⟩
        · rw [List.flatten_cons, List.append_assoc, ← i2, List.take_append_drop]
        · rw [i5, List.flatten_cons, List.length_append, List.length_take, Nat.min_eq_left hl]; omega
        · rw [List.flatten_cons]; exact i3
      · cases h; cases ht
  · rintro ⟨target, r, m, ⟨w, vs, rfl, h1, h2⟩, rfl, h3, rfl, h4⟩
    rw [List.flatten_cons, List.append_assoc]
    obtain ⟨k, hk, hk2⟩ := nmstrtCases_char s.ok s.mb h1 (vs.flatten ++ r) 0
    have := h1.len s.mb
    rw [scanPi, if_neg (by rw [List.length_append]; omega), hk]
    simp only
    rw [← hk2, List.drop_left' rfl,
      target_complete s _ 0 vs r m _ t w rfl rfl h2 (by simpa using h4) h3, List.length_append]
    congr 1; omega

/-- C07, ordinary PIs: any Name other than a spelling of `xml`. -/
theorem pi_token {e asc} (s : Supported e asc) (b : Buf) (n : Nat) :
    scanPi e b 0 = ⟨.PI, n⟩ ↔ ∃ (target : List Buf) (r : Buf) (m : Nat), e.Name target ∧
      b = target.flatten ++ r ∧ Tail e asc r m ∧ n = target.flatten.length + m ∧
      ¬ ∃ cs, XmlAnyCase cs ∧ target.flatten = spell asc cs := by
  rw [pi_iff s b n .PI rfl]
  simp only [(checkPiTarget_spec s _).2.2]

/-- C07, declarations: the target is `xml` in lower case. -/
theorem decl_token {e asc} (s : Supported e asc) (b : Buf) (n : Nat) :
    scanPi e b 0 = ⟨.XML_DECL, n⟩ ↔ ∃ (r : Buf) (m : Nat),
      b = spell asc xmlName ++ r ∧ Tail e asc r m ∧ n = 3 * e.mb + m := by
  rw [pi_iff s b n .XML_DECL rfl]
  simp only [(checkPiTarget_spec s _).1]
  have l (c) := s.asc.len c
  have hl : (spell asc xmlName).length = 3 * e.mb := by simp [spell, xmlName, l]; omega
  constructor
  · rintro ⟨target, r, m, -, h2, h3, h4, h5⟩
    exact ⟨r, m, by rw [h2, h5], h3, by rw [h4, h5, hl]⟩
  · rintro ⟨r, m, rfl, h3, rfl⟩
    refine ⟨xmlName.map asc, r, m, ?_, rfl, h3, by rw [← hl], rfl⟩
    have h7 : ∀ c, (c = 0x78 ∨ c = 0x6D ∨ c = 0x6C) → e.bt (asc c) = .NMSTRT := by
      cases s <;> rename_i ns <;> cases ns <;> rintro c (rfl | rfl | rfl) <;> decide +kernel
    refine ⟨asc 0x78, [asc 0x6D, asc 0x6C], rfl, ?_, ?_⟩
    · simp only [Enc.NmstrtChar, h7 0x78 (by simp), l]
    · simp only [List.mem_cons, List.not_mem_nil, or_false]
      rintro v (rfl | rfl)
      · simp only [Enc.NameChar, h7 0x6D (by simp), l]
      · simp only [Enc.NameChar, h7 0x6C (by simp), l]

/-- C07: the other seven spellings are rejected as soon as the character after them shows that the
target ends there, whatever follows. -/
theorem reserved_rejected {e asc} (s : Supported e asc) (cs : List UInt8) (h : XmlAnyCase cs)
    (hne : cs ≠ xmlName) (c : UInt8) (hc : isWS c = true ∨ c = 0x3F) (r : Buf) :
    scanPi e (spell asc cs ++ (asc c ++ r)) 0 = ⟨.INVALID, 3 * e.mb⟩ := by
  have l (c) := s.asc.len c
  have h8 : checkPiTarget e (spell asc cs) = none := by
    rw [(checkPiTarget_spec s _).2.1]
    refine ⟨⟨cs, h, rfl⟩, fun h9 => hne ?_⟩
    obtain ⟨x, y, z, rfl, -⟩ := h
    simp only [spell, xmlName, List.map_cons, List.map_nil, List.flatten_cons, List.flatten_nil,
      List.append_nil] at h9 ⊢
    obtain ⟨i1, i2⟩ := List.append_inj h9 (by rw [l, l])
    obtain ⟨i2, i3⟩ := List.append_inj i2 (by rw [l, l])
    rw [s.asc_inj i1, s.asc_inj i2, s.asc_inj i3]
  obtain ⟨x, y, z, rfl, hx, hy, hz⟩ := h
  have h7 : ∀ c, (c = 0x78 ∨ c = 0x6D ∨ c = 0x6C ∨ c = 0x58 ∨ c = 0x4D ∨ c = 0x4C) →
      e.bt (asc c) = .NMSTRT := by
    cases s <;> rename_i ns <;> cases ns <;> rintro c (rfl | rfl | rfl | rfl | rfl | rfl) <;>
      decide +kernel
  have n1 : e.NmstrtChar (asc x) := by
    simp only [Enc.NmstrtChar, h7 x (by rcases hx with h | h <;> simp [h]), l]
  have n2 : e.NameChar (asc y) := by
    simp only [Enc.NameChar, h7 y (by rcases hy with h | h <;> simp [h]), l]
  have n3 : e.NameChar (asc z) := by
    simp only [Enc.NameChar, h7 z (by rcases hz with h | h <;> simp [h]), l]
  have hbt : e.bt (asc c ++ r) = .S ∨ e.bt (asc c ++ r) = .CR ∨ e.bt (asc c ++ r) = .LF ∨
      e.bt (asc c ++ r) = .QUEST := by
    rcases hc with hc | rfl
    · have := s.class_app spaceClass hc r
      revert this; generalize e.bt _ = y; cases y <;> simp
    · rw [asc_bt s (t := .QUEST) rfl r]; simp
  obtain ⟨k1, g1, g2⟩ := nmstrtCases_char s.ok s.mb n1 (asc y ++ (asc z ++ (asc c ++ r))) 0
  obtain ⟨k2, g3, g4⟩ := nameCases_char s.ok s.mb n2 (asc z ++ (asc c ++ r)) (e.mb)
  obtain ⟨k3, g5, g6⟩ := nameCases_char s.ok s.mb n3 (asc c ++ r) (e.mb + e.mb)
  rw [l] at g2 g4 g6
  have htk : (asc x ++ (asc y ++ (asc z ++ (asc c ++ r)))).take (e.mb + e.mb + e.mb) =
      spell asc [x, y, z] := by
    rw [show asc x ++ (asc y ++ (asc z ++ (asc c ++ r))) = spell asc [x, y, z] ++ (asc c ++ r) by
      simp [spell]]
    exact List.take_left' (by simp [spell, l]; omega)
  simp only [spell, List.map_cons, List.map_nil, List.flatten_cons, List.flatten_nil,
    List.append_nil, List.append_assoc]
  have hlen : ∀ (c : UInt8) (r : Buf), ¬ (asc c ++ r).length < e.mb := by
    intro c r; rw [List.length_append, l]; omega
  rw [scanPi, if_neg (hlen _ _), g1]
  simp only [← g2, Nat.zero_add, drop_char (l x)]
  rw [scanPiTarget, if_neg (hlen _ _), g3]
  simp only [← g4, drop_char (l y)]
  rw [scanPiTarget, if_neg (hlen _ _), g5]
  simp only [← g6, drop_char (l z)]
  rw [scanPiTarget, if_neg (hlen _ _), nameCases_other _ (by
    rcases hbt with h | h | h | h <;> rw [h] <;> rfl)]
  simp only [Nat.sub_zero, htk, h8]
  rw [show 3 * e.mb = e.mb + e.mb + e.mb by omega]
  rcases hbt with h | h | h | h <;> rw [h]

/-! Non-vacuity: `a b?c?>`, `xml ?>`, `xMl?>`. -/
example : scanPi (utf8Enc true) [0x61, 0x20, 0x62, 0x3F, 0x63, 0x3F, 0x3E, 0x3E] 0 = ⟨.PI, 7⟩ := by
  decide +kernel
example : scanPi (big2Enc true) [0, 0x78, 0, 0x6D, 0, 0x6C, 0, 0x20, 0, 0x3F, 0, 0x3E] 0
    = ⟨.XML_DECL, 12⟩ := by decide +kernel
example : scanPi (utf8Enc true) [0x78, 0x4D, 0x6C, 0x3F, 0x3E] 0 = ⟨.INVALID, 3⟩ := by
  decide +kernel

end Verif.C07
