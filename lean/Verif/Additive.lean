import Verif.Props.C04
import Verif.CdataRuns

/-! Lemmas: delivery of character data through the 1024-byte buffer, and that converted text may be cut
between characters. -/

namespace Verif
open C43 Tables

/-- The conversion loop of `doContent`, `doCdataSection` and `reportDefault`
(src/lib/xmlparse.rs:4152-4180, 4976-5002, 7712-7735): one handler call for every filling of
`m_dataBuf` (1024 characters, 1488), until COMPLETED or INPUT_INCOMPLETE.  The code has no test that
the input shrinks; that it does is part of `deliver_flatten`. -/
def deliver (x : XEnc) (b : Buf) : List Buf :=
  let c := x.conv b 1024
  if c.res = .outputExhausted ∧ c.rest.length < b.length then c.out :: deliver x c.rest else [c.out]
termination_by b.length
decreasing_by exact (by assumption : _ ∧ _).2

/-- Small output buffers are as good as large ones. -/
def Delivers (x : XEnc) : Prop :=
  ∀ b cap, 4 ≤ cap →
    ((x.conv b cap).res ≠ .outputExhausted → (x.conv b cap).out = converted x b) ∧
    ((x.conv b cap).res = .outputExhausted → (x.conv b cap).rest.length < b.length ∧
      (x.conv b cap).out ++ converted x (x.conv b cap).rest = converted x b)

theorem loop_delivers {step} (hu : C12.Uniform step) (hf : Fits step) (x : XEnc)
    (hx : x.conv = convLoop step) : Delivers x := by
  intro b cap h4
  unfold converted
  rw [hx]
  obtain ⟨s1, s2⟩ := loop_split hu b cap (4 * b.length + 4) (loop_big hu hf _ _ (by omega))
  refine ⟨s1, fun hr => ⟨loop_progress hf b cap h4 hr, ?_⟩⟩
  obtain ⟨big', h5, h6⟩ := s2 hr
  rw [← h6]
  congr 1
  exact (loop_split hu _ _ big' h5).1 (loop_big hu hf _ _ (by omega))

theorem even_delivers {step} (hu : C12.Uniform step) (hf : Fits step) (x : XEnc)
    (hx : ∀ b cap, x.conv b cap = convLoop step (b.take (b.length / 2 * 2)) cap)
    (hk : ∀ b cap, b ≠ [] → ∀ w k, step b cap = .emit w k → k % 2 = 1) : Delivers x := by
  have heven : ∀ b cap, b.length % 2 = 0 → (convLoop step b cap).rest.length % 2 = 0 := by
    intro b cap
    fun_induction convLoop step b cap with
    | case1 => simp
    | case2 => intro h; exact h
    | case3 b cap hb w k hs c ih =>
      intro h
      have := hk b cap hb w k hs
      refine ih ?_
      rw [List.length_drop]; omega
  intro b cap h4
  unfold converted
  rw [hx, hx]
  have hle : (b.take (b.length / 2 * 2)).length ≤ b.length := by rw [List.length_take]; omega
  generalize hb' : b.take (b.length / 2 * 2) = b' at *
  have he : b'.length % 2 = 0 := by rw [← hb']; exact even_take b
  obtain ⟨s1, s2⟩ := loop_split hu b' cap (4 * b.length + 4) (loop_big hu hf _ _ (by omega))
  refine ⟨s1, fun hr => ⟨?_, ?_⟩⟩
  · have := loop_progress hf b' cap h4 hr; omega
  · obtain ⟨big', h5, h6⟩ := s2 hr
    rw [← h6, hx]
    congr 1
    have hre := heven b' cap he
    have e : ((convLoop step b' cap).rest.take ((convLoop step b' cap).rest.length / 2 * 2)) =
        (convLoop step b' cap).rest := C12.take_even hre
    rw [e]
    exact (loop_split hu _ _ big' h5).1 (loop_big hu hf _ _ (by omega))

theorem supported_delivers {x asc} (s : XSupported x asc) (hc : x.isUtf8 = false) : Delivers x := by
  cases s with
  | utf8 ns => cases hc
  | internalUtf8 ns => cases hc
  | latin1 ns => exact loop_delivers C12.uniform_latin1 fits_latin1 _ rfl
  | ascii ns => cases hc
  | utf16le ns =>
    exact even_delivers (step := utf16ConvStep (fun b => (byteAt b 1).toNat) (fun b => (byteAt b 0).toNat)) (C12.uniform_utf16 _ _) (fits_utf16 _ _) (little2X ns)
      (fun _ _ => rfl) (fun b cap _ w k h => utf16_odd _ _ b cap w k h)
  | utf16be ns =>
    exact even_delivers (step := utf16ConvStep (fun b => (byteAt b 0).toNat) (fun b => (byteAt b 1).toNat)) (C12.uniform_utf16 _ _) (fits_utf16 _ _) (big2X ns)
      (fun _ _ => rfl) (fun b cap _ w k h => utf16_odd _ _ b cap w k h)

/-- The pieces delivered make up the converted text. -/
theorem deliver_flatten {x : XEnc} (hd : Delivers x) (b : Buf) : (deliver x b).flatten = converted x b := by
  fun_induction deliver x b with
  | case1 b c h ih =>
    rw [List.flatten_cons, ih]
    exact ((hd b 1024 (by omega)).2 h.1).2
  | case2 b c h =>
    have hd := hd b 1024 (by omega)
    simp only [List.flatten_cons, List.flatten_nil, List.append_nil]
    apply hd.1
    intro hr
    exact h ⟨hr, (hd.2 hr).1⟩

/-! ### Cutting between characters -/

/-- A character is converted by one step of the loop, whatever follows. -/
def CharStep (e : Enc) (step : Buf → Nat → CStep) : Prop :=
  ∀ w, e.IsChar w → ∃ o, ∀ r cap, 4 ≤ cap → step (w ++ r) cap = .emit o (w.length - 1)

theorem loop_char {e : Enc} {step} (hs : CharStep e step) (hu : C12.Uniform step) (hf : Fits step)
    {w : Buf} (hw : e.IsChar w) (hl : 0 < w.length) :
    ∃ o, ∀ (r : Buf) (cap : Nat), 4 * (w ++ r).length ≤ cap → 4 * r.length ≤ cap - o.length ∧
      (convLoop step (w ++ r) cap).out = o ++ (convLoop step r (cap - o.length)).out := by
  obtain ⟨o, ho⟩ := hs w hw
  have ho4 : o.length ≤ 4 := by
    have h4 := ho [] 4 (by omega)
    rw [List.append_nil] at h4
    rcases hu w (by intro h; subst h; cases hl) with ⟨w', k, h⟩ | h
    · rcases h 4 with ⟨h1, h2⟩ | ⟨_, h2⟩
      · rw [h4] at h2; injection h2 with h2; rw [h2]; exact h1
      · rw [h4] at h2; cases h2
    · rcases h 4 with h | h <;> rw [h4] at h <;> cases h
  refine ⟨o, fun r cap hc => ?_⟩
  rw [List.length_append] at hc
  refine ⟨by omega, ?_⟩
  rw [convLoop, dif_neg (by intro h; have := congrArg List.length h; rw [List.length_append] at this; simp only [List.length_nil] at this; omega), ho r cap (by omega)]
  simp only
  rw [show w.length - 1 + 1 = w.length by omega, List.drop_left]

theorem loop_cap {step} (hu : C12.Uniform step) (hf : Fits step) (b : Buf) (c1 c2 : Nat)
    (h1 : 4 * b.length ≤ c1) (h2 : 4 * b.length ≤ c2) : (convLoop step b c1).out = (convLoop step b c2).out :=
  (loop_split hu b c1 c2 (loop_big hu hf _ _ h2)).1 (loop_big hu hf _ _ h1)

theorem loop_app {e : Enc} {step} (hs : CharStep e step) (hu : C12.Uniform step) (hf : Fits step)
    (hm : e.mb ≤ 2) (ws : List Buf) (hw : e.Chars ws) (v : Buf) :
    ∀ c1 c2 c3, 4 * (ws.flatten ++ v).length ≤ c1 → 4 * ws.flatten.length ≤ c2 → 4 * v.length ≤ c3 →
    (convLoop step (ws.flatten ++ v) c1).out =
      (convLoop step ws.flatten c2).out ++ (convLoop step v c3).out := by
  induction ws with
  | nil =>
    intro c1 c2 c3 h1 _ h3
    simp only [List.flatten_nil, List.nil_append] at h1 ⊢
    rw [convLoop.eq_def step [] c2]
    simp only [dif_pos, List.nil_append]
    exact loop_cap hu hf _ _ _ h1 h3
  | cons w ws ih =>
    intro c1 c2 c3 h1 h2 h3
    have hl := e.isChar_len hm hw.head
    have : e.mb = e.m + 1 := rfl
    obtain ⟨o, ho⟩ := loop_char hs hu hf hw.head (by omega)
    rw [List.flatten_cons, List.append_assoc] at h1
    rw [List.flatten_cons] at h2
    rw [List.flatten_cons, List.append_assoc, (ho _ _ h1).2, (ho _ _ h2).2, List.append_assoc]
    congr 1
    exact ih hw.tail _ _ _ (ho _ _ h1).1 (ho _ _ h2).1 h3

theorem table16 : ∀ c : UInt8, ∀ ns : Bool, 
    (tableBt (if ns then latin1EncodingTableNS else latin1EncodingTable) c ≠ .LEAD2 ∧
        tableBt (if ns then latin1EncodingTableNS else latin1EncodingTable) c ≠ .LEAD3) ∧
        tableBt (if ns then latin1EncodingTableNS else latin1EncodingTable) c ≠ .LEAD4 := by
  intro c; revert c; exact UInt8.forall_dec (by decide +kernel)

theorem latin1_charStep (ns) : CharStep (latin1Enc ns) latin1ConvStep := by
  intro w hw
  have hl : w.length = 1 := by
    have := table16 (byteAt w 0) ns
    simp only [Enc.IsChar, latin1Enc, byteEncOf, Enc.mb] at hw
    generalize tableBt _ _ = t at *
    cases t <;> simp_all
  match w, hl with
  | [c], _ =>
    by_cases h : c.toNat &&& 0x80 ≠ 0
    · refine ⟨[UInt8.ofNat (c.toNat >>> 6 ||| 0xC0), UInt8.ofNat (c.toNat &&& 0x3f ||| 0x80)], fun r cap hc => ?_⟩
      simp only [latin1ConvStep, List.singleton_append, byteAt, List.getD_cons_zero, if_pos h,
        if_neg (show ¬ cap < 2 by omega)]
      rfl
    · refine ⟨[c], fun r cap hc => ?_⟩
      simp only [latin1ConvStep, List.singleton_append, byteAt, List.getD_cons_zero, if_neg h,
        if_neg (show ¬ cap = 0 by omega)]
      rfl

/-- A UTF-16 character: two bytes, or four if the unit is a high surrogate. -/
theorem utf16_charStep (e : Enc) (hi lo : Buf → Nat)
    (h2 : ∀ w, e.IsChar w → w.length = 2 ∧ ¬ (216 ≤ hi w ∧ hi w ≤ 219) ∨ w.length = 4)
    (hhi : ∀ (b r : Buf), 2 ≤ b.length → hi (b ++ r) = hi b) (hlo : ∀ (b r : Buf), 2 ≤ b.length → lo (b ++ r) = lo b)
    (h4 : ∀ w, e.IsChar w → w.length = 4 → 216 ≤ hi w ∧ hi w ≤ 219) : CharStep e (utf16ConvStep hi lo) := by
  intro w hw
  rcases h2 w hw with ⟨hl, hn⟩ | hl
  · by_cases h7 : hi w ≤ 7
    · by_cases h0 : hi w = 0 ∧ lo w < 0x80
      · refine ⟨[UInt8.ofNat (lo w)], fun r cap hc => ?_⟩
        simp only [utf16ConvStep, hhi w r (by omega), hlo w r (by omega), if_pos h7, if_pos h0,
          if_neg (show ¬ cap = 0 by omega), hl]
      · refine ⟨[UInt8.ofNat (lo w >>> 6 ||| hi w <<< 2 ||| 0xC0), UInt8.ofNat (lo w &&& 0x3f ||| 0x80)],
          fun r cap hc => ?_⟩
        simp only [utf16ConvStep, hhi w r (by omega), hlo w r (by omega), if_pos h7, if_neg h0,
          if_neg (show ¬ cap < 2 by omega), hl]
    · refine ⟨[UInt8.ofNat (hi w >>> 4 ||| 0xE0), UInt8.ofNat ((hi w &&& 0xf) <<< 2 ||| lo w >>> 6 ||| 0x80),
        UInt8.ofNat (lo w &&& 0x3f ||| 0x80)], fun r cap hc => ?_⟩
      simp only [utf16ConvStep, hhi w r (by omega), hlo w r (by omega), if_neg h7, if_neg hn,
        if_neg (show ¬ cap < 3 by omega), hl]
  · have h := h4 w hw hl
    have h7 : ¬ hi w ≤ 7 := by omega
    refine ⟨[UInt8.ofNat ((((hi w &&& 3) <<< 2 ||| lo w >>> 6 &&& 3) + 1) >>> 2 ||| 0xF0),
        UInt8.ofNat (lo w >>> 2 &&& 0xf ||| ((((hi w &&& 3) <<< 2 ||| lo w >>> 6 &&& 3) + 1) &&& 3) <<< 4 ||| 0x80),
        UInt8.ofNat ((lo w &&& 3) <<< 4 ||| (hi (w.drop 2) &&& 3) <<< 2 ||| lo (w.drop 2) >>> 6 ||| 0x80),
        UInt8.ofNat (lo (w.drop 2) &&& 0x3f ||| 0x80)], fun r cap hc => ?_⟩
    · simp only [utf16ConvStep, hhi w r (by omega), hlo w r (by omega), if_neg h7, if_pos h,
        if_neg (show ¬ cap < 4 by omega), if_neg (show ¬ (w ++ r).length < 4 by rw [List.length_append]; omega), hl]
      rw [List.drop_append_of_le_length (by omega), hhi _ r (by rw [List.length_drop]; omega),
        hlo _ r (by rw [List.length_drop]; omega)]

theorem byteAt_left {b r : Buf} {i : Nat} (h : i < b.length) : byteAt (b ++ r) i = byteAt b i := by
  simp only [byteAt, List.getD_eq_getElem?_getD]
  rw [List.getElem?_append_left h]

theorem unicode_lead (hi lo : UInt8) : unicodeByteType hi lo ≠ .LEAD2 ∧ unicodeByteType hi lo ≠ .LEAD3 ∧
    (unicodeByteType hi lo = .LEAD4 ↔ 216 ≤ hi.toNat ∧ hi.toNat ≤ 219) := by
  have h1 : ∀ h : UInt8, (216 ≤ h ∧ h ≤ 219) ↔ (216 ≤ h.toNat ∧ h.toNat ≤ 219) := by
    intro h; simp [UInt8.le_iff_toNat_le]
  unfold unicodeByteType
  repeat' split
  all_goals simp_all

theorem little2_lead (ns b) : (little2Enc ns).bt b ≠ .LEAD2 ∧ (little2Enc ns).bt b ≠ .LEAD3 ∧
    ((little2Enc ns).bt b = .LEAD4 ↔ 216 ≤ (byteAt b 1).toNat ∧ (byteAt b 1).toNat ≤ 219) := by
  have ht := table16 (byteAt b 0) ns
  have hu := unicode_lead (byteAt b 1) (byteAt b 0)
  simp only [little2Enc, little2EncOf]
  split
  · rename_i h; rw [h]; simp_all
  · exact hu

theorem big2_lead (ns b) : (big2Enc ns).bt b ≠ .LEAD2 ∧ (big2Enc ns).bt b ≠ .LEAD3 ∧
    ((big2Enc ns).bt b = .LEAD4 ↔ 216 ≤ (byteAt b 0).toNat ∧ (byteAt b 0).toNat ≤ 219) := by
  have ht := table16 (byteAt b 1) ns
  have hu := unicode_lead (byteAt b 0) (byteAt b 1)
  simp only [big2Enc, big2EncOf, big2Bt?]
  split
  · rename_i h; rw [h]; split <;> simp_all
  · exact hu

theorem little2_charStep (ns) : CharStep (little2Enc ns)
    (utf16ConvStep (fun b => (byteAt b 1).toNat) (fun b => (byteAt b 0).toNat)) := by
  apply utf16_charStep
  · intro w hw
    have := little2_lead ns w
    have hmb : (little2Enc ns).mb = 2 := rfl
    simp only [Enc.IsChar] at hw
    generalize (little2Enc ns).bt w = t at *
    cases t <;> simp_all
  · intro b r h; simp only [byteAt_left (b := b) (r := r) (i := 0) (by omega), byteAt_left (b := b) (r := r) (i := 1) (by omega)]
  · intro b r h; simp only [byteAt_left (b := b) (r := r) (i := 0) (by omega), byteAt_left (b := b) (r := r) (i := 1) (by omega)]
  · intro w hw hl
    have := little2_lead ns w
    have hmb : (little2Enc ns).mb = 2 := rfl
    simp only [Enc.IsChar] at hw
    generalize (little2Enc ns).bt w = t at *
    cases t <;> simp_all

theorem big2_charStep (ns) : CharStep (big2Enc ns)
    (utf16ConvStep (fun b => (byteAt b 0).toNat) (fun b => (byteAt b 1).toNat)) := by
  apply utf16_charStep
  · intro w hw
    have := big2_lead ns w
    have hmb : (big2Enc ns).mb = 2 := rfl
    simp only [Enc.IsChar] at hw
    generalize (big2Enc ns).bt w = t at *
    cases t <;> simp_all
  · intro b r h; simp only [byteAt_left (b := b) (r := r) (i := 0) (by omega), byteAt_left (b := b) (r := r) (i := 1) (by omega)]
  · intro b r h; simp only [byteAt_left (b := b) (r := r) (i := 0) (by omega), byteAt_left (b := b) (r := r) (i := 1) (by omega)]
  · intro w hw hl
    have := big2_lead ns w
    have hmb : (big2Enc ns).mb = 2 := rfl
    simp only [Enc.IsChar] at hw
    generalize (big2Enc ns).bt w = t at *
    cases t <;> simp_all

theorem even_app {a b : Buf} (h : a.length % 2 = 0) :
    (a ++ b).take ((a ++ b).length / 2 * 2) = a ++ b.take (b.length / 2 * 2) := by
  rw [List.take_append, List.length_append]
  congr 1
  · rw [List.take_of_length_le]; omega
  · congr 1; omega

theorem chars_even {e : Enc} (h2 : ∀ w, e.IsChar w → w.length = 2 ∨ w.length = 4) {ws : List Buf}
    (hw : e.Chars ws) : ws.flatten.length % 2 = 0 := by
  induction ws with
  | nil => rfl
  | cons w ws ih =>
    have := ih hw.tail
    have := h2 w hw.head
    rw [List.flatten_cons, List.length_append]; omega

/-- Converted text may be cut after any character (encodings that need conversion). -/
theorem converted_app {x asc} (s : XSupported x asc) (hc : x.isUtf8 = false) {ws : List Buf}
    (hw : x.e.Chars ws) (v : Buf) : converted x (ws.flatten ++ v) = converted x ws.flatten ++ converted x v := by
  have key16 : ∀ (e : Enc) (step : Buf → Nat → CStep), CharStep e step → C12.Uniform step → Fits step →
      (∀ w, e.IsChar w → w.length = 2 ∨ w.length = 4) → e.mb ≤ 2 → e.Chars ws →
      (convLoop step ((ws.flatten ++ v).take ((ws.flatten ++ v).length / 2 * 2)) (4 * (ws.flatten ++ v).length + 4)).out =
      (convLoop step (ws.flatten.take (ws.flatten.length / 2 * 2)) (4 * ws.flatten.length + 4)).out ++
        (convLoop step (v.take (v.length / 2 * 2)) (4 * v.length + 4)).out := by
    intro e step h1 h2 h3 h4 h5 hw
    have he := chars_even h4 hw
    rw [even_app he, C12.take_even he]
    apply loop_app h1 h2 h3 h5 _ hw
    · simp only [List.length_append, List.length_take]; omega
    · omega
    · simp only [List.length_take]; omega
  cases s with
  | utf8 ns => cases hc
  | internalUtf8 ns => cases hc
  | latin1 ns =>
    exact loop_app (latin1_charStep ns) C12.uniform_latin1 fits_latin1 (show (1:Nat) ≤ 2 by omega) ws hw v _ _ _
      (by omega) (by omega) (by omega)
  | ascii ns => cases hc
  | utf16le ns =>
    refine key16 _ _ (little2_charStep ns) (C12.uniform_utf16 _ _) (fits_utf16 _ _) ?_ (Nat.le_refl 2) hw
    intro w hw
    have := little2_lead ns w
    have hmb : (little2Enc ns).mb = 2 := rfl
    simp only [Enc.IsChar] at hw
    generalize (little2Enc ns).bt w = t at *
    cases t <;> simp_all
  | utf16be ns =>
    refine key16 _ _ (big2_charStep ns) (C12.uniform_utf16 _ _) (fits_utf16 _ _) ?_ (Nat.le_refl 2) hw
    intro w hw
    have := big2_lead ns w
    have hmb : (big2Enc ns).mb = 2 := rfl
    simp only [Enc.IsChar] at hw
    generalize (big2Enc ns).bt w = t at *
    cases t <;> simp_all

theorem Supported.even {e asc} (s : Supported e asc) : e.Even := by
  intro b
  cases s with
  | utf16le ns =>
    have := little2_lead ns b
    have hmb : (little2Enc ns).mb = 2 := rfl
    simp only [Enc.charLen, hmb]
    generalize (little2Enc ns).bt b = t at *
    cases t <;> simp_all
  | utf16be ns =>
    have := big2_lead ns b
    have hmb : (big2Enc ns).mb = 2 := rfl
    simp only [Enc.charLen, hmb]
    generalize (big2Enc ns).bt b = t at *
    cases t <;> simp_all
  | _ => exact Nat.one_dvd _

/-! ### Tokens of text consist of characters -/

section
variable {e : Enc} {asc : UInt8 → Buf} (s : Supported e asc)
include s

theorem content_chars {b n} (h : contentTok e b = ⟨.DATA_CHARS, n⟩) :
    ∃ ws, e.Chars ws ∧ b.take n = ws.flatten := by
  have hb := tok_long (m := .content) h (by simp) (by simp)
  rw [contentTok_eq hb] at h
  obtain ⟨w, ws, r, h1, h2, h3⟩ := contentTokBody_data s _ _ (truncBuf_len hb) h
  obtain ⟨y, hy⟩ := truncBuf_prefix e b
  refine ⟨w :: ws, fun u hu => (h1.mem u hu).1, ?_⟩
  rw [hy, h2, h3, List.append_assoc, List.take_left]

theorem cdata_chars {b n} (h : cdataSectionTok e b = ⟨.DATA_CHARS, n⟩) :
    ∃ ws, e.Chars ws ∧ b.take n = ws.flatten := by
  have hb := tok_long (m := .cdata) h (by simp) (by simp)
  rw [cdataSectionTok_eq hb] at h
  obtain ⟨w, ws, r, h1, _, _, h2, h3⟩ := cdataTokBody_data s _ _ (truncBuf_len hb) h
  obtain ⟨y, hy⟩ := truncBuf_prefix e b
  refine ⟨w :: ws, fun u hu => (h1 u hu).1, ?_⟩
  rw [hy, h2, h3, List.append_assoc, List.take_left]

omit s in
theorem sp_char (ok : e.Ok) {b : Buf} (hb : e.mb ≤ b.length) (h : e.bt b = .S ∨ e.bt b = .LF ∨ e.bt b = .CR) :
    e.IsChar (b.take e.mb) := by
  have h1 : e.bt (b.take e.mb) = e.bt b := by
    conv => rhs; rw [← List.take_append_drop e.mb b]
    rw [ok.bt_app _ _ (by rw [List.length_take]; omega)]
  simp only [Enc.IsChar, h1, List.length_take]
  rcases h with h | h | h <;> rw [h] <;> simp only <;> omega

omit s in
theorem prologSpace_chars (ok : e.Ok) (b p) : ∃ ws n, e.Chars ws ∧ (prologSpace e b p).next = p + n ∧
    b.take n = ws.flatten ∧ n ≤ b.length := by
  have key : ∀ b p, ¬ b.length < e.mb → (e.bt b = .S ∨ e.bt b = .LF ∨ e.bt b = .CR) →
      (∃ ws n, e.Chars ws ∧ (prologSpace e (b.drop e.mb) (p + e.mb)).next = p + e.mb + n ∧
        (b.drop e.mb).take n = ws.flatten ∧ n ≤ (b.drop e.mb).length) →
      ∃ ws n, e.Chars ws ∧ (prologSpace e (b.drop e.mb) (p + e.mb)).next = p + n ∧
        b.take n = ws.flatten ∧ n ≤ b.length := by
    intro b p hb ht ⟨ws, n, h1, h2, h3, h4⟩
    rw [List.length_drop] at h4
    refine ⟨b.take e.mb :: ws, e.mb + n, .cons (sp_char ok (by omega) ht) h1, by omega, ?_, by omega⟩
    rw [List.take_add, h3, List.flatten_cons]
  have nilc : ∀ (b : Buf) (p : Nat), ∃ ws n, e.Chars ws ∧ (⟨.PROLOG_S, p⟩ : Res).next = p + n ∧
    b.take n = ws.flatten ∧ n ≤ b.length := fun b p => ⟨[], 0, .nil, rfl, by simp, by omega⟩
  fun_induction prologSpace e b p with
  | case1 => exact nilc _ _
  | case2 => exact nilc _ _
  | case3 b p h1 h2 h3 ih => exact key b p h1 (by grind) ih
  | case4 b p h1 h2 ih => exact key b p h1 (by grind) ih
  | case5 b p h1 h2 ih => exact key b p h1 (by grind) ih
  | case6 => exact nilc _ _

omit s in
theorem space_chars_ok (ok : e.Ok) {b n t} (ht : t = .PROLOG_S ∨ t = .PROLOG_S_NEG) (h : prologTok e b = ⟨t, n⟩) :
    ∃ ws, e.Chars ws ∧ b.take n = ws.flatten := by
  have hb := tok_long (m := .epilog) h (by rcases ht with rfl | rfl <;> simp) (by rcases ht with rfl | rfl <;> simp)
  rw [prologTok_eq hb] at h
  obtain ⟨y, hy⟩ := truncBuf_prefix e b
  have hl := truncBuf_len hb
  generalize truncBuf e b = c at *
  have htake : ∀ k, k ≤ c.length → b.take k = c.take k := by
    intro k hk
    rw [hy, List.take_append_of_le_length hk]
  rcases prologTokBody_space ht h with ⟨rfl, h1⟩ | ⟨rfl, rfl, h1, h2⟩
  · have h2 := (prologSpace_long (n := 0) h1 hl).1
    rw [h, Res.shift] at h2
    simp only [Nat.zero_add] at h2
    obtain ⟨ws, k, i1, i2, i3, i4⟩ := prologSpace_chars ok c 0
    rw [h2] at i2
    simp only [Nat.zero_add] at i2
    subst i2
    exact ⟨ws, i1, by rw [htake _ i4, i3]⟩
  · refine ⟨[c.take e.mb], .cons (sp_char ok hl (.inr (.inr h1))) .nil, ?_⟩
    rw [htake _ hl]
    simp

theorem space_chars {b n t} (ht : t = .PROLOG_S ∨ t = .PROLOG_S_NEG) (h : prologTok e b = ⟨t, n⟩) :
    ∃ ws, e.Chars ws ∧ b.take n = ws.flatten := space_chars_ok s.ok ht h

end

end Verif
