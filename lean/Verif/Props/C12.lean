import Verif.Props.C51

/-! C12: transcoding is faithful and independent of the output buffer size. -/

namespace Verif.C12
open Verif Spec

/-! Specification: the bytes of a character in the input encodings. -/

/-- ISO-8859-1 and US-ASCII: one byte per character. -/
def byte1 (c : Nat) : List UInt8 := [UInt8.ofNat c]
def utf16le (c : Nat) : List UInt8 := ((utf16 c).map le16).flatten
def utf16be (c : Nat) : List UInt8 := ((utf16 c).map be16).flatten

/-- A text in an encoding. -/
def text (enc : Nat → List UInt8) (cs : List Nat) : List UInt8 := (cs.map enc).flatten

/-- A converter call on whole characters, with any output room: it writes the UTF-8 form of the
first `k` characters and leaves the input of the others; it stops early only because the next
character does not fit, and says so. -/
def Faithful (conv : Buf → Nat → Conv) (enc : Nat → List UInt8) (ok : Nat → Prop) : Prop :=
  ∀ cs, (∀ c ∈ cs, ok c) → ∀ cap, ∃ k, k ≤ cs.length ∧
    (conv (text enc cs) cap).out = utf8s (cs.take k) ∧
    (conv (text enc cs) cap).rest = text enc (cs.drop k) ∧
    (utf8s (cs.take k)).length ≤ cap ∧
    (k = cs.length → (conv (text enc cs) cap).res = .completed) ∧
    (k < cs.length → (conv (text enc cs) cap).res = .outputExhausted ∧
      cap < (utf8s (cs.take (k + 1))).length)

theorem text_cons (enc) (c : Nat) (cs) : text enc (c :: cs) = enc c ++ text enc cs := by
  simp [text]
theorem text_nil (enc) : text enc [] = [] := rfl

/-- A converter loop whose iterations convert one character is faithful. -/
theorem loop_faithful {step enc} {ok : Nat → Prop} (hne : ∀ c, enc c ≠ [])
    (hs : ∀ c, ok c → ∀ r cap, step (enc c ++ r) cap =
      if cap < (utf8 c).length then .stop .outputExhausted
      else .emit (utf8 c) ((enc c).length - 1)) :
    Faithful (convLoop step) enc ok := by
  intro cs
  induction cs with
  | nil =>
    intro _ cap
    refine ⟨0, by simp, ?_⟩
    rw [text_nil, convLoop]
    simp [utf8s, text]
  | cons c cs ih =>
    intro h cap
    have hc := h c (by simp)
    have hnn : enc c ++ text enc cs ≠ [] := by simp [hne c]
    have hlen : (enc c).length - 1 + 1 = (enc c).length := by
      have := List.length_pos_iff.2 (hne c); omega
    rw [text_cons, convLoop, dif_neg hnn, hs c hc]
    by_cases hcap : cap < (utf8 c).length
    · rw [if_pos hcap]
      refine ⟨0, by simp, by simp [utf8s], by simp [text], by simp [utf8s], by simp, fun _ => ⟨rfl, ?_⟩⟩
      simpa [utf8s] using hcap
    · rw [if_neg hcap]
      simp only [hlen, List.drop_left]
      obtain ⟨k, h0, h1, h2, h3, h4, h5⟩ := ih (fun c hc => h c (by simp [hc])) (cap - (utf8 c).length)
      refine ⟨k + 1, by simpa using h0, ?_, by simpa using h2, ?_, ?_, ?_⟩
      · rw [h1, List.take_succ_cons, C51.utf8s_cons]
      · rw [List.take_succ_cons, C51.utf8s_cons, List.length_append]; omega
      · intro hk; exact h4 (by simpa using hk)
      · intro hk
        obtain ⟨a, b⟩ := h5 (by simpa using hk)
        refine ⟨a, ?_⟩
        rw [List.take_succ_cons, C51.utf8s_cons, List.length_append]; omega

theorem byteAt_byte1 (c : Nat) (h : c < 256) (r : Buf) : (byteAt (byte1 c ++ r) 0).toNat = c := by
  simp only [byte1, byteAt, List.getD, List.cons_append, List.getElem?_cons_zero, Option.getD_some]
  exact toNat_ofNat h

theorem and80n (c : Nat) (h : c < 256) : (c &&& 0x80 ≠ 0) ↔ 128 ≤ c := by
  have : ∀ c < 256, (c &&& 0x80 ≠ 0) ↔ 128 ≤ c := by decide +kernel
  exact this c h

/-- C12 for ISO-8859-1. -/
theorem latin1_faithful : Faithful latin1Convert byte1 (· < 256) := by
  refine loop_faithful (by simp [byte1]) fun c hc r cap => ?_
  have hb := byteAt_byte1 c hc r
  have hb' : byteAt (byte1 c ++ r) 0 = UInt8.ofNat c := eq_ofNat hb
  have key : ∀ c < 256, 128 ≤ c → UInt8.ofNat (c >>> 6 ||| 0xC0) = UInt8.ofNat (0xC0 + c / 64) ∧
    UInt8.ofNat (c &&& 0x3f ||| 0x80) = UInt8.ofNat (0x80 + c % 64) := by decide +kernel
  have hn : (UInt8.ofNat c).toNat = c := toNat_ofNat hc
  have hl : (byte1 c).length = 1 := rfl
  simp only [latin1ConvStep, hb', hn, utf8, hl]
  by_cases h : c < 128
  · have : ¬ (c &&& 0x80 ≠ 0) := by rw [and80n c hc]; omega
    simp only [if_neg this, if_pos h, List.length_cons, List.length_nil]
    split <;> split <;> first | rfl | omega
  · have : (c &&& 0x80 ≠ 0) := by rw [and80n c hc]; omega
    rw [if_pos this, (key c hc (by omega)).1, (key c hc (by omega)).2]
    simp only [if_neg h, if_pos (show c < 0x800 by omega)]
    rfl

/-- C12 for US-ASCII. -/
theorem ascii_faithful : Faithful asciiConvert byte1 (· < 128) := by
  refine loop_faithful (by simp [byte1]) fun c hc r cap => ?_
  have hb' : byteAt (byte1 c ++ r) 0 = UInt8.ofNat c := eq_ofNat (byteAt_byte1 c (by omega) r)
  have hl : (byte1 c).length = 1 := rfl
  simp only [asciiConvStep, hb', utf8, if_pos hc, hl, List.length_cons, List.length_nil]
  split <;> split <;> first | rfl | omega

/-! UTF-16 -/

theorem bits_bmp1 : ∀ h ≤ 7, ∀ l < 256,
    UInt8.ofNat (l >>> 6 ||| h <<< 2 ||| 0xC0) = UInt8.ofNat (0xC0 + (h * 256 + l) / 64) ∧
    UInt8.ofNat (l &&& 0x3f ||| 0x80) = UInt8.ofNat (0x80 + (h * 256 + l) % 64) := by
  decide +kernel

theorem bits_bmp2 (h : Nat) (hh : h < 256) (l : Nat) (hl : l < 256) :
    UInt8.ofNat (h >>> 4 ||| 0xE0) = UInt8.ofNat (0xE0 + (h * 256 + l) / 4096) ∧
    UInt8.ofNat ((h &&& 0xf) <<< 2 ||| l >>> 6 ||| 0x80)
      = UInt8.ofNat (0x80 + (h * 256 + l) / 64 % 64) ∧
    UInt8.ofNat (l &&& 0x3f ||| 0x80) = UInt8.ofNat (0x80 + (h * 256 + l) % 64) := by
  have a : ∀ h < 256, h >>> 4 ||| 0xE0 = 0xE0 + h / 16 := by decide +kernel
  have b : ∀ h < 16, ∀ l < 4, h <<< 2 ||| l ||| 0x80 = 0x80 + h * 4 + l := by decide +kernel
  have c : ∀ l < 256, l &&& 0x3f ||| 0x80 = 0x80 + l % 64 := by decide +kernel
  have d : h &&& 0xf = h % 16 := Nat.and_two_pow_sub_one_eq_mod h 4
  have e : l >>> 6 = l / 64 := Nat.shiftRight_eq_div_pow l 6
  rw [a h hh, d, e, b _ (Nat.mod_lt _ (by decide)) _ (by omega), c l hl]
  refine ⟨?_, ?_, ?_⟩ <;> refine congrArg UInt8.ofNat ?_ <;> omega

theorem bits_sup (h l h2 l2 : Nat) (hh : 216 ≤ h ∧ h ≤ 219) (hl : l < 256)
    (hh2 : 220 ≤ h2 ∧ h2 ≤ 223) (hl2 : l2 < 256) (c : Nat)
    (hc : c = 0x10000 + ((h - 216) * 256 + l) * 1024 + ((h2 - 220) * 256 + l2)) :
    let plane := ((h &&& 3) <<< 2 ||| l >>> 6 &&& 3) + 1
    [UInt8.ofNat (plane >>> 2 ||| 0xF0),
      UInt8.ofNat (l >>> 2 &&& 0xf ||| (plane &&& 3) <<< 4 ||| 0x80),
      UInt8.ofNat ((l &&& 3) <<< 4 ||| (h2 &&& 3) <<< 2 ||| l2 >>> 6 ||| 0x80),
      UInt8.ofNat (l2 &&& 0x3f ||| 0x80)] =
    [UInt8.ofNat (0xF0 + c / 262144), UInt8.ofNat (0x80 + c / 4096 % 64),
     UInt8.ofNat (0x80 + c / 64 % 64), UInt8.ofNat (0x80 + c % 64)] := by
  have a1 : h &&& 3 = h - 216 := by
    have : ∀ h < 220, 216 ≤ h → h &&& 3 = h - 216 := by decide +kernel
    exact this h (by omega) hh.1
  have a2 : h2 &&& 3 = h2 - 220 := by
    have : ∀ h < 224, 220 ≤ h → h &&& 3 = h - 220 := by decide +kernel
    exact this h2 (by omega) hh2.1
  have a3 : l >>> 6 &&& 3 = l / 64 := by
    have : ∀ l < 256, l >>> 6 &&& 3 = l / 64 := by decide +kernel
    exact this l hl
  have a4 : ∀ x < 4, ∀ y < 4, (x <<< 2 ||| y) = 4 * x + y := by decide +kernel
  have a5 : ∀ p < 17, (p >>> 2 ||| 0xF0) = 0xF0 + p / 4 := by decide +kernel
  have a6 : ∀ p < 17, (p &&& 3) = p % 4 := by decide +kernel
  have a7 : l >>> 2 &&& 0xf = l / 4 % 16 := by
    have : ∀ l < 256, l >>> 2 &&& 0xf = l / 4 % 16 := by decide +kernel
    exact this l hl
  have a8 : ∀ x < 16, ∀ y < 4, (x ||| y <<< 4 ||| 0x80) = 0x80 + y * 16 + x := by decide +kernel
  have a9 : l &&& 3 = l % 4 := Nat.and_two_pow_sub_one_eq_mod l 2
  have a10 : l2 >>> 6 = l2 / 64 := Nat.shiftRight_eq_div_pow l2 6
  have a11 : ∀ x < 4, ∀ y < 4, ∀ z < 4, (x <<< 4 ||| y <<< 2 ||| z ||| 0x80) = 0x80 + x * 16 + y * 4 + z := by
    decide +kernel
  have a12 : ∀ l < 256, l &&& 0x3f ||| 0x80 = 0x80 + l % 64 := by decide +kernel
  simp only
  rw [a1, a3, a4 _ (by omega) _ (by omega), a5 _ (by omega), a6 _ (by omega), a7,
    a8 _ (by omega) _ (by omega), a9, a2, a10, a11 _ (by omega) _ (by omega) _ (by omega), a12 l2 hl2]
  refine List.cons_eq_cons.2 ⟨?_, List.cons_eq_cons.2 ⟨?_, List.cons_eq_cons.2 ⟨?_,
    List.cons_eq_cons.2 ⟨?_, rfl⟩⟩⟩⟩ <;> refine congrArg UInt8.ofNat ?_ <;> omega

/-- One iteration of the UTF-16 converter, given how code units are laid out. -/
theorem utf16_step (hi lo : Buf → Nat) (unit : Nat → List UInt8)
    (hlen : ∀ u, (unit u).length = 2)
    (hhi : ∀ u < 65536, ∀ r, hi (unit u ++ r) = u / 256)
    (hlo : ∀ u < 65536, ∀ r, lo (unit u ++ r) = u % 256) (c : Nat) (hc : Scalar c) (r : Buf)
    (cap : Nat) :
    utf16ConvStep hi lo (((utf16 c).map unit).flatten ++ r) cap =
      if cap < (utf8 c).length then .stop .outputExhausted
      else .emit (utf8 c) ((((utf16 c).map unit).flatten).length - 1) := by
  unfold Scalar at hc
  by_cases hb : c < 0x10000
  · have e : ((utf16 c).map unit).flatten = unit c := by simp [utf16, hb]
    rw [e, utf16ConvStep, hhi c hb, hlo c hb]
    simp only [hlen]
    have hdm := Nat.div_add_mod c 256
    have e2 : c / 256 * 256 + c % 256 = c := by omega
    have hm : c % 256 < 256 := Nat.mod_lt _ (by decide)
    by_cases h1 : c < 0x80
    · rw [if_pos (by omega), if_pos (by omega), utf8, if_pos h1, show c % 256 = c by omega]
      simp only [List.length_cons, List.length_nil]
      split <;> split <;> first | rfl | omega
    by_cases h2 : c < 0x800
    · rw [if_pos (by omega), if_neg (by omega), utf8, if_neg h1, if_pos h2]
      obtain ⟨b1, b2⟩ := bits_bmp1 (c / 256) (by omega) (c % 256) hm
      rw [e2] at b1 b2
      rw [b1, b2]
      rfl
    · rw [if_neg (by omega), if_neg (by omega), utf8, if_neg h1, if_neg h2, if_pos hb]
      obtain ⟨b1, b2, b3⟩ := bits_bmp2 (c / 256) (by omega) (c % 256) hm
      rw [e2] at b1 b2 b3
      rw [b1, b2, b3]
      rfl
  · have e : ((utf16 c).map unit).flatten =
        unit (0xD800 + (c - 0x10000) / 0x400) ++ unit (0xDC00 + (c - 0x10000) % 0x400) := by
      simp [utf16, hb]
    have l1 : (0xD800 + (c - 0x10000) / 0x400) < 65536 := by omega
    have l2 : (0xDC00 + (c - 0x10000) % 0x400) < 65536 := by omega
    rw [e, List.append_assoc, utf16ConvStep, hhi _ l1, hlo _ l1]
    have hd : ∀ x : Buf, (unit (0xD800 + (c - 0x10000) / 0x400) ++ x).drop 2 = x := fun x => by
      rw [List.drop_append_of_le_length (by rw [hlen]; omega)]
      rw [List.drop_of_length_le (by rw [hlen]; omega)]; rfl
    simp only [hd, hhi _ l2, hlo _ l2, List.length_append, hlen]
    rw [if_neg (by omega), if_pos (by omega), utf8,
      if_neg (show ¬ c < 0x80 by omega), if_neg (show ¬ c < 0x800 by omega), if_neg hb]
    simp only [List.length_cons, List.length_nil]
    rw [bits_sup _ _ _ _ (by omega) (by omega) (by omega) (by omega) c (by omega)]
    split
    · rfl
    · rw [if_neg (by omega)]

theorem even_text (unit : Nat → List UInt8) (hlen : ∀ u, (unit u).length = 2) (cs : List Nat) :
    (text (fun c => ((utf16 c).map unit).flatten) cs).length % 2 = 0 := by
  have h1 : ∀ us : List Nat, ((us.map unit).flatten).length = 2 * us.length := fun us => by
    induction us with
    | nil => rfl
    | cons a us ih => simp [ih, hlen]; omega
  induction cs with
  | nil => rfl
  | cons c cs ih => rw [text_cons, List.length_append, h1]; omega

theorem take_even {b : Buf} (h : b.length % 2 = 0) : b.take (b.length / 2 * 2) = b :=
  List.take_of_length_le (by omega)

theorem faithful_even {step} {unit : Nat → List UInt8} (hlen : ∀ u, (unit u).length = 2)
    {ok : Nat → Prop}
    (h : Faithful (convLoop step) (fun c => ((utf16 c).map unit).flatten) ok) :
    Faithful (fun b cap => convLoop step (b.take (b.length / 2 * 2)) cap)
      (fun c => ((utf16 c).map unit).flatten) ok := by
  intro cs hcs cap
  simp only [take_even (even_text unit hlen cs)]
  exact h cs hcs cap

theorem utf16_ne (unit : Nat → List UInt8) (hlen : ∀ u, (unit u).length = 2) (c : Nat) :
    ((utf16 c).map unit).flatten ≠ [] := by
  intro h
  have := congrArg List.length h
  unfold utf16 at this
  split at this <;> simp [hlen] at this

/-- C12 for UTF-16LE. -/
theorem utf16le_faithful : Faithful little2Convert utf16le Scalar := by
  have hlen : ∀ u, (le16 u).length = 2 := fun _ => rfl
  refine faithful_even (unit := le16) hlen (loop_faithful (utf16_ne _ hlen) fun c hc r cap => ?_)
  refine utf16_step _ _ le16 hlen (fun u hu r => ?_) (fun u hu r => ?_) c hc r cap
  · exact toNat_ofNat (n := u / 256) (by omega)
  · exact toNat_ofNat (n := u % 256) (by omega)

/-- C12 for UTF-16BE. -/
theorem utf16be_faithful : Faithful big2Convert utf16be Scalar := by
  have hlen : ∀ u, (be16 u).length = 2 := fun _ => rfl
  refine faithful_even (unit := be16) hlen (loop_faithful (utf16_ne _ hlen) fun c hc r cap => ?_)
  refine utf16_step _ _ be16 hlen (fun u hu r => ?_) (fun u hu r => ?_) c hc r cap
  · exact toNat_ofNat (n := u / 256) (by omega)
  · exact toNat_ofNat (n := u % 256) (by omega)

theorem text_utf8 (cs : List Nat) : text utf8 cs = utf8s cs := rfl

/-- C12 for UTF-8. -/
theorem utf8_faithful : Faithful utf8Convert utf8 Scalar := by
  intro cs h cap
  have hlt : ∀ c ∈ cs, c < 0x110000 := fun c hc => by
    have := h c hc; unfold Scalar at this; omega
  rw [text_utf8]
  by_cases hn : cap < (utf8s cs).length
  · obtain ⟨k, c, j, h1, h2, h3, h4⟩ := C51.cut_split cs cap hn
    have hc : c ∈ cs := List.mem_of_getElem? h1
    have hk : k < cs.length := (List.getElem?_eq_some_iff.1 h1).1
    have ht : trimUtf8 ((utf8s cs).take cap) = utf8s (cs.take k) := by
      rw [h3]
      exact C51.trim_spec _ (fun c hc => hlt c (List.mem_of_mem_take hc)) c (hlt c hc) j h2
    simp only [utf8Convert, if_pos hn, ht]
    refine ⟨k, by omega, rfl, ?_, by omega, by omega, fun _ => ⟨trivial, ?_⟩⟩
    · conv => lhs; rw [← List.take_append_drop k cs, C51.utf8s_append, List.take_append_drop]
      rw [List.drop_left, text_utf8]
    · have e : cs.take (k + 1) = cs.take k ++ [c] := by rw [List.take_add_one, h1]; rfl
      have e2 : utf8s [c] = utf8 c := by simp [utf8s]
      rw [e, C51.utf8s_append, List.length_append, e2]; omega
  · have ht : trimUtf8 (utf8s cs) = utf8s cs := by
      have := C51.trim_end cs hlt [] 0
      rw [List.append_nil] at this
      rw [trimUtf8, this, List.take_length]
    simp only [utf8Convert, if_neg hn, ht]
    refine ⟨cs.length, by omega, by rw [List.take_length], ?_, by rw [List.take_length]; omega,
      fun _ => by rw [if_neg (by omega)], by omega⟩
    rw [List.drop_length, List.drop_length]; rfl

/-- C12: a character cut off by the end of the input is kept back (not delivered, not lost), and
the caller is told so. -/
theorem utf8_incomplete (cs : List Nat) (h : ∀ c ∈ cs, Scalar c) (c : Nat) (hc : Scalar c)
    (j : Nat) (h0 : 0 < j) (hj : j < (utf8 c).length) (cap : Nat)
    (hcap : (utf8s cs).length + j ≤ cap) :
    utf8Convert (utf8s cs ++ (utf8 c).take j) cap =
      ⟨utf8s cs, (utf8 c).take j, .inputIncomplete⟩ := by
  have hlt : ∀ c, Scalar c → c < 0x110000 := fun c hc => by unfold Scalar at hc; omega
  have hl : (utf8s cs ++ (utf8 c).take j).length = (utf8s cs).length + j := by simp; omega
  have ht := C51.trim_spec cs (fun c hc => hlt c (h c hc)) c (hlt c hc) j hj
  simp only [utf8Convert, hl, if_neg (show ¬ cap < (utf8s cs).length + j by omega), ht,
    List.drop_left]
  rw [if_pos (by omega)]

/-- C12: through any succession of output buffers whatever, no character is split, dropped or
duplicated: what has been written is the UTF-8 of the first `k` characters and what is left is
the input of the rest. -/
theorem drain_prefix {conv enc ok} (h : Faithful conv enc ok) (cs : List Nat)
    (hcs : ∀ c ∈ cs, ok c) (caps : List Nat) :
    ∃ k, (drain conv caps (text enc cs)).1 = utf8s (cs.take k) ∧
      (drain conv caps (text enc cs)).2 = text enc (cs.drop k) := by
  induction caps generalizing cs with
  | nil => exact ⟨0, by simp [drain, utf8s], by simp [drain]⟩
  | cons cap caps ih =>
    obtain ⟨k, h0, h1, h2, _⟩ := h cs hcs cap
    obtain ⟨k', h3, h4⟩ := ih (cs.drop k) (fun c hc => hcs c (List.mem_of_mem_drop hc))
    refine ⟨k + k', ?_, ?_⟩
    · simp only [drain, h1, h2, h3, List.take_add, C51.utf8s_append]
    · simp only [drain, h2, h4, List.drop_drop]

/-- C12: with buffers that hold at least one character each, the whole input is converted once
there are as many buffers as characters (in particular a caller that loops until COMPLETED
terminates), and the result does not depend on the buffer sizes. -/
theorem drain_all {conv enc ok} (h : Faithful conv enc ok) (cs : List Nat)
    (hcs : ∀ c ∈ cs, ok c) (caps : List Nat) (hcap : ∀ n ∈ caps, 4 ≤ n)
    (hl : cs.length ≤ caps.length) :
    drain conv caps (text enc cs) = (utf8s cs, []) := by
  induction caps generalizing cs with
  | nil =>
    have : cs = [] := List.length_eq_zero_iff.1 (by simpa using hl)
    subst this; rfl
  | cons cap caps ih =>
    obtain ⟨k, h0, h1, h2, h3, h4, h5⟩ := h cs hcs cap
    have hk : cs = [] ∨ 1 ≤ k := by
      rcases cs with _ | ⟨c, cs⟩
      · exact .inl rfl
      · right
        rcases Nat.eq_zero_or_pos k with rfl | hp
        · have := (h5 (by simp)).2
          have l := (C51.utf8_length c).2
          have c4 := hcap cap (by simp)
          simp only [Nat.zero_add, List.take_succ_cons, List.take_zero, C51.utf8s_cons] at this
          have e : utf8s [] = [] := rfl
          rw [e, List.append_nil] at this
          omega
        · exact hp
    have hl' : (cs.drop k).length ≤ caps.length := by
      rw [List.length_drop]
      simp only [List.length_cons] at hl
      rcases hk with rfl | hk
      · simp
      · omega
    have := ih (cs.drop k) (fun c hc => hcs c (List.mem_of_mem_drop hc))
      (fun n hn => hcap n (by simp [hn])) hl'
    simp only [drain, h1, h2, this]
    rw [← C51.utf8s_append, List.take_append_drop]

/-! Arbitrary (also ill-formed) input of the per-character converters. -/

/-- A step that writes the same whatever the room is. -/
def Uniform (step : Buf → Nat → CStep) : Prop :=
  ∀ b, b ≠ [] → (∃ w k, ∀ cap, (w.length ≤ cap ∧ step b cap = .emit w k) ∨
      (cap < w.length ∧ step b cap = .stop .outputExhausted)) ∨
    (∀ cap, step b cap = .stop .inputIncomplete ∨ step b cap = .stop .outputExhausted)

theorem fin (n : Nat) (w : List UInt8) (k : Nat) (hw : w.length = n) :
    ∃ w' k', ∀ cap, (w'.length ≤ cap ∧
      (if cap < n then CStep.stop .outputExhausted else .emit w k) = .emit w' k') ∨
    (cap < w'.length ∧ (if cap < n then CStep.stop .outputExhausted else .emit w k) =
      .stop .outputExhausted) := by
  refine ⟨w, k, fun cap => ?_⟩
  by_cases hc : cap < n
  · exact .inr ⟨by omega, if_pos hc⟩
  · exact .inl ⟨by omega, if_neg hc⟩

theorem fin0 (w : List UInt8) (k : Nat) (hw : w.length = 1) :
    ∃ w' k', ∀ cap, (w'.length ≤ cap ∧
      (if cap = 0 then CStep.stop .outputExhausted else .emit w k) = .emit w' k') ∨
    (cap < w'.length ∧ (if cap = 0 then CStep.stop .outputExhausted else .emit w k) =
      .stop .outputExhausted) := by
  refine ⟨w, k, fun cap => ?_⟩
  by_cases hc : cap = 0
  · exact .inr ⟨by omega, if_pos hc⟩
  · exact .inl ⟨by omega, if_neg hc⟩

theorem uniform_latin1 : Uniform latin1ConvStep := by
  intro b _
  unfold latin1ConvStep
  by_cases h : (byteAt b 0).toNat &&& 0x80 ≠ 0
  · simp only [if_pos h]; exact .inl (fin 2 _ _ rfl)
  · simp only [if_neg h]; exact .inl (fin0 _ _ rfl)

theorem uniform_ascii : Uniform asciiConvStep := fun b _ => .inl (fin0 [byteAt b 0] 0 rfl)

theorem uniform_utf16 (hi lo : Buf → Nat) : Uniform (utf16ConvStep hi lo) := by
  intro b _
  unfold utf16ConvStep
  by_cases h1 : hi b ≤ 7
  · simp only [if_pos h1]
    by_cases h2 : hi b = 0 ∧ lo b < 0x80
    · simp only [if_pos h2]; exact .inl (fin0 _ _ rfl)
    · simp only [if_neg h2]; exact .inl (fin 2 _ _ rfl)
  · simp only [if_neg h1]
    by_cases h2 : 216 ≤ hi b ∧ hi b ≤ 219
    · simp only [if_pos h2]
      by_cases h3 : b.length < 4
      · right; intro cap; simp only [if_pos h3]; split <;> simp
      · simp only [if_neg h3]; exact .inl (fin 4 _ _ rfl)
    · simp only [if_neg h2]; exact .inl (fin 3 _ _ rfl)

theorem uniform_unknown (u : Unknown) : Uniform (unknownConvStep u) := by
  intro b _
  left
  unfold unknownConvStep
  split <;> exact fin _ _ _ rfl

/-- What a loop has written is a prefix of what it writes with more room, and continuing on the
rest writes the remainder. -/
theorem loop_continue {step} (hu : Uniform step) (b : Buf) (cap big : Nat)
    (hbig : (convLoop step b big).res = .completed) :
    ∃ k, (convLoop step b big).out = (convLoop step b cap).out ++
        (convLoop step (convLoop step b cap).rest k).out ∧
      (convLoop step (convLoop step b cap).rest k).res = .completed := by
  fun_induction convLoop step b cap generalizing big with
  | case1 cap =>
    refine ⟨0, ?_⟩
    rw [convLoop, dif_pos rfl]
    rw [convLoop, dif_pos rfl]; simp
  | case2 b cap hb r hr => exact ⟨big, by simp, hbig⟩
  | case3 b cap hb w k hs c ih =>
    rw [convLoop, dif_neg hb] at hbig ⊢
    rcases hu b hb with ⟨w', k', hw⟩ | hw
    · have hw1 : step b cap = .emit w' k' := by
        rcases hw cap with h | h
        · exact h.2
        · rw [hs] at h; simp at h
      rw [hs] at hw1
      obtain ⟨rfl, rfl⟩ := CStep.emit.inj hw1
      rcases hw big with h | h
      · rw [h.2] at hbig ⊢
        simp only at hbig ⊢
        obtain ⟨k, h1, h2⟩ := ih (big - w.length) hbig
        exact ⟨k, by rw [h1, List.append_assoc], h2⟩
      · rw [h.2] at hbig; simp at hbig
    · rcases hw cap with h | h <;> rw [hs] at h <;> simp at h

theorem loop_completed_rest {step} (hu : Uniform step) (b : Buf) (cap : Nat)
    (h : (convLoop step b cap).res = .completed) : (convLoop step b cap).rest = [] := by
  fun_induction convLoop step b cap with
  | case1 => rfl
  | case2 b cap hb r hr =>
    simp only at h; subst h
    rcases hu b hb with ⟨w, k, hw⟩ | hw
    · rcases hw cap with h | h <;> rw [hr] at h <;> simp at h
    · rcases hw cap with h | h <;> rw [hr] at h <;> simp at h
  | case3 b cap hb w k hs c ih => exact ih h

/-- C12, ill-formed input included: if one large buffer suffices to convert `b` completely, then
through any succession of buffers that gets to the end the same bytes are delivered (for the
per-character converters: ISO-8859-1, US-ASCII, UTF-16 and application-defined encodings). -/
theorem loop_independent {step} (hu : Uniform step) (b : Buf) (big : Nat)
    (hbig : (convLoop step b big).res = .completed) (caps : List Nat) (o : List UInt8)
    (h : drain (convLoop step) caps b = (o, [])) : o = (convLoop step b big).out := by
  induction caps generalizing b big o with
  | nil =>
    simp only [drain, Prod.mk.injEq] at h
    obtain ⟨rfl, rfl⟩ := h
    rw [convLoop, dif_pos rfl]
  | cons cap caps ih =>
    simp only [drain, Prod.mk.injEq] at h
    obtain ⟨rfl, hr⟩ := h
    obtain ⟨k, h1, h2⟩ := loop_continue hu b cap big hbig
    rw [h1]
    congr 1
    exact ih _ k h2 _ (by rw [← hr])

/-- "é€𐍈" in UTF-16LE through buffers of 4 and 5 bytes. -/
example : (∀ c ∈ [0xE9, 0x20AC, 0x10348], Scalar c) ∧
    drain little2Convert [4, 5, 5] [0xE9, 0, 0xAC, 0x20, 0, 0xD8, 0x48, 0xDF] =
      (utf8s [0xE9, 0x20AC, 0x10348], []) ∧
    text utf16le [0xE9, 0x20AC, 0x10348] = [0xE9, 0, 0xAC, 0x20, 0, 0xD8, 0x48, 0xDF] := by
  decide +kernel

/-- A lone high surrogate followed by 'A' (ill-formed): still the same through any buffers. -/
example : (big2Convert [0xD8, 0, 0, 0x41] 100).res = .completed := by decide +kernel

end Verif.C12
