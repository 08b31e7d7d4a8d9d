import Verif.Props.C53
import Verif.Props.C47

/-! C52: names are sequences of well-formed characters — false of the code for ill-formed input,
proved for well-formed UTF-8. -/

namespace Verif.C52
open Verif Spec

/-- **The claim as stated is false**: the name checks never look at the form of the trail bytes, so
the two bytes C3 28 (ill-formed UTF-8: 28 is `(`) pass as a name character and `<` C3 28 `>` is
accepted as a start tag. -/
theorem illformed_name_accepted (ns : Bool) :
    contentTok (utf8Enc ns) [0x3C, 0xC3, 0x28, 0x3E] = ⟨.START_TAG_NO_ATTS, 4⟩ ∧
      ¬ ∃ c, XmlChar c ∧ [(0xC3 : UInt8), 0x28] = utf8 c := by
  constructor
  · cases ns <;> decide +kernel
  · rw [← utf8Enc_isChar ns]
    intro h
    have hb : (utf8Enc ns).bt [0xC3, 0x28] = .LEAD2 := by cases ns <;> decide +kernel
    have hi : (utf8Enc ns).isInvalid 2 [0xC3, 0x28] = true := by cases ns <;> decide +kernel
    simp [Enc.IsChar, hb, hi] at h

/-- The first byte of a name character determines its length. -/
theorem name_size {ns} {w : Buf} (h : (utf8Enc ns).NameChar w) :
    w ≠ [] ∧ w.length = utf8Size (byteAt w 0).toNat := by
  refine ⟨?_, ?_⟩
  · rintro rfl
    have := h.len (by cases ns <;> decide)
    have h3 : (utf8Enc ns).mb = 1 := by cases ns <;> rfl
    simp [h3] at this
  have h1 := utf8_size (t := if ns then Tables.utf8EncodingTableNS else Tables.utf8EncodingTable)
    (by cases ns <;> decide +kernel) (byteAt w 0)
  rw [← h1]
  have h2 : (utf8Enc ns).bt w = tableBt (if ns then Tables.utf8EncodingTableNS else Tables.utf8EncodingTable) (byteAt w 0) := by
    cases ns <;> rfl
  have h3 : (utf8Enc ns).mb = 1 := by cases ns <;> rfl
  have h4 : (utf8Enc ns).isNameMin w = false := by cases ns <;> rfl
  simp only [Enc.NameChar, h2, h3, h4] at h
  generalize tableBt _ (byteAt w 0) = t at *
  cases t <;> simp_all [ByteType.size]

theorem char_size {c : Nat} (h : XmlChar c) : utf8 c ≠ [] ∧
    (utf8 c).length = utf8Size (byteAt (utf8 c) 0).toNat := by
  have h0 := (utf8Enc_isChar false (utf8 c)).2 ⟨c, h, rfl⟩
  have h1 := (isChar_size Tables.utf8EncodingTable (utf8 c)).1 h0
  exact ⟨h1.2.1, by rw [← h1.1, utf8_size (by decide +kernel)]⟩

/-- Inside well-formed UTF-8 text, what passes as a run of name characters is a run of whole
characters, each a NameChar of XML 1.0. -/
theorem names_partial (ns : Bool) (ws : List Buf) (h : ∀ w ∈ ws, (utf8Enc ns).NameChar w)
    (cs : List Nat) (hx : ∀ c ∈ cs, XmlChar c) (r : Buf) (hb : utf8s cs = ws.flatten ++ r) :
    ∃ cs1 cs2, cs = cs1 ++ cs2 ∧ ws = cs1.map utf8 ∧ r = utf8s cs2 ∧
      ∀ c ∈ cs1, InRanges nameChar c := by
  induction ws generalizing cs with
  | nil => exact ⟨[], cs, by simp, by simp, by simpa using hb.symm, by simp⟩
  | cons w ws ih =>
    obtain ⟨i1, i2⟩ := name_size (h w List.mem_cons_self)
    cases cs with
    | nil =>
      rw [List.flatten_cons] at hb
      have := congrArg List.length hb
      simp only [utf8s, List.map_nil, List.flatten_nil, List.length_append, List.length_nil] at this
      exact absurd (List.length_eq_zero_iff.1 (by omega)) i1
    | cons c cs =>
      obtain ⟨j1, j2⟩ := char_size (hx c List.mem_cons_self)
      have hb' : utf8 c ++ utf8s cs = w ++ (ws.flatten ++ r) := by
        rw [← List.append_assoc, ← List.flatten_cons, ← hb]; simp [utf8s]
      have hhead : byteAt w 0 = byteAt (utf8 c) 0 := by
        obtain ⟨a, u, hu⟩ := List.exists_cons_of_ne_nil i1
        obtain ⟨a', u', hu'⟩ := List.exists_cons_of_ne_nil j1
        rw [hu, hu'] at hb' ⊢
        have := (List.cons.inj hb').1
        rw [this]; rfl
      have hlen : (utf8 c).length = w.length := by rw [i2, j2, hhead]
      obtain ⟨k1, k2⟩ := List.append_inj hb' hlen
      obtain ⟨cs1, cs2, g1, g2, g3, g4⟩ := ih (fun v hv => h v (List.mem_cons_of_mem _ hv)) cs
        (fun d hd => hx d (List.mem_cons_of_mem _ hd)) k2
      refine ⟨c :: cs1, cs2, by rw [g1]; rfl, by rw [g2, ← k1]; rfl, g3, ?_⟩
      intro d hd
      rcases List.mem_cons.1 hd with rfl | hd
      · have hw := h w List.mem_cons_self
        rw [← k1] at hw
        refine ((C47.utf8_names ns d ?_).2.1 hw).1
        have := hx d List.mem_cons_self
        simp only [XmlChar] at this; omega
      · exact g4 d hd

end Verif.C52
