import Verif.Coding
import Verif.Props.C35
import Verif.Props.C55

/-! The same text in two encodings: characters, names, references. -/

set_option autoImplicit false

namespace Verif
open C43 C53 Spec

/-- Two encodings of the code points `ok` which take the same of them for name characters and treat line ends and the colon
alike. -/
structure Pair (x : XEnc) (asc : UInt8 → Buf) (enc : Nat → Buf) (y : XEnc) (asc' : UInt8 → Buf) (enc' : Nat → Buf) (ok : Nat → Prop) : Prop where
  src : Coding x asc enc ok
  dst : Coding y asc' enc' ok
  start {c : Nat} : ok c → (x.e.NmstrtChar (enc c) ↔ y.e.NmstrtChar (enc' c))
  name {c : Nat} : ok c → (x.e.NameChar (enc c) ↔ y.e.NameChar (enc' c))
  ends : x.e.lineEnds asc = y.e.lineEnds asc'
  colon : x.e.bt (asc 0x3A) = .COLON ↔ y.e.bt (asc' 0x3A) = .COLON

theorem Pair.symm {x : XEnc} {asc : UInt8 → Buf} {enc : Nat → Buf} {y : XEnc} {asc' : UInt8 → Buf} {enc' : Nat → Buf} {ok : Nat → Prop}
    (P : Pair x asc enc y asc' enc' ok) : Pair y asc' enc' x asc enc ok :=
  ⟨P.dst, P.src, fun h => (P.start h).symm, fun h => (P.name h).symm, P.ends.symm, P.colon.symm⟩

/-- The same code points in both encodings. -/
def Same (enc enc' : Nat → Buf) (ok : Nat → Prop) (a b : Buf) : Prop :=
  ∃ cs, (∀ c ∈ cs, ok c) ∧ a = C12.text enc cs ∧ b = C12.text enc' cs

theorem text_cons (enc : Nat → Buf) (c : Nat) (cs : List Nat) : C12.text enc (c :: cs) = enc c ++ C12.text enc cs := rfl
theorem text_app (enc : Nat → Buf) (cs ds : List Nat) : C12.text enc (cs ++ ds) = C12.text enc cs ++ C12.text enc ds := by
  simp [C12.text]

section
variable {x : XEnc} {asc : UInt8 → Buf} {enc : Nat → Buf} {ok : Nat → Prop}

theorem Coding.piece (K : Coding x asc enc ok) {c : Nat} (h : ok c) : x.e.Piece (enc c) := char_piece K.sup.s (K.char h)

theorem Coding.asc_piece (K : Coding x asc enc ok) {d : UInt8} (hd : d < 0x80) (hx : XmlChar d.toNat) : x.e.Piece (asc d) := by
  rw [← K.ascii d hd]; exact K.piece (K.asciiOk hx hd)

theorem Coding.text_inj (K : Coding x asc enc ok) {cs ds : List Nat} (h : ∀ c ∈ cs, ok c) (h' : ∀ c ∈ ds, ok c)
    (e : C12.text enc cs = C12.text enc ds) : cs = ds := by
  have := congrArg (converted x) e
  rw [K.conv h, K.conv h'] at this
  exact C35.utf8s_inj (fun c hc => K.xml (h c hc)) (fun c hc => K.xml (h' c hc)) this

theorem Coding.cons_inv (K : Coding x asc enc ok) {w r : Buf} (hw : x.e.Piece w) {cs : List Nat} (h : ∀ c ∈ cs, ok c)
    (e : w ++ r = C12.text enc cs) : ∃ c ds, cs = c :: ds ∧ w = enc c ∧ r = C12.text enc ds := by
  cases cs with
  | nil =>
    have hl := hw.1
    have := congrArg List.length e
    have h0 : 0 < x.e.mb := Nat.succ_pos _
    simp only [C12.text, List.map_nil, List.flatten_nil, List.length_nil, List.length_append] at this
    omega
  | cons c ds =>
    obtain ⟨h1, h2⟩ := piece_unique K.sup.s hw (K.piece (h c (by simp))) e
    exact ⟨c, ds, rfl, h1, h2⟩

/-- ASCII characters that XML allows. -/
def Plain7 (ds : List UInt8) : Prop := ∀ d ∈ ds, d < 0x80 ∧ XmlChar d.toNat

instance (ds : List UInt8) : Decidable (Plain7 ds) := by unfold Plain7 XmlChar; infer_instance

theorem allWS_plain {ds : List UInt8} (h : AllWS ds) : Plain7 ds := by
  intro d hd
  have := (C33.isWS_iff d).1 (h d hd)
  rcases this with rfl | rfl | rfl | rfl <;> simp only [XmlChar] <;> decide

theorem hex_plain {ds : List UInt8} (h : ∀ d ∈ ds, (isDec d || isHexLetter d) = true) : Plain7 ds := by
  intro d hd
  have h := h d hd
  have h1 : 0x30 ≤ d.toNat ∧ d.toNat ≤ 0x66 := by
    simp only [isDec, isHexLetter, Bool.or_eq_true, Bool.and_eq_true, decide_eq_true_eq, UInt8.le_iff_toNat_le] at h
    simp at h
    omega
  refine ⟨UInt8.lt_iff_toNat_lt.2 (by simp; omega), ?_⟩
  simp only [XmlChar]; omega

theorem dec_plain {ds : List UInt8} (h : ∀ d ∈ ds, isDec d = true) : Plain7 ds :=
  hex_plain fun d hd => by rw [h d hd]; rfl

theorem Coding.spell_text (K : Coding x asc enc ok) {ds : List UInt8} (h : Plain7 ds) :
    spell asc ds = C12.text enc (ds.map UInt8.toNat) ∧ ∀ c ∈ ds.map UInt8.toNat, ok c := by
  refine ⟨(K.spell_eq fun d hd => (h d hd).1).symm, ?_⟩
  intro c hc
  obtain ⟨d, hd, rfl⟩ := List.mem_map.1 hc
  exact K.asciiOk (h d hd).2 (h d hd).1

end

section
variable {x y : XEnc} {asc asc' : UInt8 → Buf} {enc enc' : Nat → Buf} {ok : Nat → Prop} (P : Pair x asc enc y asc' enc' ok)

theorem Same.app {a b a' b' : Buf} (h : Same enc enc' ok a a') (h2 : Same enc enc' ok b b') : Same enc enc' ok (a ++ b) (a' ++ b') := by
  obtain ⟨cs, h1, rfl, rfl⟩ := h
  obtain ⟨ds, h3, rfl, rfl⟩ := h2
  refine ⟨cs ++ ds, ?_, (text_app ..).symm, (text_app ..).symm⟩
  intro c hc
  rcases List.mem_append.1 hc with hc | hc
  · exact h1 c hc
  · exact h3 c hc

theorem Same.nil : Same enc enc' ok [] [] := ⟨[], by simp, rfl, rfl⟩

theorem Same.symm {a b : Buf} (h : Same enc enc' ok a b) : Same enc' enc ok b a := by
  obtain ⟨cs, h1, h2, h3⟩ := h
  exact ⟨cs, h1, h3, h2⟩

include P

theorem Same.nil_inv {b : Buf} (h : Same enc enc' ok [] b) : b = [] := by
  obtain ⟨cs, h1, h2, rfl⟩ := h
  cases cs with
  | nil => rfl
  | cons c cs =>
    have hl := (P.src.piece (h1 c (by simp))).1
    have h0 : 0 < x.e.mb := Nat.succ_pos _
    have := congrArg List.length h2
    rw [text_cons] at this
    simp only [List.length_nil, List.length_append] at this
    omega

theorem Same.char {w r b : Buf} (h : Same enc enc' ok (w ++ r) b) (hw : x.e.Piece w) :
    ∃ c r', ok c ∧ w = enc c ∧ b = enc' c ++ r' ∧ Same enc enc' ok r r' := by
  obtain ⟨cs, h1, h2, rfl⟩ := h
  obtain ⟨c, ds, rfl, rfl, rfl⟩ := P.src.cons_inv hw h1 h2
  exact ⟨c, _, h1 c (by simp), rfl, rfl, ds, fun d hd => h1 d (by simp [hd]), rfl, rfl⟩

theorem Same.lit {d : UInt8} {r b : Buf} (h : Same enc enc' ok (asc d ++ r) b) (hd : d < 0x80) (hx : XmlChar d.toNat) :
    ∃ r', b = asc' d ++ r' ∧ Same enc enc' ok r r' := by
  obtain ⟨c, r', h1, h2, rfl, h4⟩ := h.char P (P.src.asc_piece hd hx)
  have := P.src.eq_asc h1 hd hx h2.symm
  subst this
  exact ⟨r', by rw [P.dst.ascii d hd], h4⟩

theorem Same.spell {ds : List UInt8} (hd : Plain7 ds) : ∀ {r b : Buf}, Same enc enc' ok (spell asc ds ++ r) b →
    ∃ r', b = Verif.spell asc' ds ++ r' ∧ Same enc enc' ok r r' := by
  induction ds with
  | nil => intro r b h; exact ⟨b, rfl, h⟩
  | cons d ds ih =>
    intro r b h
    have hs (a : UInt8 → Buf) : Verif.spell a (d :: ds) = a d ++ Verif.spell a ds := rfl
    rw [hs, List.append_assoc] at h
    obtain ⟨r1, rfl, h1⟩ := h.lit P (hd d (by simp)).1 (hd d (by simp)).2
    obtain ⟨r2, rfl, h2⟩ := ih (fun e he => hd e (by simp [he])) h1
    exact ⟨r2, by rw [hs, List.append_assoc], h2⟩

/-- Whole pieces. -/
theorem Same.pieces {us : List Buf} (hu : ∀ u ∈ us, x.e.Piece u) : ∀ {r b : Buf}, Same enc enc' ok (us.flatten ++ r) b →
    ∃ cs r', (∀ c ∈ cs, ok c) ∧ us = cs.map enc ∧ b = C12.text enc' cs ++ r' ∧ Same enc enc' ok r r' := by
  induction us with
  | nil => intro r b h; exact ⟨[], b, by simp, rfl, rfl, h⟩
  | cons u us ih =>
    intro r b h
    rw [List.flatten_cons, List.append_assoc] at h
    obtain ⟨c, r', h1, rfl, rfl, h4⟩ := h.char P (hu u (by simp))
    obtain ⟨cs, r2, h5, rfl, rfl, h6⟩ := ih (fun v hv => hu v (by simp [hv])) h4
    refine ⟨c :: cs, r2, ?_, rfl, by rw [text_cons, List.append_assoc], h6⟩
    intro d hd
    rcases List.mem_cons.1 hd with rfl | hd
    · exact h1
    · exact h5 d hd

theorem Pair.conv {cs : List Nat} (h : ∀ c ∈ cs, ok c) : converted x (cs.map enc).flatten = converted y (cs.map enc').flatten := by
  have h1 := P.src.conv h
  have h2 := P.dst.conv h
  simp only [C12.text] at h1 h2
  rw [h1, h2]

theorem Pair.conv1 {c : Nat} (h : ok c) : converted x (enc c) = converted y (enc' c) := by
  rw [P.src.conv1 h, P.dst.conv1 h]

theorem Pair.ne {c : Nat} (h : ok c) {d : UInt8} (hd : d < 0x80) (hx : XmlChar d.toNat) (hn : enc c ≠ asc d) : enc' c ≠ asc' d := by
  refine P.dst.ne_asc h hd hx fun e => hn ?_
  rw [e, P.src.ascii d hd]

theorem Pair.eq_iff {c : Nat} (h : ok c) {d : UInt8} (hd : d < 0x80) (hx : XmlChar d.toNat) : enc c = asc d ↔ enc' c = asc' d := by
  constructor
  · intro e
    rw [P.src.eq_asc h hd hx e, P.dst.ascii d hd]
  · intro e
    rw [P.dst.eq_asc h hd hx e, P.src.ascii d hd]

theorem Pair.spell_iff {cs : List Nat} (h : ∀ c ∈ cs, ok c) {ds : List UInt8} (hd : Plain7 ds) :
    (cs.map enc).flatten = spell asc ds ↔ (cs.map enc').flatten = spell asc' ds := by
  obtain ⟨h1, h2⟩ := P.src.spell_text hd
  obtain ⟨h3, -⟩ := P.dst.spell_text hd
  rw [h1, h3]
  constructor
  · intro e
    rw [P.src.text_inj h h2 e]; rfl
  · intro e
    rw [P.dst.text_inj h h2 e]; rfl

theorem Pair.starts {a b : Buf} (h : Same enc enc' ok a b) {ds : List UInt8} (hd : Plain7 ds) :
    (∃ r, a = spell asc ds ++ r) ↔ ∃ r, b = spell asc' ds ++ r := by
  constructor
  · rintro ⟨r, rfl⟩
    obtain ⟨r', h1, -⟩ := Same.spell P hd h
    exact ⟨r', h1⟩
  · rintro ⟨r, rfl⟩
    obtain ⟨r', h1, -⟩ := Same.spell P.symm hd h.symm
    exact ⟨r', h1⟩

theorem Pair.startsClose {a b : Buf} (h : Same enc enc' ok a b) : StartsClose asc a ↔ StartsClose asc' b := by
  have := P.starts h (ds := [0x5D, 0x5D, 0x3E]) (by decide)
  simpa [StartsClose, spell] using this

theorem Pair.noLf {a b : Buf} (h : Same enc enc' ok a b) (hn : ∀ r, a ≠ asc 0x0A ++ r) : ∀ r, b ≠ asc' 0x0A ++ r := by
  intro r e
  obtain ⟨r', e'⟩ := (P.starts h (ds := [0x0A]) (by decide)).2 ⟨r, by simpa [spell] using e⟩
  exact hn r' (by simpa [spell] using e')

/-! ### Names -/

theorem Pair.name_map {cs : List Nat} (h : ∀ c ∈ cs, ok c) (hn : x.e.Name (cs.map enc)) : y.e.Name (cs.map enc') := by
  obtain ⟨w, vs, h1, h2, h3⟩ := hn
  cases cs with
  | nil => cases h1
  | cons c cs =>
    rw [List.map_cons, List.cons.injEq] at h1
    obtain ⟨rfl, rfl⟩ := h1
    refine ⟨enc' c, cs.map enc', rfl, (P.start (h c (by simp))).1 h2, ?_⟩
    intro v hv
    obtain ⟨d, hd, rfl⟩ := List.mem_map.1 hv
    exact (P.name (h d (by simp [hd]))).1 (h3 _ (List.mem_map.2 ⟨d, hd, rfl⟩))

omit P in
theorem name_pieces {e : Enc} {a : UInt8 → Buf} (s : Supported e a) {ws : List Buf} (hn : e.Name ws) : ∀ w ∈ ws, e.Piece w := by
  obtain ⟨w, vs, rfl, h1, h2⟩ := hn
  intro v hv
  rcases List.mem_cons.1 hv with rfl | hv
  · exact nmstrt_name s h1
  · exact name_piece s (h2 v hv)

theorem Same.name {ws : List Buf} {r b : Buf} (h : Same enc enc' ok (ws.flatten ++ r) b) (hn : x.e.Name ws) :
    ∃ (cs : List Nat) (r' : Buf), (∀ c ∈ cs, ok c) ∧ ws = cs.map enc ∧ y.e.Name (cs.map enc') ∧ b = (cs.map enc').flatten ++ r' ∧ Same enc enc' ok r r' := by
  obtain ⟨cs, r', h1, rfl, rfl, h4⟩ := h.pieces P (name_pieces P.src.sup.s hn)
  exact ⟨cs, r', h1, rfl, P.name_map h1 hn, rfl, h4⟩

theorem Same.qname {ws : List Buf} {r b : Buf} (h : Same enc enc' ok (ws.flatten ++ r) b) (hn : QName x.e asc ws) :
    ∃ (cs : List Nat) (r' : Buf), (∀ c ∈ cs, ok c) ∧ ws = cs.map enc ∧ QName y.e asc' (cs.map enc') ∧ b = (cs.map enc').flatten ++ r' ∧ Same enc enc' ok r r' := by
  cases hn with
  | plain _ hn =>
    obtain ⟨cs, r', h1, h2, h3, h4⟩ := h.name P hn
    exact ⟨cs, r', h1, h2, .plain _ h3, h4⟩
  | pair us vs h1 h2 h3 =>
    rw [List.flatten_append, List.flatten_cons, List.append_assoc, List.append_assoc] at h
    obtain ⟨cs, r1, i1, rfl, i3, rfl, i5⟩ := h.name P h1
    obtain ⟨r2, rfl, j2⟩ := i5.lit P (by decide) (by decide)
    obtain ⟨ds, r3, k1, rfl, k3, rfl, k5⟩ := j2.name P h2
    refine ⟨cs ++ 0x3A :: ds, r3, ?_, ?_, ?_, ?_, k5⟩
    · intro c hc
      rcases List.mem_append.1 hc with hc | hc
      · exact i1 c hc
      · rcases List.mem_cons.1 hc with rfl | hc
        · exact P.src.asciiOk (c := 0x3A) (by decide) (by decide)
        · exact k1 c hc
    · rw [List.map_append, List.map_cons, ← P.src.ascii 0x3A (by decide)]; rfl
    · rw [List.map_append, List.map_cons, show enc' 0x3A = asc' 0x3A from P.dst.ascii 0x3A (by decide)]
      exact .pair _ _ i3 k3 (P.colon.1 h3)
    · rw [List.map_append, List.map_cons, show enc' 0x3A = asc' 0x3A from P.dst.ascii 0x3A (by decide)]
      simp

omit P in
theorem predefined_plain {n : List UInt8} {ch : UInt8} (h : (n, ch) ∈ C10.predefined) : Plain7 n := by
  simp only [C10.predefined, List.mem_cons, Prod.mk.injEq, List.not_mem_nil, or_false] at h
  rcases h with ⟨rfl, rfl⟩ | ⟨rfl, rfl⟩ | ⟨rfl, rfl⟩ | ⟨rfl, rfl⟩ | ⟨rfl, rfl⟩ <;> decide

theorem Pair.predefined {cs : List Nat} (h : ∀ c ∈ cs, ok c) (hn : ¬ Predefined asc (cs.map enc).flatten) : ¬ Predefined asc' (cs.map enc').flatten := by
  rintro ⟨n, ch, h1, h2⟩
  exact hn ⟨n, ch, h1, (P.spell_iff h (predefined_plain h1)).2 h2⟩

/-! ### References -/

theorem Pair.lit (d : UInt8) (hd : d < 0x80) (hx : XmlChar d.toNat) : Same enc enc' ok (asc d) (asc' d) :=
  ⟨[d.toNat], by simpa using P.src.asciiOk hx hd, by simp [C12.text, P.src.ascii d hd], by simp [C12.text, P.dst.ascii d hd]⟩

theorem Pair.spell {ds : List UInt8} (hd : Plain7 ds) : Same enc enc' ok (spell asc ds) (Verif.spell asc' ds) := by
  obtain ⟨h1, h2⟩ := P.src.spell_text hd
  obtain ⟨h3, -⟩ := P.dst.spell_text hd
  exact ⟨_, h2, h1, h3⟩

omit P in
theorem same_map {cs : List Nat} (h : ∀ c ∈ cs, ok c) : Same enc enc' ok (cs.map enc).flatten (cs.map enc').flatten := ⟨cs, h, rfl, rfl⟩

theorem Same.charRef {w r b : Buf} {n : Nat} (h : Same enc enc' ok (w ++ r) b) (hw : CharRefText asc w n) :
    ∃ w' r', CharRefText asc' w' n ∧ b = w' ++ r' ∧ Same enc enc' ok w w' ∧ Same enc enc' ok r r' := by
  cases hw with
  | dec ds h0 hd =>
    simp only [List.append_assoc] at h
    obtain ⟨r1, rfl, g1⟩ := h.lit P (by decide) (by decide)
    obtain ⟨r2, rfl, g2⟩ := g1.lit P (by decide) (by decide)
    obtain ⟨r3, rfl, g3⟩ := Same.spell P (dec_plain hd) g2
    obtain ⟨r4, rfl, g4⟩ := g3.lit P (by decide) (by decide)
    exact ⟨_, r4, .dec ds h0 hd, by simp only [List.append_assoc],
      (P.lit _ (by decide) (by decide)).app ((P.lit _ (by decide) (by decide)).app ((P.spell (dec_plain hd)).app (P.lit _ (by decide) (by decide)))), g4⟩
  | hex ds h0 hd =>
    simp only [List.append_assoc] at h
    obtain ⟨r1, rfl, g5⟩ := h.lit P (by decide) (by decide)
    obtain ⟨r2, rfl, g6⟩ := g5.lit P (by decide) (by decide)
    obtain ⟨r2, rfl, g7⟩ := g6.lit P (by decide) (by decide)
    obtain ⟨r3, rfl, g8⟩ := Same.spell P (hex_plain hd) g7
    obtain ⟨r4, rfl, g9⟩ := g8.lit P (by decide) (by decide)
    exact ⟨_, r4, .hex ds h0 hd, by simp only [List.append_assoc],
      (P.lit _ (by decide) (by decide)).app ((P.lit _ (by decide) (by decide)).app ((P.lit _ (by decide) (by decide)).app
        ((P.spell (hex_plain hd)).app (P.lit _ (by decide) (by decide))))), g9⟩

theorem Same.ref {t : Tok} {w r b : Buf} (h : Same enc enc' ok (w ++ r) b) (hw : Ref x.e asc t w) :
    ∃ w' r', Ref y.e asc' t w' ∧ b = w' ++ r' ∧ Same enc enc' ok w w' ∧ Same enc enc' ok r r' := by
  cases hw with
  | entity ws hn =>
    rw [List.append_assoc] at h
    obtain ⟨cs, r1, h1, rfl, h3, rfl, g10⟩ := h.name P hn
    obtain ⟨r2, rfl, g11⟩ := g10.lit P (by decide) (by decide)
    exact ⟨_, r2, .entity _ h3, by simp only [List.append_assoc], (same_map h1).app (P.lit _ (by decide) (by decide)), g11⟩
  | dec ds h0 hd =>
    simp only [List.append_assoc] at h
    obtain ⟨r2, rfl, g12⟩ := h.lit P (by decide) (by decide)
    obtain ⟨r3, rfl, g13⟩ := Same.spell P (dec_plain hd) g12
    obtain ⟨r4, rfl, g14⟩ := g13.lit P (by decide) (by decide)
    exact ⟨_, r4, .dec ds h0 hd, by simp only [List.append_assoc]; rfl,
      (P.lit _ (by decide) (by decide)).app ((P.spell (dec_plain hd)).app (P.lit _ (by decide) (by decide))), g14⟩
  | hex ds h0 hd =>
    simp only [List.append_assoc] at h
    obtain ⟨r2, rfl, g15⟩ := h.lit P (by decide) (by decide)
    obtain ⟨r2, rfl, g16⟩ := g15.lit P (by decide) (by decide)
    obtain ⟨r3, rfl, g17⟩ := Same.spell P (hex_plain hd) g16
    obtain ⟨r4, rfl, g18⟩ := g17.lit P (by decide) (by decide)
    exact ⟨_, r4, .hex ds h0 hd, by simp only [List.append_assoc]; rfl,
      (P.lit _ (by decide) (by decide)).app ((P.lit _ (by decide) (by decide)).app ((P.spell (hex_plain hd)).app (P.lit _ (by decide) (by decide)))), g18⟩

/-! ### Attribute values -/

theorem Same.value {q : UInt8} (hq : q = 0x22 ∨ q = 0x27) {v : Buf} (hv : Value x.e asc q v) : ∀ {r b : Buf}, Same enc enc' ok (v ++ r) b →
    ∃ v' r', Value y.e asc' q v' ∧ b = v' ++ r' ∧ Same enc enc' ok v v' ∧ Same enc enc' ok r r' := by
  have hq' : q < 0x80 ∧ XmlChar q.toNat := by rcases hq with rfl | rfl <;> decide
  induction hv with
  | nil => intro r b h; exact ⟨[], b, .nil, rfl, .nil, h⟩
  | char w v h1 h2 h3 h4 _ ih =>
    intro r b h
    rw [List.append_assoc] at h
    obtain ⟨c, r1, i1, rfl, rfl, i4⟩ := h.char P (char_piece P.src.sup.s h1)
    obtain ⟨v', r2, j1, rfl, j3, j4⟩ := ih i4
    refine ⟨enc' c ++ v', r2, .char _ _ (P.dst.char i1) ?_ ?_ ?_ j1, by rw [List.append_assoc], ?_, j4⟩
    · exact P.ne i1 (by decide) (by decide) h2
    · exact P.ne i1 (by decide) (by decide) h3
    · exact P.ne i1 hq'.1 hq'.2 h4
    · exact Same.app ⟨[c], by simpa using i1, by simp [C12.text], by simp [C12.text]⟩ j3
  | ref t w v h1 _ ih =>
    intro r b h
    simp only [List.append_assoc] at h
    obtain ⟨r1, rfl, g19⟩ := h.lit P (by decide) (by decide)
    obtain ⟨w', r2, i1, rfl, i3, g20⟩ := g19.ref P h1
    obtain ⟨v', r3, j1, rfl, j3, j4⟩ := ih g20
    exact ⟨_, r3, .ref t w' v' i1 j1, by simp only [List.append_assoc], (P.lit _ (by decide) (by decide)).app (i3.app j3), j4⟩

variable {D : Dtd} {check isCdata : Bool} {ex : Buf → Buf → Buf → Except XErr Buf} {op : List Buf}

omit P in
theorem predef_eq (S : XSupported x asc) (S' : XSupported y asc') (P : Pair x asc enc y asc' enc' ok) {cs : List Nat} (h : ∀ c ∈ cs, ok c)
    (hn : x.e.Name (cs.map enc)) (hn' : y.e.Name (cs.map enc')) :
    predefinedEntityName x.e (cs.map enc).flatten = predefinedEntityName y.e (cs.map enc').flatten := by
  have key {x y : XEnc} {asc asc' : UInt8 → Buf} {enc enc' : Nat → Buf} (P : Pair x asc enc y asc' enc' ok) (hn : x.e.Name (cs.map enc)) (hn' : y.e.Name (cs.map enc'))
      (h0 : predefinedEntityName x.e (cs.map enc).flatten ≠ 0) :
      predefinedEntityName x.e (cs.map enc).flatten = predefinedEntityName y.e (cs.map enc').flatten := by
    obtain ⟨m, h1, h2⟩ := (C10.predefined_iff P.src.sup.s _ (name_dvd P.src.sup.s hn) _ h0).1 rfl
    exact ((C10.predefined_iff P.dst.sup.s _ (name_dvd P.dst.sup.s hn') _ h0).2 ⟨m, h1, (P.spell_iff h (predefined_plain h1)).1 h2⟩).symm
  by_cases h0 : predefinedEntityName x.e (cs.map enc).flatten = 0
  · by_cases h1 : predefinedEntityName y.e (cs.map enc').flatten = 0
    · rw [h0, h1]
    · exact (key P.symm hn' hn h1).symm
  · exact key P hn hn' h0

theorem refValue_same {cs : List Nat} (h : ∀ c ∈ cs, ok c) (hn : x.e.Name (cs.map enc)) (pool : Buf) :
    refValue D check x ex op pool (cs.map enc).flatten = refValue D check y ex op pool (cs.map enc').flatten := by
  rw [refValue, refValue, predef_eq P.src.sup P.dst.sup P h hn (P.name_map h hn), P.conv h]

/-- The value of a literal does not depend on its encoding. -/
theorem attr_same {q : UInt8} (hq : q = 0x22 ∨ q = 0x27) (n : Nat) : ∀ {b b' : Buf}, b.length < n → Value x.e asc q b → Same enc enc' ok b b' →
    ∀ pool : Buf, attrLoop D check x isCdata ex op pool b = attrLoop D check y isCdata ex op pool b' := by
  have S := P.src.sup
  have S' := P.dst.sup
  have hmb : 0 < x.e.mb := Nat.succ_pos _
  have l (c) := S.s.asc.len c
  induction n with
  | zero => intro b b' h; omega
  | succ n ih =>
    intro b b' hl hv h pool
    cases hv with
    | nil =>
      have := h.nil_inv P
      subst this
      rw [loop_nil, loop_nil]
    | char w v h1 h2 h3 h4 h5 =>
      obtain ⟨c, r1, i1, rfl, rfl, i4⟩ := h.char P (char_piece S.s h1)
      obtain ⟨v', r', j1, e1, j3, j4⟩ := Same.value P hq h5 (r := []) (b := r1) (by simpa using i4)
      have e2 := j4.nil_inv P
      subst e2
      rw [List.append_nil] at e1
      subst e1
      have hwl := x.e.isChar_len S.s.mb h1
      rw [List.length_append] at hl
      by_cases hs : ∃ d, isWS d = true ∧ enc c = asc d
      · obtain ⟨d, hd, hc⟩ := hs
        have hp := allWS_plain (ds := [d]) (by intro e he; simp at he; subst he; exact hd) d (by simp)
        have hc' := (P.eq_iff i1 hp.1 hp.2).1 hc
        rw [hc, hc']
        by_cases hcr : x.e.lineEnds asc = true ∧ d = 0x0D ∧ ∃ r, v = asc 0x0A ++ r
        · obtain ⟨k1, rfl, r, rfl⟩ := hcr
          obtain ⟨r2, rfl, k2⟩ := i4.lit P (by decide) (by decide)
          rw [loop_crlf S k1, loop_crlf S' (by rw [← P.ends]; exact k1)]
          have hv2 : Value x.e asc q r := by
            generalize hz : asc 0x0A ++ r = z at h5
            have hlf := char_piece S.s (C33.ws_char S.s (c := 0x0A) rfl)
            cases h5 with
            | nil =>
              have := congrArg List.length hz
              rw [List.length_append, l, List.length_nil] at this
              omega
            | char w' v' m1 m2 m3 m4 m5 =>
              rw [(piece_unique S.s hlf (char_piece S.s m1) hz).2]; exact m5
            | ref t w' v' m1 m2 =>
              have := (piece_unique S.s hlf (char_piece S.s (asc_char S.s (t := .AMP) rfl)) hz).1
              exact absurd (S.s.asc_inj this) (by decide)
          rw [List.length_append, l] at hl
          exact ih (by omega) hv2 k2 _
        · rw [loop_ws S hd (fun k1 k2 r k3 => hcr ⟨k1, k2, r, k3⟩), loop_ws S' hd ?_]
          · exact ih (by omega) h5 i4 _
          · intro k1 k2 r k3
            obtain ⟨r', e'⟩ := (P.starts i4 (ds := [0x0A]) (by decide)).2 ⟨r, by simpa [Verif.spell] using k3⟩
            exact hcr ⟨by rw [P.ends]; exact k1, k2, r', by simpa [Verif.spell] using e'⟩
      · rw [loop_data S ⟨h1, h2, h3, fun d hd he => hs ⟨d, hd, he⟩⟩ h5.lit, loop_data S' ⟨P.dst.char i1, P.ne i1 (by decide) (by decide) h2,
          P.ne i1 (by decide) (by decide) h3, fun d hd he => hs ⟨d, hd, ?_⟩⟩ j1.lit, P.conv1 i1]
        · exact ih (by omega) h5 i4 _
        · have hp := allWS_plain (ds := [d]) (by intro e he; simp at he; subst he; exact hd) d (by simp)
          exact (P.eq_iff i1 hp.1 hp.2).2 he
    | ref t w v h1 h2 =>
      obtain ⟨r1, rfl, g21⟩ := h.lit P (by decide) (by decide)
      simp only [List.length_append, l] at hl
      cases h1 with
      | entity ws hn =>
        rw [List.append_assoc] at g21 ⊢
        obtain ⟨cs, r1, i1, rfl, i3, rfl, g22⟩ := g21.name P hn
        obtain ⟨r2, rfl, g23⟩ := g22.lit P (by decide) (by decide)
        rw [loop_entity S hn, loop_entity S' i3, refValue_same P i1 hn]
        split
        · rfl
        · exact ih (by omega) h2 g23 _
      | dec ds h0 hd =>
        simp only [List.append_assoc] at g21 ⊢
        obtain ⟨r2, rfl, g24⟩ := g21.lit P (by decide) (by decide)
        obtain ⟨r3, rfl, g25⟩ := Same.spell P (dec_plain hd) g24
        obtain ⟨r4, rfl, g26⟩ := g25.lit P (by decide) (by decide)
        rw [← Verif.spell, C33.loop_dec S h0 hd, C33.loop_dec S' h0 hd]
        split
        · exact ih (by omega) h2 g26 _
        · rfl
      | hex ds h0 hd =>
        simp only [List.append_assoc] at g21 ⊢
        obtain ⟨r2, rfl, g27⟩ := g21.lit P (by decide) (by decide)
        obtain ⟨r2, rfl, g28⟩ := g27.lit P (by decide) (by decide)
        obtain ⟨r3, rfl, g29⟩ := Same.spell P (hex_plain hd) g28
        obtain ⟨r4, rfl, g30⟩ := g29.lit P (by decide) (by decide)
        rw [← Verif.spell, C33.loop_hex S h0 hd, C33.loop_hex S' h0 hd]
        split
        · exact ih (by omega) h2 g30 _
        · rfl

theorem stored_same {int : XEnc} {q : UInt8} (hq : q = 0x22 ∨ q = 0x27) {b b' : Buf} (hv : Value x.e asc q b) (h : Same enc enc' ok b b') :
    storeAttributeValue D check int x isCdata op b = storeAttributeValue D check int y isCdata op b' := by
  have := attr_same P (D := D) (check := check) (isCdata := isCdata) (ex := fun n p t => C34.attr D check int isCdata int (n :: op) p t) (op := op)
    hq _ (Nat.lt_succ_self _) hv h []
  rw [← C34.attr_recursion, ← C34.attr_recursion, C34.attr, C34.attr] at this
  rw [storeAttributeValue, storeAttributeValue, this]

end

end Verif
