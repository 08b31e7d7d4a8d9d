import Verif.Canon
import Verif.Props.C48
import Verif.Props.C62

/-! The output of xmlwf as content: what is written for the calls of well-formed content is well-formed content, with the same calls. -/

set_option autoImplicit false

namespace Verif.C76
open C43 C53 C59 C48 C61 Spec Verif

/-! ### Sorting -/

theorem strLe_total (a b : Buf) : (strLe a b || strLe b a) = true := by
  induction a generalizing b with
  | nil => simp [strLe]
  | cons x a ih =>
    cases b with
    | nil => simp [strLe]
    | cons y b =>
      simp only [strLe]
      by_cases h : x = y
      · subst h; simpa using ih b
      · rw [if_neg h, if_neg (Ne.symm h)]
        simp only [Bool.or_eq_true, decide_eq_true_eq]
        rcases UInt8.lt_or_lt_of_ne h with h | h
        · exact .inl h
        · exact .inr h

theorem strLe_trans (a b c : Buf) (h1 : strLe a b = true) (h2 : strLe b c = true) : strLe a c = true := by
  induction a generalizing b c with
  | nil => simp [strLe]
  | cons x a ih =>
    cases b with
    | nil => simp [strLe] at h1
    | cons y b =>
      cases c with
      | nil => simp [strLe] at h2
      | cons z c =>
        simp only [strLe] at h1 h2 ⊢
        by_cases e1 : x = y
        · subst e1
          rw [if_pos rfl] at h1
          by_cases e2 : x = z
          · subst e2
            rw [if_pos rfl] at h2 ⊢
            exact ih b c h1 h2
          · rwa [if_neg e2] at h2 ⊢
        · rw [if_neg e1] at h1
          by_cases e2 : y = z
          · subst e2
            rwa [if_neg e1]
          · rw [if_neg e2] at h2
            have h1 : x < y := by simpa using h1
            have h2 : y < z := by simpa using h2
            have h3 : x < z := UInt8.lt_trans h1 h2
            rw [if_neg (by rintro rfl; exact UInt8.lt_irrefl _ h3)]
            simpa using h3

theorem insert_perm (p : Buf × Buf) (l : List (Buf × Buf)) : (insertAtt p l).Perm (p :: l) := by
  induction l with
  | nil => exact .refl _
  | cons q l ih =>
    rw [insertAtt]
    split
    · exact .refl _
    · exact (List.Perm.cons q ih).trans (.swap ..)

theorem sort_perm (as : List (Buf × Buf)) : (sortAtts as).Perm as := by
  induction as with
  | nil => exact .refl _
  | cons p as ih => exact (insert_perm p _).trans (.cons p ih)

/-- The names are in order. -/
def Sorted (as : List (Buf × Buf)) : Prop := as.Pairwise fun p q => strLe p.1 q.1 = true

theorem insert_sorted (p : Buf × Buf) {l : List (Buf × Buf)} (h : Sorted l) : Sorted (insertAtt p l) := by
  induction l with
  | nil => exact List.pairwise_singleton ..
  | cons q l ih =>
    obtain ⟨h1, h2⟩ := List.pairwise_cons.1 h
    rw [insertAtt]
    split
    · rename_i hp
      refine List.pairwise_cons.2 ⟨?_, h⟩
      intro r hr
      rcases List.mem_cons.1 hr with rfl | hr
      · exact hp
      · exact strLe_trans _ _ _ hp (h1 r hr)
    · rename_i hp
      refine List.pairwise_cons.2 ⟨?_, ih h2⟩
      intro r hr
      rcases List.mem_cons.1 ((insert_perm p l).mem_iff.1 hr) with rfl | hr
      · have := strLe_total q.1 r.1
        cases h : strLe r.1 q.1 with
        | true => exact absurd h hp
        | false => simpa [h] using this
      · exact h1 r hr

theorem sort_sorted (as : List (Buf × Buf)) : Sorted (sortAtts as) := by
  induction as with
  | nil => exact .nil
  | cons p as ih => exact insert_sorted p ih

theorem sorted_sort {as : List (Buf × Buf)} (h : Sorted as) : sortAtts as = as := by
  induction as with
  | nil => rfl
  | cons p as ih =>
    obtain ⟨h1, h2⟩ := List.pairwise_cons.1 h
    rw [sortAtts, List.foldr_cons, ← sortAtts, ih h2]
    cases as with
    | nil => rfl
    | cons q as => rw [insertAtt, if_pos (h1 q (by simp))]

theorem sort_sort (as : List (Buf × Buf)) : sortAtts (sortAtts as) = sortAtts as := sorted_sort (sort_sorted as)

theorem strLe_antisymm : ∀ a b : Buf, strLe a b = true → strLe b a = true → a = b
  | [], [], _, _ => rfl
  | [], _ :: _, _, h => by simp [strLe] at h
  | _ :: _, [], h, _ => by simp [strLe] at h
  | x :: a, y :: b, h1, h2 => by
    simp only [strLe] at h1 h2
    by_cases e : x = y
    · subst e
      rw [if_pos rfl] at h1 h2
      rw [strLe_antisymm a b h1 h2]
    · rw [if_neg e] at h1
      rw [if_neg (fun h => e h.symm)] at h2
      have h1 : x < y := by simpa using h1
      have h2 : y < x := by simpa using h2
      exact absurd (UInt8.lt_trans h1 h2) (UInt8.lt_irrefl _)

theorem nodup_fst {as : List (Buf × Buf)} (hd : (as.map (·.1)).Nodup) {p q : Buf × Buf} (hp : p ∈ as) (hq : q ∈ as) (e : p.1 = q.1) :
    p = q := by
  induction as with
  | nil => cases hp
  | cons r as ih =>
    rw [List.map_cons, List.nodup_cons] at hd
    rcases List.mem_cons.1 hp with h1 | h1 <;> rcases List.mem_cons.1 hq with h2 | h2
    · rw [h1, h2]
    · exact absurd (List.mem_map.2 ⟨q, h2, by rw [← e, h1]⟩) hd.1
    · exact absurd (List.mem_map.2 ⟨p, h1, by rw [e, h2]⟩) hd.1
    · exact ih hd.2 h1 h2

/-- Attributes with different names are written in the same order however they come. -/
theorem sort_unique {as bs : List (Buf × Buf)} (h : as.Perm bs) (hd : (as.map (·.1)).Nodup) : sortAtts as = sortAtts bs := by
  have P : (sortAtts as).Perm (sortAtts bs) := (sort_perm as).trans (h.trans (sort_perm bs).symm)
  have s1 : List.Pairwise (fun p q : Buf × Buf => strLe p.1 q.1 = true) (sortAtts as) := sort_sorted as
  have s2 : List.Pairwise (fun p q : Buf × Buf => strLe p.1 q.1 = true) (sortAtts bs) := sort_sorted bs
  refine List.Perm.eq_of_pairwise ?_ s1 s2 P
  intro p q hp hq h1 h2
  exact nodup_fst hd ((sort_perm as).mem_iff.1 hp) (h.mem_iff.2 ((sort_perm bs).mem_iff.1 hq)) (strLe_antisymm _ _ h1 h2)

theorem sort_length (as : List (Buf × Buf)) : (sortAtts as).length = as.length := (sort_perm as).length_eq

/-! ### Bytes -/

theorem escByte_high {d : UInt8} (h : 0x80 ≤ d) : escByte d = [d] := by
  have h1 : ∀ k : UInt8, k < 0x80 → d ≠ k := by
    rintro k hk rfl
    exact absurd (UInt8.lt_of_le_of_lt h hk) (UInt8.lt_irrefl _)
  simp [escByte, h1 38 (by decide), h1 60 (by decide), h1 62 (by decide), h1 34 (by decide), h1 9 (by decide), h1 10 (by decide), h1 13 (by decide)]

theorem data_app (a b : Buf) : characterData (a ++ b) = characterData a ++ characterData b := by simp [characterData]

/-- One character. -/
theorem data_utf8 {ch : Nat} (h : XmlChar ch) : characterData (utf8 ch) = utf8s (escAtt ch) := by
  by_cases hc : ch < 0x80
  · have : ∀ c < 0x80, XmlChar c → characterData (utf8 c) = utf8s (escAtt c) := by decide +kernel
    exact this ch hc h
  · have e : escAtt ch = [ch] := by
      rw [escAtt, esc]
      repeat rw [if_neg (by omega)]
    rw [e, show utf8s [ch] = utf8 ch by simp [utf8s], characterData]
    have : ∀ d ∈ utf8 ch, escByte d = [d] := by
      intro d hd
      refine escByte_high ?_
      refine UInt8.not_lt.1 fun hlt => ?_
      have := utf8_byte h hlt hd
      have hlt : d.toNat < 0x80 := hlt
      omega
    revert this
    generalize utf8 ch = l
    intro this
    induction l with
    | nil => rfl
    | cons d l ih =>
      simp only [List.mem_cons, forall_eq_or_imp] at this
      rw [List.flatMap_cons, this.1, ih this.2]; rfl

theorem data_utf8s {cs : List Nat} (h : ∀ c ∈ cs, XmlChar c) : characterData (utf8s cs) = utf8s (cs.flatMap escAtt) := by
  induction cs with
  | nil => rfl
  | cons c cs ih =>
    simp only [List.mem_cons, forall_eq_or_imp] at h
    rw [List.flatMap_cons, utf8s_app, ← data_utf8 h.1, ← ih h.2, ← data_app]
    simp [utf8s]

/-- Values are written to their ends. -/
theorem value_legal' {cs : List Nat} (h : ∀ c ∈ cs, XmlChar c) : attributeValue (utf8s cs) = 0x3D :: 0x22 :: (utf8s (cs.flatMap escAtt) ++ [0x22]) := by
  have h0 : ∀ d ∈ utf8s cs, d ≠ 0 ∧ d ≠ 1 := by
    intro d hd
    constructor <;> rintro rfl
    · exact absurd (h _ (utf8s_byte h (by decide) hd)) (by decide)
    · exact absurd (h _ (utf8s_byte h (by decide) hd)) (by decide)
  rw [attributeValue, ← data_utf8s h]
  congr 2
  generalize utf8s cs = b at h0
  induction b with
  | nil => rfl
  | cons d b ih =>
    simp only [List.mem_cons, forall_eq_or_imp] at h0
    rw [valueLoop, if_neg (by simp [h0.1]), ih h0.2]
    simp [characterData]

/-! ### No `]]>` -/

/-- Text before which `]` and `]]` may stand. -/
def SafeB (L : Buf) : Prop := L.head? ≠ some 0x3E ∧ ∀ r, L ≠ 0x5D :: 0x3E :: r

theorem safeB_lt (L : Buf) : SafeB (0x3C :: L) := ⟨by simp, by simp⟩

theorem safeB_byte (d : UInt8) {L : Buf} (h : SafeB L) : SafeB (escByte d ++ L) := by
  simp only [escByte]
  repeat' split
  all_goals first
    | (constructor <;> simp; done)
    | (refine ⟨by simpa using by assumption, ?_⟩
       rintro r e
       simp only [List.cons_append, List.nil_append, List.cons.injEq] at e
       exact h.1 (by rw [e.2]; rfl))

theorem safeB_data (s : Buf) {L : Buf} (h : SafeB L) : SafeB (characterData s ++ L) := by
  induction s with
  | nil => exact h
  | cons d s ih => rw [characterData, List.flatMap_cons, List.append_assoc]; exact safeB_byte d ih

theorem safeB_put (v : Ev) {L : Buf} (h : SafeB L) : SafeB (put v ++ L) := by
  cases v <;> first | exact safeB_data _ h | exact h | exact safeB_lt _

theorem safeB_puts (E : List Ev) {L : Buf} (h : SafeB L) : SafeB (E.flatMap put ++ L) := by
  induction E with
  | nil => exact h
  | cons v E ih => rw [List.flatMap_cons, List.append_assoc]; exact safeB_put v ih

theorem safeB_close {ch : Nat} (hc : XmlChar ch) {L : Buf} (h : SafeB L) : ¬ StartsClose asc1 (utf8 ch ++ L) := by
  rintro ⟨r, e⟩
  simp only [asc1, List.cons_append, List.nil_append] at e
  cases hu : utf8 ch with
  | nil => exact utf8_ne_nil ch hu
  | cons d l =>
    rw [hu] at e
    simp only [List.cons_append, List.cons.injEq] at e
    have := utf8_byte hc (show d < 0x80 by rw [e.1]; decide) (by rw [hu]; simp)
    rw [e.1] at this
    subst this
    have : l = [] := by
      have : utf8 (UInt8.toNat 0x5D) = [0x5D] := by decide
      rw [this] at hu; cases hu; rfl
    subst this
    exact h.2 r e.2

/-! ### Text -/

theorem text_utf8 (L : List Nat) : C12.text Spec.utf8 L = utf8s L := rfl

section
variable {c : Cfg} {D : Dtd} {int : XEnc} {iasc : UInt8 → Buf} {op : List Buf} {v : Env}

theorem char_again {ns : Bool} {ch : Nat} (hc : XmlChar ch) {L R : Buf} {E : List Ev} (hs : SafeB L) (h : Content c D int iasc (utf8X ns) asc1 op v L E R) :
    Content c D int iasc (utf8X ns) asc1 op v (characterData (utf8 ch) ++ L) (textEvs (utf8 ch) ++ E) R := by
  have K := Coding.utf8 ns
  have dec (ds : List UInt8) (h1 : ds ≠ []) (h2 : ∀ d ∈ ds, isDec d = true) (h3 : XmlChar (numeral 10 ds)) :=
    Content.charRef (x := utf8X ns) (asc := asc1) (.dec ds h1 h2) h3 h
  have pre (n : List UInt8) (d : UInt8) (h1 : (n, d) ∈ C10.predefined) := Content.predefined (x := utf8X ns) (asc := asc1) h1 h
  rw [data_utf8 hc]
  simp only [escAtt, esc]
  split
  · rename_i e; subst e; exact pre [0x71, 0x75, 0x6F, 0x74] 0x22 (by decide)
  · split
    · rename_i e; subst e; exact dec [0x39] (by decide) (by decide) (by decide)
    · split
      · rename_i e; subst e; exact dec [0x31, 0x30] (by decide) (by decide) (by decide)
      · split
        · rename_i e; subst e; exact pre [0x6C, 0x74] 0x3C (by decide)
        · split
          · rename_i e; subst e; exact pre [0x61, 0x6D, 0x70] 0x26 (by decide)
          · split
            · rename_i e; subst e; exact pre [0x67, 0x74] 0x3E (by decide)
            · split
              · rename_i e; subst e; exact dec [0x31, 0x33] (by decide) (by decide) (by decide)
              · rename_i e1 e2 e3 e4
                have := C35.lit_content K hc e1 e2 e4 (safeB_close hc hs) h
                simpa [utf8s] using this

theorem text_again {ns : Bool} {b : Buf} (hb : LegalText b) {L R : Buf} {E : List Ev} (hs : SafeB L) (h : Content c D int iasc (utf8X ns) asc1 op v L E R) :
    Content c D int iasc (utf8X ns) asc1 op v (characterData b ++ L) (textEvs b ++ E) R := by
  obtain ⟨cs, hc, rfl⟩ := hb
  induction cs with
  | nil => exact h
  | cons d cs ih =>
    simp only [List.mem_cons, forall_eq_or_imp] at hc
    have := char_again hc.1 (safeB_data _ hs) (ih hc.2)
    rw [C35.textEvs_cons, List.append_assoc]
    simpa [utf8s, data_app] using this

end

/-! ### Names -/

theorem name_xml {ch : Nat} (h : InRanges nameChar ch) : XmlChar ch := by
  obtain ⟨p, hp, h1, h2⟩ := h
  have : ∀ p ∈ nameChar, 0x20 ≤ p.1 ∧ p.2 ≤ 0xD7FF := by decide +kernel
  have := this p hp
  simp only [XmlChar]
  omega

/-- A name of XML 1.0 (4th edition, productions 4 - 5) in UTF-8. -/
def XName (b : Buf) : Prop := ∃ cs, IsName false cs ∧ b = utf8s cs

/-- A target of processing instructions (production 17) in UTF-8. -/
def XTarget (b : Buf) : Prop := XName b ∧ ¬ C07.XmlAnyCase b

/-- The names in a call are names of XML 1.0. -/
def Named : Ev → Prop
  | .startElement n as _ _ => XName n ∧ ∀ p ∈ as, XName p.1
  | .pi t _ => XTarget t
  | _ => True

theorem XName.legal {b : Buf} (h : XName b) : LegalText b := by
  obtain ⟨cs, h1, rfl⟩ := h
  exact ⟨cs, fun c hc => name_xml (h1.2.1 c hc), rfl⟩

/-! ### Processing instructions -/

theorem pair_bytes {a b : UInt8} {l : Buf} (cs : List Buf) (h : cs.flatten = l) (hp : NoPair a b l) : NoPair [a] [b] cs := by
  induction cs generalizing l with
  | nil => trivial
  | cons w cs ih =>
    subst h
    have tl : NoPair a b cs.flatten := by
      clear ih
      induction w with
      | nil => exact hp
      | cons d w ih => exact ih hp.tail
    have := ih rfl tl
    cases cs with
    | nil => trivial
    | cons v cs =>
      refine ⟨?_, this⟩
      rintro ⟨rfl, rfl⟩
      exact hp.1 ⟨rfl, rfl⟩

/-- The bytes `a`, `b` (ASCII) are next to each other in converted text only if the characters were. -/
theorem bytes_pair {x : XEnc} {asc : UInt8 → Buf} (S : XSupported x asc) {a b : UInt8} (ha : a < 0x80) (hb : b < 0x80) {ws : List Buf} (hw : x.e.Chars ws)
    (hp : NoPair (asc a) (asc b) (ws ++ [asc a])) (hab : a ≠ b) : NoPair a b ((ws.map (converted x)).flatten ++ [a]) := by
  induction ws with
  | nil => trivial
  | cons w ws ih =>
    have i := ih (fun v hv => hw v (by simp [hv])) hp.tail
    have hd : ∀ d ∈ converted x w, d < 0x80 → w = asc d := fun d hd hl => conv_ascii_only S (hw w (by simp)) hl hd
    have key : ∀ l : Buf, (∀ d ∈ l, d < 0x80 → w = asc d) → NoPair a b (l ++ ((ws.map (converted x)).flatten ++ [a])) := by
      intro l hl
      induction l with
      | nil => exact i
      | cons d l ihl =>
        have i2 := ihl fun e he => hl e (by simp [he])
        cases l with
        | cons e l =>
          refine ⟨?_, i2⟩
          rintro ⟨rfl, rfl⟩
          have h1 := hl d (by simp) ha
          have h2 := hl e (by simp) hb
          rw [h1] at h2
          have := congrArg (converted x) h2
          have g1 := C19.converted_ascii S [d] (by simpa using ha)
          have g2 := C19.converted_ascii S [e] (by simpa using hb)
          simp only [spell, List.map_cons, List.map_nil, List.flatten_cons, List.flatten_nil, List.append_nil] at g1 g2
          rw [g1, g2] at this
          exact hab (by simpa using this)
        | nil =>
          simp only [List.cons_append, List.nil_append] at i2 ⊢
          cases hr : (ws.map (converted x)).flatten ++ [a] with
          | nil => simp at hr
          | cons e r =>
            rw [hr] at i2
            refine ⟨?_, i2⟩
            rintro ⟨rfl, rfl⟩
            have h1 := hl d (by simp) ha
            cases ws with
            | nil =>
              simp only [List.map_nil, List.flatten_nil, List.nil_append, List.cons.injEq] at hr
              exact hab hr.1
            | cons v ws =>
              have hv : x.e.IsChar v := hw v (by simp)
              have hne : converted x v ≠ [] := by
                obtain ⟨ch, -, g⟩ := conv_legal S hv
                rw [g]; exact utf8_ne_nil ch
              have : e ∈ converted x v := by
                cases hc : converted x v with
                | nil => exact absurd hc hne
                | cons f l => simp only [List.map_cons, List.flatten_cons, hc, List.cons_append, List.cons.injEq] at hr; simp [hr.1]
              have h2 := conv_ascii_only S hv hb this
              exact hp.1 ⟨h1, h2⟩
    rw [List.map_cons, List.flatten_cons, List.append_assoc]
    exact key _ hd

theorem lineEnds_head (l r : Buf) : (C14.lineEnds l ++ r).head? = some 0x0A ∨ (C14.lineEnds l ++ r).head? = (l ++ r).head? := by
  fun_cases C14.lineEnds l <;> simp_all

theorem pair_cons {a b d : UInt8} {l : Buf} : NoPair a b (d :: l) ↔ ¬ (d = a ∧ l.head? = some b) ∧ NoPair a b l := by
  cases l <;> simp [NoPair]

theorem lineEnds_pair {a b : UInt8} (ha : a ≠ 0x0A) (hb : b ≠ 0x0A) (l : Buf) (h : NoPair a b (l ++ [a])) : NoPair a b (C14.lineEnds l ++ [a]) := by
  fun_induction C14.lineEnds l with
  | case1 => trivial
  | case2 => exact ⟨by simp [ha.symm], trivial⟩
  | case3 d r i1 i2 =>
    refine pair_cons.2 ⟨by simp [ha.symm], ?_⟩
    split
    · exact i1 h.tail.tail
    · exact i2 h.tail
  | case4 c d r h1 ih =>
    refine pair_cons.2 ⟨?_, ih h.tail⟩
    rintro ⟨rfl, e⟩
    rcases lineEnds_head (d :: r) [c] with g | g
    · exact hb (by simpa using (e.symm.trans g))
    · exact h.1 ⟨rfl, by simpa using g.symm.trans e⟩
  | case5 c => exact h

theorem lineEnds_cr (l : Buf) : (0x0D : UInt8) ∉ C14.lineEnds l := by
  fun_induction C14.lineEnds l <;> grind

section
variable {x : XEnc} {asc : UInt8 → Buf}

/-- The data of a processing instruction, as reported. -/
structure PiData (d : Buf) : Prop where
  legal : LegalText d
  cr : (0x0D : UInt8) ∉ d
  close : NoPair 0x3F 0x3E (d ++ [0x3F])
  first : ∀ c, isWS c = true → d.head? ≠ some c

theorem pi_data (S : XSupported x asc) {target : List Buf} {sp : List UInt8} {ws : List Buf} (h : PiOk x.e asc target sp ws) :
    PiData (C14.lineEnds (converted x ws.flatten)) := by
  refine ⟨C62.legal_lineEnds _ [] (conv_legals S h.chars), lineEnds_cr (converted x ws.flatten), ?_, ?_⟩
  · refine lineEnds_pair (by decide) (by decide) _ ?_
    rw [conv_chars S h.chars]
    exact bytes_pair S (by decide) (by decide) h.chars h.close (by decide)
  · intro c hc he
    have hws : ∀ c, isWS c = true → (converted x ws.flatten).head? ≠ some c := by
      intro c hc he
      rw [conv_chars S h.chars] at he
      cases ws with
      | nil => simp at he
      | cons w ws =>
        have hw : x.e.IsChar w := h.chars w (by simp)
        obtain ⟨ch, -, g⟩ := conv_legal S hw
        cases hu : converted x w with
        | nil => rw [g] at hu; exact absurd hu (utf8_ne_nil ch)
        | cons d l =>
          simp only [List.map_cons, List.flatten_cons, hu, List.cons_append, List.head?_cons, Option.some.injEq] at he
          subst he
          have hlt : d < 0x80 := by rcases (C33.isWS_iff d).1 hc with rfl | rfl | rfl | rfl <;> decide
          exact h.first d hc (by rw [List.head?_cons, conv_ascii_only S hw hlt (by rw [hu]; simp)])
    generalize converted x ws.flatten = b at *
    have := lineEnds_head b []
    simp only [List.append_nil] at this
    rcases this with g | g
    · cases b with
      | nil => simp [C14.lineEnds] at g
      | cons d b =>
        have : d = 0x0A ∨ d = 0x0D := by
          by_cases hd : d = 0x0D
          · exact .inr hd
          · left
            cases b with
            | nil => simpa [C14.lineEnds, hd] using g
            | cons e b => simpa [C14.lineEnds, hd] using g
        rcases this with rfl | rfl
        · exact hws 0x0A (by decide) rfl
        · exact hws 0x0D (by decide) rfl
    · rw [g] at he; exact hws c hc he

/-- A processing instruction written again. -/
theorem pi_again {t d : Buf} (ht : XTarget t) (hd : PiData d) :
    ∃ ts ds : List Buf, PiOk (utf8X false).e asc1 ts [0x20] ds ∧ piText asc1 ts [0x20] ds = processingInstruction t d ∧
      cstr (converted (utf8X false) ts.flatten) = t ∧ C14.lineEnds (converted (utf8X false) ds.flatten) = d := by
  have K := Coding.utf8 false
  obtain ⟨⟨tc, h1, rfl⟩, h2⟩ := ht
  have hx : ∀ c ∈ tc, XmlChar c := fun c hc => name_xml (h1.2.1 c hc)
  obtain ⟨hl, hcr, hp, hh⟩ := hd
  obtain ⟨dc, h3, rfl⟩ := hl
  have ht : (tc.map Spec.utf8).flatten = utf8s tc := rfl
  have hd : (dc.map Spec.utf8).flatten = utf8s dc := rfl
  refine ⟨tc.map Spec.utf8, dc.map Spec.utf8, ⟨is_name (Naming.utf8 false) h1 hx, ?_, by simp [AllWS, isWS], by simp, K.chars h3, ?_, ?_⟩, ?_, ?_, ?_⟩
  · rintro ⟨cs, g1, g2⟩
    refine h2 ?_
    rw [← ht, g2]
    have : spell asc1 cs = cs := by
      clear g1 g2
      induction cs with
      | nil => rfl
      | cons c cs ih => simpa [spell, asc1] using ih
    rwa [show (spell asc1 cs) = cs from this]
  · exact pair_bytes _ (by rw [List.flatten_append, hd]; rfl) hp
  · intro c hc he
    cases dc with
    | nil => simp at he
    | cons e dc =>
      simp only [List.map_cons, List.head?_cons, Option.some.injEq] at he
      exact hh c hc (by simp [utf8s, he, asc1])
  · rw [piText, ht, hd]
    simp [processingInstruction, spell, asc1]
  · rw [show converted (utf8X false) (tc.map Spec.utf8).flatten = utf8s tc from K.conv hx]
    exact no_nul hx
  · rw [show converted (utf8X false) (dc.map Spec.utf8).flatten = utf8s dc from K.conv h3]
    exact C14.lineEnds_id hcr

end

/-! ### Tags -/

theorem chain_quiet {α σ ε : Type} {f : σ → α → List Ev × Except ε σ} {Q : σ → Prop} (H : ∀ s a, Q s → ∀ E s', f s a = (E, .ok s') → E = [] ∧ Q s') :
    ∀ (as : List α) (s : σ), Q s → ∀ E s', chain f s as = (E, .ok s') → E = [] ∧ Q s'
  | [], s, hq, E, s', h => by
    rw [chain] at h
    cases h
    exact ⟨rfl, hq⟩
  | a :: as, s, hq, E, s', h => by
    rw [chain] at h
    split at h
    · cases h
    · rename_i E1 s1 h1
      obtain ⟨rfl, q1⟩ := H s a hq _ _ h1
      simp only [Prod.mk.injEq] at h
      obtain ⟨q2, q3⟩ := chain_quiet H as s1 q1 _ _ (Prod.ext rfl h.2)
      exact ⟨h.1.symm.trans q2, q3⟩

/-- Without namespaces. -/
theorem stored_plain {c : Cfg} (hns : c.ns = false) {D : Dtd} {int x : XEnc} {op : List Buf} {env : Env} {raw b : Buf} {E : List Ev} {t : Stored}
    (h : storeAtts c D int x op (fun _ => .unset) env raw b = (E, .ok t)) :
    E = [] ∧ (t.atts.map (·.1)).Nodup ∧ t.name = ⟨raw, none⟩ ∧ t.binds = [] := by
  have kind (n : Buf) : attKind c.ns n = .plain := by rw [hns]; rfl
  rw [storeAtts] at h
  split at h
  · cases h
  · rename_i E1 s1 h1
    obtain ⟨rfl, q1⟩ := chain_quiet (Q := fun s : AState => s.nPre = 0 ∧ s.binds = []) (by
      intro s a hq E s' hs
      rw [attOne] at hs
      simp only [kind] at hs
      split at hs
      · cases hs
      · split at hs
        · cases hs
        · cases hs; exact ⟨rfl, hq⟩) _ _ ⟨rfl, rfl⟩ _ _ h1
    simp only at h
    split at h
    · cases h
    · rename_i E2 s2 h2
      obtain ⟨rfl, q2, q3⟩ := chain_quiet (Q := fun s : AState => s.nPre = 0 ∧ s.binds = []) (by
        intro s d hq E s' hs
        rw [defOne] at hs
        simp only [kind] at hs
        split at hs
        · cases hs; exact ⟨rfl, hq⟩
        · split at hs
          · cases hs; exact ⟨rfl, hq⟩
          · cases hs; exact ⟨rfl, hq⟩) _ _ q1 _ _ h2
      have hi := C28.AInv_chains (fun _ => rfl) h1 h2
      obtain ⟨g, hg⟩ := C48.expand_plain (c := c) s2.env s2.atts s2.flags []
      rw [q2, hg] at h
      simp only [elemName, hns, Bool.not_false, if_true, Prod.mk.injEq, Except.ok.injEq] at h
      obtain ⟨h3, rfl⟩ := h
      exact ⟨h3.symm, hi.nodup, rfl, q3⟩

theorem points : ∀ {as : List (Buf × Buf)}, (∀ p ∈ as, XName p.1) → (∀ p ∈ as, LegalText p.2) →
    ∃ ps : List (List Nat × List Nat), as = (ps.map fun p => (utf8s p.1, utf8s p.2)) ∧ ∀ p ∈ ps, IsName false p.1 ∧ ∀ c ∈ p.2, XmlChar c
  | [], _, _ => ⟨[], rfl, by simp⟩
  | (n, v) :: as, h1, h2 => by
    simp only [List.mem_cons, forall_eq_or_imp] at h1 h2
    obtain ⟨ps, rfl, h3⟩ := points h1.2 h2.2
    obtain ⟨cs, h4, h5⟩ := h1.1
    obtain ⟨vs, h6, h7⟩ := h2.1
    refine ⟨(cs, vs) :: ps, by simp [← h5, ← h7], ?_⟩
    simp only [List.mem_cons, forall_eq_or_imp]
    exact ⟨⟨h4, h6⟩, h3⟩

theorem att_text {ps : List (List Nat × List Nat)} (h : ∀ p ∈ ps, IsName false p.1 ∧ ∀ c ∈ p.2, XmlChar c) :
    (ps.map fun p => (utf8s p.1, utf8s p.2)).flatMap attText = utf8s (ps.flatMap attrText) := by
  induction ps with
  | nil => rfl
  | cons p ps ih =>
    simp only [List.mem_cons, forall_eq_or_imp] at h
    rw [List.map_cons, List.flatMap_cons, List.flatMap_cons, utf8s_app, ih h.2, attText, value_legal' h.1.2, attrText]
    simp only [utf8s_app]
    simp [C48.str, utf8s, Spec.utf8]

section
variable {c : Cfg} {D : Dtd} {inn : Bool}

/-- An element written again. -/
theorem element_again (hns : c.ns = false) (hD : C33.TextsOk D (internalUtf8X inn)) (hel : D.elems = []) {op : List Buf} {env : Env} (henv : env none = none)
    {n : Buf} {as : List (Buf × Buf)} (hn : XName n) (h1 : ∀ p ∈ as, XName p.1) (h2 : ∀ p ∈ as, LegalText p.2) (h3 : (as.map (·.1)).Nodup) :
    ∃ (name : List Buf) (srcs : List AttrSrc) (t : Stored), QName (utf8X false).e asc1 name ∧ (∀ a ∈ srcs, a.Valid (utf8X false).e asc1) ∧
      storeAtts c D (internalUtf8X inn) (utf8X false) op (fun _ => .unset) env (converted (utf8X false) name.flatten) (tagText asc1 name srcs [] false) = ([], .ok t) ∧
      startElement n as = tagText asc1 name srcs [] false ∧ endElement n = endText asc1 name.flatten [] ∧
      t.name.full c = n ∧ t.atts = sortAtts as ∧ t.specified = as.length ∧ t.idIndex = none ∧ t.env = env ∧ t.binds = [] := by
  have K := Coding.utf8 false
  obtain ⟨nc, g1, rfl⟩ := hn
  have P := sort_perm as
  obtain ⟨ps, g2, g3⟩ := points (as := sortAtts as) (fun p hp => h1 p (P.mem_iff.1 hp)) (fun p hp => h2 p (P.mem_iff.1 hp))
  have hnd : (ps.map (·.1)).Nodup := by
    have := (P.map (·.1)).nodup_iff.2 h3
    rw [g2, List.map_map] at this
    have e : (ps.map fun p => utf8s p.1) = (ps.map (·.1)).map utf8s := by simp
    have this : ((ps.map (·.1)).map utf8s).Nodup := by rw [← e]; exact this
    exact (List.pairwise_map.1 this).imp fun h e => h (congrArg utf8s e)
  have hx {cs : List Nat} (h : IsName false cs) : ∀ c ∈ cs, XmlChar c := fun c hc => name_xml (h.2.1 c hc)
  have T := start_tag (c := c) (D := D) (inn := inn) (op := op) (env := env) K (by rw [hns]; exact Naming.utf8 false) hD hel henv (n := nc) (as := ps)
    ⟨by rw [hns]; exact g1, hx g1⟩ hnd (fun p hp => ⟨by rw [hns]; exact (g3 p hp).1, hx (g3 p hp).1, by rw [hns]; simp, (g3 p hp).2⟩)
  obtain ⟨t1, t2, t, t3, t4, t5, t6, t7, t8, t9⟩ := T
  refine ⟨_, _, t, t1, t2, t3, ?_, ?_, ?_, ?_, ?_, t7, t8, t9⟩
  · rw [startElement, g2, att_text g3, tagText, srcs_text K]
    simp [asc1, closeText, spell, C12.text, utf8s, List.flatMap_def]
  · rw [endElement, endText]
    simp [asc1, spell, utf8s]
  · rw [t4]; rfl
  · rw [t5, g2]
  · rw [t6, ← sort_length as, g2, List.length_map]

end

/-! ### Content -/

theorem conv_legal1 {x : XEnc} {asc : UInt8 → Buf} (S : XSupported x asc) {w : Buf} (h : x.e.Plain asc w) : LegalText (converted x w) := by
  obtain ⟨ch, h1, h2⟩ := conv_legal S h.1
  rw [h2]
  exact .one h1

theorem put_text (b : Buf) : (textEvs b).flatMap put = characterData b := by
  induction b with
  | nil => rfl
  | cons d b ih =>
    rw [textEvs, List.map_cons, List.flatMap_cons]
    rw [textEvs] at ih
    rw [ih]
    simp [put, characterData]

theorem seen_text (b : Buf) : (textEvs b).flatMap seen = textEvs b := by
  induction b with
  | nil => rfl
  | cons d b ih =>
    rw [textEvs, List.map_cons, List.flatMap_cons]
    rw [textEvs] at ih
    rw [ih]
    rfl

theorem put_pi {t d : Buf} {L : Buf} : SafeB (processingInstruction t d ++ L) := by
  refine ⟨?_, ?_⟩ <;> simp [processingInstruction]

theorem put_binds (l : List Binding) : ((l.map fun d => Ev.endNs d.pre).flatMap put) = [] ∧ ((l.map fun d => Ev.endNs d.pre).flatMap seen) = [] := by
  induction l with
  | nil => exact ⟨rfl, rfl⟩
  | cons b l ih => exact ⟨ih.1, ih.2⟩

section
variable {c c0 : Cfg} {D D0 : Dtd} {int : XEnc} {iasc : UInt8 → Buf} {inn inn' : Bool} {v0 : Env}

/-- The same in the second document. -/
def Again (c : Cfg) (D0 : Dtd) (inn : Bool) (v0 : Env) (E : List Ev) : Prop :=
  ∀ L E' R, SafeB L → Content c D0 (internalUtf8X inn) asc1 (utf8X false) asc1 [] v0 L E' R →
    Content c D0 (internalUtf8X inn) asc1 (utf8X false) asc1 [] v0 (E.flatMap put ++ L) (E.flatMap seen ++ E') R

theorem Again.nil : Again c D0 inn v0 [] := fun _ _ _ _ h => h

theorem Again.app {E1 E2 : List Ev} (h1 : Again c D0 inn v0 E1) (h2 : Again c D0 inn v0 E2) : Again c D0 inn v0 (E1 ++ E2) := by
  intro L E' R hs h
  have := h1 _ _ _ (safeB_puts E2 hs) (h2 _ _ _ hs h)
  simpa using this

theorem Again.text {b : Buf} (h : LegalText b) : Again c D0 inn v0 (textEvs b) := by
  intro L E' R hs g
  rw [put_text, seen_text]
  exact text_again h hs g

theorem Again.quiet {v : Ev} (h1 : put v = []) (h2 : seen v = []) : Again c D0 inn v0 [v] := by
  intro L E' R _ g
  simpa [h1, h2] using g

theorem Again.pi {t d : Buf} (ht : XTarget t) (hd : PiData d) : Again c D0 inn v0 [.pi t d] := by
  intro L E' R _ g
  obtain ⟨ts, ds, h1, h2, h3, h4⟩ := pi_again ht hd
  have := Content.pi h1 g
  rw [h2, h3, h4] at this
  simpa [put, seen] using this

theorem Again.element (hns : c.ns = false) (hD0 : C33.TextsOk D0 (internalUtf8X inn)) (hel : D0.elems = []) (henv : v0 none = none)
    {n : Buf} {as : List (Buf × Buf)} {sp : Nat} {id : Option Nat} (hn : XName n) (h1 : ∀ p ∈ as, XName p.1) (h2 : ∀ p ∈ as, LegalText p.2) (h3 : (as.map (·.1)).Nodup)
    {E1 : List Ev} (h4 : Again c D0 inn v0 E1) : Again c D0 inn v0 (.startElement n as sp id :: (E1 ++ [.endElement n])) := by
  intro L E' R hs g
  obtain ⟨name, srcs, t, a1, a2, a3, a4, a5, a6, a7, a8, a9, a10, a11⟩ := element_again (c := c) (D := D0) (inn := inn) (op := []) (env := v0) hns hD0 hel henv hn h1 h2 h3
  have hb := h4 (endElement n ++ L) [] (endElement n ++ L) (by refine ⟨?_, ?_⟩ <;> simp [endElement]) (.nil _)
  rw [a5] at hb
  have := Content.element (ws := []) (sp := []) a1 a2 (by simp [AllWS]) (by simp [AllWS]) a3 (by rw [a10]; exact hb) g
  rw [← a4, a6, a7, a8, a9, a11] at this
  simpa [put, seen, a5] using this

theorem cdata_again {x : XEnc} {asc : UInt8 → Buf} (S : XSupported x asc) {b r : Buf} {E : List Ev} (h : Cdata x asc b E r) : Again c D0 inn v0 E := by
  have lf : LegalText [0x0A] := C62.legal_byte (by decide) (by decide)
  induction h with
  | close => exact .nil
  | char h1 _ _ ih => exact (Again.text (conv_legal1 S h1)).app ih
  | lf _ ih => exact (Again.text lf).app ih
  | crlf _ _ ih => exact (Again.text lf).app ih
  | cr _ _ _ ih => exact (Again.text lf).app ih

theorem start_named {v : Ev} {X Y : List Ev} (h : ∀ e ∈ [] ++ (v :: X) ++ Y, Named e) : Named v := h v (by simp)
theorem start_named' {v : Ev} {X Y Z : List Ev} (h : ∀ e ∈ [] ++ (v :: X) ++ Y ++ Z, Named e) : Named v := h v (by simp)

theorem content_again (hns : c.ns = false) (hns0 : c0.ns = false) (hD : C33.TextsOk D (internalUtf8X inn')) (hd : C62.DefaultsOk D) (hD0 : C33.TextsOk D0 (internalUtf8X inn)) (hel : D0.elems = [])
    (henv : v0 none = none) {x : XEnc} {asc : UInt8 → Buf} (S : XSupported x asc) {op : List Buf} {v : Env} {b r : Buf} {E : List Ev}
    (h : Content c D (internalUtf8X inn') asc1 x asc op v b E r) (hN : ∀ e ∈ E, Named e) : Again c0 D0 inn v0 E := by
  have lf : LegalText [0x0A] := C62.legal_byte (by decide) (by decide)
  induction h with
  | nil => exact .nil
  | char h1 _ _ _ _ ih => exact (Again.text (conv_legal1 S h1)).app (ih S fun e he => hN e (by simp [he]))
  | lf _ ih => exact (Again.text lf).app (ih S fun e he => hN e (by simp [he]))
  | crlf _ _ ih => exact (Again.text lf).app (ih S fun e he => hN e (by simp [he]))
  | cr _ _ _ ih => exact (Again.text lf).app (ih S fun e he => hN e (by simp [he]))
  | charRef _ h1 _ ih => exact (Again.text (.one h1)).app (ih S fun e he => hN e (by simp [he]))
  | predefined h1 _ ih => exact (Again.text (C62.legal_predefined h1)).app (ih S fun e he => hN e (by simp [he]))
  | entity _ _ _ _ _ _ _ _ _ ih1 ih2 => exact (ih1 (.internalUtf8 _) fun e he => hN e (by simp [he])).app (ih2 S fun e he => hN e (by simp [he]))
  | external _ _ _ _ _ _ _ _ _ ih => exact (Again.quiet (v := .externalRef ..) rfl rfl).app (ih S fun e he => hN e (by simp [he]))
  | skipped _ _ _ _ _ ih => exact (Again.quiet (v := .skippedEntity ..) rfl rfl).app (ih S fun e he => hN e (by simp [he]))
  | comment _ _ ih => exact (Again.quiet (v := .comment _) rfl rfl).app (ih S fun e he => hN e (by simp [he]))
  | pi h1 _ ih => exact (Again.pi (hN _ (List.mem_cons_self ..)) (pi_data S h1)).app (ih S fun e he => hN e (by simp [he]))
  | cdata h1 _ ih =>
    exact (Again.quiet (v := .startCdata) rfl rfl).app ((cdata_again S h1).app ((Again.quiet (v := .endCdata) rfl rfl).app (ih S fun e he => hN e (by simp [he]))))
  | empty h1 h2 h3 h4 _ ih =>
    obtain ⟨rfl, k1, k2, k3⟩ := stored_plain hns h4
    have k4 := C62.stored_legal S hD hd h1 h2 h3 true h4
    have k5 := start_named hN
    rw [k3]
    exact (Again.element hns0 hD0 hel henv k5.1 k5.2 k4 k1 .nil).app (ih S fun e he => hN e (by simp [he]))
  | element h1 h2 h3 h3' h4 _ _ ih1 ih2 =>
    obtain ⟨rfl, k1, k2, k3⟩ := stored_plain hns h4
    have k4 := C62.stored_legal S hD hd h1 h2 h3 false h4
    have k5 := start_named' hN
    rw [k3]
    have g1 := ih1 S fun e he => hN e (by simp [he])
    have g2 := ih2 S fun e he => hN e (by simp [he])
    rw [show ∀ (a : Ev) (b d : List Ev) (e : Ev), [] ++ (a :: b) ++ (e :: List.map (fun d : Binding => Ev.endNs d.pre) []) ++ d = (a :: (b ++ [e])) ++ d from by simp]
    exact (Again.element hns0 hD0 hel henv k5.1 k5.2 k4 k1 g1).app g2

end

end Verif.C76
