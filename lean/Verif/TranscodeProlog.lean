import Verif.TranscodeContent
import Verif.DoctypeSpec

/-! The same prolog in two encodings. -/

set_option autoImplicit false

namespace Verif
open C43 C53 C59 Spec PState

/-- The same place in a text of another encoding. -/
def C59.Ctx.into (k : Ctx) (y : XEnc) (asc' : UInt8 → Buf) : Ctx := { k with x := y, asc := asc' }

section
variable {x y : XEnc} {asc asc' : UInt8 → Buf} {enc enc' : Nat → Buf} {ok : Nat → Prop} (P : Pair x asc enc y asc' enc' ok)

include P

theorem Same.conv {a b : Buf} (h : Same enc enc' ok a b) : converted x a = converted y b := by
  obtain ⟨cs, h1, rfl, rfl⟩ := h
  exact P.conv h1

omit P in
theorem isWS_plain {d : UInt8} (h : isWS d = true) : d < 0x80 ∧ XmlChar d.toNat :=
  allWS_plain (ds := [d]) (by intro e he; simp at he; subst he; exact h) d (by simp)

omit P in
theorem quote_plain {q : UInt8} (h : q = 0x22 ∨ q = 0x27) : q < 0x80 ∧ XmlChar q.toNat := by rcases h with rfl | rfl <;> decide

/-! ### Values -/

theorem Same.repl {par : Buf → Option Entity} {int x0 : XEnc} {asc0 : UInt8 → Buf} {le pes : Bool} {op : List Buf} {b out : Buf}
    (h : C58.Repl par int x0 asc0 le pes op b out) : x0 = x → asc0 = asc → ∀ {b' : Buf}, Same enc enc' ok b b' →
    C58.Repl par int y asc' le pes op b' out := by
  induction h with
  | nil =>
    rintro rfl rfl b' h
    have := h.nil_inv P
    subst this
    exact .nil
  | crlf _ ih =>
    rintro rfl rfl b' h
    obtain ⟨r1, rfl, h1⟩ := h.lit P (by decide) (by decide)
    obtain ⟨r2, rfl, h2⟩ := h1.lit P (by decide) (by decide)
    exact .crlf (ih rfl rfl h2)
  | cr hr _ ih =>
    rintro rfl rfl b' h
    obtain ⟨r1, rfl, h1⟩ := h.lit P (by decide) (by decide)
    exact .cr (P.noLf h1 hr) (ih rfl rfl h1)
  | lf _ ih =>
    rintro rfl rfl b' h
    obtain ⟨r1, rfl, h1⟩ := h.lit P (by decide) (by decide)
    exact .lf (ih rfl rfl h1)
  | char w hw h1 h2 h3 h4 _ ih =>
    rintro rfl rfl b' h
    obtain ⟨c, r1, i1, rfl, rfl, i4⟩ := h.char P (char_piece P.src.sup.s hw)
    rw [P.conv1 i1]
    exact .char _ (P.dst.char i1) (P.ne i1 (by decide) (by decide) h1) (P.ne i1 (by decide) (by decide) h2) (P.ne i1 (by decide) (by decide) h3)
      (fun hl => P.ne i1 (by decide) (by decide) (h4 hl)) (ih rfl rfl i4)
  | dec ds h0 hd hx _ ih =>
    rintro rfl rfl b' h
    obtain ⟨r1, rfl, h1⟩ := h.lit P (by decide) (by decide)
    obtain ⟨r2, rfl, h2⟩ := h1.lit P (by decide) (by decide)
    obtain ⟨r3, rfl, h3⟩ := Same.spell P (dec_plain hd) h2
    obtain ⟨r4, rfl, h4⟩ := h3.lit P (by decide) (by decide)
    exact .dec ds h0 hd hx (ih rfl rfl h4)
  | hex ds h0 hd hx _ ih =>
    rintro rfl rfl b' h
    obtain ⟨r1, rfl, h1⟩ := h.lit P (by decide) (by decide)
    obtain ⟨r2, rfl, h2⟩ := h1.lit P (by decide) (by decide)
    obtain ⟨r2, rfl, h3⟩ := h2.lit P (by decide) (by decide)
    obtain ⟨r3, rfl, h4⟩ := Same.spell P (hex_plain hd) h3
    obtain ⟨r4, rfl, h5⟩ := h4.lit P (by decide) (by decide)
    exact .hex ds h0 hd hx (ih rfl rfl h5)
  | entity ws hn _ ih =>
    rintro rfl rfl b' h
    obtain ⟨r1, rfl, h1⟩ := h.lit P (by decide) (by decide)
    obtain ⟨cs, r2, i1, rfl, i3, rfl, h2⟩ := h1.name P hn
    obtain ⟨r3, rfl, h3⟩ := h2.lit P (by decide) (by decide)
    rw [Same.conv P ((P.lit 0x26 (by decide) (by decide)).app ((same_map i1).app (P.lit 0x3B (by decide) (by decide))))]
    exact .entity _ i3 (ih rfl rfl h3)
  | param ws ent t out' hn hd ho hs ht hin _ _ ih =>
    rintro rfl rfl b' h
    obtain ⟨r1, rfl, h1⟩ := h.lit P (by decide) (by decide)
    obtain ⟨cs, r2, i1, rfl, i3, rfl, h2⟩ := h1.name P hn
    obtain ⟨r3, rfl, h3⟩ := h2.lit P (by decide) (by decide)
    rw [P.conv i1] at hd ho hin
    exact .param _ ent t out' i3 hd ho hs ht hin (ih rfl rfl h3)

theorem Same.norm {D : Dtd} {check : Bool} {int x0 : XEnc} {asc0 : UInt8 → Buf} {le : Bool} {op : List Buf} {b out : Buf}
    (h : C33.Norm D check int x0 asc0 le op b out) : x0 = x → asc0 = asc → ∀ {b' : Buf}, Same enc enc' ok b b' →
    C33.Norm D check int y asc' le op b' out := by
  have pre {cs : List Nat} (hc : ∀ c ∈ cs, ok c) (h : ∀ n c, (n, c) ∈ C10.predefined → (cs.map enc).flatten ≠ Verif.spell asc n) :
      ∀ n c, (n, c) ∈ C10.predefined → (cs.map enc').flatten ≠ Verif.spell asc' n :=
    fun n c hn he => h n c hn ((P.spell_iff hc (predefined_plain hn)).2 he)
  induction h with
  | nil =>
    rintro rfl rfl b' h
    have := h.nil_inv P
    subst this
    exact .nil
  | crlf _ ih =>
    rintro rfl rfl b' h
    obtain ⟨r1, rfl, h1⟩ := h.lit P (by decide) (by decide)
    obtain ⟨r2, rfl, h2⟩ := h1.lit P (by decide) (by decide)
    exact .crlf (ih rfl rfl h2)
  | space c hc hr _ ih =>
    rintro rfl rfl b' h
    have hp := isWS_plain ((C33.isWS_iff c).2 hc)
    obtain ⟨r1, rfl, h1⟩ := h.lit P hp.1 hp.2
    exact .space c hc (fun hl he => P.noLf h1 (hr hl he)) (ih rfl rfl h1)
  | char w hw h1 h2 h3 _ ih =>
    rintro rfl rfl b' h
    obtain ⟨c, r1, i1, rfl, rfl, i4⟩ := h.char P (char_piece P.src.sup.s hw)
    rw [P.conv1 i1]
    refine .char _ (P.dst.char i1) (P.ne i1 (by decide) (by decide) h1) (P.ne i1 (by decide) (by decide) h2) (fun d hd => ?_) (ih rfl rfl i4)
    have hp := isWS_plain ((C33.isWS_iff d).2 hd)
    exact P.ne i1 hp.1 hp.2 (h3 d hd)
  | dec ds h0 hd hx _ ih =>
    rintro rfl rfl b' h
    obtain ⟨r1, rfl, h1⟩ := h.lit P (by decide) (by decide)
    obtain ⟨r2, rfl, h2⟩ := h1.lit P (by decide) (by decide)
    obtain ⟨r3, rfl, h3⟩ := Same.spell P (dec_plain hd) h2
    obtain ⟨r4, rfl, h4⟩ := h3.lit P (by decide) (by decide)
    exact .dec ds h0 hd hx (ih rfl rfl h4)
  | hex ds h0 hd hx _ ih =>
    rintro rfl rfl b' h
    obtain ⟨r1, rfl, h1⟩ := h.lit P (by decide) (by decide)
    obtain ⟨r2, rfl, h2⟩ := h1.lit P (by decide) (by decide)
    obtain ⟨r2, rfl, h3⟩ := h2.lit P (by decide) (by decide)
    obtain ⟨r3, rfl, h4⟩ := Same.spell P (hex_plain hd) h3
    obtain ⟨r4, rfl, h5⟩ := h4.lit P (by decide) (by decide)
    exact .hex ds h0 hd hx (ih rfl rfl h5)
  | predefined n c hn _ ih =>
    rintro rfl rfl b' h
    obtain ⟨r1, rfl, h1⟩ := h.lit P (by decide) (by decide)
    obtain ⟨r2, rfl, h2⟩ := Same.spell P (predefined_plain hn) h1
    obtain ⟨r3, rfl, h3⟩ := h2.lit P (by decide) (by decide)
    exact .predefined n c hn (ih rfl rfl h3)
  | entity ws ent t out' hn hp hd hc ho hno ht hin _ _ ih =>
    rintro rfl rfl b' h
    obtain ⟨r1, rfl, h1⟩ := h.lit P (by decide) (by decide)
    obtain ⟨cs, r2, i1, rfl, i3, rfl, h2⟩ := h1.name P hn
    obtain ⟨r3, rfl, h3⟩ := h2.lit P (by decide) (by decide)
    rw [P.conv i1] at hd ho hin
    exact .entity _ ent t out' i3 (pre i1 hp) hd hc ho hno ht hin (ih rfl rfl h3)
  | skipped ws hn hp hd hc _ ih =>
    rintro rfl rfl b' h
    obtain ⟨r1, rfl, h1⟩ := h.lit P (by decide) (by decide)
    obtain ⟨cs, r2, i1, rfl, i3, rfl, h2⟩ := h1.name P hn
    obtain ⟨r3, rfl, h3⟩ := h2.lit P (by decide) (by decide)
    rw [P.conv i1] at hd
    exact .skipped _ i3 (pre i1 hp) hd hc (ih rfl rfl h3)

/-! ### Names, name tokens, literals -/

theorem nameChars_map {cs : List Nat} (h : ∀ c ∈ cs, ok c) (hn : ∀ w ∈ cs.map enc, x.e.NameChar w) : ∀ w ∈ cs.map enc', y.e.NameChar w := by
  intro w hw
  obtain ⟨c, hc, rfl⟩ := List.mem_map.1 hw
  exact (P.name (h c hc)).1 (hn _ (List.mem_map.2 ⟨c, hc, rfl⟩))

theorem Same.dname {ws : List Buf} {r b : Buf} (h : Same enc enc' ok (ws.flatten ++ r) b) (hn : DName x.e asc ws) :
    ∃ (cs : List Nat) (r' : Buf), (∀ c ∈ cs, ok c) ∧ ws = cs.map enc ∧ DName y.e asc' (cs.map enc') ∧ b = (cs.map enc').flatten ++ r' ∧ Same enc enc' ok r r' := by
  cases hn with
  | plain _ hn =>
    obtain ⟨cs, r', h1, h2, h3, h4⟩ := h.name P hn
    exact ⟨cs, r', h1, h2, .plain _ h3, h4⟩
  | pair us vs h1 h2 h3 hc =>
    rw [List.flatten_append, List.flatten_cons, List.append_assoc, List.append_assoc] at h
    obtain ⟨cs, r1, i1, rfl, i3, rfl, i5⟩ := h.name P h1
    obtain ⟨r2, rfl, j2⟩ := i5.lit P (by decide) (by decide)
    obtain ⟨ds, r3, k1, rfl, rfl, k5⟩ := j2.pieces P (fun v hv => name_piece P.src.sup.s (h3 v hv))
    refine ⟨cs ++ 0x3A :: ds, r3, ?_, ?_, ?_, ?_, k5⟩
    · intro c hc
      rcases List.mem_append.1 hc with hc | hc
      · exact i1 c hc
      · rcases List.mem_cons.1 hc with rfl | hc
        · exact P.src.asciiOk (c := 0x3A) (by decide) (by decide)
        · exact k1 c hc
    · rw [List.map_append, List.map_cons, ← P.src.ascii 0x3A (by decide)]; rfl
    · rw [List.map_append, List.map_cons, show enc' 0x3A = asc' 0x3A from P.dst.ascii 0x3A (by decide)]
      refine .pair _ _ i3 ?_ (nameChars_map P k1 h3) (P.colon.1 hc)
      intro e
      rw [List.map_eq_nil_iff] at e
      subst e
      exact h2 rfl
    · rw [List.map_append, List.map_cons, show enc' 0x3A = asc' 0x3A from P.dst.ascii 0x3A (by decide)]
      simp [C12.text]

theorem Same.nmtoken {ws : List Buf} {r b : Buf} (h : Same enc enc' ok (ws.flatten ++ r) b) (hn : x.e.Nmtoken asc ws) :
    ∃ (cs : List Nat) (r' : Buf), (∀ c ∈ cs, ok c) ∧ ws = cs.map enc ∧ y.e.Nmtoken asc' (cs.map enc') ∧ b = (cs.map enc').flatten ++ r' ∧ Same enc enc' ok r r' := by
  obtain ⟨h1, h2⟩ := hn
  have hp : ∀ w ∈ ws, x.e.Piece w := by
    intro w hw
    rcases h2 w hw with h3 | ⟨rfl, -⟩
    · exact name_piece P.src.sup.s h3
    · exact P.src.asc_piece (by decide) (by decide)
  obtain ⟨cs, r', i1, rfl, rfl, i4⟩ := h.pieces P hp
  refine ⟨cs, r', i1, rfl, ⟨fun e => ?_, fun w hw => ?_⟩, rfl, i4⟩
  · rw [List.map_eq_nil_iff] at e
    subst e
    exact h1 rfl
  · obtain ⟨c, hc, rfl⟩ := List.mem_map.1 hw
    rcases h2 _ (List.mem_map.2 ⟨c, hc, rfl⟩) with h3 | ⟨h3, h4⟩
    · exact .inl ((P.name (i1 c hc)).1 h3)
    · have h5 := (P.eq_iff (i1 c hc) (by decide) (by decide)).1 h3
      refine .inr ⟨h5, ?_⟩
      rw [h5]
      rw [h3] at h4
      exact P.colon.1 h4

theorem Same.quoted {q : UInt8} {ws : List Buf} {r b : Buf} (h : Same enc enc' ok (litText asc q ws ++ r) b) (hn : Quoted x.e asc q ws) :
    ∃ (cs : List Nat) (r' : Buf), (∀ c ∈ cs, ok c) ∧ ws = cs.map enc ∧ Quoted y.e asc' q (cs.map enc') ∧ b = litText asc' q (cs.map enc') ++ r' ∧
      Same enc enc' ok r r' := by
  have hq := quote_plain hn.quote
  simp only [litText, List.append_assoc] at h
  obtain ⟨r1, rfl, h1⟩ := h.lit P hq.1 hq.2
  obtain ⟨cs, r2, i1, rfl, rfl, h2⟩ := h1.pieces P (chars_pieces P.src.sup.s hn.chars)
  obtain ⟨r3, rfl, h3⟩ := h2.lit P hq.1 hq.2
  refine ⟨cs, r3, i1, rfl, ⟨hn.quote, P.dst.chars i1, fun w hw => ?_⟩, by simp only [litText, List.append_assoc]; rfl, h3⟩
  obtain ⟨c, hc, rfl⟩ := List.mem_map.1 hw
  exact P.ne (i1 c hc) hq.1 hq.2 (hn.inner _ (List.mem_map.2 ⟨c, hc, rfl⟩))

omit P in
theorem pubid_plain {cs : List UInt8} (h : ∀ d ∈ cs, C37.PubidChar d = true) : Plain7 cs := by
  intro d hd
  have := h d hd
  revert this
  exact UInt8.forall_dec (P := fun a => C37.PubidChar a = true → a < 0x80 ∧ XmlChar a.toNat) (by simp only [XmlChar]; decide +kernel) d

theorem Same.pubid {q : UInt8} {cs : List UInt8} {r b : Buf} (h : Same enc enc' ok (litText asc q (cs.map asc) ++ r) b) (hn : Quoted x.e asc q (cs.map asc))
    (hc : ∀ d ∈ cs, C37.PubidChar d = true) :
    ∃ r' : Buf, Quoted y.e asc' q (cs.map asc') ∧ b = litText asc' q (cs.map asc') ++ r' ∧ Same enc enc' ok r r' := by
  have hq := quote_plain hn.quote
  have hp := pubid_plain hc
  simp only [litText, List.append_assoc] at h
  obtain ⟨r1, rfl, h1⟩ := h.lit P hq.1 hq.2
  obtain ⟨r2, rfl, h2⟩ := Same.spell P hp h1
  obtain ⟨r3, rfl, h3⟩ := h2.lit P hq.1 hq.2
  refine ⟨r3, ⟨hn.quote, fun w hw => ?_, fun w hw => ?_⟩, by simp only [litText, List.append_assoc]; rfl, h3⟩
  · obtain ⟨d, hd, rfl⟩ := List.mem_map.1 hw
    rw [← P.dst.ascii d (hp d hd).1]
    exact P.dst.char (P.dst.asciiOk (hp d hd).2 (hp d hd).1)
  · obtain ⟨d, hd, rfl⟩ := List.mem_map.1 hw
    intro e
    have := P.dst.sup.s.asc_inj e
    subst this
    exact hn.inner _ (List.mem_map.2 ⟨d, hd, rfl⟩) rfl

/-! ### Entities and notations -/

theorem Same.externalID {w : Buf} {pub : Option Buf} {sys : Buf} (hw : ExternalID x asc w pub sys) {r b : Buf} (h : Same enc enc' ok (w ++ r) b) :
    ∃ w' r', ExternalID y asc' w' pub sys ∧ b = w' ++ r' ∧ Same enc enc' ok r r' := by
  cases hw with
  | system sp q ws h1 h2 =>
    simp only [List.append_assoc] at h
    obtain ⟨r1, rfl, g1⟩ := Same.spell P (by decide) h
    obtain ⟨r2, rfl, g2⟩ := Same.spell P (allWS_plain h1.2) g1
    obtain ⟨cs, r3, i1, rfl, i3, rfl, g3⟩ := g2.quoted P h2
    rw [P.conv i1]
    exact ⟨_, r3, .system sp q _ h1 i3, by simp only [List.append_assoc], g3⟩
  | pub sp1 q1 cs sp2 q2 ws h1 h2 h3 h4 h5 =>
    simp only [List.append_assoc] at h
    obtain ⟨r1, rfl, g1⟩ := Same.spell P (by decide) h
    obtain ⟨r2, rfl, g2⟩ := Same.spell P (allWS_plain h1.2) g1
    obtain ⟨r3, i3, rfl, g3⟩ := g2.pubid P h2 h3
    obtain ⟨r4, rfl, g4⟩ := Same.spell P (allWS_plain h4.2) g3
    obtain ⟨ds, r5, j1, rfl, j3, rfl, g5⟩ := g4.quoted P h5
    rw [P.conv j1]
    exact ⟨_, r5, .pub sp1 q1 cs sp2 q2 _ h1 i3 h3 h4 j3, by simp only [List.append_assoc], g5⟩

theorem Same.notationID {w : Buf} {pub sys : Option Buf} (hw : NotationID x asc w pub sys) {r b : Buf} (h : Same enc enc' ok (w ++ r) b) :
    ∃ w' r', NotationID y asc' w' pub sys ∧ b = w' ++ r' ∧ Same enc enc' ok r r' := by
  cases hw with
  | external _ _ sys hw =>
    obtain ⟨w', r', h1, h2, h3⟩ := Same.externalID P hw h
    exact ⟨w', r', .external _ _ _ h1, h2, h3⟩
  | pubOnly sp q cs h1 h2 h3 =>
    simp only [List.append_assoc] at h
    obtain ⟨r1, rfl, g1⟩ := Same.spell P (by decide) h
    obtain ⟨r2, rfl, g2⟩ := Same.spell P (allWS_plain h1.2) g1
    obtain ⟨r3, i3, rfl, g3⟩ := g2.pubid P h2 h3
    exact ⟨_, r3, .pubOnly sp q cs h1 i3 h3, by simp only [List.append_assoc], g3⟩

/-! ### Enumerations -/

theorem Same.enum {T T' : List Buf → Prop}
    (hT : ∀ {ws : List Buf} {r b : Buf}, T ws → Same enc enc' ok (ws.flatten ++ r) b → ∃ (cs : List Nat) (r' : Buf), (∀ c ∈ cs, ok c) ∧ ws = cs.map enc ∧
      T' (cs.map enc') ∧ b = (cs.map enc').flatten ++ r' ∧ Same enc enc' ok r r')
    {ms : List (List UInt8 × List Buf × List UInt8)} (hm : ∀ m ∈ ms, AllWS m.1 ∧ T m.2.1 ∧ AllWS m.2.2) :
    ∀ {r b : Buf}, Same enc enc' ok (enumText asc ms ++ r) b → ∃ (ms' : List (List UInt8 × List Buf × List UInt8)) (r' : Buf),
      (ms' = [] ↔ ms = []) ∧ (∀ m ∈ ms', AllWS m.1 ∧ T' m.2.1 ∧ AllWS m.2.2) ∧
      (ms.map fun m => converted x m.2.1.flatten) = (ms'.map fun m => converted y m.2.1.flatten) ∧ b = enumText asc' ms' ++ r' ∧ Same enc enc' ok r r' := by
  induction ms with
  | nil => intro r b h; exact ⟨[], b, by simp, by simp, rfl, rfl, h⟩
  | cons m ms ih =>
    intro r b h
    obtain ⟨s1, t, s2⟩ := m
    obtain ⟨h1, h2, h3⟩ := hm _ (List.mem_cons_self ..)
    simp only at h1 h2 h3
    cases ms with
    | nil =>
      simp only [enumText, List.append_assoc] at h
      obtain ⟨r1, rfl, g1⟩ := Same.spell P (allWS_plain h1) h
      obtain ⟨cs, r2, i1, rfl, i3, rfl, g2⟩ := hT h2 g1
      obtain ⟨r3, rfl, g3⟩ := Same.spell P (allWS_plain h3) g2
      refine ⟨[(s1, cs.map enc', s2)], r3, by simp, ?_, ?_, by simp only [enumText, List.append_assoc], g3⟩
      · intro m hm
        simp only [List.mem_singleton] at hm
        subst hm
        exact ⟨h1, i3, h3⟩
      · simp only [List.map_cons, List.map_nil, P.conv i1]
    | cons m2 ms =>
      simp only [enumText, List.append_assoc] at h
      obtain ⟨r1, rfl, g1⟩ := Same.spell P (allWS_plain h1) h
      obtain ⟨cs, r2, i1, rfl, i3, rfl, g2⟩ := hT h2 g1
      obtain ⟨r3, rfl, g3⟩ := Same.spell P (allWS_plain h3) g2
      obtain ⟨r4, rfl, g4⟩ := g3.lit P (by decide) (by decide)
      obtain ⟨ms', r5, j1, j2, j3, rfl, g5⟩ := ih (fun m h => hm m (List.mem_cons_of_mem _ h)) g4
      cases ms' with
      | nil => exact absurd (j1.1 rfl) (by simp)
      | cons m2' ms' =>
        refine ⟨(s1, cs.map enc', s2) :: m2' :: ms', r5, by simp, ?_, ?_, by simp only [enumText, List.append_assoc], g5⟩
        · intro m hm
          rcases List.mem_cons.1 hm with rfl | hm
          · exact ⟨h1, i3, h3⟩
          · exact j2 m hm
        · simp only [List.map_cons, P.conv i1] at j3 ⊢
          rw [j3]

theorem Same.attType {w : Buf} {c i : Bool} {ty : Buf} (hw : AttTypeText x asc w c i ty) {r b : Buf} (h : Same enc enc' ok (w ++ r) b) :
    ∃ w' r', AttTypeText y asc' w' c i ty ∧ b = w' ++ r' ∧ Same enc enc' ok r r' := by
  cases hw with
  | keyword _ hk =>
    have hp : ∀ kw ∈ typeKeywords, Plain7 kw := by decide
    obtain ⟨r1, rfl, g1⟩ := Same.spell P (hp _ hk) h
    exact ⟨_, r1, .keyword _ hk, rfl, g1⟩
  | enum ms h0 hm =>
    simp only [List.append_assoc] at h
    obtain ⟨r1, rfl, g1⟩ := h.lit P (by decide) (by decide)
    obtain ⟨ms', r2, j1, j2, j3, rfl, g2⟩ := Same.enum P (T := x.e.Nmtoken asc) (T' := y.e.Nmtoken asc') (fun hn hs => hs.nmtoken P hn) hm g1
    obtain ⟨r3, rfl, g3⟩ := g2.lit P (by decide) (by decide)
    rw [enumType, j3]
    exact ⟨_, r3, .enum ms' (fun e => h0 (j1.1 e)) j2, by simp only [List.append_assoc], g3⟩
  | notations sp ms h1 h0 hm =>
    simp only [List.append_assoc] at h
    obtain ⟨r0, rfl, g0⟩ := Same.spell P (by decide) h
    obtain ⟨r00, rfl, g00⟩ := Same.spell P (allWS_plain h1.2) g0
    obtain ⟨r1, rfl, g1⟩ := g00.lit P (by decide) (by decide)
    obtain ⟨ms', r2, j1, j2, j3, rfl, g2⟩ := Same.enum P (T := x.e.Name) (T' := y.e.Name) (fun hn hs => hs.name P hn) hm g1
    obtain ⟨r3, rfl, g3⟩ := g2.lit P (by decide) (by decide)
    rw [enumType, j3]
    exact ⟨_, r3, .notations sp ms' h1 (fun e => h0 (j1.1 e)) j2, by simp only [List.append_assoc], g3⟩

/-! ### Content models -/

theorem Same.quant {q : Quant} {r b : Buf} (h : Same enc enc' ok (quantText asc q ++ r) b) : ∃ r', b = quantText asc' q ++ r' ∧ Same enc enc' ok r r' := by
  cases q with
  | NONE => exact ⟨b, rfl, h⟩
  | OPT => exact h.lit P (by decide) (by decide)
  | REP => exact h.lit P (by decide) (by decide)
  | PLUS => exact h.lit P (by decide) (by decide)

theorem Same.sy {s : Sy} {w : Buf} (hw : SyText x asc s w) {r b : Buf} (h : Same enc enc' ok (w ++ r) b) :
    ∃ w' r', SyText y asc' s w' ∧ b = w' ++ r' ∧ Same enc enc' ok r r' := by
  cases hw with
  | nm q name hn =>
    rw [List.append_assoc] at h
    obtain ⟨cs, r1, i1, rfl, i3, rfl, g1⟩ := h.dname P hn
    obtain ⟨r2, rfl, g2⟩ := g1.quant P
    rw [P.conv i1]
    exact ⟨_, r2, .nm q _ i3, by rw [List.append_assoc], g2⟩
  | opn =>
    obtain ⟨r1, rfl, g1⟩ := h.lit P (by decide) (by decide)
    exact ⟨_, r1, .opn, rfl, g1⟩
  | cls q =>
    rw [List.append_assoc] at h
    obtain ⟨r1, rfl, g1⟩ := h.lit P (by decide) (by decide)
    obtain ⟨r2, rfl, g2⟩ := g1.quant P
    exact ⟨_, r2, .cls q, by rw [List.append_assoc], g2⟩
  | comma =>
    obtain ⟨r1, rfl, g1⟩ := h.lit P (by decide) (by decide)
    exact ⟨_, r1, .comma, rfl, g1⟩
  | bar =>
    obtain ⟨r1, rfl, g1⟩ := h.lit P (by decide) (by decide)
    exact ⟨_, r1, .bar, rfl, g1⟩
  | pcdata =>
    rw [List.append_assoc] at h
    obtain ⟨r1, rfl, g1⟩ := h.lit P (by decide) (by decide)
    obtain ⟨r2, rfl, g2⟩ := Same.spell P (by decide) g1
    exact ⟨_, r2, .pcdata, by rw [List.append_assoc], g2⟩

theorem Same.sys {ss : List Sy} {w : Buf} (hw : SyTexts x asc ss w) : ∀ {r b : Buf}, Same enc enc' ok (w ++ r) b →
    ∃ w' r', SyTexts y asc' ss w' ∧ b = w' ++ r' ∧ Same enc enc' ok r r' := by
  induction hw with
  | nil => intro r b h; exact ⟨[], b, .nil, rfl, h⟩
  | cons sp h1 h2 _ ih =>
    intro r b h
    simp only [List.append_assoc] at h
    obtain ⟨r1, rfl, g1⟩ := Same.spell P (allWS_plain h1) h
    obtain ⟨w', r2, i1, rfl, g2⟩ := Same.sy P h2 g1
    obtain ⟨w2, r3, j1, rfl, g3⟩ := ih g2
    exact ⟨_, r3, .cons sp h1 i1 j1, by simp only [List.append_assoc], g3⟩

theorem Same.contentSpec {m : CM} {w : Buf} (hw : ContentSpecText x asc m w) {r b : Buf} (h : Same enc enc' ok (w ++ r) b) :
    ∃ w' r', ContentSpecText y asc' m w' ∧ b = w' ++ r' ∧ Same enc enc' ok r r' := by
  cases hw with
  | empty =>
    obtain ⟨r1, rfl, g1⟩ := Same.spell P (by decide) h
    exact ⟨_, r1, .empty, rfl, g1⟩
  | any =>
    obtain ⟨r1, rfl, g1⟩ := Same.spell P (by decide) h
    exact ⟨_, r1, .any, rfl, g1⟩
  | mixed q ks w h1 h2 =>
    obtain ⟨w', r1, i1, rfl, g1⟩ := Same.sys P h2 h
    exact ⟨_, r1, .mixed q ks _ h1 i1, rfl, g1⟩
  | children ty q ks w h1 h2 =>
    obtain ⟨w', r1, i1, rfl, g1⟩ := Same.sys P h2 h
    exact ⟨_, r1, .children ty q ks _ h1 i1, rfl, g1⟩

end

/-! ### Declarations -/

section
variable {k : Ctx} {y : XEnc} {asc' : UInt8 → Buf} {enc enc' : Nat → Buf} {ok : Nat → Prop} (P : Pair k.x k.asc enc y asc' enc' ok)
include P

theorem Same.entityDef {D : DTab} {p : Bool} {w : Buf} {d : EntityDef} (hw : EntityDefText k D p w d) {r b : Buf} (h : Same enc enc' ok (w ++ r) b) :
    ∃ w' r', EntityDefText (k.into y asc') D p w' d ∧ b = w' ++ r' ∧ Same enc enc' ok r r' := by
  cases hw with
  | value _ q ws v h1 h2 =>
    obtain ⟨cs, r1, i1, rfl, i3, rfl, g1⟩ := h.quoted P h1
    refine ⟨_, r1, .value (k := k.into y asc') p q _ v i3 (fun hk => ?_), rfl, g1⟩
    have := Same.repl P (h2 hk) rfl rfl (same_map i1)
    rw [P.ends] at this
    exact this
  | external _ _ pub sys h1 =>
    obtain ⟨w', r1, i1, rfl, g1⟩ := Same.externalID P h1 h
    exact ⟨_, r1, .external p w' pub sys i1, rfl, g1⟩
  | unparsed w pub sys sp1 sp2 name h1 h2 h3 h4 =>
    simp only [List.append_assoc] at h
    obtain ⟨w', r1, i1, rfl, g1⟩ := Same.externalID P h1 h
    obtain ⟨r2, rfl, g2⟩ := Same.spell P (allWS_plain h2.2) g1
    obtain ⟨r3, rfl, g3⟩ := Same.spell P (by decide) g2
    obtain ⟨r4, rfl, g4⟩ := Same.spell P (allWS_plain h3.2) g3
    obtain ⟨cs, r5, j1, rfl, j3, rfl, g5⟩ := g4.name P h4
    rw [P.conv j1]
    exact ⟨_, r5, .unparsed (k := k.into y asc') w' pub sys sp1 sp2 _ i1 h2 h3 j3, by simp only [List.append_assoc]; rfl, g5⟩

theorem counts_iff {D : DTab} {p : Bool} {cs : List Nat} (h : ∀ c ∈ cs, ok c) :
    Counts (k.into y asc') D p (cs.map enc').flatten ↔ Counts k D p (cs.map enc).flatten := by
  have hp : isPredefined asc' (cs.map enc').flatten ↔ isPredefined k.asc (cs.map enc).flatten := by
    have h7 : ∀ n ∈ ([[0x6C, 0x74], [0x67, 0x74], [0x61, 0x6D, 0x70], [0x71, 0x75, 0x6F, 0x74], [0x61, 0x70, 0x6F, 0x73]] : List (List UInt8)), Plain7 n := by
      decide
    constructor
    · rintro ⟨n, h1, h2⟩
      exact ⟨n, h1, (P.spell_iff h (h7 n h1)).2 h2⟩
    · rintro ⟨n, h1, h2⟩
      exact ⟨n, h1, (P.spell_iff h (h7 n h1)).1 h2⟩
  simp only [Counts, C59.Ctx.into, hp, P.conv h]

theorem Same.default {D : DTab} {cd : Bool} {w : Buf} {v : Option Buf} {req : Bool} (hw : DefaultText k D cd w v req) {r b : Buf}
    (h : Same enc enc' ok (w ++ r) b) : ∃ w' r', DefaultText (k.into y asc') D cd w' v req ∧ b = w' ++ r' ∧ Same enc enc' ok r r' := by
  have hv {cs : List Nat} (hc : ∀ c ∈ cs, ok c) {v : Buf} (h : DefaultValue k D cd (cs.map enc).flatten v) :
      DefaultValue (k.into y asc') D cd (cs.map enc').flatten v := by
    obtain ⟨out, h1, h2⟩ := h
    refine ⟨out, ?_, h2⟩
    have := Same.norm P h1 rfl rfl (same_map hc)
    rw [P.ends] at this
    exact this
  cases hw with
  | implied =>
    rw [List.append_assoc] at h
    obtain ⟨r1, rfl, g1⟩ := h.lit P (by decide) (by decide)
    obtain ⟨r2, rfl, g2⟩ := Same.spell P (by decide) g1
    exact ⟨_, r2, .implied, by rw [List.append_assoc]; rfl, g2⟩
  | required =>
    rw [List.append_assoc] at h
    obtain ⟨r1, rfl, g1⟩ := h.lit P (by decide) (by decide)
    obtain ⟨r2, rfl, g2⟩ := Same.spell P (by decide) g1
    exact ⟨_, r2, .required, by rw [List.append_assoc]; rfl, g2⟩
  | value q ws v h1 h2 =>
    obtain ⟨cs, r1, i1, rfl, i3, rfl, g1⟩ := h.quoted P h1
    exact ⟨_, r1, .value (k := k.into y asc') q _ v i3 (fun hk => hv i1 (h2 hk)), rfl, g1⟩
  | fixed sp q ws v h0 h1 h2 =>
    simp only [List.append_assoc] at h
    obtain ⟨r1, rfl, g1⟩ := h.lit P (by decide) (by decide)
    obtain ⟨r2, rfl, g2⟩ := Same.spell P (by decide) g1
    obtain ⟨r3, rfl, g3⟩ := Same.spell P (allWS_plain h0.2) g2
    obtain ⟨cs, r4, i1, rfl, i3, rfl, g4⟩ := g3.quoted P h1
    exact ⟨_, r4, .fixed (k := k.into y asc') sp q _ v h0 i3 (fun hk => hv i1 (h2 hk)), by simp only [List.append_assoc]; rfl, g4⟩

theorem Same.attDef {D D' : DTab} {elem w : Buf} {E : List PEv} (hw : AttDef k elem D w E D') {r b : Buf} (h : Same enc enc' ok (w ++ r) b) :
    ∃ w' r', AttDef (k.into y asc') elem D w' E D' ∧ b = w' ++ r' ∧ Same enc enc' ok r r' := by
  cases hw with
  | mk sp1 sp2 sp3 name type dflt isCdata isId ty value req h1 h2 h3 h4 h5 h6 =>
    simp only [List.append_assoc] at h
    obtain ⟨r1, rfl, g1⟩ := Same.spell P (allWS_plain h1.2) h
    obtain ⟨cs, r2, i1, rfl, i3, rfl, g2⟩ := g1.dname P h2
    obtain ⟨r3, rfl, g3⟩ := Same.spell P (allWS_plain h3.2) g2
    obtain ⟨w1, r4, j1, rfl, g4⟩ := Same.attType P h4 g3
    obtain ⟨r5, rfl, g5⟩ := Same.spell P (allWS_plain h5.2) g4
    obtain ⟨w2, r6, j2, rfl, g6⟩ := Same.default P h6 g5
    rw [P.conv i1]
    exact ⟨_, r6, .mk (k := k.into y asc') sp1 sp2 sp3 _ w1 w2 isCdata isId ty value req h1 i3 h3 j1 h5 j2, by simp only [List.append_assoc]; rfl, g6⟩

theorem Same.attDefs {D D' : DTab} {elem w : Buf} {E : List PEv} (hw : AttDefs k elem D w E D') : ∀ {r b : Buf}, Same enc enc' ok (w ++ r) b →
    ∃ w' r', AttDefs (k.into y asc') elem D w' E D' ∧ b = w' ++ r' ∧ Same enc enc' ok r r' := by
  induction hw with
  | nil D => intro r b h; exact ⟨[], b, .nil D, rfl, h⟩
  | cons h1 _ ih =>
    intro r b h
    rw [List.append_assoc] at h
    obtain ⟨w1, r1, i1, rfl, g1⟩ := Same.attDef P h1 h
    obtain ⟨w2, r2, i2, rfl, g2⟩ := ih g1
    exact ⟨_, r2, .cons i1 i2, by rw [List.append_assoc], g2⟩

theorem Same.declOpen {kw : List UInt8} (hk : Plain7 kw) {r b : Buf} (h : Same enc enc' ok (declOpen k.asc kw ++ r) b) :
    ∃ r', b = C59.declOpen asc' kw ++ r' ∧ Same enc enc' ok r r' := by
  simp only [C59.declOpen, List.append_assoc] at h
  obtain ⟨r1, rfl, g1⟩ := h.lit P (by decide) (by decide)
  obtain ⟨r2, rfl, g2⟩ := g1.lit P (by decide) (by decide)
  obtain ⟨r3, rfl, g3⟩ := Same.spell P hk g2
  exact ⟨r3, by simp only [C59.declOpen, List.append_assoc], g3⟩

theorem Same.peref {name : List Buf} (hn : k.x.e.Name name) {r b : Buf} (h : Same enc enc' ok (perefText k.asc name ++ r) b) :
    ∃ (cs : List Nat) (r' : Buf), (∀ c ∈ cs, ok c) ∧ name = cs.map enc ∧ y.e.Name (cs.map enc') ∧ b = perefText asc' (cs.map enc') ++ r' ∧ Same enc enc' ok r r' := by
  simp only [perefText, List.append_assoc] at h
  obtain ⟨r1, rfl, g1⟩ := h.lit P (by decide) (by decide)
  obtain ⟨cs, r2, i1, rfl, i3, rfl, g2⟩ := g1.name P hn
  obtain ⟨r3, rfl, g3⟩ := g2.lit P (by decide) (by decide)
  exact ⟨cs, r3, i1, rfl, i3, by simp only [perefText, List.append_assoc], g3⟩

theorem Same.decl {D D' : DTab} {w : Buf} {A : List Said} (hw : Decl k D w A D') {r b : Buf} (h : Same enc enc' ok (w ++ r) b)
    (hb : b.length + 3 < 2 ^ 31) : ∃ w' r', Decl (k.into y asc') D w' A D' ∧ b = w' ++ r' ∧ Same enc enc' ok r r' := by
  cases hw with
  | space d hd =>
    have hp := isWS_plain hd
    obtain ⟨r1, rfl, g1⟩ := h.lit P hp.1 hp.2
    exact ⟨_, r1, .space (k := k.into y asc') d hd, rfl, g1⟩
  | comment ws hc =>
    obtain ⟨cs, r1, i1, rfl, i3, rfl, g1⟩ := h.comment P hc
    rw [P.conv i1]
    exact ⟨_, r1, .comment (k := k.into y asc') _ i3, rfl, g1⟩
  | pi target sp ws hc =>
    obtain ⟨cs, ds, r1, i1, i2, rfl, rfl, i3, rfl, g1⟩ := h.pi P hc
    rw [P.conv i1, P.conv i2]
    exact ⟨_, r1, .pi (k := k.into y asc') _ sp _ i3, rfl, g1⟩
  | entity sp1 name sp2 w d sp3 h1 h2 h3 h4 h5 E D' h6 h7 =>
    simp only [List.append_assoc] at h
    obtain ⟨r1, rfl, g1⟩ := Same.declOpen P (by decide) h
    obtain ⟨r2, rfl, g2⟩ := Same.spell P (allWS_plain h1.2) g1
    obtain ⟨cs, r3, i1, rfl, i3, rfl, g3⟩ := g2.name P h2
    obtain ⟨r4, rfl, g4⟩ := Same.spell P (allWS_plain h3.2) g3
    obtain ⟨w', r5, j1, rfl, g5⟩ := Same.entityDef P h4 g4
    obtain ⟨r6, rfl, g6⟩ := Same.spell P (allWS_plain h5) g5
    obtain ⟨r7, rfl, g7⟩ := g6.lit P (by decide) (by decide)
    rw [← counts_iff P i1, P.conv i1] at h6
    rw [← counts_iff P i1] at h7
    exact ⟨_, r7, .entity (k := k.into y asc') sp1 _ sp2 w' d sp3 h1 i3 h3 j1 h5 E D' h6 h7, by simp only [List.append_assoc]; rfl, g7⟩
  | paramEntity sp0 sp1 name sp2 w d sp3 h0 h1 h2 h3 h4 h5 E D' h6 h7 =>
    simp only [List.append_assoc] at h
    obtain ⟨r1, rfl, g1⟩ := Same.declOpen P (by decide) h
    obtain ⟨r1, rfl, f1⟩ := Same.spell P (allWS_plain h0.2) g1
    obtain ⟨r1, rfl, f2⟩ := f1.lit P (by decide) (by decide)
    obtain ⟨r2, rfl, g2⟩ := Same.spell P (allWS_plain h1.2) f2
    obtain ⟨cs, r3, i1, rfl, i3, rfl, g3⟩ := g2.name P h2
    obtain ⟨r4, rfl, g4⟩ := Same.spell P (allWS_plain h3.2) g3
    obtain ⟨w', r5, j1, rfl, g5⟩ := Same.entityDef P h4 g4
    obtain ⟨r6, rfl, g6⟩ := Same.spell P (allWS_plain h5) g5
    obtain ⟨r7, rfl, g7⟩ := g6.lit P (by decide) (by decide)
    rw [← counts_iff P i1, P.conv i1] at h6
    rw [← counts_iff P i1] at h7
    exact ⟨_, r7, .paramEntity (k := k.into y asc') sp0 sp1 _ sp2 w' d sp3 h0 h1 i3 h3 j1 h5 E D' h6 h7, by simp only [List.append_assoc]; rfl, g7⟩
  | notation_ sp1 name sp2 w pub sys sp3 h1 h2 h3 h4 h5 =>
    simp only [List.append_assoc] at h
    obtain ⟨r1, rfl, g1⟩ := Same.declOpen P (by decide) h
    obtain ⟨r2, rfl, g2⟩ := Same.spell P (allWS_plain h1.2) g1
    obtain ⟨cs, r3, i1, rfl, i3, rfl, g3⟩ := g2.name P h2
    obtain ⟨r4, rfl, g4⟩ := Same.spell P (allWS_plain h3.2) g3
    obtain ⟨w', r5, j1, rfl, g5⟩ := Same.notationID P h4 g4
    obtain ⟨r6, rfl, g6⟩ := Same.spell P (allWS_plain h5) g5
    obtain ⟨r7, rfl, g7⟩ := g6.lit P (by decide) (by decide)
    rw [P.conv i1]
    exact ⟨_, r7, .notation_ (k := k.into y asc') sp1 _ sp2 w' pub sys sp3 h1 i3 h3 j1 h5, by simp only [List.append_assoc]; rfl, g7⟩
  | attlist sp1 name w sp2 E D' h1 h2 h3 h4 =>
    simp only [List.append_assoc] at h
    obtain ⟨r1, rfl, g1⟩ := Same.declOpen P (by decide) h
    obtain ⟨r2, rfl, g2⟩ := Same.spell P (allWS_plain h1.2) g1
    obtain ⟨cs, r3, i1, rfl, i3, rfl, g3⟩ := g2.dname P h2
    obtain ⟨w', r5, j1, rfl, g5⟩ := Same.attDefs P h3 g3
    obtain ⟨r6, rfl, g6⟩ := Same.spell P (allWS_plain h4) g5
    obtain ⟨r7, rfl, g7⟩ := g6.lit P (by decide) (by decide)
    rw [P.conv i1] at j1
    exact ⟨_, r7, .attlist (k := k.into y asc') sp1 _ w' sp2 E D' h1 i3 j1 h4, by simp only [List.append_assoc]; rfl, g7⟩
  | element sp1 name sp2 m w sp3 h1 h2 h3 h4 h5 h6 =>
    simp only [List.append_assoc] at h
    obtain ⟨r1, rfl, g1⟩ := Same.declOpen P (by decide) h
    obtain ⟨r2, rfl, g2⟩ := Same.spell P (allWS_plain h1.2) g1
    obtain ⟨cs, r3, i1, rfl, i3, rfl, g3⟩ := g2.dname P h2
    obtain ⟨r4, rfl, g4⟩ := Same.spell P (allWS_plain h3.2) g3
    obtain ⟨w', r5, j1, rfl, g5⟩ := Same.contentSpec P h4 g4
    obtain ⟨r6, rfl, g6⟩ := Same.spell P (allWS_plain h5) g5
    obtain ⟨r7, rfl, g7⟩ := g6.lit P (by decide) (by decide)
    rw [P.conv i1]
    exact ⟨_, r7, .element (k := k.into y asc') sp1 _ sp2 m w' sp3 h1 i3 h3 j1 h5 (by simp only [List.length_append] at hb; omega),
      by simp only [List.append_assoc]; rfl, g7⟩
  | refUnread name h1 h2 h3 =>
    obtain ⟨cs, r1, i1, rfl, i3, rfl, g1⟩ := Same.peref P h1 h
    exact ⟨_, r1, .refUnread (k := k.into y asc') _ i3 h2 h3, rfl, g1⟩
  | refUnknown name h1 h2 h3 h4 =>
    obtain ⟨cs, r1, i1, rfl, i3, rfl, g1⟩ := Same.peref P h1 h
    rw [P.conv i1] at h3 ⊢
    exact ⟨_, r1, .refUnknown (k := k.into y asc') _ i3 h2 h3 h4, rfl, g1⟩
  | refExternal name ent h1 h2 h3 h4 h5 h6 h7 h8 =>
    obtain ⟨cs, r1, i1, rfl, i3, rfl, g1⟩ := Same.peref P h1 h
    rw [P.conv i1] at h3 h5
    exact ⟨_, r1, .refExternal (k := k.into y asc') _ ent i3 h2 h3 h4 h5 h6 h7 h8, rfl, g1⟩

omit P in
theorem Same.decls {k0 : Ctx} {D D' : DTab} {w : Buf} {A : List Said} (hw : Decls k0 D w A D') : Pair k0.x k0.asc enc y asc' enc' ok →
    ∀ {r b : Buf}, Same enc enc' ok (w ++ r) b → b.length + 3 < 2 ^ 31 →
    ∃ w' r', Decls (k0.into y asc') D w' A D' ∧ b = w' ++ r' ∧ Same enc enc' ok r r' := by
  induction hw with
  | nil k D => intro _ r b h _; exact ⟨[], b, .nil _ D, rfl, h⟩
  | cons h1 _ ih =>
    intro P r b h hb
    rw [List.append_assoc] at h
    obtain ⟨w1, r1, i1, rfl, g1⟩ := Same.decl P h1 h hb
    obtain ⟨w2, r2, i2, rfl, g2⟩ := ih P g1 (by simp only [List.length_append] at hb; omega)
    exact ⟨_, r2, .cons i1 i2, by rw [List.append_assoc], g2⟩
  | ref name ent h1 h2 h3 h4 h5 h6 h7 h8 _ _ ih =>
    intro P r b h hb
    rw [List.append_assoc] at h
    obtain ⟨cs, r1, i1, rfl, i3, rfl, g1⟩ := Same.peref P h1 h
    obtain ⟨w2, r2, i2, rfl, g2⟩ := ih P g1 (by simp only [List.length_append] at hb; omega)
    rw [P.conv i1] at h3 h5 h7
    exact ⟨_, r2, .ref (k := C59.Ctx.into _ y asc') _ ent i3 h2 h3 h4 h5 h6 h7 h8 i2, by rw [List.append_assoc]; rfl, g2⟩

/-! ### The document type declaration -/

theorem Same.miscs {w : Buf} {E : List PEv} (hw : Miscs k w E) : ∀ {r b : Buf}, Same enc enc' ok (w ++ r) b →
    ∃ w' r', Miscs (k.into y asc') w' E ∧ b = w' ++ r' ∧ Same enc enc' ok r r' := by
  induction hw with
  | nil => intro r b h; exact ⟨[], b, .nil, rfl, h⟩
  | space d hd _ ih =>
    intro r b h
    rw [List.append_assoc] at h
    have hp := isWS_plain hd
    obtain ⟨r1, rfl, g1⟩ := h.lit P hp.1 hp.2
    obtain ⟨w2, r2, i2, rfl, g2⟩ := ih g1
    exact ⟨_, r2, .space (k := k.into y asc') d hd i2, by rw [List.append_assoc]; rfl, g2⟩
  | comment ws hc _ ih =>
    intro r b h
    rw [List.append_assoc] at h
    obtain ⟨cs, r1, i1, rfl, i3, rfl, g1⟩ := h.comment P hc
    obtain ⟨w2, r2, i2, rfl, g2⟩ := ih g1
    rw [P.conv i1]
    exact ⟨_, r2, .comment (k := k.into y asc') _ i3 i2, by rw [List.append_assoc]; rfl, g2⟩
  | pi target sp ws hc _ ih =>
    intro r b h
    rw [List.append_assoc] at h
    obtain ⟨cs, ds, r1, i1, j1, rfl, rfl, i3, rfl, g1⟩ := h.pi P hc
    obtain ⟨w2, r2, i2, rfl, g2⟩ := ih g1
    rw [P.conv i1, P.conv j1]
    exact ⟨_, r2, .pi (k := k.into y asc') _ sp _ i3 i2, by rw [List.append_assoc]; rfl, g2⟩

theorem Same.outer {D D' : DTab} {w : Buf} {pub sys : Option Buf} {E : List PEv} (hw : Outer k D w pub sys E D') {r b : Buf} (h : Same enc enc' ok (w ++ r) b) :
    ∃ w' r', Outer (k.into y asc') D w' pub sys E D' ∧ b = w' ++ r' ∧ Same enc enc' ok r r' := by
  cases hw with
  | none => exact ⟨[], b, .none, rfl, h⟩
  | some sp w pub sys h1 h2 h3 h4 =>
    rw [List.append_assoc] at h
    obtain ⟨r1, rfl, g1⟩ := Same.spell P (allWS_plain h1.2) h
    obtain ⟨w', r2, i1, rfl, g2⟩ := Same.externalID P h2 g1
    exact ⟨_, r2, .some (k := k.into y asc') sp w' _ sys h1 i1 h3 h4, by rw [List.append_assoc]; rfl, g2⟩

theorem Same.inner {D D' : DTab} {w : Buf} {i : Bool} {A : List Said} (hw : C59.Inner k D w i A D') {r b : Buf} (h : Same enc enc' ok (w ++ r) b)
    (hb : b.length + 3 < 2 ^ 31) : ∃ w' r', C59.Inner (k.into y asc') D w' i A D' ∧ b = w' ++ r' ∧ Same enc enc' ok r r' := by
  cases hw with
  | none => exact ⟨[], b, .none, rfl, h⟩
  | some w A D' sp h1 h2 =>
    simp only [List.append_assoc] at h
    obtain ⟨r1, rfl, g1⟩ := h.lit P (by decide) (by decide)
    obtain ⟨w', r2, i1, rfl, g2⟩ := Same.decls h1 P g1 (by simp only [List.length_append] at hb; omega)
    obtain ⟨r3, rfl, g3⟩ := g2.lit P (by decide) (by decide)
    obtain ⟨r4, rfl, g4⟩ := Same.spell P (allWS_plain h2) g3
    exact ⟨_, r4, .some (k := k.into y asc') w' A _ sp i1 h2, by simp only [List.append_assoc]; rfl, g4⟩

theorem Same.doctype {D D' : DTab} {w : Buf} {A : List Said} (hw : Doctype k D w A D') {r b : Buf} (h : Same enc enc' ok (w ++ r) b)
    (hb : b.length + 3 < 2 ^ 31) : ∃ w' r', Doctype (k.into y asc') D w' A D' ∧ b = w' ++ r' ∧ Same enc enc' ok r r' := by
  cases hw with
  | mk sp1 name w1 sp2 w2 pub sys i E A D1 D2 h1 h2 h3 h4 h5 =>
    simp only [List.append_assoc] at h
    obtain ⟨r1, rfl, g1⟩ := Same.declOpen P (by decide) h
    obtain ⟨r2, rfl, g2⟩ := Same.spell P (allWS_plain h1.2) g1
    obtain ⟨cs, r3, i1, rfl, i3, rfl, g3⟩ := g2.dname P h2
    obtain ⟨w1', r4, j1, rfl, g4⟩ := Same.outer P h3 g3
    obtain ⟨r5, rfl, g5⟩ := Same.spell P (allWS_plain h4) g4
    obtain ⟨w2', r6, j2, rfl, g6⟩ := Same.inner P h5 g5 (by simp only [List.length_append] at hb; omega)
    obtain ⟨r7, rfl, g7⟩ := g6.lit P (by decide) (by decide)
    rw [P.conv i1]
    exact ⟨_, r7, .mk (k := k.into y asc') sp1 _ w1' sp2 w2' pub sys i E A D1 D2 h1 i3 j1 h4 j2, by simp only [List.append_assoc]; rfl, g7⟩

/-- A prolog in one encoding is a prolog in the other, with the same declarations reported alike. -/
theorem Same.prolog {D D' : DTab} {w : Buf} {A : List Said} (hw : PrologText k D w A D') {r b : Buf} (h : Same enc enc' ok (w ++ r) b)
    (hb : b.length + 3 < 2 ^ 31) : ∃ w' r', PrologText (k.into y asc') D w' A D' ∧ b = w' ++ r' ∧ Same enc enc' ok r r' := by
  cases hw with
  | plain w E h1 =>
    obtain ⟨w', r1, i1, rfl, g1⟩ := Same.miscs P h1 h
    exact ⟨w', r1, .plain _ E i1, rfl, g1⟩
  | typed w1 w2 w3 E1 E3 A D' h1 h2 h3 =>
    simp only [List.append_assoc] at h
    obtain ⟨w1', r1, i1, rfl, g1⟩ := Same.miscs P h1 h
    obtain ⟨w2', r2, i2, rfl, g2⟩ := Same.doctype P h2 g1 (by simp only [List.length_append] at hb; omega)
    obtain ⟨w3', r3, i3, rfl, g3⟩ := Same.miscs P h3 g2
    exact ⟨_, r3, .typed _ _ _ E1 E3 A D' i1 i2 i3, by simp only [List.append_assoc], g3⟩

end

end Verif
