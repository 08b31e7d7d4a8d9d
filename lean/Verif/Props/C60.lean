import Verif.DocStart
import Verif.Handlers

/-! # C60: a whole document is reported as it is written

XML declaration (or none), prolog, root element, and what follows it.  The specifications are those of C18 (the
declaration), C59 (the prolog) and C55 (the rest). -/

set_option autoImplicit false

namespace Verif.C60
open C43 C53 C59 Spec Verif PState

/-- What a document read in encoding `i` begins with: nothing, or an XML declaration, after which it is read in
encoding `j`. -/
inductive Head (c : PCfg) (i : EncId) : Buf → Option C18.Src → EncId → Prop where
  | none : Head c i [] none i
  | decl (d : C18.Src) (j : EncId) (h : d.Valid false) (h127 : ∀ a ∈ d.encoding, a.value.length ≠ 127)
      (hn : NextEnc c.protocol i d j) : Head c i (xmlDeclText (C54.ascOf i) d) (some d) j

/-- The document declares itself to be standalone. -/
def aloneIn : Option C18.Src → Bool
  | none => false
  | some d => alone d

/-- What is reported for it. -/
def HeadTold (c : PCfg) : Option C18.Src → List PEv → Prop
  | none, V => V = []
  | some d, V => Told c d V

section
variable {c : PCfg} {i j : EncId} {pe : PEParsing}

theorem NextEnc.unit {protocol : Bool} {d : C18.Src} (h : NextEnc protocol i d j) : C54.unitSize i = C54.unitSize j := by
  cases h with
  | named _ _ _ _ _ _ _ h4 => exact h4.1
  | _ => rfl

theorem Head.unit {w : Buf} {d : Option C18.Src} (h : Head c i w d j) : (i.x c.c.ns).e.mb = (j.x c.c.ns).e.mb := by
  rw [C54.mb_unit, C54.mb_unit]
  cases h with
  | none => rfl
  | decl d _ _ _ hn => exact hn.unit

/-- The prolog with its XML declaration, in one piece. -/
theorem run_whole (hi : XSupported c.int asc1) (he : c.int.e.lineEnds asc1 = false) {h w : Buf} {d : Option C18.Src} {A : List Said} {D' : DTab}
    (h1 : Head c i h d j) (h2 : PrologText (reading c (j.x c.c.ns) (C54.ascOf j) (peAfter (aloneIn d) pe)) { standalone := aloneIn d } w A D') :
    ∃ N, ∀ (ext : Ext) (fuel : Nat), N ≤ fuel → ∀ (r : Buf), (i.x c.c.ns).e.mb ∣ (h ++ (w ++ r)).length → r ≠ [] →
      ((j.x c.c.ns).e.mb ∣ r.length → prologTok (j.x c.c.ns).e r = ⟨.INSTANCE_START, 0⟩) →
      ∃ V E s, HeadTold c d V ∧ Says A E ∧ s.D = D' ∧ s.cur = .builtin j ∧ (j.x c.c.ns).e.mb ∣ r.length ∧
        hear (prologCall c ext fuel [] false (start (.builtin i) pe) (h ++ (w ++ r))) = (V ++ E, s, .content r) := by
  obtain ⟨N, hN⟩ := run_prolog h2 (C54.supported _ j) ⟨hi, he⟩
  refine ⟨N, fun ext fuel hf r hd hr ht => ?_⟩
  rw [C57.call_loop rfl]
  have hm := h1.unit
  cases h1 with
  | none =>
    rw [List.nil_append] at hd
    obtain ⟨s', E, a0, a1, a2, a3, a4⟩ := hN ext fuel fuel hf hf false false (frame (begun (.builtin i) pe false)) (begun (.builtin i) pe false) r
      (begun_untyped _ _ _ _ _) (begun_at _ _ _) rfl rfl hd hr ht
    refine ⟨[], E, s', rfl, a1, a2, a3, a0, ?_⟩
    refine prun_first (s := start (.builtin i) pe) rfl rfl ?_
    have hs : (start (.builtin i) pe).withP { (start (.builtin i) pe).el.p with h := .prolog1 } = begun (.builtin i) pe false := by
      simp [start, begun, peAfter, DState.withP]
    rw [hs, List.nil_append]
    exact a4
  | decl d _ hv h127 hn =>
    obtain ⟨V, b1, b2⟩ := decl_step (ext := ext) (fuel := fuel) (expand := expandPE c ext fuel fuel []) (between := false) (allowClose := true)
      (more := false) (opened := []) hv h127 hn pe (w ++ r) hd
    have hd2 : (j.x c.c.ns).e.mb ∣ (w ++ r).length := by
      rw [← hm]
      rw [List.length_append] at hd
      refine (Nat.dvd_add_right ?_).1 hd
      have S := C54.supported c.c.ns i
      have e1 : xmlDeclText (C54.ascOf i) d = spell (C54.ascOf i) ([0x3C, 0x3F] ++ C07.xmlName ++ d.text ++ [0x3F, 0x3E]) := by
        simp [xmlDeclText, spell, xmlName, C07.xmlName]
      rw [e1, spell, spell_length S.s]
      exact Nat.dvd_mul_left _ _
    obtain ⟨s', E, a0, a1, a2, a3, a4⟩ := hN ext fuel fuel hf hf false false (frame (begun (.builtin j) pe (alone d)))
      (begun (.builtin j) pe (alone d)) r
      (begun_untyped _ _ _ _ _) (begun_at _ _ _) rfl rfl hd2 hr ht
    refine ⟨V, E, s', b1, a1, a2, a3, a0, ?_⟩
    refine b2.trans ?_
    refine (congrArg (Prolog.pre V) a4).trans ?_
    rfl

/-- A document in an encoding that is known: an XML declaration or none, a prolog, a root element with content, and what follows it,
passed in any pieces.  It is accepted; the application is told what the specifications say: of the XML declaration
whether an encoding is declared and standalone, then what the prolog says, then, with the declarations of the prolog, what the
root element and what follows it says, as far as there are handlers (text counted bytewise; calls of the default handler aside). -/
theorem document (a : c.c.expandInternal = true) (hi : XSupported c.int asc1) (he : c.int.e.lineEnds asc1 = false) (ho : c.OtherOk)
    {h w t : Buf} {d : Option C18.Src} {A : List Said} {D' : DTab} {Ev : List Ev}
    (h1 : Head c i h d j)
    (h2 : PrologText (reading c (j.x c.c.ns) (C54.ascOf j) (peAfter (aloneIn d) pe)) { standalone := aloneIn d } w A D')
    (h3 : Document (C64.full c.c) D'.toDtd c.int asc1 (j.x c.c.ns) (C54.ascOf j) t Ev) (hd : (i.x c.c.ns).e.mb ∣ (h ++ (w ++ t)).length) :
    ∃ N, ∀ (ext : Ext) (fuel : Nat), N ≤ fuel → ∀ xs : List Buf, xs.flatten = h ++ (w ++ t) →
      ∃ P s F u q, C57.document c ext fuel (start (.builtin i) pe) [] xs = (P, s, .content F (.ok u q)) ∧
        (∃ V E, heard P = V ++ E ∧ HeadTold c d V ∧ Says A E) ∧ s.D = D' ∧ C64.own (C04.flat F) = Ev.filter (C64.wants c.c) := by
  have S := C54.supported c.c.ns j
  obtain ⟨N, hN⟩ := run_whole (pe := pe) hi he h1 h2
  refine ⟨N, fun ext fuel hf xs hxs => ?_⟩
  have hne : t ≠ [] := by
    rintro rfl
    have := C55.document_starts S h3 (Nat.dvd_zero _)
    cases this
  obtain ⟨V, E, s, a1, a2, a3, a4, a5, a6⟩ := hN ext fuel hf t hd hne (C55.document_starts S h3)
  have hsx : s.x c false = j.x c.c.ns := by rw [DState.x, a4]; rfl
  have hcut : ((start (.builtin i) pe).x c false).Cuts := (C54.supported c.c.ns i).cuts
  have hready : C57.Ready c (prologCall c ext fuel [] false (start (.builtin i) pe) ([] ++ xs.flatten)) := by
    rw [List.nil_append, hxs]
    intro q hq
    have e1 := congrArg (fun r => r.2.1) a6
    have e2 := congrArg (fun r => r.2.2) a6
    simp only [hear] at e1 e2
    rw [hq] at e2
    cases e2
    rw [e1, hsx]
    exact ⟨⟨_, S⟩, a5⟩
  have key := C57.documents_ready (ext := ext) (fuel := fuel) ho xs (start (.builtin i) pe) [] hcut rfl hready
  rw [List.nil_append, hxs] at key
  have hint : c.int.e.mb = 1 := (hi.s.asc.len 0x20).symm
  obtain ⟨F, u, q, f1, f2⟩ := C64.accepted (D := D'.toDtd) S a hi hint [t] (by simpa using a5) (by simpa using h3)
  generalize prologCall c ext fuel [] false (start (.builtin i) pe) (h ++ (w ++ t)) = p at a6 key
  obtain ⟨Ep, sp, op⟩ := p
  simp only [hear, Prod.mk.injEq] at a6
  obtain ⟨e1, rfl, rfl⟩ := a6
  have hfin : C57.finishDoc c (Ep, sp, .content t) = (Ep, sp, .content F (.ok u q)) := by
    rw [C57.finishDoc, C57.content, C57.contentSem, hsx, a3]
    have : Verif.feed (parser c.c D'.toDtd c.int (j.x c.c.ns)) (j.x c.c.ns).e CState.init t [] = (F, .ok u q) := by
      rw [← f1]; rfl
    rw [this]
  rw [hfin] at key
  generalize C57.document c ext fuel (start (.builtin i) pe) [] xs = g at key
  obtain ⟨Eg, sg, og⟩ := g
  obtain ⟨k1, k2⟩ := key
  rcases og with (_ | _ | _ | _) | ⟨G, og⟩ <;> simp only at k2
  obtain ⟨rfl, k2⟩ := k2
  cases og with
  | err e => exact k2.elim
  | ok u' q' =>
    obtain ⟨k3, k4, k5⟩ := k2
    simp only at k1 k3
    refine ⟨Eg, _, G, u', q', rfl, ⟨V, E, ?_, a1, a2⟩, a3, by rw [k3, f2]⟩
    rw [← e1, ← heard_pflat Eg, k1, heard_pflat]

/-- **C60.**  A document from the first byte: a byte order mark or none, an XML declaration or none, a prolog, a root
element with content, and what follows it, passed in any pieces, also cut inside the mark.  The encoding is found; the
document is accepted; the application is told what the specifications say (`document`). -/
theorem parsed (a : c.c.expandInternal = true) (hi : XSupported c.int asc1) (he : c.int.e.lineEnds asc1 = false) (ho : c.OtherOk)
    {idx : EncIndex} {m h w t : Buf} {d : Option C18.Src} {A : List Said} {D' : DTab} {Ev : List Ev}
    (h0 : Found idx m (h ++ (w ++ t)) i) (h1 : Head c i h d j)
    (h2 : PrologText (reading c (j.x c.c.ns) (C54.ascOf j) (peAfter (aloneIn d) pe)) { standalone := aloneIn d } w A D')
    (h3 : Document (C64.full c.c) D'.toDtd c.int asc1 (j.x c.c.ns) (C54.ascOf j) t Ev) (hd : (i.x c.c.ns).e.mb ∣ (h ++ (w ++ t)).length) :
    ∃ N, ∀ (ext : Ext) (fuel : Nat), N ≤ fuel → ∀ (cur : CurEnc) (xs : List Buf), xs.flatten = m ++ (h ++ (w ++ t)) →
      ∃ P s F u q, parse c ext fuel idx (start cur pe) [] xs = (P, s, .content F (.ok u q)) ∧
        (∃ V E, heard P = V ++ E ∧ HeadTold c d V ∧ Says A E) ∧ s.D = D' ∧ C64.own (C04.flat F) = Ev.filter (C64.wants c.c) := by
  obtain ⟨N, hN⟩ := document (pe := pe) a hi he ho h1 h2 h3 hd
  refine ⟨N, fun ext fuel hf cur xs hxs => ?_⟩
  obtain ⟨ys, h4, h5⟩ := parse_found (c := c) (ext := ext) (fuel := fuel) h0 (start cur pe) xs [] hxs
  rw [h5]
  exact hN ext fuel hf ys h4

end

/-! ### Example -/

/-- `<?xml version="1.0" encoding='us-ascii' standalone="yes"?>` -/
def exHead : C18.Src where
  version := some ⟨[0x20], C16.codes ['v','e','r','s','i','o','n'], [], [], 0x22, C16.codes ['1','.','0']⟩
  encoding := some ⟨[0x20], C16.codes ['e','n','c','o','d','i','n','g'], [], [], 0x27, C16.codes ['u','s','-','a','s','c','i','i']⟩
  standalone := some ⟨[0x20], C16.codes ['s','t','a','n','d','a','l','o','n','e'], [], [], 0x22, C16.codes ['y','e','s']⟩
  trail := []

theorem ex_attr (n : List UInt8) {q : UInt8} {v : List UInt8} (h1 : ∀ c ∈ n, c < 0x80 ∧ isWS c = false ∧ c ≠ 0x3D) (h2 : n ≠ []) (h3 : q = 0x22 ∨ q = 0x27)
    (h5 : ∀ c ∈ v, isVal c = true) : PAttr.Valid ⟨[0x20], n, [], [], q, v⟩ where
  ws := by intro c hc; cases hc with | head => rfl | tail _ h => cases h
  ws_ne := by simp
  name := h1
  name_ne := h2
  s1 := by intro c hc; cases hc
  s2 := by intro c hc; cases hc
  q := h3
  value := h5

theorem ex_valid : exHead.Valid false where
  version := by rintro a ⟨⟩; exact ⟨ex_attr _ (by decide +kernel) (by decide) (by decide) (by decide +kernel), rfl⟩
  encoding := by
    rintro a ⟨⟩
    exact ⟨ex_attr _ (by decide +kernel) (by decide) (by decide) (by decide +kernel), rfl, _, _, rfl, by decide⟩
  standalone := by
    rintro a ⟨⟩
    exact ⟨ex_attr _ (by decide +kernel) (by decide) (by decide) (by decide +kernel), rfl, .inl rfl⟩
  trail := by intro c hc; cases hc
  needVersion := fun _ => rfl
  needEncoding := fun h => by cases h
  noStandalone := fun h => by cases h

theorem ex_head : Head exCfg .utf8 (xmlDeclText asc1 exHead) (some exHead) .ascii :=
  .decl exHead _ ex_valid (by rintro a ⟨⟩; decide)
    (.named _ (C16.codes ['U','S','-','A','S','C','I','I']) .us_ascii rfl rfl (by decide +kernel) (by decide +kernel) (by decide))

/-- A line break and a comment. -/
theorem ex_misc : PrologText (reading exCfg (asciiX false) asc1 (peAfter true .always)) { standalone := true }
    ([0x0A] ++ (commentText asc1 [[0x78]] ++ [])) (calls [.ev (.comment [0x78])]) { standalone := true } := by
  have h : CommentOk (asciiX false).e asc1 [[0x78]] := by
    refine ⟨?_, .cons_ne (by decide) trivial⟩
    have h : (asciiX false).e.IsChar [0x78] := by decide +kernel
    intro w hw
    rw [List.mem_singleton.1 hw]
    exact h
  have := PrologText.plain (k := reading exCfg (asciiX false) asc1 (peAfter true .always)) (D := { standalone := true }) _ _
    (.space 0x0A rfl (.comment [[0x78]] h .nil))
  have c1 : C14.lineEnds (converted (asciiX false) [0x78]) = [0x78] := by decide +kernel
  simp only [reading, exCfg, if_true, List.flatten_cons, List.flatten_nil, List.append_nil, c1] at this ⊢
  exact this

/-- `<a>x</a>` -/
def exRoot : Buf := [0x3C, 0x61, 0x3E, 0x78, 0x3C, 0x2F, 0x61, 0x3E]

theorem ex_root : Document exCfg.c (DTab.toDtd { standalone := true }) exCfg.int asc1 (asciiX false) asc1 exRoot
    [.startElement [0x61] [] 0 none, .chars [0x78], .endElement [0x61]] := by
  have h := (C55.accepted_iff (c := exCfg.c) (D := DTab.toDtd { standalone := true }) (.ascii false) C55.allSet_default (.internalUtf8 false) rfl [exRoot] (Nat.one_dvd _)
    (by decide +kernel) [.startElement [0x61] [] 0 none, .chars [0x78], .endElement [0x61]]).1
  obtain ⟨F, s, r, h1, h2⟩ := C55.ok_of_code
    (r := Verif.feed (parser exCfg.c (DTab.toDtd { standalone := true }) (internalUtf8X false) (asciiX false)) (asciiX false).e CState.init [] [exRoot])
    (F := [.startElement [0x61] [] 0 none, .chars [0x78], .endElement [0x61]]) (by decide +kernel) (by decide +kernel)
  have := h ⟨F, s, r, h1, by rw [h2]; decide +kernel⟩
  rw [List.flatten_cons, List.flatten_nil, List.append_nil] at this
  exact this

/-- The theorem applied to these, after a byte order mark. -/
example := parsed (c := exCfg) (i := .utf8) (idx := .noEnc) (pe := .always) rfl (.internalUtf8 false) (C33.line_ends_internal false)
  (fun _ _ h => by cases h) (.utf8 _) ex_head ex_misc
  ((C64.full_eq (c := exCfg.c) C55.allSet_default).symm ▸ ex_root) (Nat.one_dvd _)

end Verif.C60
