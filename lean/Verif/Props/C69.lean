import Verif.SubsetProlog
import Verif.DocStart
import Verif.Handlers
import Verif.Props.C60

/-! # C69: the external subset, external parameter entities and a foreign DTD are reported as they are written

As C60, for an application whose handler for external entities reads them; the specification is that of `SubsetSpec`. -/

set_option autoImplicit false

namespace Verif.C69
open C43 C53 C59 C60 Spec Verif PState

section
variable {c : PCfg} {i j : EncId} {pe : PEParsing} {docs : ExtReq → Option ExtDoc} {fo : Bool}

/-- The prolog with its XML declaration, in one piece. -/
theorem run_xwhole (hi : XSupported c.int asc1) (he : c.int.e.lineEnds asc1 = false) (ho : c.OtherOk) {h w : Buf} {d : Option C18.Src} {A : List Said} {D' : DTab}
    (h1 : Head c i h d j) (h2 : XPrologText docs (reading c (j.x c.c.ns) (C54.ascOf j) (peAfter (aloneIn d) pe)) fo { standalone := aloneIn d } w A D') :
    ∃ N, ∀ (fuel dd : Nat), N ≤ fuel → N ≤ dd → ∀ (r : Buf), (i.x c.c.ns).e.mb ∣ (h ++ (w ++ r)).length → r ≠ [] →
      ((j.x c.c.ns).e.mb ∣ r.length → prologTok (j.x c.c.ns).e r = ⟨.INSTANCE_START, 0⟩) →
      ∃ V E s, HeadTold c d V ∧ Says A E ∧ s.D = D' ∧ s.cur = .builtin j ∧ (j.x c.c.ns).e.mb ∣ r.length ∧
        hear (prologCall c (resolver c docs fuel dd) fuel [] false (startF fo (.builtin i) pe) (h ++ (w ++ r))) = (V ++ E, s, .content r) := by
  obtain ⟨N, hN⟩ := run_xprolog h2 (C54.supported _ j) ⟨hi, he⟩ ho
  refine ⟨N, fun fuel dd hf hdd r hd hr ht => ?_⟩
  rw [C57.call_loop rfl]
  have hm := h1.unit
  cases h1 with
  | none =>
    rw [List.nil_append] at hd
    obtain ⟨s', E, a0, a1, a2, a3, a4⟩ := hN fuel fuel dd hf hf hdd false false (frame (begunF fo (.builtin i) pe false)) (begunF fo (.builtin i) pe false) r
      (begunF_untyped _ _ _ _ _ _) (begunF_at _ _ _ _) rfl rfl hd hr ht
    refine ⟨[], E, s', rfl, a1, a2, a3, a0, ?_⟩
    refine prun_first (s := startF fo (.builtin i) pe) rfl rfl ?_
    have hs : (startF fo (.builtin i) pe).withP { (startF fo (.builtin i) pe).el.p with h := .prolog1 } = begunF fo (.builtin i) pe false := by
      simp [startF, begunF, start, C60.begun, peAfter, DState.withP]
    rw [hs, List.nil_append]
    exact a4
  | decl d _ hv h127 hn =>
    obtain ⟨V, b1, b2⟩ := decl_stepF (ext := resolver c docs fuel dd) (fuel := fuel) (expand := expandPE c (resolver c docs fuel dd) fuel fuel []) (between := false) (allowClose := true)
      (more := false) (opened := []) hv h127 hn fo pe (w ++ r) hd
    have hd2 : (j.x c.c.ns).e.mb ∣ (w ++ r).length := by
      rw [← hm]
      rw [List.length_append] at hd
      refine (Nat.dvd_add_right ?_).1 hd
      have S := C54.supported c.c.ns i
      have e1 : xmlDeclText (C54.ascOf i) d = spell (C54.ascOf i) ([0x3C, 0x3F] ++ C07.xmlName ++ d.text ++ [0x3F, 0x3E]) := by
        simp [xmlDeclText, spell, xmlName, C07.xmlName]
      rw [e1, spell, spell_length S.s]
      exact Nat.dvd_mul_left _ _
    obtain ⟨s', E, a0, a1, a2, a3, a4⟩ := hN fuel fuel dd hf hf hdd false false (frame (begunF fo (.builtin j) pe (alone d)))
      (begunF fo (.builtin j) pe (alone d)) r
      (begunF_untyped _ _ _ _ _ _) (begunF_at _ _ _ _) rfl rfl hd2 hr ht
    refine ⟨V, E, s', b1, a1, a2, a3, a0, ?_⟩
    refine b2.trans ?_
    refine (congrArg (Prolog.pre V) a4).trans ?_
    rfl

/-- A document in an encoding that is known: an XML declaration or none, a prolog, a root element with content, and what follows it,
passed in any pieces.  The handler for external entities reads those that `docs` gives with parsers of their own, also in pieces, before
it returns.  It is accepted; the application is told what the specifications say: of the XML declaration
whether an encoding is declared and standalone, then what the prolog says, then, with the declarations of the prolog, what the
root element and what follows it says, as far as there are handlers (text counted bytewise; calls of the default handler aside). -/
theorem document (a : c.c.expandInternal = true) (hi : XSupported c.int asc1) (he : c.int.e.lineEnds asc1 = false) (ho : c.OtherOk)
    {h w t : Buf} {d : Option C18.Src} {A : List Said} {D' : DTab} {Ev : List Ev}
    (h1 : Head c i h d j)
    (h2 : XPrologText docs (reading c (j.x c.c.ns) (C54.ascOf j) (peAfter (aloneIn d) pe)) fo { standalone := aloneIn d } w A D')
    (h3 : Document (C64.full c.c) D'.toDtd c.int asc1 (j.x c.c.ns) (C54.ascOf j) t Ev) (hd : (i.x c.c.ns).e.mb ∣ (h ++ (w ++ t)).length) :
    ∃ N, ∀ (fuel dd : Nat), N ≤ fuel → N ≤ dd → ∀ xs : List Buf, xs.flatten = h ++ (w ++ t) →
      ∃ P s F u q, C57.document c (resolver c docs fuel dd) fuel (startF fo (.builtin i) pe) [] xs = (P, s, .content F (.ok u q)) ∧
        (∃ V E, heard P = V ++ E ∧ HeadTold c d V ∧ Says A E) ∧ s.D = D' ∧ C64.own (C04.flat F) = Ev.filter (C64.wants c.c) := by
  have S := C54.supported c.c.ns j
  obtain ⟨N, hN⟩ := run_xwhole (fo := fo) (pe := pe) hi he ho h1 h2
  refine ⟨N, fun fuel dd hf hdd xs hxs => ?_⟩
  have hne : t ≠ [] := by
    rintro rfl
    have := C55.document_starts S h3 (Nat.dvd_zero _)
    cases this
  obtain ⟨V, E, s, a1, a2, a3, a4, a5, a6⟩ := hN fuel dd hf hdd t hd hne (C55.document_starts S h3)
  have hsx : s.x c false = j.x c.c.ns := by rw [DState.x, a4]; rfl
  have hcut : ((startF fo (.builtin i) pe).x c false).Cuts := (C54.supported c.c.ns i).cuts
  have hready : C57.Ready c (prologCall c (resolver c docs fuel dd) fuel [] false (startF fo (.builtin i) pe) ([] ++ xs.flatten)) := by
    rw [List.nil_append, hxs]
    intro q hq
    have e1 := congrArg (fun r => r.2.1) a6
    have e2 := congrArg (fun r => r.2.2) a6
    simp only [hear] at e1 e2
    rw [hq] at e2
    cases e2
    rw [e1, hsx]
    exact ⟨⟨_, S⟩, a5⟩
  have key := C57.documents_ready (ext := resolver c docs fuel dd) (fuel := fuel) ho xs (startF fo (.builtin i) pe) [] hcut rfl hready
  rw [List.nil_append, hxs] at key
  have hint : c.int.e.mb = 1 := (hi.s.asc.len 0x20).symm
  obtain ⟨F, u, q, f1, f2⟩ := C64.accepted (D := D'.toDtd) S a hi hint [t] (by simpa using a5) (by simpa using h3)
  generalize prologCall c (resolver c docs fuel dd) fuel [] false (startF fo (.builtin i) pe) (h ++ (w ++ t)) = p at a6 key
  obtain ⟨Ep, sp, op⟩ := p
  simp only [hear, Prod.mk.injEq] at a6
  obtain ⟨e1, rfl, rfl⟩ := a6
  have hfin : C57.finishDoc c (Ep, sp, .content t) = (Ep, sp, .content F (.ok u q)) := by
    rw [C57.finishDoc, C57.content, C57.contentSem, hsx, a3]
    have : Verif.feed (parser c.c D'.toDtd c.int (j.x c.c.ns)) (j.x c.c.ns).e CState.init t [] = (F, .ok u q) := by
      rw [← f1]; rfl
    rw [this]
  rw [hfin] at key
  generalize C57.document c (resolver c docs fuel dd) fuel (startF fo (.builtin i) pe) [] xs = g at key
  obtain ⟨Eg, sg, og⟩ := g
  obtain ⟨k1, k2⟩ := key
  rcases og with (_ | _ | _ | _) | ⟨G, og⟩ <;> simp only at k2
  obtain ⟨rfl, k2⟩ := k2
  cases og with
  | err e => exact k2.elim
  | ok u' q' =>
    obtain ⟨k3, k4, k5⟩ := k2
    simp only at k1 k3
    refine ⟨Eg, _, G, u', q', rfl, ⟨V, E, ?_, a1, a2⟩, a3, by rw [k3, f2]⟩
    rw [← e1, ← heard_pflat Eg, k1, heard_pflat]

/-- **C69.**  A document from the first byte: a byte order mark or none, an XML declaration or none, a prolog, a root
element with content, and what follows it, passed in any pieces, also cut inside the mark.  The encoding is found; the
document is accepted; the application is told what the specifications say (`document`). -/
theorem parsed (a : c.c.expandInternal = true) (hi : XSupported c.int asc1) (he : c.int.e.lineEnds asc1 = false) (ho : c.OtherOk)
    {idx : EncIndex} {m h w t : Buf} {d : Option C18.Src} {A : List Said} {D' : DTab} {Ev : List Ev}
    (h0 : C60.Found idx m (h ++ (w ++ t)) i) (h1 : Head c i h d j)
    (h2 : XPrologText docs (reading c (j.x c.c.ns) (C54.ascOf j) (peAfter (aloneIn d) pe)) fo { standalone := aloneIn d } w A D')
    (h3 : Document (C64.full c.c) D'.toDtd c.int asc1 (j.x c.c.ns) (C54.ascOf j) t Ev) (hd : (i.x c.c.ns).e.mb ∣ (h ++ (w ++ t)).length) :
    ∃ N, ∀ (fuel dd : Nat), N ≤ fuel → N ≤ dd → ∀ (cur : CurEnc) (xs : List Buf), xs.flatten = m ++ (h ++ (w ++ t)) →
      ∃ P s F u q, parse c (resolver c docs fuel dd) fuel idx (startF fo cur pe) [] xs = (P, s, .content F (.ok u q)) ∧
        (∃ V E, heard P = V ++ E ∧ HeadTold c d V ∧ Says A E) ∧ s.D = D' ∧ C64.own (C04.flat F) = Ev.filter (C64.wants c.c) := by
  obtain ⟨N, hN⟩ := document (fo := fo) (pe := pe) a hi he ho h1 h2 h3 hd
  refine ⟨N, fun fuel dd hf hdd cur xs hxs => ?_⟩
  obtain ⟨ys, h4, h5⟩ := parse_found (c := c) (ext := resolver c docs fuel dd) (fuel := fuel) h0 (startF fo cur pe) xs [] hxs
  rw [h5]
  exact hN fuel dd hf hdd ys h4

end

/-! ### Examples -/

/-- `<!DOCTYPE d SYSTEM 's'>` -/
def exType : Buf := [0x3C, 0x21, 0x44, 0x4F, 0x43, 0x54, 0x59, 0x50, 0x45, 0x20, 0x64, 0x20, 0x53, 0x59, 0x53, 0x54, 0x45, 0x4D, 0x20, 0x27, 0x73, 0x27, 0x3E]

/-- `<![INCLUDE[<!ENTITY a 'x'>]]><![IGNORE[<]]>` -/
def exDecls : Buf := [0x3C, 0x21, 0x5B, 0x49, 0x4E, 0x43, 0x4C, 0x55, 0x44, 0x45, 0x5B] ++ C59.exInner ++ [0x5D, 0x5D, 0x3E] ++
  [0x3C, 0x21, 0x5B, 0x49, 0x47, 0x4E, 0x4F, 0x52, 0x45, 0x5B, 0x3C, 0x5D, 0x5D, 0x3E]

/-- The application has this for the system identifier `s` and, without a byte order mark, as the foreign DTD.  It passes it in pieces. -/
def exDocs (r : ExtReq) : Option ExtDoc :=
  if r.sys = some [0x73] then some { pieces := [[0xEF], [0xBB, 0xBF] ++ exDecls.take 20, [], exDecls.drop 20] }
  else if r.sys = none then some { pieces := [exDecls.take 1, exDecls.drop 1] } else none

abbrev exK : Ctx := reading C59.exCfg (utf8X false) asc1 .always

/-- The entity declared in it. -/
def exA : Buf × Entity := ([0x61], ⟨some [0x78], false, none, none, none, none⟩)

theorem ex_decls (par : List (Buf × Entity)) : XDecls exDocs (apart exK .noEnc .utf8 []) 0 { par := par, hasPERefs := true, peRead := true } exDecls
    (calls [.entityDecl [0x61] false (some [0x78]) none none none none]) { gen := [exA], par := par, hasPERefs := true, peRead := true } := by
  have hn (d : UInt8) (h : (utf8X false).e.NmstrtChar [d] := by decide +kernel) : (utf8X false).e.Name [[d]] := ⟨[d], [], rfl, h, by simp⟩
  have c1 : converted (utf8X false) [0x61] = [0x61] := by decide +kernel
  have sp : White [0x20] := ⟨by simp, by intro c hc; cases hc with | head => rfl | tail _ h => cases h⟩
  have no : AllWS [] := by intro c hc; cases hc
  have q2 : Quoted (utf8X false).e asc1 0x27 [[0x78]] := by
    refine ⟨.inr rfl, ?_, by decide⟩
    have h : (utf8X false).e.IsChar [0x78] := by decide +kernel
    intro w hw
    rw [List.mem_singleton.1 hw]
    exact h
  have d2 : Decl (apart exK .noEnc .utf8 []) { par := par, hasPERefs := true, peRead := true } C59.exInner
      (calls [.entityDecl [0x61] false (some [0x78]) none none none none]) { gen := [exA], par := par, hasPERefs := true, peRead := true } :=
    .entity [0x20] [[0x61]] [0x20] _ (.value [0x78]) [] sp (hn 0x61) sp
      (.value false 0x27 [[0x78]] [0x78] q2
        (fun _ => C59.ex_repl [0x78] (by decide +kernel))) no _ _
      (fun _ => ⟨by simp [EntityDef.report, apart, reading, C59.exCfg, theirs, EncId.x, c1],
        by simp [addEntity, EntityDef.entity, apart, reading, C59.exCfg, theirs, EncId.x, c1, exA]⟩)
      (fun h => absurd ⟨rfl, by simp [tabGet, isPredefined, apart, C54.ascOf, spell, asc1]⟩ h)
  have hig : Ignored (utf8X false).e asc1 [[0x3C], [0x5D], [0x5D], [0x3E]] := by
    refine ⟨?_, .char (by decide) (by decide) .done, by simp [NoTriple, asc1]⟩
    have h : ∀ d ∈ [0x3C, 0x5D, 0x5D, 0x3E], (utf8X false).e.IsChar [d] := by decide +kernel
    intro w hw
    obtain ⟨d, hd, rfl⟩ := List.mem_map.1 (show w ∈ [0x3C, 0x5D, 0x5D, 0x3E].map fun d => [d] from hw)
    exact h d hd
  have := XDecls.include_ (docs := exDocs) (k := apart exK .noEnc .utf8 []) (n := 0) [] [] no no rfl (by decide)
    (.cons d2 (.nil _ _ _)) (.ignore [] [] _ no no rfl hig (.nil _ _ _))
  simp only [List.append_nil] at this
  exact this

/-- The document type declaration, the handler call for the external subset, and what is declared there. -/
theorem ex_read : XPrologText exDocs exK false {} exType
    [.call (.startDoctype (some [0x64]) (some [0x73]) none false), .call (.extRef none (some [0x73]) none),
      .call (.entityDecl [0x61] false (some [0x78]) none none none none), .call .endDoctype]
    { gen := [exA], par := [(hashName, subsetEntity exK none (some [0x73]))], hasPERefs := true, peRead := true } := by
  have hn (d : UInt8) (h : (utf8X false).e.NmstrtChar [d] := by decide +kernel) : (utf8X false).e.Name [[d]] := ⟨[d], [], rfl, h, by simp⟩
  have c1 : converted (utf8X false) [0x64] = [0x64] := by decide +kernel
  have c2 : converted (utf8X false) [0x73] = [0x73] := by decide +kernel
  have sp : White [0x20] := ⟨by simp, by intro c hc; cases hc with | head => rfl | tail _ h => cases h⟩
  have no : AllWS [] := by intro c hc; cases hc
  have q : Quoted (utf8X false).e asc1 0x27 [[0x73]] := by
    refine ⟨.inr rfl, ?_, by decide⟩
    have h : (utf8X false).e.IsChar [0x73] := by decide +kernel
    intro w hw
    rw [List.mem_singleton.1 hw]
    exact h
  have e1 : ExternalID (utf8X false) asc1 (spell asc1 kwSYSTEM ++ (spell asc1 [0x20] ++ litText asc1 0x27 [[0x73]])) none [0x73] := by
    have := ExternalID.system (x := utf8X false) (asc := asc1) [0x20] 0x27 [[0x73]] sp q
    simpa [c2] using this
  have rd : Reads exDocs exK _ [] (subsetEntity exK none (some [0x73])) _ _ :=
    .mk (D := addSubset exK {} none [0x73]) (m := [0xEF, 0xBB, 0xBF]) (h := []) (i := .utf8) (j := .utf8) _ rfl (by decide) (by decide +kernel)
      (.found (.utf8 _)) .none (Nat.one_dvd _) (ex_decls _)
  have dt := XPrologText.typed [] _ [] [] [] _ _ .nil
    (.mk (docs := exDocs) (k := exK) (foreign := false) (D := {}) [0x20] [[0x64]] _ [] _ none _ false _ _ _ _ _ _ sp (.plain _ (hn 0x64))
      (.some [0x20] _ none [0x73] sp e1 (fun h => by cases h)) no .none
      (.subset (.inl rfl) (fun h => by cases h) (.read (by decide) rfl rd (fun _ => .inr (by simp [reading, C59.exCfg]))))) .nil
  simpa [reading, C59.exCfg, calls, asked, c1, entered, C66.textTold, unlessRead, subsetEntity, litText, spell, asc1, declOpen, exType,
    kwDOCTYPE, kwSYSTEM, addSubset] using dt

/-- The foreign DTD, asked for where the root element begins. -/
theorem ex_foreign : XPrologText exDocs exK true {} []
    [.call (.extRef none none none), .call (.entityDecl [0x61] false (some [0x78]) none none none none)]
    { gen := [exA], par := [(hashName, subsetEntity exK none none)], hasPERefs := true, peRead := true } := by
  have rd : Reads exDocs exK (withSubset exK none {}) [] (subsetEntity exK none none) _ _ :=
    .mk (m := []) (h := []) (i := .utf8) (j := .utf8) _ rfl (by decide) (by decide +kernel)
      (.found (.plain 0x3C 0x21 _ (by decide) (by decide))) .none (Nat.one_dvd _) (ex_decls _)
  have := XPrologText.plain (k := exK) [] [] _ _ .nil (.subset (.inr rfl) (fun _ => ⟨rfl, rfl⟩) (.read (by decide) rfl rd (fun _ => .inr (by simp [reading, C59.exCfg]))))
  simpa [reading, C59.exCfg, calls, asked, entered, C66.textTold, unlessRead, subsetEntity, withSubset] using this

/-- `<d>&a;</d>` -/
def exRoot : Buf := [0x3C, 0x64, 0x3E, 0x26, 0x61, 0x3B, 0x3C, 0x2F, 0x64, 0x3E]

theorem ex_root (par : List (Buf × Entity)) : Document C59.exCfg.c (DTab.toDtd { gen := [exA], par := par, hasPERefs := true, peRead := true })
    C59.exCfg.int asc1 (utf8X false) asc1 exRoot [.startElement [0x64] [] 0 none, .chars [0x78], .endElement [0x64]] := by
  have hD : DTab.toDtd { gen := [exA], par := par, hasPERefs := true, peRead := true } = DTab.toDtd { gen := [exA], hasPERefs := true, peRead := true } := rfl
  rw [hD]
  have h := (C55.accepted_iff (c := C59.exCfg.c) (D := DTab.toDtd { gen := [exA], hasPERefs := true, peRead := true }) (.utf8 false) C55.allSet_default
    (.internalUtf8 false) rfl [exRoot] (Nat.one_dvd _)
    (by decide +kernel) [.startElement [0x64] [] 0 none, .chars [0x78], .endElement [0x64]]).1
  obtain ⟨F, s, r, h1, h2⟩ := C55.ok_of_code
    (r := Verif.feed (parser C59.exCfg.c (DTab.toDtd { gen := [exA], hasPERefs := true, peRead := true }) (internalUtf8X false) (utf8X false)) (utf8X false).e CState.init [] [exRoot])
    (F := [.startElement [0x64] [] 0 none, .chars [0x78], .endElement [0x64]]) (by decide +kernel) (by decide +kernel)
  have := h ⟨F, s, r, h1, by rw [h2]; decide +kernel⟩
  rw [List.flatten_cons, List.flatten_nil, List.append_nil] at this
  exact this

/-- The theorem applied to these: the reference in the content is to the entity declared in the external subset, or the foreign DTD. -/
example := parsed (c := C59.exCfg) (i := .utf8) (idx := .noEnc) (pe := .always) rfl (.internalUtf8 false) (C33.line_ends_internal false)
  (fun _ _ h => by cases h) (.utf8 _) .none ex_read
  ((C64.full_eq (c := C59.exCfg.c) C55.allSet_default).symm ▸ ex_root _) (Nat.one_dvd _)

example := parsed (c := C59.exCfg) (i := .utf8) (idx := .noEnc) (pe := .always) rfl (.internalUtf8 false) (C33.line_ends_internal false)
  (fun _ _ h => by cases h) (.utf8 _) .none ex_foreign
  ((C64.full_eq (c := C59.exCfg.c) C55.allSet_default).symm ▸ ex_root _) (Nat.one_dvd _)

end Verif.C69
