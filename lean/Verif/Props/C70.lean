import Verif.Props.C69

/-! # C70: the foreign DTD

XML_UseForeignDTD: a document without a document type declaration, or with one that has no external identifier, is read
with the external subset that the application has for it. -/

set_option autoImplicit false

namespace Verif.C70
open C43 C53 C59 C60 C69 Spec Verif PState

section
variable {c : PCfg} {i j : EncId} {pe : PEParsing} {docs : ExtReq → Option ExtDoc}

theorem says_split {A B : List Said} {E : List PEv} (h : Says (A ++ B) E) : ∃ E1 E2, E = E1 ++ E2 ∧ Says A E1 ∧ Says B E2 := by
  induction A generalizing E with
  | nil => exact ⟨[], E, rfl, .nil, h⟩
  | cons a A ih =>
    cases h with
    | cons h1 h2 =>
      obtain ⟨E1, E2, rfl, g1, g2⟩ := ih h2
      exact ⟨_ :: E1, E2, rfl, .cons h1 g1, g2⟩

theorem says_only {E G : List PEv} (h : Says (calls E) G) : G = E := by
  induction E generalizing G with
  | nil => cases h; rfl
  | cons v E ih =>
    cases h with
    | cons h1 h2 => rw [ih h2, show _ = v from h1]

/-- **C70.**  A document without a document type declaration, in an application that uses a foreign DTD and has one (`doc`):
white space, comments and processing instructions are reported; where the root element begins the handler for external
entities is called without identifiers; what the foreign DTD declares is reported (`Bs`); the root element is then read with these
declarations (`D'`). -/
theorem used (a : c.c.expandInternal = true) (hi : XSupported c.int asc1) (he : c.int.e.lineEnds asc1 = false) (ho : c.OtherOk)
    {idx : EncIndex} {m h w t : Buf} {d : Option C18.Src} {E : List PEv} {Ev : List Ev}
    (h0 : C60.Found idx m (h ++ (w ++ t)) i) (h1 : Head c i h d j)
    (h2 : Miscs (reading c (j.x c.c.ns) (C54.ascOf j) (peAfter (aloneIn d) pe)) w E)
    -- the foreign DTD
    (hpe : peAfter (aloneIn d) pe ≠ .never) (href : c.c.externalRef = true) {doc : ExtDoc}
    (g1 : docs ⟨false, [], peAfter (aloneIn d) pe, c.base, none, none⟩ = some doc) (g2 : doc.pieces ≠ []) {m' h' t' : Buf} {i' j' : EncId} {d' : Option C18.Src}
    (g3 : doc.pieces.flatten = m' ++ (h' ++ t')) (g4 : Opens doc.enc m' (h' ++ t') i')
    (g5 : C66.TextHead (theirs c doc.enc) i' h' d' j') (g6 : C54.unitSize i' ∣ (h' ++ t').length) {Bs : List Said} {D' : DTab}
    (g7 : XDecls docs ⟨theirs c doc.enc, false, false, j'.x c.c.ns, C54.ascOf j', [], peAfter (aloneIn d) pe⟩ 0
      { standalone := aloneIn d, hasPERefs := true, peRead := true,
        par := [(hashName, ⟨none, false, none, none, none, c.base⟩)] } t' Bs D')
    (g8 : D'.peRead = true) (g9 : D'.standalone = true ∨ c.notStandalone ≠ some false)
    (h3 : Document (C64.full c.c) D'.toDtd c.int asc1 (j.x c.c.ns) (C54.ascOf j) t Ev) (hd : (i.x c.c.ns).e.mb ∣ (h ++ (w ++ t)).length) :
    ∃ N, ∀ (fuel dd : Nat), N ≤ fuel → N ≤ dd → ∀ (cur : CurEnc) (xs : List Buf), xs.flatten = m ++ (h ++ (w ++ t)) →
      ∃ P s F u q, parse c (resolver c docs fuel dd) fuel idx (startF true cur pe) [] xs = (P, s, .content F (.ok u q)) ∧
        (∃ V G, heard P = V ++ (E ++ (.extRef c.base none none :: (C66.textTold (theirs c doc.enc) d' ++ G) ++
          (if D'.standalone = false ∧ c.notStandalone.isSome then [.notStandalone] else []))) ∧ HeadTold c d V ∧ Says Bs G) ∧
        s.D = D' ∧ C64.own (C04.flat F) = Ev.filter (C64.wants c.c) := by
  let k := reading c (j.x c.c.ns) (C54.ascOf j) (peAfter (aloneIn d) pe)
  have hr : Reads docs k (withSubset k none { standalone := aloneIn d }) [] (subsetEntity k none none) _ D' := .mk doc g1 g2 g3 g4 g5 g6 g7
  have hp := XPrologText.plain (docs := docs) (k := k) (foreign := true) w E _ _ h2
    (.subset (.inr rfl) (fun _ => ⟨rfl, rfl⟩) (.read hpe href hr (fun _ => g9)))
  rw [show unlessRead none { standalone := aloneIn d } D' = D' by rw [unlessRead, g8]; simp] at hp
  obtain ⟨N, hN⟩ := parsed (pe := pe) a hi he ho h0 h1 hp h3 hd
  refine ⟨N, fun fuel dd hf hdd cur xs hxs => ?_⟩
  obtain ⟨P, s, F, u, q, e1, ⟨V, G, e2, e3, e4⟩, e5, e6⟩ := hN fuel dd hf hdd cur xs hxs
  refine ⟨P, s, F, u, q, e1, ?_, e5, e6⟩
  obtain ⟨G1, G2, rfl, f1, f2⟩ := says_split e4
  obtain ⟨G3, G4, rfl, f3, f4⟩ := says_split f2
  obtain ⟨G5, G6, rfl, f5, f6⟩ := says_split f3
  refine ⟨V, G6, ?_, e3, f6⟩
  rw [e2, says_only f1, says_only f4, says_only f5, if_pos g8]
  rfl

/-- When the application does not read it (the handler returns without creating a parser) the document is read as one without a
document type declaration: what is not declared is an error, not something that could have been declared there. -/
theorem not_read (a : c.c.expandInternal = true) (hi : XSupported c.int asc1) (he : c.int.e.lineEnds asc1 = false) (ho : c.OtherOk)
    {idx : EncIndex} {m h w t : Buf} {d : Option C18.Src} {E : List PEv} {Ev : List Ev}
    (h0 : C60.Found idx m (h ++ (w ++ t)) i) (h1 : Head c i h d j)
    (h2 : Miscs (reading c (j.x c.c.ns) (C54.ascOf j) (peAfter (aloneIn d) pe)) w E)
    (hpe : peAfter (aloneIn d) pe ≠ .never) (href : c.c.externalRef = true)
    (g1 : docs ⟨false, [], peAfter (aloneIn d) pe, c.base, none, none⟩ = none)
    (h3 : Document (C64.full c.c) (DTab.toDtd { standalone := aloneIn d }) c.int asc1 (j.x c.c.ns) (C54.ascOf j) t Ev)
    (hd : (i.x c.c.ns).e.mb ∣ (h ++ (w ++ t)).length) :
    ∃ N, ∀ (fuel dd : Nat), N ≤ fuel → N ≤ dd → ∀ (cur : CurEnc) (xs : List Buf), xs.flatten = m ++ (h ++ (w ++ t)) →
      ∃ P s F u q, parse c (resolver c docs fuel dd) fuel idx (startF true cur pe) [] xs = (P, s, .content F (.ok u q)) ∧
        (∃ V, heard P = V ++ (E ++ [.extRef c.base none none]) ∧ HeadTold c d V) ∧
        s.D.toDtd = DTab.toDtd { standalone := aloneIn d } ∧ C64.own (C04.flat F) = Ev.filter (C64.wants c.c) := by
  let k := reading c (j.x c.c.ns) (C54.ascOf j) (peAfter (aloneIn d) pe)
  have hp := XPrologText.plain (docs := docs) (k := k) (foreign := true) w E _ _ h2
    (.subset (D := { standalone := aloneIn d }) (.inr rfl) (fun _ => ⟨rfl, rfl⟩) (.skip hpe href g1))
  obtain ⟨N, hN⟩ := parsed (pe := pe) a hi he ho h0 h1 hp h3 hd
  refine ⟨N, fun fuel dd hf hdd cur xs hxs => ?_⟩
  obtain ⟨P, s, F, u, q, e1, ⟨V, G, e2, e3, e4⟩, e5, e6⟩ := hN fuel dd hf hdd cur xs hxs
  refine ⟨P, s, F, u, q, e1, ?_, by rw [e5]; rfl, e6⟩
  obtain ⟨G1, G2, rfl, f1, f2⟩ := says_split e4
  refine ⟨V, ?_, e3⟩
  rw [e2, says_only f1, says_only f2]
  rfl

/-- Nor is it asked for when parameter entities are not to be read, or there is no handler; then, as when it is not used, nothing
is reported for it. -/
theorem not_asked (a : c.c.expandInternal = true) (hi : XSupported c.int asc1) (he : c.int.e.lineEnds asc1 = false) (ho : c.OtherOk)
    {idx : EncIndex} {m h w t : Buf} {d : Option C18.Src} {E : List PEv} {Ev : List Ev} {fo : Bool}
    (h0 : C60.Found idx m (h ++ (w ++ t)) i) (h1 : Head c i h d j)
    (h2 : Miscs (reading c (j.x c.c.ns) (C54.ascOf j) (peAfter (aloneIn d) pe)) w E)
    (hpe : peAfter (aloneIn d) pe = .never ∨ c.c.externalRef = false ∨ fo = false)
    (h3 : Document (C64.full c.c) (DTab.toDtd { standalone := aloneIn d, hasPERefs := fo }) c.int asc1 (j.x c.c.ns) (C54.ascOf j) t Ev)
    (hd : (i.x c.c.ns).e.mb ∣ (h ++ (w ++ t)).length) :
    ∃ N, ∀ (fuel dd : Nat), N ≤ fuel → N ≤ dd → ∀ (cur : CurEnc) (xs : List Buf), xs.flatten = m ++ (h ++ (w ++ t)) →
      ∃ P s F u q, parse c (resolver c docs fuel dd) fuel idx (startF fo cur pe) [] xs = (P, s, .content F (.ok u q)) ∧
        (∃ V, heard P = V ++ E ∧ HeadTold c d V) ∧
        s.D.toDtd = DTab.toDtd { standalone := aloneIn d, hasPERefs := fo } ∧ C64.own (C04.flat F) = Ev.filter (C64.wants c.c) := by
  let k := reading c (j.x c.c.ns) (C54.ascOf j) (peAfter (aloneIn d) pe)
  have hc : XClose docs k fo { standalone := aloneIn d } none none [] { standalone := aloneIn d, hasPERefs := fo } := by
    cases fo with
    | false => exact .nothing rfl rfl
    | true => exact .subset (.inr rfl) (fun _ => ⟨rfl, rfl⟩) (.unread (hpe.imp_right fun h => h.elim id fun h => by cases h))
  have hp := XPrologText.plain (docs := docs) (k := k) (foreign := fo) w E _ _ h2 hc
  obtain ⟨N, hN⟩ := parsed (pe := pe) a hi he ho h0 h1 hp h3 hd
  refine ⟨N, fun fuel dd hf hdd cur xs hxs => ?_⟩
  obtain ⟨P, s, F, u, q, e1, ⟨V, G, e2, e3, e4⟩, e5, e6⟩ := hN fuel dd hf hdd cur xs hxs
  refine ⟨P, s, F, u, q, e1, ?_, by rw [e5], e6⟩
  rw [List.append_nil] at e4
  exact ⟨V, by rw [e2, says_only e4], e3⟩

end

/-! ### Examples -/

/-- The foreign DTD of C69's example. -/
example := used (c := C59.exCfg) (i := .utf8) (idx := .noEnc) (pe := .always) (docs := exDocs) rfl (.internalUtf8 false) (C33.line_ends_internal false)
  (fun _ _ h => by cases h) (h := []) (w := []) (.utf8 _) .none .nil (by decide) rfl rfl (by decide) (m' := []) (h' := []) (i' := .utf8) (by decide +kernel)
  (.found (.plain 0x3C 0x21 _ (by decide) (by decide))) .none (Nat.one_dvd _) (ex_decls _) rfl (.inr (by simp [C59.exCfg]))
  ((C64.full_eq (c := C59.exCfg.c) C55.allSet_default).symm ▸ ex_root _) (Nat.one_dvd _)

/-- `<a>x</a>`, the foreign DTD not being read. -/
theorem ex_plain (fo : Bool) : Document C59.exCfg.c (DTab.toDtd { hasPERefs := fo }) C59.exCfg.int asc1 (utf8X false) asc1 C60.exRoot
    [.startElement [0x61] [] 0 none, .chars [0x78], .endElement [0x61]] := by
  have h := (C55.accepted_iff (c := C59.exCfg.c) (D := DTab.toDtd { hasPERefs := fo }) (.utf8 false) C55.allSet_default (.internalUtf8 false) rfl [C60.exRoot] (Nat.one_dvd _)
    (by cases fo <;> decide +kernel) [.startElement [0x61] [] 0 none, .chars [0x78], .endElement [0x61]]).1
  obtain ⟨F, s, r, h1, h2⟩ := C55.ok_of_code
    (r := Verif.feed (parser C59.exCfg.c (DTab.toDtd { hasPERefs := fo }) (internalUtf8X false) (utf8X false)) (utf8X false).e CState.init [] [C60.exRoot])
    (F := [.startElement [0x61] [] 0 none, .chars [0x78], .endElement [0x61]]) (by cases fo <;> decide +kernel) (by cases fo <;> decide +kernel)
  have := h ⟨F, s, r, h1, by rw [h2]; decide +kernel⟩
  rw [List.flatten_cons, List.flatten_nil, List.append_nil] at this
  exact this

example := not_read (c := C59.exCfg) (i := .utf8) (idx := .noEnc) (pe := .always) (docs := fun _ => none) rfl (.internalUtf8 false) (C33.line_ends_internal false)
  (fun _ _ h => by cases h) (h := []) (w := []) (.utf8 _) .none .nil (by decide) rfl rfl
  ((C64.full_eq (c := C59.exCfg.c) C55.allSet_default).symm ▸ ex_plain false) (Nat.one_dvd _)

example := not_asked (c := C59.exCfg) (i := .utf8) (idx := .noEnc) (pe := .never) (docs := exDocs) (fo := true) rfl (.internalUtf8 false)
  (C33.line_ends_internal false)
  (fun _ _ h => by cases h) (h := []) (w := []) (.utf8 _) .none .nil (.inl rfl)
  ((C64.full_eq (c := C59.exCfg.c) C55.allSet_default).symm ▸ ex_plain true) (Nat.one_dvd _)

end Verif.C70
