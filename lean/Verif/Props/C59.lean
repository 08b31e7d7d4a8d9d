import Verif.PrologStart

/-! # C59: the prolog is reported as it is written

The specification is in DeclSpec.lean and DoctypeSpec.lean: `PrologText k D w A D'` says that `w` is the text of a
prolog (XML 1.0, productions 22, 27, 28 and those of the markup declarations), that the application is to be told `A`,
in this order, and that with `D` declared before, `D'` is declared after it. -/

set_option autoImplicit false

namespace Verif.C59
open C43 C53 Spec Verif PState

/-- A parser as XML_ParserCreate and the setters leave it; the encoding of the document is known. -/
def start (cur : CurEnc) (pe : PEParsing) : DState := { el := { p := PState.init }, cur := cur, pe := pe }

/-- Reading a document. -/
def reading (c : PCfg) (x : XEnc) (asc : UInt8 → Buf) (pe : PEParsing) : Ctx := ⟨c, false, true, x, asc, [], pe⟩

theorem heard_pflat (E : List PEv) : heard (pflat E) = heard E := by
  have one (v : PEv) : heard v.slice = heard [v] := by
    unfold PEv.slice
    split
    · rename_i s
      rw [heard, List.filter_eq_nil_iff.2]
      · rfl
      · intro u hu
        obtain ⟨d, -, rfl⟩ := List.mem_map.1 hu
        simp
    · rfl
  induction E with
  | nil => rfl
  | cons v E ih =>
    rw [show pflat (v :: E) = v.slice ++ pflat E by simp [pflat], heard_append, one, ih, ← heard_append]; rfl

section
variable {c : PCfg} {x : XEnc} {asc : UInt8 → Buf} {pe : PEParsing}

theorem start_at (cur : CurEnc) : At (frame (start cur pe)) .prolog1 {} ((start cur pe).withP { (start cur pe).el.p with h := .prolog1 }) where
  h := rfl
  none_ := rfl
  frame := rfl
  D := rfl
  tmp := rfl
  rest := ⟨rfl, rfl, .inl rfl⟩

theorem start_untyped (cur : CurEnc) : Untyped (reading c x asc pe) (frame (start cur pe)) {} where
  doc := rfl
  fdoc := rfl
  pe := rfl
  foreign := rfl
  includes := rfl
  name := rfl
  keep := rfl
  hash := rfl

/-- **C59.**  A document that begins with a prolog `w` (without XML declaration), passed in any pieces: the
application is told what the specification says, in this order (calls of the default handler aside), and then the
content begins, at the root element, with the declarations made.  For any declarations, nested as deep as they may be,
with entities expanding to further declarations; any handlers, encodings, handler answers, and cuts. -/
theorem reported (S : XSupported x asc) (hi : XSupported c.int asc1) (he : c.int.e.lineEnds asc1 = false) (ho : c.OtherOk)
    {w : Buf} {A : List Said} {D' : DTab} (h : PrologText (reading c x asc pe) {} w A D') :
    ∃ N, ∀ (ext : Ext) (fuel : Nat), N ≤ fuel → ∀ (cur : CurEnc), cur.x c.c.ns = x →
      ∀ (name : List Buf) (r : Buf), QName x.e asc name → x.e.mb ∣ (w ++ (asc 0x3C ++ (name.flatten ++ r))).length →
      ∃ s' E, Says A E ∧ s'.D = D' ∧ s'.cur = cur ∧
        ∀ xs : List Buf, xs.flatten = w ++ (asc 0x3C ++ (name.flatten ++ r)) →
          hear (C57.feed c ext fuel [] (start cur pe) [] xs) = (E, s', .content (asc 0x3C ++ (name.flatten ++ r))) := by
  obtain ⟨N, hN⟩ := run_prolog h S ⟨hi, he⟩
  refine ⟨N, fun ext fuel hf cur hx name r hn hd => ?_⟩
  have hr (hdv : x.e.mb ∣ (asc 0x3C ++ (name.flatten ++ r)).length) : prologTok x.e (asc 0x3C ++ (name.flatten ++ r)) = ⟨.INSTANCE_START, 0⟩ := by
    obtain ⟨v, r', h2, h3⟩ := C55.qname_first hn
    rw [h2, List.append_assoc] at hdv ⊢
    exact C55.starts S h3 hdv
  obtain ⟨s', E, -, h1, h2, h3, h4⟩ := hN ext fuel fuel hf hf false false (frame (start cur pe))
    ((start cur pe).withP { (start cur pe).el.p with h := .prolog1 }) _ (start_untyped cur) (start_at cur) rfl hx hd (asc_ne S _ _) hr
  have h5 := prun_first (s := start cur pe) rfl rfl h4
  refine ⟨s', E, h1, h2, h3, fun xs hxs => ?_⟩
  have hcut : ((start cur pe).x c false).Cuts := by
    rw [show (start cur pe).x c false = x from hx]; exact S.cuts
  have key := C57.chunks (ext := ext) (fuel := fuel) (opened := []) ho xs (start cur pe) [] hcut rfl
  rw [List.nil_append, hxs, C57.call_loop rfl] at key
  rw [show C57.loop c ext fuel [] false (start cur pe) = prun c ext fuel (expandPE c ext fuel fuel []) false false true false [] (start cur pe) from rfl] at key
  change hear (prun c ext fuel (expandPE c ext fuel fuel []) false false true false [] (start cur pe) _) = _ at h5
  generalize prun c ext fuel (expandPE c ext fuel fuel []) false false true false [] (start cur pe) _ = q at h5 key
  generalize C57.feed c ext fuel [] (start cur pe) [] xs = p at key ⊢
  obtain ⟨Eq, sq, oq⟩ := q
  obtain ⟨Ep, sp, op⟩ := p
  obtain ⟨k1, k2⟩ := key
  simp only [hear, Prod.mk.injEq] at h5
  obtain ⟨rfl, rfl, rfl⟩ := h5
  simp only [hear]
  rw [← heard_pflat Ep, k1, heard_pflat]
  cases op <;> simp only at k2
  obtain ⟨rfl, rfl⟩ := k2
  rfl

/-- What a prolog declares is determined by its text. -/
theorem declared_unique (S : XSupported x asc) (hi : XSupported c.int asc1) (he : c.int.e.lineEnds asc1 = false) {cur : CurEnc}
    (hx : cur.x c.c.ns = x) {w : Buf} {A A' : List Said} {D D' : DTab} (hd : x.e.mb ∣ w.length)
    (h : PrologText (reading c x asc pe) {} w A D) (h' : PrologText (reading c x asc pe) {} w A' D') : D = D' ∧ A.length = A'.length := by
  obtain ⟨N, hN⟩ := run_prolog h S ⟨hi, he⟩
  obtain ⟨N', hN'⟩ := run_prolog h' S ⟨hi, he⟩
  have len {A : List Said} {E : List PEv} (h : Says A E) : A.length = E.length := by
    induction h with
    | nil => rfl
    | cons _ _ ih => simp [ih]
  have h3 : x.e.NmstrtChar (asc 0x41) := upper_nmstrt S.s (by decide)
  have l1 := S.s.asc.len 0x3C
  have hda : x.e.mb ∣ (asc 0x3C ++ (asc 0x41 ++ [])).length := by
    rw [List.length_append, l1, List.append_nil]
    exact Nat.dvd_add (Nat.dvd_refl _) (by rw [S.s.asc.len]; exact Nat.dvd_refl _)
  have hdw : x.e.mb ∣ (w ++ (asc 0x3C ++ (asc 0x41 ++ []))).length := by
    rw [List.length_append]
    exact Nat.dvd_add hd hda
  have hr : prologTok x.e (asc 0x3C ++ (asc 0x41 ++ [])) = ⟨.INSTANCE_START, 0⟩ := C55.starts S h3 hda
  let ext : Ext := fun _ sh => ⟨[], sh, [], true⟩
  obtain ⟨s1, E1, -, a1, a2, -, a3⟩ := hN ext (max N N') (max N N') (Nat.le_max_left _ _) (Nat.le_max_left _ _) false false (frame (start cur pe))
    ((start cur pe).withP { (start cur pe).el.p with h := .prolog1 }) _ (start_untyped cur) (start_at cur) rfl hx hdw (asc_ne S _ _) (fun _ => hr)
  obtain ⟨s2, E2, -, b1, b2, -, b3⟩ := hN' ext (max N N') (max N N') (Nat.le_max_right _ _) (Nat.le_max_right _ _) false false (frame (start cur pe))
    ((start cur pe).withP { (start cur pe).el.p with h := .prolog1 }) _ (start_untyped cur) (start_at cur) rfl hx hdw (asc_ne S _ _) (fun _ => hr)
  rw [a3] at b3
  injection b3 with e1 e2
  injection e2 with e2 _
  subst e1 e2
  exact ⟨a2.symm.trans b2, (len a1).trans (len b1).symm⟩

end

/-! ### Example -/

def exCfg : PCfg := { c := {}, int := internalUtf8X false }

/-- `<!DOCTYPE d [<!ENTITY % p "<!ENTITY a 'x'>">%p;<!ELEMENT d EMPTY>]>` -/
def exText : Buf := [0x3C, 0x21, 0x44, 0x4F, 0x43, 0x54, 0x59, 0x50, 0x45, 0x20, 0x64, 0x20, 0x5B, 0x3C, 0x21, 0x45, 0x4E, 0x54, 0x49, 0x54, 0x59, 0x20, 0x25, 0x20, 0x70, 0x20, 0x22, 0x3C, 0x21, 0x45, 0x4E, 0x54, 0x49, 0x54, 0x59, 0x20, 0x61, 0x20, 0x27, 0x78, 0x27, 0x3E, 0x22, 0x3E, 0x25, 0x70, 0x3B, 0x3C, 0x21, 0x45, 0x4C, 0x45, 0x4D, 0x45, 0x4E, 0x54, 0x20, 0x64, 0x20, 0x45, 0x4D, 0x50, 0x54, 0x59, 0x3E, 0x5D, 0x3E]

/-- `<!ENTITY a 'x'>` -/
def exInner : Buf := [0x3C, 0x21, 0x45, 0x4E, 0x54, 0x49, 0x54, 0x59, 0x20, 0x61, 0x20, 0x27, 0x78, 0x27, 0x3E]

/-- `<!ENTITY % p "<!ENTITY a 'x'>">` -/
def exParam : Buf := [0x3C, 0x21, 0x45, 0x4E, 0x54, 0x49, 0x54, 0x59, 0x20, 0x25, 0x20, 0x70, 0x20, 0x22, 0x3C, 0x21, 0x45, 0x4E, 0x54, 0x49, 0x54, 0x59, 0x20, 0x61, 0x20, 0x27, 0x78, 0x27, 0x3E, 0x22, 0x3E]
/-- `<!ELEMENT d EMPTY>` -/
def exElem : Buf := [0x3C, 0x21, 0x45, 0x4C, 0x45, 0x4D, 0x45, 0x4E, 0x54, 0x20, 0x64, 0x20, 0x45, 0x4D, 0x50, 0x54, 0x59, 0x3E]

def exDecls : DTab :=
  { gen := [([0x61], ⟨some [0x78], false, none, none, none, none⟩)]
    par := [([0x70], ⟨some exInner, true, none, none, none, none⟩)]
    hasPERefs := true }

/-- Characters that stand for themselves. -/
theorem ex_repl {par : Buf → Option Entity} {int x : XEnc} {le pes : Bool} {op : List Buf} (cs : Buf)
    (h : ∀ d ∈ cs, x.e.IsChar [d] ∧ converted x [d] = [d] ∧ d ≠ 0x26 ∧ d ≠ 0x25 ∧ d ≠ 0x0A ∧ d ≠ 0x0D) :
    C58.Repl par int x asc1 le pes op cs cs := by
  induction cs with
  | nil => exact .nil
  | cons d cs ih =>
    obtain ⟨h1, h2, h3, h4, h5, h6⟩ := h d (by simp)
    have := C58.Repl.char (par := par) (int := int) (asc := asc1) (le := le) (pes := pes) (op := op) [d] h1 (by simpa [asc1] using h3)
      (by simpa [asc1] using h4) (by simpa [asc1] using h5) (fun _ => by simpa [asc1] using h6) (ih fun d hd => h d (by simp [hd]))
    rw [h2] at this
    exact this

/-- The application hears of the document type, the parameter entity, the entity declared in its text, the element
type. -/
theorem ex_prolog : PrologText (reading exCfg (utf8X false) asc1 .always) {} exText
    [.call (.startDoctype (some [0x64]) none none true), .call (.entityDecl [0x70] true (some exInner) none none none none),
      .call (.entityDecl [0x61] false (some [0x78]) none none none none), .model [0x64] (.group .EMPTY .NONE []), .call .endDoctype] exDecls := by
  have hn (d : UInt8) (h : (utf8X false).e.NmstrtChar [d] := by decide +kernel) : (utf8X false).e.Name [[d]] := ⟨[d], [], rfl, h, by simp⟩
  have hn' (d : UInt8) (h : (internalUtf8X false).e.NmstrtChar [d] := by decide +kernel) : (internalUtf8X false).e.Name [[d]] :=
    ⟨[d], [], rfl, h, by simp⟩
  have c1 : converted (utf8X false) [0x64] = [0x64] := by decide +kernel
  have c2 : converted (utf8X false) [0x70] = [0x70] := by decide +kernel
  have c3 : converted (internalUtf8X false) [0x61] = [0x61] := by decide +kernel
  have sp : White [0x20] := ⟨by simp, by intro c hc; cases hc with | head => rfl | tail _ h => cases h⟩
  have no : AllWS [] := by intro c hc; cases hc
  have q1 : Quoted (utf8X false).e asc1 0x22 (exInner.map fun d => [d]) := by
    refine ⟨.inl rfl, ?_, by decide⟩
    have h : ∀ d ∈ exInner, (utf8X false).e.IsChar [d] := by decide +kernel
    intro w hw
    obtain ⟨d, hd, rfl⟩ := List.mem_map.1 hw
    exact h d hd
  have q2 : Quoted (internalUtf8X false).e asc1 0x27 [[0x78]] := by
    refine ⟨.inr rfl, ?_, by decide⟩
    have h : (internalUtf8X false).e.IsChar [0x78] := by decide +kernel
    intro w hw
    rw [List.mem_singleton.1 hw]
    exact h
  -- the parameter entity
  have d1 : Decl (reading exCfg (utf8X false) asc1 .always) {} exParam
      (calls [.entityDecl [0x70] true (some exInner) none none none none]) { par := [([0x70], ⟨some exInner, true, none, none, none, none⟩)] } :=
    .paramEntity [0x20] [0x20] [[0x70]] [0x20] _ (.value exInner) [] sp sp (hn 0x70) sp
      (.value true 0x22 (exInner.map fun d => [d]) exInner q1
        (fun _ => ex_repl exInner (by decide +kernel))) no _ _
      (fun _ => ⟨by simp [EntityDef.report, reading, exCfg, c2], by simp [addEntity, EntityDef.entity, reading, exCfg, c2]⟩)
      (fun h => absurd ⟨rfl, by simp [tabGet]⟩ h)
  -- the entity declared in its text
  have d2 : Decl ((reading exCfg (utf8X false) asc1 .always).inside [0x70])
      { par := [([0x70], ⟨some exInner, true, none, none, none, none⟩)], hasPERefs := true } exInner
      (calls [.entityDecl [0x61] false (some [0x78]) none none none none]) exDecls :=
    .entity [0x20] [[0x61]] [0x20] _ (.value [0x78]) [] sp (hn' 0x61) sp
      (.value false 0x27 [[0x78]] [0x78] q2
        (fun _ => ex_repl [0x78] (by decide +kernel))) no _ _
      (fun _ => ⟨by simp [EntityDef.report, Ctx.inside, reading, exCfg, c3], by simp [addEntity, EntityDef.entity, Ctx.inside, reading, exCfg, c3, exDecls]⟩)
      (fun h => absurd ⟨rfl, by simp [tabGet, isPredefined, Ctx.inside, spell, asc1]⟩ h)
  have d3 : Decl (reading exCfg (utf8X false) asc1 .always) exDecls exElem [.model [0x64] (.group .EMPTY .NONE [])] exDecls := by
    have := Decl.element (k := reading exCfg (utf8X false) asc1 .always) (D := exDecls) [0x20] [[0x64]] [0x20] _ _ [] sp (.plain _ (hn 0x64)) sp .empty no (by decide)
    simp only [reading, exCfg, if_true, List.flatten_cons, List.flatten_nil, List.append_nil, c1] at this
    exact this
  have ds : Decls (reading exCfg (utf8X false) asc1 .always) {} (exParam ++ (perefText asc1 [[0x70]] ++ (exElem ++ []))) _ exDecls :=
    .cons d1 (.ref (A := calls [.entityDecl [0x61] false (some [0x78]) none none none none]) [[0x70]] _ (hn 0x70) (by simp [reading])
      (by simp [c2, reading, tabGet]; rfl) (fun h => by rfl) (by simp [reading]) rfl (by
        have h := Decls.cons d2 (.nil _ _)
        simp only [List.append_nil] at h
        simp only [List.flatten_cons, List.flatten_nil, List.append_nil, reading, c2] at h ⊢
        exact h) (.inr (by simp [reading, exCfg])) (.cons d3 (.nil _ _)))
  have dt := PrologText.typed [] _ [] [] [] _ _ .nil
    (.mk [0x20] [[0x64]] [] [0x20] _ none none true [] _ _ _ sp (.plain _ (hn 0x64)) .none sp.2 (.some _ _ _ [] ds no)) .nil
  simp [reading, exCfg, calls, asked, c1, closed] at dt
  exact dt

/-- The theorem applied to it. -/
example := reported (.utf8 false) (.internalUtf8 false) (C33.line_ends_internal false) (fun _ _ h => by cases h) ex_prolog

end Verif.C59
