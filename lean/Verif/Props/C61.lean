import Verif.StartInv

/-! # C61: only documents are accepted

The converse of C60, for a parser that does not read parameter entities (as it is after XML_ParserCreate): whatever is accepted, in
any pieces, is a document of the grammar of C60, and what is reported is what the grammar says.  Together with C60:
acceptance is decided by the grammar. -/

set_option autoImplicit false

namespace Verif.C61
open C43 C53 C59 C60 Spec Verif PState

/-- The text of a document read in encoding `i`: an XML declaration or none, a prolog, the root element and what
follows it (the specifications of C18, C59 and C55). -/
def IsDocument (c : PCfg) (i : EncId) (t : Buf) : Prop :=
  ∃ (h w b : Buf) (d : Option C18.Src) (j : EncId) (A : List Said) (D' : DTab) (Ev : List Ev), t = h ++ (w ++ b) ∧ Head c i h d j ∧
    PrologText (reading c (j.x c.c.ns) (C54.ascOf j) .never) { standalone := aloneIn d } w A D' ∧
    Document (C64.full c.c) D'.toDtd c.int asc1 (j.x c.c.ns) (C54.ascOf j) b Ev

/-- A parser for documents without a handler for unknown encodings. -/
structure Usual (c : PCfg) : Prop where
  expand : c.c.expandInternal = true
  unknown : c.unknown = fun _ => none
  int : c.int = internalUtf8X c.c.ns
  isPE : c.isPE = false

/-- XML_Parse returned XML_STATUS_OK for the last piece. -/
def Accepted (d : C57.Doc) : Prop := ∃ P s F u q, d = (P, s, .content F (.ok u q))

section
variable {c : PCfg} {i : EncId} {ext : Ext} {fuel : Nat}

theorem Usual.other (U : Usual c) : c.OtherOk := by
  intro n y h
  rw [U.unknown] at h
  cases h

theorem Usual.intOk (U : Usual c) : XSupported c.int asc1 ∧ c.int.e.lineEnds asc1 = false := by
  rw [U.int]; exact ⟨.internalUtf8 _, C33.line_ends_internal _⟩

/-- The same without the detection of the encoding. -/
theorem document_parts (U : Usual c) {xs : List Buf} (hd : (i.x c.c.ns).e.mb ∣ xs.flatten.length) (hlen : xs.flatten.length + 3 < 2 ^ 31)
    (hf : xs.flatten.length < fuel) {P : List PEv} {s : DState} {F : List Ev} {u : CState} {q : Buf}
    (h : C57.document c ext fuel (start (.builtin i) .never) [] xs = (P, s, .content F (.ok u q))) :
    ∃ (h w b : Buf) (d : Option C18.Src) (j : EncId) (A : List Said) (V : List Ev), xs.flatten = h ++ (w ++ b) ∧ (d = none → (prologTok (i.x c.c.ns).e xs.flatten).tok ≠ .XML_DECL) ∧ Head c i h d j ∧
      PrologText (reading c (j.x c.c.ns) (C54.ascOf j) .never) { standalone := aloneIn d } w A s.D ∧
      Document (C64.full c.c) s.D.toDtd c.int asc1 (j.x c.c.ns) (C54.ascOf j) b V ∧ C64.own (C04.flat F) = V.filter (C64.wants c.c) := by
  have back {r : Buf} {z : DState} := start_parts (ext := ext) (r := r) (z := z) U.unknown U.int U.isPE hd hlen hf
  have hready : C57.Ready c (prologCall c ext fuel [] false (start (.builtin i) .never) ([] ++ xs.flatten)) := by
    rw [List.nil_append]
    intro r hr
    obtain ⟨_, _, _, j, _, _, -, -, -, -, -, h5, -, h7⟩ := back (z := _) (Prod.ext rfl hr)
    have hsx : (prologCall c ext fuel [] false (start (.builtin i) .never) xs.flatten).2.1.x c false = j.x c.c.ns := by rw [DState.x, h5]; rfl
    rw [hsx]
    exact ⟨⟨_, C54.supported c.c.ns j⟩, h7⟩
  have key := C57.documents_ready (ext := ext) (fuel := fuel) U.other xs (start (.builtin i) .never) [] (C54.supported c.c.ns i).cuts rfl hready
  rw [List.nil_append, h] at key
  cases hp : prologCall c ext fuel [] false (start (.builtin i) .never) xs.flatten with
  | mk Ep p2 =>
    obtain ⟨z, o⟩ := p2
    rw [hp] at key
    obtain ⟨-, k2⟩ := key
    cases o with
    | content r =>
      obtain ⟨h0, w, d, j, A, D', g1, g0, g2, g3, g4, g5, g6, g7⟩ := back (z := z) (r := r) (by rw [hp])
      obtain ⟨k1, k2⟩ := k2
      have hsx : z.x c false = j.x c.c.ns := by rw [DState.x, g5]; rfl
      simp only [C57.finishDoc, C57.content, C57.contentSem, hsx] at k1 k2
      subst k1
      generalize hq : Verif.feed (parser c.c s.D.toDtd c.int (j.x c.c.ns)) (j.x c.c.ns).e CState.init r [] = y at k2
      obtain ⟨F', o'⟩ := y
      cases o' with
      | err e => exact k2.elim
      | ok u' q' =>
        obtain ⟨k3, -, -⟩ := k2
        have hint : c.int.e.mb = 1 := (U.intOk.1.s.asc.len 0x20).symm
        obtain ⟨V, hdoc, hV⟩ := C64.only (D := s.D.toDtd) (C54.supported c.c.ns j) U.expand U.intOk.1 hint [r] (by simpa using g7)
          (by simpa using g6) (by rw [← hq]; rfl)
        refine ⟨h0, w, r, d, j, A, V, g1, g0, g2, by rw [g4]; exact g3, by simpa using hdoc, ?_⟩
        rw [show C04.flat F = C04.flat F' from k3]
        exact hV
    | done _ => simp only [C57.finishDoc] at k2
    | err _ => simp only [C57.finishDoc] at k2
    | panic => simp only [C57.finishDoc] at k2

theorem document_only (U : Usual c) {xs : List Buf} (hd : (i.x c.c.ns).e.mb ∣ xs.flatten.length) (hlen : xs.flatten.length + 3 < 2 ^ 31)
    (hf : xs.flatten.length < fuel) {P : List PEv} {s : DState} {F : List Ev} {u : CState} {q : Buf}
    (h : C57.document c ext fuel (start (.builtin i) .never) [] xs = (P, s, .content F (.ok u q))) :
    ∃ (h w b : Buf) (d : Option C18.Src) (j : EncId) (A : List Said) (V : List Ev), xs.flatten = h ++ (w ++ b) ∧ Head c i h d j ∧
      PrologText (reading c (j.x c.c.ns) (C54.ascOf j) .never) { standalone := aloneIn d } w A s.D ∧
      Document (C64.full c.c) s.D.toDtd c.int asc1 (j.x c.c.ns) (C54.ascOf j) b V ∧ C64.own (C04.flat F) = V.filter (C64.wants c.c) := by
  obtain ⟨h, w, b, d, j, A, V, h1, -, h2⟩ := document_parts U hd hlen hf h
  exact ⟨h, w, b, d, j, A, V, h1, h2⟩

/-- **C61.**  A text of whole code units, with the encoding that its first bytes say, is accepted, whatever the pieces in which it is
passed, only if it is a document; its declarations are those of the prolog, and what is reported after the prolog is
what its content says. -/
theorem only {idx : EncIndex} {m t : Buf} (U : Usual c) (h0 : C60.Found idx m t i) (hd : (i.x c.c.ns).e.mb ∣ t.length) (hlen : t.length + 3 < 2 ^ 31)
    (hf : t.length < fuel) {cur : CurEnc} {xs : List Buf} (hx : xs.flatten = m ++ t) {P : List PEv} {s : DState} {F : List Ev} {u : CState} {q : Buf}
    (h : parse c ext fuel idx (start cur .never) [] xs = (P, s, .content F (.ok u q))) :
    ∃ (h w b : Buf) (d : Option C18.Src) (j : EncId) (A : List Said) (V : List Ev), t = h ++ (w ++ b) ∧ Head c i h d j ∧
      PrologText (reading c (j.x c.c.ns) (C54.ascOf j) .never) { standalone := aloneIn d } w A s.D ∧
      Document (C64.full c.c) s.D.toDtd c.int asc1 (j.x c.c.ns) (C54.ascOf j) b V ∧ C64.own (C04.flat F) = V.filter (C64.wants c.c) := by
  obtain ⟨ys, h4, h5⟩ := parse_found (c := c) (ext := ext) (fuel := fuel) h0 (start cur .never) xs [] hx
  rw [h5] at h
  subst h4
  exact document_only U hd hlen hf h

/-- Acceptance is decided by the grammar (for fuel enough: it bounds the nesting of entities in entity values). -/
theorem accepted_iff {idx : EncIndex} {m t : Buf} (U : Usual c) (h0 : C60.Found idx m t i) (hd : (i.x c.c.ns).e.mb ∣ t.length) (hlen : t.length + 3 < 2 ^ 31) :
    (∃ N, ∀ (ext : Ext) (fuel : Nat), N ≤ fuel → ∀ (cur : CurEnc) (xs : List Buf), xs.flatten = m ++ t →
      Accepted (parse c ext fuel idx (start cur .never) [] xs)) ↔ IsDocument c i t := by
  constructor
  · rintro ⟨N, hN⟩
    obtain ⟨P, s, F, u, q, h⟩ := hN (fun _ sh => ⟨[], sh, [], true⟩) (max N (t.length + 1)) (Nat.le_max_left _ _) (.builtin i) [m ++ t] (by simp)
    obtain ⟨h, w, b, d, j, A, V, g1, g2, g3, g4, -⟩ := only U h0 hd hlen (Nat.le_max_right _ _) (by simp) h
    exact ⟨h, w, b, d, j, A, _, _, g1, g2, g3, g4⟩
  · rintro ⟨h, w, b, d, j, A, D', Ev, rfl, g2, g3, g4⟩
    have g3' : PrologText (reading c (j.x c.c.ns) (C54.ascOf j) (peAfter (aloneIn d) .never)) { standalone := aloneIn d } w A D' := by
      rw [peAfter_never]; exact g3
    obtain ⟨N, hN⟩ := parsed U.expand U.intOk.1 U.intOk.2 U.other h0 g2 g3' g4 hd
    refine ⟨N, fun ext fuel hf cur xs hx => ?_⟩
    obtain ⟨P, s, F, u, q, h1, -⟩ := hN ext fuel hf cur xs hx
    exact ⟨P, s, F, u, q, h1⟩

/-- What is no document is refused, in whatever pieces it comes. -/
theorem refused {idx : EncIndex} {m t : Buf} (U : Usual c) (h0 : C60.Found idx m t i) (hd : (i.x c.c.ns).e.mb ∣ t.length) (hlen : t.length + 3 < 2 ^ 31)
    (hn : ¬ IsDocument c i t) (hf : t.length < fuel) {cur : CurEnc} {xs : List Buf} (hx : xs.flatten = m ++ t) :
    ¬ Accepted (parse c ext fuel idx (start cur .never) [] xs) := by
  rintro ⟨P, s, F, u, q, h⟩
  obtain ⟨h, w, b, d, j, A, V, g1, g2, g3, g4, -⟩ := only U h0 hd hlen hf hx h
  exact hn ⟨h, w, b, d, j, A, _, _, g1, g2, g3, g4⟩

end

/-! ### Examples -/

theorem ex_usual : Usual exCfg := ⟨rfl, rfl, rfl, rfl⟩

/-- `<!DOCTYPE a [<!ENTITY b '&c;'><!ATTLIST a d CDATA #IMPLIED>]><a>x</a>`, in two pieces; accepted by evaluation,
so a document by the theorem. -/
def exDoc : Buf := "<!DOCTYPE a [<!ENTITY b '&c;'><!ATTLIST a d CDATA #IMPLIED>]><a>x</a>".toUTF8.toList

def okDoc (d : C57.Doc) : Bool := match d.2.2 with | .content _ (.ok _ _) => true | _ => false

theorem ok_accepted {d : C57.Doc} : okDoc d = true ↔ Accepted d := by
  obtain ⟨P, s, o⟩ := d
  rcases o with o | ⟨F, o⟩
  · simp [okDoc, Accepted]
  · cases o <;> simp [okDoc, Accepted]

/-- Answers of an application without external entities. -/
def exExt : Ext := fun _ sh => ⟨[], sh, [], true⟩

example : IsDocument exCfg .utf8 exDoc := by
  have h : Accepted (parse exCfg exExt 100 .noEnc (start (.builtin .utf8) .never) [] [exDoc.take 20, exDoc.drop 20]) := ok_accepted.1 (by decide +kernel)
  obtain ⟨P, s, F, u, q, h⟩ := h
  obtain ⟨h, w, b, d, j, A, V, g1, g2, g3, g4, -⟩ := only (i := .utf8) (idx := .noEnc) (t := exDoc) (m := []) ex_usual (by
      have h : exDoc = 0x3C :: 0x21 :: exDoc.drop 2 := by decide +kernel
      rw [h]; exact .plain 0x3C 0x21 _ (by decide) (by decide)) (Nat.one_dvd _) (by decide +kernel) (by decide +kernel)
    (by decide +kernel) h
  exact ⟨h, w, b, d, j, A, _, _, g1, g2, g3, g4⟩

end Verif.C61
