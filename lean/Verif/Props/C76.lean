import Verif.CanonDoc
import Verif.Props.C70

/-! # C76: what `xmlwf -d` writes

`xmlwf -d dir file` writes a canonical form of the document: elements with their attributes in the order of the names, text, processing
instructions.  It is a document itself, it says the same as the document it was made from, and its own canonical form is the same bytes. -/

set_option autoImplicit false

namespace Verif.C76
open C43 C53 C59 C60 C48 C61 C63 Spec Verif PState Api

/-- The handlers of `xmlwf -d` (src/xmlwf/xmlwf.rs:1440-1483) are set, perhaps with others; no namespaces (no `-n`). -/
structure Writes (C : PCfg) : Prop where
  ns : C.c.ns = false
  startElement : C.c.startElement = true
  endElement : C.c.endElement = true
  chars : C.c.chars = true
  pi : C.c.pi = true

/-! ### The calls of the parser -/

theorem put_flat (F : List Ev) : (C04.flat F).flatMap put = F.flatMap put := by
  have one (v : Ev) : (C04.slice v).flatMap put = put v := by
    cases v with
    | chars s =>
      show (s.map fun d => Ev.chars [d]).flatMap put = characterData s
      exact put_text s
    | dflt s =>
      show (s.map fun d => Ev.dflt [d]).flatMap put = []
      induction s with
      | nil => rfl
      | cons d s ih => exact ih
    | _ => simp [C04.slice]
  induction F with
  | nil => rfl
  | cons v F ih => rw [C04.flat, List.flatMap_cons, List.flatMap_append, one, ← C04.flat, ih, List.flatMap_cons]

theorem seen_flat (F : List Ev) : (C04.flat F).flatMap seen = F.flatMap seen := by
  have one (v : Ev) : (C04.slice v).flatMap seen = seen v := by
    cases v with
    | chars s =>
      show (s.map fun d => Ev.chars [d]).flatMap seen = s.map fun d => Ev.chars [d]
      exact seen_text s
    | dflt s =>
      show (s.map fun d => Ev.dflt [d]).flatMap seen = []
      induction s with
      | nil => rfl
      | cons d s ih => exact ih
    | _ => simp [C04.slice]
  induction F with
  | nil => rfl
  | cons v F ih => rw [C04.flat, List.flatMap_cons, List.flatMap_append, one, ← C04.flat, ih, List.flatMap_cons]

theorem filter_put {α β : Type} (f : α → List β) (p : α → Bool) (h : ∀ a, p a = false → f a = []) (l : List α) : (l.filter p).flatMap f = l.flatMap f := by
  induction l with
  | nil => rfl
  | cons a l ih =>
    rw [List.filter_cons]
    split
    · rw [List.flatMap_cons, List.flatMap_cons, ih]
    · rename_i hp
      rw [List.flatMap_cons, h a (by simpa using hp), ih]
      rfl

theorem wants_put {C : PCfg} (W : Writes C) (v : Ev) (h : C64.wants C.c v = false) : put v = [] ∧ seen v = [] ∧ Named v := by
  cases v <;> simp [C64.wants, W.startElement, W.endElement, W.chars, W.pi] at h <;> exact ⟨rfl, rfl, trivial⟩

/-- What is written for the calls of an accepted document. -/
theorem written_calls {C : PCfg} (W : Writes C) {P V E : List PEv} {F Ev : List Ev} {c : PCfg} {d : Option C18.Src} (h1 : heard P = V ++ E)
    (h2 : HeadTold c d V) (h3 : C64.own (C04.flat F) = Ev.filter (C64.wants C.c)) :
    P.flatMap putP = E.flatMap putP ∧ P.flatMap seenP = E.flatMap seenP ∧ F.flatMap put = Ev.flatMap put ∧ F.flatMap seen = Ev.flatMap seen := by
  have hV : V.flatMap putP = [] ∧ V.flatMap seenP = [] := by
    cases d with
    | none => rw [show V = [] from h2]; exact ⟨rfl, rfl⟩
    | some d =>
      rw [HeadTold, C60.Told] at h2
      rw [h2]
      split <;> exact ⟨rfl, rfl⟩
  have hq : ∀ v : PEv, (match v with | .ev (.dflt _) => false | _ => true) = false → putP v = [] ∧ seenP v = [] := by
    intro v h
    split at h
    · exact ⟨rfl, rfl⟩
    · cases h
  have ho : ∀ v : Verif.Ev, C64.notDefault v = false → put v = [] ∧ seen v = [] := by
    intro v h
    cases v <;> first | exact ⟨rfl, rfl⟩ | cases h
  refine ⟨?_, ?_, ?_, ?_⟩
  · refine (filter_put putP _ (fun v h => (hq v h).1) P).symm.trans ?_
    show (heard P).flatMap putP = _
    rw [h1, List.flatMap_append, hV.1]; rfl
  · refine (filter_put seenP _ (fun v h => (hq v h).2) P).symm.trans ?_
    show (heard P).flatMap seenP = _
    rw [h1, List.flatMap_append, hV.2]; rfl
  · rw [← put_flat F, ← filter_put put _ (fun v h => (ho v h).1), ← C64.own, h3, filter_put _ _ fun v h => (wants_put W v h).1]
  · rw [← seen_flat F, ← filter_put seen _ (fun v h => (ho v h).2), ← C64.own, h3, filter_put _ _ fun v h => (wants_put W v h).2.1]

theorem named_calls {C : PCfg} (W : Writes C) {F Ev : List Ev} (h3 : C64.own (C04.flat F) = Ev.filter (C64.wants C.c)) (hN : ∀ v ∈ F, Named v) :
    ∀ v ∈ Ev, Named v := by
  intro v hv
  by_cases hw : C64.wants C.c v = true
  · have : v ∈ C64.own (C04.flat F) := by rw [h3]; exact List.mem_filter.2 ⟨hv, hw⟩
    obtain ⟨u, hu, hvu⟩ := List.mem_flatMap.1 (List.mem_filter.1 this).1
    have hn := hN u hu
    cases u with
    | chars s => obtain ⟨d, -, rfl⟩ := List.mem_map.1 (show v ∈ s.map fun d => Verif.Ev.chars [d] from hvu); trivial
    | dflt s => obtain ⟨d, -, rfl⟩ := List.mem_map.1 (show v ∈ s.map fun d => Verif.Ev.dflt [d] from hvu); trivial
    | _ => simp only [C04.slice, List.mem_singleton] at hvu; rw [hvu]; exact hn
  · exact (wants_put W v (by simpa using hw)).2.2

/-! ### Twice the same -/

theorem put_seen (v : Ev) : (seen v).flatMap put = put v ∧ (seen v).flatMap seen = seen v := by
  cases v with
  | chars s => exact ⟨put_text s, seen_text s⟩
  | startElement n as sp id => simp [seen, put, startElement, sort_sort, sort_length]
  | _ => simp [seen, put]

theorem put_says (E : List Ev) : (E.flatMap seen).flatMap put = E.flatMap put ∧ (E.flatMap seen).flatMap seen = E.flatMap seen := by
  induction E with
  | nil => exact ⟨rfl, rfl⟩
  | cons v E ih => simp only [List.flatMap_cons, List.flatMap_append, put_seen, ih, and_self]

theorem putP_says (E : List PEv) : ((E.flatMap seenP).map PEv.ev).flatMap putP = E.flatMap putP ∧ ((E.flatMap seenP).map PEv.ev).flatMap seenP = E.flatMap seenP := by
  have hm (l : List Ev) : (l.map PEv.ev).flatMap putP = l.flatMap put ∧ (l.map PEv.ev).flatMap seenP = l.flatMap seen := by
    induction l with
    | nil => exact ⟨rfl, rfl⟩
    | cons v l ih => exact ⟨by rw [List.map_cons, List.flatMap_cons, List.flatMap_cons, ih.1]; rfl, by rw [List.map_cons, List.flatMap_cons, List.flatMap_cons, ih.2]; rfl⟩
  rw [(hm _).1, (hm _).2]
  induction E with
  | nil => exact ⟨rfl, rfl⟩
  | cons v E ih =>
    have one : (seenP v).flatMap put = putP v ∧ (seenP v).flatMap seen = seenP v := by
      cases v with
      | ev u => exact put_seen u
      | _ => exact ⟨rfl, rfl⟩
    simp only [List.flatMap_cons, List.flatMap_append, one, ih, and_self]

/-- What is written depends on what is said only. -/
theorem written_says (P : List PEv) (F : List Ev) : (says P F).flatMap put = written P F := by
  rw [says, written, List.flatMap_append, (put_says F).1]
  congr 1
  rw [← (putP_says P).1]
  generalize P.flatMap seenP = l
  induction l with
  | nil => rfl
  | cons v l ih => rw [List.map_cons, List.flatMap_cons, List.flatMap_cons, ih]; rfl

/-- Attributes are written in the order of their names as strings of bytes, each of them once. -/
theorem in_order (n : Buf) (as : List (Buf × Buf)) : ∃ bs : List (Buf × Buf), bs.Perm as ∧ (bs.Pairwise fun p q => p.1 ≤ q.1) ∧
    startElement n as = [0x3C] ++ n ++ (bs.flatMap fun p => [0x20] ++ p.1 ++ attributeValue p.2) ++ [0x3E] := by
  have le : ∀ a b : Buf, strLe a b = true → a ≤ b := by
    intro a
    induction a with
    | nil => intro b _; exact List.nil_le b
    | cons x a ih =>
      intro b h
      cases b with
      | nil => simp [strLe] at h
      | cons y b =>
        rw [strLe] at h
        rw [List.cons_le_cons_iff]
        split at h
        · rename_i e; exact .inr ⟨e, ih b h⟩
        · exact .inl (by simpa using h)
  refine ⟨sortAtts as, sort_perm as, (sort_sorted as).imp fun h => le _ _ h, ?_⟩
  simp only [startElement, List.cons_append, List.nil_append, List.append_assoc]
  rfl

/-- The order in which they come does not matter. -/
theorem order_free (n : Buf) {as bs : List (Buf × Buf)} (h : as.Perm bs) (hd : (as.map (·.1)).Nodup) : startElement n as = startElement n bs := by
  rw [startElement, startElement, sort_unique h hd]

/-! ### The beginning -/

theorem root_head {c : Cfg} {D : Dtd} {int x : XEnc} {iasc asc : UInt8 → Buf} (hns : c.ns = false) {b : Buf} {E : List Ev}
    (h : Document c D int iasc x asc b E) (hN : ∀ e ∈ E, Named e) : ∃ a r, E.flatMap put = 0x3C :: a :: r ∧ a ≠ 0 := by
  have name {n : Buf} (h : XName n) : ∃ a r, n = a :: r ∧ a ≠ 0 := by
    obtain ⟨cs, h1, rfl⟩ := h
    have hx : ∀ c ∈ cs, XmlChar c := fun c hc => name_xml (h1.2.1 c hc)
    cases hc : utf8s cs with
    | nil =>
      cases cs with
      | nil => obtain ⟨_, _, e, -⟩ := h1.1; cases e
      | cons c cs => exact absurd (List.append_eq_nil_iff.1 hc).1 (utf8_ne_nil c)
    | cons a r =>
      refine ⟨a, r, rfl, ?_⟩
      rintro rfl
      exact absurd (hx _ (utf8s_byte hx (by decide) (by rw [hc]; simp : (0 : UInt8) ∈ utf8s cs))) (by decide)
  cases h with
  | empty h1 h2 h3 h4 h5 =>
    obtain ⟨rfl, -, -, -⟩ := stored_plain hns h4
    obtain ⟨a, r, e, ha⟩ := name (start_named hN).1
    exact ⟨a, _, by simp only [List.nil_append, List.cons_append, List.flatMap_cons, put, startElement, e]; rfl, ha⟩
  | element h1 h2 h3 h3' h4 h5 h6 =>
    obtain ⟨rfl, -, -, -⟩ := stored_plain hns h4
    obtain ⟨a, r, e, ha⟩ := name (start_named' hN).1
    exact ⟨a, _, by simp only [List.nil_append, List.cons_append, List.flatMap_cons, put, startElement, e]; rfl, ha⟩

theorem prolog_head {E : List PEv} (h : ∀ v ∈ E, PiCall v) {L : Buf} (hL : ∃ a r, L = 0x3C :: a :: r ∧ a ≠ 0) :
    ∃ a r, E.flatMap putP ++ L = 0x3C :: a :: r ∧ a ≠ 0 := by
  induction E with
  | nil => exact hL
  | cons v E ih =>
    simp only [List.mem_cons, forall_eq_or_imp] at h
    rw [List.flatMap_cons]
    have quiet (h0 : putP v = [] ∧ seenP v = []) : ∃ a r, putP v ++ E.flatMap putP ++ L = 0x3C :: a :: r ∧ a ≠ 0 := by
      rw [h0.1]; exact ih h.2
    cases v with
    | ev u =>
      cases u with
      | pi t d => exact ⟨0x3F, _, by simp only [putP, put, processingInstruction, List.cons_append]; rfl, by decide⟩
      | _ => exact quiet h.1
    | _ => exact quiet h.1

/-! ### Theorems -/

section
variable {C C' : PCfg} {idx idx' : EncIndex} {m t : Buf} {i : EncId}

/-- What is written for an accepted document is a document. -/
theorem again (U : Usual C) (W : Writes C) (U' : Usual C') (W' : Writes C') (f : Conf) (f' : Conf) {w b : Buf} {d : Option C18.Src} {j : EncId} {A : List Said}
    {D' : DTab} {Ev : List Ev} (g3 : PrologText (reading (settings C f) (j.x C.c.ns) (C54.ascOf j) .never) { standalone := aloneIn d } w A D')
    (g4 : Document (C64.full (settings C f).c) D'.toDtd C.int asc1 (j.x C.c.ns) (C54.ascOf j) b Ev) {E : List PEv} (hE : Says A E)
    (hN : ∀ v ∈ E, NamedP v) (hN' : ∀ v ∈ Ev, Named v) (h8 : idx'.enc = .utf8) :
    C60.Found idx' [] ([] ++ (E.flatMap putP ++ Ev.flatMap put)) .utf8 ∧
    PrologText (reading (settings C' f') (EncId.utf8.x C'.c.ns) (C54.ascOf .utf8) .never) { standalone := aloneIn none } (E.flatMap putP)
      (C59.calls ((E.flatMap seenP).map .ev)) { standalone := aloneIn none } ∧
    Document (C64.full (settings C' f').c) (({ standalone := aloneIn none } : DTab)).toDtd C'.int asc1 (EncId.utf8.x C'.c.ns) (C54.ascOf .utf8) (Ev.flatMap put)
      (Ev.flatMap seen) := by
  have S := C54.supported C.c.ns j
  have Pl : C61.Plain (reading (settings C f) (j.x C.c.ns) (C54.ascOf j) .never) := ⟨rfl, U.isPE, rfl, rfl, rfl, S⟩
  obtain ⟨-, k1, k2⟩ := C62.prolog_legal (ns := C.c.ns) Pl U.int g3 (by intro raw d hd; simp [Dtd.elem, DTab.toDtd] at hd) (by intro n ent t h; cases h)
  have hp := says_pi hE (prolog_pi Pl g3)
  have hdoc := document_again (c := C64.full (settings C f).c) (c0 := C64.full (settings C' f').c) (D0 := (({ standalone := aloneIn none } : DTab)).toDtd) (inn := C'.c.ns) W.ns W'.ns k2 k1
    (by intro n ent t h; cases h) rfl S (by rw [← U.int]; exact g4) hN'
  refine ⟨?_, ?_, ?_⟩
  · obtain ⟨a, r, e, ha⟩ := prolog_head hp (root_head (c := C64.full (settings C f).c) W.ns g4 hN')
    rw [List.nil_append, e, ← h8]
    exact .plain _ _ _ (by decide) ha
  · have := misc_again (c0 := settings C' f') W'.pi hp hN
    rw [W'.ns]
    exact .plain _ _ this
  · rw [U'.int, W'.ns]
    rw [W'.ns] at hdoc
    exact hdoc

/-- **C76.**  Of an accepted document, in any encoding and in any pieces, whose names are names of XML 1.0, `xmlwf -d` writes a text which a
parser accepts, in any pieces; the calls for it say what the calls for the document said, with the attributes of each element in the order of
their names and all of them specified; and what `xmlwf -d` writes for it is the same text again. -/
theorem canonical (U : Usual C) (W : Writes C) (U' : Usual C') (W' : Writes C') {p p' : Parser Inner} (hn : New p) (hn' : New p') (ho : NoDtd p.conf)
    (ho' : NoDtd p'.conf) (hi : getEncodingIndex p.conf.encoding = some idx) (hi' : getEncodingIndex p'.conf.encoding = some idx') (h8 : idx'.enc = .utf8)
    (h0 : C60.Found idx m t i) (hd : (i.x C.c.ns).e.mb ∣ t.length) :
    ∃ N, ∀ (ext : Ext) (fuel : Nat) (upd : Buf → Pos → Option Pos) (alloc : Nat → Bool), (∀ n, alloc n = true) → N ≤ fuel →
      ∀ (ws : List Buf) (v : Buf), ws.flatten ++ v = m ++ t → ws.flatten.length + v.length + 1024 ≤ 2 ^ 30 →
      ∀ (rs : List (Ret Inner Val)) (q : Parser Inner), Path (docEngine C ext fuel upd alloc) p (calls ws v) rs q → final rs = some (.status .OK) →
      (∀ e ∈ q.inner.P, NamedP e) → (∀ e ∈ q.inner.F, Named e) →
      ∃ N', ∀ (ext' : Ext) (fuel' : Nat) (upd' : Buf → Pos → Option Pos) (alloc' : Nat → Bool), (∀ n, alloc' n = true) → N' ≤ fuel' →
        ∀ (ws' : List Buf) (v' : Buf), ws'.flatten ++ v' = written q.inner.P q.inner.F → ws'.flatten.length + v'.length + 1024 ≤ 2 ^ 30 →
        ∀ (rs' : List (Ret Inner Val)) (q' : Parser Inner), Path (docEngine C' ext' fuel' upd' alloc') p' (calls ws' v') rs' q' →
          (∀ r ∈ rs', r.val = .status .OK) ∧ says q'.inner.P q'.inner.F = says q.inner.P q.inner.F ∧
          written q'.inner.P q'.inner.F = written q.inner.P q.inner.F := by
  obtain ⟨N1, hN1⟩ := accepted_iff U hn ho hi h0 hd
  by_cases hdoc : C61.IsDocument (settings C p.conf) i t
  · obtain ⟨h, w, b, d, j, A, D', Ev, rfl, g2, g3, g4⟩ := hdoc
    obtain ⟨N2, hN2⟩ := documents U hn ho hi h0 hd g2 g3 g4
    refine ⟨N2, ?_⟩
    intro ext fuel upd alloc ha hf ws v hx hs rs q hp _ hn1 hn2
    obtain ⟨-, -, ⟨V, E, e1, e2, e3⟩, e4⟩ := hN2 ext fuel upd alloc ha hf ws v hx hs rs q hp
    obtain ⟨w1, w2, w3, w4⟩ := written_calls W e1 e2 e4
    have hE : ∀ v ∈ E, NamedP v := fun v hv => hn1 v (List.mem_filter.1 (show v ∈ heard q.inner.P by rw [e1]; simp [hv])).1
    obtain ⟨a1, a2, a3⟩ := again U W U' W' p.conf p'.conf g3 g4 e3 hE (named_calls W e4 hn2) h8
    obtain ⟨N', hN'⟩ := documents U' hn' ho' hi' a1 (by rw [W'.ns]; exact ⟨_, (Nat.one_mul _).symm⟩) .none a2 a3
    refine ⟨N', ?_⟩
    intro ext' fuel' upd' alloc' ha' hf' ws' v' hx' hs' rs' q' hp'
    rw [written, w1, w3] at hx'
    obtain ⟨k1, -, ⟨V', E', f1, f2, f3⟩, f4⟩ := hN' ext' fuel' upd' alloc' ha' hf' ws' v' (by simpa using hx') hs' rs' q' hp'
    obtain ⟨x1, x2, x3, x4⟩ := written_calls W' f1 f2 f4
    have hsame : E' = (E.flatMap seenP).map .ev := C70.says_only f3
    subst hsame
    refine ⟨k1, ?_, ?_⟩
    · rw [says, says, x2, x4, w2, w4, (put_says Ev).2, (putP_says E).2]
    · rw [written, written, x1, x3, w1, w3, (put_says Ev).1, (putP_says E).1]
  · refine ⟨N1, ?_⟩
    intro ext fuel upd alloc ha hf ws v hx hs rs q hp hfin
    exact absurd ((hN1 ext fuel upd alloc ha hf ws v hx hs rs q hp).2.1.1 hfin) hdoc

/-- The calls made for what is written say the same; for the processors, with the text in one piece. -/
theorem reread (U : Usual C) (W : Writes C) (U' : Usual C') (W' : Writes C') (f' : Conf) (h8 : idx'.enc = .utf8) {p : Parser Inner} (hn : New p) (ho : NoDtd p.conf)
    (hi : getEncodingIndex p.conf.encoding = some idx) (h0 : C60.Found idx m t i) (hd : (i.x C.c.ns).e.mb ∣ t.length) :
    ∃ N, ∀ (ext : Ext) (fuel : Nat) (upd : Buf → Pos → Option Pos) (alloc : Nat → Bool), (∀ n, alloc n = true) → N ≤ fuel →
      ∀ (ws : List Buf) (v : Buf), ws.flatten ++ v = m ++ t → ws.flatten.length + v.length + 1024 ≤ 2 ^ 30 →
      ∀ (rs : List (Ret Inner Val)) (q : Parser Inner), Path (docEngine C ext fuel upd alloc) p (calls ws v) rs q → final rs = some (.status .OK) →
      (∀ e ∈ q.inner.P, NamedP e) → (∀ e ∈ q.inner.F, Named e) →
      ∃ N', ∀ (ext' : Ext) (fuel' : Nat), N' ≤ fuel' → ∃ P s F u z,
        C60.parse (settings C' f') ext' fuel' idx' (start (.builtin .utf8) .never) [] [written q.inner.P q.inner.F] = (P, s, .content F (.ok u z)) ∧
        says P F = says q.inner.P q.inner.F := by
  obtain ⟨N1, hN1⟩ := accepted_iff U hn ho hi h0 hd
  by_cases hdoc : C61.IsDocument (settings C p.conf) i t
  · obtain ⟨h, w, b, d, j, A, D', Ev, rfl, g2, g3, g4⟩ := hdoc
    obtain ⟨N2, hN2⟩ := documents U hn ho hi h0 hd g2 g3 g4
    refine ⟨N2, ?_⟩
    intro ext fuel upd alloc ha hf ws v hx hs rs q hp _ hn1 hn2
    obtain ⟨-, -, ⟨V, E, e1, e2, e3⟩, e4⟩ := hN2 ext fuel upd alloc ha hf ws v hx hs rs q hp
    obtain ⟨w1, w2, w3, w4⟩ := written_calls W e1 e2 e4
    have hE : ∀ v ∈ E, NamedP v := fun v hv => hn1 v (List.mem_filter.1 (show v ∈ heard q.inner.P by rw [e1]; simp [hv])).1
    obtain ⟨a1, a2, a3⟩ := again U W U' W' p.conf f' g3 g4 e3 hE (named_calls W e4 hn2) h8
    have Us := usual_settings U' f'
    obtain ⟨N', hN'⟩ := parsed (c := settings C' f') (pe := .never) Us.expand Us.intOk.1 Us.intOk.2 Us.other a1 .none
      (by rw [C61.peAfter_never]; exact a2) a3 (by rw [show (settings C' f').c.ns = false from W'.ns]; exact ⟨_, (Nat.one_mul _).symm⟩)
    refine ⟨N', fun ext' fuel' hf' => ?_⟩
    obtain ⟨P, s, F, u, z, k1, ⟨V', E', f1, f2, f3⟩, -, f4⟩ := hN' ext' fuel' hf' (.builtin .utf8) [written q.inner.P q.inner.F] (by simp [written, w1, w3])
    obtain ⟨x1, x2, x3, x4⟩ := written_calls W' f1 f2 f4
    have hsame : E' = (E.flatMap seenP).map .ev := C70.says_only f3
    subst hsame
    exact ⟨P, s, F, u, z, k1, by rw [says, says, x2, x4, w2, w4, (put_says Ev).2, (putP_says E).2]⟩
  · refine ⟨N1, ?_⟩
    intro ext fuel upd alloc ha hf ws v hx hs rs q hp hfin
    exact absurd ((hN1 ext fuel upd alloc ha hf ws v hx hs rs q hp).2.1.1 hfin) hdoc

/-- **C76**, comparing outputs: two documents say the same if and only if the same is written for them. -/
theorem compares {C2 : PCfg} {idx2 : EncIndex} {m2 t2 : Buf} {i2 : EncId} (U : Usual C) (W : Writes C) (U2 : Usual C2) (W2 : Writes C2) {p p2 : Parser Inner}
    (hn : New p) (hn2 : New p2) (ho : NoDtd p.conf) (ho2 : NoDtd p2.conf) (hi : getEncodingIndex p.conf.encoding = some idx)
    (hi2 : getEncodingIndex p2.conf.encoding = some idx2) (h0 : C60.Found idx m t i) (h02 : C60.Found idx2 m2 t2 i2)
    (hd : (i.x C.c.ns).e.mb ∣ t.length) (hd2 : (i2.x C2.c.ns).e.mb ∣ t2.length) :
    ∃ N, ∀ (ext ext2 : Ext) (fuel fuel2 : Nat) (upd upd2 : Buf → Pos → Option Pos) (alloc alloc2 : Nat → Bool), (∀ n, alloc n = true) → (∀ n, alloc2 n = true) →
      N ≤ fuel → N ≤ fuel2 → ∀ (ws ws2 : List Buf) (v v2 : Buf), ws.flatten ++ v = m ++ t → ws2.flatten ++ v2 = m2 ++ t2 →
      ws.flatten.length + v.length + 1024 ≤ 2 ^ 30 → ws2.flatten.length + v2.length + 1024 ≤ 2 ^ 30 →
      ∀ (rs rs2 : List (Ret Inner Val)) (q q2 : Parser Inner), Path (docEngine C ext fuel upd alloc) p (calls ws v) rs q →
      Path (docEngine C2 ext2 fuel2 upd2 alloc2) p2 (calls ws2 v2) rs2 q2 → final rs = some (.status .OK) → final rs2 = some (.status .OK) →
      (∀ e ∈ q.inner.P ++ q2.inner.P, NamedP e) → (∀ e ∈ q.inner.F ++ q2.inner.F, Named e) →
      (written q.inner.P q.inner.F = written q2.inner.P q2.inner.F ↔ says q.inner.P q.inner.F = says q2.inner.P q2.inner.F) := by
  obtain ⟨N1, hN1⟩ := reread U W U W p.conf (idx' := .utf_8) rfl hn ho hi h0 hd
  obtain ⟨N2, hN2⟩ := reread U2 W2 U W p.conf (idx' := .utf_8) rfl hn2 ho2 hi2 h02 hd2
  refine ⟨max N1 N2, ?_⟩
  intro ext ext2 fuel fuel2 upd upd2 alloc alloc2 ha ha2 hf hf2 ws ws2 v v2 hx hx2 hs hs2 rs rs2 q q2 hp hp2 hr hr2 hP hF
  constructor
  · intro he
    obtain ⟨M1, hM1⟩ := hN1 ext fuel upd alloc ha (by omega) ws v hx hs rs q hp hr (fun e h => hP e (by simp [h])) (fun e h => hF e (by simp [h]))
    obtain ⟨M2, hM2⟩ := hN2 ext2 fuel2 upd2 alloc2 ha2 (by omega) ws2 v2 hx2 hs2 rs2 q2 hp2 hr2 (fun e h => hP e (by simp [h])) (fun e h => hF e (by simp [h]))
    obtain ⟨P, s, F, u, z, k1, k2⟩ := hM1 ext (max M1 M2) (by omega)
    obtain ⟨P', s', F', u', z', l1, l2⟩ := hM2 ext (max M1 M2) (by omega)
    rw [he, l1] at k1
    simp only [Prod.mk.injEq, C57.DocEnd.content.injEq] at k1
    obtain ⟨rfl, -, rfl, -⟩ := k1
    rw [← k2, ← l2]
  · intro he
    rw [← written_says, ← written_says, he]

end

/-! ### Examples -/

/-- The handlers of `xmlwf -d`. -/
def exWriter : PCfg :=
  { exCfg with
    c := { exCfg.c with ns := false, startElement := true, endElement := true, chars := true, pi := true, comment := false, startCdata := false, endCdata := false
                        startNs := false, endNs := false, skipped := false, externalRef := false, dflt := false, refOk := fun _ _ => true }
    int := internalUtf8X false
    startDoctype := false, endDoctype := false, entityDecl := false, attlistDecl := false, elementDecl := false, notationDecl := false, unparsed := false, xmlDecl := false }

theorem ex_usual : Usual exWriter ∧ Writes exWriter := ⟨⟨rfl, rfl, rfl, rfl⟩, ⟨rfl, rfl, rfl, rfl, rfl⟩⟩

def exEngine : Engine Inner := docEngine exWriter C61.exExt 200 exUpd (fun _ => true)

/-- The last status and what is written. -/
def exRun (cs : List Call) : Option (Option Val × Buf) :=
  (steps exEngine (create exEngine none) cs).map fun x => (final x.1, written x.2.inner.P x.2.inner.F)

def exText : Buf := "<!DOCTYPE a [<!ENTITY e \"x>\"><?p  q\r\n?><!ATTLIST a c CDATA '1'>]><a d='\"' b='\n'>&e;<![CDATA[<]]>&#13;<!--y--></a>\n<?r?>".toUTF8.toList

def exOut : Buf := "<?p q\n?><a b=\" \" c=\"1\" d=\"&quot;\">x&gt;&lt;&#13;</a><?r ?>".toUTF8.toList

theorem ex_written : exRun (calls [exText.take 30] (exText.drop 30)) = some (some (.status .OK), exOut) := by decide +kernel

/-- Written again. -/
theorem ex_again : exRun (calls [exOut.take 9, []] (exOut.drop 9)) = some (some (.status .OK), exOut) := by decide +kernel

/-- Names have to be names of XML 1.0: `<?xml version='1.0' encoding='iso-8859-1'?><ª/>`, a letter that is taken for a name in ISO-8859-1 but not in UTF-8 (C47);
the text written is refused. -/
theorem ex_refused :
    exRun (calls [] ("<?xml version='1.0' encoding='iso-8859-1'?><".toUTF8.toList ++ [0xAA] ++ "/>".toUTF8.toList)) = some (some (.status .OK), "<ª></ª>".toUTF8.toList) ∧
    (exRun (calls [] "<ª></ª>".toUTF8.toList)).map (·.1) = some (some (.status .ERROR)) := by decide +kernel

/-- The theorem applies to the first text: what is written for it is accepted in any pieces, and written again. -/
example : ∃ N, ∀ (fuel : Nat), N ≤ fuel → ∀ (ws : List Buf) (v : Buf), ws.flatten ++ v = exText →
    ∀ rs q, Path (docEngine exWriter C61.exExt fuel exUpd (fun _ => true)) (create exEngine none) (calls ws v) rs q → final rs = some (.status .OK) →
      (∀ e ∈ q.inner.P, NamedP e) → (∀ e ∈ q.inner.F, Named e) →
      ∃ N', ∀ (fuel' : Nat), N' ≤ fuel' → ∀ (ws' : List Buf) (v' : Buf), ws'.flatten ++ v' = written q.inner.P q.inner.F → (written q.inner.P q.inner.F).length + 1024 ≤ 2 ^ 30 →
        ∀ rs' q', Path (docEngine exWriter C61.exExt fuel' exUpd (fun _ => true)) (create exEngine none) (calls ws' v') rs' q' →
          written q'.inner.P q'.inner.F = written q.inner.P q.inner.F := by
  have hn := new_create (C := exWriter) (ext := C61.exExt) (fuel := 200) (upd := exUpd) (alloc := fun _ => true) none
  obtain ⟨N, hN⟩ := canonical (p := create exEngine none) (p' := create exEngine none) (idx := .noEnc) (idx' := .noEnc) (m := []) (t := exText) (i := .utf8)
    ex_usual.1 ex_usual.2 ex_usual.1 ex_usual.2 hn hn ⟨rfl, rfl⟩ ⟨rfl, rfl⟩ rfl rfl rfl (by
      have h : exText = 0x3C :: 0x21 :: exText.drop 2 := by decide +kernel
      rw [h]; exact .plain 0x3C 0x21 _ (by decide) (by decide)) (Nat.one_dvd _)
  refine ⟨N, fun fuel hf ws v hx rs q hp hr h1 h2 => ?_⟩
  have hl : (ws.flatten ++ v).length = exText.length := congrArg List.length hx
  have hk : exText.length < 200 := by decide +kernel
  simp only [List.length_append] at hl
  obtain ⟨N', hN'⟩ := hN C61.exExt fuel exUpd (fun _ => true) (fun _ => rfl) hf ws v (by simpa using hx) (by omega) rs q hp hr h1 h2
  refine ⟨N', fun fuel' hf' ws' v' hx' hs' rs' q' hp' => (hN' C61.exExt fuel' exUpd (fun _ => true) (fun _ => rfl) hf' ws' v' hx' ?_ rs' q' hp').2.2⟩
  rw [← hx', List.length_append] at hs'
  exact hs'

/-- The names in it are names. -/
example : XName "a".toUTF8.toList ∧ XTarget "p".toUTF8.toList := by
  have rs : InRanges nameStart 0x61 ∧ InRanges nameStart 0x70 := ⟨⟨(0x61, 0x7A), by decide +kernel, by decide, by decide⟩, ⟨(0x61, 0x7A), by decide +kernel, by decide, by decide⟩⟩
  have rc : InRanges nameChar 0x61 ∧ InRanges nameChar 0x70 := ⟨⟨(0x61, 0x7A), by decide +kernel, by decide, by decide⟩, ⟨(0x61, 0x7A), by decide +kernel, by decide, by decide⟩⟩
  refine ⟨⟨[0x61], ⟨⟨_, _, rfl, rs.1⟩, by simpa using rc.1, by simp⟩, by decide +kernel⟩, ⟨[0x70], ⟨⟨_, _, rfl, rs.2⟩, by simpa using rc.2, by simp⟩, by decide +kernel⟩, ?_⟩
  rintro ⟨a, b, c, h, -⟩
  exact absurd (congrArg List.length h) (by simp only [List.length_cons, List.length_nil]; decide +kernel)

end Verif.C76
