import Verif.EntityContent
import Verif.Props.C32

/-! # C66: a parser made for an external entity reads exactly external parsed entities

A parser made by XML_ExternalEntityParserCreate with a context is given the text of an external general entity: a byte order mark
or none, a text declaration or none, and content (XML 1.0, production 78, and appendix F).  The specifications are
those of C18 (the declaration), C54 (its encoding) and of the content in C55; `Detected` says what the first bytes tell of the
encoding. -/

set_option autoImplicit false

namespace Verif.C66
open C43 C53 C60 C61 C64 Spec Verif

/-- The calls to handlers other than the default handler, text byte by byte. -/
def view (L : List PEv) : List PEv := (heard L).flatMap fun u => match u with | .ev v => (C04.slice v).map .ev | u => [u]

/-- An external parsed entity, with what is reported of it: `w` is all of it, `idx` the encoding named by the application, `D` the
declarations known, `opened` the entities that are open, `v` the namespace bindings. -/
inductive ParsedEntity (c : PCfg) (idx : EncIndex) (D : Dtd) (opened : List Buf) (v : Env) : Buf → List PEv → Prop where
  | empty : ParsedEntity c idx D opened v [] []
  | text (m h b : Buf) (i j : EncId) (d : Option C18.Src) (E : List Ev) (h1 : Detected idx m (h ++ b) i) (h2 : TextHead c i h d j)
      (h3 : Content (full c.c) D c.int asc1 (j.x c.c.ns) (C54.ascOf j) opened v b E []) :
      ParsedEntity c idx D opened v (m ++ (h ++ b)) (textTold c d ++ (E.filter (wants c.c)).map .ev)

/-- The text after the byte order mark has whole code units. -/
def Whole (idx : EncIndex) (w : Buf) : Prop := ∀ m t i, w = m ++ t → Detected idx m t i → C54.unitSize i ∣ t.length

section
variable {c : PCfg} {opened : List Buf} {v : Env}

theorem view_append (A B : List PEv) : view (A ++ B) = view A ++ view B := by simp [view, heard_append]

theorem view_content (F : List Ev) : view (F.map .ev) = (own (C04.flat F)).map .ev := by
  induction F with
  | nil => rfl
  | cons a F ih =>
    rw [show a :: F = [a] ++ F from rfl, List.map_append, view_append, ih, C04.flat_append, own_append, List.map_append]
    congr 1
    rw [show C04.flat [a] = C04.slice a by simp [C04.flat]]
    cases hn : notDefault a with
    | true =>
      have h1 : heard [PEv.ev a] = [.ev a] := by cases a <;> first | rfl | cases hn
      have h2 : own (C04.slice a) = C04.slice a := by
        rw [own, List.filter_eq_self]
        intro u hu
        cases a <;> simp [C04.slice] at hu <;> first | (obtain ⟨_, -, rfl⟩ := hu; rfl) | (subst hu; rfl) | cases hn
      rw [List.map_singleton, view, h1, h2]
      simp
    | false =>
      have h1 : heard [PEv.ev a] = [] := by cases a <;> first | rfl | cases hn
      have h2 : own (C04.slice a) = [] := by
        rw [own, List.filter_eq_nil_iff]
        intro u hu
        cases a <;> first | (cases hn; done) | (simp [C04.slice] at hu; obtain ⟨_, -, rfl⟩ := hu; simp [notDefault])
      rw [List.map_singleton, view, h1, h2]
      rfl

theorem view_told (d : Option C18.Src) : view (textTold c d) = textTold c d := by
  unfold textTold
  split
  · rfl
  · split <;> rfl

theorem view_dflt (x : XEnc) (w : Buf) : view ((toDefault c.c x w).map .ev) = [] := by
  rw [view, heard_dflt]; rfl

theorem feed_rest {σ : Type} {M : Sem σ} {e : Enc} {s : σ} {r : Buf} {ys : List Buf} (h : ys ≠ []) :
    ∃ zs : List Buf, zs.flatten = r ++ ys.flatten ∧ feed M e s r ys = feed M e s [] zs := by
  cases ys with
  | nil => exact absurd rfl h
  | cons y ys =>
    refine ⟨(r ++ y) :: ys, by simp, ?_⟩
    by_cases hys : ys = []
    · subst hys; rfl
    · rw [feed_cons hys, feed_cons hys, List.nil_append]

/-- The same for a parser which has detected the encoding. -/
theorem starting_iff (hu : c.unknown = fun _ => none) (he : c.c.expandInternal = true) (hi : c.int = internalUtf8X c.c.ns) {i : EncId} {ch : GChild}
    (h1 : Starting ch) (hc : ch.s.cur = .builtin i) {r : Buf} {xs : List Buf} (hx : xs ≠ []) (hd : C54.unitSize i ∣ (r ++ xs.flatten).length) (A : List PEv) :
    (∃ L ch' q, entFeed c opened v ch r xs = (L, ch', .done q) ∧ view L = A) ↔
      ∃ (h b : Buf) (j : EncId) (d : Option C18.Src) (E : List Ev), r ++ xs.flatten = h ++ b ∧ TextHead c i h d j ∧
        Content (full c.c) ch.s.D.toDtd c.int asc1 (j.x c.c.ns) (C54.ascOf j) opened v b E [] ∧
        A = textTold c d ++ (E.filter (wants c.c)).map .ev := by
  have I : XSupported c.int asc1 := by rw [hi]; exact .internalUtf8 _
  have hint : c.int.e.mb = 1 := (I.s.asc.len 0x20).symm
  have S := C54.supported c.c.ns i
  have hcx : ch.s.cur.x c.c.ns = i.x c.c.ns := by rw [hc]; rfl
  have hd' : (i.x c.c.ns).e.mb ∣ (r ++ xs.flatten).length := by rw [C54.mb_unit]; exact hd
  -- what content says
  have key (j : EncId) (hj : C54.unitSize i = C54.unitSize j) (s : DState) (hs : s.cur = .builtin j) (hD : s.D = ch.s.D) (zs : List Buf)
      (hz : C54.unitSize i ∣ zs.flatten.length) (G : GRun)
      (hm : Matches s (feed (entSem c opened s) (s.cur.x c.c.ns).e (inherited v) [] zs) G) (A : List PEv) :
      (∃ L ch' q, G = (L, ch', .done q) ∧ view L = A) ↔
        ∃ E, Content (full c.c) ch.s.D.toDtd c.int asc1 (j.x c.c.ns) (C54.ascOf j) opened v zs.flatten E [] ∧ A = (E.filter (wants c.c)).map .ev := by
    have hsx : s.cur.x c.c.ns = j.x c.c.ns := by rw [hs]; rfl
    have := content_feed (c := c.c) (D := ch.s.D.toDtd) (opened := opened) (v := v) (C54.supported c.c.ns j) he I hint zs
      (by rw [C54.mb_unit, ← hj]; exact hz)
    rw [entSem, hsx, hD] at hm
    generalize feed (sem c.c ch.s.D.toDtd c.int ch.s.D.toDtd.fuel (j.x c.c.ns) opened 1) (j.x c.c.ns).e (inherited v) [] zs = p at hm this
    obtain ⟨F, o⟩ := p
    obtain ⟨L, ch', e⟩ := G
    obtain ⟨m1, m2⟩ := hm
    simp only at m1 m2
    subst m1
    cases o with
    | err e =>
      simp only at m2
      subst m2
      constructor
      · rintro ⟨_, _, _, h, -⟩; cases h
      · rintro ⟨E, h, -⟩
        obtain ⟨_, _, _, h, -⟩ := (this _).2 ⟨E, h, rfl⟩
        cases h
    | ok u q =>
      simp only at m2
      obtain ⟨-, -, rfl⟩ := m2
      constructor
      · rintro ⟨_, _, _, h, rfl⟩
        cases h
        obtain ⟨E, k1, k2⟩ := (this _).1 ⟨_, _, _, rfl, rfl⟩
        exact ⟨E, k1, by rw [view_content, k2]⟩
      · rintro ⟨E, h, rfl⟩
        obtain ⟨_, _, _, k1, k2⟩ := (this _).2 ⟨E, h, rfl⟩
        cases k1
        exact ⟨_, _, _, rfl, by rw [view_content, k2]⟩
  by_cases ht : (contentTok (ch.s.cur.x c.c.ns).e (r ++ xs.flatten)).tok = .XML_DECL
  · obtain ⟨n, hn⟩ : ∃ n, contentTok (ch.s.cur.x c.c.ns).e (r ++ xs.flatten) = ⟨.XML_DECL, n⟩ := ⟨_, by rw [← ht]⟩
    obtain ⟨E, s, a, g1, g2, g3⟩ := feed_decl (c := c) (opened := opened) (v := v) xs hx ch r h1 (by rw [hcx]; exact S.s.ok) hn
    rw [hcx] at hn
    obtain ⟨w, b, m1, m2, m3⟩ := content_sound S.s hd' rfl (by simp) (by simp) hn
    rw [m2, m3] at g1
    rw [List.take_left] at g1
    have rest {ys : List Buf} (hy : ys.flatten = (r ++ xs.flatten).drop n) : ys.flatten = b := by
      rw [hy, m2, m3, List.drop_left]
    have hdb : C54.unitSize i ∣ b.length := by rw [← C54.mb_unit c.c.ns]; rw [m2] at hd'; exact (markup_dvd S m1 hd').2
    constructor
    · rintro ⟨L, ch', q, k1, rfl⟩
      cases a with
      | go g =>
        obtain ⟨d, j, rfl, v1, v2, v3⟩ := text_back hu m1 hc (hd := g) (by rw [g1])
        obtain ⟨E', k2, k3⟩ := text_act (c := c) v1 v2 v3 hc
        rw [k2] at g1
        cases g1
        obtain ⟨ys, G, p1, p2, p3⟩ := g2 _ rfl
        rw [p3] at k1
        obtain ⟨L', gc, ge⟩ := G
        simp only [GRun.pre, Prod.mk.injEq] at k1
        obtain ⟨rfl, rfl, rfl⟩ := k1
        obtain ⟨V, q1, q2⟩ := (key j v3.unit { ch.s with cur := .builtin j } rfl rfl ys (by rw [rest p1]; exact hdb) _ p2 _).1 ⟨_, _, _, rfl, rfl⟩
        refine ⟨_, b, j, some d, V, m2, .decl d j v1 v2 v3, by rw [← rest p1]; exact q1, ?_⟩
        rw [view_append, q2, k3]
        congr 1
        split
        · exact view_told _
        · rename_i hx; rw [view_dflt, textTold, if_neg hx]
      | _ => exact absurd (by rw [k1]) (g3 (by simp) q)
    · rintro ⟨h, b', j, d, V, k1, k2, k3, rfl⟩
      cases k2 with
      | none =>
        rw [List.nil_append] at k1
        subst k1
        rw [hcx] at ht
        exact (decl_not_content S he I hint hd' ht _ k3).elim
      | decl d j v1 v2 v3 =>
        rw [k1] at hd' hn
        have := text_token S v1 b' hd'
        rw [hn] at this
        simp only [Res.mk.injEq, true_and] at this
        obtain ⟨rfl, rfl⟩ := List.append_inj (m2.symm.trans k1) (by rw [← m3, this])
        obtain ⟨E', k4, k5⟩ := text_act (c := c) v1 v2 v3 hc
        rw [k4] at g1
        cases g1
        obtain ⟨ys, G, p1, p2, p3⟩ := g2 _ rfl
        obtain ⟨L, ch', q, q1, q2⟩ := (key j v3.unit { ch.s with cur := .builtin j } rfl rfl ys (by rw [rest p1]; exact hdb) _ p2 _).2 ⟨V, by rw [rest p1]; exact k3, rfl⟩
        refine ⟨_ ++ L, ch', q, by rw [p3, q1]; rfl, ?_⟩
        rw [view_append, q2, k5]
        congr 1
        split
        · exact view_told _
        · rename_i hx; rw [view_dflt, textTold, if_neg hx]
  · obtain ⟨ys, g1, g2, g3⟩ := feed_plain (c := c) (opened := opened) (v := v) xs hx ch r h1 (by rw [hcx]; exact S.s.ok) ht
    obtain ⟨zs, z1, z2⟩ := feed_rest (M := entSem c opened ch.s) (e := (ch.s.cur.x c.c.ns).e) (s := inherited v) (r := r) g1
    rw [z2] at g3
    rw [key i rfl ch.s hc rfl zs (by rw [z1, g2]; exact hd) _ g3, z1, g2]
    constructor
    · rintro ⟨E, k1, rfl⟩
      exact ⟨[], _, i, none, E, rfl, .none, k1, rfl⟩
    · rintro ⟨h, b, j, d, E, k1, k2, k3, rfl⟩
      cases k2 with
      | none => rw [k1]; exact ⟨E, k3, rfl⟩
      | decl d j v1 v2 v3 =>
        rw [hcx, k1] at ht
        rw [k1] at hd'
        rw [text_token S v1 b hd'] at ht
        exact absurd rfl ht

theorem feed_nothing {idx : EncIndex} (xs : List Buf) : xs ≠ [] → xs.flatten = [] → ∀ {ch : GChild}, ch.enc = some idx → ch.phase = .second →
    ∃ ch', entFeed c opened v ch [] xs = ([], ch', .done []) := by
  induction xs with
  | nil => intro h; exact absurd rfl h
  | cons x xs ih =>
    intro _ hf ch h1 h2
    simp only [List.flatten_cons, List.append_eq_nil_iff] at hf
    obtain ⟨rfl, hf⟩ := hf
    by_cases hxs : xs = []
    · subst hxs
      have ht : firstContentTok c.c.ns (some idx) ch.s.cur [] = (⟨.NONE, 0⟩, some idx, ch.s.cur) := rfl
      have hs : ch.set (⟨.NONE, 0⟩, some idx, ch.s.cur) = ch := by rw [← h1]; rfl
      have hr : call (entSem c opened ch.s) (ch.s.cur.x c.c.ns).e false (inherited v) [] = ([], .ok (inherited v) []) := by
        rw [call, run.eq_def, sem_mode]
        have hm : (inherited v).mode = .content := rfl
        simp only [hm, show Mode.tok .content (ch.s.cur.x c.c.ns).e [] = ⟨.NONE, 0⟩ from rfl, show Mode.verdict .content .NONE = .done from rfl]
        simp only [Bool.false_eq_true, if_false, finish]
        have hfin : (entSem c opened ch.s).fin (inherited v) = none := by rw [entSem]; cases ch.s.D.toDtd.fuel <;> rfl
        rw [hfin]
      refine ⟨{ ch with phase := .content (inherited v) }, ?_⟩
      rw [entFeed, entCall, h2]
      simp only [List.append_nil, entSecond, h1, ht, hs, entThird, entContent, hr]
      rfl
    · rw [entFeed_cons hxs, if_pos rfl]
      exact ih hxs hf h1 h2

theorem Detected.ne {idx : EncIndex} {m t : Buf} {i : EncId} (h : Detected idx m t i) : m ++ t ≠ [] := by cases h <;> simp

theorem Detected.unique {idx : EncIndex} {m t m' t' : Buf} {i i' : EncId} (h : Detected idx m t i) (h' : Detected idx m' t' i') (he : m ++ t = m' ++ t') :
    m = m' ∧ t = t' ∧ i = i' := by
  have h1 := h.whole
  have h2 := h'.whole
  rw [he, h2] at h1
  have h3 : m.length = m'.length ∧ i = i' := by
    unfold decision at h1
    split at h1 <;> split at h1 <;> simp_all
  obtain ⟨h4, h5⟩ := List.append_inj he h3.1
  exact ⟨h4, h5, h3.2⟩

/-- **C66.**  The text `xs.flatten` of an external entity, passed in any pieces `xs`, the last of them final, to a parser made for it, is
accepted if and only if it is an external parsed entity; and then the handlers that are set have been told what it says. -/
theorem accepted_iff (hu : c.unknown = fun _ => none) (he : c.c.expandInternal = true) (hi : c.int = internalUtf8X c.c.ns) {idx : EncIndex}
    {ch : GChild} (h1 : ch.enc = some idx) (h2 : ch.phase = .second) {xs : List Buf} (hx : xs ≠ []) (hw : Whole idx xs.flatten) (A : List PEv) :
    (∃ L ch' q, entFeed c opened v ch [] xs = (L, ch', .done q) ∧ view L = A) ↔
      ParsedEntity c idx ch.s.D.toDtd opened v xs.flatten A := by
  by_cases hn : xs.flatten = []
  · obtain ⟨ch', h⟩ := feed_nothing (c := c) (opened := opened) (v := v) xs hx hn h1 h2
    rw [h, hn]
    constructor
    · rintro ⟨L, _, _, k, rfl⟩; cases k; exact .empty
    · intro k
      generalize hg : ([] : Buf) = w at k
      cases k with
      | empty => exact ⟨_, _, _, rfl, rfl⟩
      | text m h b i j d E k1 => exact absurd hg.symm k1.ne
  · rcases detected idx _ hn with ⟨m, t, i, g1, g2⟩ | hs
    · obtain ⟨ch', r, ys, k1, k2, k3, k4, k5⟩ := feed_detect (c := c) (opened := opened) (v := v) g2 xs hx ch [] h1 h2 g1
      rw [k5, starting_iff hu he hi (i := i) k1 (by rw [k2]) k3 (by rw [k4]; exact hw _ _ _ g1 g2), k4, k2]
      constructor
      · rintro ⟨h, b, j, d, E, rfl, p2, p3, rfl⟩
        rw [g1]
        exact .text m h b i j d E g2 p2 p3
      · intro p
        generalize xs.flatten = w at *
        cases p with
        | empty => exact absurd rfl hn
        | text m' h b i' j d E p1 p2 p3 =>
          obtain ⟨rfl, rfl, rfl⟩ := g2.unique p1 g1.symm
          exact ⟨h, b, j, d, E, rfl, p2, p3, rfl⟩
    · have := feed_short (c := c) (opened := opened) (v := v) xs hx ch [] h1 h2 hs
      constructor
      · rintro ⟨L, _, _, k, rfl⟩; rw [k] at this; cases this
      · intro p
        generalize xs.flatten = w at *
        cases p with
        | empty => exact absurd rfl hn
        | text m' h b i' j d E p1 p2 p3 =>
          have := p1.whole
          rw [hs] at this
          unfold decision at this
          split at this <;> cases this

/-- What is not such an entity is not accepted. -/
theorem refused (hu : c.unknown = fun _ => none) (he : c.c.expandInternal = true) (hi : c.int = internalUtf8X c.c.ns) {idx : EncIndex}
    {ch : GChild} (h1 : ch.enc = some idx) (h2 : ch.phase = .second) {xs : List Buf} (hx : xs ≠ []) (hw : Whole idx xs.flatten)
    (hn : ¬ ∃ A, ParsedEntity c idx ch.s.D.toDtd opened v xs.flatten A) (q : Buf) : (entFeed c opened v ch [] xs).2.2 ≠ .done q := by
  intro h
  refine hn ⟨_, (accepted_iff hu he hi h1 h2 hx hw _).1 ⟨(entFeed c opened v ch [] xs).1, (entFeed c opened v ch [] xs).2.1, q, ?_, rfl⟩⟩
  rw [← h]

/-- The pieces do not matter: accepted in one way, accepted in every other, and with the same reports. -/
theorem pieces (hu : c.unknown = fun _ => none) (he : c.c.expandInternal = true) (hi : c.int = internalUtf8X c.c.ns) {idx : EncIndex}
    {ch : GChild} (h1 : ch.enc = some idx) (h2 : ch.phase = .second) {xs ys : List Buf} (hx : xs ≠ []) (hy : ys ≠ []) (hxy : xs.flatten = ys.flatten)
    (hw : Whole idx xs.flatten) {L : List PEv} {ch' : GChild} {q : Buf} (h : entFeed c opened v ch [] xs = (L, ch', .done q)) :
    ∃ L' ch'' q', entFeed c opened v ch [] ys = (L', ch'', .done q') ∧ view L' = view L := by
  have k := (accepted_iff hu he hi h1 h2 hx hw _).1 ⟨L, ch', q, h, rfl⟩
  rw [hxy] at k hw
  exact (accepted_iff hu he hi h1 h2 hy hw _).2 k

/-- An entity says one thing only. -/
theorem unambiguous (hu : c.unknown = fun _ => none) (he : c.c.expandInternal = true) (hi : c.int = internalUtf8X c.c.ns) {idx : EncIndex}
    {D : DTab} {w : Buf} (hw : Whole idx w) {A B : List PEv} (hA : ParsedEntity c idx D.toDtd opened v w A)
    (hB : ParsedEntity c idx D.toDtd opened v w B) : A = B := by
  let ch : GChild := ⟨{ el := { p := PState.init }, cur := .builtin .utf8, pe := .never, D := D }, some idx, .second⟩
  have h0 : [w].flatten = w := by simp
  obtain ⟨L, c1, q, h1, rfl⟩ := (accepted_iff (opened := opened) (v := v) hu he hi (ch := ch) rfl rfl (xs := [w]) (by simp) (by rw [h0]; exact hw) A).2
    (by rw [h0]; exact hA)
  obtain ⟨L', c2, q', h2, rfl⟩ := (accepted_iff (opened := opened) (v := v) hu he hi (ch := ch) rfl rfl (xs := [w]) (by simp) (by rw [h0]; exact hw) B).2
    (by rw [h0]; exact hB)
  rw [h1] at h2
  cases h2
  rfl

/-- Only membership in the list of open entities matters. -/
theorem ParsedEntity.congr {idx : EncIndex} {D : Dtd} {o o' : List Buf} (h : ∀ n, n ∈ o ↔ n ∈ o') {w : Buf} {A : List PEv}
    (k : ParsedEntity c idx D o v w A) : ParsedEntity c idx D o' v w A := by
  cases k with
  | empty => exact .empty
  | text m h b i j d E h1 h2 h3 => exact .text m h b i j d E h1 h2 (content_congr h3 ‹_›)

/-- With the context.  A parser with the declarations `D`, in which the namespaces `v` are in force and the entities `o` are open, calls the
handler for the external entity `name`, which makes a parser from the context it is given.  That parser reads exactly the external parsed
entities in which the namespaces `v` are in force, and the entities `o` and `name` are open: a reference to one of them is refused
(`Content`).  `ps` and `es` are the tables of the first parser, in any order (C32); `opened` is any list of the entities which are open in
the second one. -/
theorem from_context (hu : c.unknown = fun _ => none) (he : c.c.expandInternal = true) (hi : c.int = internalUtf8X c.c.ns) {D : DTab} {o : List Buf}
    {name : Buf} {ps : List (Buf × Option Buf)} {es : List (Buf × Bool)} (hl : C32.Lists v ps)
    (hv : ∀ p u, v p = some u → C32.Item.Ok (.bind p u)) (hes : ∀ n, (n, true) ∈ es ↔ n ∈ name :: o)
    (ho : ∀ n ∈ name :: o, C32.NameOk n ∧ (D.toDtd.entity n).isSome) (pe : PEParsing) (idx : EncIndex) :
    ∃ ch i, entCreate D pe idx (getContext (v none) ps es) = some (ch, i) ∧
      ∀ opened : List Buf, (∀ n, n ∈ opened ↔ i.opened n = true) → ∀ xs : List Buf, xs ≠ [] → Whole idx xs.flatten → ∀ A : List PEv,
        ((∃ L ch' q, entFeed c opened i.env ch [] xs = (L, ch', .done q) ∧ view L = A) ↔
          ParsedEntity c idx D.toDtd (name :: o) v xs.flatten A) := by
  obtain ⟨i, h1, h2, h3⟩ := C32.faithful hl hv (es := es) (known := fun n => (D.toDtd.entity n).isSome) (fun n hn => (ho n ((hes n).1 hn)).1)
    (fun n hn => (ho n ((hes n).1 hn)).2)
  refine ⟨⟨{ el := { p := PState.init }, cur := .builtin idx.enc, pe := pe, D := D }, some idx, .second⟩, i, by rw [entCreate, h1]; rfl, ?_⟩
  intro opened hop xs hx hw A
  rw [h2, accepted_iff hu he hi rfl rfl hx hw]
  have hm (n : Buf) : n ∈ opened ↔ n ∈ name :: o := by rw [hop, h3, hes]
  exact ⟨.congr hm, .congr fun n => (hm n).symm⟩

end

/-! ### Examples -/

/-- `<!ENTITY e SYSTEM 's'>` is declared. -/
def exTab : DTab := { gen := [([0x65], ⟨none, true, none, some [0x73], none, none⟩)] }

/-- A parser for the entity `e`. -/
def exChild (idx : EncIndex) : GChild := ⟨{ el := { p := PState.init }, cur := .builtin idx.enc, pe := .never, D := exTab }, some idx, .second⟩

def exCfg : PCfg := { c := {}, int := internalUtf8X false }

/-- What it is told, if it accepts. -/
def exRun (idx : EncIndex) (xs : List Buf) : Option (List PEv) :=
  match entFeed exCfg [[0x65]] (fun _ => none) (exChild idx) [] xs with
  | (L, _, .done _) => some (view L)
  | _ => none

def chs (s : List UInt8) : List PEv := s.map fun b => .ev (.chars [b])

/-- `<?xml encoding='utf-8'?>x<a/>`, cut inside the declaration. -/
example : exRun .noEnc ["<?xml enc".toUTF8.toList, "oding='utf-8'?>x<a/>".toUTF8.toList] =
    some (.xmlDecl ⟨none, true, none⟩ :: chs [0x78] ++ [.ev (.startElement [0x61] [] 0 none), .ev (.endElement [0x61])]) := by decide +kernel

/-- Text only, with a byte order mark, which is cut. -/
example : exRun .noEnc [[0xEF], [0xBB, 0xBF], [0x78]] = some (chs [0x78]) := by decide +kernel

/-- In UTF-16. -/
example : exRun .noEnc [[0xFE, 0xFF, 0, 0x78]] = some (chs [0x78]) := by decide +kernel

/-- A reference to itself, an unclosed element and an XML declaration without encoding are refused. -/
example : exRun .noEnc ["&e;".toUTF8.toList] = none ∧ exRun .noEnc ["<a>".toUTF8.toList] = none ∧
    exRun .noEnc ["<?xml version='1.0'?>x".toUTF8.toList] = none := by decide +kernel

/-- The hypotheses of `accepted_iff` are met. -/
example : ParsedEntity exCfg .noEnc exTab.toDtd [[0x65]] (fun _ => none) [0xEF, 0xBB, 0xBF, 0x78] (chs [0x78]) := by
  refine (accepted_iff (idx := .noEnc) (ch := exChild .noEnc) (xs := [[0xEF, 0xBB, 0xBF, 0x78]]) rfl rfl rfl rfl rfl (by simp) ?_ _).1 ?_
  · intro m t i h1 h2
    have := h2.unique (.utf8 [0x78] (by simp) rfl) (h1.symm.trans (by rfl))
    obtain ⟨-, -, rfl⟩ := this
    exact Nat.one_dvd _
  · have h : exRun .noEnc [[0xEF, 0xBB, 0xBF, 0x78]] = some (chs [0x78]) := by decide +kernel
    unfold exRun at h
    split at h
    · rename_i L ch q hq; exact ⟨L, ch, q, hq, Option.some.inj h⟩
    · cases h

/-- The context of the document element: no prefixes, and `e` open. -/
example : (entCreate exTab .never .noEnc (getContext none [] [([0x65], true)])).map (fun p => (p.2.opened [0x65], p.2.opened [0x66], p.2.env none)) =
    some (true, false, none) := by decide +kernel

end Verif.C66
