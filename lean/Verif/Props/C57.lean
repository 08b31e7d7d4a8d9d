import Verif.UnknownCuts

/-! C57: what happens in the prolog does not depend on how the input is split into XML_Parse calls. -/

set_option autoImplicit false

namespace Verif.C57
open Verif

/-! ### What is compared -/

/-- Two results are the same up to the slicing of text for the default handler: the same handler calls; the same
error code, or the same state and unconsumed bytes, or the root element found at the same place in the same state. -/
def Same (r w : Prolog) : Prop :=
  pflat r.1 = pflat w.1 ∧
  match r.2.2, w.2.2 with
  | .done q, .done q' => r.2.1 = w.2.1 ∧ q = q'
  | .content q, .content q' => r.2.1 = w.2.1 ∧ q = q'
  | .err e, .err e' => e = e'
  | .panic, .panic => True
  | _, _ => False

/-- Several calls of XML_Parse, the last of them final; each is given the bytes not yet consumed followed by the new
ones (src/lib/xmlparse.rs:2581-2665, 2685-2747).  Once the root element has started, the remaining bytes belong to
the content. -/
def feed (c : PCfg) (ext : Ext) (fuel : Nat) (opened : List Buf) (s : DState) (rest : Buf) : List Buf → Prolog
  | [] => prologCall c ext fuel opened false s rest
  | [x] => prologCall c ext fuel opened false s (rest ++ x)
  | x :: xs =>
    match prologCall c ext fuel opened true s (rest ++ x) with
    | (E, s', .done q) => Prolog.pre E (feed c ext fuel opened s' q xs)
    | (E, s', .content q) => (E, s', .content (q ++ xs.flatten))
    | r => r

theorem Same.refl (r : Prolog) : Same r r := by
  obtain ⟨E, s, o⟩ := r
  cases o <;> simp [Same]

theorem Same.trans {r s t : Prolog} (h : Same r s) (h' : Same s t) : Same r t := by
  obtain ⟨E, u, o⟩ := r
  obtain ⟨E2, u2, o2⟩ := s
  obtain ⟨E3, u3, o3⟩ := t
  obtain ⟨h1, h2⟩ := h
  obtain ⟨h3, h4⟩ := h'
  refine ⟨h1.trans h3, ?_⟩
  cases o <;> cases o2 <;> cases o3 <;> simp only at h2 h4 ⊢ <;>
    first | exact h2.elim | exact h4.elim | trivial | exact h2.trans h4 | exact ⟨h2.1.trans h4.1, h2.2.trans h4.2⟩

theorem Same.pre {E E' : List PEv} (he : pflat E = pflat E') {r s : Prolog} (h : Same r s) :
    Same (Prolog.pre E r) (Prolog.pre E' s) :=
  ⟨by simp only [Prolog.pre, pflat_append, he, h.1], h.2⟩

theorem pre_pre (A B : List PEv) (r : Prolog) : Prolog.pre A (Prolog.pre B r) = Prolog.pre (A ++ B) r := by
  simp [Prolog.pre]

theorem pre_nil (r : Prolog) : Prolog.pre [] r = r := by simp [Prolog.pre]

section
variable {c : PCfg} {ext : Ext} {fuel : Nat} {opened : List Buf}

/-- The loop of `doProlog` on the document itself. -/
abbrev loop (c : PCfg) (ext : Ext) (fuel : Nat) (opened : List Buf) (more : Bool) (s : DState) (b : Buf) : Prolog :=
  prun c ext fuel (expandPE c ext fuel fuel opened) false false true more opened s b

/-- The rest of the input `x` is passed in a further, final call. -/
def after (c : PCfg) (ext : Ext) (fuel : Nat) (opened : List Buf) (x : Buf) (r : Prolog) : Prolog :=
  match r with
  | (E, s, .done q) => Prolog.pre E (prologCall c ext fuel opened false s (q ++ x))
  | (E, s, .content q) => (E, s, .content (q ++ x))
  | r => r

theorem after_pre (x : Buf) (E : List PEv) (r : Prolog) :
    after c ext fuel opened x (Prolog.pre E r) = Prolog.pre E (after c ext fuel opened x r) := by
  obtain ⟨F, s, o⟩ := r
  cases o <;> simp [after, Prolog.pre]

theorem call_loop {more : Bool} {s : DState} (h : s.ignoring = false) (b : Buf) :
    prologCall c ext fuel opened more s b = loop c ext fuel opened more s b := by
  unfold prologCall
  simp [h]

/-- One round for white space. -/
theorem loop_space {more : Bool} {s u : DState} {r : Role} {b : Buf} {n : Nat}
    (ht : seeToken (s.x c false) false false more c.isPE b = .tok .PROLOG_S n)
    (hl : (b.drop n).length < b.length)
    (hr : ∀ w, pround c ext fuel (expandPE c ext fuel fuel opened) false true opened s .PROLOG_S w = spaceRound c u r w) :
    loop c ext fuel opened more s b =
      Prolog.pre (spaceRound c u r (b.take n)).1 (loop c ext fuel opened more u (b.drop n)) := by
  rw [loop, prun.eq_def]
  simp only [ht, hr, spaceRound, if_pos hl]

theorem same_ignoring {s : DState} (h : s.ignoring = false) : ({ s with ignoring := false } : DState) = s := by
  cases s; simp only at h; subst h; rfl

/-- Giving the first bytes in a call of their own changes nothing. -/
theorem split (ho : c.OtherOk) (x : Buf) (s : DState) (b : Buf) (hc : (s.x c false).Cuts)
    (hn : s.el.p.roleNone.none_ = true) (hi : s.ignoring = false) :
    Same (after c ext fuel opened x (loop c ext fuel opened true s b)) (loop c ext fuel opened false s (b ++ x)) := by
  induction hl : b.length using Nat.strongRecOn generalizing s b with
  | _ n ih =>
    subst hl
    have he := expandPE_enced (ext := ext) (fuel := fuel) ho fuel opened
    have hne := (none_runRel (c := c) (ext := ext) (fuel := fuel)).expandPE fuel opened
    have hsee := seeToken_app hc.ok c.isPE b x
    rcases hsee with h | ⟨h, h2⟩ | ⟨t, n, h, hnb, h2⟩ | ⟨n, h, hp⟩
    · have : loop c ext fuel opened true s b = ([], s, .done b) := by
        rw [loop, prun.eq_def]; simp only [h]
      rw [this, after, pre_nil, call_loop hi]
      exact .refl _
    · rw [loop, loop, prun.eq_def, prun.eq_def c ext fuel _ false false true false]
      simp only [h, h2, after]
      exact .refl _
    · -- a token that stays as it is
      rw [loop, loop, prun.eq_def, prun.eq_def c ext fuel _ false false true false]
      simp only [h, h2]
      rw [List.take_append_of_le_length hnb]
      have hen := pround_enced (ext := ext) (fuel := fuel) (internal := false) (allowClose := true)
        (opened := opened) ho he s t (b.take n)
      have hrn := (none_runRel (c := c) (ext := ext) (fuel := fuel)).round (internal := false) (allowClose := true)
        (opened := opened) hne s t (b.take n) hn
      generalize pround c ext fuel (expandPE c ext fuel fuel opened) false true opened s t (b.take n) = q at hen hrn
      obtain ⟨E, s', o⟩ := q
      simp only at hen hrn
      have hi' : s'.ignoring = false := hen.ignoring.trans hi
      cases o with
      | fail e => exact .refl _
      | panic => exact .refl _
      | start => exact .refl _
      | go d =>
        simp only []
        by_cases h0 : n = 0
        · subst h0
          simp only [List.drop_zero, Nat.lt_irrefl, if_false, after]
          exact .refl _
        · have l1 : (b.drop n).length < b.length := by rw [List.length_drop]; omega
          have l2 : ((b ++ x).drop n).length < (b ++ x).length := by
            rw [List.length_drop, List.length_append]; omega
          rw [if_pos l1, if_pos l2, after_pre, drop_app _ _ _ hnb]
          exact .pre rfl (ih _ l1 s' _ (hen.cuts hc) hrn hi' rfl)
      | ignore =>
        simp only []
        rw [drop_app _ _ _ hnb]
        rcases ignoreSection_app (hen.cuts hc).ok (b := b.drop n) x with hw | hs
        · -- the section goes on in the next call
          simp only [hw, after]
          have hcall : prologCall c ext fuel opened false { s' with ignoring := true } (b.drop n ++ x) =
              (match ignoreSection (s'.x c false) false (b.drop n ++ x) with
              | .wait => ([], { s' with ignoring := true }, .done (b.drop n ++ x))
              | .err e => ([], { s' with ignoring := true }, .err e)
              | .closed k => Prolog.pre ((toDefault c.c (s'.x c false) ((b.drop n ++ x).take k)).map .ev)
                  (loop c ext fuel opened false s' ((b.drop n ++ x).drop k))) := by
            have hs0 : ({ s' with ignoring := false } : DState) = s' := same_ignoring hi'
            unfold prologCall
            simp only [if_true]
            rw [show ({ ({ s' with ignoring := true } : DState) with ignoring := false } : DState) = s' from hs0]
            rfl
          rw [hcall]
          have hf := ignoreSection_final (x := s'.x c false) (b := b.drop n ++ x)
          have hk := fun k => ignoreSection_closed (x := s'.x c false) (more := false) (b := b.drop n ++ x) (k := k)
          generalize ignoreSection (s'.x c false) false (b.drop n ++ x) = q at hf hk
          cases q with
          | wait => exact absurd rfl hf
          | err e => simp [Same, Prolog.pre]
          | closed k =>
            have := hk k rfl
            have l2 : ((b.drop n ++ x).drop k).length < (b ++ x).length := by
              rw [List.length_append, List.length_drop] at this
              rw [List.length_drop, List.length_append, List.length_drop, List.length_append]; omega
            simp only [if_pos l2, pre_pre]
            exact .refl _
        · have hk := fun k => ignoreSection_closed (x := s'.x c false) (more := true) (b := b.drop n) (k := k)
          have hf := ignoreSection_final (x := s'.x c false) (b := b.drop n ++ x)
          rw [hs] at hf ⊢
          generalize ignoreSection (s'.x c false) true (b.drop n) = q at hk hf
          cases q with
          | wait => exact absurd rfl hf
          | err e => exact .refl _
          | closed k =>
            have := hk k rfl
            have l1 : ((b.drop n).drop k).length < b.length := by
              rw [List.length_drop] at this
              rw [List.length_drop, List.length_drop]; omega
            have l2 : ((b.drop n ++ x).drop k).length < (b ++ x).length := by
              rw [List.length_drop] at this
              rw [List.length_drop, List.length_append, List.length_drop, List.length_append]; omega
            simp only [if_pos l1, if_pos l2]
            rw [after_pre, drop_app _ _ _ this.2, List.take_append_of_le_length this.2]
            exact .pre rfl (ih _ l1 s' _ (hen.cuts hc) hrn hi' rfl)
    · -- white space
      obtain ⟨hnb, _, hcut⟩ := prolog_space_cut hc.ok hc.even x hp
      have hpr : 0 < n := by
        have := C02.progress .prolog (s.x c false).e b
        simp only [C02.Entry.run, hp] at this
        exact this rfl (by simp)
      have l1 : (b.drop n).length < b.length := by rw [List.length_drop]; omega
      rcases pround_space (c := c) (ext := ext) (fuel := fuel) (expand := expandPE c ext fuel fuel opened)
        (allowClose := true) (opened := opened) hn with ⟨u, hu⟩ | ⟨r, u, hx, hr, hr2⟩
      · -- not allowed here
        have h3 : ∃ m, seeToken (s.x c false) false false false c.isPE (b ++ x) = .tok .PROLOG_S m := by
          rcases hcut with h3 | ⟨m, h3, _⟩
          · exact ⟨n, by rw [seeToken, h3]; rfl⟩
          · exact ⟨n + m, by rw [seeToken, h3]; rfl⟩
        obtain ⟨m, h3⟩ := h3
        rw [loop, loop, prun.eq_def, prun.eq_def c ext fuel _ false false true false]
        simp only [h, h3, hu, after]
        exact .refl _
      · have hun : u.el.p.roleNone.none_ = true := by
          have := (none_runRel (c := c) (ext := ext) (fuel := fuel)).round (internal := false) (allowClose := true)
            (opened := opened) hne s .PROLOG_S [] hn
          rw [hr] at this
          exact this
        have hui : u.ignoring = false := by
          have := (pround_enced (ext := ext) (fuel := fuel) (internal := false) (allowClose := true)
            (opened := opened) ho he s .PROLOG_S []).ignoring
          rw [hr] at this
          exact this.trans hi
        have huc : (u.x c false).Cuts := by rw [hx]; exact hc
        rw [loop_space h l1 hr, after_pre]
        have hih := ih _ l1 u (b.drop n) huc hun hui rfl
        refine .trans (.pre rfl hih) ?_
        rcases hcut with h3 | ⟨m, h3, h4⟩
        · have l2 : ((b ++ x).drop n).length < (b ++ x).length := by
            rw [List.length_drop, List.length_append]; omega
          rw [loop_space (b := b ++ x) (n := n) (by rw [seeToken, h3]; rfl) l2 hr,
            List.take_append_of_le_length hnb, drop_app _ _ _ hnb]
          exact .refl _
        · have hpm : 0 < m := by
            have := C02.progress .prolog (s.x c false).e ((b ++ x).drop n)
            simp only [C02.Entry.run, h4] at this
            exact this rfl (by simp)
          have hmb : m ≤ ((b ++ x).drop n).length := by
            have := C02.next_in_buffer .prolog (s.x c false).e ((b ++ x).drop n)
            simp only [C02.Entry.run, h4] at this
            exact this
          have l2 : ((b ++ x).drop (n + m)).length < (b ++ x).length := by
            rw [List.length_drop, List.length_append]; omega
          have l3 : (((b ++ x).drop n).drop m).length < ((b ++ x).drop n).length := by
            rw [List.length_drop]; omega
          rw [loop_space (b := b ++ x) (n := n + m) (by rw [seeToken, h3]; rfl) l2 hr, ← drop_app _ _ _ hnb,
            loop_space (b := (b ++ x).drop n) (n := m) (by rw [seeToken, hx, h4]; rfl) l3 hr2, pre_pre, List.drop_drop]
          refine .pre ?_ (.refl _)
          rw [List.take_add, List.take_append_of_le_length hnb, pflat_append]
          simp only [spaceRound]
          rw [hx]
          split
          · exact (toDefault_space hc hp _).symm
          · rfl

/-- The same for any call, also one that begins inside an IGNORE section. -/
theorem split_call (ho : c.OtherOk) (x : Buf) (s : DState) (b : Buf) (hc : (s.x c false).Cuts)
    (hn : s.el.p.roleNone.none_ = true) :
    Same (after c ext fuel opened x (prologCall c ext fuel opened true s b))
      (prologCall c ext fuel opened false s (b ++ x)) := by
  by_cases hi : s.ignoring = true
  · have hcall : ∀ more b, prologCall c ext fuel opened more s b =
        (match ignoreSection (s.x c false) more b with
        | .wait => ([], s, .done b)
        | .err e => ([], s, .err e)
        | .closed k => Prolog.pre ((toDefault c.c (s.x c false) (b.take k)).map .ev)
            (loop c ext fuel opened more { s with ignoring := false } (b.drop k))) := by
      intro more b
      unfold prologCall
      simp only [hi, if_true]
      rfl
    rcases ignoreSection_app hc.ok (b := b) x with hw | hs
    · rw [hcall true, hw]
      simp only [after]
      rw [pre_nil]
      exact .refl _
    · rw [hcall true, hcall false, hs]
      have hk := fun k => ignoreSection_closed (x := s.x c false) (more := true) (b := b) (k := k)
      have hf := ignoreSection_final (x := s.x c false) (b := b ++ x)
      rw [hs] at hf
      generalize ignoreSection (s.x c false) true b = q at hk hf
      cases q with
      | wait => exact absurd rfl hf
      | err e => exact .refl _
      | closed k =>
        simp only []
        rw [after_pre, drop_app _ _ _ (hk k rfl).2, List.take_append_of_le_length (hk k rfl).2]
        exact .pre rfl (split ho x { s with ignoring := false } (b.drop k) hc hn rfl)
  · have hi : s.ignoring = false := by simpa using hi
    rw [call_loop hi, call_loop hi]
    exact split ho x s b hc hn hi

/-- **C57.**  The prolog of a document, passed to XML_Parse in any number of pieces cut at any byte positions,
gives what it gives when passed at once: the same handler calls up to the slicing of text for the default handler,
the same error code, the same declarations and settings, and the root element at the same place.  Any state to begin
with, any settings and handlers, any answers of the external entity handler; built-in encodings and those which the
application supplies. -/
theorem chunks (ho : c.OtherOk) (xs : List Buf) : ∀ (s : DState) (rest : Buf), (s.x c false).Cuts →
    s.el.p.roleNone.none_ = true →
    Same (feed c ext fuel opened s rest xs) (prologCall c ext fuel opened false s (rest ++ xs.flatten)) := by
  induction xs with
  | nil => intro s rest _ _; rw [feed, List.flatten_nil, List.append_nil]; exact .refl _
  | cons x xs ih =>
    intro s rest hc hn
    cases xs with
    | nil => rw [feed, List.flatten_cons, List.flatten_nil, List.append_nil]; exact .refl _
    | cons y ys =>
      have hs := split_call (ext := ext) (fuel := fuel) (opened := opened) ho (y :: ys).flatten s (rest ++ x) hc hn
      have hk := (prologCall_kept (ext := ext) (fuel := fuel) (opened := opened) (more := true) ho s (rest ++ x)).1.1 hc
      have hnn := (none_runRel (c := c) (ext := ext) (fuel := fuel)).call (opened := opened) (more := true) s (rest ++ x) hn
      rw [feed, show (x :: y :: ys).flatten = x ++ (y :: ys).flatten from List.flatten_cons, ← List.append_assoc]
      · generalize prologCall c ext fuel opened true s (rest ++ x) = r at hs hk hnn
        obtain ⟨E, s', o⟩ := r
        cases o with
        | done q => exact .trans (.pre rfl (ih s' q hk hnn)) hs
        | content q => exact hs
        | err e => exact hs
        | panic => exact hs
      · simp

/-! ### Whole documents -/

/-- The end of a document: inside the prolog, or what became of the content. -/
inductive DocEnd where
  | prolog (o : PEnd)
  | content (F : List Ev) (o : Out CState)

/-- Handler calls of the prolog, state at the end of the prolog, and the rest. -/
abbrev Doc := List PEv × DState × DocEnd

/-- The content processor as the prolog leaves it: with its declarations and encoding. -/
abbrev contentSem (c : PCfg) (s : DState) : Sem CState := parser c.c s.D.toDtd c.int (s.x c false)

/-- The content in further calls; the first of them is the one in which the root element was found
(src/lib/xmlparse.rs:5941-5945: the content processor is called on the rest of the buffer). -/
def content (c : PCfg) (s : DState) (q : Buf) (xs : List Buf) : DocEnd :=
  let r := Verif.feed (contentSem c s) (s.x c false).e CState.init q xs
  .content r.1 r.2

/-- What follows the result of the prolog when nothing but `q` is left. -/
def finishDoc (c : PCfg) (r : Prolog) : Doc :=
  match r with
  | (E, s, .content q) => (E, s, content c s q [])
  | (E, s, o) => (E, s, .prolog o)

/-- A document in several calls of XML_Parse, the last of them final. -/
def document (c : PCfg) (ext : Ext) (fuel : Nat) (s : DState) (rest : Buf) : List Buf → Doc
  | [] => finishDoc c (prologCall c ext fuel [] false s rest)
  | [x] => finishDoc c (prologCall c ext fuel [] false s (rest ++ x))
  | x :: xs =>
    match prologCall c ext fuel [] true s (rest ++ x) with
    | (E, s', .done q) => let d := document c ext fuel s' q xs; (E ++ d.1, d.2)
    | (E, s', .content q) => (E, s', content c s' q ([] :: xs))
    | (E, s', o) => (E, s', .prolog o)

/-- The same up to the slicing of text (`C04.Same` for the content). -/
def DocSame (d d' : Doc) : Prop :=
  pflat d.1 = pflat d'.1 ∧
  match d.2.2, d'.2.2 with
  | .prolog (.done q), .prolog (.done q') => d.2.1 = d'.2.1 ∧ q = q'
  | .prolog (.err e), .prolog (.err e') => e = e'
  | .prolog .panic, .prolog .panic => True
  | .content F o, .content F' o' => d.2.1 = d'.2.1 ∧ C04.Same (F, o) (F', o')
  | _, _ => False

theorem finishDoc_same {r w : Prolog} (h : Same r w) : DocSame (finishDoc c r) (finishDoc c w) := by
  obtain ⟨E, s, o⟩ := r
  obtain ⟨E2, s2, o2⟩ := w
  obtain ⟨h1, h2⟩ := h
  refine ⟨by cases o <;> cases o2 <;> exact h1, ?_⟩
  cases o <;> cases o2 <;> simp only at h2 <;> try exact h2.elim
  · exact h2
  · obtain ⟨rfl, rfl⟩ := h2
    exact ⟨rfl, .refl _⟩
  · exact h2
  · trivial

theorem DocSame.trans {r s t : Doc} (h : DocSame r s) (h' : DocSame s t) : DocSame r t := by
  obtain ⟨E, u, o⟩ := r
  obtain ⟨E2, u2, o2⟩ := s
  obtain ⟨E3, u3, o3⟩ := t
  obtain ⟨h1, h2⟩ := h
  obtain ⟨h3, h4⟩ := h'
  refine ⟨h1.trans h3, ?_⟩
  rcases o with (_ | _ | _ | _) | _ <;> rcases o2 with (_ | _ | _ | _) | _ <;> rcases o3 with (_ | _ | _ | _) | _ <;>
    simp only at h2 h4 ⊢ <;>
    first
      | exact h2.elim | exact h4.elim | trivial | exact h2.trans h4
      | exact ⟨h2.1.trans h4.1, h2.2.trans h4.2⟩

theorem DocSame.pre {E : List PEv} {d d' : Doc} (h : DocSame d d') : DocSame (E ++ d.1, d.2) (E ++ d'.1, d'.2) :=
  ⟨by simp only [pflat_append, h.1], h.2⟩

theorem finishDoc_pre (E : List PEv) (r : Prolog) :
    finishDoc c (Prolog.pre E r) = (E ++ (finishDoc c r).1, (finishDoc c r).2) := by
  obtain ⟨F, s, o⟩ := r
  cases o <;> rfl

/-- The encoding is one of the built-in ones. -/
theorem builtin_supported (i : EncId) (ns : Bool) : ∃ asc, XSupported (i.x ns) asc := by
  cases i
  · exact ⟨_, .latin1 ns⟩
  · exact ⟨_, .ascii ns⟩
  · exact ⟨_, .utf8 ns⟩
  · exact ⟨_, .utf16be ns⟩
  · exact ⟨_, .utf16le ns⟩

/-- What the content needs when the prolog ends with `r`. -/
def Ready (c : PCfg) (r : Prolog) : Prop :=
  ∀ q, r.2.2 = .content q → (∃ asc, XSupported (r.2.1.x c false) asc) ∧ (r.2.1.x c false).e.mb ∣ q.length

theorem Ready.same {r w : Prolog} (h : Ready c w) (hs : Same r w) : Ready c r := by
  obtain ⟨E, s, o⟩ := r
  obtain ⟨E2, s2, o2⟩ := w
  obtain ⟨_, h2⟩ := hs
  intro q hq
  cases hq
  cases o2 <;> simp only at h2
  obtain ⟨rfl, rfl⟩ := h2
  exact h _ rfl

theorem documents_ready (ho : c.OtherOk) (xs : List Buf) : ∀ (s : DState) (rest : Buf), (s.x c false).Cuts →
    s.el.p.roleNone.none_ = true → Ready c (prologCall c ext fuel [] false s (rest ++ xs.flatten)) →
    DocSame (document c ext fuel s rest xs) (finishDoc c (prologCall c ext fuel [] false s (rest ++ xs.flatten))) := by
  induction xs with
  | nil =>
    intro s rest _ _ _
    rw [document, List.flatten_nil, List.append_nil]
    exact finishDoc_same (.refl _)
  | cons x xs ih =>
    intro s rest hc hn hu
    cases xs with
    | nil =>
      rw [document, List.flatten_cons, List.flatten_nil, List.append_nil]
      exact finishDoc_same (.refl _)
    | cons y ys =>
      have hs := split_call (ext := ext) (fuel := fuel) (opened := []) ho (y :: ys).flatten s (rest ++ x) hc hn
      have hk := (prologCall_kept (ext := ext) (fuel := fuel) (opened := []) (more := true) ho s (rest ++ x)).1.1 hc
      have hnn := (none_runRel (c := c) (ext := ext) (fuel := fuel)).call (opened := []) (more := true) s (rest ++ x) hn
      rw [show (x :: y :: ys).flatten = x ++ (y :: ys).flatten from List.flatten_cons, ← List.append_assoc] at hu ⊢
      rw [document]
      · generalize hr : prologCall c ext fuel [] true s (rest ++ x) = r at hs hk hnn
        obtain ⟨E, s', o⟩ := r
        cases o with
        | done q =>
          simp only [after] at hs
          refine .trans ?_ (finishDoc_same hs)
          rw [finishDoc_pre]
          refine .pre (ih s' q hk hnn ?_)
          have := hu.same hs
          exact this
        | content q =>
          simp only [after] at hs
          refine .trans ?_ (finishDoc_same hs)
          refine ⟨rfl, ?_⟩
          obtain ⟨⟨asc, S⟩, hdv⟩ := (hu.same hs) _ rfl
          simp only at S hdv
          refine ⟨rfl, ?_⟩
          have := C04.chunks (M := contentSem c s') (C04.sem_lawful S c.c s'.D.toDtd c.int _ _ _) S.s.ok S.s.mb S.s.even
            ([] :: y :: ys) CState.init q (by simpa using hdv)
          rw [show ([] :: y :: ys : List Buf).flatten = (y :: ys).flatten by simp] at this
          simpa [Verif.feed] using this
        | err e => exact finishDoc_same hs
        | panic => exact finishDoc_same hs
      · simp

/-- **C57 for whole documents.**  Prolog and content passed in any pieces give what they give when passed at once, in
the sense of `Same` for the prolog and `C04.Same` for the content.  The document consists of whole code units; the
encoding in use when the root element starts is a built-in one. -/
theorem documents (ho : c.OtherOk) (xs : List Buf) (s : DState) (hc : (s.x c false).Cuts)
    (hn : s.el.p.roleNone.none_ = true) (hd : (s.x c false).e.mb ∣ xs.flatten.length)
    (hu : ∀ q, (prologCall c ext fuel [] false s xs.flatten).2.2 = .content q →
      ∃ i, (prologCall c ext fuel [] false s xs.flatten).2.1.cur = .builtin i) :
    DocSame (document c ext fuel s [] xs) (document c ext fuel s [] [xs.flatten]) := by
  refine documents_ready ho xs s [] hc hn ?_
  intro q hq
  obtain ⟨i, hi⟩ := hu q hq
  refine ⟨?_, (prologCall_kept (ext := ext) (fuel := fuel) (opened := []) (more := false) ho s xs.flatten).2 q hq hc hd⟩
  simp only [List.nil_append, DState.x, hi, CurEnc.x]
  exact builtin_supported i c.c.ns

end

/-! ### Examples -/

/-- The default handler and the entity declaration handler are set. -/
def exCfg : PCfg := { c := { dflt := true }, int := internalUtf8X false }
def exStart : DState := { el := { p := PState.init }, cur := .builtin .utf8, pe := .always }

/-- An application that does not read external entities. -/
def exExt : Ext := fun _ sh => ⟨[], sh, [], false⟩

/-- `<!DOCTYPE d [ <!ENTITY a 'x'>]><d>&a;</d>`; the line break is CR LF. -/
def exDoc : Buf := [60, 33, 68, 79, 67, 84, 89, 80, 69, 32, 100, 32, 91, 32, 13, 10, 60, 33, 69, 78, 84, 73, 84, 89, 32, 97, 32, 39, 120, 39, 62, 93, 62, 60, 100, 62, 38, 97, 59, 60, 47, 100, 62]

example : exCfg.OtherOk := fun _ _ h => by cases h
example : (exStart.x exCfg false).Cuts := EncId.cuts .utf8 false
example : exStart.el.p.roleNone.none_ = true ∧ (exStart.x exCfg false).e.mb ∣ exDoc.length := by decide +kernel

/-- Passed at once, the white space arrives in one call of the default handler; passed byte by byte it does not.
Both ways the root element is found. -/
example :
    (prologCall exCfg exExt 3 [] false exStart exDoc).1.contains (.ev (.dflt [32, 13, 10])) = true ∧
    (feed exCfg exExt 3 [] exStart [] (exDoc.map fun b => [b])).1.contains (.ev (.dflt [32, 13, 10])) = false ∧
    (prologCall exCfg exExt 3 [] false exStart exDoc).2.2 = .content (exDoc.drop 33) ∧
    (feed exCfg exExt 3 [] exStart [] (exDoc.map fun b => [b])).2.2 = .content (exDoc.drop 33) ∧
    (prologCall exCfg exExt 3 [] false exStart exDoc).1.contains (.entityDecl [97] false (some [120]) none none none none) = true := by
  decide +kernel

/-- An unknown-encoding handler that accepts every name: ASCII, and `é` for all other bytes. -/
def exHandler (_ : List UInt8) : Bool × EncInfo :=
  (true, ⟨(List.range 256).map (fun i => if i < 128 then Int.ofNat i else 233), none, false⟩)

def exCfg2 : PCfg := { c := { dflt := true }, int := internalUtf8X false, unknown := unknownBy (some exHandler) false }

theorem exHandler_len (n : List UInt8) : (exHandler n).2.map.length = 256 := by
  rw [exHandler, List.length_map, List.length_range]

example : exCfg2.OtherOk := by
  intro n y hy
  have hk : ∀ k, some exHandler = some k → ∀ n, (k n).2.map.length = 256 := by
    intro k hk
    rw [← Option.some.inj hk]
    exact exHandler_len
  simp only [exCfg2] at hy
  exact unknownBy_ok (some exHandler) hk false n y hy

/-- `<?xml version='1.0' encoding='q'?> <d/>` -/
def exDoc2 : Buf := [60, 63, 120, 109, 108, 32, 118, 101, 114, 115, 105, 111, 110, 61, 39, 49, 46, 48, 39, 32, 101, 110, 99, 111, 100, 105, 110, 103, 61, 39, 113, 39, 63, 62, 32, 60, 100, 47, 62]

/-- The application's encoding is installed, also when the declaration comes in two calls. -/
example :
    (match (prologCall exCfg2 exExt 3 [] false exStart exDoc2).2.1.cur with | .other _ => true | _ => false) = true ∧
    (feed exCfg2 exExt 3 [] exStart [] [exDoc2.take 30, exDoc2.drop 30]).2.2 = .content [60, 100, 47, 62] := by
  decide +kernel

end Verif.C57
