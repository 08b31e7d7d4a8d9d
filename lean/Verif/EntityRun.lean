import Verif.EntityStart
import Verif.StartInv

/-! # External entities: the text declaration and the content, in any pieces -/

set_option autoImplicit false

namespace Verif.C66
open C43 C53 C60 C61 Spec Verif

/-! ### A declaration is seen as one -/

theorem decl_lt {e : Enc} {b : Buf} {n : Nat} (h : contentTokBody e b = ⟨.XML_DECL, n⟩) : e.bt b = .LT := by
  have l := contentLoop_tok e
  have r := scanRef_tok e
  revert h
  fun_cases contentTokBody e b <;> intro h
  all_goals first
    | assumption
    | (rename_i h5; have := invalidCases_fail h5; rw [h] at this; simp [Tok.fail] at this)
    | (have := l (b.drop e.mb) e.mb; rw [h] at this; simp at this; done)
    | (have := r (b.drop e.mb) e.mb; rw [h] at this; simp [Tok.fail] at this; done)
    | (cases h; done)
    | (rename_i k _; have := l (b.drop (k + 1)) (k + 1); rw [h] at this; simp at this; done)

theorem body_lt {e : Enc} {b : Buf} (h : e.bt b = .LT) : contentTokBody e b = scanLt e (b.drop e.mb) e.mb := by
  have : invalidCases e b 0 = .other := by simp only [invalidCases, h]
  rw [contentTokBody, this]
  simp only [h]

/-- A beginning of a text with a declaration is too short to see it, or shows the declaration. -/
theorem decl_cut {e : Enc} (ok : e.Ok) {b y : Buf} {n : Nat} (hb : b ≠ []) (h : contentTok e (b ++ y) = ⟨.XML_DECL, n⟩) :
    contentTok e b = ⟨.XML_DECL, n⟩ ∨ (contentTok e b).tok = .PARTIAL ∨ (contentTok e b).tok = .PARTIAL_CHAR := by
  by_cases ho : C03.openEnded (contentTok e b).tok = false
  · left
    have := C03.stable .content e ok b y ho
    rw [← h]
    exact this.symm
  · right
    by_cases hl : e.mb ≤ b.length
    · rw [contentTok_eq hl] at ho ⊢
      rw [contentTok_eq (by rw [List.length_append]; omega)] at h
      obtain ⟨z, hz⟩ := truncBuf_app e b y
      have h1 := decl_lt h
      rw [hz, ok.bt_app _ _ (truncBuf_len hl)] at h1
      rw [body_lt h1] at ho ⊢
      have := scanLt_tok e ((truncBuf e b).drop e.mb) e.mb
      generalize (scanLt e ((truncBuf e b).drop e.mb) e.mb).tok = t at *
      cases t <;> simp [Tok.fail, Tok.markup, C03.openEnded] at this ho ⊢
    · left
      rw [contentTok, if_neg (by simpa using hb), truncBuf_short (by omega)]
      rfl

/-! ### Content -/

section
variable {c : PCfg} {opened : List Buf} {v : Env}

/-- The parser, in the content, ends like the content loop. -/
def Matches (st : DState) (r : Ran CState) (g : GRun) : Prop :=
  g.1 = r.1.map .ev ∧
  match r.2 with
  | .ok s q => g.2.1.s = st ∧ g.2.1.phase = .content s ∧ g.2.2 = .done q
  | .err e => g.2.2 = .err e

theorem Matches.pre {st : DState} {r : Ran CState} {g : GRun} (h : Matches st r g) (F : List Ev) :
    Matches st (Verif.pre F r) (GRun.pre (F.map .ev) g) := by
  obtain ⟨h1, h2⟩ := h
  refine ⟨by rw [GRun.pre, Verif.pre, h1, List.map_append], ?_⟩
  rw [GRun.pre, Verif.pre]
  exact h2

theorem matches_content (more : Bool) (ch : GChild) (s : CState) (b : Buf) :
    Matches ch.s (call (entSem c opened ch.s) (ch.s.cur.x c.c.ns).e more s b) (entContent c opened more ch s b) := by
  rw [entContent]
  generalize call (entSem c opened ch.s) (ch.s.cur.x c.c.ns).e more s b = q
  obtain ⟨F, o⟩ := q
  cases o
  · exact ⟨rfl, rfl, rfl, rfl⟩
  · exact ⟨rfl, rfl⟩

theorem entFeed_cons {ch : GChild} {r x : Buf} {xs : List Buf} (h : xs ≠ []) : entFeed c opened v ch r (x :: xs) =
    if x = [] then entFeed c opened v ch r xs
    else match entCall c opened v true ch (r ++ x) with
      | (E, ch', .done q) => GRun.pre E (entFeed c opened v ch' q xs)
      | r => r := by
  cases xs with
  | nil => exact absurd rfl h
  | cons z zs => rfl

theorem feed_cons {σ : Type} {M : Sem σ} {e : Enc} {s : σ} {r x : Buf} {xs : List Buf} (h : xs ≠ []) : feed M e s r (x :: xs) =
    match call M e true s (r ++ x) with
    | (E, .ok s' r) => Verif.pre E (feed M e s' r xs)
    | (E, .err c) => (E, .err c) := by
  cases xs with
  | nil => exact absurd rfl h
  | cons z zs => rfl

/-- One call in the content or at its beginning, and the calls after it. -/
theorem feed_step {ch : GChild} {s : CState} {r x : Buf} {xs : List Buf} (hx : x ≠ [])
    (hc : entCall c opened v true ch (r ++ x) = entContent c opened true ch s (r ++ x))
    (hxs : xs ≠ [])
    (ih : ∀ (ch : GChild) (s : CState) (r : Buf), ch.phase = .content s →
      ∃ ys : List Buf, ys ≠ [] ∧ ys.flatten = xs.flatten ∧
        Matches ch.s (feed (entSem c opened ch.s) (ch.s.cur.x c.c.ns).e s r ys) (entFeed c opened v ch r xs)) :
    ∃ ys : List Buf, ys ≠ [] ∧ ys.flatten = (x :: xs).flatten ∧
      Matches ch.s (feed (entSem c opened ch.s) (ch.s.cur.x c.c.ns).e s r ys) (entFeed c opened v ch r (x :: xs)) := by
  rw [entFeed_cons hxs, if_neg hx, hc]
  have hm := matches_content (c := c) (opened := opened) true ch s (r ++ x)
  generalize entContent c opened true ch s (r ++ x) = g at hm
  generalize hw : call (entSem c opened ch.s) (ch.s.cur.x c.c.ns).e true s (r ++ x) = w at hm
  obtain ⟨F, o⟩ := w
  obtain ⟨G, ch', o'⟩ := g
  cases o with
  | err e =>
    refine ⟨x :: xs, by simp, rfl, ?_⟩
    rw [feed_cons hxs, hw]
    obtain ⟨h1, h2⟩ := hm
    simp only at h1 h2
    subst h1 h2
    exact ⟨rfl, rfl⟩
  | ok s' q =>
    obtain ⟨h1, h2, h3, h4⟩ := hm
    simp only at h1 h2 h3 h4
    subst h1 h4
    obtain ⟨ys, h0, h5, h6⟩ := ih ch' s' q h3
    refine ⟨x :: ys, by simp, by rw [List.flatten_cons, h5, ← List.flatten_cons], ?_⟩
    rw [feed_cons h0, hw]
    rw [h2] at h6
    exact h6.pre F

/-- In the content. -/
theorem feed_content (xs : List Buf) : xs ≠ [] → ∀ (ch : GChild) (s : CState) (r : Buf), ch.phase = .content s →
    ∃ ys : List Buf, ys ≠ [] ∧ ys.flatten = xs.flatten ∧
      Matches ch.s (feed (entSem c opened ch.s) (ch.s.cur.x c.c.ns).e s r ys) (entFeed c opened v ch r xs) := by
  induction xs with
  | nil => intro h; exact absurd rfl h
  | cons x xs ih =>
    intro _ ch s r hp
    by_cases hxs : xs = []
    · subst hxs
      refine ⟨[x], by simp, rfl, ?_⟩
      rw [entFeed, feed, entCall, hp]
      exact matches_content false ch s _
    · by_cases hx : x = []
      · subst hx
        rw [entFeed_cons hxs, if_pos rfl]
        exact ih hxs ch s r hp
      · exact feed_step hx (by rw [entCall, hp]) hxs (ih hxs)

/-! ### The beginning, once the encoding is known -/

/-- The encoding is known, nothing has been read. -/
structure Starting (ch : GChild) : Prop where
  enc : ch.enc = none
  phase : ch.phase = .second ∨ ch.phase = .third

theorem not_bom (e : Enc) (b : Buf) : (contentTok e b).tok ≠ .BOM := by
  intro h
  have := contentTok_tok e b
  rw [h] at this
  simp [Tok.fail, Tok.markup] at this

theorem set_known {ch : GChild} (h : ch.enc = none) (r : Res) : ch.set (r, none, ch.s.cur) = ch := by
  obtain ⟨s, e, p⟩ := ch
  cases h
  rfl

theorem call_wait {ch : GChild} (h : Starting ch) {b : Buf} {e : XErr}
    (hm : Mode.verdict .content (contentTok (ch.s.cur.x c.c.ns).e b).tok = .wait e) (more : Bool) :
    ∃ ch', Starting ch' ∧ ch'.s = ch.s ∧ entCall c opened v more ch b = ([], ch', if more then .done b else .err e) := by
  have hq : (contentTok (ch.s.cur.x c.c.ns).e b).tok = .PARTIAL ∧ e = .UNCLOSED_TOKEN ∨
      (contentTok (ch.s.cur.x c.c.ns).e b).tok = .PARTIAL_CHAR ∧ e = .PARTIAL_CHAR := by
    generalize (contentTok (ch.s.cur.x c.c.ns).e b).tok = t at hm
    cases t <;> simp [Mode.verdict] at hm <;> simp [hm]
  rcases h.phase with hp | hp
  · refine ⟨ch, h, rfl, ?_⟩
    rw [entCall, hp]
    simp only [entSecond, firstContentTok, h.enc]
    rw [set_known h.enc]
    rcases hq with ⟨hq, rfl⟩ | ⟨hq, rfl⟩ <;> simp only [hq] <;> cases more <;> rfl
  · refine ⟨{ ch with phase := .third }, ⟨h.enc, .inr rfl⟩, rfl, ?_⟩
    rw [entCall, hp]
    simp only [entThird, firstContentTok, h.enc]
    rcases hq with ⟨hq, rfl⟩ | ⟨hq, rfl⟩ <;> simp only [hq] <;> cases more <;> rfl

theorem call_third {ch : GChild} (h : Starting ch) {b : Buf}
    (h1 : (contentTok (ch.s.cur.x c.c.ns).e b).tok ≠ .PARTIAL) (h2 : (contentTok (ch.s.cur.x c.c.ns).e b).tok ≠ .PARTIAL_CHAR) (more : Bool) :
    entCall c opened v more ch b = entThird c opened v more ch b := by
  rcases h.phase with hp | hp
  · rw [entCall, hp]
    simp only [entSecond, firstContentTok, h.enc]
    rw [set_known h.enc]
    have h3 := not_bom (ch.s.cur.x c.c.ns).e b
    generalize (contentTok (ch.s.cur.x c.c.ns).e b).tok = t at *
    cases t <;> first | rfl | contradiction
  · rw [entCall, hp]

theorem call_go {ch : GChild} (h : Starting ch) {b : Buf}
    (hm : ∀ e, Mode.verdict .content (contentTok (ch.s.cur.x c.c.ns).e b).tok ≠ .wait e)
    (hd : (contentTok (ch.s.cur.x c.c.ns).e b).tok ≠ .XML_DECL) (more : Bool) :
    entCall c opened v more ch b = entContent c opened more ch (inherited v) b := by
  have h1 : (contentTok (ch.s.cur.x c.c.ns).e b).tok ≠ .PARTIAL := fun h => hm _ (by rw [h]; rfl)
  have h2 : (contentTok (ch.s.cur.x c.c.ns).e b).tok ≠ .PARTIAL_CHAR := fun h => hm _ (by rw [h]; rfl)
  rw [call_third h h1 h2, entThird]
  simp only [firstContentTok, h.enc]

theorem call_decl {ch : GChild} (h : Starting ch) {b : Buf} {n : Nat}
    (hd : contentTok (ch.s.cur.x c.c.ns).e b = ⟨.XML_DECL, n⟩) (more : Bool) :
    entCall c opened v more ch b = entDecl c opened v more ch (b.take n) (b.drop n) := by
  rw [call_third h (by rw [hd]; simp) (by rw [hd]; simp), entThird]
  simp only [firstContentTok, h.enc, hd]

/-- Without a declaration. -/
theorem feed_plain (xs : List Buf) : xs ≠ [] → ∀ (ch : GChild) (r : Buf), Starting ch → (ch.s.cur.x c.c.ns).e.Ok →
    (contentTok (ch.s.cur.x c.c.ns).e (r ++ xs.flatten)).tok ≠ .XML_DECL →
    ∃ ys : List Buf, ys ≠ [] ∧ ys.flatten = xs.flatten ∧
      Matches ch.s (feed (entSem c opened ch.s) (ch.s.cur.x c.c.ns).e (inherited v) r ys) (entFeed c opened v ch r xs) := by
  induction xs with
  | nil => intro h; exact absurd rfl h
  | cons x xs ih =>
    intro _ ch r h ok hd
    have hmode (s : DState) : (entSem c opened s).mode (inherited v) = .content := by rw [entSem, sem_mode]; rfl
    by_cases hxs : xs = []
    · subst hxs
      refine ⟨[x], by simp, rfl, ?_⟩
      rw [entFeed, feed]
      simp only [List.flatten_cons, List.flatten_nil, List.append_nil] at hd
      by_cases hw : ∃ e, Mode.verdict .content (contentTok (ch.s.cur.x c.c.ns).e (r ++ x)).tok = .wait e
      · obtain ⟨e, hw⟩ := hw
        obtain ⟨ch', h1, h2, h3⟩ := call_wait (c := c) (opened := opened) (v := v) h hw false
        rw [h3]
        have : call (entSem c opened ch.s) (ch.s.cur.x c.c.ns).e false (inherited v) (r ++ x) = ([], .err e) := by
          rw [call, run.eq_def]
          simp only [hmode, Mode.tok, hw]
          rfl
        rw [this]
        exact ⟨rfl, rfl⟩
      · rw [call_go h (fun e he => hw ⟨e, he⟩) hd]
        exact matches_content false ch _ _
    · by_cases hx : x = []
      · subst hx
        rw [entFeed_cons hxs, if_pos rfl]
        exact ih hxs ch r h ok hd
      · have hd1 : (contentTok (ch.s.cur.x c.c.ns).e (r ++ x)).tok ≠ .XML_DECL := by
          intro he
          have := C03.stable .content _ ok (r ++ x) xs.flatten (by rw [C02.Entry.run, he]; rfl)
          rw [List.flatten_cons, ← List.append_assoc] at hd
          exact hd ((congrArg Res.tok this).trans he)
        by_cases hw : ∃ e, Mode.verdict .content (contentTok (ch.s.cur.x c.c.ns).e (r ++ x)).tok = .wait e
        · obtain ⟨e, hw⟩ := hw
          obtain ⟨ch', h1, h2, h3⟩ := call_wait (c := c) (opened := opened) (v := v) h hw true
          rw [entFeed_cons hxs, if_neg hx, h3]
          obtain ⟨ys, g0, g1, g2⟩ := ih hxs ch' (r ++ x) h1 (by rw [h2]; exact ok)
            (by rw [h2, List.append_assoc, ← List.flatten_cons]; exact hd)
          rw [h2] at g2
          refine ⟨x :: ys, by simp, by rw [List.flatten_cons, g1, ← List.flatten_cons], ?_⟩
          have : call (entSem c opened ch.s) (ch.s.cur.x c.c.ns).e true (inherited v) (r ++ x) = ([], .ok (inherited v) (r ++ x)) := by
            rw [call, run.eq_def]
            simp only [hmode, Mode.tok, hw]
            rfl
          rw [feed_cons g0, this]
          exact g2.pre []
        · exact feed_step hx (call_go h (fun e he => hw ⟨e, he⟩) hd1 true) hxs (feed_content xs hxs)

/-- With a declaration: it is read, and the rest is content. -/
theorem feed_decl (xs : List Buf) : xs ≠ [] → ∀ (ch : GChild) (r : Buf) {n : Nat}, Starting ch → (ch.s.cur.x c.c.ns).e.Ok →
    contentTok (ch.s.cur.x c.c.ns).e (r ++ xs.flatten) = ⟨.XML_DECL, n⟩ →
    ∃ E s a, actXmlDecl c ch.s true ((r ++ xs.flatten).take n) = (E, s, a) ∧
      (∀ g, a = .go g → ∃ (ys : List Buf) (G : GRun), ys.flatten = (r ++ xs.flatten).drop n ∧
        Matches s (feed (entSem c opened s) (s.cur.x c.c.ns).e (inherited v) [] ys) G ∧
        entFeed c opened v ch r xs = GRun.pre E G) ∧
      ((∀ g, a ≠ .go g) → ∀ q, (entFeed c opened v ch r xs).2.2 ≠ .done q) := by
  induction xs with
  | nil => intro h; exact absurd rfl h
  | cons x xs ih =>
    intro _ ch r n h ok hd
    have hn : n ≤ (r ++ (x :: xs).flatten).length := by
      have := C02.next_in_buffer .content (ch.s.cur.x c.c.ns).e (r ++ (x :: xs).flatten)
      rw [C02.Entry.run, hd] at this
      exact this
    by_cases hxs : xs = []
    · subst hxs
      simp only [List.flatten_cons, List.flatten_nil, List.append_nil] at hd hn ⊢
      rw [entFeed, call_decl h hd, entDecl]
      generalize hq : actXmlDecl c ch.s true ((r ++ x).take n) = q
      obtain ⟨E, s, a⟩ := q
      refine ⟨E, s, a, rfl, ?_, ?_⟩
      · rintro g rfl
        refine ⟨[(r ++ x).drop n], _, by simp, ?_, rfl⟩
        rw [feed]
        exact matches_content false { ch with s := s } _ _
      · intro hg q
        cases a <;> simp at hg ⊢
    · by_cases hx : x = []
      · subst hx
        rw [entFeed_cons hxs, if_pos rfl]
        exact ih hxs ch r h ok hd
      · have hb : r ++ x ≠ [] := by simp [hx]
        have hd' := hd
        rw [List.flatten_cons, ← List.append_assoc] at hd
        rcases decl_cut ok hb hd with h1 | h1
        · have hl : n ≤ (r ++ x).length := by
            have := C02.next_in_buffer .content (ch.s.cur.x c.c.ns).e (r ++ x)
            rw [C02.Entry.run, h1] at this
            exact this
          have ht : (r ++ (x :: xs).flatten).take n = (r ++ x).take n := by
            rw [List.flatten_cons, ← List.append_assoc, List.take_append_of_le_length hl]
          have hdr : (r ++ (x :: xs).flatten).drop n = (r ++ x).drop n ++ xs.flatten := by
            rw [List.flatten_cons, ← List.append_assoc, List.drop_append_of_le_length hl]
          rw [ht, hdr, entFeed_cons hxs, if_neg hx, call_decl h h1, entDecl]
          generalize hq : actXmlDecl c ch.s true ((r ++ x).take n) = q
          obtain ⟨E, s, a⟩ := q
          refine ⟨E, s, a, rfl, ?_, ?_⟩
          · rintro g rfl
            simp only
            have hm := matches_content (c := c) (opened := opened) true { ch with s := s } (inherited v) ((r ++ x).drop n)
            generalize entContent c opened true { ch with s := s } (inherited v) ((r ++ x).drop n) = g at hm
            generalize hw : call (entSem c opened s) (s.cur.x c.c.ns).e true (inherited v) ((r ++ x).drop n) = w at hm
            obtain ⟨F, o⟩ := w
            obtain ⟨G, ch', o'⟩ := g
            cases o with
            | err e =>
              obtain ⟨k1, k2⟩ := hm
              simp only at k1 k2
              subst k1 k2
              refine ⟨(r ++ x).drop n :: xs, (F.map .ev, ch', .err e), by simp, ?_, rfl⟩
              rw [feed_cons hxs, List.nil_append, hw]
              exact ⟨rfl, rfl⟩
            | ok s' q =>
              obtain ⟨k1, k2, k3, k4⟩ := hm
              simp only at k1 k2 k3 k4
              subst k1 k4
              obtain ⟨ys, g0, g5, g6⟩ := feed_content (c := c) (opened := opened) (v := v) xs hxs ch' s' q k3
              refine ⟨(r ++ x).drop n :: ys, GRun.pre (F.map .ev) (entFeed c opened v ch' q xs), by simp [g5], ?_, ?_⟩
              · rw [feed_cons g0, List.nil_append, hw]
                rw [k2] at g6
                exact g6.pre F
              · simp only [GRun.pre, List.append_assoc]
          · intro hg q
            cases a <;> simp at hg ⊢
        · have hw : ∃ e, Mode.verdict .content (contentTok (ch.s.cur.x c.c.ns).e (r ++ x)).tok = .wait e := by
            rcases h1 with h1 | h1 <;> rw [h1] <;> exact ⟨_, rfl⟩
          obtain ⟨e, hw⟩ := hw
          obtain ⟨ch', g1, g2, g3⟩ := call_wait (c := c) (opened := opened) (v := v) h hw true
          rw [entFeed_cons hxs, if_neg hx, g3]
          have ht : r ++ (x :: xs).flatten = (r ++ x) ++ xs.flatten := by simp
          rw [ht]
          have := ih hxs ch' (r ++ x) (n := n) g1 (by rw [g2]; exact ok) (by rw [g2]; exact hd)
          rw [g2] at this
          obtain ⟨E, s, a, k1, k2, k3⟩ := this
          refine ⟨E, s, a, k1, ?_, ?_⟩
          · intro g hg
            obtain ⟨ys, G, m1, m2, m3⟩ := k2 g hg
            exact ⟨ys, G, m1, m2, by simp only [m3, GRun.pre, List.nil_append, if_true]⟩
          · intro hg q
            exact k3 hg q

/-! ### Before the encoding is known -/

theorem none_nil {idx : EncIndex} {st : InitState} {b : Buf} (h : initScan idx st b = .none) : b = [] := by
  match b with
  | [] => rfl
  | [a] => simp only [initScan] at h; grind
  | a :: b :: r => simp only [initScan] at h; grind

theorem more_cut {idx : EncIndex} {b y : Buf} (h : initScan idx .content (b ++ y) = .more) :
    initScan idx .content b = .more ∨ initScan idx .content b = .none := by
  match b with
  | [] => exact .inr rfl
  | [a] =>
    match y with
    | [] => exact .inl h
    | d :: y => simp only [List.cons_append, List.nil_append, initScan] at h ⊢; grind
  | [a, d] =>
    match y with
    | [] => exact .inl h
    | e :: y => simp only [List.cons_append, List.nil_append, initScan] at h ⊢; grind
  | a :: d :: e :: r =>
    simp only [List.cons_append, initScan] at h ⊢; grind

/-- Too short to be decided. -/
theorem call_more {ch : GChild} {idx : EncIndex} (he : ch.enc = some idx) (hp : ch.phase = .second) {b : Buf}
    (h : initScan idx .content b = .more) (more : Bool) :
    entCall c opened v more ch b = ([], ch, if more then .done b else .err .UNCLOSED_TOKEN) := by
  have : ch.set (⟨.PARTIAL, 0⟩, ch.enc, ch.s.cur) = ch := rfl
  rw [entCall, hp]
  simp only [entSecond, firstContentTok, he, h]
  rw [he] at this
  rw [this]
  cases more <;> rfl

/-- Decided, without a mark. -/
theorem call_scan {ch : GChild} {idx : EncIndex} (he : ch.enc = some idx) (hp : ch.phase = .second) {b : Buf} {i : EncId}
    (h : initScan idx .content b = .scan i) (more : Bool) :
    entCall c opened v more ch b = entCall c opened v more ⟨{ ch.s with cur := .builtin i }, none, .second⟩ b := by
  rw [entCall, hp, entCall]
  simp only [entSecond, firstContentTok, he, h]
  have h1 : ch.set (contentTok (i.x c.c.ns).e b, none, .builtin i) = ⟨{ ch.s with cur := .builtin i }, none, .second⟩ := by
    simp only [GChild.set, hp]
  rw [h1]
  rfl

theorem third_phase (ch : GChild) (more : Bool) (b : Buf) :
    entThird c opened v more ch b = entThird c opened v more { ch with phase := .third } b := by
  rw [entThird, entThird]
  rfl

/-- Decided by a mark. -/
theorem call_bom {ch : GChild} {idx : EncIndex} (he : ch.enc = some idx) (hp : ch.phase = .second) {b : Buf} {i : EncId} {n : Nat}
    (h : initScan idx .content b = .bom i n) (more : Bool) :
    entCall c opened v more ch b =
      if b.drop n = [] ∧ more then ([], ⟨{ ch.s with cur := .builtin i }, none, .second⟩, .done [])
      else entCall c opened v more ⟨{ ch.s with cur := .builtin i }, none, .third⟩ (b.drop n) := by
  rw [entCall, hp, entCall]
  simp only [entSecond, firstContentTok, he, h]
  rw [third_phase]
  simp only [GChild.set, hp]

/-- The detection finds the encoding wherever the text is cut; the rest is read in it. -/
theorem feed_detect {idx : EncIndex} {m t : Buf} {i : EncId} (h : Detected idx m t i) (xs : List Buf) : xs ≠ [] →
    ∀ (ch : GChild) (rest : Buf), ch.enc = some idx → ch.phase = .second → rest ++ xs.flatten = m ++ t →
    ∃ ch' r ys, Starting ch' ∧ ch'.s = { ch.s with cur := .builtin i } ∧ ys ≠ [] ∧ r ++ ys.flatten = t ∧
      entFeed c opened v ch rest xs = entFeed c opened v ch' r ys := by
  induction xs with
  | nil => intro h; exact absurd rfl h
  | cons x xs ih =>
    intro _ ch rest he hp hr
    by_cases hsk : x = [] ∧ xs ≠ []
    · obtain ⟨rfl, hxs⟩ := hsk
      rw [entFeed_cons hxs, if_pos rfl]
      exact ih hxs ch rest he hp (by simpa using hr)
    · rw [List.flatten_cons, ← List.append_assoc] at hr
      have hc := h.cut hr
      have hfin : xs = [] → initScan idx .content (rest ++ x) = decision m i := by
        rintro rfl
        have hw := h.whole
        rw [← hr, List.flatten_nil, List.append_nil] at hw
        exact hw
      by_cases hd : initScan idx .content (rest ++ x) = decision m i
      · have hl := h.long hr hd
        have hdr : (rest ++ x).drop m.length ++ xs.flatten = t := by
          have h2 := congrArg (List.drop m.length) hr
          rwa [List.drop_left' rfl, List.drop_append_of_le_length hl] at h2
        rw [decision] at hd
        by_cases hm : m = []
        · rw [if_pos hm] at hd
          subst hm
          refine ⟨⟨{ ch.s with cur := .builtin i }, none, .second⟩, rest, x :: xs, ⟨rfl, .inl rfl⟩, rfl, by simp, ?_, ?_⟩
          · simpa using hdr
          · by_cases hxs : xs = []
            · subst hxs
              rw [entFeed, entFeed, call_scan he hp hd]
            · rw [entFeed_cons hxs, entFeed_cons hxs, call_scan he hp hd]
              have hx : x ≠ [] := fun h => hsk ⟨h, hxs⟩
              rw [if_neg hx, if_neg hx]
        · rw [if_neg hm] at hd
          by_cases hxs : xs = []
          · subst hxs
            refine ⟨⟨{ ch.s with cur := .builtin i }, none, .third⟩, [], [(rest ++ x).drop m.length], ⟨rfl, .inr rfl⟩, rfl, by simp, ?_, ?_⟩
            · simpa using hdr
            · rw [entFeed, entFeed, call_bom he hp hd, List.nil_append, if_neg (by simp)]
          · have hx : x ≠ [] := fun h => hsk ⟨h, hxs⟩
            by_cases hn : (rest ++ x).drop m.length = []
            · refine ⟨⟨{ ch.s with cur := .builtin i }, none, .second⟩, [], xs, ⟨rfl, .inl rfl⟩, rfl, hxs, ?_, ?_⟩
              · simpa [hn] using hdr
              · rw [entFeed_cons hxs, if_neg hx, call_bom he hp hd, if_pos ⟨hn, rfl⟩]
                rfl
            · refine ⟨⟨{ ch.s with cur := .builtin i }, none, .third⟩, [], (rest ++ x).drop m.length :: xs, ⟨rfl, .inr rfl⟩, rfl,
                by simp, ?_, ?_⟩
              · simpa using hdr
              · rw [entFeed_cons hxs, if_neg hx, call_bom he hp hd, if_neg (fun h => hn h.1), entFeed_cons hxs, if_neg hn, List.nil_append]
      · have hxs : xs ≠ [] := fun h => hd (hfin h)
        have hx : x ≠ [] := fun h => hsk ⟨h, hxs⟩
        have hmore : initScan idx .content (rest ++ x) = .more := by
          rcases hc with hc | hc | hc
          · exact absurd hc hd
          · exact hc
          · have := none_nil hc
            simp [hx] at this
        obtain ⟨ch', r, ys, g1, g2, g3, g4, g5⟩ := ih hxs ch (rest ++ x) he hp hr
        refine ⟨ch', r, ys, g1, g2, g3, g4, ?_⟩
        rw [entFeed_cons hxs, if_neg hx, call_more he hp hmore, ← g5]
        rfl

/-- What is too short is refused. -/
theorem feed_short {idx : EncIndex} (xs : List Buf) : xs ≠ [] → ∀ (ch : GChild) (rest : Buf), ch.enc = some idx → ch.phase = .second →
    initScan idx .content (rest ++ xs.flatten) = .more → (entFeed c opened v ch rest xs).2.2 = .err .UNCLOSED_TOKEN := by
  induction xs with
  | nil => intro h; exact absurd rfl h
  | cons x xs ih =>
    intro _ ch rest he hp hr
    by_cases hxs : xs = []
    · subst hxs
      rw [entFeed, call_more he hp (by simpa using hr)]
      rfl
    · by_cases hx : x = []
      · subst hx
        rw [entFeed_cons hxs, if_pos rfl]
        exact ih hxs ch rest he hp (by simpa using hr)
      · rw [List.flatten_cons, ← List.append_assoc] at hr
        have hmore : initScan idx .content (rest ++ x) = .more := by
          rcases more_cut hr with hc | hc
          · exact hc
          · have := none_nil hc
            simp [hx] at this
        rw [entFeed_cons hxs, if_neg hx, call_more he hp hmore]
        exact ih hxs ch (rest ++ x) he hp hr

end

end Verif.C66
