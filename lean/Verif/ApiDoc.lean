import Verif.Props.C42
import Verif.Props.C62
import Verif.ApiContent

/-! # XML_Parse on whole documents

The processors from the first byte on as an `Engine` for the calls of the application: detection of the encoding, prolog, content and
what follows it (src/lib/xmlparse.rs:1755-1805, 5394-5585, 5941-5945). -/

set_option autoImplicit false

namespace Verif.C63
open C43 C53 C59 C60 Spec Verif PState Api

/-- `m_processor`: the encoding is not yet known, the prolog, or the content (with the state at the end of the prolog)
and what follows; `dead`: the thread has panicked. -/
inductive Stage where
  | fresh
  | prolog (s : DState)
  | content (z : DState) (s : CState)
  | dead

/-- What a processor does: handler calls of the prolog and of the content, the next processor, the bytes not
consumed, and the error code. -/
structure Turn where
  P : List PEv
  F : List Ev
  stage : Stage
  rest : Buf
  code : Option XErr

section
variable (c : PCfg) (ext : Ext) (fuel : Nat)

/-- 3461-3584, 4892-4920, 6879-6950: content, CDATA section and epilog processors. -/
def inContent (z : DState) (s : CState) (final : Bool) (b : Buf) : Turn :=
  match call (C57.contentSem c z) (z.x c false).e (!final) s b with
  | (F, .ok s' r) => ⟨[], F, .content z s', r, none⟩
  | (F, .err e) => ⟨[], F, .content z s, b, some e⟩

/-- 5062-5085, 5569-5585 `prologProcessor` and `ignoreSectionProcessor`; the content processor is called for the rest of the buffer
when the root element is found (5941-5945). -/
def inProlog (s : DState) (final : Bool) (b : Buf) : Turn :=
  match prologCall c ext fuel [] (!final) s b with
  | (P, s', .done q) => ⟨P, [], .prolog s', q, none⟩
  | (P, z, .content q) => { inContent c z CState.init final q with P := P }
  | (P, s', .err e) => ⟨P, [], .prolog s', b, some e⟩
  | (P, _, .panic) => ⟨P, [], .dead, b, some .UNEXPECTED_STATE⟩

/-- 5394-5412 `prologInitProcessor` and what it leads to, when the encoding named by the application, if any, is
built in (`C60.detect`). -/
def inFresh (idx : EncIndex) (s : DState) (final : Bool) (b : Buf) : Turn :=
  match initScan idx .prolog b with
  | .bom i n => inProlog c ext fuel { s with cur := .builtin i } final (b.drop n)
  | .scan i => inProlog c ext fuel { s with cur := .builtin i } final b
  | .none => if final then ⟨[], [], .fresh, b, some .NO_ELEMENTS⟩ else ⟨[], [], .fresh, b, none⟩
  | .more => if final then ⟨[], [], .fresh, b, some .UNCLOSED_TOKEN⟩ else ⟨[], [], .fresh, b, none⟩

end

/-- XML_ParamEntityParsing in the two models. -/
def pePolicy : PePolicy → PEParsing
  | .never => .never
  | .unlessStandalone => .unlessStandalone
  | .always => .always

/-- The settings that calls of the application make: `m_ns_triplets`, `m_protocolEncodingName`. -/
def settings (C : PCfg) (f : Conf) : PCfg := { C with c := { C.c with triplets := f.triplets }, protocol := f.encoding.isSome }

/-- The variables at the start (1755-1805). -/
def first (f : Conf) : DState := { start (.builtin .utf8) (pePolicy f.pe) with foreign := f.foreignDtd }

/-- `m_processor`.  5170-5212 `initializeEncoding`: the unknown-encoding handler is asked for an encoding that is not built in. -/
def turn (C : PCfg) (ext : Ext) (fuel : Nat) (f : Conf) (st : Stage) (final : Bool) (b : Buf) : Turn :=
  match st with
  | .fresh =>
    match getEncodingIndex f.encoding with
    | some idx => inFresh (settings C f) ext fuel idx (first f) final b
    | none =>
      match (f.encoding.bind C.unknown) with
      | some x => inProlog (settings C f) ext fuel { first f with cur := .other x } final b
      | none => ⟨[], [], .fresh, b, some .UNKNOWN_ENCODING⟩
  | .prolog s => inProlog (settings C f) ext fuel s final b
  | .content z s => inContent (settings C f) z s final b
  | .dead => ⟨[], [], .dead, b, some .UNEXPECTED_STATE⟩

/-- What only the processors touch, with the handler calls made so far since the parser was created or reset. -/
structure Inner where
  stage : Stage := .fresh
  P : List PEv := []
  F : List Ev := []

/-- The processors of a parser for a document whose handlers do not stop it (for those see C40, C41).  The event position is modelled for
successful calls only.  A panic is reported as the error UNEXPECTED_STATE with stage `dead`. -/
def docEngine (C : PCfg) (ext : Ext) (fuel : Nat) (upd : Buf → Pos → Option Pos) (alloc : Nat → Bool) : Engine Inner where
  init := {}
  start _ s := some s
  proc f s final b :=
    let t := turn C ext fuel f s.stage final b
    let used := if t.code = none then b.length - t.rest.length else 0
    ⟨t.F, used, t.code, ⟨t.stage, s.P ++ t.P, s.F ++ t.F⟩, .PARSING, used, used⟩
  upd _ b p := upd b p
  alloc := alloc

theorem docEngine_lawful (C : PCfg) (ext : Ext) (fuel : Nat) (upd) (alloc) : (docEngine C ext fuel upd alloc).Lawful := by
  refine ⟨?_, ?_, ?_⟩ <;> intro c s f b <;> simp only [docEngine]
  · split <;> omega
  · split <;> omega
  · simp

/-! ### What is not consumed is the end of what was given -/

theorem prun_rest (c : PCfg) (ext : Ext) (fuel : Nat) (expand) (internal between allowClose more : Bool) (opened : List Buf) (n : Nat) :
    ∀ (s : DState) (b : Buf), b.length = n → ∀ E s' q,
      prun c ext fuel expand internal between allowClose more opened s b = (E, s', .done q) ∨
      prun c ext fuel expand internal between allowClose more opened s b = (E, s', .content q) → ∃ k, q = b.drop k := by
  induction n using Nat.strongRecOn with
  | _ n ih =>
    intro s b hn E s' q h
    have pre : ∀ {E0 : List PEv} {r : Prolog} {b' : Buf} (_ : ∃ k, b' = b.drop k) (_ : b'.length < b.length) (_ : ∀ E s' q, r = (E, s', .done q) ∨ r = (E, s', .content q) →
        ∃ k, q = b'.drop k), Prolog.pre E0 r = (E, s', .done q) ∨ Prolog.pre E0 r = (E, s', .content q) → ∃ k, q = b.drop k := by
      rintro E0 ⟨E1, s1, o⟩ b' ⟨k, rfl⟩ - hr h
      rcases h with h | h <;> simp only [Prolog.pre, Prod.mk.injEq] at h
      · obtain ⟨j, rfl⟩ := hr E1 s1 q (.inl (by rw [h.2.2]))
        exact ⟨k + j, List.drop_drop ..⟩
      · obtain ⟨j, rfl⟩ := hr E1 s1 q (.inr (by rw [h.2.2]))
        exact ⟨k + j, List.drop_drop ..⟩
    rw [prun.eq_def] at h
    simp only at h
    split at h
    · rcases h with h | h <;> cases h
      exact ⟨0, rfl⟩
    · rcases h with h | h <;> cases h
    · rcases h with h | h <;> cases h
    · split at h <;> rcases h with h | h <;> cases h
      exact ⟨0, rfl⟩
    · rename_i t k _
      split at h
      · rcases h with h | h <;> cases h
      · rcases h with h | h <;> cases h
      · rcases h with h | h <;> cases h
        exact ⟨0, rfl⟩
      · split at h
        · rename_i hl
          exact pre ⟨_, rfl⟩ hl (ih _ (hn ▸ hl) _ _ rfl) h
        · rcases h with h | h <;> cases h
      · split at h
        · rcases h with h | h <;> cases h
          exact ⟨_, rfl⟩
        · rcases h with h | h <;> cases h
        · split at h
          · rename_i hl
            exact pre ⟨_, List.drop_drop ..⟩ hl (ih _ (hn ▸ hl) _ _ rfl) h
          · rcases h with h | h <;> cases h

theorem prologCall_rest (c : PCfg) (ext : Ext) (fuel : Nat) (opened : List Buf) (more : Bool) (s : DState) (b : Buf) {E s' q}
    (h : prologCall c ext fuel opened more s b = (E, s', .done q) ∨ prologCall c ext fuel opened more s b = (E, s', .content q)) : ∃ k, q = b.drop k := by
  unfold prologCall at h
  simp only at h
  split at h
  · split at h
    · rcases h with h | h <;> cases h
      exact ⟨0, rfl⟩
    · rcases h with h | h <;> cases h
    · rename_i k _
      generalize hr : prun c ext fuel _ false false true more opened _ _ = r at h
      obtain ⟨E1, s1, o⟩ := r
      rcases h with h | h <;> simp only [Prolog.pre, Prod.mk.injEq] at h
      · obtain ⟨j, rfl⟩ := prun_rest _ _ _ _ _ _ _ _ _ _ _ _ rfl E1 s1 q (.inl (by rw [hr, h.2.2]))
        exact ⟨k + j, List.drop_drop ..⟩
      · obtain ⟨j, rfl⟩ := prun_rest _ _ _ _ _ _ _ _ _ _ _ _ rfl E1 s1 q (.inr (by rw [hr, h.2.2]))
        exact ⟨k + j, List.drop_drop ..⟩
  · exact prun_rest _ _ _ _ _ _ _ _ _ _ _ _ rfl E s' q h

theorem inContent_rest {c : PCfg} {z : DState} {s : CState} {final : Bool} {b : Buf} : ∃ k, (inContent c z s final b).rest = b.drop k := by
  unfold inContent call
  have hr := run_rest (C57.contentSem c z) (z.x c false).e (!final) _ b rfl ((C57.contentSem c z).mode s == .cdata) s
  generalize run (C57.contentSem c z) (z.x c false).e (!final) _ s b = r at *
  obtain ⟨E, o⟩ := r
  cases o with
  | err e => exact ⟨0, rfl⟩
  | ok s' q =>
    obtain ⟨k, -, rfl⟩ := hr _ _ _ rfl
    exact ⟨k, rfl⟩

theorem inProlog_rest {c : PCfg} {ext : Ext} {fuel : Nat} {s : DState} {final : Bool} {b : Buf} : ∃ k, (inProlog c ext fuel s final b).rest = b.drop k := by
  unfold inProlog
  split
  · rename_i h; exact prologCall_rest _ _ _ _ _ _ _ (.inl h)
  · rename_i z q h
    obtain ⟨k, rfl⟩ := prologCall_rest _ _ _ _ _ _ _ (.inr h)
    obtain ⟨j, hj⟩ := inContent_rest (c := c) (z := z) (s := CState.init) (final := final) (b := b.drop k)
    exact ⟨k + j, by rw [← List.drop_drop]; exact hj⟩
  · exact ⟨0, rfl⟩
  · exact ⟨0, rfl⟩

theorem turn_rest (C : PCfg) (ext : Ext) (fuel : Nat) (f : Conf) (st : Stage) (final : Bool) (b : Buf) :
    ∃ k, (turn C ext fuel f st final b).rest = b.drop k := by
  unfold turn
  split
  · split
    · unfold inFresh
      split
      · obtain ⟨j, hj⟩ := inProlog_rest (c := settings C f) (ext := ext) (fuel := fuel) (final := final)
        exact ⟨_ + j, by rw [← List.drop_drop]; exact hj⟩
      · exact inProlog_rest
      · split <;> exact ⟨0, rfl⟩
      · split <;> exact ⟨0, rfl⟩
    · split
      · exact inProlog_rest
      · exact ⟨0, rfl⟩
  · exact inProlog_rest
  · exact inContent_rest
  · exact ⟨0, rfl⟩

theorem turn_pending (C : PCfg) (ext : Ext) (fuel : Nat) (f : Conf) (st : Stage) (final : Bool) (b : Buf) :
    b.drop (b.length - (turn C ext fuel f st final b).rest.length) = (turn C ext fuel f st final b).rest := by
  obtain ⟨k, hk⟩ := turn_rest C ext fuel f st final b
  rw [hk, List.length_drop]
  by_cases h : k ≤ b.length
  · congr 1; omega
  · rw [List.drop_eq_nil_of_le (by omega : b.length ≤ k)]
    exact List.drop_eq_nil_of_le (by omega)

/-! ### Call by call and all at once -/

section
variable (C : PCfg) (ext : Ext) (fuel : Nat) (f : Conf) (idx : EncIndex)

/-- The rest of a document, from a processor on (`C60.parse`, `C57.document`, `feed`). -/
def docFrom (st : Stage) (rest : Buf) (xs : List Buf) : C57.Doc :=
  match st with
  | .fresh => C60.parse (settings C f) ext fuel idx (first f) rest xs
  | .prolog s => C57.document (settings C f) ext fuel s rest xs
  | .content z s => let r := Verif.feed (C57.contentSem (settings C f) z) (z.x (settings C f) false).e s rest xs; ([], z, .content r.1 r.2)
  | .dead => ([], first f, .prolog .panic)

/-- More handler calls before the rest of a document. -/
def before (P : List PEv) (F : List Ev) (d : C57.Doc) : C57.Doc :=
  (P ++ d.1, d.2.1, match d.2.2 with | .content F' o => .content (F ++ F') o | .prolog o => .prolog o)

/-- Handler calls, processor and error code at the end of a document. -/
def Told (d : C57.Doc) (P : List PEv) (F : List Ev) (st : Stage) (code : Option XErr) : Prop :=
  match d with
  | (P', z, .content F' (.ok u _)) => P = P' ∧ F = F' ∧ st = .content z u ∧ code = none
  | (P', _, .content F' (.err e)) => P = P' ∧ F = F' ∧ code = some e
  | (P', _, .prolog (.err e)) => P = P' ∧ F = [] ∧ code = some e
  | (P', _, .prolog .panic) => P = P' ∧ F = [] ∧ st = .dead ∧ code = some .UNEXPECTED_STATE
  | (P', z, .prolog (.done _)) => P = P' ∧ F = [] ∧ st = .prolog z ∧ code = none
  | (_, _, .prolog (.content _)) => False

def InContent (d : C57.Doc) : Prop := ∃ F o, d.2.2 = .content F o

variable {C ext fuel f idx}

theorem Told.before {d : C57.Doc} {P P' : List PEv} {F F' : List Ev} {st : Stage} {code : Option XErr} (h : Told d P' F' st code)
    (hF : F = [] ∨ InContent d) : Told (before P F d) (P ++ P') (F ++ F') st code := by
  obtain ⟨Q, z, o⟩ := d
  rcases o with o | ⟨G, o⟩
  · have hF : F = [] := by
      rcases hF with hF | ⟨_, _, hF⟩
      · exact hF
      · cases hF
    subst hF
    cases o <;> simp only [Told, C63.before, List.nil_append] at h ⊢
    · obtain ⟨rfl, h2⟩ := h; exact ⟨rfl, h2⟩
    · obtain ⟨rfl, h2⟩ := h; exact ⟨rfl, h2⟩
    · obtain ⟨rfl, h2⟩ := h; exact ⟨rfl, h2⟩
  · cases o <;> simp only [Told, C63.before] at h ⊢
    · obtain ⟨rfl, rfl, h2⟩ := h; exact ⟨rfl, rfl, h2⟩
    · obtain ⟨rfl, rfl, h2⟩ := h; exact ⟨rfl, rfl, h2⟩

/-- What one call comes to, if the calls `xs` follow it. -/
def Goes (d : C57.Doc) (t : Turn) (xs : List Buf) : Prop :=
  match t.code, xs with
  | none, _ :: _ => d = before t.P t.F (docFrom C ext fuel f idx t.stage t.rest xs) ∧ (t.F = [] ∨ ∃ z s, t.stage = .content z s)
  | _, _ => Told d t.P t.F t.stage t.code

theorem Goes.last {d : C57.Doc} {t : Turn} (h : Goes (C := C) (ext := ext) (fuel := fuel) (f := f) (idx := idx) d t []) : Told d t.P t.F t.stage t.code := by
  unfold Goes at h
  split at h
  · contradiction
  · exact h

theorem Goes.stop {d : C57.Doc} {t : Turn} {xs : List Buf} (h : Goes (C := C) (ext := ext) (fuel := fuel) (f := f) (idx := idx) d t xs) (hc : t.code ≠ none) :
    Told d t.P t.F t.stage t.code := by
  unfold Goes at h
  split at h
  · rename_i h2; exact absurd h2 hc
  · exact h

theorem Goes.more {d : C57.Doc} {t : Turn} {xs : List Buf} (h : Goes (C := C) (ext := ext) (fuel := fuel) (f := f) (idx := idx) d t xs) (hc : t.code = none)
    (hx : xs ≠ []) : d = before t.P t.F (docFrom C ext fuel f idx t.stage t.rest xs) ∧ (t.F = [] ∨ ∃ z s, t.stage = .content z s) := by
  unfold Goes at h
  split at h
  · exact h
  · rename_i h2
    obtain ⟨y, ys, rfl⟩ := List.exists_cons_of_ne_nil hx
    exact (h2 y ys hc rfl).elim

theorem before_nil (d : C57.Doc) : before [] [] d = d := by
  obtain ⟨Q, z, o⟩ := d
  cases o <;> rfl

theorem content_goes (z : DState) (s : CState) (rest x : Buf) (xs : List Buf) :
    Goes (C := C) (ext := ext) (fuel := fuel) (f := f) (idx := idx) (docFrom C ext fuel f idx (.content z s) rest (x :: xs))
      (inContent (settings C f) z s (xs == []) (rest ++ x)) xs := by
  unfold inContent
  cases xs with
  | nil =>
    simp only [docFrom, Verif.feed]
    rw [show (!(([] : List Buf) == [])) = false from rfl]
    generalize call (C57.contentSem (settings C f) z) (z.x (settings C f) false).e false s (rest ++ x) = r
    obtain ⟨E, o⟩ := r
    cases o <;> simp [Goes, Told]
  | cons y ys =>
    simp only [docFrom]
    rw [show (!((y :: ys : List Buf) == [])) = true from rfl, Verif.feed]
    · generalize call (C57.contentSem (settings C f) z) (z.x (settings C f) false).e true s (rest ++ x) = r
      obtain ⟨E, o⟩ := r
      cases o
      · simp [Goes, before, docFrom, Verif.pre]
      · simp [Goes, Told]
    · simp

theorem prolog_goes (s : DState) (rest x : Buf) (xs : List Buf) :
    Goes (C := C) (ext := ext) (fuel := fuel) (f := f) (idx := idx) (docFrom C ext fuel f idx (.prolog s) rest (x :: xs))
      (inProlog (settings C f) ext fuel s (xs == []) (rest ++ x)) xs := by
  unfold inProlog
  have key (P : List PEv) (z : DState) (q : Buf) (d : C57.Doc)
      (hd : d = (P, (docFrom C ext fuel f idx (.content z CState.init) q ([] :: xs)).2)) :
      Goes (C := C) (ext := ext) (fuel := fuel) (f := f) (idx := idx) d { inContent (settings C f) z CState.init (xs == []) q with P := P } xs := by
    have h := content_goes (C := C) (ext := ext) (fuel := fuel) (f := f) (idx := idx) z CState.init q [] xs
    rw [List.append_nil] at h
    have hP : (inContent (settings C f) z CState.init (xs == []) q).P = [] := by unfold inContent; split <;> rfl
    generalize inContent (settings C f) z CState.init (xs == []) q = t at *
    obtain ⟨P', F, st, r, code⟩ := t
    simp only at hP
    subst hP hd
    cases xs with
    | nil =>
      simp only [Goes] at h ⊢
      have := Told.before (P := P) (F := []) h (.inl rfl)
      simp only [List.append_nil, List.nil_append] at this
      have he : before P [] (docFrom C ext fuel f idx (.content z CState.init) q [[]]) = (P, (docFrom C ext fuel f idx (.content z CState.init) q [[]]).2) := by
        simp [before, docFrom]
      rwa [he] at this
    | cons y ys =>
      cases code with
      | none =>
        simp only [Goes] at h ⊢
        refine ⟨?_, h.2⟩
        rw [h.1]
        rcases h.2 with hF | ⟨z', s', hst⟩
        · subst hF
          have h1 : ([] : List PEv) = [] ++ (docFrom C ext fuel f idx st r (y :: ys)).1 := congrArg Prod.fst h.1
          simp only [List.nil_append] at h1
          simp only [before]
          rw [← h1, List.append_nil]
        · subst hst
          simp [before, docFrom]
      | some e =>
        simp only [Goes] at h ⊢
        have := Told.before (P := P) (F := []) h (.inl rfl)
        simp only [List.append_nil, List.nil_append] at this
        have he : before P [] (docFrom C ext fuel f idx (.content z CState.init) q ([] :: y :: ys)) = (P, (docFrom C ext fuel f idx (.content z CState.init) q ([] :: y :: ys)).2) := by
          simp [before, docFrom]
        rwa [he] at this
  cases xs with
  | nil =>
    simp only [docFrom, C57.document]
    rw [show (!(([] : List Buf) == [])) = false from rfl]
    generalize prologCall (settings C f) ext fuel [] false s (rest ++ x) = r at *
    obtain ⟨E, s', o⟩ := r
    cases o with
    | done q => simp [Goes, Told, C57.finishDoc]
    | content q =>
      refine key E s' q _ ?_
      simp [C57.finishDoc, C57.content, docFrom, Verif.feed]
    | err e => simp [Goes, Told, C57.finishDoc]
    | panic => simp [Goes, Told, C57.finishDoc]
  | cons y ys =>
    simp only [docFrom]
    rw [show (!((y :: ys : List Buf) == [])) = true from rfl, C57.document]
    · generalize prologCall (settings C f) ext fuel [] true s (rest ++ x) = r at *
      obtain ⟨E, s', o⟩ := r
      cases o with
      | done q =>
        simp only [Goes]
        refine ⟨?_, by simp⟩
        simp only [before, docFrom]
        generalize C57.document (settings C f) ext fuel s' q (y :: ys) = d
        obtain ⟨_, _, o⟩ := d
        cases o <;> rfl
      | content q => exact key E s' q _ rfl
      | err e => simp [Goes, Told]
      | panic => simp [Goes, Told]
    · simp

/-- One call of the processor is the first step of the document. -/
theorem goes (hi : getEncodingIndex f.encoding = some idx) (st : Stage) (rest x : Buf) (xs : List Buf) :
    Goes (C := C) (ext := ext) (fuel := fuel) (f := f) (idx := idx) (docFrom C ext fuel f idx st rest (x :: xs))
      (turn C ext fuel f st (xs == []) (rest ++ x)) xs := by
  cases st with
  | prolog s => exact prolog_goes s rest x xs
  | content z s => exact content_goes z s rest x xs
  | dead => cases xs <;> simp [turn, Goes, Told, docFrom]
  | fresh =>
    simp only [turn, hi, docFrom, C60.parse, C60.detect, inFresh]
    generalize initScan idx .prolog (rest ++ x) = g
    cases g with
    | bom i n =>
      have := prolog_goes (C := C) (ext := ext) (fuel := fuel) (f := f) (idx := idx) { first f with cur := .builtin i } ((rest ++ x).drop n) [] xs
      rw [List.append_nil] at this
      exact this
    | scan i =>
      have := prolog_goes (C := C) (ext := ext) (fuel := fuel) (f := f) (idx := idx) { first f with cur := .builtin i } (rest ++ x) [] xs
      rw [List.append_nil] at this
      exact this
    | none =>
      cases xs with
      | nil => simp [Goes, Told]
      | cons y ys => simp [Goes, docFrom, before_nil]
    | more =>
      cases xs with
      | nil => simp [Goes, Told]
      | cons y ys => simp [Goes, docFrom, before_nil]

end

end Verif.C63
