import Verif.Roles

/-!
# C21: a syntax error in the prolog is final

After the grammar machine has answered `ERROR`, whatever tokens are offered it never answers
anything but `NONE` again (so no later token is taken for a declaration, a DOCTYPE, the root
element or a reference), and its state no longer changes.

The English claim "every later token is also rejected" holds of the parser, not of the machine:
the machine's `error` handler answers `NONE`, not `ERROR`; the parser never calls it again
(see C39).
-/

namespace Verif.C21

open PState

theorem next_error {s : PState} (h : s.h = .error) (e : Enc) (t : Tok) (b : Buf) :
    s.next e t b = (s, .NONE) := by
  simp [PState.next, handle, h, stay]

theorem run_error {s : PState} (h : s.h = .error) (e : Enc) (ts : List (Tok × Buf)) :
    s.run e ts = (s, List.replicate ts.length .NONE) := by
  induction ts with
  | nil => rfl
  | cons x ts ih =>
    rw [run]
    simp only [next_error h, ih, List.length_cons, List.replicate_succ]

/-- No handler itself answers `ERROR`; only `common` does. -/
theorem handle_not_error {e : Enc} {s s' : PState} {t : Tok} {b : Buf} {r : Role}
    (hn : s.roleNone ≠ .ERROR) (h : s.handle e t b = some (s', r)) : r ≠ .ERROR := by
  revert h
  unfold handle
  cases s.h <;>
  simp only [prolog0, prolog1, prolog2, doctype0, doctype1, doctype2, doctype3, doctype4, doctype5,
    internalSubset, externalSubset0, externalSubset1, entity0, entity1, entity2, entity3, entity4,
    entity5, entity6, entity7, entity8, entity9, entity10, notation0, notation1, notation2, notation3,
    notation4, attlist0, attlist1, attlist2, attlist3, attlist4, attlist5, attlist6, attlist7,
    attlist8, attlist9, element0, element1, element2, element3, element4, element5, element6,
    element7, condSect0, condSect1, condSect2, declClose, go, stay, top, close, closeGroup] <;>
  grind (splits := 20)

/-- `role_none` is only ever set to one of the quiet roles. -/
theorem roleNone_next {e : Enc} {s : PState} {t : Tok} {b : Buf}
    (hn : s.roleNone ≠ .ERROR) : (s.next e t b).1.roleNone ≠ .ERROR := by
  unfold PState.next common fall handle
  cases s.h <;>
  simp only [prolog0, prolog1, prolog2, doctype0, doctype1, doctype2, doctype3, doctype4, doctype5,
    internalSubset, externalSubset0, externalSubset1, entity0, entity1, entity2, entity3, entity4,
    entity5, entity6, entity7, entity8, entity9, entity10, notation0, notation1, notation2, notation3,
    notation4, attlist0, attlist1, attlist2, attlist3, attlist4, attlist5, attlist6, attlist7,
    attlist8, attlist9, element0, element1, element2, element3, element4, element5, element6,
    element7, condSect0, condSect1, condSect2, declClose, go, stay, top, close, closeGroup] <;>
  grind (splits := 20)

/-- States that occur: `role_none` starts as `NONE` and is only set to quiet roles. -/
def Sane (s : PState) : Prop := s.roleNone ≠ .ERROR

theorem next_error_state {e : Enc} {s : PState} {t : Tok} {b : Buf} (hn : Sane s)
    (h : (s.next e t b).2 = .ERROR) : (s.next e t b).1.h = .error := by
  revert h
  unfold PState.next
  cases hh : s.handle e t b with
  | some p => intro h; exact absurd h (handle_not_error hn hh)
  | none =>
    simp only [Option.getD_none, common]
    split <;> simp

theorem sane_run {e : Enc} {s : PState} (hn : Sane s) (ts : List (Tok × Buf)) :
    Sane (s.run e ts).1 := by
  induction ts generalizing s with
  | nil => exact hn
  | cons x ts ih => rw [run]; exact ih (roleNone_next hn)

theorem run_append (e : Enc) (s : PState) (xs ys : List (Tok × Buf)) :
    s.run e (xs ++ ys) =
      (((s.run e xs).1.run e ys).1, (s.run e xs).2 ++ ((s.run e xs).1.run e ys).2) := by
  induction xs generalizing s with
  | nil => simp [run]
  | cons x xs ih => simp only [List.cons_append, run, ih]

theorem run_length (e : Enc) (s : PState) (xs : List (Tok × Buf)) :
    (s.run e xs).2.length = xs.length := by
  induction xs generalizing s with
  | nil => rfl
  | cons x xs ih => simp only [run, List.length_cons, ih]

/-- **C21.**  Take any document (or external subset): tokens `before`, then a token `(t, b)` the
grammar machine answers with `ERROR`, then any tokens `after`.  Then every token of `after` is
answered `NONE`, and the machine stays where it was. -/
theorem error_final (e : Enc) (s : PState) (hs : s = init ∨ s = initExternal)
    (before after : List (Tok × Buf)) (t : Tok) (b : Buf)
    (h : ((s.run e before).1.next e t b).2 = .ERROR) :
    (s.run e (before ++ (t, b) :: after)).2 =
      (s.run e before).2 ++ .ERROR :: List.replicate after.length .NONE ∧
    (s.run e (before ++ (t, b) :: after)).1 = (s.run e (before ++ [(t, b)])).1 := by
  have hn : Sane s := by rcases hs with rfl | rfl <;> simp [Sane, init, initExternal]
  have he := next_error_state (sane_run (e := e) hn before) h
  rw [run_append, run_append]
  simp only [run, run_error he, h, and_self]

/-- No role but `NONE` after an error, wherever the error occurred. -/
theorem after_error (e : Enc) (s : PState) (hs : s = init ∨ s = initExternal)
    (ts : List (Tok × Buf)) (pre post : List Role)
    (h : (s.run e ts).2 = pre ++ .ERROR :: post) : ∀ r ∈ post, r = .NONE := by
  have hl := congrArg List.length h
  rw [run_length] at hl
  simp only [List.length_append, List.length_cons] at hl
  obtain ⟨before, x, after, rfl, hb⟩ : ∃ before x after,
      ts = before ++ x :: after ∧ before.length = pre.length := by
    refine ⟨ts.take pre.length, ts[pre.length]'(by omega), ts.drop (pre.length + 1), ?_, ?_⟩
    · simp
    · simp; omega
  obtain ⟨t, b⟩ := x
  rw [run_append] at h
  obtain ⟨h1, h2⟩ := List.append_inj h (by rw [run_length, hb])
  simp only [run, List.cons.injEq] at h2
  have := (error_final e s hs before after t b h2.1).1
  rw [run_append] at this
  obtain ⟨-, h3⟩ := List.append_inj this rfl
  simp only [run, List.cons.injEq] at h3
  intro r hr
  rw [← h2.2, h3.2] at hr
  exact List.eq_of_mem_replicate hr

/-- `<!DOCTYPE >` (no name): rejected at the closing bracket, and an element declaration
afterwards is not recognised. -/
example : (init.run (utf8Enc false) [(.DECL_OPEN, [0x3C, 0x21, 0x44, 0x4F, 0x43, 0x54, 0x59, 0x50, 0x45]),
      (.PROLOG_S, [0x20]), (.DECL_CLOSE, [0x3E]),
      (.DECL_OPEN, [0x3C, 0x21, 0x45, 0x4C, 0x45, 0x4D, 0x45, 0x4E, 0x54]), (.NAME, [0x61])]).2 =
    [.DOCTYPE_NONE, .DOCTYPE_NONE, .ERROR, .NONE, .NONE] := by decide +kernel

end Verif.C21
