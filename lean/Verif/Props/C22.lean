import Verif.Props.C23

/-!
# C22: document structure of the prolog

The grammar machine for the document entity accepts, up to the root element, exactly

    BOM* XMLDecl? (S | PI | Comment | BOM)* ( `<!DOCTYPE` doctype (S | PI | Comment)* )? root

where `doctype` ends at the `>` that takes the machine out of the document type declaration and
contains no XML declaration, no root element and no second DOCTYPE.
-/

namespace Verif.C22

open PState

/-- The tokens `ts`, starting in state `s`, are accepted up to and including the root element:
no token is rejected and the last (and only the last) starts the root element. -/
def Accepts (e : Enc) (s : PState) (ts : List (Tok × Buf)) : Prop :=
  ∃ rs, (s.run e ts).2 = rs ++ [.INSTANCE_START] ∧ .ERROR ∉ rs ∧ .INSTANCE_START ∉ rs

def isMisc (x : Tok × Buf) : Prop := x.1 = .PROLOG_S ∨ x.1 = .PI ∨ x.1 = .COMMENT

def isDoctypeOpen (e : Enc) (x : Tok × Buf) : Prop :=
  x.1 = .DECL_OPEN ∧ nameMatchesAscii e (x.2.drop (2 * e.mb)) kwDOCTYPE = true

/-- The tokens `d` take the machine from just after `<!DOCTYPE` out of the document type
declaration: it is at `prolog2` after the last token and not before. -/
def IsDoctype (e : Enc) (s : PState) (d : List (Tok × Buf)) : Prop :=
  (s.run e d).1.h = .prolog2 ∧ .ERROR ∉ (s.run e d).2 ∧
    ∀ k < d.length, (s.run e (d.take k)).1.h ≠ .prolog2

theorem accepts_nil {e : Enc} {s : PState} : ¬ Accepts e s [] := by
  rintro ⟨rs, h, -⟩
  simp [run] at h

theorem accepts_cons {e : Enc} {s : PState} {t : Tok} {b : Buf} {ts : List (Tok × Buf)} :
    Accepts e s ((t, b) :: ts) ↔
      (ts = [] ∧ (s.next e t b).2 = .INSTANCE_START) ∨
      ((s.next e t b).2 ≠ .ERROR ∧ (s.next e t b).2 ≠ .INSTANCE_START ∧ Accepts e (s.next e t b).1 ts) := by
  constructor
  · rintro ⟨rs, h, h1, h2⟩
    simp only [run] at h
    cases rs with
    | nil =>
      left
      simp only [List.nil_append, List.cons.injEq] at h
      refine ⟨?_, h.1⟩
      have := congrArg List.length h.2
      rw [C21.run_length] at this
      exact List.length_eq_zero_iff.1 this
    | cons r rs =>
      right
      simp only [List.cons_append, List.cons.injEq] at h
      simp only [List.mem_cons, not_or] at h1 h2
      rw [h.1]
      exact ⟨Ne.symm h1.1, Ne.symm h2.1, rs, h.2, h1.2, h2.2⟩
  · rintro (⟨rfl, h⟩ | ⟨h1, h2, rs, h, h3, h4⟩)
    · exact ⟨[], by simp [run, h], by simp, by simp⟩
    · exact ⟨(s.next e t b).2 :: rs, by simp [run, h], by simp [Ne.symm h1, h3], by simp [Ne.symm h2, h4]⟩

/-- Handlers in force inside a document type declaration. -/
def inDoctype : Hd → Bool
  | .prolog0 | .prolog1 | .prolog2 | .externalSubset0 | .externalSubset1 | .condSect0 | .condSect1 | .condSect2
  | .error => false
  | _ => true

/-- What a role in a document type declaration can be. -/
def dtRole : Role → Bool
  | .ERROR | .INSTANCE_START | .XML_DECL | .TEXT_DECL => false
  | _ => true

theorem handle_inside {e : Enc} {s s' : PState} {t : Tok} {b : Buf} {r : Role} (hn : dtRole s.roleNone = true)
    (hd : s.documentEntity = true) (hh : inDoctype s.h = true)
    (h : s.handle e t b = some (s', r)) :
    (inDoctype s'.h = true ∨ (s'.h = .prolog2 ∧ t = .DECL_CLOSE)) ∧ dtRole r = true ∧
      dtRole s'.roleNone = true ∧ s'.documentEntity = true ∧ t ≠ .XML_DECL ∧ t ≠ .INSTANCE_START ∧ t ≠ .BOM := by
  obtain ⟨q, lv, rn, il, de, iv⟩ := s
  unfold handle at h
  cases q <;>
  simp only [doctype0, doctype1, doctype2, doctype3, doctype4, doctype5,
    internalSubset, entity0, entity1, entity2, entity3, entity4,
    entity5, entity6, entity7, entity8, entity9, entity10, notation0, notation1, notation2, notation3,
    notation4, attlist0, attlist1, attlist2, attlist3, attlist4, attlist5, attlist6, attlist7,
    attlist8, attlist9, element0, element1, element2, element3, element4, element5, element6,
    element7, declClose, go, stay, top, close, closeGroup] at h <;>
  (try (exfalso; simp [inDoctype] at hh; done)) <;>
  (repeat' split at h) <;> simp only [Option.some.injEq, Prod.mk.injEq, reduceCtorEq] at h <;>
  (try (obtain ⟨rfl, rfl⟩ := h)) <;> simp_all [dtRole, inDoctype]

/-- The state of the document entity's machine. -/
structure Ok (s : PState) : Prop where
  rn : dtRole s.roleNone = true
  de : s.documentEntity = true

theorem next_none {e : Enc} {s : PState} {t : Tok} {b : Buf} (hd : s.documentEntity = true)
    (h : s.handle e t b = none) : (s.next e t b).2 = .ERROR := by
  have : s.fall.documentEntity = true := by unfold PState.fall; split <;> simp [hd]
  rw [PState.next, h, Option.getD_none, common, this]
  rfl

/-! ### After the DOCTYPE -/

theorem accepts_prolog2 {e : Enc} {s : PState} (hk : Ok s) (hh : s.h = .prolog2) (ts : List (Tok × Buf)) :
    Accepts e s ts ↔ ∃ misc x, ts = misc ++ [x] ∧ (∀ y ∈ misc, isMisc y) ∧ x.1 = .INSTANCE_START := by
  induction ts with
  | nil => simp [accepts_nil]
  | cons x ts ih =>
    obtain ⟨t, b⟩ := x
    rw [accepts_cons]
    have hm : isMisc (t, b) → (s.next e t b).1 = s ∧ (s.next e t b).2 ≠ .ERROR ∧
        (s.next e t b).2 ≠ .INSTANCE_START := by
      rintro (h | h | h) <;> cases h <;> simp [PState.next, handle, hh, prolog2, stay]
    have hi : t = .INSTANCE_START → (s.next e t b).2 = .INSTANCE_START := by
      rintro rfl; simp [PState.next, handle, hh, prolog2, go]
    have ho : ¬ isMisc (t, b) → t ≠ .INSTANCE_START → (s.next e t b).2 = .ERROR := by
      intro h1 h2
      refine next_none hk.de ?_
      simp only [handle, hh]
      cases t <;> first | rfl | (simp [isMisc] at h1; done) | exact absurd rfl h2
    constructor
    · rintro (⟨rfl, h⟩ | ⟨h1, h2, h3⟩)
      · refine ⟨[], (t, b), rfl, by simp, ?_⟩
        by_cases h1 : isMisc (t, b)
        · exact absurd h (hm h1).2.2
        · by_cases h2 : t = .INSTANCE_START
          · exact h2
          · rw [ho h1 h2] at h; cases h
      · by_cases h4 : isMisc (t, b)
        · rw [(hm h4).1, ih] at h3
          obtain ⟨misc, x, rfl, h5, h6⟩ := h3
          exact ⟨(t, b) :: misc, x, rfl, by simpa [h4] using h5, h6⟩
        · by_cases h5 : t = .INSTANCE_START
          · exact absurd (hi h5) h2
          · exact absurd (ho h4 h5) h1
    · rintro ⟨misc, x, h1, h2, h3⟩
      cases misc with
      | nil => cases h1; exact .inl ⟨rfl, hi h3⟩
      | cons y misc =>
        cases h1
        have := hm (h2 _ (by simp))
        refine .inr ⟨this.2.1, this.2.2, ?_⟩
        rw [this.1, ih]
        exact ⟨misc, x, rfl, fun y hy => h2 y (by simp [hy]), h3⟩

/-! ### Inside the DOCTYPE -/

theorem isDoctype_cons {e : Enc} {s : PState} {t : Tok} {b : Buf} {d : List (Tok × Buf)}
    (hh : s.h ≠ .prolog2) : IsDoctype e s ((t, b) :: d) ↔
      (s.next e t b).2 ≠ .ERROR ∧ IsDoctype e (s.next e t b).1 d := by
  unfold IsDoctype
  simp only [run, List.mem_cons, not_or, List.length_cons]
  constructor
  · rintro ⟨h1, ⟨h2, h3⟩, h4⟩
    refine ⟨Ne.symm h2, h1, h3, fun k hk => ?_⟩
    have := h4 (k + 1) (by omega)
    simpa [run] using this
  · rintro ⟨h2, h1, h3, h4⟩
    refine ⟨h1, ⟨Ne.symm h2, h3⟩, fun k hk => ?_⟩
    cases k with
    | zero => simpa [run] using hh
    | succ k => simpa [run] using h4 k (by omega)

theorem accepts_inside {e : Enc} {s : PState} (hk : Ok s) (hh : inDoctype s.h = true) (ts : List (Tok × Buf)) :
    Accepts e s ts ↔ ∃ d misc x, ts = d ++ (misc ++ [x]) ∧ IsDoctype e s d ∧ (∀ y ∈ misc, isMisc y) ∧
      x.1 = .INSTANCE_START := by
  have hne : ∀ {s : PState}, inDoctype s.h = true → s.h ≠ .prolog2 := by
    intro s h h'; rw [h'] at h; cases h
  have hnil : ∀ {s : PState}, inDoctype s.h = true → ¬ IsDoctype e s [] := by
    intro s h h'; exact hne h h'.1
  induction ts generalizing s with
  | nil => simp [accepts_nil]
  | cons x ts ih =>
    obtain ⟨t, b⟩ := x
    rw [accepts_cons]
    cases hq : s.handle e t b with
    | none =>
      have he := next_none hk.de hq
      rw [he]
      constructor
      · simp
      · rintro ⟨d, misc, x, h1, h2, -⟩
        cases d with
        | nil => exact absurd h2 (hnil hh)
        | cons y d =>
          cases h1
          rw [isDoctype_cons (hne hh), he] at h2
          exact absurd rfl h2.1
    | some y =>
      obtain ⟨s', r⟩ := y
      have hnx : s.next e t b = (s', r) := by rw [PState.next, hq, Option.getD_some]
      obtain ⟨g1, g2, g3, g4, -⟩ := handle_inside hk.rn hk.de hh hq
      have hr1 : r ≠ .ERROR := by rintro rfl; cases g2
      have hr2 : r ≠ .INSTANCE_START := by rintro rfl; cases g2
      simp only [hnx, hr1, hr2, and_false, false_or, ne_eq, not_false_eq_true, true_and]
      have hcons : ∀ d, IsDoctype e s ((t, b) :: d) ↔ IsDoctype e s' d := by
        intro d; rw [isDoctype_cons (hne hh), hnx]; simp [hr1]
      rcases g1 with g1 | ⟨g1, -⟩
      · refine (ih ⟨g3, g4⟩ g1).trans ?_
        constructor
        · rintro ⟨d, misc, x, rfl, h2, h3⟩
          exact ⟨(t, b) :: d, misc, x, rfl, (hcons d).2 h2, h3⟩
        · rintro ⟨d, misc, x, h1, h2, h3⟩
          cases d with
          | nil => exact absurd h2 (hnil hh)
          | cons y d => cases h1; exact ⟨d, misc, x, rfl, (hcons d).1 h2, h3⟩
      · rw [accepts_prolog2 ⟨g3, g4⟩ g1]
        constructor
        · rintro ⟨misc, x, rfl, h2, h3⟩
          exact ⟨[(t, b)], misc, x, rfl, (hcons []).2 ⟨g1, by simp [run], by simp⟩, h2, h3⟩
        · rintro ⟨d, misc, x, h1, h2, h3, h4⟩
          cases d with
          | nil => exact absurd h2 (hnil hh)
          | cons y d =>
            cases h1
            have h5 := (hcons d).1 h2
            cases d with
            | nil => exact ⟨misc, x, rfl, h3, h4⟩
            | cons z d => exact absurd g1 (by simpa [run] using h5.2.2 0 (by simp))

/-- A document type declaration contains no XML declaration, root element or byte-order mark, and
ends with `>`. -/
theorem doctype_inner {e : Enc} {s : PState} (hk : Ok s) (hh : inDoctype s.h = true) {d : List (Tok × Buf)}
    (h : IsDoctype e s d) : (∀ x ∈ d, x.1 ≠ .XML_DECL ∧ x.1 ≠ .INSTANCE_START ∧ x.1 ≠ .BOM) ∧
      ∃ d' b, d = d' ++ [(.DECL_CLOSE, b)] := by
  have hne : ∀ {s : PState}, inDoctype s.h = true → s.h ≠ .prolog2 := by
    intro s h h'; rw [h'] at h; cases h
  induction d generalizing s with
  | nil => exact absurd h.1 (hne hh)
  | cons x d ih =>
    obtain ⟨t, b⟩ := x
    rw [isDoctype_cons (hne hh)] at h
    cases hq : s.handle e t b with
    | none => exact absurd (next_none hk.de hq) h.1
    | some y =>
      obtain ⟨s', r⟩ := y
      have hnx : s.next e t b = (s', r) := by rw [PState.next, hq, Option.getD_some]
      obtain ⟨g1, g2, g3, g4, g5⟩ := handle_inside hk.rn hk.de hh hq
      rw [hnx] at h
      rcases g1 with g1 | ⟨g1, rfl⟩
      · obtain ⟨h1, d', b', rfl⟩ := ih ⟨g3, g4⟩ g1 h.2
        exact ⟨by simpa [g5] using h1, (t, b) :: d', b', rfl⟩
      · have : d = [] := by
          cases d with
          | nil => rfl
          | cons z d => exact absurd g1 (by simpa [run] using h.2.2.2 0 (by simp))
        subst this
        exact ⟨by simp, [], b, rfl⟩

/-! ### Before the DOCTYPE -/

/-- The part after BOMs and XML declaration. -/
def Rest (e : Enc) (ts : List (Tok × Buf)) : Prop :=
  ∃ misc rest, ts = misc ++ rest ∧ (∀ y ∈ misc, isMisc y ∨ y.1 = .BOM) ∧
    ((∃ x, rest = [x] ∧ x.1 = .INSTANCE_START) ∨
     ∃ o d misc2 x, rest = o :: d ++ (misc2 ++ [x]) ∧ isDoctypeOpen e o ∧
       IsDoctype e { h := .doctype0, documentEntity := true } d ∧ (∀ y ∈ misc2, isMisc y) ∧
       x.1 = .INSTANCE_START)

theorem accepts_start {e : Enc} {s : PState} (hs : s = { h := .prolog0, documentEntity := true } ∨
      s = { h := .prolog1, documentEntity := true }) {t : Tok} {b : Buf} {ts : List (Tok × Buf)}
    (h1 : ¬ (isMisc (t, b) ∨ t = .BOM)) (h2 : t ≠ .XML_DECL) :
    Accepts e s ((t, b) :: ts) ↔
     ((∃ x, (t, b) :: ts = [x] ∧ x.1 = .INSTANCE_START) ∨
      ∃ o d misc2 x, (t, b) :: ts = o :: d ++ (misc2 ++ [x]) ∧ isDoctypeOpen e o ∧
       IsDoctype e { h := .doctype0, documentEntity := true } d ∧ (∀ y ∈ misc2, isMisc y) ∧
       x.1 = .INSTANCE_START) := by
  rw [accepts_cons]
  by_cases hi : t = .INSTANCE_START
  · subst hi
    have hnx : (s.next e .INSTANCE_START b).2 = .INSTANCE_START := by
      rcases hs with rfl | rfl <;> simp [PState.next, handle, prolog0, prolog1, go]
    rw [hnx]
    constructor
    · rintro (⟨rfl, -⟩ | ⟨-, h, -⟩)
      · exact .inl ⟨_, rfl, rfl⟩
      · exact absurd rfl h
    · rintro (⟨x, h, -⟩ | ⟨o, d, misc2, x, h, h', -⟩)
      · cases h; exact .inl ⟨rfl, rfl⟩
      · cases h; cases h'.1
  · by_cases ho : isDoctypeOpen e (t, b)
    · have hnx : s.next e t b = ({ h := .doctype0, documentEntity := true }, .DOCTYPE_NONE) := by
        obtain ⟨ht, hb⟩ := ho
        simp only at ht hb
        subst ht
        rcases hs with rfl | rfl <;> simp [PState.next, handle, prolog0, prolog1, go, hb]
      rw [hnx]
      simp only [reduceCtorEq, and_false, false_or, ne_eq, not_false_eq_true, true_and]
      rw [accepts_inside ⟨rfl, rfl⟩ rfl]
      constructor
      · rintro ⟨d, misc, x, rfl, h⟩
        exact .inr ⟨_, d, misc, x, rfl, ho, h⟩
      · rintro (⟨x, h, h'⟩ | ⟨o, d, misc2, x, h, -, h'⟩)
        · cases h; exact absurd h' hi
        · cases h; exact ⟨d, misc2, x, rfl, h'⟩
    · have hnx : (s.next e t b).2 = .ERROR := by
        refine next_none (by rcases hs with rfl | rfl <;> rfl) ?_
        simp only [isMisc, not_or] at h1
        simp only [isDoctypeOpen, not_and, Bool.not_eq_true] at ho
        rcases hs with rfl | rfl <;> cases t <;> simp_all [handle, prolog0, prolog1]
      rw [hnx]
      constructor
      · simp
      · rintro (⟨x, h, h'⟩ | ⟨o, d, misc2, x, h, h', -⟩)
        · cases h; exact absurd h' hi
        · cases h; exact absurd h' ho

theorem accepts_prolog1 {e : Enc} (ts : List (Tok × Buf)) :
    Accepts e { h := .prolog1, documentEntity := true } ts ↔ Rest e ts := by
  induction ts with
  | nil =>
    simp only [accepts_nil, false_iff]
    rintro ⟨misc, rest, h, -, h'⟩
    rw [eq_comm, List.append_eq_nil_iff] at h
    obtain ⟨rfl, rfl⟩ := h
    rcases h' with ⟨x, h, -⟩ | ⟨o, d, misc2, x, h, -⟩ <;> cases h
  | cons x ts ih =>
    obtain ⟨t, b⟩ := x
    by_cases hm : isMisc (t, b) ∨ t = .BOM
    · have hnx : (PState.next e { h := .prolog1, documentEntity := true } t b).1 =
          { h := .prolog1, documentEntity := true } ∧
          (PState.next e { h := .prolog1, documentEntity := true } t b).2 ≠ .ERROR ∧
          (PState.next e { h := .prolog1, documentEntity := true } t b).2 ≠ .INSTANCE_START := by
        rcases hm with (h | h | h) | h <;> cases h <;> simp [PState.next, handle, prolog1, stay]
      rw [accepts_cons, hnx.1, ih]
      simp only [hnx.2.1, hnx.2.2, and_false, false_or, ne_eq, not_false_eq_true, true_and]
      constructor
      · rintro ⟨misc, rest, rfl, h1, h2⟩
        exact ⟨(t, b) :: misc, rest, rfl, by simpa [hm] using h1, h2⟩
      · rintro ⟨misc, rest, h, h1, h2⟩
        cases misc with
        | nil =>
          exfalso
          rcases h2 with ⟨x, rfl, h2⟩ | ⟨o, d, misc2, x, rfl, h2, -⟩
          · cases h
            rcases hm with (h | h | h) | h <;> rw [h] at h2 <;> cases h2
          · cases h
            rcases hm with (h | h | h) | h <;> have h3 := h2.1 <;> rw [h] at h3 <;> cases h3
        | cons y misc =>
          cases h
          exact ⟨misc, rest, rfl, fun y hy => h1 y (by simp [hy]), h2⟩
    · by_cases hx : t = .XML_DECL
      · subst hx
        have hnx : (PState.next e { h := .prolog1, documentEntity := true } .XML_DECL b).2 = .ERROR :=
          next_none rfl rfl
        rw [accepts_cons, hnx]
        simp only [reduceCtorEq, and_false, false_or, ne_eq, not_true_eq_false, false_and, false_iff]
        rintro ⟨misc, rest, h, h1, h2⟩
        cases misc with
        | nil =>
          rcases h2 with ⟨x, rfl, h2⟩ | ⟨o, d, misc2, x, rfl, h2, -⟩
          · cases h; cases h2
          · cases h; cases h2.1
        | cons y misc =>
          cases h
          exact hm (h1 _ (by simp))
      · rw [accepts_start (.inr rfl) hm hx]
        constructor
        · intro h
          exact ⟨[], _, rfl, by simp, h⟩
        · rintro ⟨misc, rest, h, h1, h2⟩
          cases misc with
          | nil => cases h; exact h2
          | cons y misc => cases h; exact absurd (h1 _ (by simp)) hm

/-- **C22.**  A token sequence is accepted up to the root element exactly if it consists of
byte-order marks, at most one XML declaration, comments, PIs and white space, at most one document
type declaration followed by comments, PIs and white space only, and the root element. -/
theorem document_structure {e : Enc} (ts : List (Tok × Buf)) :
    Accepts e PState.init ts ↔
      ∃ boms xd rest, ts = boms ++ (xd ++ rest) ∧ (∀ y ∈ boms, y.1 = .BOM) ∧
        (xd = [] ∨ ∃ b, xd = [(.XML_DECL, b)]) ∧ Rest e rest := by
  show Accepts e { h := .prolog0, documentEntity := true } ts ↔ _
  induction ts with
  | nil =>
    simp only [accepts_nil, false_iff]
    rintro ⟨boms, xd, rest, h, -, -, misc, rest', h', -, h''⟩
    rw [eq_comm, List.append_eq_nil_iff, List.append_eq_nil_iff] at h
    rw [h.2.2, eq_comm, List.append_eq_nil_iff] at h'
    obtain ⟨rfl, rfl⟩ := h'
    rcases h'' with ⟨x, h, -⟩ | ⟨o, d, misc2, x, h, -⟩ <;> cases h
  | cons x ts ih =>
    obtain ⟨t, b⟩ := x
    by_cases hb : t = .BOM
    · subst hb
      have hnx : PState.next e { h := .prolog0, documentEntity := true } .BOM b =
          ({ h := .prolog0, documentEntity := true }, .NONE) := rfl
      rw [accepts_cons, hnx]
      simp only [reduceCtorEq, and_false, false_or, ne_eq, not_false_eq_true, true_and]
      rw [ih]
      constructor
      · rintro ⟨boms, xd, rest, rfl, h1, h2⟩
        exact ⟨(.BOM, b) :: boms, xd, rest, rfl, by simpa using h1, h2⟩
      · rintro ⟨boms, xd, rest, h, h1, h2, h3⟩
        cases boms with
        | nil =>
          rcases h2 with rfl | ⟨b', rfl⟩
          · simp only [List.nil_append] at h
            subst h
            obtain ⟨misc, rest', h4, h5, h6⟩ := h3
            refine ⟨[], [], ts, rfl, by simp, .inl rfl, ?_⟩
            cases misc with
            | nil =>
              exfalso
              rcases h6 with ⟨x, rfl, h2⟩ | ⟨o, d, misc2, x, rfl, h2, -⟩
              · cases h4; cases h2
              · cases h4; cases h2.1
            | cons y misc =>
              cases h4
              exact ⟨misc, rest', rfl, fun y hy => h5 y (by simp [hy]), h6⟩
          · cases h
        | cons y boms =>
          cases h
          exact ⟨boms, xd, rest, rfl, fun y hy => h1 y (by simp [hy]), h2, h3⟩
    · have hno : (∃ boms xd rest, (t, b) :: ts = boms ++ (xd ++ rest) ∧ (∀ y ∈ boms, y.1 = .BOM) ∧
          (xd = [] ∨ ∃ b, xd = [(.XML_DECL, b)]) ∧ Rest e rest) ↔
          (t = .XML_DECL ∧ Rest e ts) ∨ Rest e ((t, b) :: ts) := by
        constructor
        · rintro ⟨boms, xd, rest, h, h1, h2, h3⟩
          cases boms with
          | cons y boms => cases h; exact absurd (h1 (t, b) (by simp)) hb
          | nil =>
            rcases h2 with rfl | ⟨b', rfl⟩
            · simp only [List.nil_append] at h; rw [h]; exact .inr h3
            · cases h; exact .inl ⟨rfl, h3⟩
        · rintro (⟨rfl, h⟩ | h)
          · exact ⟨[], [(.XML_DECL, b)], ts, rfl, by simp, .inr ⟨b, rfl⟩, h⟩
          · exact ⟨[], [], _, rfl, by simp, .inl rfl, h⟩
      rw [hno]
      have hnx' : ¬ (t = .XML_DECL ∧ Rest e ((t, b) :: ts)) := by
        rintro ⟨rfl, misc, rest, h, h1, h2⟩
        cases misc with
        | nil =>
          rcases h2 with ⟨x, rfl, h2⟩ | ⟨o, d, misc2, x, rfl, h2, -⟩
          · cases h; cases h2
          · cases h; cases h2.1
        | cons y misc =>
          cases h
          rcases h1 (.XML_DECL, b) (by simp) with (h | h | h) | h <;> cases h
      by_cases hx : t = .XML_DECL
      · subst hx
        have hnx : PState.next e { h := .prolog0, documentEntity := true } .XML_DECL b =
            ({ h := .prolog1, documentEntity := true }, .XML_DECL) := rfl
        rw [accepts_cons, hnx]
        simp only [reduceCtorEq, and_false, false_or, ne_eq, not_false_eq_true, true_and] at hnx' ⊢
        rw [accepts_prolog1]
        simp [hnx']
      · simp only [hx, false_and, false_or]
        by_cases hm : isMisc (t, b)
        · have hnx : (PState.next e { h := .prolog0, documentEntity := true } t b).1 =
              { h := .prolog1, documentEntity := true } ∧
              (PState.next e { h := .prolog0, documentEntity := true } t b).2 ≠ .ERROR ∧
              (PState.next e { h := .prolog0, documentEntity := true } t b).2 ≠ .INSTANCE_START := by
            rcases hm with h | h | h <;> cases h <;> simp [PState.next, handle, prolog0, go]
          have hnx1 : (PState.next e { h := .prolog1, documentEntity := true } t b).1 =
              { h := .prolog1, documentEntity := true } ∧
              (PState.next e { h := .prolog1, documentEntity := true } t b).2 ≠ .ERROR ∧
              (PState.next e { h := .prolog1, documentEntity := true } t b).2 ≠ .INSTANCE_START := by
            rcases hm with h | h | h <;> cases h <;> simp [PState.next, handle, prolog1, stay]
          rw [← accepts_prolog1, accepts_cons, accepts_cons, hnx.1, hnx1.1]
          simp [hnx.2.1, hnx.2.2, hnx1.2.1, hnx1.2.2]
        · have h1 : ¬ (isMisc (t, b) ∨ t = .BOM) := by simp [hm, hb]
          rw [accepts_start (.inl rfl) h1 hx, ← accepts_prolog1, accepts_start (.inr rfl) h1 hx]

/-- In the document type declaration of an accepted document there is no XML declaration, root
element or byte-order mark, and its last token is `>`. -/
theorem doctype_contents {e : Enc} {d : List (Tok × Buf)}
    (h : IsDoctype e { h := .doctype0, documentEntity := true } d) :
    (∀ x ∈ d, x.1 ≠ .XML_DECL ∧ x.1 ≠ .INSTANCE_START ∧ x.1 ≠ .BOM) ∧
      ∃ d' b, d = d' ++ [(.DECL_CLOSE, b)] :=
  doctype_inner ⟨rfl, rfl⟩ rfl h

/-- No token is both `<!DOCTYPE` and another declaration keyword. -/
theorem keyword_ne {e : Enc} {asc : UInt8 → Buf} (hs : Supported e asc) {b : Buf}
    (h : nameMatchesAscii e b kwDOCTYPE = true) : nameMatchesAscii e b kwENTITY = false ∧
      nameMatchesAscii e b kwATTLIST = false ∧ nameMatchesAscii e b kwELEMENT = false ∧
      nameMatchesAscii e b kwNOTATION = false := by
  rw [nameMatches_iff hs _ (by decide)] at h
  simp only [decide_eq_true_eq] at h
  subst h
  simp only [nameMatches_iff hs kwENTITY (by decide), nameMatches_iff hs kwATTLIST (by decide),
    nameMatches_iff hs kwELEMENT (by decide), nameMatches_iff hs kwNOTATION (by decide)]
  cases hs <;> decide

/-- Inside a document type declaration there is no second `<!DOCTYPE`. -/
theorem no_second_doctype {e : Enc} {asc : UInt8 → Buf} (hs : Supported e asc) {d : List (Tok × Buf)}
    (h : IsDoctype e { h := .doctype0, documentEntity := true } d) : ∀ x ∈ d, ¬ isDoctypeOpen e x := by
  have hne : ∀ {s : PState}, inDoctype s.h = true → s.h ≠ .prolog2 := by
    intro s h h'; rw [h'] at h; cases h
  suffices H : ∀ {s : PState}, Ok s → inDoctype s.h = true → ∀ {d}, IsDoctype e s d →
      ∀ x ∈ d, ¬ isDoctypeOpen e x from H ⟨rfl, rfl⟩ rfl h
  intro s hk hh d h
  induction d generalizing s with
  | nil => simp
  | cons x d ih =>
    obtain ⟨t, b⟩ := x
    rw [isDoctype_cons (hne hh)] at h
    cases hq : s.handle e t b with
    | none => exact absurd (next_none hk.de hq) h.1
    | some y =>
      obtain ⟨s', r⟩ := y
      have hnx : s.next e t b = (s', r) := by rw [PState.next, hq, Option.getD_some]
      obtain ⟨g1, g2, g3, g4, g5⟩ := handle_inside hk.rn hk.de hh hq
      rw [hnx] at h
      intro x hx
      rcases List.mem_cons.1 hx with rfl | hx'
      · rintro ⟨ht, hb⟩
        simp only at ht hb
        subst ht
        obtain ⟨k1, k2, k3, k4⟩ := keyword_ne hs hb
        revert hq hh
        unfold handle
        cases s.h <;> simp [inDoctype, doctype0, doctype1, doctype2, doctype3, doctype4, doctype5,
          internalSubset, entity0, entity1, entity2, entity3, entity4,
          entity5, entity6, entity7, entity8, entity9, entity10, notation0, notation1, notation2, notation3,
          notation4, attlist0, attlist1, attlist2, attlist3, attlist4, attlist5, attlist6, attlist7,
          attlist8, attlist9, element0, element1, element2, element3, element4, element5, element6,
          element7, declClose, k1, k2, k3, k4]
      · rcases g1 with g1 | ⟨g1, rfl⟩
        · exact ih ⟨g3, g4⟩ g1 h.2 x hx'
        · cases d with
          | nil => cases hx'
          | cons z d => exact absurd g1 (by simpa [run] using h.2.2.2 0 (by simp))

/-- `<?xml ...?> <!DOCTYPE r [<!ELEMENT r ANY>]> <!-- --> <r`: accepted. -/
def exDoc : List (Tok × Buf) :=
  [(.XML_DECL, []), (.PROLOG_S, [0x20]), (.DECL_OPEN, [0x3C, 0x21, 0x44, 0x4F, 0x43, 0x54, 0x59, 0x50, 0x45]),
   (.PROLOG_S, [0x20]), (.NAME, [0x72]), (.OPEN_BRACKET, [0x5B]),
   (.DECL_OPEN, [0x3C, 0x21, 0x45, 0x4C, 0x45, 0x4D, 0x45, 0x4E, 0x54]), (.PROLOG_S, [0x20]), (.NAME, [0x72]),
   (.PROLOG_S, [0x20]), (.NAME, [0x41, 0x4E, 0x59]), (.DECL_CLOSE, [0x3E]), (.CLOSE_BRACKET, [0x5D]),
   (.DECL_CLOSE, [0x3E]), (.COMMENT, []), (.INSTANCE_START, [0x3C, 0x72])]

example : Accepts (utf8Enc false) PState.init exDoc := by
  refine ⟨((PState.init.run (utf8Enc false) exDoc).2).dropLast, ?_, ?_, ?_⟩ <;> decide +kernel

end Verif.C22
