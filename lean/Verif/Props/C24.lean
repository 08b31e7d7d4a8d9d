import Verif.Props.C22

/-!
# C24: conditional sections balance

The reference is a scanner which knows nothing of declarations: it tracks whether it is in the head
of a conditional section (between `<![` and `[`) and counts INCLUDE sections.  (An IGNORE section is
consumed whole, including its `]]>`, by the section skipper of C44; its `[` therefore opens nothing.)
-/

namespace Verif.C24

open PState

/-- Where the scanner is: in no section head, after `<![`, after `INCLUDE`, after `IGNORE`. -/
inductive Mode | body | head | incl | ign
  deriving DecidableEq, Repr

/-- One token of the reference scanner: mode, and number of INCLUDE sections open (an integer: it
would go negative on a surplus `]]>`). -/
def scan (e : Enc) (m : Mode × Int) (x : Tok × Buf) : Mode × Int :=
  match m.1, x.1 with
  | .body, .COND_SECT_OPEN => (.head, m.2)
  | .body, .COND_SECT_CLOSE => (.body, m.2 - 1)
  | .head, .NAME =>
    if nameMatchesAscii e x.2 kwINCLUDE then (.incl, m.2)
    else if nameMatchesAscii e x.2 kwIGNORE then (.ign, m.2) else m
  | .incl, .OPEN_BRACKET => (.body, m.2 + 1)
  | .ign, .OPEN_BRACKET => (.body, m.2)
  | _, _ => m

/-- Mode and depth after the tokens `ts` of an external subset. -/
def sections (e : Enc) (ts : List (Tok × Buf)) : Mode × Int := ts.foldl (scan e) (.body, 0)

def modeOf : Hd → Mode
  | .condSect0 => .head
  | .condSect1 => .incl
  | .condSect2 => .ign
  | _ => .body

/-- Handlers in force in an external subset. -/
def extHd : Hd → Bool
  | .prolog0 | .prolog1 | .prolog2 | .doctype0 | .doctype1 | .doctype2 | .doctype3 | .doctype4 | .doctype5
  | .internalSubset | .error => false
  | _ => true

def noErr : Role → Bool
  | .ERROR => false
  | _ => true

/-- Machine state against scanner state. -/
structure Rel (s : PState) (m : Mode × Int) (n : Nat) : Prop where
  de : s.documentEntity = false
  hd : extHd s.h = true
  mode : m.1 = modeOf s.h
  depth : m.2 = s.includeLevel.toNat
  bound : s.includeLevel.toNat ≤ n

theorem handle_ext {e : Enc} {s s' : PState} {t : Tok} {b : Buf} {r : Role}
    (hd : s.documentEntity = false) (hh : extHd s.h = true)
    (h : s.handle e t b = some (s', r)) (hs : s.h ≠ .externalSubset0) (hs1 : s.h ≠ .externalSubset1)
    (hc0 : s.h ≠ .condSect0) (hc1 : s.h ≠ .condSect1) (hc2 : s.h ≠ .condSect2) :
    extHd s'.h = true ∧ modeOf s'.h = .body ∧ s'.includeLevel = s.includeLevel ∧ s'.documentEntity = false ∧
      t ≠ .COND_SECT_OPEN ∧ t ≠ .COND_SECT_CLOSE ∧ t ≠ .NONE := by
  obtain ⟨q, lv, rn, il, de, iv⟩ := s
  unfold handle at h
  cases q <;>
  simp only [internalSubset, entity0, entity1, entity2, entity3, entity4,
    entity5, entity6, entity7, entity8, entity9, entity10, notation0, notation1, notation2, notation3,
    notation4, attlist0, attlist1, attlist2, attlist3, attlist4, attlist5, attlist6, attlist7,
    attlist8, attlist9, element0, element1, element2, element3, element4, element5, element6,
    element7, declClose, go, stay, top, close, closeGroup] at h <;>
  (try (exfalso; simp [extHd] at hh; done)) <;>
  (try (exfalso; simp at hs; done)) <;>
  (try (exfalso; simp at hs1; done)) <;>
  (try (exfalso; simp at hc0; done)) <;>
  (try (exfalso; simp at hc1; done)) <;>
  (try (exfalso; simp at hc2; done)) <;>
  (repeat' split at h) <;> simp only [Option.some.injEq, Prod.mk.injEq, reduceCtorEq] at h <;>
  (try (obtain ⟨rfl, rfl⟩ := h)) <;> simp_all [extHd, modeOf]

theorem scan_body {e : Enc} {d : Int} {x : Tok × Buf} (h1 : x.1 ≠ .COND_SECT_OPEN)
    (h2 : x.1 ≠ .COND_SECT_CLOSE) : scan e (.body, d) x = (.body, d) := by
  simp only [scan]
  split <;> simp_all

theorem toNat_succ {x : UInt32} {n : Nat} (h : x.toNat ≤ n) (hn : n < 2 ^ 32 - 1) :
    (x + 1).toNat = x.toNat + 1 := by
  rw [UInt32.toNat_add]
  have : (1 : UInt32).toNat = 1 := rfl
  rw [this]
  omega

theorem toNat_pred {x : UInt32} (h : x ≠ 0) : (x - 1).toNat = x.toNat - 1 := by
  have h0 : x.toNat ≠ 0 := fun h0 => h (UInt32.toNat_inj.1 (by simpa using h0))
  rw [UInt32.toNat_sub_of_le _ _ (by rw [UInt32.le_iff_toNat_le]; simp; omega)]
  rfl

theorem subset1_step {e : Enc} {s s' : PState} {t : Tok} {b : Buf} {r : Role} {m : Mode × Int} {n : Nat}
    (hn : n < 2 ^ 32 - 1) (hr : Rel s m n) (hh : s.h = .externalSubset1)
    (h : externalSubset1 e s t b = some (s', r)) :
    Rel s' (scan e m (t, b)) (n + 1) ∧ (t = .COND_SECT_CLOSE → 0 < m.2) ∧ (t = .NONE → m = (.body, 0)) := by
  obtain ⟨md, d⟩ := m
  have h1 := hr.de
  have h2 := hr.mode
  have h3 := hr.depth
  have h4 := hr.bound
  simp only [hh, modeOf] at h2 h3
  subst h2
  simp only [externalSubset1, go, stay] at h
  split at h
  · simp only [Option.some.injEq, Prod.mk.injEq] at h
    obtain ⟨rfl, rfl⟩ := h
    exact ⟨⟨h1, rfl, rfl, h3, by simpa using by omega⟩, by simp, by simp⟩
  · split at h
    · rename_i hz'
      simp only [Option.some.injEq, Prod.mk.injEq] at h
      obtain ⟨rfl, rfl⟩ := h
      have h0 : s.includeLevel.toNat ≠ 0 := fun h0 => hz' (UInt32.toNat_inj.1 (by simpa using h0))
      refine ⟨⟨h1, by simp [hh, extHd], by simp [hh, modeOf, scan], ?_, ?_⟩, fun _ => ?_, by simp⟩
      · simp only [scan, toNat_pred hz']; omega
      · simp only [toNat_pred hz']; omega
      · simp only; omega
    · cases h
  · simp only [Option.some.injEq, Prod.mk.injEq] at h
    obtain ⟨rfl, rfl⟩ := h
    exact ⟨⟨h1, by simp [hh, extHd], by simp [hh, modeOf, scan], by simpa [scan] using h3, by omega⟩, by simp, by simp⟩
  · cases h
  · split at h
    · rename_i hz
      simp only [Option.some.injEq, Prod.mk.injEq] at h
      obtain ⟨rfl, rfl⟩ := h
      refine ⟨⟨h1, by simp [hh, extHd], by simp [hh, modeOf, scan], by simpa [scan] using h3, by omega⟩, by simp,
        fun _ => ?_⟩
      rw [h3, hz]; rfl
    · cases h
  · rename_i t' g1 g2 g3 g4 g5
    have hx : extHd s'.h = true ∧ modeOf s'.h = .body ∧ s'.includeLevel = s.includeLevel ∧
        s'.documentEntity = false := by
      simp only [internalSubset, go, stay] at h
      (repeat' split at h) <;> simp only [Option.some.injEq, Prod.mk.injEq, reduceCtorEq] at h <;>
        (try (obtain ⟨rfl, rfl⟩ := h)) <;> simp_all [extHd, modeOf]
    rw [scan_body g1 g2]
    exact ⟨⟨hx.2.2.2, hx.1, hx.2.1.symm, by simp [h3, hx.2.2.1], by rw [hx.2.2.1]; omega⟩, fun h => absurd h g2,
      fun h => absurd h g5⟩

theorem step {e : Enc} {s : PState} {t : Tok} {b : Buf} {m : Mode × Int} {n : Nat}
    (hn : n < 2 ^ 32 - 1) (hr : Rel s m n) (h : (s.next e t b).2 ≠ .ERROR) :
    Rel (s.next e t b).1 (scan e m (t, b)) (n + 1) ∧ (t = .COND_SECT_CLOSE → m.1 = .body ∧ 0 < m.2) ∧
      (t = .NONE → m = (.body, 0)) := by
  obtain ⟨md, d⟩ := m
  have h1 := hr.de
  have h2 := hr.mode
  have h3 := hr.depth
  have h4 := hr.bound
  simp only at h2 h3
  cases hq : s.handle e t b with
  | none =>
    rw [PState.next, hq, Option.getD_none, common] at h ⊢
    split at h
    · rename_i hc
      rw [if_pos hc]
      simp only [Bool.and_eq_true, beq_iff_eq] at hc
      have ht := hc.2
      subst ht
      have : scan e (md, d) (.PARAM_ENTITY_REF, b) = (md, d) := by cases md <;> rfl
      rw [this]
      refine ⟨?_, by simp, by simp⟩
      unfold PState.fall
      split
      · rename_i hh
        rw [hh] at h2
        exact ⟨h1, rfl, h2, h3, by simpa using by omega⟩
      · exact ⟨h1, hr.hd, h2, h3, Nat.le_succ_of_le h4⟩
    · exact absurd rfl h
  | some y =>
    obtain ⟨s', r⟩ := y
    have hnx : s.next e t b = (s', r) := by rw [PState.next, hq, Option.getD_some]
    rw [hnx]
    by_cases c0 : s.h = .externalSubset0
    · simp only [handle, c0, externalSubset0] at hq
      split at hq
      · rename_i ht
        subst ht
        simp only [go, Option.some.injEq, Prod.mk.injEq] at hq
        obtain ⟨rfl, rfl⟩ := hq
        rw [c0] at h2
        subst h2
        exact ⟨⟨h1, rfl, rfl, h3, by simpa using by omega⟩, by simp, by simp⟩
      · have hr' : Rel { s with h := .externalSubset1 } (md, d) n :=
          ⟨h1, rfl, by rw [c0] at h2; exact h2, h3, h4⟩
        have := subset1_step hn hr' rfl hq
        rw [c0] at h2
        exact ⟨this.1, fun h => ⟨h2, this.2.1 h⟩, this.2.2⟩
    · by_cases c1 : s.h = .externalSubset1
      · simp only [handle, c1] at hq
        have := subset1_step hn hr c1 hq
        rw [c1] at h2
        exact ⟨this.1, fun h => ⟨h2, this.2.1 h⟩, this.2.2⟩
      · by_cases c2 : s.h = .condSect0
        · rw [c2] at h2
          subst h2
          simp only [handle, c2, condSect0, go, stay] at hq
          (repeat' split at hq) <;> simp only [Option.some.injEq, Prod.mk.injEq, reduceCtorEq] at hq <;>
          (try (obtain ⟨rfl, rfl⟩ := hq)) <;>
          refine ⟨⟨h1, ?_, ?_, ?_, ?_⟩, ?_, ?_⟩ <;> simp_all [extHd, modeOf, scan] <;> omega
        · by_cases c3 : s.h = .condSect1
          · rw [c3] at h2
            subst h2
            simp only [handle, c3, condSect1, go, stay] at hq
            (repeat' split at hq) <;> simp only [Option.some.injEq, Prod.mk.injEq, reduceCtorEq] at hq <;>
            (try (obtain ⟨rfl, rfl⟩ := hq)) <;>
            refine ⟨⟨h1, ?_, ?_, ?_, ?_⟩, ?_, ?_⟩ <;>
            simp_all [extHd, modeOf, scan, toNat_succ h4 hn, -UInt32.toNat_add] <;> omega
          · by_cases c4 : s.h = .condSect2
            · rw [c4] at h2
              subst h2
              simp only [handle, c4, condSect2, go, stay] at hq
              (repeat' split at hq) <;> simp only [Option.some.injEq, Prod.mk.injEq, reduceCtorEq] at hq <;>
              (try (obtain ⟨rfl, rfl⟩ := hq)) <;>
              refine ⟨⟨h1, ?_, ?_, ?_, ?_⟩, ?_, ?_⟩ <;> simp_all [extHd, modeOf, scan] <;> omega
            · have hb : modeOf s.h = .body := by
                cases hh : s.h <;> simp_all [modeOf]
              rw [hb] at h2
              subst h2
              obtain ⟨k1, k2, k3, k4, k5, k6, k7⟩ := handle_ext h1 hr.hd hq c0 c1 c2 c3 c4
              rw [scan_body k5 k6]
              exact ⟨⟨k4, k1, k2.symm, by simp [h3, k3], by rw [k3]; omega⟩, fun h => absurd h k6, fun h => absurd h k7⟩

theorem run_rel {e : Enc} {s : PState} {m : Mode × Int} {n : Nat} (ts : List (Tok × Buf))
    (hn : n + ts.length < 2 ^ 32 - 1) (hr : Rel s m n) (h : .ERROR ∉ (s.run e ts).2) :
    Rel (s.run e ts).1 (ts.foldl (scan e) m) (n + ts.length) := by
  induction ts generalizing s m n with
  | nil => exact hr
  | cons x ts ih =>
    obtain ⟨t, b⟩ := x
    simp only [run, List.mem_cons, not_or] at h ⊢
    simp only [List.length_cons] at hn
    have := (step (by omega) hr (Ne.symm h.1)).1
    have := ih (by omega) this h.2
    simpa [Nat.add_assoc, Nat.add_comm 1] using this

theorem init_rel : Rel PState.initExternal (.body, 0) 0 := ⟨rfl, rfl, rfl, rfl, by decide⟩

/-- **C24.**  In every accepted token sequence of an external subset, each `]]>` closes an INCLUDE
section opened before it, at every point; and the parser's nesting counter is the number of
sections open (for any depth: the sequence is only required to have fewer than 2³²−1 tokens). -/
theorem close_matches {e : Enc} (pre post : List (Tok × Buf)) (b : Buf)
    (hn : (pre ++ (Tok.COND_SECT_CLOSE, b) :: post).length < 2 ^ 32 - 1)
    (h : .ERROR ∉ (PState.initExternal.run e (pre ++ (.COND_SECT_CLOSE, b) :: post)).2) :
    (sections e pre).1 = .body ∧ 0 < (sections e pre).2 := by
  simp only [List.length_append, List.length_cons] at hn
  rw [C21.run_append] at h
  simp only [run, List.mem_append, List.mem_cons, not_or] at h
  have hr := run_rel pre (by omega) init_rel h.1
  exact (step (by omega) hr (Ne.symm h.2.1)).2.1 rfl

/-- The depth is never negative, and it is what the machine's counter holds. -/
theorem depth_counter {e : Enc} (ts : List (Tok × Buf)) (hn : ts.length < 2 ^ 32 - 1)
    (h : .ERROR ∉ (PState.initExternal.run e ts).2) :
    (sections e ts).2 = (PState.initExternal.run e ts).1.includeLevel.toNat :=
  (run_rel ts (by omega) init_rel h).depth

/-- The end of the entity is only accepted outside all sections (and section heads). -/
theorem end_outside {e : Enc} (ts : List (Tok × Buf)) (b : Buf) (hn : ts.length < 2 ^ 32 - 1)
    (h : .ERROR ∉ (PState.initExternal.run e (ts ++ [(.NONE, b)])).2) : sections e ts = (.body, 0) := by
  rw [C21.run_append] at h
  simp only [run, List.mem_append, List.mem_cons, not_or] at h
  have hr := run_rel ts (by omega) init_rel h.1
  exact (step (by omega) hr (Ne.symm h.2.1)).2.2 rfl

/-! ### Nesting to any depth -/

/-- The head `<![INCLUDE[`. -/
def opening (kw : Buf) : List (Tok × Buf) := [(.COND_SECT_OPEN, []), (.NAME, kw), (.OPEN_BRACKET, [])]

/-- `n` nested INCLUDE sections around `ts`. -/
def nest (kw : Buf) (ts : List (Tok × Buf)) : Nat → List (Tok × Buf)
  | 0 => ts
  | n + 1 => opening kw ++ (nest kw ts n ++ [(.COND_SECT_CLOSE, [])])

theorem run_opening {e : Enc} {s : PState} {kw : Buf} (hk : nameMatchesAscii e kw kwINCLUDE = true)
    (hs : s.h = .externalSubset1) :
    s.run e (opening kw) = ({ s with includeLevel := s.includeLevel + 1 }, [.NONE, .NONE, .NONE]) := by
  obtain ⟨q, lv, rn, il, de, iv⟩ := s
  simp only at hs
  subst hs
  simp [opening, run, PState.next, handle, externalSubset1, condSect0, condSect1, go, hk]

/-- INCLUDE sections nest to any depth (below 2³²): what is accepted between declarations of the
external subset is accepted inside any number of nested sections, with the same effect. -/
theorem nests {e : Enc} {s : PState} {kw : Buf} (hk : nameMatchesAscii e kw kwINCLUDE = true)
    (hs : s.h = .externalSubset1) (ts : List (Tok × Buf)) (n : Nat)
    (hn : s.includeLevel.toNat + n < 2 ^ 32)
    (h : ∀ l : UInt32, ({ s with includeLevel := l }.run e ts).1 = { s with includeLevel := l } ∧
      .ERROR ∉ ({ s with includeLevel := l }.run e ts).2) :
    (s.run e (nest kw ts n)).1 = s ∧ .ERROR ∉ (s.run e (nest kw ts n)).2 := by
  induction n generalizing s with
  | zero => exact h s.includeLevel
  | succ n ih =>
    simp only [nest, C21.run_append, run_opening hk hs]
    have hs' : ({ s with includeLevel := s.includeLevel + 1 } : PState).h = .externalSubset1 := hs
    have h1 : (s.includeLevel + 1).toNat = s.includeLevel.toNat + 1 :=
      toNat_succ (Nat.le_refl _) (by omega)
    have := ih hs' (by simp only [h1]; omega) h
    rw [this.1]
    have hne : s.includeLevel + 1 ≠ 0 := by
      intro h0; rw [h0] at h1; simp at h1
    have h2 : s.includeLevel + 1 - 1 = s.includeLevel :=
      UInt32.toNat_inj.1 (by rw [toNat_pred hne, h1]; omega)
    obtain ⟨q, lv, rn, il, de, iv⟩ := s
    simp only at hs
    subst hs
    simp only at hne h2
    simp [run, PState.next, handle, externalSubset1, hne, h2, this.2]

/-- A section inside a section, accepted; and a surplus `]]>`, rejected. -/
example : .ERROR ∉ (PState.initExternal.run (utf8Enc false)
    (nest [0x49, 0x4E, 0x43, 0x4C, 0x55, 0x44, 0x45] [(.PROLOG_S, [])] 2 ++ [(.NONE, [])])).2 := by decide +kernel
example : .ERROR ∈ (PState.initExternal.run (utf8Enc false)
    (nest [0x49, 0x4E, 0x43, 0x4C, 0x55, 0x44, 0x45] [(.PROLOG_S, [])] 2 ++ [(.COND_SECT_CLOSE, [])])).2 := by
  decide +kernel

end Verif.C24
