import Verif.Prolog

/-!
# Which roles occur in which state of the grammar machine
-/

set_option autoImplicit false

namespace Verif
open PState

/-- The states of the grammar machine in which the name of a declared entity has been read and the
declaration is not yet complete, and the states before the end of the DOCTYPE's identifiers. -/
def Hd.mid : Hd → Bool
  | .entity2 | .entity3 | .entity4 | .entity5 | .entity6 | .entity7 | .entity8 | .entity9 | .entity10
  | .prolog0 | .prolog1 | .doctype0 | .doctype1 | .doctype2 | .doctype3 => true
  | _ => false

/-- Those for a general entity. -/
def Hd.gmid : Hd → Bool
  | .entity2 | .entity3 | .entity4 | .entity5 | .entity6 => true
  | _ => false

/-- Roles that change the entity being declared. -/
def Role.sets : Role → Bool
  | .ENTITY_VALUE | .ENTITY_PUBLIC_ID | .ENTITY_SYSTEM_ID | .ENTITY_COMPLETE | .ENTITY_NOTATION_NAME
  | .DOCTYPE_PUBLIC_ID | .DOCTYPE_SYSTEM_ID => true
  | _ => false

/-- Roles that report the entity being declared. -/
def Role.reports : Role → Bool
  | .ENTITY_VALUE | .ENTITY_COMPLETE | .ENTITY_NOTATION_NAME => true
  | _ => false

def Role.names : Role → Bool
  | .GENERAL_ENTITY_NAME | .PARAM_ENTITY_NAME => true
  | _ => false

/-- What `role_none` can be. -/
def Role.none_ : Role → Bool
  | .NONE | .DOCTYPE_NONE | .ENTITY_NONE | .NOTATION_NONE | .ATTLIST_NONE | .ELEMENT_NONE => true
  | _ => false

structure NextFacts (p p' : PState) (r : Role) : Prop where
  none_ : p'.roleNone.none_ = true
  sets : r.sets = true → p.h.mid = true
  reports : r.reports = true → p'.h.mid = false
  stays : p'.h.mid = true → r.names = true ∨ p.h.mid = true
  gstays : p'.h.gmid = true → r = .GENERAL_ENTITY_NAME ∨ p.h.gmid = true
  notat : r = .ENTITY_NOTATION_NAME → p.h.gmid = true
  doc : r = .DOCTYPE_PUBLIC_ID ∨ r = .DOCTYPE_SYSTEM_ID → p'.h.gmid = false
  par : r = .PARAM_ENTITY_NAME → p'.h.gmid = false
  documentEntity : p'.documentEntity = p.documentEntity

/-- `role_none` is none of the roles that matter. -/
theorem Role.none_cases {r : Role} (h : r.none_ = true) :
    r.sets = false ∧ r.reports = false ∧ r.names = false ∧ r ≠ .ENTITY_NOTATION_NAME ∧
      r ≠ .DOCTYPE_PUBLIC_ID ∧ r ≠ .DOCTYPE_SYSTEM_ID ∧ r ≠ .GENERAL_ENTITY_NAME ∧ r ≠ .PARAM_ENTITY_NAME := by
  cases r <;> first | (simp [Role.none_] at h; done) | decide

theorem handle_facts {e : Enc} {p : PState} {t : Tok} {b : Buf} (hn : p.roleNone.none_ = true)
    (q : PState × Role) (hq : p.handle e t b = some q) : NextFacts p q.1 q.2 := by
  obtain ⟨h, lv, rn, il, de, iv⟩ := p
  simp only at hn
  obtain ⟨h1, h2, h3, h4, h5, h6, h7, h8⟩ := Role.none_cases hn
  revert hq
  unfold handle
  cases h <;>
  simp only [prolog0, prolog1, prolog2, doctype0, doctype1, doctype2, doctype3, doctype4, doctype5,
    internalSubset, externalSubset0, externalSubset1, entity0, entity1, entity2, entity3, entity4,
    entity5, entity6, entity7, entity8, entity9, entity10, notation0, notation1, notation2, notation3,
    notation4, attlist0, attlist1, attlist2, attlist3, attlist4, attlist5, attlist6, attlist7,
    attlist8, attlist9, element0, element1, element2, element3, element4, element5, element6,
    element7, condSect0, condSect1, condSect2, declClose, go, stay, top, close, closeGroup] <;>
  intro hq <;>
  (repeat' split at hq) <;>
  first
  | (cases hq; done)
  | (cases hq
     constructor <;>
      first
      | exact hn
      | (intro hh; simp only [h1, h2] at hh; cases hh; done)
      | (simp [Hd.mid, Hd.gmid, Role.sets, Role.reports, Role.names, Role.none_, h1, h2, h3, h4, h5, h6, h7, h8]; done)
      | (split <;> simp [Hd.mid, Hd.gmid]))

theorem next_facts {e : Enc} {p : PState} {t : Tok} {b : Buf} (hn : p.roleNone.none_ = true) :
    NextFacts p (p.next e t b).1 (p.next e t b).2 := by
  unfold PState.next
  cases hq : p.handle e t b with
  | some q => exact handle_facts hn q hq
  | none =>
    simp only [Option.getD_none]
    obtain ⟨h, lv, rn, il, de, iv⟩ := p
    unfold common fall
    constructor <;> cases h <;> simp only [] <;> (repeat' split) <;>
      simp_all [Hd.mid, Hd.gmid, Role.sets, Role.reports, Role.names, Role.none_]

/-- At the end of an entity no name is read. -/
theorem next_end_names {e : Enc} {p : PState} {b : Buf} (hn : p.roleNone.none_ = true) :
    (p.next e .NONE b).2.names = false := by
  obtain ⟨h, lv, rn, il, de, iv⟩ := p
  simp only at hn
  obtain ⟨h1, h2, h3, h4, h5, h6, h7, h8⟩ := Role.none_cases hn
  unfold PState.next handle
  cases h <;>
  simp only [prolog0, prolog1, prolog2, doctype0, doctype1, doctype2, doctype3, doctype4, doctype5,
    internalSubset, externalSubset0, externalSubset1, entity0, entity1, entity2, entity3, entity4,
    entity5, entity6, entity7, entity8, entity9, entity10, notation0, notation1, notation2, notation3,
    notation4, attlist0, attlist1, attlist2, attlist3, attlist4, attlist5, attlist6, attlist7,
    attlist8, attlist9, element0, element1, element2, element3, element4, element5, element6,
    element7, condSect0, condSect1, condSect2, declClose, go, stay, top, close, closeGroup,
    common, fall, Option.getD_some, Option.getD_none] <;>
  first | rfl | exact h3 | (cases de <;> first | rfl | exact h3) | ((repeat' split) <;> first | rfl | exact h3 | (cases de <;> rfl))

end Verif
