import Verif.Props.C63

/-! # C64: handlers do not influence each other

Two parsers that differ only in the handlers that are set accept the same documents, and a handler that is set in
both is told the same by both, in the same order. -/

set_option autoImplicit false

namespace Verif.C64
open C43 C53 C59 C60 Spec Verif PState

/-- The same settings, apart from handlers.  (The handlers for unknown encodings, for documents that are not standalone, and what the
external entity handler answers, count as settings; so does the handler for unparsed entities, since without it the entity
declaration handler takes over its calls.) -/
structure Alike (c c' : PCfg) : Prop where
  content : full c.c = full c'.c
  int : c.int = c'.int
  isPE : c.isPE = c'.isPE
  child : c.child = c'.child
  base : c.base = c'.base
  notStandalone : c.notStandalone = c'.notStandalone
  unparsed : c.unparsed = c'.unparsed
  unknown : c.unknown = c'.unknown
  protocol : c.protocol = c'.protocol

theorem Alike.ns {c c' : PCfg} (h : Alike c c') : c.c.ns = c'.c.ns := by
  have : (full c.c).ns = (full c'.c).ns := by rw [h.content]
  exact this

theorem Alike.symm {c c' : PCfg} (h : Alike c c') : Alike c' c :=
  ⟨h.1.symm, h.2.symm, h.3.symm, h.4.symm, h.5.symm, h.6.symm, h.7.symm, h.8.symm, h.9.symm⟩

/-- There is a handler for this call. -/
def told (c : PCfg) : PEv → Bool
  | .ev v => wants c.c v
  | .startDoctype .. => c.startDoctype
  | .endDoctype => c.endDoctype
  | .entityDecl .. => c.entityDecl
  | .unparsed .. => c.unparsed
  | .notationDecl .. => c.notationDecl
  | .attlistDecl .. => c.attlistDecl
  | .elementDecl .. => c.elementDecl
  | .extRef .. => c.c.externalRef
  | .xmlDecl _ => c.xmlDecl
  | .notStandalone => c.notStandalone.isSome

def toldSaid (c : PCfg) : Said → Bool
  | .call v => told c v
  | .model .. => c.elementDecl

/-- What the handlers set in both are told is the same. -/
def Agree (c c' : PCfg) (A A' : List Said) : Prop := A.filter (toldSaid c') = A'.filter (toldSaid c)

section
variable {c c' : PCfg}

theorem Agree.nil : Agree c c' [] [] := rfl

theorem Agree.app {A A' B B' : List Said} (h : Agree c c' A A') (h2 : Agree c c' B B') : Agree c c' (A ++ B) (A' ++ B') := by
  unfold Agree at *
  rw [List.filter_append, List.filter_append, h, h2]

/-- A call made if there is a handler. -/
theorem Agree.one {b b' : Bool} {s : Said} (h : toldSaid c s = b) (h' : toldSaid c' s = b') :
    Agree c c' (if b then [s] else []) (if b' then [s] else []) := by
  unfold Agree
  cases b <;> cases b' <;> simp [h, h']

theorem calls_if (b : Bool) (v : PEv) : calls (if b then [v] else []) = if b then [.call v] else [] := by cases b <;> rfl

theorem calls_append (E F : List PEv) : calls (E ++ F) = calls E ++ calls F := by simp [calls]

theorem Agree.call {b b' : Bool} {v : PEv} (h : told c v = b) (h' : told c' v = b') :
    Agree c c' (calls (if b then [v] else [])) (calls (if b' then [v] else [])) := by
  rw [calls_if, calls_if]
  exact .one (s := .call v) h h'

end

theorem Agree.both {c c' : PCfg} {a b b' : Bool} {v : PEv} (h : told c v = b) (h' : told c' v = b') :
    Agree c c' (calls (if a && b then [v] else [])) (calls (if a && b' then [v] else [])) := by
  cases a
  · exact rfl
  · exact .call h h'

/-- Two readings of the same text with different handlers; parameter entities are not read. -/
structure Twins (k k' : Ctx) : Prop where
  alike : Alike k.c k'.c
  internal : k.internal = k'.internal
  doc : k.doc = k'.doc
  x : k.x = k'.x
  asc : k.asc = k'.asc
  opened : k.opened = k'.opened
  pe : k.pe = .never ∧ k'.pe = .never

section
variable {k k' : Ctx} (T : Twins k k')
include T

theorem twin_entityDef {D : DTab} {p : Bool} {w : Buf} {d : EntityDef} (h : EntityDefText k D p w d) : EntityDefText k' D p w d := by
  cases h with
  | value _ q ws v h1 h2 =>
    rw [T.asc]
    rw [T.asc, T.x] at h1
    refine .value _ q ws v h1 ?_
    rw [← T.alike.int, ← T.x, ← T.asc, ← T.alike.isPE, ← T.internal, ← T.opened]
    exact h2
  | external _ _ pub sys h1 => rw [T.asc, T.x] at h1; exact .external _ _ _ _ h1
  | unparsed w pub sys sp1 sp2 name h1 h2 h3 h4 =>
    rw [T.asc, T.x]
    rw [T.asc, T.x] at h1
    rw [T.x] at h4
    exact .unparsed _ _ _ _ _ _ h1 h2 h3 h4

theorem twin_default {D : DTab} {cd : Bool} {w : Buf} {v : Option Buf} {r : Bool} (h : DefaultText k D cd w v r) : DefaultText k' D cd w v r := by
  have hv {b v : Buf} (h : DefaultValue k D cd b v) : DefaultValue k' D cd b v := by
    obtain ⟨out, h1, h2⟩ := h
    refine ⟨out, ?_, h2⟩
    rw [show k'.must D = k.must D by rw [Ctx.must, Ctx.must, T.doc, T.internal], ← T.alike.int, ← T.x, ← T.asc]
    exact h1
  cases h with
  | implied => rw [T.asc]; exact .implied
  | required => rw [T.asc]; exact .required
  | value q ws v h1 h2 => rw [T.asc]; rw [T.asc, T.x] at h1; exact .value q ws v h1 fun hk => hv (h2 hk)
  | fixed sp q ws v h0 h1 h2 => rw [T.asc]; rw [T.asc, T.x] at h1; exact .fixed sp q ws v h0 h1 fun hk => hv (h2 hk)

theorem twin_attDefs {elem : Buf} {D D' : DTab} {w : Buf} {E : List PEv} (h : AttDefs k elem D w E D') :
    ∃ E', AttDefs k' elem D w E' D' ∧ Agree k.c k'.c (calls E) (calls E') := by
  induction h with
  | nil D => exact ⟨[], .nil D, rfl⟩
  | cons h1 _ ih =>
    obtain ⟨E2, g1, g2⟩ := ih
    cases h1 with
    | mk sp1 sp2 sp3 name type dflt isCdata isId ty value req h1 h2 h3 h4 h5 h6 =>
      rw [T.asc, T.x] at h2 h4
      refine ⟨_, .cons (D' := if _ then addAtt k'.c.c.ns _ elem (converted k'.x name.flatten) isCdata isId value else _) (by
        rw [T.asc]; exact .mk sp1 sp2 sp3 name type dflt isCdata isId ty value req h1 h2 h3 h4 h5 (twin_default T h6)) (by
        rw [← T.alike.ns, ← T.x]; exact g1), ?_⟩
      rw [calls_append, calls_append]
      refine .app ?_ g2
      rw [← T.x]
      exact .both (v := .attlistDecl ..) rfl rfl

theorem twin_decl {D D' : DTab} {w : Buf} {A : List Said} (h : Decl k D w A D') : ∃ A', Decl k' D w A' D' ∧ Agree k.c k'.c A A' := by
  have hrep (d : EntityDef) (p : Bool) (n : Buf) : Agree k.c k'.c (calls (d.report k p n)) (calls (d.report k' p n)) := by
    cases d with
    | value v => simp only [EntityDef.report, ← T.alike.base]; exact .call rfl rfl
    | external pub sys => simp only [EntityDef.report, ← T.alike.base]; exact .call rfl rfl
    | unparsed pub sys m =>
      simp only [EntityDef.report, ← T.alike.base, ← T.alike.unparsed]
      cases hu : k.c.unparsed with
      | true => exact .call (b := true) (b' := true) (by simp [told, hu]) (by simp [told, ← T.alike.unparsed, hu])
      | false => exact .call rfl rfl
  have hent (d : EntityDef) : d.entity k' = d.entity k := by
    cases d <;> simp only [EntityDef.entity, ← T.alike.base, ← T.alike.child, ← T.internal]
  have hc (D : DTab) (p : Bool) (n : Buf) : Counts k' D p n ↔ Counts k D p n := by
    rw [Counts, Counts, T.x, T.asc]
  have hask : Agree k.c k'.c (calls (asked k D)) (calls (asked k' D)) := by
    have : asked k' D = asked k D := by rw [asked, asked, T.alike.notStandalone]
    rw [this, asked]
    split
    · rename_i h
      have h' := h.2
      rw [T.alike.notStandalone] at h'
      simp [Agree, calls, toldSaid, told, h.2, h']
    · rfl
  have hall (D : DTab) (h : Allowed k D) : Allowed k' D := by rw [Allowed, ← T.alike.notStandalone]; exact h
  cases h with
  | space d h => rw [T.asc]; exact ⟨_, .space d h, rfl⟩
  | comment ws h =>
    rw [T.asc, T.x] at h
    rw [T.asc, T.x]
    exact ⟨_, .comment ws h, .call rfl rfl⟩
  | pi target sp ws h =>
    rw [T.asc, T.x] at h
    rw [T.asc, T.x]
    exact ⟨_, .pi target sp ws h, .call rfl rfl⟩
  | entity sp1 name sp2 w d sp3 h1 h2 h3 h4 h5 E D' h6 h7 =>
    by_cases hC : Counts k D false name.flatten
    · obtain ⟨rfl, rfl⟩ := h6 hC
      rw [T.x] at h2
      refine ⟨calls (d.report k' false (converted k'.x name.flatten)), ?_, by rw [T.x]; exact hrep _ _ _⟩
      rw [T.asc]
      refine .entity sp1 name sp2 w d sp3 h1 h2 h3 (twin_entityDef T h4) h5 _ _ (fun _ => ⟨rfl, ?_⟩) (fun h => (h ((hc _ _ _).2 hC)).elim)
      rw [hent, T.x]
    · obtain ⟨rfl, rfl⟩ := h7 hC
      rw [T.x] at h2
      refine ⟨[], ?_, rfl⟩
      rw [T.asc]
      exact .entity sp1 name sp2 w d sp3 h1 h2 h3 (twin_entityDef T h4) h5 [] _ (fun h => (hC ((hc _ _ _).1 h)).elim) (fun _ => ⟨rfl, rfl⟩)
  | paramEntity sp0 sp1 name sp2 w d sp3 h0 h1 h2 h3 h4 h5 E D' h6 h7 =>
    by_cases hC : Counts k D true name.flatten
    · obtain ⟨rfl, rfl⟩ := h6 hC
      rw [T.x] at h2
      refine ⟨calls (d.report k' true (converted k'.x name.flatten)), ?_, by rw [T.x]; exact hrep _ _ _⟩
      rw [T.asc]
      refine .paramEntity sp0 sp1 name sp2 w d sp3 h0 h1 h2 h3 (twin_entityDef T h4) h5 _ _ (fun _ => ⟨rfl, ?_⟩) (fun h => (h ((hc _ _ _).2 hC)).elim)
      rw [hent, T.x]
    · obtain ⟨rfl, rfl⟩ := h7 hC
      rw [T.x] at h2
      refine ⟨[], ?_, rfl⟩
      rw [T.asc]
      exact .paramEntity sp0 sp1 name sp2 w d sp3 h0 h1 h2 h3 (twin_entityDef T h4) h5 [] _ (fun h => (hC ((hc _ _ _).1 h)).elim) (fun _ => ⟨rfl, rfl⟩)
  | notation_ sp1 name sp2 w pub sys sp3 h1 h2 h3 h4 h5 =>
    rw [T.asc, T.x] at h4
    rw [T.x] at h2
    rw [T.asc, T.x, T.alike.base]
    exact ⟨_, .notation_ sp1 name sp2 w pub sys sp3 h1 h2 h3 h4 h5, .call rfl rfl⟩
  | attlist sp1 name w sp2 E D' h1 h2 h3 h4 =>
    obtain ⟨E', g1, g2⟩ := twin_attDefs T h3
    rw [T.asc, T.x] at h2
    rw [T.asc]
    rw [T.x] at g1
    exact ⟨_, .attlist sp1 name w sp2 E' D' h1 h2 g1 h4, g2⟩
  | element sp1 name sp2 m w sp3 h1 h2 h3 h4 h5 h6 =>
    rw [T.asc, T.x] at h2 h4
    rw [T.asc, T.x]
    exact ⟨_, .element sp1 name sp2 m w sp3 h1 h2 h3 h4 h5 h6, .one rfl rfl⟩
  | refUnread name h1 h2 h3 =>
    rw [T.x] at h1
    rw [T.asc]
    exact ⟨_, .refUnread name h1 T.pe.2 (hall _ h3), hask⟩
  | refUnknown name h1 h2 h3 h4 => exact (h2 T.pe.1).elim
  | refExternal name ent h1 h2 => exact (h2 T.pe.1).elim

theorem twin_miscs {w : Buf} {E : List PEv} (h : Miscs k w E) : ∃ E', Miscs k' w E' ∧ Agree k.c k'.c (calls E) (calls E') := by
  induction h with
  | nil => exact ⟨[], .nil, rfl⟩
  | space d h _ ih =>
    obtain ⟨E', g1, g2⟩ := ih
    rw [T.asc]
    exact ⟨E', .space d h g1, g2⟩
  | comment ws h _ ih =>
    obtain ⟨E', g1, g2⟩ := ih
    rw [T.asc, T.x] at h
    rw [T.asc, T.x]
    refine ⟨_, .comment ws h g1, ?_⟩
    rw [calls_append, calls_append]
    exact .app (.call rfl rfl) g2
  | pi target sp ws h _ ih =>
    obtain ⟨E', g1, g2⟩ := ih
    rw [T.asc, T.x] at h
    rw [T.asc, T.x]
    refine ⟨_, .pi target sp ws h g1, ?_⟩
    rw [calls_append, calls_append]
    exact .app (.call rfl rfl) g2

end

theorem twin_decls {k : Ctx} {D D' : DTab} {w : Buf} {A : List Said} (h : Decls k D w A D') : ∀ {k' : Ctx}, Twins k k' →
    ∃ A', Decls k' D w A' D' ∧ Agree k.c k'.c A A' := by
  induction h with
  | nil k D => intro k' T; exact ⟨[], .nil k' D, rfl⟩
  | cons h1 h2 ih =>
    intro k' T
    obtain ⟨A1, g1, g2⟩ := twin_decl T h1
    obtain ⟨A2, g3, g4⟩ := ih T
    exact ⟨_, .cons g1 g3, g2.app g4⟩
  | ref name ent h1 h2 => intro k' T; exact (h2 T.pe.1).elim

section
variable {k k' : Ctx} (T : Twins k k')
include T

theorem twin_asked (D : DTab) : asked k' D = asked k D := by rw [asked, asked, T.alike.notStandalone]

theorem agree_asked (D : DTab) : Agree k.c k'.c (calls (asked k D)) (calls (asked k' D)) := by
  rw [twin_asked T, asked]
  split
  · rename_i h
    have h' := h.2
    rw [T.alike.notStandalone] at h'
    simp [Agree, calls, toldSaid, told, h.2, h']
  · rfl

theorem twin_doctype {D D' : DTab} {w : Buf} {A : List Said} (h : Doctype k D w A D') : ∃ A', Doctype k' D w A' D' ∧ Agree k.c k'.c A A' := by
  cases h with
  | mk sp1 name w1 sp2 w2 pub sys b E A D1 D2 h1 h2 h3 h4 h5 =>
    rw [T.asc, T.x] at h2
    have ho : ∃ E', Outer k' D w1 pub sys E' D1 ∧ Agree k.c k'.c (calls E) (calls E') := by
      cases h3 with
      | none => exact ⟨_, .none, rfl⟩
      | some sp w pub sys g1 g2 g3 g4 =>
        rw [T.asc, T.x] at g2
        have : addSubset k D pub sys = addSubset k' D pub sys := by rw [addSubset, addSubset, T.alike.base]
        rw [T.asc, this]
        refine ⟨_, .some sp w pub sys g1 g2 (.inl T.pe.2) (fun _ => ?_), ?_⟩
        · have := g4 T.pe.1
          rw [Allowed, ← T.alike.notStandalone]; exact this
        · rw [if_pos T.pe.1, if_pos T.pe.2]; exact agree_asked T D
    have hn : ∃ A', C59.Inner k' D1 w2 b A' D2 ∧ Agree k.c k'.c A A' := by
      cases h5 with
      | none => exact ⟨_, .none, rfl⟩
      | some w A D' sp g1 g2 =>
        obtain ⟨A', g3, g4⟩ := twin_decls g1 T
        rw [T.asc]
        exact ⟨A', .some w A' _ sp g3 g2, g4⟩
    obtain ⟨E', e1, e2⟩ := ho
    obtain ⟨A', a1, a2⟩ := hn
    rw [T.asc, T.x]
    refine ⟨_, .mk sp1 name w1 sp2 w2 pub sys b E' A' D1 D2 h1 h2 e1 h4 a1, ?_⟩
    rw [calls_append, calls_append]
    exact ((e2.app (.call (v := .startDoctype ..) rfl rfl)).app a2).app (.call (v := .endDoctype) rfl rfl)

theorem twin_prolog {D D' : DTab} {w : Buf} {A : List Said} (h : PrologText k D w A D') : ∃ A', PrologText k' D w A' D' ∧ Agree k.c k'.c A A' := by
  cases h with
  | plain w E h =>
    obtain ⟨E', g1, g2⟩ := twin_miscs T h
    exact ⟨_, .plain w E' g1, g2⟩
  | typed w1 w2 w3 E1 E3 A D' h1 h2 h3 =>
    obtain ⟨E1', g1, g2⟩ := twin_miscs T h1
    obtain ⟨A', g3, g4⟩ := twin_doctype T h2
    obtain ⟨E3', g5, g6⟩ := twin_miscs T h3
    exact ⟨_, .typed w1 w2 w3 E1' E3' A' D' g1 g3 g5, (g2.app g4).app g6⟩

end

section
variable {c c' : PCfg} (L : Alike c c')
include L

theorem twins_reading (x : XEnc) (asc : UInt8 → Buf) : Twins (reading c x asc .never) (reading c' x asc .never) :=
  ⟨L, rfl, rfl, rfl, rfl, rfl, rfl, rfl⟩

theorem twin_head {i j : EncId} {h : Buf} {d : Option C18.Src} (g : Head c i h d j) : Head c' i h d j := by
  cases g with
  | none => exact .none
  | decl d j h h127 hn => rw [L.protocol] at hn; exact .decl d j h h127 hn

/-- The grammar does not depend on handlers. -/
theorem twin_document {i : EncId} {t : Buf} (h : C61.IsDocument c i t) : C61.IsDocument c' i t := by
  obtain ⟨h, w, b, d, j, A, D', E, rfl, g2, g3, g4⟩ := h
  rw [L.ns] at g3 g4
  obtain ⟨A', g5, -⟩ := twin_prolog (twins_reading L _ _) g3
  rw [L.content, L.int] at g4
  exact ⟨h, w, b, d, j, A', D', E, rfl, twin_head L g2, g5, g4⟩

end

/-! ### What is told -/

theorem by_told {c : PCfg} {a : Said} {v : PEv} (h : a.by v) : told c v = toldSaid c a := by
  cases a with
  | call u => rw [show v = u from h]; rfl
  | model n m => obtain ⟨b, rfl, -⟩ := h; rfl

theorem says_filter {c : PCfg} {A : List Said} {E : List PEv} (h : Says A E) : Says (A.filter (toldSaid c)) (E.filter (told c)) := by
  induction h with
  | nil => exact .nil
  | @cons a v A E h1 h2 ih =>
    rw [List.filter_cons, List.filter_cons, by_told h1]
    split
    · exact .cons h1 ih
    · exact ih

theorem head_filter {c c' : PCfg} {d : Option C18.Src} {V V' : List PEv} (h : HeadTold c d V) (h' : HeadTold c' d V') :
    V.filter (told c') = V'.filter (told c) := by
  cases d with
  | none => rw [show V = [] from h, show V' = [] from h']; rfl
  | some d =>
    rw [show V = _ from h, show V' = _ from h']
    cases hc : c.xmlDecl <;> cases hc' : c'.xmlDecl <;> simp [told, hc, hc']

/-- The same calls.  (Content models are passed in a block whose layout does not matter.) -/
def SameCalls (E E' : List PEv) : Prop := ∃ V A G G', E = V ++ G ∧ E' = V ++ G' ∧ Says A G ∧ Says A G'

theorem same_calls {c c' : PCfg} {d : Option C18.Src} {V V' E E' : List PEv} {A A' : List Said} (h1 : HeadTold c d V) (h1' : HeadTold c' d V')
    (h2 : Says A E) (h2' : Says A' E') (h : Agree c c' A A') : SameCalls ((V ++ E).filter (told c')) ((V' ++ E').filter (told c)) := by
  refine ⟨V.filter (told c'), A.filter (toldSaid c'), E.filter (told c'), E'.filter (told c), List.filter_append .., ?_, says_filter h2, ?_⟩
  · rw [List.filter_append, head_filter h1 h1']
  · rw [show A.filter (toldSaid c') = _ from h]; exact says_filter h2'

theorem wants_twice {c c' : Cfg} (E : List Ev) : (E.filter (wants c)).filter (wants c') = (E.filter (wants c')).filter (wants c) := by
  rw [List.filter_filter, List.filter_filter]
  congr 1
  funext v
  exact Bool.and_comm ..

/-! ### The theorems -/

section
open Verif.Api C63
variable {C C' : PCfg}

theorem alike_settings (L : Alike C C') (f : Conf) : Alike (settings C f) (settings C' f) where
  content := by
    have := L.content
    simp only [full, settings] at this ⊢
    grind [Cfg]
  int := L.int
  isPE := L.isPE
  child := L.child
  base := L.base
  notStandalone := L.notStandalone
  unparsed := L.unparsed
  unknown := L.unknown
  protocol := rfl

variable {i : EncId} {idx : EncIndex} {m t : Buf}

/-- **C64.** Two parsers, alike but for handlers, are given the same text, each in pieces of its own.  The last calls return the same
status; if that is XML_STATUS_OK then the handlers set in both are called with the same arguments in the same order
(character data aside, whose division into calls depends on the pieces: `C04.flat`). -/
theorem independent (L : Alike C C') (U : C61.Usual C) (U' : C61.Usual C') {p p' : Parser Inner} (hn : New p) (hn' : New p') (hf : p.conf = p'.conf)
    (ho : NoDtd p.conf) (hi : getEncodingIndex p.conf.encoding = some idx) (h0 : C60.Found idx m t i) (hd : (i.x C.c.ns).e.mb ∣ t.length) :
    ∃ N, ∀ (ext ext' : Ext) (fuel fuel' : Nat) (upd upd' : Buf → Pos → Option Pos) (alloc alloc' : Nat → Bool),
      (∀ n, alloc n = true) → (∀ n, alloc' n = true) → N ≤ fuel → N ≤ fuel' →
      ∀ (ws ws' : List Buf) (v v' : Buf), ws.flatten ++ v = m ++ t → ws'.flatten ++ v' = m ++ t →
      ws.flatten.length + v.length + 1024 ≤ 2 ^ 30 →
      ∀ (rs rs' : List (Ret Inner Val)) (q q' : Parser Inner), Path (docEngine C ext fuel upd alloc) p (calls ws v) rs q →
        Path (docEngine C' ext' fuel' upd' alloc') p' (calls ws' v') rs' q' →
        final rs = final rs' ∧ (final rs = some (.status .OK) →
          SameCalls ((heard q.inner.P).filter (told C')) ((heard q'.inner.P).filter (told C)) ∧
          (own (C04.flat q.inner.F)).filter (wants C'.c) = (own (C04.flat q'.inner.F)).filter (wants C.c)) := by
  have L' := alike_settings L p.conf
  have hd' : (i.x C'.c.ns).e.mb ∣ t.length := by rw [← L.ns]; exact hd
  obtain ⟨N1, hN1⟩ := accepted_iff U hn ho hi h0 hd
  obtain ⟨N2, hN2⟩ := accepted_iff U' hn' (hf ▸ ho) (hf ▸ hi) h0 hd'
  have hboth : C61.IsDocument (settings C p.conf) i t ↔ C61.IsDocument (settings C' p'.conf) i t := by
    rw [← hf]
    exact ⟨twin_document L', twin_document L'.symm⟩
  have hst : ∀ (ext ext' : Ext) (fuel fuel' : Nat) (upd upd' : Buf → Pos → Option Pos) (alloc alloc' : Nat → Bool),
      (∀ n, alloc n = true) → (∀ n, alloc' n = true) → max N1 N2 ≤ fuel → max N1 N2 ≤ fuel' →
      ∀ (ws ws' : List Buf) (v v' : Buf), ws.flatten ++ v = m ++ t → ws'.flatten ++ v' = m ++ t →
      ws.flatten.length + v.length + 1024 ≤ 2 ^ 30 →
      ∀ (rs rs' : List (Ret Inner Val)) (q q' : Parser Inner), Path (docEngine C ext fuel upd alloc) p (calls ws v) rs q →
        Path (docEngine C' ext' fuel' upd' alloc') p' (calls ws' v') rs' q' →
        final rs = final rs' ∧ (final rs = some (.status .OK) ↔ C61.IsDocument (settings C p.conf) i t) := by
    intro ext ext' fuel fuel' upd upd' alloc alloc' ha ha' hf hf' ws ws' v v' hx hx' hs rs rs' q q' hp hp'
    have hs' : ws'.flatten.length + v'.length + 1024 ≤ 2 ^ 30 := by
      have := congrArg List.length (hx.trans hx'.symm)
      simp only [List.length_append] at this
      omega
    obtain ⟨-, a1, a2⟩ := hN1 ext fuel upd alloc ha (by omega) ws v hx hs rs q hp
    obtain ⟨-, b1, b2⟩ := hN2 ext' fuel' upd' alloc' ha' (by omega) ws' v' hx' hs' rs' q' hp'
    refine ⟨?_, a1⟩
    by_cases h : C61.IsDocument (settings C p.conf) i t
    · rw [a1.2 h, b1.2 (hboth.1 h)]
    · rw [a2.2 h, b2.2 (fun g => h (hboth.2 g))]
  by_cases hdoc : C61.IsDocument (settings C p.conf) i t
  · obtain ⟨h, w, b, d, j, A, D', Ev, rfl, g2, g3, g4⟩ := hdoc
    obtain ⟨A', g5, hA⟩ := twin_prolog (twins_reading L' _ _) g3
    obtain ⟨N3, hN3⟩ := documents U hn ho hi h0 hd g2 g3 g4
    have g4' : Document (full (settings C' p'.conf).c) D'.toDtd C'.int asc1 (j.x C'.c.ns) (C54.ascOf j) b Ev := by
      rw [← hf, ← L'.content, ← L.int, ← L.ns]; exact g4
    obtain ⟨N4, hN4⟩ := documents U' hn' (hf ▸ ho) (hf ▸ hi) h0 hd' (hf ▸ twin_head L' g2) (A := A') (D' := D')
      (by rw [← hf, ← L.ns]; exact g5) g4'
    refine ⟨max (max N1 N2) (max N3 N4), ?_⟩
    intro ext ext' fuel fuel' upd upd' alloc alloc' ha ha' hf hf' ws ws' v v' hx hx' hs rs rs' q q' hp hp'
    have hs' : ws'.flatten.length + v'.length + 1024 ≤ 2 ^ 30 := by
      have := congrArg List.length (hx.trans hx'.symm)
      simp only [List.length_append] at this
      omega
    refine ⟨(hst ext ext' fuel fuel' upd upd' alloc alloc' ha ha' (by omega) (by omega) ws ws' v v' hx hx' hs rs rs' q q' hp hp').1, fun _ => ?_⟩
    obtain ⟨-, -, ⟨V, E, e1, e2, e3⟩, e4⟩ := hN3 ext fuel upd alloc ha (by omega) ws v hx hs rs q hp
    obtain ⟨-, -, ⟨V', E', f1, f2, f3⟩, f4⟩ := hN4 ext' fuel' upd' alloc' ha' (by omega) ws' v' hx' hs' rs' q' hp'
    rw [e1, f1, e4, f4]
    exact ⟨same_calls e2 f2 e3 f3 hA, wants_twice Ev⟩
  · refine ⟨max N1 N2, ?_⟩
    intro ext ext' fuel fuel' upd upd' alloc alloc' ha ha' hf hf' ws ws' v v' hx hx' hs rs rs' q q' hp hp'
    obtain ⟨k1, k2⟩ := hst ext ext' fuel fuel' upd upd' alloc alloc' ha ha' hf hf' ws ws' v v' hx hx' hs rs rs' q q' hp hp'
    exact ⟨k1, fun h => absurd (k2.1 h) hdoc⟩

end

/-- After the prolog also where a document fails: the same error, and the same calls up to it, in any pieces. -/
theorem content_independent {c c' : Cfg} (L : full c = full c') {D : Dtd} {int x : XEnc} {asc iasc : UInt8 → Buf} (S : XSupported x asc) (I : XSupported int iasc)
    (s : CState) (r : Buf) (xs : List Buf) :
    (feed (parser c D int x) x.e s r xs).2 = (feed (parser c' D int x) x.e s r xs).2 ∧
    (own (feed (parser c D int x) x.e s r xs).1).filter (wants c') = (own (feed (parser c' D int x) x.e s r xs).1).filter (wants c) := by
  obtain ⟨h1, h2⟩ := feed_same (c := c) (D := D) S I xs s r
  obtain ⟨h3, h4⟩ := feed_same (c := c') (D := D) S I xs s r
  rw [← L] at h3 h4
  rw [h1, h3, h2, h4]
  exact ⟨rfl, wants_twice _⟩

/-! ### Examples -/

/-- Handlers for the ends of elements, attribute declarations and everything that is not handled otherwise. -/
def exFew : PCfg :=
  { exCfg with
    c := { exCfg.c with startElement := false, chars := false, pi := false, comment := false, startCdata := false, endCdata := false, startNs := false
                        endNs := false, skipped := false, externalRef := false, dflt := true, refOk := fun _ _ => true }
    startDoctype := false, endDoctype := false, entityDecl := false, elementDecl := false, xmlDecl := false }

/-- All but the ends of elements, and no default handler. -/
def exMost : PCfg := { exCfg with c := { exCfg.c with endElement := false, dflt := false, refOk := fun _ _ => true } }

theorem ex_alike : Alike exFew exMost := ⟨rfl, rfl, rfl, rfl, rfl, rfl, rfl, rfl, rfl⟩

example : C61.Usual exFew ∧ C61.Usual exMost := ⟨⟨rfl, rfl, rfl, rfl⟩, ⟨rfl, rfl, rfl, rfl⟩⟩

def exEngineOf (C : PCfg) : Api.Engine C63.Inner := C63.docEngine C C61.exExt 200 C63.exUpd (fun _ => true)

def exSeen (C : PCfg) (cs : List Api.Call) : Option (List Api.Val × List PEv × List Ev) :=
  (Api.steps (exEngineOf C) (Api.create (exEngineOf C) none) cs).map fun x => (x.1.map (·.val), heard x.2.inner.P, own x.2.inner.F)

/-- `<!DOCTYPE a [<!ENTITY b '&c;'><!ATTLIST a d CDATA #IMPLIED>]><a>x</a>`: both are told of the attribute declaration; the other calls are for
handlers which only one of them has. -/
theorem ex_few : exSeen exFew [.parse C61.exDoc true] =
    some ([.status .OK], [.attlistDecl "a".toUTF8.toList "d".toUTF8.toList "CDATA".toUTF8.toList none false], [.endElement "a".toUTF8.toList]) := by
  decide +kernel

theorem ex_most : exSeen exMost [.parse (C61.exDoc.take 30) false, .parse (C61.exDoc.drop 30) true] =
    some ([.status .OK, .status .OK],
      [.startDoctype (some "a".toUTF8.toList) none none true, .entityDecl "b".toUTF8.toList false (some "&c;".toUTF8.toList) none none none none,
       .attlistDecl "a".toUTF8.toList "d".toUTF8.toList "CDATA".toUTF8.toList none false, .endDoctype],
      [.startElement "a".toUTF8.toList [] 0 none, .chars "x".toUTF8.toList]) := by
  decide +kernel

/-- The theorem for them: every handler set in both is told the same, whatever the pieces. -/
example : ∃ N, ∀ (fuel : Nat), N ≤ fuel → ∀ (ws ws' : List Buf) (v v' : Buf), ws.flatten ++ v = C61.exDoc → ws'.flatten ++ v' = C61.exDoc →
    ∀ rs rs' q q', Api.Path (C63.docEngine exFew C61.exExt fuel C63.exUpd (fun _ => true)) (Api.create (exEngineOf exFew) none) (C63.calls ws v) rs q →
      Api.Path (C63.docEngine exMost C61.exExt fuel C63.exUpd (fun _ => true)) (Api.create (exEngineOf exMost) none) (C63.calls ws' v') rs' q' →
      C63.final rs = C63.final rs' := by
  obtain ⟨N, hN⟩ := independent (p := Api.create (exEngineOf exFew) none) (p' := Api.create (exEngineOf exMost) none) (i := .utf8) (idx := .noEnc) (m := [])
    (t := C61.exDoc) ex_alike ⟨rfl, rfl, rfl, rfl⟩ ⟨rfl, rfl, rfl, rfl⟩
    (C63.new_create (C := exFew) (ext := C61.exExt) (fuel := 200) (upd := C63.exUpd) (alloc := fun _ => true) none)
    (C63.new_create (C := exMost) (ext := C61.exExt) (fuel := 200) (upd := C63.exUpd) (alloc := fun _ => true) none) rfl ⟨rfl, rfl⟩ rfl (by
      have h : C61.exDoc = 0x3C :: 0x21 :: C61.exDoc.drop 2 := by decide +kernel
      rw [h]; exact .plain 0x3C 0x21 _ (by decide) (by decide)) (Nat.one_dvd _)
  refine ⟨N, fun fuel hf ws ws' v v' hx hx' rs rs' q q' hp hp' => ?_⟩
  refine (hN C61.exExt C61.exExt fuel fuel C63.exUpd C63.exUpd (fun _ => true) (fun _ => true) (fun _ => rfl) (fun _ => rfl) hf hf ws ws' v v'
    (by simpa using hx) (by simpa using hx') ?_ rs rs' q q' hp hp').1
  have hl : (ws.flatten ++ v).length = C61.exDoc.length := congrArg List.length hx
  have hk : C61.exDoc.length = 69 := by decide +kernel
  simp only [List.length_append] at hl
  omega

end Verif.C64
