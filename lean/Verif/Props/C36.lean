import Verif.PrologKeeps
import Verif.Props.C33

/-! # C36: of several declarations of an entity or attribute only the first has any effect -/

set_option autoImplicit false

namespace Verif.C36
open Verif

/-! ### Specification -/

/-- Any sequence of calls of the parser on any bytes, as long as it is in the prolog, with the handler calls
made.  (`prologCall` also gives the outcome, which does not matter here: after an error the application
could go on.) -/
inductive Calls (c : PCfg) (ext : Ext) (fuel : Nat) : DState → List PEv → DState → Prop
  | nil (s) : Calls c ext fuel s [] s
  | call {s E s'} (opened : List Buf) (more : Bool) (b : Buf)
      (h : Calls c ext fuel (prologCall c ext fuel opened more s b).2.1 E s') :
      Calls c ext fuel s ((prologCall c ext fuel opened more s b).1 ++ E) s'

/-- A parser that has not read anything of the document yet. -/
structure Fresh (s : DState) : Prop where
  p : s.el.p = PState.init
  decl : s.decl = none
  gen : s.D.gen = []
  par : s.D.par = []
  elems : s.D.elems = []

/-- The entity is declared, and its declaration is over. -/
def Complete (s : DState) (k : EKey) (e : Entity) : Prop :=
  s.D.ent k = some e ∧ (s.decl ≠ some k ∨ s.el.p.h.mid = false)

/-- Only the first declaration of each attribute. -/
def firsts : List ADecl → List ADecl := fun l => l.foldl (fun r d => if r.any (·.name = d.name) then r else r ++ [d]) []

/-- The DTD without the further declarations of attributes. -/
def firstAtts (D : Dtd) : Dtd := { D with elems := D.elems.map fun p => (p.1, { p.2 with atts := firsts p.2.atts }) }

/-! ### Lemmas -/

section
variable {c : PCfg} {ext : Ext} {fuel : Nat} {R : DState → List PEv → DState → Prop}

theorem Calls.rel (H : RunRel c ext fuel R) {s s' : DState} {E : List PEv} (h : Calls c ext fuel s E s') : R s E s' := by
  induction h with
  | nil s => exact H.refl s
  | call opened more b _ ih => exact H.trans (H.call _ _) ih

theorem Fresh.ok {s : DState} (h : Fresh s) : s.Ok := by
  constructor
  · rw [h.p]; rfl
  · intro k hk; rw [h.decl] at hk; cases hk
  · intro _ k hk; rw [h.decl] at hk; cases hk

theorem Calls.ok (hext : ext.Keeps) {s s' : DState} {E : List PEv} (h : Calls c ext fuel s E s') (hs : s.Ok) : s'.Ok :=
  (h.rel (stepM_runRel (k := (false, [])) (by decide) hext) hs).1

/-! ### Entities -/

/-- Once an entity has been declared, its entry is the same for ever, whatever is declared later, in the
document or in external entities. -/
theorem entity_stays (hext : ext.Keeps) {s s' : DState} {E : List PEv} (h : Calls c ext fuel s E s') (hs : s.Ok)
    {k : EKey} (hk : k ≠ hashKey) {e : Entity} (hc : Complete s k e) : Complete s' k e := by
  have hf : FrozenM false k s := hc.2.elim .inl fun h => .inr ⟨rfl, h⟩
  have := (h.rel (stepM_runRel hk hext) hs).2.1 e hc.1 hf
  exact ⟨this.1, this.2.elim .inl fun h => .inr h.2⟩

/-- What content sees of a general entity. -/
theorem general_stays (hext : ext.Keeps) {s s' : DState} {E : List PEv} (h : Calls c ext fuel s E s') (hs : s.Ok)
    {n : Buf} {e : Entity} (hc : Complete s (false, n) e) : s'.D.toDtd.entity n = some e ∧ s.D.toDtd.entity n = some e :=
  ⟨(entity_stays hext h hs (by simp [hashKey]) hc).1, hc.1⟩

/-- An entity is reported at most once, however often it is declared; and an entity that is in the table
already is not reported again. -/
theorem reported_once (hext : ext.Keeps) {s s' : DState} {E : List PEv} (h : Calls c ext fuel s E s') (hs : s.Ok)
    {k : EKey} (hk : k ≠ hashKey) : declCount k E ≤ 1 ∧ (∀ e, Complete s k e → declCount k E = 0) := by
  have hb := (h.rel (stepM_runRel hk hext) hs).2.2.1
  refine ⟨?_, ?_⟩
  · have : budget false k s ≤ 1 := by unfold budget; split <;> omega
    omega
  · intro e hc
    have : budget false k s = 0 := by
      unfold budget
      rw [if_neg]
      rintro (h | ⟨h1, h2⟩)
      · rw [hc.1] at h; cases h
      · rcases hc.2 with h3 | h3
        · exact h3 h1
        · rcases h2 with h2 | h2
          · cases h2
          · rw [h3] at h2; cases h2
    omega

/-- The declaration reported is the one that counts at the end. -/
theorem reported_counts (hext : ext.Keeps) {s s' : DState} {E : List PEv} (h : Calls c ext fuel s E s') (hs : s.Ok)
    {k : EKey} (hk : k ≠ hashKey) {v : PEv} (hv : v ∈ E) (hd : v.declares k = true) :
    ∃ e, Complete s' k e ∧ v.tells e := by
  obtain ⟨e, h1, h2, h3⟩ := (h.rel (stepM_runRel hk hext) hs).2.2.2 v hv hd
  exact ⟨e, ⟨h1, h3.elim .inl fun h => .inr h.2⟩, h2⟩

/-! ### Attributes -/

/-- Once an attribute of an element type has been declared, its type, its default value and whether it is the
ID attribute are the same for ever. -/
theorem attribute_stays (hext : ext.Keeps) {s s' : DState} {E : List PEv} (h : Calls c ext fuel s E s')
    {el a : Buf} (hd : s.D.declared el a = true) :
    C33.typeCdata (s'.D.toDtd.elem el) a = C33.typeCdata (s.D.toDtd.elem el) a ∧
    ((s'.D.toDtd.elem el).atts.find? fun d => d.name = a ∧ d.value.isSome) =
      ((s.D.toDtd.elem el).atts.find? fun d => d.name = a ∧ d.value.isSome) ∧
    ((s'.D.toDtd.elem el).idAtt = some a ↔ (s.D.toDtd.elem el).idAtt = some a) := by
  have H := (h.rel (grow_runRel hext)).2
  have hel : ∀ (D : DTab), D.toDtd.elem el = D.elem el := fun D => rfl
  refine ⟨?_, ?_, ?_⟩
  · unfold C33.typeCdata
    rw [hel, hel, H.first el a hd]
  · rw [hel, hel]; exact H.dflt el a hd
  · rw [hel, hel]; exact H.id_ el a hd

/-- The flags that `C33` needs are right. -/
theorem flags_ok (hext : ext.Keeps) {s s' : DState} {E : List PEv} (h : Calls c ext fuel s E s') (hs : Fresh s) :
    C33.FlagsOk s'.D.toDtd := by
  have H := (h.rel (grow_runRel hext)).2
  refine H.tok ?_
  intro el d hd
  unfold DTab.elem at hd
  rw [hs.elems] at hd
  cases hd

theorem dup_ok (hext : ext.Keeps) {s s' : DState} {E : List PEv} (h : Calls c ext fuel s E s') (hs : Fresh s) :
    s'.D.DupOk := by
  refine ((h.rel (grow_runRel hext)).2).dup ?_
  intro el pre d post hd
  unfold DTab.elem at hd
  rw [hs.elems] at hd
  have : ([] : List ADecl) = pre ++ d :: post := hd
  simp at this

end

/-! ### Content -/

theorem elem_firstAtts (D : Dtd) (n : Buf) : (firstAtts D).elem n = { D.elem n with atts := firsts (D.elem n).atts } := by
  obtain ⟨ents, elems, mt, a, b⟩ := D
  simp only [firstAtts, Dtd.elem]
  induction elems with
  | nil => rfl
  | cons p r ih =>
    simp only [List.map_cons, List.find?_cons]
    by_cases h : p.1 = n
    · simp [h]
    · simp only [h, decide_false]
      exact ih

/-- `l` with the entries of `r` put in front that are not duplicates. -/
theorem foldl_firsts (l r : List ADecl) :
    l.foldl (fun r d => if r.any (·.name = d.name) then r else r ++ [d]) r =
      r ++ l.foldl (fun q d => if (r ++ q).any (·.name = d.name) then q else q ++ [d]) [] := by
  have : ∀ (l q : List ADecl), l.foldl (fun r d => if r.any (·.name = d.name) then r else r ++ [d]) (r ++ q) =
      r ++ l.foldl (fun q d => if (r ++ q).any (·.name = d.name) then q else q ++ [d]) q := by
    intro l
    induction l with
    | nil => intro q; rfl
    | cons d l ih =>
      intro q
      simp only [List.foldl_cons]
      split
      · exact ih q
      · rw [List.append_assoc]; exact ih _
  have h := this l []
  rwa [List.append_nil] at h

theorem find_firsts (l : List ADecl) (n : Buf) : (firsts l).find? (·.name = n) = l.find? (·.name = n) := by
  have : ∀ (l r : List ADecl), (l.foldl (fun r d => if r.any (·.name = d.name) then r else r ++ [d]) r).find? (·.name = n) =
      (r.find? (·.name = n)).or (l.find? (·.name = n)) := by
    intro l
    induction l with
    | nil => intro r; simp
    | cons d l ih =>
      intro r
      simp only [List.foldl_cons]
      rw [ih]
      by_cases hd : d.name = n
      · subst hd
        split
        · rename_i h
          cases hf : r.find? (fun x => decide (x.name = d.name)) with
          | some _ => rfl
          | none =>
            rw [List.any_eq_true] at h
            obtain ⟨x, h1, h2⟩ := h
            rw [List.find?_eq_none] at hf
            exact absurd h2 (hf x h1)
        · rw [List.find?_append]
          cases hf : r.find? (fun x => decide (x.name = d.name)) <;> simp
      · split
        · simp [hd]
        · rw [List.find?_append]
          simp [hd]
  exact this l []

theorem chain_append {α σ ε : Type} (f : σ → α → List Ev × Except ε σ) (s : σ) (a b : List α) :
    chain f s (a ++ b) = match chain f s a with
      | (E, .ok s') => ((E ++ (chain f s' b).1), (chain f s' b).2)
      | (E, .error e) => (E, .error e) := by
  induction a generalizing s with
  | nil => simp [chain]
  | cons x a ih =>
    simp only [List.cons_append, chain]
    cases hf : f s x with
    | mk E o =>
      cases o with
      | error e => rfl
      | ok s' =>
        simp only []
        rw [ih]
        cases hc : chain f s' a with
        | mk E' o' => cases o' <;> simp

/-- Further declarations without a default value do not add anything. -/
theorem chain_firsts (c : Cfg) (l : List ADecl)
    (hdup : ∀ pre d post, l = pre ++ d :: post → pre.any (·.name = d.name) = true → d.value = none) (s : AState) :
    chain (defOne c) s (firsts l) = chain (defOne c) s l := by
  have : ∀ (n : Nat), n = l.length → ∀ k, k ≤ n → ∀ s,
      chain (defOne c) s (firsts (l.take k)) = chain (defOne c) s (l.take k) ∧
      ∀ x, (firsts (l.take k)).any (·.name = x) = (l.take k).any (·.name = x) := by
    intro n hn k
    induction k with
    | zero => intro _ s; exact ⟨rfl, fun _ => rfl⟩
    | succ k ih =>
      intro hk s
      have hlt : k < l.length := by omega
      have htk : l.take (k + 1) = l.take k ++ [l[k]] := (List.take_succ_eq_append_getElem hlt)
      have hf : firsts (l.take (k + 1)) =
          if (firsts (l.take k)).any (·.name = (l[k]).name) then firsts (l.take k) else firsts (l.take k) ++ [l[k]] := by
        rw [htk, firsts, List.foldl_append]
        rfl
      obtain ⟨h1, h2⟩ := ih (by omega) s
      rw [hf]
      split
      · rename_i hany
        rw [h2] at hany
        refine ⟨?_, ?_⟩
        · rw [htk, chain_append, h1]
          have hv : (l[k]).value = none := by
            refine hdup (l.take k) l[k] (l.drop (k + 1)) ?_ hany
            rw [← List.drop_eq_getElem_cons hlt, List.take_append_drop]
          cases hc : chain (defOne c) s (l.take k) with
          | mk E o =>
            cases o with
            | error e => rfl
            | ok s' => simp [chain, defOne, hv]
        · intro x
          rw [h2, htk, List.any_append]
          by_cases hx : (l[k]).name = x
          · rw [← hx, hany]; rfl
          · simp [hx]
      · refine ⟨?_, ?_⟩
        · rw [htk, chain_append, chain_append, h1]
        · intro x
          rw [htk, List.any_append, List.any_append, h2]
  have h := (this l.length rfl l.length (Nat.le_refl _) s).1
  rwa [List.take_length] at h

theorem declCdata_firsts (D : Dtd) (n a : Buf) :
    declCdata (firstAtts D) ((firstAtts D).elem n) a = declCdata D (D.elem n) a := by
  unfold declCdata
  rw [elem_firstAtts, find_firsts]
  rfl

theorem attrStep_firsts (D : Dtd) (check : Bool) (x : XEnc) (isCdata : Bool) (expand : Buf → Buf → Buf → Except XErr Buf)
    (op : List Buf) (pool b : Buf) :
    attrStep (firstAtts D) check x isCdata expand op pool b = attrStep D check x isCdata expand op pool b := rfl

theorem attrLoop_firsts (D : Dtd) (check : Bool) (x : XEnc) (isCdata : Bool) (expand : Buf → Buf → Buf → Except XErr Buf)
    (op : List Buf) (pool b : Buf) :
    attrLoop (firstAtts D) check x isCdata expand op pool b = attrLoop D check x isCdata expand op pool b := by
  induction hn : b.length using Nat.strongRecOn generalizing pool b with
  | _ n ih =>
    subst hn
    rw [attrLoop.eq_def (firstAtts D), attrLoop.eq_def D, attrStep_firsts]
    split
    · rfl
    · rfl
    · split
      · rename_i h; exact ih _ h _ _ rfl
      · rfl

theorem append_firsts (D : Dtd) (check : Bool) (int : XEnc) (isCdata : Bool) (k : Nat) (x : XEnc) (op : List Buf) (pool b : Buf) :
    appendAttributeValue (firstAtts D) check int isCdata k x op pool b = appendAttributeValue D check int isCdata k x op pool b := by
  induction k generalizing x op pool b with
  | zero => exact attrLoop_firsts D check x isCdata _ op pool b
  | succ k ih =>
    unfold appendAttributeValue
    simp only [ih]
    exact attrLoop_firsts D check x isCdata _ op pool b

theorem attOne_firsts (c : Cfg) (D : Dtd) (int x : XEnc) (op : List Buf) (raw b : Buf) :
    attOne c (firstAtts D) int x op ((firstAtts D).elem raw) b = attOne c D int x op (D.elem raw) b := by
  funext s a
  have h1 : ∀ n, attValue (firstAtts D) int x op ((firstAtts D).elem raw) b a n = attValue D int x op (D.elem raw) b a n := by
    intro n
    unfold attValue storeAttributeValue
    rw [declCdata_firsts, append_firsts]
    rfl
  unfold attOne
  simp only [h1]

/-- Duplicates are without default values. -/
def DupOk (D : Dtd) : Prop :=
  ∀ el pre d post, (D.elem el).atts = pre ++ d :: post → pre.any (·.name = d.name) = true → d.value = none

theorem storeAtts_firsts (c : Cfg) {D : Dtd} (hD : DupOk D) (int x : XEnc) (op : List Buf) (flags : Buf → AFlag) (env : Env)
    (raw b : Buf) : storeAtts c (firstAtts D) int x op flags env raw b = storeAtts c D int x op flags env raw b := by
  unfold storeAtts
  simp only []
  rw [attOne_firsts]
  simp only [elem_firstAtts, chain_firsts c _ (hD raw)]

theorem act_firsts (c : Cfg) {D : Dtd} (hD : DupOk D) (int x : XEnc) (op : List Buf) (start : Nat)
    (expand : Buf → Buf → CState → List Ev × Except XErr CState) :
    act c (firstAtts D) int x op start expand = act c D int x op start expand := by
  funext s t w
  unfold act actStart actEmpty
  simp only [storeAtts_firsts c hD]
  rfl

theorem sem_firsts (c : Cfg) {D : Dtd} (hD : DupOk D) (int : XEnc) (k : Nat) (x : XEnc) (op : List Buf) (start : Nat) :
    sem c (firstAtts D) int k x op start = sem c D int k x op start := by
  induction k generalizing x op start with
  | zero =>
    unfold sem semOf
    simp only [act_firsts c hD]
  | succ k ih =>
    unfold sem semOf
    simp only [act_firsts c hD, ih]

/-- The content of the document is processed exactly as if there were no further declarations of attributes
that have been declared already. -/
theorem content_firsts {c : PCfg} {ext : Ext} {fuel : Nat} (hext : ext.Keeps) {s s' : DState} {E : List PEv}
    (h : Calls c ext fuel s E s') (hs : Fresh s) (x : XEnc) :
    parser c.c (firstAtts s'.D.toDtd) c.int x = parser c.c s'.D.toDtd c.int x :=
  sem_firsts c.c (D := s'.D.toDtd) (dup_ok hext h hs) c.int _ x [] 0

/-! ### Example -/

/-- A parser that reports entities and attributes, at the start of a document. -/
def exCfg : PCfg := { c := {}, int := internalUtf8X false, child := false, attlistDecl := true }
def exStart : DState := { el := { p := PState.init }, cur := .builtin .utf8, pe := .always }

/-- `<!DOCTYPE d [<!ENTITY a '1'><!ENTITY a '2'><!ATTLIST d x CDATA 'v'><!ATTLIST d x NMTOKEN 'w' x ID #IMPLIED
y NMTOKEN #IMPLIED y CDATA #IMPLIED> ` -/
def exDoc : Buf :=
  [60, 33, 68, 79, 67, 84, 89, 80, 69, 32, 100, 32, 91, 60, 33, 69, 78, 84, 73, 84, 89, 32, 97, 32, 39, 49, 39, 62, 60,
   33, 69, 78, 84, 73, 84, 89, 32, 97, 32, 39, 50, 39, 62, 60, 33, 65, 84, 84, 76, 73, 83, 84, 32, 100, 32, 120, 32, 67,
   68, 65, 84, 65, 32, 39, 118, 39, 62, 60, 33, 65, 84, 84, 76, 73, 83, 84, 32, 100, 32, 120, 32, 78, 77, 84, 79, 75, 69,
   78, 32, 39, 119, 39, 32, 120, 32, 73, 68, 32, 35, 73, 77, 80, 76, 73, 69, 68, 32, 121, 32, 78, 77, 84, 79, 75, 69, 78,
   32, 35, 73, 77, 80, 76, 73, 69, 68, 32, 121, 32, 67, 68, 65, 84, 65, 32, 35, 73, 77, 80, 76, 73, 69, 68, 62, 32]

/-- An application that does not read external entities, and one that does (see `resolver`). -/
def exExt : Ext := resolver exCfg (fun _ => none) 5 5

example : Fresh exStart := ⟨rfl, rfl, rfl, rfl, rfl⟩
example : exExt.Keeps := resolver_keeps _ _ _ _
example (docs : ExtReq → Option ExtDoc) (fuel d : Nat) : (resolver exCfg docs fuel d).Keeps := resolver_keeps _ _ _ _

/-- One entity is reported, with the first value, which is the one in the table; and of each attribute the first
declaration determines the type and the default. -/
example :
    let r := prologCall exCfg exExt 5 [] true exStart exDoc
    r.2.2 = .done [] ∧ declCount (false, [97]) r.1 = 1 ∧
    r.1.filter (·.declares (false, [97])) = [.entityDecl [97] false (some [49]) none none none none] ∧
    (r.2.1.D.toDtd.entity [97]).map (·.text) = some (some [49]) ∧ r.2.1.decl ≠ some (false, [97]) ∧
    r.2.1.D.declared [100] [120] = true ∧
    C33.typeCdata (r.2.1.D.toDtd.elem [100]) [120] = true ∧ C33.typeCdata (r.2.1.D.toDtd.elem [100]) [121] = false ∧
    (r.2.1.D.toDtd.elem [100]).atts.length = 3 ∧ ((firstAtts r.2.1.D.toDtd).elem [100]).atts.length = 2 ∧
    (r.2.1.D.toDtd.elem [100]).idAtt = none := by
  decide +kernel

end Verif.C36
