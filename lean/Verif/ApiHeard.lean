import Verif.Props.C63

/-! # Whole documents under handlers that stop the parser

The processors from the first byte on, with an application whose handlers may call XML_StopParser at any handler call, those for
declarations included (`ApiContent` has this for content only). -/

set_option autoImplicit false

namespace Verif.Halt
open C43 C53 C59 C60 C63 Spec Verif PState Api

variable {α : Type}

/-- The handlers of an application with a state of its own, those of the prolog included.  For each handler call: the state
afterwards, and the argument `resumable` if the handler calls XML_StopParser. -/
abbrev PApp (α : Type) := α → PEv → α × Option Bool

/-- The handlers see the calls one after the other. -/
def PApp.tell (app : PApp α) : α × Stop → List PEv → α × Stop
  | x, [] => x
  | (a, k), ev :: E => PApp.tell app ((app a ev).1, k.ask (app a ev).2) E

/-- The handlers that content has. -/
def PApp.content (app : PApp α) : App α := fun a ev => app a (.ev ev)

/-- The handlers never abort the parse. -/
def PApp.Patient (app : PApp α) : Prop := ∀ a ev, (app a ev).2 ≠ some false

/-- What a processor returns with `m_parsingStatus.parsing` and the application's state. -/
abbrev Heard (α : Type) := List PEv × DState × (α × Stop) × PEnd

def Heard.pre (E : List PEv) (r : Heard α) : Heard α := (E ++ r.1, r.2)

/-- src/lib/xmlparse.rs:5689-6872 the loop of `doProlog` on the document itself, as `prun`.  All handler calls for a token are
made before the status is looked at (6862-6872).  A handler that stops the parser within the text of a parameter entity is not
modelled (with XML_PARAM_ENTITY_PARSING_NEVER none is read).  (The guards on the length always hold.) -/
def hrun (c : PCfg) (ext : Ext) (fuel : Nat) (app : PApp α) (more : Bool) (s : DState) (y : α × Stop) (b : Buf) : Heard α :=
  let x := s.x c false
  match seeToken x false false more c.isPE b with
  | .wait => ([], s, y, .done b)
  | .fail e => ([], s, y, .err e)
  | .panic => ([], s, y, .panic)
  | .endPE =>
    let q := s.el.p.next x.e .NONE []
    let s := { s with el := { s.el with p := q.1 } }
    if q.2 = .ERROR then ([], s, y, .err .INCOMPLETE_PE) else ([], s, y, .done b)
  | .tok t n =>
    match pround c ext fuel (expandPE c ext fuel fuel []) false true [] s t (b.take n) with
    | (E, s, .fail e) => (E, s, app.tell y E, .err e)
    | (E, s, .panic) => (E, s, app.tell y E, .panic)
    | (E, s, .start) => (E, s, app.tell y E, .content b)
    | (E, s, .go _) =>
      -- 6862-6872
      if (b.drop n).length < b.length then
        match (app.tell y E).2 with
        | .suspend => (E, s, app.tell y E, .done (b.drop n))
        | .abort => (E, s, app.tell y E, .err .ABORTED)
        | .go => Heard.pre E (hrun c ext fuel app more s (app.tell y E) (b.drop n))
      else (E, s, app.tell y E, .panic)
    | (E, s, .ignore) =>
      -- 6400-6417
      let x := s.x c false
      match ignoreSection x more (b.drop n) with
      | .wait => (E, { s with ignoring := true }, app.tell y E, .done (b.drop n))
      | .err e => (E, s, app.tell y E, .err e)
      | .closed k =>
        if ((b.drop n).drop k).length < b.length then
          let E := E ++ (toDefault c.c x ((b.drop n).take k)).map .ev
          match (app.tell y E).2 with
          | .suspend => (E, s, app.tell y E, .done ((b.drop n).drop k))
          | .abort => (E, s, app.tell y E, .err .ABORTED)
          | .go => Heard.pre E (hrun c ext fuel app more s (app.tell y E) ((b.drop n).drop k))
        else (E, s, app.tell y E, .panic)
termination_by b.length
decreasing_by all_goals assumption

/-- 5062-5085 `ignoreSectionProcessor`, which goes on to `prologProcessor` without looking whether the parser is suspended (5126-5132:
only for FINISHED), and 5569-5585 `prologProcessor`. -/
def hcall (c : PCfg) (ext : Ext) (fuel : Nat) (app : PApp α) (more : Bool) (s : DState) (y : α × Stop) (b : Buf) : Heard α :=
  if s.ignoring then
    let x := s.x c false
    match ignoreSection x more b with
    | .wait => ([], s, y, .done b)
    | .err e => ([], s, y, .err e)
    | .closed k =>
      let E := (toDefault c.c x (b.take k)).map PEv.ev
      if (app.tell y E).2 = .abort then (E, s, app.tell y E, .err .ABORTED)
      else Heard.pre E (hrun c ext fuel app more { s with ignoring := false } (app.tell y E) (b.drop k))
  else hrun c ext fuel app more s y b

section
variable (c : PCfg) (ext : Ext) (fuel : Nat) (app : PApp α)

/-- 3461-3584, 4892-4920, 6879-6950: content, CDATA section and epilog processors, called with the status `y`. -/
def hContent (z : DState) (s : CState) (y : α × Stop) (final : Bool) (b : Buf) : Turn × (α × Stop) :=
  match call (Api.heard (C57.contentSem c z) app.content) (z.x c false).e (!final) (s, y) b with
  | (F, .ok s' r) => (⟨[], F, .content z s'.1, r, none⟩, s'.2)
  | (F, .err e) => (⟨[], F, .content z s, b, some e⟩, y)

/-- 5569-5585; 5941-5945: the content processor is called for the rest of the buffer, suspended or not. -/
def hProlog (s : DState) (y : α × Stop) (final : Bool) (b : Buf) : Turn × (α × Stop) :=
  match hcall c ext fuel app (!final) s y b with
  | (P, s', y, .done q) => (⟨P, [], .prolog s', q, none⟩, y)
  | (P, z, y, .content q) => let r := hContent c app z CState.init y final q; ({ r.1 with P := P }, r.2)
  | (P, s', y, .err e) => (⟨P, [], .prolog s', b, some e⟩, y)
  | (P, _, y, .panic) => (⟨P, [], .dead, b, some .UNEXPECTED_STATE⟩, y)

/-- 5394-5412 `prologInitProcessor`. -/
def hFresh (idx : EncIndex) (s : DState) (y : α × Stop) (final : Bool) (b : Buf) : Turn × (α × Stop) :=
  match initScan idx .prolog b with
  | .bom i n => hProlog c ext fuel app { s with cur := .builtin i } y final (b.drop n)
  | .scan i => hProlog c ext fuel app { s with cur := .builtin i } y final b
  | .none => (if final then ⟨[], [], .fresh, b, some .NO_ELEMENTS⟩ else ⟨[], [], .fresh, b, none⟩, y)
  | .more => (if final then ⟨[], [], .fresh, b, some .UNCLOSED_TOKEN⟩ else ⟨[], [], .fresh, b, none⟩, y)

end

/-- `m_processor`. -/
def hturn (C : PCfg) (ext : Ext) (fuel : Nat) (app : PApp α) (f : Conf) (st : Stage) (y : α × Stop) (final : Bool) (b : Buf) : Turn × (α × Stop) :=
  match st with
  | .fresh =>
    match getEncodingIndex f.encoding with
    | some idx => hFresh (settings C f) ext fuel app idx (first f) y final b
    | none =>
      match (f.encoding.bind C.unknown) with
      | some x => hProlog (settings C f) ext fuel app { first f with cur := .other x } y final b
      | none => (⟨[], [], .fresh, b, some .UNKNOWN_ENCODING⟩, y)
  | .prolog s => hProlog (settings C f) ext fuel app s y final b
  | .content z s => hContent (settings C f) app z s y final b
  | .dead => (⟨[], [], .dead, b, some .UNEXPECTED_STATE⟩, y)

/-- The processors of a parser for a document and the handlers of an application (see `docEngine`). -/
def haltEngine (C : PCfg) (ext : Ext) (fuel : Nat) (app : PApp α) (a0 : α) (upd : Buf → Pos → Option Pos) (alloc : Nat → Bool) :
    Engine (Inner × α) where
  init := ({}, a0)
  start _ s := some s
  proc f s final b :=
    let t := hturn C ext fuel app f s.1.stage (s.2, .go) final b
    let used := if t.1.code = none then b.length - t.1.rest.length else 0
    ⟨t.1.F, used, t.1.code, (⟨t.1.stage, s.1.P ++ t.1.P, s.1.F ++ t.1.F⟩, t.2.1),
      if t.1.code = none then t.2.2.parsing else if t.1.code = some .ABORTED then .FINISHED else .PARSING, used, used⟩
  upd _ b p := upd b p
  alloc := alloc

theorem haltEngine_lawful (C : PCfg) (ext : Ext) (fuel : Nat) (app : PApp α) (a0 : α) (upd) (alloc) :
    (haltEngine C ext fuel app a0 upd alloc).Lawful := by
  refine ⟨?_, ?_, ?_⟩ <;> intro c s f b <;> simp only [haltEngine]
  · split <;> omega
  · split <;> omega
  · split
    · cases (hturn C ext fuel app c s.1.stage (s.2, .go) f b).2.2 <;> simp [Stop.parsing]
    · split <;> simp

theorem PApp.tell_patient {app : PApp α} (hp : app.Patient) (E : List PEv) :
    ∀ (x : α × Stop), x.2 ≠ .abort → (app.tell x E).2 ≠ .abort := by
  induction E with
  | nil => intro x h; exact h
  | cons ev E ih =>
    intro x h
    obtain ⟨a, k⟩ := x
    refine ih _ ?_
    have := hp a ev
    simp only at h ⊢
    generalize (app a ev).2 = y at *
    cases k <;> rcases y with _ | _ | _ <;> simp_all [Stop.ask]

theorem PApp.Patient.content {app : PApp α} (hp : app.Patient) : app.content.Patient := fun a ev => hp a (.ev ev)

/-! ### The prolog -/

/-- What a run of the prolog under handlers means for the run without. -/
def Means (c : PCfg) (ext : Ext) (fuel : Nat) (more : Bool) (r : Heard α) (w : Prolog) : Prop :=
  r.2.2.1.2 ≠ .abort ∧
  match r with
  | (E, s', y, .done q) => if y.2 = .suspend then w = Prolog.pre E (prologCall c ext fuel [] more s' q) else w = (E, s', .done q)
  | (E, s', _, o) => w = (E, s', o)

theorem Means.pre {c : PCfg} {ext : Ext} {fuel : Nat} {more : Bool} {r : Heard α} {w : Prolog} (E : List PEv)
    (h : Means c ext fuel more r w) : Means c ext fuel more (Heard.pre E r) (Prolog.pre E w) := by
  obtain ⟨F, s, y, o⟩ := r
  obtain ⟨h0, h⟩ := h
  refine ⟨h0, ?_⟩
  cases o with
  | done q =>
    simp only [Heard.pre] at h ⊢
    split at h
    · rename_i hy; rw [if_pos hy, h]; simp [Prolog.pre]
    · rename_i hy; rw [if_neg hy, h]; rfl
  | _ => simp only [Heard.pre] at h ⊢; rw [h]; rfl

variable {c : PCfg} {ext : Ext} {fuel : Nat} {app : PApp α}

theorem no_endPE (x : XEnc) (more : Bool) (b : Buf) : seeToken x false false more false b ≠ .endPE := by
  unfold seeToken seeRes
  (repeat' split) <;> simp_all

theorem hrun_means (ho : c.OtherOk) (hpe : c.isPE = false) (hp : app.Patient) (more : Bool) (n : Nat) :
    ∀ (s : DState) (y : α × Stop) (b : Buf), b.length = n →
    s.ignoring = false → y.2 ≠ .abort → Means c ext fuel more (hrun c ext fuel app more s y b) (C57.loop c ext fuel [] more s b) := by
  induction n using Nat.strongRecOn with
  | _ n ih =>
    intro s y b hn hi hy
    have hw := (C57.call_loop (c := c) (ext := ext) (fuel := fuel) (opened := []) (more := more) hi b).symm
    rw [C57.loop, prun.eq_def] at hw
    have stay {o : Prolog} (ho : o = ([], s, .done b)) (h : o = prologCall c ext fuel [] more s b) : Means c ext fuel more ([], s, y, .done b) o := by
      refine ⟨hy, ?_⟩
      simp only
      split
      · rw [h]; simp [Prolog.pre]
      · exact ho
    rw [hrun.eq_def, C57.loop, prun.eq_def]
    simp only at hw ⊢
    cases hsee : seeToken (s.x c false) false false more c.isPE b with
    | wait => simp only [hsee] at hw ⊢; exact stay rfl hw
    | fail e => exact ⟨hy, rfl⟩
    | panic => exact ⟨hy, rfl⟩
    | endPE => rw [hpe] at hsee; exact absurd hsee (no_endPE _ _ _)
    | tok t n =>
      simp only
      have hen := pround_enced (ext := ext) (fuel := fuel) (internal := false) (allowClose := true) (opened := []) ho
        (expandPE_enced (ext := ext) (fuel := fuel) ho fuel []) s t (b.take n)
      generalize pround c ext fuel (expandPE c ext fuel fuel []) false true [] s t (b.take n) = r at hen
      obtain ⟨E, s', o⟩ := r
      have hi' : s'.ignoring = false := hen.ignoring.trans hi
      have hy' := PApp.tell_patient hp E y hy
      cases o with
      | fail e => exact ⟨hy', rfl⟩
      | panic => exact ⟨hy', rfl⟩
      | start => exact ⟨hy', rfl⟩
      | go d =>
        simp only
        split
        · rename_i hlt
          cases hk : (app.tell y E).2 with
          | abort => exact absurd hk hy'
          | go => exact Means.pre _ (ih _ (by omega) _ _ _ rfl hi' hy')
          | suspend =>
            refine ⟨hy', ?_⟩
            simp only [hk, if_true]
            rw [C57.call_loop hi']
        · exact ⟨hy', rfl⟩
      | ignore =>
        simp only
        cases hig : ignoreSection (s'.x c false) more (b.drop n) with
        | err e => exact ⟨hy', rfl⟩
        | wait =>
          refine ⟨hy', ?_⟩
          simp only
          split
          · simp only [prologCall, if_true]
            rw [show ({ s' with ignoring := true } : DState).x c false = s'.x c false from rfl, hig]
            simp [Prolog.pre]
          · trivial
        | closed k =>
          simp only
          split
          · rename_i hlt
            generalize E ++ List.map PEv.ev (toDefault c.c (s'.x c false) (List.take k (List.drop n b))) = E2
            have hy2 := PApp.tell_patient hp E2 y hy
            cases hk : (app.tell y E2).2 with
            | abort => exact absurd hk hy2
            | go => exact Means.pre _ (ih _ (by omega) _ _ _ rfl hi' hy2)
            | suspend =>
              refine ⟨hy2, ?_⟩
              simp only [hk, if_true]
              rw [C57.call_loop hi']
          · exact ⟨hy', rfl⟩

theorem hcall_means (ho : c.OtherOk) (hpe : c.isPE = false) (hp : app.Patient) (more : Bool) (s : DState) (y : α × Stop) (b : Buf) (hy : y.2 ≠ .abort) :
    Means c ext fuel more (hcall c ext fuel app more s y b) (prologCall c ext fuel [] more s b) := by
  cases hi : s.ignoring with
  | false =>
    rw [C57.call_loop hi, hcall, hi]
    exact hrun_means ho hpe hp more _ s y b rfl hi hy
  | true =>
    have hw : prologCall c ext fuel [] more s b = prologCall c ext fuel [] more s b := rfl
    conv at hw => lhs; unfold prologCall
    unfold hcall
    simp only [hi, if_true] at hw ⊢
    cases hig : ignoreSection (s.x c false) more b with
    | wait =>
      simp only [hig] at hw ⊢
      refine ⟨hy, ?_⟩
      simp only
      rw [← hw]
      split
      · simp [Prolog.pre]
      · rfl
    | err e => simp only [hig] at hw ⊢; exact ⟨hy, hw.symm⟩
    | closed k =>
      simp only [hig] at hw ⊢
      have hy' := PApp.tell_patient hp ((toDefault c.c (s.x c false) (b.take k)).map PEv.ev) y hy
      rw [if_neg hy', ← hw]
      exact Means.pre _ (hrun_means ho hpe hp more _ _ _ _ rfl rfl hy')

end Verif.Halt
