import Verif.ApiAbort
import Verif.Props.C83

/-! # C84: a handler that ends the parse

Handlers of any kind, in the prolog and in the content: they may suspend the parser (C83), and they may end the parse by XML_StopParser
with XML_FALSE. -/

set_option autoImplicit false
set_option synthInstance.maxSize 1000

namespace Verif.C84
open C43 C53 C59 C60 C63 Spec Verif PState Api Halt C83

variable {α : Type} {C : PCfg} {ext : Ext} {fuel : Nat} {app : PApp α} {a0 : α} {upd : Buf → Pos → Option Pos} {alloc : Nat → Bool}

local notation "En" => haltEngine C ext fuel app a0 upd alloc

/-- One of the handlers ends the parse. -/
def Ends (app : PApp α) (a : α) (E : List PEv) : Prop := ∃ E1 v E2, E = E1 ++ v :: E2 ∧ (app (state app a E1) v).2 = some false

theorem tell_over (E : List PEv) : ∀ a, (app.tell (a, .abort) E).2 = .abort := by
  induction E with
  | nil => intro a; rfl
  | cons v E ih =>
    intro a
    have h : Stop.ask .abort (app a v).2 = .abort := by
      generalize (app a v).2 = o
      rcases o with _ | _ | _ <;> rfl
    simp only [PApp.tell, h]
    exact ih _

theorem tell_ends (E : List PEv) : ∀ a k, k ≠ .abort → ((app.tell (a, k) E).2 = .abort ↔ Ends app a E) := by
  induction E with
  | nil =>
    intro a k hk
    constructor
    · intro h; exact absurd h hk
    · rintro ⟨E1, v, E2, h, -⟩; simp at h
  | cons v E ih =>
    intro a k hk
    simp only [PApp.tell]
    by_cases ho : (app a v).2 = some false
    · rw [ho, show Stop.ask k (some false) = .abort by cases k <;> rfl, tell_over]
      simp only [true_iff]
      exact ⟨[], v, E, rfl, ho⟩
    · have hk' : Stop.ask k (app a v).2 ≠ .abort := by
        generalize (app a v).2 = o at *
        cases k <;> rcases o with _ | _ | _ <;> simp_all [Stop.ask]
      rw [ih _ _ hk']
      constructor
      · rintro ⟨E1, u, E2, rfl, h⟩; exact ⟨v :: E1, u, E2, rfl, h⟩
      · rintro ⟨E1, u, E2, h, h'⟩
        cases E1 with
        | nil => cases h; exact absurd h' ho
        | cons v' E1 => cases h; exact ⟨E1, u, E2, rfl, h'⟩

/-! ### After the end -/

/-- The parse is over. -/
structure Over (a : Queue (Inner × α)) : Prop where
  over : a.failed = true ∨ a.parsing = .FINISHED
  suspended : a.parsing ≠ .SUSPENDED

theorem give_over (a : Queue (Inner × α)) (h : a.failed = true) (hp : a.parsing ≠ .SUSPENDED) (b : Buf) (keep : Nat → Buf) :
    (Queue.give En a b keep).st.inner = a.inner ∧ Over (Queue.give En a b keep).st := by
  simp only [Queue.give, Queue.work, h, if_true, Queue.settle]
  cases a.error with
  | some e => exact ⟨rfl, .inl rfl, hp⟩
  | none =>
    simp only [if_neg hp]
    refine ⟨trivial, .inl rfl, ?_⟩
    simp only
    split
    · simp
    · exact hp

theorem started_over (a : Queue (Inner × α)) (O : Over a) (k : Queue (Inner × α) → QRet (Inner × α))
    (hk : ∀ a', a'.failed = true → a'.parsing ≠ .SUSPENDED → a'.inner = a.inner → (k a').st.inner = a.inner ∧ Over (k a').st) :
    (Queue.started En a k).st.inner = a.inner ∧ Over (Queue.started En a k).st := by
  obtain ⟨o1, o2⟩ := O
  unfold Queue.started
  split
  · rename_i h; exact absurd h o2
  · exact ⟨rfl, o1, o2⟩
  · rename_i h; exact hk _ (o1.resolve_right (by simp [h])) o2 rfl
  · rename_i h
    have hf := o1.resolve_right (by simp [h])
    split
    · exact hk _ hf (by simp) rfl
    · exact hk _ hf (by simp) rfl

theorem over_step {p : Parser (Inner × α)} {c : Call} (hc : Contract p c) (hr : c.isReset = false) (mem : Bool) (O : Over p.queue) :
    (Queue.step En mem p.queue c).st.inner = p.queue.inner ∧ Over (Queue.step En mem p.queue c).st := by
  have O' := O
  obtain ⟨o1, o2⟩ := O
  have input : ∀ (w : Buf) (fin : Bool) (a' : Queue (Inner × α)), a'.failed = true → a'.parsing ≠ .SUSPENDED → a'.inner = p.queue.inner →
      (Queue.input En a' w fin).st.inner = p.queue.inner ∧ Over (Queue.input En a' w fin).st := by
    intro w fin a' h1 h2 h3
    have := give_over (C := C) (ext := ext) (fuel := fuel) (app := app) (a0 := a0) (upd := upd) (alloc := alloc)
      { a' with total := a'.total + w.length, final := fin } h1 h2 (a'.pending ++ w) (fun n => (a'.pending ++ w).drop n)
    exact ⟨this.1.trans h3, this.2⟩
  cases c with
  | parse w fin =>
    refine started_over p.queue O' _ fun a' h1 h2 h3 => ?_
    split
    · exact ⟨h3, .inl h1, h2⟩
    · split
      · exact ⟨h3, .inl h1, h2⟩
      · exact input w fin a' h1 h2 h3
  | parseBad => exact ⟨rfl, o1, o2⟩
  | getBuffer len =>
    simp only [Queue.step]
    split
    · exact ⟨rfl, o1, o2⟩
    · split
      · exact ⟨rfl, o1, o2⟩
      · exact ⟨rfl, o1, o2⟩
      · split <;> exact ⟨rfl, o1, o2⟩
  | parseBuffer w fin => exact started_over p.queue O' _ fun a' h1 h2 h3 => input w fin a' h1 h2 h3
  | stop resumable =>
    simp only [Contract] at hc
    subst hc
    simp only [Queue.step]
    split
    · exact ⟨rfl, o1, o2⟩
    · rename_i h; cases h
    · exact ⟨rfl, .inr rfl, by simp⟩
    · simp_all
  | resume => simp only [Queue.step, if_neg o2]; exact ⟨rfl, o1, o2⟩
  | reset enc => cases hr
  | setEncoding n => simp only [Queue.step]; split <;> exact ⟨rfl, o1, o2⟩
  | useForeignDtd u => simp only [Queue.step]; split <;> exact ⟨rfl, o1, o2⟩
  | setTriplets b => simp only [Queue.step]; split <;> exact ⟨rfl, o1, o2⟩
  | setPe x => simp only [Queue.step]; split <;> exact ⟨rfl, o1, o2⟩
  | getError => exact ⟨rfl, o1, o2⟩
  | lineNumber => exact ⟨rfl, o1, o2⟩
  | columnNumber => exact ⟨rfl, o1, o2⟩
  | byteIndex => exact ⟨rfl, o1, o2⟩
  | byteCount => exact ⟨rfl, o1, o2⟩

/-- Whatever is called afterwards, XML_ParserReset excepted, no handler is. -/
theorem over_silent {p q : Parser (Inner × α)} {cs : List Call} {rs : List (Ret (Inner × α) Val)} (h : Path En p cs rs q) :
    Inv p → Over p.queue → (∀ c ∈ cs, c.isReset = false) → q.inner = p.inner := by
  induction h with
  | nil => intros; rfl
  | @cons p q c r cs rs hc hs _ ih =>
    intro I O hr
    obtain ⟨J, m, -, e⟩ := step_spec (haltEngine_lawful C ext fuel app a0 upd alloc) I hc hs
    have key : r.st.queue.inner = p.queue.inner ∧ Over r.st.queue := by
      split at e
      · rw [e.2.2]; exact ⟨rfl, O⟩
      · have := over_step (C := C) (ext := ext) (fuel := fuel) (app := app) (a0 := a0) (upd := upd) (alloc := alloc) hc (hr c (by simp)) m O
        rw [← e] at this
        exact this
    exact (ih J key.2 (fun c h => hr c (by simp [h]))).trans key.1

/-- A call of XML_Parse, whatever the handlers do. -/
theorem parse_any {p : Parser (Inner × α)} (O : Open p) {w : Buf} {fin : Bool} (hw : w ≠ [] ∨ fin = true)
    (hc : Contract p (.parse w fin)) {r : Ret (Inner × α) Val} (h : step En p (.parse w fin) = some r) :
    Inv r.st ∧ ((r.st.inner = p.inner ∧ r.val = .status .ERROR ∧ r.st.error = some .NO_MEMORY) ∨
      r.q = Queue.give En { p.queue with parsing := .PARSING, total := p.queue.total + w.length, final := fin } (p.queue.pending ++ w)
      fun n => (p.queue.pending ++ w).drop n) := by
  obtain ⟨J, m, hm, e⟩ := step_spec (haltEngine_lawful C ext fuel app a0 upd alloc) O.inv hc h
  refine ⟨J, ?_⟩
  rw [if_neg (by simp [Call.isQuery])] at e
  simp only [Queue.step, started_open p.queue O.parsing O.child] at e
  rw [if_neg (by rcases hw with hw | hw <;> simp [hw])] at e
  split at e
  · left
    have k := congrArg QRet.st e
    exact ⟨congrArg Queue.inner k, congrArg QRet.val e, congrArg Queue.error k⟩
  · exact .inr e

/-- What XML_Parse makes of what its processor does. -/
theorem given_turn {p : Parser (Inner × α)} (O : Open p) {w : Buf} {fin : Bool} {r : Ret (Inner × α) Val}
    (e : r.q = Queue.give En { p.queue with parsing := .PARSING, total := p.queue.total + w.length, final := fin } (p.queue.pending ++ w)
      fun n => (p.queue.pending ++ w).drop n)
    {t : Turn × (α × Stop)} (ht : hturn C ext fuel app p.conf p.inner.1.stage (p.inner.2, .go) fin (p.queue.pending ++ w) = t) :
    r.st.inner.1 = ⟨t.1.stage, p.inner.1.P ++ t.1.P, p.inner.1.F ++ t.1.F⟩ ∧ r.st.error = t.1.code ∧
      (t.1.code ≠ none ∨ t.2.2 = .abort → Over r.st.queue) ∧
      (t.1.code ≠ none → r.val = .status .ERROR) := by
  have e1 := congrArg QRet.st e
  have e0 := congrArg QRet.val e
  simp only [Queue.give, Queue.work, show p.queue.failed = false from O.failed, Bool.false_eq_true, if_false] at e1 e0
  have hE : (haltEngine C ext fuel app a0 upd alloc).proc p.queue.conf p.queue.inner fin (p.queue.pending ++ w) =
      ⟨t.1.F, if t.1.code = none then (p.queue.pending ++ w).length - t.1.rest.length else 0, t.1.code,
        (⟨t.1.stage, p.inner.1.P ++ t.1.P, p.inner.1.F ++ t.1.F⟩, t.2.1),
        if t.1.code = none then t.2.2.parsing else if t.1.code = some .ABORTED then .FINISHED else .PARSING,
        if t.1.code = none then (p.queue.pending ++ w).length - t.1.rest.length else 0,
        if t.1.code = none then (p.queue.pending ++ w).length - t.1.rest.length else 0⟩ := by
    subst ht; rfl
  rw [hE] at e1 e0
  obtain ⟨⟨P, F, st, rest, code⟩, a', k⟩ := t
  have e1 : r.st.queue = _ := e1
  have g1 : r.st.inner.1 = r.st.queue.inner.1 := rfl
  have g2 : r.st.error = r.st.queue.error := rfl
  rw [g1, g2, e1]
  cases code with
  | some d =>
    refine ⟨rfl, rfl, fun _ => ⟨.inl rfl, ?_⟩, fun _ => e0⟩
    simp only [Queue.settle]
    cases d <;> simp
  | none =>
    cases k with
    | go => exact ⟨rfl, rfl, fun h => (by simp at h), fun h => absurd rfl h⟩
    | suspend => exact ⟨rfl, rfl, fun h => (by simp at h), fun h => absurd rfl h⟩
    | abort =>
      refine ⟨rfl, rfl, fun _ => ⟨.inr ?_, ?_⟩, fun h => absurd rfl h⟩
      · simp [Queue.settle, Stop.parsing]
      · simp [Queue.settle, Stop.parsing]

/-- **C84**, as far as it holds.  In a call of XML_Parse, one of possibly many, the handlers do what they like.

`P`, `F`: the handler calls made in it, in the prolog and in the content.  A parser in the same state whose handlers do not stop it
(`p'`) makes these calls first in the same call, and maybe more; an error found is XML_ERROR_ABORTED or the error found there; and if one
of the handlers ended the parse, then no handler is called ever after, whatever functions are called, unless the parser is reset.

Missing, because it is false of the code (`unnoticed`): that the call in which a handler ends the parse returns XML_STATUS_ERROR and
XML_ERROR_ABORTED.  Missing too: handlers that stop the parser within the text of an entity; `NoDtd`: see C83. -/
theorem ended_partial {p : Parser (Inner × α)} (O : Open p) (_ : NoDtd p.conf) {w : Buf} {fin : Bool} (hw : w ≠ [] ∨ fin = true)
    (hc : Contract p (.parse w fin)) {r : Ret (Inner × α) Val} (h : step En p (.parse w fin) = some r) (hm : r.st.error ≠ some .NO_MEMORY)
    {upd' : Buf → Pos → Option Pos} {alloc' : Nat → Bool} (ha : ∀ n, alloc' n = true) {p' : Parser Inner} {r' : Ret Inner Val} (R : Reading p')
    (hs : Fits p' [.parse w fin]) (hcf : p'.conf = p.conf) (hin : p'.inner = p.inner.1) (hpd : p'.queue.pending = p.queue.pending)
    (h' : step (docEngine C ext fuel upd' alloc') p' (.parse w fin) = some r') :
    ∃ P F P' F', r.st.inner.1.P = p.inner.1.P ++ P ∧ r.st.inner.1.F = p.inner.1.F ++ F ∧
      r'.st.inner.P = p'.inner.P ++ P' ∧ r'.st.inner.F = p'.inner.F ++ F' ∧
      P ++ F.map .ev <+: P' ++ F'.map .ev ∧
      (∀ d, r.st.error = some d → d = .ABORTED ∨ r'.st.error = some d) ∧
      (Ends app p.inner.2 (P ++ F.map .ev) → ∀ cs rs q, Path En r.st cs rs q → (∀ c ∈ cs, c.isReset = false) → q.inner = r.st.inner) := by
  obtain ⟨J, e⟩ := parse_any O hw hc h
  have e := e.resolve_left (fun h => hm h.2.2)
  obtain ⟨-, -, j1, j2, -⟩ := input_turn ha R hw hs hc h' rfl
  rw [hcf, hin, hpd] at j1 j2
  have hf := hturn_first (ext := ext) (fuel := fuel) (app := app) C p.conf p.inner.1.stage (p.inner.2, .go) fin (p.queue.pending ++ w)
  have hh := hturn_heard (ext := ext) (fuel := fuel) (app := app) C p.conf p.inner.1.stage (p.inner.2, .go) fin (p.queue.pending ++ w)
  generalize turn C ext fuel p.conf p.inner.1.stage fin (p.queue.pending ++ w) = u at *
  generalize ht : hturn C ext fuel app p.conf p.inner.1.stage (p.inner.2, .go) fin (p.queue.pending ++ w) = t at *
  obtain ⟨k1, k2, k3, -⟩ := given_turn O e ht
  refine ⟨t.1.P, t.1.F, u.P, u.F, by rw [k1], by rw [k1], by rw [j1, hin], by rw [j1, hin], hf.1, ?_, ?_⟩
  · intro d hd
    rw [k2] at hd
    rw [j2]
    exact hf.2 d hd
  · intro hE cs rs q hp hr
    refine over_silent hp J (k3 ?_) hr
    cases hcode : t.1.code with
    | some d => left; simp
    | none => right; rw [hh hcode]; exact (tell_ends _ _ _ (by simp)).2 hE

/-- Parameter entities are not read (XML_PARAM_ENTITY_PARSING_NEVER, the default), and were not when the parse began. -/
structure Unread (p : Parser (Inner × α)) : Prop where
  conf : p.conf.pe = .never
  stage : ∀ s, p.inner.1.stage = .prolog s → s.pe = .never

/-- This stays so from call to call. -/
theorem unread_parse {p : Parser (Inner × α)} (O : Open p) (U : Unread p) {w : Buf} {fin : Bool} (hw : w ≠ [] ∨ fin = true)
    (hc : Contract p (.parse w fin)) {r : Ret (Inner × α) Val} (h : step En p (.parse w fin) = some r) :
    ∀ s, r.st.inner.1.stage = .prolog s → s.pe = .never := by
  obtain ⟨-, e⟩ := parse_any O hw hc h
  rcases e with ⟨e, -⟩ | e
  · rw [e]; exact U.stage
  · rw [(given_turn O e rfl).1]
    exact hturn_unread C p.conf p.inner.1.stage (p.inner.2, .go) fin (p.queue.pending ++ w) U.conf U.stage

/-- **C84**: the call in which a handler, of the prolog or of the content, ends the parse returns XML_STATUS_ERROR, unless the parser is
left within an ignored section or within a CDATA section.

Missing, because it is false of the code (`unnoticed`): the same within a CDATA section. -/
theorem noticed_partial {p : Parser (Inner × α)} (O : Open p) (U : Unread p) {w : Buf} {fin : Bool} (hw : w ≠ [] ∨ fin = true)
    (hc : Contract p (.parse w fin)) {r : Ret (Inner × α) Val} (h : step En p (.parse w fin) = some r)
    {P : List PEv} {F : List Ev} (hP : r.st.inner.1.P = p.inner.1.P ++ P) (hF : r.st.inner.1.F = p.inner.1.F ++ F)
    (hE : Ends app p.inner.2 (P ++ F.map .ev))
    (hi : ∀ s, r.st.inner.1.stage = .prolog s → s.ignoring = false) (hd : ∀ z s, r.st.inner.1.stage = .content z s → s.mode ≠ .cdata) :
    r.val = .status .ERROR ∧ r.st.error ≠ none := by
  obtain ⟨-, e⟩ := parse_any O hw hc h
  rcases e with ⟨-, e1, e2⟩ | e
  · exact ⟨e1, by rw [e2]; simp⟩
  have hh := hturn_heard (ext := ext) (fuel := fuel) (app := app) C p.conf p.inner.1.stage (p.inner.2, .go) fin (p.queue.pending ++ w)
  have hn := hturn_seen (ext := ext) (fuel := fuel) (app := app) C p.conf p.inner.1.stage (p.inner.2, .go) fin (p.queue.pending ++ w)
    U.conf U.stage (by simp)
  generalize ht : hturn C ext fuel app p.conf p.inner.1.stage (p.inner.2, .go) fin (p.queue.pending ++ w) = t at *
  obtain ⟨k1, k2, -, k4⟩ := given_turn O e ht
  have hcode : t.1.code ≠ none := by
    intro hcode
    have eP : P = t.1.P := List.append_cancel_left (hP.symm.trans (by rw [k1]))
    have eF : F = t.1.F := List.append_cancel_left (hF.symm.trans (by rw [k1]))
    subst eP eF
    have hab : t.2.2 = .abort := by rw [hh hcode]; exact (tell_ends _ _ _ (by simp)).2 hE
    rcases hn hcode hab with ⟨s, h1, h2⟩ | ⟨z, s, h1, h2⟩
    · have := hi s (by rw [k1]; exact h1)
      rw [h2] at this; cases this
    · exact hd z s (by rw [k1]; exact h1) h2
  exact ⟨k4 hcode, by rw [k2]; exact hcode⟩

/-! ### Examples -/

/-- Handlers which end the parse once they hear of an entity `b` or of a CDATA section. -/
def quit : PApp Unit := fun _ v => ((), match v with
  | .entityDecl n .. => if n = [0x62] then some false else none
  | .ev .startCdata => some false
  | _ => none)

def exEngine : Engine (Inner × Unit) := haltEngine C59.exCfg C61.exExt 200 quit () C63.exUpd fun _ => true

/-- Reports in short. -/
def short : Ev → Nat × Buf
  | .startElement n .. => (0, n)
  | .startCdata => (1, [])
  | .chars t => (2, t)
  | _ => (3, [])

/-- What calls on a new parser return, the error code and the status of the parser then, and what has been heard by then. -/
def trace (cs : List Call) : Option (List (Val × Option XErr × Parsing × List Buf × List (Nat × Buf))) :=
  (steps exEngine (create exEngine none) cs).map fun x => x.1.map fun r =>
    (r.val, r.st.error, r.st.parsing, r.st.inner.1.P.filterMap (fun v => match v with | .entityDecl n .. => some n | .notationDecl n .. => n | _ => none), r.st.inner.1.F.map short)

/-- Ended at the entity `b`; nothing more is heard. -/
theorem ex_ended : trace [.parse (C83.exDoc.take 20) false, .parse (C83.exDoc.drop 20) true, .resume, .parse [] true] =
    some [(.status .OK, none, .PARSING, [], []), (.status .ERROR, some .ABORTED, .FINISHED, [[0x62]], []),
      (.status .ERROR, some .NOT_SUSPENDED, .FINISHED, [[0x62]], []), (.status .ERROR, some .FINISHED, .FINISHED, [[0x62]], [])] := by decide +kernel

/-- One of the handlers called there ends the parse. -/
example : Ends quit () [.startDoctype (some [0x61]) none none true, .entityDecl [0x62] false (some [0x78]) none none none none] :=
  ⟨[_], _, [], rfl, rfl⟩

/-- Where the parser is: in the prolog outside ignored sections (0), in the content outside CDATA sections (1), elsewhere (2). -/
def place (t : Stage) : Nat := match t with
  | .prolog s => if s.ignoring then 2 else 0
  | .content _ s => if s.mode = .cdata then 2 else 1
  | _ => 2

/-- `noticed_partial` at work in the prolog, and in the content. -/
example : (steps exEngine (create exEngine none) [.parse C83.exDoc true]).map (fun x => x.1.map fun r => (r.val, place r.st.inner.1.stage)) =
    some [(.status .ERROR, 0)] := by decide +kernel
example : (steps exEngine (create exEngine none) [.parse "<a>".toUTF8.toList false, .parse "<![CDATA[x]]>".toUTF8.toList false]).map
    (fun x => x.1.map fun r => (r.val, place r.st.inner.1.stage)) = some [(.status .OK, 1), (.status .ERROR, 1)] := by decide +kernel
example : (steps exEngine (create exEngine none) [.parse "<a><![CDATA[x]]>".toUTF8.toList false]).map
    (fun x => x.1.map fun r => (r.val, place r.st.inner.1.stage)) = some [(.status .ERROR, 1)] := by decide +kernel

/-- A new parser does not read parameter entities. -/
example : Unread (create exEngine none) := ⟨rfl, fun _ h => by cases h⟩

/-- The calls of the example. -/
example : Open (create exEngine none) ∧ NoDtd (create exEngine none).conf ∧ Reading (create C63.exEngine none) ∧
    C63.Fits (create C63.exEngine none) [.parse C83.exDoc true] ∧ (create C63.exEngine none).conf = (create exEngine none).conf ∧
    (create C63.exEngine none).inner = (create exEngine none).inner.1 ∧ (create C63.exEngine none).queue.pending = (create exEngine none).queue.pending :=
  ⟨(C83.new_create (C := C59.exCfg) (ext := C61.exExt) (fuel := 200) (app := quit) (a0 := ()) (upd := C63.exUpd) (alloc := fun _ => true) none).opens, ⟨rfl, rfl⟩,
    (C63.new_create (C := C59.exCfg) (ext := C61.exExt) (fuel := 200) (upd := C63.exUpd) (alloc := fun _ => true) none).reading, by unfold C63.Fits; decide +kernel, rfl, rfl, rfl⟩

/-- **C84 fails**: after the start of a CDATA section the status is not looked at; if the input ends there for now, XML_Parse returns
XML_STATUS_OK although the parse is over. -/
theorem unnoticed : trace [.parse "<a><![CDATA[".toUTF8.toList false, .parse "x]]></a>".toUTF8.toList true] =
    some [(.status .OK, none, .FINISHED, [], [(0, [0x61]), (1, [])]),
      (.status .ERROR, some .FINISHED, .FINISHED, [], [(0, [0x61]), (1, [])])] := by decide +kernel

/-- **C84 fails**: otherwise the text of the section is reported all the same, and only then the parse ends. -/
theorem one_more : trace [.parse "<a><![CDATA[x]]></a>".toUTF8.toList true] =
    some [(.status .ERROR, some .ABORTED, .FINISHED, [], [(0, [0x61]), (1, []), (2, [0x78])])] := by decide +kernel

end Verif.C84
