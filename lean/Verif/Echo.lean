import Verif.Copy
import Verif.LocatedPlaces

/-! XML_DefaultCurrent (C75): what lies between `m_eventPtr` and `m_eventEndPtr` in each handler call made for content, and what the default
handler is given if the handlers pass it on. -/

set_option autoImplicit false

namespace Verif
open C43 C53 Spec C04 C65

/-- A handler call, with the bytes of the input from `m_eventPtr` to `m_eventEndPtr` at that time. -/
structure Shown where
  src : Buf
  ev : Ev
deriving DecidableEq, Repr

/-- Text that is converted, in content (src/lib/xmlparse.rs:4144-4166): `*eventEndPP` is where the converter stopped, then `*eventPP` is moved
there; one entry for each call, as in `deliver`. -/
def eaten (x : XEnc) (b : Buf) : List Buf :=
  let c := x.conv b 1024
  if c.res = .outputExhausted ∧ c.rest.length < b.length then b.take (b.length - c.rest.length) :: eaten x c.rest
  else [b.take (b.length - c.rest.length)]
termination_by b.length
decreasing_by exact (by assumption : _ ∧ _).2

/-- The same in a CDATA section (4980-5003), where `*eventEndPP` is the end of the token in every call. -/
def toEnd (x : XEnc) (b : Buf) : List Buf :=
  let c := x.conv b 1024
  if c.res = .outputExhausted ∧ c.rest.length < b.length then b :: toEnd x c.rest else [b]
termination_by b.length
decreasing_by exact (by assumption : _ ∧ _).2

/-- The calls of a token other than text.  `*eventPP` is its start and `*eventEndPP` its end (3603-3607, 4199, 4941-4947, 5043, 6885-6889, 6942);
for an empty-element tag whose start has been reported, `*eventPP = *eventEndPP` before the end is (3902-3904). -/
def showMarkup (w : Buf) : Bool → List Ev → List Shown
  | _, [] => []
  | _, .startElement n as k id :: E => ⟨w, .startElement n as k id⟩ :: showMarkup w true E
  | true, .endElement n :: E => ⟨[], .endElement n⟩ :: showMarkup w true E
  | st, v :: E => ⟨w, v⟩ :: showMarkup w st E

/-- The calls of a token, `m` being the processor at work.  (For calls of the default handler itself the bytes are of no use here.) -/
def showTok (x : XEnc) (m : Mode) (t : Tok) (w : Buf) (E : List Ev) : List Shown :=
  if t = .DATA_CHARS ∧ x.isUtf8 = false then List.zipWith Shown.mk (if m = .cdata then toEnd x w else eaten x w) E
  else showMarkup w false E

/-- The loops as in `run`, for handlers that do not stop the parser, with the bytes shown.  A final `\r` has `*eventEndPP` at the end (3613); for a
final `]` the tokenizer leaves `next` alone, so that nothing is between the pointers (3605-3607, 4104-4121). -/
def runShown (M : Sem CState) (x : XEnc) (more : Bool) (s : CState) (b : Buf) : List Shown × Out CState :=
  let r := (M.mode s).tok x.e b
  match (M.mode s).verdict r.tok with
  | .wait c => if more then ([], .ok s b) else ([], .err c)
  | .last t =>
    if more then ([], .ok s b) else
    match M.act s t b with
    | (E, .error c) => (showMarkup (if t = .DATA_CHARS then [] else b) false E, .err c)
    | (E, .ok s') => (showMarkup (if t = .DATA_CHARS then [] else b) false E, finish M s' [])
  | .done => if more then ([], .ok s b) else ([], finish M s b)
  | .stop => ([], .ok s b)
  | .fail c => ([], .err c)
  | .actStop =>
    match M.act s .PROLOG_S (b.take r.next) with
    | (E, .error c) => (showTok x (M.mode s) .PROLOG_S (b.take r.next) E, .err c)
    | (E, .ok s') => (showTok x (M.mode s) .PROLOG_S (b.take r.next) E, .ok s' (b.drop r.next))
  | .act =>
    match M.act s r.tok (b.take r.next) with
    | (E, .error c) => (showTok x (M.mode s) r.tok (b.take r.next) E, .err c)
    | (E, .ok s') =>
      if (b.drop r.next).length < b.length then
        let q := runShown M x more s' (b.drop r.next)
        (showTok x (M.mode s) r.tok (b.take r.next) E ++ q.1, q.2)
      else (showTok x (M.mode s) r.tok (b.take r.next) E, .ok s' b)
termination_by b.length
decreasing_by assumption

/-- Several calls of XML_Parse. -/
def feedShown (M : Sem CState) (x : XEnc) (s : CState) (rest : Buf) : List Buf → List Shown × Out CState
  | [] => runShown M x false s rest
  | [y] => runShown M x false s (rest ++ y)
  | y :: ys =>
    match runShown M x true s (rest ++ y) with
    | (E, .ok s' r) => let q := feedShown M x s' r ys; (E ++ q.1, q.2)
    | (E, .err c) => (E, .err c)

/-- src/lib/xmlparse.rs:3177-3203 XML_DefaultCurrent, outside of internal entities: the bytes between the pointers go to the default handler. -/
def defaultCurrent (c : Cfg) (x : XEnc) (src : Buf) : List Ev := toDefault c x src

/-- What the default handler is given during a call: what the parser gives it, or, if the handler called calls XML_DefaultCurrent (once), what
that gives it.  Handlers for namespace declarations do not call it: their markup is that of the tag. -/
def passOn (c : Cfg) (x : XEnc) (v : Shown) : List Ev :=
  match v.ev with
  | .dflt d => [.dflt d]
  | .startNs .. | .endNs .. => []
  | _ => defaultCurrent c x v.src

/-- All the text the default handler is given. -/
def echo (c : Cfg) (x : XEnc) (E : List Shown) : Buf := text (E.flatMap (passOn c x))

/-! ### The calls are those of `run` -/

theorem eaten_length (x : XEnc) (b : Buf) : (eaten x b).length = (deliver x b).length := by
  fun_induction deliver x b with
  | case1 b c h ih => rw [eaten.eq_def]; simp only [c] at h; simp only [if_pos h, List.length_cons]; exact congrArg Nat.succ ih
  | case2 b c h => rw [eaten.eq_def]; simp only [c] at h; simp only [if_neg h]; rfl

theorem toEnd_length (x : XEnc) (b : Buf) : (toEnd x b).length = (deliver x b).length := by
  fun_induction deliver x b with
  | case1 b c h ih => rw [toEnd.eq_def]; simp only [c] at h; simp only [if_pos h, List.length_cons]; exact congrArg Nat.succ ih
  | case2 b c h => rw [toEnd.eq_def]; simp only [c] at h; simp only [if_neg h]; rfl

theorem showMarkup_lists (w : Buf) (E : List Ev) : ∀ st, (showMarkup w st E).map (·.ev) = E := by
  induction E with
  | nil => intro st; rfl
  | cons v E ih => intro st; cases v <;> cases st <;> simp [showMarkup, ih]

theorem zip_lists (A : List Buf) : ∀ E : List Ev, A.length = E.length → (List.zipWith Shown.mk A E).map (·.ev) = E := by
  induction A with
  | nil => intro E h; cases E with
    | nil => rfl
    | cons v E => cases h
  | cons a A ih => intro E h; cases E with
    | nil => cases h
    | cons v E => simp only [List.zipWith_cons_cons, List.map_cons]; rw [ih E (by simpa using h)]

end Verif
