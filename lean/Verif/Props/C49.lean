import Verif.Props.C39

/-! C49: configuration setters are refused once parsing has started. -/

set_option autoImplicit false

namespace Verif.C49
open Verif Verif.Api

variable {σ : Type} {E : Engine σ}

/-- The setters, with the change they ask for and the values they return for refusal and success. -/
def Setter : Call → Option ((Conf → Conf) × Val × Val)
  | .setEncoding n => some (fun c => { c with encoding := n }, .status .ERROR, .status .OK)
  | .useForeignDtd u => some (fun c => { c with foreignDtd := u }, .code (some .CANT_CHANGE_FEATURE_ONCE_PARSING), .code none)
  | .setTriplets b => some (fun c => { c with triplets := b }, .unit, .unit)
  | .setPe x => some (fun c => { c with pe := x }, .num 0, .num 1)
  | _ => none

/-- **C49**: a setter called while a parse is in progress or suspended changes nothing at all and returns
failure (XML_SetReturnNSTriplet returns nothing); otherwise it changes its own setting and nothing else. -/
theorem setter (p : Parser σ) {c : Call} {f : Conf → Conf} {no yes : Val} (h : Setter c = some (f, no, yes)) :
    step E p c = some (if p.parsing = .PARSING ∨ p.parsing = .SUSPENDED then { val := no, st := p }
      else { val := yes, st := { p with conf := f p.conf } }) := by
  cases c <;> simp only [Setter, reduceCtorEq, Option.some.injEq, Prod.mk.injEq] at h <;> obtain ⟨rfl, rfl, rfl⟩ := h <;>
    simp only [step, setEncoding, useForeignDtd, setTriplets, setPe, busy] <;>
    by_cases hp : p.parsing = .PARSING ∨ p.parsing = .SUSPENDED <;> simp [hp, Ret.as]

/-- The settings of a parser change by a setter, or by a reset, only. -/
theorem conf_fixed (L : E.Lawful) {p : Parser σ} (I : Inv p) {c : Call} (hc : Contract p c) {r : Ret σ Val}
    (h : step E p c = some r) (h1 : Setter c = none) (h2 : c.isReset = false) : r.st.conf = p.conf := by
  obtain ⟨_, mem, _, hm⟩ := step_spec L I hc h
  by_cases hq : c.isQuery = true
  · rw [if_pos hq] at hm
    exact congrArg Queue.conf hm.2.2
  rw [if_neg hq] at hm
  have h3 : r.st.conf = (Queue.step E mem p.queue c).st.conf := congrArg (fun x => x.st.conf) hm
  have h4 : p.conf = p.queue.conf := rfl
  rw [h3, h4]
  generalize p.queue = a
  have set : ∀ (a : Queue σ) b d, (Queue.settle a b d).st.conf = a.conf := by
    intro a b d
    unfold Queue.settle
    cases d.code with
    | some c => rfl
    | none => by_cases hs : d.parsing = .SUSPENDED <;> simp [hs]
  have inp : ∀ (a : Queue σ) w f, (Queue.input E a w f).st.conf = a.conf := fun a w f => set _ _ _
  have st : ∀ (k : Queue σ → QRet σ), (∀ a, (k a).st.conf = a.conf) → (Queue.started E a k).st.conf = a.conf := by
    intro k hk
    unfold Queue.started
    split
    · rfl
    · rfl
    · exact hk _
    · split
      · exact hk _
      · split
        · rfl
        · exact hk _
  cases c with
  | parse w f =>
    refine st _ ?_
    intro a
    split
    · rfl
    · split
      · rfl
      · exact inp a w f
  | parseBuffer w f => exact st _ (fun a => inp a w f)
  | resume =>
    simp only [Queue.step]
    split
    · exact set _ _ _
    · rfl
  | parseBad => rfl
  | getBuffer len =>
    simp only [Queue.step]
    split
    · rfl
    · split
      · rfl
      · rfl
      · split <;> rfl
  | stop b =>
    simp only [Queue.step]
    cases a.parsing <;> cases b <;> cases a.paramEntity <;> rfl
  | reset e => cases h2
  | setEncoding n => cases h1
  | useForeignDtd n => cases h1
  | setTriplets n => cases h1
  | setPe n => cases h1
  | getError => rfl
  | lineNumber => rfl
  | columnNumber => rfl
  | byteIndex => rfl
  | byteCount => rfl

/-- **C49** over histories: as long as a parse is in progress or suspended, the settings stay what they
were when it started, whatever is called. -/
theorem history (L : E.Lawful) {p q : Parser σ} {cs : List Call} {rs : List (Ret σ Val)} (h : Path E p cs rs q) (I : Inv p)
    (hp : p.parsing = .PARSING ∨ p.parsing = .SUSPENDED)
    (hr : ∀ r ∈ rs, r.st.parsing = .PARSING ∨ r.st.parsing = .SUSPENDED) (hres : ∀ c ∈ cs, c.isReset = false) :
    q.conf = p.conf := by
  induction h with
  | nil => rfl
  | @cons p q c r cs rs hc hs _ ih =>
    have h1 := ih (step_spec L I hc hs).1 (hr r (by simp)) (fun r hr' => hr r (by simp [hr'])) (fun c hc' => hres c (by simp [hc']))
    rw [h1]
    match hset : Setter c with
    | none => exact conf_fixed L I hc hs hset (hres c (by simp))
    | some (f, no, yes) =>
      rw [setter p hset, if_pos hp] at hs
      cases hs
      rfl

/-- After a successful non-final parse call the status is one of the two. -/
example : ((steps toy (create toy (some [0x41])) [.setEncoding none, .setPe .always, .useForeignDtd true, .parse [0x61, 0x62] false,
      .setEncoding (some [0x42]), .useForeignDtd false, .setTriplets true, .setPe .never]).map fun x =>
        (x.1.map (·.val), x.2.conf, x.2.parsing)) =
    some ([.status .OK, .num 1, .code none, .status .OK, .status .ERROR, .code (some .CANT_CHANGE_FEATURE_ONCE_PARSING), .unit, .num 0],
      ⟨none, true, false, .always⟩, .PARSING) := by decide +kernel

end Verif.C49
