import Verif.ApiThm

/-! Sequences of calls that keep to the documentation. -/

set_option autoImplicit false

namespace Verif.Api
open Verif

variable {σ : Type} (E : Engine σ)

/-- `cs` are calls on `p`, each keeping to `Contract`, that returned `rs` and left `q`. -/
inductive Path : Parser σ → List Call → List (Ret σ Val) → Parser σ → Prop
  | nil (p : Parser σ) : Path p [] [] p
  | cons {p q : Parser σ} {c : Call} {r : Ret σ Val} {cs : List Call} {rs : List (Ret σ Val)} :
      Contract p c → step E p c = some r → Path r.st cs rs q → Path p (c :: cs) (r :: rs) q

variable {E}

theorem Path.inv (L : E.Lawful) {p q : Parser σ} {cs : List Call} {rs : List (Ret σ Val)} (h : Path E p cs rs q)
    (I : Inv p) : Inv q := by
  induction h with
  | nil => exact I
  | cons hc hs _ ih => exact ih (step_spec L I hc hs).1

theorem Path.steps {p q : Parser σ} {cs : List Call} {rs : List (Ret σ Val)} (h : Path E p cs rs q) :
    Api.steps E p cs = some (rs, q) := by
  induction h with
  | nil => rfl
  | cons _ hs _ ih => simp [Api.steps, hs, ih]

theorem Path.append {p q : Parser σ} {cs ds : List Call} {rs : List (Ret σ Val)} (h : Path E p (cs ++ ds) rs q) :
    ∃ r1 r2 m, rs = r1 ++ r2 ∧ Path E p cs r1 m ∧ Path E m ds r2 q := by
  induction cs generalizing p rs with
  | nil => exact ⟨[], rs, p, rfl, .nil p, h⟩
  | cons c cs ih =>
    cases h with
    | cons hc hs ht =>
      obtain ⟨r1, r2, m, rfl, h1, h2⟩ := ih ht
      exact ⟨_, r2, m, rfl, .cons hc hs h1, h2⟩

/-- The calls that hand input over. -/
def Call.isParse : Call → Bool
  | .parse _ _ | .parseBuffer _ _ => true
  | _ => false

def Call.isReset : Call → Bool
  | .reset _ => true
  | _ => false

/-- An engine to state examples with: the state is a number.  It takes bytes in pairs; the pair `!!`
suspends, `??` aborts, any other pair starting with `?` is an error, and every other pair is reported
as character data. -/
def toyProc : Nat → Nat → Bool → Buf → Done Nat
  | k, n, final, b =>
    match b with
    | [] => ⟨[], k, none, n, .PARSING, k, k⟩
    | [_] => if final then ⟨[], 0, some .UNCLOSED_TOKEN, n, .PARSING, k, k⟩ else ⟨[], k, none, n, .PARSING, k, k⟩
    | 0x21 :: 0x21 :: _ => ⟨[.chars [0x21, 0x21]], k + 2, none, n + 1, .SUSPENDED, k + 2, k + 2⟩
    | 0x3F :: 0x3F :: _ => ⟨[.chars [0x3F, 0x3F]], 0, some .ABORTED, n + 1, .FINISHED, k + 2, k + 2⟩
    | 0x3F :: _ :: _ => ⟨[], 0, some .INVALID_TOKEN, n, .PARSING, k, k⟩
    | x :: y :: b =>
      let d := toyProc (k + 2) (n + 1) final b
      { d with calls := .chars [x, y] :: d.calls }

def toy : Engine Nat where
  init := 0
  start _ s := some s
  proc _ s final b := toyProc 0 s final b
  upd _ b pos := some ⟨pos.line, pos.col + b.length⟩
  alloc _ := true

theorem toyProc_spec (k n : Nat) (f : Bool) (b : Buf) : (toyProc k n f b).used ≤ k + b.length ∧
    (toyProc k n f b).event ≤ k + b.length ∧ (toyProc k n f b).parsing ≠ .INITIALIZED := by
  fun_induction toyProc k n f b <;> grind

theorem toy_lawful : toy.Lawful where
  used _ s f b := by have := (toyProc_spec 0 s f b).1; simpa [toy] using this
  event _ s f b := by have := (toyProc_spec 0 s f b).2.1; simpa [toy] using this
  parsing _ s f b := (toyProc_spec 0 s f b).2.2

end Verif.Api
