import Verif.Props.C63

/-! C42 for the processors of whole documents: `Engine.init` is the state before the first byte (src/lib/xmlparse.rs:1755-1805). -/

set_option autoImplicit false

namespace Verif.C42
open Verif Verif.Api C63

section
variable {C : PCfg} {ext : Ext} {fuel : Nat} {upd : Buf → Pos → Option Pos} {alloc : Nat → Bool}

local notation "En" => docEngine C ext fuel upd alloc

/-- After a reset, whatever was parsed before, any calls lead to the same results and the same handler calls in prolog and
content, and leave the same declarations, open elements and encoding, as on a new parser. -/
theorem reset_document_partial (ha : ∀ k, alloc k = true) {p0 p : Parser Inner} {cs0 : List Call} {rs0 : List (Ret Inner Val)} (I : Inv p0) (h : Path En p0 cs0 rs0 p)
    (hp : p.child = false) (enc : Option Buf) :
    ∃ p', step En p (.reset enc) = some { val := .bool true, st := p' } ∧
      ∀ {cs rs1 rs2 q1 q2}, Path En p' cs rs1 q1 → Path En (fresh En enc p.conf.triplets) cs rs2 q2 → (cs.map bytes).sum + 1024 ≤ 2 ^ 30 →
        (cs.zip rs1).map seen = (cs.zip rs2).map seen ∧ q1.inner = q2.inner ∧ q1.error = q2.error ∧ q1.parsing = q2.parsing := by
  have L := docEngine_lawful C ext fuel upd alloc
  have I := h.inv L I
  have hs : step En p (.reset enc) = some { val := .bool true, st := (reset En p enc).st } := by
    simp [step, reset, hp, Ret.as]
  refine ⟨_, hs, ?_⟩
  intro cs rs1 rs2 q1 q2 h1 h2 hsz
  have hq : (reset En p enc).st.queue = { (fresh En enc p.conf.triplets).queue with final := p.final } := by
    simp [reset, hp, fresh, Api.create, Parser.queue]
  have If : Inv (fresh En enc p.conf.triplets) := by constructor <;> simp [fresh, Api.create]
  obtain ⟨k1, f, k2, -⟩ := alike L ha h1 h2 (step_spec (c := .reset enc) L I trivial hs).1 If ⟨p.final, hq, fun g => by cases g⟩ (by
    rw [hq]
    simpa [fresh, Api.create, Parser.queue] using hsz)
  exact ⟨k1, congrArg Queue.inner k2, congrArg Queue.error k2, congrArg Queue.parsing k2⟩

end

/-- A parser in the middle of a document. -/
example : ∃ rs p, Path exEngine (create exEngine none) (calls ["<!DOCTYPE a [".toUTF8.toList] "<!ENTITY".toUTF8.toList) rs p :=
  path_exists (fun b x => by simp [exUpd]) _ (by decide +kernel) _ (.create none) (by decide +kernel)

end Verif.C42
