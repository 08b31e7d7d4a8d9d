import Verif.Props.C24

/-! Comments, processing instructions and public identifiers as handed to the application
(src/lib/xmlparse.rs:7575-7677, 8115-8140). -/

namespace Verif

/-- src/lib/xmlparse.rs:7579-7587: look for the first CR (`some (some i)`); `some none`: the string ends
without one; `none`: reading past the end of the slice. -/
def nlFind (m : List UInt8) (s : Nat) : Option (Option Nat) :=
  if h : s < m.length then
    if m[s] = 0 then some none else if m[s] = 0x0D then some (some s) else nlFind m (s + 1)
  else none
termination_by m.length - s

/-- src/lib/xmlparse.rs:7591-7604: one turn of the copying loop, in place, with write position `p` and
read position `s`: the memory and the new read position. -/
def nlStep (m : List UInt8) (p s : Nat) : List UInt8 × Nat :=
  if m.getD s 0 = 0x0D then
    (m.set p 0x0A, if (m.set p 0x0A)[s + 1]? = some 0x0A then s + 2 else s + 1)
  else (m.set p (m.getD s 0), s + 1)

theorem nlStep_dec (m : List UInt8) (p s : Nat) :
    (nlStep m p s).1.length = m.length ∧ s < (nlStep m p s).2 := by
  unfold nlStep
  repeat' split
  all_goals simp

/-- src/lib/xmlparse.rs:7589-7608: the copying loop; `none`: an access past the end of the slice. -/
def nlCopy (m : List UInt8) (p s : Nat) : Option (List UInt8) :=
  if s < m.length then
    match (nlStep m p s).1[(nlStep m p s).2]? with
    | none => none
    | some c =>
      if c = 0 then some ((nlStep m p s).1.set (p + 1) 0)
      else nlCopy (nlStep m p s).1 (p + 1) (nlStep m p s).2
  else none
termination_by m.length - s
decreasing_by have := nlStep_dec m p s; omega

/-- src/lib/xmlparse.rs:7575-7609 `normalizeLines` on the memory of a slice. -/
def normalizeLines (m : List UInt8) : Option (List UInt8) :=
  match nlFind m 0 with
  | none => none
  | some none => some m
  | some (some i) => nlCopy m i i

/-- src/lib/xmlparse.rs:8118-8135: the loop of `normalizePublicId`, in place. -/
def npiLoop (m : List UInt8) (p s : Nat) : Option (List UInt8 × Nat) :=
  if h : s < m.length then
    if m[s] = 0 then some (m, p)
    else if m[s] = 0x20 ∨ m[s] = 0x0D ∨ m[s] = 0x0A then
      if p ≠ 0 ∧ m.getD (p - 1) 0 ≠ 0x20 then npiLoop (m.set p 0x20) (p + 1) (s + 1)
      else npiLoop m p (s + 1)
    else npiLoop (m.set p m[s]) (p + 1) (s + 1)
  else none
termination_by m.length - s
decreasing_by all_goals (try simp only [List.length_set]); omega

/-- src/lib/xmlparse.rs:8115-8140 `normalizePublicId`. -/
def normalizePublicId (m : List UInt8) : Option (List UInt8) :=
  (npiLoop m 0 0).map fun (m, p) =>
    if p ≠ 0 ∧ m.getD (p - 1) 0 = 0x20 then m.set (p - 1) 0 else m.set p 0

/-- src/lib/xmlparse.rs:7651-7677 `reportComment` with a comment handler set: the string the handler
receives.  `none`: no result (endless loop or access out of bounds).  The caller has cleared the pool
(`pool.len = 0`) whenever this runs. -/
def reportComment (al : Allocator) (x : XEnc) (pool : Pool) (b : Buf) : Option (List UInt8) :=
  (pool.storeCString al x ((b.drop (4 * x.e.mb)).take (b.length - 4 * x.e.mb - 3 * x.e.mb))).bind fun q =>
    (normalizeLines q.current).map cstr

/-- src/lib/xmlparse.rs:7612-7649 `reportProcessingInstruction` with a PI handler set: target and data.
The second string runs from the first non-space after the target to two characters before the end of
the token. -/
def reportPI (al : Allocator) (x : XEnc) (pool : Pool) (b : Buf) : Option (List UInt8 × List UInt8) :=
  let c := b.drop (2 * x.e.mb)
  let n := nameLength x.e c
  (pool.storeCString al x (c.take n)).bind fun q =>
    let d := skipS x.e (c.drop n)
    (q.finish.storeCString al x (d.take (d.length - 2 * x.e.mb))).bind fun q2 =>
      (normalizeLines q2.current).map fun m => (cstr (read q2.mem q.base q.len), cstr m)

end Verif
