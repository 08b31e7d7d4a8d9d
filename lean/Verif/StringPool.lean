import Verif.Props.C18

/-! The string pool (src/string_pool.rs), over a memory of bytes. -/

namespace Verif

/-- Contents of memory from `a` on replaced by `l`. -/
def write (mem : Nat → UInt8) (a : Nat) (l : List UInt8) : Nat → UInt8 :=
  fun i => if a ≤ i ∧ i < a + l.length then l.getD (i - a) 0 else mem i

def read (mem : Nat → UInt8) (a n : Nat) : List UInt8 := (List.range n).map fun i => mem (a + i)

/-- src/string_pool.rs:16-28, 37: the memory, the strings handed out (address and length), and the current
vector (`BumpVec`): address, length, capacity. -/
structure Pool where
  mem : Nat → UInt8
  done : List (Nat × Nat)
  base : Nat
  len : Nat
  cap : Nat

/-- src/string_pool.rs:40-48 `try_new` (and the new `BumpVec` of `finish_string`: no memory). -/
def Pool.new : Pool := ⟨fun _ => 0, [], 0, 0, 0⟩

/-- What is relied on in the `bumpalo` arena (not part of the repository): when the current vector
must grow, it is given (in place or elsewhere) a range with the required capacity that contains no
byte of a string handed out. Allocation failure is not modelled. -/
structure Allocator where
  grow : Pool → Nat → Nat × Nat
  room : ∀ p n, n ≤ (grow p n).2
  disjoint : ∀ p n, ∀ s ∈ p.done, s.1 + s.2 ≤ (grow p n).1 ∨ (grow p n).1 + (grow p n).2 ≤ s.1

namespace Pool

/-- `BumpVec::try_reserve(n)`. -/
def reserve (al : Allocator) (p : Pool) (n : Nat) : Pool :=
  if p.len + n ≤ p.cap then p
  else
    let g := al.grow p (p.len + n)
    { p with mem := write p.mem g.1 (read p.mem p.base p.len), base := g.1, cap := g.2 }

/-- src/string_pool.rs:308-316 `append_char`. -/
def appendChar (al : Allocator) (p : Pool) (c : UInt8) : Pool :=
  let q := p.reserve al 1
  { q with mem := write q.mem (q.base + q.len) [c], len := q.len + 1 }

/-- src/string_pool.rs:147-159 `append_c_string` (the string without its NUL). -/
def appendCString (al : Allocator) (p : Pool) (s : List UInt8) : Pool :=
  s.foldl (appendChar al) p

/-- src/string_pool.rs:277-306: one iteration of the loop of `append`: reserve, fill the vector with
zeros up to its capacity, convert into the new part, and cut the vector to what was written. -/
def appendStep (al : Allocator) (x : XEnc) (p : Pool) (b : Buf) : Pool × Conv :=
  let q := p.reserve al (max b.length 4)
  let c := x.conv b (q.cap - q.len)
  let m := write q.mem (q.base + q.len) (List.replicate (q.cap - q.len) 0)
  ({ q with mem := write m (q.base + q.len) c.out, len := q.len + c.out.length }, c)

/-- src/string_pool.rs:277-306 `append`. `none`: the loop makes no progress (runs for ever). -/
def append (al : Allocator) (x : XEnc) (p : Pool) (b : Buf) : Option Pool :=
  let r := appendStep al x p b
  if r.2.res ≠ .outputExhausted then some r.1
  else if r.2.rest.length < b.length then append al x r.1 r.2.rest
  else none
termination_by b.length

/-- src/string_pool.rs:68-74 `finish_string`. -/
def finish (p : Pool) : Pool :=
  { p with done := p.done ++ [(p.base, p.len)], base := 0, len := 0, cap := 0 }

/-- src/string_pool.rs:88-90 `clear_current`. -/
def clearCurrent (p : Pool) : Pool := { p with len := 0 }

/-- src/string_pool.rs:128-135 `replace_last_char` (`none`: panic). -/
def replaceLast (p : Pool) (c : UInt8) : Option Pool :=
  if p.len = 0 then none else some { p with mem := write p.mem (p.base + (p.len - 1)) [c] }

/-- src/string_pool.rs:138-140 `backtrack` (`none`: panic). -/
def backtrack (p : Pool) : Option Pool :=
  if p.len = 0 then none else some { p with len := p.len - 1 }

/-- src/string_pool.rs:182-199 `store_c_string`. -/
def storeCString (al : Allocator) (x : XEnc) (p : Pool) (b : Buf) : Option Pool :=
  (p.append al x b).map fun q => q.appendChar al 0

/-- src/string_pool.rs:209-236 `copy_c_string`. -/
def copyCString (al : Allocator) (p : Pool) (s : List UInt8) : Pool :=
  (p.appendCString al (s ++ [0])).finish

/-- src/string_pool.rs:238-266 `copy_c_string_n` on the first `n` bytes `s`. -/
def copyCStringN (al : Allocator) (p : Pool) (s : List UInt8) : Pool :=
  ((p.reserve al s.length).appendCString al s).finish

/-- The bytes of the current vector (src/string_pool.rs:100-104 `current_slice`). -/
def current (p : Pool) : List UInt8 := read p.mem p.base p.len

/-- The string handed out as number `i`, read now. -/
def str (p : Pool) (i : Nat) : Option (List UInt8) := (p.done[i]?).map fun s => read p.mem s.1 s.2

end Pool

/-- The operations of the pool. -/
inductive PoolOp where
  | char (c : UInt8)
  | append (x : XEnc) (b : Buf)
  | cstring (s : List UInt8)
  | finish
  | clearCurrent
  | replaceLast (c : UInt8)
  | backtrack
  | store (x : XEnc) (b : Buf)
  | copy (s : List UInt8)
  | copyN (s : List UInt8)
  | clear

/-- src/string_pool.rs:162-180 `clear`: the arena is reset. -/
def poolStep (al : Allocator) (p : Pool) : PoolOp → Option Pool
  | .char c => some (p.appendChar al c)
  | .append x b => p.append al x b
  | .cstring s => some (p.appendCString al s)
  | .finish => some p.finish
  | .clearCurrent => some p.clearCurrent
  | .replaceLast c => p.replaceLast c
  | .backtrack => p.backtrack
  | .store x b => p.storeCString al x b
  | .copy s => some (p.copyCString al s)
  | .copyN s => some (p.copyCStringN al s)
  | .clear => some { p with done := [], base := 0, len := 0, cap := 0 }

def poolRun (al : Allocator) (p : Pool) : List PoolOp → Option Pool
  | [] => some p
  | o :: os => (poolStep al p o).bind fun q => poolRun al q os

end Verif
