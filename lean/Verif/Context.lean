import Verif.Atts

/-! The context string handed to the handler for external entities, and the parser made of it
(src/lib/xmlparse.rs:1938-2032, 7919-8140). -/

set_option autoImplicit false

namespace Verif
open C43

/-- src/lib/xmlparse.rs:7916 `CONTEXT_SEP`. -/
def contextSep : UInt8 := 0x0C

/-- A separator if something precedes (`needSep`). -/
def sepIf (need : Bool) : Buf := if need then [contextSep] else []

/-- src/lib/xmlparse.rs:7956-7998: the loop over the prefixes, in the order of the hash table; `none` is a
null `binding`.  What is written, and `needSep` afterwards. -/
def contextPrefixes (need : Bool) : List (Buf × Option Buf) → Buf × Bool
  | [] => ([], need)
  | (_, none) :: ps => contextPrefixes need ps
  | (n, some uri) :: ps =>
    let r := contextPrefixes true ps
    (sepIf need ++ n ++ [0x3D] ++ uri ++ r.1, r.2)

/-- src/lib/xmlparse.rs:7999-8017: the loop over the general entities with their `open` flags. -/
def contextEntities (need : Bool) : List (Buf × Bool) → Buf
  | [] => []
  | (_, false) :: es => contextEntities need es
  | (n, true) :: es => sepIf need ++ n ++ contextEntities true es

/-- src/lib/xmlparse.rs:7919-8024 `getContext`, without the final NUL: the binding of the default prefix,
the prefix table, the table of general entities.  `uriLen` less one if there is a separator is the length
of the URI (4846-4848, 4877-4879).  Allocation failure is not modelled. -/
def getContext (dflt : Option Buf) (prefixes : List (Buf × Option Buf)) (ents : List (Buf × Bool)) : Buf :=
  let d := match dflt with
    | none => ([], false)
    | some uri => ([0x3D] ++ uri, true)
  let r := contextPrefixes d.2 prefixes
  d.1 ++ r.1 ++ contextEntities r.2 ents

/-- The part of a parser that `setContext` sets: the bindings of the prefixes, and the `open` flags of the
general entities. -/
structure Inherited where
  env : Env
  opened : Buf → Bool

/-- `generalEntities.get_mut(name)` and `open = true`. -/
def Inherited.open (i : Inherited) (known : Buf → Bool) (n : Buf) : Inherited :=
  { i with opened := fun m => if m = n ∧ known n then true else i.opened m }

/-- src/lib/xmlparse.rs:4756-4887 `addBinding` with a null `attId` (no handler call; cf. `addBinding`). -/
def inheritBinding (v : Env) (p : Option Buf) (uri : Buf) : Except XErr Env :=
  match bindingError p uri with
  | some x => .error x
  | none => .ok (v.set p (if uri = [] ∧ p = none then none else some uri))

/-- src/lib/xmlparse.rs:8027-8112 `setContext`: `acc` is the string in `m_tempPool`, the text from
`context` to `s`; the list is the text from `s`.  `none` is a return of false.  `known`: the names in
`generalEntities`. -/
def setContext (known : Buf → Bool) (i : Inherited) (acc : Buf) (s : Buf) : Option Inherited :=
  match s with
  | [] => if acc = [] then some i else some (i.open known acc)
  | c :: r =>
    if c = contextSep then setContext known (i.open known acc) [] r
    else if c = 0x3D then
      match inheritBinding i.env (if acc = [] then none else some acc) (r.takeWhile (· ≠ contextSep)) with
      | .error _ => none
      | .ok v => setContext known { i with env := v } [] ((r.dropWhile (· ≠ contextSep)).drop 1)
    else setContext known i (acc ++ [c]) r
termination_by s.length
decreasing_by
  all_goals simp only [List.length_cons, List.length_drop]
  all_goals first | omega | skip
  have := (List.dropWhile_suffix (l := r) (· ≠ contextSep)).length_le
  omega

/-- A parser just made by XML_ExternalEntityParserCreate (1938-2032): `DTD::try_clone` (1160-1290) copies the names of
the prefixes and of the entities, but neither bindings nor `open` flags. -/
def Inherited.none : Inherited := ⟨fun _ => .none, fun _ => false⟩

end Verif
