import Verif.Props.C43

/-! `processXmlDecl` (src/lib/xmlparse.rs:5216-5332). -/

namespace Verif

/-- The C string that starts a sequence of bytes. -/
def cstr (l : List UInt8) : List UInt8 := l.takeWhile (· ≠ 0)

/-- The arguments of the XmlDecl handler. The encoding argument is the pointer `storedEncName`, taken
before the version is stored; only its presence is recorded here. -/
structure DeclCall where
  version : Option (List UInt8)
  hasEncoding : Bool
  standalone : Option Bool
deriving DecidableEq, Repr, Inhabited

/-- src/lib/xmlparse.rs:5255-5285: the strings are stored one after the other in `m_temp2Pool` without
finishing the first one, and both pointers are the start of the current vector
(`current_start`). `none`: the conversion does not terminate. -/
def xmlDeclCall (al : Allocator) (x : XEnc) (pool : Pool) (o : DeclOut) : Option DeclCall :=
  let p1 := match o.encoding with
    | none => some pool
    | some (on, _, _) => pool.storeCString al x (on.take (nameLength x.e on))
  p1.bind fun p1 =>
    match o.version with
    | none => some ⟨none, o.encoding.isSome, o.standalone⟩
    | some v => (p1.storeCString al x v).map fun p2 =>
        ⟨some (cstr p2.current), o.encoding.isSome, o.standalone⟩

/-- Outcome of `processXmlDecl`. -/
inductive DeclDone where
  | panic
  | error (isText : Bool)
  | incorrectEncoding
  | askHandler
  | proceed (i : EncId)
deriving DecidableEq, Repr, Inhabited

/-- src/lib/xmlparse.rs:5228-5249, 5286-5331 `processXmlDecl`, the part that decides about the encoding: `cur` is the encoding in
use, `protocol` whether the application named the encoding. `askHandler`: the name goes to
`handleUnknownEncoding`, whose result is returned. `ptr::eq` on the static encoding objects is
equality of their identifiers. -/
def processXmlDecl (ns : Bool) (cur : EncId) (protocol isText : Bool) (b : Buf) : DeclDone :=
  match doParseXmlDecl (cur.x ns) isText b with
  | .panic => .panic
  | .bad => .error isText
  | .ok o =>
    if protocol then .proceed cur
    else match o.encoding with
      | none => .proceed cur
      | some (_, _, .panic) => .panic
      | some (_, _, .unknown) => .askHandler
      | some (_, _, .same) => .proceed cur
      | some (_, _, .builtin i) =>
        if (i.x ns).e.mb ≠ (cur.x ns).e.mb ∨ ((i.x ns).e.mb = 2 ∧ i ≠ cur) then .incorrectEncoding
        else .proceed i

end Verif
