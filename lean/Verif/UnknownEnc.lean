import Verif.Encodings

/-! The call of the application's unknown-encoding handler. -/

set_option autoImplicit false

namespace Verif

/-- expat.h `XML_Encoding` as the handler leaves it: the map (256 entries, all −1 before the call), the converter, and
whether a `release` function is given. -/
structure EncInfo where
  map : List Int
  convert : Option (Buf → Int)
  release : Bool

/-- What `handleUnknownEncoding` does: the encoding installed (`none`: the error UNKNOWN_ENCODING is returned), whether
`release` is called before it returns, and whether it is remembered for `XML_ParserReset` and `XML_ParserFree`. -/
structure EncOutcome where
  enc : Option Unknown
  released : Bool
  remembered : Bool

/-- src/lib/xmlparse.rs:5336-5391 `handleUnknownEncoding`.  `handler`: the handler if one is set, with its return value
(nonzero or not) and what it stored.  Simplified: no allocation failure. -/
def handleUnknownEncoding (handler : Option (List UInt8 → Bool × EncInfo)) (name : List UInt8) (ns : Bool) : EncOutcome :=
  match handler with
  | none => ⟨none, false, false⟩
  | some h =>
    let r := h name
    if r.1 then
      match unknownInit r.2.map r.2.convert ns with
      | some u => ⟨some u, false, r.2.release⟩
      | none => ⟨none, r.2.release, false⟩
    else ⟨none, r.2.release, false⟩

end Verif
