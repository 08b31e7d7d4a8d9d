/-! Specification: the number spelled by a string of digits. -/

namespace Verif.Spec

/-- The value of a digit character: `0`-`9`, `a`-`f`, `A`-`F`. -/
def digitValue (c : UInt8) : Nat :=
  if c < 0x3A then c.toNat - 0x30 else if c < 0x61 then c.toNat - 0x41 + 10 else c.toNat - 0x61 + 10

/-- The number obtained by writing the digits `ds` after the number `a`. -/
def numeralFrom (base : Nat) : Nat → List UInt8 → Nat
  | a, [] => a
  | a, d :: ds => numeralFrom base (a * base + digitValue d) ds

/-- The number spelled by the digits `ds` in the given base, most significant digit first. -/
def numeral (base : Nat) (ds : List UInt8) : Nat := numeralFrom base 0 ds

end Verif.Spec
