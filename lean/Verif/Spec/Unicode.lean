/-! Specification: Unicode scalar values, the XML 1.0 Char set and the Unicode encoding forms,
written with plain arithmetic and no reference to the model of the code. -/

namespace Verif.Spec

/-- Unicode scalar values (Unicode D76). -/
def Scalar (c : Nat) : Prop := c < 0xD800 ∨ (0xE000 ≤ c ∧ c ≤ 0x10FFFF)

/-- XML 1.0 `Char`. -/
def XmlChar (c : Nat) : Prop :=
  c = 9 ∨ c = 10 ∨ c = 13 ∨ (0x20 ≤ c ∧ c ≤ 0xD7FF) ∨ (0xE000 ≤ c ∧ c ≤ 0xFFFD)
    ∨ (0x10000 ≤ c ∧ c ≤ 0x10FFFF)

instance (c : Nat) : Decidable (XmlChar c) := by unfold XmlChar; infer_instance
instance (c : Nat) : Decidable (Scalar c) := by unfold Scalar; infer_instance

/-- UTF-8 (Unicode table 3-6). -/
def utf8 (c : Nat) : List UInt8 :=
  if c < 0x80 then [UInt8.ofNat c]
  else if c < 0x800 then [UInt8.ofNat (0xC0 + c / 64), UInt8.ofNat (0x80 + c % 64)]
  else if c < 0x10000 then
    [UInt8.ofNat (0xE0 + c / 4096), UInt8.ofNat (0x80 + c / 64 % 64), UInt8.ofNat (0x80 + c % 64)]
  else
    [UInt8.ofNat (0xF0 + c / 262144), UInt8.ofNat (0x80 + c / 4096 % 64),
     UInt8.ofNat (0x80 + c / 64 % 64), UInt8.ofNat (0x80 + c % 64)]

/-- UTF-8 encoding of a string of code points. -/
def utf8s (cs : List Nat) : List UInt8 := (cs.map utf8).flatten

/-- UTF-16 code units (Unicode table 3-5). -/
def utf16 (c : Nat) : List Nat :=
  if c < 0x10000 then [c] else [0xD800 + (c - 0x10000) / 0x400, 0xDC00 + (c - 0x10000) % 0x400]

/-- UTF-16LE / UTF-16BE bytes of a code unit. -/
def le16 (u : Nat) : List UInt8 := [UInt8.ofNat (u % 256), UInt8.ofNat (u / 256)]
def be16 (u : Nat) : List UInt8 := [UInt8.ofNat (u / 256), UInt8.ofNat (u % 256)]

end Verif.Spec
