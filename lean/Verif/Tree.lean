import Verif.Props.C50

/-! Element trees and the obvious way of writing them, as strings of code points. -/

set_option autoImplicit false

namespace Verif.C48
open Verif Spec

/-- A list of sibling nodes. -/
inductive Forest
  | nil
  | text (cs : List Nat) (next : Forest)
  | comment (cs : List Nat) (next : Forest)
  | pi (target data : List Nat) (next : Forest)
  | elem (name : List Nat) (atts : List (List Nat × List Nat)) (inner next : Forest)

/-- ASCII strings. -/
def str (ds : List UInt8) : List Nat := ds.map UInt8.toNat

/-- `&lt;`, `&amp;`, `&gt;`, `&#13;`; other characters stand for themselves. -/
def esc (c : Nat) : List Nat :=
  if c = 0x3C then str [0x26, 0x6C, 0x74, 0x3B]
  else if c = 0x26 then str [0x26, 0x61, 0x6D, 0x70, 0x3B]
  else if c = 0x3E then str [0x26, 0x67, 0x74, 0x3B]
  else if c = 0x0D then str [0x26, 0x23, 0x31, 0x33, 0x3B]
  else [c]

/-- In attribute values `&quot;`, `&#9;` and `&#10;` besides. -/
def escAtt (c : Nat) : List Nat :=
  if c = 0x22 then str [0x26, 0x71, 0x75, 0x6F, 0x74, 0x3B]
  else if c = 0x09 then str [0x26, 0x23, 0x39, 0x3B]
  else if c = 0x0A then str [0x26, 0x23, 0x31, 0x30, 0x3B]
  else esc c

/-- ` name="value"` -/
def attrText (p : List Nat × List Nat) : List Nat :=
  str [0x20] ++ (p.1 ++ (str [0x3D, 0x22] ++ (p.2.flatMap escAtt ++ str [0x22])))

/-- The text of the nodes. -/
def serialise : Forest → List Nat
  | .nil => []
  | .text cs f => cs.flatMap esc ++ serialise f
  | .comment cs f => str [0x3C, 0x21, 0x2D, 0x2D] ++ (cs ++ (str [0x2D, 0x2D, 0x3E] ++ serialise f))
  | .pi t d f => str [0x3C, 0x3F] ++ (t ++ (str [0x20] ++ (d ++ (str [0x3F, 0x3E] ++ serialise f))))
  | .elem n as inner f =>
    str [0x3C] ++ (n ++ (as.flatMap attrText ++ (str [0x3E] ++ (serialise inner ++ (str [0x3C, 0x2F] ++ (n ++ (str [0x3E] ++ serialise f)))))))

/-- The events of the nodes, in document order; strings are in UTF-8 and text is reported byte by byte (compare `C04.flat`). -/
def events : Forest → List Ev
  | .nil => []
  | .text cs f => (utf8s cs).map (fun d => .chars [d]) ++ events f
  | .comment cs f => .comment (utf8s cs) :: events f
  | .pi t d f => .pi (utf8s t) (utf8s d) :: events f
  | .elem n as inner f =>
    .startElement (utf8s n) (as.map fun p => (utf8s p.1, utf8s p.2)) as.length none :: (events inner ++ (.endElement (utf8s n) :: events f))

/-- A name of XML 1.0 (4th edition), without colons if namespaces are processed. -/
def IsName (ns : Bool) (cs : List Nat) : Prop :=
  (∃ c r, cs = c :: r ∧ InRanges nameStart c) ∧ (∀ c ∈ cs, InRanges nameChar c) ∧ (ns = true → 0x3A ∉ cs)

/-- What can be written: `ok` are the characters of the encoding. -/
def Ok (ns : Bool) (ok : Nat → Prop) : Forest → Prop
  | .nil => True
  | .text cs f => (∀ c ∈ cs, ok c) ∧ Ok ns ok f
  | .comment cs f => (∀ c ∈ cs, ok c) ∧ 0x0D ∉ cs ∧ NoPair 0x2D 0x2D (cs ++ [0x2D]) ∧ Ok ns ok f
  | .pi t d f => (IsName ns t ∧ (∀ c ∈ t, ok c) ∧ ¬ ∃ cs, C07.XmlAnyCase cs ∧ t = str cs) ∧
      ((∀ c ∈ d, ok c) ∧ 0x0D ∉ d ∧ NoPair 0x3F 0x3E (d ++ [0x3F]) ∧ (∀ c : UInt8, isWS c = true → d.head? ≠ some c.toNat)) ∧ Ok ns ok f
  | .elem n as inner f => (IsName ns n ∧ (∀ c ∈ n, ok c)) ∧ (as.map (·.1)).Nodup ∧
      (∀ p ∈ as, IsName ns p.1 ∧ (∀ c ∈ p.1, ok c) ∧ (ns = true → p.1 ≠ str xmlnsName) ∧ (∀ c ∈ p.2, ok c)) ∧ Ok ns ok inner ∧ Ok ns ok f

end Verif.C48
