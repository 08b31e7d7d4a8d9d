import Verif.Additive

/-! Declared entities and attributes as content sees them, and the evaluation of attribute values
(src/lib/xmlparse.rs:7142-7381). -/

namespace Verif
open C43

/-- src/lib/xmlparse.rs:1393-1405 `Entity`.  `text` is `textPtr`/`textLen`; `open` is kept outside (the
list `opened` below), `processed` and `is_param` are of no interest here. -/
structure Entity where
  text : Option Buf
  isInternal : Bool
  notation_ : Option Buf
  systemId : Option Buf
  publicId : Option Buf
  base : Option Buf
deriving DecidableEq, Repr, Inhabited

/-- src/lib/xmlparse.rs:1385-1390 `DefaultAttribute`.  Attribute ids are shared by name
(`attributeIds`), so the name stands for the id. -/
structure ADecl where
  name : Buf
  isCdata : Bool
  value : Option Buf
deriving DecidableEq, Repr, Inhabited

/-- src/lib/xmlparse.rs:1365-1383 `ElementType`; the prefix is computed from the name. -/
structure ElemType where
  atts : List ADecl
  idAtt : Option Buf
deriving DecidableEq, Repr, Inhabited

/-- What content uses of `DTD` (src/lib/xmlparse.rs:1080-1110): `generalEntities`, `elementTypes`, the
`maybeTokenized` flags of `attributeIds`, `hasParamEntityRefs`, `standalone`.  Hash tables are
association lists (the first entry of a key counts); element types not in the table are entered
without attributes when first met, which is the same as the default here. -/
structure Dtd where
  ents : List (Buf × Entity)
  elems : List (Buf × ElemType)
  maybeTok : List Buf
  hasPERefs : Bool
  standalone : Bool
deriving Repr, Inhabited

/-- Lookup in a hash table. -/
def Dtd.entity (D : Dtd) (n : Buf) : Option Entity := (D.ents.find? (·.1 = n)).map (·.2)
def Dtd.elem (D : Dtd) (n : Buf) : ElemType := ((D.elems.find? (·.1 = n)).map (·.2)).getD ⟨[], none⟩

/-- `checkEntityDecl` when an attribute value of a tag in content is evaluated (7266-7268); the same
condition guards references in content (3693). -/
def Dtd.mustDeclare (D : Dtd) : Bool := !D.hasPERefs || D.standalone

/-- The test and append which is made for a white-space character of an attribute value
(7238-7251): not at the start nor after another space if the type is not CDATA. -/
def pushSpace (isCdata : Bool) (pool : Buf) : Buf :=
  if !isCdata && (pool.isEmpty || pool.getLast? == some 0x20) then pool else pool ++ [0x20]

/-- The name in a reference token `&name;` (the code's `inc_start(minBytesPerChar)`,
`dec_end(minBytesPerChar)`). -/
def refName (e : Enc) (w : Buf) : Buf := (w.drop e.mb).take (w.length - 2 * e.mb)

/-- What one turn of the loop comes to: return, or go on behind `n` bytes with the string `p`. -/
inductive AStep where
  | done
  | fail (c : XErr)
  | next (n : Nat) (p : Buf)
deriving DecidableEq, Repr

/-- src/lib/xmlparse.rs:7170-7378: one turn of the loop of `appendAttributeValue`; the string under
construction is `pool`, the entities being expanded are `opened`, `expand n p t` is the recursive call
for the text `t` of entity `n`.  Setting `m_eventPtr` is left out. -/
def attrStep (D : Dtd) (check : Bool) (x : XEnc) (isCdata : Bool)
    (expand : Buf → Buf → Buf → Except XErr Buf) (opened : List Buf) (pool b : Buf) : AStep :=
  let r := attributeValueTok x.e b
  let w := b.take r.next
  match r.tok with
  | .NONE => .done
  | .INVALID => .fail .INVALID_TOKEN
  | .PARTIAL => .fail .INVALID_TOKEN
  | .CHAR_REF =>
    let n := charRefNumber x.e b
    if n < 0 then .fail .BAD_CHAR_REF
    else if !isCdata && n == 0x20 && (pool.isEmpty || pool.getLast? == some 0x20) then .next r.next pool
    else .next r.next (pool ++ xmlUtf8Encode n)
  | .DATA_CHARS => .next r.next (pool ++ converted x w)
  | .TRAILING_CR => .next x.e.mb (pushSpace isCdata pool)
  | .ATTRIBUTE_VALUE_S => .next r.next (pushSpace isCdata pool)
  | .DATA_NEWLINE => .next r.next (pushSpace isCdata pool)
  | .ENTITY_REF =>
    let ch := predefinedEntityName x.e (refName x.e w)
    if ch ≠ 0 then .next r.next (pool ++ [ch]) else
    let name := converted x (refName x.e w)
    match D.entity name with
    | none => if check then .fail .UNDEFINED_ENTITY else .next r.next pool
    | some ent =>
      if check && !ent.isInternal then .fail .ENTITY_DECLARED_IN_PE
      else if name ∈ opened then .fail .RECURSIVE_ENTITY_REF
      else if ent.notation_.isSome then .fail .BINARY_ENTITY_REF
      else
        match ent.text with
        | none => .fail .ATTRIBUTE_EXTERNAL_ENTITY_REF
        | some t =>
          match expand name pool t with
          | .error c => .fail c
          | .ok p => .next r.next p
  | _ => .fail .UNEXPECTED_STATE

/-- src/lib/xmlparse.rs:7162-7381: the loop of `appendAttributeValue`.  The guard on the length makes
termination evident; it always holds (`attributeValueTok` advances). -/
def attrLoop (D : Dtd) (check : Bool) (x : XEnc) (isCdata : Bool)
    (expand : Buf → Buf → Buf → Except XErr Buf) (opened : List Buf) (pool b : Buf) : Except XErr Buf :=
  match attrStep D check x isCdata expand opened pool b with
  | .done => .ok pool
  | .fail c => .error c
  | .next n p =>
    if (b.drop n).length < b.length then attrLoop D check x isCdata expand opened p (b.drop n)
    else .error .UNEXPECTED_STATE
termination_by b.length
decreasing_by assumption

/-- src/lib/xmlparse.rs:7162-7381 `appendAttributeValue`; `int` is the internal encoding, used for
the text of entities.  `fuel` bounds the depth of the recursion, `DIVERGED` is its exhaustion, which
stands for a recursion that does not end; `C34` shows that it does not happen. -/
def appendAttributeValue (D : Dtd) (check : Bool) (int : XEnc) (isCdata : Bool) :
    Nat → XEnc → List Buf → Buf → Buf → Except XErr Buf
  | 0, x, opened, pool, b =>
    attrLoop D check x isCdata (fun _ _ _ => .error .DIVERGED) opened pool b
  | k + 1, x, opened, pool, b =>
    attrLoop D check x isCdata
      (fun n p t => appendAttributeValue D check int isCdata k int (n :: opened) p t) opened pool b

/-- Enough fuel: one level for every entity. -/
def Dtd.fuel (D : Dtd) : Nat := D.ents.length

/-- src/lib/xmlparse.rs:7142-7160 `storeAttributeValue`, without the final NUL. -/
def storeAttributeValue (D : Dtd) (check : Bool) (int x : XEnc) (isCdata : Bool) (opened : List Buf)
    (b : Buf) : Except XErr Buf :=
  match appendAttributeValue D check int isCdata D.fuel x opened [] b with
  | .error c => .error c
  | .ok p => .ok (if !isCdata && p.getLast? == some 0x20 then p.dropLast else p)

end Verif
