import Verif.SemInd

/-! The names of the open tags, at the level of the memory they are kept in.

The parser of `Parser.lean` keeps for an open tag a copy of its name.  The code keeps pointers: `rawName`
points into the parse buffer, which is moved and overwritten between calls, until `storeRawNames` copies
the name to the buffer of the tag.  Here the tags are kept as the code keeps them. -/

set_option autoImplicit false

namespace Verif.Raw
open Verif C43

/-- `struct tag` (src/lib/xmlparse.rs:940-1000) as far as names go.  `base` stands for the address of
`buf`; a pointer into `buf` is an address and an offset, and what it shows is lost when `buf` moves.
`buf` reaches to `bufEnd`. -/
structure PTag where
  buf : Buf
  base : Nat
  /-- `name.strLen` -/
  strLen : Nat
  /-- `rawNameLength` -/
  rawLen : Nat
  /-- `rawName`: an offset in the parse buffer, or (`none`) `buf + strLen + 1` -/
  inInput : Option Nat
  /-- `name.str_0` if it is an address of this buffer; with a namespace it points to the URI of a binding -/
  str : Option Nat
  /-- `name.localPart`: the address of the buffer and the offset -/
  loc : Option (Nat × Nat)
deriving DecidableEq, Repr

/-- What `rawName` shows when the parse buffer is `mem`. -/
def PTag.raw (mem : Buf) (t : PTag) : Buf :=
  match t.inInput with
  | some i => (mem.drop i).take t.rawLen
  | none => (t.buf.drop (t.strLen + 1)).take t.rawLen

/-- What `name.str_0` shows; with a namespace the converted name, which no handler is given then. -/
def PTag.name (t : PTag) : Buf :=
  match t.str with
  | some a => if a = t.base then t.buf.take t.strLen else []
  | none => t.buf.take t.strLen

/-- What `name.localPart` shows. -/
def PTag.local (t : PTag) : Buf :=
  match t.loc with
  | some (a, o) => if a = t.base then (t.buf.take t.strLen).drop o else []
  | none => []

/-- `memcpy` to offset `i` of a buffer. -/
def poke (b : Buf) (i : Nat) (v : Buf) : Buf := b.take i ++ v ++ b.drop (i + v.length)

/-- What the allocator is free to choose: the bytes after the name in a tag's buffer (a new one, or one
from `m_freeTagList`), and the bytes a grown buffer gets. -/
structure Alloc where
  garbage : Nat → Buf → Buf
  fresh : UInt8

/-- The body of the loop of `storeRawNames`, src/lib/xmlparse.rs:3400-3436 (`sizeof(XML_Char)` is 1).
A buffer that grows is moved: `base` changes, and the pointers into it are made to follow. -/
def store (A : Alloc) (mem : Buf) (t : PTag) : PTag :=
  let nameLen := t.strLen + 1
  let bufSize := nameLen + t.rawLen
  let t' := if t.buf.length < bufSize then
      { t with
        buf := t.buf ++ List.replicate (bufSize - t.buf.length) A.fresh
        base := t.base + 1
        str := if t.str = some t.base then some (t.base + 1) else t.str
        loc := t.loc.map fun (_, o) => (t.base + 1, o) }
    else t
  { t' with buf := poke t'.buf nameLen (t.raw mem), inInput := none }

/-- `storeRawNames`, src/lib/xmlparse.rs:3381-3438; memory is not exhausted. -/
def storeAll (A : Alloc) (mem : Buf) : List PTag → List PTag
  | [] => []
  | t :: ts => if t.inInput = none then t :: ts else store A mem t :: storeAll A mem ts

/-- The parser: everything but the names of the open tags is in `s`, where those are empty; `pos` is the
offset in the parse buffer of the next token. -/
structure RState where
  s : CState
  tags : List PTag
  pos : Nat

/-- A tag without its strings. -/
def blankTag (t : Tag) : Tag := ⟨[], ⟨[], t.name.ns.map fun (u, _, p) => (u, [], p)⟩, t.binds⟩
def blank (s : CState) : CState := { s with tags := s.tags.map blankTag }

/-- A tag with its strings as the pointers show them. -/
def seeTag (mem : Buf) (t : Tag) (p : PTag) : Tag :=
  ⟨p.raw mem, ⟨p.name, t.name.ns.map fun (u, _, q) => (u, p.local, q)⟩, t.binds⟩
def RState.see (mem : Buf) (q : RState) : CState := { q.s with tags := List.zipWith (seeTag mem) q.s.tags q.tags }

/-- A start tag `w` at `pos`, src/lib/xmlparse.rs:3787-3845 and 4668-4712 (`localPart`): `rawName` points to
the input, the converted name and a NUL are written to `buf`. -/
def openTag (A : Alloc) (x : XEnc) (pos : Nat) (w : Buf) (s' : CState) : PTag :=
  let name := converted x (rawName x x.e.mb w)
  let ns := (s'.tags.head?).bind fun t => t.name.ns
  { buf := name ++ 0 :: A.garbage pos name
    base := 0
    strLen := name.length
    rawLen := (rawName x x.e.mb w).length
    inInput := some (pos + x.e.mb)
    str := match ns with | none => some 0 | some _ => none
    loc := ns.map fun (_, l, _) => (0, name.length - l.length) }

/-- The stack of tags after a token: a start tag pushes, an end tag pops (its tag goes to the free list).
A reference to an entity leaves the stack as it was: tags opened in an entity are closed there
(`doContent` checks the level), and the text of an entity does not move meanwhile. -/
def nextTags (A : Alloc) (x : XEnc) (q : RState) (t : Tok) (w : Buf) (s' : CState) : List PTag :=
  match t with
  | .START_TAG_NO_ATTS | .START_TAG_WITH_ATTS => openTag A x q.pos w s' :: q.tags
  | .END_TAG => q.tags.tail
  | _ => q.tags

/-- The parser `M` working on the names as the pointers show them, the parse buffer being `mem`. -/
def ptrSem (A : Alloc) (M : Sem CState) (x : XEnc) (mem : Buf) : Sem RState where
  mode q := M.mode (q.see mem)
  stop q := M.stop (q.see mem)
  fin q := M.fin (q.see mem)
  act q t w :=
    match M.act (q.see mem) t w with
    | (E, .error c) => (E, .error c)
    | (E, .ok s') => (E, .ok ⟨blank s', nextTags A x q t w s', q.pos + w.length⟩)

/-- A call of the processor: `contentProcessor` (src/lib/xmlparse.rs:3440-3460) and
`externalEntityContentProcessor` (3566-3582) store the names when there was no error.
`cdataSectionProcessor` does not do so itself: if the section goes on, no tag was opened in this call;
otherwise it goes on by calling one of these (4900-4915); and `epilogProcessor` has no open tags. -/
def ptrCall (A : Alloc) (M : Sem CState) (x : XEnc) (more : Bool) (mem : Buf) (q : RState) (b : Buf) : Ran RState :=
  match call (ptrSem A M x mem) x.e more q b with
  | (E, .ok q' r) => (E, .ok { q' with tags := storeAll A mem q'.tags } r)
  | (E, .err c) => (E, .err c)

/-- Several calls: in the `n`-th the parse buffer holds the bytes `before n`, whatever they are, and then
those to be parsed. -/
def ptrFeed (A : Alloc) (M : Sem CState) (x : XEnc) : (Nat → Buf) → RState → Buf → List Buf → Ran RState
  | before, q, rest, [] => ptrCall A M x false (before 0 ++ rest) { q with pos := (before 0).length } rest
  | before, q, rest, [y] =>
    ptrCall A M x false (before 0 ++ (rest ++ y)) { q with pos := (before 0).length } (rest ++ y)
  | before, q, rest, y :: z :: ys =>
    match ptrCall A M x true (before 0 ++ (rest ++ y)) { q with pos := (before 0).length } (rest ++ y) with
    | (E, .ok q' r) => pre E (ptrFeed A M x (fun n => before (n + 1)) q' r (z :: ys))
    | (E, .err c) => (E, .err c)

/-- The state at the start of the content. -/
def RState.of (s : CState) : RState := ⟨blank s, [], 0⟩

end Verif.Raw
