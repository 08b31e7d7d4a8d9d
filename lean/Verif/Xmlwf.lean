import Verif.Api

/-! How `xmlwf` reads a file and what becomes of it: src/xmlwf/xmlfile.rs, src/xmlwf/readfilemap.rs, and the loop over the files in
src/xmlwf/xmlwf.rs:1166-1567. -/

set_option autoImplicit false

namespace Verif.Wf
open Verif Api

/-! ### The operating system -/

/-- What the calls of the operating system give for a name: open(2), fstat(2) (whether it is a regular file, and its size), one read(2) of all of
it, or the results of several read(2) up to the end of the file (`ends`) or an error. -/
structure File where
  opens : Bool
  stat : Option (Bool × Nat)
  whole : Option Buf
  reads : List Buf
  ends : Bool

/-! ### Processing -/

/-- What is printed when there is no success. -/
inductive Said where
  /-- `perror`, "not a regular file", "read unexpected number of bytes", "out of memory" -/
  | system
  /-- `reportError`: XML_GetErrorCode, XML_GetCurrentLineNumber, XML_GetCurrentColumnNumber (the text of XML_ErrorString is not modelled) -/
  | error (code : Option XErr) (line col : Nat)
deriving DecidableEq, Repr

/-- The result, what is printed, and the parser. -/
structure Out (σ : Type) where
  result : Bool
  said : Option Said
  st : Parser σ

section
variable {σ : Type} (E : Engine σ)

/-- src/xmlwf/xmlfile.rs:67-87 `reportError`.  The queries move nothing but the known position; the parser given back is the one before them. -/
def reportError (p : Parser σ) : Option (Out σ) :=
  match lineNumber E p with
  | none => none
  | some l =>
    match columnNumber E l.st with
    | none => none
    | some c => some ⟨false, some (.error p.error l.val c.val), p⟩

/-- src/xmlwf/xmlfile.rs:90-104 `processFile`. -/
def processFile (p : Parser σ) (data : Buf) : Option (Out σ) :=
  match step E p (.parse data true) with
  | none => none
  | some r => if r.val = .status .ERROR then reportError E r.st else some ⟨true, none, r.st⟩

/-- src/xmlwf/xmlfile.rs:65 `READ_SIZE`. -/
def readSize : Nat := 1024 * 8

/-- src/xmlwf/xmlfile.rs:227-247: `w` was read (nothing at the end of the file); `more`: the loop goes on. -/
def parsed (p : Parser σ) (w : Buf) (more : Parser σ → Option (Out σ)) : Option (Out σ) :=
  match step E p (.parseBuffer w (w = [])) with
  | none => none
  | some r =>
    if r.val = .status .ERROR then reportError E r.st
    else if w = [] then some ⟨true, none, r.st⟩ else more r.st

/-- src/xmlwf/xmlfile.rs:199-214: room for what is read next. -/
def room (p : Parser σ) (k : Parser σ → Option (Out σ)) : Option (Out σ) :=
  match step E p (.getBuffer readSize) with
  | none => none
  | some r => if r.val = .pointer true then k r.st else some ⟨false, some .system, r.st⟩

/-- src/xmlwf/xmlfile.rs:197-249, the loop of `processStream`: the results of read(2) so far as they are bytes, then the end or an error. -/
def stream (ends : Bool) : List Buf → Parser σ → Option (Out σ)
  | [], p => room E p fun q => if ends then parsed E q [] fun _ => none else some ⟨false, some .system, q⟩
  | w :: ws, p => room E p fun q => parsed E q w (stream ends ws)

/-- src/xmlwf/xmlfile.rs:187-250 `processStream` with a file name (for standard input `opens` is true). -/
def processStream (p : Parser σ) (f : File) : Option (Out σ) :=
  if f.opens then stream E f.ends f.reads p else some ⟨false, some .system, p⟩

/-- src/filemap_h.rs:3 `XML_MAX_CHUNK_LEN`. -/
def maxChunk : Nat := (2 ^ 31 - 1) / 2 + 1

/-- src/xmlwf/readfilemap.rs:50-130 `filemap` with `processFile`, and what xmlfile.rs:336-348 does with its answer. -/
def processMapped (p : Parser σ) (f : File) : Option (Out σ) :=
  if f.opens then
    match f.stat with
    | none => some ⟨false, some .system, p⟩
    | some (regular, size) =>
      if regular = false then some ⟨false, some .system, p⟩
      else if maxChunk < size then processStream E p f
      else if size = 0 then processFile E p []
      else
        match f.whole with
        | none => some ⟨false, some .system, p⟩
        | some data => if data.length ≠ size then some ⟨false, some .system, p⟩ else processFile E p data
  else some ⟨false, some .system, p⟩

/-- src/xmlwf/xmlfile.rs:273-353 `XML_ProcessFile`; `map`: the flag XML_MAP_FILE (no `-r`, and not standard input).  XML_SetBase and the external
entity handler are not part of it: they are in the configuration of the engine. -/
def process (p : Parser σ) (f : File) (map : Bool) : Option (Out σ) :=
  if map then processMapped E p f else processStream E p f

/-! ### The files of a command -/

/-- What is left of a command: the exit status, and for each file that was looked at whether its output was kept. -/
structure Exit where
  status : Nat
  kept : List Bool
deriving DecidableEq, Repr

/-- src/xmlwf/xmlwf.rs:1166-1180, 1536-1568: the files in turn, each with a parser of its own.  `outputs`: there is an output directory; the output is
removed if the file is not well-formed, and the first such file ends the command. -/
def run (encoding : Option Buf) (map : Bool) : List File → Option Exit
  | [] => some ⟨0, []⟩
  | f :: fs =>
    match process E (create E encoding) f map with
    | none => none
    | some o =>
      if o.result = false then some ⟨2, [false]⟩
      else (run encoding map fs).map fun x => ⟨x.status, true :: x.kept⟩

end

/-! ### Names of external entities -/

/-- `strlen`: the bytes before the first NUL; `none` if there is none in the memory. -/
def strlen : Buf → Option Nat
  | [] => none
  | c :: s => if c = 0 then some 0 else (strlen s).map (· + 1)

/-- `strcpy` into the memory `m` from `i` on, of the string at the start of `s`; `none` if it does not fit. -/
def strcpy (m : Buf) (i : Nat) (s : Buf) : Option Buf :=
  match strlen s with
  | none => none
  | some n => if i + (n + 1) ≤ m.length then some (m.take i ++ s.take (n + 1) ++ m.drop (i + (n + 1))) else none

/-- `strrchr` of the string at the start of `s`: the last place of `c`. -/
def strrchr (c : UInt8) : Buf → Option Nat
  | [] => none
  | d :: s =>
    if d = 0 then none
    else
      match strrchr c s with
      | some i => some (i + 1)
      | none => if d = c then some 0 else none

/-- What `resolveSystemId` returns. -/
inductive Resolved where
  /-- a write beyond the memory, or a string without end -/
  | bad
  /-- `systemId` itself -/
  | same
  /-- the memory allocated -/
  | made (m : Buf)
deriving DecidableEq, Repr

/-- src/xmlwf/xmlfile.rs:107-133 `resolveSystemId`; `junk`: what is in the memory that malloc gives. -/
def resolveSystemId (base : Option Buf) (systemId : Buf) (junk : Nat → Buf) : Resolved :=
  match base with
  | none => .same
  | some b =>
    if systemId.head? = some 0x2F then .same else
    match strlen b, strlen systemId with
    | some n, some k =>
      match strcpy (junk (n + k + 2)) 0 b with
      | none => .bad
      | some m =>
        match strcpy m (match strrchr 0x2F m with | some i => i + 1 | none => 0) systemId with
        | none => .bad
        | some m => .made m
    | _, _ => .bad

end Verif.Wf
