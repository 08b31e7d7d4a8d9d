import Verif.ElemDecl

/-!
# Content models as XML 1.0 writes them (productions 46-51)

`CM` is the tree a user sees (`XML_Content`); `text` is how it is written, as a sequence of
symbols; `IsCp`/`IsMixed` say which trees the productions allow.
-/

namespace Verif

/-- A content model: a quantified name, or a quantified group. -/
inductive CM where
  | name (q : Quant) (n : List UInt8)
  | group (ty : CType) (q : Quant) (kids : List CM)

/-- The symbols of a content specification. `nm q n`: a name with its quantifier;
`cls q`: `)` with its quantifier; `sep true` is `|`, `sep false` is `,`. -/
inductive Sy where
  | nm (q : Quant) (n : List UInt8)
  | opn
  | cls (q : Quant)
  | sep (choice : Bool)
  | pcdata
deriving DecidableEq, Repr

mutual
/-- How a content particle is written: `name?`, `(a , b)*`, `(a | b)`, ... -/
def CM.text : CM → List Sy
  | .name q n => [.nm q n]
  | .group _ q [] => [.opn, .cls q]
  | .group ty q (k :: ks) => .opn :: (k.text ++ (CM.more (ty == .CHOICE) ks ++ [.cls q]))
/-- The second, third, ... member of a group, each with the separator before it. -/
def CM.more (ch : Bool) : List CM → List Sy
  | [] => []
  | k :: ks => .sep ch :: (k.text ++ CM.more ch ks)
end

/-- Productions 48-50: a choice has at least two members, a sequence at least one; all members
are content particles. -/
inductive IsCp : CM → Prop
  | name (q n) : IsCp (.name q n)
  | seq (q ks) : ks ≠ [] → (∀ k ∈ ks, IsCp k) → IsCp (.group .SEQ q ks)
  | choice (q ks) : 2 ≤ ks.length → (∀ k ∈ ks, IsCp k) → IsCp (.group .CHOICE q ks)

/-- How mixed content is written: `(#PCDATA | a | b)*`. -/
def CM.mixedText (q : Quant) (ks : List CM) : List Sy :=
  .opn :: .pcdata :: (CM.more true ks ++ [.cls q])

/-- Production 51: only unquantified names; the asterisk may be left out if there are none. -/
def IsMixed (q : Quant) (ks : List CM) : Prop :=
  (∀ k ∈ ks, ∃ n, k = .name .NONE n) ∧ (q = .REP ∨ (q = .NONE ∧ ks = []))

/-- The symbol a token of the document stands for.  `asc` spells ASCII characters in the
document's encoding, `mb` is the size of its code unit, `nm` the name as reported to handlers. -/
def symOf (asc : UInt8 → Buf) (mb : Nat) (nm : Buf → List UInt8) : Tok × Buf → Option Sy
  | (.NAME, b) | (.PREFIXED_NAME, b) => some (.nm .NONE (nm b))
  | (.NAME_QUESTION, b) => some (.nm .OPT (nm (b.take (b.length - mb))))
  | (.NAME_ASTERISK, b) => some (.nm .REP (nm (b.take (b.length - mb))))
  | (.NAME_PLUS, b) => some (.nm .PLUS (nm (b.take (b.length - mb))))
  | (.OPEN_PAREN, _) => some .opn
  | (.CLOSE_PAREN, _) => some (.cls .NONE)
  | (.CLOSE_PAREN_QUESTION, _) => some (.cls .OPT)
  | (.CLOSE_PAREN_ASTERISK, _) => some (.cls .REP)
  | (.CLOSE_PAREN_PLUS, _) => some (.cls .PLUS)
  | (.COMMA, _) => some (.sep false)
  | (.OR, _) => some (.sep true)
  | (.POUND_NAME, b) =>
    if b.drop mb = spell asc [0x50, 0x43, 0x44, 0x41, 0x54, 0x41] then some .pcdata else none
  | _ => none

/-- Production 46: the tokens (without white space) `ts` are a content specification that
declares `c`. -/
inductive IsContent (asc : UInt8 → Buf) (mb : Nat) (nm : Buf → List UInt8) :
    CM → List (Tok × Buf) → Prop
  | empty : IsContent asc mb nm (.group .EMPTY .NONE [])
      [(.NAME, spell asc [0x45, 0x4D, 0x50, 0x54, 0x59])]
  | any : IsContent asc mb nm (.group .ANY .NONE []) [(.NAME, spell asc [0x41, 0x4E, 0x59])]
  | mixed (q ks ts) : IsMixed q ks → ts.map (symOf asc mb nm) = (CM.mixedText q ks).map some →
      IsContent asc mb nm (.group .MIXED q ks) ts
  | children (ty q ks ts) : IsCp (.group ty q ks) →
      ts.map (symOf asc mb nm) = (CM.text (.group ty q ks)).map some →
      IsContent asc mb nm (.group ty q ks) ts

mutual
/-- The tree found in the block delivered to the element-declaration handler at cell `i`, as a C
program reads it. -/
def Denotes (m : Block) (i : Nat) : CM → Prop
  | .name q n => ∃ o rest, m.cells[i]? = some ⟨.NAME, q, some o, 0, none⟩ ∧
      m.strs.drop o = n ++ 0 :: rest
  | .group ty q kids => ∃ ch : Option Nat, m.cells[i]? = some ⟨ty, q, none, kids.length, ch⟩ ∧
      DenotesAll m ch kids
/-- An array of `XML_Content` starting at `c`. -/
def DenotesAll (m : Block) (c : Option Nat) : List CM → Prop
  | [] => True
  | k :: ks => ∃ a, c = some a ∧ Denotes m a k ∧ DenotesAll m (some (a + 1)) ks
end

/-- Tokens without significance inside a declaration: white space, and in the external subset
parameter-entity references (their replacement is parsed in their place). -/
def isQuiet (doc : Bool) (x : Tok × Buf) : Bool :=
  x.1 == .PROLOG_S || (!doc && x.1 == .PARAM_ENTITY_REF)

def strip (doc : Bool) (ts : List (Tok × Buf)) : List (Tok × Buf) := ts.filter (!isQuiet doc ·)

end Verif
