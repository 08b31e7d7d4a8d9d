import Verif.ContentData

/-! The grammar of element content (XML 1.0 productions 39-43, 14-21, 66-68, with the events each
construct is to be reported by), as a specification independent of the tokenizer and of the parser's
loops.

`Content c D int iasc x asc opened env b E r`: the text `b`, in the encoding `x` whose ASCII characters are
spelled `asc`, consists of well-formed content followed by the text `r`; the content is reported as the
events `E`.  `opened` are the entities being expanded, `env` the namespaces in force.  Entity texts are in
the encoding `int`.  Text is reported character by character here (compare `C04.flat`).

What a start tag is reported as and which attributes it has is taken from `storeAtts`, specified by
C28 - C31 and C33. -/

set_option autoImplicit false

namespace Verif
open C43 C53 Spec

/-- Text, byte by byte. -/
def textEvs (bs : Buf) : List Ev := bs.map fun d => .chars [d]

/-- A start tag or empty-element tag (productions 40, 44). -/
def tagText (asc : UInt8 → Buf) (name : List Buf) (as : List AttrSrc) (ws : List UInt8) (empty : Bool) : Buf :=
  asc 0x3C ++ (name.flatten ++ (attsText asc as ++ closeText asc ws empty))

/-- An end tag (production 42). -/
def endText (asc : UInt8 → Buf) (name : Buf) (sp : List UInt8) : Buf :=
  asc 0x3C ++ (asc 0x2F ++ (name ++ (spell asc sp ++ asc 0x3E)))

/-- A comment (production 15). -/
def commentText (asc : UInt8 → Buf) (ws : List Buf) : Buf :=
  spell asc [0x3C, 0x21, 0x2D, 0x2D] ++ (ws.flatten ++ spell asc [0x2D, 0x2D, 0x3E])

/-- A processing instruction (production 16). -/
def piText (asc : UInt8 → Buf) (target : List Buf) (sp : List UInt8) (ws : List Buf) : Buf :=
  spell asc [0x3C, 0x3F] ++ (target.flatten ++ (spell asc sp ++ (ws.flatten ++ spell asc [0x3F, 0x3E])))

/-- `<![CDATA[` -/
def cdataOpen (asc : UInt8 → Buf) : Buf := spell asc [0x3C, 0x21, 0x5B, 0x43, 0x44, 0x41, 0x54, 0x41, 0x5B]

/-- Comments: legal characters, no `--`, not ending in `-`. -/
structure CommentOk (e : Enc) (asc : UInt8 → Buf) (ws : List Buf) : Prop where
  chars : e.Chars ws
  hyphens : NoPair (asc 0x2D) (asc 0x2D) (ws ++ [asc 0x2D])

/-- Processing instructions: the target is a name other than `xml` in any case; the data, if any, is
separated by white space, does not start with it and does not contain `?>`. -/
structure PiOk (e : Enc) (asc : UInt8 → Buf) (target : List Buf) (sp : List UInt8) (ws : List Buf) : Prop where
  name : e.Name target
  notXml : ¬ ∃ cs, C07.XmlAnyCase cs ∧ target.flatten = spell asc cs
  space : AllWS sp
  sep : sp = [] → ws = []
  chars : e.Chars ws
  close : NoPair (asc 0x3F) (asc 0x3E) (ws ++ [asc 0x3F])
  first : ∀ c, isWS c = true → ws.head? ≠ some (asc c)

/-- The inside of a CDATA section, up to the first `]]>` (productions 20, 21). -/
inductive Cdata (x : XEnc) (asc : UInt8 → Buf) : Buf → List Ev → Buf → Prop
  | close (r : Buf) : Cdata x asc (spell asc [0x5D, 0x5D, 0x3E] ++ r) [] r
  | char {w b r : Buf} {E : List Ev} : x.e.Plain asc w → ¬ StartsClose asc (w ++ b) → Cdata x asc b E r →
      Cdata x asc (w ++ b) (textEvs (converted x w) ++ E) r
  | lf {b r : Buf} {E : List Ev} : Cdata x asc b E r → Cdata x asc (asc 0x0A ++ b) (textEvs [0x0A] ++ E) r
  | crlf {b r : Buf} {E : List Ev} : x.e.lineEnds asc = true → Cdata x asc b E r →
      Cdata x asc (asc 0x0D ++ (asc 0x0A ++ b)) (textEvs [0x0A] ++ E) r
  | cr {b r : Buf} {E : List Ev} : x.e.lineEnds asc = true → (∀ b', b ≠ asc 0x0A ++ b') → Cdata x asc b E r →
      Cdata x asc (asc 0x0D ++ b) (textEvs [0x0A] ++ E) r

/-- A decimal or hexadecimal character reference denoting the character `n` (production 66). -/
inductive CharRefText (asc : UInt8 → Buf) : Buf → Nat → Prop
  | dec (ds : List UInt8) : ds ≠ [] → (∀ d ∈ ds, isDec d = true) →
      CharRefText asc (asc 0x26 ++ (asc 0x23 ++ (spell asc ds ++ asc 0x3B))) (numeral 10 ds)
  | hex (ds : List UInt8) : ds ≠ [] → (∀ d ∈ ds, (isDec d || isHexLetter d) = true) →
      CharRefText asc (asc 0x26 ++ (asc 0x23 ++ (asc 0x78 ++ (spell asc ds ++ asc 0x3B)))) (numeral 16 ds)

/-- An entity reference (production 68). -/
def entityText (asc : UInt8 → Buf) (name : Buf) : Buf := asc 0x26 ++ (name ++ asc 0x3B)

/-- The name is one of the five predefined entities. -/
def Predefined (asc : UInt8 → Buf) (name : Buf) : Prop := ∃ n ch, (n, ch) ∈ C10.predefined ∧ name = spell asc n

/-- Element content (production 43). -/
inductive Content (c : Cfg) (D : Dtd) (int : XEnc) (iasc : UInt8 → Buf) :
    XEnc → (UInt8 → Buf) → List Buf → Env → Buf → List Ev → Buf → Prop
  | nil {x asc opened v} (r : Buf) : Content c D int iasc x asc opened v r [] r
  | char {x asc opened v} {w b r : Buf} {E : List Ev} : x.e.Plain asc w → w ≠ asc 0x3C → w ≠ asc 0x26 →
      ¬ StartsClose asc (w ++ b) → Content c D int iasc x asc opened v b E r →
      Content c D int iasc x asc opened v (w ++ b) (textEvs (converted x w) ++ E) r
  | lf {x asc opened v} {b r : Buf} {E : List Ev} : Content c D int iasc x asc opened v b E r →
      Content c D int iasc x asc opened v (asc 0x0A ++ b) (textEvs [0x0A] ++ E) r
  | crlf {x asc opened v} {b r : Buf} {E : List Ev} : x.e.lineEnds asc = true →
      Content c D int iasc x asc opened v b E r →
      Content c D int iasc x asc opened v (asc 0x0D ++ (asc 0x0A ++ b)) (textEvs [0x0A] ++ E) r
  | cr {x asc opened v} {b r : Buf} {E : List Ev} : x.e.lineEnds asc = true → (∀ b', b ≠ asc 0x0A ++ b') →
      Content c D int iasc x asc opened v b E r →
      Content c D int iasc x asc opened v (asc 0x0D ++ b) (textEvs [0x0A] ++ E) r
  | charRef {x asc opened v} {w b r : Buf} {n : Nat} {E : List Ev} : CharRefText asc w n → XmlChar n →
      Content c D int iasc x asc opened v b E r →
      Content c D int iasc x asc opened v (w ++ b) (textEvs (utf8 n) ++ E) r
  | predefined {x asc opened v} {name : List UInt8} {ch : UInt8} {b r : Buf} {E : List Ev} :
      (name, ch) ∈ C10.predefined → Content c D int iasc x asc opened v b E r →
      Content c D int iasc x asc opened v (entityText asc (spell asc name) ++ b) (textEvs [ch] ++ E) r
  /-- an internal entity: its replacement text must be well-formed content by itself -/
  | entity {x asc opened v} {name : List Buf} {ent : Entity} {t b r : Buf} {E1 E : List Ev} :
      x.e.Name name → ¬ Predefined asc name.flatten →
      D.entity (converted x name.flatten) = some ent → ent.text = some t → ent.notation_ = none →
      (D.mustDeclare = true → ent.isInternal = true) → converted x name.flatten ∉ opened →
      Content c D int iasc int iasc (converted x name.flatten :: opened) v t E1 [] →
      Content c D int iasc x asc opened v b E r →
      Content c D int iasc x asc opened v (entityText asc name.flatten ++ b) (E1 ++ E) r
  /-- an external entity, accepted by the handler -/
  | external {x asc opened v} {name : List Buf} {ent : Entity} {b r : Buf} {E : List Ev} :
      x.e.Name name → ¬ Predefined asc name.flatten →
      D.entity (converted x name.flatten) = some ent → ent.text = none → ent.notation_ = none →
      (D.mustDeclare = true → ent.isInternal = true) → converted x name.flatten ∉ opened →
      c.refOk (converted x name.flatten) ent = true →
      Content c D int iasc x asc opened v b E r →
      Content c D int iasc x asc opened v (entityText asc name.flatten ++ b)
        (.externalRef none ent.systemId ent.publicId :: E) r
  /-- an undeclared entity which might be declared where the parser has not looked -/
  | skipped {x asc opened v} {name : List Buf} {b r : Buf} {E : List Ev} :
      x.e.Name name → ¬ Predefined asc name.flatten →
      D.entity (converted x name.flatten) = none → D.mustDeclare = false →
      Content c D int iasc x asc opened v b E r →
      Content c D int iasc x asc opened v (entityText asc name.flatten ++ b)
        (.skippedEntity (converted x name.flatten) false :: E) r
  | comment {x asc opened v} {ws : List Buf} {b r : Buf} {E : List Ev} : CommentOk x.e asc ws →
      Content c D int iasc x asc opened v b E r →
      Content c D int iasc x asc opened v (commentText asc ws ++ b)
        (.comment (C14.lineEnds (converted x ws.flatten)) :: E) r
  /-- the target is passed as a C string; a NUL in it is possible in ill-formed text only (C52) -/
  | pi {x asc opened v} {target : List Buf} {sp : List UInt8} {ws : List Buf} {b r : Buf} {E : List Ev} :
      PiOk x.e asc target sp ws → Content c D int iasc x asc opened v b E r →
      Content c D int iasc x asc opened v (piText asc target sp ws ++ b)
        (.pi (cstr (converted x target.flatten)) (C14.lineEnds (converted x ws.flatten)) :: E) r
  | cdata {x asc opened v} {b b2 r : Buf} {E1 E : List Ev} : Cdata x asc b E1 b2 →
      Content c D int iasc x asc opened v b2 E r →
      Content c D int iasc x asc opened v (cdataOpen asc ++ b) (.startCdata :: (E1 ++ (.endCdata :: E))) r
  | empty {x asc opened v} {name : List Buf} {as : List AttrSrc} {ws : List UInt8} {b r : Buf} {t : Stored}
      {Es E : List Ev} :
      QName x.e asc name → (∀ a ∈ as, AttrSrc.Valid x.e asc a) → AllWS ws →
      storeAtts c D int x opened (fun _ => .unset) v (converted x name.flatten) (tagText asc name as ws true)
        = (Es, .ok t) →
      Content c D int iasc x asc opened v b E r →
      Content c D int iasc x asc opened v (tagText asc name as ws true ++ b)
        (Es ++ (.startElement (t.name.full c) t.atts t.specified t.idIndex :: .endElement (t.name.full c) ::
          (t.binds.map fun d => .endNs d.pre)) ++ E) r
  | element {x asc opened v} {name : List Buf} {as : List AttrSrc} {ws sp : List UInt8} {b b2 r : Buf}
      {t : Stored} {Es E1 E : List Ev} :
      QName x.e asc name → (∀ a ∈ as, AttrSrc.Valid x.e asc a) → AllWS ws → AllWS sp →
      storeAtts c D int x opened (fun _ => .unset) v (converted x name.flatten) (tagText asc name as ws false)
        = (Es, .ok t) →
      Content c D int iasc x asc opened t.env b E1 (endText asc name.flatten sp ++ b2) →
      Content c D int iasc x asc opened v b2 E r →
      Content c D int iasc x asc opened v (tagText asc name as ws false ++ b)
        (Es ++ (.startElement (t.name.full c) t.atts t.specified t.idIndex :: E1) ++
          (.endElement (t.name.full c) :: (t.binds.map fun d => .endNs d.pre)) ++ E) r

end Verif
