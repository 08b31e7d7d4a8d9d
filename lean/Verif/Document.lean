import Verif.ContentThm

/-! The grammar of a document from the root element on (XML 1.0 productions 1, 27, 39). -/

set_option autoImplicit false

namespace Verif
open C43 C53 Spec C04

/-- What may follow the root element: comments, processing instructions and white space. -/
inductive Misc (x : XEnc) (asc : UInt8 → Buf) : Buf → List Ev → Prop
  | nil : Misc x asc [] []
  | space {ch : UInt8} {b : Buf} {E : List Ev} : isWS ch = true → Misc x asc b E → Misc x asc (asc ch ++ b) E
  | comment {ws : List Buf} {b : Buf} {E : List Ev} : CommentOk x.e asc ws → Misc x asc b E →
      Misc x asc (commentText asc ws ++ b) (.comment (C14.lineEnds (converted x ws.flatten)) :: E)
  | pi {target : List Buf} {sp : List UInt8} {ws : List Buf} {b : Buf} {E : List Ev} :
      PiOk x.e asc target sp ws → Misc x asc b E →
      Misc x asc (piText asc target sp ws ++ b)
        (.pi (cstr (converted x target.flatten)) (C14.lineEnds (converted x ws.flatten)) :: E)

/-- The bindings outside of all elements: the prefix `xml` only. -/
def rootEnv : Env := fun p => if p = some xmlName then some xmlNamespace else none

/-- One element and what follows it, with the events. -/
inductive Document (c : Cfg) (D : Dtd) (int : XEnc) (iasc : UInt8 → Buf) (x : XEnc) (asc : UInt8 → Buf) :
    Buf → List Ev → Prop
  | empty {name : List Buf} {as : List AttrSrc} {ws : List UInt8} {b : Buf} {t : Stored} {Es E : List Ev} :
      QName x.e asc name → (∀ a ∈ as, AttrSrc.Valid x.e asc a) → AllWS ws →
      storeAtts c D int x [] (fun _ => .unset) rootEnv (converted x name.flatten) (tagText asc name as ws true)
        = (Es, .ok t) →
      Misc x asc b E →
      Document c D int iasc x asc (tagText asc name as ws true ++ b)
        (Es ++ (.startElement (t.name.full c) t.atts t.specified t.idIndex :: .endElement (t.name.full c) ::
          (t.binds.map fun d => .endNs d.pre)) ++ E)
  | element {name : List Buf} {as : List AttrSrc} {ws sp : List UInt8} {b b2 : Buf}
      {t : Stored} {Es E1 E : List Ev} :
      QName x.e asc name → (∀ a ∈ as, AttrSrc.Valid x.e asc a) → AllWS ws → AllWS sp →
      storeAtts c D int x [] (fun _ => .unset) rootEnv (converted x name.flatten) (tagText asc name as ws false)
        = (Es, .ok t) →
      Content c D int iasc x asc [] t.env b E1 (endText asc name.flatten sp ++ b2) →
      Misc x asc b2 E →
      Document c D int iasc x asc (tagText asc name as ws false ++ b)
        (Es ++ (.startElement (t.name.full c) t.atts t.specified t.idIndex :: E1) ++
          (.endElement (t.name.full c) :: (t.binds.map fun d => .endNs d.pre)) ++ E)

end Verif
