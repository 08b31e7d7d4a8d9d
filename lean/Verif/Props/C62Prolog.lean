import Verif.LegalRun

/-! C62 for the calls made from prologs, also from those that turn out to be ill-formed (C62.lean has the rest of the property). -/

set_option autoImplicit false

namespace Verif.C62
open C43 C59 C60 C61 C62 Spec PState

/-- Whatever the text, however it is cut and whatever comes of it (the prolog may end in an error, the root element may never be reached):
every call made for the prolog is given legal text.  `t` is the document after its byte order mark, if it has one. -/
theorem prolog_all {c : PCfg} (U : Usual c) {idx : EncIndex} {m t : Buf} {i : EncId} (h0 : C60.Found idx m t i) (hd : (i.x c.c.ns).e.mb ∣ t.length)
    (hlen : t.length + 2 < 2 ^ 31) (ext : Ext) (fuel : Nat) (cur : CurEnc) (xs : List Buf) (hx : xs.flatten = m ++ t) :
    ∀ v ∈ (parse c ext fuel idx (start cur .never) [] xs).1, LegalDecl v :=
  parse_legal ⟨U.unknown, U.int, U.isPE⟩ h0 hd hlen cur xs hx

/-! ### Example -/

/-- The entity value has an error after two characters, which are reported all the same:
`<!DOCTYPE a PUBLIC 'p  q' 'é' [<!--ß--><!ATTLIST a d CDATA 'ü'><!ENTITY e 'é&#x20AC;&;'>]><a/>` -/
def exBad : Buf := "<!DOCTYPE a PUBLIC 'p  q' 'é' [<!--ß--><!ATTLIST a d CDATA 'ü'><!ENTITY e 'é&#x20AC;&;'>]><a/>".toUTF8.toList

/-- The texts of the calls, if the prolog ends in an error. -/
def saidOf : C57.Doc → Option (List Buf × XErr)
  | (E, _, .prolog (.err e)) => some (E.flatMap (fun v => match v with
    | .ev (.comment s) => [s]
    | .startDoctype _ (some s) (some p) _ => [s, p]
    | .entityDecl _ _ (some s) _ _ _ _ => [s]
    | .attlistDecl _ _ _ (some s) _ => [s]
    | _ => []), e)
  | _ => none

theorem ex_bad : saidOf (parse exCfg exExt 200 .noEnc (start (.builtin .utf8) .never) [] [exBad.take 40, exBad.drop 40]) =
    some (["é".toUTF8.toList, "p q".toUTF8.toList, "ß".toUTF8.toList, "ü".toUTF8.toList, "é€".toUTF8.toList], .INVALID_TOKEN) := by decide +kernel

example : ∀ v ∈ (parse exCfg exExt 200 .noEnc (start (.builtin .utf8) .never) [] [exBad.take 40, exBad.drop 40]).1, LegalDecl v :=
  prolog_all (i := .utf8) (idx := .noEnc) (t := exBad) (m := []) ex_usual (by
    have h : exBad = 0x3C :: 0x21 :: exBad.drop 2 := by decide +kernel
    rw [h]; exact .plain 0x3C 0x21 _ (by decide) (by decide)) (Nat.one_dvd _) (by decide +kernel) exExt 200 _ _ (by simp)

end Verif.C62
