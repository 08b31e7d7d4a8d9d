import Verif.PrologChild
import Verif.PrologToks
import Verif.Props.C54

/-! # C56: an external parameter entity in an entity value contributes its whole replacement text -/

set_option autoImplicit false

namespace Verif.C56
open Verif

/-! ### Specification -/

/-- What an application does for an external parameter entity referenced in an entity value: it creates a
parser for the entity and passes it the bytes in the pieces `bs`; the result is what the entity
contributes. -/
def contributes (c : PCfg) (ext : Ext) (fuel : Nat) (enc : EncIndex) (req : ExtReq) (sh : Shared) (bs : List Buf) : Childed :=
  childParse c ext fuel req.opened (childNew enc req sh) [] bs

/-- The claim, for delivery in pieces: the pieces make no difference. -/
def PiecesDontMatter : Prop :=
  ∀ (c : PCfg) (ext : Ext) (fuel : Nat) (enc : EncIndex) (req : ExtReq) (sh : Shared) (a b : Buf), a ≠ [] → b ≠ [] →
    req.inValue = true → (∃ r, (contributes c ext fuel enc req sh [a ++ b]).out = .done r) →
    (contributes c ext fuel enc req sh [a, b]).value = (contributes c ext fuel enc req sh [a ++ b]).value

/-- The claim, for text declarations: a text declaration is not part of the replacement text, and the
text after it is the same as without it. -/
def DeclarationsDontMatter : Prop :=
  ∀ (c : PCfg) (ext : Ext) (fuel : Nat) (enc : EncIndex) (req : ExtReq) (sh : Shared) (d b : Buf),
    d = [0x3C, 0x3F, 0x78, 0x6D, 0x6C, 0x20, 0x76, 0x65, 0x72, 0x73, 0x69, 0x6F, 0x6E, 0x3D, 0x27, 0x31, 0x2E, 0x30, 0x27,
         0x3F, 0x3E] →   -- `<?xml version='1.0'?>`
    req.inValue = true → (∃ r, (contributes c ext fuel enc req sh [b]).out = .done r) →
    (contributes c ext fuel enc req sh [d ++ b]).value = (contributes c ext fuel enc req sh [b]).value

/-- The claim, for a byte order mark, which is not part of the replacement text either. -/
def MarksDontMatter : Prop :=
  ∀ (c : PCfg) (ext : Ext) (fuel : Nat) (req : ExtReq) (sh : Shared) (b : Buf),
    req.inValue = true → (∃ r, (contributes c ext fuel .noEnc req sh [b]).out = .done r) →
    (contributes c ext fuel .noEnc req sh [[0xEF, 0xBB, 0xBF] ++ b]).value = (contributes c ext fuel .noEnc req sh [b]).value

/-! ### Refutation -/

/-- The settings of a child parser without handlers; an entity referenced in a value. -/
def exCfg : PCfg := { c := {}, int := internalUtf8X false, child := true, isPE := true }
def exExt : Ext := fun _ sh => ⟨[], sh, [], true⟩
def exReq : ExtReq := { opened := [], base := none, sys := none, pub := none, pe := .always, inValue := true }
def exSh : Shared := DState.sh { el := { p := PState.init }, cur := .builtin .utf8, pe := .always }

/-- `abc ` and `def` in two calls contribute `def` only. -/
theorem pieces_matter : ¬ PiecesDontMatter := by
  intro h
  have := h exCfg exExt 0 .noEnc exReq exSh [0x61, 0x62, 0x63, 0x20] [0x64, 0x65, 0x66] (by decide) (by decide) rfl
    ⟨[0x61, 0x62, 0x63, 0x20, 0x64, 0x65, 0x66], by decide +kernel⟩
  revert this
  decide +kernel

/-- What is delivered: the two pieces contribute `def`. -/
theorem pieces_lost :
    (contributes exCfg exExt 0 .noEnc exReq exSh [[0x61, 0x62, 0x63, 0x20], [0x64, 0x65, 0x66]]).value = [0x64, 0x65, 0x66] ∧
    (contributes exCfg exExt 0 .noEnc exReq exSh [[0x61, 0x62, 0x63, 0x20, 0x64, 0x65, 0x66]]).value =
      [0x61, 0x62, 0x63, 0x20, 0x64, 0x65, 0x66] := by
  decide +kernel

/-- `<?xml version='1.0'?>abc ` contributes nothing, `abc ` contributes `abc `. -/
theorem declarations_matter : ¬ DeclarationsDontMatter := by
  intro h
  have := h exCfg exExt 0 .noEnc exReq exSh _ [0x61, 0x62, 0x63, 0x20] rfl rfl ⟨[0x61, 0x62, 0x63, 0x20], by decide +kernel⟩
  revert this
  decide +kernel

theorem marks_matter : ¬ MarksDontMatter := by
  intro h
  have := h exCfg exExt 0 exReq exSh [0x61, 0x20] rfl ⟨[0x61, 0x20], by decide +kernel⟩
  revert this
  decide +kernel

/-! The same for a whole document, with an application that parses external entities. -/

/-- `<!DOCTYPE d SYSTEM 'dtd'><d/>` -/
def exDoc : Buf :=
  [0x3C, 0x21, 0x44, 0x4F, 0x43, 0x54, 0x59, 0x50, 0x45, 0x20, 0x64, 0x20, 0x53, 0x59, 0x53, 0x54, 0x45, 0x4D,
   0x20, 0x27, 0x64, 0x74, 0x64, 0x27, 0x3E, 0x3C, 0x64, 0x2F, 0x3E]

/-- `<!ENTITY % e SYSTEM 'e'><!ENTITY v '[%e;]'>` -/
def exDtd : Buf :=
  [0x3C, 0x21, 0x45, 0x4E, 0x54, 0x49, 0x54, 0x59, 0x20, 0x25, 0x20, 0x65, 0x20, 0x53, 0x59, 0x53, 0x54, 0x45,
   0x4D, 0x20, 0x27, 0x65, 0x27, 0x3E, 0x3C, 0x21, 0x45, 0x4E, 0x54, 0x49, 0x54, 0x59, 0x20, 0x76, 0x20, 0x27,
   0x5B, 0x25, 0x65, 0x3B, 0x5D, 0x27, 0x3E]

/-- The application finds `exDtd` for `dtd` and the pieces `bs` for `e`. -/
def exDocs (bs : List Buf) (r : ExtReq) : Option ExtDoc :=
  if r.sys = some [0x64, 0x74, 0x64] then some ⟨.noEnc, [exDtd]⟩
  else if r.sys = some [0x65] then some ⟨.noEnc, bs⟩ else none

def exRoot : PCfg := { c := {}, int := internalUtf8X false, child := false }
def exStart : DState := { el := { p := PState.init }, cur := .builtin .utf8, pe := .always }

/-- The text of the entity `v` at the end of the prolog. -/
def exValue (bs : List Buf) : Option (Option Buf) :=
  ((prologCall exRoot (resolver exRoot (exDocs bs) 3 3) 3 [] false exStart exDoc).2.1.D.toDtd.entity [0x76]).map (·.text)

/-- The value of `v` is `[abc def]` if `e` is delivered at once, `[def]` if it is delivered as `abc ` and `def`,
and `[]` if `abc ` comes after a text declaration. -/
theorem document_value :
    exValue [[0x61, 0x62, 0x63, 0x20, 0x64, 0x65, 0x66]] = some (some [0x5B, 0x61, 0x62, 0x63, 0x20, 0x64, 0x65, 0x66, 0x5D]) ∧
    exValue [[0x61, 0x62, 0x63, 0x20], [0x64, 0x65, 0x66]] = some (some [0x5B, 0x64, 0x65, 0x66, 0x5D]) ∧
    exValue [[0x3C, 0x3F, 0x78, 0x6D, 0x6C, 0x20, 0x76, 0x65, 0x72, 0x73, 0x69, 0x6F, 0x6E, 0x3D, 0x27, 0x31, 0x2E, 0x30,
   0x27, 0x3F, 0x3E, 0x61, 0x62, 0x63, 0x20]] = some (some [0x5B, 0x5D]) := by
  decide +kernel

/-! ### What does hold -/

/-- Without a question mark in the text there is no text declaration. -/
theorem scan_no_decl {e : Enc} {asc : UInt8 → Buf} (s : Supported e asc) (more : Bool) (b : Buf) (h : (0x3F : UInt8) ∉ b) :
    (∃ rest, evInitScan e more b = .wait rest) ∨ (∃ c, evInitScan e more b = .fail c) ∨ ∃ rest, evInitScan e more b = .stop rest := by
  have hend : ∀ (t : Tok) (b : Buf), (∃ rest, evTokEnd more t b = .wait rest) ∨ (∃ c, evTokEnd more t b = .fail c) ∨
      ∃ rest, evTokEnd more t b = .stop rest := by
    intro t b
    unfold evTokEnd
    split
    · exact .inl ⟨_, rfl⟩
    · split
      · exact .inr (.inl ⟨_, rfl⟩)
      · exact .inr (.inl ⟨_, rfl⟩)
      · exact .inr (.inl ⟨_, rfl⟩)
      · exact .inr (.inr ⟨_, rfl⟩)
  induction hn : b.length using Nat.strongRecOn generalizing b with
  | _ n ih =>
    subst hn
    rw [evInitScan.eq_def]
    simp only []
    split
    · exact hend _ _
    · split
      · rename_i _ hx
        exfalso
        obtain ⟨_, h2, hlen⟩ := prologTok_decl hx
        have hsub : ∀ z, z ∈ (truncBuf e b).drop e.mb → z ∈ b := by
          intro z hz
          exact List.mem_of_mem_take (List.mem_of_mem_drop hz)
        have h3 := bt_split s (t := .QUEST) rfl hlen h2
        have h4 : (0x3F : UInt8) ∈ asc 0x3F := by cases s <;> decide
        exact h (hsub _ (by rw [h3]; exact List.mem_append_left _ h4))
      · split
        · exact .inr (.inl ⟨_, rfl⟩)
        · split
          · rename_i hlt
            exact ih _ hlt _ (fun hm => h (List.mem_of_mem_drop hm)) rfl
          · exact .inr (.inl ⟨_, rfl⟩)

theorem scan_no_wait (e : Enc) (b rest : Buf) : evInitScan e false b ≠ .wait rest := by
  induction hn : b.length using Nat.strongRecOn generalizing b with
  | _ n ih =>
    subst hn
    rw [evInitScan.eq_def]
    simp only []
    split
    · unfold evTokEnd
      simp only [Bool.false_eq_true, false_and, if_false]
      split <;> simp
    · split
      · simp
      · split
        · simp
        · split
          · rename_i hlt; exact ih _ hlt _ rfl
          · simp

section
variable {c : PCfg} {ext : Ext} {fuel : Nat} {opened : List Buf}

theorem evInitRun_store {ch : Child} {b b' : Buf} (hb : (0x3F : UInt8) ∉ b') (hs : ∃ asc, Supported (ch.s.cur.x c.c.ns).e asc)
    (hok : ∃ r, (evInitRun c ext fuel opened false ch b b').out = .done r) :
    evInitRun c ext fuel opened false ch b b' = childStore c ext fuel opened ch b := by
  obtain ⟨asc, hs⟩ := hs
  unfold evInitRun at hok ⊢
  rcases scan_no_decl hs false b' hb with ⟨r, h⟩ | ⟨r, h⟩ | ⟨r, h⟩
  · exact absurd h (scan_no_wait _ _ _)
  · rw [h] at hok
    obtain ⟨_, hok⟩ := hok
    cases hok
  · rw [h]

theorem evInitCall_store {enc : EncIndex} {ch : Child} {b : Buf} (henc : ch.enc = some enc) (hb : (0x3F : UInt8) ∉ b)
    (hok : ∃ r, (evInitCall c ext fuel opened false ch b).out = .done r) :
    ∃ q, evInitCall c ext fuel opened false ch b = childStore c ext fuel opened (ch.set q) b := by
  refine ⟨firstTok c.c.ns ch.enc ch.s.cur b, ?_⟩
  have hq : ∀ i n, initScan enc .prolog b = .bom i n → firstTok c.c.ns ch.enc ch.s.cur b = (⟨.BOM, n⟩, none, .builtin i) := by
    intro i n h; simp [firstTok, henc, h]
  have hq2 : ∀ i, initScan enc .prolog b = .scan i → firstTok c.c.ns ch.enc ch.s.cur b = (prologTok (i.x c.c.ns).e b, none, .builtin i) := by
    intro i h; simp [firstTok, henc, h]
  have hq3 : initScan enc .prolog b = .none → firstTok c.c.ns ch.enc ch.s.cur b = (⟨.NONE, 0⟩, some enc, ch.s.cur) := by
    intro h; simp [firstTok, henc, h]
  have hq4 : initScan enc .prolog b = .more → firstTok c.c.ns ch.enc ch.s.cur b = (⟨.PARTIAL, 0⟩, some enc, ch.s.cur) := by
    intro h; simp [firstTok, henc, h]
  unfold evInitCall at hok ⊢
  simp only [] at hok ⊢
  cases h : initScan enc .prolog b with
  | none =>
    rw [hq3 h]
    rfl
  | more =>
    rw [hq4 h] at hok
    obtain ⟨_, hok⟩ := hok
    cases hok
  | bom i n =>
    rw [hq i n h] at hok ⊢
    have h1 : ¬ (b.drop n = [] ∧ false = true) := by simp
    simp only [if_true, if_neg h1] at hok ⊢
    exact evInitRun_store (fun hm => hb (List.mem_of_mem_drop hm)) ⟨_, (C54.supported c.c.ns i).s⟩ hok
  | scan i =>
    rw [hq2 i h] at hok ⊢
    simp only [Option.isSome_none, Bool.false_eq_true, if_false] at hok ⊢
    split
    · rename_i h1
      rw [if_pos h1] at hok
      have h2 : ¬ (b.drop (prologTok (i.x c.c.ns).e b).next = [] ∧ False) := by simp
      rw [if_neg h2] at hok ⊢
      exact evInitRun_store (fun hm => hb (List.mem_of_mem_drop hm)) ⟨_, (C54.supported c.c.ns i).s⟩ hok
    · rename_i h1
      rw [if_neg h1] at hok
      exact evInitRun_store hb ⟨_, (C54.supported c.c.ns i).s⟩ hok

end

/-- Text delivered in one call, without a text declaration: the whole text is evaluated, as
`storeEntityValue` does for a literal in the document.  (`x` is the encoding the child parser has found; a byte
order mark is, wrongly, part of the text: `marks_matter`.)  Missing: delivery in several calls and text
declarations, where the claim is false. -/
theorem one_piece_partial {c : PCfg} {ext : Ext} {fuel : Nat} {enc : EncIndex} {req : ExtReq} {sh : Shared} {b : Buf}
    (hreq : req.inValue = true) (hb : (0x3F : UInt8) ∉ b)
    (hok : ∃ r, (contributes c ext fuel enc req sh [b]).out = .done r) :
    ∃ x, x = (contributes c ext fuel enc req sh [b]).ch.s.cur.x c.c.ns ∧
    (contributes c ext fuel enc req sh [b]).value =
      (storeEntityValue c ext req.pe fuel x false req.opened { sh with D := { sh.D with peRead := true } } [] b).pool := by
  refine ⟨_, rfl, ?_⟩
  generalize hch : ({ childNew enc req sh with s := { (childNew enc req sh).s with D := { sh.D with peRead := true } }, phase := .evInit } : Child) = ch
  have hcall : childCall c ext fuel req.opened false (childNew enc req sh) b =
      evInitCall c ext fuel req.opened false ch b := by
    subst hch
    unfold childCall
    exact if_pos hreq
  have hout : ∀ r, (contributes c ext fuel enc req sh [b]).out = .done r →
      contributes c ext fuel enc req sh [b] = childCall c ext fuel req.opened false (childNew enc req sh) b := by
    intro r
    unfold contributes childParse
    simp only [List.nil_append, List.isEmpty_nil, Bool.not_true]
    generalize childCall c ext fuel req.opened false (childNew enc req sh) b = q
    obtain ⟨E, ch, v, o⟩ := q
    cases o <;> simp [childParse]
  obtain ⟨r, hr⟩ := hok
  have h1 := hout r hr
  rw [h1, hcall] at hr
  obtain ⟨q, h2⟩ := evInitCall_store (enc := enc) (by subst hch; rfl) hb ⟨r, hr⟩
  rw [h1, hcall, h2]
  subst hch
  rfl

/-- The text `a b`. -/
example : (contributes exCfg exExt 0 .noEnc exReq exSh [[0x61, 0x20, 0x62]]).out = .done [0x61, 0x20, 0x62] ∧
    (contributes exCfg exExt 0 .noEnc exReq exSh [[0x61, 0x20, 0x62]]).value = [0x61, 0x20, 0x62] ∧ exReq.inValue = true := by
  decide +kernel

end Verif.C56
