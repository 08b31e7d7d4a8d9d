import Verif.LegalProlog

/-! Why every string reported from a prolog is legal text, also if the prolog turns out to be ill-formed (C62): what tokens do. -/

set_option autoImplicit false

namespace Verif
open C43 C53 C59 C60 C61 C62 Spec PState

/-! ### Rounds -/

section
variable {c : PCfg} {ext : Ext} {fuel : Nat} {expand : Bool → Buf → Buf → DState → Acted} {opened : List Buf} {x : XEnc} {asc : UInt8 → Buf} {w : Buf}

/-- The text between the quotes of a literal. -/
def InQuotes (x : XEnc) (w : Buf) : Prop := ∃ us, x.e.Chars us ∧ refName x.e w = us.flatten

theorem InQuotes.legal (S : XSupported x asc) (h : InQuotes x w) : LegalText (converted x (refName x.e w)) := by
  obtain ⟨us, h1, h2⟩ := h
  rw [h2]
  exact conv_legals S h1

theorem InQuotes.pub (S : XSupported x asc) (h : InQuotes x w) : LegalText (pubNorm (converted x (refName x.e w))) := by
  refine legal_pubNorm (h.legal S) ?_
  obtain ⟨us, h1, h2⟩ := h
  rw [h2]
  exact conv_no_zero S h1

theorem legal_go {E : List PEv} {s : DState} {d : Bool} (hE : ∀ v ∈ E, LegalDecl v) (hs : Ids s) (ht : s.tmp = []) : Acted.Legal c (E, s, .go d) :=
  ⟨hE, fun _ _ => ⟨hs, .inl ht⟩⟩

theorem legal_silent {s : DState} {d : Bool} (hs : Ids s) (ht : s.tmp = []) : Acted.Legal c ([], s, .go d) := legal_go (by simp) hs ht

theorem legal_fail {E : List PEv} {s : DState} {e : XErr} (hE : ∀ v ∈ E, LegalDecl v) : Acted.Legal c (E, s, .fail e) := ⟨hE, by intro d h; cases h⟩

theorem legal_only {v : PEv} (h : LegalDecl v) : ∀ u ∈ [v], LegalDecl u := by
  intro u hu
  rw [List.mem_singleton.1 hu]
  exact h

theorem legal_dflt (k : Cfg) (x : XEnc) (w : Buf) : ∀ v ∈ (toDefault k x w).map PEv.ev, LegalDecl v := by
  intro v hv
  obtain ⟨u, hu, rfl⟩ := List.mem_map.1 hv
  unfold toDefault at hu
  split at hu
  · obtain ⟨p, -, rfl⟩ := List.mem_map.1 hu
    trivial
  · cases hu

theorem ask_legal (c : PCfg) (D : DTab) : ∀ v ∈ (askStandalone c D).1, LegalDecl v := by
  unfold askStandalone
  split
  · simp
  · split
    · simp
    · exact legal_only trivial

theorem doctype_legal (S : XSupported x asc) {s : DState} (hs : Ids s) (ht : s.tmp = []) {r : Role}
    (hl : r = .DOCTYPE_SYSTEM_ID ∨ r = .DOCTYPE_PUBLIC_ID → InQuotes x w) : Acted.Legal c (actDoctype c s x r w) := by
  unfold actDoctype
  split
  · split
    · exact legal_silent ⟨by simp, by simp, hs.npub, hs.gen, hs.par⟩ rfl
    · exact legal_silent ⟨by simp, hs.pub, hs.npub, hs.gen, hs.par⟩ ht
  · split
    · exact legal_go (legal_only ⟨hs.sys, hs.pub⟩) (hs.same rfl rfl rfl rfl rfl) rfl
    · exact legal_silent hs ht
  · have hq := (hl (.inr rfl)).pub S
    generalize hs1 : ({ s with foreign := false, decl := some (true, hashName), D := { s.D with par := tabPut s.D.par hashName .zero, hasPERefs := true } } : DState) = s1
    have C : Ids s1 := hs1 ▸ ⟨hs.sys, hs.pub, hs.npub, hs.gen, hs.par.put entIds_zero⟩
    have ht1 : s1.tmp = [] := hs1 ▸ ht
    have set {s : DState} (C : Ids s) : Ids (docPublic.docPublicSet x w s) := by
      unfold docPublic.docPublicSet
      split
      · exact C.setDecl fun e he => ⟨he.1, by rintro t ⟨⟩; exact hq⟩
      · exact C
    have tmp {s : DState} (h : s.tmp = []) : (docPublic.docPublicSet x w s).tmp = [] := by
      unfold docPublic.docPublicSet
      split
      · rw [setDecl_tmp]; exact h
      · exact h
    unfold docPublic
    split
    · exact legal_fail (by simp)
    · split
      · refine legal_silent (set ⟨C.sys, ?_, C.npub, C.gen, C.par⟩) (tmp rfl)
        rintro t ⟨⟩
        rw [ht1]
        exact hq
      · exact legal_silent (set C) (tmp ht1)
  · have hq := (hl (.inl rfl)).legal S
    generalize hs1 : (if c.startDoctype then ({ s with foreign := false, D := { s.D with hasPERefs := true }, dSys := some (s.tmp ++ converted x (refName x.e w)), tmp := [] } : DState)
      else { s with foreign := false, D := { s.D with hasPERefs := true }, dSys := some hashName }) = s1
    have C : Ids s1 ∧ s1.tmp = [] := by
      rw [← hs1]
      split
      · refine ⟨⟨?_, hs.pub, hs.npub, hs.gen, hs.par⟩, rfl⟩
        rintro t ⟨⟩
        rw [ht]
        exact hq
      · refine ⟨⟨?_, hs.pub, hs.npub, hs.gen, hs.par⟩, ht⟩
        rintro t ⟨⟩
        exact legal_byte (by decide) (by decide)
    have C1 : Ids (docEntry s1) ∧ (docEntry s1).tmp = [] := by
      unfold docEntry
      split
      · exact ⟨⟨C.1.sys, C.1.pub, C.1.npub, C.1.gen, (C.1.par.put entIds_zero).set (f := fun e => { e with publicId := none }) fun e he => ⟨he.1, by simp⟩⟩, C.2⟩
      · exact C
    unfold docSystem
    simp only
    have hE : ∀ v ∈ (if s1.pe = .never then askStandalone c s1.D else ([], false)).1, LegalDecl v := by
      split
      · exact ask_legal c _
      · simp
    generalize (if s1.pe = .never then askStandalone c s1.D else ([], false)) = a at hE
    split
    · exact legal_fail hE
    · refine legal_go hE ?_ ?_
      · unfold docSystemSet
        split
        · exact C1.1.setDecl fun e he => ⟨by rintro t ⟨⟩; exact hq, he.2⟩
        · exact C1.1
      · unfold docSystemSet
        split
        · rw [setDecl_tmp]; exact C1.2
        · exact C1.2
  · exact legal_silent hs ht

theorem close_legal {s : DState} (hp : s.pe = .never) (hs : Ids s) (ht : s.tmp = []) (allowClose : Bool) :
    Acted.Legal c (actDoctypeClose c ext opened allowClose s) := by
  unfold actDoctypeClose
  split
  · exact legal_fail (by simp)
  · simp only
    have hE : ∀ v ∈ (if s.dName.isSome = true then [PEv.startDoctype s.dName s.dSys s.dPub false] else []), LegalDecl v :=
      if_legal (v := .startDoctype _ _ _ _) ⟨hs.sys, hs.pub⟩
    have hE2 : ∀ v ∈ (if c.endDoctype = true then [PEv.endDoctype] else []), LegalDecl v := if_legal (v := .endDoctype) trivial
    generalize (if s.dName.isSome = true then [PEv.startDoctype s.dName s.dSys s.dPub false] else []) = E at hE
    generalize (if c.endDoctype = true then [PEv.endDoctype] else []) = E2 at hE2
    generalize hs1 : (if s.dName.isSome then ({ s with tmp := [] } : DState) else s) = s1
    have C : Ids s1 ∧ s1.tmp = [] ∧ s1.pe = .never := by
      rw [← hs1]
      split
      · exact ⟨hs.same rfl rfl rfl rfl rfl, rfl, hp⟩
      · exact ⟨hs, ht, hp⟩
    split
    · rw [subset_same C.2.2]
      refine legal_go ?_ (C.1.same rfl rfl rfl rfl rfl) C.2.1
      intro v hv
      simp only [List.append_nil] at hv
      rcases List.mem_append.1 hv with h | h
      · exact hE v h
      · exact hE2 v h
    · refine legal_go ?_ C.1 C.2.1
      intro v hv
      rcases List.mem_append.1 hv with h | h
      · exact hE v h
      · exact hE2 v h

theorem inst_legal {s : DState} (hp : s.pe = .never) : Acted.Legal c (actInstanceStart c ext opened s) := by
  unfold actInstanceStart
  split
  · rw [subset_same hp]
    exact ⟨by simp, by simp⟩
  · exact ⟨by simp, by simp⟩

theorem entity_legal (hc : Doc0 c) (S : XSupported x asc) {s : DState} (hs : Ids s) (ht : s.tmp = []) {r : Role}
    (hl : r = .ENTITY_VALUE ∨ r = .ENTITY_PUBLIC_ID ∨ r = .ENTITY_SYSTEM_ID → InQuotes x w) : Acted.Legal c (actEntity c ext fuel opened s x false r w) := by
  have hn : EntIds (newEntity c false) := entIds_zero
  unfold actEntity
  split
  · (repeat' split) <;> refine legal_silent ?_ (by exact ht)
    · exact hs.same rfl rfl rfl rfl rfl
    · exact hs.same rfl rfl rfl rfl rfl
    · exact ⟨hs.sys, hs.pub, hs.npub, hs.gen.put hn, hs.par⟩
    · exact hs.same rfl rfl rfl rfl rfl
  · (repeat' split) <;> refine legal_silent ?_ (by exact ht)
    · exact hs.same rfl rfl rfl rfl rfl
    · exact ⟨hs.sys, hs.pub, hs.npub, hs.gen, hs.par.put hn⟩
    · exact hs.same rfl rfl rfl rfl rfl
  · split
    · exact legal_silent hs ht
    · obtain ⟨us, h1, h2⟩ := hl (.inl rfl)
      rw [h2]
      obtain ⟨g1, g2, g3⟩ := store_pool (ext := ext) (pe := s.pe) S hc.isPE fuel opened s.sh _ rfl h1 .nil
      generalize storeEntityValue c ext s.pe fuel x false opened s.sh [] us.flatten = v at g1 g2 g3
      obtain ⟨E, sh, pool, err⟩ := v
      simp only at g1 g2 g3
      subst g2 g3
      simp only
      have hsh : s.setSh s.sh = s := rfl
      rw [hsh]
      generalize hs1 : (s.setDecl fun e => { e with text := some pool }) = s1
      have C : Ids s1 := hs1 ▸ hs.setDecl fun e he => he
      have T : s1.tmp = [] := by rw [← hs1, setDecl_tmp]; exact ht
      have hE : ∀ v ∈ ((match s1.decl with
          | none => ([], true)
          | some (p, n) => if c.entityDecl = true then ([] ++ [PEv.entityDecl n p (some pool) c.base none none none], false) else ([], true)) : List PEv × Bool).1,
          LegalDecl v := by
        split
        · simp
        · split
          · exact legal_only ⟨by rintro t ⟨⟩; exact g1, by simp, by simp⟩
          · simp
      cases err with
      | some e => exact legal_fail hE
      | none => exact legal_go hE C T
  · have hq := fun h => (hl h).pub S
    split
    · exact legal_fail (by simp)
    · split
      · exact legal_silent (hs.setDecl fun e he => ⟨he.1, by rintro t ⟨⟩; exact hq (.inr (.inl rfl))⟩) (by rw [setDecl_tmp]; exact ht)
      · exact legal_silent hs ht
  · have hq := fun h => (hl h).legal S
    split
    · exact legal_silent (hs.setDecl fun e he => ⟨by rintro t ⟨⟩; exact hq (.inr (.inr rfl)), he.2⟩) (by rw [setDecl_tmp]; exact ht)
    · exact legal_silent hs ht
  · split
    · exact legal_silent hs ht
    · rename_i p n e he
      have hi := declEnt_ids hs he
      split
      · exact legal_go (legal_only ⟨by simp, hi⟩) hs ht
      · exact legal_silent hs ht
  · split
    · have C := hs.setDecl (f := fun e => { e with notation_ := some (converted x w) }) fun e he => he
      have T : (s.setDecl fun e => { e with notation_ := some (converted x w) }).tmp = [] := by rw [setDecl_tmp]; exact ht
      simp only
      split
      · exact legal_silent C T
      · rename_i p n e he
        have hi := declEnt_ids C he
        split
        · exact legal_go (legal_only hi) C T
        · split
          · exact legal_go (legal_only ⟨by simp, hi⟩) C T
          · exact legal_silent C T
    · exact legal_silent hs ht
  · exact legal_silent hs ht

theorem notation_legal (S : XSupported x asc) {s : DState} (hs : Ids s) (ht : s.tmp = []) {r : Role}
    (hl : r = .NOTATION_SYSTEM_ID ∨ r = .NOTATION_PUBLIC_ID → InQuotes x w) : Acted.Legal c (actNotation c s x r w) := by
  unfold actNotation
  split
  · split
    · exact legal_silent ⟨hs.sys, hs.pub, by simp, hs.gen, hs.par⟩ rfl
    · exact legal_silent ⟨hs.sys, hs.pub, by simp, hs.gen, hs.par⟩ ht
  · have hq := (hl (.inr rfl)).pub S
    split
    · exact legal_fail (by simp)
    · split
      · refine legal_silent ⟨hs.sys, hs.pub, ?_, hs.gen, hs.par⟩ rfl
        rintro t ⟨⟩
        rw [ht]; exact hq
      · exact legal_silent hs ht
  · have hq := (hl (.inl rfl)).legal S
    split
    · refine legal_go (legal_only ⟨?_, hs.npub⟩) (hs.same rfl rfl rfl rfl rfl) rfl
      rintro t ⟨⟩
      rw [ht]; exact hq
    · exact legal_silent (hs.same rfl rfl rfl rfl rfl) rfl
  · split
    · exact legal_go (legal_only ⟨by simp, hs.npub⟩) (hs.same rfl rfl rfl rfl rfl) rfl
    · exact legal_silent (hs.same rfl rfl rfl rfl rfl) rfl

theorem comment_round (S : XSupported x asc) {s : DState} (hs : Ids s) (ht : s.tmp = []) (hw : ∃ ws, CommentOk x.e asc ws ∧ w = commentText asc ws) :
    Acted.Legal c (actComment c s x w) := by
  obtain ⟨ws, h1, rfl⟩ := hw
  unfold actComment
  split
  · obtain ⟨d, h2, h3⟩ := comment_value (k := reading c x asc .never) S h1
    simp only [reading] at h2
    rw [ht, List.nil_append, h2]
    refine legal_go (legal_only ?_) (hs.same rfl rfl rfl rfl rfl) rfl
    show LegalText (cstr d)
    rw [h3]
    exact legal_lineEnds _ [] (conv_legals S h1.chars)
  · exact legal_go (legal_dflt _ _ _) hs ht

theorem pi_round (S : XSupported x asc) {s : DState} (hs : Ids s) (ht : s.tmp = []) (hw : ∃ target sp ws, PiOk x.e asc target sp ws ∧ w = piText asc target sp ws) :
    Acted.Legal c (actPI c s x w) := by
  obtain ⟨target, sp, ws, h1, rfl⟩ := hw
  unfold actPI
  split
  · obtain ⟨d, h2, h3, -⟩ := pi_value (k := reading c x asc .never) S h1
    simp only [reading] at h2
    simp only [h2]
    refine legal_go (legal_only ?_) (hs.same rfl rfl rfl rfl rfl) rfl
    show LegalText (cstr d)
    rw [h3]
    exact legal_lineEnds _ [] (conv_legals S h1.chars)
  · exact legal_go (legal_dflt _ _ _) hs ht

theorem decl_round {s : DState} (hs : Ids s) (ht : s.tmp = []) : Acted.Legal c (actXmlDecl c s false w) := by
  have hE : ∀ (x : XEnc) (o) (E : List PEv), (if c.xmlDecl then (xmlDeclCall c.c.al x Pool.new o).map fun d => [.xmlDecl d]
      else some ((toDefault c.c x w).map .ev)) = some E → ∀ v ∈ E, LegalDecl v := by
    intro x o E h
    split at h
    · cases hx : xmlDeclCall c.c.al x Pool.new o with
      | none => rw [hx] at h; cases h
      | some d => rw [hx] at h; cases h; exact legal_only trivial
    · cases h; exact legal_dflt _ _ _
  unfold actXmlDecl
  simp only
  split
  · exact ⟨by simp, by simp⟩
  · exact legal_fail (by simp)
  · rename_i o _
    generalize hs1 : (if (!false && o.standalone == some true) = true then
      ({ s with D := { s.D with standalone := true }, pe := if s.pe = .unlessStandalone then .never else s.pe } : DState) else s) = s1
    have C : Ids s1 ∧ s1.tmp = [] := by
      rw [← hs1]
      split
      · exact ⟨hs.same rfl rfl rfl rfl rfl, ht⟩
      · exact ⟨hs, ht⟩
    split
    · exact ⟨by simp, by simp⟩
    · rename_i E he
      have hE := hE _ _ _ he
      (repeat' split) <;> first
        | exact legal_go hE C.1 C.2
        | exact legal_go hE (C.1.same rfl rfl rfl rfl rfl) C.2
        | exact legal_fail hE
        | exact ⟨hE, by simp⟩

theorem define_tabs (ns : Bool) (D : DTab) (el a : Buf) (ic ii : Bool) (v : Option Buf) :
    (defineAttribute ns D el a ic ii v).gen = D.gen ∧ (defineAttribute ns D el a ic ii v).par = D.par ∧ (defineAttribute ns D el a ic ii v).keep = D.keep := by
  unfold defineAttribute
  simp only
  split <;> exact ⟨rfl, rfl, rfl⟩

theorem report_legal {s : DState} {h : Hd} (hs : Ids s) (ht : Left c h s) {v : Option Buf} (hv : ∀ t ∈ v, LegalText t) (q : Bool) : Acted.Legal c (reportAttribute c s v q) := by
  unfold reportAttribute
  split
  · rename_i hd
    rcases ht with ht | ⟨-, -, h2, -⟩
    · exact legal_silent hs ht
    · simp [h2] at hd
  · split
    · rename_i hty
      rcases ht with ht | ⟨-, -, -, h2⟩
      · exact legal_silent hs ht
      · rw [h2] at hty; cases hty
    · exact legal_go (legal_only hv) (hs.same rfl rfl rfl rfl rfl) rfl
    · exact legal_go (legal_only hv) (hs.same rfl rfl rfl rfl rfl) rfl

theorem default_round (hc : Doc0 c) (S : XSupported x asc) {s : DState} {h : Hd} (hs : Ids s) (ht : Left c h s) (hT : C33.TextsOk s.D.toDtd (internalUtf8X c.c.ns)) {r : Role}
    (hr : r = .IMPLIED_ATTRIBUTE_VALUE ∨ r = .REQUIRED_ATTRIBUTE_VALUE ∨ r = .DEFAULT_ATTRIBUTE_VALUE ∨ r = .FIXED_ATTRIBUTE_VALUE)
    (hl : r = .DEFAULT_ATTRIBUTE_VALUE ∨ r = .FIXED_ATTRIBUTE_VALUE → InQuotes x w) (internal : Bool) : Acted.Legal c (actAttDefault c s x internal r w) := by
  have rep (v : Option Buf) (hv : ∀ t ∈ v, LegalText t) (id q : Bool) :
      Acted.Legal c (reportAttribute c { s with D := defineAttribute c.c.ns s.D s.el.declName s.att s.isCdata id v } v q) := by
    obtain ⟨h1, h2, h3⟩ := define_tabs c.c.ns s.D s.el.declName s.att s.isCdata id v
    refine report_legal (h := h) (by refine Ids.same hs ?_ ?_ ?_ h1 h2 <;> rfl) ?_ hv q
    rcases ht with ht | ⟨g1, g2, g3, g4⟩
    · exact .inl ht
    · exact .inr ⟨g1, h3.trans g2, g3, g4⟩
  unfold actAttDefault
  split
  · rename_i hk
    rcases ht with ht | ⟨-, h2, -, -⟩
    · exact legal_silent hs ht
    · simp [h2] at hk
  · split
    · exact rep _ (by simp) _ _
    · exact rep _ (by simp) _ _
    · rename_i h1 h2
      obtain ⟨us, g1, g2⟩ := hl (by rcases hr with h | h | h | h <;> simp_all)
      split
      · exact legal_fail (by simp)
      · rename_i v hv
        rw [hc.int, g2] at hv
        obtain ⟨out, k1, rfl⟩ := (C33.literal_value S hT _ _ g1.lit v).1 hv
        refine rep _ ?_ _ _
        rintro t ⟨⟩
        have := norm_legal k1 S
        split
        · exact this
        · exact legal_collapse this

theorem attlist_left {s : DState} {h : Hd} (hs : Ids s) (ht : Left c h s) {r : Role} 
    (he : r = .ATTRIBUTE_ENUM_VALUE ∨ r = .ATTRIBUTE_NOTATION_VALUE ∨ (r ≠ .ATTRIBUTE_ENUM_VALUE ∧ r ≠ .ATTRIBUTE_NOTATION_VALUE ∧ pend h = false))
    (hn : r = .ATTRIBUTE_ENUM_VALUE ∨ r = .ATTRIBUTE_NOTATION_VALUE → pend s.el.p.h = true) (d : Bool) :
    Acted.Legal c ([], actAttlist c s x r w, .go d) := by
  refine ⟨by simp, fun _ _ => ⟨?_, ?_⟩⟩
  · show Ids (actAttlist c s x r w)
    unfold actAttlist
    split <;> first
      | exact hs.same rfl rfl rfl rfl rfl
      | exact hs
      | (split
         · exact hs.same rfl rfl rfl rfl rfl
         · exact hs)
  · show Left c (actAttlist c s x r w).el.p.h (actAttlist c s x r w)
    have quiet (h1 : r ≠ .ATTRIBUTE_ENUM_VALUE ∧ r ≠ .ATTRIBUTE_NOTATION_VALUE ∧ pend h = false) : (actAttlist c s x r w).tmp = [] := by
      have ht : s.tmp = [] := by
        rcases ht with ht | ⟨g, -⟩
        · exact ht
        · rw [h1.2.2] at g; cases g
      unfold actAttlist
      split <;> first
        | exact ht
        | exact absurd rfl h1.1
        | exact absurd rfl h1.2.1
    have enum (h1 : r = .ATTRIBUTE_ENUM_VALUE ∨ r = .ATTRIBUTE_NOTATION_VALUE) : Left c (actAttlist c s x r w).el.p.h (actAttlist c s x r w) := by
      have hp := hn h1
      have key : actAttlist c s x r w = if s.D.keep && c.attlistDecl then
          { s with tmp := s.tmp ++ (if s.ty ≠ .null then [0x7C] else if r = .ATTRIBUTE_NOTATION_VALUE then PState.kwNOTATION ++ [0x28] else [0x28]) ++ converted x w, ty := .built }
          else s := by
        rcases h1 with rfl | rfl <;> rfl
      rw [key]
      split
      · rename_i hk
        simp only [Bool.and_eq_true] at hk
        exact .inr ⟨hp, hk.1, hk.2, rfl⟩
      · rcases ht with ht | ⟨_, g2, g3, g4⟩
        · exact .inl ht
        · exact .inr ⟨hp, g2, g3, g4⟩
    rcases he with he | he | he
    · exact enum (.inl he)
    · exact enum (.inr he)
    · exact .inl (quiet he)

end
end Verif
