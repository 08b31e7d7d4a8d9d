import Verif.CanonThm
import Verif.Props.C64

/-! C76: whole documents. -/

set_option autoImplicit false

namespace Verif.C76
open C43 C53 C59 C60 C48 C61 Spec Verif PState

/-! ### The prolog -/

/-- A call made in the prolog: a processing instruction, or one for which nothing is written. -/
def PiCall : PEv → Prop
  | .ev (.pi _ d) => PiData d
  | v => putP v = [] ∧ seenP v = []

def PiSaid : Said → Prop
  | .call v => PiCall v
  | .model _ _ => True

def NamedP : PEv → Prop
  | .ev v => Named v
  | _ => True

theorem says_pi {A : List Said} {E : List PEv} (h : Says A E) (hA : ∀ a ∈ A, PiSaid a) : ∀ v ∈ E, PiCall v := by
  induction h with
  | nil => intro v hv; cases hv
  | @cons a v A E h1 _ ih =>
    simp only [List.mem_cons, forall_eq_or_imp] at hA ⊢
    refine ⟨?_, ih hA.2⟩
    cases a with
    | call u => rw [show v = u from h1]; exact hA.1
    | model n m => obtain ⟨b, rfl, -⟩ := h1; exact ⟨rfl, rfl⟩

theorem calls_pi {E : List PEv} (h : ∀ v ∈ E, PiCall v) : ∀ a ∈ C59.calls E, PiSaid a := by
  intro a ha
  obtain ⟨v, hv, rfl⟩ := List.mem_map.1 ha
  exact h v hv

theorem if_pi {b : Bool} {v : PEv} (h : PiCall v) : ∀ u ∈ (if b then [v] else []), PiCall u := by
  intro u hu
  split at hu
  · rw [List.mem_singleton.1 hu]; exact h
  · cases hu

section
variable {k : Ctx} {D D' : DTab} {w : Buf} {A : List Said} {E : List PEv}

theorem miscs_pi (S : XSupported k.x k.asc) (h : Miscs k w E) : ∀ v ∈ E, PiCall v := by
  induction h with
  | nil => intro v hv; cases hv
  | space d h _ ih => exact ih
  | comment ws h _ ih =>
    intro v hv
    rcases List.mem_append.1 hv with hv | hv
    · exact if_pi (v := .ev (.comment _)) ⟨rfl, rfl⟩ v hv
    · exact ih v hv
  | pi target sp ws h _ ih =>
    intro v hv
    rcases List.mem_append.1 hv with hv | hv
    · exact if_pi (v := .ev (.pi _ _)) (pi_data S h) v hv
    · exact ih v hv

theorem asked_pi : ∀ v ∈ C59.asked k D, PiCall v := by
  intro v hv
  rw [C59.asked] at hv
  split at hv
  · rw [List.mem_singleton.1 hv]; exact ⟨rfl, rfl⟩
  · cases hv

theorem attDefs_pi {elem : Buf} (h : AttDefs k elem D w E D') : ∀ v ∈ E, PiCall v := by
  induction h with
  | nil => intro v hv; cases hv
  | cons h1 _ ih =>
    intro v hv
    rcases List.mem_append.1 hv with hv | hv
    · cases h1
      exact if_pi (v := .attlistDecl _ _ _ _ _) ⟨rfl, rfl⟩ v hv
    · exact ih v hv

theorem report_pi (d : EntityDef) (p : Bool) (n : Buf) : ∀ v ∈ d.report k p n, PiCall v := by
  intro v hv
  have : putP v = [] ∧ seenP v = [] ∧ ∀ u, v ≠ .ev u := by
    cases d with
    | unparsed pub sys n =>
      simp only [EntityDef.report] at hv
      split at hv
      · rw [List.mem_singleton.1 hv]; exact ⟨rfl, rfl, by simp⟩
      · split at hv
        · rw [List.mem_singleton.1 hv]; exact ⟨rfl, rfl, by simp⟩
        · cases hv
    | _ =>
      simp only [EntityDef.report] at hv
      split at hv
      · rw [List.mem_singleton.1 hv]; exact ⟨rfl, rfl, by simp⟩
      · cases hv
  cases v with
  | ev u => exact absurd rfl (this.2.2 u)
  | _ => exact ⟨rfl, rfl⟩

theorem decl_pi (S : XSupported k.x k.asc) (h : Decl k D w A D') : ∀ a ∈ A, PiSaid a := by
  cases h with
  | space => intro a ha; cases ha
  | comment ws h => exact calls_pi (if_pi (v := .ev (.comment _)) ⟨rfl, rfl⟩)
  | pi target sp ws h => exact calls_pi (if_pi (v := .ev (.pi _ _)) (pi_data S h))
  | entity sp1 name sp2 w d sp3 h1 h2 h3 h4 h5 E _ h6 h7 =>
    by_cases hc : Counts k D false name.flatten
    · rw [(h6 hc).1]; exact calls_pi (report_pi _ _ _)
    · rw [(h7 hc).1]; intro a ha; cases ha
  | paramEntity sp0 sp1 name sp2 w d sp3 h0 h1 h2 h3 h4 h5 E _ h6 h7 =>
    by_cases hc : Counts k D true name.flatten
    · rw [(h6 hc).1]; exact calls_pi (report_pi _ _ _)
    · rw [(h7 hc).1]; intro a ha; cases ha
  | notation_ => exact calls_pi (if_pi (v := .notationDecl _ _ _ _) ⟨rfl, rfl⟩)
  | attlist sp1 name w sp2 E _ h1 h2 h3 h4 => exact calls_pi (attDefs_pi h3)
  | element =>
    intro a ha
    split at ha
    · rw [List.mem_singleton.1 ha]; trivial
    · cases ha
  | refUnread => exact calls_pi asked_pi
  | refUnknown => exact calls_pi (if_pi (v := .ev (.skippedEntity _ _)) ⟨rfl, rfl⟩)
  | refExternal => exact calls_pi asked_pi

theorem decls_pi (P : C61.Plain k) (h : Decls k D w A D') : ∀ a ∈ A, PiSaid a := by
  induction h with
  | nil => intro a ha; cases ha
  | cons h1 _ ih =>
    intro a ha
    rcases List.mem_append.1 ha with h | h
    · exact decl_pi P.S h1 a h
    · exact ih P a h
  | ref _ _ _ h2 => exact absurd P.pe h2

theorem prolog_pi (P : C61.Plain k) (h : PrologText k D w A D') : ∀ a ∈ A, PiSaid a := by
  cases h with
  | plain w E h => exact calls_pi (miscs_pi P.S h)
  | typed w1 w2 w3 E1 E3 A _ h1 h2 h3 =>
    have hA : ∀ a ∈ A, PiSaid a := by
      cases h2 with
      | mk sp1 name w1 sp2 w2 pub sys b E A D1 D2 g1 g2 g3 g4 g5 =>
        have o : ∀ v ∈ E, PiCall v := by
          cases g3 with
          | none => intro v hv; cases hv
          | some sp w pub sys e1 e2 e3 e4 =>
            intro v hv
            split at hv
            · exact asked_pi v hv
            · cases hv
        have i : ∀ a ∈ A, PiSaid a := by
          cases g5 with
          | none => intro v hv; cases hv
          | some w _ _ sp e1 e2 => exact decls_pi P e1
        intro a ha
        rcases List.mem_append.1 ha with ha | ha
        · rcases List.mem_append.1 ha with ha | ha
          · refine calls_pi ?_ a ha
            intro v hv
            rcases List.mem_append.1 hv with hv | hv
            · exact o v hv
            · exact if_pi (v := .startDoctype _ _ _ _) ⟨rfl, rfl⟩ v hv
          · exact i a ha
        · exact calls_pi (if_pi (v := .endDoctype) ⟨rfl, rfl⟩) a ha
    intro a ha
    rcases List.mem_append.1 ha with ha | ha
    · rcases List.mem_append.1 ha with ha | ha
      · exact calls_pi (miscs_pi P.S h1) a ha
      · exact hA a ha
    · exact calls_pi (miscs_pi P.S h3) a ha

end

/-- The prolog written again. -/
theorem misc_again {c0 : PCfg} (hpi : c0.c.pi = true) {E : List PEv} (h1 : ∀ v ∈ E, PiCall v) (h2 : ∀ v ∈ E, NamedP v) :
    Miscs (reading c0 (utf8X false) asc1 .never) (E.flatMap putP) ((E.flatMap seenP).map .ev) := by
  induction E with
  | nil => exact .nil
  | cons v E ih =>
    simp only [List.mem_cons, forall_eq_or_imp] at h1 h2
    have I := ih h1.2 h2.2
    have quiet (h : putP v = [] ∧ seenP v = []) :
        Miscs (reading c0 (utf8X false) asc1 .never) ((v :: E).flatMap putP) (((v :: E).flatMap seenP).map .ev) := by
      rw [List.flatMap_cons, List.flatMap_cons, h.1, h.2]; exact I
    cases v with
    | ev u =>
      cases u with
      | pi t d =>
        obtain ⟨ts, ds, k1, k2, k3, k4⟩ := pi_again h2.1 h1.1
        have := Miscs.pi (k := reading c0 (utf8X false) asc1 .never) ts [0x20] ds k1 I
        rw [show (reading c0 (utf8X false) asc1 .never).asc = asc1 from rfl, k2,
          show (reading c0 (utf8X false) asc1 .never).x = utf8X false from rfl, k3, k4, show (reading c0 (utf8X false) asc1 .never).c = c0 from rfl, hpi] at this
        simpa [putP, put, seenP, seen] using this
      | _ => exact quiet h1.1
    | _ => exact quiet h1.1

/-! ### The root element and what follows -/

theorem epilog_again {x : XEnc} {asc : UInt8 → Buf} (S : XSupported x asc) {b : Buf} {E : List Ev} (h : Misc x asc b E) (hN : ∀ e ∈ E, Named e) :
    Misc (utf8X false) asc1 (E.flatMap put) (E.flatMap seen) := by
  induction h with
  | nil => exact .nil
  | space _ _ ih => exact ih hN
  | comment _ _ ih => exact ih fun e he => hN e (by simp [he])
  | pi h1 _ ih =>
    obtain ⟨ts, ds, k1, k2, k3, k4⟩ := pi_again (hN _ (List.mem_cons_self ..)) (pi_data S h1)
    have := Misc.pi k1 (ih fun e he => hN e (by simp [he]))
    rw [k2, k3, k4] at this
    simpa [put, seen] using this

section
variable {c c0 : Cfg} {D D0 : Dtd} {inn inn' : Bool}

theorem root_again (hns0 : c0.ns = false) (hD0 : C33.TextsOk D0 (internalUtf8X inn)) (hel : D0.elems = [])
    {n : Buf} {as : List (Buf × Buf)} {sp : Nat} {id : Option Nat} (hn : XName n) (h1 : ∀ p ∈ as, XName p.1) (h2 : ∀ p ∈ as, LegalText p.2) (h3 : (as.map (·.1)).Nodup)
    {E1 E : List Ev} (h4 : Again c0 D0 inn rootEnv E1) {L : Buf} (h5 : Misc (utf8X false) asc1 L E) :
    Document c0 D0 (internalUtf8X inn) asc1 (utf8X false) asc1 ((.startElement n as sp id :: (E1 ++ [.endElement n])).flatMap put ++ L)
      ((.startElement n as sp id :: (E1 ++ [.endElement n])).flatMap seen ++ E) := by
  obtain ⟨name, srcs, t, a1, a2, a3, a4, a5, a6, a7, a8, a9, a10, a11⟩ :=
    element_again (c := c0) (D := D0) (inn := inn) (op := []) (env := rootEnv) hns0 hD0 hel rfl hn h1 h2 h3
  have hb := h4 (endElement n ++ L) [] (endElement n ++ L) (by refine ⟨?_, ?_⟩ <;> simp [endElement]) (.nil _)
  rw [a5] at hb
  have := Document.element (ws := []) (sp := []) a1 a2 (by simp [AllWS]) (by simp [AllWS]) a3 (by rw [a10]; exact hb) h5
  rw [← a4, a6, a7, a8, a9, a11] at this
  simpa [put, seen, a5] using this

theorem document_again (hns : c.ns = false) (hns0 : c0.ns = false) (hD : C33.TextsOk D (internalUtf8X inn')) (hd : C62.DefaultsOk D)
    (hD0 : C33.TextsOk D0 (internalUtf8X inn)) (hel : D0.elems = []) {x : XEnc} {asc : UInt8 → Buf} (S : XSupported x asc) {b : Buf} {E : List Ev}
    (h : Document c D (internalUtf8X inn') asc1 x asc b E) (hN : ∀ e ∈ E, Named e) :
    Document c0 D0 (internalUtf8X inn) asc1 (utf8X false) asc1 (E.flatMap put) (E.flatMap seen) := by
  cases h with
  | empty h1 h2 h3 h4 h5 =>
    obtain ⟨rfl, k1, k2, k3⟩ := stored_plain hns h4
    have k4 := C62.stored_legal S hD hd h1 h2 h3 true h4
    have k5 := start_named hN
    have k6 := epilog_again S h5 fun e he => hN e (by simp [he])
    have := root_again (c0 := c0) (id := none) (sp := 0) hns0 hD0 hel k5.1 k5.2 k4 k1 .nil k6
    rw [k3]
    simpa [put, seen] using this
  | element h1 h2 h3 h3' h4 h5 h6 =>
    obtain ⟨rfl, k1, k2, k3⟩ := stored_plain hns h4
    have k4 := C62.stored_legal S hD hd h1 h2 h3 false h4
    have k5 := start_named' hN
    have k6 := epilog_again S h6 fun e he => hN e (by simp [he])
    have k7 := content_again hns hns0 hD hd hD0 hel (v0 := rootEnv) rfl S h5 fun e he => hN e (by simp [he])
    have := root_again (c0 := c0) (id := none) (sp := 0) hns0 hD0 hel k5.1 k5.2 k4 k1 k7 k6
    rw [k3]
    simpa [put, seen] using this

end

end Verif.C76
