import Verif.Props.C28

/-! C29: duplicate expanded names. -/

namespace Verif.C29
open Verif C43

/-! ### Specification -/

/-- The expanded name of an attribute with a prefix: the URI bound to the prefix, and the local part. -/
def expandedName (env : Env) (n : Buf) : Option (Buf × Buf) :=
  match splitColon n with
  | none => none
  | some (p, l) => (env (some p)).map fun u => (u, l)

/-! ### Lemmas -/

/-- What is looked up and what is remembered are the same without triplets. -/
theorem expandNames_keys (c : Cfg) (env : Env) (hs : ∀ p, c.suffix p = []) (atts : List (Buf × Buf)) :
    ∀ n f seen atts' g, (∀ a ∈ atts, f a.1 = flagOf (attKind c.ns a.1)) → (atts.map (·.1)).Nodup →
      n = atts.countP (fun a => (attKind c.ns a.1).isPrefixed) →
      expandNames c env n f seen atts = .ok (atts', g) →
      (∀ k ∈ atts.filterMap (fun a => dupKey c env a.1), k ∉ seen) ∧
        (atts.filterMap fun a => dupKey c env a.1).Nodup := by
  induction atts with
  | nil => intro n f seen atts' g _ _ _ _; simp
  | cons a rest ih =>
    obtain ⟨name, v⟩ := a
    intro n f seen atts' g hf hnd hn h
    simp only [List.map_cons, List.nodup_cons] at hnd
    have hf0 := hf (name, v) (by simp)
    have hrest : ∀ a ∈ rest, setFlag f name .unset a.1 = flagOf (attKind c.ns a.1) := by
      intro a ha
      have : a.1 ≠ name := fun e => hnd.1 (e ▸ List.mem_map_of_mem ha)
      simp only [setFlag, if_neg this]
      exact hf a (by simp [ha])
    simp only at hf0
    rw [expandNames] at h
    simp only at h
    split at h
    · rename_i hp
      obtain ⟨hn0, hp⟩ := hp
      rw [hf0, flagOf_prefixed] at hp
      obtain ⟨p, hk⟩ : ∃ p, attKind c.ns name = .prefixed p := by
        cases hk : attKind c.ns name <;> simp [hk, AKind.isPrefixed] at hp
        exact ⟨_, rfl⟩
      obtain ⟨l, hl⟩ := attKind_prefixed hk
      rw [hl] at h
      simp only at h
      split at h
      · cases h
      · rename_i uri hu
        split at h
        · cases h
        · rename_i hseen
          split at h
          · cases h
          · rename_i as g' hr
            have hn' : n - 1 = rest.countP (fun a => (attKind c.ns a.1).isPrefixed) := by
              rw [hn, List.countP_cons, if_pos hp]; omega
            rw [hs, List.append_nil] at hr
            obtain ⟨h1, h2⟩ := ih _ _ _ _ _ hrest hnd.2 hn' hr
            have hkey : dupKey c env name = some (uri ++ c.sepB ++ l) := by
              simp only [dupKey, hk, hl, hu, Option.map_some]
            simp only [List.filterMap_cons, hkey]
            refine ⟨?_, ?_⟩
            · intro k hk
              rcases List.mem_cons.1 hk with rfl | hk
              · exact hseen
              · exact fun hm => h1 k hk (List.mem_cons_of_mem _ hm)
            · rw [List.nodup_cons]
              exact ⟨fun hm => h1 _ hm (by simp), h2⟩
    · rename_i hp
      have hk : (attKind c.ns name).isPrefixed = false := by
        rw [hf0, flagOf_prefixed] at hp
        cases h0 : (attKind c.ns name).isPrefixed
        · rfl
        · refine absurd ⟨?_, h0⟩ hp
          rw [hn, List.countP_cons, if_pos h0]; omega
      split at h
      · cases h
      · rename_i as g' hr
        have hn' : n = rest.countP (fun a => (attKind c.ns a.1).isPrefixed) := by
          rw [hn, List.countP_cons, if_neg (by simp [hk])]; rfl
        have hkey : dupKey c env name = none := by
          rw [dupKey]
          cases hk' : attKind c.ns name <;> first | rfl | (rw [hk'] at hk; cases hk)
        simp only [List.filterMap_cons, hkey]
        exact ih _ _ _ _ _ hrest hnd.2 hn' hr

theorem nodup_filterMap {α β : Type} {f : α → Option β} {l : List α} (h : (l.filterMap f).Nodup)
    {a a' : α} (ha : a ∈ l) (ha' : a' ∈ l) {k} (h1 : f a = some k) (h2 : f a' = some k) : a = a' := by
  induction l with
  | nil => cases ha
  | cons x l ih =>
    have hm : ∀ {y}, y ∈ l → f y = some k → k ∈ l.filterMap f := fun hy hk => List.mem_filterMap.2 ⟨_, hy, hk⟩
    cases hf : f x with
    | none =>
      rw [List.filterMap_cons, hf] at h
      rcases List.mem_cons.1 ha with rfl | hb
      · rw [hf] at h1; cases h1
      · rcases List.mem_cons.1 ha' with rfl | ha'
        · rw [hf] at h2; cases h2
        · exact ih h hb ha'
    | some k' =>
      rw [List.filterMap_cons, hf, List.nodup_cons] at h
      rcases List.mem_cons.1 ha with rfl | hb
      · rcases List.mem_cons.1 ha' with rfl | ha'
        · rfl
        · rw [hf] at h1; cases h1; exact absurd (hm ha' h2) h.1
      · rcases List.mem_cons.1 ha' with rfl | ha'
        · rw [hf] at h2; cases h2; exact absurd (hm hb h1) h.1
        · exact ih h.2 hb ha'

theorem dupKey_expanded {c : Cfg} (hns : c.ns = true) {env : Env} {n : Buf} (hd : C28.isDecl true n = false) {u l}
    (h : expandedName env n = some (u, l)) : dupKey c env n = some (u ++ c.sepB ++ l) := by
  rw [expandedName] at h
  split at h
  · cases h
  · rename_i p l' hl
    have hk : attKind c.ns n = .prefixed p := by
      rw [← C28.isDecl_eq] at hd
      rw [hns, attKind] at *
      simp only [Bool.not_true, Bool.false_eq_true, if_false] at hd ⊢
      split at hd
      · cases hd
      · split at hd
        · cases hd
        · simp only [hl]
          rw [if_neg (by assumption), if_neg (by assumption)]
    simp only [dupKey, hk, hl]
    cases he : env (some p) with
    | none => rw [he] at h; cases h
    | some u' => rw [he] at h; simp only [Option.map_some, Option.some.injEq, Prod.mk.injEq] at h ⊢; rw [h.1, h.2]

/-! ### Theorems -/

/-- **C29, without triplets** (missing: with XML_SetReturnNSTriplet, see `triplets_missed`): if a tag is
accepted, no two of its attributes (written or defaulted) with prefixes have the same expanded name.
`src` are the attributes written. -/
theorem distinct_partial {c : Cfg} (hns : c.ns = true) (ht : c.triplets = false ∨ c.sep = 0) {D int x opened flags env raw b E r}
    (hf : ∀ n, flags n = .unset) (hd : ((C28.declaredDefaults (D.elem raw)).map (·.1)).Nodup)
    (h : storeAtts c D int x opened flags env raw b = (E, .ok r)) :
    ∃ src, C28.Written D int x opened (D.elem raw) b (getAtts x.e b) src ∧
      ∀ a ∈ src ++ C28.defaults (D.elem raw) src, ∀ a' ∈ src ++ C28.defaults (D.elem raw) src,
        C28.isDecl true a.1 = false → C28.isDecl true a'.1 = false → a ≠ a' →
        ∀ n, expandedName r.env a.1 = some n → expandedName r.env a'.1 ≠ some n := by
  obtain ⟨E1, E2, s1, s2, h1, h2, rfl, ⟨f, h3, h3'⟩, h4, h5, h6, h7, h8⟩ := C31.storeAtts_ok h
  obtain ⟨src, i1, hw⟩ := C28.chain_first _ (C28.init_first c hf env) h1
  rw [List.nil_append] at i1
  have i2 : C28.Second c src [] s1 :=
    ⟨i1.inv, by simpa using i1.flags, by simpa using i1.atts, by simpa using i1.binds⟩
  have i3 := C28.chain_second _ i2 (by simpa [C28.declaredDefaults] using hd) h2
  rw [List.nil_append] at i3
  have hs : ∀ p, c.suffix p = [] := by
    intro p
    rw [Cfg.suffix]
    rcases ht with h | h <;> simp [h]
  obtain ⟨_, hk⟩ := expandNames_keys c s2.env hs s2.atts _ _ _ _ _ (fun a ha => (i3.inv.kinds a ha).2) i3.inv.nodup
    i3.inv.nPre h3
  refine ⟨src, hw, ?_⟩
  intro a ha a' ha' hda hda' hne n he he'
  rw [h5] at he he'
  obtain ⟨u, l⟩ := n
  apply hne
  refine nodup_filterMap hk ?_ ?_ (dupKey_expanded hns hda he) (dupKey_expanded hns hda' he')
  · rw [i3.atts, List.mem_filter]; exact ⟨ha, by rw [hns, hda]; rfl⟩
  · rw [i3.atts, List.mem_filter]; exact ⟨ha', by rw [hns, hda']; rfl⟩

/-- **Finding.**  With triplets (and a separator), the tag
`<a xmlns:p='u' xmlns:q='u' p:x='1' q:x='2'/>` is accepted although both attributes have the expanded
name (u, x): what is remembered for the first is `u|x|p`, what is looked up for the second is `u|x`
(src/lib/xmlparse.rs:4515-4549). -/
theorem triplets_missed :
    ∃ (c : Cfg) (b : Buf), c.ns = true ∧ c.triplets = true ∧
      (feed (parser c default (internalUtf8X true) (utf8X true)) (utf8Enc true) CState.init [] [b]).2.code = none ∧
      Ev.startElement [0x61] [("u|x|p".toUTF8.toList, [0x31]), ("u|x|q".toUTF8.toList, [0x32])] 2 none ∈
        (feed (parser c default (internalUtf8X true) (utf8X true)) (utf8Enc true) CState.init [] [b]).1 :=
  ⟨{ ns := true, sep := 0x7C, triplets := true }, "<a xmlns:p='u' xmlns:q='u' p:x='1' q:x='2'/>".toUTF8.toList,
    rfl, rfl, by decide +kernel, by decide +kernel⟩

/-! Non-vacuity: the same tag without triplets is refused, one with different local names accepted. -/
example : (feed (parser { ns := true, sep := 0x7C } default (internalUtf8X true) (utf8X true)) (utf8Enc true) CState.init []
    ["<a xmlns:p='u' xmlns:q='u' p:x='1' q:x='2'/>".toUTF8.toList]).2.code = some .DUPLICATE_ATTRIBUTE := by
  decide +kernel
example : (feed (parser { ns := true, sep := 0x7C } default (internalUtf8X true) (utf8X true)) (utf8Enc true) CState.init []
    ["<a xmlns:p='u' xmlns:q='u' p:x='1' q:y='2'/>".toUTF8.toList]).2.code = none := by
  decide +kernel

end Verif.C29
