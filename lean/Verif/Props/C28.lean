import Verif.AttsLemmas

/-! C28: duplicate attributes are rejected, order is preserved, defaults are added. -/

namespace Verif.C28
open Verif C43

/-! ### Specification -/

/-- Is this a namespace declaration (which is not an attribute if namespaces are processed)? -/
def isDecl (ns : Bool) (n : Buf) : Bool :=
  ns && (n == "xmlns".toUTF8.toList || "xmlns:".toUTF8.toList.isPrefixOf n)

/-- The defaults an element type declares, in order of declaration. -/
def declaredDefaults (et : ElemType) : List (Buf × Buf) :=
  et.atts.filterMap fun d => d.value.map fun v => (d.name, v)

/-- Those which apply when the attributes `src` are written in the tag. -/
def defaults (et : ElemType) (src : List (Buf × Buf)) : List (Buf × Buf) :=
  (declaredDefaults et).filter fun d => d.1 ∉ src.map (·.1)

/-! ### Lemmas -/

theorem isDecl_eq (ns : Bool) (n : Buf) : (attKind ns n).isDecl = isDecl ns n := by
  have l1 : "xmlns".toUTF8.toList = xmlnsName := C30.lits.1.symm
  have l2 : "xmlns:".toUTF8.toList = xmlnsName ++ [0x3A] := by decide +kernel
  have hpre : "xmlns:".toUTF8.toList.isPrefixOf n = true ↔ n.take 6 = xmlnsName ++ [0x3A] := by
    rw [l2, List.isPrefixOf_iff_prefix, List.prefix_iff_eq_take]
    exact eq_comm
  cases ns with
  | false => rfl
  | true =>
    rw [attKind]
    simp only [Bool.not_true, Bool.false_eq_true, if_false, isDecl, Bool.true_and]
    by_cases h1 : n = xmlnsName
    · rw [if_pos h1, h1, l1]; simp [AKind.isDecl]
    · rw [if_neg h1]
      by_cases h2 : n.take 6 = xmlnsName ++ [0x3A]
      · rw [if_pos h2, hpre.2 h2, Bool.or_true]; rfl
      · rw [if_neg h2]
        have : ("xmlns:".toUTF8.toList.isPrefixOf n) = false := by
          rw [← Bool.not_eq_true, hpre]; exact h2
        rw [this, l1, beq_eq_false_iff_ne.2 h1]
        cases splitColon n <;> rfl

/-- Written attributes with their values. -/
def Written (D : Dtd) (int x : XEnc) (opened : List Buf) (et : ElemType) (b : Buf) (as : List Att)
    (src : List (Buf × Buf)) : Prop :=
  src.map (·.1) = as.map (attName x b) ∧
    as.map (fun a => attValue D int x opened et b a (attName x b a)) = src.map fun p => .ok p.2

structure First (c : Cfg) (src : List (Buf × Buf)) (s : AState) : Prop where
  inv : AInv c s
  nodup : (src.map (·.1)).Nodup
  flags : ∀ n, s.flags n ≠ .unset ↔ n ∈ src.map (·.1)
  atts : s.atts = src.filter fun p => !isDecl c.ns p.1
  binds : s.binds.map (·.att) = ((src.filter fun p => isDecl c.ns p.1).map (·.1)).reverse

theorem addBinding_att {c : Cfg} {v bs p att uri E env bs'} (h : addBinding c v bs p att uri = (E, .ok (env, bs'))) :
    bs'.map (·.att) = att :: bs.map (·.att) := by
  rw [addBinding] at h
  split at h <;> cases h
  rfl

theorem setFlag_ne {f : Buf → AFlag} {n g} (hg : g ≠ .unset) (m : Buf) :
    setFlag f n g m ≠ .unset ↔ m = n ∨ f m ≠ .unset := by
  simp only [setFlag]
  split
  · simp_all
  · simp_all

theorem attOne_first {c : Cfg} {D int x opened et b src s a E s'} (h0 : First c src s)
    (h : attOne c D int x opened et b s a = (E, .ok s')) :
    ∃ v, attValue D int x opened et b a (attName x b a) = .ok v ∧ First c (src ++ [(attName x b a, v)]) s' := by
  simp only [attOne] at h
  split at h
  · cases h
  · rename_i hf
    have hf : s.flags (attName x b a) = .unset := by simpa using hf
    have hnew : attName x b a ∉ src.map (·.1) := fun hm => (h0.flags _).2 hm hf
    split at h
    · cases h
    · rename_i v hv
      refine ⟨v, hv, ?_⟩
      generalize attName x b a = n at *
      have hnd : ((src ++ [(n, v)]).map (·.1)).Nodup := by
        simp only [List.map_append, List.map_cons, List.map_nil]
        rw [List.nodup_append]
        exact ⟨h0.nodup, by simp, by rintro m hm k hk rfl; simp at hk; exact hnew (hk ▸ hm)⟩
      have hfl : ∀ {g}, g ≠ AFlag.unset → ∀ m, setFlag s.flags n g m ≠ .unset ↔ m ∈ (src ++ [(n, v)]).map (·.1) := by
        intro g hg m
        rw [setFlag_ne hg, h0.flags]
        simp only [List.map_append, List.mem_append, List.map_cons, List.map_nil, List.mem_singleton]
        exact or_comm
      have hdn := isDecl_eq c.ns n
      split at h
      · rename_i hk
        cases h
        rw [hk] at hdn
        have hd : isDecl c.ns n = false := hdn.symm
        have := h0.inv.add (v := v) (m := s.nPre) hf (by rw [hk]; rfl) (by simp [hk, AKind.isPrefixed])
        rw [hk] at this
        refine ⟨this, hnd, hfl (by simp), ?_, ?_⟩
        · simp [h0.atts, hd, List.filter_append]
        · simp [h0.binds, hd, List.filter_append]
      · rename_i hk
        cases h
        rw [hk] at hdn
        have hd : isDecl c.ns n = false := hdn.symm
        have := h0.inv.add (v := v) (m := s.nPre + 1) hf (by rw [hk]; rfl) (by simp [hk, AKind.isPrefixed])
        rw [hk] at this
        refine ⟨this, hnd, hfl (by simp), ?_, ?_⟩
        · simp [h0.atts, hd, List.filter_append]
        · simp [h0.binds, hd, List.filter_append]
      · rename_i hk
        have hd : isDecl c.ns n = true := by rw [← isDecl_eq, hk]; rfl
        split at h
        · cases h
        · rename_i hb
          cases h
          refine ⟨?_, hnd, hfl (by simp), ?_, ?_⟩
          · exact h0.inv.decl (by rw [hk]; rfl) (addBinding_att hb) (.inr rfl)
          · simp [h0.atts, hd, List.filter_append]
          · simp only [addBinding_att hb, h0.binds]
            simp [hd, List.filter_append]

theorem chain_first {c : Cfg} {D int x opened et b} (l : List Att) : ∀ {src s E s'}, First c src s →
    chain (attOne c D int x opened et b) s l = (E, .ok s') →
    ∃ src', First c (src ++ src') s' ∧ Written D int x opened et b l src' := by
  induction l with
  | nil => intro src s E s' h0 h; cases h; exact ⟨[], by simpa using h0, rfl, rfl⟩
  | cons a l ih =>
    intro src s E s' h0 h
    rw [chain] at h
    split at h
    · cases h
    · rename_i E1 s1 h1
      obtain ⟨v, hv, h2⟩ := attOne_first h0 h1
      cases hc : chain (attOne c D int x opened et b) s1 l with
      | mk G o =>
        rw [hc] at h
        cases h
        obtain ⟨src', h3, h4, h5⟩ := ih h2 hc
        refine ⟨(attName x b a, v) :: src', by simpa using h3, by simp [h4], ?_⟩
        simp only [List.map_cons, hv, h5]

structure Second (c : Cfg) (src : List (Buf × Buf)) (ds : List (Buf × Buf)) (s : AState) : Prop where
  inv : AInv c s
  flags : ∀ n, s.flags n ≠ .unset ↔ n ∈ src.map (·.1) ∨ n ∈ (ds.filter fun p => !isDecl c.ns p.1).map (·.1)
  atts : s.atts = (src ++ ds).filter fun p => !isDecl c.ns p.1
  binds : s.binds.map (·.att) = (((src ++ ds).filter fun p => isDecl c.ns p.1).map (·.1)).reverse

theorem defOne_second {c : Cfg} {src ds s d E s'} (h0 : Second c src ds s) (hn : d.value ≠ none → d.name ∉ ds.map (·.1))
    (h : defOne c s d = (E, .ok s')) :
    Second c src (ds ++ (match d.value with
      | none => []
      | some v => if d.name ∈ src.map (·.1) then [] else [(d.name, v)])) s' := by
  rw [defOne] at h
  split at h
  · rename_i hv
    cases h; rw [hv]; simpa using h0
  · rename_i v hv
    rw [hv]
    simp only
    have hds : d.name ∉ (ds.filter fun p => !isDecl c.ns p.1).map (·.1) := by
      intro hm
      obtain ⟨p, hp, he⟩ := List.mem_map.1 hm
      exact hn (by rw [hv]; simp) (List.mem_map.2 ⟨p, (List.mem_filter.1 hp).1, he⟩)
    have hiff : s.flags d.name ≠ .unset ↔ d.name ∈ src.map (·.1) := by
      rw [h0.flags]; exact ⟨fun h => h.resolve_right hds, .inl⟩
    split at h
    · rename_i hf
      cases h
      rw [if_pos (hiff.1 hf)]
      simpa using h0
    · rename_i hf
      rw [if_neg fun h => hf (hiff.2 h)]
      have hf : s.flags d.name = .unset := by simpa using hf
      obtain ⟨n, cd, vv⟩ := d
      simp only at *
      have hdn := isDecl_eq c.ns n
      have hfl : ∀ {g}, g ≠ AFlag.unset → isDecl c.ns n = false → ∀ m, setFlag s.flags n g m ≠ .unset ↔
          m ∈ src.map (·.1) ∨ m ∈ ((ds ++ [(n, v)]).filter fun p => !isDecl c.ns p.1).map (·.1) := by
        intro g hg hd m
        rw [setFlag_ne hg, h0.flags]
        simp only [List.filter_append, List.map_append, List.mem_append]
        simp only [hd, List.filter_cons, Bool.not_false, if_true, List.filter_nil, List.map_cons, List.map_nil,
          List.mem_singleton]
        constructor
        · rintro (h | h | h)
          · exact .inr (.inr h)
          · exact .inl h
          · exact .inr (.inl h)
        · rintro (h | h | h)
          · exact .inr (.inl h)
          · exact .inr (.inr h)
          · exact .inl h
      split at h
      · rename_i hk
        cases h
        rw [hk] at hdn
        have hd : isDecl c.ns n = false := hdn.symm
        have := h0.inv.add (v := v) (m := s.nPre) hf (by rw [hk]; rfl) (by simp [hk, AKind.isPrefixed])
        rw [hk] at this
        refine ⟨this, hfl (by simp) hd, ?_, ?_⟩
        · simp [h0.atts, hd, List.filter_append]
        · simp [h0.binds, hd, List.filter_append]
      · rename_i hk
        cases h
        rw [hk] at hdn
        have hd : isDecl c.ns n = false := hdn.symm
        have := h0.inv.add (v := v) (m := s.nPre + 1) hf (by rw [hk]; rfl) (by simp [hk, AKind.isPrefixed])
        rw [hk] at this
        refine ⟨this, hfl (by simp) hd, ?_, ?_⟩
        · simp [h0.atts, hd, List.filter_append]
        · simp [h0.binds, hd, List.filter_append]
      · rename_i hk
        have hd : isDecl c.ns n = true := by rw [← isDecl_eq, hk]; rfl
        split at h
        · cases h
        · rename_i hb
          cases h
          refine ⟨?_, ?_, ?_, ?_⟩
          · exact h0.inv.decl (by rw [hk]; rfl) (addBinding_att hb) (.inl rfl)
          · intro m; simp only [h0.flags]; simp [hd, List.filter_append]
          · simp [h0.atts, hd, List.filter_append]
          · simp only [addBinding_att hb, h0.binds]
            simp [hd, List.filter_append]

theorem chain_second {c : Cfg} {src} (l : List ADecl) : ∀ {ds s E s'}, Second c src ds s →
    ((ds ++ l.filterMap fun d => d.value.map fun v => (d.name, v)).map (·.1)).Nodup →
    chain (defOne c) s l = (E, .ok s') →
    Second c src (ds ++ (l.filterMap fun d => d.value.map fun v => (d.name, v)).filter fun d => d.1 ∉ src.map (·.1)) s' := by
  induction l with
  | nil => intro ds s E s' h0 _ h; cases h; simpa using h0
  | cons d l ih =>
    intro ds s E s' h0 hnd h
    rw [chain] at h
    split at h
    · cases h
    · rename_i E1 s1 h1
      cases hc : chain (defOne c) s1 l with
      | mk G o =>
        rw [hc] at h
        cases h
        have h2 := defOne_second h0 (by
          intro hv hm
          obtain ⟨v, hv⟩ := Option.ne_none_iff_exists'.1 hv
          simp only [List.filterMap_cons, hv, Option.map_some, List.map_append, List.map_cons] at hnd
          exact (List.nodup_append.1 hnd).2.2 _ hm _ (by simp) rfl) h1
        cases hv : d.value with
        | none =>
          simp only [hv, List.append_nil] at h2
          simp only [List.filterMap_cons, hv, Option.map_none] at hnd ⊢
          exact ih h2 hnd hc
        | some v =>
          simp only [hv] at h2
          simp only [List.filterMap_cons, hv, Option.map_some] at hnd ⊢
          by_cases hm : d.name ∈ src.map (·.1)
          · rw [if_pos hm, List.append_nil] at h2
            rw [List.filter_cons, if_neg (by simpa using hm)]
            refine ih h2 ?_ hc
            refine List.Nodup.sublist ?_ hnd
            exact List.Sublist.map _ (List.Sublist.append (List.Sublist.refl _) (List.sublist_cons_self _ _))
          · rw [if_neg hm] at h2
            rw [List.filter_cons, if_pos (by simpa using hm)]
            have := ih h2 (by simpa using hnd) hc
            simpa using this

theorem init_first (c : Cfg) {flags : Buf → AFlag} (hf : ∀ n, flags n = .unset) (env : Env) :
    First c [] ⟨[], flags, env, [], 0⟩ :=
  ⟨⟨by simp, by simp [hf], by simp, rfl, by simp⟩, by simp, by simp [hf], rfl, rfl⟩

theorem AInv_chains {c : Cfg} {D int x opened flags env raw b E1 s1 E2 s2} (hf : ∀ n, flags n = .unset)
    (h1 : chain (attOne c D int x opened (D.elem raw) b) ⟨[], flags, env, [], 0⟩ (getAtts x.e b) = (E1, .ok s1))
    (h2 : chain (defOne c) s1 (D.elem raw).atts = (E2, .ok s2)) : AInv c s2 := by
  obtain ⟨src, i1, _⟩ := chain_first _ (init_first c hf env) h1
  refine chain_inv_list (I := fun _ s => AInv c s) (fun _ s d E s' h0 h => ?_) _ (as := []) i1.inv h2
  rw [defOne] at h
  split at h
  · cases h; exact h0
  · rename_i v _
    split at h
    · cases h; exact h0
    · rename_i hf
      have hf : s.flags d.name = .unset := by simpa using hf
      split at h
      · rename_i hk
        cases h
        have := h0.add (v := v) (m := s.nPre) hf (by rw [hk]; rfl) (by simp [hk, AKind.isPrefixed])
        rwa [hk] at this
      · rename_i hk
        cases h
        have := h0.add (v := v) (m := s.nPre + 1) hf (by rw [hk]; rfl) (by simp [hk, AKind.isPrefixed])
        rwa [hk] at this
      · rename_i hk
        split at h
        · cases h
        · rename_i hb; cases h; exact h0.decl (by rw [hk]; rfl) (addBinding_att hb) (.inl rfl)

theorem flags_cleared {c : Cfg} {s2 : AState} (hi : AInv c s2) {atts f}
    (h : expandNames c s2.env s2.nPre s2.flags [] s2.atts = .ok (atts, f)) (n : Buf) :
    s2.binds.foldl (fun f b => setFlag f b.att .unset) f n = .unset := by
  obtain ⟨_, hf⟩ := expandNames_ok c s2.env s2.atts _ _ _ _ _ (fun a ha => (hi.kinds a ha).2) hi.nodup hi.nPre h
  apply clear_flags
  rw [hf]
  by_cases h1 : n ∈ s2.atts.map (·.1)
  · left; rw [if_pos h1]
  · rw [if_neg h1]
    by_cases h2 : s2.flags n = .unset
    · exact .inl h2
    · exact .inr ((hi.set n h2).resolve_left h1)

/-! ### Theorems -/

/-- **C28.**  A tag that is accepted (when no attribute flags are left over): the attributes written in it
(`src`, names and values in source order) have distinct names; the list reported consists of the written
attributes in source order and then of the declared defaults for names not written, in order of
declaration, where namespace declarations are left out if namespaces are processed, and names are
replaced by their expanded names; the count of specified attributes is that of the written ones; the ID
index is the position of the written ID attribute; all flags are reset. -/
theorem attributes {c : Cfg} {D int x opened flags env raw b E r} (hf : ∀ n, flags n = .unset)
    (hd : ((declaredDefaults (D.elem raw)).map (·.1)).Nodup)
    (h : storeAtts c D int x opened flags env raw b = (E, .ok r)) :
    ∃ src, Written D int x opened (D.elem raw) b (getAtts x.e b) src ∧ (src.map (·.1)).Nodup ∧
      ((src ++ defaults (D.elem raw) src).filter fun p => !isDecl c.ns p.1).map (fun p => (expanded c r.env p.1, p.2)) =
        r.atts.map (fun p => (some p.1, p.2)) ∧
      r.specified = (src.filter fun p => !isDecl c.ns p.1).length ∧
      (∀ n, r.flags n = .unset) ∧
      r.binds.map (·.att) =
        (((src ++ defaults (D.elem raw) src).filter fun p => isDecl c.ns p.1).map (·.1)).reverse ∧
      r.idIndex = (D.elem raw).idAtt.bind fun i => (src.filter fun p => !isDecl c.ns p.1).findIdx? (·.1 = i) := by
  obtain ⟨E1, E2, s1, s2, h1, h2, rfl, ⟨f, h3, h3'⟩, h4, h5, h6, h7, h8⟩ := C31.storeAtts_ok h
  obtain ⟨src, i1, hw⟩ := chain_first _ (init_first c hf env) h1
  rw [List.nil_append] at i1
  have i2 : Second c src [] s1 :=
    ⟨i1.inv, by simpa using i1.flags, by simpa using i1.atts, by simpa using i1.binds⟩
  have i3 := chain_second _ i2 (by simpa [declaredDefaults] using hd) h2
  rw [List.nil_append] at i3
  obtain ⟨he, _⟩ := expandNames_ok c s2.env s2.atts _ _ _ _ _ (fun a ha => (i3.inv.kinds a ha).2) i3.inv.nodup
    i3.inv.nPre h3
  refine ⟨src, hw, i1.nodup, ?_, by rw [h7, i1.atts], ?_, by rw [h6]; exact i3.binds, ?_⟩
  · rw [h5, ← he, i3.atts]; rfl
  · intro n; rw [h3']; exact flags_cleared i3.inv h3 n
  · rw [h8]
    cases (D.elem raw).idAtt with
    | none => rfl
    | some i =>
      simp only [Option.bind_some]
      rw [← i1.atts]
      split
      · rfl
      · rename_i hn
        symm
        rw [List.findIdx?_eq_none_iff]
        intro a ha
        have : a.1 ≠ i := by
          intro e
          apply hn
          rw [← e, (i1.inv.kinds a ha).2]
          exact flagOf_ne _
        simpa using this

/-- A tag with two attributes of the same name is never accepted. -/
theorem duplicate_refused {c : Cfg} {D int x opened flags env raw b} (hf : ∀ n, flags n = .unset)
    (hn : ¬ ((getAtts x.e b).map (attName x b)).Nodup) :
    ∀ E r, storeAtts c D int x opened flags env raw b ≠ (E, .ok r) := by
  intro E r h
  obtain ⟨E1, E2, s1, s2, h1, h2, _⟩ := C31.storeAtts_ok h
  obtain ⟨src, i1, hw, _⟩ := chain_first _ (init_first c hf env) h1
  rw [List.nil_append] at i1
  rw [← hw] at hn
  exact hn i1.nodup

theorem chain_plain {c : Cfg} (hns : c.ns = false) {D int x opened et b} (l : List Att) : ∀ {src s}, First c src s →
    (∀ a ∈ l, ∃ v, attValue D int x opened et b a (attName x b a) = .ok v) →
    if (src.map (·.1) ++ l.map (attName x b)).Nodup then
      ∃ s', chain (attOne c D int x opened et b) s l = ([], .ok s')
    else chain (attOne c D int x opened et b) s l = ([], .error (.DUPLICATE_ATTRIBUTE, s.binds)) := by
  induction l with
  | nil => intro src s h0 _; rw [if_pos (by simpa using h0.nodup)]; exact ⟨_, rfl⟩
  | cons a l ih =>
    intro src s h0 hv
    obtain ⟨v, hva⟩ := hv a (by simp)
    by_cases hm : attName x b a ∈ src.map (·.1)
    · rw [if_neg]
      · rw [chain, attOne]
        simp only [if_pos ((h0.flags _).2 hm)]
      · intro hnd
        exact (List.nodup_append.1 hnd).2.2 _ hm _ (by simp) rfl
    · have hf : ¬ s.flags (attName x b a) ≠ .unset := fun h => hm ((h0.flags _).1 h)
      have hk : attKind c.ns (attName x b a) = .plain := by rw [attKind, hns]; rfl
      have h1 : attOne c D int x opened et b s a =
          ([], .ok { s with flags := setFlag s.flags (attName x b a) .normal, atts := s.atts ++ [(attName x b a, v)] }) := by
        rw [attOne]
        simp only [if_neg hf, hva, hk]
      obtain ⟨v', hv', i1⟩ := attOne_first h0 h1
      rw [hva] at hv'
      cases hv'
      have := ih i1 fun a ha => hv a (by simp [ha])
      rw [chain, h1]
      simp only [List.nil_append]
      simp only [List.map_append, List.map_cons, List.map_nil, List.append_assoc, List.singleton_append] at this ⊢
      split
      · rename_i hnd
        rw [if_pos hnd] at this
        obtain ⟨s', hs⟩ := this
        exact ⟨s', by rw [hs]⟩
      · rename_i hnd
        rw [if_neg hnd] at this
        rw [this]

theorem chain_def_plain {c : Cfg} (hns : c.ns = false) (l : List ADecl) : ∀ s, ∃ s', chain (defOne c) s l = ([], .ok s') := by
  induction l with
  | nil => intro s; exact ⟨s, rfl⟩
  | cons d l ih =>
    intro s
    have hk : attKind c.ns d.name = .plain := by rw [attKind, hns]; rfl
    have : ∃ s', defOne c s d = ([], .ok s') := by
      rw [defOne]
      split
      · exact ⟨_, rfl⟩
      · split
        · exact ⟨_, rfl⟩
        · simp only [hk]; exact ⟨_, rfl⟩
    obtain ⟨s1, h1⟩ := this
    obtain ⟨s2, h2⟩ := ih s1
    exact ⟨s2, by rw [chain, h1]; simp [h2]⟩

theorem expandNames_plain {c : Cfg} {env : Env} (l : List (Buf × Buf)) : ∀ f seen,
    ∃ g, expandNames c env 0 f seen l = .ok (l, g) := by
  induction l with
  | nil => intro f seen; exact ⟨_, rfl⟩
  | cons a l ih =>
    intro f seen
    rw [expandNames]
    simp only [ne_eq, not_true_eq_false, false_and, if_false]
    obtain ⟨g, hg⟩ := ih (setFlag f a.1 .unset) seen
    exact ⟨g, by rw [hg]⟩

/-- **C28, without namespace processing: exactly the tags without duplicates are accepted**, provided the
values are right in themselves; the others fail with DUPLICATE_ATTRIBUTE. -/
theorem accepted_iff {c : Cfg} (hns : c.ns = false) {D int x opened flags env raw b} (hf : ∀ n, flags n = .unset)
    (hv : ∀ a ∈ getAtts x.e b, ∃ v, attValue D int x opened (D.elem raw) b a (attName x b a) = .ok v) :
    if ((getAtts x.e b).map (attName x b)).Nodup then
      ∃ r, storeAtts c D int x opened flags env raw b = ([], .ok r)
    else storeAtts c D int x opened flags env raw b = ([], .error (.DUPLICATE_ATTRIBUTE, [])) := by
  have h := chain_plain hns (getAtts x.e b) (init_first c hf env) hv
  simp only [List.map_nil, List.nil_append] at h
  split
  · rename_i hnd
    rw [if_pos hnd] at h
    obtain ⟨s1, h1⟩ := h
    obtain ⟨s2, h2⟩ := chain_def_plain hns (D.elem raw).atts s1
    have hi := AInv_chains hf h1 h2
    have h0 : s2.nPre = 0 := by
      rw [hi.nPre, List.countP_eq_zero]
      intro a _
      rw [attKind, hns]
      simp [AKind.isPrefixed]
    obtain ⟨g, h3⟩ := expandNames_plain (c := c) (env := s2.env) s2.atts s2.flags []
    have h4 : elemName c s2.env raw = .ok ⟨raw, none⟩ := by rw [elemName, hns]; rfl
    rw [storeAtts]
    simp only [h1, h2, h0, h3, h4]
    exact ⟨_, rfl⟩
  · rename_i hnd
    rw [if_neg hnd] at h
    rw [storeAtts]
    simp only [h]

/-! ### In every run -/

/-- The attributes of a start-element event have distinct names, and not more than all are specified. -/
def Good (v : Ev) : Prop :=
  match v with
  | .startElement _ atts k id => (atts.map (·.1)).Nodup ∧ k ≤ atts.length ∧ ∀ i, id = some i → i < k
  | _ => True

theorem storeAtts_good {c : Cfg} (hns : c.ns = false) {D int x opened flags env raw b E r}
    (hf : ∀ n, flags n = .unset) (h : storeAtts c D int x opened flags env raw b = (E, .ok r)) :
    Good (.startElement (r.name.full c) r.atts r.specified r.idIndex) := by
  obtain ⟨E1, E2, s1, s2, h1, h2, rfl, ⟨f, h3, h3'⟩, h4, h5, h6, h7, h8⟩ := C31.storeAtts_ok h
  have hi := AInv_chains hf h1 h2
  have h0 : s2.nPre = 0 := by
    rw [hi.nPre, List.countP_eq_zero]
    intro a _
    rw [attKind, hns]
    simp [AKind.isPrefixed]
  rw [h0] at h3
  obtain ⟨g, h3'⟩ := expandNames_plain (c := c) (env := s2.env) s2.atts s2.flags []
  rw [h3] at h3'
  injection h3' with h3'
  injection h3' with h3' _
  have hlen : s1.atts.length ≤ s2.atts.length := by
    refine chain_inv_list (I := fun _ s => s1.atts.length ≤ s.atts.length) (fun _ s d E s' h0 h => ?_) _ (as := [])
      (Nat.le_refl _) h2
    rw [defOne] at h
    repeat' split at h
    all_goals cases h
    all_goals first | exact h0 | (simp only [List.length_append]; omega)
  refine ⟨by rw [h3']; exact hi.nodup, by rw [h7, h3']; exact hlen, ?_⟩
  intro i hid
  rw [h8] at hid
  rw [h7]
  split at hid
  · cases hid
  · split at hid
    · exact (List.findIdx?_eq_some_iff_getElem.1 hid).1
    · cases hid

theorem good_plain {w} (h : plainEv w = true) : Good w := by cases w <;> simp_all [plainEv, Good]
theorem good_startNs {w} (h : isStartNs w = true) : Good w := by cases w <;> simp_all [isStartNs, Good]
theorem good_endNs {w} (h : isEndNs w = true) : Good w := by cases w <;> simp_all [isEndNs, Good]
theorem good_orDefault {c x set v b} (hv : Good v) : ∀ w ∈ orDefault c x set v b, Good w := by
  intro w h
  rw [orDefault] at h
  split at h
  · simp only [List.mem_singleton] at h; subst h; exact hv
  · exact good_plain (plain_toDefault _ _ _ _ h)

theorem flags_unset {c : Cfg} {D int x opened flags env raw b E r}
    (hf : ∀ n, flags n = .unset) (h : storeAtts c D int x opened flags env raw b = (E, .ok r)) :
    ∀ n, r.flags n = .unset := by
  obtain ⟨E1, E2, s1, s2, h1, h2, rfl, ⟨f, h3, h3'⟩, h4, h5, h6, h7, h8⟩ := C31.storeAtts_ok h
  intro n
  rw [h3']
  exact flags_cleared (AInv_chains hf h1 h2) h3 n

theorem compositional {c : Cfg} (hns : c.ns = false) (D int) :
    Compositional c D int
      (fun _ s E s' => (∀ n, s.flags n = .unset) → (∀ n, s'.flags n = .unset) ∧ ∀ w ∈ E, Good w)
      (fun _ s E _ => (∀ n, s.flags n = .unset) → ∀ w ∈ E, Good w) where
  refl _ _ := fun h => ⟨h, by simp⟩
  trans h h' := fun hf =>
    ⟨(h' (h hf).1).1, fun w hw => (List.mem_append.1 hw).elim ((h hf).2 w) ((h' (h hf).1).2 w)⟩
  stop _ _ _ _ := by simp
  err h h' := fun hf w hw => (List.mem_append.1 hw).elim ((h hf).2 w) (h' (h hf).1 w)
  act_ok := by
    intro x opened start expand s t w E s' hex hm ha hf
    cases act_ok ha with
    | plain h => exact ⟨hf, fun v hv => good_plain (h v hv)⟩
    | expand _ _ _ _ _ _ _ _ h => exact (hex _ _ _ _ _ h).1 hf
    | start _ h =>
      have hE := storeAtts_events c D int x opened s.flags s.env (converted x (rawName x x.e.mb w)) w
      rw [h] at hE
      refine ⟨flags_unset hf h, fun v hv => ?_⟩
      rcases List.mem_append.1 hv with hv | hv
      · exact good_startNs (hE v hv)
      · exact good_orDefault (storeAtts_good hns hf h) v hv
    | empty _ h =>
      have hE := storeAtts_events c D int x opened s.flags s.env (converted x (rawName x x.e.mb w)) w
      rw [h] at hE
      refine ⟨flags_unset hf h, fun v hv => ?_⟩
      simp only [List.mem_append] at hv
      rcases hv with (((hv | hv) | hv) | hv) | hv
      · exact good_startNs (hE v hv)
      · split at hv <;> simp only [List.mem_singleton, List.not_mem_nil] at hv
        subst hv; exact storeAtts_good hns hf h
      · split at hv <;> simp only [List.mem_singleton, List.not_mem_nil] at hv; subst hv; trivial
      · split at hv
        · exact good_plain (plain_toDefault _ _ _ _ hv)
        · cases hv
      · exact good_endNs (freeBindings_events _ _ _ v hv)
    | end_ =>
      refine ⟨hf, fun v hv => ?_⟩
      rcases List.mem_append.1 hv with hv | hv
      · exact good_orDefault (by trivial) v hv
      · exact good_endNs (freeBindings_events _ _ _ v hv)
  act_err := by
    intro x opened start expand s t w E err hex hm ha hf v hv
    cases act_err ha with
    | plain h _ => exact good_plain (h v hv)
    | expand _ _ h => exact hex _ _ _ _ _ h hf v hv
    | start h =>
      have hE := storeAtts_events c D int x opened s.flags s.env (converted x (rawName x x.e.mb w)) w
      rw [h] at hE
      exact good_startNs (hE v hv)
    | empty h =>
      have hE := storeAtts_events c D int x opened s.flags s.env (converted x (rawName x x.e.mb w)) w
      rw [h] at hE
      rcases List.mem_append.1 hv with hv | hv
      · exact good_startNs (hE v hv)
      · exact good_endNs (freeBindings_events _ _ _ v hv)

/-- **C28, for whole documents.**  Without namespace processing, no start-element event ever has two
attributes of the same name, whatever is parsed, however it is cut; attribute flags never leak from one
tag into the next. -/
theorem never_duplicate {c : Cfg} (hns : c.ns = false) (D : Dtd) (int x : XEnc) (xs : List Buf) {n atts k id}
    (h : Ev.startElement n atts k id ∈ (feed (parser c D int x) x.e CState.init [] xs).1) :
    (atts.map (·.1)).Nodup ∧ k ≤ atts.length ∧ ∀ i, id = some i → i < k := by
  cases hf : feed (parser c D int x) x.e CState.init [] xs with
  | mk E o =>
    rw [hf] at h
    have := feed_holds (compositional hns D int) (fun _ _ => by simp) D.fuel x [] 0 x.e xs hf
    cases o with
    | ok => exact (this fun _ => rfl).2 _ h
    | err => exact this (fun _ => rfl) _ h

/-- With or without namespaces: after every accepted piece of content no flag is set, so that
`attributes` applies to every tag. -/
theorem flags_always_unset (c : Cfg) (D : Dtd) (int x : XEnc) (xs : List Buf) {E s r}
    (h : feed (parser c D int x) x.e CState.init [] xs = (E, .ok s r)) : ∀ n, s.flags n = .unset := by
  have C : Compositional c D int (fun _ s _ s' => (∀ n, s.flags n = .unset) → ∀ n, s'.flags n = .unset)
      (fun _ _ _ _ => True) :=
    ⟨fun _ _ h => h, fun h h' hf => h' (h hf), fun _ _ _ _ => trivial, fun _ _ => trivial, by
      intro x opened start expand s t w E s' hex hm ha hf
      cases act_ok ha with
      | plain => exact hf
      | expand _ _ _ _ _ _ _ _ h => exact (hex _ _ _ _ _ h).1 hf
      | start _ h => exact flags_unset hf h
      | empty _ h => exact flags_unset hf h
      | end_ => exact hf, fun _ _ _ => trivial⟩
  exact feed_holds C (fun _ _ => trivial) D.fuel x [] 0 x.e xs h fun _ => rfl

/-! Non-vacuity: an element type with defaults for `b` and `c`, ID attribute `i`;
`<e c='1' i='2'/>` and `<e c='1' c='2'/>`. -/
def exDtd : Dtd :=
  { (default : Dtd) with elems := [([0x65], ⟨[⟨[0x62], true, some [0x78]⟩, ⟨[0x63], true, some [0x79]⟩, ⟨[0x69], false, none⟩],
      some [0x69]⟩)] }

example : (feed (parser {} exDtd (internalUtf8X false) (utf8X false)) (utf8Enc false) CState.init []
      ["<e c='1' i='2'/>".toUTF8.toList]).1 =
    [.startElement [0x65] [([0x63], [0x31]), ([0x69], [0x32]), ([0x62], [0x78])] 2 (some 1), .endElement [0x65]] := by
  decide +kernel
example : (feed (parser {} exDtd (internalUtf8X false) (utf8X false)) (utf8Enc false) CState.init []
      ["<e c='1' c='2'/>".toUTF8.toList]).2.code = some .DUPLICATE_ATTRIBUTE := by
  decide +kernel
example : ((declaredDefaults (exDtd.elem [0x65])).map (·.1)).Nodup := by decide

end Verif.C28
