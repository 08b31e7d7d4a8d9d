import Verif.Props.C31

/-! C30: reserved namespace prefixes and URIs. -/

namespace Verif.C30
open Verif C43

/-! ### Specification (Namespaces in XML 1.0, section 3) -/

/-- The error for a declaration of the prefix `p` (`none`: the default namespace), `none` if it is legal. -/
def verdict (p : Option Buf) (uri : Buf) : Option XErr :=
  if p ≠ none ∧ uri = [] then some .UNDECLARING_PREFIX
  else if p = some "xmlns".toUTF8.toList then some .RESERVED_PREFIX_XMLNS
  else if p = some "xml".toUTF8.toList then
    if uri = "http://www.w3.org/XML/1998/namespace".toUTF8.toList then none else some .RESERVED_PREFIX_XML
  else if uri = "http://www.w3.org/XML/1998/namespace".toUTF8.toList ∨
      uri = "http://www.w3.org/2000/xmlns/".toUTF8.toList then some .RESERVED_NAMESPACE_URI
  else none

/-! ### Lemmas -/

theorem uriMatch_iff (r : Buf) (u : Buf) : ∀ i, uriMatch r false i u = true ↔ u <+: r.drop i := by
  induction u with
  | nil => intro i; simp [uriMatch]
  | cons c u ih =>
    intro i
    simp only [uriMatch, Bool.false_or, Bool.and_eq_true, beq_iff_eq, ih]
    by_cases h : i < r.length
    · rw [List.drop_eq_getElem_cons h, List.cons_prefix_cons, List.getElem?_eq_getElem h, Option.some.injEq]
      exact ⟨fun ⟨a, b⟩ => ⟨a.symm, b⟩, fun ⟨a, b⟩ => ⟨a.symm, b⟩⟩
    · rw [List.drop_eq_nil_of_le (i := i) (by omega), List.getElem?_eq_none (by omega)]
      simp [List.prefix_nil]

theorem uriMatch_eq (r u : Buf) : (uriMatch r false 0 u && u.length == r.length) = decide (u = r) := by
  rw [Bool.eq_iff_iff]
  simp only [Bool.and_eq_true, uriMatch_iff, List.drop_zero, beq_iff_eq, decide_eq_true_eq]
  constructor
  · rintro ⟨h, hl⟩; exact h.eq_of_length hl
  · rintro rfl; exact ⟨List.prefix_rfl, rfl⟩

theorem uriMatch_skip (r u : Buf) : ∀ i, uriMatch r true i u = true := by
  induction u with
  | nil => intro i; rfl
  | cons c u ih => intro i; simp [uriMatch, ih]

theorem lits : xmlnsName = "xmlns".toUTF8.toList ∧ xmlName = "xml".toUTF8.toList ∧
    xmlNamespace = "http://www.w3.org/XML/1998/namespace".toUTF8.toList ∧
    xmlnsNamespace = "http://www.w3.org/2000/xmlns/".toUTF8.toList := by decide +kernel

theorem bindingError_eq (p : Option Buf) (uri : Buf) : bindingError p uri = verdict p uri := by
  obtain ⟨l1, l2, l3, l4⟩ := lits
  have hne : xmlNamespace.length ≠ xmlnsNamespace.length := by decide
  rw [verdict, ← l1, ← l2, ← l3, ← l4, bindingError]
  by_cases h1 : p ≠ none ∧ uri = []
  · rw [if_pos h1, if_pos ⟨h1.2, h1.1⟩]
  · rw [if_neg h1, if_neg fun h => h1 ⟨h.2, h.1⟩]
    by_cases h2 : p = some xmlnsName
    · rw [if_pos h2, if_pos h2]
    · rw [if_neg h2, if_neg h2]
      by_cases h3 : p = some xmlName
      · simp only [h3, decide_true, uriMatch_skip, Bool.true_and, uriMatch_eq, if_true]
        by_cases h4 : uri = xmlNamespace
        · rw [h4]; simp [hne]
        · simp [h4]
      · simp only [h3, decide_false, uriMatch_eq, if_false]
        by_cases h4 : uri = xmlNamespace
        · simp [h4]
        · simp [h4]

def Legal (v : Ev) : Prop :=
  match v with
  | .startNs p u => verdict p (u.getD []) = none
  | _ => True

theorem addBinding_legal (c v bs p att uri) : ∀ w ∈ (addBinding c v bs p att uri).1, Legal w := by
  intro w h
  rw [addBinding] at h
  split at h
  · cases h
  · rename_i he
    simp only at h
    split at h
    · simp only [List.mem_singleton] at h
      subst h
      rw [bindingError_eq] at he
      simp only [Legal]
      split
      · rename_i h1; rw [h1.1] at he; exact he
      · exact he
    · cases h

theorem attOne_legal (c D int x opened et b s a) : ∀ w ∈ (attOne c D int x opened et b s a).1, Legal w := by
  intro w h
  simp only [attOne] at h
  repeat' split at h
  all_goals first
    | (cases h; done)
    | (rename_i h2; exact addBinding_legal c s.env s.binds _ _ _ w (by rw [h2]; exact h))

theorem defOne_legal (c s d) : ∀ w ∈ (defOne c s d).1, Legal w := by
  intro w h
  rw [defOne] at h
  repeat' split at h
  all_goals first
    | (cases h; done)
    | (rename_i h2; exact addBinding_legal c s.env s.binds _ _ _ w (by rw [h2]; exact h))

theorem storeAtts_legal (c D int x opened flags env raw b) :
    ∀ w ∈ (storeAtts c D int x opened flags env raw b).1, Legal w := by
  intro w h
  have h1 := fun s => chain_events (P := Legal)
    (fun s a => attOne_legal c D int x opened (D.elem raw) b s a) (getAtts x.e b) s w
  have h2 := fun s => chain_events (P := Legal)
    (fun s a => defOne_legal c s a) (D.elem raw).atts s w
  have h3 : ∀ {s s' E E2 o o2}, chain (attOne c D int x opened (D.elem raw) b) s (getAtts x.e b) = (E, o) →
      chain (defOne c) s' (D.elem raw).atts = (E2, o2) → w ∈ E ++ E2 → Legal w := by
    intro s s' E E2 o o2 h3 h4 h
    rcases List.mem_append.1 h with h | h
    · exact h1 s (by rw [h3]; exact h)
    · exact h2 s' (by rw [h4]; exact h)
  rw [storeAtts] at h
  simp only at h
  split at h
  · rename_i h3; exact h1 _ (by rw [h3]; exact h)
  · repeat' split at h
    all_goals exact h3 (by assumption) (by assumption) h

theorem legal_plain {w} (h : plainEv w = true) : Legal w := by cases w <;> simp_all [plainEv, Legal]
theorem legal_endNs {w} (h : isEndNs w = true) : Legal w := by cases w <;> simp_all [isEndNs, Legal]
theorem legal_orDefault {c x set v b} (hv : Legal v) : ∀ w ∈ orDefault c x set v b, Legal w := by
  intro w h
  rw [orDefault] at h
  split at h
  · simp only [List.mem_singleton] at h; subst h; exact hv
  · exact legal_plain (plain_toDefault _ _ _ _ h)

theorem compositional (c D int) :
    Compositional c D int (fun _ _ E _ => ∀ w ∈ E, Legal w) (fun _ _ E _ => ∀ w ∈ E, Legal w) where
  refl _ _ := by simp
  trans h h' := fun w hw => (List.mem_append.1 hw).elim (h w) (h' w)
  stop _ _ _ _ := by simp
  err h h' := fun w hw => (List.mem_append.1 hw).elim (h w) (h' w)
  act_ok := by
    intro x opened start expand s t w E s' hex hm ha v hv
    cases act_ok ha with
    | plain h => exact legal_plain (h v hv)
    | expand _ _ _ _ _ _ _ _ h => exact (hex _ _ _ _ _ h).1 v hv
    | start _ h =>
      have hE := storeAtts_legal c D int x opened s.flags s.env (converted x (rawName x x.e.mb w)) w
      rw [h] at hE
      rcases List.mem_append.1 hv with hv | hv
      · exact hE v hv
      · exact legal_orDefault (by trivial) v hv
    | empty _ h =>
      have hE := storeAtts_legal c D int x opened s.flags s.env (converted x (rawName x x.e.mb w)) w
      rw [h] at hE
      simp only [List.mem_append] at hv
      rcases hv with (((hv | hv) | hv) | hv) | hv
      · exact hE v hv
      · split at hv <;> simp only [List.mem_singleton, List.not_mem_nil] at hv; subst hv; trivial
      · split at hv <;> simp only [List.mem_singleton, List.not_mem_nil] at hv; subst hv; trivial
      · split at hv
        · exact legal_plain (plain_toDefault _ _ _ _ hv)
        · cases hv
      · exact legal_endNs (freeBindings_events _ _ _ v hv)
    | end_ =>
      rcases List.mem_append.1 hv with hv | hv
      · exact legal_orDefault (by trivial) v hv
      · exact legal_endNs (freeBindings_events _ _ _ v hv)
  act_err := by
    intro x opened start expand s t w E err hex hm ha v hv
    cases act_err ha with
    | plain h _ => exact legal_plain (h v hv)
    | expand _ _ h => exact hex _ _ _ _ _ h v hv
    | start h =>
      have hE := storeAtts_legal c D int x opened s.flags s.env (converted x (rawName x x.e.mb w)) w
      rw [h] at hE
      exact hE v hv
    | empty h =>
      have hE := storeAtts_legal c D int x opened s.flags s.env (converted x (rawName x x.e.mb w)) w
      rw [h] at hE
      rcases List.mem_append.1 hv with hv | hv
      · exact hE v hv
      · exact legal_endNs (freeBindings_events _ _ _ v hv)

/-! ### Theorems -/

/-- **C30.**  A namespace declaration succeeds exactly when it is legal, and otherwise fails with the
error specified, reporting nothing; on success the prefix gets the URI (the default prefix none, if the
URI is empty), all others keep theirs. -/
theorem reserved (c : Cfg) (v : Env) (bs : List Binding) (p : Option Buf) (att uri : Buf) :
    addBinding c v bs p att uri =
      match verdict p uri with
      | some err => ([], .error err)
      | none =>
        let u := if uri = [] then none else some uri
        (if c.startNs then [.startNs p u] else [],
          .ok (fun q => if q = p then u else v q, ⟨p, att, uri, v p⟩ :: bs)) := by
  rw [addBinding, bindingError_eq]
  cases h : verdict p uri with
  | some e => rfl
  | none =>
    have : (uri = [] ∧ p = none) ↔ uri = [] := by
      refine ⟨And.left, fun hu => ⟨hu, Classical.byContradiction fun hp => ?_⟩⟩
      rw [verdict, if_pos ⟨hp, hu⟩] at h
      cases h
    simp only [this]
    rfl

/-- No illegal declaration is ever reported, whatever is parsed. -/
theorem never_reported (c : Cfg) (D : Dtd) (int x : XEnc) (xs : List Buf) (p u)
    (h : Ev.startNs p u ∈ (feed (parser c D int x) x.e CState.init [] xs).1) : verdict p (u.getD []) = none := by
  cases hf : feed (parser c D int x) x.e CState.init [] xs with
  | mk E o =>
    rw [hf] at h
    have := feed_holds (compositional c D int) (fun _ _ => by simp) D.fuel x [] 0 x.e xs hf
    cases o <;> exact this _ h

/-- The document fails with the error of its first illegal declaration: an attribute which declares a
prefix, found with value `val` (and not a duplicate), makes the tag fail. -/
theorem tag_refused (c : Cfg) (D : Dtd) (int x : XEnc) (opened : List Buf) (et : ElemType) (b : Buf) (s : AState)
    (a : Att) (p : Option Buf) (val : Buf) (hk : attKind c.ns (attName x b a) = .xmlns p)
    (hf : s.flags (attName x b a) = .unset) (hv : attValue D int x opened et b a (attName x b a) = .ok val)
    {err} (he : verdict p val = some err) :
    attOne c D int x opened et b s a = ([], .error (err, s.binds)) := by
  simp only [attOne, hf, ne_eq, not_true_eq_false, if_false, hv, hk, reserved, he]

/-! Non-vacuity, one case of each kind. -/
example : verdict (some [0x70]) [0x75] = none ∧ verdict none [] = none ∧
    verdict (some [0x70]) [] = some .UNDECLARING_PREFIX ∧
    verdict (some xmlnsName) [0x75] = some .RESERVED_PREFIX_XMLNS ∧
    verdict (some xmlName) xmlNamespace = none ∧ verdict (some xmlName) [0x75] = some .RESERVED_PREFIX_XML ∧
    verdict none xmlNamespace = some .RESERVED_NAMESPACE_URI ∧
    verdict (some [0x70]) xmlnsNamespace = some .RESERVED_NAMESPACE_URI := by decide +kernel
example : (feed (parser { ns := true } default (internalUtf8X true) (utf8X true)) (utf8Enc true) CState.init []
      ["<a xmlns:p='u'><b xmlns:xmlns='v'/></a>".toUTF8.toList]).1 =
    [.startNs (some [0x70]) (some [0x75]), .startElement [0x61] [] 0 none] ∧
  (feed (parser { ns := true } default (internalUtf8X true) (utf8X true)) (utf8Enc true) CState.init []
      ["<a xmlns:p='u'><b xmlns:xmlns='v'/></a>".toUTF8.toList]).2.code = some .RESERVED_PREFIX_XMLNS := by
  decide +kernel

end Verif.C30
