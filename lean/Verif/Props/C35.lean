import Verif.Subst

/-! C35: expanding entity references is textual substitution. -/

set_option autoImplicit false

namespace Verif.C35
open Verif C43 C53 Spec C04

/-! ### How texts with references are written -/

/-- The text `t` may be written as the bytes `b` in the encoding `x`.  A character is written literally unless
it is `<`, `&`, CR or the start of `]]>`, or excluded by `lit`; any character may be written as a character
reference, and some as references to the predefined entities. -/
inductive Writes (lit : Nat → Prop) (x : XEnc) (asc : UInt8 → Buf) (enc : Nat → Buf) (ok : Nat → Prop) : List Sym → Buf → Prop
  | nil : Writes lit x asc enc ok [] []
  | char {c : Nat} {t : List Sym} {b : Buf} : ok c → lit c → c ≠ 0x3C → c ≠ 0x26 → c ≠ 0x0D → ¬ StartsClose asc (enc c ++ b) →
      Writes lit x asc enc ok t b → Writes lit x asc enc ok (.ch c :: t) (enc c ++ b)
  | charRef {c : Nat} {t : List Sym} {w b : Buf} : CharRefText asc w c → XmlChar c →
      Writes lit x asc enc ok t b → Writes lit x asc enc ok (.ch c :: t) (w ++ b)
  | predefined {n : List UInt8} {d : UInt8} {t : List Sym} {b : Buf} : (n, d) ∈ C10.predefined →
      Writes lit x asc enc ok t b → Writes lit x asc enc ok (.ch d.toNat :: t) (entityText asc (spell asc n) ++ b)
  | ref {n : List Nat} {t : List Sym} {b : Buf} : (∀ c ∈ n, ok c) → x.e.Name (n.map enc) → ¬ Predefined asc (C12.text enc n) →
      Writes lit x asc enc ok t b → Writes lit x asc enc ok (.ref n :: t) (entityText asc (C12.text enc n) ++ b)

/-- The entities of the document are those of `d`: internal entities, whose replacement texts are written in
UTF-8. -/
def Declared (lit : Nat → Prop) (D : Dtd) (ns : Bool) (d : Defs) : Prop :=
  ∀ n t, d n = some t → ∃ ent b, D.entity (utf8s n) = some ent ∧ ent.text = some b ∧ ent.notation_ = none ∧
    ent.isInternal = true ∧ Writes lit (internalUtf8X ns) asc1 utf8 XmlChar t b

/-- All references in the text and in the replacement texts are defined. -/
def Closed (d : Defs) (t : List Sym) : Prop :=
  (∀ m, .ref m ∈ t → (d m).isSome) ∧ ∀ n u, d n = some u → ∀ m, .ref m ∈ u → (d m).isSome

/-! ### Lemmas -/

theorem utf8_first {c d : Nat} (hc : XmlChar c) (hd : XmlChar d) {r q : Buf} (h : utf8 c ++ r = utf8 d ++ q) : c = d ∧ r = q := by
  have hc := xmlChar_lt hc
  have hd := xmlChar_lt hd
  have e : ∀ {a b : Nat}, a < 256 → b < 256 → UInt8.ofNat a = UInt8.ofNat b → a = b := by
    intro a b ha hb h
    have := congrArg UInt8.toNat h
    rwa [toNat_ofNat ha, toNat_ofNat hb] at this
  simp only [utf8] at h
  split at h <;> split at h <;> (try split at h) <;> (try split at h) <;> (try split at h) <;> (try split at h) <;>
    simp only [List.cons_append, List.nil_append, List.cons.injEq] at h
  all_goals
    first
    | (obtain ⟨h1, h2, h3, h4, h5⟩ := h
       have h1 := e (by omega) (by omega) h1
       have h2 := e (by omega) (by omega) h2
       have h3 := e (by omega) (by omega) h3
       have h4 := e (by omega) (by omega) h4
       exact ⟨by omega, h5⟩)
    | (obtain ⟨h1, h2, h3, h4⟩ := h
       have h1 := e (by omega) (by omega) h1
       have h2 := e (by omega) (by omega) h2
       have h3 := e (by omega) (by omega) h3
       exact ⟨by omega, h4⟩)
    | (obtain ⟨h1, h2, h3⟩ := h
       have h1 := e (by omega) (by omega) h1
       have h2 := e (by omega) (by omega) h2
       exact ⟨by omega, h3⟩)
    | (obtain ⟨h1, h2⟩ := h
       have h1 := e (by omega) (by omega) h1
       exact ⟨by omega, h2⟩)
    | (have h1 := e (by omega) (by omega) h.1
       omega)

theorem utf8s_inj {m n : List Nat} (hm : ∀ c ∈ m, XmlChar c) (hn : ∀ c ∈ n, XmlChar c) (h : utf8s m = utf8s n) : m = n := by
  induction m generalizing n with
  | nil =>
    cases n with
    | nil => rfl
    | cons d n => rw [C51.utf8s_cons] at h; exact absurd (List.append_eq_nil_iff.1 h.symm).1 (utf8_ne_nil d)
  | cons c m ih =>
    cases n with
    | nil => rw [C51.utf8s_cons] at h; exact absurd (List.append_eq_nil_iff.1 h).1 (utf8_ne_nil c)
    | cons d n =>
      rw [C51.utf8s_cons, C51.utf8s_cons] at h
      obtain ⟨rfl, h2⟩ := utf8_first (hm c (by simp)) (hn d (by simp)) h
      rw [ih (fun c hc => hm c (List.mem_cons_of_mem _ hc)) (fun c hc => hn c (List.mem_cons_of_mem _ hc)) h2]

/-- Markup does not complete `]]>`. -/
theorem before_markup {e : Enc} {asc : UInt8 → Buf} (s : Supported e asc) {ds : List UInt8} (hn : (0x3C : UInt8) ∉ ds) {q r : Buf} :
    ∀ {p : Buf}, e.mb ∣ p.length → p ++ (asc 0x3C ++ q) = spell asc ds ++ r → ∃ r', p = spell asc ds ++ r' := by
  induction ds with
  | nil => intro p _ _; exact ⟨p, rfl⟩
  | cons d ds ih =>
    intro p hp h
    simp only [List.mem_cons, not_or] at hn
    have hs : spell asc (d :: ds) = asc d ++ spell asc ds := rfl
    rw [hs, List.append_assoc] at h
    have l := s.asc.len
    have hpos : 0 < e.mb := Nat.succ_pos _
    cases p with
    | nil =>
      rw [List.nil_append] at h
      have := (List.append_inj h (by rw [l, l])).1
      exact absurd (s.asc_inj this) hn.1
    | cons b p =>
      have hle : e.mb ≤ (b :: p).length := Nat.le_of_dvd (by simp) hp
      rw [← List.take_append_drop e.mb (b :: p), List.append_assoc] at h
      obtain ⟨h1, h2⟩ := List.append_inj h (by rw [l, List.length_take]; omega)
      obtain ⟨r', h3⟩ := ih hn.2 (by rw [List.length_drop]; exact Nat.dvd_sub hp (Nat.dvd_refl _)) h2
      refine ⟨r', ?_⟩
      rw [← List.take_append_drop e.mb (b :: p), h1, h3, hs, List.append_assoc]

/-- What may come after the text: nothing, or markup. -/
def Ends (asc : UInt8 → Buf) (r : Buf) : Prop := r = [] ∨ ∃ q, r = asc 0x3C ++ q

theorem not_close {e : Enc} {asc : UInt8 → Buf} (s : Supported e asc) {b r : Buf} (hb : e.mb ∣ b.length) (hr : Ends asc r)
    (h : ¬ StartsClose asc b) : ¬ StartsClose asc (b ++ r) := by
  rcases hr with rfl | ⟨q, rfl⟩
  · simpa using h
  · rintro ⟨r, hr⟩
    obtain ⟨r', h1⟩ := before_markup s (ds := [0x5D, 0x5D, 0x3E]) (r := r) (by decide) hb (by simpa [spell] using hr)
    exact h ⟨r', by simpa [spell] using h1⟩

section
variable {lit : Nat → Prop} {c : Cfg} {D : Dtd} {ns : Bool} {d : Defs} {x : XEnc} {asc : UInt8 → Buf} {enc : Nat → Buf} {ok : Nat → Prop}

theorem charRef_dvd (S : XSupported x asc) {w : Buf} {n : Nat} (h : CharRefText asc w n) : x.e.mb ∣ w.length := by
  have l := S.s.asc.len
  have hs : ∀ ds : List UInt8, x.e.mb ∣ (spell asc ds).length := fun ds => ⟨ds.length, by
    induction ds with
    | nil => rfl
    | cons d ds ih =>
      rw [show spell asc (d :: ds) = asc d ++ spell asc ds from rfl, List.length_append, ih, l, List.length_cons, Nat.mul_add]; omega⟩
  cases h <;> simp only [List.length_append, l] <;>
    repeat (first | exact Nat.dvd_refl _ | exact hs _ | apply Nat.dvd_add)

theorem entity_dvd (S : XSupported x asc) {w : Buf} (h : x.e.mb ∣ w.length) : x.e.mb ∣ (entityText asc w).length := by
  simp only [entityText, List.length_append, S.s.asc.len]
  exact Nat.dvd_add (Nat.dvd_refl _) (Nat.dvd_add h (Nat.dvd_refl _))

theorem Writes.dvd (K : Coding x asc enc ok) {t : List Sym} {b : Buf} (h : Writes lit x asc enc ok t b) : x.e.mb ∣ b.length := by
  induction h with
  | nil => exact Nat.dvd_zero _
  | char h1 _ _ _ _ _ _ ih => rw [List.length_append]; exact Nat.dvd_add (K.sup.s.dvd (K.char h1)) ih
  | charRef h1 _ _ ih => rw [List.length_append]; exact Nat.dvd_add (charRef_dvd K.sup h1) ih
  | predefined h1 _ ih =>
    rw [List.length_append]
    exact Nat.dvd_add (entity_dvd K.sup (name_dvd K.sup.s (predefined_name K.sup h1))) ih
  | ref h1 _ _ _ ih => rw [List.length_append]; exact Nat.dvd_add (entity_dvd K.sup (K.dvd h1)) ih

theorem textEvs_cons (n : Nat) (cs : List Nat) : textEvs (utf8s (n :: cs)) = textEvs (utf8 n) ++ textEvs (utf8s cs) := by
  rw [C51.utf8s_cons, textEvs_app]

theorem predefined_lt {n : List UInt8} {ch : UInt8} (h : (n, ch) ∈ C10.predefined) : ch < 0x80 := by
  simp only [C10.predefined, List.mem_cons, Prod.mk.injEq, List.not_mem_nil, or_false] at h
  rcases h with ⟨-, rfl⟩ | ⟨-, rfl⟩ | ⟨-, rfl⟩ | ⟨-, rfl⟩ | ⟨-, rfl⟩ <;> decide

/-- A literal character in content. -/
theorem lit_content (K : Coding x asc enc ok) {int : XEnc} {iasc : UInt8 → Buf} {opened : List Buf} {v : Env} {ch : Nat} {b r : Buf} {E : List Ev} (h1 : ok ch)
    (h2 : ch ≠ 0x3C) (h3 : ch ≠ 0x26) (h4 : ch ≠ 0x0D) (h5 : ¬ StartsClose asc (enc ch ++ b))
    (h : Content c D int iasc x asc opened v b E r) :
    Content c D int iasc x asc opened v (enc ch ++ b) (textEvs (utf8 ch) ++ E) r := by
  by_cases hl : ch = 0x0A
  · subst hl
    have e1 : enc 0x0A = asc 0x0A := K.ascii 0x0A (by decide)
    have e2 : utf8 0x0A = [0x0A] := by decide
    rw [e1, e2]
    exact .lf h
  · rw [← K.conv1 h1]
    refine .char ⟨K.char h1, K.ne_asc h1 (by decide) (by decide) hl, fun h0 => ?_⟩ (K.ne_asc h1 (by decide) (by decide) h2)
      (K.ne_asc h1 (by decide) (by decide) h3) h5 h
    exact absurd h0 (K.ne_asc h1 (by decide) (by decide) h4)

/-- The text is content of the grammar with the character data of the expanded text. -/
theorem ex_content (hD : Declared lit D ns d) {k : Nat} {t : List Sym} {cs : List Nat} (h : Ex d k t cs) :
    ∀ {x : XEnc} {asc : UInt8 → Buf} {enc : Nat → Buf} {ok : Nat → Prop} {b r : Buf} {opened : List Buf} {v : Env}, Coding x asc enc ok →
    Writes lit x asc enc ok t b → Ends asc r →
    (∀ o ∈ opened, ∃ m u k' ds, o = utf8s m ∧ (∀ c ∈ m, XmlChar c) ∧ d m = some u ∧ Ex d k' u ds ∧ k ≤ k') →
    Content c D (internalUtf8X ns) asc1 x asc opened v (b ++ r) (textEvs (utf8s cs)) r := by
  induction h with
  | nil => intro x asc enc ok b r opened v K hw hr ho; cases hw; exact .nil r
  | @ch k t cs ch _ ih =>
    intro x asc enc ok b r opened v K hw hr ho
    rw [textEvs_cons]
    have hw' := hw
    generalize hq : Sym.ch ch = q at hw
    cases hw with
    | char h1 _ h2 h3 h4 h5 h6 =>
      cases hq
      rw [List.append_assoc]
      exact lit_content K h1 h2 h3 h4 (by rw [← List.append_assoc]; exact not_close K.sup.s (hw'.dvd K) hr h5) (ih K h6 hr ho)
    | charRef h1 h2 h3 => cases hq; rw [List.append_assoc]; exact .charRef h1 h2 (ih K h3 hr ho)
    | @predefined n ch _ _ h1 h3 =>
      cases hq
      rw [List.append_assoc, utf8_asc _ (predefined_lt h1)]
      exact .predefined h1 (ih K h3 hr ho)
    | ref => cases hq
  | @ref k k1 t t1 cs c1 n h1 hx _ ih1 ih =>
    intro x asc enc ok b r opened v K hw hr ho
    generalize hq : Sym.ref n = q at hw
    cases hw with
    | char => cases hq
    | charRef => cases hq
    | predefined => cases hq
    | ref i1 i2 i3 i4 =>
      cases hq
      obtain ⟨ent, tb, j1, j2, j3, j4, j5⟩ := hD n t1 h1
      have hc := K.conv i1
      rw [C51.utf8s_append, textEvs_app, List.append_assoc]
      have hno : converted x (C12.text enc n) ∉ opened := by
        rw [hc]
        intro hm
        obtain ⟨m, u, k', ds, o1, o2, o3, o4, o5⟩ := ho _ hm
        have := utf8s_inj (fun c hc => K.xml (i1 c hc)) o2 o1
        subst this
        rw [h1] at o3
        cases o3
        have := (hx.unique o4).1
        omega
      refine .entity i2 i3 (by rw [← j1, ← hc]; rfl) j2 j3 (fun _ => j4) hno ?_ (ih K i4 hr fun o hm => ?_)
      · have := ih1 (r := []) (opened := converted x (C12.text enc n) :: opened) (v := v) (Coding.internal ns) j5 (.inl rfl) ?_
        · simpa [C12.text] using this
        · intro o hm
          simp only [List.mem_cons] at hm
          rcases hm with rfl | hm
          · exact ⟨n, t1, k1, c1, hc, fun c hc => K.xml (i1 c hc), h1, hx, Nat.le_refl _⟩
          · obtain ⟨m, u, k', ds, o1, o2, o3, o4, o5⟩ := ho _ hm
            exact ⟨m, u, k', ds, o1, o2, o3, o4, by omega⟩
      · obtain ⟨m, u, k', ds, o1, o2, o3, o4, o5⟩ := ho _ hm
        exact ⟨m, u, k', ds, o1, o2, o3, o4, by omega⟩

/-- Whatever the content loop accepts can be rewritten to a text without references. -/
theorem parsed_ex (a : AllSet c) (hD : Declared lit D ns d) (hcl : ∀ n u, d n = some u → ∀ m, .ref m ∈ u → (d m).isSome) (k : Nat) :
    ∀ {x : XEnc} {asc : UInt8 → Buf} {enc : Nat → Buf} {ok : Nat → Prop} {t : List Sym} {b r : Buf} {opened : List Buf}
    {start : Nat} {v : Env} {s : CState} {F : List Ev} {s2 : CState} {r2 : Buf}, Coding x asc enc ok →
    Writes lit x asc enc ok t b → Ends asc r → C34.avail D opened ≤ k → In start v s → x.e.mb ∣ r.length →
    (∀ m, .ref m ∈ t → (d m).isSome) →
    run (sem c D (internalUtf8X ns) k x opened start) x.e false false s (b ++ r) = (F, .ok s2 r2) →
    ∃ j cs, Ex d j t cs ∧ Content c D (internalUtf8X ns) asc1 x asc opened v (b ++ r) (textEvs (utf8s cs)) r := by
  induction k using Nat.strongRecOn with
  | _ k ihk =>
  intro x asc enc ok t b r opened start v s F s2 r2 K hw hr hk hs hd ht h
  have I : XSupported (internalUtf8X ns) asc1 := .internalUtf8 ns
  have rest : ∀ {w q : Buf} {E F : List Ev}, Content c D (internalUtf8X ns) asc1 x asc opened v (w ++ q) E q →
      x.e.mb ∣ (w ++ q).length →
      run (sem c D (internalUtf8X ns) k x opened start) x.e false false s (w ++ q) = (F, .ok s2 r2) →
      ∃ F', run (sem c D (internalUtf8X ns) k x opened start) x.e false false s q = (F', .ok s2 r2) := by
    intro w q E F hc hdw h
    have := (content_run a I rfl hc (k := k) (start := start) (s := s) K.sup hk hs hdw).2
    rw [h] at this
    obtain ⟨F', h1, -⟩ := this.ok
    exact ⟨F', h1⟩
  have all : ∀ {t : List Sym} {b : Buf}, Writes lit x asc enc ok t b → x.e.mb ∣ (b ++ r).length := by
    intro t b hw
    rw [List.length_append]
    exact Nat.dvd_add (hw.dvd K) hd
  induction hw generalizing F with
  | nil => exact ⟨0, [], .nil, .nil r⟩
  | @char ch t b h1 hl h2 h3 h4 h5 h6 ih =>
    have hw := Writes.char h1 hl h2 h3 h4 h5 h6
    have h5' : ¬ StartsClose asc (enc ch ++ (b ++ r)) := by
      rw [← List.append_assoc]; exact not_close K.sup.s (hw.dvd K) hr h5
    have hdw := all hw
    rw [List.append_assoc] at h hdw ⊢
    obtain ⟨F', h7⟩ := rest (lit_content K h1 h2 h3 h4 h5' (.nil _)) hdw h
    obtain ⟨j, cs, i1, i2⟩ := ih (fun m hm => ht m (List.mem_cons_of_mem _ hm)) h7
    exact ⟨j, ch :: cs, .ch ch i1, by rw [textEvs_cons]; exact lit_content K h1 h2 h3 h4 h5' i2⟩
  | @charRef ch t w b h1 h2 h3 ih =>
    have hdw := all (.charRef h1 h2 h3)
    rw [List.append_assoc] at h hdw ⊢
    obtain ⟨F', h7⟩ := rest (.charRef h1 h2 (.nil _)) hdw h
    obtain ⟨j, cs, i1, i2⟩ := ih (fun m hm => ht m (List.mem_cons_of_mem _ hm)) h7
    exact ⟨j, ch :: cs, .ch ch i1, by rw [textEvs_cons]; exact .charRef h1 h2 i2⟩
  | @predefined n ch t b h1 h3 ih =>
    have hdw := all (.predefined h1 h3)
    rw [List.append_assoc] at h hdw ⊢
    obtain ⟨F', h7⟩ := rest (.predefined h1 (.nil _)) hdw h
    obtain ⟨j, cs, i1, i2⟩ := ih (fun m hm => ht m (List.mem_cons_of_mem _ hm)) h7
    exact ⟨j, ch.toNat :: cs, .ch _ i1, by rw [textEvs_cons, utf8_asc _ (predefined_lt h1)]; exact .predefined h1 i2⟩
  | @ref n t b i1 i2 i3 i4 ih =>
    have hdw := all (.ref i1 i2 i3 i4)
    rw [List.append_assoc] at h hdw ⊢
    obtain ⟨t1, h1⟩ := Option.isSome_iff_exists.1 (ht n (by simp))
    obtain ⟨ent, tb, j1, j2, j3, j4, j5⟩ := hD n t1 h1
    have hc := K.conv i1
    have m : Markup x.e asc .ENTITY_REF (entityText asc (C12.text enc n)) := entity_markup i2
    have hp : predefinedEntityName x.e (C12.text enc n) = 0 := not_predefined K.sup i2 i3
    rw [← hc] at j1
    have hno : converted x (C12.text enc n) ∉ opened := by
      intro hm
      rw [run_markup_err K.sup hs.mode m hdw (E := []) (err := .RECURSIVE_ENTITY_REF)] at h
      · cases h
      · cases k <;> simp [sem, semOf, act, actEntityRef, refName_text K.sup, hp, j1, j4, hm]
    have hlt := C34.avail_lt j1 hno
    obtain ⟨k, rfl⟩ : ∃ k', k = k' + 1 := ⟨k - 1, by omega⟩
    have hact : (sem c D (internalUtf8X ns) (k + 1) x opened start).act s .ENTITY_REF (entityText asc (C12.text enc n)) =
        Ran.toAct (run (sem c D (internalUtf8X ns) k (internalUtf8X ns) (converted x (C12.text enc n) :: opened) s.level)
          (internalUtf8X ns).e false false s tb) := by
      simp only [sem, semOf, act, actEntityRef, refName_text K.sup, hp, ne_eq, not_true_eq_false, if_false, j1, j4,
        Bool.not_true, Bool.and_false, Bool.false_eq_true, hno, j3, Option.isSome_none, j2, a.expandInternal]
    have hex : ∃ j c1, Ex d j t1 c1 ∧ Content c D (internalUtf8X ns) asc1 (internalUtf8X ns) asc1
        (converted x (C12.text enc n) :: opened) v tb (textEvs (utf8s c1)) [] := by
      cases hq : run (sem c D (internalUtf8X ns) k (internalUtf8X ns) (converted x (C12.text enc n) :: opened) s.level)
          (internalUtf8X ns).e false false s tb with
      | mk E' o =>
        rw [hq] at hact
        cases o with
        | err e =>
          rw [run_markup_err K.sup hs.mode m hdw hact] at h
          cases h
        | ok s3 r3 =>
          have := ihk k (Nat.lt_succ_self k) (r := []) (opened := converted x (C12.text enc n) :: opened) (start := s.level) (v := v) (s := s) (Coding.internal ns) j5 (.inl rfl) (by omega)
            ⟨hs.mode, hs.env, hs.flags, hs.level, Nat.le_refl _⟩ (Nat.dvd_zero _) (hcl n t1 h1) (by rw [List.append_nil]; exact hq)
          simpa using this
    obtain ⟨j, c1, e1, e2⟩ := hex
    have hent : ∀ {E : List Ev} {q r' : Buf}, Content c D (internalUtf8X ns) asc1 x asc opened v q E r' →
        Content c D (internalUtf8X ns) asc1 x asc opened v (entityText asc (C12.text enc n) ++ q) (textEvs (utf8s c1) ++ E) r' :=
      fun hc' => .entity (name := n.map enc) i2 i3 j1 j2 j3 (fun _ => j4) hno e2 hc'
    obtain ⟨F', h7⟩ := rest (hent (.nil _)) hdw h
    obtain ⟨j', cs, i1, i2⟩ := ih (fun m hm => ht m (List.mem_cons_of_mem _ hm)) h7
    exact ⟨_, _, .ref h1 e1 i1, by rw [C51.utf8s_append, textEvs_app]; exact hent i2⟩

/-! ### Theorems -/

/-- **C35, content.**  In content, at any point of a document in any of the encodings, cut into pieces in any
way: text with references is accepted exactly if the references can be replaced by their replacement texts
until none are left, and what is delivered then is the text so obtained, in UTF-8.  After it the parse goes on
as if the text had not been there. -/
theorem content_substitution (K : Coding x asc enc ok) (a : AllSet c) (hD : Declared lit D ns d) {t : List Sym} (hc : Closed d t)
    {s : CState} (hs : In 0 s.env s) {b r : Buf} (hw : Writes lit x asc enc ok t b) (hr : Ends asc r) (hdr : x.e.mb ∣ r.length)
    (xs : List Buf) (hx : xs.flatten = b ++ r) (G : List Ev) (s2 : CState) (r2 : Buf) :
    (∃ F, feed (parser c D (internalUtf8X ns) x) x.e s [] xs = (F, .ok s2 r2) ∧ flat F = G) ↔
    ∃ cs F', Steps d t (chars cs) ∧ feed (parser c D (internalUtf8X ns) x) x.e s [] [r] = (F', .ok s2 r2) ∧
      G = textEvs (utf8s cs) ++ flat F' := by
  have I : XSupported (internalUtf8X ns) asc1 := .internalUtf8 ns
  have hd : x.e.mb ∣ (b ++ r).length := by rw [List.length_append]; exact Nat.dvd_add (hw.dvd K) hdr
  have key : ∀ {cs}, Content c D (internalUtf8X ns) asc1 x asc [] s.env (b ++ r) (textEvs (utf8s cs)) r →
      After (textEvs (utf8s cs)) (feed (parser c D (internalUtf8X ns) x) x.e s [] [r])
        (feed (parser c D (internalUtf8X ns) x) x.e s [] [b ++ r]) := by
    intro cs h
    rw [C08.feed_one K.sup hs.mode, C08.feed_one K.sup hs.mode]
    exact (content_run a I rfl h K.sup (C34.avail_le D []) hs hd).2
  constructor
  · rintro ⟨F, h, rfl⟩
    obtain ⟨F1, h2, h3⟩ := parser_chunks_ok K.sup c D _ s xs [b ++ r] (by simpa using hx) (hx ▸ hd) h
    have h4 := h2
    rw [C08.feed_one K.sup hs.mode] at h4
    obtain ⟨j, cs, i1, i2⟩ := parsed_ex a hD hc.2 D.fuel K hw hr (C34.avail_le D []) hs hdr hc.1 h4
    have h5 := key i2
    rw [h2] at h5
    obtain ⟨F', h6, h7⟩ := h5.ok
    exact ⟨cs, F', i1.steps, h6, by rw [← h3, h7]⟩
  · rintro ⟨cs, F', h1, h2, rfl⟩
    obtain ⟨k, h1⟩ := steps_iff.1 h1
    have h5 := key (ex_content hD h1 K hw hr (by simp))
    rw [h2] at h5
    cases hq : feed (parser c D (internalUtf8X ns) x) x.e s [] [b ++ r] with
    | mk F o =>
      rw [hq] at h5
      have h6 := h5.1
      simp only at h6
      subst h6
      obtain ⟨F3, k1, k2⟩ := parser_chunks_ok K.sup c D _ s [b ++ r] xs (by simpa using hx.symm) (by simpa using hd) hq
      exact ⟨F3, k1, by rw [k2]; exact h5.2 _ _ rfl⟩

/-- The text is a literal with the expanded text as its value, if white space other than spaces is written as
character references. -/
theorem ex_norm (hlit : ∀ c, lit c → c ≠ 0x09 ∧ c ≠ 0x0A) (hD : Declared lit D ns d) {check : Bool} {k : Nat} {t : List Sym} {cs : List Nat} (h : Ex d k t cs) :
    ∀ {le : Bool} {x : XEnc} {asc : UInt8 → Buf} {enc : Nat → Buf} {ok : Nat → Prop} {b : Buf} {opened : List Buf}, Coding x asc enc ok →
    Writes lit x asc enc ok t b →
    (∀ o ∈ opened, ∃ m u k' ds, o = utf8s m ∧ (∀ c ∈ m, XmlChar c) ∧ d m = some u ∧ Ex d k' u ds ∧ k ≤ k') →
    C33.Norm D check (internalUtf8X ns) x asc le opened b (utf8s cs) := by
  induction h with
  | nil => intro le x asc enc ok b opened K hw ho; cases hw; exact .nil
  | @ch k t cs ch _ ih =>
    intro le x asc enc ok b opened K hw ho
    rw [C51.utf8s_cons]
    generalize hq : Sym.ch ch = q at hw
    cases hw with
    | char h1 hl h2 h3 h4 h5 h6 =>
      cases hq
      have hl := hlit _ hl
      by_cases hsp : ch = 0x20
      · subst hsp
        have e1 : enc 0x20 = asc 0x20 := K.ascii 0x20 (by decide)
        have e2 : utf8 0x20 = [0x20] := by decide
        rw [e1, e2]
        exact .space 0x20 (.inl rfl) (by simp) (ih K h6 ho)
      · rw [← K.conv1 h1]
        refine .char _ (K.char h1) (K.ne_asc h1 (by decide) (by decide) h2) (K.ne_asc h1 (by decide) (by decide) h3) ?_ (ih K h6 ho)
        rintro c (rfl | rfl | rfl | rfl)
        · exact K.ne_asc h1 (by decide) (by decide) hsp
        · exact K.ne_asc h1 (by decide) (by decide) hl.1
        · exact K.ne_asc h1 (by decide) (by decide) hl.2
        · exact K.ne_asc h1 (by decide) (by decide) h4
    | charRef h1 h2 h3 =>
      cases hq
      cases h1 with
      | dec ds i1 i2 => simp only [List.append_assoc]; exact .dec ds i1 i2 h2 (ih K h3 ho)
      | hex ds i1 i2 => simp only [List.append_assoc]; exact .hex ds i1 i2 h2 (ih K h3 ho)
    | @predefined n ch _ _ h1 h3 =>
      cases hq
      rw [utf8_asc _ (predefined_lt h1), entityText]
      simp only [List.append_assoc]
      exact .predefined n ch h1 (ih K h3 ho)
    | ref => cases hq
  | @ref k k1 t t1 cs c1 n h1 hx _ ih1 ih =>
    intro le x asc enc ok b opened K hw ho
    generalize hq : Sym.ref n = q at hw
    cases hw with
    | char => cases hq
    | charRef => cases hq
    | predefined => cases hq
    | ref i1 i2 i3 i4 =>
      cases hq
      obtain ⟨ent, tb, j1, j2, j3, j4, j5⟩ := hD n t1 h1
      have hc := K.conv i1
      rw [C51.utf8s_append, entityText]
      simp only [List.append_assoc]
      have hno : converted x (C12.text enc n) ∉ opened := by
        rw [hc]
        intro hm
        obtain ⟨m, u, k', ds, o1, o2, o3, o4, o5⟩ := ho _ hm
        have := utf8s_inj (fun c hc => K.xml (i1 c hc)) o2 o1
        subst this
        rw [h1] at o3
        cases o3
        have := (hx.unique o4).1
        omega
      refine .entity (n.map enc) ent tb (utf8s c1) i2 ?_ (by rw [← j1, ← hc]; rfl) (fun _ => j4) hno j3 j2 ?_ (ih K i4 fun o hm => ?_)
      · exact fun m c hm he => i3 ⟨m, c, hm, he⟩
      · refine ih1 (opened := converted x (C12.text enc n) :: opened) (Coding.internal ns) j5 ?_
        intro o hm
        simp only [List.mem_cons] at hm
        rcases hm with rfl | hm
        · exact ⟨n, t1, k1, c1, hc, fun c hc => K.xml (i1 c hc), h1, hx, Nat.le_refl _⟩
        · obtain ⟨m, u, k', ds, o1, o2, o3, o4, o5⟩ := ho _ hm
          exact ⟨m, u, k', ds, o1, o2, o3, o4, by omega⟩
      · obtain ⟨m, u, k', ds, o1, o2, o3, o4, o5⟩ := ho _ hm
        exact ⟨m, u, k', ds, o1, o2, o3, o4, by omega⟩

/-- **C35, attribute values.**  A literal whose references can be replaced until none are left has the text so
obtained as its value (for attributes of type CDATA; otherwise spaces are collapsed as always).  White space
characters other than spaces are assumed to be written as character references, since they stand for spaces
when written literally (C33). -/
theorem value_substitution (K : Coding x asc enc ok) (hlit : ∀ c, lit c → c ≠ 0x09 ∧ c ≠ 0x0A) (hD : Declared lit D ns d)
    (hT : C33.TextsOk D (internalUtf8X ns)) {t : List Sym} {b : Buf} (hw : Writes lit x asc enc ok t b) {cs : List Nat}
    (h : Steps d t (chars cs)) (check isCdata : Bool) :
    storeAttributeValue D check (internalUtf8X ns) x isCdata [] b = .ok (if isCdata then utf8s cs else C33.collapse (utf8s cs)) := by
  obtain ⟨k, h⟩ := steps_iff.1 h
  have hn := ex_norm (check := check) hlit hD h (le := x.e.lineEnds asc) K hw (opened := []) (by simp)
  exact (C33.literal_value K.sup hT isCdata [] (C33.norm_lit hn K.sup.s) _).2 ⟨_, hn, rfl⟩

end
/-! Non-vacuity: `x&e;&f;&#60;` with the declarations `<!ENTITY e "1&f;&f;"> <!ENTITY f "&#38;amp;">` stands
for `x1&&&<`. -/
theorem no_close {b : Buf} (h : b.head? ≠ some 0x5D) : ¬ StartsClose asc1 b := by rintro ⟨r, rfl⟩; exact h rfl

private def e : List Nat := [0x65]
private def f : List Nat := [0x66]
private def defs : Defs := fun n => if n = e then some [.ch 0x31, .ref f, .ref f] else if n = f then some [.ch 0x26] else none
private def dtd : Dtd := { (default : Dtd) with ents := [
  ([0x65], { (default : Entity) with text := some "1&f;&f;".toUTF8.toList, isInternal := true, notation_ := none }),
  ([0x66], { (default : Entity) with text := some "&amp;".toUTF8.toList, isInternal := true, notation_ := none })] }
private def text : List Sym := [.ch 0x78, .ref e, .ref f, .ch 0x3C]
private def bytes : Buf := "x&e;&f;&#60;".toUTF8.toList
private def lit (c : Nat) : Prop := c ≠ 0x09 ∧ c ≠ 0x0A

private theorem np (w : Buf) (h : w ∈ [[0x65], [0x66]]) : ¬ Predefined asc1 w := by
  rintro ⟨n, ch, h1, rfl⟩
  simp only [C10.predefined, List.mem_cons, Prod.mk.injEq, List.not_mem_nil, or_false] at h1
  rcases h1 with ⟨rfl, -⟩ | ⟨rfl, -⟩ | ⟨rfl, -⟩ | ⟨rfl, -⟩ | ⟨rfl, -⟩ <;> revert h <;> decide

private theorem writes_ref {x : XEnc} (hx : x = utf8X false ∨ x = internalUtf8X false) {n : List Nat} (hn : n = e ∨ n = f) {t : List Sym} {b : Buf}
    (h : Writes lit x asc1 utf8 XmlChar t b) : Writes lit x asc1 utf8 XmlChar (.ref n :: t) (entityText asc1 (C12.text utf8 n) ++ b) := by
  refine .ref ?_ ?_ ?_ h
  · rcases hn with rfl | rfl <;> decide
  · rcases hn with rfl | rfl <;> rcases hx with rfl | rfl <;> exact ⟨_, _, rfl, by decide +kernel, by simp⟩
  · rcases hn with rfl | rfl <;> exact np _ (by decide)

private theorem of_eq {x : XEnc} {t : List Sym} {b b' : Buf} (h : Writes lit x asc1 utf8 XmlChar t b) (e : b = b') :
    Writes lit x asc1 utf8 XmlChar t b' := e ▸ h

private theorem declared : Declared lit dtd false defs := by
  intro n t h
  simp only [defs] at h
  split at h
  · rename_i hn; subst hn; cases h
    refine ⟨_, "1&f;&f;".toUTF8.toList, rfl, rfl, rfl, rfl, ?_⟩
    exact of_eq (.char (c := 0x31) (by decide) ⟨by decide, by decide⟩ (by decide) (by decide) (by decide) (no_close (by decide))
      (writes_ref (.inr rfl) (.inr rfl) (writes_ref (.inr rfl) (.inr rfl) .nil))) (by decide +kernel)
  · split at h
    · rename_i hn; subst hn; cases h
      refine ⟨_, "&amp;".toUTF8.toList, rfl, rfl, rfl, rfl, ?_⟩
      exact of_eq (.predefined (n := [0x61, 0x6D, 0x70]) (d := 0x26) (by decide) .nil) (by decide +kernel)
    · cases h

private theorem writes : Writes lit (utf8X false) asc1 utf8 XmlChar text bytes :=
  of_eq (.char (c := 0x78) (by decide) ⟨by decide, by decide⟩ (by decide) (by decide) (by decide) (no_close (by decide))
    (writes_ref (.inl rfl) (.inl rfl) (writes_ref (.inl rfl) (.inr rfl)
      (.charRef (w := asc1 0x26 ++ (asc1 0x23 ++ (spell asc1 [0x36, 0x30] ++ asc1 0x3B))) (.dec [0x36, 0x30] (by decide) (by decide)) (by decide) .nil)))) (by decide +kernel)

private theorem closed : Closed defs text := by
  have he : (defs e).isSome = true := rfl
  have hf : (defs f).isSome = true := rfl
  refine ⟨fun m hm => ?_, fun n u h m hm => ?_⟩
  · simp only [text, List.mem_cons, Sym.ref.injEq, List.not_mem_nil, or_false, reduceCtorEq, false_or] at hm
    rcases hm with rfl | rfl <;> assumption
  · simp only [defs] at h
    split at h
    · cases h
      simp only [List.mem_cons, Sym.ref.injEq, List.not_mem_nil, or_false, reduceCtorEq, false_or, or_self] at hm
      subst hm; exact hf
    · split at h
      · cases h; simp at hm
      · cases h

private def st : CState := { CState.init with tags := [⟨[0x61], ⟨[0x61], none⟩, []⟩], level := 1, mode := .content }

private theorem steps : Steps defs text (chars [0x78, 0x31, 0x26, 0x26, 0x26, 0x3C]) := by
  refine steps_iff.2 ⟨_, .ch _ (.ref (c1 := [0x31, 0x26, 0x26]) (cs := [0x26, 0x3C]) rfl (.ch _ (.ref (c1 := [0x26]) rfl (.ch _ .nil)
    (.ref (c1 := [0x26]) rfl (.ch _ .nil) .nil))) (.ref (c1 := [0x26]) rfl (.ch _ .nil) (.ch _ .nil)))⟩

example : ∃ F s2 r2, feed (parser {} dtd (internalUtf8X false) (utf8X false)) (utf8Enc false) st [] [bytes ++ "</a>".toUTF8.toList] = (F, .ok s2 r2) ∧
    flat F = textEvs "x1&&&<".toUTF8.toList ++ [.endElement [0x61]] := by
  obtain ⟨F', s2, r2, h1, h2⟩ := C55.ok_of_code (r := feed (parser {} dtd (internalUtf8X false) (utf8X false)) (utf8Enc false) st []
    ["</a>".toUTF8.toList]) (F := [.endElement [0x61]]) (by decide +kernel) (by decide +kernel)
  have := (content_substitution (Coding.utf8 false) C55.allSet_default declared closed (s := st) ⟨rfl, rfl, rfl, by decide, by decide⟩
    writes (r := "</a>".toUTF8.toList) (.inr ⟨[0x2F, 0x61, 0x3E], by decide +kernel⟩) (Nat.one_dvd _) [bytes ++ "</a>".toUTF8.toList] (by simp)
    (textEvs (utf8s [0x78, 0x31, 0x26, 0x26, 0x26, 0x3C]) ++ flat F') s2 r2).2 ⟨_, F', steps, h1, rfl⟩
  obtain ⟨F, i1, i2⟩ := this
  refine ⟨F, s2, r2, i1, ?_⟩
  rw [i2, h2]
  decide +kernel

private theorem texts : C33.TextsOk dtd (internalUtf8X false) := by
  intro n ent t h1 h2
  have ht : t = "1&f;&f;".toUTF8.toList ∨ t = "&amp;".toUTF8.toList := by
    simp only [Dtd.entity, dtd, List.find?_cons, List.find?_nil] at h1
    split at h1
    · cases h1; cases h2; exact .inl rfl
    · split at h1 <;> cases h1
      cases h2; exact .inr rfl
  rcases ht with rfl | rfl <;>
    exact C33.ascii_lit (fun c h1 h2 => (internalUtf8Enc_isChar false _).2 ⟨_, h1, C33.utf8_one h2⟩) _ _ (by decide +kernel)

example : storeAttributeValue dtd true (internalUtf8X false) (utf8X false) true [] bytes = .ok "x1&&&<".toUTF8.toList := by
  have := value_substitution (Coding.utf8 false) (fun _ h => h) declared texts writes steps true true
  rw [this, if_pos rfl]; exact congrArg Except.ok (by decide +kernel)

end Verif.C35
