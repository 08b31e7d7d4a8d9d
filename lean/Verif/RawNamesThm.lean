import Verif.RawNames
import Verif.Props.C31

/-! The parser that keeps pointers to names behaves as the one that keeps copies. -/

set_option autoImplicit false

namespace Verif.Raw
open Verif C43

/-! ### What a token does to the stack of tags -/

/-- The level counts the open tags above `base`, and is never below `start`. -/
structure Level (base start : Nat) (s : CState) : Prop where
  level : s.level = base + s.tags.length
  above : start ≤ s.level
  epilog : s.mode = .epilog → s.level = 0

/-- The lowest `n` of a stack. -/
def bottom {α : Type} (n : Nat) (l : List α) : List α := l.drop (l.length - n)

def R (base start : Nat) (s : CState) (_ : List Ev) (s' : CState) : Prop :=
  base ≤ start → Level base start s → Level base start s' ∧ bottom (start - base) s'.tags = bottom (start - base) s.tags

theorem bottom_cons {α : Type} {n : Nat} {a : α} {l : List α} (h : n ≤ l.length) : bottom n (a :: l) = bottom n l := by
  unfold bottom
  rw [List.length_cons, show l.length + 1 - n = (l.length - n) + 1 by omega, List.drop_succ_cons]

theorem bottom_all {α : Type} {n : Nat} {l : List α} (h : n = l.length) : bottom n l = l := by
  unfold bottom; rw [h]; simp

/-- The tags left by a nested run are those it began with. -/
theorem nested {base : Nat} {s s' : CState} {E : List Ev} (h : R base s.level s E s')
    (hf : s'.mode = .epilog ∨ s.level ≠ 0 ∧ s'.level = s.level) {start : Nat} (hi : Level base start s) :
    s'.tags = s.tags ∧ Level base s.level s' := by
  have h1 := hi.1
  obtain ⟨a, b⟩ := h (by omega) ⟨hi.1, Nat.le_refl _, hi.3⟩
  have hl : s'.level = s.level := by
    rcases hf with hf | ⟨_, hf⟩
    · have := a.3 hf; have := a.2; omega
    · exact hf
  have h2 := a.1
  rw [bottom_all (by omega), bottom_all (by omega)] at b
  exact ⟨b, a⟩

/-- What an action does to the stack. -/
inductive TagStep (c : Cfg) (x : XEnc) (s s' : CState) (t : Tok) (w : Buf) : Prop where
  | same (ht : t ≠ .START_TAG_NO_ATTS ∧ t ≠ .START_TAG_WITH_ATTS ∧ t ≠ .END_TAG) (h : s'.tags = s.tags)
  | push (tag : Tag) (ht : t = .START_TAG_NO_ATTS ∨ t = .START_TAG_WITH_ATTS) (h : s'.tags = tag :: s.tags)
      (hr : tag.rawName = rawName x x.e.mb w) (env : Env)
      (hn : elemName c env (converted x (rawName x x.e.mb w)) = .ok tag.name)
  | pop (tag : Tag) (ht : t = .END_TAG) (h : s.tags = tag :: s'.tags)

theorem act_tags {c : Cfg} {D : Dtd} {int x : XEnc} {opened start expand s t w E s'} {base : Nat}
    (hex : ∀ n u s E s', expand n u s = (E, .ok s') →
      R base s.level s E s' ∧ (s'.mode = .epilog ∨ s.level ≠ 0 ∧ s'.level = s.level))
    (hm : s.mode.verdict t = .act) (ha : act c D int x opened start expand s t w = (E, .ok s'))
    (hi : Level base start s) : Level base start s' ∧ TagStep c x s s' t w := by
  have h0 := ha
  cases act_ok ha with
  | plain h hmode _ =>
    refine ⟨⟨hi.1, hi.2, ?_⟩, .same ?_ rfl⟩
    · rcases hmode with rfl | ⟨rfl, _⟩ | ⟨rfl, _⟩
      · exact hi.3
      · intro h; simp at h
      · intro h; simp at h
    · refine ⟨?_, ?_, ?_⟩
      · rintro rfl
        simp only [act, actStart] at h0
        split at h0
        · cases h0
        · injection h0 with _ h0; injection h0 with h0; have := congrArg (fun s => s.tags.length) h0
          simp at this
      · rintro rfl
        simp only [act, actStart] at h0
        split at h0
        · cases h0
        · injection h0 with _ h0; injection h0 with h0; have := congrArg (fun s => s.tags.length) h0
          simp at this
      · rintro rfl
        simp only [act, actEnd] at h0
        split at h0
        · cases h0
        · split at h0
          · cases h0
          · split at h0
            · cases h0
            · rename_i htags _
              injection h0 with _ h0; injection h0 with h0; have := congrArg (fun s => s.tags.length) h0
              simp [htags] at this
  | expand ht _ _ _ _ _ _ _ h =>
    obtain ⟨a, b⟩ := hex _ _ _ _ _ h
    obtain ⟨a, b⟩ := nested a b hi
    exact ⟨⟨b.1, Nat.le_trans hi.2 b.2, b.3⟩, .same (by subst ht; simp) a⟩
  | @start E r ht h =>
    refine ⟨⟨?_, ?_, ?_⟩, ?_⟩
    · have := hi.1; simp only [List.length_cons]; omega
    · have := hi.2; simp only; omega
    · intro hmo
      have hmo : s.mode = .epilog := hmo
      rw [hmo] at hm
      rcases ht with rfl | rfl <;> simp [Mode.verdict] at hm
    · obtain ⟨_, _, _, s2, _, _, _, _, hn, _⟩ := C31.storeAtts_ok h
      exact .push _ ht rfl rfl s2.env hn
  | @empty E r ht h =>
    refine ⟨⟨hi.1, hi.2, ?_⟩, .same (by rcases ht with rfl | rfl <;> simp) rfl⟩
    simp only
    split
    · rename_i h0; exact fun _ => h0
    · exact hi.3
  | @end_ tag tags ht hl htags hn =>
    have h1 := hi.1
    have h2 := hi.2
    rw [htags, List.length_cons] at h1
    refine ⟨⟨?_, ?_, ?_⟩, .pop tag ht htags⟩
    · simp only; omega
    · simp only; omega
    · simp only
      split
      · rename_i h0; exact fun _ => h0
      · intro h; have := hi.3 h; omega

theorem compositional (c : Cfg) (D : Dtd) (int : XEnc) (base : Nat) :
    Compositional c D int (R base) (fun _ _ _ _ => True) where
  refl start s := fun _ hi => ⟨hi, rfl⟩
  trans h h' := fun hb hi => by
    obtain ⟨a, b⟩ := h hb hi
    obtain ⟨a', b'⟩ := h' hb a
    exact ⟨a', b'.trans b⟩
  stop _ _ _ _ := trivial
  err _ _ := trivial
  act_ok := by
    intro x opened start expand s t w E s' hex hm ha hb hi
    obtain ⟨a, b⟩ := act_tags hex hm ha hi
    refine ⟨a, ?_⟩
    have h1 := hi.1
    have h2 := hi.2
    have h3 := a.1
    have h4 := a.2
    cases b with
    | same _ h => rw [h]
    | push tag _ h => rw [h, bottom_cons (by omega)]
    | pop tag _ h => rw [h, bottom_cons (by omega)]
  act_err := fun _ _ _ => trivial

theorem sem_mode' (c : Cfg) (D : Dtd) (int : XEnc) (k : Nat) (x opened start) (s : CState) :
    (sem c D int k x opened start).mode s = s.mode := by cases k <;> rfl

/-- An action of the parser, entities included. -/
theorem sem_tags {c : Cfg} {D : Dtd} {int x : XEnc} {k : Nat} {opened start s t w E s'} {base : Nat}
    (hm : s.mode.verdict t = .act) (ha : (sem c D int k x opened start).act s t w = (E, .ok s'))
    (hi : Level base start s) : Level base start s' ∧ TagStep c x s s' t w := by
  cases k with
  | zero =>
    refine act_tags (fun n u s E s' h => ?_) hm ha hi
    cases h
  | succ k =>
    refine act_tags (fun n u s E s' h => ?_) hm ha hi
    simp only [Ran.toAct] at h
    split at h
    · rename_i F s2 r hr
      cases h
      refine ⟨sem_holds (compositional c D int base) (fun _ _ => trivial) k _ _ _ _ _ _ _ _ _ _ hr, ?_⟩
      obtain ⟨ex, he⟩ := sem_semOf c D int k int (n :: opened) s.level
      rw [he] at hr
      have := run_final hr
      grind
    · cases h

/-! ### The tags and what their pointers show -/

/-- A tag as the code leaves it: the buffer holds the name and a NUL, then (once stored) the raw name; the
pointers point to this buffer. -/
structure Ok (mem : Buf) (p : PTag) : Prop where
  name : ∃ n g, p.buf = n ++ 0 :: g ∧ n.length = p.strLen
  stored : p.inInput = none → p.strLen + 1 + p.rawLen ≤ p.buf.length
  input : ∀ i, p.inInput = some i → i + p.rawLen ≤ mem.length ∨ p.rawLen = 0
  str : p.str = none ∨ p.str = some p.base
  loc : ∀ a o, p.loc = some (a, o) → a = p.base

/-- The tags still pointing to the input lie above those which do not. -/
def Stacked : List PTag → Prop
  | [] => True
  | t :: ts => (t.inInput = none → ∀ p ∈ ts, p.inInput = none) ∧ Stacked ts

theorem raw_length {mem : Buf} {p : PTag} (h : Ok mem p) : (p.raw mem).length = p.rawLen := by
  unfold PTag.raw
  cases hi : p.inInput with
  | none => have := h.stored hi; simp; omega
  | some i => have := h.input i hi; simp; omega

theorem poke_take {b v : Buf} {i j : Nat} (hj : j ≤ i) (hi : i ≤ b.length) : (poke b i v).take j = b.take j := by
  unfold poke
  rw [List.append_assoc, List.take_append_of_le_length (by simp; omega), List.take_take, Nat.min_eq_left hj]

theorem poke_get {b v : Buf} {i : Nat} (hi : i ≤ b.length) : ((poke b i v).drop i).take v.length = v := by
  unfold poke
  rw [List.append_assoc, List.drop_append_of_le_length (by simp; omega)]
  simp

theorem poke_length {b v : Buf} {i : Nat} (h : i + v.length ≤ b.length) : (poke b i v).length = b.length := by
  unfold poke; simp; omega

theorem named_take {b n g : Buf} {k : Nat} (h : b = n ++ 0 :: g) (hk : n.length = k) : b.take (k + 1) = n ++ [0] := by
  subst h hk
  rw [List.take_append, List.take_of_length_le (by omega), show n.length + 1 - n.length = 1 by omega]
  rfl

/-- A buffer that begins with the name and a NUL. -/
theorem named_of_take {b n : Buf} {k : Nat} (h : b.take (k + 1) = n ++ [0]) : ∃ g, b = n ++ 0 :: g := by
  refine ⟨b.drop (k + 1), ?_⟩
  have := List.take_append_drop (k + 1) b
  rw [h] at this
  simpa using this.symm

/-- Storing a name: the tag shows the same strings, now whatever becomes of the input. -/
theorem store_ok (A : Alloc) {mem : Buf} {p : PTag} (h : Ok mem p) (mem' : Buf) :
    Ok mem' (store A mem p) ∧ (store A mem p).inInput = none ∧ (store A mem p).raw mem' = p.raw mem ∧
      (store A mem p).name = p.name ∧ (store A mem p).local = p.local := by
  obtain ⟨n, g, hb, hn⟩ := h.name
  have hr := raw_length h
  have hlen : p.strLen + 1 ≤ p.buf.length := by rw [hb]; simp; omega
  have ht := named_take hb hn
  generalize hq : (if p.buf.length < p.strLen + 1 + p.rawLen then
      { p with
        buf := p.buf ++ List.replicate (p.strLen + 1 + p.rawLen - p.buf.length) A.fresh
        base := p.base + 1
        str := if p.str = some p.base then some (p.base + 1) else p.str
        loc := p.loc.map fun (_, o) => (p.base + 1, o) }
    else p) = q
  have hs : store A mem p = { q with buf := poke q.buf (p.strLen + 1) (p.raw mem), inInput := none } := by
    rw [← hq]; rfl
  have hq1 : q.strLen = p.strLen ∧ q.rawLen = p.rawLen ∧ q.buf.take (p.strLen + 1) = n ++ [0] ∧
      p.strLen + 1 + p.rawLen ≤ q.buf.length ∧ (q.str = none ∨ q.str = some q.base) ∧
      (∀ a o, q.loc = some (a, o) → a = q.base) ∧ (q.str = none ↔ p.str = none) ∧
      q.loc.map (·.2) = p.loc.map (·.2) := by
    rw [← hq]
    have h4 := h.str
    have h5 := h.loc
    split
    · refine ⟨rfl, rfl, ?_, by simp; omega, ?_, ?_, ?_, ?_⟩
      · rw [List.take_append_of_le_length hlen]; exact ht
      · rcases h4 with h4 | h4 <;> simp [h4]
      · intro a o ho
        simp only [Option.map_eq_some_iff] at ho
        obtain ⟨⟨a', o'⟩, _, ho⟩ := ho
        injection ho with ho _
        exact ho.symm
      · rcases h4 with h4 | h4 <;> simp [h4]
      · simp only [Option.map_map]
        rfl
    · exact ⟨rfl, rfl, ht, by omega, h4, h5, Iff.rfl, rfl⟩
  clear hq
  obtain ⟨h1, h2, h3, h4, h5, h6, h7, h8⟩ := hq1
  have htk : ∀ (b : Buf), b.take (p.strLen + 1) = n ++ [0] → b.take p.strLen = n := by
    intro b hb
    have := congrArg (List.take p.strLen) hb
    rw [List.take_take, Nat.min_eq_left (by omega), ← hn] at this
    rw [← hn]; simpa using this
  have hpk : (poke q.buf (p.strLen + 1) (p.raw mem)).take (p.strLen + 1) = n ++ [0] := by
    rw [poke_take (Nat.le_refl _) (by omega)]; exact h3
  obtain ⟨g', hg'⟩ := named_of_take hpk
  rw [hs]
  refine ⟨⟨⟨n, g', hg', by rw [hn]; exact h1.symm⟩, ?_, ?_, h5, h6⟩, rfl, ?_, ?_, ?_⟩
  · intro _
    simp only
    rw [poke_length (by omega)]; omega
  · intro i hi; simp at hi
  · have := poke_get (b := q.buf) (v := p.raw mem) (i := p.strLen + 1) (by omega)
    rw [hr] at this
    simp only [PTag.raw.eq_def mem', h1, h2]
    exact this
  · simp only [PTag.name, h1]
    rw [htk _ hpk, htk _ ht]
    rcases h.str with hp | hp
    · rw [h7.2 hp, hp]
    · rcases h5 with h5 | h5
      · rw [h7.1 h5] at hp; cases hp
      · rw [h5, hp]; simp
  · simp only [PTag.local, h1]
    rw [htk _ hpk, htk _ ht]
    cases hl : p.loc with
    | none => rw [hl] at h8; simp at h8; rw [h8]
    | some y =>
      obtain ⟨a, o⟩ := y
      have ha := h.loc a o hl
      rw [hl] at h8
      simp only [Option.map_some, Option.map_eq_some_iff] at h8
      obtain ⟨⟨a', o'⟩, h8, h9⟩ := h8
      have ha' := h6 _ _ h8
      simp only at h9
      simp only [h8, ha, ha', if_true, h9]

theorem stored_raw {mem mem' : Buf} {p : PTag} (h : p.inInput = none) : p.raw mem' = p.raw mem := by
  unfold PTag.raw; rw [h]

theorem stored_ok {mem mem' : Buf} {p : PTag} (h : Ok mem p) (hi : p.inInput = none) : Ok mem' p :=
  ⟨h.name, h.stored, fun i h' => (by rw [hi] at h'; cases h'), h.str, h.loc⟩

/-- Storing the names: every tag shows the same strings, whatever becomes of the input. -/
theorem storeAll_ok (A : Alloc) {mem : Buf} (mem' : Buf) {ps : List PTag} (h : ∀ p ∈ ps, Ok mem p) (hs : Stacked ps) :
    (∀ p ∈ storeAll A mem ps, Ok mem' p ∧ p.inInput = none) ∧ (storeAll A mem ps).length = ps.length ∧
      ∀ ts : List Tag, List.zipWith (seeTag mem') ts (storeAll A mem ps) = List.zipWith (seeTag mem) ts ps := by
  induction ps with
  | nil => exact ⟨by simp [storeAll], rfl, fun ts => by simp [storeAll]⟩
  | cons p ps ih =>
    rw [storeAll]
    by_cases hi : p.inInput = none
    · rw [if_pos hi]
      have hall : ∀ q ∈ p :: ps, q.inInput = none := by
        intro q hq
        rcases List.mem_cons.1 hq with rfl | hq
        · exact hi
        · exact hs.1 hi q hq
      refine ⟨fun q hq => ⟨stored_ok (h q hq) (hall q hq), hall q hq⟩, rfl, fun ts => ?_⟩
      generalize p :: ps = l at hall
      clear ih h hs
      induction l generalizing ts with
      | nil => simp
      | cons q l ih =>
        cases ts with
        | nil => rfl
        | cons t ts =>
          simp only [List.zipWith_cons_cons]
          rw [ih ts fun r hr => hall r (by simp [hr])]
          simp only [seeTag, stored_raw (mem := mem) (mem' := mem') (hall q (by simp))]
    · rw [if_neg hi]
      obtain ⟨a, b, c⟩ := ih (fun q hq => h q (by simp [hq])) hs.2
      obtain ⟨h1, h2, h3, h4, h5⟩ := store_ok A (h p (by simp)) mem'
      refine ⟨?_, by simp [b], ?_⟩
      · intro q hq
        rcases List.mem_cons.1 hq with rfl | hq
        · exact ⟨h1, h2⟩
        · exact a q hq
      · intro ts
        cases ts with
        | nil => rfl
        | cons t ts =>
          simp only [List.zipWith_cons_cons]
          rw [c ts]
          simp only [seeTag, h3, h4, h5]

/-! ### The parsers side by side -/

/-- The parser that keeps pointers shows the state of the one that keeps copies. -/
structure Sees (mem : Buf) (q : RState) (s : CState) : Prop where
  see : q.see mem = s
  len : q.s.tags.length = q.tags.length
  ok : ∀ p ∈ q.tags, Ok mem p
  stack : Stacked q.tags

theorem suffix_drop {l b : Buf} (h : ∃ a, b = a ++ l) : b.drop (b.length - l.length) = l := by
  obtain ⟨a, rfl⟩ := h
  simp

/-- The local part of a name is the end of it. -/
theorem elemName_ok {c : Cfg} {env : Env} {raw : Buf} {n : TagName} (h : elemName c env raw = .ok n) :
    n.raw = raw ∧ ∀ u l p, n.ns = some (u, l, p) → ∃ a, raw = a ++ l := by
  have sp : ∀ (b p l : Buf), splitColon b = some (p, l) → ∃ a, b = a ++ l := by
    intro b
    induction b with
    | nil => intro p l h; cases h
    | cons a b ih =>
      intro p l h
      rw [splitColon] at h
      split at h
      · cases h; exact ⟨[a], rfl⟩
      · simp only [Option.map_eq_some_iff] at h
        obtain ⟨⟨p', l'⟩, h, h'⟩ := h
        cases h'
        obtain ⟨y, hy⟩ := ih _ _ h
        exact ⟨a :: y, by rw [hy]; rfl⟩
  rw [elemName] at h
  split at h
  · cases h; exact ⟨rfl, fun _ _ _ h => by cases h⟩
  · split at h
    · rename_i hs
      split at h
      · cases h
      · cases h; exact ⟨rfl, fun _ _ _ h => by cases h; exact sp _ _ _ hs⟩
    · split at h
      · cases h; exact ⟨rfl, fun _ _ _ h => by cases h; exact ⟨[], rfl⟩⟩
      · cases h; exact ⟨rfl, fun _ _ _ h => by cases h⟩

/-- A tag just opened shows its names. -/
theorem openTag_sees (A : Alloc) {c : Cfg} {x : XEnc} {env : Env} {mem w : Buf} {pos n : Nat} {tag : Tag} {s' : CState}
    {ts : List Tag} (hw : w = (mem.drop pos).take n) (h : s'.tags = tag :: ts) (hr : tag.rawName = rawName x x.e.mb w)
    (hn : elemName c env (converted x (rawName x x.e.mb w)) = .ok tag.name) :
    Ok mem (openTag A x pos w s') ∧ seeTag mem (blankTag tag) (openTag A x pos w s') = tag := by
  obtain ⟨h1, h2⟩ := elemName_ok hn
  have hpre : ∃ m, w.drop x.e.mb = (mem.drop (pos + x.e.mb)).take m := ⟨n - x.e.mb, by
    rw [hw, List.drop_take, List.drop_drop]⟩
  obtain ⟨m, hm⟩ := hpre
  have hraw : (mem.drop (pos + x.e.mb)).take (rawName x x.e.mb w).length = rawName x x.e.mb w := by
    rw [rawName, hm, List.take_take]
    rw [List.length_take]
    generalize min _ m = i
    rw [← List.take_eq_take_min]
  have hle : pos + x.e.mb + (rawName x x.e.mb w).length ≤ mem.length ∨ (rawName x x.e.mb w).length = 0 := by
    have := congrArg List.length hraw
    simp only [List.length_take, List.length_drop] at this
    omega
  have hns : (s'.tags.head?).bind (fun t => t.name.ns) = tag.name.ns := by rw [h]; rfl
  unfold openTag
  simp only [hns]
  refine ⟨⟨⟨_, _, rfl, rfl⟩, fun h => by simp at h, ?_, ?_, ?_⟩, ?_⟩
  · intro i hi
    simp only [Option.some.injEq] at hi
    subst hi
    exact hle
  · cases tag.name.ns <;> simp
  · intro a o ho
    simp only [Option.map_eq_some_iff] at ho
    obtain ⟨⟨u, l, p⟩, _, ho⟩ := ho
    injection ho with ho _
    exact ho.symm
  · obtain ⟨raw, ⟨name, ns⟩, binds⟩ := tag
    simp only at h1 hr h2
    subst h1 hr
    simp only [seeTag, blankTag, PTag.raw, PTag.name, PTag.local, hraw]
    cases ns with
    | none => simp
    | some y =>
      obtain ⟨u, l, p⟩ := y
      have := suffix_drop (h2 u l p rfl)
      simp [this]

theorem blank_length (s : CState) : (blank s).tags.length = s.tags.length := by simp [blank]

/-- What the pointers show depends on the parts of the tags that are kept. -/
theorem seeTag_blank (mem : Buf) (t u : Tag) (p : PTag) (h : seeTag mem t p = u) : seeTag mem (blankTag u) p = u := by
  subst h
  simp only [seeTag, blankTag, Option.map_map]
  rfl

theorem zip_blank (mem : Buf) : ∀ (ts : List Tag) (ps : List PTag) (us : List Tag), ts.length = ps.length →
    List.zipWith (seeTag mem) ts ps = us → List.zipWith (seeTag mem) (us.map blankTag) ps = us
  | [], [], us, _, h => by subst h; rfl
  | t :: ts, p :: ps, us, hl, h => by
    subst h
    simp only [List.zipWith_cons_cons, List.map_cons]
    rw [seeTag_blank mem t _ p rfl, zip_blank mem ts ps _ (by simpa using hl) rfl]
  | [], _ :: _, _, hl, _ => by simp at hl
  | _ :: _, [], _, hl, _ => by simp at hl

/-- A token. -/
theorem act_sees (A : Alloc) {c : Cfg} {x : XEnc} {mem w : Buf} {q : RState} {s s' : CState} {t : Tok} {n : Nat}
    (h : Sees mem q s) (hw : w = (mem.drop q.pos).take n) (ht : TagStep c x s s' t w) :
    Sees mem ⟨blank s', nextTags A x q t w s', q.pos + w.length⟩ s' := by
  have hsee : List.zipWith (seeTag mem) q.s.tags q.tags = s.tags := congrArg CState.tags h.see
  have hz := zip_blank mem _ _ _ h.len hsee
  have hsl : s.tags.length = q.tags.length := by
    rw [← hsee, List.length_zipWith, h.len, Nat.min_self]
  cases ht with
  | same ht hs =>
    have hn : nextTags A x q t w s' = q.tags := by
      unfold nextTags
      split
      · exact absurd rfl ht.1
      · exact absurd rfl ht.2.1
      · exact absurd rfl ht.2.2
      · rfl
    rw [hn]
    refine ⟨?_, ?_, h.ok, h.stack⟩
    · simp only [RState.see, blank]
      rw [hs, hz, ← hs]
    · rw [blank_length, hs]; exact hsl
  | push tag ht hs hr env hn =>
    obtain ⟨a, b⟩ := openTag_sees A hw hs hr hn
    have hn : nextTags A x q t w s' = openTag A x q.pos w s' :: q.tags := by rcases ht with rfl | rfl <;> rfl
    rw [hn]
    refine ⟨?_, ?_, ?_, ?_⟩
    · simp only [RState.see, blank]
      rw [hs, List.map_cons, List.zipWith_cons_cons, hz, b, ← hs]
    · rw [blank_length, hs]; simp [hsl]
    · intro p hp
      rcases List.mem_cons.1 hp with rfl | hp
      · exact a
      · exact h.ok p hp
    · exact ⟨fun h => by simp [openTag] at h, h.stack⟩
  | pop tag ht hs =>
    have hn : nextTags A x q t w s' = q.tags.tail := by subst ht; rfl
    rw [hn]
    rw [hs] at hz hsl
    have h4 := h.ok
    have h5 := h.stack
    revert hz hsl h4 h5
    generalize q.tags = ps
    intro hsl hz h4 h5
    cases ps with
    | nil => simp at hsl
    | cons p ps =>
      injection hz with hz1 hz2
      refine ⟨?_, ?_, fun r hr => h4 r (by simp at hr; simp [hr]), h5.2⟩
      · show { blank s' with tags := List.zipWith (seeTag mem) (s'.tags.map blankTag) ps } = s'
        rw [hz2]
        rfl
      · rw [blank_length]; simpa using hsl

/-- The outcomes agree. -/
def Agree (mem : Buf) (base start : Nat) (a : Ran RState) (b : Ran CState) : Prop :=
  a.1 = b.1 ∧ match a.2, b.2 with
    | .ok q r, .ok s r' => Sees mem q s ∧ Level base start s ∧ r = r'
    | .err c, .err c' => c = c'
    | _, _ => False

theorem Agree.pre {mem : Buf} {base start : Nat} {a : Ran RState} {b : Ran CState} (E : List Ev)
    (h : Agree mem base start a b) : Agree mem base start (Verif.pre E a) (Verif.pre E b) := by
  unfold Agree Verif.pre at *
  exact ⟨by rw [h.1], h.2⟩

/-- A run. -/
theorem run_sees (A : Alloc) {c : Cfg} {D : Dtd} {int x : XEnc} {k : Nat} {opened : List Buf} {base start : Nat} (e : Enc)
    (mem : Buf) (more : Bool) (N : Nat) : ∀ (b : Buf), b.length = N → ∀ v q s, Sees mem q s → Level base start s →
    b = mem.drop q.pos →
    Agree mem base start (run (ptrSem A (sem c D int k x opened start) x mem) e more v q b)
      (run (sem c D int k x opened start) e more v s b) := by
  generalize hM : sem c D int k x opened start = M
  have hmode : ∀ s, M.mode s = s.mode := fun s => by rw [← hM]; exact sem_mode' ..
  have hstop : ∀ s, M.stop s = .go := fun s => by rw [← hM]; cases k <;> rfl
  induction N using Nat.strongRecOn with
  | _ N ih =>
    intro b hb v q s hq hi hpos
    have hactErr : ∀ t w E c, M.act s t w = (E, .error c) → (ptrSem A M x mem).act q t w = (E, .error c) := by
      intro t w E c h
      simp only [ptrSem, hq.see, h]
    have hactOk : ∀ t w n E s', s.mode.verdict t = .act → w = b.take n → M.act s t w = (E, .ok s') →
        ∃ q', (ptrSem A M x mem).act q t w = (E, .ok q') ∧ Sees mem q' s' ∧ Level base start s' ∧
          q'.pos = q.pos + w.length := by
      intro t w n E s' hv hw h
      obtain ⟨a, ht⟩ := sem_tags (c := c) (D := D) (int := int) (k := k) (x := x) (opened := opened) hv (by rw [hM]; exact h) hi
      refine ⟨_, ?_, act_sees A hq (by rw [hw, hpos]) ht, a, rfl⟩
      simp only [ptrSem, hq.see, h]
    have hfin : ∀ q' s' r, Sees mem q' s' → Level base start s' → ∀ E,
        Agree mem base start (E, finish (ptrSem A M x mem) q' r) (E, finish M s' r) := by
      intro q' s' r h hl E
      unfold finish
      simp only [ptrSem, h.see]
      cases M.fin s' with
      | none => exact ⟨rfl, h, hl, rfl⟩
      | some c => exact ⟨rfl, rfl⟩
    rw [run.eq_def, run.eq_def M]
    have hm' : (ptrSem A M x mem).mode q = s.mode := by simp only [ptrSem, hq.see, hmode]
    simp only [hm', hmode]
    cases hv : s.mode.verdict (s.mode.tok e b).tok with
    | wait c =>
      cases more
      · exact ⟨rfl, rfl⟩
      · exact ⟨rfl, hq, hi, rfl⟩
    | stop => exact ⟨rfl, hq, hi, rfl⟩
    | fail c => exact ⟨rfl, rfl⟩
    | done =>
      cases more
      · exact hfin q s b hq hi []
      · exact ⟨rfl, hq, hi, rfl⟩
    | last t =>
      cases more
      · simp only [Bool.false_eq_true, if_false]
        have ht := (verdict_last hv).2
        generalize hy : M.act s t b = y
        obtain ⟨E, o⟩ := y
        cases o with
        | error c => rw [hactErr _ _ _ _ hy]; exact ⟨rfl, rfl⟩
        | ok s' =>
          obtain ⟨q', h1, h2, h3, _⟩ := hactOk t b b.length E s' ht (by simp) hy
          rw [h1]
          exact hfin q' s' [] h2 h3 E
      · exact ⟨rfl, hq, hi, rfl⟩
    | actStop =>
      have ht := (verdict_actStop hv).2.1
      simp only
      generalize hy : M.act s .PROLOG_S (b.take (s.mode.tok e b).next) = y
      obtain ⟨E, o⟩ := y
      cases o with
      | error c => rw [hactErr _ _ _ _ hy]; exact ⟨rfl, rfl⟩
      | ok s' =>
        obtain ⟨q', h1, h2, h3, _⟩ := hactOk _ _ _ E s' ht rfl hy
        rw [h1]
        have hs : (ptrSem A M x mem).stop q' = .go := by simp only [ptrSem, hstop]
        simp only [hs, hstop]
        exact ⟨rfl, h2, h3, rfl⟩
    | act =>
      simp only
      generalize hy : M.act s (s.mode.tok e b).tok (b.take (s.mode.tok e b).next) = y
      obtain ⟨E, o⟩ := y
      cases o with
      | error c => rw [hactErr _ _ _ _ hy]; exact ⟨rfl, rfl⟩
      | ok s' =>
        obtain ⟨q', h1, h2, h3, h4⟩ := hactOk _ _ _ E s' hv rfl hy
        rw [h1]
        have hs : (ptrSem A M x mem).stop q' = .go := by simp only [ptrSem, hstop]
        simp only [hs, hstop, or_true, if_true]
        by_cases hl : (b.drop (s.mode.tok e b).next).length < b.length
        · rw [if_pos hl, if_pos hl]
          refine Agree.pre E (ih _ (by omega) _ rfl _ _ _ h2 h3 ?_)
          rw [h4, hpos, List.drop_drop, ← hpos]
          by_cases hn : (s.mode.tok e b).next ≤ b.length
          · rw [List.length_take, Nat.min_eq_left hn]
          · rw [List.length_take, Nat.min_eq_right (by omega), hpos]
            simp only [List.length_drop]
            rw [List.drop_eq_nil_of_le, List.drop_eq_nil_of_le]
            · omega
            · rw [hpos, List.length_drop] at hn; omega
        · rw [if_neg hl, if_neg hl]
          exact ⟨rfl, h2, h3, rfl⟩

/-- After a call the tags show their names whatever the input buffer holds. -/
def Agrees (base start : Nat) (a : Ran RState) (b : Ran CState) : Prop :=
  a.1 = b.1 ∧ match a.2, b.2 with
    | .ok q r, .ok s r' => (∀ mem, Sees mem q s) ∧ Level base start s ∧ r = r' ∧ ∀ p ∈ q.tags, p.inInput = none
    | .err c, .err c' => c = c'
    | _, _ => False

theorem call_sees (A : Alloc) {c : Cfg} {D : Dtd} {int x : XEnc} {k : Nat} {opened : List Buf} {base start : Nat}
    (more : Bool) (before b : Buf) {q : RState} {s : CState} (hq : ∀ mem, Sees mem q s) (hi : Level base start s) :
    Agrees base start
      (ptrCall A (sem c D int k x opened start) x more (before ++ b) { q with pos := before.length } b)
      (call (sem c D int k x opened start) x.e more s b) := by
  have hq0 : Sees (before ++ b) { q with pos := before.length } s :=
    ⟨(hq _).see, (hq []).len, (hq _).ok, (hq []).stack⟩
  have h := run_sees A (c := c) (D := D) (int := int) (x := x) (k := k) (opened := opened) x.e (before ++ b) more _ b rfl
    (s.mode == .cdata) _ _ hq0 hi (by simp)
  unfold ptrCall call
  have hm : (ptrSem A (sem c D int k x opened start) x (before ++ b)).mode { q with pos := before.length } = s.mode := by
    simp only [ptrSem, hq0.see, sem_mode']
  rw [hm, sem_mode']
  revert h
  generalize run (ptrSem A (sem c D int k x opened start) x (before ++ b)) _ _ _ _ _ = a
  generalize run (sem c D int k x opened start) _ _ _ _ _ = a'
  obtain ⟨E, o⟩ := a
  obtain ⟨E', o'⟩ := a'
  rintro ⟨h1, h2⟩
  cases o with
  | err c =>
    cases o' with
    | err c' => exact ⟨h1, h2⟩
    | ok => exact h2.elim
  | ok q' r =>
    cases o' with
    | err c' => exact h2.elim
    | ok s' r' =>
      obtain ⟨h2, h3, h4⟩ := h2
      refine ⟨h1, fun mem => ?_, h3, h4, fun p hp => ((storeAll_ok A [] h2.ok h2.stack).1 p hp).2⟩
      obtain ⟨a, b, c⟩ := storeAll_ok A mem h2.ok h2.stack
      refine ⟨?_, ?_, fun p hp => (a p hp).1, ?_⟩
      · rw [← h2.see]
        simp only [RState.see]
        rw [c]
      · simp only [b]; exact h2.len
      · have : ∀ l : List PTag, (∀ p ∈ l, p.inInput = none) → Stacked l := by
          intro l
          induction l with
          | nil => intro _; trivial
          | cons p l ih => exact fun h => ⟨fun _ r hr => h r (by simp [hr]), ih fun r hr => h r (by simp [hr])⟩
        exact this _ fun p hp => (a p hp).2

theorem feed_sees (A : Alloc) {c : Cfg} {D : Dtd} {int x : XEnc} {k : Nat} {opened : List Buf} {base start : Nat}
    (xs : List Buf) : ∀ (before : Nat → Buf) (rest : Buf) {q : RState} {s : CState}, (∀ mem, Sees mem q s) → Level base start s →
    Agrees base start (ptrFeed A (sem c D int k x opened start) x before q rest xs)
      (feed (sem c D int k x opened start) x.e s rest xs) := by
  induction xs with
  | nil => intro before rest q s hq hi; exact call_sees A false (before 0) rest hq hi
  | cons y ys ih =>
    intro before rest q s hq hi
    cases ys with
    | nil => exact call_sees A false (before 0) (rest ++ y) hq hi
    | cons z ys =>
      have h := call_sees A (c := c) (D := D) (int := int) (x := x) (k := k) (opened := opened) true (before 0) (rest ++ y) hq hi
      rw [ptrFeed, feed]
      · revert h
        generalize ptrCall A (sem c D int k x opened start) x true _ _ _ = a
        generalize call (sem c D int k x opened start) x.e true s (rest ++ y) = a'
        obtain ⟨E, o⟩ := a
        obtain ⟨E', o'⟩ := a'
        rintro ⟨h1, h2⟩
        simp only at h1
        subst h1
        cases o with
        | err c =>
          cases o' with
          | err c' => exact ⟨rfl, h2⟩
          | ok => exact h2.elim
        | ok q' r =>
          cases o' with
          | err c' => exact h2.elim
          | ok s' r' =>
            obtain ⟨h2, h3, rfl, _⟩ := h2
            have := ih (fun n => before (n + 1)) r h2 h3
            simp only
            refine ⟨?_, ?_⟩
            · simp only [Verif.pre]; rw [this.1]
            · exact this.2
      · simp

end Verif.Raw
