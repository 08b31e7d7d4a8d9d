import Verif.RawNamesThm

/-! C80: the parser finds the names of the open elements again, wherever the input buffer has been moved
and whatever has been written over it. -/

set_option autoImplicit false

namespace Verif.C80
open Verif Verif.Raw C43

theorem sees_init {s : CState} (h : s.tags = []) (mem : Buf) : Sees mem (RState.of s) s := by
  refine ⟨?_, by simp [RState.of, blank, h], by simp [RState.of], trivial⟩
  obtain ⟨tags, l, m, e, f⟩ := s
  simp only at h
  subst h
  rfl

/-- Without what the states hold: the handler calls and the error. -/
theorem observed {base start : Nat} {a : Ran RState} {b : Ran CState} (h : Agrees base start a b) :
    a.1 = b.1 ∧ a.2.code = b.2.code := by
  obtain ⟨E, o⟩ := a
  obtain ⟨E', o'⟩ := b
  obtain ⟨h1, h2⟩ := h
  refine ⟨h1, ?_⟩
  cases o <;> cases o'
  · rfl
  · exact h2.elim
  · exact h2.elim
  · simp only at h2; subst h2; rfl

/-- **C80, documents.**  The content of a document is given to the parser in any pieces; before each call
the bytes not consumed are moved to any place of a buffer which otherwise holds anything, so that what
was parsed before is lost; the allocator returns memory with any content.  The parser, which keeps
pointers to the names of the open elements, makes the same calls of the handlers and returns the same
error as one that keeps copies of them. -/
theorem documents (A : Alloc) (before : Nat → Buf) (c : Cfg) (D : Dtd) (int x : XEnc) (xs : List Buf) :
    (ptrFeed A (parser c D int x) x before (RState.of CState.init) [] xs).1 =
      (feed (parser c D int x) x.e CState.init [] xs).1 ∧
    (ptrFeed A (parser c D int x) x before (RState.of CState.init) [] xs).2.code =
      (feed (parser c D int x) x.e CState.init [] xs).2.code :=
  observed (feed_sees A (base := 0) (start := 0) xs before [] (sees_init rfl) ⟨rfl, Nat.le_refl _, fun _ => rfl⟩)

/-- **C80, external entities.** -/
theorem entities (A : Alloc) (before : Nat → Buf) (c : Cfg) (D : Dtd) (int x : XEnc) (k : Nat) (opened : List Buf)
    (s : CState) (hl : s.level = 1) (ht : s.tags = []) (hm : s.mode = .content) (xs : List Buf) :
    (ptrFeed A (sem c D int k x opened 1) x before (RState.of s) [] xs).1 =
      (feed (sem c D int k x opened 1) x.e s [] xs).1 ∧
    (ptrFeed A (sem c D int k x opened 1) x before (RState.of s) [] xs).2.code =
      (feed (sem c D int k x opened 1) x.e s [] xs).2.code :=
  observed (feed_sees A (base := 1) (start := 1) xs before [] (sees_init ht)
    ⟨by rw [hl, ht]; rfl, by omega, by rw [hm]; intro h; cases h⟩)

/-- **C80.**  So neither the place of the input nor the memory allocator can be observed. -/
theorem unobservable (A A' : Alloc) (before before' : Nat → Buf) (c : Cfg) (D : Dtd) (int x : XEnc) (xs : List Buf) :
    (ptrFeed A (parser c D int x) x before (RState.of CState.init) [] xs).1 =
      (ptrFeed A' (parser c D int x) x before' (RState.of CState.init) [] xs).1 ∧
    (ptrFeed A (parser c D int x) x before (RState.of CState.init) [] xs).2.code =
      (ptrFeed A' (parser c D int x) x before' (RState.of CState.init) [] xs).2.code := by
  have h := documents A before c D int x xs
  have h' := documents A' before' c D int x xs
  exact ⟨h.1.trans h'.1.symm, h.2.trans h'.2.symm⟩

/-- The tag holds, in its own buffer, the name `n` as the handlers get it, a NUL, and the name `r` as
written; nothing was written beyond the end of the buffer, and no pointer shows anything else. -/
structure Keeps (p : PTag) (n r : Buf) : Prop where
  layout : ∃ g, p.buf = n ++ 0 :: r ++ g
  own : p.inInput = none
  sizes : p.strLen = n.length ∧ p.rawLen = r.length

theorem keeps {mem : Buf} {p : PTag} (h : Ok mem p) (ho : p.inInput = none) : Keeps p p.name (p.raw mem) := by
  obtain ⟨n, g, hb, hn⟩ := h.name
  have hs := h.stored ho
  have ht : p.buf.take p.strLen = n := by rw [hb, ← hn]; simp
  have hname : p.name = n := by
    unfold PTag.name
    rcases h.str with h | h <;> rw [h] <;> simp [ht]
  have hraw : p.raw mem = g.take p.rawLen := by
    unfold PTag.raw
    rw [ho]
    simp only
    rw [hb, ← hn, show n ++ 0 :: g = (n ++ [0]) ++ g by simp, show n.length + 1 = (n ++ [0]).length by simp, List.drop_left]
  rw [hname, hraw]
  refine ⟨⟨g.drop p.rawLen, ?_⟩, ho, hn.symm, ?_⟩
  · rw [hb]; simp
  · rw [hb] at hs; simp at hs ⊢; omega

/-- **C80, between the calls.**  When a call has succeeded, whatever was parsed before it, every open tag
keeps in its own buffer both spellings of its name: that of the element as the parser with copies has it,
and that of the input. -/
theorem kept (A : Alloc) {c : Cfg} {D : Dtd} {int x : XEnc} {k : Nat} {opened : List Buf} {base start : Nat} {more : Bool}
    {before b : Buf} {q : RState} {s : CState} (hq : ∀ mem, Sees mem q s) (hi : Level base start s) {E q' r}
    (h : ptrCall A (sem c D int k x opened start) x more (before ++ b) { q with pos := before.length } b = (E, .ok q' r)) :
    ∃ s', call (sem c D int k x opened start) x.e more s b = (E, .ok s' r) ∧ (∀ mem, Sees mem q' s') ∧
      Level base start s' ∧ q'.tags.length = s'.tags.length ∧
      ∀ (i : Nat) (p : PTag) (t : Tag), q'.tags[i]? = some p → s'.tags[i]? = some t → Keeps p t.name.raw t.rawName := by
  have hs := call_sees A (c := c) (D := D) (int := int) (x := x) (k := k) (opened := opened) more before b hq hi
  rw [h] at hs
  revert hs
  generalize call (sem c D int k x opened start) x.e more s b = w
  obtain ⟨E', o⟩ := w
  rintro ⟨h1, h2⟩
  cases o with
  | err => exact h2.elim
  | ok s' r' =>
    simp only at h1
    subst h1
    obtain ⟨h2, h3, rfl, h4⟩ := h2
    have hz : List.zipWith (seeTag []) q'.s.tags q'.tags = s'.tags := congrArg CState.tags (h2 []).see
    refine ⟨s', rfl, h2, h3, ?_, ?_⟩
    · rw [← hz, List.length_zipWith, (h2 []).len, Nat.min_self]
    · intro i p t hp ht
      have hm := List.mem_of_getElem? hp
      rw [← hz, List.getElem?_zipWith] at ht
      rw [hp] at ht
      cases hu : q'.s.tags[i]? with
      | none => rw [hu] at ht; simp at ht
      | some u =>
        rw [hu] at ht
        simp only [Option.some.injEq] at ht
        subst ht
        exact keeps ((h2 []).ok p hm) (h4 p hm)

/-- The start of a document meets the hypotheses of `kept`. -/
theorem kept_init : (∀ mem, Sees mem (RState.of CState.init) CState.init) ∧ Level 0 0 CState.init :=
  ⟨sees_init rfl, rfl, Nat.le_refl _, fun _ => rfl⟩

/-- **C80, one tag.**  Copying the raw name: the buffer is made large enough, keeps the converted name and
its NUL, and gets the raw name behind them; the pointers to the name and its local part show the same as
before, also if the buffer had to be moved; and the input is not needed any more. -/
theorem stored (A : Alloc) {mem : Buf} {p : PTag} (h : Ok mem p) :
    (∃ n, p.buf.take p.strLen = n ∧ Keeps (store A mem p) n (p.raw mem)) ∧
      (∀ mem', (store A mem p).raw mem' = p.raw mem) ∧ (store A mem p).name = p.name ∧
      (store A mem p).local = p.local := by
  have ho := fun mem' => store_ok A h mem'
  refine ⟨⟨_, rfl, ?_⟩, fun mem' => (ho mem').2.2.1, (ho []).2.2.2.1, (ho []).2.2.2.2⟩
  obtain ⟨n, g, hb, hn⟩ := h.name
  have hr := raw_length h
  have hq : ∃ ext, (store A mem p).buf = poke (p.buf ++ ext) (p.strLen + 1) (p.raw mem) ∧
      (store A mem p).strLen = p.strLen ∧ (store A mem p).rawLen = p.rawLen := by
    simp only [store]
    split
    · exact ⟨_, rfl, rfl, rfl⟩
    · exact ⟨[], by simp, rfl, rfl⟩
  obtain ⟨ext, h1, h2, h3⟩ := hq
  have ht : p.buf.take p.strLen = n := by rw [hb, ← hn]; simp
  have ht' : (p.buf ++ ext).take (p.strLen + 1) = n ++ [0] := named_take (g := g ++ ext) (by rw [hb]; simp) hn
  refine ⟨⟨(p.buf ++ ext).drop (p.strLen + 1 + (p.raw mem).length), ?_⟩, (ho []).2.1, ?_, ?_⟩
  · rw [h1, poke, ht', ht]; simp
  · rw [h2, ht, hn]
  · rw [h3, hr]

/-- **C80, the names must be stored.**  A parser that leaves the pointers as they are when a call ends is
wrong: after the input has been overwritten, the end tag of the open element is refused.
(`internalEntityProcessor`, which goes on with the document after an entity in which the parser was
suspended, leaves them so: src/lib/xmlparse.rs:7048-7134.) -/
theorem needed : ∃ (A : Alloc) (x : XEnc) (M : Sem CState) (q : RState) (r : Buf),
    call (ptrSem A M x "<a>".toUTF8.toList) x.e true (RState.of CState.init) "<a>".toUTF8.toList =
      ([.startElement [0x61] [] 0 none], .ok q r) ∧ r = [] ∧
    (call (ptrSem A M x "</a>".toUTF8.toList) x.e true { q with pos := 0 } "</a>".toUTF8.toList).2.code =
      some .TAG_MISMATCH ∧
    (feed M x.e CState.init [] ["<a>".toUTF8.toList, "</a>".toUTF8.toList]).2.code = none := by
  generalize hv : call (ptrSem ⟨fun _ _ => [], 0⟩ (parser {} default (internalUtf8X false) (utf8X false)) (utf8X false)
    "<a>".toUTF8.toList) (utf8Enc false) true (RState.of CState.init) "<a>".toUTF8.toList = v
  have h1 : v.1 = [.startElement [0x61] [] 0 none] := by rw [← hv]; decide +kernel
  have h2 : (match v.2 with
    | .ok q r => decide (r = [] ∧ (call (ptrSem ⟨fun _ _ => [], 0⟩ (parser {} default (internalUtf8X false) (utf8X false)) (utf8X false)
        "</a>".toUTF8.toList) (utf8Enc false) true { q with pos := 0 } "</a>".toUTF8.toList).2.code = some .TAG_MISMATCH)
    | .err _ => false) = true := by
    rw [← hv]; decide +kernel
  obtain ⟨E, o⟩ := v
  cases o with
  | err => cases h2
  | ok q r =>
    simp only at h1
    subst h1
    have h2 := of_decide_eq_true h2
    exact ⟨⟨fun _ _ => [], 0⟩, utf8X false, parser {} default (internalUtf8X false) (utf8X false), q, r, hv, h2.1, h2.2,
      by decide +kernel⟩

/-! Non-vacuity: two elements are open across calls, one with a long name, whose buffer must grow; the
buffer is overwritten with `z`s each time. -/
def exBefore : Nat → Buf := fun n => List.replicate (7 * n) 0x7A
def exParts : List Buf := ["<a><bb".toUTF8.toList, "bb>x<c".toUTF8.toList, "></c></bbbb>".toUTF8.toList, "</a>".toUTF8.toList]

example : (ptrFeed ⟨fun _ _ => [1, 2], 0⟩ (parser {} default (internalUtf8X false) (utf8X false)) (utf8X false)
      exBefore (RState.of CState.init) [] exParts).1 =
    [.startElement [0x61] [] 0 none, .startElement [0x62, 0x62, 0x62, 0x62] [] 0 none, .chars [0x78],
      .startElement [0x63] [] 0 none, .endElement [0x63], .endElement [0x62, 0x62, 0x62, 0x62], .endElement [0x61]] ∧
    (ptrFeed ⟨fun _ _ => [1, 2], 0⟩ (parser {} default (internalUtf8X false) (utf8X false)) (utf8X false)
      exBefore (RState.of CState.init) [] exParts).2.code = none := by
  decide +kernel

/-- A tag with a local part, in a buffer too small for the raw name. -/
def exTag : PTag := ⟨[0x70, 0x3A, 0x61, 0], 0, 3, 3, some 1, none, some (0, 2)⟩
example : Ok [0x3C, 0x70, 0x3A, 0x61, 0x3E] exTag ∧
    (store ⟨fun _ _ => [], 9⟩ [0x3C, 0x70, 0x3A, 0x61, 0x3E] exTag).buf = [0x70, 0x3A, 0x61, 0, 0x70, 0x3A, 0x61] ∧
    (store ⟨fun _ _ => [], 9⟩ [0x3C, 0x70, 0x3A, 0x61, 0x3E] exTag).local = [0x61] := by
  refine ⟨⟨⟨[0x70, 0x3A, 0x61], [], rfl, rfl⟩, by decide, ?_, .inl rfl, ?_⟩, by decide, by decide⟩
  · intro i hi; cases hi; decide
  · intro a o h; cases h; rfl

end Verif.C80
