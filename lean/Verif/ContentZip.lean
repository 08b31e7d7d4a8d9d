import Verif.Spec.ContentModel

/-! A reference parser for content specifications, shown equivalent to the grammar. -/

namespace Verif

/-- An open group: its separator once one has been seen, and its members, latest first. -/
structure Frame where
  conn : Option Bool
  kids : List CM

inductive ZS where
  | e1 | e2 | e3
  | e4 (ns : List CM) | e5 (ns : List CM)
  | e6 (f : Frame) (st : List Frame) | e7 (f : Frame) (st : List Frame)
  | fin (c : CM)

def Frame.ty (f : Frame) : CType := if f.conn = some true then .CHOICE else .SEQ

/-- Add a member to the innermost open group. -/
def Frame.add (f : Frame) (k : CM) : Frame := { f with kids := k :: f.kids }

def zstep : ZS → Sy → Option ZS
  | .e1, .opn => some .e2
  | .e2, .pcdata => some .e3
  | .e2, .opn => some (.e6 ⟨none, []⟩ [⟨none, []⟩])
  | .e2, .nm q n => some (.e7 ⟨none, [.name q n]⟩ [])
  | .e3, .cls q => if q = .NONE ∨ q = .REP then some (.fin (.group .MIXED q [])) else none
  | .e3, .sep ch => if ch then some (.e4 []) else none
  | .e4 ns, .nm q n => if q = .NONE then some (.e5 (.name .NONE n :: ns)) else none
  | .e5 ns, .cls q => if q = .REP then some (.fin (.group .MIXED .REP ns.reverse)) else none
  | .e5 ns, .sep ch => if ch then some (.e4 ns) else none
  | .e6 f st, .opn => some (.e6 ⟨none, []⟩ (f :: st))
  | .e6 f st, .nm q n => some (.e7 (f.add (.name q n)) st)
  | .e7 f st, .sep ch =>
    if f.conn = none ∨ f.conn = some ch then some (.e6 { f with conn := some ch } st) else none
  | .e7 f [], .cls q => some (.fin (.group f.ty q f.kids.reverse))
  | .e7 f (g :: st), .cls q => some (.e7 (g.add (.group f.ty q f.kids.reverse)) st)
  | _, _ => none

def zrun (z : ZS) : List Sy → Option ZS
  | [] => some z
  | y :: ys => (zstep z y).bind fun z => zrun z ys

theorem zrun_append (z : ZS) (xs ys : List Sy) :
    zrun z (xs ++ ys) = (zrun z xs).bind fun z => zrun z ys := by
  induction xs generalizing z with
  | nil => rfl
  | cons x xs ih =>
    simp only [List.cons_append, zrun]
    cases zstep z x with
    | none => rfl
    | some z => exact ih z

/-! ### Soundness: the text read so far -/

def CM.texts (ch : Bool) : List CM → List Sy
  | [] => []
  | k :: ks => k.text ++ CM.more ch ks

theorem more_append (ch : Bool) (xs ys : List CM) :
    CM.more ch (xs ++ ys) = CM.more ch xs ++ CM.more ch ys := by
  induction xs with
  | nil => simp [CM.more]
  | cons x xs ih => simp [CM.more, ih]

theorem texts_snoc (ch : Bool) (ks : List CM) (k : CM) (h : ks ≠ []) :
    CM.texts ch (ks ++ [k]) = CM.texts ch ks ++ .sep ch :: k.text := by
  cases ks with
  | nil => exact absurd rfl h
  | cons a ks => simp [CM.texts, more_append, CM.more]

theorem text_group (ty : CType) (q : Quant) (ks : List CM) :
    CM.text (.group ty q ks) = .opn :: (CM.texts (ty == .CHOICE) ks ++ [.cls q]) := by
  cases ks with
  | nil => simp [CM.text, CM.texts]
  | cons k ks => simp [CM.text, CM.texts]

def Frame.ch (f : Frame) : Bool := f.ty == .CHOICE

def Frame.closedText (f : Frame) : List Sy := .opn :: CM.texts f.ch f.kids.reverse

def Frame.openText (f : Frame) : List Sy :=
  f.closedText ++ if f.kids = [] then [] else [.sep f.ch]

def ztext : ZS → List Sy
  | .e1 => []
  | .e2 => [.opn]
  | .e3 => [.opn, .pcdata]
  | .e4 ns => .opn :: .pcdata :: (CM.more true ns.reverse ++ [.sep true])
  | .e5 ns => .opn :: .pcdata :: CM.more true ns.reverse
  | .e6 f st => st.reverse.flatMap Frame.openText ++ f.openText
  | .e7 f st => st.reverse.flatMap Frame.openText ++ f.closedText
  | .fin (.group .MIXED q ks) => CM.mixedText q ks
  | .fin c => c.text

/-- A group that waits for a member. -/
def Frame.Open (f : Frame) : Prop :=
  (∀ k ∈ f.kids, IsCp k) ∧ (f.conn = none ↔ f.kids = [])

/-- A group that may be closed. -/
def Frame.Full (f : Frame) : Prop :=
  (∀ k ∈ f.kids, IsCp k) ∧ f.kids ≠ [] ∧ (f.conn = none ↔ f.kids.length = 1)

def ZInv : ZS → Prop
  | .e1 | .e2 | .e3 => True
  | .e4 ns => ∀ k ∈ ns, ∃ n, k = CM.name .NONE n
  | .e5 ns => ∀ k ∈ ns, ∃ n, k = CM.name .NONE n
  | .e6 f st => f.Open ∧ ∀ g ∈ st, g.Open
  | .e7 f st => f.Full ∧ ∀ g ∈ st, g.Open
  | .fin c => ∃ ty q ks, c = .group ty q ks ∧
      (ty = .MIXED ∧ IsMixed q ks ∨ IsCp (.group ty q ks))

theorem Frame.Open.add {f : Frame} (h : f.Open) {k : CM} (hk : IsCp k) : (f.add k).Full := by
  obtain ⟨h1, h2⟩ := h
  refine ⟨?_, by simp [Frame.add], ?_⟩
  · intro c hc
    simp only [Frame.add, List.mem_cons] at hc
    rcases hc with rfl | hc
    · exact hk
    · exact h1 c hc
  · simp only [Frame.add, List.length_cons, h2]
    cases f.kids <;> simp

theorem Frame.Full.isCp {f : Frame} (h : f.Full) (q : Quant) :
    IsCp (.group f.ty q f.kids.reverse) := by
  obtain ⟨h1, h2, h3⟩ := h
  unfold Frame.ty
  split
  · next hc =>
    have : f.kids.length ≠ 1 := fun h => by rw [h3.2 h] at hc; simp at hc
    have := List.length_pos_iff.2 h2
    exact .choice _ _ (by rw [List.length_reverse]; omega) (by simpa using h1)
  · exact .seq _ _ (by simpa using h2) (by simpa using h1)

theorem Frame.Full.open {f : Frame} (h : f.Full) (ch : Bool) :
    Frame.Open { f with conn := some ch } :=
  ⟨h.1, by simp [h.2.1]⟩

theorem closedText_add (f : Frame) (h : f.Open) (k : CM) :
    (f.add k).closedText = f.openText ++ k.text := by
  have hch : (f.add k).ch = f.ch := rfl
  unfold Frame.openText Frame.closedText
  rw [hch]
  simp only [Frame.add, List.reverse_cons]
  by_cases hk : f.kids = []
  · simp [hk, CM.texts, CM.more]
  · rw [texts_snoc _ _ _ (by simpa using hk), if_neg hk]
    simp

theorem openText_set {f : Frame} (h : f.Full) {ch : Bool}
    (hc : f.conn = none ∨ f.conn = some ch) :
    Frame.openText { f with conn := some ch } = f.closedText ++ [.sep ch] := by
  have hch : Frame.ch { f with conn := some ch } = ch := by
    cases ch <;> simp [Frame.ch, Frame.ty] <;> decide
  unfold Frame.openText Frame.closedText
  rw [hch]
  simp only [h.2.1, if_false]
  rcases hc with hc | hc
  · have := h.2.2.1 hc
    match hk : f.kids, this with
    | [k], _ => simp [CM.texts, CM.more]
  · have : f.ch = ch := by rw [← hch]; simp [Frame.ch, Frame.ty, hc]
    rw [this]

theorem zstep_sound {z z' : ZS} {y : Sy} (hz : ZInv z) (h : zstep z y = some z') :
    ZInv z' ∧ ztext z' = ztext z ++ [y] := by
  revert h
  fun_cases zstep z y <;> intro h
  all_goals first
    | (simp only [reduceCtorEq] at h; done)
    | skip
  · injection h with h; subst h; exact ⟨trivial, rfl⟩
  · injection h with h; subst h; exact ⟨trivial, rfl⟩
  · injection h with h; subst h; exact ⟨⟨⟨by simp, by simp⟩, by simp [Frame.Open]⟩, rfl⟩
  · injection h with h; subst h
    refine ⟨⟨⟨by simp [IsCp.name], by simp, by simp⟩, by simp⟩, ?_⟩
    simp [ztext, Frame.closedText, CM.texts, CM.text, CM.more]
  · rename_i q hq
    injection h with h; subst h
    refine ⟨⟨.MIXED, _, _, rfl, .inl ⟨rfl, by simp, by grind⟩⟩, ?_⟩
    simp [ztext, CM.mixedText, CM.more]
  · injection h with h; subst h; exact ⟨by simp [ZInv], by simp [ztext, CM.more]⟩
  · rename_i n 
    injection h with h; subst h
    refine ⟨by simpa [ZInv] using hz, ?_⟩
    simp [ztext, more_append, CM.more, CM.text]
  · injection h with h; subst h
    refine ⟨⟨.MIXED, _, _, rfl, .inl ⟨rfl, by simpa [ZInv] using hz, .inl rfl⟩⟩, ?_⟩
    simp [ztext, CM.mixedText]
  · injection h with h; subst h; exact ⟨hz, by simp [ztext]⟩
  · injection h with h; subst h
    refine ⟨⟨⟨by simp, by simp⟩, by simpa [ZInv] using hz⟩, ?_⟩
    simp [ztext, Frame.openText, Frame.closedText, CM.texts]
  · injection h with h; subst h
    refine ⟨⟨hz.1.add (.name _ _), hz.2⟩, ?_⟩
    simp [ztext, closedText_add _ hz.1, CM.text]
  · rename_i hc
    injection h with h; subst h
    refine ⟨⟨hz.1.open _, hz.2⟩, ?_⟩
    simp [ztext, openText_set hz.1 hc]
  · injection h with h; subst h
    have hcp := hz.1.isCp
    refine ⟨⟨_, _, _, rfl, .inr (hcp _)⟩, ?_⟩
    have : ∀ q, ztext (.fin (.group (Frame.ty ‹Frame›) q (Frame.kids ‹Frame›).reverse)) =
        CM.text (.group (Frame.ty ‹Frame›) q (Frame.kids ‹Frame›).reverse) := by
      intro q
      unfold Frame.ty
      split <;> rfl
    rw [this, text_group]
    simp [ztext, Frame.closedText, Frame.ch]
  · injection h with h; subst h
    refine ⟨⟨(hz.2 _ (by simp)).add (hz.1.isCp _), fun g hg => hz.2 g (by simp [hg])⟩, ?_⟩
    simp only [ztext, closedText_add _ (hz.2 _ List.mem_cons_self), text_group]
    simp [Frame.closedText, Frame.ch]

theorem zrun_sound {z z' : ZS} {ys : List Sy} (hz : ZInv z) (h : zrun z ys = some z') :
    ZInv z' ∧ ztext z' = ztext z ++ ys := by
  induction ys generalizing z with
  | nil => injection h with h; subst h; exact ⟨hz, by simp⟩
  | cons y ys ih =>
    rw [zrun] at h
    cases hs : zstep z y with
    | none => rw [hs] at h; simp at h
    | some z1 =>
      rw [hs] at h
      obtain ⟨i1, t1⟩ := zstep_sound hz hs
      obtain ⟨i2, t2⟩ := ih i1 h
      exact ⟨i2, by rw [t2, t1]; simp⟩

/-! ### Completeness -/

mutual
theorem zrun_text {k : CM} (hk : IsCp k) (f : Frame) (st : List Frame) :
    zrun (.e6 f st) k.text = some (.e7 (f.add k) st) := by
  match k, hk with
  | .name q n, _ => rfl
  | .group ty q [], hk => cases hk <;> simp_all
  | .group ty q (k :: ks), hk =>
    have hkids : ∀ c ∈ k :: ks, IsCp c := by cases hk <;> assumption
    have hty : ty = .SEQ ∨ (ty = .CHOICE ∧ ks ≠ []) := by
      cases hk with
      | seq => exact .inl rfl
      | choice _ _ h => exact .inr ⟨rfl, by intro h0; subst h0; simp at h⟩
    rw [CM.text, zrun]
    simp only [zstep, Option.bind_some]
    rw [zrun_append, zrun_text (hkids k (by simp)) _ _]
    simp only [Option.bind_some]
    rw [zrun_append, zrun_more (fun c hc => hkids c (by simp [hc])) _ _ _ (.inl rfl)]
    simp only [Option.bind_some, zrun, zstep, Frame.add]
    have : Frame.ty ⟨if ks = [] then none else some (ty == .CHOICE), ks.reverse ++ [k]⟩ = ty := by
      rcases hty with rfl | ⟨rfl, hne⟩
      · unfold Frame.ty; cases ks <;> simp <;> decide
      · simp [Frame.ty, hne]
    rw [this]
    simp
  termination_by (sizeOf k, 0)
theorem zrun_more {ks : List CM} (hk : ∀ k ∈ ks, IsCp k) (ch : Bool) (f : Frame) (st : List Frame)
    (hf : f.conn = none ∨ f.conn = some ch) :
    zrun (.e7 f st) (CM.more ch ks) =
      some (.e7 ⟨if ks = [] then f.conn else some ch, ks.reverse ++ f.kids⟩ st) := by
  match ks with
  | [] => simp [CM.more, zrun]
  | k :: ks =>
    rw [CM.more, zrun]
    simp only [zstep, hf, if_true, Option.bind_some]
    rw [zrun_append, zrun_text (hk k (by simp)) _ _]
    simp only [Option.bind_some]
    rw [zrun_more (fun c hc => hk c (by simp [hc])) ch _ st (.inr rfl)]
    simp [Frame.add]
  termination_by (sizeOf ks, 1)
end

theorem zrun_children {ty q ks} (hk : IsCp (.group ty q ks)) :
    zrun .e1 (CM.text (.group ty q ks)) = some (.fin (.group ty q ks)) := by
  obtain ⟨k, ks', rfl⟩ : ∃ k ks', ks = k :: ks' := by
    cases ks with
    | nil => cases hk <;> simp_all
    | cons k ks => exact ⟨k, ks, rfl⟩
  -- compare with the same group inside another one
  have hkids : ∀ c ∈ k :: ks', IsCp c := by cases hk <;> assumption
  have hty : ty = .SEQ ∨ (ty = .CHOICE ∧ ks' ≠ []) := by
    cases hk with
    | seq => exact .inl rfl
    | choice _ _ h => exact .inr ⟨rfl, by intro h0; subst h0; simp at h⟩
  have h2 : zrun .e2 k.text = some (.e7 ⟨none, [k]⟩ []) := by
    have h6 := zrun_text (hkids k (by simp)) ⟨none, []⟩ []
    cases k with
    | name q n => rfl
    | group ty q ks =>
      rw [text_group] at h6 ⊢
      exact h6
  rw [CM.text, zrun]
  simp only [zstep, Option.bind_some]
  rw [zrun_append, h2]
  simp only [Option.bind_some]
  rw [zrun_append, zrun_more (fun c hc => hkids c (by simp [hc])) _ _ _ (.inl rfl)]
  simp only [Option.bind_some, zrun, zstep]
  have : Frame.ty ⟨if ks' = [] then none else some (ty == .CHOICE), ks'.reverse ++ [k]⟩ = ty := by
    rcases hty with rfl | ⟨rfl, hne⟩
    · unfold Frame.ty; cases ks' <;> simp <;> decide
    · simp [Frame.ty, hne]
  rw [this]
  simp

theorem zrun_mixed_more {ks : List CM} (hk : ∀ k ∈ ks, ∃ n, k = CM.name .NONE n) (ns : List CM) :
    zrun (.e5 ns) (CM.more true ks) = some (.e5 (ks.reverse ++ ns)) := by
  induction ks generalizing ns with
  | nil => rfl
  | cons k ks ih =>
    obtain ⟨n, rfl⟩ := hk k (by simp)
    simp only [CM.more, CM.text, zrun, zstep, if_true, Option.bind_some, List.cons_append,
      List.nil_append, ih fun c hc => hk c (by simp [hc])]
    simp

theorem zrun_mixed {q ks} (h : IsMixed q ks) :
    zrun .e1 (CM.mixedText q ks) = some (.fin (.group .MIXED q ks)) := by
  obtain ⟨hk, hq⟩ := h
  cases ks with
  | nil =>
    have : q = .NONE ∨ q = .REP := by grind
    simp [CM.mixedText, zrun, zstep, CM.more, this]
  | cons k ks =>
    obtain rfl : q = .REP := by simpa using hq
    obtain ⟨n, rfl⟩ := hk k (by simp)
    simp only [CM.mixedText, CM.more, CM.text, zrun, zstep, if_true, Option.bind_some,
      List.cons_append, List.nil_append]
    rw [zrun_append, zrun_mixed_more fun c hc => hk c (by simp [hc])]
    simp [zrun, zstep]

/-- The reference parser accepts exactly the grammar, and returns the tree written. -/
theorem zrun_iff (ys : List Sy) (c : CM) :
    zrun .e1 ys = some (.fin c) ↔
      (∃ q ks, c = .group .MIXED q ks ∧ IsMixed q ks ∧ ys = CM.mixedText q ks) ∨
      (∃ ty q ks, c = .group ty q ks ∧ IsCp c ∧ ys = c.text) := by
  constructor
  · intro h
    obtain ⟨⟨ty, q, ks, rfl, hc⟩, ht⟩ := zrun_sound (z := .e1) trivial h
    simp only [ztext, List.nil_append] at ht
    rcases hc with ⟨rfl, hm⟩ | hc
    · exact .inl ⟨q, ks, rfl, hm, ht.symm⟩
    · refine .inr ⟨ty, q, ks, rfl, hc, ?_⟩
      cases hc <;> exact ht.symm
  · rintro (⟨q, ks, rfl, hm, rfl⟩ | ⟨ty, q, ks, rfl, hc, rfl⟩)
    · exact zrun_mixed hm
    · exact zrun_children hc

end Verif
