import Verif.ContentZip

/-! The content scaffold holds the open groups, and `build_model` copies a finished tree. -/

namespace Verif

theorem modify_ne {α} {l : List α} {i j : Nat} {f : α → α} (h : i ≠ j) : (l.modify i f)[j]? = l[j]? := by
  rw [List.getElem?_modify]; simp [h]

theorem modify_eq {α} {l : List α} {i : Nat} {f : α → α} : (l.modify i f)[i]? = l[i]?.map f := by
  rw [List.getElem?_modify]; simp

mutual
/-- Number of cells of a tree. -/
def CM.size : CM → Nat
  | .name _ _ => 1
  | .group _ _ ks => 1 + CM.sizes ks
def CM.sizes : List CM → Nat
  | [] => 0
  | k :: ks => k.size + CM.sizes ks
end

mutual
/-- Bytes needed for the names, each with its NUL. -/
def CM.bytes : CM → Nat
  | .name _ n => n.length + 1
  | .group _ _ ks => CM.bytess ks
def CM.bytess : List CM → Nat
  | [] => 0
  | k :: ks => k.bytes + CM.bytess ks
end

theorem CM.size_pos (k : CM) : 0 < k.size := by
  cases k <;> simp only [CM.size] <;> omega

theorem sizes_append (xs ys : List CM) : CM.sizes (xs ++ ys) = CM.sizes xs + CM.sizes ys := by
  induction xs with
  | nil => simp [CM.sizes]
  | cons x xs ih => simp only [List.cons_append, CM.sizes, ih]; omega

theorem sizes_reverse (xs : List CM) : CM.sizes xs.reverse = CM.sizes xs := by
  induction xs with
  | nil => rfl
  | cons x xs ih =>
    simp only [List.reverse_cons, sizes_append, CM.sizes, ih]; omega

theorem bytess_append (xs ys : List CM) : CM.bytess (xs ++ ys) = CM.bytess xs + CM.bytess ys := by
  induction xs with
  | nil => simp [CM.bytess]
  | cons x xs ih => simp only [List.cons_append, CM.bytess, ih]; omega

theorem bytess_reverse (xs : List CM) : CM.bytess xs.reverse = CM.bytess xs := by
  induction xs with
  | nil => rfl
  | cons x xs ih =>
    simp only [List.reverse_cons, bytess_append, CM.bytess, ih]; omega

mutual
/-- The scaffold holds the tree in preorder from cell `i` on. -/
def Lay (scf : List Part) (i : Nat) : CM → Prop
  | .name q n => ∃ p, scf[i]? = some p ∧ p.type = .NAME ∧ p.quant = q ∧ p.name = n
  | .group ty q ks => ∃ p, scf[i]? = some p ∧ p.type = ty ∧ ty ≠ .NAME ∧ p.quant = q ∧
      p.childcnt = ks.length ∧ (ks ≠ [] → p.firstchild = i + 1) ∧ Lays scf (i + 1) ks
def Lays (scf : List Part) (i : Nat) : List CM → Prop
  | [] => True
  | k :: ks => Lay scf i k ∧ (ks ≠ [] → ∃ p, scf[i]? = some p ∧ p.nextsib = i + k.size) ∧
      Lays scf (i + k.size) ks
end

/-- The same members, latest first. -/
def LaysR (scf : List Part) (i : Nat) : List CM → Prop
  | [] => True
  | k :: ks => LaysR scf i ks ∧ Lay scf (i + CM.sizes ks) k ∧
      (ks ≠ [] → ∃ p, scf[i + CM.sizes ks.tail]? = some p ∧ p.nextsib = i + CM.sizes ks)

theorem lays_snoc {scf : List Part} {i : Nat} {ks : List CM} {k : CM} (h : Lays scf i ks)
    (hk : Lay scf (i + CM.sizes ks) k)
    (hl : ks ≠ [] → ∃ p, scf[i + CM.sizes ks.dropLast]? = some p ∧ p.nextsib = i + CM.sizes ks) :
    Lays scf i (ks ++ [k]) := by
  induction ks generalizing i with
  | nil => simpa [Lays, CM.sizes] using hk
  | cons a ks ih =>
    simp only [Lays, List.cons_append, CM.sizes] at h hk hl ⊢
    refine ⟨h.1, fun _ => ?_, ih h.2.2 (by rw [Nat.add_assoc]; exact hk) fun hne => ?_⟩
    · cases ks with
      | nil =>
        obtain ⟨p, h1, h2⟩ := hl (by simp)
        exact ⟨p, by simpa [CM.sizes] using h1, by simpa [CM.sizes] using h2⟩
      | cons b ks => exact h.2.1 (by simp)
    · obtain ⟨p, h1, h2⟩ := hl (by simp)
      rw [List.dropLast_cons_of_ne_nil hne, CM.sizes, ← Nat.add_assoc] at h1
      exact ⟨p, h1, by rw [h2, Nat.add_assoc]⟩

theorem LaysR.lays {scf : List Part} {i : Nat} {ks : List CM} (h : LaysR scf i ks) :
    Lays scf i ks.reverse := by
  induction ks with
  | nil => exact trivial
  | cons k ks ih =>
    simp only [List.reverse_cons]
    refine lays_snoc (ih h.1) (by rw [sizes_reverse]; exact h.2.1) fun hne => ?_
    have hne' : ks ≠ [] := by simpa using hne
    have := h.2.2 hne'
    rw [sizes_reverse]
    have hd : ks.reverse.dropLast = ks.tail.reverse := by
      cases ks with
      | nil => rfl
      | cons a ks => simp
    rw [hd, sizes_reverse]
    exact this

/-- Cells that agree except for the links to siblings. -/
def SameBut (p p' : Part) : Prop :=
  p'.type = p.type ∧ p'.quant = p.quant ∧ p'.name = p.name ∧ p'.firstchild = p.firstchild ∧
    p'.childcnt = p.childcnt

mutual
theorem Lay.congr {scf scf' : List Part} {i : Nat} {t : CM} (h : Lay scf i t)
    (h0 : ∀ p, scf[i]? = some p → ∃ p', scf'[i]? = some p' ∧ SameBut p p')
    (hs : ∀ j, i < j → j < i + t.size → scf'[j]? = scf[j]?) : Lay scf' i t := by
  match t with
  | .name q n =>
    obtain ⟨p, h1, h2, h3, h4⟩ := h
    obtain ⟨p', g1, g2, g3, g4, g5, g6⟩ := h0 p h1
    exact ⟨p', g1, by rw [g2, h2], by rw [g3, h3], by rw [g4, h4]⟩
  | .group ty q ks =>
    obtain ⟨p, h1, h2, hn, h3, h4, h5, h6⟩ := h
    obtain ⟨p', g1, g2, g3, g4, g5, g6⟩ := h0 p h1
    refine ⟨p', g1, by rw [g2, h2], hn, by rw [g3, h3], by rw [g6, h4],
      fun hne => by rw [g5, h5 hne], ?_⟩
    refine Lays.congr h6 fun j h1 h2 => hs j (by omega) ?_
    simp only [CM.size]; omega
theorem Lays.congr {scf scf' : List Part} {i : Nat} {ks : List CM} (h : Lays scf i ks)
    (hs : ∀ j, i ≤ j → j < i + CM.sizes ks → scf'[j]? = scf[j]?) : Lays scf' i ks := by
  match ks with
  | [] => exact trivial
  | k :: ks =>
    have hp := k.size_pos
    obtain ⟨h1, h2, h3⟩ := h
    simp only [CM.sizes] at hs
    have e := hs i (by omega) (by omega)
    refine ⟨Lay.congr h1 (fun p hp => ⟨p, by rw [e, hp], rfl, rfl, rfl, rfl, rfl⟩)
      fun j a b => hs j (by omega) (by omega), fun hne => by rw [e]; exact h2 hne,
      Lays.congr h3 fun j a b => hs j (by omega) (by omega)⟩
end

theorem sizes_tail_le (ks : List CM) : CM.sizes ks.tail ≤ CM.sizes ks := by
  cases ks <;> simp [CM.sizes]

theorem sizes_tail_lt {ks : List CM} (h : ks ≠ []) : CM.sizes ks.tail < CM.sizes ks := by
  cases ks with
  | nil => exact absurd rfl h
  | cons k ks => have := k.size_pos; simp only [List.tail_cons, CM.sizes]; omega

theorem LaysR.congr {scf scf' : List Part} {i : Nat} {ks : List CM} (h : LaysR scf i ks)
    (hs : ∀ j, i ≤ j → j < i + CM.sizes ks → scf'[j]? = scf[j]?) : LaysR scf' i ks := by
  induction ks with
  | nil => exact trivial
  | cons k ks ih =>
    have hp := k.size_pos
    simp only [CM.sizes] at hs
    refine ⟨ih h.1 fun j a b => hs j a (by omega), ?_, fun hne => ?_⟩
    · have e := hs (i + CM.sizes ks) (by omega) (by omega)
      exact h.2.1.congr (fun p hp => ⟨p, by rw [e, hp], rfl, rfl, rfl, rfl, rfl⟩)
        fun j a b => hs j (by omega) (by omega)
    · rw [hs _ (by omega) (by have := sizes_tail_le ks; omega)]
      exact h.2.2 hne

/-- The link of the latest member may be changed. -/
theorem LaysR.relink {scf scf' : List Part} {i : Nat} {ks : List CM} (h : LaysR scf i ks)
    (h0 : ∀ p, scf[i + CM.sizes ks.tail]? = some p →
      ∃ p', scf'[i + CM.sizes ks.tail]? = some p' ∧ SameBut p p')
    (hs : ∀ j, i ≤ j → j < i + CM.sizes ks → j ≠ i + CM.sizes ks.tail → scf'[j]? = scf[j]?) :
    LaysR scf' i ks := by
  cases ks with
  | nil => exact trivial
  | cons k ks =>
    have hp := k.size_pos
    simp only [CM.sizes, List.tail_cons] at hs h0
    refine ⟨h.1.congr fun j a b => hs j a (by omega) (by omega), ?_, fun hne => ?_⟩
    · exact h.2.1.congr h0 fun j a b => hs j (by omega) (by omega) (by omega)
    · have := sizes_tail_lt hne
      rw [hs _ (by omega) (by omega) (by omega)]
      exact h.2.2 hne

/-- The innermost open group: cell `i`, members `kids` (latest first), nothing after them. -/
def Top (scf : List Part) (ty : CType) (i : Nat) (kids : List CM) : Prop :=
  ∃ p, scf[i]? = some p ∧ p.type = ty ∧ p.childcnt = kids.length ∧
    (kids ≠ [] → p.firstchild = i + 1) ∧
    p.lastchild = (if kids = [] then 0 else i + 1 + CM.sizes kids.tail) ∧
    LaysR scf (i + 1) kids ∧ i + 1 + CM.sizes kids = scf.length

/-- The groups around it; `e` is the cell of the group inside. -/
def Below (scf : List Part) (e : Nat) : List Nat → List Frame → Prop
  | [], [] => e = 0
  | i :: is, f :: fs => ∃ p, scf[i]? = some p ∧ p.type = f.ty ∧ p.childcnt = f.kids.length + 1 ∧
      p.firstchild = i + 1 ∧ p.lastchild = e ∧ LaysR scf (i + 1) f.kids ∧
      (f.kids ≠ [] → ∃ q, scf[i + 1 + CM.sizes f.kids.tail]? = some q ∧ q.nextsib = e) ∧
      i + 1 + CM.sizes f.kids = e ∧ Below scf i is fs
  | _, _ => False

theorem Below.congr {scf scf' : List Part} {e : Nat} {is : List Nat} {fs : List Frame}
    (h : Below scf e is fs) (hs : ∀ j, j < e → scf'[j]? = scf[j]?) : Below scf' e is fs := by
  induction is generalizing e fs with
  | nil => cases fs <;> exact h
  | cons i is ih =>
    cases fs with
    | nil => exact h
    | cons f fs =>
      obtain ⟨p, h1, h2, h3, h4, h5, h6, h7, h8, h9⟩ := h
      refine ⟨p, by rw [hs i (by omega)]; exact h1, h2, h3, h4, h5,
        h6.congr fun j a b => hs j (by omega), fun hne => ?_, h8, ih h9 fun j a => hs j (by omega)⟩
      have := sizes_tail_lt hne
      rw [hs _ (by omega)]
      exact h7 hne

/-- What `next_part` does when group `i` is the innermost open one. -/
theorem nextPart_top {scf : List Part} {ty : CType} {i : Nat} {kids : List CM} (is : List Nat)
    (h : Top scf ty i kids) : ∃ scf', nextPart scf (i :: is) = some scf' ∧
      scf'.length = scf.length + 1 ∧ scf'[scf.length]? = some {} ∧
      (∀ j, j < i → scf'[j]? = scf[j]?) ∧
      (∃ p, scf'[i]? = some p ∧ p.type = ty ∧ p.childcnt = kids.length + 1 ∧
        p.firstchild = i + 1 ∧ p.lastchild = scf.length) ∧
      LaysR scf' (i + 1) kids ∧
      (kids ≠ [] → ∃ q, scf'[i + 1 + CM.sizes kids.tail]? = some q ∧ q.nextsib = scf.length) := by
  obtain ⟨p, h1, h2, h3, h4, h5, h6, h7⟩ := h
  have hi : i < scf.length := by omega
  have e1 : (scf ++ [({} : Part)])[i]? = some p := by
    rw [List.getElem?_append_left hi, h1]
  unfold nextPart
  simp only [e1]
  refine ⟨_, rfl, ?_, ?_, ?_, ?_, ?_, ?_⟩
  · split <;> simp
  · split
    · next hl =>
      rw [h5] at hl ⊢
      have hk : kids ≠ [] := by intro h0; simp [h0] at hl
      have := sizes_tail_lt hk
      rw [if_neg hk, modify_ne (by omega), modify_ne (by omega)]
      simp
    · rw [modify_ne (by omega)]
      simp
  · intro j hj
    split
    · next hl =>
      rw [h5] at hl ⊢
      have hk : kids ≠ [] := by intro h0; simp [h0] at hl
      rw [if_neg hk, modify_ne (by omega), modify_ne (by omega)]
      simp [List.getElem?_append_left (show j < scf.length by omega)]
    · rw [modify_ne (by omega)]
      simp [List.getElem?_append_left (show j < scf.length by omega)]
  · have hfc : (if p.childcnt = 0 then scf.length else p.firstchild) = i + 1 := by
      rw [h3]
      cases kids with
      | nil => simpa [CM.sizes] using h7.symm
      | cons k ks => simpa using h4 (by simp)
    split
    · next hl =>
      rw [h5] at hl ⊢
      have hk : kids ≠ [] := by intro h0; simp [h0] at hl
      rw [if_neg hk, modify_eq, modify_ne (by omega), e1]
      simp only [Option.map_some]
      exact ⟨_, rfl, h2, by rw [h3], hfc, rfl⟩
    · rw [modify_eq, e1]
      exact ⟨_, rfl, h2, by simp [h3], hfc, rfl⟩
  · split
    · next hl =>
      rw [h5] at hl ⊢
      have hk : kids ≠ [] := by intro h0; simp [h0] at hl
      have := sizes_tail_lt hk
      rw [if_neg hk]
      refine h6.relink (fun q hq => ?_) fun j a b c => ?_
      · rw [modify_ne (by omega), modify_eq,
          List.getElem?_append_left (by omega), hq]
        exact ⟨_, rfl, rfl, rfl, rfl, rfl, rfl⟩
      · rw [modify_ne (by omega), modify_ne (by omega),
          List.getElem?_append_left (by omega)]
    · refine h6.congr fun j a b => ?_
      rw [modify_ne (by omega), List.getElem?_append_left (by omega)]
  · intro hk
    have := sizes_tail_lt hk
    rw [h5, if_neg hk, if_pos (by omega), modify_ne (by omega), modify_eq, List.getElem?_append_left (by omega)]
    have : i + 1 + CM.sizes kids.tail < scf.length := by omega
    rw [List.getElem?_eq_getElem this]
    exact ⟨_, rfl, rfl⟩

/-- Adding a name to the innermost open group. -/
theorem add_name {scf : List Part} {ty : CType} {i : Nat} {kids : List CM} (is : List Nat)
    (h : Top scf ty i kids) (q : Quant) (n : List UInt8) :
    ∃ scf', nextPart scf (i :: is) = some scf' ∧
      Top (scf'.modify scf.length fun p => { p with type := .NAME, quant := q, name := n }) ty i
        (.name q n :: kids) ∧
      (∀ fs, Below scf i is fs →
        Below (scf'.modify scf.length fun p => { p with type := .NAME, quant := q, name := n }) i is fs) := by
  obtain ⟨scf', h0, hl, hn, hb, ⟨p, p1, p2, p3, p4, p5⟩, hk, hlink⟩ := nextPart_top is h
  have hlen : i + 1 + CM.sizes kids = scf.length := by
    obtain ⟨_, _, _, _, _, _, _, h⟩ := h; exact h
  refine ⟨scf', h0, ⟨p, ?_, p2, p3, fun _ => p4, ?_, ⟨hk.congr fun j a b => ?_, ?_, fun hne => ?_⟩, ?_⟩,
    fun fs hfs => hfs.congr fun j hj => ?_⟩
  · rw [modify_ne (by omega)]; simpa using p1
  · simp only [reduceCtorEq, if_false, List.tail_cons, p5]; omega
  · rw [modify_ne (by omega)]
  · refine ⟨{ ({} : Part) with type := .NAME, quant := q, name := n }, ?_, rfl, rfl, rfl⟩
    rw [hlen, modify_eq, hn]; rfl
  · obtain ⟨r, r1, r2⟩ := hlink hne
    have := sizes_tail_lt hne
    refine ⟨r, ?_, by rw [r2]; omega⟩
    rw [modify_ne (by omega)]; simpa using r1
  · simp only [CM.sizes, CM.size, List.length_modify, hl]; omega
  · rw [modify_ne (by omega), hb j hj]

/-- Opening a group inside the innermost open group. -/
theorem open_group {scf : List Part} {i : Nat} {is : List Nat} {f : Frame} {fs : List Frame}
    (h : Top scf f.ty i f.kids) (hb : Below scf i is fs) :
    ∃ scf', nextPart scf (i :: is) = some scf' ∧ scf.length < scf'.length ∧
      Top (scf'.modify scf.length fun p => { p with type := .SEQ }) .SEQ scf.length [] ∧
      Below (scf'.modify scf.length fun p => { p with type := .SEQ }) scf.length (i :: is) (f :: fs) := by
  obtain ⟨scf', h0, hl, hn, hbl, ⟨p, p1, p2, p3, p4, p5⟩, hk, hlink⟩ := nextPart_top is h
  have hlen : i + 1 + CM.sizes f.kids = scf.length := by
    obtain ⟨_, _, _, _, _, _, _, h⟩ := h; exact h
  refine ⟨scf', h0, by omega, ⟨{ ({} : Part) with type := .SEQ }, ?_, rfl, rfl, by simp, rfl, trivial, ?_⟩,
    ⟨p, ?_, p2, p3, p4, p5, hk.congr fun j a b => ?_, fun hne => ?_, hlen,
      hb.congr fun j hj => ?_⟩⟩
  · rw [modify_eq, hn]; rfl
  · simp [CM.sizes, hl]
  · rw [modify_ne (by omega)]; simpa using p1
  · rw [modify_ne (by omega)]
  · obtain ⟨r, r1, r2⟩ := hlink hne
    have := sizes_tail_lt hne
    refine ⟨r, ?_, r2⟩
    rw [modify_ne (by omega)]; simpa using r1
  · rw [modify_ne (by omega), hbl j hj]

/-- The first group. -/
theorem open_first : ∃ scf', nextPart [] [] = some scf' ∧ 0 < scf'.length ∧
    Top (scf'.modify 0 fun p => { p with type := .SEQ }) .SEQ 0 [] := by
  refine ⟨[{}], rfl, by simp, _, rfl, rfl, rfl, by simp, rfl, trivial, by simp [CM.sizes]⟩

theorem Top.lt {scf : List Part} {ty : CType} {i : Nat} {kids : List CM} (h : Top scf ty i kids) :
    i < scf.length := by
  obtain ⟨_, _, _, _, _, _, _, h⟩ := h; omega

/-- Changing the type of the innermost open group. -/
theorem Top.setType {scf : List Part} {ty : CType} {i : Nat} {kids : List CM}
    (h : Top scf ty i kids) (ty' : CType) (g : Part → Part)
    (hg : ∀ p, p.type = ty → g p = { p with type := ty' }) : Top (scf.modify i g) ty' i kids := by
  obtain ⟨p, h1, h2, h3, h4, h5, h6, h7⟩ := h
  refine ⟨{ p with type := ty' }, ?_, rfl, h3, h4, h5, h6.congr fun j a b => ?_, by simpa using h7⟩
  · rw [modify_eq, h1]; simp [hg p h2]
  · rw [modify_ne (by omega)]

/-- Closing the innermost open group makes it a finished tree. -/
theorem Top.lay {scf : List Part} {ty : CType} {i : Nat} {kids : List CM}
    (h : Top scf ty i kids) (hty : ty ≠ .NAME) (q : Quant) :
    Lay (scf.modify i fun p => { p with quant := q }) i (.group ty q kids.reverse) := by
  obtain ⟨p, h1, h2, h3, h4, h5, h6, h7⟩ := h
  refine ⟨{ p with quant := q }, ?_, h2, hty, rfl, by simpa using h3, fun hne => h4 (by simpa using hne), ?_⟩
  · rw [modify_eq, h1]; rfl
  · refine h6.lays.congr fun j a b => ?_
    rw [modify_ne (by omega)]

theorem close_group {scf : List Part} {i i' : Nat} {is : List Nat} {f : Frame} {ty : CType}
    {kids : List CM} {fs : List Frame}
    (h : Top scf ty i kids) (hty : ty ≠ .NAME) (hb : Below scf i (i' :: is) (f :: fs)) (q : Quant) :
    Top (scf.modify i fun p => { p with quant := q }) f.ty i' (.group ty q kids.reverse :: f.kids) ∧
      Below (scf.modify i fun p => { p with quant := q }) i' is fs := by
  have hl := h.lay hty q
  obtain ⟨p, h1, h2, h3, h4, h5, h6, h7⟩ := h
  obtain ⟨p', g1, g2, g3, g4, g5, g6, g7, g8, g9⟩ := hb
  have e : ∀ j, j < i → (scf.modify i fun p => { p with quant := q })[j]? = scf[j]? := by
    intro j hj
    rw [modify_ne (by omega)]
  refine ⟨⟨p', by rw [e _ (by omega)]; exact g1, g2, g3, fun _ => g4, ?_,
    ⟨g6.congr fun j a b => e _ (by omega), by rw [g8]; exact hl, fun hne => ?_⟩, ?_⟩,
    g9.congr fun j a => e _ (by omega)⟩
  · simp only [reduceCtorEq, if_false, List.tail_cons, g5, g8]
  · have := sizes_tail_lt hne
    rw [e _ (by omega), g8]
    exact g7 hne
  · simp only [CM.sizes, CM.size, sizes_reverse, List.length_modify]; omega

/-! ### `build_node` copies the tree -/

theorem copyStr_ok (m : Block) (l : List UInt8) (h : m.strpos + l.length ≤ m.strs.length) :
    ∃ strs', copyStr m l = some { m with strs := strs', strpos := m.strpos + l.length } ∧
      strs'.length = m.strs.length ∧
      (∀ j, j < m.strpos ∨ m.strpos + l.length ≤ j → strs'[j]? = m.strs[j]?) ∧
      (∀ j, j < l.length → strs'[m.strpos + j]? = l[j]?) := by
  induction l generalizing m with
  | nil => exact ⟨m.strs, rfl, rfl, fun _ _ => rfl, by simp⟩
  | cons c l ih =>
    simp only [List.length_cons] at h
    rw [copyStr, if_pos (by omega)]
    obtain ⟨strs', h1, h2, h3, h4⟩ :=
      ih { m with strs := m.strs.set m.strpos c, strpos := m.strpos + 1 } (by simp only [List.length_set]; omega)
    refine ⟨strs', ?_, by simpa using h2, fun j hj => ?_, fun j hj => ?_⟩
    · rw [h1]; simp; omega
    · simp only [List.length_cons] at hj
      rw [h3 j (by simp; omega)]
      simp only
      rw [List.getElem?_set_ne (by omega)]
    · cases j with
      | zero =>
        rw [h3 _ (.inl (by simp))]
        simp only [Nat.add_zero]
        rw [List.getElem?_set_self (by omega)]
        simp
      | succ j =>
        have := h4 j (by simpa using hj)
        simp only at this
        rw [← Nat.add_assoc, Nat.add_right_comm, this]
        simp

/-- `m'` has the parts of `m` that were filled between two moments, and cell `d`. -/
def Keeps2 (m m' : Block) (d c1 c2 s1 s2 : Nat) : Prop :=
  m'.cells[d]? = m.cells[d]? ∧ (∀ j, c1 ≤ j → j < c2 → m'.cells[j]? = m.cells[j]?) ∧
    (∀ j, s1 ≤ j → j < s2 → m'.strs[j]? = m.strs[j]?)

theorem drop_of_get {l : List UInt8} {o : Nat} {n : List UInt8}
    (h : ∀ j, j < n.length → l[o + j]? = n[j]?) : ∃ rest, l.drop o = n ++ rest := by
  induction n generalizing o with
  | nil => exact ⟨_, rfl⟩
  | cons c n ih =>
    obtain ⟨rest, hr⟩ := ih (o := o + 1) fun j hj => by
      have := h (j + 1) (by simpa using hj)
      rw [show o + 1 + j = o + (j + 1) by omega, this]; simp
    have h0 := h 0 (by simp)
    simp only [Nat.add_zero, List.getElem?_cons_zero] at h0
    have hlt : o < l.length := by
      rcases Nat.lt_or_ge o l.length with h | h
      · exact h
      · rw [List.getElem?_eq_none h] at h0; simp at h0
    refine ⟨rest, ?_⟩
    rw [List.drop_eq_getElem_cons hlt, hr]
    rw [List.getElem?_eq_getElem hlt] at h0
    simp at h0
    simp [h0]

theorem length_le_sizes (ks : List CM) : ks.length ≤ CM.sizes ks := by
  induction ks with
  | nil => simp
  | cons k ks ih => have := k.size_pos; simp only [List.length_cons, CM.sizes]; omega

mutual
theorem buildNode_ok {scf : List Part} {t : CM} {src : Nat} (hl : Lay scf src t) (fuel dest : Nat)
    (hf : t.size ≤ fuel) (m : Block) (hd : dest < m.contpos) (hd' : dest < m.cells.length)
    (hc : m.contpos + (t.size - 1) ≤ m.cells.length)
    (hs : m.strpos + t.bytes ≤ m.strs.length) :
    ∃ m', buildNode scf fuel src dest m = some m' ∧ m'.contpos = m.contpos + (t.size - 1) ∧
      m'.strpos = m.strpos + t.bytes ∧ m'.cells.length = m.cells.length ∧
      m'.strs.length = m.strs.length ∧
      (∀ j, j ≠ dest → (j < m.contpos ∨ m'.contpos ≤ j) → m'.cells[j]? = m.cells[j]?) ∧
      (∀ j, j < m.strpos ∨ m'.strpos ≤ j → m'.strs[j]? = m.strs[j]?) ∧
      (∀ m'', Keeps2 m' m'' dest m.contpos m'.contpos m.strpos m'.strpos → Denotes m'' dest t) := by
  match t with
  | .name q n =>
    obtain ⟨p, h1, h2, h3, h4⟩ := hl
    obtain ⟨f, rfl⟩ : ∃ f, fuel = f + 1 := ⟨fuel - 1, by simp [CM.size] at hf; omega⟩
    simp only [CM.size, CM.bytes] at hc hs
    obtain ⟨strs', g1, g2, g3, g4⟩ := copyStr_ok
      { m with cells := m.cells.set dest ⟨p.type, p.quant, some m.strpos, 0, none⟩ } (p.name ++ [0])
      (by simp [h4]; omega)
    refine ⟨⟨m.cells.set dest ⟨p.type, p.quant, some m.strpos, 0, none⟩, strs', m.contpos,
      m.strpos + (p.name ++ [0]).length⟩, ?_, ?_, ?_, ?_, ?_, ?_, ?_, ?_⟩
    · simp only [buildNode, h1, h2, if_true]
      rw [h2] at g1
      rw [g1]
    · simp [CM.size]
    · simp [CM.bytes, h4]
    · simp
    · simpa using g2
    · intro j hj _
      simp only
      rw [List.getElem?_set_ne (fun h => hj h.symm)]
    · intro j hj
      exact g3 j (by simpa using hj)
    · rintro m'' ⟨k1, k2, k3⟩
      simp only at k1 k3
      have hst : ∀ j, j < (n ++ [0]).length → m''.strs[m.strpos + j]? = (n ++ [0])[j]? := by
        intro j hj
        rw [k3 _ (by omega) (by rw [h4]; omega)]
        have := g4 j (by rw [h4]; exact hj)
        simpa [h4] using this
      obtain ⟨rest, hr⟩ := drop_of_get hst
      refine ⟨m.strpos, rest, ?_, by rw [hr]; simp⟩
      rw [k1, List.getElem?_set_self hd', h2, h3]
  | .group ty q ks =>
    obtain ⟨p, h1, h2, hn, h3, h4, h5, h6⟩ := hl
    obtain ⟨f, rfl⟩ : ∃ f, fuel = f + 1 := ⟨fuel - 1, by simp only [CM.size] at hf; omega⟩
    simp only [CM.size, CM.bytes] at hf hc hs
    have hlen := length_le_sizes ks
    obtain ⟨m', g1, g2, g3, g4, g5, g6, g7, g8⟩ := buildKids_ok (ks := ks) (f := f)
      (cn := src + 1) h6 (by omega) m.contpos
      { m with cells := m.cells.set dest ⟨p.type, p.quant, none, p.childcnt, some m.contpos⟩
               contpos := m.contpos + p.childcnt } (by simp [h4]) (by simp; omega)
      (by simp; omega)
    simp only at g2 g3 g4 g5 g6 g7 g8
    refine ⟨m', ?_, ?_, ?_, ?_, ?_, ?_, ?_, ?_⟩
    · simp only [buildNode, h1]
      rw [if_neg (by rw [h2]; exact hn), if_neg (by omega)]
      cases ks with
      | nil =>
        rw [← g1]
        simp only [List.length_nil] at h4
        rw [h4]
        rfl
      | cons k ks =>
        rw [h4, h5 (by simp)]
        rw [h4] at g1
        exact g1
    · rw [g2]; simp only [CM.size]; omega
    · rw [g3, CM.bytes]
    · rw [g4]; simp
    · rw [g5]
    · intro j hj hj'
      rw [g6 j (by omega) (by omega), List.getElem?_set_ne (fun h => hj h.symm)]
    · intro j hj
      exact g7 j hj
    · rintro m'' ⟨k1, k2, k3⟩
      refine ⟨some m.contpos, ?_, ?_⟩
      · rw [k1, g6 dest (by omega) (by omega), List.getElem?_set_self hd', h2, h3, h4]
      · exact g8 m'' (fun j a => k2 j (by omega) (by omega)) k3
  termination_by (sizeOf t, 0)
theorem buildKids_ok {scf : List Part} {ks : List CM} {f cn : Nat} (hl : Lays scf cn ks)
    (hf : CM.sizes ks ≤ f) (dest : Nat) (m : Block) (hd : dest + ks.length ≤ m.contpos)
    (hc : m.contpos + (CM.sizes ks - ks.length) ≤ m.cells.length)
    (hs : m.strpos + CM.bytess ks ≤ m.strs.length) :
    ∃ m', buildKids scf (buildNode scf f) ks.length cn dest m = some m' ∧
      m'.contpos = m.contpos + (CM.sizes ks - ks.length) ∧
      m'.strpos = m.strpos + CM.bytess ks ∧ m'.cells.length = m.cells.length ∧
      m'.strs.length = m.strs.length ∧
      (∀ j, (j < dest ∨ dest + ks.length ≤ j) → (j < m.contpos ∨ m'.contpos ≤ j) →
        m'.cells[j]? = m.cells[j]?) ∧
      (∀ j, j < m.strpos ∨ m'.strpos ≤ j → m'.strs[j]? = m.strs[j]?) ∧
      (∀ m'' : Block, (∀ j, (dest ≤ j ∧ j < dest + ks.length) ∨ (m.contpos ≤ j ∧ j < m'.contpos) →
          m''.cells[j]? = m'.cells[j]?) →
        (∀ j, m.strpos ≤ j → j < m'.strpos → m''.strs[j]? = m'.strs[j]?) →
        DenotesAll m'' (some dest) ks) := by
  match ks with
  | [] =>
    refine ⟨m, rfl, by simp [CM.sizes], by simp [CM.bytess], rfl, rfl, fun _ _ _ => rfl,
      fun _ _ => rfl, fun _ _ _ => trivial⟩
  | k :: ks =>
    have hp := k.size_pos
    have hlen := length_le_sizes ks
    obtain ⟨l1, l2, l3⟩ := hl
    simp only [CM.sizes, CM.bytess, List.length_cons] at hf hc hs hd
    obtain ⟨m1, a1, a2, a3, a4, a5, a6, a7, a8⟩ :=
      buildNode_ok l1 f dest (by omega) m (by omega) (by omega) (by omega) (by omega)
    obtain ⟨pc, hpc⟩ : ∃ pc, scf[cn]? = some pc := by
      cases k with
      | name => obtain ⟨p, h, _⟩ := l1; exact ⟨p, h⟩
      | group => obtain ⟨p, h, _⟩ := l1; exact ⟨p, h⟩
    cases ks with
    | nil =>
      refine ⟨m1, ?_, ?_, ?_, a4, a5, ?_, a7, ?_⟩
      · simp only [List.length_cons, List.length_nil, buildKids, a1, Option.bind_some, hpc]
      · simp only [a2, CM.sizes, List.length_cons, List.length_nil]; omega
      · simp only [a3, CM.bytess]; omega
      · intro j h1 h2
        simp only [List.length_cons, List.length_nil] at h1
        exact a6 j (by omega) h2
      · intro m'' h1 h2
        simp only [List.length_cons, List.length_nil] at h1
        exact ⟨dest, rfl, a8 m'' ⟨h1 dest (by omega), fun j b c => h1 j (by omega), h2⟩, trivial⟩
    | cons k2 ks =>
      obtain ⟨p', hp', hsib⟩ := l2 (by simp)
      obtain rfl : p' = pc := by rw [hpc] at hp'; injection hp' with h; exact h.symm
      obtain ⟨m2, b1, b2, b3, b4, b5, b6, b7, b8⟩ :=
        buildKids_ok (f := f) l3 (by omega) (dest + 1) m1 (by omega) (by omega) (by omega)
      refine ⟨m2, ?_, ?_, ?_, by omega, by omega, ?_, ?_, ?_⟩
      · rw [List.length_cons, buildKids, a1]
        simp only [Option.bind_some, hpc, hsib]
        exact b1
      · rw [b2, a2]
        simp only [CM.sizes, List.length_cons] at hlen ⊢; omega
      · rw [b3, a3]; simp only [CM.bytess]; omega
      · intro j h1 h2
        simp only [List.length_cons] at h1 hlen
        rw [b6 j (by simp only [List.length_cons]; omega) (by omega), a6 j (by omega) (by omega)]
      · intro j h1
        rw [b7 j (by omega), a7 j (by omega)]
      · intro m'' h1 h2
        simp only [List.length_cons] at h1
        refine ⟨dest, rfl, a8 m'' ⟨?_, fun j c d => ?_, fun j c d => ?_⟩, b8 m'' (fun j c => ?_) fun j c d => ?_⟩
        · rw [h1 dest (by omega), b6 dest (by omega) (by omega)]
        · rw [h1 j (by omega), b6 j (by simp only [List.length_cons] at hd ⊢; omega) (by omega)]
        · rw [h2 j (by omega) (by omega), b7 j (by omega)]
        · exact h1 j (by simp only [List.length_cons] at c; omega)
        · exact h2 j (by omega) d
  termination_by (sizeOf ks, 1)
end

end Verif
