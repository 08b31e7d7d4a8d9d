import Verif.StringPool

/-! C43: strings handed out by the pool never change. -/

namespace Verif.C43
open Spec

/-! ### Specification: a pool is a list of strings and a string being built -/

/-- The bytes a conversion delivers, given all the room it can use. -/
def converted (x : XEnc) (b : Buf) : List UInt8 := (x.conv b (4 * b.length + 4)).out

structure APool where
  done : List (List UInt8)
  cur : List UInt8

def astep (p : APool) : PoolOp → Option APool
  | .char c => some ⟨p.done, p.cur ++ [c]⟩
  | .append x b => some ⟨p.done, p.cur ++ converted x b⟩
  | .cstring s => some ⟨p.done, p.cur ++ s⟩
  | .finish => some ⟨p.done ++ [p.cur], []⟩
  | .clearCurrent => some ⟨p.done, []⟩
  | .replaceLast c => if p.cur = [] then none else some ⟨p.done, p.cur.dropLast ++ [c]⟩
  | .backtrack => if p.cur = [] then none else some ⟨p.done, p.cur.dropLast⟩
  | .store x b => some ⟨p.done, p.cur ++ converted x b ++ [0]⟩
  | .copy s => some ⟨p.done ++ [p.cur ++ s ++ [0]], []⟩
  | .copyN s => some ⟨p.done ++ [p.cur ++ s], []⟩
  | .clear => some ⟨[], []⟩

def arun (p : APool) : List PoolOp → Option APool
  | [] => some p
  | o :: os => (astep p o).bind fun q => arun q os

/-- What a concrete pool holds. -/
def abs (p : Pool) : APool := ⟨p.done.map fun s => read p.mem s.1 s.2, p.current⟩

/-! ### Memory -/

theorem read_length (mem a n) : (read mem a n).length = n := by simp [read]

theorem read_congr {m m' : Nat → UInt8} {a n} (h : ∀ i < n, m (a + i) = m' (a + i)) :
    read m a n = read m' a n := by
  unfold read
  apply List.map_congr_left
  intro i hi
  exact h i (by simpa using hi)

theorem read_add (mem a n k) : read mem a (n + k) = read mem a n ++ read mem (a + n) k := by
  unfold read
  rw [List.range_add, List.map_append, List.map_map]
  congr 1
  apply List.map_congr_left
  intro i _
  simp [Nat.add_assoc]

theorem write_in {mem a l i} (h : i < l.length) : write mem a l (a + i) = l[i] := by
  unfold write
  rw [if_pos ⟨by omega, by omega⟩]
  simp [h]

theorem write_out {mem a l i} (h : i < a ∨ a + l.length ≤ i) : write mem a l i = mem i := by
  unfold write
  rw [if_neg (by omega)]

theorem read_write_same (mem a l) : read (write mem a l) a l.length = l := by
  apply List.ext_getElem
  · simp [read]
  · intro i h1 h2
    simp only [read, List.getElem_map, List.getElem_range]
    exact write_in h2

theorem read_write_disj {mem a l b n} (h : b + n ≤ a ∨ a + l.length ≤ b) :
    read (write mem a l) b n = read mem b n :=
  read_congr fun i hi => write_out (by omega)

/-! ### Converters deliver everything -/

/-- With at least four bytes of room and as much room as there is input, a conversion either
delivers everything or makes progress, and what is delivered is a prefix of everything. -/
def Drains (x : XEnc) : Prop :=
  ∀ b cap, 4 ≤ cap → b.length ≤ cap →
    (x.conv b cap).out.length ≤ cap ∧
    ((x.conv b cap).res ≠ .outputExhausted → (x.conv b cap).out = converted x b) ∧
    ((x.conv b cap).res = .outputExhausted → (x.conv b cap).rest.length < b.length ∧
      (x.conv b cap).out ++ converted x (x.conv b cap).rest = converted x b)

def Fits (step : Buf → Nat → CStep) : Prop :=
  ∀ b cap, b ≠ [] → 4 ≤ cap → step b cap ≠ .stop .outputExhausted

theorem loop_len {step} (hu : C12.Uniform step) (b : Buf) (cap : Nat) :
    (convLoop step b cap).out.length ≤ cap := by
  fun_induction convLoop step b cap with
  | case1 => simp
  | case2 => simp
  | case3 b cap hb w k hs c ih =>
    have : w.length ≤ cap := by
      rcases hu b hb with ⟨w', k', h⟩ | h
      · rcases h cap with ⟨h1, h2⟩ | ⟨_, h2⟩
        · rw [hs] at h2; cases h2; exact h1
        · rw [hs] at h2; cases h2
      · rcases h cap with h | h <;> rw [hs] at h <;> cases h
    have ih : c.out.length ≤ cap - w.length := ih
    rw [List.length_append]; omega

theorem loop_big {step} (hu : C12.Uniform step) (hf : Fits step) (b : Buf) (cap : Nat)
    (h : 4 * b.length ≤ cap) : (convLoop step b cap).res ≠ .outputExhausted := by
  fun_induction convLoop step b cap with
  | case1 => simp
  | case2 b cap hb r hs =>
    intro hr
    subst hr
    have := List.length_pos_iff.2 hb
    exact hf b cap hb (by omega) hs
  | case3 b cap hb w k hs c ih =>
    have hl := List.length_pos_iff.2 hb
    have : w.length ≤ 4 := by
      rcases hu b hb with ⟨w', k', h⟩ | h
      · rcases h cap with ⟨h1, h2⟩ | ⟨_, h2⟩
        · rw [hs] at h2; cases h2
          rcases h 4 with ⟨h3, _⟩ | ⟨_, h4⟩
          · exact h3
          · exact absurd h4 (hf b 4 hb (by omega))
        · rw [hs] at h2; cases h2
      · rcases h cap with h | h <;> rw [hs] at h <;> cases h
    refine ih ?_
    rw [List.length_drop]; omega

theorem loop_rest {step} (b : Buf) (cap : Nat) :
    ∃ k, (convLoop step b cap).rest = b.drop k := by
  fun_induction convLoop step b cap with
  | case1 => exact ⟨0, rfl⟩
  | case2 => exact ⟨0, rfl⟩
  | case3 b cap hb w k hs c ih =>
    obtain ⟨j, h⟩ := ih
    exact ⟨k + 1 + j, by rw [h, List.drop_drop]⟩

/-- Splitting a conversion at any room. -/
theorem loop_split {step} (hu : C12.Uniform step) (b : Buf) (cap big : Nat)
    (hbig : (convLoop step b big).res ≠ .outputExhausted) :
    ((convLoop step b cap).res ≠ .outputExhausted → (convLoop step b cap).out = (convLoop step b big).out) ∧
    ((convLoop step b cap).res = .outputExhausted → ∃ big',
      (convLoop step (convLoop step b cap).rest big').res ≠ .outputExhausted ∧
      (convLoop step b cap).out ++ (convLoop step (convLoop step b cap).rest big').out =
        (convLoop step b big).out) := by
  induction hn : b.length using Nat.strongRecOn generalizing b cap big with
  | _ n ih =>
  subst hn
  by_cases hb : b = []
  · subst hb
    simp [convLoop]
  · have hl := List.length_pos_iff.2 hb
    rcases hu b hb with ⟨w, k, h⟩ | h
    · rcases h big with ⟨h1, h2⟩ | ⟨_, h2⟩
      · rw [convLoop, dif_neg hb, h2] at hbig
        simp only at hbig
        rcases h cap with ⟨h3, h4⟩ | ⟨h3, h4⟩
        · have ih := ih (b.drop (k + 1)).length (by rw [List.length_drop]; omega) (b.drop (k + 1))
            (cap - w.length) (big - w.length) hbig rfl
          have e1 : convLoop step b cap = ⟨w ++ (convLoop step (b.drop (k + 1)) (cap - w.length)).out,
              (convLoop step (b.drop (k + 1)) (cap - w.length)).rest,
              (convLoop step (b.drop (k + 1)) (cap - w.length)).res⟩ := by
            conv => lhs; rw [convLoop, dif_neg hb, h4]
          have e2 : (convLoop step b big).out = w ++ (convLoop step (b.drop (k + 1)) (big - w.length)).out := by
            conv => lhs; rw [convLoop, dif_neg hb, h2]
          rw [e1, e2]
          simp only
          refine ⟨fun hr => by rw [ih.1 hr], fun hr => ?_⟩
          obtain ⟨big', h5, h6⟩ := ih.2 hr
          exact ⟨big', h5, by rw [List.append_assoc, h6]⟩
        · have e1 : convLoop step b cap = ⟨[], b, .outputExhausted⟩ := by
            rw [convLoop, dif_neg hb, h4]
          rw [e1]
          refine ⟨fun hr => absurd rfl hr, fun _ => ⟨big, ?_, by simp⟩⟩
          rw [convLoop, dif_neg hb, h2]; exact hbig
      · rw [convLoop, dif_neg hb, h2] at hbig; exact absurd rfl hbig
    · have hb2 : step b big = .stop .inputIncomplete := by
        rcases h big with h1 | h1
        · exact h1
        · rw [convLoop, dif_neg hb, h1] at hbig; exact absurd rfl hbig
      have e2 : convLoop step b big = ⟨[], b, .inputIncomplete⟩ := by
        rw [convLoop, dif_neg hb, hb2]
      rcases h cap with h1 | h1
      · have e1 : convLoop step b cap = ⟨[], b, .inputIncomplete⟩ := by
          rw [convLoop, dif_neg hb, h1]
        rw [e1, e2]; simp
      · have e1 : convLoop step b cap = ⟨[], b, .outputExhausted⟩ := by
          rw [convLoop, dif_neg hb, h1]
        rw [e1, e2]
        refine ⟨fun hr => absurd rfl hr, fun _ => ⟨big, by simp [e2], by simp [e2]⟩⟩

/-- With room for a character, progress is made. -/
theorem loop_progress {step} (hf : Fits step) (b : Buf) (cap : Nat) (hc : 4 ≤ cap)
    (h : (convLoop step b cap).res = .outputExhausted) :
    (convLoop step b cap).rest.length < b.length := by
  by_cases hb : b = []
  · subst hb; rw [convLoop, dif_pos rfl] at h; simp at h
  · have hl := List.length_pos_iff.2 hb
    rw [convLoop, dif_neg hb] at h ⊢
    cases hs : step b cap with
    | stop r =>
      rw [hs] at h
      simp only at h
      subst h
      exact absurd hs (hf b cap hb hc)
    | emit w k =>
      simp only
      obtain ⟨j, hj⟩ := loop_rest (step := step) (b.drop (k + 1)) (cap - w.length)
      rw [hj]; simp only [List.length_drop]; omega

theorem loop_drains {step} (hu : C12.Uniform step) (hf : Fits step) (x : XEnc)
    (hx : x.conv = convLoop step) : Drains x := by
  intro b cap h4 hl
  unfold converted
  rw [hx]
  obtain ⟨s1, s2⟩ := loop_split hu b cap (4 * b.length + 4) (loop_big hu hf _ _ (by omega))
  refine ⟨loop_len hu b cap, s1, fun hr => ⟨loop_progress hf b cap h4 hr, ?_⟩⟩
  obtain ⟨big', h5, h6⟩ := s2 hr
  rw [← h6]
  congr 1
  exact (loop_split hu _ _ big' h5).1 (loop_big hu hf _ _ (by omega))

theorem even_take (b : Buf) : (b.take (b.length / 2 * 2)).length % 2 = 0 := by
  rw [List.length_take]; omega

theorem even_drains {step} (hu : C12.Uniform step) (hf : Fits step) (x : XEnc)
    (hx : ∀ b cap, x.conv b cap = convLoop step (b.take (b.length / 2 * 2)) cap)
    (hk : ∀ b cap, b ≠ [] → ∀ w k, step b cap = .emit w k → k % 2 = 1) : Drains x := by
  have heven : ∀ b cap, b.length % 2 = 0 → (convLoop step b cap).rest.length % 2 = 0 := by
    intro b cap
    fun_induction convLoop step b cap with
    | case1 => simp
    | case2 => intro h; exact h
    | case3 b cap hb w k hs c ih =>
      intro h
      have := hk b cap hb w k hs
      refine ih ?_
      rw [List.length_drop]; omega
  intro b cap h4 hl
  unfold converted
  rw [hx, hx]
  have hle : (b.take (b.length / 2 * 2)).length ≤ b.length := by rw [List.length_take]; omega
  generalize hb' : b.take (b.length / 2 * 2) = b' at *
  have he : b'.length % 2 = 0 := by rw [← hb']; exact even_take b
  obtain ⟨s1, s2⟩ := loop_split hu b' cap (4 * b.length + 4) (loop_big hu hf _ _ (by omega))
  refine ⟨loop_len hu b' cap, s1, fun hr => ⟨?_, ?_⟩⟩
  · have := loop_progress hf b' cap h4 hr; omega
  · obtain ⟨big', h5, h6⟩ := s2 hr
    rw [← h6, hx]
    congr 1
    have hre := heven b' cap he
    have e : ((convLoop step b' cap).rest.take ((convLoop step b' cap).rest.length / 2 * 2)) =
        (convLoop step b' cap).rest := C12.take_even hre
    rw [e]
    exact (loop_split hu _ _ big' h5).1 (loop_big hu hf _ _ (by omega))

theorem fits_latin1 : Fits latin1ConvStep := by
  intro b cap _ h
  simp only [latin1ConvStep]
  split
  · rw [if_neg (by omega)]; simp
  · rw [if_neg (by omega)]; simp

theorem fits_ascii : Fits asciiConvStep := by
  intro b cap _ h
  simp only [asciiConvStep]
  rw [if_neg (by omega)]; simp

theorem fits_utf16 (hi lo) : Fits (utf16ConvStep hi lo) := by
  intro b cap _ h
  have h0 : ¬ cap = 0 := by omega
  have h2 : ¬ cap < 2 := by omega
  have h3 : ¬ cap < 3 := by omega
  have h4 : ¬ cap < 4 := by omega
  simp only [utf16ConvStep, h0, h2, h3, h4, if_false]
  repeat' split
  all_goals simp

theorem utf16_odd (hi lo) (b : Buf) (cap : Nat) (w k) (h : utf16ConvStep hi lo b cap = .emit w k) :
    k % 2 = 1 := by
  simp only [utf16ConvStep] at h
  repeat' split at h
  all_goals first | (simp at h; done) | (simp at h; obtain ⟨_, h⟩ := h; omega)

theorem utf8_drains (x : XEnc) (hx : x.conv = utf8Convert) : Drains x := by
  intro b cap h4 hl
  unfold converted
  rw [hx]
  have h1 : ¬ cap < b.length := by omega
  have h2 : ¬ 4 * b.length + 4 < b.length := by omega
  simp only [utf8Convert, h1, h2, if_false]
  refine ⟨?_, by simp, ?_⟩
  · have : (trimUtf8 b).length ≤ b.length := by unfold trimUtf8; rw [List.length_take]; omega
    omega
  · split <;> simp

/-- Every built-in encoding can be appended to a pool. -/
theorem supported_drains {x asc} (s : XSupported x asc) : Drains x := by
  cases s with
  | utf8 ns => exact utf8_drains _ rfl
  | internalUtf8 ns => exact utf8_drains _ rfl
  | latin1 ns => exact loop_drains C12.uniform_latin1 fits_latin1 _ rfl
  | ascii ns => exact loop_drains C12.uniform_ascii fits_ascii _ rfl
  | utf16le ns =>
    exact even_drains (step := utf16ConvStep (fun b => (byteAt b 1).toNat) (fun b => (byteAt b 0).toNat)) (C12.uniform_utf16 _ _) (fits_utf16 _ _) (little2X ns)
      (fun _ _ => rfl) (fun b cap _ w k h => utf16_odd _ _ b cap w k h)
  | utf16be ns =>
    exact even_drains (step := utf16ConvStep (fun b => (byteAt b 0).toNat) (fun b => (byteAt b 1).toNat)) (C12.uniform_utf16 _ _) (fits_utf16 _ _) (big2X ns)
      (fun _ _ => rfl) (fun b cap _ w k h => utf16_odd _ _ b cap w k h)

/-! ### Invariant and refinement -/

structure Inv (p : Pool) : Prop where
  len : p.len ≤ p.cap
  away : ∀ s ∈ p.done, s.1 + s.2 ≤ p.base ∨ p.base + p.cap ≤ s.1

def NoAlias (p : Pool) : Prop :=
  p.done.Pairwise fun s t => s.2 = 0 ∨ t.2 = 0 ∨ s.1 + s.2 ≤ t.1 ∨ t.1 + t.2 ≤ s.1

/-- Preservation: the strings handed out are the same and read the same. -/
structure Keeps (p q : Pool) (cur : List UInt8) : Prop where
  inv : Inv q
  done : q.done = p.done
  same : ∀ s ∈ p.done, read q.mem s.1 s.2 = read p.mem s.1 s.2
  cur : q.current = cur

theorem Keeps.trans {p q r c d} (h : Keeps p q c) (h' : Keeps q r d) : Keeps p r d :=
  ⟨h'.inv, h'.done.trans h.done,
    fun s hs => (h'.same s (by rw [h.done]; exact hs)).trans (h.same s hs), h'.cur⟩

theorem reserve_keeps (al : Allocator) {p : Pool} (h : Inv p) (n : Nat) :
    Keeps p (p.reserve al n) p.current ∧ (p.reserve al n).len = p.len ∧
      p.len + n ≤ (p.reserve al n).cap := by
  unfold Pool.reserve
  split
  · exact ⟨⟨h, rfl, fun _ _ => rfl, rfl⟩, rfl, by assumption⟩
  · have h1 := al.room p (p.len + n)
    have h2 := al.disjoint p (p.len + n)
    refine ⟨⟨⟨by simp only; omega, h2⟩, rfl, ?_, ?_⟩, rfl, h1⟩
    · intro s hs
      refine read_write_disj ?_
      rw [read_length]
      have := h2 s hs
      omega
    · have := read_write_same p.mem (al.grow p (p.len + n)).1 (read p.mem p.base p.len)
      rw [read_length] at this
      exact this

/-- Writing `l` at the end of the current vector within its capacity. -/
theorem write_keeps {p : Pool} (h : Inv p) (l : List UInt8) (hl : p.len + l.length ≤ p.cap) :
    Keeps p { p with mem := write p.mem (p.base + p.len) l, len := p.len + l.length }
      (p.current ++ l) := by
  refine ⟨⟨hl, h.away⟩, rfl, ?_, ?_⟩
  · intro s hs
    refine read_write_disj ?_
    have := h.away s hs
    omega
  · show read _ p.base (p.len + l.length) = _
    rw [read_add, read_write_same, read_write_disj (by omega)]
    rfl

theorem char_keeps (al : Allocator) {p : Pool} (h : Inv p) (c : UInt8) :
    Keeps p (p.appendChar al c) (p.current ++ [c]) := by
  obtain ⟨k, hl, hc⟩ := reserve_keeps al h 1
  have := write_keeps k.inv [c] (by simp; omega)
  rw [k.cur] at this
  exact k.trans this

theorem cstring_keeps (al : Allocator) {p : Pool} (h : Inv p) (s : List UInt8) :
    Keeps p (p.appendCString al s) (p.current ++ s) := by
  induction s generalizing p with
  | nil => simpa [Pool.appendCString] using ⟨h, rfl, fun _ _ => rfl, rfl⟩
  | cons c s ih =>
    have k := char_keeps al h c
    have := ih k.inv
    rw [k.cur, List.append_assoc] at this
    exact k.trans this

theorem step_keeps (al : Allocator) {x : XEnc} (hx : Drains x) {p : Pool} (h : Inv p) (b : Buf) :
    Keeps p (p.appendStep al x b).1 (p.current ++ (p.appendStep al x b).2.out) ∧
    (∃ cap, 4 ≤ cap ∧ b.length ≤ cap ∧ (p.appendStep al x b).2 = x.conv b cap) := by
  obtain ⟨k, hl, hc⟩ := reserve_keeps al h (max b.length 4)
  unfold Pool.appendStep
  simp only
  generalize p.reserve al (max b.length 4) = q at *
  have hcap : max b.length 4 ≤ q.cap - q.len := by omega
  have hout := (hx b (q.cap - q.len) (by omega) (by omega)).1
  refine ⟨k.trans ?_, q.cap - q.len, by omega, by omega, rfl⟩
  generalize (x.conv b (q.cap - q.len)).out = o at *
  have hqi := k.inv.len
  have h1 : Keeps q { q with mem := write q.mem (q.base + q.len) (List.replicate (q.cap - q.len) 0) }
      p.current := by
    refine ⟨⟨k.inv.len, k.inv.away⟩, rfl, ?_, ?_⟩
    · intro s hs
      refine read_write_disj ?_
      have := k.inv.away s hs
      simp only [List.length_replicate]
      omega
    · rw [← k.cur]
      show read (write _ _ _) q.base q.len = _
      exact read_write_disj (by omega)
  have h2 := write_keeps h1.inv o (by simp only; omega)
  rw [h1.cur] at h2
  exact h1.trans h2

theorem append_keeps (al : Allocator) {x : XEnc} (hx : Drains x) {p : Pool} (h : Inv p) (b : Buf) :
    ∃ q, p.append al x b = some q ∧ Keeps p q (p.current ++ converted x b) := by
  induction hn : b.length using Nat.strongRecOn generalizing b p with
  | _ n ih =>
  subst hn
  obtain ⟨k, cap, h4, hl, he⟩ := step_keeps al hx h b
  obtain ⟨_, h1, h2⟩ := hx b cap h4 hl
  rw [← he] at h1 h2
  rw [Pool.append]
  by_cases hr : (p.appendStep al x b).2.res ≠ .outputExhausted
  · rw [if_pos hr]
    rw [h1 hr] at k
    exact ⟨_, rfl, k⟩
  · have hr : (p.appendStep al x b).2.res = .outputExhausted := Classical.not_not.1 hr
    obtain ⟨h3, h5⟩ := h2 hr
    rw [if_neg (by simp [hr]), if_pos h3]
    obtain ⟨q, hq, k2⟩ := ih _ h3 k.inv _ rfl
    refine ⟨q, hq, k.trans ?_⟩
    rw [k.cur, List.append_assoc, h5] at k2
    exact k2

theorem keeps_abs {p q c} (h : Keeps p q c) : abs q = ⟨(abs p).done, c⟩ := by
  unfold abs
  rw [h.cur, h.done]
  congr 1
  exact List.map_congr_left h.same

theorem finish_inv {p : Pool} : Inv p.finish :=
  ⟨Nat.le_refl _, fun s _ => .inr (Nat.zero_le _)⟩

theorem finish_abs (p : Pool) : abs p.finish = ⟨(abs p).done ++ [p.current], []⟩ := by
  simp [abs, Pool.finish, Pool.current, read]

def OpOk : PoolOp → Prop
  | .append x _ => Drains x
  | .store x _ => Drains x
  | _ => True

theorem cur_nil {p : Pool} : p.current = [] ↔ p.len = 0 := by
  rw [← List.length_eq_zero_iff, Pool.current, read_length]

/-- One operation: the concrete pool does what the specification says; it fails only where the
specification does. -/
theorem step_refines (al : Allocator) {p : Pool} (h : Inv p) (o : PoolOp) (ho : OpOk o) :
    (poolStep al p o).map abs = astep (abs p) o ∧ ∀ q, poolStep al p o = some q → Inv q := by
  have simple : ∀ {q c}, Keeps p q c → (some q).map abs = some ⟨(abs p).done, c⟩ ∧
      ∀ r, some q = some r → Inv r := by
    intro q c k
    exact ⟨by simp [keeps_abs k], by rintro r ⟨⟩; exact k.inv⟩
  cases o with
  | char c => exact simple (char_keeps al h c)
  | append x b =>
    obtain ⟨q, hq, k⟩ := append_keeps al ho h b
    have := simple k
    rw [← hq] at this
    exact this
  | cstring s => exact simple (cstring_keeps al h s)
  | finish => exact ⟨by simp [poolStep, astep, finish_abs]; rfl, by rintro q ⟨⟩; exact finish_inv⟩
  | clearCurrent =>
    exact simple (q := p.clearCurrent) (c := [])
      ⟨⟨Nat.zero_le _, h.away⟩, rfl, fun _ _ => rfl, by simp [Pool.current, Pool.clearCurrent, read]⟩
  | replaceLast c =>
    simp only [poolStep, Pool.replaceLast, astep]
    have hn : (abs p).cur = [] ↔ p.len = 0 := cur_nil
    by_cases hl : p.len = 0
    · rw [if_pos hl, if_pos (hn.2 hl)]; simp
    · rw [if_neg hl, if_neg (mt hn.1 hl)]
      refine simple ⟨⟨h.len, h.away⟩, rfl, ?_, ?_⟩
      · intro s hs
        have := h.away s hs
        have := h.len
        exact read_write_disj (by simp; omega)
      · show read (write p.mem (p.base + (p.len - 1)) [c]) p.base p.len = p.current.dropLast ++ [c]
        obtain ⟨n, hn⟩ : ∃ n, p.len = n + 1 := ⟨p.len - 1, by omega⟩
        have e : p.current = read p.mem p.base n ++ read p.mem (p.base + n) 1 := by
          rw [Pool.current, hn, read_add]
        have e1 : ∀ m : Nat → UInt8, ∀ a, read m a 1 = [m a] := by intro m a; simp [read]
        have e2 : read (write p.mem (p.base + n) [c]) (p.base + n) 1 = [c] :=
          read_write_same p.mem (p.base + n) [c]
        rw [e, e1, List.dropLast_concat, hn, read_add, Nat.add_sub_cancel, e2,
          read_write_disj (by omega)]
  | backtrack =>
    simp only [poolStep, Pool.backtrack, astep]
    have hn : (abs p).cur = [] ↔ p.len = 0 := cur_nil
    by_cases hl : p.len = 0
    · rw [if_pos hl, if_pos (hn.2 hl)]; simp
    · rw [if_neg hl, if_neg (mt hn.1 hl)]
      refine simple ⟨⟨by have := h.len; simp only; omega, h.away⟩, rfl, fun _ _ => rfl, ?_⟩
      obtain ⟨n, hn⟩ : ∃ n, p.len = n + 1 := ⟨p.len - 1, by omega⟩
      show read _ p.base (p.len - 1) = p.current.dropLast
      have e : p.current = read p.mem p.base n ++ read p.mem (p.base + n) 1 := by
        rw [Pool.current, hn, read_add]
      have e1 : ∀ m : Nat → UInt8, ∀ a, read m a 1 = [m a] := by intro m a; simp [read]
      rw [e, e1, List.dropLast_concat, hn, Nat.add_sub_cancel]
  | store x b =>
    obtain ⟨q, hq, k⟩ := append_keeps al ho h b
    have k2 := char_keeps al k.inv 0
    rw [k.cur] at k2
    have := simple (k.trans k2)
    simp only [poolStep, Pool.storeCString, hq, Option.map_some]
    exact this
  | copy s =>
    have k := cstring_keeps al h (s ++ [0])
    refine ⟨?_, by rintro q ⟨⟩; exact finish_inv⟩
    simp only [poolStep, Pool.copyCString, Option.map_some, finish_abs, keeps_abs k, k.cur, astep]
    simp [abs]
  | copyN s =>
    obtain ⟨k0, _⟩ := reserve_keeps al h s.length
    have k := cstring_keeps al k0.inv s
    rw [k0.cur] at k
    have k := k0.trans k
    refine ⟨?_, by rintro q ⟨⟩; exact finish_inv⟩
    simp only [poolStep, Pool.copyCStringN, Option.map_some, finish_abs, keeps_abs k, k.cur, astep]
    simp [abs]
  | clear =>
    exact ⟨by simp [poolStep, astep, abs, Pool.current, read],
      by rintro q ⟨⟩; exact ⟨Nat.le_refl _, by simp⟩⟩

theorem new_inv : Inv Pool.new := ⟨Nat.le_refl _, by simp [Pool.new]⟩

theorem run_refines_from (al : Allocator) (os : List PoolOp) (ho : ∀ o ∈ os, OpOk o) {p : Pool}
    (h : Inv p) : (poolRun al p os).map abs = arun (abs p) os := by
  induction os generalizing p with
  | nil => rfl
  | cons o os ih =>
    obtain ⟨h1, h2⟩ := step_refines al h o (ho o (by simp))
    simp only [poolRun, arun, ← h1]
    cases hs : poolStep al p o with
    | none => rfl
    | some q => exact ih (fun o h => ho o (by simp [h])) (h2 q hs)

/-- C43: for every allocator meeting the contract and every sequence of operations, the pool holds
exactly the strings of the specification. In particular a string built piecewise is the
concatenation of the pieces. -/
theorem run_refines (al : Allocator) (os : List PoolOp) (ho : ∀ o ∈ os, OpOk o) :
    (poolRun al Pool.new os).map abs = arun ⟨[], []⟩ os := by
  have := run_refines_from al os ho new_inv
  rw [this]; rfl

theorem run_inv (al : Allocator) (os : List PoolOp) (ho : ∀ o ∈ os, OpOk o) {p q : Pool}
    (h : Inv p) (hr : poolRun al p os = some q) : Inv q := by
  induction os generalizing p with
  | nil => cases hr; exact h
  | cons o os ih =>
    simp only [poolRun, Option.bind_eq_some_iff] at hr
    obtain ⟨r, h1, h2⟩ := hr
    exact ih (fun o h => ho o (by simp [h])) ((step_refines al h o (ho o (by simp))).2 r h1) h2

theorem arun_prefix (os : List PoolOp) (hc : PoolOp.clear ∉ os) {a b : APool}
    (h : arun a os = some b) : ∃ t, b.done = a.done ++ t := by
  induction os generalizing a with
  | nil => cases h; exact ⟨[], by simp⟩
  | cons o os ih =>
    simp only [arun, Option.bind_eq_some_iff] at h
    obtain ⟨r, h1, h2⟩ := h
    obtain ⟨t, ht⟩ := ih (fun h => hc (by simp [h])) h2
    have : ∃ t, r.done = a.done ++ t := by
      cases o <;> simp only [astep] at h1
      case clear => simp at hc
      case replaceLast c => split at h1 <;> simp at h1; exact ⟨[], by simp [← h1]⟩
      case backtrack => split at h1 <;> simp at h1; exact ⟨[], by simp [← h1]⟩
      all_goals (simp at h1; subst h1; simp)
    obtain ⟨u, hu⟩ := this
    exact ⟨u ++ t, by rw [ht, hu, List.append_assoc]⟩

/-- C43: a string handed out reads the same after any further operations other than clearing. -/
theorem handed_out_stable (al : Allocator) (os os' : List PoolOp) (ho : ∀ o ∈ os, OpOk o)
    (ho' : ∀ o ∈ os', OpOk o) (hc : PoolOp.clear ∉ os') {p q : Pool}
    (hp : poolRun al Pool.new os = some p) (hq : poolRun al p os' = some q) (i : Nat) (s : List UInt8)
    (hs : p.str i = some s) : q.str i = some s := by
  have hi := run_inv al os ho new_inv hp
  have hr := run_refines_from al os' ho' hi
  rw [hq, Option.map_some] at hr
  obtain ⟨t, ht⟩ := arun_prefix os' hc hr.symm
  have e : ∀ r : Pool, r.str i = (abs r).done[i]? := by intro r; simp [Pool.str, abs]
  rw [e] at hs ⊢
  rw [ht, List.getElem?_append_left (by
    have := List.getElem?_eq_some_iff.1 hs
    exact this.1)]
  exact hs

theorem step_done (al : Allocator) {p q : Pool} (h : Inv p) (o : PoolOp) (ho : OpOk o)
    (hs : poolStep al p o = some q) : q.done = p.done ∨ q.done = [] ∨
      ∃ b n, q.done = p.done ++ [(b, n)] ∧ ∀ s ∈ p.done, s.1 + s.2 ≤ b ∨ b + n ≤ s.1 := by
  have fin : ∀ {r : Pool} {c}, Keeps p r c → ∃ b n, r.finish.done = p.done ++ [(b, n)] ∧
      ∀ s ∈ p.done, s.1 + s.2 ≤ b ∨ b + n ≤ s.1 := by
    intro r c k
    refine ⟨r.base, r.len, by simp [Pool.finish, k.done], fun s hs => ?_⟩
    have := k.inv.away s (by rw [k.done]; exact hs)
    have := k.inv.len
    omega
  cases o with
  | char c => cases hs; exact .inl (char_keeps al h c).done
  | append x b =>
    obtain ⟨r, hr, k⟩ := append_keeps al ho h b
    simp only [poolStep, hr] at hs; cases hs; exact .inl k.done
  | cstring s => cases hs; exact .inl (cstring_keeps al h s).done
  | finish => cases hs; exact .inr (.inr (fin (c := p.current) ⟨h, rfl, fun _ _ => rfl, rfl⟩))
  | clearCurrent => cases hs; exact .inl rfl
  | replaceLast c =>
    simp only [poolStep, Pool.replaceLast] at hs; split at hs <;> simp at hs; subst hs; exact .inl rfl
  | backtrack =>
    simp only [poolStep, Pool.backtrack] at hs; split at hs <;> simp at hs; subst hs; exact .inl rfl
  | store x b =>
    obtain ⟨r, hr, k⟩ := append_keeps al ho h b
    simp only [poolStep, Pool.storeCString, hr, Option.map_some] at hs; cases hs
    exact .inl ((char_keeps al k.inv 0).done.trans k.done)
  | copy s => cases hs; exact .inr (.inr (fin (cstring_keeps al h (s ++ [0]))))
  | copyN s =>
    cases hs
    obtain ⟨k0, _⟩ := reserve_keeps al h s.length
    exact .inr (.inr (fin (k0.trans (cstring_keeps al k0.inv s))))
  | clear => cases hs; exact .inr (.inl rfl)

theorem no_alias_from (al : Allocator) (os : List PoolOp) (ho : ∀ o ∈ os, OpOk o) {p q : Pool}
    (hi : Inv p) (hn : NoAlias p) (hr : poolRun al p os = some q) : NoAlias q := by
  induction os generalizing p with
  | nil => cases hr; exact hn
  | cons o os ih =>
    simp only [poolRun, Option.bind_eq_some_iff] at hr
    obtain ⟨r, h1, h2⟩ := hr
    refine ih (fun o h => ho o (by simp [h])) ((step_refines al hi o (ho o (by simp))).2 r h1) ?_ h2
    unfold NoAlias
    rcases step_done al hi o (ho o (by simp)) h1 with h | h | ⟨b, n, h, h'⟩
    · rw [h]; exact hn
    · rw [h]; exact .nil
    · rw [h, List.pairwise_append]
      refine ⟨hn, by simp, ?_⟩
      intro s hs t ht
      simp only [List.mem_singleton] at ht
      subst ht
      rcases h' s hs with h | h
      · exact .inr (.inr (.inl h))
      · exact .inr (.inr (.inr h))

/-- C43: the strings handed out since the last clearing occupy pairwise disjoint memory. -/
theorem no_alias (al : Allocator) (os : List PoolOp) (ho : ∀ o ∈ os, OpOk o) {p : Pool}
    (hp : poolRun al Pool.new os = some p) : NoAlias p := by
  exact no_alias_from al os ho new_inv .nil hp

/-- A concrete allocator: past everything handed out. -/
def bump : Allocator where
  grow p n := (p.done.foldr (fun s m => max (s.1 + s.2) m) 0, n)
  room _ _ := Nat.le_refl _
  disjoint p n s hs := by
    left
    have : ∀ l : List (Nat × Nat), s ∈ l → s.1 + s.2 ≤ l.foldr (fun s m => max (s.1 + s.2) m) 0 := by
      intro l
      induction l with
      | nil => simp
      | cons t l ih =>
        intro h
        rcases List.mem_cons.1 h with rfl | h
        · simp only [List.foldr_cons]; omega
        · have := ih h; simp only [List.foldr_cons]; omega
    exact this _ hs

/-- "ab" finished, "é" converted from Latin-1, "c" copied after it. -/
def sample : List PoolOp :=
  [.char 0x61, .char 0x62, .finish, .append (latin1X false) [0xE9], .copy [0x63]]

example : (poolRun bump Pool.new sample).map (fun p => (p.str 0, p.str 1)) =
    some (some [0x61, 0x62], some [0xC3, 0xA9, 0x63, 0]) := by decide +kernel

example : ∀ o ∈ sample, OpOk o := by
  simp [sample, OpOk, supported_drains (.latin1 false)]

end Verif.C43
