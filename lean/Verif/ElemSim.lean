import Verif.ContentScaf

/-! `doProlog` follows the reference parser inside an element declaration. -/

namespace Verif

theorem nameMatches_iff {e : Enc} {asc : UInt8 → Buf} (s : Supported e asc) (kw : List UInt8)
    (hk : ∀ c ∈ kw, c < 0x80) (b : Buf) :
    nameMatchesAscii e b kw = decide (b = spell asc kw) := by
  induction kw generalizing b with
  | nil => cases b <;> simp [nameMatchesAscii, spell]
  | cons k kw ih =>
    have hl : spell asc (k :: kw) = asc k ++ spell asc kw := by simp [spell]
    have hlen := s.asc.len k
    rw [nameMatchesAscii]
    by_cases hb : b.length < e.mb
    · rw [if_pos hb]
      symm
      simp only [decide_eq_false_iff_not]
      intro h
      rw [h, hl, List.length_append] at hb
      omega
    · rw [if_neg hb, ih fun c h => hk c (by simp [h])]
      have hm := s.asc.mat b k (hk k (by simp)) (by omega)
      by_cases h : b.take e.mb = asc k
      · rw [hm.2 h]
        have hb' : b = asc k ++ b.drop e.mb := by rw [← h, List.take_append_drop]
        simp only [Bool.not_true, Bool.false_eq_true, if_false, hl]
        by_cases h2 : b.drop e.mb = spell asc kw
        · rw [h2] at hb'
          simp [h2, ← hb']
        · have : b ≠ asc k ++ spell asc kw := by
            intro h3
            apply h2
            rw [h3, ← hlen, List.drop_left]
          simp [h2, this]
      · have : e.charMatches b k = false := by
          cases hc : e.charMatches b k with
          | false => rfl
          | true => exact absurd (hm.1 hc) h
        rw [this]
        symm
        simp only [Bool.not_false, if_true, decide_eq_false_iff_not, hl]
        intro h3
        apply h
        rw [h3, ← hlen, List.take_left]

theorem Supported.mb_pos {e : Enc} {asc : UInt8 → Buf} (s : Supported e asc) : 0 < e.mb := by
  cases s <;> exact Nat.succ_pos _

namespace ElemSim

open EState

def code : Option Bool → UInt8
  | none => 0
  | some true => 0x7C
  | some false => 0x2C

/-- The group-connector array, read at the levels of the open groups. -/
def Conns (conn : Nat → UInt8) : List Frame → Prop
  | [] => True
  | f :: fs => conn (fs.length + 1) = code f.conn ∧ Conns conn fs

def bytesOf : List Frame → Nat
  | [] => 0
  | f :: fs => CM.bytess f.kids + bytesOf fs

def SizeOk (g : UInt32) : Prop := g = 0 ∨ ∃ k, 5 ≤ k ∧ k ≤ 31 ∧ g.toNat = 2 ^ k

/-- The scaffold holds the open groups (when an element-declaration handler is set). -/
def Scaf (decl : Bool) (s : EState) (ty : CType) (kids : List CM) (fs : List Frame) : Prop :=
  s.inEldecl = decl ∧ (decl = true → ∃ i is, s.index = i :: is ∧ Top s.scaffold ty i kids ∧
    Below s.scaffold i is fs ∧ s.strLen = CM.bytess kids + bytesOf fs) ∧
  (decl = false → s.strLen = 0)

structure Common (decl doc : Bool) (n : List UInt8) (c0 : List (List UInt8 × Block)) (s : EState) :
    Prop where
  doc : s.p.documentEntity = doc
  size : SizeOk s.groupSize
  calls : s.calls = c0
  name : decl = true → s.declName = n

def Levels (s : EState) (f : Frame) (st : List Frame) : Prop :=
  s.p.level.toNat = st.length + 1 ∧ s.p.level < s.groupSize ∧ Conns s.conn (f :: st)

/-- The parser's variables when the reference parser is in state `z`. -/
def Rel (decl doc : Bool) (n : List UInt8) (c0 : List (List UInt8 × Block)) (s : EState) : ZS → Prop
  | .e1 => Common decl doc n c0 s ∧ s.p.h = .element1 ∧ s.inEldecl = decl ∧ s.strLen = 0 ∧
      (decl = true → s.scaffold = [] ∧ s.index = [])
  | .e2 => Common decl doc n c0 s ∧ s.p.h = .element2 ∧ Levels s ⟨none, []⟩ [] ∧
      Scaf decl s .SEQ [] []
  | .e3 => Common decl doc n c0 s ∧ s.p.h = .element3 ∧ Scaf decl s .MIXED [] []
  | .e4 ns => Common decl doc n c0 s ∧ s.p.h = .element4 ∧ Scaf decl s .MIXED ns []
  | .e5 ns => Common decl doc n c0 s ∧ s.p.h = .element5 ∧ Scaf decl s .MIXED ns []
  | .e6 f st => Common decl doc n c0 s ∧ s.p.h = .element6 ∧ Levels s f st ∧
      Scaf decl s f.ty f.kids st
  | .e7 f st => Common decl doc n c0 s ∧ s.p.h = .element7 ∧ Levels s f st ∧
      Scaf decl s f.ty f.kids st
  | .fin c => s.p.documentEntity = doc ∧ SizeOk s.groupSize ∧ s.p.h = .declClose ∧
      s.p.roleNone = .ELEMENT_NONE ∧ s.inEldecl = false ∧ s.strLen = 0 ∧
      if decl then ∃ m, s.calls = c0 ++ [(n, m)] ∧ Denotes m 0 c else s.calls = c0

theorem step_err {decl : Bool} {nm} {e : Enc} {s : EState} {t : Tok} {b : Buf}
    (hq : isQuiet s.p.documentEntity (t, b) = false) (h : s.p.handle e t b = none) :
    s.step decl nm e t b = .err (errorCode t) := by
  have : s.p.next e t b = ({ s.p.fall with h := .error }, .ERROR) := by
    rw [PState.next, h, Option.getD_none, PState.common]
    have hd : s.p.fall.documentEntity = s.p.documentEntity := by
      unfold PState.fall; split <;> rfl
    simp only [isQuiet, Bool.or_eq_false_iff] at hq
    have hq2 := hq.2
    rw [← hd] at hq2
    rw [hq2]
    simp
  simp only [EState.step, this, EState.act]

/-! ### The individual actions -/

theorem setConn_ok {s : EState} {c : UInt8} (h : s.p.level < s.groupSize) :
    s.setConn c = .ok { s with conn := fun i => if i = s.p.level.toNat then c else s.conn i } := by
  rw [setConn, if_pos h]

theorem conns_set {conn : Nat → UInt8} {fs : List Frame} {k : Nat} {c : UInt8} (h : Conns conn fs)
    (hk : fs.length < k) : Conns (fun i => if i = k then c else conn i) fs := by
  induction fs with
  | nil => trivial
  | cons f fs ih =>
    simp only [List.length_cons] at hk
    refine ⟨?_, ih h.2 (by omega)⟩
    simp only
    rw [if_neg (by omega)]
    exact h.1

theorem grow_ok {s : EState} (hs : SizeOk s.groupSize) (hl : s.p.level.toNat < 2 ^ 31)
    (hl' : s.p.level.toNat ≤ s.groupSize.toNat ∨ s.p.level.toNat < 32) :
    ∃ g, s.grow = { s with groupSize := g } ∧ SizeOk g ∧ s.p.level < g := by
  unfold grow
  split
  · next h =>
    rw [ge_iff_le, UInt32.le_iff_toNat_le] at h
    refine ⟨_, rfl, ?_⟩
    split
    · next h0 =>
      rcases hs with hs | ⟨k, h1, h2, h3⟩
      · exact absurd hs h0
      · have hk : k < 31 := by
          rcases Nat.lt_or_ge k 31 with h | h
          · exact h
          · have : k = 31 := by omega
            subst this; omega
        have hg : (s.groupSize * 2).toNat = 2 ^ (k + 1) := by
          rw [UInt32.toNat_mul, h3, Nat.pow_succ]
          apply Nat.mod_eq_of_lt
          have : 2 ^ k ≤ 2 ^ 30 := Nat.pow_le_pow_right (by omega) (by omega)
          show 2 ^ k * 2 < _
          omega
        refine ⟨.inr ⟨k + 1, by omega, by omega, hg⟩, ?_⟩
        rw [UInt32.lt_iff_toNat_lt, hg, Nat.pow_succ]
        have : 2 ^ 5 ≤ 2 ^ k := Nat.pow_le_pow_right (by omega) h1
        omega
    · next h0 =>
      have h0 : s.groupSize = 0 := Classical.byContradiction h0
      refine ⟨.inr ⟨5, by omega, by omega, rfl⟩, ?_⟩
      rw [h0] at hl'
      rw [UInt32.lt_iff_toNat_lt]
      show _ < 32
      have : (0 : UInt32).toNat = 0 := rfl
      omega
  · next h =>
    exact ⟨s.groupSize, rfl, hs, by rw [UInt32.lt_iff_toNat_lt]; rw [ge_iff_le, UInt32.le_iff_toNat_le] at h; omega⟩

theorem modTop_ok {s : EState} {i is} {ty kids} (h : s.index = i :: is)
    (ht : Top s.scaffold ty i kids) (f : Part → Part) :
    s.modTop f = .ok { s with scaffold := s.scaffold.modify i f } := by
  simp only [modTop, h, if_pos ht.lt]

theorem open_first_sim {decl doc n c0} {s : EState} (hc : Common decl doc n c0 s)
    (hl : s.p.level = 1) (hi : s.inEldecl = decl) (hs0 : s.strLen = 0)
    (hsc : decl = true → s.scaffold = [] ∧ s.index = []) :
    ∃ s', s.groupOpen = .ok s' ∧ s'.p = s.p ∧ Common decl doc n c0 s' ∧
      Levels s' ⟨none, []⟩ [] ∧ Scaf decl s' .SEQ [] [] := by
  have hl1 : s.p.level.toNat = 1 := by rw [hl]; rfl
  obtain ⟨g, h1, h2, h3⟩ := grow_ok hc.size (by omega) (.inr (by omega))
  unfold groupOpen
  rw [h1, setConn_ok h3]
  simp only
  cases decl with
  | false =>
    rw [if_neg (by simp [hi])]
    exact ⟨_, rfl, rfl, ⟨hc.doc, h2, hc.calls, by simp⟩, ⟨hl1, h3, by simp [hl1, code], trivial⟩,
      hi, by simp, fun _ => hs0⟩
  | true =>
    obtain ⟨e1, e2⟩ := hsc rfl
    obtain ⟨scf, o1, o2, o3⟩ := open_first
    rw [if_pos (by simp [hi])]
    simp only [e1, e2, o1, List.length_nil, modTop, o2, if_true]
    exact ⟨_, rfl, rfl, ⟨hc.doc, h2, hc.calls, hc.name⟩, ⟨hl1, h3, by simp [hl1, code], trivial⟩,
      hi, fun _ => ⟨0, [], rfl, o3, rfl, hs0⟩, by simp⟩

theorem open_sim {decl doc n c0} {s : EState} {f : Frame} {st : List Frame}
    (hc : Common decl doc n c0 s) (hl : s.p.level.toNat = st.length + 2) (hb : st.length + 2 < 2 ^ 31)
    (hg : s.p.level.toNat ≤ s.groupSize.toNat ∨ s.p.level.toNat < 32) (hcn : Conns s.conn (f :: st))
    (hsc : Scaf decl s f.ty f.kids st) :
    ∃ s', s.groupOpen = .ok s' ∧ s'.p = s.p ∧ Common decl doc n c0 s' ∧
      Levels s' ⟨none, []⟩ (f :: st) ∧ Scaf decl s' .SEQ [] (f :: st) := by
  obtain ⟨g, h1, h2, h3⟩ := grow_ok hc.size (by omega) hg
  unfold groupOpen
  rw [h1, setConn_ok h3]
  simp only
  have hcn' : Conns (fun i => if i = s.p.level.toNat then 0 else s.conn i) (⟨none, []⟩ :: f :: st) :=
    ⟨by simp [hl, code], conns_set hcn (by simp [hl])⟩
  cases decl with
  | false =>
    rw [if_neg (by simp [hsc.1])]
    exact ⟨_, rfl, rfl, ⟨hc.doc, h2, hc.calls, by simp⟩, ⟨by simpa using hl, h3, hcn'⟩,
      hsc.1, by simp, hsc.2.2⟩
  | true =>
    obtain ⟨i, is, e1, e2, e3, e4⟩ := hsc.2.1 rfl
    obtain ⟨scf, o1, o2, o3, o4⟩ := open_group e2 e3
    rw [if_pos (by simp [hsc.1])]
    simp only [e1, o1, modTop, o2, if_true]
    exact ⟨_, rfl, rfl, ⟨hc.doc, h2, hc.calls, hc.name⟩, ⟨by simpa using hl, h3, hcn'⟩,
      hsc.1, fun _ => ⟨_, _, rfl, o3, o4, by simp [e4, bytesOf, CM.bytess]⟩, by simp⟩

theorem name_sim {decl doc n c0} {s : EState} {ty : CType} {kids : List CM} {st : List Frame}
    (hc : Common decl doc n c0 s) (hsc : Scaf decl s ty kids st) (q : Quant) (nme : List UInt8) :
    ∃ s', s.contentElement q nme = .ok s' ∧ s'.p = s.p ∧ Common decl doc n c0 s' ∧
      s'.groupSize = s.groupSize ∧ s'.conn = s.conn ∧ Scaf decl s' ty (.name q nme :: kids) st := by
  unfold contentElement
  cases decl with
  | false =>
    rw [if_neg (by simp [hsc.1])]
    exact ⟨_, rfl, rfl, hc, rfl, rfl, hsc.1, by simp, hsc.2.2⟩
  | true =>
    obtain ⟨i, is, e1, e2, e3, e4⟩ := hsc.2.1 rfl
    obtain ⟨scf, o1, o2, o3⟩ := add_name is e2 q nme
    rw [if_pos (by simp [hsc.1])]
    simp only [e1, o1]
    refine ⟨_, rfl, rfl, ⟨hc.doc, hc.size, hc.calls, hc.name⟩, rfl, rfl,
      hsc.1, fun _ => ⟨i, is, rfl, o2, o3 _ e3, ?_⟩, by simp⟩
    simp only [e4, CM.bytess, CM.bytes]; omega

theorem pcdata_sim {decl doc n c0} {s : EState} (hc : Common decl doc n c0 s)
    (hsc : Scaf decl s .SEQ [] []) :
    ∃ s', s.contentPcdata = .ok s' ∧ s'.p = s.p ∧ Common decl doc n c0 s' ∧
      Scaf decl s' .MIXED [] [] := by
  unfold contentPcdata
  cases decl with
  | false =>
    rw [if_neg (by simp [hsc.1])]
    exact ⟨_, rfl, rfl, hc, hsc.1, by simp, hsc.2.2⟩
  | true =>
    obtain ⟨i, is, e1, e2, e3, e4⟩ := hsc.2.1 rfl
    rw [if_pos (by simp [hsc.1]), modTop_ok e1 e2]
    refine ⟨_, rfl, rfl, ⟨hc.doc, hc.size, hc.calls, hc.name⟩, hsc.1,
      fun _ => ⟨i, is, e1, e2.setType _ _ fun p _ => rfl, ?_, e4⟩, by simp⟩
    refine e3.congr fun j hj => ?_
    rw [modify_ne (by omega)]

theorem sep_sim {decl doc n c0} {s : EState} {f : Frame} {st : List Frame} {ch : Bool}
    (hc : Common decl doc n c0 s) (hl : Levels s f st) (hsc : Scaf decl s f.ty f.kids st)
    (hf : f.conn = none ∨ f.conn = some ch) :
    ∃ s', (if ch then s.groupChoice else s.groupSequence) = .ok s' ∧ s'.p = s.p ∧
      Common decl doc n c0 s' ∧ Levels s' { f with conn := some ch } st ∧
      Scaf decl s' (Frame.ty { f with conn := some ch }) f.kids st := by
  obtain ⟨h1, h2, h3, h4⟩ := hl
  rw [← h1] at h3
  have hcn : ∀ c, code (some ch) = c → Conns (fun i => if i = s.p.level.toNat then c else s.conn i)
      ({ f with conn := some ch } :: st) := by
    rintro c rfl
    exact ⟨by simp [h1], conns_set h4 (by omega)⟩
  cases ch with
  | false =>
    have hne : ¬ s.conn s.p.level.toNat = 0x7C := by
      rw [h3]; rcases hf with hf | hf <;> rw [hf] <;> decide
    simp only [Bool.false_eq_true, if_false, groupSequence]
    rw [if_neg (by simpa using h2), if_neg hne, setConn_ok h2]
    refine ⟨_, rfl, rfl, ⟨hc.doc, hc.size, hc.calls, hc.name⟩, ⟨h1, h2, hcn _ rfl⟩, ?_⟩
    have : Frame.ty { f with conn := some false } = f.ty := by
      rcases hf with hf | hf <;> simp [Frame.ty, hf]
    rw [this]
    exact hsc
  | true =>
    have hne : ¬ s.conn s.p.level.toNat = 0x2C := by
      rw [h3]; rcases hf with hf | hf <;> rw [hf] <;> decide
    simp only [if_true, groupChoice]
    rw [if_neg (by simpa using h2), if_neg hne]
    have hty : Frame.ty { f with conn := some true } = .CHOICE := by simp [Frame.ty]
    rw [hty]
    cases decl with
    | false =>
      rw [if_neg (by simp [hsc.1]), setConn_ok h2]
      exact ⟨_, rfl, rfl, ⟨hc.doc, hc.size, hc.calls, by simp⟩, ⟨h1, h2, hcn _ rfl⟩,
        hsc.1, by simp, hsc.2.2⟩
    | true =>
      obtain ⟨i, is, e1, e2, e3, e4⟩ := hsc.2.1 rfl
      by_cases h0 : s.conn s.p.level.toNat = 0
      · rw [if_pos (by simp [hsc.1, h0]), modTop_ok e1 e2]
        simp only [setConn]
        rw [if_pos h2]
        have hf0 : f.ty = .SEQ := by
          rcases hf with hf | hf
          · simp [Frame.ty, hf]
          · rw [h3, hf] at h0; exact absurd h0 (by decide)
        rw [hf0] at e2
        refine ⟨_, rfl, rfl, ⟨hc.doc, hc.size, hc.calls, hc.name⟩, ⟨h1, h2, hcn _ rfl⟩,
          hsc.1, fun _ => ⟨i, is, e1, e2.setType _ _ fun p hp => by simp [hp], ?_, e4⟩, by simp⟩
        refine e3.congr fun j hj => ?_
        rw [modify_ne (by omega)]
      · rw [if_neg (by simp [h0]), setConn_ok h2]
        have hf1 : f.conn = some true := by
          rcases hf with hf | hf
          · rw [h3, hf] at h0; exact absurd rfl h0
          · exact hf
        have hf0 : f.ty = .CHOICE := by simp [Frame.ty, hf1]
        rw [hf0] at e2
        exact ⟨_, rfl, rfl, ⟨hc.doc, hc.size, hc.calls, hc.name⟩, ⟨h1, h2, hcn _ rfl⟩,
          hsc.1, fun _ => ⟨i, is, e1, e2, e3, e4⟩, by simp⟩

theorem close_sim {decl doc n c0} {s : EState} {ty : CType} {kids : List CM} {g : Frame}
    {st : List Frame} (hc : Common decl doc n c0 s) (hty : ty ≠ .NAME)
    (hsc : Scaf decl s ty kids (g :: st)) (q : Quant) :
    ∃ s', s.groupClose decl q = .ok s' ∧ s'.p = s.p ∧ Common decl doc n c0 s' ∧
      s'.groupSize = s.groupSize ∧ s'.conn = s.conn ∧
      Scaf decl s' g.ty (.group ty q kids.reverse :: g.kids) st := by
  unfold groupClose
  cases decl with
  | false =>
    rw [if_neg (by simp [hsc.1])]
    exact ⟨_, rfl, rfl, hc, rfl, rfl, hsc.1, by simp, hsc.2.2⟩
  | true =>
    obtain ⟨i, is, e1, e2, e3, e4⟩ := hsc.2.1 rfl
    rw [if_pos (by simp [hsc.1]), modTop_ok e1 e2]
    cases is with
    | nil => exact e3.elim
    | cons i' is =>
      obtain ⟨o1, o2⟩ := close_group e2 hty e3 q
      simp only [e1, List.tail_cons, List.isEmpty_cons, Bool.false_eq_true, if_false]
      refine ⟨_, rfl, rfl, ⟨hc.doc, hc.size, hc.calls, hc.name⟩, rfl, rfl, hsc.1,
        fun _ => ⟨_, _, rfl, o1, o2, ?_⟩, by simp⟩
      simp only [e4, CM.bytess, CM.bytes, bytess_reverse, bytesOf]; omega

theorem buildModel_ok {scf : List Part} {t : CM} (hl : Lay scf 0 t) (hlen : scf.length = t.size) :
    ∃ m, buildModel scf t.bytes = some m ∧ Denotes m 0 t := by
  have hp := t.size_pos
  unfold buildModel
  rw [if_neg (by omega)]
  obtain ⟨m, h1, -, -, -, -, -, -, h8⟩ := buildNode_ok hl scf.length 0 (by omega)
    ⟨List.replicate scf.length {}, List.replicate t.bytes 0, 1, 0⟩ (by simp) (by simp; omega)
    (by simp; omega) (by simp)
  exact ⟨m, h1, h8 m ⟨rfl, fun _ _ _ => rfl, fun _ _ _ => rfl⟩⟩

theorem close_last_sim {decl doc n c0} {s : EState} {ty : CType} {kids : List CM}
    (hc : Common decl doc n c0 s) (hty : ty ≠ .NAME)
    (hsc : Scaf decl s ty kids []) (q : Quant) (h1 : s.p.h = .declClose)
    (h2 : s.p.roleNone = .ELEMENT_NONE) :
    ∃ s', s.groupClose decl q = .ok s' ∧
      Rel decl doc n c0 s' (.fin (.group ty q kids.reverse)) := by
  unfold groupClose
  cases decl with
  | false =>
    rw [if_neg (by simp [hsc.1])]
    exact ⟨_, rfl, hc.doc, hc.size, h1, h2, hsc.1, hsc.2.2 rfl, hc.calls⟩
  | true =>
    obtain ⟨i, is, e1, e2, e3, e4⟩ := hsc.2.1 rfl
    rw [if_pos (by simp [hsc.1]), modTop_ok e1 e2]
    cases is with
    | cons i' is => exact e3.elim
    | nil =>
      obtain rfl : i = 0 := e3
      have hlay := e2.lay hty q
      have hlen : s.scaffold.length = CM.size (.group ty q kids.reverse) := by
        obtain ⟨_, _, _, _, _, _, _, h⟩ := e2
        simp only [CM.size, sizes_reverse]; omega
      have hby : s.strLen = CM.bytes (.group ty q kids.reverse) := by
        simp [e4, bytesOf, CM.bytes, bytess_reverse]
      obtain ⟨m, m1, m2⟩ := buildModel_ok hlay (by simpa using hlen)
      simp only [e1, List.tail_cons, List.isEmpty_nil, if_true, hby, m1]
      refine ⟨_, rfl, hc.doc, hc.size, h1, h2, rfl, rfl, ?_⟩
      simp only [if_true]
      exact ⟨m, by rw [hc.calls, hc.name rfl], m2⟩

/-! ### One token -/

theorem step_some {decl : Bool} {nm} {e : Enc} {s : EState} {t : Tok} {b : Buf} {p : PState} {r : Role}
    (h : s.p.handle e t b = some (p, r)) :
    s.step decl nm e t b = { s with p := p }.act decl nm e t b r := by
  unfold EState.step
  simp only [PState.next, h, Option.getD_some]

/-- What one token does, compared with the reference parser. -/
def Sim (decl doc : Bool) (n : List UInt8) (c0 : List (List UInt8 × Block)) (nm : Buf → List UInt8)
    (e : Enc) (asc : UInt8 → Buf) (s : EState) (z : ZS) (x : Tok × Buf) : Prop :=
  match (symOf asc e.mb nm x).bind (zstep z) with
  | some z' => ∃ s', s.step decl nm e x.1 x.2 = .ok s' ∧ Rel decl doc n c0 s' z'
  | none => ∃ c, s.step decl nm e x.1 x.2 = .err c

variable {decl doc : Bool} {n : List UInt8} {c0 : List (List UInt8 × Block)} {nm : Buf → List UInt8}
  {e : Enc} {asc : UInt8 → Buf} {s : EState}

theorem kwPCDATA_eq : PState.kwPCDATA = [0x50, 0x43, 0x44, 0x41, 0x54, 0x41] := rfl

theorem pcdata_iff (hs : Supported e asc) (b : Buf) :
    nameMatchesAscii e (b.drop e.mb) PState.kwPCDATA =
      decide (b.drop e.mb = spell asc [0x50, 0x43, 0x44, 0x41, 0x54, 0x41]) :=
  nameMatches_iff hs _ (by decide) _

theorem name7 {f : Frame} {st : List Frame} {p : PState} (hc : Common decl doc n c0 s)
    (hl : Levels s f st) (hsc : Scaf decl s f.ty f.kids st) (q : Quant) (nme : List UInt8)
    (hp : p = { s.p with h := .element7 }) :
    ∃ s', EState.contentElement { s with p := p } q nme = .ok s' ∧
      Rel decl doc n c0 s' (.e7 (f.add (.name q nme)) st) := by
  subst hp
  obtain ⟨s', h1, h2, h3, h4, h5, h6⟩ := name_sim (s := { s with p := { s.p with h := .element7 } })
    (decl := decl) (doc := doc) (n := n) (c0 := c0) (ty := f.ty) (kids := f.kids) (st := st)
    ⟨hc.doc, hc.size, hc.calls, hc.name⟩ hsc q nme
  refine ⟨s', h1, h3, by rw [h2], ⟨?_, ?_, ?_⟩, h6⟩
  · rw [h2]; exact hl.1
  · rw [h2, h4]; exact hl.2.1
  · rw [h5]; exact hl.2.2

theorem sim_e2 (hs : Supported e asc) (hr : Rel decl doc n c0 s .e2) {x : Tok × Buf}
    (hq : isQuiet doc x = false) : Sim decl doc n c0 nm e asc s .e2 x := by
  obtain ⟨t, b⟩ := x
  obtain ⟨hc, hh, hl, hsc⟩ := hr
  have herr := step_err (decl := decl) (nm := nm) (e := e) (s := s) (t := t) (b := b)
    (by rw [hc.doc]; exact hq)
  have hok := fun p r => step_some (decl := decl) (nm := nm) (e := e) (s := s) (t := t) (b := b)
    (p := p) (r := r)
  have hhand : s.p.handle e t b = s.p.element2 e t b := by simp only [PState.handle, hh]
  rw [hhand] at herr hok
  unfold Sim
  cases t
  case POUND_NAME =>
    simp only [symOf, PState.element2, pcdata_iff hs] at *
    by_cases hb : b.drop e.mb = spell asc [0x50, 0x43, 0x44, 0x41, 0x54, 0x41]
    · simp only [hb, decide_true, if_true, PState.go] at hok ⊢
      rw [hok _ _ rfl]
      obtain ⟨s', h1, h2, h3, h4⟩ := pcdata_sim (s := { s with p := { s.p with h := .element3 } })
        ⟨hc.doc, hc.size, hc.calls, hc.name⟩ hsc
      exact ⟨s', h1, h3, by rw [h2], h4⟩
    · simp only [hb, decide_false, Bool.false_eq_true, if_false] at herr ⊢
      exact ⟨_, herr trivial⟩
  case OPEN_PAREN =>
    simp only [symOf, PState.element2] at hok ⊢
    rw [hok _ _ rfl]
    obtain ⟨s', h1, h2, h3, h4, h5⟩ := open_sim
      (s := { s with p := { s.p with h := .element6, level := 2 } }) (f := ⟨none, []⟩) (st := [])
      ⟨hc.doc, hc.size, hc.calls, hc.name⟩ rfl (by decide) (.inr (show (2 : UInt32).toNat < 32 by decide)) hl.2.2 hsc
    exact ⟨s', h1, h3, by rw [h2], h4, h5⟩
  case NAME => simp only [symOf, PState.element2, PState.go] at hok ⊢; rw [hok _ _ rfl]; exact name7 hc hl hsc _ _ rfl
  case PREFIXED_NAME => simp only [symOf, PState.element2, PState.go] at hok ⊢; rw [hok _ _ rfl]; exact name7 hc hl hsc _ _ rfl
  case NAME_QUESTION => simp only [symOf, PState.element2, PState.go] at hok ⊢; rw [hok _ _ rfl]; exact name7 hc hl hsc _ _ rfl
  case NAME_ASTERISK => simp only [symOf, PState.element2, PState.go] at hok ⊢; rw [hok _ _ rfl]; exact name7 hc hl hsc _ _ rfl
  case NAME_PLUS => simp only [symOf, PState.element2, PState.go] at hok ⊢; rw [hok _ _ rfl]; exact name7 hc hl hsc _ _ rfl
  case PROLOG_S => simp [isQuiet] at hq
  all_goals exact ⟨_, herr rfl⟩

theorem sim_e6 {f : Frame} {st : List Frame} (hb : st.length + 2 < 2 ^ 31)
    (hr : Rel decl doc n c0 s (.e6 f st)) {x : Tok × Buf}
    (hq : isQuiet doc x = false) : Sim decl doc n c0 nm e asc s (.e6 f st) x := by
  obtain ⟨t, b⟩ := x
  obtain ⟨hc, hh, hl, hsc⟩ := hr
  have herr := step_err (decl := decl) (nm := nm) (e := e) (s := s) (t := t) (b := b)
    (by rw [hc.doc]; exact hq)
  have hok := fun p r => step_some (decl := decl) (nm := nm) (e := e) (s := s) (t := t) (b := b)
    (p := p) (r := r)
  have hhand : s.p.handle e t b = s.p.element6 t := by simp only [PState.handle, hh]
  rw [hhand] at herr hok
  unfold Sim
  cases t
  case OPEN_PAREN =>
    simp only [symOf, PState.element6] at hok ⊢
    rw [hok _ _ rfl]
    have hl1 := hl.1
    have hadd : (s.p.level + 1).toNat = st.length + 2 := by
      rw [UInt32.toNat_add, hl1]
      show (st.length + 1 + 1) % 2 ^ 32 = _
      omega
    have hlt := UInt32.lt_iff_toNat_lt.1 hl.2.1
    obtain ⟨s', h1, h2, h3, h4, h5⟩ := open_sim
      (s := { s with p := { s.p with level := s.p.level + 1 } }) (f := f) (st := st)
      ⟨hc.doc, hc.size, hc.calls, hc.name⟩ hadd hb (.inl (by show (s.p.level + 1).toNat ≤ s.groupSize.toNat; omega))
      hl.2.2 hsc
    refine ⟨s', h1, h3, by rw [h2]; exact hh, h4, h5⟩
  case NAME => simp only [symOf, PState.element6, PState.go] at hok ⊢; rw [hok _ _ rfl]; exact name7 hc hl hsc _ _ rfl
  case PREFIXED_NAME => simp only [symOf, PState.element6, PState.go] at hok ⊢; rw [hok _ _ rfl]; exact name7 hc hl hsc _ _ rfl
  case NAME_QUESTION => simp only [symOf, PState.element6, PState.go] at hok ⊢; rw [hok _ _ rfl]; exact name7 hc hl hsc _ _ rfl
  case NAME_ASTERISK => simp only [symOf, PState.element6, PState.go] at hok ⊢; rw [hok _ _ rfl]; exact name7 hc hl hsc _ _ rfl
  case NAME_PLUS => simp only [symOf, PState.element6, PState.go] at hok ⊢; rw [hok _ _ rfl]; exact name7 hc hl hsc _ _ rfl
  case PROLOG_S => simp [isQuiet] at hq
  case POUND_NAME =>
    simp only [symOf]
    split
    · rename_i h
      split at h <;> simp [zstep] at h
    · exact ⟨_, herr rfl⟩
  all_goals exact ⟨_, herr rfl⟩

theorem sep7 {f : Frame} {st : List Frame} {p : PState} {ch : Bool} (hc : Common decl doc n c0 s)
    (hl : Levels s f st) (hsc : Scaf decl s f.ty f.kids st)
    (hp : p = { s.p with h := .element6 }) (r : ElemRes)
    (hr : r = if ch then EState.groupChoice { s with p := p } else EState.groupSequence { s with p := p }) :
    match zstep (.e7 f st) (.sep ch) with
    | some z' => ∃ s', r = .ok s' ∧ Rel decl doc n c0 s' z'
    | none => ∃ c, r = .err c := by
  subst hp
  by_cases hf : f.conn = none ∨ f.conn = some ch
  · simp only [zstep, hf, if_true]
    obtain ⟨s', h1, h2, h3, h4, h5⟩ := sep_sim (s := { s with p := { s.p with h := .element6 } })
      (decl := decl) (doc := doc) (n := n) (c0 := c0) (f := f) (st := st) (ch := ch)
      ⟨hc.doc, hc.size, hc.calls, hc.name⟩ hl hsc hf
    exact ⟨s', by rw [hr]; exact h1, h3, by rw [h2], h4, h5⟩
  · simp only [zstep, hf, if_false]
    have h3 := hl.2.2.1
    rw [← hl.1] at h3
    have hne : f.conn = some (!ch) := by
      cases h : f.conn with
      | none => simp [h] at hf
      | some c => cases c <;> cases ch <;> simp [h] at hf ⊢
    rw [hne] at h3
    cases ch with
    | true =>
      refine ⟨.SYNTAX, ?_⟩
      rw [hr, if_pos rfl, EState.groupChoice]
      rw [if_neg (by simpa using hl.2.1), if_pos (by exact h3)]
    | false =>
      refine ⟨.SYNTAX, ?_⟩
      rw [hr, if_neg (by simp), EState.groupSequence]
      rw [if_neg (by simpa using hl.2.1), if_pos (by exact h3)]

theorem closeGroup_eq (s : PState) (r : Role) : s.closeGroup r =
    if s.level - 1 = 0 then some ({ s with level := s.level - 1, h := .declClose, roleNone := .ELEMENT_NONE }, r)
    else some ({ s with level := s.level - 1 }, r) := by
  simp only [PState.closeGroup]
  

theorem cls7 {f : Frame} {st : List Frame} {r : Role} {q : Quant} (hc : Common decl doc n c0 s)
    (hh : s.p.h = .element7) (hl : Levels s f st) (hsc : Scaf decl s f.ty f.kids st) (res : ElemRes)
    (hr : ∀ p, s.p.closeGroup r = some (p, r) → res = EState.groupClose decl { s with p := p } q) :
    match zstep (.e7 f st) (.cls q) with
    | some z' => ∃ s', res = .ok s' ∧ Rel decl doc n c0 s' z'
    | none => ∃ c, res = .err c := by
  have hty : f.ty ≠ .NAME := by unfold Frame.ty; split <;> simp
  have hl1 := hl.1
  have hsub : (s.p.level - 1).toNat = st.length := by
    rw [UInt32.toNat_sub_of_le _ _ (by rw [UInt32.le_iff_toNat_le, hl1]; show 1 ≤ _; omega), hl1]
    rfl
  cases st with
  | nil =>
    simp only [zstep]
    rw [closeGroup_eq, if_pos (UInt32.toNat_inj.1 hsub)] at hr
    rw [hr _ rfl]
    exact close_last_sim (s := { s with p := { s.p with level := s.p.level - 1, h := .declClose, roleNone := .ELEMENT_NONE } })
      ⟨hc.doc, hc.size, hc.calls, hc.name⟩ hty hsc q rfl rfl
  | cons g st =>
    simp only [zstep]
    rw [closeGroup_eq, if_neg (by intro h; rw [h] at hsub; simp at hsub)] at hr
    rw [hr _ rfl]
    obtain ⟨s', h1, h2, h3, h4, h5, h6⟩ := close_sim (s := { s with p := { s.p with level := s.p.level - 1 } })
      (decl := decl) (doc := doc) (n := n) (c0 := c0) (g := g) (st := st)
      ⟨hc.doc, hc.size, hc.calls, hc.name⟩ hty hsc q
    refine ⟨s', h1, h3, by rw [h2]; exact hh, ⟨?_, ?_, ?_⟩, h6⟩
    · rw [h2]; simpa using hsub
    · have := UInt32.lt_iff_toNat_lt.1 hl.2.1
      rw [h2, h4, UInt32.lt_iff_toNat_lt]
      simp only [List.length_cons] at hl1 hsub ⊢
      omega
    · rw [h5]; exact hl.2.2.2

theorem sim_e7 {f : Frame} {st : List Frame}
    (hr : Rel decl doc n c0 s (.e7 f st)) {x : Tok × Buf}
    (hq : isQuiet doc x = false) : Sim decl doc n c0 nm e asc s (.e7 f st) x := by
  obtain ⟨t, b⟩ := x
  obtain ⟨hc, hh, hl, hsc⟩ := hr
  have herr := step_err (decl := decl) (nm := nm) (e := e) (s := s) (t := t) (b := b)
    (by rw [hc.doc]; exact hq)
  have hok := fun p r => step_some (decl := decl) (nm := nm) (e := e) (s := s) (t := t) (b := b)
    (p := p) (r := r)
  have hhand : s.p.handle e t b = s.p.element7 t := by simp only [PState.handle, hh]
  rw [hhand] at herr hok
  unfold Sim
  cases t
  case CLOSE_PAREN => exact cls7 (r := .GROUP_CLOSE) hc hh hl hsc _ fun p hp => hok p _ hp
  case CLOSE_PAREN_QUESTION => exact cls7 (r := .GROUP_CLOSE_OPT) hc hh hl hsc _ fun p hp => hok p _ hp
  case CLOSE_PAREN_ASTERISK => exact cls7 (r := .GROUP_CLOSE_REP) hc hh hl hsc _ fun p hp => hok p _ hp
  case CLOSE_PAREN_PLUS => exact cls7 (r := .GROUP_CLOSE_PLUS) hc hh hl hsc _ fun p hp => hok p _ hp
  case COMMA => exact sep7 (ch := false) hc hl hsc rfl _ (hok _ _ rfl)
  case OR => exact sep7 (ch := true) hc hl hsc rfl _ (hok _ _ rfl)
  case PROLOG_S => simp [isQuiet] at hq
  case POUND_NAME =>
    simp only [symOf]
    split
    · rename_i h
      split at h <;> simp [zstep] at h
    · exact ⟨_, herr rfl⟩
  all_goals
    try cases st
    all_goals exact ⟨_, herr rfl⟩

theorem sim_e3 (hr : Rel decl doc n c0 s .e3) {x : Tok × Buf}
    (hq : isQuiet doc x = false) : Sim decl doc n c0 nm e asc s .e3 x := by
  obtain ⟨t, b⟩ := x
  obtain ⟨hc, hh, hsc⟩ := hr
  have herr := step_err (decl := decl) (nm := nm) (e := e) (s := s) (t := t) (b := b)
    (by rw [hc.doc]; exact hq)
  have hok := fun p r => step_some (decl := decl) (nm := nm) (e := e) (s := s) (t := t) (b := b)
    (p := p) (r := r)
  have hhand : s.p.handle e t b = s.p.element3 t := by simp only [PState.handle, hh]
  rw [hhand] at herr hok
  unfold Sim
  cases t
  case CLOSE_PAREN =>
    show ∃ s', _
    rw [hok _ _ rfl]
    exact close_last_sim (s := { s with p := { s.p with h := .declClose, roleNone := .ELEMENT_NONE } })
      ⟨hc.doc, hc.size, hc.calls, hc.name⟩ (by simp) hsc .NONE rfl rfl
  case CLOSE_PAREN_ASTERISK =>
    show ∃ s', _
    rw [hok _ _ rfl]
    exact close_last_sim (s := { s with p := { s.p with h := .declClose, roleNone := .ELEMENT_NONE } })
      ⟨hc.doc, hc.size, hc.calls, hc.name⟩ (by simp) hsc .REP rfl rfl
  case OR =>
    show ∃ s', _
    rw [hok _ _ rfl]
    exact ⟨_, rfl, ⟨hc.doc, hc.size, hc.calls, hc.name⟩, rfl, hsc⟩
  case PROLOG_S => simp [isQuiet] at hq
  case POUND_NAME =>
    simp only [symOf]
    split
    · rename_i h
      split at h <;> simp [zstep] at h
    · exact ⟨_, herr rfl⟩
  all_goals exact ⟨_, herr rfl⟩

theorem sim_e4 {ns : List CM} (hr : Rel decl doc n c0 s (.e4 ns)) {x : Tok × Buf}
    (hq : isQuiet doc x = false) : Sim decl doc n c0 nm e asc s (.e4 ns) x := by
  obtain ⟨t, b⟩ := x
  obtain ⟨hc, hh, hsc⟩ := hr
  have herr := step_err (decl := decl) (nm := nm) (e := e) (s := s) (t := t) (b := b)
    (by rw [hc.doc]; exact hq)
  have hok := fun p r => step_some (decl := decl) (nm := nm) (e := e) (s := s) (t := t) (b := b)
    (p := p) (r := r)
  have hhand : s.p.handle e t b = s.p.element4 t := by simp only [PState.handle, hh]
  rw [hhand] at herr hok
  have hname : ∃ s', EState.contentElement { s with p := { s.p with h := .element5 } } .NONE (nm b) = .ok s' ∧
      Rel decl doc n c0 s' (.e5 (.name .NONE (nm b) :: ns)) := by
    obtain ⟨s', h1, h2, h3, -, -, h6⟩ := name_sim (s := { s with p := { s.p with h := .element5 } })
      (decl := decl) (doc := doc) (n := n) (c0 := c0)
      ⟨hc.doc, hc.size, hc.calls, hc.name⟩ hsc .NONE (nm b)
    exact ⟨s', h1, h3, by rw [h2], h6⟩
  unfold Sim
  cases t
  case NAME =>
    show ∃ s', _
    rw [hok _ _ rfl]; exact hname
  case PREFIXED_NAME =>
    show ∃ s', _
    rw [hok _ _ rfl]; exact hname
  case PROLOG_S => simp [isQuiet] at hq
  case POUND_NAME =>
    simp only [symOf]
    split
    · rename_i h
      split at h <;> simp [zstep] at h
    · exact ⟨_, herr rfl⟩
  all_goals exact ⟨_, herr rfl⟩

theorem sim_e5 {ns : List CM} (hr : Rel decl doc n c0 s (.e5 ns)) {x : Tok × Buf}
    (hq : isQuiet doc x = false) : Sim decl doc n c0 nm e asc s (.e5 ns) x := by
  obtain ⟨t, b⟩ := x
  obtain ⟨hc, hh, hsc⟩ := hr
  have herr := step_err (decl := decl) (nm := nm) (e := e) (s := s) (t := t) (b := b)
    (by rw [hc.doc]; exact hq)
  have hok := fun p r => step_some (decl := decl) (nm := nm) (e := e) (s := s) (t := t) (b := b)
    (p := p) (r := r)
  have hhand : s.p.handle e t b = s.p.element5 t := by simp only [PState.handle, hh]
  rw [hhand] at herr hok
  unfold Sim
  cases t
  case CLOSE_PAREN_ASTERISK =>
    show ∃ s', _
    rw [hok _ _ rfl]
    exact close_last_sim (s := { s with p := { s.p with h := .declClose, roleNone := .ELEMENT_NONE } })
      ⟨hc.doc, hc.size, hc.calls, hc.name⟩ (by simp) hsc .REP rfl rfl
  case OR =>
    show ∃ s', _
    rw [hok _ _ rfl]
    exact ⟨_, rfl, ⟨hc.doc, hc.size, hc.calls, hc.name⟩, rfl, hsc⟩
  case PROLOG_S => simp [isQuiet] at hq
  case POUND_NAME =>
    simp only [symOf]
    split
    · rename_i h
      split at h <;> simp [zstep] at h
    · exact ⟨_, herr rfl⟩
  all_goals exact ⟨_, herr rfl⟩

theorem zstep_fin (c : CM) (y : Sy) : zstep (.fin c) y = none := by cases y <;> rfl

theorem sim_fin {c : CM} (hr : Rel decl doc n c0 s (.fin c)) {x : Tok × Buf}
    (hq : isQuiet doc x = false) (hd : x.1 ≠ .DECL_CLOSE) : Sim decl doc n c0 nm e asc s (.fin c) x := by
  obtain ⟨t, b⟩ := x
  obtain ⟨hc, -, hh, -⟩ := hr
  have herr := step_err (decl := decl) (nm := nm) (e := e) (s := s) (t := t) (b := b)
    (by rw [hc]; exact hq)
  have hhand : s.p.handle e t b = s.p.declClose t := by simp only [PState.handle, hh]
  rw [hhand] at herr
  have : (symOf asc e.mb nm (t, b)).bind (zstep (.fin c)) = none := by
    cases symOf asc e.mb nm (t, b) with
    | none => rfl
    | some y => exact zstep_fin c y
  unfold Sim
  rw [this]
  cases t
  case PROLOG_S => simp [isQuiet] at hq
  case DECL_CLOSE => exact absurd rfl hd
  all_goals exact ⟨_, herr rfl⟩

theorem sim_e1 (hs : Supported e asc) (hr : Rel decl doc n c0 s .e1) {x : Tok × Buf}
    (hq : isQuiet doc x = false) :
    (x = (.NAME, spell asc [0x45, 0x4D, 0x50, 0x54, 0x59]) → ∃ s', s.step decl nm e x.1 x.2 = .ok s' ∧
      Rel decl doc n c0 s' (.fin (.group .EMPTY .NONE []))) ∧
    (x = (.NAME, spell asc [0x41, 0x4E, 0x59]) → ∃ s', s.step decl nm e x.1 x.2 = .ok s' ∧
      Rel decl doc n c0 s' (.fin (.group .ANY .NONE []))) ∧
    (x ≠ (.NAME, spell asc [0x45, 0x4D, 0x50, 0x54, 0x59]) → x ≠ (.NAME, spell asc [0x41, 0x4E, 0x59]) →
      Sim decl doc n c0 nm e asc s .e1 x) := by
  obtain ⟨t, b⟩ := x
  obtain ⟨hc, hh, hi, hst, hsc⟩ := hr
  have herr := step_err (decl := decl) (nm := nm) (e := e) (s := s) (t := t) (b := b)
    (by rw [hc.doc]; exact hq)
  have hok := fun p r => step_some (decl := decl) (nm := nm) (e := e) (s := s) (t := t) (b := b)
    (p := p) (r := r)
  have hhand : s.p.handle e t b = s.p.element1 e t b := by simp only [PState.handle, hh]
  rw [hhand] at herr hok
  have hE := nameMatches_iff hs PState.kwEMPTY (by decide) b
  have hA := nameMatches_iff hs PState.kwANY (by decide) b
  have hne : spell asc PState.kwANY ≠ spell asc PState.kwEMPTY := by
    intro h
    have h1 := congrArg List.length h
    rw [spell, spell, spell_length hs, spell_length hs] at h1
    have := hs.mb_pos
    simp only [PState.kwANY, PState.kwEMPTY, List.length_cons, List.length_nil] at h1
    omega
  have leaf : ∀ ty : CType, ∃ s', EState.contentLeaf decl
      { s with p := { s.p with h := .declClose, roleNone := .ELEMENT_NONE } } ty = .ok s' ∧
      Rel decl doc n c0 s' (.fin (.group ty .NONE [])) := by
    intro ty
    unfold EState.contentLeaf
    cases decl with
    | false =>
      rw [if_neg (by simp [hi])]
      exact ⟨_, rfl, hc.doc, hc.size, rfl, rfl, hi, hst, hc.calls⟩
    | true =>
      rw [if_pos (by simp [hi])]
      refine ⟨_, rfl, hc.doc, hc.size, rfl, rfl, rfl, hst, ?_⟩
      simp only [if_true]
      exact ⟨_, by rw [hc.calls, hc.name rfl], by simp [Denotes, DenotesAll]⟩
  refine ⟨?_, ?_, ?_⟩
  · intro h
    cases h
    simp only [PState.element1] at hok
    rw [show nameMatchesAscii e (spell asc [0x45, 0x4D, 0x50, 0x54, 0x59]) PState.kwEMPTY = true by
      rw [hE]; simp [PState.kwEMPTY], if_pos rfl] at hok
    rw [hok _ _ rfl]
    exact leaf _
  · intro h
    cases h
    simp only [PState.element1] at hok
    rw [show nameMatchesAscii e (spell asc [0x41, 0x4E, 0x59]) PState.kwEMPTY = false by
      rw [hE]; exact decide_eq_false hne, if_neg (by simp),
      show nameMatchesAscii e (spell asc [0x41, 0x4E, 0x59]) PState.kwANY = true by
        rw [hA]; simp [PState.kwANY], if_pos rfl] at hok
    rw [hok _ _ rfl]
    exact leaf _
  · intro h1 h2
    unfold Sim
    cases t
    case NAME =>
      have h1' : b ≠ spell asc PState.kwEMPTY := fun h => h1 (by rw [h]; rfl)
      have h2' : b ≠ spell asc PState.kwANY := fun h => h2 (by rw [h]; rfl)
      refine ⟨_, herr ?_⟩
      simp only [PState.element1, hE, hA, h1', h2', decide_false, Bool.false_eq_true, if_false]
    case OPEN_PAREN =>
      show ∃ s', _
      rw [hok _ _ rfl]
      obtain ⟨s', h1, h2, h3, h4, h5⟩ := open_first_sim
        (s := { s with p := { s.p with h := .element2, level := 1 } }) (decl := decl)
        (doc := doc) (n := n) (c0 := c0)
        ⟨hc.doc, hc.size, hc.calls, hc.name⟩ rfl hi hst hsc
      exact ⟨s', h1, h3, by rw [h2], h4, h5⟩
    case PROLOG_S => simp [isQuiet] at hq
    case POUND_NAME =>
      simp only [symOf]
      split
      · rename_i h
        split at h <;> simp [zstep] at h
      · exact ⟨_, herr rfl⟩
    all_goals exact ⟨_, herr rfl⟩

/-! ### Several tokens -/

/-- White space, and parameter-entity references in the external subset, change nothing. -/
theorem quiet_step {x : Tok × Buf} (hd : s.p.documentEntity = doc) (hq : isQuiet doc x = true)
    (hh : s.p.h = .element0 ∨ s.p.h = .element1 ∨ s.p.h = .element2 ∨ s.p.h = .element3 ∨ s.p.h = .element4 ∨
      s.p.h = .element5 ∨ s.p.h = .element6 ∨ s.p.h = .element7 ∨
      (s.p.h = .declClose ∧ s.p.roleNone = .ELEMENT_NONE)) :
    s.step decl nm e x.1 x.2 = .ok s := by
  obtain ⟨t, b⟩ := x
  simp only [isQuiet, Bool.or_eq_true, beq_iff_eq, Bool.and_eq_true, Bool.not_eq_true'] at hq
  rcases hq with rfl | ⟨rfl, rfl⟩
  · have : s.p.handle e .PROLOG_S b = some (s.p, .ELEMENT_NONE) := by
      rcases hh with h | h | h | h | h | h | h | h | ⟨h, h'⟩ <;>
        simp only [PState.handle, h] <;> try rfl
      simp only [PState.declClose, h', PState.stay]
    rw [step_some this]
    rfl
  · have h1 : s.p.handle e .PARAM_ENTITY_REF b = none := by
      rcases hh with h | h | h | h | h | h | h | h | ⟨h, h'⟩ <;>
        simp only [PState.handle, h] <;> rfl
    have h2 : s.p.fall = s.p := by
      rcases hh with h | h | h | h | h | h | h | h | ⟨h, h'⟩ <;>
        simp only [PState.fall, h]
    simp only [EState.step, PState.next, h1, h2, Option.getD_none, PState.common, hd]
    rfl

theorem Rel.hd {z : ZS} (h : Rel decl doc n c0 s z) : s.p.documentEntity = doc := by
  cases z <;> first | exact h.1.doc | exact h.1

theorem Rel.quiet {z : ZS} (h : Rel decl doc n c0 s z) {x : Tok × Buf} (hq : isQuiet doc x = true) :
    s.step decl nm e x.1 x.2 = .ok s := by
  refine quiet_step h.hd hq ?_
  cases z
  case fin c => obtain ⟨-, -, h1, h2, -⟩ := h; simp [h1, h2]
  all_goals
    have := h.2.1
    simp [this]

def _root_.Verif.ZS.depth : ZS → Nat
  | .e6 _ st | .e7 _ st => st.length
  | _ => 0

theorem zstep_depth {z z' : ZS} {y : Sy} (h : zstep z y = some z') : z'.depth ≤ z.depth + 1 := by
  cases z <;> cases y
  case e7.cls f st q =>
    cases st <;> simp only [zstep, Option.some.injEq] at h <;> subst h <;> simp [ZS.depth] <;> omega
  all_goals
    simp only [zstep] at h
    try split at h
    all_goals cases h
    all_goals simp [ZS.depth]

/-- The reference parser on tokens. -/
def zruns (asc : UInt8 → Buf) (mb : Nat) (nm : Buf → List UInt8) (z : ZS) : List (Tok × Buf) → Option ZS
  | [] => some z
  | x :: xs => ((symOf asc mb nm x).bind (zstep z)).bind fun z => zruns asc mb nm z xs

theorem zruns_iff (asc : UInt8 → Buf) (mb : Nat) (nm : Buf → List UInt8) (z z' : ZS)
    (xs : List (Tok × Buf)) : zruns asc mb nm z xs = some z' ↔
      ∃ ys, xs.map (symOf asc mb nm) = ys.map some ∧ zrun z ys = some z' := by
  induction xs generalizing z with
  | nil =>
    constructor
    · intro h; exact ⟨[], rfl, h⟩
    · rintro ⟨ys, h1, h2⟩
      cases ys with
      | nil => exact h2
      | cons y ys => simp at h1
  | cons x xs ih =>
    simp only [zruns]
    constructor
    · intro h
      cases h1 : symOf asc mb nm x with
      | none => simp [h1] at h
      | some y =>
        simp only [h1, Option.bind_some] at h
        cases h2 : zstep z y with
        | none => simp [h2] at h
        | some z1 =>
          simp only [h2, Option.bind_some] at h
          obtain ⟨ys, h3, h4⟩ := (ih z1).1 h
          exact ⟨y :: ys, by simp [h1, h3], by simp [zrun, h2, h4]⟩
    · rintro ⟨ys, h1, h2⟩
      cases ys with
      | nil => simp at h1
      | cons y ys =>
        simp only [List.map_cons, List.cons.injEq] at h1
        simp only [zrun] at h2
        cases h3 : zstep z y with
        | none => simp [h3] at h2
        | some z1 =>
          simp only [h3, Option.bind_some] at h2
          simp only [h1.1, Option.bind_some, h3]
          exact (ih z1).2 ⟨ys, h1.2, h2⟩

theorem sim {z : ZS} (hs : Supported e asc) (hz : z ≠ .e1) (hb : z.depth + 2 < 2 ^ 31)
    (hr : Rel decl doc n c0 s z) {x : Tok × Buf} (hq : isQuiet doc x = false)
    (hd : x.1 ≠ .DECL_CLOSE) : Sim decl doc n c0 nm e asc s z x := by
  cases z with
  | e1 => exact absurd rfl hz
  | e2 => exact sim_e2 hs hr hq
  | e3 => exact sim_e3 hr hq
  | e4 ns => exact sim_e4 hr hq
  | e5 ns => exact sim_e5 hr hq
  | e6 f st => exact sim_e6 hb hr hq
  | e7 f st => exact sim_e7 hr hq
  | fin c => exact sim_fin hr hq hd

theorem zstep_ne {z z' : ZS} {y : Sy} (h : zstep z y = some z') : z' ≠ .e1 := by
  rintro rfl
  cases z <;> cases y
  case e7.cls f st q => cases st <;> simp [zstep] at h
  all_goals
    simp only [zstep] at h
    try split at h
    all_goals cases h

theorem run_sim {z : ZS} (hs : Supported e asc) (hz : z ≠ .e1) {xs : List (Tok × Buf)}
    (hb : z.depth + xs.length + 2 < 2 ^ 31)
    (hr : Rel decl doc n c0 s z) (hd : ∀ x ∈ xs, x.1 ≠ .DECL_CLOSE) :
    match zruns asc e.mb nm z (strip doc xs) with
    | some z' => ∃ s', s.run decl nm e xs = .ok s' ∧ Rel decl doc n c0 s' z'
    | none => ∃ c, s.run decl nm e xs = .err c := by
  induction xs generalizing s z with
  | nil => exact ⟨s, rfl, hr⟩
  | cons x xs ih =>
    obtain ⟨t, b⟩ := x
    by_cases hq : isQuiet doc (t, b) = true
    · have := ih hz (by simp only [List.length_cons] at hb; omega) hr fun x h => hd x (by simp [h])
      simp only [strip, List.filter_cons, hq, Bool.not_true, Bool.false_eq_true, if_false] at this ⊢
      simp only [EState.run, hr.quiet hq]
      exact this
    · have hq' : isQuiet doc (t, b) = false := by simpa using hq
      have h1 := sim (nm := nm) hs hz (by omega) hr hq' (hd _ (by simp))
      have hst : strip doc ((t, b) :: xs) = (t, b) :: strip doc xs := by
        simp [strip, List.filter_cons, hq']
      rw [hst]
      simp only [zruns]
      unfold Sim at h1
      cases h2 : (symOf asc e.mb nm (t, b)).bind (zstep z) with
      | none =>
        rw [h2] at h1
        obtain ⟨c, h1⟩ := h1
        exact ⟨c, by simp only [EState.run, h1]⟩
      | some z1 =>
        rw [h2] at h1
        obtain ⟨s1, h1, hr1⟩ := h1
        simp only [EState.run, h1, Option.bind_some]
        obtain ⟨y, -, hy⟩ := Option.bind_eq_some_iff.1 h2
        have hdp := zstep_depth hy
        exact ih (zstep_ne hy) (by simp only [List.length_cons] at hb; omega) hr1
          fun x h => hd x (by simp [h])

/-- `>` ends the declaration if the content specification is complete, else it is an error. -/
theorem close_decl {z : ZS} (hr : Rel decl doc n c0 s z) (b : Buf) :
    match z with
    | .fin _ => s.step decl nm e .DECL_CLOSE b =
        .ok { s with p := { s.p with h := if s.p.documentEntity then .internalSubset else .externalSubset1 } }
    | _ => ∃ c, s.step decl nm e .DECL_CLOSE b = .err c := by
  have hq : isQuiet s.p.documentEntity (.DECL_CLOSE, b) = false := by simp [isQuiet]
  cases z
  case fin c =>
    obtain ⟨-, -, h1, h2, -⟩ := hr
    have : s.p.handle e .DECL_CLOSE b = some ({ s.p with h := if s.p.documentEntity then .internalSubset else .externalSubset1 }, .ELEMENT_NONE) := by
      simp only [PState.handle, h1, PState.declClose, PState.top, h2]
    rw [step_some this]
    rfl
  all_goals
    have h := hr.2.1
    exact ⟨_, step_err hq (by simp only [PState.handle, h]; rfl)⟩

theorem isContent_iff {asc : UInt8 → Buf} {mb : Nat} {nm : Buf → List UInt8} {c : CM}
    {xs : List (Tok × Buf)} : IsContent asc mb nm c xs ↔
      (c = .group .EMPTY .NONE [] ∧ xs = [(.NAME, spell asc [0x45, 0x4D, 0x50, 0x54, 0x59])]) ∨
      (c = .group .ANY .NONE [] ∧ xs = [(.NAME, spell asc [0x41, 0x4E, 0x59])]) ∨
      zruns asc mb nm .e1 xs = some (.fin c) := by
  rw [zruns_iff]
  constructor
  · rintro (_ | _ | ⟨q, ks, _, h1, h2⟩ | ⟨ty, q, ks, _, h1, h2⟩)
    · exact .inl ⟨rfl, rfl⟩
    · exact .inr (.inl ⟨rfl, rfl⟩)
    · exact .inr (.inr ⟨_, h2, (zrun_iff _ _).2 (.inl ⟨q, ks, rfl, h1, rfl⟩)⟩)
    · exact .inr (.inr ⟨_, h2, (zrun_iff _ _).2 (.inr ⟨ty, q, ks, rfl, h1, rfl⟩)⟩)
  · rintro (⟨rfl, rfl⟩ | ⟨rfl, rfl⟩ | ⟨ys, h1, h2⟩)
    · exact .empty
    · exact .any
    · rcases (zrun_iff _ _).1 h2 with ⟨q, ks, rfl, hm, rfl⟩ | ⟨ty, q, ks, rfl, hc, rfl⟩
      · exact .mixed q ks xs hm h1
      · exact .children ty q ks xs hc h1

theorem strip_nil_or (doc : Bool) (xs : List (Tok × Buf)) : strip doc xs = [] ∨
    ∃ q x r, xs = q ++ x :: r ∧ (∀ y ∈ q, isQuiet doc y = true) ∧ isQuiet doc x = false := by
  induction xs with
  | nil => exact .inl rfl
  | cons x xs ih =>
    by_cases hq : isQuiet doc x = true
    · rcases ih with h | ⟨q, y, r, rfl, h1, h2⟩
      · left; simpa [strip, List.filter_cons, hq] using h
      · exact .inr ⟨x :: q, y, r, rfl, by simpa [hq] using h1, h2⟩
    · exact .inr ⟨[], x, xs, rfl, by simp, by simpa using hq⟩

theorem run_append (s : EState) (xs ys : List (Tok × Buf)) :
    s.run decl nm e (xs ++ ys) = match s.run decl nm e xs with
      | .ok s' => s'.run decl nm e ys
      | r => r := by
  induction xs generalizing s with
  | nil => rfl
  | cons x xs ih =>
    simp only [List.cons_append, EState.run]
    cases s.step decl nm e x.1 x.2 with
    | ok s' => exact ih s'
    | start s' => rfl
    | err c => rfl
    | fault => rfl

theorem run_quiet {q : List (Tok × Buf)} (hq : ∀ y ∈ q, isQuiet doc y = true)
    (h : ∀ y, isQuiet doc y = true → s.step decl nm e y.1 y.2 = .ok s) : s.run decl nm e q = .ok s := by
  induction q with
  | nil => rfl
  | cons x q ih =>
    simp only [EState.run, h x (hq x (by simp))]
    exact ih fun y hy => hq y (by simp [hy])

theorem strip_quiet_append {q : List (Tok × Buf)} (hq : ∀ y ∈ q, isQuiet doc y = true) (r : List (Tok × Buf)) :
    strip doc (q ++ r) = strip doc r := by
  have : q.filter (!isQuiet doc ·) = [] := by
    rw [List.filter_eq_nil_iff]
    intro y hy; simp [hq y hy]
  simp [strip, this]

theorem strip_cons {x : Tok × Buf} (hq : isQuiet doc x = false) (r : List (Tok × Buf)) :
    strip doc (x :: r) = x :: strip doc r := by simp [strip, List.filter_cons, hq]

/-- The content specification, up to (not including) the `>`. -/
theorem content_run (hs : Supported e asc) {xs : List (Tok × Buf)} (hb : xs.length + 2 < 2 ^ 31)
    (hr : Rel decl doc n c0 s .e1) (hd : ∀ x ∈ xs, x.1 ≠ .DECL_CLOSE) :
    (∃ c, s.run decl nm e xs = .err c ∧ ∀ c, ¬ IsContent asc e.mb nm c (strip doc xs)) ∨
    ∃ s' z, s.run decl nm e xs = .ok s' ∧ Rel decl doc n c0 s' z ∧
      ∀ c, IsContent asc e.mb nm c (strip doc xs) ↔ z = .fin c := by
  rcases strip_nil_or doc xs with h0 | ⟨q, x, r, rfl, hq, hx⟩
  · right
    have : ∀ y ∈ xs, isQuiet doc y = true := by
      simpa [strip, List.filter_eq_nil_iff] using h0
    refine ⟨s, .e1, run_quiet this fun y => hr.quiet, hr, fun c => ?_⟩
    rw [h0, isContent_iff]
    simp [zruns]
  · have hdr : ∀ x ∈ r, x.1 ≠ .DECL_CLOSE := fun y hy => hd y (by simp [hy])
    simp only [List.length_append, List.length_cons] at hb
    have hrun : ∀ s1, s.step decl nm e x.1 x.2 = .ok s1 →
        s.run decl nm e (q ++ x :: r) = s1.run decl nm e r := by
      intro s1 h1
      rw [run_append, run_quiet hq fun y => hr.quiet]
      simp only [EState.run, h1]
    have hst : strip doc (q ++ x :: r) = x :: strip doc r := by
      rw [strip_quiet_append hq, strip_cons hx]
    have hfin : ∀ ty s1, (∀ c, IsContent asc e.mb nm c (x :: strip doc r) ↔
          c = .group ty .NONE [] ∧ strip doc r = []) →
        s.step decl nm e x.1 x.2 = .ok s1 → Rel decl doc n c0 s1 (.fin (.group ty .NONE [])) →
        (∃ c, s.run decl nm e (q ++ x :: r) = .err c ∧
          ∀ c, ¬ IsContent asc e.mb nm c (strip doc (q ++ x :: r))) ∨
        ∃ s' z, s.run decl nm e (q ++ x :: r) = .ok s' ∧ Rel decl doc n c0 s' z ∧
          ∀ c, IsContent asc e.mb nm c (strip doc (q ++ x :: r)) ↔ z = .fin c := by
      intro ty s1 hic h1 hr1
      have h2 := run_sim (nm := nm) hs (by simp) (xs := r) (by simp [ZS.depth]; omega) hr1 hdr
      rw [hrun s1 h1, hst]
      cases h3 : strip doc r with
      | nil =>
        rw [h3] at h2
        obtain ⟨s', h2, hr'⟩ := h2
        refine .inr ⟨s', _, h2, hr', fun c => ?_⟩
        rw [← h3, hic c, h3]
        simp [eq_comm]
      | cons y ys =>
        rw [h3] at h2
        have : zruns asc e.mb nm (.fin (.group ty .NONE [])) (y :: ys) = none := by
          simp only [zruns]
          cases symOf asc e.mb nm y with
          | none => rfl
          | some v => simp [zstep_fin]
        rw [this] at h2
        obtain ⟨c, h2⟩ := h2
        refine .inl ⟨c, h2, fun c hc => ?_⟩
        rw [← h3, hic c, h3] at hc
        simp at hc
    have he1 := sim_e1 (nm := nm) hs hr hx
    have hnm : ∀ b, zruns asc e.mb nm .e1 ((.NAME, b) :: strip doc r) = none := by
      intro b; simp [zruns, symOf, zstep]
    have hne : spell asc [0x41, 0x4E, 0x59] ≠ spell asc [0x45, 0x4D, 0x50, 0x54, 0x59] := by
      intro h
      have h1 := congrArg List.length h
      rw [spell, spell, spell_length hs, spell_length hs] at h1
      have := hs.mb_pos
      simp only [List.length_cons, List.length_nil] at h1
      omega
    by_cases hxE : x = (.NAME, spell asc [0x45, 0x4D, 0x50, 0x54, 0x59])
    · obtain ⟨s1, h1, hr1⟩ := he1.1 hxE
      refine hfin _ s1 (fun c => ?_) h1 hr1
      rw [isContent_iff, hxE, hnm]
      simp [hne.symm]
    · by_cases hxA : x = (.NAME, spell asc [0x41, 0x4E, 0x59])
      · obtain ⟨s1, h1, hr1⟩ := he1.2.1 hxA
        refine hfin _ s1 (fun c => ?_) h1 hr1
        rw [isContent_iff, hxA, hnm]
        simp [hne]
      · have h1 := he1.2.2 hxE hxA
        have hic : ∀ c, IsContent asc e.mb nm c (x :: strip doc r) ↔
            zruns asc e.mb nm .e1 (x :: strip doc r) = some (.fin c) := by
          intro c
          rw [isContent_iff]
          simp [hxE, hxA]
        rw [hst]
        unfold Sim at h1
        cases h2 : (symOf asc e.mb nm x).bind (zstep .e1) with
        | none =>
          rw [h2] at h1
          obtain ⟨c, h1⟩ := h1
          refine .inl ⟨c, ?_, fun c hc => ?_⟩
          · rw [run_append, run_quiet hq fun y => hr.quiet]
            simp only [EState.run, h1]
          · rw [hic] at hc
            simp [zruns, h2] at hc
        | some z1 =>
          rw [h2] at h1
          obtain ⟨s1, h1, hr1⟩ := h1
          obtain ⟨y, -, hy⟩ := Option.bind_eq_some_iff.1 h2
          have hdp := zstep_depth hy
          have h3 := run_sim (nm := nm) hs (zstep_ne hy) (xs := r)
            (by rw [show ZS.depth .e1 = 0 from rfl] at hdp; omega) hr1 hdr
          rw [hrun s1 h1]
          have hz : zruns asc e.mb nm .e1 (x :: strip doc r) = zruns asc e.mb nm z1 (strip doc r) := by
            simp [zruns, h2]
          cases h4 : zruns asc e.mb nm z1 (strip doc r) with
          | none =>
            rw [h4] at h3
            obtain ⟨c, h3⟩ := h3
            exact .inl ⟨c, h3, fun c hc => by rw [hic, hz, h4] at hc; cases hc⟩
          | some z' =>
            rw [h4] at h3
            obtain ⟨s', h3, hr'⟩ := h3
            exact .inr ⟨s', z', h3, hr', fun c => by rw [hic, hz, h4]; simp⟩

end ElemSim
end Verif
