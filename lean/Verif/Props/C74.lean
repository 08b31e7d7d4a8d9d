import Verif.LinesRun
import Verif.Props.C73

/-! # C74: line and column numbers during handler calls

XML_GetCurrentLineNumber and XML_GetCurrentColumnNumber keep a position and advance it, from wherever it is, to the place of the call; at the
end of a call of XML_Parse it is advanced to where the next call will begin.  So what they return depends in principle on when they have been
called before and on how the document has been cut.  It does not: line and column are those of the byte index of C73, counted from the beginning
of the document with `\r\n`, `\r` and `\n` as line ends.

With one exception: after the root element `\r` at the end of a call of XML_Parse is not kept until it is known whether `\n` follows, and if it
does two line ends are counted (`cut_matters`).  So the theorem supposes that no call ends there. -/

set_option autoImplicit false

namespace Verif.C74
open C43 C53 Spec Verif C04 C15 C73

section
variable {c : Cfg} {D : Dtd} {int x : XEnc} {asc : UInt8 → Buf}

theorem tag_tok {a b : Bool} (h : Tok.END_TAG = tagTok a b) : False := by
  cases a <;> cases b <;> cases h

theorem plain_cut (s : Supported x.e asc) (a : UInt8) (h1 : 0x20 ≤ a) (h2 : a < 0x80) {r : Buf} {n : Nat} (h : CharCut x.e false r n) :
    CharCut x.e false (asc a ++ r) (x.e.mb + n) := by
  have l := s.asc.len a
  obtain ⟨g1, g2⟩ := asc_plain s a h1 h2
  rw [← s.ok.bt_app (asc a) r (by omega)] at g1 g2
  have hc : x.e.charLen (asc a ++ r) = x.e.mb := by
    revert g1
    simp only [Enc.charLen]
    cases x.e.bt (asc a ++ r) <;> simp [ByteType.isLead]
  have := CharCut.char (cr := false) (e := x.e) (b := asc a ++ r) (n := n) (by rw [List.length_append]; omega)
    (by rw [hc, List.length_append]; omega) (by rw [hc, List.drop_left' l, decide_eq_false g2]; exact h)
  rwa [hc] at this

theorem fault_cut (S : XSupported x asc) {m : Mode} {b : Buf} (hv : m.verdict (m.tok x.e b).tok = .act) (ht : (m.tok x.e b).tok = .END_TAG) :
    CharCut x.e false b (2 * x.e.mb) := by
  have s := S.s
  have hm : m = .content := by
    rw [ht] at hv
    cases m <;> simp [Mode.verdict] at hv ⊢
  subst hm
  have htr : b = truncBuf x.e b ++ b.drop (b.length - b.length % x.e.mb) := (List.take_append_drop ..).symm
  have hdv : x.e.mb ∣ (truncBuf x.e b).length := by
    rw [truncBuf, List.length_take, Nat.min_eq_left (Nat.sub_le _ _)]
    exact Nat.dvd_sub_mod _
  have h1 : contentTok x.e (truncBuf x.e b) = ⟨.END_TAG, (contentTok x.e b).next⟩ := by
    rw [← ht, show Mode.tok .content = contentTok from rfl]
    have hi : truncBuf x.e (truncBuf x.e b) = truncBuf x.e b := by
      rw [truncBuf.eq_def x.e (truncBuf x.e b), Nat.mod_eq_zero_of_dvd hdv, Nat.sub_zero, List.take_length]
    simp only [Mode.tok, contentTok] at ht ⊢
    rw [hi]
    split at ht
    · cases ht
    · split at ht
      · cases ht
      · rename_i g1 g2
        simp [g1, g2]
  obtain ⟨w, r, h2, h3, _⟩ := content_sound s hdv rfl (by simp) (by simp) h1
  generalize htt : Tok.END_TAG = t at h2
  cases h2 with
  | endTag hn hw =>
    rw [htr, h3]
    refine CharCut.app s.ok ?_ _
    rw [Nat.two_mul, List.append_assoc, List.append_assoc]
    exact plain_cut s _ (by decide) (by decide) (plain_cut s _ (by decide) (by decide) (.here (by simp)))
  | tag empty =>
    exact (tag_tok htt).elim
  | ref hr => cases hr <;> cases htt
  | comment => cases htt
  | cdata => cases htt
  | pi g1 g2 g3 => rcases pi_tok g3 with rfl | rfl <;> cases htt

theorem cuts (S : XSupported x asc) (c : Cfg) (D : Dtd) (int : XEnc) (k : Nat) (opened : List Buf) (start : Nat) :
    (places x).Cuts (sem c D int k x opened start) x.e where
  ends ok t i w E p hp q hq := by
    simp only [places] at hp
    split at hp
    · obtain ⟨v, _, rfl⟩ := List.mem_map.1 hp
      simp only at hq
      split at hq <;> simp at hq
      simp [← hq]
    · split at hp
      · rcases ((placeTok_within (!x.isUtf8) (i + w.length, 0) E (i, w.length) (by simp) false).1 p hp q hq).1 with rfl | rfl <;> simp
      · obtain ⟨v, _, rfl⟩ := List.mem_map.1 hp
        simp only at hq
        split at hq <;> simp at hq
        simp [← hq]
  bad t i w E p hp q hq := by
    simp only [places, Bool.false_eq_true, if_false] at hp
    split at hp
    all_goals
      obtain ⟨v, _, rfl⟩ := List.mem_map.1 hp
      simp only at hq
      split at hq <;> simp at hq
      simp [← hq]
  text s t ok i w ht p hp := by
    obtain ⟨ex, he⟩ := sem_semOf c D int k x opened start
    rw [he] at hp
    have hE : ∀ v ∈ ((semOf c D int x opened start ex).act s t w).1, isData v = true := by
      rcases ht with rfl | rfl <;> exact toChars_events _ _ _ _
    generalize ((semOf c D int x opened start ex).act s t w).1 = E at *
    have flat : ∀ f : Ev → Bool, (∀ v, isData v = true → f v = true) →
        p ∈ E.map (fun v => (⟨if f v then none else some (i, w.length), v⟩ : Placed)) → p.pos = none := by
      intro f hf hp
      obtain ⟨v, hv, rfl⟩ := List.mem_map.1 hp
      simp [hf v (hE v hv)]
    have pt : ∀ (E : List Ev), (∀ v ∈ E, isData v = true) → ∀ a z st, p ∈ placeTok (!x.isUtf8) a z st E → p.pos = none := by
      intro E
      induction E with
      | nil => intro _ a z st h; simp [placeTok] at h
      | cons v E ih =>
        intro h a z st hp
        have hv := h v List.mem_cons_self
        have ih := ih fun v hv => h v (List.mem_cons_of_mem _ hv)
        cases v <;> simp [isData] at hv
        all_goals
          simp only [placeTok, List.mem_cons] at hp
          rcases hp with rfl | hp
          · rfl
          · exact ih _ _ _ hp
    simp only [places] at hp
    split at hp
    · exact flat _ (fun v h => h) hp
    · split at hp
      · exact pt E hE _ _ _ hp
      · exact flat (fun v => isData v || isEndNs v) (fun v h => by simp [h]) hp
  fault s b code i j hv h := by
    obtain ⟨ex, he⟩ := sem_semOf c D int k x opened start
    rw [he] at hv h
    have hc := fun ht => fault_cut S hv ht
    generalize (((semOf c D int x opened start ex).mode s).tok x.e b).tok = t at *
    have here : some i = some j → ∃ m, j = i + m ∧ CharCut x.e false b m := by
      rintro ⟨⟩
      exact ⟨0, rfl, .here (by simp)⟩
    simp only [places] at h
    split at h <;> try exact here h
    · cases h
    · cases h
    · cases h
    · cases h
    · split at h
      · cases h
        exact ⟨_, rfl, hc rfl⟩
      · exact here h
  data s t i w code j ht h := by
    rcases ht with rfl | rfl <;> cases h <;> rfl
  space s w := by
    obtain ⟨ex, he⟩ := sem_semOf c D int k x opened start
    rw [he]
    exact ⟨_, _, rfl, rfl⟩

/-- What an application is told that asks for line and column number in the handler calls `ask` and after an error: `pre` has gone before the
content of the document, the position is known to be `u.pos` at the byte index `u.idx`, and `xs` are the pieces in which the rest is passed. -/
def lines (c : Cfg) (D : Dtd) (int x : XEnc) (st : CState) (pre : Buf) (u : Cursor) (ask : Nat → Placed → Bool) (xs : List Buf) :
    Option (List (Placed × Pos) × Option Pos) :=
  feedLines (parser c D int x) (places x) x.e (pre ++ xs.flatten) ask 0 u pre.length st [] xs

/-- The calls of XML_Parse but the last: how many bytes have been passed at their ends, and in what state the parser is. -/
def ends (c : Cfg) (D : Dtd) (int x : XEnc) (st : CState) (before : Nat) (xs : List Buf) : List (Nat × CState) :=
  feedEnds (parser c D int x) (places x) x.e before st [] xs

/-- **C74.**  Whenever the application asks, however often it has asked before and however the document is cut, it is told the line and the column
of the byte index of C73.  (What is missing: that this is so if a call of XML_Parse ends between `\r` and `\n` after the root element, which is not the case.) -/
theorem lines_partial (S : XSupported x asc) (hx : ∀ ns, x.e ≠ internalUtf8Enc ns) (st : CState) (pre : Buf) (u : Cursor) (ask : Nat → Placed → Bool)
    (xs : List Buf) (hd : x.e.mb ∣ xs.flatten.length) (hu : u.Right x.e asc (pre ++ xs.flatten)) (hi : u.idx ≤ pre.length)
    (hc : LineCut x.e asc (pre ++ xs.flatten) pre.length)
    (hcut : ∀ a ∈ ends c D int x st pre.length xs, a.2.mode = .epilog → ¬ CutsLine asc (pre ++ xs.flatten) a.1) :
    ∃ L o, lines c D int x st pre u ask xs = some (L, o) ∧
      L.map (·.1) = asked ask 0 (located c D int x st pre.length xs).1 ∧
      (∀ a ∈ L, ∃ q ∈ a.1.pos, PosAt x.e asc (pre ++ xs.flatten) q.1 a.2) ∧
      ∀ code j, (located c D int x st pre.length xs).2 = .err code (some j) → ∃ pos, o = some pos ∧ PosAt x.e asc (pre ++ xs.flatten) j pos := by
  refine (feedLines_ok S.s hx (cuts S c D int D.fuel [] 0) (places_within x) ask xs 0 u pre [] pre.length st hu (by simp) (by simp) (by simpa using hd)
    hc hi ?_).some
  intro a ha hm
  refine hcut a ha ?_
  obtain ⟨ex, he⟩ := sem_semOf c D int D.fuel x [] 0
  rw [he] at hm
  exact hm

/-- If no call of XML_Parse but the last ends within `\r\n`. -/
theorem lines_partial_uncut (S : XSupported x asc) (hx : ∀ ns, x.e ≠ internalUtf8Enc ns) (st : CState) (pre : Buf) (u : Cursor) (ask : Nat → Placed → Bool)
    (xs : List Buf) (hd : x.e.mb ∣ xs.flatten.length) (hu : u.Right x.e asc (pre ++ xs.flatten)) (hi : u.idx ≤ pre.length)
    (hc : LineCut x.e asc (pre ++ xs.flatten) pre.length)
    (hcut : ∀ p q, xs = p ++ q → q ≠ [] → ¬ CutsLine asc (pre ++ xs.flatten) (pre.length + p.flatten.length)) :
    ∃ L o, lines c D int x st pre u ask xs = some (L, o) ∧
      L.map (·.1) = asked ask 0 (located c D int x st pre.length xs).1 ∧
      (∀ a ∈ L, ∃ q ∈ a.1.pos, PosAt x.e asc (pre ++ xs.flatten) q.1 a.2) ∧
      ∀ code j, (located c D int x st pre.length xs).2 = .err code (some j) → ∃ pos, o = some pos ∧ PosAt x.e asc (pre ++ xs.flatten) j pos := by
  refine lines_partial S hx st pre u ask xs hd hu hi hc ?_
  have key : ∀ (M : Sem CState) (xs : List Buf) (total : Nat) (st : CState) (rest : Buf), ∀ a ∈ feedEnds M (places x) x.e total st rest xs,
      ∃ p q, xs = p ++ q ∧ q ≠ [] ∧ a.1 = total + p.flatten.length := by
    intro M xs
    induction xs with
    | nil => intro total st rest a ha; simp [feedEnds] at ha
    | cons y ys ih =>
      intro total st rest a ha
      cases ys with
      | nil => simp [feedEnds] at ha
      | cons z zs =>
        rw [feedEnds] at ha
        · split at ha
          · rcases List.mem_cons.1 ha with rfl | ha
            · exact ⟨[y], z :: zs, rfl, by simp, by simp⟩
            · obtain ⟨p, q, h1, h2, h3⟩ := ih _ _ _ a ha
              exact ⟨y :: p, q, by rw [h1]; rfl, h2, by rw [h3, List.flatten_cons, List.length_append]; omega⟩
          · cases ha
        · simp
  intro a ha _
  obtain ⟨p, q, h1, h2, h3⟩ := key _ _ _ _ _ a ha
  rw [h3]
  exact hcut p q h1 h2

/-- A line and column number is the same however the document is cut and whenever it has been asked for before. -/
theorem determined (S : XSupported x asc) {T : Buf} {k : Nat} {p q : Pos} (h : PosAt x.e asc T k p) (g : PosAt x.e asc T k q) : p = q :=
  h.unique S.s g

end

/-! Non-vacuity: `<a>`, `\r\n`, `<b/>`, `\n`, `<!--c-->`, `</a>` cut between `\r` and `\n`, by an application that asks in every call. -/

def exCfg : Cfg := {}
def exDoc : List Buf := ["<a>\r".toUTF8.toList, "\n<b/>\n<!--".toUTF8.toList, "c--></a>".toUTF8.toList]

example : lines exCfg default (internalUtf8X false) (utf8X false) CState.init [] ⟨0, ⟨0, 0⟩⟩ (fun _ _ => true) exDoc =
    some ([(⟨some (0, 3), .startElement [0x61] [] 0 none⟩, ⟨0, 0⟩), (⟨some (5, 4), .startElement [0x62] [] 0 none⟩, ⟨1, 0⟩),
      (⟨some (9, 0), .endElement [0x62]⟩, ⟨1, 4⟩), (⟨some (10, 8), .comment [0x63]⟩, ⟨2, 0⟩), (⟨some (18, 4), .endElement [0x61]⟩, ⟨2, 8⟩)], none) := by
  decide +kernel

/-- The hypotheses are met. -/
example (ask : Nat → Placed → Bool) : ∃ L o, lines exCfg default (internalUtf8X false) (utf8X false) CState.init [] ⟨0, ⟨0, 0⟩⟩ ask exDoc = some (L, o) ∧
    L.map (·.1) = asked ask 0 (located exCfg default (internalUtf8X false) (utf8X false) CState.init 0 exDoc).1 ∧
    ∀ a ∈ L, ∃ q ∈ a.1.pos, PosAt (utf8X false).e asc1 exDoc.flatten q.1 a.2 := by
  obtain ⟨L, o, h1, h2, h3, _⟩ := lines_partial (asc := asc1) (c := exCfg) (D := default) (int := internalUtf8X false) (.utf8 false) (by
      intro ns h
      have := congrArg (fun e : Enc => e.bt [0x0D]) h
      revert this
      cases ns <;> decide +kernel) CState.init [] ⟨0, ⟨0, 0⟩⟩ ask exDoc (Nat.one_dvd _)
    ⟨.zero _, ⟨[], _, rfl, rfl, by simp, rfl⟩⟩ (Nat.le_refl _) (.zero _) (by
      have : (ends exCfg default (internalUtf8X false) (utf8X false) CState.init 0 exDoc).all (fun a => a.2.mode != .epilog) = true := by decide +kernel
      intro a ha hm
      have := List.all_eq_true.1 this a ha
      simp [hm] at this)
  exact ⟨L, o, h1, h2, h3⟩

/-- **How the document is cut matters** if it is cut between `\r` and `\n` after the root element: the comment is on line 2, and it is
told to be on line 3 (the numbers here count from 0). -/
theorem cut_matters :
    ((lines exCfg default (internalUtf8X false) (utf8X false) CState.init [] ⟨0, ⟨0, 0⟩⟩ (fun _ _ => true)
        ["<a/>\r\n<!--c-->".toUTF8.toList]).map fun a => a.1.getLast?.map (·.2)) = some (some ⟨1, 0⟩) ∧
    ((lines exCfg default (internalUtf8X false) (utf8X false) CState.init [] ⟨0, ⟨0, 0⟩⟩ (fun _ _ => true)
        ["<a/>\r".toUTF8.toList, "\n<!--c-->".toUTF8.toList]).map fun a => a.1.getLast?.map (·.2)) = some (some ⟨2, 0⟩) := by
  decide +kernel

/-- An error: the name in the end tag, on line 2. -/
example : ((lines exCfg default (internalUtf8X false) (utf8X false) CState.init [] ⟨0, ⟨0, 0⟩⟩ (fun _ _ => false)
    ["<a>\n".toUTF8.toList, "</b>".toUTF8.toList]).map (·.2)) = some (some ⟨1, 2⟩) := by
  decide +kernel

end Verif.C74
