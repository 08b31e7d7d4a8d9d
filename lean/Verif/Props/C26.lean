import Verif.SemInd

/-! C26: start and end element events are balanced and correctly nested. -/

namespace Verif.C26
open Verif C43

/-! ### Specification -/

/-- Reads a sequence of events with the names of the elements that are open, innermost first; fails on
an end-element event which does not name the innermost open element. -/
def nest : List Buf → List Ev → Option (List Buf)
  | st, [] => some st
  | st, .startElement n .. :: E => nest (n :: st) E
  | st, .endElement n :: E =>
    match st with
    | [] => none
    | m :: st => if m = n then nest st E else none
  | st, _ :: E => nest st E

/-! ### Lemmas -/

theorem nest_append (E E' : List Ev) : ∀ st, nest st (E ++ E') = (nest st E).bind fun st' => nest st' E' := by
  induction E with
  | nil => intro st; rfl
  | cons v E ih =>
    intro st
    cases v <;> simp only [List.cons_append, nest] <;> try exact ih _
    split
    · rfl
    · split
      · exact ih _
      · rfl

/-- Events that neither start nor end an element. -/
def neutral : Ev → Bool
  | .startElement .. | .endElement .. => false
  | _ => true

theorem nest_neutral {E : List Ev} (h : ∀ w ∈ E, neutral w = true) (st) : nest st E = some st := by
  induction E with
  | nil => rfl
  | cons v E ih =>
    have hv := h v (by simp)
    have ih := ih fun w hw => h w (by simp [hw])
    cases v <;> simp only [nest] <;> first | exact ih | (cases hv; done)

theorem neutral_startNs {w} (h : isStartNs w = true) : neutral w = true := by cases w <;> simp_all [isStartNs, neutral]
theorem neutral_endNs {w} (h : isEndNs w = true) : neutral w = true := by cases w <;> simp_all [isEndNs, neutral]
theorem neutral_plain {w} (h : plainEv w = true) : neutral w = true := by cases w <;> simp_all [plainEv, neutral]

/-- The names of the open elements as reported. -/
def names (c : Cfg) (s : CState) : List Buf := s.tags.map fun t => t.name.full c

/-- What holds between tokens: the level counts the open tags, it is never below the level at which the
entity being parsed began, and the epilog is at level 0. -/
structure Inv (base start : Nat) (s : CState) : Prop where
  level : s.level = base + s.tags.length
  above : start ≤ s.level
  epilog : s.mode = .epilog → s.level = 0

def R (c : Cfg) (base : Nat) (start : Nat) (s : CState) (E : List Ev) (s' : CState) : Prop :=
  base ≤ start → Inv base start s → Inv base start s' ∧ nest (names c s) E = some (names c s')

def F (c : Cfg) (base : Nat) (start : Nat) (s : CState) (E : List Ev) (_ : XErr) : Prop :=
  base ≤ start → Inv base start s → ∃ st, nest (names c s) E = some st

theorem R.same {c base start s E} (h : ∀ w ∈ E, neutral w = true) : R c base start s E s :=
  fun _ hi => ⟨hi, nest_neutral h _⟩

theorem F.neutral {c base start s E err} (h : ∀ w ∈ E, neutral w = true) : F c base start s E err :=
  fun _ _ => ⟨_, nest_neutral h _⟩

theorem compositional {c : Cfg} (D int base) (hs : c.startElement = true) (he : c.endElement = true) :
    Compositional c D int (R c base) (F c base) where
  refl start s := .same (by simp)
  trans h h' := fun hb hi => by
    obtain ⟨a, b⟩ := h hb hi
    obtain ⟨a', b'⟩ := h' hb a
    exact ⟨a', by rw [nest_append, b]; exact b'⟩
  stop _ _ _ _ := .neutral (by simp)
  err h h' := fun hb hi => by
    obtain ⟨a, b⟩ := h hb hi
    obtain ⟨st, b'⟩ := h' hb a
    exact ⟨st, by rw [nest_append, b]; exact b'⟩
  act_ok := by
    intro x opened start expand s t w E s' hex hm ha
    cases act_ok ha with
    | plain h hmode _ =>
      intro hb hi
      refine ⟨⟨hi.1, hi.2, ?_⟩, nest_neutral (fun w hw => neutral_plain (h w hw)) _⟩
      rcases hmode with rfl | ⟨rfl, _⟩ | ⟨rfl, _⟩
      · exact hi.3
      · intro h; simp at h
      · intro h; simp at h
    | expand _ _ _ _ _ _ _ _ h =>
      intro hb hi
      have hl := hi.1
      obtain ⟨a, b⟩ := (hex _ _ _ _ _ h).1 (by omega) ⟨hi.1, Nat.le_refl _, hi.3⟩
      exact ⟨⟨a.1, Nat.le_trans hi.2 a.2, a.3⟩, b⟩
    | @start E r ht h =>
      intro hb hi
      have hE := storeAtts_events c D int x opened s.flags s.env (converted x (rawName x x.e.mb w)) w
      rw [h] at hE
      refine ⟨⟨?_, ?_, ?_⟩, ?_⟩
      · have := hi.1; simp only [List.length_cons]; omega
      · have := hi.2; simp only; omega
      · intro hmo
        have hmo : s.mode = .epilog := hmo
        rw [hmo] at hm
        rcases ht with rfl | rfl <;> simp [Mode.verdict] at hm
      · rw [nest_append, nest_neutral (fun w hw => neutral_startNs (hE w hw)), orDefault, if_pos hs]
        rfl
    | @empty E r _ h =>
      intro hb hi
      have hE := storeAtts_events c D int x opened s.flags s.env (converted x (rawName x x.e.mb w)) w
      rw [h] at hE
      refine ⟨⟨hi.1, hi.2, ?_⟩, ?_⟩
      · simp only
        split
        · rename_i h0; exact fun _ => h0
        · exact hi.3
      · simp only [hs, he, if_true, Bool.not_true, Bool.false_and, Bool.false_eq_true, if_false, List.append_nil,
          List.append_assoc, List.singleton_append]
        rw [nest_append, nest_neutral (fun w hw => neutral_startNs (hE w hw))]
        simp only [Option.bind_some, List.cons_append, List.nil_append, nest, if_true]
        exact nest_neutral (fun w hw => neutral_endNs (freeBindings_events _ _ _ w hw)) _
    | @end_ tag tags ht hl htags hn =>
      intro hb hi
      have h1 := hi.1
      have h2 := hi.2
      rw [htags, List.length_cons] at h1
      refine ⟨⟨?_, ?_, ?_⟩, ?_⟩
      · simp only; omega
      · simp only; omega
      · simp only
        split
        · rename_i h0; exact fun _ => h0
        · intro h; have := hi.3 h; omega
      · simp only [orDefault, he, if_true, List.singleton_append, names, htags, List.map_cons, nest]
        exact nest_neutral (fun w hw => neutral_endNs (freeBindings_events _ _ _ w hw)) _
  act_err := by
    intro x opened start expand s t w E err hex hm ha
    cases act_err ha with
    | plain h _ => exact .neutral fun w hw => neutral_plain (h w hw)
    | expand _ _ h =>
      intro hb hi
      have hl := hi.1
      exact hex _ _ _ _ _ h (by omega) ⟨hi.1, Nat.le_refl _, hi.3⟩
    | start h =>
      have hE := storeAtts_events c D int x opened s.flags s.env (converted x (rawName x x.e.mb w)) w
      rw [h] at hE
      exact .neutral fun w hw => neutral_startNs (hE w hw)
    | empty h =>
      have hE := storeAtts_events c D int x opened s.flags s.env (converted x (rawName x x.e.mb w)) w
      rw [h] at hE
      refine .neutral fun w hw => ?_
      rcases List.mem_append.1 hw with hw | hw
      · exact neutral_startNs (hE w hw)
      · exact neutral_endNs (freeBindings_events _ _ _ w hw)

theorem feed_final {c : Cfg} {D int k x opened start} {e : Enc} {xs s rest E s' r}
    (h : feed (sem c D int k x opened start) e s rest xs = (E, .ok s' r)) :
    s'.mode = .epilog ∨ start ≠ 0 ∧ s'.level = start := by
  obtain ⟨ex, he⟩ := sem_semOf c D int k x opened start
  rw [he] at h
  obtain ⟨E1, s1, b1, E2, _, h2, _⟩ := feed_ok (fun _ => rfl) xs h
  exact h2.final

/-! ### Theorems -/

/-- **C26, documents.**  A document whose content is fed to the parser in any pieces, with both element
handlers set: if it is accepted, the events nest properly and nothing is left open; if it is refused,
the events reported before nest properly too. -/
theorem balanced {c : Cfg} (hs : c.startElement = true) (he : c.endElement = true) (D : Dtd) (int x : XEnc)
    (xs : List Buf) {E o} (h : feed (parser c D int x) x.e CState.init [] xs = (E, o)) :
    match o with
    | .ok s _ => nest [] E = some [] ∧ s.tags = []
    | .err _ => ∃ st, nest [] E = some st := by
  have hi : Inv 0 0 CState.init := ⟨rfl, Nat.le_refl _, fun _ => rfl⟩
  have := feed_holds (compositional D int 0 hs he) (fun _ _ => .neutral (by simp)) D.fuel x [] 0 x.e xs h
  cases o with
  | err => exact this (Nat.le_refl _) hi
  | ok s r =>
    obtain ⟨a, b⟩ := this (Nat.le_refl _) hi
    have hl : s.level = 0 := by
      rcases feed_final h with h | ⟨h, _⟩
      · exact a.3 h
      · exact absurd rfl h
    have ht : s.tags = [] := by
      have := a.1
      exact List.length_eq_zero_iff.1 (by omega)
    refine ⟨?_, ht⟩
    rw [show names c s = [] by rw [names, ht]; rfl] at b
    exact b

/-- **C26, external entities.**  The same for the content of an external general entity, which is parsed
at level 1 (src/lib/xmlparse.rs:3461-3582). -/
theorem balanced_entity {c : Cfg} (hs : c.startElement = true) (he : c.endElement = true) (D : Dtd) (int x : XEnc)
    (opened : List Buf) (s : CState) (hl : s.level = 1) (ht : s.tags = []) (hm : s.mode = .content)
    (xs : List Buf) {E o} (h : feed (sem c D int D.fuel x opened 1) x.e s [] xs = (E, o)) :
    match o with
    | .ok s _ => nest [] E = some [] ∧ s.tags = []
    | .err _ => ∃ st, nest [] E = some st := by
  have hi : Inv 1 1 s := ⟨by rw [hl, ht]; rfl, by omega, by rw [hm]; intro h; cases h⟩
  have := feed_holds (compositional D int 1 hs he) (fun _ _ => .neutral (by simp)) D.fuel x opened 1 x.e xs h
  have hn : names c s = [] := by rw [names, ht]; rfl
  rw [← hn]
  cases o with
  | err => exact this (Nat.le_refl _) hi
  | ok s' r =>
    obtain ⟨a, b⟩ := this (Nat.le_refl _) hi
    have hl : s'.level = 1 := by
      rcases feed_final h with h | ⟨_, h⟩
      · have := a.2; have := a.3 h; omega
      · exact h
    have ht : s'.tags = [] := by
      have := a.1
      exact List.length_eq_zero_iff.1 (by omega)
    refine ⟨?_, ht⟩
    rw [b, names, ht, hn]
    rfl

/-- The stack of tags is never popped when empty, the `unwrap` in 3951 does not fail. -/
theorem tag_stack {c : Cfg} (hs : c.startElement = true) (he : c.endElement = true) (D : Dtd) (int x : XEnc)
    (xs : List Buf) {E s r} (h : feed (parser c D int x) x.e CState.init [] xs = (E, .ok s r)) :
    s.level = s.tags.length := by
  have hi : Inv 0 0 CState.init := ⟨rfl, Nat.le_refl _, fun _ => rfl⟩
  have := feed_holds (compositional D int 0 hs he) (fun _ _ => .neutral (by simp)) D.fuel x [] 0 x.e xs h
  have := (this (Nat.le_refl _) hi).1.1
  omega

/-! Non-vacuity: an accepted document, one with a mismatch (refused after two events). -/
example : (feed (parser {} default (internalUtf8X false) (utf8X false)) (utf8Enc false) CState.init []
      ["<a><b></".toUTF8.toList, "b>x<c/></a> ".toUTF8.toList]).1 =
    [.startElement [0x61] [] 0 none, .startElement [0x62] [] 0 none, .endElement [0x62], .chars [0x78],
      .startElement [0x63] [] 0 none, .endElement [0x63], .endElement [0x61]] ∧
    (feed (parser {} default (internalUtf8X false) (utf8X false)) (utf8Enc false) CState.init []
      ["<a><b></".toUTF8.toList, "b>x<c/></a> ".toUTF8.toList]).2.code = none := by
  decide +kernel
example : (feed (parser {} default (internalUtf8X false) (utf8X false)) (utf8Enc false) CState.init []
      ["<a><b></a>".toUTF8.toList]).1 = [.startElement [0x61] [] 0 none, .startElement [0x62] [] 0 none] ∧
    (feed (parser {} default (internalUtf8X false) (utf8X false)) (utf8Enc false) CState.init []
      ["<a><b></a>".toUTF8.toList]).2.code = some .TAG_MISMATCH := by
  decide +kernel

end Verif.C26
