/-! Specification vocabulary on lists. -/

namespace Verif.Spec

/-- No element equal to `a` is directly followed by one equal to `b`. -/
def NoPair {α} (a b : α) : List α → Prop
  | [] => True
  | [_] => True
  | x :: y :: l => ¬ (x = a ∧ y = b) ∧ NoPair a b (y :: l)

theorem NoPair.tail {α} {a b x : α} {l} (h : NoPair a b (x :: l)) : NoPair a b l := by
  cases l with
  | nil => trivial
  | cons => exact h.2

theorem NoPair.cons_ne {α} {a b x : α} {l} (hx : x ≠ a) (h : NoPair a b l) :
    NoPair a b (x :: l) := by
  cases l with
  | nil => trivial
  | cons => exact ⟨fun h => hx h.1, h⟩

theorem NoPair.map {α β} (f : α → β) {a b : α} {l : List α} (h : NoPair (f a) (f b) (l.map f)) :
    NoPair a b l := by
  induction l with
  | nil => trivial
  | cons x l ih =>
    cases l with
    | nil => trivial
    | cons y l => exact ⟨fun hh => h.1 ⟨congrArg f hh.1, congrArg f hh.2⟩, ih h.2⟩

theorem NoPair.of_map {α β} (f : α → β) {a b : α} {l : List α} (ha : ∀ x ∈ l, f x = f a → x = a)
    (hb : ∀ x ∈ l, f x = f b → x = b) (h : NoPair a b l) : NoPair (f a) (f b) (l.map f) := by
  induction l with
  | nil => trivial
  | cons x l ih =>
    cases l with
    | nil => trivial
    | cons y l =>
      exact ⟨fun hh => h.1 ⟨ha _ (by simp) hh.1, hb _ (by simp) hh.2⟩,
        ih (fun x hx => ha x (by simp [hx])) (fun x hx => hb x (by simp [hx])) h.2⟩

/-- The text `l` does not contain the three-element text `a b c`. -/
def NoTriple {α} (a b c : α) : List α → Prop
  | [] => True
  | [_] => True
  | [_, _] => True
  | x :: y :: z :: l => ¬ (x = a ∧ y = b ∧ z = c) ∧ NoTriple a b c (y :: z :: l)

theorem NoPair.iff_append {α} {a b : α} {l : List α} :
    NoPair a b l ↔ ∀ u v, l ≠ u ++ a :: b :: v := by
  induction l with
  | nil => simp [NoPair]
  | cons x l ih =>
    cases l with
    | nil => simp only [NoPair, true_iff]; intro u v h; cases u <;> simp at h
    | cons y l =>
      simp only [NoPair, ih]
      constructor
      · rintro ⟨h1, h2⟩ u v h
        cases u with
        | nil => simp at h; exact h1 ⟨h.1, h.2.1⟩
        | cons z u => simp at h; exact h2 u v h.2
      · intro h
        refine ⟨fun h1 => h [] l (by simp [h1.1, h1.2]), fun u v h2 => h (x :: u) v (by simp [h2])⟩

theorem NoTriple.iff_append {α} {a b c : α} {l : List α} :
    NoTriple a b c l ↔ ∀ u v, l ≠ u ++ a :: b :: c :: v := by
  induction l with
  | nil => simp [NoTriple]
  | cons x l ih =>
    match l, ih with
    | [], _ => simp only [NoTriple, true_iff]; intro u v h; rcases u with _ | ⟨z, _ | u⟩ <;> simp at h
    | [y], _ =>
      simp only [NoTriple, true_iff]; intro u v h
      rcases u with _ | ⟨z, _ | ⟨z, _ | u⟩⟩ <;> simp at h
    | y :: z :: l, ih =>
      simp only [NoTriple, ih]
      constructor
      · rintro ⟨h1, h2⟩ u v h
        cases u with
        | nil => simp at h; exact h1 ⟨h.1, h.2.1, h.2.2.1⟩
        | cons z u => simp at h; exact h2 u v h.2
      · intro h
        exact ⟨fun h1 => h [] l (by simp [h1.1, h1.2.1, h1.2.2]),
          fun u v h2 => h (x :: u) v (by simp [h2])⟩

end Verif.Spec
