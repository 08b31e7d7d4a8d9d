import Verif.EntityDecl
import Verif.Handlers

/-! # The content of an external entity, for any set of handlers -/

set_option autoImplicit false

namespace Verif.C66
open C43 C53 C60 C61 C64 Spec Verif

section
variable {c : Cfg}

theorem sem_call_same {D : Dtd} {int x : XEnc} {asc iasc : UInt8 → Buf} (S : XSupported x asc) (I : XSupported int iasc) (k : Nat) (opened : List Buf)
    (start : Nat) (more : Bool) (s : CState) (b : Buf) :
    C64.Same c (call (sem c D int k x opened start) x.e more s b) (call (sem (full c) D int k x opened start) x.e more s b) := by
  rw [call, call, sem_mode, sem_mode]
  exact run_same (by intro s; rw [sem_mode, sem_mode]) (by intro s; cases k <;> rfl) (by intro s; cases k <;> rfl)
    (fun s t w => sem_same I k S _ _ s t w) _ _ _ _ _ _ rfl

theorem sem_feed_same {D : Dtd} {int x : XEnc} {asc iasc : UInt8 → Buf} (S : XSupported x asc) (I : XSupported int iasc) (k : Nat) (opened : List Buf)
    (start : Nat) (xs : List Buf) : ∀ (s : CState) (r : Buf),
    C64.Same c (feed (sem c D int k x opened start) x.e s r xs) (feed (sem (full c) D int k x opened start) x.e s r xs) := by
  induction xs with
  | nil => intro s r; exact sem_call_same S I ..
  | cons y ys ih =>
    intro s r
    by_cases hys : ys = []
    · subst hys; exact sem_call_same S I ..
    · rw [feed_cons hys, feed_cons hys]
      obtain ⟨h1, h2⟩ := sem_call_same (c := c) (D := D) S I k opened start true s (r ++ y)
      generalize call (sem c D int k x opened start) x.e true s (r ++ y) = p at *
      generalize call (sem (full c) D int k x opened start) x.e true s (r ++ y) = q at *
      obtain ⟨E, o⟩ := p
      obtain ⟨F, o'⟩ := q
      simp only at h1 h2
      subst h1
      cases o with
      | err e => exact ⟨rfl, h2⟩
      | ok s' r' =>
        obtain ⟨h3, h4⟩ := ih s' r'
        exact ⟨h3, by simp only [pre]; rw [own_append, h2, h4, List.filter_append]⟩

variable {D : Dtd} {int x : XEnc} {asc iasc : UInt8 → Buf} {opened : List Buf} {v : Env}

theorem in_start : In 1 v (inherited v) := ⟨rfl, rfl, rfl, Nat.le_refl _, Nat.le_refl _⟩

/-- With all handlers. -/
theorem content_full (S : XSupported x asc) (a : AllSet c) (I : XSupported int iasc) (hi : int.e.mb = 1) (b : Buf) (hd : x.e.mb ∣ b.length) (E : List Ev) :
    (∃ F s r, call (sem c D int D.fuel x opened 1) x.e false (inherited v) b = (F, .ok s r) ∧ C04.flat F = E) ↔
      Content c D int iasc x asc opened v b E [] := by
  have hc : call (sem c D int D.fuel x opened 1) x.e false (inherited v) b =
      run (sem c D int D.fuel x opened 1) x.e false false (inherited v) b := by
    rw [call, sem_mode]; rfl
  rw [hc]
  constructor
  · rintro ⟨F, s, r, h, rfl⟩
    obtain ⟨E, b1, G, h1, -, h3, h4⟩ := content_parsed a I hi D.fuel _ rfl S in_start hd h
    cases h4 with
    | eof _ => rw [h3, List.append_nil]; exact h1
    | endTag h _ => exact absurd rfl h
  · intro h
    have h1 := (content_run a I hi h S (C34.avail_le D _) in_start hd).2
    have hfin : finish (sem c D int D.fuel x opened 1) (inherited v) [] = .ok (inherited v) [] := by
      rw [finish]; cases D.fuel <;> rfl
    rw [run_nil a rfl, hfin] at h1
    generalize hq : run (sem c D int D.fuel x opened 1) x.e false false (inherited v) b = q at h1 ⊢
    obtain ⟨F, o⟩ := q
    obtain ⟨h2, h3⟩ := h1
    simp only at h2 h3
    subst h2
    exact ⟨F, _, _, rfl, by rw [h3 _ _ rfl]; simp [C04.flat]⟩

theorem content_feed (S : XSupported x asc) (he : c.expandInternal = true) (I : XSupported int iasc) (hi : int.e.mb = 1) (ys : List Buf)
    (hd : x.e.mb ∣ ys.flatten.length) (W : List Ev) :
    (∃ F s r, feed (sem c D int D.fuel x opened 1) x.e (inherited v) [] ys = (F, .ok s r) ∧ own (C04.flat F) = W) ↔
      ∃ V, Content (full c) D int iasc x asc opened v ys.flatten V [] ∧ W = V.filter (wants c) := by
  have h1 := sem_feed_same (c := c) (D := D) S I D.fuel opened 1 ys (inherited v) []
  have h2 := C04.chunks (C04.sem_lawful S (full c) D int D.fuel opened 1) S.s.ok S.s.mb S.s.even ys (inherited v) [] (by simpa using hd)
  have h3 := content_full (c := full c) (D := D) (opened := opened) (v := v) S (full_all he) I hi ys.flatten hd
  rw [List.nil_append] at h2
  generalize feed (sem c D int D.fuel x opened 1) x.e (inherited v) [] ys = p at *
  generalize feed (sem (full c) D int D.fuel x opened 1) x.e (inherited v) [] ys = q at *
  generalize call (sem (full c) D int D.fuel x opened 1) x.e false (inherited v) ys.flatten = w at *
  obtain ⟨E1, o1⟩ := p
  obtain ⟨E2, o2⟩ := q
  obtain ⟨E3, o3⟩ := w
  obtain ⟨h1, h4⟩ := h1
  simp only at h1 h4
  subst h1
  constructor
  · rintro ⟨F, s, r, h5, rfl⟩
    cases h5
    cases o3 with
    | err _ => simp only [C04.Same] at h2
    | ok s3 r3 =>
      simp only [C04.Same] at h2
      refine ⟨C04.flat E3, (h3 _).1 ⟨E3, _, _, rfl, rfl⟩, ?_⟩
      rw [flat_own, h4, ← h2.1, flat_wants]
  · rintro ⟨V, h5, rfl⟩
    obtain ⟨F, s, r, h6, rfl⟩ := (h3 V).2 h5
    cases h6
    cases o1 with
    | err _ => simp only [C04.Same] at h2
    | ok s3 r3 =>
      simp only [C04.Same] at h2
      refine ⟨E1, _, _, rfl, ?_⟩
      rw [flat_own, h4, ← h2.1, flat_wants]

/-- What begins with a declaration is not content. -/
theorem decl_not_content (S : XSupported x asc) (he : c.expandInternal = true) (I : XSupported int iasc) (hi : int.e.mb = 1) {b : Buf}
    (hd : x.e.mb ∣ b.length) (ht : (contentTok x.e b).tok = .XML_DECL) (E : List Ev) : ¬ Content (full c) D int iasc x asc opened v b E [] := by
  intro h
  obtain ⟨F, s, r, h1, -⟩ := (content_full S (full_all he) I hi b hd E).2 h
  rw [call, run.eq_def, sem_mode] at h1
  have hm : (inherited v).mode = .content := rfl
  have hv : (Mode.content).verdict .XML_DECL = .act := rfl
  simp only [hm, show Mode.tok .content x.e b = contentTok x.e b from rfl, ht, hv] at h1
  have : (sem (full c) D int D.fuel x opened 1).act (inherited v) .XML_DECL (b.take (contentTok x.e b).next) = ([], .error .MISPLACED_XML_PI) := by
    cases D.fuel <;> rfl
  rw [this] at h1
  cases h1

/-! ### Only membership in the list of open entities matters -/

theorem attrStep_congr {D : Dtd} {check : Bool} {x : XEnc} {isCdata : Bool} {f g : Buf → Buf → Buf → Except XErr Buf} {o o' : List Buf}
    (h : ∀ n, n ∈ o ↔ n ∈ o') (hf : ∀ n p t, f n p t = g n p t) (p b : Buf) :
    attrStep D check x isCdata f o p b = attrStep D check x isCdata g o' p b := by
  simp only [attrStep, h, hf]

theorem attrLoop_congr {D : Dtd} {check : Bool} {x : XEnc} {isCdata : Bool} {f g : Buf → Buf → Buf → Except XErr Buf} {o o' : List Buf}
    (h : ∀ n, n ∈ o ↔ n ∈ o') (hf : ∀ n p t, f n p t = g n p t) (k : Nat) : ∀ (b p : Buf), b.length = k →
    attrLoop D check x isCdata f o p b = attrLoop D check x isCdata g o' p b := by
  induction k using Nat.strongRecOn with
  | _ k ih =>
    intro b p hk
    rw [attrLoop.eq_def, attrLoop.eq_def (expand := g), attrStep_congr h hf]
    split
    · rfl
    · rfl
    · split
      · exact ih _ (by omega) _ _ rfl
      · rfl

theorem value_congr {D : Dtd} {check : Bool} {int : XEnc} {isCdata : Bool} (k : Nat) : ∀ {x : XEnc} {o o' : List Buf}, (∀ n, n ∈ o ↔ n ∈ o') → ∀ (p b : Buf),
    appendAttributeValue D check int isCdata k x o p b = appendAttributeValue D check int isCdata k x o' p b := by
  induction k with
  | zero => intro x o o' h p b; exact attrLoop_congr h (fun _ _ _ => rfl) _ _ _ rfl
  | succ k ih =>
    intro x o o' h p b
    exact attrLoop_congr h (fun n p t => ih (fun m => by simp [h]) p t) _ _ _ rfl

theorem storeAtts_congr {D : Dtd} {int x : XEnc} {o o' : List Buf} (h : ∀ n, n ∈ o ↔ n ∈ o') (flags : Buf → AFlag) (env : Env) (raw b : Buf) :
    storeAtts c D int x o flags env raw b = storeAtts c D int x o' flags env raw b := by
  have h1 (et : ElemType) (a : Att) (n : Buf) : attValue D int x o et b a n = attValue D int x o' et b a n := by
    rw [attValue, attValue, storeAttributeValue, storeAttributeValue, value_congr _ h]
  have h2 (et : ElemType) : attOne c D int x o et b = attOne c D int x o' et b := by
    funext s a
    rw [attOne, attOne]
    simp only [h1]
  rw [storeAtts, storeAtts]
  simp only [h2]

theorem content_congr {D : Dtd} {int : XEnc} {iasc : UInt8 → Buf} {x : XEnc} {asc : UInt8 → Buf} {o : List Buf} {v : Env} {b : Buf} {E : List Ev} {r : Buf}
    (h : Content c D int iasc x asc o v b E r) : ∀ {o' : List Buf}, (∀ n, n ∈ o ↔ n ∈ o') → Content c D int iasc x asc o' v b E r := by
  induction h with
  | nil r => intro o' h; exact .nil r
  | char h1 h2 h3 h4 _ ih => intro o' h; exact .char h1 h2 h3 h4 (ih h)
  | lf _ ih => intro o' h; exact .lf (ih h)
  | crlf h1 _ ih => intro o' h; exact .crlf h1 (ih h)
  | cr h1 h2 _ ih => intro o' h; exact .cr h1 h2 (ih h)
  | charRef h1 h2 _ ih => intro o' h; exact .charRef h1 h2 (ih h)
  | predefined h1 _ ih => intro o' h; exact .predefined h1 (ih h)
  | entity h1 h2 h3 h4 h5 h6 h7 _ _ ih1 ih =>
    intro o' h
    exact .entity h1 h2 h3 h4 h5 h6 (by rw [← h]; exact h7) (ih1 fun n => by simp [h]) (ih h)
  | external h1 h2 h3 h4 h5 h6 h7 h8 _ ih =>
    intro o' h
    exact .external h1 h2 h3 h4 h5 h6 (by rw [← h]; exact h7) h8 (ih h)
  | skipped h1 h2 h3 h4 _ ih => intro o' h; exact .skipped h1 h2 h3 h4 (ih h)
  | comment h1 _ ih => intro o' h; exact .comment h1 (ih h)
  | pi h1 _ ih => intro o' h; exact .pi h1 (ih h)
  | cdata h1 _ ih => intro o' h; exact .cdata h1 (ih h)
  | empty h1 h2 h3 h4 _ ih =>
    intro o' h
    rw [storeAtts_congr h] at h4
    exact .empty h1 h2 h3 h4 (ih h)
  | element h1 h2 h3 h4 h5 _ _ ih1 ih =>
    intro o' h
    rw [storeAtts_congr h] at h5
    exact .element h1 h2 h3 h4 h5 (ih1 h) (ih h)

end
end Verif.C66
