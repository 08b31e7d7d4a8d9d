import Verif.EchoConv
import Verif.LinesRun
import Verif.CdataRuns

/-! XML_DefaultCurrent (C75): tokens, runs, documents. -/

set_option autoImplicit false

namespace Verif
open C43 C53 Spec C04 C65 C15

/-! ### Tokens -/

section
variable {c : Cfg} {D : Dtd} {int x : XEnc} {opened : List Buf} {start : Nat}
  {expand : Buf → Buf → CState → List Ev × Except XErr CState}

theorem echo_append (E F : List Shown) : echo c x (E ++ F) = echo c x E ++ echo c x F := by simp [echo, text_append]
theorem echo_nil : echo c x [] = [] := rfl
theorem echo_cons (v : Shown) (F : List Shown) : echo c x (v :: F) = text (passOn c x v) ++ echo c x F := by
  simp [echo, text_append]

theorem echo_ns {w : Buf} {E : List Ev} (h : ∀ v ∈ E, isNs v = true) (F : List Ev) : ∀ st,
    echo c x (showMarkup w st (E ++ F)) = echo c x (showMarkup w st F) := by
  induction E with
  | nil => intro st; rfl
  | cons v E ih =>
    intro st
    have hv := h v (by simp)
    have := ih (fun v h' => h v (by simp [h'])) st
    cases v <;> first | cases hv; done | (cases st <;> simp only [List.cons_append, showMarkup, echo_cons, this] <;> rfl)

theorem echo_ns_only {w : Buf} {E : List Ev} (h : ∀ v ∈ E, isNs v = true) (st : Bool) : echo c x (showMarkup w st E) = [] := by
  have := echo_ns (c := c) (x := x) (w := w) h [] st
  rw [List.append_nil] at this
  rw [this]; rfl

theorem echo_only {w : Buf} {E : List Ev} (h : Only E) : ∀ st, echo c x (showMarkup w st E) = text E := by
  induction E with
  | nil => intro st; rfl
  | cons v E ih =>
    intro st
    obtain ⟨d, rfl⟩ := h v (by simp)
    have := ih (fun v h' => h v (by simp [h'])) st
    cases st <;> (simp only [showMarkup, echo_cons, this]; simp [passOn, text])

theorem echo_dflt (hd : c.dflt = true) (w u : Buf) (st : Bool) : echo c x (showMarkup u st (toDefault c x w)) = raw x w := by
  rw [echo_only (only_dflt _ _ _), text_dflt hd]

/-- Calls of the character data handler other than for text. -/
theorem echo_chars1 (hd : c.dflt = true) (d w : Buf) : echo c x (showMarkup w false (toChars c x [d] w)) = raw x w := by
  rw [toChars]
  split
  · simp only [List.map_cons, List.map_nil, showMarkup, echo_cons, echo_nil, List.append_nil]
    exact text_dflt hd x w
  · exact echo_dflt hd w w _

/-- A handler other than those for namespace declarations. -/
def plain : Ev → Bool
  | .dflt _ | .startNs .. | .endNs .. => false
  | _ => true

theorem echo_or (hd : c.dflt = true) (b : Bool) (v : Ev) (hv : plain v = true) (w : Buf) :
    echo c x (showMarkup w false (orDefault c x b v w)) = raw x w := by
  rw [orDefault]
  split
  · cases v <;> first | (cases hv; done) | skip
    all_goals
      simp only [showMarkup, echo_cons, echo_nil, List.append_nil]
      exact text_dflt hd x w
  · exact echo_dflt hd w w _

/-- A token and what the default handler is given for it. -/
def Passed (c : Cfg) (x : XEnc) (f : List Ev → List Shown) (w : Buf) (r : List Ev × Except XErr CState) : Prop :=
  match r.2 with
  | .ok _ => echo c x (f r.1) = raw x w
  | .error _ => echo c x (f r.1) = [] ∨ echo c x (f r.1) = raw x w

theorem passed_store {flags env n w} : ∀ v ∈ (storeAtts c D int x opened flags env n w).1, isNs v = true := by
  intro v hv
  rw [isNs, storeAtts_events _ _ _ _ _ _ _ _ _ v hv]; rfl

theorem passed_free {env bs} : ∀ v ∈ (freeBindings c env bs).1, isNs v = true := by
  intro v hv
  rw [isNs, freeBindings_events _ _ _ v hv]; simp

theorem passed_ref (hd : c.dflt = true) (hx : c.expandInternal = false) (s : CState) (w : Buf) :
    Passed c x (showMarkup w false) w (actEntityRef c D x opened expand s w) := by
  unfold actEntityRef
  simp only
  split
  · exact echo_chars1 hd _ _
  · cases D.entity (converted x (refName x.e w)) with
    | none =>
      simp only
      split
      · exact .inl rfl
      · exact echo_or hd _ _ rfl _
    | some ent =>
      simp only
      split
      · exact .inl rfl
      · split
        · exact .inl rfl
        · split
          · exact .inl rfl
          · cases ent.text with
            | some t => simp only [hx, Bool.not_false, if_true]; exact echo_or hd _ _ rfl _
            | none =>
              simp only
              have h1 : echo c x (showMarkup w false [.externalRef none ent.systemId ent.publicId]) = raw x w := by
                simp only [showMarkup, echo_cons, echo_nil, List.append_nil]
                exact text_dflt hd x w
              split
              · split
                · exact h1
                · exact .inr h1
              · exact echo_dflt hd w w _

theorem passed_start (hd : c.dflt = true) (s : CState) (w : Buf) : Passed c x (showMarkup w false) w (actStart c D int x opened s w) := by
  unfold actStart
  simp only
  have := passed_store (c := c) (D := D) (int := int) (x := x) (opened := opened) (flags := s.flags) (env := s.env)
    (n := converted x (rawName x x.e.mb w)) (w := w)
  generalize storeAtts c D int x opened s.flags s.env (converted x (rawName x x.e.mb w)) w = r at *
  obtain ⟨E, o⟩ := r
  cases o with
  | error e => exact .inl (echo_ns_only this _)
  | ok r =>
    simp only [Passed]
    rw [echo_ns this]
    exact echo_or hd _ _ rfl _

theorem passed_empty (hd : c.dflt = true) (h0 : raw x [] = []) (s : CState) (w : Buf) :
    Passed c x (showMarkup w false) w (actEmpty c D int x opened s w) := by
  unfold actEmpty
  have := passed_store (c := c) (D := D) (int := int) (x := x) (opened := opened) (flags := s.flags) (env := s.env)
    (n := converted x (rawName x x.e.mb w)) (w := w)
  generalize storeAtts c D int x opened s.flags s.env (converted x (rawName x x.e.mb w)) w = r at *
  obtain ⟨E, o⟩ := r
  cases o with
  | error e =>
    refine .inl ?_
    simp only
    rw [echo_ns this, echo_ns_only passed_free]
  | ok r =>
    simp only [Passed]
    have hf := passed_free (c := c) (env := r.env) (bs := r.binds)
    generalize freeBindings c r.env r.binds = f at *
    simp only [List.append_assoc]
    rw [echo_ns this]
    have hd' : ∀ u, text (toDefault c x u) = raw x u := text_dflt hd x
    cases c.startElement <;> cases c.endElement
    · simp only [Bool.false_eq_true, if_false, List.nil_append, Bool.not_false, Bool.and_self, if_true]
      have : ∀ E : List Ev, Only E → ∀ st, echo c x (showMarkup w st (E ++ f.1)) = text E := by
        intro E
        induction E with
        | nil => intro _ st; exact echo_ns_only hf st
        | cons v E ih =>
          intro hE st
          obtain ⟨d, rfl⟩ := hE v (by simp)
          have := ih (fun v h' => hE v (by simp [h'])) st
          cases st <;> (simp only [List.cons_append, showMarkup, echo_cons, this]; simp [passOn, text])
      rw [this _ (only_dflt _ _ _), hd']
    · simp [showMarkup, echo_cons, echo_ns_only hf, passOn, defaultCurrent, hd']
    · simp [showMarkup, echo_cons, echo_ns_only hf, passOn, defaultCurrent, hd']
    · simp [showMarkup, echo_cons, echo_ns_only hf, passOn, defaultCurrent, hd', h0]

theorem passed_end (hd : c.dflt = true) (s : CState) (w : Buf) : Passed c x (showMarkup w false) w (actEnd c x start s w) := by
  unfold actEnd
  split
  · exact .inl rfl
  · split
    · exact .inl rfl
    · split
      · exact .inl rfl
      · rename_i tag tags _ _
        simp only [Passed]
        have hf := passed_free (c := c) (env := s.env) (bs := tag.binds)
        generalize freeBindings c s.env tag.binds = f at *
        rw [orDefault]
        split
        · simp only [List.singleton_append, showMarkup, echo_cons, echo_ns_only hf, List.append_nil]
          exact text_dflt hd x w
        · have : ∀ E : List Ev, Only E → ∀ st, echo c x (showMarkup w st (E ++ f.1)) = text E := by
            intro E
            induction E with
            | nil => intro _ st; exact echo_ns_only hf st
            | cons v E ih =>
              intro hE st
              obtain ⟨d, rfl⟩ := hE v (by simp)
              have := ih (fun v h' => hE v (by simp [h'])) st
              cases st <;> (simp only [List.cons_append, showMarkup, echo_cons, this]; simp [passOn, text])
          rw [this _ (only_dflt _ _ _), text_dflt hd]

/-- All tokens but text. -/
theorem passed_markup (hd : c.dflt = true) (hx : c.expandInternal = false) (h0 : raw x [] = []) (s : CState) (t : Tok) (w : Buf)
    (ht : t = .DATA_CHARS → x.isUtf8 = true) : Passed c x (showMarkup w false) w (act c D int x opened start expand s t w) := by
  cases t
  case ENTITY_REF => exact passed_ref hd hx _ _
  case START_TAG_NO_ATTS => exact passed_start hd _ _
  case START_TAG_WITH_ATTS => exact passed_start hd _ _
  case EMPTY_ELEMENT_NO_ATTS => exact passed_empty hd h0 _ _
  case EMPTY_ELEMENT_WITH_ATTS => exact passed_empty hd h0 _ _
  case END_TAG => exact passed_end hd _ _
  case CHAR_REF =>
    rw [act]
    split
    · exact .inl rfl
    · exact echo_chars1 hd _ _
  case XML_DECL => exact .inl rfl
  case DATA_NEWLINE => exact echo_chars1 hd _ _
  case DATA_CHARS =>
    have hu := ht rfl
    rw [act, pieces, if_pos hu]
    exact echo_chars1 hd _ _
  case CDATA_SECT_OPEN => exact echo_or hd _ _ rfl _
  case CDATA_SECT_CLOSE => exact echo_or hd _ _ rfl _
  case PI =>
    rw [act]
    split
    · cases reportPI c.al x Pool.new w with
      | none => exact .inl rfl
      | some r =>
        simp only [Passed, showMarkup, echo_cons, echo_nil, List.append_nil]
        exact text_dflt hd x w
    · exact echo_dflt hd w w _
  case COMMENT =>
    rw [act]
    split
    · cases reportComment c.al x Pool.new w with
      | none => exact .inl rfl
      | some r =>
        simp only [Passed, showMarkup, echo_cons, echo_nil, List.append_nil]
        exact text_dflt hd x w
    · exact echo_dflt hd w w _
  all_goals exact echo_dflt hd w w _

theorem echo_zip (hd : c.dflt = true) (A : List Buf) : ∀ (ps : List Buf), A.length = ps.length →
    echo c x (List.zipWith Shown.mk A (ps.map .chars)) = (A.map (raw x)).flatten := by
  induction A with
  | nil => intro ps _; cases ps <;> rfl
  | cons a A ih =>
    intro ps h
    cases ps with
    | nil => cases h
    | cons p ps =>
      simp only [List.map_cons, List.zipWith_cons_cons, echo_cons, List.flatten_cons]
      rw [ih ps (by simpa using h)]
      congr 1
      exact text_dflt hd x a

theorem echo_zip_dflt (A : List Buf) : ∀ (ps : List Buf), A.length = ps.length →
    echo c x (List.zipWith Shown.mk A (ps.map .dflt)) = ps.flatten := by
  induction A with
  | nil => intro ps h; cases ps with
    | nil => rfl
    | cons p ps => cases h
  | cons a A ih =>
    intro ps h
    cases ps with
    | nil => cases h
    | cons p ps =>
      simp only [List.map_cons, List.zipWith_cons_cons, echo_cons, List.flatten_cons]
      rw [ih ps (by simpa using h)]
      simp [passOn, text]

/-- **A token is passed on whole.** -/
theorem passed_act {asc : UInt8 → Buf} (S : XSupported x asc) (hd : c.dflt = true) (hx : c.expandInternal = false) (m : Mode) (s : CState) (t : Tok)
    {ws : List Buf} (hw : ∀ w ∈ ws, Whole1 x.e w)
    (hs : m = .cdata → t = .DATA_CHARS → x.isUtf8 = false → c.chars = true → (converted x ws.flatten).length ≤ 1024) :
    Passed c x (showTok x m t ws.flatten) ws.flatten (act c D int x opened start expand s t ws.flatten) := by
  by_cases h : t = .DATA_CHARS ∧ x.isUtf8 = false
  · obtain ⟨rfl, hc⟩ := h
    rw [act]
    simp only [Passed, showTok, hc, and_self, if_true]
    have hl : (if m = .cdata then toEnd x ws.flatten else eaten x ws.flatten).length = (pieces x ws.flatten).length := by
      rw [pieces, hc, if_neg Bool.false_ne_true]
      split
      · exact toEnd_length ..
      · exact eaten_length ..
    rw [toChars]
    by_cases hch : c.chars = true
    · rw [if_pos hch, echo_zip hd _ _ hl]
      split
      · rename_i hm
        rw [toEnd_short S hc hw (hs hm rfl hc hch)]
        simp
      · exact eaten_raw S hc _ ws rfl hw
    · rw [if_neg hch, toDefault, if_pos hd, echo_zip_dflt _ _ hl]
      rfl
  · have := passed_markup (c := c) (D := D) (int := int) (opened := opened) (start := start) (expand := expand) hd hx (raw_nil S) s t ws.flatten
      (fun ht => by
        cases hc : x.isUtf8
        · exact absurd ⟨ht, hc⟩ h
        · rfl)
    have e : showTok x m t ws.flatten = showMarkup ws.flatten false := by funext E; rw [showTok, if_neg h]
    rw [e]; exact this

/-- The final `\r` and the final `]`. -/
theorem passed_last (hd : c.dflt = true) (h0 : raw x [] = []) (s : CState) {m : Mode} {u t : Tok}
    (ht : m.verdict u = .last t) (b : Buf) :
    echo c x (showMarkup (if t = .DATA_CHARS then [] else b) false (act c D int x opened start expand s t b).1) = [] ∨
    echo c x (showMarkup (if t = .DATA_CHARS then [] else b) false (act c D int x opened start expand s t b).1) = raw x b := by
  have h : t = .DATA_CHARS ∨ t = .DATA_NEWLINE := by cases m <;> cases u <;> simp_all [Mode.verdict]
  rcases h with rfl | rfl
  · rw [if_pos rfl, act]
    simp only
    rw [toChars]
    split
    · refine .inl ?_
      generalize pieces x b = ps
      induction ps with
      | nil => rfl
      | cons p ps ih =>
        simp only [List.map_cons, showMarkup, echo_cons, ih, List.append_nil]
        rw [show passOn c x ⟨[], .chars p⟩ = toDefault c x [] from rfl, text_dflt hd, h0]
    · exact .inr (echo_dflt hd b [] _)
  · rw [if_neg (by simp), act]
    exact .inr (echo_chars1 hd _ _)

end

/-! ### The calls are those of the parser -/

section
variable {c : Cfg} {D : Dtd} {int x : XEnc} {opened : List Buf} {start : Nat}
  {expand : Buf → Buf → CState → List Ev × Except XErr CState}

theorem showTok_lists (m : Mode) (s : CState) (t : Tok) (w : Buf) :
    (showTok x m t w (act c D int x opened start expand s t w).1).map (·.ev) = (act c D int x opened start expand s t w).1 := by
  rw [showTok]
  split
  · rename_i h
    obtain ⟨rfl, hc⟩ := h
    have hl : (if m = .cdata then toEnd x w else eaten x w).length = (pieces x w).length := by
      rw [pieces, hc, if_neg Bool.false_ne_true]
      split
      · exact toEnd_length ..
      · exact eaten_length ..
    rw [act]
    generalize (if m = .cdata then toEnd x w else eaten x w) = A at *
    simp only [toChars, toDefault]
    split
    · exact zip_lists _ _ (by rw [hl, List.length_map])
    · split
      · exact zip_lists _ _ (by rw [hl, List.length_map])
      · simp
  · exact showMarkup_lists ..

theorem runShown_ran (more : Bool) (n : Nat) : ∀ (b : Buf), b.length = n → ∀ s,
    ((runShown (semOf c D int x opened start expand) x more s b).1.map (·.ev), (runShown (semOf c D int x opened start expand) x more s b).2) =
      run (semOf c D int x opened start expand) x.e more false s b := by
  have go : ∀ s, (semOf c D int x opened start expand).stop s = .go := fun _ => rfl
  have ha : (semOf c D int x opened start expand).act = act c D int x opened start expand := rfl
  induction n using Nat.strongRecOn with
  | _ n ih =>
    intro b hb s
    rw [runShown, run_go go]
    simp only
    cases ((semOf c D int x opened start expand).mode s).verdict (((semOf c D int x opened start expand).mode s).tok x.e b).tok with
    | wait e => cases more <;> rfl
    | done => cases more <;> rfl
    | stop => rfl
    | fail e => rfl
    | last t =>
      cases more
      · simp only [Bool.false_eq_true, if_false]
        generalize (semOf c D int x opened start expand).act s t b = a
        obtain ⟨E, o⟩ := a
        cases o <;> simp [showMarkup_lists]
      · rfl
    | actStop =>
      simp only
      have h := showTok_lists (c := c) (D := D) (int := int) (x := x) (opened := opened) (start := start) (expand := expand)
        ((semOf c D int x opened start expand).mode s) s .PROLOG_S (b.take (((semOf c D int x opened start expand).mode s).tok x.e b).next)
      rw [← ha] at h
      generalize (semOf c D int x opened start expand).act s .PROLOG_S _ = a at h ⊢
      obtain ⟨E, o⟩ := a
      simp only at h
      cases o <;> simp [h]
    | act =>
      simp only
      have h := showTok_lists (c := c) (D := D) (int := int) (x := x) (opened := opened) (start := start) (expand := expand)
        ((semOf c D int x opened start expand).mode s) s (((semOf c D int x opened start expand).mode s).tok x.e b).tok
        (b.take (((semOf c D int x opened start expand).mode s).tok x.e b).next)
      rw [← ha] at h
      generalize (semOf c D int x opened start expand).act s _ _ = a at h ⊢
      obtain ⟨E, o⟩ := a
      simp only at h
      cases o with
      | error e => simp [h]
      | ok s' =>
        simp only
        split
        · rename_i hl
          have := ih _ (by rw [← hb]; exact hl) _ rfl s'
          rw [← this]
          simp [pre, h]
        · simp [h]

theorem feedShown_ran (xs : List Buf) : ∀ (r : Buf) (s : CState),
    ((feedShown (semOf c D int x opened start expand) x s r xs).1.map (·.ev), (feedShown (semOf c D int x opened start expand) x s r xs).2) =
      feed (semOf c D int x opened start expand) x.e s r xs := by
  have go : ∀ s, (semOf c D int x opened start expand).stop s = .go := fun _ => rfl
  induction xs with
  | nil => intro r s; rw [feedShown, Verif.feed, call, run_via go _ _ _ rfl]; exact runShown_ran _ _ _ rfl _
  | cons y ys ih =>
    intro r s
    cases ys with
    | nil => rw [feedShown, Verif.feed, call, run_via go _ _ _ rfl]; exact runShown_ran _ _ _ rfl _
    | cons z zs =>
      rw [feedShown, Verif.feed, call, run_via go _ _ _ rfl, ← runShown_ran _ _ _ rfl]
      · generalize runShown (semOf c D int x opened start expand) x true s (r ++ y) = q
        obtain ⟨E, o⟩ := q
        cases o with
        | err e => rfl
        | ok s' q =>
          simp only
          have := ih q s'
          rw [← this]
          simp [pre]
      · simp
      · simp

end

theorem cut_wholes {e : Enc} {asc : UInt8 → Buf} (s : Supported e asc) {cr : Bool} {b : Buf} {n : Nat} (h : CharCut e cr b n) :
    ∃ (ws : List Buf) (r : Buf), b = ws.flatten ++ r ∧ ws.flatten.length = n ∧ ∀ w ∈ ws, Whole1 e w := by
  induction h with
  | @here cr b h => exact ⟨[], b, rfl, rfl, by simp⟩
  | @char cr b n h1 h2 h ih =>
    obtain ⟨ws, r, i1, i2, i3⟩ := ih
    have hb : b = b.take (e.charLen b) ++ b.drop (e.charLen b) := (List.take_append_drop ..).symm
    have hl : (b.take (e.charLen b)).length = e.charLen b := by rw [List.length_take]; omega
    have hpos : e.mb ≤ e.charLen b := by
      have := s.mb
      simp only [Enc.charLen]; split <;> omega
    generalize hw : b.take (e.charLen b) = w at *
    have hww : Whole1 e w := by
      refine ⟨by omega, ?_⟩
      rw [hl]
      have := charLen_app s.ok w (b.drop (e.charLen b)) (by omega)
      rw [← hb] at this
      exact this
    refine ⟨w :: ws, r, ?_, by rw [List.flatten_cons, List.length_append]; omega, ?_⟩
    · rw [List.flatten_cons, List.append_assoc, ← i1]; exact hb
    · intro u hu
      rcases List.mem_cons.1 hu with rfl | hu
      · exact hww
      · exact i3 u hu

/-! ### The default handler is given what is consumed -/

/-- No stretch of legal characters without line ends in this text is longer than 1024 bytes when converted (only of interest if text is
converted for the character data handler). -/
def Short (c : Cfg) (x : XEnc) (asc : UInt8 → Buf) (b : Buf) : Prop :=
  x.isUtf8 = false → c.chars = true → ∀ (ws : List Buf) (r r' : Buf), b = r ++ (ws.flatten ++ r') →
    (∀ w ∈ ws, x.e.IsChar w ∧ w ≠ asc 0x0A ∧ w ≠ asc 0x0D) → (converted x ws.flatten).length ≤ 1024

theorem Short.part {c : Cfg} {x : XEnc} {asc : UInt8 → Buf} {a b d : Buf} (h : Short c x asc (a ++ (b ++ d))) : Short c x asc b := by
  intro h1 h2 ws r r' hb hw
  subst hb
  exact h h1 h2 ws (a ++ r) (r' ++ d) (by simp) hw

theorem Short.right {c : Cfg} {x : XEnc} {asc : UInt8 → Buf} {a b : Buf} (h : Short c x asc (a ++ b)) : Short c x asc b :=
  Short.part (a := a) (d := []) (by simpa using h)

theorem Short.left {c : Cfg} {x : XEnc} {asc : UInt8 → Buf} {a b : Buf} (h : Short c x asc (a ++ b)) : Short c x asc a :=
  Short.part (a := []) (d := b) (by simpa using h)

/-- A call passes on the bytes it consumes; if it fails, some of them. -/
def Echoes (c : Cfg) (x : XEnc) (more : Bool) (b : Buf) (r : List Shown × Out CState) : Prop :=
  match r.2 with
  | .ok _ q => ∃ ws : List Buf, (∀ w ∈ ws, Whole1 x.e w) ∧ b = ws.flatten ++ q ∧ echo c x r.1 = raw x ws.flatten ∧
      (more = false → x.e.mb ∣ b.length → q = [])
  | .err _ => ∃ a q, b = a ++ q ∧ echo c x r.1 = raw x a

section
variable {c : Cfg} {D : Dtd} {int x : XEnc} {opened : List Buf}
  {expand : Buf → Buf → CState → List Ev × Except XErr CState} {asc : UInt8 → Buf} (S : XSupported x asc)
include S

theorem echoes_none_err (more : Bool) (b : Buf) (e : XErr) : Echoes c x more b ([], .err e) := ⟨[], b, rfl, by rw [raw_nil S]; rfl⟩
theorem echoes_none_ok (more : Bool) (b : Buf) (s : CState) (h : more = false → x.e.mb ∣ b.length → b = []) : Echoes c x more b ([], .ok s b) :=
  ⟨[], by simp, rfl, by rw [List.flatten_nil, raw_nil S]; rfl, h⟩

omit S in
theorem unit_rest {ws : List Buf} {q : Buf} (h : x.e.mb ∣ ws.flatten.length) (h2 : x.e.mb ∣ (ws.flatten ++ q).length) : x.e.mb ∣ q.length := by
  rw [List.length_append] at h2
  exact (Nat.dvd_add_right h).1 h2

theorem wholes_unit {ws : List Buf} (hw : ∀ w ∈ ws, Whole1 x.e w) : x.e.mb ∣ ws.flatten.length := by
  cases hc : x.isUtf8
  · exact wholes_dvd S hc hw
  · have : x.e.mb = 1 := by cases S <;> first | rfl | cases hc
    rw [this]; exact Nat.one_dvd _

/-- Text in a CDATA section has no line ends. -/
theorem cdata_short {b : Buf} (ht : (cdataSectionTok x.e b).tok = .DATA_CHARS) (hs : Short c x asc b) {ws : List Buf}
    (hw : b.take (cdataSectionTok x.e b).next = ws.flatten) (hc : x.isUtf8 = false) (hch : c.chars = true) :
    (converted x ws.flatten).length ≤ 1024 := by
  generalize hr : cdataSectionTok x.e b = rr at ht hw
  obtain ⟨t, n⟩ := rr
  simp only at ht hw
  subst ht
  have hb := tok_long (m := .cdata) hr (by simp) (by simp)
  rw [cdataSectionTok_eq hb] at hr
  obtain ⟨w, us, r, h1, -, -, h2, h3⟩ := cdataTokBody_data S.s (truncBuf x.e b) n (truncBuf_len hb) hr
  obtain ⟨y, hy⟩ := truncBuf_prefix x.e b
  have e1 : b.take n = (w :: us).flatten := by
    rw [hy, h2, h3, List.append_assoc, List.take_left]
  rw [← hw, e1]
  refine hs hc hch (w :: us) [] (r ++ y) (by rw [hy, h2]; simp) fun u hu => ⟨(h1 u hu).1, (h1 u hu).2.1, ?_⟩
  rintro rfl
  refine (h1 _ hu).2.2 ?_
  cases S <;> first | (cases hc; done) | (rename_i ns; cases ns <;> decide +kernel)

theorem echoes_run (hd : c.dflt = true) (hx : c.expandInternal = false) (more : Bool) (n : Nat) : ∀ (b : Buf), b.length = n → Short c x asc b → ∀ s,
    Echoes c x more b (runShown (semOf c D int x opened 0 expand) x more s b) := by
  have h0 := raw_nil S
  have hfin : ∀ s q, finish (semOf c D int x opened 0 expand) s q = .err .NO_ELEMENTS := fun _ _ => rfl
  induction n using Nat.strongRecOn with
  | _ n ih =>
    intro b hb hsh s
    rw [runShown]
    simp only
    generalize hM : semOf c D int x opened 0 expand = M at *
    have ha : M.act = act c D int x opened 0 expand := by rw [← hM]; rfl
    cases hv : (M.mode s).verdict ((M.mode s).tok x.e b).tok with
    | wait e =>
      cases more
      · exact echoes_none_err S _ _ _
      · exact echoes_none_ok S _ _ _ (by simp)
    | done =>
      cases more
      · rw [if_neg Bool.false_ne_true, hfin]; exact echoes_none_err S _ _ _
      · exact echoes_none_ok S _ _ _ (by simp)
    | stop =>
      refine echoes_none_ok S _ _ _ fun _ _ => ?_
      generalize M.mode s = m at hv
      cases m with
      | epilog =>
        refine prologTok_none (e := x.e) ?_
        generalize htk : (Mode.epilog.tok x.e b).tok = t at hv
        rw [show (prologTok x.e b).tok = t from htk]
        cases t <;> first | rfl | cases hv
      | cdata => generalize (Mode.cdata.tok x.e b).tok = t at hv; cases t <;> cases hv
      | content => generalize (Mode.content.tok x.e b).tok = t at hv; cases t <;> cases hv
    | fail e => exact echoes_none_err S _ _ _
    | last t =>
      cases more
      · simp only [Bool.false_eq_true, if_false]
        have h := passed_last (c := c) (D := D) (int := int) (opened := opened) (start := 0) (expand := expand) hd h0 s hv b
        rw [← ha] at h
        generalize M.act s t b = a at h
        obtain ⟨E, o⟩ := a
        have : ∃ a q, b = a ++ q ∧ echo c x (showMarkup (if t = .DATA_CHARS then [] else b) false E) = raw x a := by
          rcases h with h | h
          · exact ⟨[], b, rfl, by rw [h0]; exact h⟩
          · exact ⟨b, [], by simp, h⟩
        cases o with
        | error e => exact this
        | ok s' => simp only [hfin]; exact this
      · exact echoes_none_ok S _ _ _ (by simp)
    | actStop =>
      obtain ⟨hm, ht⟩ := actStop_tok hv
      have htk : prologTok x.e b = ⟨.PROLOG_S_NEG, ((M.mode s).tok x.e b).next⟩ := by rw [← ht, hm]; rfl
      obtain ⟨ws, hw, hwn⟩ := space_chars_ok S.s.ok (.inr rfl) htk
      have hw1 : ∀ w ∈ ws, Whole1 x.e w := fun w h => .of_char S.s.mb (hw w h)
      simp only [hwn]
      have h := passed_act (c := c) (D := D) (int := int) (opened := opened) (start := 0) (expand := expand) S hd hx (M.mode s) s .PROLOG_S hw1
        (by rintro - ⟨⟩)
      rw [← ha] at h
      have hbb : b = ws.flatten ++ b.drop ((M.mode s).tok x.e b).next := by rw [← hwn, List.take_append_drop]
      generalize M.act s .PROLOG_S ws.flatten = a at h ⊢
      obtain ⟨E, o⟩ := a
      cases o with
      | error e =>
        rcases h with h | h
        · exact ⟨[], b, rfl, by rw [h0]; exact h⟩
        · exact ⟨_, _, hbb, h⟩
      | ok s' => exact ⟨ws, hw1, hbb, h, fun _ hdv => Api.spaceNeg_next S.s.ok S.s.even htk hdv⟩
    | act =>
      obtain ⟨ws, r, h1, h2, hw1⟩ := cut_wholes S.s (Mode.tok_cut S.s.marks S.s.ok (M.mode s) b (neg_act hv))
      have hwn : b.take ((M.mode s).tok x.e b).next = ws.flatten := by
        conv => lhs; arg 2; rw [h1]
        rw [← h2, List.take_left]
      have hwr : b.drop ((M.mode s).tok x.e b).next = r := by
        conv => lhs; arg 2; rw [h1]
        rw [← h2, List.drop_left]
      have hprog := verdict_progress hv
      simp only [hwn]
      have h := passed_act (c := c) (D := D) (int := int) (opened := opened) (start := 0) (expand := expand) S hd hx (M.mode s) s
        ((M.mode s).tok x.e b).tok hw1 (by
          intro g1 g2
          have hwn := hwn
          rw [g1] at g2 hwn
          exact cdata_short S g2 hsh hwn)
      rw [← ha] at h
      rw [hwr] at hprog ⊢
      generalize M.act s ((M.mode s).tok x.e b).tok ws.flatten = a at h ⊢
      obtain ⟨E, o⟩ := a
      cases o with
      | error e =>
        rcases h with h | h
        · exact ⟨[], b, rfl, by rw [h0]; exact h⟩
        · exact ⟨_, _, h1, h⟩
      | ok s' =>
        simp only [if_pos hprog]
        simp only [Passed] at h
        have hr := ih r.length (by rw [← hb]; exact hprog) r rfl (by rw [h1] at hsh; exact hsh.right) s'
        generalize runShown M x more s' r = p at hr ⊢
        obtain ⟨F, o⟩ := p
        cases o with
        | ok s'' q =>
          obtain ⟨us, hu, i1, i2, i3⟩ := hr
          refine ⟨ws ++ us, fun w hm => (List.mem_append.1 hm).elim (hw1 w) (hu w), ?_, ?_, fun g1 g2 => i3 g1 ?_⟩
          · rw [h1, i1]; simp
          · simp only at i2 ⊢
            rw [echo_append, h, i2, List.flatten_append, raw_whole S hw1]
          · rw [h1] at g2
            exact unit_rest (wholes_unit S hw1) g2
        | err e =>
          obtain ⟨a, q, i1, i2⟩ := hr
          refine ⟨ws.flatten ++ a, q, by rw [h1, i1]; simp, ?_⟩
          simp only at i2 ⊢
          rw [echo_append, h, i2, raw_whole S hw1]

/-- **The whole of the content, or what was read of it.** -/
theorem echoes_feed (hd : c.dflt = true) (hx : c.expandInternal = false) (xs : List Buf) : ∀ (r : Buf) (s : CState), Short c x asc (r ++ xs.flatten) →
    Echoes c x false (r ++ xs.flatten) (feedShown (semOf c D int x opened 0 expand) x s r xs) := by
  induction xs with
  | nil => intro r s hs; rw [feedShown]; simp only [List.flatten_nil, List.append_nil] at hs ⊢; exact echoes_run S hd hx _ _ _ rfl hs _
  | cons y ys ih =>
    intro r s hs
    cases ys with
    | nil =>
      rw [feedShown]
      simp only [List.flatten_cons, List.flatten_nil, List.append_nil] at hs ⊢
      exact echoes_run S hd hx _ _ _ rfl hs _
    | cons z zs =>
      rw [List.flatten_cons, ← List.append_assoc] at hs ⊢
      have h := echoes_run (D := D) (int := int) (opened := opened) (expand := expand) S hd hx true _ (r ++ y) rfl hs.left s
      rw [feedShown]
      · generalize runShown (semOf c D int x opened 0 expand) x true s (r ++ y) = p at h ⊢
        obtain ⟨E, o⟩ := p
        cases o with
        | err e =>
          obtain ⟨a, q, h1, h2⟩ := h
          exact ⟨a, q ++ (z :: zs).flatten, by rw [h1]; simp, h2⟩
        | ok s' q =>
          obtain ⟨ws, hw, h1, h2, -⟩ := h
          simp only at h2 ⊢
          rw [h1, List.append_assoc] at hs ⊢
          have hr := ih q s' hs.right
          generalize feedShown (semOf c D int x opened 0 expand) x s' q (z :: zs) = p at hr ⊢
          obtain ⟨F, o⟩ := p
          cases o with
          | ok s'' q =>
            obtain ⟨us, hu, i1, i2, i3⟩ := hr
            refine ⟨ws ++ us, fun w hm => (List.mem_append.1 hm).elim (hw w) (hu w), ?_, ?_, fun g1 g2 => i3 g1 ?_⟩
            · rw [i1]; simp
            · simp only at i2 ⊢
              rw [echo_append, h2, i2, List.flatten_append, raw_whole S hw]
            · exact unit_rest (wholes_unit S hw) g2
          | err e =>
            obtain ⟨a, q, i1, i2⟩ := hr
            refine ⟨ws.flatten ++ a, q, by rw [i1]; simp, ?_⟩
            simp only at i2 ⊢
            rw [echo_append, h2, i2, raw_whole S hw]
      · simp

end

end Verif
