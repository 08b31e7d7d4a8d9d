import Verif.ApiDoc

/-! # C63: XML_Parse accepts documents and nothing else

C55 to C62 are about the processors; here are the calls an application makes: a parser as XML_ParserCreate or XML_ParserReset leave
it, XML_Parse on the pieces of a text (empty ones among them), the statuses, XML_GetErrorCode, and the handler calls. -/

set_option autoImplicit false

namespace Verif.C63
open C43 C53 C59 C60 Spec Verif PState Api

section
variable {C : PCfg} {ext : Ext} {fuel : Nat} {upd : Buf → Pos → Option Pos} {alloc : Nat → Bool}

local notation "En" => docEngine C ext fuel upd alloc

/-- The bytes of the calls and those not yet consumed fit. -/
def Fits (p : Parser Inner) (cs : List Call) : Prop := p.queue.pending.length + (cs.map C42.bytes).sum + 1024 ≤ 2 ^ 30

theorem parse_step (ha : ∀ n, alloc n = true) {p : Parser Inner} (I : Inv p) {w : Buf} {final : Bool} {cs : List Call}
    (hs : Fits p (.parse w final :: cs)) (hc : Contract p (.parse w final)) {r : Ret Inner Val} (h : step En p (.parse w final) = some r) :
    Inv r.st ∧ Fits r.st cs ∧ r.q = Queue.step En true p.queue (.parse w final) := by
  simp only [Fits, List.map_cons, List.sum_cons] at hs
  obtain ⟨J, m, hm, e⟩ := step_spec (docEngine_lawful C ext fuel upd alloc) I hc h
  have : m = true := by
    cases m with
    | true => rfl
    | false => exact absurd (hm rfl) (C42.fed (E := En) ha I (by omega))
  subst this
  rw [if_neg (by simp [Call.isQuery])] at e
  refine ⟨J, ?_, e⟩
  have hst : r.st.queue = (Queue.step En true p.queue (.parse w final)).st := congrArg QRet.st e
  have hp := C42.pending_le (E := En) p.queue true (.parse w final)
  simp only [Fits]
  rw [hst]
  omega

theorem started_reading (a : Queue Inner) (hp : a.parsing = .INITIALIZED ∨ a.parsing = .PARSING) (hc : a.parsing = .PARSING ∨ a.child = false) (k : Queue Inner → QRet Inner) :
    Queue.started En a k = k { a with parsing := .PARSING } := by
  obtain ⟨_, _, _, _, _, ps, _, ch, _, _⟩ := a
  rcases hp with hp | hp <;> simp only at hp <;> subst hp
  · rcases hc with hc | hc
    · cases hc
    · simp only at hc
      subst hc
      rfl
  · rfl

/-- The calls for a text in pieces, the last of them final. -/
def calls (ws : List Buf) (w : Buf) : List Call := ws.map (.parse · false) ++ [.parse w true]

/-- The status of the last call. -/
def final (rs : List (Ret Inner Val)) : Option Val := rs.getLast?.map (·.val)

theorem failed_path (ha : ∀ n, alloc n = true) (w : Buf) (ws : List Buf) : ∀ {p q : Parser Inner} {rs : List (Ret Inner Val)}, Inv p → p.failed = true →
    p.parsing = .PARSING → Fits p (calls ws w) → Path En p (calls ws w) rs q → q.inner = p.inner ∧ q.error = p.error ∧ final rs = some (.status .ERROR) := by
  have give (a : Queue Inner) (hf : a.failed = true) (e : XErr) (he : a.error = some e) (b : Buf) (k : Nat → Buf) :
      (Queue.give En a b k).st = { a with pending := k 0, failed := true } ∧ (Queue.give En a b k).val = .status .ERROR := by
    obtain ⟨_, _, fl, _, err, _, _, _, _, _⟩ := a
    simp only at hf he
    subst hf he
    exact ⟨rfl, rfl⟩
  induction ws with
  | nil =>
    intro p q rs I hf hp hs h
    cases h with
    | cons hc hst ht =>
      cases ht
      obtain ⟨J, -, e⟩ := parse_step ha I hs hc hst
      obtain ⟨c, he⟩ := Option.ne_none_iff_exists'.1 (I.failed hf)
      have hpq : p.queue.parsing = .PARSING := hp
      simp only [Queue.step, started_reading p.queue (.inr hpq) (.inl hpq), Bool.true_eq_false, and_false, if_false, Queue.input] at e
      have k1 := (congrArg QRet.st e).trans (give _ hf c he _ _).1
      have k2 := (congrArg QRet.val e).trans (give _ hf c he _ _).2
      exact ⟨congrArg Queue.inner k1, congrArg Queue.error k1, by simp only [final, List.getLast?_singleton, Option.map_some]; exact congrArg some k2⟩
  | cons v ws ih =>
    intro p q rs I hf hp hs h
    cases h with
    | @cons _ _ _ r _ rs hc hst ht =>
      obtain ⟨J, hs', e⟩ := parse_step ha I hs hc hst
      obtain ⟨c, he⟩ := Option.ne_none_iff_exists'.1 (I.failed hf)
      have hpq : p.queue.parsing = .PARSING := hp
      have key : r.st.inner = p.inner ∧ r.st.error = p.error ∧ r.st.failed = true ∧ r.st.parsing = .PARSING := by
        simp only [Queue.step, started_reading p.queue (.inr hpq) (.inl hpq), Bool.true_eq_false, and_false, and_true, if_false, Queue.input] at e
        by_cases hv : v = []
        · rw [if_pos hv] at e
          have k1 := congrArg QRet.st e
          exact ⟨congrArg Queue.inner k1, congrArg Queue.error k1, (congrArg Queue.failed k1).trans hf, congrArg Queue.parsing k1⟩
        · rw [if_neg hv] at e
          have k1 := (congrArg QRet.st e).trans (give _ hf c he _ _).1
          exact ⟨congrArg Queue.inner k1, congrArg Queue.error k1, congrArg Queue.failed k1, congrArg Queue.parsing k1⟩
      obtain ⟨i1, i2, i3⟩ := ih J key.2.2.1 key.2.2.2 hs' ht
      refine ⟨i1.trans key.1, i2.trans key.2.1, ?_⟩
      cases rs with
      | nil => simp [final] at i3
      | cons r2 rs => simpa [final] using i3

/-- Calls of XML_Parse were made, or none, and no error found. -/
structure Reading (p : Parser Inner) : Prop where
  inv : Inv p
  parsing : p.parsing = .INITIALIZED ∨ p.parsing = .PARSING
  failed : p.failed = false
  child : p.child = false

/-- What a call does that gives the processor something. -/
theorem input_turn (ha : ∀ n, alloc n = true) {p : Parser Inner} (R : Reading p) {w : Buf} {fin : Bool} (hw : w ≠ [] ∨ fin = true) {cs : List Call}
    (hs : Fits p (.parse w fin :: cs)) (hc : Contract p (.parse w fin)) {r : Ret Inner Val} (h : step En p (.parse w fin) = some r)
    {t : Turn} (ht : turn C ext fuel p.conf p.inner.stage fin (p.queue.pending ++ w) = t) :
    Inv r.st ∧ Fits r.st cs ∧ r.st.inner = ⟨t.stage, p.inner.P ++ t.P, p.inner.F ++ t.F⟩ ∧ r.st.error = t.code ∧ r.st.conf = p.conf ∧ r.st.child = p.child ∧
      (t.code = none → r.val = .status .OK ∧ r.st.failed = false ∧ r.st.queue.pending = t.rest ∧ r.st.parsing = if fin then .FINISHED else .PARSING) ∧
      (t.code ≠ none → r.val = .status .ERROR ∧ r.st.failed = true ∧ r.st.parsing = .PARSING) := by
  obtain ⟨J, hs', e⟩ := parse_step ha R.inv hs hc h
  refine ⟨J, hs', ?_⟩
  have hpend := turn_pending C ext fuel p.conf p.inner.stage fin (p.queue.pending ++ w)
  rw [ht] at hpend
  have hst : r.q = Queue.input En { p.queue with parsing := .PARSING } w fin := by
    rw [e]
    simp only [Queue.step, started_reading p.queue R.parsing (.inr R.child), Bool.true_eq_false, and_false, if_false]
    rw [if_neg (by rcases hw with hw | hw <;> simp [hw])]
  simp only [Queue.input, Queue.give, Queue.work] at hst
  have hf : p.queue.failed = false := R.failed
  simp only [hf, Bool.false_eq_true, if_false] at hst
  have hE : (docEngine C ext fuel upd alloc).proc p.queue.conf p.queue.inner fin (p.queue.pending ++ w) =
      ⟨t.F, if t.code = none then (p.queue.pending ++ w).length - t.rest.length else 0, t.code, ⟨t.stage, p.inner.P ++ t.P, p.inner.F ++ t.F⟩, .PARSING,
        if t.code = none then (p.queue.pending ++ w).length - t.rest.length else 0, if t.code = none then (p.queue.pending ++ w).length - t.rest.length else 0⟩ := by
    subst ht; rfl
  rw [hE] at hst
  simp only [Queue.settle] at hst
  cases ht2 : t.code with
  | some c =>
    rw [ht2] at hst
    simp only at hst
    have k1 := congrArg QRet.st hst
    have k2 := congrArg QRet.val hst
    exact ⟨congrArg Queue.inner k1, congrArg Queue.error k1, congrArg Queue.conf k1, congrArg Queue.child k1, by simp,
      fun _ => ⟨k2, congrArg Queue.failed k1, congrArg Queue.parsing k1⟩⟩
  | none =>
    rw [ht2] at hst
    simp only [reduceCtorEq, if_true, if_false, hpend] at hst
    have k1 := congrArg QRet.st hst
    have k2 := congrArg QRet.val hst
    exact ⟨congrArg Queue.inner k1, congrArg Queue.error k1, congrArg Queue.conf k1, congrArg Queue.child k1,
      fun _ => ⟨k2, congrArg Queue.failed k1, congrArg Queue.pending k1, congrArg Queue.parsing k1⟩, by simp⟩

/-- The pieces that are not empty, and the last. -/
def pieces (ws : List Buf) (w : Buf) : List Buf := ws.filter (· ≠ []) ++ [w]

theorem pieces_flatten (ws : List Buf) (w : Buf) : (pieces ws w).flatten = ws.flatten ++ w := by
  induction ws with
  | nil => simp [pieces]
  | cons v ws ih =>
    by_cases hv : v = []
    · subst hv
      simpa [pieces] using ih
    · have : pieces (v :: ws) w = v :: pieces ws w := by simp [pieces, hv]
      rw [this, List.flatten_cons, ih, List.flatten_cons, List.append_assoc]

/-- Calls of XML_Parse, the last of them final: the handler calls, the statuses and the error code are those of the document. -/
theorem path_told (ha : ∀ n, alloc n = true) {idx : EncIndex} (w : Buf) (ws : List Buf) : ∀ {p q : Parser Inner} {rs : List (Ret Inner Val)}, Reading p →
    getEncodingIndex p.conf.encoding = some idx → Fits p (calls ws w) → Path En p (calls ws w) rs q →
    (∃ P F, q.inner.P = p.inner.P ++ P ∧ q.inner.F = p.inner.F ++ F ∧
      Told (docFrom C ext fuel p.conf idx p.inner.stage p.queue.pending (pieces ws w)) P F q.inner.stage q.error) ∧
    (q.error = none → ∀ r ∈ rs, r.val = .status .OK) ∧ (q.error ≠ none → final rs = some (.status .ERROR)) := by
  induction ws with
  | nil =>
    intro p q rs R hi hs h
    cases h with
    | @cons _ _ _ r _ _ hc hst ht =>
      cases ht
      obtain ⟨-, -, h1, h2, -, -, h3, h4⟩ := input_turn ha R (.inr rfl) hs hc hst rfl
      have hg := goes (C := C) (ext := ext) (fuel := fuel) hi p.inner.stage p.queue.pending w []
      rw [show (([] : List Buf) == []) = true from rfl] at hg
      generalize turn C ext fuel p.conf p.inner.stage true (p.queue.pending ++ w) = t at *
      have hg := hg.last
      refine ⟨⟨t.P, t.F, by rw [h1], by rw [h1], by rw [h1, h2]; exact hg⟩, ?_, ?_⟩
      · intro hq r' hr'
        rw [List.mem_singleton] at hr'
        subst hr'
        exact (h3 (h2 ▸ hq)).1
      · intro hq
        simp only [final, List.getLast?_singleton, Option.map_some, (h4 (h2 ▸ hq)).1]
  | cons v ws ih =>
    intro p q rs R hi hs h
    cases h with
    | @cons _ _ _ r _ rs hc hst ht =>
      by_cases hv : v = []
      · subst hv
        have hsame : Reading r.st ∧ r.st.conf = p.conf ∧ r.st.inner = p.inner ∧ r.st.queue.pending = p.queue.pending ∧ r.val = .status .OK ∧ Fits r.st (calls ws w) := by
          obtain ⟨J, hs', e⟩ := parse_step ha R.inv hs hc hst
          have hst : r.q = { val := .status .OK, st := { p.queue with parsing := .PARSING, final := false } } := by
            rw [e]
            simp only [Queue.step, started_reading p.queue R.parsing (.inr R.child), and_self, if_true]
          have k1 := congrArg QRet.st hst
          exact ⟨⟨J, .inr (congrArg Queue.parsing k1), (congrArg Queue.failed k1).trans R.failed, (congrArg Queue.child k1).trans R.child⟩,
            congrArg Queue.conf k1, congrArg Queue.inner k1, by have := congrArg Queue.pending k1; exact this, congrArg QRet.val hst, hs'⟩
        obtain ⟨R', g1, g2, g3, g4, g5⟩ := hsame
        have := ih R' (by rw [g1]; exact hi) g5 ht
        rw [g1, g2, g3] at this
        have hpc : pieces ([] :: ws) w = pieces ws w := by simp [pieces]
        rw [hpc]
        refine ⟨this.1, ?_, ?_⟩
        · intro hq r' hr'
          rcases List.mem_cons.1 hr' with rfl | hr'
          · exact g4
          · exact this.2.1 hq r' hr'
        · intro hq
          have := this.2.2 hq
          cases rs with
          | nil => simp [final] at this
          | cons r2 rs => simpa [final] using this
      · have hpc : pieces (v :: ws) w = v :: pieces ws w := by simp [pieces, hv]
        obtain ⟨J, hs', h1, h2, h5, h6, h3, h4⟩ := input_turn ha R (.inl hv) hs hc hst rfl
        have hg := goes (C := C) (ext := ext) (fuel := fuel) hi p.inner.stage p.queue.pending v (pieces ws w)
        rw [show ((pieces ws w) == []) = false by simp [pieces]] at hg
        rw [hpc]
        generalize turn C ext fuel p.conf p.inner.stage false (p.queue.pending ++ v) = t at *
        cases hk : t.code with
        | none =>
          have hg := hg.more hk (by simp [pieces])
          obtain ⟨k1, k2, k3, k4⟩ := h3 hk
          have R' : Reading r.st := ⟨J, .inr k4, k2, h6.trans R.child⟩
          obtain ⟨⟨P, F, i1, i2, i3⟩, i4, i5⟩ := ih R' (by rw [h5]; exact hi) hs' ht
          rw [h5, k3] at i3
          have hstage : r.st.inner.stage = t.stage := by rw [h1]
          rw [hstage] at i3
          refine ⟨⟨t.P ++ P, t.F ++ F, by rw [i1, h1]; simp, by rw [i2, h1]; simp, ?_⟩, ?_, ?_⟩
          · rw [hg.1]
            refine i3.before ?_
            rcases hg.2 with hF | ⟨z, s, hz⟩
            · exact .inl hF
            · right
              rw [hz]
              exact ⟨_, _, rfl⟩
          · intro hq r' hr'
            rcases List.mem_cons.1 hr' with rfl | hr'
            · exact k1
            · exact i4 hq r' hr'
          · intro hq
            have := i5 hq
            cases rs with
            | nil => simp [final] at this
            | cons r2 rs => simpa [final] using this
        | some c =>
          have hg := hg.stop (by rw [hk]; simp)
          obtain ⟨k1, k2, k3⟩ := h4 (by rw [hk]; simp)
          obtain ⟨i1, i2, i3⟩ := failed_path ha w ws J k2 k3 hs' ht
          refine ⟨⟨t.P, t.F, by rw [i1, h1], by rw [i1, h1], ?_⟩, ?_, ?_⟩
          · rw [i1, i2, h1, h2]; exact hg
          · intro hq
            rw [i2, h2, hk] at hq
            cases hq
          · intro _
            cases rs with
            | nil => simp [final] at i3
            | cons r2 rs => simpa [final] using i3

/-! ### A parser before the first call of XML_Parse -/

/-- As XML_ParserCreate and XML_ParserReset leave a parser, and functions that set options. -/
structure New (p : Parser Inner) : Prop where
  inv : Inv p
  parsing : p.parsing = .INITIALIZED
  failed : p.failed = false
  child : p.child = false
  inner : p.inner = {}
  pending : p.queue.pending = []

theorem New.reading {p : Parser Inner} (h : New p) : Reading p := ⟨h.inv, .inl h.parsing, h.failed, h.child⟩

theorem new_create (enc : Option Buf) : New (create En enc) :=
  ⟨.create enc, rfl, rfl, rfl, rfl, rfl⟩

/-- XML_ParserReset, whatever happened before. -/
theorem new_reset {p : Parser Inner} (I : Inv p) (hp : p.child = false) (enc : Option Buf) {r : Ret Inner Val} (h : step En p (.reset enc) = some r) :
    r.val = .bool true ∧ New r.st ∧ r.st.conf = ⟨enc, false, p.conf.triplets, .never⟩ := by
  have hI := (step_spec (c := .reset enc) (docEngine_lawful C ext fuel upd alloc) I trivial h).1
  simp only [Api.step, reset, hp, Ret.as, Bool.false_eq_true, if_false, Option.some.injEq] at h
  subst h
  exact ⟨rfl, ⟨hI, rfl, rfl, rfl, rfl, rfl⟩, rfl⟩

/-- XML_SetEncoding. -/
theorem New.encoding {p : Parser Inner} (h : New p) (enc : Option Buf) {r : Ret Inner Val} (hs : step En p (.setEncoding enc) = some r) :
    r.val = .status .OK ∧ New r.st ∧ r.st.conf = { p.conf with encoding := enc } := by
  have hI := (step_spec (c := .setEncoding enc) (docEngine_lawful C ext fuel upd alloc) h.inv trivial hs).1
  have hb : busy p = false := by simp [busy, h.parsing]
  simp only [Api.step, setEncoding, hb, Ret.as, Bool.false_eq_true, if_false, Option.some.injEq] at hs
  subst hs
  exact ⟨rfl, ⟨hI, h.parsing, h.failed, h.child, h.inner, h.pending⟩, rfl⟩

/-- XML_SetReturnNSTriplet. -/
theorem New.triplets {p : Parser Inner} (h : New p) (b : Bool) {r : Ret Inner Val} (hs : step En p (.setTriplets b) = some r) :
    New r.st ∧ r.st.conf = { p.conf with triplets := b } := by
  have hI := (step_spec (c := .setTriplets b) (docEngine_lawful C ext fuel upd alloc) h.inv trivial hs).1
  have hb : busy p = false := by simp [busy, h.parsing]
  simp only [Api.step, setTriplets, hb, Ret.as, Bool.false_eq_true, if_false, Option.some.injEq] at hs
  subst hs
  exact ⟨⟨hI, h.parsing, h.failed, h.child, h.inner, h.pending⟩, rfl⟩

/-- The calls return (`returns` for a parser that was used before). -/
theorem path_exists (hu : ∀ b x, upd b x ≠ none) (w : Buf) (hw : w.length < 2 ^ 31) (ws : List Buf) : ∀ {p : Parser Inner}, Inv p → (∀ v ∈ ws, v.length < 2 ^ 31) →
    ∃ rs q, Path En p (calls ws w) rs q := by
  have one {p : Parser Inner} (I : Inv p) (v : Buf) (f : Bool) (hv : v.length < 2 ^ 31) : ∃ r, step En p (.parse v f) = some r ∧ Inv r.st := by
    obtain ⟨r, hr⟩ := step_total (docEngine_lawful C ext fuel upd alloc) (fun _ b x => hu b x) I (c := .parse v f) hv (by simp) rfl
    exact ⟨r, hr, (step_spec (c := .parse v f) (docEngine_lawful C ext fuel upd alloc) I hv hr).1⟩
  induction ws with
  | nil =>
    intro p I _
    obtain ⟨r, hr, J⟩ := one I w true hw
    exact ⟨[r], r.st, .cons hw hr (.nil _)⟩
  | cons v ws ih =>
    intro p I hv
    obtain ⟨r, hr, J⟩ := one I v false (hv v (by simp))
    obtain ⟨rs, q, h⟩ := ih J (fun u hu => hv u (by simp [hu]))
    exact ⟨r :: rs, q, .cons (hv v (by simp)) hr h⟩

/-- What the calls tell the application is what `C60.parse` says of the pieces that are not empty. -/
theorem outcome (ha : ∀ n, alloc n = true) {p q : Parser Inner} (hn : New p) {idx : EncIndex} (hi : getEncodingIndex p.conf.encoding = some idx)
    {ws : List Buf} {w : Buf} (hs : ws.flatten.length + w.length + 1024 ≤ 2 ^ 30) {rs : List (Ret Inner Val)} (h : Path En p (calls ws w) rs q) :
    Told (C60.parse (settings C p.conf) ext fuel idx (first p.conf) [] (pieces ws w)) q.inner.P q.inner.F q.inner.stage q.error ∧
    (q.error = none → ∀ r ∈ rs, r.val = .status .OK) ∧ (q.error ≠ none → final rs = some (.status .ERROR)) := by
  have hfit : Fits p (calls ws w) := by
    have hb : ((calls ws w).map C42.bytes).sum = ws.flatten.length + w.length := by
      simp only [calls, List.map_append, List.map_map, List.sum_append, List.map_cons, List.map_nil, List.sum_cons, List.sum_nil, C42.bytes, Nat.add_zero,
        List.length_flatten]
      rfl
    rw [Fits, hb, hn.pending]
    simp only [List.length_nil]
    omega
  obtain ⟨⟨P, F, h1, h2, h3⟩, h4⟩ := path_told ha w ws hn.reading hi hfit h
  refine ⟨?_, h4⟩
  rw [hn.inner, hn.pending] at h3
  rw [h1, h2, hn.inner]
  exact h3

/-! ### A document ends with an error or in its content -/

theorem prun_ends {c : PCfg} (hp : c.isPE = false) (ext : Ext) (fuel : Nat) (expand) (allowClose : Bool) (opened : List Buf) (n : Nat) :
    ∀ (s : DState) (b : Buf), b.length = n → ∀ E s' q, prun c ext fuel expand false false allowClose false opened s b ≠ (E, s', .done q) := by
  induction n using Nat.strongRecOn with
  | _ n ih =>
    intro s b hn E s' q h
    have pre : ∀ {E0 : List PEv} {r : Prolog} (_ : ∀ E s' q, r ≠ (E, s', .done q)), Prolog.pre E0 r = (E, s', .done q) → False := by
      rintro E0 ⟨E1, s1, o⟩ hr h
      simp only [Prolog.pre, Prod.mk.injEq] at h
      exact hr E1 s1 q (by rw [h.2.2])
    rw [prun.eq_def] at h
    simp only at h
    have hsee : ∀ r : Res, seeRes false false false c.isPE r b ≠ .wait ∧ seeRes false false false c.isPE r b ≠ .endPE := by
      intro r
      rw [hp, seeRes]
      split
      · simp
      · simp only [Bool.false_eq_true, false_and, if_false]
        split <;> try simp
        split <;> simp
    have hign : ∀ x b, ignoreSection x false b ≠ .wait := by
      intro x b
      unfold ignoreSection
      simp only [Bool.false_eq_true, if_false]
      split <;> simp
    split at h
    · rename_i hx; exact (hsee _).1 hx
    · cases h
    · cases h
    · rename_i hx; exact (hsee _).2 hx
    · split at h
      · cases h
      · cases h
      · cases h
      · split at h
        · rename_i hl
          exact pre (ih _ (hn ▸ hl) _ _ rfl) h
        · cases h
      · split at h
        · rename_i hx; exact hign _ _ hx
        · cases h
        · split at h
          · rename_i hl
            exact pre (ih _ (hn ▸ hl) _ _ rfl) h
          · cases h

theorem prologCall_ends {c : PCfg} (hp : c.isPE = false) (ext : Ext) (fuel : Nat) (opened : List Buf) (s : DState) (b : Buf) (E s' q) :
    prologCall c ext fuel opened false s b ≠ (E, s', .done q) := by
  intro h
  unfold prologCall at h
  simp only at h
  split at h
  · split at h
    · rename_i hx
      unfold ignoreSection at hx
      simp only [Bool.false_eq_true, if_false] at hx
      split at hx <;> cases hx
    · cases h
    · generalize hr : prun c ext fuel _ false false true false opened _ _ = r at h
      obtain ⟨E1, s1, o⟩ := r
      simp only [Prolog.pre, Prod.mk.injEq] at h
      exact prun_ends hp _ _ _ _ _ _ _ _ rfl E1 s1 q (by rw [hr, h.2.2])
  · exact prun_ends hp _ _ _ _ _ _ _ _ rfl E s' q h

/-- Neither waiting nor about to begin with the content. -/
def Ended (d : C57.Doc) : Prop := ∀ q, d.2.2 ≠ .prolog (.done q)

theorem document_ends {c : PCfg} (hp : c.isPE = false) (ext : Ext) (fuel : Nat) (xs : List Buf) : ∀ (s : DState) (rest : Buf), Ended (C57.document c ext fuel s rest xs) := by
  have fin (s : DState) (b : Buf) : Ended (C57.finishDoc c (prologCall c ext fuel [] false s b)) := by
    have h := prologCall_ends hp ext fuel [] s b
    generalize prologCall c ext fuel [] false s b = r at *
    obtain ⟨E, s', o⟩ := r
    intro q hq
    cases o with
    | done q' => exact h _ _ _ rfl
    | content q' => cases hq
    | err e => cases hq
    | panic => cases hq
  induction xs with
  | nil => intro s rest; exact fin _ _
  | cons x xs ih =>
    intro s rest
    cases xs with
    | nil => exact fin _ _
    | cons y ys =>
      rw [C57.document]
      · generalize prologCall c ext fuel [] true s (rest ++ x) = r
        obtain ⟨E, s', o⟩ := r
        cases o with
        | done q' => exact ih s' q'
        | content q' => intro q hq; cases hq
        | err e => intro q hq; cases hq
        | panic => intro q hq; cases hq
      · simp

theorem parse_ends {c : PCfg} (hp : c.isPE = false) (ext : Ext) (fuel : Nat) (idx : EncIndex) (s : DState) (xs : List Buf) : ∀ rest, Ended (C60.parse c ext fuel idx s rest xs) := by
  have det (b : Buf) (xs : List Buf) (k : XErr → C57.Doc) (hk : ∀ e, Ended (k e)) : Ended (C60.detect c ext fuel idx s b xs k) := by
    unfold C60.detect
    split
    · exact document_ends hp _ _ _ _ _
    · exact document_ends hp _ _ _ _ _
    · exact hk _
    · exact hk _
  induction xs with
  | nil => intro rest; exact det _ _ _ (fun e q hq => by cases hq)
  | cons x xs ih =>
    intro rest
    refine det _ _ _ (fun e => ?_)
    split
    · intro q hq; cases hq
    · exact ih _

theorem Told.accepted {d : C57.Doc} {P : List PEv} {F : List Ev} {st : Stage} {code : Option XErr} (h : Told d P F st code) (he : Ended d) :
    code = none ↔ C61.Accepted d := by
  obtain ⟨Q, z, o⟩ := d
  constructor
  · rintro rfl
    rcases o with o | ⟨G, o⟩
    · cases o with
      | done q => exact absurd rfl (he q)
      | content q => exact h.elim
      | err e => cases h.2.2
      | panic => cases h.2.2.2
    · cases o with
      | ok u q => exact ⟨_, _, _, _, _, rfl⟩
      | err e => cases h.2.2
  · rintro ⟨P', s, F', u, q, hd⟩
    rw [hd] at h
    exact h.2.2.2

/-! ### The theorems -/

theorem usual_settings (U : C61.Usual C) (f : Conf) : C61.Usual (settings C f) :=
  ⟨U.expand, U.unknown, U.int, U.isPE⟩

/-- The options of XML_ParserCreate for the DTD. -/
def NoDtd (f : Conf) : Prop := f.pe = .never ∧ f.foreignDtd = false

theorem NoDtd.first {f : Conf} (h : NoDtd f) : first f = start (.builtin .utf8) .never := by
  rw [C63.first, h.1, h.2]
  rfl

variable {i : EncId} {idx : EncIndex} {m t : Buf}

/-- **C63**, texts that are no documents: the last call returns XML_STATUS_ERROR and XML_GetErrorCode gives an error (or the
thread has panicked: stage `dead`), in whatever pieces the text comes. -/
theorem nothing_else (U : C61.Usual C) (ha : ∀ n, alloc n = true) {p q : Parser Inner} (hn : New p) (ho : NoDtd p.conf)
    (hi : getEncodingIndex p.conf.encoding = some idx) (h0 : C60.Found idx m t i) (hd : (i.x C.c.ns).e.mb ∣ t.length) (hf : t.length < fuel)
    (hbad : ¬ C61.IsDocument (settings C p.conf) i t) {ws : List Buf} {w : Buf} (hx : ws.flatten ++ w = m ++ t)
    (hs : ws.flatten.length + w.length + 1024 ≤ 2 ^ 30) {rs : List (Ret Inner Val)} (h : Path En p (calls ws w) rs q) :
    final rs = some (.status .ERROR) ∧ q.error ≠ none := by
  obtain ⟨h1, -, h3⟩ := outcome ha hn hi hs h
  have hl : (ws.flatten ++ w).length = (m ++ t).length := congrArg List.length hx
  simp only [List.length_append] at hl
  rw [ho.first] at h1
  have he := h1.accepted (parse_ends (c := settings C p.conf) U.isPE _ _ _ _ _ _)
  have hr := C61.refused (ext := ext) (fuel := fuel) (usual_settings U p.conf) h0 hd (by omega) hbad hf (cur := .builtin .utf8)
    (xs := pieces ws w) (by rw [pieces_flatten]; exact hx)
  have : q.error ≠ none := fun g => hr (he.1 g)
  exact ⟨h3 this, this⟩

/-- **C63**, documents: every call returns XML_STATUS_OK, and the handlers are called as the specifications say. -/
theorem documents (U : C61.Usual C) {p : Parser Inner} (hn : New p) (ho : NoDtd p.conf) (hi : getEncodingIndex p.conf.encoding = some idx)
    {h w b : Buf} {d : Option C18.Src} {j : EncId} {A : List Said} {D' : DTab} {Ev : List Ev}
    (h0 : C60.Found idx m (h ++ (w ++ b)) i) (hd : (i.x C.c.ns).e.mb ∣ (h ++ (w ++ b)).length) (h1 : Head (settings C p.conf) i h d j)
    (h2 : PrologText (reading (settings C p.conf) (j.x C.c.ns) (C54.ascOf j) .never) { standalone := aloneIn d } w A D')
    (h3 : Document (C64.full (settings C p.conf).c) D'.toDtd C.int asc1 (j.x C.c.ns) (C54.ascOf j) b Ev) :
    ∃ N, ∀ (ext : Ext) (fuel : Nat) (upd : Buf → Pos → Option Pos) (alloc : Nat → Bool), (∀ n, alloc n = true) → N ≤ fuel →
      ∀ (ws : List Buf) (v : Buf), ws.flatten ++ v = m ++ (h ++ (w ++ b)) → ws.flatten.length + v.length + 1024 ≤ 2 ^ 30 →
      ∀ (rs : List (Ret Inner Val)) (q : Parser Inner), Path (docEngine C ext fuel upd alloc) p (calls ws v) rs q →
        (∀ r ∈ rs, r.val = .status .OK) ∧ q.error = none ∧
        (∃ V E, heard q.inner.P = V ++ E ∧ HeadTold (settings C p.conf) d V ∧ Says A E) ∧ C64.own (C04.flat q.inner.F) = Ev.filter (C64.wants C.c) := by
  have U' := usual_settings U p.conf
  have h2' : PrologText (reading (settings C p.conf) (j.x (settings C p.conf).c.ns) (C54.ascOf j) (peAfter (aloneIn d) .never)) { standalone := aloneIn d } w A D' := by
    rw [C61.peAfter_never]; exact h2
  obtain ⟨N, hN⟩ := parsed U'.expand U'.intOk.1 U'.intOk.2 U'.other h0 h1 h2' h3 hd
  refine ⟨N, fun ext fuel upd alloc ha hf ws v hx hs rs q hp => ?_⟩
  obtain ⟨g1, g2, -⟩ := outcome ha hn hi hs hp
  rw [ho.first] at g1
  obtain ⟨P, s, F, u, q', k1, k2, k3, k4⟩ := hN ext fuel hf (.builtin .utf8) (pieces ws v) (by rw [pieces_flatten]; exact hx)
  rw [k1] at g1
  obtain ⟨rfl, rfl, -, he⟩ := g1
  exact ⟨g2 he, he, k2, k4⟩

/-- The statuses decide whether the text is a document. -/
theorem accepted_iff (U : C61.Usual C) {p : Parser Inner} (hn : New p) (ho : NoDtd p.conf) (hi : getEncodingIndex p.conf.encoding = some idx)
    (h0 : C60.Found idx m t i) (hd : (i.x C.c.ns).e.mb ∣ t.length) :
    ∃ N, ∀ (ext : Ext) (fuel : Nat) (upd : Buf → Pos → Option Pos) (alloc : Nat → Bool), (∀ n, alloc n = true) → N ≤ fuel →
      ∀ (ws : List Buf) (v : Buf), ws.flatten ++ v = m ++ t → ws.flatten.length + v.length + 1024 ≤ 2 ^ 30 →
      ∀ (rs : List (Ret Inner Val)) (q : Parser Inner), Path (docEngine C ext fuel upd alloc) p (calls ws v) rs q →
        ((∀ r ∈ rs, r.val = .status .OK) ↔ C61.IsDocument (settings C p.conf) i t) ∧
        (final rs = some (.status .OK) ↔ C61.IsDocument (settings C p.conf) i t) ∧
        (final rs = some (.status .ERROR) ↔ ¬ C61.IsDocument (settings C p.conf) i t) := by
  by_cases hdoc : C61.IsDocument (settings C p.conf) i t
  · have hdoc' := hdoc
    obtain ⟨h, w, b, d, j, A, D', Ev, rfl, g2, g3, g4⟩ := hdoc
    obtain ⟨N, hN⟩ := documents U hn ho hi h0 hd g2 g3 g4
    refine ⟨N, fun ext fuel upd alloc ha hf ws v hx hs rs q hp => ?_⟩
    obtain ⟨k1, -⟩ := hN ext fuel upd alloc ha hf ws v hx hs rs q hp
    have hlast : final rs = some (.status .OK) := by
      obtain ⟨r1, r2, mid, rfl, -, h2⟩ := Path.append hp
      cases h2 with
      | cons _ _ ht =>
        cases ht
        simp only [final, List.getLast?_append, List.getLast?_singleton, Option.some_or, Option.map_some]
        rw [k1 _ (by simp)]
    exact ⟨iff_of_true k1 hdoc', iff_of_true hlast hdoc', iff_of_false (by rw [hlast]; simp) (by simpa using hdoc')⟩
  · refine ⟨t.length + 1, fun ext fuel upd alloc ha hf ws v hx hs rs q hp => ?_⟩
    obtain ⟨k1, k2⟩ := nothing_else U ha hn ho hi h0 hd (by omega) hdoc hx hs hp
    refine ⟨iff_of_false ?_ hdoc, iff_of_false (by rw [k1]; simp) hdoc, iff_of_true k1 hdoc⟩
    intro hall
    simp only [final, Option.map_eq_some_iff] at k1
    obtain ⟨r, hr, hv⟩ := k1
    rw [hall r (List.mem_of_getLast? hr)] at hv
    cases hv

/-- Text in the calls of content handlers is legal, also if the document turns out not to be one (C62). -/
theorem text_legal (U : C61.Usual C) (ha : ∀ n, alloc n = true) {p q : Parser Inner} (hn : New p) (ho : NoDtd p.conf)
    (hi : getEncodingIndex p.conf.encoding = some idx) (h0 : C60.Found idx m t i) (hd : (i.x C.c.ns).e.mb ∣ t.length) (hf : t.length < fuel)
    {ws : List Buf} {w : Buf} (hx : ws.flatten ++ w = m ++ t) (hs : ws.flatten.length + w.length + 1024 ≤ 2 ^ 30) {rs : List (Ret Inner Val)}
    (h : Path En p (calls ws w) rs q) : ∀ v ∈ q.inner.F, C62.Legal v := by
  obtain ⟨h1, -⟩ := outcome ha hn hi hs h
  have hl : (ws.flatten ++ w).length = (m ++ t).length := congrArg List.length hx
  simp only [List.length_append] at hl
  rw [ho.first] at h1
  generalize hr : C60.parse (settings C p.conf) ext fuel idx (start (.builtin .utf8) .never) [] (pieces ws w) = r at h1
  obtain ⟨Q, z, o⟩ := r
  rcases o with o | ⟨G, o⟩
  · have : q.inner.F = [] := by
      cases o with
      | done q => exact h1.2.1
      | content q => exact h1.elim
      | err e => exact h1.2.1
      | panic => exact h1.2.1
    rw [this]
    simp
  · have : q.inner.F = G := by cases o <;> exact h1.2.1
    rw [this]
    exact C62.document_legal (usual_settings U p.conf) h0 hd (by omega) hf (by rw [pieces_flatten]; exact hx) hr

/-- After XML_ParserReset, whatever was parsed before, the same: all that matters are the text and the encoding named. -/
theorem after_reset (U : C61.Usual C) {p p' : Parser Inner} (I : Inv p) (hc : p.child = false) (enc : Option Buf) {ext0 : Ext} {fuel0 : Nat}
    {upd0 : Buf → Pos → Option Pos} {alloc0 : Nat → Bool} {v0 : Val} (hr : step (docEngine C ext0 fuel0 upd0 alloc0) p (.reset enc) = some { val := v0, st := p' })
    (hi : getEncodingIndex enc = some idx) (h0 : C60.Found idx m t i) (hd : (i.x C.c.ns).e.mb ∣ t.length) :
    ∃ N, ∀ (ext : Ext) (fuel : Nat) (upd : Buf → Pos → Option Pos) (alloc : Nat → Bool), (∀ n, alloc n = true) → N ≤ fuel →
      ∀ (ws : List Buf) (v : Buf), ws.flatten ++ v = m ++ t → ws.flatten.length + v.length + 1024 ≤ 2 ^ 30 →
      ∀ (rs : List (Ret Inner Val)) (q : Parser Inner), Path (docEngine C ext fuel upd alloc) p' (calls ws v) rs q →
        (final rs = some (.status .OK) ↔ C61.IsDocument (settings C ⟨enc, false, p.conf.triplets, .never⟩) i t) := by
  obtain ⟨-, k2, k3⟩ := new_reset I hc enc hr
  simp only at k2 k3
  obtain ⟨N, hN⟩ := accepted_iff U k2 (by rw [k3]; exact ⟨rfl, rfl⟩) (by rw [k3]; exact hi) h0 hd
  refine ⟨N, fun ext fuel upd alloc ha hf ws v hx hs rs q hp => ?_⟩
  have := (hN ext fuel upd alloc ha hf ws v hx hs rs q hp).2.1
  rwa [k3] at this

end

/-! ### Examples -/

def exUpd (b : Buf) (p : Pos) : Option Pos := some ⟨p.line, p.col + b.length⟩

def exEngine : Engine Inner := docEngine exCfg C61.exExt 200 exUpd (fun _ => true)

/-- What an application sees: the statuses, the error code, and how many handler calls there were. -/
def seen (cs : List Call) : Option (List Val × Option XErr × Nat × List Ev) :=
  (steps exEngine (create exEngine none) cs).map fun x => (x.1.map (·.val), x.2.error, x.2.inner.P.length, x.2.inner.F)

/-- `<!DOCTYPE a [<!ENTITY b '&c;'><!ATTLIST a d CDATA #IMPLIED>]><a>x</a>` in three pieces, one of them empty, after a failed parse and a reset. -/
theorem ex_seen : seen ([.parse "<a></b>".toUTF8.toList true, .getError, .reset none] ++ calls [C61.exDoc.take 20, []] (C61.exDoc.drop 20)) =
    some ([.status .ERROR, .code (some .TAG_MISMATCH), .bool true, .status .OK, .status .OK, .status .OK], none, 4,
      [.startElement "a".toUTF8.toList [] 0 none, .chars "x".toUTF8.toList, .endElement "a".toUTF8.toList]) := by decide +kernel

/-- The calls of the example after XML_ParserCreate. -/
example : ∃ rs q, Path exEngine (create exEngine none) (calls [C61.exDoc.take 20, []] (C61.exDoc.drop 20)) rs q :=
  path_exists (fun b x => by simp [exUpd]) _ (by decide +kernel) _ (.create none) (by decide +kernel)

/-- The theorems apply: the text of the example, cut anywhere, with empty pieces anywhere. -/
example : ∃ N, ∀ (ext : Ext) (fuel : Nat), N ≤ fuel → ∀ (ws : List Buf) (v : Buf), ws.flatten ++ v = C61.exDoc →
    ∀ rs q, Path (docEngine exCfg ext fuel exUpd (fun _ => true)) (create exEngine none) (calls ws v) rs q →
      (final rs = some (.status .OK) ↔ C61.IsDocument (settings exCfg (create exEngine none).conf) .utf8 C61.exDoc) := by
  obtain ⟨N, hN⟩ := accepted_iff (C := exCfg) (p := create exEngine none) (i := .utf8) (idx := .noEnc) (m := []) (t := C61.exDoc) C61.ex_usual
    (new_create (C := exCfg) (ext := C61.exExt) (fuel := 200) (upd := exUpd) (alloc := fun _ => true) none) ⟨rfl, rfl⟩ rfl (by
      have h : C61.exDoc = 0x3C :: 0x21 :: C61.exDoc.drop 2 := by decide +kernel
      rw [h]; exact .plain 0x3C 0x21 _ (by decide) (by decide)) (Nat.one_dvd _)
  refine ⟨N, fun ext fuel hf ws v hx rs q hp => ?_⟩
  refine (hN ext fuel exUpd (fun _ => true) (fun _ => rfl) hf ws v (by simpa using hx) ?_ rs q hp).2.1
  have hl : (ws.flatten ++ v).length = C61.exDoc.length := congrArg List.length hx
  have hk : C61.exDoc.length = 69 := by decide +kernel
  simp only [List.length_append] at hl
  omega

/-- A text that is no document: the calls return, the last of them with an error. -/
theorem ex_bad : seen (calls ["<a".toUTF8.toList, "></".toUTF8.toList] "b>".toUTF8.toList) =
    some ([.status .OK, .status .OK, .status .ERROR], some .TAG_MISMATCH, 0, [.startElement "a".toUTF8.toList [] 0 none]) := by decide +kernel

/-- Named by the application and not built in; and no bytes at all. -/
theorem ex_names : (steps exEngine (create exEngine (some "x".toUTF8.toList)) [.parse "<a/>".toUTF8.toList true, .getError]).map (fun x => x.1.map (·.val)) =
      some [.status .ERROR, .code (some .UNKNOWN_ENCODING)] ∧
    seen [.parse [] false, .parse [] true] = some ([.status .OK, .status .ERROR], some .NO_ELEMENTS, 0, []) := by decide +kernel

end Verif.C63
