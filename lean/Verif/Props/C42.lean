import Verif.Props.C46

/-! C42: XML_ParserReset restores a new parser.  What a processor, the handlers and the DTD are after a
reset is `Engine.init` here, so this is about the calls of the application. -/

set_option autoImplicit false

namespace Verif.C42
open Verif Verif.Api

variable {σ : Type} {E : Engine σ}

/-- What an application sees of a call that is not a query for the position. -/
def seen (x : Call × Ret σ Val) : Option (Val × Option Buf × List Ev) :=
  if x.1.isQuery then none else some (x.2.val, x.2.shown, x.2.calls)

/-- A new parser, on which XML_SetReturnNSTriplet was called. -/
def fresh (E : Engine σ) (enc : Option Buf) (triplets : Bool) : Parser σ :=
  { create E enc with conf := { (create E enc).conf with triplets := triplets } }

/-- The bytes the calls are about. -/
def bytes : Call → Nat
  | .parse w _ | .parseBuffer w _ => w.length
  | .getBuffer n => n.toNat
  | _ => 0

/-- The same up to a `finalBuffer` that does not matter. -/
def Like (a b : Queue σ) : Prop := ∃ f, a = { b with final := f } ∧ (b.parsing = .SUSPENDED → f = b.final)

theorem like_step {a b : Queue σ} (h : Like a b) (mem : Bool) {c : Call} (hc : c ≠ .stop true) :
    (Queue.step E mem a c).val = (Queue.step E mem b c).val ∧ (Queue.step E mem a c).shown = (Queue.step E mem b c).shown ∧
    (Queue.step E mem a c).calls = (Queue.step E mem b c).calls ∧ Like (Queue.step E mem a c).st (Queue.step E mem b c).st := by
  obtain ⟨f, rfl, hf⟩ := h
  have same : ∀ {x y : QRet σ}, x.val = y.val → x.shown = y.shown → x.calls = y.calls → x.st = { y.st with final := f } →
      (y.st.parsing = .SUSPENDED → f = y.st.final) → x.val = y.val ∧ x.shown = y.shown ∧ x.calls = y.calls ∧ Like x.st y.st :=
    fun h1 h2 h3 h4 h5 => ⟨h1, h2, h3, f, h4, h5⟩
  have eq : ∀ {x y : QRet σ}, x = y → x.val = y.val ∧ x.shown = y.shown ∧ x.calls = y.calls ∧ Like x.st y.st := by
    rintro x _ rfl
    exact ⟨rfl, rfl, rfl, x.st.final, rfl, fun _ => rfl⟩
  have start : ∀ (k : Queue σ → QRet σ), (∀ g b, b.parsing = .PARSING → (k { b with final := g }).val = (k b).val ∧ (k { b with final := g }).shown = (k b).shown ∧
        (k { b with final := g }).calls = (k b).calls ∧ Like (k { b with final := g }).st (k b).st) →
      (Queue.started E { b with final := f } k).val = (Queue.started E b k).val ∧
      (Queue.started E { b with final := f } k).shown = (Queue.started E b k).shown ∧
      (Queue.started E { b with final := f } k).calls = (Queue.started E b k).calls ∧
      Like (Queue.started E { b with final := f } k).st (Queue.started E b k).st := by
    intro k hk
    cases b with
    | mk x1 x2 x3 x4 x5 pars x7 child x9 conf =>
      cases pars with
      | PARSING => exact hk f ⟨x1, x2, x3, x4, x5, .PARSING, x7, child, x9, conf⟩ rfl
      | SUSPENDED => exact same rfl rfl rfl rfl hf
      | FINISHED => exact same rfl rfl rfl rfl hf
      | INITIALIZED =>
        simp only [Queue.started]
        by_cases hch : child = true
        · rw [if_pos hch, if_pos hch]
          exact hk f ⟨x1, x2, x3, x4, x5, .PARSING, x7, child, x9, conf⟩ rfl
        · rw [if_neg hch, if_neg hch]
          cases E.start conf x4 with
          | none => exact same rfl rfl rfl rfl hf
          | some s => exact hk f ⟨x1, x2, x3, s, x5, .PARSING, x7, child, x9, conf⟩ rfl
  cases c with
  | parse w final =>
    refine start _ ?_
    intro g b hb
    simp only
    split
    · exact eq rfl
    · split
      · refine ⟨rfl, rfl, rfl, g, rfl, fun h => ?_⟩
        exact absurd (hb.symm.trans h) (by simp)
      · exact eq rfl
  | parseBuffer w final => exact start _ (fun g b hb => eq rfl)
  | resume =>
    simp only [Queue.step]
    by_cases hp : b.parsing = .SUSPENDED
    · rw [if_pos hp, if_pos hp]
      obtain rfl := hf hp
      exact eq rfl
    · rw [if_neg hp, if_neg hp]
      exact same rfl rfl rfl rfl (fun g => absurd g hp)
  | parseBad => exact same rfl rfl rfl rfl hf
  | getBuffer len =>
    simp only [Queue.step]
    split
    · exact same rfl rfl rfl rfl hf
    · split
      · exact same rfl rfl rfl rfl hf
      · exact same rfl rfl rfl rfl hf
      · split <;> exact same rfl rfl rfl rfl hf
  | stop r =>
    cases r with
    | true => exact absurd rfl hc
    | false =>
      cases b with
      | mk x1 x2 x3 x4 x5 pars x7 child x9 conf =>
        cases pars
        case FINISHED => exact same rfl rfl rfl rfl hf
        all_goals exact same rfl rfl rfl rfl (fun g => by cases g)
  | reset enc =>
    simp only [Queue.step]
    split
    · exact same rfl rfl rfl rfl hf
    · exact same rfl rfl rfl rfl (fun g => by cases g)
  | setEncoding n =>
    simp only [Queue.step]
    have : Queue.idle { b with final := f } = Queue.idle b := rfl
    rw [this]
    split <;> exact same rfl rfl rfl rfl hf
  | useForeignDtd n =>
    simp only [Queue.step]
    have : Queue.idle { b with final := f } = Queue.idle b := rfl
    rw [this]
    split <;> exact same rfl rfl rfl rfl hf
  | setTriplets n =>
    simp only [Queue.step]
    have : Queue.idle { b with final := f } = Queue.idle b := rfl
    rw [this]
    split <;> exact same rfl rfl rfl rfl hf
  | setPe n =>
    simp only [Queue.step]
    have : Queue.idle { b with final := f } = Queue.idle b := rfl
    rw [this]
    split <;> exact same rfl rfl rfl rfl hf
  | getError => exact same rfl rfl rfl rfl hf
  | lineNumber => exact same rfl rfl rfl rfl hf
  | columnNumber => exact same rfl rfl rfl rfl hf
  | byteIndex => exact same rfl rfl rfl rfl hf
  | byteCount => exact same rfl rfl rfl rfl hf

theorem settle_pending (a : Queue σ) (b : Buf) (d : Done σ) : (Queue.settle a b d).st.pending = a.pending := by
  unfold Queue.settle
  cases d.code with
  | some c => rfl
  | none => by_cases hs : d.parsing = .SUSPENDED <;> simp [hs]

theorem pending_le (a : Queue σ) (mem : Bool) (c : Call) :
    (Queue.step E mem a c).st.pending.length ≤ a.pending.length + bytes c := by
  have inp : ∀ (a : Queue σ) w f, (Queue.input E a w f).st.pending.length ≤ a.pending.length + w.length := by
    intro a w f
    unfold Queue.input Queue.give
    simp only [settle_pending]
    simp
  have start : ∀ (k : Queue σ → QRet σ) n, (∀ a, (k a).st.pending.length ≤ a.pending.length + n) →
      (Queue.started E a k).st.pending.length ≤ a.pending.length + n := by
    intro k n hk
    unfold Queue.started
    split
    · simp [Queue.refuse]
    · simp [Queue.refuse]
    · exact hk a
    · split
      · exact hk _
      · split
        · simp [Queue.refuse]
        · exact hk _
  cases c with
  | parse w f =>
    refine start _ _ ?_
    intro a
    split
    · simp
    · split
      · simp [Queue.refuse]
      · exact inp a w f
  | parseBuffer w f => exact start _ _ (fun a => inp a w f)
  | resume =>
    simp only [Queue.step]
    split
    · unfold Queue.give
      simp only [settle_pending]
      simp
    · simp [Queue.refuse]
  | parseBad => simp [Queue.step, Queue.refuse]
  | getBuffer len =>
    simp only [Queue.step]
    split
    · simp
    · split
      · simp
      · simp
      · split <;> simp
  | stop b =>
    simp only [Queue.step]
    cases a.parsing <;> cases b <;> cases a.paramEntity <;> simp [Queue.refuse]
  | reset e => simp only [Queue.step]; split <;> simp
  | setEncoding n => simp only [Queue.step]; split <;> simp
  | useForeignDtd n => simp only [Queue.step]; split <;> simp
  | setTriplets n => simp only [Queue.step]; split <;> simp
  | setPe n => simp only [Queue.step]; split <;> simp
  | getError => simp [Queue.step]
  | lineNumber => simp [Queue.step]
  | columnNumber => simp [Queue.step]
  | byteIndex => simp [Queue.step]
  | byteCount => simp [Queue.step]

/-- There is memory for calls of reasonable sizes. -/
theorem fed {p : Parser σ} (ha : ∀ k, E.alloc k = true) (I : Inv p) {c : Call}
    (hb : p.queue.pending.length + bytes c + 1024 ≤ 2 ^ 30) : ¬ Starved E p c := by
  have i1 := I.start; have i2 := I.stop
  have hl : p.queue.pending.length = p.stop - p.start := by simp [Parser.queue]; omega
  cases c with
  | parse w f =>
    rintro ⟨q, r, h1, h2, h3⟩
    rcases admit_spec (E := E) I with ⟨c, ha', _⟩ | ⟨q', ha', Iq, hp, hb', hs, _⟩
    · rw [ha'] at h1; cases h1
    rw [ha'] at h1
    cases h1
    obtain ⟨_, _, _, _, _, f6, f7⟩ := admit_frame ha'
    obtain ⟨r', n, h4, h5⟩ := getBuffer_granted (E := E) Iq (len := (w.length : Int)) (by omega) ha (by simp [hp]) (by simp [hp])
      (by rw [f6, f7]; simp only [bytes] at hb; omega)
    rw [h2] at h4
    cases h4
    rw [h3] at h5
    cases h5
  | getBuffer n =>
    rintro ⟨h0, n1, n2, r, h2, h3⟩
    obtain ⟨r', n, h4, h5⟩ := getBuffer_granted (E := E) I h0 ha n1 n2 (by simp only [bytes] at hb; omega)
    rw [h2] at h4
    cases h4
    rw [h3] at h5
    cases h5
  | _ => exact id

/-- Two parsers that are alike give the same results. -/
theorem alike (L : E.Lawful) (ha : ∀ k, E.alloc k = true) {p1 q1 : Parser σ} {cs : List Call} {rs1 : List (Ret σ Val)}
    (h1 : Path E p1 cs rs1 q1) {p2 q2 : Parser σ} {rs2 : List (Ret σ Val)} (h2 : Path E p2 cs rs2 q2) (I1 : Inv p1) (I2 : Inv p2)
    (hl : Like p1.queue p2.queue) (hs : p1.queue.pending.length + (cs.map bytes).sum + 1024 ≤ 2 ^ 30) :
    (cs.zip rs1).map seen = (cs.zip rs2).map seen ∧ Like q1.queue q2.queue := by
  induction h1 generalizing p2 rs2 with
  | nil => cases h2; exact ⟨rfl, hl⟩
  | @cons p1 q1 c r1 cs rs1 hc1 hs1 _ ih =>
    cases h2 with
    | @cons _ _ _ r2 _ rs2 hc2 hs2 ht2 =>
    simp only [List.map_cons, List.sum_cons] at hs
    have hpend : p2.queue.pending = p1.queue.pending := by obtain ⟨f, hf, _⟩ := hl; rw [hf]
    obtain ⟨J1, m1, hm1, e1⟩ := step_spec L I1 hc1 hs1
    obtain ⟨J2, m2, hm2, e2⟩ := step_spec L I2 hc2 hs2
    have n1 : m1 = true := by
      cases m1 with
      | true => rfl
      | false => exact absurd (hm1 rfl) (fed ha I1 (by omega))
    have n2 : m2 = true := by
      cases m2 with
      | true => rfl
      | false => exact absurd (hm2 rfl) (fed ha I2 (by rw [hpend]; omega))
    subst n1 n2
    have hstop : c ≠ .stop true := by rintro rfl; cases hc1
    by_cases hq : c.isQuery = true
    · rw [if_pos hq] at e1 e2
      have := ih ht2 J1 J2 (by rw [e1.2.2, e2.2.2]; exact hl) (by rw [e1.2.2]; omega)
      exact ⟨by simp [seen, hq, this.1], this.2⟩
    · rw [if_neg hq] at e1 e2
      obtain ⟨k1, k2, k3, k4⟩ := like_step (E := E) hl true hstop
      have a1 : r1.val = (Queue.step E true p1.queue c).val := congrArg QRet.val e1
      have a2 : r1.shown = (Queue.step E true p1.queue c).shown := congrArg QRet.shown e1
      have a3 : r1.calls = (Queue.step E true p1.queue c).calls := congrArg QRet.calls e1
      have a4 : r1.st.queue = (Queue.step E true p1.queue c).st := congrArg QRet.st e1
      have b1 : r2.val = (Queue.step E true p2.queue c).val := congrArg QRet.val e2
      have b2 : r2.shown = (Queue.step E true p2.queue c).shown := congrArg QRet.shown e2
      have b3 : r2.calls = (Queue.step E true p2.queue c).calls := congrArg QRet.calls e2
      have b4 : r2.st.queue = (Queue.step E true p2.queue c).st := congrArg QRet.st e2
      have hpl := pending_le (E := E) p1.queue true c
      have := ih ht2 J1 J2 (by rw [a4, b4]; exact k4) (by rw [a4]; omega)
      refine ⟨?_, this.2⟩
      simp only [List.zip_cons_cons, List.map_cons, this.1, seen, hq, a1, a2, a3, b1, b2, b3, k1, k2, k3]

/-- **C42.**  XML_ParserReset succeeds on a parser that is not for an external entity, whatever was
parsed before; then any calls give the same results, in the same order, with the same handler calls, as
on a new parser (with the setting of XML_SetReturnNSTriplet, which a reset keeps by its documentation). -/
theorem reset_fresh_partial (L : E.Lawful) (ha : ∀ k, E.alloc k = true) {p : Parser σ} (I : Inv p) (hp : p.child = false) (enc : Option Buf) :
    ∃ p', step E p (.reset enc) = some { val := .bool true, st := p' } ∧
      ∀ {cs rs1 rs2 q1 q2}, Path E p' cs rs1 q1 → Path E (fresh E enc p.conf.triplets) cs rs2 q2 →
        (cs.map bytes).sum + 1024 ≤ 2 ^ 30 → (cs.zip rs1).map seen = (cs.zip rs2).map seen := by
  have hs : step E p (.reset enc) = some { val := .bool true, st := (reset E p enc).st } := by
    simp [step, reset, hp, Ret.as]
  refine ⟨_, hs, ?_⟩
  intro cs rs1 rs2 q1 q2 h1 h2 hsz
  have hq : (reset E p enc).st.queue = { (fresh E enc p.conf.triplets).queue with final := p.final } := by
    simp [reset, hp, fresh, Api.create, Parser.queue]
  have If : Inv (fresh E enc p.conf.triplets) := by constructor <;> simp [fresh, Api.create]
  refine (alike L ha h1 h2 (step_spec (c := .reset enc) L I trivial hs).1 If ⟨p.final, hq, ?_⟩ ?_).1
  · intro g
    cases g
  · rw [hq]
    simpa [fresh, Api.create, Parser.queue] using hsz

/-- **C42**: on the parser of an external entity a reset is refused and changes nothing. -/
theorem child_refused {p : Parser σ} (hp : p.child = true) (enc : Option Buf) :
    step E p (.reset enc) = some { val := .bool false, st := p } := by
  simp [step, reset, hp, Ret.as]

/-- The queries for the position are left out: a reset keeps the buffer, so it decides the panic of C45
differently. -/
theorem not_queries : (steps toy (create toy none) [.getBuffer 1, .lineNumber]).isSome = false ∧
    (steps toy (create toy none) [.parse [0x61] false, .reset none, .getBuffer 1, .lineNumber]).isSome = true := by
  decide +kernel

/-- A parser that has failed, was given an encoding and finished is reset. -/
example : ((steps toy (create toy (some [0x41])) [.setTriplets true, .parse [0x3F, 0x61] true, .stop false, .reset none,
      .parse [0x61, 0x62, 0x21, 0x21] false, .resume, .parse [] true, .getError]).map fun x => x.1.map (·.val)) =
    some [.unit, .status .ERROR, .status .OK, .bool true, .status .SUSPENDED, .status .OK, .status .OK, .code none] := by decide +kernel

end Verif.C42
