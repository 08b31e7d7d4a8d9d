import Verif.PrologFwd
import Verif.PrologInd
import Verif.PrologRoles

/-! The loop of the prolog, one lexical element at a time. -/

set_option autoImplicit false

namespace Verif
open C43 C53 Spec

/-- Handler calls other than those of the default handler. -/
def heard (E : List PEv) : List PEv := E.filter fun v => match v with | .ev (.dflt _) => false | _ => true

theorem heard_append (E F : List PEv) : heard (E ++ F) = heard E ++ heard F := List.filter_append ..

theorem heard_dflt (c : Cfg) (x : XEnc) (w : Buf) : heard ((toDefault c x w).map .ev) = [] := by
  rw [heard, List.filter_eq_nil_iff]
  intro v hv
  obtain ⟨u, hu, rfl⟩ := List.mem_map.1 hv
  unfold toDefault at hu
  split at hu
  · obtain ⟨d, -, rfl⟩ := List.mem_map.1 hu
    simp
  · cases hu

/-- The state of the grammar machine. -/
def DState.withP (s : DState) (p : PState) : DState := { s with el := { s.el with p := p } }

theorem withP_self (s : DState) : s.withP s.el.p = s := rfl

variable {c : PCfg} {ext : Ext} {fuel : Nat} {expand : Bool → Buf → Buf → DState → Acted}
  {internal between allowClose more : Bool} {opened : List Buf} {x : XEnc} {asc : UInt8 → Buf}

/-- The outcome without the calls of the default handler. -/
def hear (r : Prolog) : Prolog := (heard r.1, r.2)

/-- From `b` the loop comes to `b'`, reporting `E` (calls of the default handler aside). -/
def Reach (c : PCfg) (ext : Ext) (fuel : Nat) (expand : Bool → Buf → Buf → DState → Acted)
    (internal between allowClose more : Bool) (opened : List Buf) (x : XEnc)
    (s : DState) (b : Buf) (E : List PEv) (s' : DState) (b' : Buf) : Prop :=
  s.x c internal = x → x.e.mb ∣ b.length →
    hear (prun c ext fuel expand internal between allowClose more opened s b) =
      Prolog.pre E (hear (prun c ext fuel expand internal between allowClose more opened s' b')) ∧
    s'.x c internal = x ∧ x.e.mb ∣ b'.length

local notation "R" => Reach c ext fuel expand internal between allowClose more opened x

theorem Prolog.pre_nil (r : Prolog) : Prolog.pre [] r = r := rfl
theorem Prolog.pre_pre (E F : List PEv) (r : Prolog) : Prolog.pre E (Prolog.pre F r) = Prolog.pre (E ++ F) r := by
  simp [Prolog.pre]

theorem hear_pre (E : List PEv) (r : Prolog) : hear (Prolog.pre E r) = Prolog.pre (heard E) (hear r) := by
  simp [hear, Prolog.pre, heard_append]

theorem Reach.refl (s : DState) (b : Buf) : R s b [] s b := fun h1 h2 => ⟨rfl, h1, h2⟩

theorem Reach.trans {s t u : DState} {a b d : Buf} {E F : List PEv} (h1 : R s a E t b) (h2 : R t b F u d) :
    R s a (E ++ F) u d := by
  intro g1 g2
  obtain ⟨h3, h4, h5⟩ := h1 g1 g2
  obtain ⟨h6, h7, h8⟩ := h2 h4 h5
  exact ⟨by rw [h3, h6, Prolog.pre_pre], h7, h8⟩

/-- Nothing reported by the first part. -/
theorem Reach.then {s t u : DState} {a b d : Buf} {F : List PEv} (h1 : R s a [] t b) (h2 : R t b F u d) :
    R s a F u d := h1.trans h2

/-- One token. -/
theorem Reach.tokD (S : XSupported x asc) {s s' : DState} {t : Tok} {w r : Buf} {p : PState} {role : Role} {E : List PEv}
    {hd : Bool} (hb : x.e.mb ∣ (w ++ r).length → prologTok x.e (w ++ r) = ⟨t, w.length⟩) (hw : x.e.mb ≤ w.length)
    (ht : t.isError = false)
    (hp : s.el.p.next x.e t w = (p, role)) (hx : s'.x c internal = s.x c internal)
    (ha : s.x c internal = x → pact c ext fuel expand internal allowClose opened (s.withP p) role t w = (E, s', .go hd)) :
    R s (w ++ r) (heard E) s' r := by
  intro h1 h2
  have hm : 0 < x.e.mb := Nat.succ_pos _
  have htok := hb h2
  have ha := ha h1
  have hd1 : x.e.mb ∣ w.length := by
    have := Mode.tok_dvd S.s.mb S.s.even .epilog (w ++ r)
    rw [show Mode.tok .epilog x.e (w ++ r) = prologTok x.e (w ++ r) from rfl, htok] at this
    exact this
  have hd2 : x.e.mb ∣ r.length := by
    rw [List.length_append] at h2
    exact (Nat.dvd_add_right hd1).1 h2
  refine ⟨?_, hx.trans h1, hd2⟩
  have hsee : seeToken x internal between more c.isPE (w ++ r) = .tok t w.length := by
    rw [seeToken, htok, seeRes, if_pos (by simp [ht])]
  have hround : pround c ext fuel expand internal allowClose opened s t w =
      (E ++ (if hd then (toDefault c.c (s'.x c internal) w).map .ev else []), s', .go hd) := by
    rw [pround_eq, h1]
    have : s.told x.e t w = s.withP p := by rw [DState.told, hp]; rfl
    rw [this, hp, ha]
    cases hd <;> simp [Acted.told]
  have : heard E = heard (E ++ (if hd then (toDefault c.c (s'.x c internal) w).map .ev else [])) := by
    rw [heard_append]
    cases hd
    · simp [heard]
    · rw [if_pos rfl, heard_dflt, List.append_nil]
  rw [this, ← hear_pre]
  conv => lhs; rw [prun.eq_def]
  simp only [h1, hsee, List.take_left, hround, List.drop_left]
  rw [if_pos (by rw [List.length_append]; omega)]

/-- One token. -/
theorem Reach.tok (S : XSupported x asc) {s s' : DState} {t : Tok} {w r : Buf} {p : PState} {role : Role} {E : List PEv}
    {hd : Bool} (hb : prologTokBody x.e (w ++ r) = ⟨t, w.length⟩) (hw : x.e.mb ≤ w.length) (ht : t.isError = false)
    (hp : s.el.p.next x.e t w = (p, role)) (hx : s'.x c internal = s.x c internal)
    (ha : s.x c internal = x → pact c ext fuel expand internal allowClose opened (s.withP p) role t w = (E, s', .go hd)) :
    R s (w ++ r) (heard E) s' r := by
  have hm : 0 < x.e.mb := Nat.succ_pos _
  refine Reach.tokD S (fun h2 => ?_) hw ht hp hx ha
  rw [prologTok_eq (by rw [List.length_append]; omega), trunc_whole S.s h2, hb]

/-! ### White space -/

/-- Handlers which white space leaves as they are. -/
def Hd.spacy : Hd → Bool
  | .prolog0 | .externalSubset0 | .error => false
  | _ => true

theorem spacy_next {e : Enc} {p : PState} (hh : p.h.spacy = true) (hn : p.roleNone.none_ = true) (w : Buf) :
    ∃ r, r.none_ = true ∧ p.next e .PROLOG_S w = (p, r) := by
  obtain ⟨h, lv, rn, il, de, iv⟩ := p
  cases h <;> first
    | exact ⟨_, rfl, rfl⟩
    | exact ⟨_, hn, rfl⟩
    | (cases hh; done)

theorem pact_none {s : DState} {r : Role} (hr : r.none_ = true) (t : Tok) (w : Buf) :
    ∃ hd, pact c ext fuel expand internal allowClose opened s r t w = ([], s, .go hd) := by
  cases r <;> first | (cases hr; done) | exact ⟨_, rfl⟩

/-- One white-space token. -/
theorem Reach.spaceTok {s : DState} {b : Buf} {n : Nat} (hh : s.el.p.h.spacy = true) (hn : s.el.p.roleNone.none_ = true)
    (hx : s.x c internal = x) (hsee : seeToken x internal between more c.isPE b = .tok .PROLOG_S n) (h0 : 0 < n) (hb : 0 < b.length) :
    hear (prun c ext fuel expand internal between allowClose more opened s b) =
      hear (prun c ext fuel expand internal between allowClose more opened s (b.drop n)) := by
  obtain ⟨r, h1, h2⟩ := spacy_next (e := x.e) hh hn (b.take n)
  obtain ⟨hd, h3⟩ := pact_none (c := c) (ext := ext) (fuel := fuel) (expand := expand) (internal := internal)
    (allowClose := allowClose) (opened := opened) (s := s) h1 .PROLOG_S (b.take n)
  have hround : pround c ext fuel expand internal allowClose opened s .PROLOG_S (b.take n) =
      ([] ++ (if hd then (toDefault c.c (s.x c internal) (b.take n)).map .ev else []), s, .go hd) := by
    rw [pround_eq, hx]
    have : s.told x.e .PROLOG_S (b.take n) = s := by rw [DState.told, h2]
    rw [this, h2, h3]
    cases hd <;> simp [Acted.told, hx]
  have h4 : heard ([] ++ (if hd then (toDefault c.c (s.x c internal) (b.take n)).map .ev else [])) = [] := by
    rw [heard_append]
    cases hd
    · simp [heard]
    · rw [if_pos rfl, heard_dflt]; rfl
  conv => lhs; rw [prun.eq_def]
  simp only [hx, hsee, hround]
  rw [if_pos (by rw [List.length_drop]; omega), hear_pre, ← hx, h4]
  rfl

/-- White space is skipped character by character. -/
theorem Reach.space (S : XSupported x asc) {s : DState} {ch : UInt8} {b : Buf} (hc : isWS ch = true)
    (hh : s.el.p.h.spacy = true) (hn : s.el.p.roleNone.none_ = true) (hb0 : b ≠ [] ∨ more = false) :
    R s (asc ch ++ b) [] s b := by
  intro hx hd
  have l := S.s.asc.len ch
  have hp : 0 < x.e.mb := Nat.succ_pos _
  have hdb : x.e.mb ∣ b.length := dvd_asc S hd
  refine ⟨?_, hx, hdb⟩
  rw [Prolog.pre_nil]
  have hb : x.e.mb ≤ (asc ch ++ b).length := by rw [List.length_append]; omega
  have hbt : x.e.bt (asc ch ++ b) = .S ∨ x.e.bt (asc ch ++ b) = .CR ∨ x.e.bt (asc ch ++ b) = .LF := by
    rw [ws_bt S.s hc b]; (repeat' split) <;> simp
  have htok : prologTok x.e (asc ch ++ b) = prologTokBody x.e (asc ch ++ b) := by rw [prologTok_eq hb, trunc_whole S.s hd]
  have one : prologTok x.e (asc ch ++ b) = ⟨.PROLOG_S, x.e.mb⟩ → _ := fun h => by
    have := Reach.spaceTok (c := c) (ext := ext) (fuel := fuel) (expand := expand) (internal := internal) (between := between)
      (allowClose := allowClose) (more := more) (opened := opened) (x := x) (b := asc ch ++ b) (n := x.e.mb) hh hn hx
      (by rw [seeToken, h]; rfl) hp (by omega)
    rw [drop_char l] at this
    exact this
  by_cases hcr : x.e.bt (asc ch ++ b) = .CR ∧ b = []
  · obtain ⟨hcr, rfl⟩ := hcr
    have ht : prologTok x.e (asc ch ++ []) = ⟨.PROLOG_S_NEG, x.e.mb⟩ := by
      rw [htok]
      simp only [prologTokBody, hcr]
      rw [if_pos (by simpa using l)]
    have hm : more = false := hb0.resolve_left (fun h => h rfl)
    have := Reach.spaceTok (c := c) (ext := ext) (fuel := fuel) (expand := expand) (internal := internal) (between := between)
      (allowClose := allowClose) (more := more) (opened := opened) (x := x) (b := asc ch ++ []) (n := x.e.mb) hh hn hx
      (by rw [seeToken, ht, seeRes, hm]; rfl) hp (by omega)
    rw [drop_char l] at this
    exact this
  · have hl : x.e.bt (asc ch ++ b) = .CR ∧ (asc ch ++ b).length ≠ x.e.mb ∨ x.e.bt (asc ch ++ b) = .S ∨ x.e.bt (asc ch ++ b) = .LF := by
      rcases hbt with h | h | h
      · exact .inr (.inl h)
      · refine .inl ⟨h, fun h' => hcr ⟨h, ?_⟩⟩
        rw [List.length_append] at h'
        exact List.length_eq_zero_iff.1 (by omega)
      · exact .inr (.inr h)
    have h1 : prologTokBody x.e (asc ch ++ b) = prologSpace x.e b x.e.mb := by
      simp only [prologTokBody]
      rcases hl with ⟨h, h2⟩ | h | h <;> simp only [h, drop_char l]
      rw [if_neg h2]
    by_cases hbl : b.length < x.e.mb
    · apply one; rw [htok, h1, prologSpace, if_pos hbl]
    by_cases hs : x.e.bt b = .CR ∧ b.length ≠ x.e.mb ∨ x.e.bt b = .S ∨ x.e.bt b = .LF
    · obtain ⟨h2, h3⟩ := prologSpace_long (n := x.e.mb) hs (by omega)
      have h4 : prologTok x.e b = prologTokBody x.e b := by rw [prologTok_eq (by omega), trunc_whole S.s hdb]
      cases hq : prologTokBody x.e b with
      | mk t n =>
        rw [hq] at h2 h3 h4
        simp only at h3
        subst h3
        have h0 : 0 < n := by
          have := prologTokBody_pos x.e b (by rw [hq]; rfl)
          rw [hq] at this
          exact this (by simp)
        rw [Reach.spaceTok (x := x) (n := x.e.mb + n) hh hn hx (by rw [seeToken, htok, h1, h2, seeRes]; rfl) (by omega) (by omega),
          Reach.spaceTok (x := x) (b := b) (n := n) hh hn hx (by rw [seeToken, h4, seeRes]; rfl) h0 (by omega), ← List.drop_drop, drop_char l]
    · apply one
      rw [htok, h1, prologSpace, if_neg hbl]
      generalize x.e.bt b = u at *
      cases u <;> simp only <;> simp at hs
      rw [if_pos hs]

/-- A run of white space. -/
theorem Reach.spaces (S : XSupported x asc) {s : DState} (hh : s.el.p.h.spacy = true) (hn : s.el.p.roleNone.none_ = true)
    (sp : List UInt8) (hsp : sp.all isWS = true) {b : Buf} (hb0 : b ≠ [] ∨ more = false) :
    R s (spell asc sp ++ b) [] s b := by
  induction sp with
  | nil => exact .refl _ _
  | cons ch sp ih =>
    rw [List.all_cons, Bool.and_eq_true] at hsp
    have h := ih hsp.2
    rw [show spell asc (ch :: sp) ++ b = asc ch ++ (spell asc sp ++ b) by simp [spell]]
    refine (Reach.space S hsp.1 hh hn ?_).then h
    rcases hb0 with h0 | h0
    · exact .inl (by simp [h0])
    · exact .inr h0

end Verif
