import Verif.Props.C07Parser

/-! C27: mismatched, missing and surplus tags. -/

set_option autoImplicit false

namespace Verif.C27
open Verif C43 C53 Spec C04

/-! ### Specification: texts which have got inside some elements -/

section
variable (c : Cfg) (D : Dtd) (int : XEnc) (iasc : UInt8 → Buf) (x : XEnc) (asc : UInt8 → Buf)

/-- The text `b` is a root start tag, well-formed content, a start tag, well-formed content, and so on, followed by
`r`.  `path`: the names of the elements open before `r`, innermost first, each with the namespaces in force in it. -/
inductive Inside : Buf → List (Buf × Env) → Buf → Prop
  | root {name : List Buf} {as : List AttrSrc} {ws : List UInt8} {r : Buf} {t : Stored} {Es : List Ev} :
      QName x.e asc name → (∀ a ∈ as, AttrSrc.Valid x.e asc a) → AllWS ws →
      storeAtts c D int x [] (fun _ => .unset) rootEnv (converted x name.flatten) (tagText asc name as ws false)
        = (Es, .ok t) →
      Inside (tagText asc name as ws false ++ r) [(name.flatten, t.env)] r
  | content {b r r' : Buf} {n : Buf} {v : Env} {path : List (Buf × Env)} {E : List Ev} :
      Inside b ((n, v) :: path) r → Content c D int iasc x asc [] v r E r' → Inside b ((n, v) :: path) r'
  | start {b r : Buf} {n : Buf} {v : Env} {path : List (Buf × Env)} {name : List Buf} {as : List AttrSrc} {ws : List UInt8}
      {t : Stored} {Es : List Ev} :
      QName x.e asc name → (∀ a ∈ as, AttrSrc.Valid x.e asc a) → AllWS ws →
      storeAtts c D int x [] (fun _ => .unset) v (converted x name.flatten) (tagText asc name as ws false)
        = (Es, .ok t) →
      Inside b ((n, v) :: path) (tagText asc name as ws false ++ r) →
      Inside b ((name.flatten, t.env) :: (n, v) :: path) r

/-- The text closes the open elements, the innermost first, each after well-formed content, and then there are only
comments, processing instructions and white space. -/
inductive Rest : List (Buf × Env) → Buf → Prop
  | done {r : Buf} {E : List Ev} : Misc x asc r E → Rest [] r
  | close {n : Buf} {v : Env} {path : List (Buf × Env)} {r r' : Buf} {sp : List UInt8} {E : List Ev} : AllWS sp →
      Content c D int iasc x asc [] v r E (endText asc n sp ++ r') → Rest path r' → Rest ((n, v) :: path) r

/-- The text `b` is one element followed by `r`. -/
inductive Root : Buf → Buf → Prop
  | empty {name : List Buf} {as : List AttrSrc} {ws : List UInt8} {r : Buf} {t : Stored} {Es : List Ev} :
      QName x.e asc name → (∀ a ∈ as, AttrSrc.Valid x.e asc a) → AllWS ws →
      storeAtts c D int x [] (fun _ => .unset) rootEnv (converted x name.flatten) (tagText asc name as ws true)
        = (Es, .ok t) →
      Root (tagText asc name as ws true ++ r) r
  | element {b r : Buf} {n : Buf} {v : Env} {sp : List UInt8} : AllWS sp →
      Inside c D int iasc x asc b [(n, v)] (endText asc n sp ++ r) → Root b r

end

/-! ### The state of the parser inside some elements -/

/-- The tag stack and the elements which are open. -/
inductive Stack (x : XEnc) (asc : UInt8 → Buf) : List Tag → Env → List (Buf × Env) → Prop
  | nil : Stack x asc [] rootEnv []
  | cons {tag : Tag} {tags : List Tag} {v v' : Env} {path : List (Buf × Env)} {name : List Buf} : EndName x.e asc name →
      tag.rawName = name.flatten → C31.undo v tag.binds = v' →
      Stack x asc tags v' path → Stack x asc (tag :: tags) v ((name.flatten, v) :: path)

structure At (x : XEnc) (asc : UInt8 → Buf) (path : List (Buf × Env)) (s : CState) : Prop where
  stack : Stack x asc s.tags s.env path
  level : s.level = path.length
  mode : s.mode = if path = [] then .epilog else .content
  flags : s.flags = fun _ => .unset

theorem At.in_ {x : XEnc} {asc : UInt8 → Buf} {p : Buf × Env} {path : List (Buf × Env)} {s : CState} (h : At x asc (p :: path) s) :
    In 0 p.2 s := by
  obtain ⟨h1, h2, h3, h4⟩ := h
  refine ⟨by simpa using h3, ?_, h4, by rw [h2]; simp, Nat.zero_le _⟩
  generalize s.tags = ts at h1
  generalize s.env = v at h1
  cases h1; rfl

section
variable {c : Cfg} {D : Dtd} {int x : XEnc} {asc iasc : UInt8 → Buf}
variable (S : XSupported x asc) (a : AllSet c) (I : XSupported int iasc) (hi : int.e.mb = 1)
include S a

/-- Popping an element. -/
theorem at_pop {p : Buf × Env} {path : List (Buf × Env)} {s : CState} (h : At x asc (p :: path) s) :
    ∃ tag tags name, s.tags = tag :: tags ∧ EndName x.e asc name ∧ name.flatten = p.1 ∧ name.flatten = tag.rawName ∧ s.level ≠ 0 ∧
      At x asc path (s.pop tag tags) := by
  obtain ⟨tags, level, mode, env, flags⟩ := s
  obtain ⟨h1, h2, h3, h4⟩ := h
  simp only at h1 h2 h3 h4
  cases h1 with
  | @cons tag tags v v' path name i1 i2 i3 i4 =>
    refine ⟨tag, tags, name, rfl, i1, rfl, i2.symm, by rw [h2]; simp, ?_⟩
    subst i3
    refine ⟨i4, ?_, ?_, h4⟩
    · simp only [CState.pop]; rw [h2]; simp
    · simp only [CState.pop, h2, List.length_cons, Nat.add_sub_cancel, h3]
      cases path <;> simp

include I hi

/-- The parser gets inside. -/
theorem inside_run {b r : Buf} {path : List (Buf × Env)} (h : Inside c D int iasc x asc b path r) : x.e.mb ∣ b.length →
    x.e.mb ∣ r.length ∧ path ≠ [] ∧ ∃ s E, At x asc path s ∧
      After E (run (parser c D int x) x.e false false s r) (run (parser c D int x) x.e false false CState.init b) := by
  induction h with
  | @root name as ws r t Es h1 h2 h3 h4 =>
    intro hd
    have m := tag_markup h1 h2 h3 false
    have hf : t.flags = fun _ => .unset := by
      funext n; exact C28.flags_unset (fun _ => rfl) h4 n
    refine ⟨(markup_dvd S m hd).2, by simp, CState.init.push name.flatten t, flat (Es ++ [.startElement (t.name.full c) t.atts t.specified t.idIndex]),
      ⟨?_, rfl, rfl, hf⟩, ?_⟩
    · exact Stack.cons (v' := rootEnv) (qname_endName S h1) rfl (C31.storeAtts_declared a.startNs h4).1 .nil
    · rw [parser, run_markup S rfl m hd (act_start S a CState.init h1 h2 h3 h4)]
      exact .pre _ rfl
  | @content b r r' n v path E h1 h2 ih =>
    intro hd
    obtain ⟨i1, i2, s, E', i3, i4⟩ := ih hd
    have j := content_run a I hi h2 (k := D.fuel) (start := 0) S (C34.avail_le D _) i3.in_ i1
    exact ⟨j.1, i2, s, _, i3, i4.trans j.2⟩
  | @start b r n v path name as ws t Es h1 h2 h3 h4 _ ih =>
    intro hd
    obtain ⟨i1, i2, s, E', i3, i4⟩ := ih hd
    have m := tag_markup h1 h2 h3 false
    have hin := i3.in_
    have h5 := h4
    have he : s.env = v := hin.env
    rw [← hin.flags, ← he] at h5
    have hf : t.flags = fun _ => .unset := by
      funext n; exact C28.flags_unset (fun _ => rfl) h4 n
    have hu : C31.undo t.env t.binds = s.env := by rw [hin.env]; exact (C31.storeAtts_declared a.startNs h4).1
    refine ⟨(markup_dvd S m i1).2, by simp, s.push name.flatten t, E' ++ flat (Es ++ [.startElement (t.name.full c) t.atts t.specified t.idIndex]),
      ⟨?_, ?_, ?_, hf⟩, i4.trans ?_⟩
    · exact Stack.cons (qname_endName S h1) rfl hu i3.stack
    · simp only [CState.push, i3.level, List.length_cons]
    · simp only [CState.push, hin.mode]; simp
    · rw [parser, run_markup S hin.mode m i1 (act_start S a s h1 h2 h3 h5)]
      exact .pre _ rfl

omit a I hi in
/-- All chunkings end alike. -/
theorem chunks_err {b : Buf} {err : XErr} (hd : x.e.mb ∣ b.length)
    (h : (run (parser c D int x) x.e false false CState.init b).2 = .err err) (xs : List Buf) (hx : xs.flatten = b) :
    ∃ F, feed (parser c D int x) x.e CState.init [] xs = (F, .err err) ∨ feed (parser c D int x) x.e CState.init [] xs = (F, .err .JUNK_AFTER_DOC_ELEMENT) ∧
      (err = .INVALID_TOKEN ∨ err = .UNCLOSED_TOKEN ∨ err = .PARTIAL_CHAR) := by
  subst hx
  have h1 := parser_chunks S c D int CState.init xs hd
  rw [show call (parser c D int x) x.e false CState.init xs.flatten = run (parser c D int x) x.e false false CState.init xs.flatten by
    rw [call, parser, sem_mode]; rfl] at h1
  generalize run (parser c D int x) x.e false false CState.init xs.flatten = q at *
  generalize feed (parser c D int x) x.e CState.init [] xs = p at *
  obtain ⟨F, o⟩ := q
  obtain ⟨G, o'⟩ := p
  simp only at h
  subst h
  cases o' with
  | ok s r => simp [Same] at h1
  | err e =>
    simp only [Same] at h1
    rcases h1.2 with rfl | ⟨rfl, h2⟩
    · exact ⟨G, .inl rfl⟩
    · exact ⟨G, .inr ⟨rfl, h2⟩⟩

/-- **C27**, mismatched end tags: inside elements nested to any depth, an end tag with a name other than that of the
innermost open element is an error, TAG_MISMATCH, however the text is cut into pieces. -/
theorem mismatch {b r n : Buf} {v : Env} {path : List (Buf × Env)} {name : List Buf} {sp : List UInt8}
    (h : Inside c D int iasc x asc b ((n, v) :: path) (endText asc name.flatten sp ++ r)) (hn : EndName x.e asc name) (hs : AllWS sp)
    (hne : name.flatten ≠ n) (hd : x.e.mb ∣ b.length) (xs : List Buf) (hx : xs.flatten = b) :
    ∃ F, feed (parser c D int x) x.e CState.init [] xs = (F, .err .TAG_MISMATCH) := by
  obtain ⟨i1, -, s, E, i3, i4⟩ := inside_run S a I hi h hd
  obtain ⟨tag, tags, nm, j1, j2, j3, j4, j5, -⟩ := at_pop S a i3
  have ha : (sem c D int D.fuel x [] 0).act s .END_TAG (endText asc name.flatten sp) = ([], .error .TAG_MISMATCH) := by
    obtain ⟨ex, he⟩ := sem_semOf c D int D.fuel x [] 0
    rw [he]
    simp only [semOf, act, actEnd, rawName_end S hn hs, j1]
    rw [if_neg j5, if_pos (by rw [← j4, j3]; exact hne)]
  have h1 := i4.1
  have m : Markup x.e asc .END_TAG (endText asc name.flatten sp) := .endTag hn hs
  rw [parser, run_markup_err S i3.in_.mode m i1 ha] at h1
  obtain ⟨F, h2 | ⟨-, h2⟩⟩ := chunks_err S hd h1 xs hx
  · exact ⟨F, h2⟩
  · rcases h2 with h | h | h <;> cases h

/-- **C27**, missing end tags: a text which ends inside an element is refused, with NO_ELEMENTS if it ends between
two constructs. -/
theorem unclosed {b : Buf} {path : List (Buf × Env)}
    (h : Inside c D int iasc x asc b path []) (hd : x.e.mb ∣ b.length) (xs : List Buf) (hx : xs.flatten = b) :
    ∃ F, feed (parser c D int x) x.e CState.init [] xs = (F, .err .NO_ELEMENTS) := by
  obtain ⟨i1, i2, s, E, i3, i4⟩ := inside_run S a I hi h hd
  cases path with
  | nil => exact absurd rfl i2
  | cons p path =>
    have h1 := i4.1
    rw [parser, run_nil a i3.in_.mode] at h1
    have h2 : finish (sem c D int D.fuel x [] 0) s [] = .err .NO_ELEMENTS := by
      obtain ⟨ex, he⟩ := sem_semOf c D int D.fuel x [] 0
      rw [he]; simp [finish, semOf]
    rw [h2] at h1
    obtain ⟨F, h2 | ⟨-, h2⟩⟩ := chunks_err S hd h1 xs hx
    · exact ⟨F, h2⟩
    · rcases h2 with h | h | h <;> cases h

/-- … and refused too if it ends within a tag, comment or the like. -/
theorem unclosed_token {b r : Buf} {path : List (Buf × Env)} (h : Inside c D int iasc x asc b path r) (hd : x.e.mb ∣ b.length)
    (hr : (contentTok x.e r).tok = .PARTIAL ∨ (contentTok x.e r).tok = .PARTIAL_CHAR)
    (xs : List Buf) (hx : xs.flatten = b) :
    ∃ F err, feed (parser c D int x) x.e CState.init [] xs = (F, .err err) := by
  obtain ⟨i1, i2, s, E, i3, i4⟩ := inside_run S a I hi h hd
  cases path with
  | nil => exact absurd rfl i2
  | cons p path =>
    have h1 := i4.1
    have h2 : ∃ err, (run (parser c D int x) x.e false false s r).2 = .err err := by
      rw [parser, run_go sem_go, sem_mode, i3.in_.mode, show Mode.tok .content x.e _ = contentTok x.e _ from rfl]
      rcases hr with h | h <;> rw [h] <;> exact ⟨_, rfl⟩
    obtain ⟨err, h2⟩ := h2
    rw [h2] at h1
    obtain ⟨F, h2 | ⟨h2, -⟩⟩ := chunks_err S hd h1 xs hx <;> exact ⟨F, _, h2⟩

/-- The parse of the rest. -/
theorem rest_iff {path : List (Buf × Env)} : ∀ {s : CState} {r : Buf}, At x asc path s → x.e.mb ∣ r.length →
    ((∃ F s2 r2, run (parser c D int x) x.e false false s r = (F, .ok s2 r2)) ↔ Rest c D int iasc x asc path r) := by
  induction path with
  | nil =>
    intro s r h hd
    have hm : s.mode = .epilog := by simpa using h.mode
    constructor
    · rintro ⟨F, s2, r2, h1⟩
      exact .done (misc_parsed S a _ rfl hm hd h1)
    · rintro ⟨h1⟩
      obtain ⟨F, h2, -⟩ := misc_run (c := c) (D := D) (int := int) (opened := []) (start := 0) (k := D.fuel) S a h1 hm hd
      exact ⟨F, _, _, h2⟩
  | cons p path ih =>
    intro s r h hd
    obtain ⟨n, v⟩ := p
    obtain ⟨tag, tags, nm, j1, j2, j3, j4, j5, j6⟩ := at_pop S a h
    simp only at j3
    constructor
    · rintro ⟨F, s2, r2, h1⟩
      obtain ⟨E1, b1, G, i1, i2, i3, i4⟩ := content_parsed a I hi D.fuel _ rfl S h.in_ hd h1
      cases i4 with
      | eof h' => exact absurd h'.symm j5
      | @endTag tag' tags' sp b2 F2 _ _ k1 k2 k3 k4 k5 =>
        rw [j1] at k2
        cases k2
        rw [← j4, j3] at i1
        exact .close k3 i1 ((ih j6 k4).1 ⟨_, _, _, k5⟩)
    · intro h1
      cases h1 with
      | @close _ _ _ _ r' sp E k1 k2 k3 =>
        have i1 := content_run a I hi k2 (k := D.fuel) (start := 0) S (C34.avail_le D _) h.in_ hd
        rw [← j3] at i1
        have m2 : Markup x.e asc .END_TAG (endText asc nm.flatten sp) := .endTag j2 k1
        have hd2 := (markup_dvd S m2 i1.1).2
        obtain ⟨F, s2, r2, g⟩ := (ih j6 hd2).2 k3
        have i2 := i1.2
        rw [run_markup S h.in_.mode m2 i1.1 (act_endTag S a s j2 k1 (by simpa using j5) j1 j4),
          show sem c D int D.fuel x [] 0 = parser c D int x from rfl, g] at i2
        cases hq : run (parser c D int x) x.e false false s r with
        | mk F' o =>
          rw [hq] at i2
          have := i2.1
          simp only [pre] at this
          subst this
          exact ⟨_, _, _, rfl⟩

/-- **C27**: a text which has got inside some elements is accepted exactly if the rest closes all of them, the
innermost first, by end tags with their names, and only comments, processing instructions and white space follow the end
tag of the root. -/
theorem closed_iff {b r : Buf} {path : List (Buf × Env)} (h : Inside c D int iasc x asc b path r) (hd : x.e.mb ∣ b.length)
    (xs : List Buf) (hx : xs.flatten = b) :
    (∃ F s2 r2, feed (parser c D int x) x.e CState.init [] xs = (F, .ok s2 r2)) ↔ Rest c D int iasc x asc path r := by
  obtain ⟨i1, i2, s, E, i3, i4⟩ := inside_run S a I hi h hd
  rw [← rest_iff S a I hi i3 i1]
  subst hx
  constructor
  · rintro ⟨F, s2, r2, h1⟩
    obtain ⟨F1, h2, -⟩ := parser_chunks_ok S c D int CState.init xs [xs.flatten] (by simp) hd h1
    rw [C08.feed_one S rfl] at h2
    rw [h2] at i4
    obtain ⟨F', h3, -⟩ := i4.ok
    exact ⟨F', s2, r2, h3⟩
  · rintro ⟨F, s2, r2, h1⟩
    rw [h1] at i4
    cases hq : run (parser c D int x) x.e false false CState.init xs.flatten with
    | mk F' o =>
      rw [hq] at i4
      have := i4.1
      simp only at this
      subst this
      rw [← C08.feed_one S rfl] at hq
      obtain ⟨F2, h2, -⟩ := parser_chunks_ok S c D int CState.init [xs.flatten] xs (by simp) (by simpa using hd) hq
      exact ⟨F2, _, _, h2⟩

omit I hi in
/-- Comments, processing instructions and white space after the root element are passed over. -/
theorem misc_prefix {m : Buf} {E : List Ev} (h : Misc x asc m E) {r : Buf} {s : CState} (hm : s.mode = .epilog) :
    x.e.mb ∣ (m ++ r).length → x.e.mb ∣ r.length ∧
      After E (run (parser c D int x) x.e false false s r) (run (parser c D int x) x.e false false s (m ++ r)) := by
  induction h with
  | nil => intro hd; exact ⟨hd, rfl, fun _ _ _ => rfl⟩
  | space h1 _ ih =>
    intro hd
    rw [List.append_assoc] at hd ⊢
    rw [parser, run_space S a hm h1 hd]
    exact ih (dvd_asc S hd)
  | @comment ws b E h1 _ ih =>
    intro hd
    have m : Markup x.e asc .COMMENT (commentText asc ws) := .comment h1.chars h1.hyphens
    rw [List.append_assoc] at hd ⊢
    have i := ih (markup_dvd S m hd).2
    refine ⟨i.1, ?_⟩
    have := i.2.preIf (E' := [.comment (C14.lineEnds (converted x ws.flatten))]) rfl
    rw [parser, run_misc S hm m (.inl rfl) hd (act_comment S a s h1)]
    exact this
  | @pi target sp ws b E h1 _ ih =>
    intro hd
    have m := pi_markup S h1
    rw [List.append_assoc] at hd ⊢
    have i := ih (markup_dvd S m hd).2
    refine ⟨i.1, ?_⟩
    have := i.2.preIf (E' := [.pi (cstr (converted x target.flatten)) (C14.lineEnds (converted x ws.flatten))]) rfl
    rw [parser, run_misc S hm m (.inr rfl) hd (act_pi S a s h1)]
    exact this

omit a I hi in
/-- What follows the root element is comments, processing instructions and white space, and then something else. -/
theorem misc_split (n : Nat) : ∀ {b : Buf}, b.length = n → x.e.mb ∣ b.length →
    ∃ m E r, b = m ++ r ∧ Misc x asc m E ∧ (r ≠ [] → (prologTok x.e r).tok ≠ .COMMENT ∧ (prologTok x.e r).tok ≠ .PI ∧
      (prologTok x.e r).tok.space = false) := by
  induction n using Nat.strongRecOn with
  | _ n ih =>
    intro b hn hd
    have hp : 0 < x.e.mb := Nat.succ_pos _
    by_cases hb0 : b = []
    · exact ⟨[], [], b, rfl, .nil, fun h => absurd hb0 h⟩
    have hb : x.e.mb ≤ b.length := Nat.le_of_dvd (List.length_pos_iff.2 hb0) hd
    by_cases hsp : x.e.bt b = .S ∨ x.e.bt b = .CR ∨ x.e.bt b = .LF
    · obtain ⟨ch, h1, h2⟩ := space_split S.s hb hsp
      have hd' := hd
      rw [h2] at hd'
      obtain ⟨m, E, r, i1, i2, i3⟩ := ih _ (by rw [← hn, List.length_drop]; omega) rfl (dvd_asc S hd')
      exact ⟨asc ch ++ m, E, r, by rw [List.append_assoc, ← i1, ← h2], .space h1 i2, i3⟩
    · have hbody : prologTok x.e b = prologTokBody x.e b := by rw [prologTok_eq hb, trunc_whole S.s hd]
      have hns : (prologTok x.e b).tok.space = false := by
        rw [hbody]
        cases ht : (prologTokBody x.e b).tok.space with
        | false => rfl
        | true =>
          exfalso
          by_cases hlt : x.e.bt b = .LT
          · have a1 := scanDecl_space (e := x.e) (b.drop (2 * x.e.mb)) (2 * x.e.mb)
            have a2 := scanPi_space (e := x.e) (b.drop (2 * x.e.mb)) (2 * x.e.mb)
            have : (prologTokBody x.e b).tok.space = false := by
              simp only [prologTokBody, hlt]
              (repeat' split) <;> first | exact a1 | exact a2 | rfl
            rw [ht] at this; cases this
          · have := misc_space (prologTokBody_misc hlt (fun h => hsp (.inr (.inl h))) (fun h => hsp (.inl h)) (fun h => hsp (.inr (.inr h))))
            rw [ht] at this; cases this
      by_cases ht : (prologTok x.e b).tok = .COMMENT ∨ (prologTok x.e b).tok = .PI
      · have hte : (prologTok x.e b).tok.isError = false := by rcases ht with h | h <;> rw [h] <;> rfl
        obtain ⟨w, r, m, hbr, -⟩ := content_sound S.s hd (t := (prologTok x.e b).tok) (n := (prologTok x.e b).next) hte
          (by rcases ht with h | h <;> rw [h] <;> simp) (by rcases ht with h | h <;> rw [h] <;> simp) ((prolog_misc S.s hd ht).1 rfl)
        generalize (prologTok x.e b).tok = t at m ht
        subst hbr
        have hdr := (markup_dvd S m hd).2
        have hwp := markup_pos S m
        obtain ⟨m', E, r', i1, i2, i3⟩ := ih _ (by rw [← hn, List.length_append]; omega) rfl hdr
        cases m with
        | @comment ws h1 h2 =>
          exact ⟨commentText asc ws ++ m', _, r', by rw [i1, commentText]; simp only [List.append_assoc], .comment ⟨h1, h2⟩ i2, i3⟩
        | pi h1 h2 h3 =>
          rcases pi_tok h3 with rfl | rfl
          · obtain ⟨sp, ws, h4, h5⟩ := pi_of_markup S h1 h2 h3
            rw [h5]
            exact ⟨_, _, r', by rw [List.append_assoc, ← i1], .pi h4 i2, i3⟩
          · rcases ht with h | h <;> cases h
        | @ref _ _ h => cases h <;> rcases ht with h | h <;> cases h
        | @tag name as ws empty =>
          revert ht; cases empty <;> cases as.isEmpty <;> rintro (h | h) <;> cases h
        | endTag => rcases ht with h | h <;> cases h
        | cdata => rcases ht with h | h <;> cases h
      · exact ⟨[], [], b, rfl, .nil, fun _ => ⟨fun h => ht (.inl h), fun h => ht (.inr h), hns⟩⟩

/-- The parser gets past the root element. -/
theorem root_run {b r : Buf} (h : Root c D int iasc x asc b r) (hd : x.e.mb ∣ b.length) : x.e.mb ∣ r.length ∧
    ∃ s E, s.mode = .epilog ∧
      After E (run (parser c D int x) x.e false false s r) (run (parser c D int x) x.e false false CState.init b) := by
  cases h with
  | @empty name as ws r t Es h1 h2 h3 h4 =>
    have m := tag_markup h1 h2 h3 true
    have ha := act_empty (start := 0) (k := D.fuel) S a CState.init h1 h2 h3 rfl h4
    rw [if_pos (show CState.init.level = 0 from rfl)] at ha
    refine ⟨(markup_dvd S m hd).2, { CState.init with mode := .epilog }, flat (Es ++ (.startElement (t.name.full c) t.atts t.specified t.idIndex ::
      .endElement (t.name.full c) :: (t.binds.map fun d => .endNs d.pre))), rfl, ?_⟩
    · rw [parser, run_markup S rfl m hd ha]
      exact .pre _ rfl
  | @element b r n v sp h1 h2 =>
    obtain ⟨i1, -, s, E, i3, i4⟩ := inside_run S a I hi h2 hd
    obtain ⟨tag, tags, nm, j1, j2, j3, j4, j5, j6⟩ := at_pop S a i3
    simp only at j3
    subst j3
    have m : Markup x.e asc .END_TAG (endText asc nm.flatten sp) := .endTag j2 h1
    refine ⟨(markup_dvd S m i1).2, s.pop tag tags, E ++ flat (.endElement (tag.name.full c) :: (tag.binds.map fun d => .endNs d.pre)),
      by simpa using j6.mode, i4.trans ?_⟩
    · rw [parser, run_markup S i3.in_.mode m i1 (act_endTag S a s j2 h1 (by simpa using j5) j1 j4)]
      exact .pre _ rfl

/-- **C27**, after the root element: only comments, processing instructions and white space are accepted. -/
theorem after_root_iff {b r : Buf} (h : Root c D int iasc x asc b r) (hd : x.e.mb ∣ b.length)
    (xs : List Buf) (hx : xs.flatten = b) :
    (∃ F s2 r2, feed (parser c D int x) x.e CState.init [] xs = (F, .ok s2 r2)) ↔ ∃ E, Misc x asc r E := by
  obtain ⟨i1, s, E, i3, i4⟩ := root_run S a I hi h hd
  subst hx
  constructor
  · rintro ⟨F, s2, r2, h1⟩
    obtain ⟨F1, h2, -⟩ := parser_chunks_ok S c D int CState.init xs [xs.flatten] (by simp) hd h1
    rw [C08.feed_one S rfl] at h2
    rw [h2] at i4
    obtain ⟨F', h3, -⟩ := i4.ok
    exact ⟨_, misc_parsed S a _ rfl i3 i1 h3⟩
  · rintro ⟨E, h1⟩
    obtain ⟨F, h2, -⟩ := misc_run (c := c) (D := D) (int := int) (opened := []) (start := 0) (k := D.fuel) S a h1 i3 i1
    rw [show run (parser c D int x) x.e false false s r = _ from h2] at i4
    cases hq : run (parser c D int x) x.e false false CState.init xs.flatten with
    | mk F' o =>
      rw [hq] at i4
      have := i4.1
      simp only at this
      subst this
      rw [← C08.feed_one S rfl] at hq
      obtain ⟨F2, h2, -⟩ := parser_chunks_ok S c D int CState.init [xs.flatten] xs (by simp) (by simpa using hd) hq
      exact ⟨F2, _, _, h2⟩

/-- … and the error for anything else is JUNK_AFTER_DOC_ELEMENT, or that of a malformed token. -/
theorem after_root_err {b r : Buf} (h : Root c D int iasc x asc b r) (hd : x.e.mb ∣ b.length)
    (hr : ¬ ∃ E, Misc x asc r E) (xs : List Buf) (hx : xs.flatten = b) :
    ∃ F err, feed (parser c D int x) x.e CState.init [] xs = (F, .err err) ∧
      (err = .JUNK_AFTER_DOC_ELEMENT ∨ err = .INVALID_TOKEN ∨ err = .UNCLOSED_TOKEN ∨ err = .PARTIAL_CHAR) := by
  obtain ⟨i1, s, E, i3, i4⟩ := root_run S a I hi h hd
  obtain ⟨m, E', r', rfl, j2, j3⟩ := misc_split S _ rfl i1
  have k := misc_prefix (c := c) (D := D) (int := int) (r := r') S a j2 i3 i1
  have hne : r' ≠ [] := by rintro rfl; exact hr ⟨E', by rwa [List.append_nil]⟩
  obtain ⟨l1, l2, l3⟩ := j3 hne
  have h1 := i4.1.trans k.2.1
  have h2 : ∃ err, (run (parser c D int x) x.e false false s r').2 = .err err ∧
      (err = .JUNK_AFTER_DOC_ELEMENT ∨ err = .INVALID_TOKEN ∨ err = .UNCLOSED_TOKEN ∨ err = .PARTIAL_CHAR) := by
    rw [parser, run_go sem_go, sem_mode, i3, show Mode.tok .epilog x.e _ = prologTok x.e _ from rfl]
    generalize (prologTok x.e r').tok = t at *
    cases t <;> simp [Mode.verdict, Tok.space] at * 
  obtain ⟨err, h2, h3⟩ := h2
  rw [h2] at h1
  obtain ⟨F, h4 | ⟨h4, -⟩⟩ := chunks_err S hd h1 xs hx
  · exact ⟨F, _, h4, h3⟩
  · exact ⟨F, _, h4, .inl rfl⟩

/-- **C27**, surplus elements: a second element after the root element is JUNK_AFTER_DOC_ELEMENT. -/
theorem junk_tag {b m w r : Buf} {E : List Ev} (h : Root c D int iasc x asc b (m ++ (asc 0x3C ++ (w ++ r)))) (hd : x.e.mb ∣ b.length)
    (hm : Misc x asc m E) (hw : x.e.NmstrtChar w) (xs : List Buf) (hx : xs.flatten = b) :
    ∃ F, feed (parser c D int x) x.e CState.init [] xs = (F, .err .JUNK_AFTER_DOC_ELEMENT) := by
  obtain ⟨i1, s, E, i3, i4⟩ := root_run S a I hi h hd
  have k := misc_prefix (c := c) (D := D) (int := int) S a hm i3 i1
  have h1 := i4.1.trans k.2.1
  rw [parser, run_go sem_go (s := s), sem_mode, i3, show Mode.tok .epilog x.e _ = prologTok x.e _ from rfl, C55.starts S hw k.1] at h1
  obtain ⟨F, h4 | ⟨h4, -⟩⟩ := chunks_err S hd h1 xs hx <;> exact ⟨F, h4⟩

end

/-! ### Non-vacuity -/

/-- What a start tag yields. -/
def got (r : List Ev × Except (XErr × List Binding) Stored) (h : r.2.isOk = true) : Stored :=
  match r.2, h with
  | .ok t, _ => t

theorem got_eq {r : List Ev × Except (XErr × List Binding) Stored} (h : r.2.isOk = true) : r = (r.1, .ok (got r h)) := by
  obtain ⟨E, o⟩ := r
  cases o with
  | ok t => rfl
  | error e => cases h

theorem hexLetter {ns : Bool} {ch : UInt8} (h : (utf8Enc ns).bt [ch] = .HEX) : (utf8Enc ns).NmstrtChar [ch] := by
  simp only [Enc.NmstrtChar, h]; rfl

/-- One-letter names. -/
theorem letter (ns : Bool) {ch : UInt8} (h : (utf8Enc ns).bt [ch] = .HEX) : QName (utf8Enc ns) asc1 [[ch]] :=
  .plain _ ⟨[ch], [], rfl, hexLetter h, by simp⟩

/-- `<a>` -/
private def ta : Buf := tagText asc1 [[0x61]] [] [] false
/-- `<b>` -/
private def tb : Buf := tagText asc1 [[0x62]] [] [] false

private def storeA := storeAtts {} default (internalUtf8X false) (utf8X false) [] (fun _ => .unset) rootEnv
    (converted (utf8X false) [[0x61]].flatten) ta
private theorem okA : storeA.2.isOk = true := by decide +kernel
private def storeB := storeAtts {} default (internalUtf8X false) (utf8X false) [] (fun _ => .unset) (got storeA okA).env
    (converted (utf8X false) [[0x62]].flatten) tb
private theorem okB : storeB.2.isOk = true := by decide +kernel

/-- `<a><b>` is inside two elements, whatever follows. -/
theorem two (r : Buf) : ∃ v w, Inside {} default (internalUtf8X false) asc1 (utf8X false) asc1 (ta ++ (tb ++ r))
    [([0x62], v), ([0x61], w)] r := by
  have i1 := Inside.root (c := {}) (iasc := asc1) (r := tb ++ r) (letter false (by decide +kernel)) (by simp) (by simp [AllWS]) (got_eq okA)
  exact ⟨_, _, .start (letter false (by decide +kernel)) (by simp) (by simp [AllWS]) (got_eq okB) i1⟩

/-- `<a><b></a>`, in two pieces -/
example : ∃ F, feed (parser {} default (internalUtf8X false) (utf8X false)) (utf8Enc false) CState.init [] ["<a><".toUTF8.toList, "b></a>".toUTF8.toList] =
    (F, .err .TAG_MISMATCH) := by
  obtain ⟨v, w, h⟩ := two (endText asc1 [0x61] [])
  exact mismatch (name := [[0x61]]) (sp := []) (r := []) (.utf8 false) C55.allSet_default (.internalUtf8 false) rfl
    (by rw [List.append_nil]; exact h) (qname_endName (.utf8 false) (letter false (by decide +kernel))) (by simp [AllWS]) (by decide) (Nat.one_dvd _) _ (by decide +kernel)

/-- `<a><b>` -/
example : ∃ F, feed (parser {} default (internalUtf8X false) (utf8X false)) (utf8Enc false) CState.init [] ["<a><".toUTF8.toList, "b>".toUTF8.toList] =
    (F, .err .NO_ELEMENTS) := by
  obtain ⟨v, w, h⟩ := two []
  exact unclosed (.utf8 false) C55.allSet_default (.internalUtf8 false) rfl h (Nat.one_dvd _) _ (by decide +kernel)

/-- `<a></a>` followed by anything -/
theorem one (r : Buf) : Root {} default (internalUtf8X false) asc1 (utf8X false) asc1 (ta ++ (endText asc1 [0x61] [] ++ r)) r := by
  exact .element (n := [0x61]) (sp := []) (by simp [AllWS])
    (Inside.root (c := {}) (iasc := asc1) (letter false (by decide +kernel)) (by simp) (by simp [AllWS]) (got_eq okA))

/-- `<a></a> <b` -/
example : ∃ F, feed (parser {} default (internalUtf8X false) (utf8X false)) (utf8Enc false) CState.init [] ["<a></a> <b".toUTF8.toList] =
    (F, .err .JUNK_AFTER_DOC_ELEMENT) :=
  junk_tag (m := [0x20]) (w := [0x62]) (r := []) (.utf8 false) C55.allSet_default (.internalUtf8 false) rfl (one _) (Nat.one_dvd _)
    (.space (ch := 0x20) rfl .nil) (hexLetter (by decide +kernel)) _ (by decide +kernel)

end Verif.C27
