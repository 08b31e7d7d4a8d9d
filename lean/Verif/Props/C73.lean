import Verif.LocatedPlaces

/-! # C73: during a handler call the byte index and byte count are those of the markup it reports

XML_GetCurrentByteIndex and XML_GetCurrentByteCount, called from a handler while the content of a document is parsed, give the place of
the tag, comment, processing instruction, CDATA bracket or reference in the bytes supplied, however these were cut into calls of
XML_Parse; calls made for the text of an internal entity have the place of the reference; the end of an empty-element tag has the place
behind it with no bytes if its start has been reported. -/

set_option autoImplicit false

namespace Verif.C73
open C43 C53 Spec Verif C04

/-- The element name `nm` a handler gets for a tag with the name `raw`: as it is, or the namespace, the separator and the local part (and
what follows in the mode with triplets). -/
def Named (c : Cfg) (raw nm : Buf) : Prop :=
  nm = raw ∨ c.ns = true ∧ ∃ uri loc suffix, nm = uri ++ c.sepB ++ loc ++ suffix ∧ (raw = loc ∨ ∃ pre, raw = pre ++ 0x3A :: loc)

/-- What may be reported for a reference to the entity `name`: that it is skipped, that it is external, or whatever its text gives. -/
def ForRef (c : Cfg) (D : Dtd) (name : Buf) (v : Ev) : Prop :=
  v = .skippedEntity name false ∨
  ∃ ent, D.entity name = some ent ∧
    (ent.text = none ∧ v = .externalRef none ent.systemId ent.publicId ∨ c.expandInternal = true ∧ ent.text ≠ none)

/-- `Stands c D x asc i w v q`: the call `v` is one for the markup `w` which begins at the byte index `i`, and `q` is the byte index and
the byte count to be seen during the call. -/
inductive Stands (c : Cfg) (D : Dtd) (x : XEnc) (asc : UInt8 → Buf) (i : Nat) : Buf → Ev → Nat × Nat → Prop where
  | start {name : List Buf} {as : List AttrSrc} {ws : List UInt8} {empty : Bool} {nm : Buf} {atts : List (Buf × Buf)} {k : Nat}
      {id : Option Nat} : QName x.e asc name → (∀ a ∈ as, AttrSrc.Valid x.e asc a) → AllWS ws → Named c (converted x name.flatten) nm →
      Stands c D x asc i (tagText asc name as ws empty) (.startElement nm atts k id) (i, (tagText asc name as ws empty).length)
  | startNs {name : List Buf} {as : List AttrSrc} {ws : List UInt8} {empty : Bool} {p u : Option Buf} :
      QName x.e asc name → (∀ a ∈ as, AttrSrc.Valid x.e asc a) → AllWS ws →
      Stands c D x asc i (tagText asc name as ws empty) (.startNs p u) (i, (tagText asc name as ws empty).length)
  | end_ {name : List Buf} {sp : List UInt8} {nm : Buf} : EndName x.e asc name → AllWS sp →
      Stands c D x asc i (endText asc name.flatten sp) (.endElement nm) (i, (endText asc name.flatten sp).length)
  /-- an empty-element tag -/
  | endEmpty {name : List Buf} {as : List AttrSrc} {ws : List UInt8} {nm : Buf} :
      QName x.e asc name → (∀ a ∈ as, AttrSrc.Valid x.e asc a) → AllWS ws → Named c (converted x name.flatten) nm →
      Stands c D x asc i (tagText asc name as ws true) (.endElement nm)
        (if c.startElement then (i + (tagText asc name as ws true).length, 0) else (i, (tagText asc name as ws true).length))
  /-- the end of the declarations of an element: at its end tag; behind it if that has gone to the default handler in pieces -/
  | endNs {name : List Buf} {sp : List UInt8} {p : Option Buf} : EndName x.e asc name → AllWS sp →
      Stands c D x asc i (endText asc name.flatten sp) (.endNs p)
        (if !c.endElement && c.dflt && !x.isUtf8 then (i + (endText asc name.flatten sp).length, 0)
          else (i, (endText asc name.flatten sp).length))
  | endNsEmpty {name : List Buf} {as : List AttrSrc} {ws : List UInt8} {p : Option Buf} :
      QName x.e asc name → (∀ a ∈ as, AttrSrc.Valid x.e asc a) → AllWS ws →
      Stands c D x asc i (tagText asc name as ws true) (.endNs p)
        (if c.startElement && c.endElement || !c.startElement && !c.endElement && c.dflt && !x.isUtf8 then
          (i + (tagText asc name as ws true).length, 0) else (i, (tagText asc name as ws true).length))
  | comment {ws : List Buf} : CommentOk x.e asc ws →
      Stands c D x asc i (commentText asc ws) (.comment (C14.lineEnds (converted x ws.flatten))) (i, (commentText asc ws).length)
  | pi {target : List Buf} {sp : List UInt8} {ws : List Buf} : PiOk x.e asc target sp ws →
      Stands c D x asc i (piText asc target sp ws) (.pi (cstr (converted x target.flatten)) (C14.lineEnds (converted x ws.flatten)))
        (i, (piText asc target sp ws).length)
  | startCdata : Stands c D x asc i (cdataOpen asc) .startCdata (i, (cdataOpen asc).length)
  | endCdata : Stands c D x asc i (spell asc [0x5D, 0x5D, 0x3E]) .endCdata (i, (spell asc [0x5D, 0x5D, 0x3E]).length)
  | ref {name : List Buf} {v : Ev} : x.e.Name name → ForRef c D (converted x name.flatten) v →
      Stands c D x asc i (entityText asc name.flatten) v (i, (entityText asc name.flatten).length)

section
variable {c : Cfg} {D : Dtd} {int x : XEnc} {asc : UInt8 → Buf}

theorem splitColon_some {b p l : Buf} (h : splitColon b = some (p, l)) : b = p ++ 0x3A :: l := by
  induction b generalizing p with
  | nil => cases h
  | cons d b ih =>
    rw [splitColon] at h
    split at h
    · rename_i hd; cases h; rw [hd]; rfl
    · cases hs : splitColon b with
      | none => simp [hs] at h
      | some q =>
        obtain ⟨q1, q2⟩ := q
        simp only [hs, Option.map_some, Option.some.injEq, Prod.mk.injEq] at h
        obtain ⟨rfl, rfl⟩ := h
        rw [ih hs]; rfl

theorem named {env : Env} {raw : Buf} {n : TagName} (h : elemName c env raw = .ok n) : Named c raw (n.full c) := by
  rw [elemName] at h
  split at h
  · cases h; exact .inl rfl
  · rename_i hns
    have hns : c.ns = true := by simpa using hns
    split at h
    · rename_i p l hs
      split at h
      · cases h
      · cases h; exact .inr ⟨hns, _, _, _, rfl, .inr ⟨p, splitColon_some hs⟩⟩
    · split at h
      · cases h; exact .inr ⟨hns, _, _, [], rfl, .inl rfl⟩
      · cases h; exact .inl rfl

theorem stored_named {opened flags env raw b E} {r : Stored} (h : storeAtts c D int x opened flags env raw b = (E, .ok r)) :
    Named c raw (r.name.full c) := by
  obtain ⟨_, _, _, _, _, _, _, _, h, _⟩ := C31.storeAtts_ok h
  exact named h

end

section
variable {c : Cfg} {D : Dtd} {int x : XEnc} {asc : UInt8 → Buf} (S : XSupported x asc)
include S

theorem comment_val {ws : List Buf} (h : CommentOk x.e asc ws) :
    reportComment c.al x Pool.new (commentText asc ws) = some (C14.lineEnds (converted x ws.flatten)) := by
  have := C14.comment_text c.al S new_inv rfl ws.flatten
  rwa [cstr_chars S h.chars] at this

theorem pi_val {target : List Buf} {sp : List UInt8} {ws : List Buf} (h : PiOk x.e asc target sp ws) :
    reportPI c.al x Pool.new (piText asc target sp ws) =
      some (cstr (converted x target.flatten), C14.lineEnds (converted x ws.flatten)) := by
  have := act_pi (D := default) (int := x) (k := 0) (opened := []) (start := 0) S
    (C64.full_all (c := { c with expandInternal := true }) rfl) CState.init h
  simp only [sem, semOf, act, C64.full, if_true] at this
  split at this
  · rename_i t d ht
    rw [ht]
    simpa using this
  · simp at this

theorem close_sound {b : Buf} {n : Nat} (hd : x.e.mb ∣ b.length) (h : cdataSectionTok x.e b = ⟨.CDATA_SECT_CLOSE, n⟩) :
    ∃ r, b = spell asc [0x5D, 0x5D, 0x3E] ++ r ∧ n = (spell asc [0x5D, 0x5D, 0x3E]).length := by
  have s := S.s
  have l (c) := s.asc.len c
  have hb : x.e.mb ≤ b.length := by
    rcases Nat.eq_zero_or_pos b.length with h5 | h5
    · rw [List.length_eq_zero_iff.1 h5] at h
      simp [cdataSectionTok] at h
    · exact Nat.le_of_dvd h5 hd
  rw [cdataSectionTok_eq hb, trunc_whole s hd, cdataTokBody] at h
  have lp : ∀ b p, cdataLoop x.e b p = ⟨.CDATA_SECT_CLOSE, n⟩ → False := by
    intro b p h
    have h5 := cdataLoop_tok x.e b p
    rw [h] at h5; cases h5
  split at h
  · rename_i h5; exact (not_fail rfl (invalidCases_fail h5) h).elim
  · exact (lp _ _ h).elim
  · split at h
    · rename_i h6
      have hs := single_split s (c := 0x5D) rfl hb h6
      split at h
      · exact (not_fail rfl (by simp [Tok.fail]) h).elim
      split at h
      · rename_i h7 h8
        have hs2 := mat_split s (by decide) (by omega) h8
        split at h
        · exact (not_fail rfl (by simp [Tok.fail]) h).elim
        split at h
        · exact (lp _ _ h).elim
        · rename_i h9 h10
          have h10 : x.e.charMatches (b.drop (2 * x.e.mb)) 0x3E = true := by simpa using h10
          have hs3 := mat_split s (by decide) (by omega) h10
          rw [Nat.two_mul, ← List.drop_drop] at hs3
          refine ⟨((b.drop x.e.mb).drop x.e.mb).drop x.e.mb, ?_, ?_⟩
          · simp only [spell, List.map_cons, List.map_nil, List.flatten_cons, List.flatten_nil, List.append_nil, List.append_assoc]
            rw [← hs3, ← hs2, ← hs]
          · cases h
            simp only [spell, List.map_cons, List.map_nil, List.flatten_cons, List.flatten_nil, List.append_nil, List.length_append, l]
            omega
      · exact (lp _ _ h).elim
    · split at h
      · cases h
      · split at h <;> cases h
    · cases h
    · exact (lp _ _ h).elim

/-- What the tokens of content are. -/
theorem met_markup {k : Nat} {opened : List Buf} {start : Nat} {b B : Buf} {s : CState} {t : Tok} {w r : Buf}
    (h : Met (sem c D int k x opened start) x.e b B s t w r) :
    Markup x.e asc t w ∨ t = .CDATA_SECT_CLOSE ∧ w = spell asc [0x5D, 0x5D, 0x3E] ∨
      t = .DATA_CHARS ∨ t = .DATA_NEWLINE ∨ t = .PROLOG_S := by
  have hd := h.whole
  have back : ∀ {t : Tok} {w r : Buf}, x.e.mb ∣ (w ++ r).length → t.isError = false → t ≠ .DATA_CHARS → t ≠ .DATA_NEWLINE →
      contentTok x.e (w ++ r) = ⟨t, w.length⟩ → Markup x.e asc t w := by
    intro t w r hd h1 h2 h3 h4
    obtain ⟨w', r', i1, i2, i3⟩ := content_sound S.s hd h1 h2 h3 h4
    rwa [(List.append_inj i2 i3).1]
  rcases h.tok with ⟨ht, hv⟩ | ht
  · obtain ⟨ex, he⟩ := sem_semOf c D int k x opened start
    rw [he] at ht hv
    have hmode : (semOf c D int x opened start ex).mode s = s.mode := rfl
    rw [hmode] at ht hv
    cases hm : s.mode with
    | content =>
      rw [hm] at ht hv
      by_cases h1 : t = .DATA_CHARS
      · exact .inr (.inr (.inl h1))
      · by_cases h2 : t = .DATA_NEWLINE
        · exact .inr (.inr (.inr (.inl h2)))
        · by_cases h3 : t.isError = true
          · exfalso
            have hk := Mode.kind .content x.e (w ++ r)
            rw [show Mode.tok .content = contentTok from rfl] at ht
            cases hk with
            | waits h => rcases h with h | h | ⟨c, h⟩ | ⟨c, h⟩ <;> rw [show Mode.tok .content = contentTok from rfl, ht] at h <;> simp [hv] at h
            | stable h h2 =>
              rw [show Mode.tok .content = contentTok from rfl, ht] at h2
              rcases h2 with ⟨_, h2, _⟩ | ⟨c, h2⟩
              · simp [h3] at h2
              · simp [hv] at h2
            | data hm h => rw [show Mode.tok .content = contentTok from rfl, ht] at h; exact h1 h
            | space hm h => cases hm
            | junk hm h => cases hm
          · exact .inl (back hd (by simpa using h3) h1 h2 ht)
    | cdata =>
      rw [hm] at ht hv
      by_cases h3 : t = .CDATA_SECT_CLOSE
      · subst h3
        obtain ⟨r', h1, h2⟩ := close_sound S hd ht
        exact .inr (.inl ⟨rfl, (List.append_inj h1 h2).1⟩)
      · have : t = .DATA_CHARS ∨ t = .DATA_NEWLINE := by
          unfold Mode.verdict at hv
          grind
        rcases this with h | h <;> simp [h]
    | epilog =>
      rw [hm] at ht hv
      have : t = .PROLOG_S ∨ t = .COMMENT ∨ t = .PI := by
        unfold Mode.verdict at hv
        grind
      rcases this with rfl | h
      · simp
      · have := (prolog_misc S.s hd h).1 ht
        exact .inl (back hd (by rcases h with rfl | rfl <;> rfl) (by rcases h with rfl | rfl <;> simp)
          (by rcases h with rfl | rfl <;> simp) this)
  · exact .inr (.inr ht)

/-! ### The calls for one token -/

omit S in
theorem put_ok {t : Tok} (ht : t ≠ .ENTITY_REF) (i : Nat) (w : Buf) (E : List Ev) :
    (places x).put true t i w E = placeTok (!x.isUtf8) (i, w.length) (i + w.length, 0) false E := by
  simp [places, ht]

omit S in
theorem put_err {t : Tok} (ht : t ≠ .ENTITY_REF) (i : Nat) (w : Buf) (E : List Ev) :
    (places x).put false t i w E = E.map fun v => ⟨if isData v || isEndNs v then none else some (i, w.length), v⟩ := by
  simp [places, ht]

omit S in
theorem put_data {ok : Bool} {t : Tok} {i : Nat} {w : Buf} {E : List Ev} (h : ∀ v ∈ E, isData v = true) {p : Placed}
    (hp : p ∈ (places x).put ok t i w E) : isData p.ev = true := by
  have : p.ev ∈ ((places x).put ok t i w E).map (·.ev) := List.mem_map_of_mem hp
  rw [places_lists] at this
  exact h _ this

omit S in
theorem default_data (w : Buf) : ∀ v ∈ toDefault c x w, isData v = true := by
  intro v hv
  obtain ⟨s, rfl⟩ := toDefault_events _ _ _ _ hv
  rfl

omit S in
theorem store_ns {opened flags env raw b} : ∀ v ∈ (storeAtts c D int x opened flags env raw b).1, isNs v = true := by
  intro v hv
  rw [isNs, storeAtts_events _ _ _ _ _ _ _ _ _ v hv]; rfl

omit S in
theorem free_ns {env bs} : ∀ v ∈ (freeBindings c env bs).1, isNs v = true := by
  intro v hv
  rw [isNs, freeBindings_events _ _ _ v hv]; simp

omit S in
theorem place_ns {conv : Bool} {a z : Nat × Nat} {st : Bool} {E : List Ev} (h : ∀ v ∈ E, isNs v = true) {p : Placed}
    (hp : p ∈ placeTok conv a z st E) : p.ev ∈ E ∧ p.pos = some a := by
  have := placeTok_ns (conv := conv) (z := z) h [] a st
  rw [List.append_nil] at this
  rw [this] at hp
  simp only [placeTok, List.append_nil] at hp
  obtain ⟨v, hv, rfl⟩ := List.mem_map.1 hp
  exact ⟨hv, rfl⟩

omit S in
theorem placeTok_some (conv : Bool) (z : Nat × Nat) (E : List Ev) : ∀ a st, ∀ p ∈ placeTok conv a z st E, isData p.ev = false →
    p.pos ≠ none := by
  induction E with
  | nil => intro a st p hp; cases hp
  | cons v E ih =>
    intro a st p hp hd
    cases v <;> cases st <;> simp only [placeTok, List.mem_cons] at hp <;> rcases hp with rfl | hp <;>
      first | exact ih _ _ p hp hd | (exfalso; simp [isData] at hd; done) | simp

omit S in
theorem put_place {ok : Bool} {t : Tok} {i : Nat} {w : Buf} {E : List Ev} {p : Placed} (hp : p ∈ (places x).put ok t i w E)
    (hd : isData p.ev = false) (hn : isEndNs p.ev = false) : p.pos ≠ none := by
  simp only [places] at hp
  split at hp
  · obtain ⟨v, hv, rfl⟩ := List.mem_map.1 hp
    simp only at hd ⊢
    simp [hd]
  · split at hp
    · exact placeTok_some _ _ _ _ _ p hp hd
    · obtain ⟨v, hv, rfl⟩ := List.mem_map.1 hp
      simp only at hd hn ⊢
      simp [hd, hn]

theorem stands_start {opened : List Buf} {s : CState} {name : List Buf} {as : List AttrSrc} {ws : List UInt8} {t : Tok}
    (hn : QName x.e asc name) (ha : ∀ a ∈ as, AttrSrc.Valid x.e asc a) (hw : AllWS ws) (ht : t ≠ .ENTITY_REF) {i : Nat} {p : Placed}
    (hp : p ∈ (places x).put (okOf (actStart c D int x opened s (tagText asc name as ws false))) t i (tagText asc name as ws false)
      (actStart c D int x opened s (tagText asc name as ws false)).1) (hd : isData p.ev = false) {q : Nat × Nat} (hq : p.pos = some q) :
    Stands c D x asc i (tagText asc name as ws false) p.ev q := by
  have hr := rawName_tag S hn ha hw false
  have hs := storeAtts_events c D int x opened s.flags s.env (converted x name.flatten) (tagText asc name as ws false)
  have hnm := fun E r h => stored_named (c := c) (D := D) (int := int) (x := x) (opened := opened) (flags := s.flags) (env := s.env)
    (raw := converted x name.flatten) (b := tagText asc name as ws false) (E := E) (r := r) h
  simp only [actStart, hr] at hp
  generalize storeAtts c D int x opened s.flags s.env (converted x name.flatten) (tagText asc name as ws false) = st at *
  generalize hW : tagText asc name as ws false = W at *
  obtain ⟨E, o⟩ := st
  have sns : ∀ v, isStartNs v = true → Stands c D x asc i W v (i, W.length) := by
    intro v hv
    cases v <;> simp [isStartNs] at hv
    rw [← hW]
    exact .startNs hn ha hw
  cases o with
  | error e =>
    obtain ⟨e, bs⟩ := e
    simp only [okOf, Except.isOk, Except.toBool, put_err ht] at hp
    obtain ⟨v, hv, rfl⟩ := List.mem_map.1 hp
    simp only at hq hd
    split at hq <;> cases hq
    exact sns v (hs v hv)
  | ok r =>
    simp only [okOf, Except.isOk, Except.toBool, put_ok ht] at hp
    rw [placeTok_ns (fun v hv => by rw [isNs, hs v hv]; rfl)] at hp
    rcases List.mem_append.1 hp with hp | hp
    · obtain ⟨v, hv, rfl⟩ := List.mem_map.1 hp
      cases hq
      exact sns v (hs v hv)
    · rw [orDefault] at hp
      split at hp
      · simp only [placeTok, List.mem_singleton] at hp
        subst hp
        cases hq
        rw [← hW]
        exact .start hn ha hw (hnm E r rfl)
      · have := put_data (ok := true) (t := .COMMENT) (i := i) (w := W) (default_data (c := c) (x := x) W) (p := p) (by rw [put_ok (by simp)]; exact hp)
        rw [hd] at this; cases this

theorem stands_empty {opened : List Buf} {s : CState} {name : List Buf} {as : List AttrSrc} {ws : List UInt8} {t : Tok}
    (hn : QName x.e asc name) (ha : ∀ a ∈ as, AttrSrc.Valid x.e asc a) (hw : AllWS ws) (ht : t ≠ .ENTITY_REF) {i : Nat} {p : Placed}
    (hp : p ∈ (places x).put (okOf (actEmpty c D int x opened s (tagText asc name as ws true))) t i (tagText asc name as ws true)
      (actEmpty c D int x opened s (tagText asc name as ws true)).1) (hd : isData p.ev = false) {q : Nat × Nat} (hq : p.pos = some q) :
    Stands c D x asc i (tagText asc name as ws true) p.ev q := by
  have hr := rawName_tag S hn ha hw true
  have hs := storeAtts_events c D int x opened s.flags s.env (converted x name.flatten) (tagText asc name as ws true)
  have hnm := fun E r h => stored_named (c := c) (D := D) (int := int) (x := x) (opened := opened) (flags := s.flags) (env := s.env)
    (raw := converted x name.flatten) (b := tagText asc name as ws true) (E := E) (r := r) h
  simp only [actEmpty, hr] at hp
  generalize storeAtts c D int x opened s.flags s.env (converted x name.flatten) (tagText asc name as ws true) = st at *
  generalize hW : tagText asc name as ws true = W at *
  obtain ⟨E, o⟩ := st
  have sns : ∀ v, isStartNs v = true → Stands c D x asc i W v (i, W.length) := by
    intro v hv
    cases v <;> simp [isStartNs] at hv
    rw [← hW]
    exact .startNs hn ha hw
  have ens : ∀ v, isEndNs v = true → Stands c D x asc i W v
      (if c.startElement && c.endElement || !c.startElement && !c.endElement && c.dflt && !x.isUtf8 then (i + W.length, 0)
        else (i, W.length)) := by
    intro v hv
    cases v <;> simp [isEndNs] at hv
    rw [← hW]
    exact .endNsEmpty hn ha hw
  cases o with
  | error e =>
    obtain ⟨e, bs⟩ := e
    simp only [okOf, Except.isOk, Except.toBool, put_err ht] at hp
    obtain ⟨v, hv, rfl⟩ := List.mem_map.1 hp
    simp only at hq hd
    split at hq <;> cases hq
    rename_i hne
    rcases List.mem_append.1 hv with hv | hv
    · exact sns v (hs v hv)
    · rw [freeBindings_events _ _ _ v hv] at hne
      simp at hne
  | ok r =>
    simp only [okOf, Except.isOk, Except.toBool, put_ok ht, List.append_assoc] at hp
    rw [placeTok_ns (fun v hv => by rw [isNs, hs v hv]; rfl)] at hp
    have fns := freeBindings_events c r.binds r.env
    have fns2 : ∀ v ∈ (freeBindings c r.env r.binds).1, isNs v = true := free_ns
    generalize (freeBindings c r.env r.binds).1 = F at *
    have hst : Stands c D x asc i W (.startElement (r.name.full c) r.atts r.specified r.idIndex) (i, W.length) := by
      rw [← hW]; exact .start hn ha hw (hnm E r rfl)
    have hen : Stands c D x asc i W (.endElement (r.name.full c)) (if c.startElement then (i + W.length, 0) else (i, W.length)) := by
      rw [← hW]; exact .endEmpty hn ha hw (hnm E r rfl)
    rcases List.mem_append.1 hp with hp | hp
    · obtain ⟨v, hv, rfl⟩ := List.mem_map.1 hp
      cases hq
      exact sns v (hs v hv)
    · cases h1 : c.startElement <;> cases h2 : c.endElement <;>
        simp only [h1, h2, Bool.false_eq_true, if_true, if_false, Bool.not_false, Bool.not_true, Bool.and_true, Bool.and_false, Bool.true_and,
          Bool.false_and, Bool.or_false, Bool.false_or, Bool.or_true, Bool.true_or, List.nil_append, List.cons_append] at hp ens hen
      · rw [placeTok_toDefault] at hp
        rcases List.mem_append.1 hp with hp | hp
        · obtain ⟨v, hv, rfl⟩ := List.mem_map.1 hp
          cases hq
        · obtain ⟨h3, h4⟩ := place_ns fns2 hp
          rw [h4] at hq; cases hq
          have := ens _ (fns _ h3)
          rwa [Bool.and_comm] at this
      · simp only [placeTok, List.mem_cons] at hp
        rcases hp with rfl | hp
        · cases hq; exact hen
        · obtain ⟨h3, h4⟩ := place_ns fns2 hp
          rw [h4] at hq; cases hq
          exact ens _ (fns _ h3)
      · simp only [placeTok, List.mem_cons] at hp
        rcases hp with rfl | hp
        · cases hq; exact hst
        · obtain ⟨h3, h4⟩ := place_ns fns2 hp
          rw [h4] at hq; cases hq
          exact ens _ (fns _ h3)
      · simp only [placeTok, List.mem_cons] at hp
        rcases hp with rfl | rfl | hp
        · cases hq; exact hst
        · cases hq; exact hen
        · obtain ⟨h3, h4⟩ := place_ns fns2 hp
          rw [h4] at hq; cases hq
          exact ens _ (fns _ h3)

omit S in
theorem stands_end {start : Nat} {s : CState} {name : List Buf} {sp : List UInt8}
    (hn : EndName x.e asc name) (hw : AllWS sp) {i : Nat} {p : Placed}
    (hp : p ∈ (places x).put (okOf (actEnd c x start s (endText asc name.flatten sp))) .END_TAG i (endText asc name.flatten sp)
      (actEnd c x start s (endText asc name.flatten sp)).1) (hd : isData p.ev = false) {q : Nat × Nat} (hq : p.pos = some q) :
    Stands c D x asc i (endText asc name.flatten sp) p.ev q := by
  generalize hW : endText asc name.flatten sp = W at *
  have none : ∀ e, p ∈ (places x).put (okOf (([], .error e) : List Ev × Except XErr CState)) .END_TAG i W [] → False := by
    intro e h
    simp [okOf, Except.isOk, Except.toBool, put_err] at h
  rw [actEnd] at hp
  split at hp
  · exact (none _ hp).elim
  · split at hp
    · exact (none _ hp).elim
    · rename_i tag tags _
      split at hp
      · exact (none _ hp).elim
      · simp only [okOf, Except.isOk, Except.toBool, put_ok (x := x) (t := .END_TAG) (by simp)] at hp
        have fns := freeBindings_events c tag.binds s.env
        have fns2 : ∀ v ∈ (freeBindings c s.env tag.binds).1, isNs v = true := free_ns
        generalize (freeBindings c s.env tag.binds).1 = F at *
        have ens : ∀ v, isEndNs v = true → Stands c D x asc i W v
            (if !c.endElement && c.dflt && !x.isUtf8 then (i + W.length, 0) else (i, W.length)) := by
          intro v hv
          cases v <;> simp [isEndNs] at hv
          rw [← hW]
          exact .endNs hn hw
        rw [orDefault] at hp
        cases h1 : c.endElement <;> simp only [h1, Bool.false_eq_true, if_true, if_false, Bool.not_false, Bool.not_true, Bool.true_and,
          Bool.false_and] at hp ens
        · rw [placeTok_toDefault] at hp
          rcases List.mem_append.1 hp with hp | hp
          · obtain ⟨v, hv, rfl⟩ := List.mem_map.1 hp
            cases hq
          · obtain ⟨h3, h4⟩ := place_ns fns2 hp
            rw [h4] at hq; cases hq
            have := ens _ (fns _ h3)
            rwa [Bool.and_comm] at this
        · simp only [List.cons_append, List.nil_append, placeTok, List.mem_cons] at hp
          rcases hp with rfl | hp
          · cases hq; rw [← hW]; exact .end_ hn hw
          · obtain ⟨h3, h4⟩ := place_ns fns2 hp
            rw [h4] at hq; cases hq
            exact ens _ (fns _ h3)

theorem stands_ref {opened : List Buf} {expand} {s : CState} {name : List Buf} (hn : x.e.Name name) {i : Nat} {p : Placed}
    (hp : p ∈ (places x).put (okOf (actEntityRef c D x opened expand s (entityText asc name.flatten))) .ENTITY_REF i
      (entityText asc name.flatten) (actEntityRef c D x opened expand s (entityText asc name.flatten)).1)
    (hd : isData p.ev = false) {q : Nat × Nat} (hq : p.pos = some q) :
    Stands c D x asc i (entityText asc name.flatten) p.ev q := by
  have hr : refName x.e (entityText asc name.flatten) = name.flatten := refName_text S
  simp only [places, if_true] at hp
  obtain ⟨v, hv, rfl⟩ := List.mem_map.1 hp
  simp only at hq hd ⊢
  rw [hd] at hq
  cases hq
  refine .ref hn ?_
  simp only [actEntityRef, hr] at hv
  have dat : ∀ {E : List Ev}, (∀ v ∈ E, isData v = true) → v ∈ E → False := by
    intro E h h2
    have := h v h2
    rw [hd] at this; cases this
  have ord : v ∈ orDefault c x c.skipped (.skippedEntity (converted x name.flatten) false) (entityText asc name.flatten) →
      ForRef c D (converted x name.flatten) v := by
    intro h
    rw [orDefault] at h
    split at h
    · exact .inl (by simpa using h)
    · exact (dat (default_data _) h).elim
  split at hv
  · exact (dat (toChars_events _ _ _ _) hv).elim
  · split at hv
    · split at hv
      · cases hv
      · exact ord hv
    · rename_i ent he
      split at hv
      · cases hv
      · split at hv
        · cases hv
        · split at hv
          · cases hv
          · split at hv
            · rename_i u hu
              split at hv
              · exact ord hv
              · rename_i hx
                exact .inr ⟨ent, he, .inr ⟨by simpa using hx, by simp [hu]⟩⟩
            · rename_i hu
              split at hv
              · simp only [List.mem_singleton] at hv
                exact .inr ⟨ent, he, .inl ⟨hu, hv⟩⟩
              · exact (dat (default_data _) hv).elim

theorem stands_token {k : Nat} {opened : List Buf} {start : Nat} {b B : Buf} {s : CState} {t : Tok} {w r : Buf}
    (h : Met (sem c D int k x opened start) x.e b B s t w r) {i : Nat} {p : Placed}
    (hp : p ∈ (places x).put (okOf ((sem c D int k x opened start).act s t w)) t i w ((sem c D int k x opened start).act s t w).1)
    (hd : isData p.ev = false) {q : Nat × Nat} (hq : p.pos = some q) : Stands c D x asc i w p.ev q := by
  have hm := met_markup S h
  obtain ⟨ex, he⟩ := sem_semOf c D int k x opened start
  rw [he] at hp
  simp only [semOf] at hp
  have dat : ∀ {ok : Bool} {E : List Ev}, (∀ v ∈ E, isData v = true) → p ∈ (places x).put ok t i w E → False := by
    intro ok E h h2
    have := put_data h h2
    rw [hd] at this; cases this
  have one : ∀ {set : Bool} {v : Ev} {s' : CState}, t ≠ .ENTITY_REF → placeTok (!x.isUtf8) (i, w.length) (i + w.length, 0) false [v] =
      [⟨some (i, w.length), v⟩] → Stands c D x asc i w v (i, w.length) →
      p ∈ (places x).put (okOf ((orDefault c x set v w, .ok s') : List Ev × Except XErr CState)) t i w (orDefault c x set v w) →
      Stands c D x asc i w p.ev q := by
    intro set v s' ht h1 h2 h3
    rw [orDefault] at h3
    split at h3
    · simp only [okOf, Except.isOk, Except.toBool, put_ok ht, h1, List.mem_singleton] at h3
      subst h3
      cases hq
      exact h2
    · exact (dat (default_data _) h3).elim
  rcases hm with hm | ⟨rfl, rfl⟩ | rfl | rfl | rfl
  · cases hm with
    | ref hr =>
      cases hr with
      | entity name hn => exact stands_ref S hn hp hd hq
      | dec ds h1 h2 =>
        simp only [act] at hp
        split at hp
        · exact (dat (by simp) hp).elim
        · exact (dat (toChars_events _ _ _ _) hp).elim
      | hex ds h1 h2 =>
        simp only [act] at hp
        split at hp
        · exact (dat (by simp) hp).elim
        · exact (dat (toChars_events _ _ _ _) hp).elim
    | tag empty hn ha hw =>
      cases empty
      · rename_i name as ws
        have : act c D int x opened start ex s (tagTok false as.isEmpty) (tagText asc name as ws false) =
            actStart c D int x opened s (tagText asc name as ws false) := by cases as <;> rfl
        rw [← tagText] at hp ⊢
        rw [this] at hp
        exact stands_start S hn ha hw (by cases as <;> simp [tagTok]) hp hd hq
      · rename_i name as ws
        have : act c D int x opened start ex s (tagTok true as.isEmpty) (tagText asc name as ws true) =
            actEmpty c D int x opened s (tagText asc name as ws true) := by cases as <;> rfl
        rw [← tagText] at hp ⊢
        rw [this] at hp
        exact stands_empty S hn ha hw (by cases as <;> simp [tagTok]) hp hd hq
    | endTag hn hw => exact stands_end hn hw hp hd hq
    | comment h1 h2 =>
      rename_i ws
      have hv := comment_val (c := c) S ⟨h1, h2⟩
      rw [← commentText] at hp one dat ⊢
      simp only [act, hv] at hp
      split at hp
      · simp only [okOf, Except.isOk, Except.toBool, put_ok (x := x) (t := .COMMENT) (by simp), placeTok, List.mem_singleton] at hp
        subst hp; cases hq
        exact .comment ⟨h1, h2⟩
      · exact (dat (default_data _) hp).elim
    | pi h1 h2 h3 =>
      rename_i target d
      rcases pi_tok h3 with rfl | rfl
      · obtain ⟨sp, ws, g1, g2⟩ := pi_of_markup S h1 h2 h3
        rw [g2] at hp dat ⊢
        simp only [act, pi_val (c := c) S g1] at hp
        split at hp
        · simp only [okOf, Except.isOk, Except.toBool, put_ok (x := x) (t := .PI) (by simp), placeTok, List.mem_singleton] at hp
          subst hp; cases hq
          exact .pi g1
        · exact (dat (default_data _) hp).elim
      · exact (dat (by simp [act]) hp).elim
    | cdata => exact one (by simp) rfl .startCdata hp
  · exact one (by simp) rfl .endCdata hp
  · exact (dat (toChars_events _ _ _ _) hp).elim
  · exact (dat (toChars_events _ _ _ _) hp).elim
  · exact (dat (default_data _) hp).elim

end

/-! ### Errors -/

/-- `Blamed x asc i w code j`: the error `code` is for the markup `w` that begins at the byte index `i`, and `j` is the byte index after it. -/
inductive Blamed (x : XEnc) (asc : UInt8 → Buf) (i : Nat) : Buf → XErr → Nat → Prop where
  /-- the name in the end tag -/
  | mismatch {name : List Buf} {sp : List UInt8} : EndName x.e asc name → AllWS sp →
      Blamed x asc i (endText asc name.flatten sp) .TAG_MISMATCH (i + (spell asc [0x3C, 0x2F]).length)
  /-- an end tag in an entity for an element begun outside of it -/
  | async {name : List Buf} {sp : List UInt8} : EndName x.e asc name → AllWS sp →
      Blamed x asc i (endText asc name.flatten sp) .ASYNC_ENTITY i
  | charRef {w : Buf} : Ref x.e asc .CHAR_REF w → Blamed x asc i (asc 0x26 ++ w) .BAD_CHAR_REF i
  | xmlDecl {target : List Buf} {d : Buf} : x.e.Name target → target.flatten = spell asc [0x78, 0x6D, 0x6C] →
      PiBody x.e asc d →
      Blamed x asc i (spell asc [0x3C, 0x3F] ++ (target.flatten ++ (d ++ spell asc [0x3F, 0x3E]))) .MISPLACED_XML_PI i
  /-- a reference, or something in the text of the entity -/
  | ref {name : List Buf} {code : XErr} : x.e.Name name → Blamed x asc i (entityText asc name.flatten) code i

theorem blamed_token {c : Cfg} {D : Dtd} {int x : XEnc} {asc : UInt8 → Buf} (S : XSupported x asc)
    {k : Nat} {opened : List Buf} {start : Nat} {b B : Buf} {s : CState} {t : Tok} {w r : Buf}
    (h : Met (sem c D int k x opened start) x.e b B s t w r) {i j : Nat} {code : XErr}
    (ha : ((sem c D int k x opened start).act s t w).2 = .error code) (hf : (places x).fault s t i w code = some j) :
    Blamed x asc i w code j ∨ code = .UNEXPECTED_STATE ∧ i ≤ j ∧ j ≤ i + w.length := by
  have hm := met_markup S h
  obtain ⟨ex, he⟩ := sem_semOf c D int k x opened start
  rw [he] at ha
  simp only [semOf] at ha
  have l := S.s.asc.len
  rcases hm with hm | ⟨rfl, rfl⟩ | rfl | rfl | rfl
  · cases hm with
    | ref hr =>
      cases hr with
      | entity name hn =>
        simp only [places] at hf
        cases hf
        exact .inl (.ref hn)
      | dec ds h1 h2 =>
        simp only [places] at hf
        cases hf
        simp only [act] at ha
        split at ha <;> cases ha
        exact .inl (.charRef (.dec ds h1 h2))
      | hex ds h1 h2 =>
        simp only [places] at hf
        cases hf
        simp only [act] at ha
        split at ha <;> cases ha
        exact .inl (.charRef (.hex ds h1 h2))
    | @tag name as ws empty hn hat hw =>
      exfalso
      cases empty <;> cases as <;> simp [places, tagTok] at hf
    | endTag hn hw =>
      rename_i name sp
      rw [← endText] at ha ⊢
      simp only [act, actEnd] at ha
      split at ha
      · cases ha
        simp [places] at hf
        subst hf
        exact .inl (.async hn hw)
      · split at ha
        · cases ha
          simp [places] at hf
          subst hf
          exact .inr ⟨rfl, by omega, by omega⟩
        · split at ha <;> cases ha
          simp [places] at hf
          subst hf
          have := Blamed.mismatch (x := x) (asc := asc) (i := i) hn hw
          simp only [spell, List.map_cons, List.map_nil, List.flatten_cons, List.flatten_nil, List.append_nil, List.length_append, l] at this
          rw [← Nat.two_mul] at this
          exact .inl this
    | comment h1 h2 =>
      have hv := comment_val (c := c) S ⟨h1, h2⟩
      rw [← commentText] at ha
      simp only [act, hv] at ha
      split at ha <;> cases ha
    | pi h1 h2 h3 =>
      rename_i target d
      rcases pi_tok h3 with rfl | rfl
      · obtain ⟨sp, ws, g1, g2⟩ := pi_of_markup S h1 h2 h3
        rw [g2] at ha
        simp only [act, pi_val (c := c) S g1] at ha
        split at ha <;> cases ha
      · simp only [act] at ha
        cases ha
        simp only [places] at hf
        cases hf
        exact .inl (.xmlDecl h1 ((C07.checkPiTarget_spec S.s _).1.1 h3) h2)
    | cdata => cases ha
  · cases ha
  · cases ha
  · cases ha
  · cases ha

/-! ### The property -/

section
variable {c : Cfg} {D : Dtd} {int x : XEnc} {asc : UInt8 → Buf}

/-- The handler calls, with byte index and byte count, while the content of a document is parsed: `before` bytes have gone before it and
`xs` are the pieces in which it is passed. -/
def located (c : Cfg) (D : Dtd) (int x : XEnc) (st : CState) (before : Nat) (xs : List Buf) : RanAt CState :=
  feedAt (parser c D int x) (places x) x.e before st [] xs

/-- The calls are those of the parser (of C04, C26, C53 and the other properties of content). -/
theorem calls (st : CState) (before : Nat) (xs : List Buf) :
    (located c D int x st before xs).ran = Verif.feed (parser c D int x) x.e st [] xs :=
  feedAt_ran (by intro s; obtain ⟨ex, he⟩ := sem_semOf c D int D.fuel x [] 0; rw [parser, he]; rfl) (places_lists x) xs before st []

/-- **C73, how the bytes are cut.**  Byte index and byte count of a call do not depend on how the bytes are cut into calls of XML_Parse. -/
theorem cut_free (S : XSupported x asc) (st : CState) (before : Nat) (xs : List Buf) (hd : x.e.mb ∣ xs.flatten.length) :
    SameAt (located c D int x st before xs) (located c D int x st before [xs.flatten]) := by
  have := feedAt_same (M := parser c D int x) (pl := places x) (sem_lawful S c D int _ _ _) (places_lists x) S.s.ok S.s.mb S.s.even xs
    before st [] (by simpa using hd)
  simpa [located, feedAt] using this

/-- **C73.**  The document being `pre` (up to the root element) and then the bytes passed: a call with a byte index and a byte count stands
there for markup of the document. -/
theorem stands (S : XSupported x asc) (st : CState) (pre : Buf) (xs : List Buf) (hd : x.e.mb ∣ xs.flatten.length)
    {p : Placed} (hp : p ∈ (located c D int x st pre.length xs).1) (hm : isData p.ev = false) {q : Nat × Nat} (hq : p.pos = some q) :
    ∃ a w r, pre ++ xs.flatten = a ++ w ++ r ∧ Stands c D x asc a.length w p.ev q := by
  have h1 := (cut_free (c := c) (D := D) (int := int) S st pre.length xs hd).1
  have h2 : p ∈ marks (located c D int x st pre.length xs).1 := by simp [marks, hp, hm]
  rw [h1] at h2
  have h3 : p ∈ (located c D int x st pre.length [xs.flatten]).1 := (List.mem_filter.1 h2).1
  rw [located, feedAt, List.nil_append] at h3
  obtain ⟨B, s', t, w, r, i1, i2⟩ := runAt_token S.s.mb S.s.even false _ _ rfl hd _ _ (by omega) p h3
  refine ⟨pre ++ B, w, r, ?_, ?_⟩
  · rw [i1.text]; simp
  · have := stands_token S i1 i2 hm hq
    rwa [Nat.add_sub_cancel, ← List.length_append] at this

/-- Every call other than for text has a byte index and a byte count, except that those reporting the end of namespace declarations may
not have one in this model. -/
theorem has_place (S : XSupported x asc) (st : CState) (before : Nat) (xs : List Buf) (hd : x.e.mb ∣ xs.flatten.length)
    {p : Placed} (hp : p ∈ (located c D int x st before xs).1) (hm : isData p.ev = false) (hn : isEndNs p.ev = false) : p.pos ≠ none := by
  have h1 := (cut_free (c := c) (D := D) (int := int) S st before xs hd).1
  have h2 : p ∈ marks (located c D int x st before xs).1 := by simp [marks, hp, hm]
  rw [h1] at h2
  have h3 : p ∈ (located c D int x st before [xs.flatten]).1 := (List.mem_filter.1 h2).1
  rw [located, feedAt, List.nil_append] at h3
  obtain ⟨B, s', t, w, r, i1, i2⟩ := runAt_token S.s.mb S.s.even false _ _ rfl hd _ _ (by omega) p h3
  exact put_place i2 hm hn

/-- **C73, order.**  The byte indices of the calls never decrease, and the places are within the bytes supplied. -/
theorem in_order (S : XSupported x asc) (st : CState) (before : Nat) (xs : List Buf) (hd : x.e.mb ∣ xs.flatten.length) :
    ((marks (located c D int x st before xs).1).Pairwise fun p q => ∀ a ∈ p.pos, ∀ b ∈ q.pos, a.1 ≤ b.1) ∧
    ∀ p ∈ marks (located c D int x st before xs).1, ∀ q ∈ p.pos, before ≤ q.1 ∧ q.1 + q.2 ≤ before + xs.flatten.length := by
  rw [(cut_free (c := c) (D := D) (int := int) S st before xs hd).1, located, feedAt, List.nil_append]
  have := runAt_order (M := parser c D int x) (e := x.e) (places_within x) false _ xs.flatten rfl (before + xs.flatten.length) st
    (by omega)
  refine ⟨this.2.filter _, fun p hp q hq => ?_⟩
  have := this.1 p (List.mem_filter.1 hp).1 q hq
  omega

/-- Errors that are not those of a particular piece of markup: what follows is no markup, or the bytes end too early. -/
def Lexical (code : XErr) : Prop :=
  code = .INVALID_TOKEN ∨ code = .UNCLOSED_TOKEN ∨ code = .PARTIAL_CHAR ∨ code = .UNCLOSED_CDATA_SECTION ∨ code = .UNEXPECTED_STATE ∨
  code = .JUNK_AFTER_DOC_ELEMENT ∨ code = .NO_ELEMENTS

/-- **C73, errors.**  The content passed in one call: after an error the byte index is that of the markup at fault (for a tag mismatch, of
the name in the end tag); or there is no markup at fault, and the byte index is within the bytes passed.  (Errors in the attributes of a
tag have no byte index in this model.) -/
theorem error_stands (S : XSupported x asc) (st : CState) (pre b : Buf) (hd : x.e.mb ∣ b.length) {code : XErr} {j : Nat}
    (h : (located c D int x st pre.length [b]).2 = .err code (some j)) :
    (∃ a w r, pre ++ b = a ++ w ++ r ∧ Blamed x asc a.length w code j) ∨
      Lexical code ∧ pre.length ≤ j ∧ j ≤ pre.length + b.length := by
  rw [located, feedAt, List.nil_append] at h
  rcases runAt_fault S.s.mb S.s.even false _ b rfl hd (pre.length + b.length) st (by omega) h with
    ⟨B, s', t, w, r, h1, h2, h3⟩ | ⟨h1, h2, h3⟩
  · rw [Nat.add_sub_cancel] at h3
    have hlen := congrArg List.length h1.text
    simp only [List.length_append] at hlen
    rcases blamed_token S h1 h2 h3 with g | ⟨rfl, g1, g2⟩
    · refine .inl ⟨pre ++ B, w, r, by rw [h1.text]; simp, ?_⟩
      rwa [List.length_append]
    · refine .inr ⟨by simp [Lexical], by omega, by omega⟩
  · refine .inr ⟨?_, by omega, h3⟩
    rcases h1 with ⟨m, t, h1 | h1⟩ | ⟨s', h1⟩
    · revert h1
      cases m <;> cases t <;> simp only [Mode.verdict, reduceCtorEq, Verdict.wait.injEq, false_imp_iff] <;> rintro rfl <;> simp [Lexical]
    · revert h1
      cases m <;> cases t <;> simp only [Mode.verdict, reduceCtorEq, Verdict.fail.injEq, false_imp_iff] <;> rintro rfl <;> simp [Lexical]
    · obtain ⟨ex, he⟩ := sem_semOf c D int D.fuel x [] 0
      rw [parser, he] at h1
      simp [semOf] at h1
      simp [Lexical, ← h1]

end

/-! Non-vacuity: `<a>x<b/><!--c--></a>` after a prolog of ten bytes, cut within the tag `<b/>` and within the comment. -/

def exCfg : Cfg := {}

example : marks (located exCfg default (internalUtf8X false) (utf8X false) CState.init 10
      ["<a>x<b".toUTF8.toList, "/><!--".toUTF8.toList, "c--></a>".toUTF8.toList]).1 =
    [⟨some (10, 3), .startElement [0x61] [] 0 none⟩, ⟨some (14, 4), .startElement [0x62] [] 0 none⟩, ⟨some (18, 0), .endElement [0x62]⟩,
      ⟨some (18, 8), .comment [0x63]⟩, ⟨some (26, 4), .endElement [0x61]⟩] := by
  decide +kernel

/-- The property for the comment of this document. -/
example : ∃ a w r, "<!DOCTYPE>".toUTF8.toList ++ ["<a>x<b".toUTF8.toList, "/><!--".toUTF8.toList, "c--></a>".toUTF8.toList].flatten = a ++ w ++ r ∧
    Stands exCfg default (utf8X false) asc1 a.length w (.comment [0x63]) (18, 8) :=
  stands (int := internalUtf8X false) (.utf8 false) CState.init "<!DOCTYPE>".toUTF8.toList _ (Nat.one_dvd _)
    (p := ⟨some (18, 8), .comment [0x63]⟩) (by decide +kernel) rfl rfl

/-- Of an empty-element tag whose start is not reported the end has the place of the tag. -/
example : marks (located { exCfg with startElement := false } default (internalUtf8X false) (utf8X false) CState.init 0
      ["<a><b/></a>".toUTF8.toList]).1 = [⟨some (3, 4), .endElement [0x62]⟩, ⟨some (7, 4), .endElement [0x61]⟩] := by
  decide +kernel

/-- A tag mismatch: the byte index is that of the name in the end tag. -/
example : (match (located exCfg default (internalUtf8X false) (utf8X false) CState.init 0 ["<a></b>".toUTF8.toList]).2 with
    | .err code i => some (code, i)
    | _ => none) = some (.TAG_MISMATCH, some 5) := by
  decide +kernel

end Verif.C73
