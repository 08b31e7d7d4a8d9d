import Verif.EventText
import Verif.Props.C61

/-! C62: the texts that reach a handler consist of legal characters in well-formed UTF-8. -/

set_option autoImplicit false

namespace Verif.C62
open C43 C53 C61 Spec Verif

/-- The texts of a handler call are UTF-8 strings of XML characters: character data, comments, the data of processing
instructions, attribute values.  (Names are not: C52.) -/
def Legal : Ev → Prop
  | .chars s => LegalText s
  | .comment s => LegalText s
  | .pi _ d => LegalText d
  | .startElement _ as _ _ => ∀ p ∈ as, LegalText p.2
  | _ => True

/-- The text `w` with which the branch for the token `t` is entered, at the bytes `b`. -/
def Entered (m : Mode) (e : Enc) (b : Buf) (t : Tok) (w : Buf) : Prop :=
  (m.verdict t = .act ∧ ∃ n, m.tok e b = ⟨t, n⟩ ∧ w = b.take n) ∨
  (∃ n u, m.tok e b = ⟨u, n⟩ ∧ m.verdict u = .last t ∧ w = b) ∨ t = .PROLOG_S

/-- A trailing part of a code unit changes nothing. -/
theorem trunc_tok {e : Enc} (m : Mode) {b : Buf} {t : Tok} {n : Nat} (h : m.tok e b = ⟨t, n⟩) (h1 : t ≠ .NONE) (h2 : t ≠ .PARTIAL) :
    m.tok e (truncBuf e b) = ⟨t, n⟩ ∧ b.take n = (truncBuf e b).take n ∧ e.mb ∣ (truncBuf e b).length := by
  have hb := tok_long (e := e) (m := m) (b := b) h h1 h2
  have hl := truncBuf_len hb
  have hdv : e.mb ∣ (truncBuf e b).length := by
    rw [truncBuf, List.length_take, Nat.min_eq_left (by omega)]
    exact Nat.dvd_sub_mod _
  have ht : truncBuf e (truncBuf e b) = truncBuf e b := by
    have := truncBuf_dvd e (truncBuf e b) [] hdv
    rw [List.append_nil] at this
    rw [this]
    simp [truncBuf]
  have hm : m.tok e (truncBuf e b) = m.tok e b := by
    cases m <;> simp only [Mode.tok]
    · rw [contentTok_eq hb, contentTok_eq hl, ht]
    · rw [cdataSectionTok_eq hb, cdataSectionTok_eq hl, ht]
    · rw [prologTok_eq hb, prologTok_eq hl, ht]
  refine ⟨hm.trans h, ?_, hdv⟩
  have hn : n ≤ (truncBuf e b).length := by
    have : (m.tok e (truncBuf e b)).next ≤ (truncBuf e b).length := by
      rw [m.tok_eq]; exact C02.next_in_buffer _ e _
    rwa [hm, h] at this
  obtain ⟨y, hy⟩ := truncBuf_prefix e b
  conv => lhs; rw [hy]
  rw [List.take_append_of_le_length hn]

theorem run_events {σ : Type} {M : Sem σ} {P : Ev → Prop} {e : Enc} (hm : e.mb ≤ 2) (ev : e.Even)
    (H : ∀ s b t w, e.mb ∣ b.length → Entered (M.mode s) e b t w → ∀ v ∈ (M.act s t w).1, P v) (n : Nat) :
    ∀ (more via : Bool) (s : σ) (b : Buf), b.length = n → more = true ∨ e.mb ∣ b.length → ∀ v ∈ (run M e more via s b).1, P v := by
  induction n using Nat.strongRecOn with
  | _ n ih =>
    intro more via s b hn hd v hv
    have hH := H s b
    have hnx : ((M.mode s).tok e b).next ≤ b.length := by
      rw [(M.mode s).tok_eq]; exact C02.next_in_buffer _ e b
    have hdn := (M.mode s).tok_dvd hm ev b
    rw [run.eq_def] at hv
    simp only at hv
    generalize hr : (M.mode s).tok e b = r at *
    obtain ⟨t, k⟩ := r
    simp only at hv hnx hdn
    cases hverd : (M.mode s).verdict t with
    | wait c => rw [hverd] at hv; simp only at hv; split at hv <;> simp at hv
    | last u =>
      rw [hverd] at hv
      simp only at hv
      split at hv
      · simp at hv
      · rename_i hmore
        have := hH u b (by rcases hd with hd | hd; exact absurd hd hmore; exact hd) (.inr (.inl ⟨k, t, hr, hverd, rfl⟩))
        split at hv <;> rename_i E _ ha <;> rw [ha] at this <;> exact this v hv
    | done => rw [hverd] at hv; simp only at hv; split at hv <;> simp at hv
    | stop => rw [hverd] at hv; simp at hv
    | fail c => rw [hverd] at hv; simp at hv
    | actStop =>
      rw [hverd] at hv
      simp only at hv
      have := H s [] .PROLOG_S (b.take k) (Nat.dvd_zero _) (.inr (.inr rfl))
      split at hv <;> rename_i E _ ha <;> rw [ha] at this <;> exact this v hv
    | act =>
      rw [hverd] at hv
      simp only at hv
      have hne : t ≠ .NONE ∧ t ≠ .PARTIAL := by
        constructor <;> rintro rfl <;> revert hverd <;> cases M.mode s <;> simp [Mode.verdict]
      obtain ⟨g1, g2, g3⟩ := trunc_tok (M.mode s) hr hne.1 hne.2
      have := H s (truncBuf e b) t (b.take k) g3 (.inl ⟨hverd, k, g1, g2⟩)
      split at hv
      · rename_i E _ ha
        rw [ha] at this; exact this v hv
      · rename_i E s' ha
        rw [ha] at this
        split at hv
        · split at hv
          · rename_i hlt
            rw [pre] at hv
            rcases List.mem_append.1 hv with hv | hv
            · exact this v hv
            · refine ih _ (by omega) _ _ _ _ rfl ?_ v hv
              rcases hd with hd | hd
              · exact .inl hd
              · right
                rw [List.length_drop]
                exact (Nat.dvd_sub_iff_left hnx hdn).2 hd
          · exact this v hv
        · split at hv <;> exact this v hv

section
variable {c : Cfg} {D : Dtd} {ns : Bool} {x : XEnc} {asc : UInt8 → Buf} {opened : List Buf} {start : Nat}
  {expand : Buf → Buf → CState → List Ev × Except XErr CState}

theorem default_all (b : Buf) : ∀ v ∈ toDefault c x b, Legal v := by
  intro v hv
  obtain ⟨_, rfl⟩ := toDefault_events c x b v hv
  trivial

theorem chars_all {ps : List Buf} (h : ∀ p ∈ ps, LegalText p) (b : Buf) : ∀ v ∈ toChars c x ps b, Legal v := by
  intro v hv
  rw [toChars] at hv
  split at hv
  · obtain ⟨p, hp, rfl⟩ := List.mem_map.1 hv
    exact h p hp
  · exact default_all b v hv

theorem or_all {set : Bool} {w : Ev} (h : Legal w) (b : Buf) : ∀ v ∈ orDefault c x set w b, Legal v := by
  intro v hv
  rw [orDefault] at hv
  split at hv
  · rw [List.mem_singleton.1 hv]; exact h
  · exact default_all b v hv

theorem predefined_legal (e : Enc) (b : Buf) (h : predefinedEntityName e b ≠ 0) : LegalText [predefinedEntityName e b] := by
  have : predefinedEntityName e b ∈ ([0x3C, 0x3E, 0x26, 0x22, 0x27] : List UInt8) := by
    revert h
    rw [predefinedEntityName]
    simp only
    (repeat' split) <;> simp
  generalize predefinedEntityName e b = d at *
  simp only [List.mem_cons, List.not_mem_nil, or_false] at this
  rcases this with rfl | rfl | rfl | rfl | rfl <;> exact legal_byte (by decide) (by decide)

theorem isStartNs_legal {v : Ev} (h : isStartNs v = true) : Legal v := by cases v <;> first | trivial | cases h

variable (S : XSupported x asc) (hD : C33.TextsOk D (internalUtf8X ns)) (hd : DefaultsOk D)
include S hD hd

theorem tag_legal {empty : Bool} {s : CState} {name : List Buf} (hn : QName x.e asc name) {as : List AttrSrc}
    (ha : ∀ a ∈ as, AttrSrc.Valid x.e asc a) {ws : List UInt8} (hw : AllWS ws) :
    (∀ v ∈ (actStart c D (internalUtf8X ns) x opened s (asc 0x3C ++ (name.flatten ++ (attsText asc as ++ closeText asc ws empty)))).1, Legal v) ∧
    ∀ v ∈ (actEmpty c D (internalUtf8X ns) x opened s (asc 0x3C ++ (name.flatten ++ (attsText asc as ++ closeText asc ws empty)))).1, Legal v := by
  have key := fun raw E t => stored_legal (c := c) (flags := s.flags) (env := s.env) (raw := raw) (op := opened) S hD hd hn ha hw empty (E := E) (t := t)
  generalize asc 0x3C ++ (name.flatten ++ (attsText asc as ++ closeText asc ws empty)) = b at *
  have evs := fun raw => storeAtts_events c D (internalUtf8X ns) x opened s.flags s.env raw b
  have fr := fun bs v => freeBindings_events c bs v
  constructor
  · intro v hv
    have e1 := evs (converted x (rawName x x.e.mb b))
    rw [actStart] at hv
    split at hv <;> rename_i h1 <;> rw [h1] at e1
    · exact isStartNs_legal (e1 v hv)
    · rcases List.mem_append.1 hv with hv | hv
      · exact isStartNs_legal (e1 v hv)
      · exact or_all (w := .startElement _ _ _ _) (key _ _ _ h1) b v hv
  · intro v hv
    have e1 := evs (converted x (rawName x x.e.mb b))
    rw [actEmpty] at hv
    simp only at hv
    have hf : ∀ e bs, ∀ v ∈ (freeBindings c e bs).1, Legal v := by
      intro e bs v hv
      have := fr bs e v hv
      cases v <;> first | trivial | cases this
    split at hv <;> rename_i h1 <;> rw [h1] at e1
    · rcases List.mem_append.1 hv with hv | hv
      · exact isStartNs_legal (e1 v hv)
      · exact hf _ _ v hv
    · simp only [List.mem_append] at hv
      rcases hv with (((hv | hv) | hv) | hv) | hv
      · exact isStartNs_legal (e1 v hv)
      · split at hv
        · rw [List.mem_singleton.1 hv]; exact key _ _ _ h1
        · simp at hv
      · split at hv
        · rw [List.mem_singleton.1 hv]; trivial
        · simp at hv
      · split at hv
        · exact default_all b v hv
        · simp at hv
      · exact hf _ _ v hv

omit hD hd in
/-- What the branches are entered with. -/
theorem entered_text {s : CState} {b w : Buf} {t : Tok} (hb : x.e.mb ∣ b.length)
    (h : Entered s.mode x.e b t w) : (∃ m, Markup x.e asc t m ∧ w = m) ∨ (t = .DATA_CHARS ∧ ∃ ws, x.e.Chars ws ∧ w = ws.flatten) ∨
      t = .DATA_NEWLINE ∨ t = .CDATA_SECT_CLOSE ∨ t = .PROLOG_S:= by
  rcases h with ⟨hv, n, ht, rfl⟩ | ⟨n, u, ht, hv, rfl⟩ | rfl
  · cases hm : s.mode with
    | content =>
      rw [hm] at hv ht
      by_cases h1 : t = .DATA_CHARS
      · subst h1; exact .inr (.inl ⟨rfl, content_data S.s ht⟩)
      by_cases h2 : t = .DATA_NEWLINE
      · exact .inr (.inr (.inl h2))
      have he : t.isError = false := by
        have := contentTok_tok x.e b
        rw [show contentTok x.e b = ⟨t, n⟩ from ht] at this
        cases t <;> simp [Tok.fail, Tok.markup, Mode.verdict] at this hv <;> rfl
      obtain ⟨m, r, g1, g2, g3⟩ := content_sound S.s hb he h1 h2 ht
      exact .inl ⟨m, g1, by rw [g2, g3, List.take_left' rfl]⟩
    | cdata =>
      rw [hm] at hv ht
      cases t <;> simp [Mode.verdict] at hv
      · exact .inr (.inl ⟨rfl, cdata_data S.s hb ht⟩)
      · exact .inr (.inr (.inl rfl))
      · exact .inr (.inr (.inr (.inl rfl)))
    | epilog =>
      rw [hm] at hv ht
      have hx : t = .PROLOG_S ∨ t = .PI ∨ t = .COMMENT := by
        cases t <;> simp [Mode.verdict] at hv <;> simp
      by_cases h3 : t = .PROLOG_S
      · exact .inr (.inr (.inr (.inr h3)))
      have h4 : t = .PI ∨ t = .COMMENT := by simpa [h3] using hx
      obtain ⟨m, r, g1, g2, g3⟩ := lex_sound S.s hb (by rcases h4 with rfl | rfl <;> rfl) ht
      refine .inl ⟨m, ?_, by rw [g2, g3, List.take_left' rfl]⟩
      clear g2 g3 ht hv hx h3
      rcases h4 with rfl | rfl <;> cases g1 <;> first
        | assumption
        | (rename_i hc; revert hc; simp [nameOps, charToks, parenOps]; done)
  · obtain ⟨hm, -⟩ := verdict_last hv
    rw [hm] at hv ht
    cases u <;> simp [Mode.verdict] at hv <;> subst hv
    · exact .inr (.inl ⟨rfl, trailing_data S.s hb ht⟩)
    · exact .inr (.inr (.inl rfl))
  · simp

theorem act_legal (hE : ∀ n t s, ∀ v ∈ (expand n t s).1, Legal v) {s : CState} {b w : Buf} {t : Tok} (hb : x.e.mb ∣ b.length)
    (h : Entered s.mode x.e b t w) : ∀ v ∈ (act c D (internalUtf8X ns) x opened start expand s t w).1, Legal v := by
  have hw := entered_text S hb h
  clear h
  rcases hw with ⟨m, hm, rfl⟩ | ⟨rfl, ws, h1, rfl⟩ | rfl | rfl | rfl
  · cases hm with
    | @ref _ w h =>
      by_cases hc : t = .CHAR_REF
      · subst hc
        obtain ⟨n, hn⟩ := charRef_of h
        have hv := charRef_value S hn
        simp only [act]
        split
        · intro v hv; simp at hv
        · rename_i h0
          refine chars_all ?_ _
          intro p hp
          rw [List.mem_singleton.1 hp, hv]
          rw [hv] at h0
          split
          · rename_i hx
            rw [C11.encode_spec n (xmlChar_lt hx)]; exact .one hx
          · rename_i hx
            rw [if_neg hx] at h0; exact absurd (by decide) h0
      · have ht : t = .ENTITY_REF := by cases h <;> first | rfl | exact absurd rfl hc
        subst ht
        generalize asc 0x26 ++ w = w
        simp only [act]
        intro v hv
        rw [actEntityRef] at hv
        simp only at hv
        split at hv
        · rename_i hne
          exact chars_all (by intro p hp; rw [List.mem_singleton.1 hp]; exact predefined_legal _ _ hne) _ v hv
        · split at hv
          · split at hv
            · simp at hv
            · exact or_all (w := .skippedEntity _ _) trivial _ v hv
          · split at hv
            · simp at hv
            · split at hv
              · simp at hv
              · split at hv
                · simp at hv
                · split at hv
                  · split at hv
                    · exact or_all (w := .skippedEntity _ _) trivial _ v hv
                    · exact hE _ _ _ v hv
                  · split at hv
                    · rw [List.mem_singleton.1 hv]; trivial
                    · exact default_all _ v hv
    | tag empty h1 h2 h3 =>
      have := tag_legal (c := c) (opened := opened) (s := s) (empty := empty) S hD hd h1 h2 h3
      rename_i as _
      cases empty <;> cases as <;> first | exact this.1 | exact this.2
    | endTag =>
      simp only [act]
      intro v hv
      rw [actEnd] at hv
      split at hv
      · simp at hv
      · split at hv
        · simp at hv
        · split at hv
          · simp at hv
          · rcases List.mem_append.1 hv with hv | hv
            · exact or_all (w := .endElement _) trivial _ v hv
            · have := freeBindings_events c _ _ v hv
              cases v <;> first | trivial | cases this
    | @comment ws h1 h2 =>
      simp only [act]
      split
      · have := C14.comment_text c.al S new_inv rfl ws.flatten
        rw [cstr_chars S h1] at this
        rw [this]
        intro v hv
        rw [List.mem_singleton.1 hv]
        exact legal_lineEnds _ [] (conv_legals S h1)
      · exact default_all _
    | @pi target d t h1 h2 h3 =>
      rcases pi_tok h3 with rfl | rfl
      · obtain ⟨sp, us, g1, g2⟩ := pi_of_markup S h1 h2 h3
        rw [g2]
        have := act_pi (c := { al := c.al }) (D := D) (int := x) (k := 0) (opened := []) (start := 0) S
          ⟨rfl, rfl, rfl, rfl, rfl, rfl, rfl, rfl, rfl, rfl, rfl, rfl, rfl⟩ s g1
        simp only [sem, semOf, act, if_true] at this
        simp only [act]
        generalize reportPI c.al x Pool.new (piText asc target sp us) = o at this
        cases o with
        | none => cases this
        | some o =>
          obtain ⟨o1, o2⟩ := o
          simp only [Prod.mk.injEq, List.cons.injEq, Ev.pi.injEq, and_true] at this
          obtain ⟨rfl, rfl⟩ := this
          split
          · intro v hv
            rw [List.mem_singleton.1 hv]
            exact legal_lineEnds _ [] (conv_legals S g1.chars)
          · exact default_all _
      · intro v hv; simp [act] at hv
    | cdata => exact or_all (w := .startCdata) trivial _
  · exact chars_all (pieces_legal S h1) _
  · exact chars_all (by intro p hp; rw [List.mem_singleton.1 hp]; exact legal_byte (by decide) (by decide)) _
  · exact or_all (w := .endCdata) trivial _
  · exact default_all _

omit S in
/-- At any depth of entities. -/
theorem sem_legal (k : Nat) : ∀ {x : XEnc} {asc : UInt8 → Buf}, XSupported x asc → ∀ (opened : List Buf) (start : Nat) (more via : Bool) (s : CState) (b : Buf),
    more = true ∨ x.e.mb ∣ b.length → ∀ v ∈ (run (sem c D (internalUtf8X ns) k x opened start) x.e more via s b).1, Legal v := by
  induction k with
  | zero =>
    intro x asc S opened start more via s b hb
    refine run_events S.s.mb S.s.even ?_ _ more via s b rfl hb
    intro s b t w hd' h
    exact act_legal S hD hd (fun _ _ _ v hv => by simp at hv) hd' h
  | succ k ih =>
    intro x asc S opened start more via s b hb
    refine run_events S.s.mb S.s.even ?_ _ more via s b rfl hb
    intro s b t w hd' h
    refine act_legal S hD hd (fun n t s v hv => ?_) hd' h
    have := ih (XSupported.internalUtf8 ns) (n :: opened) s.level false false s t (.inr (Nat.one_dvd _)) v
    rw [Ran.toAct.eq_def] at hv
    split at hv <;> rename_i hr <;> rw [hr] at this <;> exact this hv

end

/-- **C62.**  Whatever bytes are parsed as the content of a document, in whatever pieces and whether or not they are
accepted, every string of character data, every comment, the data of every processing instruction and every attribute
value that a handler is given is the UTF-8 form of XML characters.  `hD`, `hd`: the replacement texts and the default
values from the document type declaration are (`prolog_legal`); the bytes are whole code units. -/
theorem reported_legal {c : Cfg} {D : Dtd} {ns : Bool} {x : XEnc} {asc : UInt8 → Buf} (S : XSupported x asc)
    (hD : C33.TextsOk D (internalUtf8X ns)) (hd : DefaultsOk D) (chunks : List Buf) : ∀ (s : CState) (rest : Buf),
    x.e.mb ∣ (rest ++ chunks.flatten).length →
    ∀ v ∈ (Verif.feed (parser c D (internalUtf8X ns) x) x.e s rest chunks).1, Legal v := by
  have go : ∀ s, (parser c D (internalUtf8X ns) x).stop s = .go := fun s => sem_go s
  have R := fun more via s b h => sem_legal (c := c) hD hd D.fuel S [] 0 more via s b h
  induction chunks with
  | nil =>
    intro s rest hl
    exact R _ _ _ _ (.inr (by simpa using hl))
  | cons ch chunks ih =>
    intro s rest hl
    cases chunks with
    | nil => exact R _ _ _ _ (.inr (by simpa using hl))
    | cons ch2 chunks =>
      rw [Verif.feed]
      · have h1 := R true ((parser c D (internalUtf8X ns) x).mode s == .cdata) s (rest ++ ch) (.inl rfl)
        split
        · rename_i E s' r hr
          rw [call] at hr
          have h1' : ∀ v ∈ E, Legal v := by
            intro v hv
            refine h1 v ?_
            change v ∈ (run (parser c D (internalUtf8X ns) x) x.e true _ s (rest ++ ch)).1
            rw [hr]; exact hv
          rw [C04.run_via go true _ _ rfl] at hr
          obtain ⟨k, hk, hkl, rfl⟩ := C04.rest_dvd go S.s.mb S.s.even _ _ rfl _ _ _ _ hr
          intro v hv
          rw [pre] at hv
          rcases List.mem_append.1 hv with hv | hv
          · exact h1' v hv
          · refine ih s' _ ?_ v hv
            exact C04.dvd_drop hkl (by simpa using hl) hk
        · rename_i E c' hr
          rw [call] at hr
          intro v hv
          refine h1 v ?_
          change v ∈ (run (parser c D (internalUtf8X ns) x) x.e true _ s (rest ++ ch)).1
          rw [hr]; exact hv
      · simp

/-! ### Prologs -/

/-- The same for the handler calls of the prolog: comments, processing instructions, entity values, default values,
public and system identifiers. -/
def LegalDecl : PEv → Prop
  | .ev v => Legal v
  | .startDoctype _ sys pub _ => (∀ t ∈ sys, LegalText t) ∧ ∀ t ∈ pub, LegalText t
  | .entityDecl _ _ value _ sys pub _ => (∀ t ∈ value, LegalText t) ∧ (∀ t ∈ sys, LegalText t) ∧ ∀ t ∈ pub, LegalText t
  | .unparsed _ _ sys pub _ => (∀ t ∈ sys, LegalText t) ∧ ∀ t ∈ pub, LegalText t
  | .notationDecl _ _ sys pub => (∀ t ∈ sys, LegalText t) ∧ ∀ t ∈ pub, LegalText t
  | .attlistDecl _ _ _ dflt _ => ∀ t ∈ dflt, LegalText t
  | _ => True

def LegalSaid : C59.Said → Prop
  | .call v => LegalDecl v
  | .model _ _ => True

open C59 C60

theorem says_legal {A : List Said} {E : List PEv} (h : Says A E) (hA : ∀ a ∈ A, LegalSaid a) : ∀ v ∈ E, LegalDecl v := by
  induction h with
  | nil => intro v hv; cases hv
  | @cons a v _ _ h1 _ ih =>
    intro u hu
    rcases List.mem_cons.1 hu with rfl | hu
    · have := hA a (by simp)
      cases a with
      | call w => rw [show u = w from h1]; exact this
      | model n m =>
        obtain ⟨b, rfl, -⟩ := h1
        trivial
    · exact ih (fun a ha => hA a (by simp [ha])) u hu

section
variable {k : Ctx} {D D' : DTab} {w : Buf} {A : List Said} {E : List PEv} {ns : Bool}

theorem calls_legal (h : ∀ v ∈ E, LegalDecl v) : ∀ a ∈ calls E, LegalSaid a := by
  intro a ha
  rw [calls] at ha
  obtain ⟨v, hv, rfl⟩ := List.mem_map.1 ha
  exact h v hv

theorem if_legal {b : Bool} {v : PEv} (h : LegalDecl v) : ∀ u ∈ (if b then [v] else []), LegalDecl u := by
  intro u hu
  split at hu
  · rw [List.mem_singleton.1 hu]; exact h
  · cases hu

theorem legal_bytes : ∀ {b : Buf}, (∀ d ∈ b, 0x20 ≤ d ∧ d < 0x80) → LegalText b
  | [], _ => .nil
  | d :: b, h => by
    have h1 := h d (by simp)
    have h2 : XmlChar d.toNat := by
      obtain ⟨g1, g2⟩ := h1
      rw [UInt8.le_iff_toNat_le] at g1
      rw [UInt8.lt_iff_toNat_lt] at g2
      simp at g1 g2
      unfold XmlChar; omega
    exact (legal_byte h1.2 h2).app (legal_bytes fun d hd => h d (by simp [hd]))

theorem split_mem (t : List UInt8) : ∀ w ∈ C37.split t, ∀ d ∈ w, d ∈ t ∧ C37.blank d = false := by
  fun_induction C37.split t with
  | case1 => simp
  | case2 c t h ih =>
    intro w hw d hd
    rcases List.mem_cons.1 hw with rfl | hw
    · cases hd
    · obtain ⟨h1, h2⟩ := ih w hw d hd
      exact ⟨by simp [h1], h2⟩
  | case3 c t h hs ih =>
    intro w hw d hd
    rw [List.mem_singleton.1 hw] at hd
    rw [List.mem_singleton.1 hd]
    exact ⟨by simp, by simpa using h⟩
  | case4 c t h u us hs ih =>
    intro w hw d hd
    rw [hs] at ih
    rcases List.mem_cons.1 hw with rfl | hw
    · rcases List.mem_cons.1 hd with rfl | hd
      · exact ⟨by simp, by simpa using h⟩
      · obtain ⟨h1, h2⟩ := ih u (by simp) d hd
        exact ⟨by simp [h1], h2⟩
    · obtain ⟨h1, h2⟩ := ih w (by simp [hw]) d hd
      exact ⟨by simp [h1], h2⟩

theorem mem_intercalate {d : UInt8} : ∀ {ws : List (List UInt8)}, d ∈ List.intercalate [0x20] ws → d = 0x20 ∨ ∃ w ∈ ws, d ∈ w := by
  intro ws h
  induction ws with
  | nil => simp [List.intercalate] at h
  | cons w ws ih =>
    cases ws with
    | nil => right; exact ⟨w, by simp, by simpa [List.intercalate] using h⟩
    | cons v ws =>
      simp only [List.intercalate, List.intersperse, List.flatten_cons, List.mem_append, List.mem_singleton] at h ih
      rcases h with h | h | h
      · exact .inr ⟨w, by simp, h⟩
      · exact .inl h
      · rcases ih h with h | ⟨u, h1, h2⟩
        · exact .inl h
        · exact .inr ⟨u, by simp [h1], h2⟩

theorem pubid_legal {cs : List UInt8} (h : ∀ d ∈ cs, C37.PubidChar d = true) : LegalText (C37.normal cs) := by
  refine legal_bytes fun d hd => ?_
  rw [C37.normal, C37.words] at hd
  rcases mem_intercalate hd with rfl | ⟨w, h1, h2⟩
  · decide
  · obtain ⟨g1, g2⟩ := split_mem cs w (List.mem_filter.1 h1).1 d h2
    exact UInt8.forall_dec (P := fun d => C37.PubidChar d = true → C37.blank d = false → 0x20 ≤ d ∧ d < 0x80) (by decide +kernel) d (h d g1) g2

theorem external_legal {x : XEnc} {asc : UInt8 → Buf} (S : XSupported x asc) {pub : Option Buf} {sys : Buf} (h : ExternalID x asc w pub sys) :
    LegalText sys ∧ ∀ t ∈ pub, LegalText t := by
  cases h with
  | system sp q ws h1 h2 => exact ⟨conv_legals S h2.chars, by intro t ht; cases ht⟩
  | pub sp1 q1 cs sp2 q2 ws h1 h2 h3 h4 h5 =>
    refine ⟨conv_legals S h5.chars, ?_⟩
    rintro t ⟨⟩
    exact pubid_legal h3

theorem comment_legal (S : XSupported k.x k.asc) {ws : List Buf} (h : CommentOk k.x.e k.asc ws) {b : Bool} :
    ∀ v ∈ (if b then [PEv.ev (.comment (C14.lineEnds (converted k.x ws.flatten)))] else []), LegalDecl v :=
  if_legal (legal_lineEnds _ [] (conv_legals S h.chars))

theorem pi_legal (S : XSupported k.x k.asc) {target : List Buf} {sp : List UInt8} {ws : List Buf} (h : PiOk k.x.e k.asc target sp ws) {b : Bool} :
    ∀ v ∈ (if b then [PEv.ev (.pi (cstr (converted k.x target.flatten)) (C14.lineEnds (converted k.x ws.flatten)))] else []), LegalDecl v :=
  if_legal (legal_lineEnds _ [] (conv_legals S h.chars))

theorem miscs_legal (S : XSupported k.x k.asc) (h : Miscs k w E) : ∀ v ∈ E, LegalDecl v := by
  induction h with
  | nil => intro v hv; cases hv
  | space d h _ ih => exact ih
  | comment ws h _ ih =>
    intro v hv
    rcases List.mem_append.1 hv with hv | hv
    · exact comment_legal S h v hv
    · exact ih v hv
  | pi target sp ws h _ ih =>
    intro v hv
    rcases List.mem_append.1 hv with hv | hv
    · exact pi_legal S h v hv
    · exact ih v hv

theorem find_map {α : Type} (t : List (Buf × α)) (n : Buf) (v : α) (m : Buf) {p : Buf × α}
    (h : (t.map fun p => if p.1 = n then (p.1, v) else p).find? (·.1 = m) = some p) :
    (m = n ∧ p.2 = v) ∨ t.find? (·.1 = m) = some p := by
  induction t with
  | nil => cases h
  | cons q t ih =>
    rw [List.map_cons, List.find?_cons] at h
    rw [List.find?_cons]
    by_cases hq : q.1 = m
    · simp only [hq] at h ⊢
      by_cases hm : m = n
      · rw [if_pos hm] at h
        simp only [decide_true, Option.some.injEq] at h
        exact .inl ⟨hm, by rw [← h]⟩
      · rw [if_neg hm] at h
        simp only [hq, decide_true, Option.some.injEq] at h
        exact .inr (by simpa using h)
    · have h1 : (if q.1 = n then (q.1, v) else q).1 = q.1 := by split <;> rfl
      rw [h1] at h
      simp only [hq, decide_false] at h ⊢
      exact ih h

theorem addAtt_ok {b : Bool} (h : DefaultsOk D.toDtd) {elem att : Buf} {cd id : Bool} {value : Option Buf} (hv : ∀ v ∈ value, LegalText v) :
    DefaultsOk (addAtt b D elem att cd id value).toDtd := by
  rw [addAtt]
  split
  · exact h
  · have new : ∀ d ∈ ((tabGet D.elems elem).getD ⟨[], none⟩).atts ++ [⟨att, cd, value⟩], ∀ v, d.value = some v → LegalText v := by
      intro d hd v hd'
      rcases List.mem_append.1 hd with hd | hd
      · exact h elem d hd v hd'
      · rw [List.mem_singleton.1 hd] at hd'
        exact hv v hd'
    intro raw d hd v hd'
    simp only [Dtd.elem, DTab.toDtd] at hd
    split at hd
    · generalize hf : (List.find? _ (List.map _ D.elems)) = o at hd
      cases o with
      | none => simp at hd
      | some p =>
        rcases find_map _ _ _ _ hf with ⟨-, h2⟩ | h2
        · rw [Option.map_some, Option.getD_some, h2] at hd
          exact new d hd v hd'
        · refine h raw d ?_ v hd'
          rw [Dtd.elem, DTab.toDtd, h2]
          exact hd
    · rw [List.find?_append] at hd
      cases h3 : D.elems.find? (·.1 = raw) with
      | some p =>
        rw [h3] at hd
        refine h raw d ?_ v hd'
        rw [Dtd.elem, DTab.toDtd, h3]
        exact hd
      | none =>
        rw [h3, Option.none_or, List.find?_cons] at hd
        split at hd
        · exact new d hd v hd'
        · simp at hd

theorem default_legal (P : C61.Plain k) (hi : k.c.int = internalUtf8X ns) (hk : D.keep = true) {cd : Bool} {value : Option Buf} {req : Bool}
    (h : DefaultText k D cd w value req) : ∀ v ∈ value, LegalText v := by
  have key {b v : Buf} (h : DefaultValue k D cd b v) : LegalText v := by
    obtain ⟨out, h1, rfl⟩ := h
    rw [hi] at h1
    have := norm_legal h1 P.S
    split
    · exact this
    · exact legal_collapse this
  cases h with
  | implied => intro v hv; cases hv
  | required => intro v hv; cases hv
  | value _ _ _ _ h2 => rintro v ⟨⟩; exact key (h2 hk)
  | fixed _ _ _ _ _ _ h2 => rintro v ⟨⟩; exact key (h2 hk)

theorem attDefs_legal (P : C61.Plain k) (hi : k.c.int = internalUtf8X ns) {elem : Buf} (h : AttDefs k elem D w E D') (hd : DefaultsOk D.toDtd) :
    (∀ v ∈ E, LegalDecl v) ∧ DefaultsOk D'.toDtd := by
  induction h with
  | nil => exact ⟨by simp, hd⟩
  | cons h1 h2 ih =>
    cases h1 with
    | mk sp1 sp2 sp3 name type dflt cd id ty value req g1 g2 g3 g4 g5 g6 =>
      rename_i D0 _ _ _
      cases hk : D0.keep with
      | false =>
        rw [hk] at ih
        obtain ⟨a1, a2⟩ := ih hd
        exact ⟨by simpa using a1, a2⟩
      | true =>
        rw [hk] at ih
        have hv := default_legal P hi hk g6
        obtain ⟨a1, a2⟩ := ih (addAtt_ok hd hv)
        refine ⟨?_, a2⟩
        intro v hv'
        rcases List.mem_append.1 hv' with h | h
        · rw [Bool.true_and] at h
          exact if_legal (v := .attlistDecl _ _ _ _ _) hv v h
        · exact a1 v h

theorem asked_legal : ∀ v ∈ asked k D, LegalDecl v := by
  intro v hv
  rw [asked] at hv
  split at hv
  · rw [List.mem_singleton.1 hv]; trivial
  · cases hv

theorem decl_legal (P : C61.Plain k) (hi : k.c.int = internalUtf8X ns) (h : Decl k D w A D') (hd : DefaultsOk D.toDtd) :
    (∀ a ∈ A, LegalSaid a) ∧ DefaultsOk D'.toDtd := by
  have ent {p : Bool} {nm : Buf} {w' : Buf} {d : EntityDef} {E : List PEv} (h4 : EntityDefText k D p w' d)
      (h6 : Counts k D p nm → E = d.report k p (converted k.x nm) ∧ D' = addEntity D p (converted k.x nm) (d.entity k))
      (h7 : ¬ Counts k D p nm → E = [] ∧ D' = D) : (∀ v ∈ E, LegalDecl v) ∧ DefaultsOk D'.toDtd := by
    by_cases hc : Counts k D p nm
    · obtain ⟨rfl, rfl⟩ := h6 hc
      refine ⟨?_, by cases p <;> exact hd⟩
      have hl := def_legal P hc.1 h4
      cases h4 with
      | value p q ws v h1 h2 =>
        refine if_legal (v := .entityDecl _ _ _ _ _ _ _) ⟨?_, by simp, by simp⟩
        rintro t ⟨⟩
        exact hl _ rfl
      | external p _ pub sys h1 =>
        obtain ⟨g1, g2⟩ := external_legal P.S h1
        exact if_legal (v := .entityDecl _ _ _ _ _ _ _) ⟨by simp, by simpa using g1, g2⟩
      | unparsed w0 pub sys sp1 sp2 name h1 h2 h3 h4 =>
        obtain ⟨g1, g2⟩ := external_legal P.S h1
        intro v hv
        simp only [EntityDef.report] at hv
        split at hv
        · rw [List.mem_singleton.1 hv]; exact ⟨by simpa using g1, g2⟩
        · exact if_legal (v := .entityDecl _ _ _ _ _ _ _) ⟨by simp, by simpa using g1, g2⟩ v hv
    · obtain ⟨rfl, rfl⟩ := h7 hc
      exact ⟨by simp, hd⟩
  cases h with
  | space => exact ⟨by simp, hd⟩
  | comment ws h => exact ⟨calls_legal (comment_legal P.S h), hd⟩
  | pi target sp ws h => exact ⟨calls_legal (pi_legal P.S h), hd⟩
  | entity sp1 name sp2 w d sp3 h1 h2 h3 h4 h5 E _ h6 h7 =>
    obtain ⟨g1, g2⟩ := ent h4 h6 h7
    exact ⟨calls_legal g1, g2⟩
  | paramEntity sp0 sp1 name sp2 w d sp3 h0 h1 h2 h3 h4 h5 E _ h6 h7 =>
    obtain ⟨g1, g2⟩ := ent h4 h6 h7
    exact ⟨calls_legal g1, g2⟩
  | notation_ sp1 name sp2 w pub sys sp3 h1 h2 h3 h4 h5 =>
    refine ⟨calls_legal (if_legal ?_), hd⟩
    cases h4 with
    | external _ _ sys h =>
      obtain ⟨g1, g2⟩ := external_legal P.S h
      exact ⟨by simpa using g1, g2⟩
    | pubOnly sp q cs h1 h2 h3 => exact ⟨by simp, by simpa using pubid_legal h3⟩
  | attlist sp1 name w sp2 E _ h1 h2 h3 h4 =>
    obtain ⟨g1, g2⟩ := attDefs_legal P hi h3 hd
    exact ⟨calls_legal g1, g2⟩
  | element =>
    refine ⟨?_, hd⟩
    intro a ha
    split at ha
    · rw [List.mem_singleton.1 ha]; trivial
    · cases ha
  | refUnread => exact ⟨calls_legal asked_legal, hd⟩
  | refUnknown => exact ⟨calls_legal (if_legal (v := .ev _) trivial), hd⟩
  | refExternal => exact ⟨calls_legal asked_legal, hd⟩

theorem decls_legal (P : C61.Plain k) (hi : k.c.int = internalUtf8X ns) (h : Decls k D w A D') (hd : DefaultsOk D.toDtd)
    (hT : C33.TextsOk D.toDtd (internalUtf8X ns)) :
    (∀ a ∈ A, LegalSaid a) ∧ DefaultsOk D'.toDtd ∧ C33.TextsOk D'.toDtd (internalUtf8X ns) := by
  induction h with
  | nil => exact ⟨by simp, hd, hT⟩
  | cons h1 h2 ih =>
    obtain ⟨a1, a2⟩ := decl_legal P hi h1 hd
    obtain ⟨b1, b2⟩ := ih P hi a2 ((decl_keeps P h1).1 hT)
    refine ⟨?_, b2⟩
    intro a ha
    rcases List.mem_append.1 ha with h | h
    · exact a1 a h
    · exact b1 a h
  | ref _ _ _ h2 => exact absurd P.pe h2

/-- What a prolog says is legal text, and so are the replacement texts and the default values it declares. -/
theorem prolog_legal (P : C61.Plain k) (hi : k.c.int = internalUtf8X ns) (h : PrologText k D w A D') (hd : DefaultsOk D.toDtd)
    (hT : C33.TextsOk D.toDtd (internalUtf8X ns)) :
    (∀ a ∈ A, LegalSaid a) ∧ DefaultsOk D'.toDtd ∧ C33.TextsOk D'.toDtd (internalUtf8X ns) := by
  cases h with
  | plain w E h => exact ⟨calls_legal (miscs_legal P.S h), hd, hT⟩
  | typed w1 w2 w3 E1 E3 A _ h1 h2 h3 =>
    suffices h : (∀ a ∈ A, LegalSaid a) ∧ DefaultsOk D'.toDtd ∧ C33.TextsOk D'.toDtd (internalUtf8X ns) by
      refine ⟨?_, h.2⟩
      intro a ha
      rcases List.mem_append.1 ha with ha | ha
      · rcases List.mem_append.1 ha with ha | ha
        · exact calls_legal (miscs_legal P.S h1) a ha
        · exact h.1 a ha
      · exact calls_legal (miscs_legal P.S h3) a ha
    cases h2 with
    | mk sp1 name w1 sp2 w2 pub sys b E A D1 D2 g1 g2 g3 g4 g5 =>
      have o : (∀ v ∈ E, LegalDecl v) ∧ ((∀ t ∈ sys, LegalText t) ∧ ∀ t ∈ pub, LegalText t) ∧
          DefaultsOk D1.toDtd ∧ C33.TextsOk D1.toDtd (internalUtf8X ns) := by
        cases g3 with
        | none => exact ⟨by simp, by simp, hd, hT⟩
        | some sp w pub sys e1 e2 e3 e4 =>
          obtain ⟨f1, f2⟩ := external_legal P.S e2
          refine ⟨?_, ⟨by simpa using f1, f2⟩, hd, hT⟩
          intro v hv
          split at hv
          · exact asked_legal v hv
          · cases hv
      have i : (∀ a ∈ A, LegalSaid a) ∧ DefaultsOk D2.toDtd ∧ C33.TextsOk D2.toDtd (internalUtf8X ns) := by
        cases g5 with
        | none => exact ⟨by simp, o.2.2⟩
        | some w _ _ sp e1 e2 => exact decls_legal P hi e1 o.2.2.1 o.2.2.2
      refine ⟨?_, by rw [closed]; split <;> exact i.2⟩
      intro a ha
      rcases List.mem_append.1 ha with ha | ha
      · rcases List.mem_append.1 ha with ha | ha
        · refine calls_legal ?_ a ha
          intro v hv
          rcases List.mem_append.1 hv with hv | hv
          · exact o.1 v hv
          · exact if_legal (v := .startDoctype _ _ _ _) o.2.1 v hv
        · exact i.1 a ha
      · exact calls_legal (if_legal (v := .endDoctype) trivial) a ha

end

/-! ### Documents -/

/-- What a document in pieces does after the prolog is what the content processor does with the rest in some pieces. -/
theorem document_content {c : PCfg} {ext : Ext} {fuel : Nat} (ho : c.OtherOk) (xs : List Buf) : ∀ (s : DState) (rest : Buf), (s.x c false).Cuts →
    s.el.p.roleNone.none_ = true → ∀ {P : List PEv} {z : DState} {F : List Ev} {o : Out CState},
    C57.document c ext fuel s rest xs = (P, z, .content F o) →
    ∃ (Q : List PEv) (q : Buf) (ys : List Buf), prologCall c ext fuel [] false s (rest ++ xs.flatten) = (Q, z, .content (q ++ ys.flatten)) ∧
      pflat P = pflat Q ∧ Verif.feed (C57.contentSem c z) (z.x c false).e CState.init q ys = (F, o) := by
  have fin {s : DState} {b : Buf} {P : List PEv} {z : DState} {F : List Ev} {o : Out CState}
      (h : C57.finishDoc c (prologCall c ext fuel [] false s b) = (P, z, .content F o)) :
      ∃ (Q : List PEv) (q : Buf) (ys : List Buf), prologCall c ext fuel [] false s b = (Q, z, .content (q ++ ys.flatten)) ∧
        pflat P = pflat Q ∧ Verif.feed (C57.contentSem c z) (z.x c false).e CState.init q ys = (F, o) := by
    generalize prologCall c ext fuel [] false s b = p at h ⊢
    obtain ⟨E, s', o'⟩ := p
    cases o' with
    | content q =>
      simp only [C57.finishDoc, C57.content, Prod.mk.injEq, C57.DocEnd.content.injEq] at h
      obtain ⟨rfl, rfl, rfl, rfl⟩ := h
      exact ⟨E, q, [], by simp, rfl, rfl⟩
    | _ => simp [C57.finishDoc] at h
  induction xs with
  | nil =>
    intro s rest _ _ P z F o h
    rw [C57.document] at h
    simpa using fin h
  | cons x xs ih =>
    intro s rest hc hn P z F o h
    cases xs with
    | nil =>
      rw [C57.document] at h
      simpa using fin h
    | cons y ys =>
      have hs := C57.split_call (ext := ext) (fuel := fuel) (opened := []) ho (y :: ys).flatten s (rest ++ x) hc hn
      have hk := (prologCall_kept (ext := ext) (fuel := fuel) (opened := []) (more := true) ho s (rest ++ x)).1.1 hc
      have hnn := (none_runRel (c := c) (ext := ext) (fuel := fuel)).call (opened := []) (more := true) s (rest ++ x) hn
      rw [C57.document] at h
      · rw [show (x :: y :: ys).flatten = x ++ (y :: ys).flatten from List.flatten_cons, ← List.append_assoc]
        generalize prologCall c ext fuel [] false s (rest ++ x ++ (y :: ys).flatten) = p at hs ⊢
        generalize hr : prologCall c ext fuel [] true s (rest ++ x) = r at hs hk hnn h
        obtain ⟨E, s', o⟩ := r
        cases o with
        | done q =>
          simp only [C57.after] at hs h
          generalize hg : C57.document c ext fuel s' q (y :: ys) = g at h
          obtain ⟨P', z', o'⟩ := g
          cases h
          obtain ⟨Q, q', zs, g1, g2, g3⟩ := ih s' q hk hnn hg
          rw [g1] at hs
          obtain ⟨pE, pz, po⟩ := p
          obtain ⟨e1, e2⟩ := hs
          cases po <;> simp only [Prolog.pre] at e1 e2
          obtain ⟨rfl, rfl⟩ := e2
          refine ⟨_, q', zs, rfl, ?_, g3⟩
          rw [← e1]
          simp only [pflat, List.flatMap_append] at g2 ⊢
          rw [g2]
        | content q =>
          simp only [C57.after] at hs
          simp only [C57.content, Prod.mk.injEq, C57.DocEnd.content.injEq] at h
          obtain ⟨rfl, rfl, rfl, rfl⟩ := h
          obtain ⟨pE, pz, po⟩ := p
          obtain ⟨e1, e2⟩ := hs
          cases po <;> simp only at e1 e2
          obtain ⟨rfl, rfl⟩ := e2
          exact ⟨_, q, [] :: y :: ys, by simp, e1, rfl⟩
        | err e => simp at h
        | panic => simp at h
      · simp

section
variable {c : PCfg} {i : EncId} {ext : Ext} {fuel : Nat} {idx : EncIndex} {m t : Buf}

/-- What is known when the content of a document is reached. -/
theorem reached (U : Usual c) (h0 : C60.Found idx m t i) (hd : (i.x c.c.ns).e.mb ∣ t.length) (hlen : t.length + 3 < 2 ^ 31) (hf : t.length < fuel)
    {cur : CurEnc} {xs : List Buf} (hx : xs.flatten = m ++ t) {P : List PEv} {z : DState} {F : List Ev} {o : Out CState}
    (h : parse c ext fuel idx (start cur .never) [] xs = (P, z, .content F o)) :
    ∃ (h w q : Buf) (ys : List Buf) (d : Option C18.Src) (j : EncId) (A : List Said) (Q : List PEv),
      t = h ++ (w ++ (q ++ ys.flatten)) ∧ Head c i h d j ∧
      PrologText (reading c (j.x c.c.ns) (C54.ascOf j) .never) { standalone := aloneIn d } w A z.D ∧ z.cur = .builtin j ∧
      prologTok (j.x c.c.ns).e (q ++ ys.flatten) = ⟨.INSTANCE_START, 0⟩ ∧ (j.x c.c.ns).e.mb ∣ (q ++ ys.flatten).length ∧
      prologCall c ext fuel [] false (start (.builtin i) .never) t = (Q, z, .content (q ++ ys.flatten)) ∧ pflat P = pflat Q ∧
      Verif.feed (parser c.c z.D.toDtd c.int (j.x c.c.ns)) (j.x c.c.ns).e CState.init q ys = (F, o) := by
  obtain ⟨zs, h4, h5⟩ := parse_found (c := c) (ext := ext) (fuel := fuel) h0 (start cur .never) xs [] hx
  rw [h5] at h
  subst h4
  obtain ⟨Q, q, ys, g1, g2, g3⟩ := document_content U.other zs (start (.builtin i) .never) [] (C54.supported c.c.ns i).cuts rfl h
  rw [List.nil_append] at g1
  obtain ⟨h, w, d, j, A, D', b1, b2, b3, rfl, b5, b6, b7⟩ := start_back (ext := ext) (fuel := fuel) U.unknown U.int U.isPE hd hlen hf (by rw [g1])
  refine ⟨h, w, q, ys, d, j, A, Q, b1, b2, b3, b5, b6, b7, g1, g2, ?_⟩
  rw [← g3, C57.contentSem, DState.x, b5]
  rfl

/-- **C62 for whole documents.**  Whatever a document consists of, in whatever pieces it comes and whether or not it is accepted, every
string of character data, every comment, the data of every processing instruction and every attribute value reported from the
root element on is the UTF-8 form of XML characters, also where it comes from an entity or a default value declared in the
prolog. -/
theorem document_legal (U : Usual c) (h0 : C60.Found idx m t i) (hd : (i.x c.c.ns).e.mb ∣ t.length) (hlen : t.length + 3 < 2 ^ 31)
    (hf : t.length < fuel) {cur : CurEnc} {xs : List Buf} (hx : xs.flatten = m ++ t) {P : List PEv} {z : DState} {F : List Ev} {o : Out CState}
    (h : parse c ext fuel idx (start cur .never) [] xs = (P, z, .content F o)) : ∀ v ∈ F, Legal v := by
  obtain ⟨h, w, q, ys, d, j, A, Q, -, -, g3, -, -, g6, -, -, g9⟩ := reached U h0 hd hlen hf hx h
  have S := C54.supported c.c.ns j
  have P : C61.Plain (reading c (j.x c.c.ns) (C54.ascOf j) .never) := ⟨rfl, U.isPE, rfl, rfl, rfl, S⟩
  obtain ⟨-, k1, k2⟩ := prolog_legal (ns := c.c.ns) P U.int g3 (by intro raw d hd; simp [Dtd.elem, DTab.toDtd] at hd) (by intro n ent t h; cases h)
  have := reported_legal (c := c.c) S k2 k1 ys CState.init q g6
  rw [← U.int, g9] at this
  exact this

/-- The same for the prolog of documents whose root element is reached (`N`: the nesting of entities). -/
theorem prolog_heard (U : Usual c) (h0 : C60.Found idx m t i) (hd : (i.x c.c.ns).e.mb ∣ t.length) (hlen : t.length + 3 < 2 ^ 31) :
    ∃ N, ∀ (ext : Ext) (fuel : Nat), N ≤ fuel → ∀ (cur : CurEnc) (xs : List Buf), xs.flatten = m ++ t → ∀ P z F o,
      parse c ext fuel idx (start cur .never) [] xs = (P, z, .content F o) → ∀ v ∈ P, LegalDecl v := by
  by_cases hex : ∃ (ext : Ext) (fuel : Nat) (cur : CurEnc) (xs : List Buf) (P : List PEv) (z : DState) (F : List Ev) (o : Out CState),
      t.length < fuel ∧ xs.flatten = m ++ t ∧ parse c ext fuel idx (start cur .never) [] xs = (P, z, .content F o)
  · obtain ⟨_, _, _, _, _, z, _, _, hf, hx, h⟩ := hex
    obtain ⟨h, w, q, ys, d, j, A, Q, g1, g2, g3, -, g5, g6, -, -, -⟩ := reached U h0 hd hlen hf hx h
    have S := C54.supported c.c.ns j
    have Pl : C61.Plain (reading c (j.x c.c.ns) (C54.ascOf j) .never) := ⟨rfl, U.isPE, rfl, rfl, rfl, S⟩
    obtain ⟨k0, -, -⟩ := prolog_legal (ns := c.c.ns) Pl U.int g3 (by intro raw d hd; simp [Dtd.elem, DTab.toDtd] at hd) (by intro n ent t h; cases h)
    have g3' : PrologText (reading c (j.x c.c.ns) (C54.ascOf j) (peAfter (aloneIn d) .never)) { standalone := aloneIn d } w A z.D := by
      rw [peAfter_never]; exact g3
    obtain ⟨N, hN⟩ := run_whole U.intOk.1 U.intOk.2 g2 g3'
    refine ⟨max N (t.length + 1), fun ext fuel hf cur xs hx P z' F o h => ?_⟩
    obtain ⟨_, _, _, _, _, _, _, Q', -, -, -, -, -, -, f7, f8, -⟩ := reached U h0 hd hlen (by omega) hx h
    have hne : q ++ ys.flatten ≠ [] := by
      intro h; rw [h] at g5; cases g5
    obtain ⟨V, E, s, a1, a2, -, -, -, a6⟩ := hN ext fuel (by omega) (q ++ ys.flatten) (by rw [← g1]; exact hd) hne (fun _ => g5)
    rw [← g1, f7] at a6
    have a7 := congrArg (·.1) a6
    simp only [hear] at a7
    rw [← heard_pflat, ← f8, heard_pflat] at a7
    intro v hv
    by_cases hv' : v ∈ heard P
    · rw [a7] at hv'
      rcases List.mem_append.1 hv' with hv | hv
      · clear hv'
        cases d with
        | none => rw [show V = [] from a1] at hv; cases hv
        | some d =>
          rw [HeadTold, Told] at a1
          rw [a1] at hv
          split at hv
          · rw [List.mem_singleton.1 hv]; trivial
          · cases hv
      · exact says_legal a2 k0 v hv
    · rw [heard, List.mem_filter] at hv'
      cases v with
      | ev u =>
        cases u with
        | dflt => trivial
        | _ => exact absurd ⟨hv, rfl⟩ hv'
      | _ => exact absurd ⟨hv, rfl⟩ hv'
  · refine ⟨t.length + 1, fun ext fuel hf cur xs hx P z F o h => ?_⟩
    exact absurd ⟨ext, fuel, cur, xs, P, z, F, o, hf, hx, h⟩ hex

end

/-! ### Examples -/

/-- A document with an entity and a default value from the prolog, multi-byte characters, a comment and an error after them:
`<!DOCTYPE a [<!ENTITY e 'é&#x20AC;'><!ATTLIST a d CDATA '&e;!'>]><a>&e;ü<!--ß--></b>` -/
def exText : Buf := "<!DOCTYPE a [<!ENTITY e 'é&#x20AC;'><!ATTLIST a d CDATA '&e;!'>]><a>&e;ü<!--ß--></b>".toUTF8.toList

/-- The texts of the calls in the content, and whether the content was reached. -/
def textsOf : C57.Doc → Option (List Buf)
  | (_, _, .content F _) => some (F.flatMap fun v => match v with
    | .chars s => [s]
    | .comment s => [s]
    | .startElement _ as _ _ => as.map (·.2)
    | _ => [])
  | _ => none

/-- The calls contain the texts of the entity and of the default value. -/
theorem ex_calls : textsOf (parse exCfg exExt 200 .noEnc (start (.builtin .utf8) .never) [] [exText.take 70, exText.drop 70]) =
    some ["é€!".toUTF8.toList, "é€".toUTF8.toList, "ü".toUTF8.toList, "ß".toUTF8.toList] := by decide +kernel

example : ∀ P z F o, parse exCfg exExt 200 .noEnc (start (.builtin .utf8) .never) [] [exText.take 70, exText.drop 70] = (P, z, .content F o) →
    ∀ v ∈ F, Legal v := by
  intro P z F o h
  exact document_legal (i := .utf8) (idx := .noEnc) (t := exText) (m := []) ex_usual (by
    have h : exText = 0x3C :: 0x21 :: exText.drop 2 := by decide +kernel
    rw [h]; exact .plain 0x3C 0x21 _ (by decide) (by decide)) (Nat.one_dvd _) (by decide +kernel) (by decide +kernel) (by simp) h

end Verif.C62
