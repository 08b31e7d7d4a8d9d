import Verif.EntNorm

/-! # C58: the replacement text of an internal entity is the one XML 1.0 section 4.5 prescribes -/

set_option autoImplicit false

namespace Verif.C58
open C43 Spec Verif

/-! ### Specification -/

/-- The replacement text of an entity value literal (XML 1.0, 4.5), read off its characters: character
references are replaced by the character, references to parameter entities by their replacement text,
references to general entities are left as they are; line ends become line feeds; other characters stand for
themselves.  `x`, `asc`: encoding of the literal and its spelling of ASCII characters; `le`: whether CR is a
line end (documents) or a character (replacement text, whose line ends were normalised when it was read);
`pes`: whether parameter entities are recognised (XML 1.0, 2.8: not within declarations of the internal subset);
`par`: the declared parameter entities; `opened`: those being expanded. -/
inductive Repl (par : Buf → Option Entity) (int : XEnc) : XEnc → (UInt8 → Buf) → Bool → Bool → List Buf → Buf → Buf → Prop where
  | nil {x asc le pes op} : Repl par int x asc le pes op [] []
  | crlf {x asc pes op r out} (h : Repl par int x asc true pes op r out) :
      Repl par int x asc true pes op (asc 0x0D ++ (asc 0x0A ++ r)) (0x0A :: out)
  | cr {x asc pes op r out} (hr : ∀ r', r ≠ asc 0x0A ++ r') (h : Repl par int x asc true pes op r out) :
      Repl par int x asc true pes op (asc 0x0D ++ r) (0x0A :: out)
  | lf {x asc le pes op r out} (h : Repl par int x asc le pes op r out) :
      Repl par int x asc le pes op (asc 0x0A ++ r) (0x0A :: out)
  | char {x asc le pes op r out} (w : Buf) (hw : x.e.IsChar w) (h1 : w ≠ asc 0x26) (h2 : w ≠ asc 0x25) (h3 : w ≠ asc 0x0A)
      (h4 : le = true → w ≠ asc 0x0D) (h : Repl par int x asc le pes op r out) :
      Repl par int x asc le pes op (w ++ r) (converted x w ++ out)
  | dec {x asc le pes op r out} (ds : List UInt8) (h0 : ds ≠ []) (hd : ∀ d ∈ ds, isDec d = true)
      (hx : XmlChar (numeral 10 ds)) (h : Repl par int x asc le pes op r out) :
      Repl par int x asc le pes op (asc 0x26 ++ (asc 0x23 ++ (spell asc ds ++ (asc 0x3B ++ r)))) (utf8 (numeral 10 ds) ++ out)
  | hex {x asc le pes op r out} (ds : List UInt8) (h0 : ds ≠ []) (hd : ∀ d ∈ ds, (isDec d || isHexLetter d) = true)
      (hx : XmlChar (numeral 16 ds)) (h : Repl par int x asc le pes op r out) :
      Repl par int x asc le pes op (asc 0x26 ++ (asc 0x23 ++ (asc 0x78 ++ (spell asc ds ++ (asc 0x3B ++ r)))))
        (utf8 (numeral 16 ds) ++ out)
  | entity {x asc le pes op r out} (ws : List Buf) (hn : x.e.Name ws) (h : Repl par int x asc le pes op r out) :
      Repl par int x asc le pes op (asc 0x26 ++ (ws.flatten ++ (asc 0x3B ++ r)))
        (converted x (asc 0x26 ++ (ws.flatten ++ asc 0x3B)) ++ out)
  | param {x asc le op r out} (ws : List Buf) (ent : Entity) (t out' : Buf) (hn : x.e.Name ws)
      (hd : par (converted x ws.flatten) = some ent) (ho : converted x ws.flatten ∉ op)
      (hs : ent.systemId = none) (ht : ent.text = some t)
      (hin : Repl par int int asc1 false true (converted x ws.flatten :: op) t out')
      (h : Repl par int x asc le true op r out) :
      Repl par int x asc le true op (asc 0x25 ++ (ws.flatten ++ (asc 0x3B ++ r))) (out' ++ out)

/-! ### Proofs -/

section
variable {c : PCfg} {ext : Ext} {pe : PEParsing}

/-- What is done with the text of a parameter entity when the recursion may go `k` levels deep. -/
def recOf (c : PCfg) (ext : Ext) (pe : PEParsing) (opened : List Buf) : Nat → Buf → Shared → Buf → Buf → EVal
  | 0 => fun _ sh p _ => ⟨[], sh, p, some .DIVERGED⟩
  | k + 1 => fun n sh p t => storeEntityValue c ext pe k c.int true (n :: opened) sh p t

theorem store_eq (k : Nat) (x : XEnc) (internal : Bool) (opened : List Buf) (sh : Shared) (pool b : Buf) :
    storeEntityValue c ext pe k x internal opened sh pool b =
      evLoop c ext pe x internal (recOf c ext pe opened k) opened sh pool b := by
  cases k <;> rfl

/-- Number of parameter entities that are not being expanded. -/
def avail (par : List (Buf × Entity)) (opened : List Buf) : Nat := C34.avail ⟨par, [], [], false, false⟩ opened

theorem avail_lt {par : List (Buf × Entity)} {opened : List Buf} {n : Buf} {ent : Entity} (h : tabGet par n = some ent)
    (ho : n ∉ opened) : avail par (n :: opened) < avail par opened :=
  C34.avail_lt (D := ⟨par, [], [], false, false⟩) h ho

theorem repl_lit {par : Buf → Option Entity} {int x : XEnc} {asc : UInt8 → Buf} {le pes : Bool} {op : List Buf} {b out : Buf}
    (h : Repl par int x asc le pes op b out) : XSupported x asc → EvLit x.e asc b := by
  induction h with
  | nil => exact fun s => .nil
  | crlf h ih => exact fun s => .char _ _ (C33.ws_char s.s rfl) (.char _ _ (C33.ws_char s.s rfl) (ih s))
  | cr hr h ih => exact fun s => .char _ _ (C33.ws_char s.s rfl) (ih s)
  | lf h ih => exact fun s => .char _ _ (C33.ws_char s.s rfl) (ih s)
  | char w hw h1 h2 h3 h4 h ih => exact fun s => .char _ _ hw (ih s)
  | dec | hex | entity => exact fun s => .amp _
  | param => exact fun s => .pct _

/-- Whatever the specification derives, the program computes. -/
theorem complete {sh : Shared} {int x : XEnc} {asc : UInt8 → Buf} {le pes : Bool} {op : List Buf} {b out : Buf}
    (hi : XSupported c.int asc1) (hie : c.int.e.lineEnds asc1 = false) (hint : int = c.int)
    (h : Repl (tabGet sh.D.par) int x asc le pes op b out) :
    XSupported x asc → x.e.lineEnds asc = le → ∀ internal, (c.isPE || internal) = pes → ∀ k, avail sh.D.par op ≤ k → ∀ pool,
    storeEntityValue c ext pe k x internal op sh pool b = ⟨[], sh, pool ++ out, none⟩ := by
  subst hint
  induction h with
  | nil =>
    intro s hl internal hp k hk pool
    rw [store_eq, ev_nil, List.append_nil]
  | crlf h ih =>
    intro s hl internal hp k hk pool
    rw [store_eq, ev_crlf s hl, ← store_eq, ih s hl _ hp k hk, List.append_assoc]; rfl
  | cr hr h ih =>
    intro s hl internal hp k hk pool
    rw [store_eq, ev_cr s hl hr, ← store_eq, ih s hl _ hp k hk, List.append_assoc]; rfl
  | lf h ih =>
    intro s hl internal hp k hk pool
    rw [store_eq, ev_lf s, ← store_eq, ih s hl _ hp k hk, List.append_assoc]; rfl
  | char w hw h1 h2 h3 h4 h ih =>
    intro s hl internal hp k hk pool
    rw [store_eq, ev_char s ⟨hw, h1, h2, h3, by rw [hl]; exact h4⟩ (repl_lit h s), ← store_eq, ih s hl _ hp k hk, List.append_assoc]
  | dec ds h0 hd hx h ih =>
    intro s hl internal hp k hk pool
    rw [store_eq, ev_dec s h0 hd, if_pos hx, ← store_eq, ih s hl _ hp k hk, List.append_assoc]
  | hex ds h0 hd hx h ih =>
    intro s hl internal hp k hk pool
    rw [store_eq, ev_hex s h0 hd, if_pos hx, ← store_eq, ih s hl _ hp k hk, List.append_assoc]
  | entity ws hn h ih =>
    intro s hl internal hp k hk pool
    rw [store_eq, ev_entity s hn, ← store_eq, ih s hl _ hp k hk, List.append_assoc]
  | @param x asc le op r out ws ent t out' hn hd ho hs ht hin h ihin ih =>
    intro s hl internal hp k hk pool
    have hlt := avail_lt hd ho
    obtain ⟨k, rfl⟩ : ∃ j, k = j + 1 := ⟨k - 1, by omega⟩
    have l (c) := s.s.asc.len c
    have hmb : 0 < x.e.mb := Nat.succ_pos _
    have h1 := ev_peref (ext := ext) (pe := pe) (rec := recOf c ext pe op (k + 1)) (opened := op) s hn r sh pool hp
    have h2 : evParamRef c ext pe (recOf c ext pe op (k + 1)) op sh pool (converted x ws.flatten)
        (asc 0x25 ++ (ws.flatten ++ asc 0x3B)).length =
        .next (asc 0x25 ++ (ws.flatten ++ asc 0x3B)).length [] sh (pool ++ out') := by
      simp only [evParamRef]
      rw [hd]
      simp only
      rw [if_neg ho, if_neg (by simp [hs]), ht]
      simp only [recOf, Option.getD_some]
      rw [ihin hi hie true (by simp) k (by omega) pool]
    rw [h2] at h1
    have hb : asc 0x25 ++ (ws.flatten ++ (asc 0x3B ++ r)) = (asc 0x25 ++ (ws.flatten ++ asc 0x3B)) ++ r := by
      simp [List.append_assoc]
    rw [hb] at h1 ⊢
    rw [store_eq, ev_step (by rw [List.length_append, l]; omega) h1, ← store_eq, ih s hl _ hp (k + 1) hk, List.append_assoc]

/-- In the document itself: whatever the program computes, the specification derives. -/
theorem sound {x : XEnc} {asc : UInt8 → Buf} {sh : Shared} (s : XSupported x asc) (hp : c.isPE = false) (k : Nat) (op : List Buf) (n : Nat) :
    ∀ {b : Buf}, b.length = n → Lit x.e asc b → ∀ {pool : Buf},
    (storeEntityValue c ext pe k x false op sh pool b).err = none →
    ∃ out, Repl (tabGet sh.D.par) c.int x asc (x.e.lineEnds asc) false op b out ∧
      storeEntityValue c ext pe k x false op sh pool b = ⟨[], sh, pool ++ out, none⟩ := by
  have hp' : (c.isPE || false) = false := by rw [hp]; rfl
  induction n using Nat.strongRecOn with
  | _ n ih =>
    intro b hb hlit pool h
    have hmb : 0 < x.e.mb := Nat.succ_pos _
    have l (c) := s.s.asc.len c
    have key : ∀ r0, b = asc 0x26 ++ r0 → ∃ out, Repl (tabGet sh.D.par) c.int x asc (x.e.lineEnds asc) false op b out ∧
        storeEntityValue c ext pe k x false op sh pool b = ⟨[], sh, pool ++ out, none⟩ := by
      rintro r0 rfl
      rw [store_eq] at h ⊢
      obtain ⟨t, w, r, hw, rfl⟩ := ev_amp s h
      have hlr := lit_amp s.s hw hlit
      have hlen : r.length < n := by
        rw [← hb]; simp only [List.length_append, l]; omega
      cases hw with
      | entity ws hn =>
        simp only [List.append_assoc] at h ⊢
        rw [ev_entity s hn, ← store_eq] at h
        obtain ⟨out, h1, h2⟩ := ih _ hlen rfl hlr h
        rw [ev_entity s hn, ← store_eq, h2]
        exact ⟨_, .entity ws hn h1, by simp only [List.append_assoc]⟩
      | dec ds h0 hd =>
        simp only [List.append_assoc] at h ⊢
        rw [← spell] at h ⊢
        rw [ev_dec s h0 hd] at h ⊢
        by_cases hx : XmlChar (numeral 10 ds)
        · rw [if_pos hx, ← store_eq] at h ⊢
          obtain ⟨out, h1, h2⟩ := ih _ hlen rfl hlr h
          rw [h2]
          exact ⟨_, .dec ds h0 hd hx h1, by rw [List.append_assoc]⟩
        · rw [if_neg hx] at h; cases h
      | hex ds h0 hd =>
        simp only [List.append_assoc] at h ⊢
        rw [← spell] at h ⊢
        rw [ev_hex s h0 hd] at h ⊢
        by_cases hx : XmlChar (numeral 16 ds)
        · rw [if_pos hx, ← store_eq] at h ⊢
          obtain ⟨out, h1, h2⟩ := ih _ hlen rfl hlr h
          rw [h2]
          exact ⟨_, .hex ds h0 hd hx h1, by rw [List.append_assoc]⟩
        · rw [if_neg hx] at h; cases h
    cases hlit with
    | nil => exact ⟨[], .nil, by rw [store_eq, ev_nil, List.append_nil]⟩
    | ref t w r hw hr => exact key _ rfl
    | char w r hw hr =>
      have hwl := x.e.isChar_len s.s.mb hw
      have hlen : r.length < n := by rw [← hb, List.length_append]; omega
      by_cases h1 : w = asc 0x26
      · exact key r (by rw [h1])
      by_cases h2 : w = asc 0x25
      · rw [h2, store_eq] at h
        exact absurd h (ev_pct s hp')
      by_cases h3 : w = asc 0x0A
      · subst h3
        rw [store_eq, ev_lf s, ← store_eq] at h ⊢
        obtain ⟨out, h4, h5⟩ := ih _ hlen rfl hr h
        rw [h5]
        exact ⟨_, .lf h4, by rw [List.append_assoc]; rfl⟩
      by_cases h4 : x.e.lineEnds asc = true ∧ w = asc 0x0D
      · obtain ⟨hl, rfl⟩ := h4
        by_cases h5 : ∃ r', r = asc 0x0A ++ r'
        · obtain ⟨r', rfl⟩ := h5
          have hr' : Lit x.e asc r' := by
            refine lit_strip s.s (us := [asc 0x0A]) ?_ (by simpa using hr)
            intro u hu
            simp only [List.mem_cons, List.not_mem_nil, or_false] at hu
            subst hu
            exact ⟨char_piece s.s (C33.ws_char s.s rfl), fun he => absurd (s.s.asc_inj he) (by decide)⟩
          rw [store_eq, ev_crlf s hl, ← store_eq] at h ⊢
          obtain ⟨out, h6, h7⟩ := ih _ (by simp only [List.length_append, l] at hlen; omega) rfl hr' h
          rw [h7]
          rw [hl] at h6 ⊢
          exact ⟨_, .crlf h6, by rw [List.append_assoc]; rfl⟩
        · have h6 : ∀ r', r ≠ asc 0x0A ++ r' := fun r' h => h5 ⟨r', h⟩
          rw [store_eq, ev_cr s hl h6, ← store_eq] at h ⊢
          obtain ⟨out, h7, h8⟩ := ih _ hlen rfl hr h
          rw [h8]
          rw [hl] at h7 ⊢
          exact ⟨_, .cr h6 h7, by rw [List.append_assoc]; rfl⟩
      · have h5 : x.e.lineEnds asc = true → w ≠ asc 0x0D := fun i1 i2 => h4 ⟨i1, i2⟩
        rw [store_eq, ev_char s ⟨hw, h1, h2, h3, h5⟩ hr.ev, ← store_eq] at h ⊢
        obtain ⟨out, h6, h7⟩ := ih _ hlen rfl hr h
        rw [h7]
        exact ⟨_, .char w hw h1 h2 h3 h5 h6, by rw [List.append_assoc]⟩

end

/-! ### Theorems -/

section
variable {c : PCfg} {ext : Ext} {pe : PEParsing} {sh : Shared} {x : XEnc} {asc : UInt8 → Buf} (s : XSupported x asc)
include s

/-- **C58, in the document.**  A literal is accepted as an entity value iff it has a replacement text, and then
that is the value stored; nothing is reported, and nothing else changes. -/
theorem document_value (hi : XSupported c.int asc1) (hie : c.int.e.lineEnds asc1 = false) (hp : c.isPE = false) (fuel : Nat)
    (hf : sh.D.par.length ≤ fuel) (opened : List Buf) {b : Buf} (hb : Lit x.e asc b) :
    ((storeEntityValue c ext pe fuel x false opened sh [] b).err = none ↔
      ∃ out, Repl (tabGet sh.D.par) c.int x asc (x.e.lineEnds asc) false opened b out) ∧
    ∀ out, Repl (tabGet sh.D.par) c.int x asc (x.e.lineEnds asc) false opened b out →
      storeEntityValue c ext pe fuel x false opened sh [] b = ⟨[], sh, out, none⟩ := by
  have h1 : ∀ out, Repl (tabGet sh.D.par) c.int x asc (x.e.lineEnds asc) false opened b out →
      storeEntityValue c ext pe fuel x false opened sh [] b = ⟨[], sh, out, none⟩ := fun out h =>
    complete hi hie rfl h s rfl false (by rw [hp]; rfl) fuel (Nat.le_trans (C34.avail_le _ _) hf) []
  refine ⟨⟨fun h => ?_, fun ⟨out, h⟩ => by rw [h1 out h]⟩, h1⟩
  obtain ⟨out, h2, _⟩ := sound s hp fuel opened _ rfl hb h
  exact ⟨out, h2⟩

/-- **C58, with parameter entities** (in external parameter entities, and in the replacement text of internal ones):
what the specification prescribes is stored.  The depth of the recursion is at most the number of parameter
entities declared. -/
theorem value (hi : XSupported c.int asc1) (hie : c.int.e.lineEnds asc1 = false) (internal : Bool) (fuel : Nat)
    (hf : sh.D.par.length ≤ fuel) (opened : List Buf) {b out : Buf}
    (h : Repl (tabGet sh.D.par) c.int x asc (x.e.lineEnds asc) (c.isPE || internal) opened b out) :
    storeEntityValue c ext pe fuel x internal opened sh [] b = ⟨[], sh, out, none⟩ :=
  complete hi hie rfl h s rfl internal rfl fuel (Nat.le_trans (C34.avail_le _ _) hf) []

/-- A literal has at most one replacement text. -/
theorem repl_unique {par : List (Buf × Entity)} {ns : Bool} {pes : Bool} {opened : List Buf} {b out out' : Buf}
    (h : Repl (tabGet par) (internalUtf8X ns) x asc (x.e.lineEnds asc) pes opened b out)
    (h' : Repl (tabGet par) (internalUtf8X ns) x asc (x.e.lineEnds asc) pes opened b out') : out = out' := by
  let c : PCfg := { c := {}, int := internalUtf8X ns, isPE := false }
  let ext : Ext := fun _ sh => ⟨[], sh, [], true⟩
  let sh : Shared := ⟨{ par := par }, ⟨false, [], [], 0⟩⟩
  have hi : XSupported c.int asc1 := .internalUtf8 ns
  have hie : c.int.e.lineEnds asc1 = false := C33.line_ends_internal ns
  have h1 := value (c := c) (ext := ext) (pe := .never) (sh := sh) s hi hie pes _ (Nat.le_refl _) opened h
  have h2 := value (c := c) (ext := ext) (pe := .never) (sh := sh) s hi hie pes _ (Nat.le_refl _) opened h'
  rw [h1] at h2
  exact congrArg EVal.pool h2

end

/-! ### Examples -/

def exCfg : PCfg := { c := {}, int := internalUtf8X false }
def exExt : Ext := fun _ sh => ⟨[], sh, [], true⟩
def exShared : Shared := ⟨{ par := [([0x70], ⟨some [0x78, 0x26], true, none, none, none, none⟩)] }, ⟨false, [], [], 0⟩⟩

/-- The example of XML 1.0, appendix D: `&#38;#38;` is `&#38;`; a line end of two characters; a general entity. -/
example : Repl (tabGet exShared.D.par) exCfg.int (utf8X false) asc1 true false []
    ([0x26, 0x23, 0x33, 0x38, 0x3B] ++ [0x23, 0x33, 0x38, 0x3B, 0x0D, 0x0A, 0x26, 0x6C, 0x74, 0x3B])
    [0x26, 0x23, 0x33, 0x38, 0x3B, 0x0A, 0x26, 0x6C, 0x74, 0x3B] := by
  have hs : XSupported (utf8X false) asc1 := .utf8 false
  have h := sound (c := exCfg) (ext := exExt) (pe := .never) (sh := exShared) hs rfl 1 [] _
    (b := [0x26, 0x23, 0x33, 0x38, 0x3B] ++ [0x23, 0x33, 0x38, 0x3B, 0x0D, 0x0A, 0x26, 0x6C, 0x74, 0x3B]) rfl
    (by
      have h1 : ∀ c ∈ ([0x26, 0x23, 0x33, 0x38, 0x3B, 0x23, 0x33, 0x38, 0x3B, 0x0D, 0x0A, 0x26, 0x6C, 0x74, 0x3B] : List UInt8),
          (utf8X false).e.IsChar [c] := by decide +kernel
      have h2 : (utf8X false).e.Chars
          ([0x26, 0x23, 0x33, 0x38, 0x3B, 0x23, 0x33, 0x38, 0x3B, 0x0D, 0x0A, 0x26, 0x6C, 0x74, 0x3B].map fun c => [c]) := by
        intro w hw
        obtain ⟨c, hc, rfl⟩ := List.mem_map.1 hw
        exact h1 c hc
      exact h2.lit) (pool := []) (by decide +kernel)
  obtain ⟨out, h1, h2⟩ := h
  have h3 : (storeEntityValue exCfg exExt .never 1 (utf8X false) false [] exShared []
      ([0x26, 0x23, 0x33, 0x38, 0x3B] ++ [0x23, 0x33, 0x38, 0x3B, 0x0D, 0x0A, 0x26, 0x6C, 0x74, 0x3B])).pool =
      [0x26, 0x23, 0x33, 0x38, 0x3B, 0x0A, 0x26, 0x6C, 0x74, 0x3B] := by decide +kernel
  rw [h2] at h3
  simp only [List.nil_append] at h3
  rw [h3] at h1
  exact h1

/-- In a parameter entity, `a%p;` with `p` standing for `x`. -/
example : ∃ par : List (Buf × Entity), Repl (tabGet par) exCfg.int (utf8X false) asc1 true true []
    (asc1 0x61 ++ (asc1 0x25 ++ ([[0x70]].flatten ++ (asc1 0x3B ++ [])))) ([0x61] ++ ([0x78] ++ [])) := by
  refine ⟨[([0x70], ⟨some [0x78], true, none, none, none, none⟩)], ?_⟩
  have hc : (utf8X false).e.IsChar (asc1 0x61) := by decide +kernel
  have hc' : (internalUtf8X false).e.IsChar [0x78] := by decide +kernel
  have e1 : converted (utf8X false) (asc1 0x61) = [0x61] := by decide +kernel
  have e2 : converted exCfg.int [0x78] = [0x78] := by decide +kernel
  have hp : converted (utf8X false) [[0x70]].flatten = [0x70] := by decide +kernel
  have hn : (utf8X false).e.Name [[0x70]] := ⟨[0x70], [], rfl, by decide +kernel, by simp⟩
  rw [← e1]
  refine .char _ hc (by decide) (by decide) (by decide) (fun _ => by decide) ?_
  refine .param [[0x70]] ⟨some [0x78], true, none, none, none, none⟩ [0x78] [0x78] hn ?_ (by simp) rfl rfl ?_ .nil
  · rw [hp]; rfl
  · have := Repl.char (par := tabGet [([0x70], ⟨some [0x78], true, none, none, none, none⟩)]) (int := exCfg.int) (x := exCfg.int)
      (asc := asc1) (le := false) (pes := true) (op := converted (utf8X false) [[0x70]].flatten :: []) [0x78] hc' (by decide)
      (by decide) (by decide) (by simp) .nil
    rw [e2] at this
    exact this

/-- A parameter-entity reference in the document is refused. -/
example : ¬ ∃ out, Repl (tabGet exShared.D.par) exCfg.int (utf8X false) asc1 ((utf8X false).e.lineEnds asc1) false [] [0x25, 0x70, 0x3B] out := by
  have hs : XSupported (utf8X false) asc1 := .utf8 false
  rintro ⟨out, h⟩
  have := complete (c := exCfg) (ext := exExt) (pe := .never) (sh := exShared) (.internalUtf8 false) (C33.line_ends_internal false) rfl h
    hs rfl false rfl 5 (by decide) []
  have h2 : (storeEntityValue exCfg exExt .never 5 (utf8X false) false [] exShared [] [0x25, 0x70, 0x3B]).err ≠ none := by
    decide +kernel
  rw [this] at h2
  exact h2 rfl

end Verif.C58
