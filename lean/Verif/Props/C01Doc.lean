import Verif.Props.C62
import Verif.Props.C01
import Verif.Props.C44

/-! C01 for the parser: what an ill-formed sequence does to a parse. -/

set_option autoImplicit false

namespace Verif.C01
open C43 C53 C61 Spec Verif

/-- The verdict of a tokenizer on a text that ends with the ill-formed `b`. -/
def Bad (b : Buf) (r : Res) : Prop := r.tok = .INVALID ∨ (r.tok = .PARTIAL_CHAR ∧ b.length < 4)

section
variable {ns : Bool} {b : Buf}

theorem ill_length (hb : b ≠ []) : 1 ≤ b.length := by
  cases b with
  | nil => exact absurd rfl hb
  | cons => simp

theorem ill_not {d : UInt8} (hd : d < 0x80) (hx : XmlChar d.toNat) (h : IllFormed b) (r : Buf) : b ≠ d :: r := by
  have := h d.toNat r hx
  rwa [(utf8_ascii d.toNat (by simpa using UInt8.lt_iff_toNat_lt.1 hd)).2 rfl, UInt8.ofNat_toNat] at this

theorem char_utf8 {c : Nat} (h : XmlChar c) : (utf8Enc ns).IsChar (utf8 c) := (utf8Enc_isChar ns _).2 ⟨c, h, rfl⟩

theorem utf8_ne {c : Nat} {d : UInt8} (hd : d < 0x80) (h : c ≠ d.toNat) : utf8 c ≠ [d] :=
  fun h' => h ((utf8_ascii d.toNat (by simpa using UInt8.lt_iff_toNat_lt.1 hd)).1 (by rw [UInt8.ofNat_toNat]; exact h'))

theorem not_infix_cons {α : Type} {l : List α} {a : α} {cs : List α} (h : ¬ l <:+: a :: cs) : ¬ l <:+: cs := by
  rintro ⟨p, q, h'⟩
  exact h ⟨a :: p, q, by simp [← h']⟩

variable (hb : b ≠ []) (h : IllFormed b)
include hb h

/-- Literals. -/
theorem lit_bad {q : ByteType} {d : UInt8} (hq : q = .QUOT ∧ d = 0x22 ∨ q = .APOS ∧ d = 0x27) (cs : List Nat) (hc : ∀ c ∈ cs, XmlChar c)
    (hd : d.toNat ∉ cs) (p : Nat) : Bad b (scanLit (utf8Enc ns) q (utf8s cs ++ b) p) := by
  have s := Supported.utf8 ns
  have hl := ill_length hb
  induction cs generalizing p with
  | nil =>
    obtain ⟨r, h1, h2⟩ := invalidCases_ill ns hl h p
    rw [show utf8s [] ++ b = b from rfl, scanLit, if_neg (by simp only [show (utf8Enc ns).mb = 1 from rfl]; omega), h1]
    exact h2
  | cons c cs ih =>
    have ih := ih (fun c h => hc c (by simp [h])) (fun h => hd (by simp [h]))
    have hw := char_utf8 (ns := ns) (hc c (by simp))
    have hlen := (utf8Enc ns).isChar_len s.mb hw
    rw [C51.utf8s_cons, List.append_assoc, scanLit, if_neg (by rw [List.length_append]; omega)]
    cases hlead : (utf8Enc ns).isLead (utf8 c) with
    | true =>
      obtain ⟨h1, h2⟩ := invalidCases_lead s.ok s.mb hw hlead (utf8s cs ++ b) p
      rw [h1]
      simp only [show (utf8 c).length - 1 + 1 = (utf8 c).length by omega, List.drop_left]
      exact ih _
    | false =>
      rw [invalidCases_nl s.ok s.mb hw hlead]
      have hl1 := (utf8Enc ns).isChar_len_nl hw hlead
      have hne : c ≠ d.toNat := fun h => hd (by simp [h])
      have hop : (utf8Enc ns).bt (utf8 c ++ (utf8s cs ++ b)) ≠ q := by
        intro h
        rcases hq with ⟨rfl, rfl⟩ | ⟨rfl, rfl⟩
        · exact utf8_ne (by decide) hne ((char_bt s hw (t := .QUOT) rfl _).1 h)
        · exact utf8_ne (by decide) hne ((char_bt s hw (t := .APOS) rfl _).1 h)
      simp only [if_neg hop, drop_char hl1]
      split <;> exact ih _

/-- Processing instructions. -/
theorem pi_bad (t : Tok) (cs : List Nat) (hc : ∀ c ∈ cs, XmlChar c) (hn : ¬ [0x3F, 0x3E] <:+: cs) (p : Nat) :
    Bad b (scanPiData (utf8Enc ns) t (utf8s cs ++ b) p) := by
  have s := Supported.utf8 ns
  have hl := ill_length hb
  induction cs generalizing p with
  | nil =>
    obtain ⟨r, h1, h2⟩ := invalidCases_ill ns hl h p
    rw [show utf8s [] ++ b = b from rfl, scanPiData, if_neg (by simp only [show (utf8Enc ns).mb = 1 from rfl]; omega), h1]
    exact h2
  | cons c cs ih =>
    have ih := ih (fun c h => hc c (by simp [h])) (not_infix_cons hn)
    have hw := char_utf8 (ns := ns) (hc c (by simp))
    have hlen := (utf8Enc ns).isChar_len s.mb hw
    rw [C51.utf8s_cons, List.append_assoc, scanPiData, if_neg (by rw [List.length_append]; omega)]
    cases hlead : (utf8Enc ns).isLead (utf8 c) with
    | true =>
      obtain ⟨h1, h2⟩ := invalidCases_lead s.ok s.mb hw hlead (utf8s cs ++ b) p
      rw [h1]
      simp only [show (utf8 c).length - 1 + 1 = (utf8 c).length by omega, List.drop_left]
      exact ih _
    | false =>
      rw [invalidCases_nl s.ok s.mb hw hlead]
      have hl1 := (utf8Enc ns).isChar_len_nl hw hlead
      simp only [drop_char hl1]
      split
      · rename_i hq
        have hcq := (utf8_ascii 0x3F (by decide)).1 ((char_bt s hw (t := .QUEST) rfl _).1 hq)
        rw [if_neg (by rw [List.length_append]; simp only [show (utf8Enc ns).mb = 1 from rfl]; omega)]
        split
        · rename_i hm
          exfalso
          have h1 := mat_split s (b := utf8s cs ++ b) (c := 0x3E) (by decide) (by rw [List.length_append]; simp only [show (utf8Enc ns).mb = 1 from rfl]; omega) hm
          cases cs with
          | nil => exact ill_not (d := 0x3E) (by decide) (by decide) h _ h1
          | cons c2 cs =>
            refine hn ⟨[], cs, ?_⟩
            have h2 : utf8 c2 ++ (utf8s cs ++ b) = [0x3E] ++ List.drop 1 (utf8 c2 ++ (utf8s cs ++ b)) := by
              rw [C51.utf8s_cons, List.append_assoc] at h1
              exact h1
            have h3 := (char_bt s (char_utf8 (ns := ns) (hc c2 (by simp))) (t := .GT) rfl (utf8s cs ++ b)).1 (by
              rw [h2]; exact asc_bt s (t := .GT) rfl _)
            rw [hcq, (utf8_ascii 0x3E (by decide)).1 h3]
            rfl
        · exact ih _
      · exact ih _

/-- Comments. -/
theorem comment_bad (cs : List Nat) (hc : ∀ c ∈ cs, XmlChar c) (hn : ¬ [0x2D, 0x2D] <:+: cs) (p : Nat) :
    Bad b (scanCommentLoop (utf8Enc ns) (utf8s cs ++ b) p) := by
  have s := Supported.utf8 ns
  have hl := ill_length hb
  induction cs generalizing p with
  | nil =>
    obtain ⟨r, h1, h2⟩ := invalidCases_ill ns hl h p
    rw [show utf8s [] ++ b = b from rfl, scanCommentLoop, if_neg (by simp only [show (utf8Enc ns).mb = 1 from rfl]; omega), h1]
    exact h2
  | cons c cs ih =>
    have ih := ih (fun c h => hc c (by simp [h])) (not_infix_cons hn)
    have hw := char_utf8 (ns := ns) (hc c (by simp))
    have hlen := (utf8Enc ns).isChar_len s.mb hw
    rw [C51.utf8s_cons, List.append_assoc, scanCommentLoop, if_neg (by rw [List.length_append]; omega)]
    cases hlead : (utf8Enc ns).isLead (utf8 c) with
    | true =>
      obtain ⟨h1, h2⟩ := invalidCases_lead s.ok s.mb hw hlead (utf8s cs ++ b) p
      rw [h1]
      simp only [show (utf8 c).length - 1 + 1 = (utf8 c).length by omega, List.drop_left]
      exact ih _
    | false =>
      rw [invalidCases_nl s.ok s.mb hw hlead]
      have hl1 := (utf8Enc ns).isChar_len_nl hw hlead
      simp only [drop_char hl1]
      split
      · rename_i hq
        have hcq := (utf8_ascii 0x2D (by decide)).1 ((char_bt s hw (t := .MINUS) rfl _).1 hq)
        rw [if_neg (by rw [List.length_append]; simp only [show (utf8Enc ns).mb = 1 from rfl]; omega)]
        split
        · rename_i hm
          exfalso
          have h1 := mat_split s (b := utf8s cs ++ b) (c := 0x2D) (by decide) (by rw [List.length_append]; simp only [show (utf8Enc ns).mb = 1 from rfl]; omega) hm
          cases cs with
          | nil => exact ill_not (d := 0x2D) (by decide) (by decide) h _ h1
          | cons c2 cs =>
            refine hn ⟨[], cs, ?_⟩
            have h2 : utf8 c2 ++ (utf8s cs ++ b) = [0x2D] ++ List.drop 1 (utf8 c2 ++ (utf8s cs ++ b)) := by
              rw [C51.utf8s_cons, List.append_assoc] at h1
              exact h1
            have h3 := (char_bt s (char_utf8 (ns := ns) (hc c2 (by simp))) (t := .MINUS) rfl (utf8s cs ++ b)).1 (by
              rw [h2]; exact asc_bt s (t := .MINUS) rfl _)
            rw [hcq, (utf8_ascii 0x2D (by decide)).1 h3]
            rfl
        · exact ih _
      · exact ih _

theorem target_bad (tgt : Buf) (p0 : Nat) (ws : List Buf) (hw : ∀ w ∈ ws, (utf8Enc ns).NameChar w) {d : UInt8} (hd : isWS d = true)
    (cs : List Nat) (hc : ∀ c ∈ cs, XmlChar c) (hn : ¬ [0x3F, 0x3E] <:+: cs) (p : Nat) :
    Bad b (scanPiTarget (utf8Enc ns) tgt p0 (ws.flatten ++ ([d] ++ (utf8s cs ++ b))) p) := by
  have s := Supported.utf8 ns
  induction ws generalizing p with
  | nil =>
    have hb' := s.class_app spaceClass hd (utf8s cs ++ b)
    have hp (t) := pi_bad (ns := ns) hb h t cs hc hn
    rw [List.flatten_nil, List.nil_append, scanPiTarget, if_neg (by simp only [show (utf8Enc ns).mb = 1 from rfl]; simp),
      nameCases_other _ (by
        rw [show [d] = asc1 d from rfl]; revert hb'; generalize (utf8Enc ns).bt _ = y; intro hb'; cases y <;> first | rfl | exact absurd hb' (by decide))]
    rw [show asc1 d = [d] from rfl] at hb'
    simp only [show (utf8Enc ns).mb = 1 from rfl, List.singleton_append, List.drop_succ_cons, List.drop_zero] at hb' ⊢
    revert hb'
    generalize (utf8Enc ns).bt _ = y
    intro hb'
    cases y <;> first | exact absurd hb' (by decide) | (simp only; split <;> first | exact hp _ _ | exact .inl rfl)
  | cons w ws ih =>
    have h1 := hw w (by simp)
    rw [List.flatten_cons, List.append_assoc]
    obtain ⟨k, hk, hk2⟩ := nameCases_char s.ok s.mb h1 (ws.flatten ++ ([d] ++ (utf8s cs ++ b))) p
    have := h1.len s.mb
    rw [scanPiTarget, if_neg (by rw [List.length_append]; omega), hk]
    simp only
    rw [← hk2, List.drop_left' rfl]
    exact ih (fun w h => hw w (by simp [h])) _

theorem piText_bad {target : List Buf} (ht : (utf8Enc ns).Name target) {d : UInt8} (hd : isWS d = true)
    (cs : List Nat) (hc : ∀ c ∈ cs, XmlChar c) (hn : ¬ [0x3F, 0x3E] <:+: cs) (p : Nat) :
    Bad b (scanPi (utf8Enc ns) (target.flatten ++ ([d] ++ (utf8s cs ++ b))) p) := by
  have s := Supported.utf8 ns
  obtain ⟨w, vs, rfl, h1, h2⟩ := ht
  rw [List.flatten_cons, List.append_assoc]
  obtain ⟨k, hk, hk2⟩ := nmstrtCases_char s.ok s.mb h1 (vs.flatten ++ ([d] ++ (utf8s cs ++ b))) p
  have := h1.len s.mb
  rw [scanPi, if_neg (by rw [List.length_append]; omega), hk]
  simp only
  rw [← hk2, List.drop_left' rfl]
  exact target_bad hb h _ _ vs h2 hd cs hc hn _

/-- A comment, before its end. -/
theorem contentComment_bad (cs : List Nat) (hc : ∀ c ∈ cs, XmlChar c) (hn : ¬ [0x2D, 0x2D] <:+: cs) :
    Bad b (contentTok (utf8Enc ns) ([0x3C, 0x21, 0x2D, 0x2D] ++ (utf8s cs ++ b))) ∧
    Bad b (prologTok (utf8Enc ns) ([0x3C, 0x21, 0x2D, 0x2D] ++ (utf8s cs ++ b))) := by
  have hp := comment_bad (ns := ns) hb h cs hc hn
  have bt (t : ByteType) (d : UInt8) (hd : t.single = some d) (r : Buf) : (utf8Enc ns).bt (d :: r) = t := asc_bt (Supported.utf8 ns) hd r
  have hm (r : Buf) : (utf8Enc ns).charMatches (0x2D :: r) 0x2D = true := asc_mat (Supported.utf8 ns) _ (by decide) r
  constructor
  · rw [contentTok_eq (by simp [show (utf8Enc ns).mb = 1 from rfl]), truncBuf_one rfl, contentTokBody]
    have hi := invalidCases_asc (Supported.utf8 ns) (t := .LT) rfl (0x21 :: 0x2D :: 0x2D :: (utf8s cs ++ b)) 0
    simp only [asc1, List.cons_append, List.nil_append] at hi ⊢
    rw [hi]
    simp only [bt .LT 0x3C rfl, show (utf8Enc ns).mb = 1 from rfl, List.drop_succ_cons, List.drop_zero]
    rw [scanLt, if_neg (by simp [show (utf8Enc ns).mb = 1 from rfl]), nmstrtCases_other _ (by rw [bt .EXCL 0x21 rfl]; rfl)]
    simp only [bt .EXCL 0x21 rfl, bt .MINUS 0x2D rfl, show (utf8Enc ns).mb = 1 from rfl, List.drop_succ_cons, List.drop_zero]
    rw [if_neg (by simp), scanComment, if_pos (by simp [show (utf8Enc ns).mb = 1 from rfl]), hm]
    exact hp _
  · rw [prologTok_eq (by simp [show (utf8Enc ns).mb = 1 from rfl]), truncBuf_one rfl, prologTokBody]
    simp only [List.cons_append, List.nil_append]
    simp only [bt .LT 0x3C rfl, bt .EXCL 0x21 rfl, show (utf8Enc ns).mb = 1 from rfl, List.drop_succ_cons, List.drop_zero]
    rw [if_neg (by simp), scanDecl, if_neg (by simp [show (utf8Enc ns).mb = 1 from rfl])]
    simp only [bt .MINUS 0x2D rfl, show (utf8Enc ns).mb = 1 from rfl, List.drop_succ_cons, List.drop_zero]
    rw [scanComment, if_pos (by simp [show (utf8Enc ns).mb = 1 from rfl]), hm]
    exact hp _

/-- A processing instruction, before its end. -/
theorem contentPi_bad {target : List Buf} (ht : (utf8Enc ns).Name target) {d : UInt8} (hd : isWS d = true)
    (cs : List Nat) (hc : ∀ c ∈ cs, XmlChar c) (hn : ¬ [0x3F, 0x3E] <:+: cs) :
    Bad b (contentTok (utf8Enc ns) ([0x3C, 0x3F] ++ (target.flatten ++ ([d] ++ (utf8s cs ++ b))))) ∧
    Bad b (prologTok (utf8Enc ns) ([0x3C, 0x3F] ++ (target.flatten ++ ([d] ++ (utf8s cs ++ b))))) := by
  have hp := piText_bad (ns := ns) hb h ht hd cs hc hn
  have bt (t : ByteType) (d : UInt8) (hd : t.single = some d) (r : Buf) : (utf8Enc ns).bt (d :: r) = t := asc_bt (Supported.utf8 ns) hd r
  generalize target.flatten ++ ([d] ++ (utf8s cs ++ b)) = z at hp ⊢
  constructor
  · rw [contentTok_eq (by simp [show (utf8Enc ns).mb = 1 from rfl]), truncBuf_one rfl, contentTokBody]
    have hi := invalidCases_asc (Supported.utf8 ns) (t := .LT) rfl (0x3F :: z) 0
    simp only [asc1, List.cons_append, List.nil_append] at hi ⊢
    rw [hi]
    simp only [bt .LT 0x3C rfl, show (utf8Enc ns).mb = 1 from rfl, List.drop_succ_cons, List.drop_zero]
    rw [scanLt, if_neg (by simp [show (utf8Enc ns).mb = 1 from rfl]), nmstrtCases_other _ (by rw [bt .QUEST 0x3F rfl]; rfl)]
    simp only [bt .QUEST 0x3F rfl, show (utf8Enc ns).mb = 1 from rfl, List.drop_succ_cons, List.drop_zero]
    exact hp _
  · rw [prologTok_eq (by simp [show (utf8Enc ns).mb = 1 from rfl]), truncBuf_one rfl, prologTokBody]
    simp only [List.cons_append, List.nil_append]
    simp only [bt .LT 0x3C rfl, bt .QUEST 0x3F rfl, show (utf8Enc ns).mb = 1 from rfl, List.drop_succ_cons, List.drop_zero]
    rw [if_neg (by simp)]
    exact hp _

/-- A literal in a declaration, before its end. -/
theorem prologLit_bad {d : UInt8} (hd : d = 0x22 ∨ d = 0x27) (cs : List Nat) (hc : ∀ c ∈ cs, XmlChar c) (hn : d.toNat ∉ cs) :
    Bad b (prologTok (utf8Enc ns) (d :: (utf8s cs ++ b))) := by
  have bt (t : ByteType) (d : UInt8) (hd : t.single = some d) (r : Buf) : (utf8Enc ns).bt (d :: r) = t := asc_bt (Supported.utf8 ns) hd r
  rw [prologTok_eq (by simp [show (utf8Enc ns).mb = 1 from rfl]), truncBuf_one rfl, prologTokBody]
  rcases hd with rfl | rfl
  · simp only [bt .QUOT 0x22 rfl, show (utf8Enc ns).mb = 1 from rfl, List.drop_succ_cons, List.drop_zero]
    exact lit_bad hb h (.inl ⟨rfl, rfl⟩) cs hc hn _
  · simp only [bt .APOS 0x27 rfl, show (utf8Enc ns).mb = 1 from rfl, List.drop_succ_cons, List.drop_zero]
    exact lit_bad hb h (.inr ⟨rfl, rfl⟩) cs hc hn _

/-- Attribute values. -/
theorem value_bad {op : ByteType} {q : UInt8} (hq : op = .QUOT ∧ q = 0x22 ∨ op = .APOS ∧ q = 0x27) {v : Buf} (hv : Value (utf8Enc ns) asc1 q v) (p : Nat) :
    Bad b (scanAtts (utf8Enc ns) (.value op) (v ++ b) p) := by
  have s := Supported.utf8 ns
  have hl := ill_length hb
  rw [atts_value s (q := q) (by rcases hq with ⟨rfl, rfl⟩ | ⟨rfl, rfl⟩ <;> rfl) (by rcases hq with ⟨rfl, rfl⟩ | ⟨rfl, rfl⟩ <;> decide) hv]
  obtain ⟨r, h1, h2⟩ := invalidCases_ill ns hl h (p + v.length)
  have hop : (utf8Enc ns).bt b ≠ op := by
    intro h3
    rcases hq with ⟨rfl, rfl⟩ | ⟨rfl, rfl⟩ <;> simp [invalidCases, h3] at h1
  rw [scanAtts, if_neg (by simp only [show (utf8Enc ns).mb = 1 from rfl]; omega)]
  simp only [if_neg hop, h1]
  exact h2

omit hb h in
/-- An attribute specification up to within its value. -/
def half (a : AttrSrc) : Buf :=
  spell asc1 a.ws ++ (a.name.flatten ++ (spell asc1 a.s1 ++ (asc1 0x3D ++ (spell asc1 a.s2 ++ (asc1 a.q ++ a.value)))))

theorem ws_bad {a : AttrSrc} (ha : a.Valid (utf8Enc ns) asc1) (p : Nat) :
    Bad b (scanAtts (utf8Enc ns) .ws (a.name.flatten ++ (spell asc1 a.s1 ++ (asc1 0x3D ++ (spell asc1 a.s2 ++ (asc1 a.q ++ (a.value ++ b)))))) p) := by
  have s := Supported.utf8 ns
  rw [run_qname s ha.name ha.s1, run_ws s .toOpen (fun c hc r p => atts_toOpen_ws s hc r p) _ ha.s2]
  have hv := ha.value
  rcases ha.q with hq | hq <;> rw [hq] at hv ⊢
  · rw [atts_toOpen_q s (op := .QUOT) (.inl rfl) rfl]; exact value_bad hb h (.inl ⟨rfl, rfl⟩) hv _
  · rw [atts_toOpen_q s (op := .APOS) (.inr rfl) rfl]; exact value_bad hb h (.inr ⟨rfl, rfl⟩) hv _

theorem atts_bad (as : List AttrSrc) (has : ∀ a ∈ as, a.Valid (utf8Enc ns) asc1) {a : AttrSrc} (ha : a.Valid (utf8Enc ns) asc1) (p : Nat) :
    Bad b (scanAtts (utf8Enc ns) .close (attsText asc1 as ++ (half a ++ b)) p) := by
  have s := Supported.utf8 ns
  have sp {c : UInt8} {cs : List UInt8} : spell asc1 (c :: cs) = asc1 c ++ spell asc1 cs := by simp [spell]
  induction as generalizing p with
  | nil =>
    obtain ⟨c, cs, hcs⟩ := List.exists_cons_of_ne_nil ha.ws1
    have hw := ha.ws
    rw [hcs] at hw
    simp only [show attsText asc1 [] = [] from rfl, List.nil_append, half, hcs, sp, List.append_assoc]
    rw [atts_close_ws s (hw c List.mem_cons_self), run_ws s .ws (fun c hc r p => atts_ws_ws s hc r p) cs
          (fun d hd => hw d (List.mem_cons_of_mem _ hd))]
    exact ws_bad hb h ha _
  | cons a1 as ih =>
    have ha1 := has a1 List.mem_cons_self
    obtain ⟨op, ho, hq, hne⟩ : ∃ op : ByteType, (op = .QUOT ∨ op = .APOS) ∧ op.single = some a1.q ∧
        op ≠ .AMP := by
      rcases ha1.q with h | h <;> rw [h]
      · exact ⟨.QUOT, .inl rfl, rfl, by decide⟩
      · exact ⟨.APOS, .inr rfl, rfl, by decide⟩
    obtain ⟨c, cs, hcs⟩ := List.exists_cons_of_ne_nil ha1.ws1
    have hw := ha1.ws
    rw [hcs] at hw
    have h1 : attsText asc1 (a1 :: as) = a1.text asc1 ++ attsText asc1 as := by simp [attsText]
    have ih := ih (fun a h => has a (List.mem_cons_of_mem _ h))
    rw [h1]
    generalize half a ++ b = z at ih ⊢
    simp only [AttrSrc.text, AttrSrc.tail, hcs, sp, List.append_assoc]
    rw [atts_close_ws s (hw c List.mem_cons_self),
      run_ws s .ws (fun c hc r p => atts_ws_ws s hc r p) cs
          (fun d hd => hw d (List.mem_cons_of_mem _ hd)),
      run_qname s ha1.name ha1.s1, run_ws s .toOpen (fun c hc r p => atts_toOpen_ws s hc r p) _ ha1.s2,
      atts_toOpen_q s ho hq, atts_value s hq hne ha1.value, atts_value_close s hq]
    exact ih _

theorem stag_bad (hc : Bool) (as : List AttrSrc) (has : ∀ a ∈ as, a.Valid (utf8Enc ns) asc1) {a : AttrSrc} (ha : a.Valid (utf8Enc ns) asc1) (p : Nat) :
    Bad b (scanStartTag (utf8Enc ns) (.name hc) (attsText asc1 as ++ (half a ++ b)) p) := by
  have s := Supported.utf8 ns
  have sp {c : UInt8} {cs : List UInt8} : spell asc1 (c :: cs) = asc1 c ++ spell asc1 cs := by simp [spell]
  cases as with
  | nil =>
    obtain ⟨c, cs, hcs⟩ := List.exists_cons_of_ne_nil ha.ws1
    have hw := ha.ws
    rw [hcs] at hw
    simp only [show attsText asc1 [] = [] from rfl, List.nil_append, half, hcs, sp, List.append_assoc]
    rw [stag_name_ws s (hw c List.mem_cons_self), stag_run_ws s cs (fun d hd => hw d (List.mem_cons_of_mem _ hd)), stag_ws_name s ha.name]
    exact ws_bad hb h ha _
  | cons a1 as =>
    have ha1 := has a1 List.mem_cons_self
    obtain ⟨op, ho, hq, hne⟩ : ∃ op : ByteType, (op = .QUOT ∨ op = .APOS) ∧ op.single = some a1.q ∧
        op ≠ .AMP := by
      rcases ha1.q with h | h <;> rw [h]
      · exact ⟨.QUOT, .inl rfl, rfl, by decide⟩
      · exact ⟨.APOS, .inr rfl, rfl, by decide⟩
    obtain ⟨c, cs, hcs⟩ := List.exists_cons_of_ne_nil ha1.ws1
    have hw := ha1.ws
    rw [hcs] at hw
    have h1 : attsText asc1 (a1 :: as) = a1.text asc1 ++ attsText asc1 as := by simp [attsText]
    have ih := atts_bad hb h as (fun a h => has a (List.mem_cons_of_mem _ h)) ha
    rw [h1]
    generalize half a ++ b = z at ih ⊢
    simp only [AttrSrc.text, AttrSrc.tail, hcs, sp, List.append_assoc]
    rw [stag_name_ws s (hw c List.mem_cons_self), stag_run_ws s cs (fun d hd => hw d (List.mem_cons_of_mem _ hd)), stag_ws_name s ha1.name,
      run_qname s ha1.name ha1.s1, run_ws s .toOpen (fun c hc r p => atts_toOpen_ws s hc r p) _ ha1.s2,
      atts_toOpen_q s ho hq, atts_value s hq hne ha1.value, atts_value_close s hq]
    exact ih _

theorem lt_bad {name : List Buf} (hn : QName (utf8Enc ns) asc1 name) (as : List AttrSrc) (has : ∀ a ∈ as, a.Valid (utf8Enc ns) asc1) {a : AttrSrc}
    (ha : a.Valid (utf8Enc ns) asc1) (p : Nat) : Bad b (scanLt (utf8Enc ns) (name.flatten ++ (attsText asc1 as ++ (half a ++ b))) p) := by
  have s := Supported.utf8 ns
  have ih (hc) := stag_bad hb h hc as has ha
  generalize attsText asc1 as ++ (half a ++ b) = z at ih ⊢
  have start : ∀ {w : Buf}, (utf8Enc ns).NmstrtChar w → ∀ r, scanLt (utf8Enc ns) (w ++ r) p =
      scanStartTag (utf8Enc ns) (.name false) r (p + w.length) := by
    intro w hw r
    obtain ⟨k, h1, h2⟩ := nmstrtCases_char s.ok s.mb hw r p
    have := hw.len s.mb
    rw [scanLt, if_neg (by rw [List.length_append]; omega)]
    simp only [h1]
    rw [← h2, List.drop_left]
  cases hn with
  | plain _ h =>
    obtain ⟨w, vs, rfl, i1, i2⟩ := h
    rw [List.flatten_cons, List.append_assoc, start i1, stag_names s _ _ i2]
    exact ih _ _
  | pair us vs h1 h2 h3 =>
    obtain ⟨w, us, rfl, i1, i2⟩ := h1
    obtain ⟨w2, vs, rfl, j1, j2⟩ := h2
    simp only [List.flatten_append, List.flatten_cons, List.append_assoc]
    rw [start i1, stag_names s _ _ i2, stag_colon1 s h3, stag_colon2 s j1, stag_names s _ _ j2]
    exact ih _ _

theorem contentTag_bad {name : List Buf} (hn : QName (utf8Enc ns) asc1 name) (as : List AttrSrc) (has : ∀ a ∈ as, a.Valid (utf8Enc ns) asc1)
    {a : AttrSrc} (ha : a.Valid (utf8Enc ns) asc1) :
    Bad b (contentTok (utf8Enc ns) (asc1 0x3C ++ (name.flatten ++ (attsText asc1 as ++ (half a ++ b))))) := by
  rw [contentTok_eq (by simp [show (utf8Enc ns).mb = 1 from rfl, asc1]), truncBuf_one rfl, contentTokBody,
    invalidCases_asc (Supported.utf8 ns) (t := .LT) rfl]
  simp only [asc_bt (Supported.utf8 ns) (t := .LT) rfl]
  exact lt_bad hb h hn as has ha _

end

/-! ### The parser -/

/-- The last call of XML_Parse fails, at the ill-formed `b`. -/
def Fails {σ : Type} (b : Buf) (o : Out σ) : Prop := o = .err .INVALID_TOKEN ∨ (o = .err .PARTIAL_CHAR ∧ b.length < 4)

section
variable {c : Cfg} {D : Dtd} {int : XEnc} {k : Nat} {opened : List Buf} {start : Nat} {ns : Bool} {b : Buf}

theorem run_bad {s : CState} {v : Bool} {z : Buf} (h : Bad b (s.mode.tok (utf8Enc ns) z)) :
    (run (sem c D int k (utf8X ns) opened start) (utf8Enc ns) false v s z).1 = [] ∧
    Fails b (run (sem c D int k (utf8X ns) opened start) (utf8Enc ns) false v s z).2 := by
  rw [run.eq_def, sem_mode]
  simp only
  rcases h with h | ⟨h, h'⟩
  · rw [h]
    cases s.mode <;> exact ⟨rfl, .inl rfl⟩
  · rw [h]
    cases s.mode <;> exact ⟨rfl, .inr ⟨rfl, h'⟩⟩

variable (hb : b ≠ []) (h : IllFormed b)
include hb h

omit hb in
/-- An ASCII character at the beginning of the text is one of the text. -/
theorem head_ascii {d : UInt8} (hd : d < 0x80) (hx : XmlChar d.toNat) {cs : List Nat} (hc : ∀ c ∈ cs, XmlChar c) {r : Buf}
    (hr : utf8s cs ++ b = d :: r) : ∃ cs', cs = d.toNat :: cs' ∧ r = utf8s cs' ++ b := by
  have hu : utf8 d.toNat = [d] := by
    rw [(utf8_ascii d.toNat (by simpa using UInt8.lt_iff_toNat_lt.1 hd)).2 rfl, UInt8.ofNat_toNat]
  cases cs with
  | nil => exact absurd hr (ill_not hd hx h r)
  | cons c cs =>
    rw [C51.utf8s_cons, List.append_assoc] at hr
    have h2 : utf8 c ++ (utf8s cs ++ b) = utf8 d.toNat ++ r := by rw [hu]; exact hr
    have h3 := C44.char_unique (Supported.utf8 false).ok (Supported.utf8 false).mb (char_utf8 (hc c (by simp))) (char_utf8 hx) h2
    have : c = d.toNat := (utf8_ascii d.toNat (by simpa using UInt8.lt_iff_toNat_lt.1 hd)).1 (by rw [UInt8.ofNat_toNat, h3, hu])
    subst this
    rw [hu] at hr
    exact ⟨cs, rfl, (List.cons.inj hr).2.symm⟩

omit hb in
theorem text_fails {P : Nat → Prop} (R : Buf → Out CState) (h0 : Fails b (R b))
    (h1 : ∀ c z, P c → (utf8Enc ns).Plain asc1 (utf8 c) → ¬ StartsClose asc1 (utf8 c ++ z) → R (utf8 c ++ z) = R z)
    (h2 : ∀ z, R (0x0A :: z) = R z) (h3 : ∀ z, R (0x0D :: 0x0A :: z) = R z) (h4 : ∀ z, (∀ z', z ≠ 0x0A :: z') → R (0x0D :: z) = R z)
    (cs : List Nat) (hc : ∀ c ∈ cs, XmlChar c ∧ P c) (hn : ¬ [0x5D, 0x5D, 0x3E] <:+: cs) :
    Fails b (R (utf8s cs ++ b)) := by
  induction hl : cs.length using Nat.strongRecOn generalizing cs with
  | _ n ih =>
  cases cs with
  | nil => exact h0
  | cons c cs =>
    have hx : ∀ c ∈ cs, XmlChar c := fun c h => (hc c (by simp [h])).1
    have ih1 := ih cs.length (by rw [← hl]; simp) cs (fun c h => hc c (by simp [h])) (not_infix_cons hn) rfl
    obtain ⟨j1, j2⟩ := hc c (by simp)
    rw [C51.utf8s_cons, List.append_assoc]
    by_cases hlf : c = 0x0A
    · subst hlf
      rw [show utf8 0x0A = [0x0A] from rfl, List.singleton_append, h2]; exact ih1
    by_cases hcr : c = 0x0D
    · subst hcr
      rw [show utf8 0x0D = [0x0D] from rfl, List.singleton_append]
      by_cases hz : ∃ z, utf8s cs ++ b = 0x0A :: z
      · obtain ⟨z, hz⟩ := hz
        obtain ⟨cs', rfl, rfl⟩ := head_ascii h (d := 0x0A) (by decide) (by decide) hx hz
        rw [hz, h3]
        exact ih cs'.length (by rw [← hl]; simp only [List.length_cons]; omega) cs' (fun c h => hc c (by simp [h])) (not_infix_cons (not_infix_cons hn)) rfl
      · rw [h4 _ (fun z h => hz ⟨z, h⟩)]; exact ih1
    · rw [h1 _ _ j2]
      · exact ih1
      · refine ⟨char_utf8 j1, utf8_ne (d := 0x0A) (by decide) hlf, fun h => absurd h (utf8_ne (d := 0x0D) (by decide) hcr)⟩
      · rintro ⟨r, hr⟩
        have hr' : utf8s (c :: cs) ++ b = 0x5D :: (0x5D :: (0x3E :: r)) := by rw [C51.utf8s_cons, List.append_assoc]; exact hr
        obtain ⟨c1, e1, hr1⟩ := head_ascii h (d := 0x5D) (by decide) (by decide) (fun c h => (hc c h).1) hr'
        obtain ⟨rfl, rfl⟩ := List.cons.inj e1
        obtain ⟨c2, rfl, hr2⟩ := head_ascii h (d := 0x5D) (by decide) (by decide) hx hr1.symm
        obtain ⟨c3, rfl, hr3⟩ := head_ascii h (d := 0x3E) (by decide) (by decide) (fun c h => hx c (by simp [h])) hr2.symm
        exact hn ⟨[], c3, rfl⟩

/-- **C01, content.**  From any state of the content processor at which character data is read, the parse of text without markup
followed by an ill-formed sequence fails there. -/
theorem content_fails (a : AllSet c) {s : CState} (hs : s.mode = .content) (cs : List Nat)
    (hc : ∀ c ∈ cs, XmlChar c ∧ c ≠ 0x3C ∧ c ≠ 0x26) (hn : ¬ [0x5D, 0x5D, 0x3E] <:+: cs) :
    Fails b (run (sem c D int k (utf8X ns) opened start) (utf8Enc ns) false false s (utf8s cs ++ b)).2 := by
  have S : XSupported (utf8X ns) asc1 := .utf8 ns
  have hd (z : Buf) : (utf8X ns).e.mb ∣ z.length := Nat.one_dvd _
  refine text_fails (P := fun c => c ≠ 0x3C ∧ c ≠ 0x26) (ns := ns) h (fun z => (run (sem c D int k (utf8X ns) opened start) (utf8Enc ns) false false s z).2)
    (run_bad (by rw [hs]; exact (illformed_rejected ns b hb h).1)).2 ?_ ?_ ?_ ?_ cs hc hn
  · exact fun c z p0 p1 p4 => (run_char S a hs p1 (utf8_ne (d := 0x3C) (by decide) p0.1) (utf8_ne (d := 0x26) (by decide) p0.2) p4 (hd z)).1
  · exact fun z => (run_lf S a hs (hd z)).1
  · exact fun z => (run_crlf S a hs (by cases ns <;> rfl) (hd z)).1
  · exact fun z hz => (run_cr S a hs (by cases ns <;> rfl) hz (hd z)).1

/-- **C01, CDATA sections.** -/
theorem cdata_fails (a : AllSet c) {s : CState} (hs : s.mode = .cdata) (cs : List Nat)
    (hc : ∀ c ∈ cs, XmlChar c) (hn : ¬ [0x5D, 0x5D, 0x3E] <:+: cs) :
    Fails b (run (sem c D int k (utf8X ns) opened start) (utf8Enc ns) false false s (utf8s cs ++ b)).2 := by
  have S : XSupported (utf8X ns) asc1 := .utf8 ns
  have hd (z : Buf) : (utf8X ns).e.mb ∣ z.length := Nat.one_dvd _
  refine text_fails (P := fun _ => True) (ns := ns) h (fun z => (run (sem c D int k (utf8X ns) opened start) (utf8Enc ns) false false s z).2)
    (run_bad (by rw [hs]; exact (illformed_rejected ns b hb h).2)).2 ?_ ?_ ?_ ?_ cs (fun c h => ⟨hc c h, trivial⟩) hn
  · exact fun c z p0 p1 p4 => (run_cdata_char S a hs p1 p4 (hd z)).1
  · exact fun z => (run_cdata_lf S a hs (hd z)).1
  · exact fun z => (run_cdata_crlf S a hs (by cases ns <;> rfl) (hd z)).1
  · exact fun z hz => (run_cdata_cr S a hs (by cases ns <;> rfl) hz (hd z)).1

/-- **C01, comments.**  Nothing is reported of them. -/
theorem comment_fails {s : CState} (hs : s.mode = .content ∨ s.mode = .epilog) (cs : List Nat)
    (hc : ∀ c ∈ cs, XmlChar c) (hn : ¬ [0x2D, 0x2D] <:+: cs) (v : Bool) :
    (run (sem c D int k (utf8X ns) opened start) (utf8Enc ns) false v s ([0x3C, 0x21, 0x2D, 0x2D] ++ (utf8s cs ++ b))).1 = [] ∧
    Fails b (run (sem c D int k (utf8X ns) opened start) (utf8Enc ns) false v s ([0x3C, 0x21, 0x2D, 0x2D] ++ (utf8s cs ++ b))).2 := by
  obtain ⟨h1, h2⟩ := contentComment_bad (ns := ns) hb h cs hc hn
  exact run_bad (by rcases hs with hs | hs <;> rw [hs] <;> assumption)

/-- **C01, attribute values.** -/
theorem value_fails {s : CState} (hs : s.mode = .content) {name : List Buf} (hn : QName (utf8Enc ns) asc1 name) (as : List AttrSrc)
    (has : ∀ a ∈ as, a.Valid (utf8Enc ns) asc1) {a : AttrSrc} (ha : a.Valid (utf8Enc ns) asc1) (v : Bool) :
    (run (sem c D int k (utf8X ns) opened start) (utf8Enc ns) false v s (asc1 0x3C ++ (name.flatten ++ (attsText asc1 as ++ (half a ++ b))))).1 = [] ∧
    Fails b (run (sem c D int k (utf8X ns) opened start) (utf8Enc ns) false v s
      (asc1 0x3C ++ (name.flatten ++ (attsText asc1 as ++ (half a ++ b))))).2 :=
  run_bad (by rw [hs]; exact contentTag_bad hb h hn as has ha)

/-- **C01, processing instructions.** -/
theorem pi_fails {s : CState} (hs : s.mode = .content ∨ s.mode = .epilog) {target : List Buf} (ht : (utf8Enc ns).Name target) {d : UInt8} (hd : isWS d = true)
    (cs : List Nat) (hc : ∀ c ∈ cs, XmlChar c) (hn : ¬ [0x3F, 0x3E] <:+: cs) (v : Bool) :
    (run (sem c D int k (utf8X ns) opened start) (utf8Enc ns) false v s ([0x3C, 0x3F] ++ (target.flatten ++ ([d] ++ (utf8s cs ++ b))))).1 = [] ∧
    Fails b (run (sem c D int k (utf8X ns) opened start) (utf8Enc ns) false v s ([0x3C, 0x3F] ++ (target.flatten ++ ([d] ++ (utf8s cs ++ b))))).2 := by
  obtain ⟨h1, h2⟩ := contentPi_bad (ns := ns) hb h ht hd cs hc hn
  exact run_bad (by rcases hs with hs | hs <;> rw [hs] <;> assumption)

omit hb h in
theorem prolog_bad {c : PCfg} {ext : Ext} {fuel : Nat} {expand : Bool → Buf → Buf → DState → Acted} {internal between allowClose : Bool}
    {s : DState} {z : Buf} (hx : (s.x c internal).e = utf8Enc ns) (h : Bad b (prologTok (utf8Enc ns) z)) :
    ∃ e, prun c ext fuel expand internal between allowClose false opened s z = ([], s, .err e) ∧
      (e = .INVALID_TOKEN ∨ e = .PARTIAL_CHAR ∧ b.length < 4) := by
  rw [prun.eq_def]
  simp only [seeToken, seeRes, hx]
  rcases h with h | ⟨h, h'⟩
  · exact ⟨.INVALID_TOKEN, by rw [h, show Tok.isError _ = true from rfl]; simp, .inl rfl⟩
  · exact ⟨.PARTIAL_CHAR, by rw [h, show Tok.isError _ = true from rfl]; simp, .inr ⟨rfl, h'⟩⟩

/-- **C01, the prolog.**  Literals, comments and processing instructions wherever the document type declaration or what stands around it
is read in UTF-8. -/
theorem prolog_fails {c : PCfg} {ext : Ext} {fuel : Nat} {expand : Bool → Buf → Buf → DState → Acted} {internal between allowClose : Bool}
    {s : DState} (hx : (s.x c internal).e = utf8Enc ns) (cs : List Nat) (hc : ∀ c ∈ cs, XmlChar c) {z : Buf}
    (hz : (∃ d : UInt8, (d = 0x22 ∨ d = 0x27) ∧ d.toNat ∉ cs ∧ z = d :: (utf8s cs ++ b)) ∨
      (¬ [0x2D, 0x2D] <:+: cs ∧ z = [0x3C, 0x21, 0x2D, 0x2D] ++ (utf8s cs ++ b)) ∨
      (∃ (target : List Buf) (d : UInt8), (utf8Enc ns).Name target ∧ isWS d = true ∧ ¬ [0x3F, 0x3E] <:+: cs ∧
        z = [0x3C, 0x3F] ++ (target.flatten ++ ([d] ++ (utf8s cs ++ b))))) :
    ∃ e, prun c ext fuel expand internal between allowClose false opened s z = ([], s, .err e) ∧
      (e = .INVALID_TOKEN ∨ e = .PARTIAL_CHAR ∧ b.length < 4) := by
  refine prolog_bad hx ?_
  rcases hz with ⟨d, h1, h2, rfl⟩ | ⟨h1, rfl⟩ | ⟨target, d, h1, h2, h3, rfl⟩
  · exact prologLit_bad hb h h1 cs hc h2
  · exact (contentComment_bad hb h cs hc h1).2
  · exact (contentPi_bad hb h h1 h2 cs hc h3).2

end

/-! ### Whole documents -/

section
variable {c : Cfg} {D : Dtd} {int : XEnc} {iasc : UInt8 → Buf} {ns : Bool}

/-- `r` stands in the content `b` with any number of elements open before it: what comes before is well-formed. -/
inductive Within (c : Cfg) (D : Dtd) (int : XEnc) (iasc : UInt8 → Buf) (ns : Bool) : Env → Buf → Buf → Prop
  | here {v : Env} {b r : Buf} {E : List Ev} : Content c D int iasc (utf8X ns) asc1 [] v b E r → Within c D int iasc ns v b r
  | inside {v : Env} {name : List Buf} {as : List AttrSrc} {ws : List UInt8} {b b2 r : Buf} {t : Stored} {Es E : List Ev} :
      Content c D int iasc (utf8X ns) asc1 [] v b E (tagText asc1 name as ws false ++ b2) → QName (utf8X ns).e asc1 name →
      (∀ a ∈ as, AttrSrc.Valid (utf8X ns).e asc1 a) → AllWS ws →
      storeAtts c D int (utf8X ns) [] (fun _ => .unset) v (converted (utf8X ns) name.flatten) (tagText asc1 name as ws false) = (Es, .ok t) →
      Within c D int iasc ns t.env b2 r → Within c D int iasc ns v b r

theorem within_run (a : AllSet c) (I : XSupported int iasc) (hi : int.e.mb = 1) {v : Env} {b r : Buf} (h : Within c D int iasc ns v b r) :
    ∀ {s : CState}, In 0 v s → ∃ s', s'.mode = .content ∧ (run (parser c D int (utf8X ns)) (utf8Enc ns) false false s b).2 =
      (run (parser c D int (utf8X ns)) (utf8Enc ns) false false s' r).2 := by
  have S : XSupported (utf8X ns) asc1 := .utf8 ns
  have hav : C34.avail D [] ≤ D.fuel := C34.avail_le D _
  have hd (z : Buf) : (utf8X ns).e.mb ∣ z.length := Nat.one_dvd _
  induction h with
  | here h => exact fun hs => ⟨_, hs.mode, (content_run a I hi h S hav hs (hd _)).2.1⟩
  | @inside v name as ws b b2 r t Es E h0 h1 h2 h3 h4 _ ih =>
    intro s hs
    have hf : t.flags = fun _ => .unset := by
      funext n; exact C28.flags_unset (fun _ => rfl) h4 n
    obtain ⟨s', i1, i2⟩ := ih (hs.push (raw := name.flatten) hf)
    refine ⟨s', i1, ?_⟩
    rw [← i2]
    have h5 := (content_run a I hi h0 (k := D.fuel) S hav hs (hd _)).2.1
    have h6 := act_start (start := 0) (k := D.fuel) (opened := []) S a s h1 h2 h3 (by rw [hs.flags, hs.env]; exact h4)
    have h7 := run_markup S hs.mode (tag_markup h1 h2 h3 false) (hd (tagText asc1 name as ws false ++ b2)) h6
    exact (show (run (parser c D int (utf8X ns)) (utf8Enc ns) false false s b).2 = _ from h5).trans ((congrArg Prod.snd h7).trans rfl)

/-- The text `r` contains the ill-formed `b` before its first markup has ended. -/
inductive Spoilt (ns : Bool) (b : Buf) : Buf → Prop
  | data (cs : List Nat) : (∀ c ∈ cs, XmlChar c ∧ c ≠ 0x3C ∧ c ≠ 0x26) → ¬ [0x5D, 0x5D, 0x3E] <:+: cs → Spoilt ns b (utf8s cs ++ b)
  | cdata (cs : List Nat) : (∀ c ∈ cs, XmlChar c) → ¬ [0x5D, 0x5D, 0x3E] <:+: cs → Spoilt ns b (cdataOpen asc1 ++ (utf8s cs ++ b))
  | comment (cs : List Nat) : (∀ c ∈ cs, XmlChar c) → ¬ [0x2D, 0x2D] <:+: cs → Spoilt ns b ([0x3C, 0x21, 0x2D, 0x2D] ++ (utf8s cs ++ b))
  | pi {target : List Buf} {d : UInt8} (cs : List Nat) : (utf8Enc ns).Name target → isWS d = true → (∀ c ∈ cs, XmlChar c) → ¬ [0x3F, 0x3E] <:+: cs →
      Spoilt ns b ([0x3C, 0x3F] ++ (target.flatten ++ ([d] ++ (utf8s cs ++ b))))
  | value {name : List Buf} {as : List AttrSrc} {a : AttrSrc} : QName (utf8Enc ns) asc1 name → (∀ a ∈ as, a.Valid (utf8Enc ns) asc1) →
      a.Valid (utf8Enc ns) asc1 → Spoilt ns b (asc1 0x3C ++ (name.flatten ++ (attsText asc1 as ++ (half a ++ b))))

theorem spoilt_fails (a : AllSet c) {b r : Buf} (hb : b ≠ []) (h : IllFormed b) (hr : Spoilt ns b r) {s : CState} (hs : s.mode = .content) :
    Fails b (run (parser c D int (utf8X ns)) (utf8Enc ns) false false s r).2 := by
  have S : XSupported (utf8X ns) asc1 := .utf8 ns
  cases hr with
  | data cs h1 h2 => exact content_fails hb h a hs cs h1 h2
  | cdata cs h1 h2 =>
    have h3 := cdata_fails (ns := ns) (c := c) (D := D) (int := int) (k := D.fuel) (opened := []) (start := 0) hb h a
      (s := { s with mode := .cdata }) rfl cs h1 h2
    have ha : (sem c D int D.fuel (utf8X ns) [] 0).act s .CDATA_SECT_OPEN (spell asc1 ([0x3C, 0x21, 0x5B] ++ CDATA_LSQB)) =
        ([.startCdata], .ok { s with mode := .cdata }) := by cases D.fuel <;> simp [sem, semOf, act, orDefault, a.startCdata]
    have h4 := run_markup S hs (.cdata) (b := utf8s cs ++ b) (Nat.one_dvd _) ha
    exact (show Fails b (run (sem c D int D.fuel (utf8X ns) [] 0) (utf8Enc ns) false false s _).2 from by
      rw [show cdataOpen asc1 = spell asc1 ([0x3C, 0x21, 0x5B] ++ CDATA_LSQB) from rfl, show utf8Enc ns = (utf8X ns).e from rfl, h4]
      exact h3)
  | comment cs h1 h2 => exact (comment_fails hb h (.inl hs) cs h1 h2 _).2
  | pi cs h1 h2 h3 h4 => exact (pi_fails hb h (.inl hs) h1 h2 cs h3 h4 _).2
  | value h1 h2 h3 => exact (value_fails hb h hs h1 _ h2 h3 _).2

variable (a : AllSet c) (I : XSupported int iasc) (hi : int.e.mb = 1) {name : List Buf} {as : List AttrSrc} {ws : List UInt8} {t : Stored}
  {Es : List Ev} (h1 : QName (utf8X ns).e asc1 name) (h2 : ∀ a ∈ as, AttrSrc.Valid (utf8X ns).e asc1 a) (h3 : AllWS ws)
  (h4 : storeAtts c D int (utf8X ns) [] (fun _ => .unset) rootEnv (converted (utf8X ns) name.flatten) (tagText asc1 name as ws false) = (Es, .ok t))
  {b1 r b : Buf} (hw : Within c D int iasc ns t.env b1 r) (hr : Spoilt ns b r) (hb : b ≠ []) (h : IllFormed b)
include a I hi h1 h2 h3 h4 hw hr hb h

/-- **C01, documents.**  Ill-formed text in the content of the root element, after well-formed content, makes the parse fail. -/
theorem document_fails :
    Fails b (run (parser c D int (utf8X ns)) (utf8Enc ns) false false CState.init (tagText asc1 name as ws false ++ b1)).2 := by
  have S : XSupported (utf8X ns) asc1 := .utf8 ns
  have hf : t.flags = fun _ => .unset := by
    funext n; exact C28.flags_unset (fun _ => rfl) h4 n
  have hin : In 0 t.env (CState.init.push name.flatten t) := ⟨rfl, rfl, hf, Nat.le_refl _, Nat.zero_le _⟩
  obtain ⟨s', i1, i2⟩ := within_run a I hi hw hin
  have h6 := act_start (start := 0) (k := D.fuel) (opened := []) S a CState.init h1 h2 h3 h4
  have h7 := run_markup S rfl (tag_markup h1 h2 h3 false) (b := b1) (Nat.one_dvd _) h6
  have h8 := spoilt_fails (D := D) (int := int) a hb h hr i1
  rw [← i2] at h8
  exact (show Fails b (run (sem c D int D.fuel (utf8X ns) [] 0) (utf8X ns).e false false CState.init _).2 from by rw [h7]; exact h8)

/-- However the document is cut into calls of XML_Parse.  (That the error of a document cut into pieces may be another is `C04.Same`: it is
JUNK_AFTER_DOC_ELEMENT then.) -/
theorem chunks_fail (xs : List Buf) (hx : xs.flatten = tagText asc1 name as ws false ++ b1) :
    ∃ e, (Verif.feed (parser c D int (utf8X ns)) (utf8Enc ns) CState.init [] xs).2 = .err e ∧
      (e = .INVALID_TOKEN ∨ (e = .PARTIAL_CHAR ∧ b.length < 4) ∨ e = .JUNK_AFTER_DOC_ELEMENT) := by
  have S : XSupported (utf8X ns) asc1 := .utf8 ns
  have h5 := document_fails a I hi h1 h2 h3 h4 hw hr hb h
  have h6 := C04.chunks (M := parser c D int (utf8X ns)) (C04.sem_lawful S c D int _ _ _) S.s.ok S.s.mb S.s.even xs CState.init [] (Nat.one_dvd _)
  rw [List.nil_append, hx] at h6
  rw [call, show ((parser c D int (utf8X ns)).mode CState.init == .cdata) = false by rw [parser, sem_mode]; rfl] at h6
  simp only [show (utf8X ns).e = utf8Enc ns from rfl] at h6
  generalize run (parser c D int (utf8X ns)) (utf8Enc ns) false false CState.init _ = w at h5 h6
  generalize Verif.feed (parser c D int (utf8X ns)) (utf8Enc ns) CState.init [] xs = u at h6
  obtain ⟨F, o⟩ := w
  obtain ⟨G, q⟩ := u
  rcases h5 with h5 | ⟨h5, h5'⟩ <;> simp only at h5 <;> subst h5 <;> cases q <;> simp only [C04.Same] at h6 <;> first | exact h6.elim | skip
  · rename_i e
    exact ⟨e, rfl, by rcases h6.2 with rfl | ⟨rfl, -⟩ <;> simp⟩
  · rename_i e
    exact ⟨e, rfl, by rcases h6.2 with rfl | ⟨rfl, -⟩ <;> simp [h5']⟩

end

open C59 C60 in
/-- **C01, handlers.**  Nothing but well-formed text reaches a handler: of a UTF-8 document, whether it is accepted or not, every byte given to
a handler of the content is of the UTF-8 form of characters (`Legal`). -/
theorem handlers_legal {c : PCfg} {ext : Ext} {fuel : Nat} {idx : EncIndex} {m t : Buf} (U : Usual c) (h0 : C60.Found idx m t .utf8)
    (hlen : t.length + 3 < 2 ^ 31) (hf : t.length < fuel) {cur : CurEnc} {xs : List Buf} (hx : xs.flatten = m ++ t) {P : List PEv} {z : DState}
    {F : List Ev} {o : Out CState} (h : parse c ext fuel idx (start cur .never) [] xs = (P, z, .content F o)) : ∀ v ∈ F, C62.Legal v :=
  C62.document_legal U h0 (Nat.one_dvd _) hlen hf hx h

/-! Cases -/

theorem ill_iff (ns : Bool) {b : Buf} (hb : b ≠ []) (p : Nat) : IllFormed b ↔ ∃ r, invalidCases (utf8Enc ns) b p = .ret r := by
  have s := Supported.utf8 ns
  refine ⟨fun h => ?_, ?_⟩
  · obtain ⟨r, h1, -⟩ := invalidCases_ill ns (ill_length hb) h p
    exact ⟨r, h1⟩
  · rintro ⟨r, h⟩ c z hc rfl
    have hw := char_utf8 (ns := ns) hc
    cases hlead : (utf8Enc ns).isLead (utf8 c) with
    | true =>
      rw [(invalidCases_lead s.ok s.mb hw hlead z p).1] at h; cases h
    | false =>
      rw [invalidCases_nl s.ok s.mb hw hlead] at h; cases h

/-- An overlong slash. -/
private def over : Buf := [0xC0, 0xAF, 0x3C, 0x2F, 0x61, 0x3E]
private theorem over_ill : IllFormed over := (ill_iff false (by decide) 0).2 ⟨⟨.INVALID, 0⟩, by decide +kernel⟩
/-- Half of a surrogate pair. -/
example : IllFormed [0xED, 0xA0, 0x80, 0x61] := (ill_iff false (by decide) 0).2 ⟨⟨.INVALID, 0⟩, by decide +kernel⟩
/-- The document ends within a character. -/
example : IllFormed [0xE2, 0x82] := (ill_iff false (by decide) 0).2 ⟨⟨.PARTIAL_CHAR, 0⟩, by decide +kernel⟩
/-- U+FFFF -/
example : IllFormed [0xEF, 0xBF, 0xBF] := (ill_iff false (by decide) 0).2 ⟨⟨.INVALID, 0⟩, by decide +kernel⟩

/-- `<a>xé` and the overlong slash. -/
example (xs : List Buf) (hx : xs.flatten = tagText asc1 [[0x61]] [] [] false ++ (utf8s [0x78, 0xE9] ++ over)) :
    ∃ e, (Verif.feed (parser {} default (internalUtf8X false) (utf8X false)) (utf8Enc false) CState.init [] xs).2 = .err e ∧
      (e = .INVALID_TOKEN ∨ (e = .PARTIAL_CHAR ∧ over.length < 4) ∨ e = .JUNK_AFTER_DOC_ELEMENT) := by
  have ok : (storeAtts {} default (internalUtf8X false) (utf8X false) [] (fun _ => .unset) rootEnv (converted (utf8X false) [[0x61]].flatten)
      (tagText asc1 [[0x61]] [] [] false)).2.isOk = true := by decide +kernel
  cases hs : storeAtts {} default (internalUtf8X false) (utf8X false) [] (fun _ => .unset) rootEnv (converted (utf8X false) [[0x61]].flatten)
      (tagText asc1 [[0x61]] [] [] false) with
  | mk Es r =>
    rw [hs] at ok
    cases r with
    | error => cases ok
    | ok t =>
      exact chunks_fail (iasc := asc1) C55.allSet_default (.internalUtf8 false) rfl (name := [[0x61]]) (as := []) (ws := [])
        (.plain _ ⟨[0x61], [], rfl, by decide +kernel, by simp⟩) (by simp) (by intro c h; cases h) hs
        (.here (.nil _)) (.data [0x78, 0xE9] (by decide) (by decide)) (by decide) over_ill xs hx

private def code (o : Out CState) : Option XErr :=
  match o with
  | .err e => some e
  | _ => none

private def fed (xs : List Buf) : Option XErr :=
  code (Verif.feed (parser {} default (internalUtf8X false) (utf8X false)) (utf8Enc false) CState.init [] xs).2

/-- In an attribute value, a comment, a CDATA section and a processing instruction, in two pieces; the document ends within a character. -/
example : fed ["<a b='x".toUTF8.toList, over] = some .INVALID_TOKEN ∧ fed ["<a><!-- ".toUTF8.toList, over] = some .INVALID_TOKEN ∧
    fed ["<a><![CDATA[ ".toUTF8.toList, over] = some .INVALID_TOKEN ∧ fed ["<a><?p ".toUTF8.toList, over] = some .INVALID_TOKEN ∧
    fed ["<a>x".toUTF8.toList, [0xE2, 0x82]] = some .PARTIAL_CHAR := by decide +kernel

end Verif.C01
