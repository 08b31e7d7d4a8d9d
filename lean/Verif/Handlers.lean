import Verif.Props.C55

/-! Content under different sets of handlers: what a handler that is set is told, and the outcome, do not depend on
which other handlers are set. -/

set_option autoImplicit false

namespace Verif.C64
open C43 C53 Spec Verif

/-- All handlers of content set, except for the default handler.  Without an external entity handler external
entities are skipped without an error, which is what a handler does that always answers yes. -/
def full (c : Cfg) : Cfg :=
  { c with startElement := true, endElement := true, chars := true, pi := true, comment := true, startCdata := true
           endCdata := true, startNs := true, endNs := true, skipped := true, externalRef := true, dflt := false
           refOk := if c.externalRef then c.refOk else fun _ _ => true }

/-- The handler for this call is set; the default handler does not count. -/
def wants (c : Cfg) : Ev → Bool
  | .startElement .. => c.startElement
  | .endElement _ => c.endElement
  | .chars _ => c.chars
  | .pi .. => c.pi
  | .comment _ => c.comment
  | .startCdata => c.startCdata
  | .endCdata => c.endCdata
  | .startNs .. => c.startNs
  | .endNs _ => c.endNs
  | .skippedEntity .. => c.skipped
  | .externalRef .. => c.externalRef
  | .dflt _ => false

def notDefault : Ev → Bool
  | .dflt _ => false
  | _ => true

/-- Without the calls of the default handler. -/
def own (E : List Ev) : List Ev := E.filter notDefault

theorem own_append (E F : List Ev) : own (E ++ F) = own E ++ own F := by simp [own]

theorem own_default (c : Cfg) (x : XEnc) (b : Buf) : own (toDefault c x b) = [] := by
  rw [own, List.filter_eq_nil_iff]
  intro v hv
  obtain ⟨s, rfl⟩ := toDefault_events c x b v hv
  simp [notDefault]

/-- The same outcome, and those of the calls `r'` that the handlers of `c` are set for. -/
def Same {α : Type} (c : Cfg) (r r' : List Ev × α) : Prop := r.2 = r'.2 ∧ own r.1 = r'.1.filter (wants c)

theorem Same.nil {α : Type} (c : Cfg) (a : α) : Same c ([], a) ([], a) := ⟨rfl, rfl⟩

variable {c : Cfg}

theorem same_chars (x : XEnc) (ps : List Buf) (b : Buf) : own (toChars c x ps b) = (toChars (full c) x ps b).filter (wants c) := by
  rw [toChars, toChars, if_pos (show (full c).chars = true from rfl)]
  split
  · rename_i h
    rw [own, List.filter_eq_self.2, List.filter_eq_self.2] <;> intro v hv <;> obtain ⟨p, -, rfl⟩ := List.mem_map.1 hv
    · simp [wants, h]
    · simp [notDefault]
  · rename_i h
    rw [own_default, eq_comm, List.filter_eq_nil_iff]
    intro v hv
    obtain ⟨p, -, rfl⟩ := List.mem_map.1 hv
    simpa [wants] using h

theorem same_or (x : XEnc) {set : Bool} (v : Ev) (hw : wants c v = set) (hn : notDefault v = true) (b : Buf) :
    own (orDefault c x set v b) = (orDefault (full c) x true v b).filter (wants c) := by
  rw [orDefault, orDefault, if_pos rfl]
  subst hw
  split
  · rename_i h; simp [own, hn, h]
  · rename_i h; rw [own_default]; simp [h]

theorem same_binding (v : Env) (bs : List Binding) (p : Option Buf) (att uri : Buf) :
    Same c (addBinding c v bs p att uri) (addBinding (full c) v bs p att uri) := by
  unfold addBinding
  split
  · exact .nil _ _
  · refine ⟨rfl, ?_⟩
    simp only
    rw [if_pos (show (full c).startNs = true from rfl)]
    split <;> rename_i h <;> simp [own, wants, h, notDefault]

theorem same_free (bs : List Binding) : ∀ v : Env, Same c ((freeBindings c v bs)) (freeBindings (full c) v bs) := by
  induction bs with
  | nil => intro v; exact ⟨rfl, rfl⟩
  | cons b bs ih =>
    intro v
    obtain ⟨h1, h2⟩ := ih (v.set b.pre b.prev)
    rw [freeBindings, freeBindings]
    refine ⟨h1, ?_⟩
    simp only
    rw [own_append, h2, if_pos (show (full c).endNs = true from rfl), List.filter_append]
    congr 1
    split <;> rename_i h <;> simp [own, wants, h, notDefault]

theorem same_chain {α σ ε : Type} {f g : σ → α → List Ev × Except ε σ} (h : ∀ s a, Same c (f s a) (g s a)) (as : List α) :
    ∀ s, Same c (chain f s as) (chain g s as) := by
  induction as with
  | nil => intro s; exact .nil _ _
  | cons a as ih =>
    intro s
    have := h s a
    rw [chain, chain]
    generalize f s a = p at *
    generalize g s a = q at *
    obtain ⟨E, o⟩ := p
    obtain ⟨F, o'⟩ := q
    obtain ⟨h1, h2⟩ := this
    simp only at h1 h2
    subst h1
    cases o with
    | error e => exact ⟨rfl, h2⟩
    | ok s' =>
      obtain ⟨h3, h4⟩ := ih s'
      refine ⟨h3, ?_⟩
      simp only
      rw [own_append, h2, h4, List.filter_append]

theorem same_attOne (D : Dtd) (int x : XEnc) (opened : List Buf) (et : ElemType) (b : Buf) (s : AState) (a : Att) :
    Same c (attOne c D int x opened et b s a) (attOne (full c) D int x opened et b s a) := by
  unfold attOne
  simp only
  split
  · exact .nil _ _
  · split
    · exact .nil _ _
    · rename_i v _
      rw [show (full c).ns = c.ns from rfl]
      split
      · exact .nil _ _
      · exact .nil _ _
      · rename_i p _
        have := same_binding (c := c) s.env s.binds p (attName x b a) v
        generalize addBinding c s.env s.binds p (attName x b a) v = r at *
        generalize addBinding (full c) s.env s.binds p (attName x b a) v = q at *
        obtain ⟨E, o⟩ := r
        obtain ⟨F, o'⟩ := q
        obtain ⟨h1, h2⟩ := this
        simp only at h1 h2
        subst h1
        cases o <;> exact ⟨rfl, h2⟩

theorem same_defOne (s : AState) (d : ADecl) : Same c (defOne c s d) (defOne (full c) s d) := by
  unfold defOne
  split
  · exact .nil _ _
  · rename_i v _
    split
    · exact .nil _ _
    · rw [show (full c).ns = c.ns from rfl]
      split
      · exact .nil _ _
      · exact .nil _ _
      · rename_i p _
        have := same_binding (c := c) s.env s.binds p d.name v
        generalize addBinding c s.env s.binds p d.name v = r at *
        generalize addBinding (full c) s.env s.binds p d.name v = q at *
        obtain ⟨E, o⟩ := r
        obtain ⟨F, o'⟩ := q
        obtain ⟨h1, h2⟩ := this
        simp only at h1 h2
        subst h1
        cases o <;> exact ⟨rfl, h2⟩

theorem full_expandNames (env : Env) (as : List (Buf × Buf)) : ∀ n f seen,
    expandNames (full c) env n f seen as = expandNames c env n f seen as := by
  induction as with
  | nil => intro n f seen; rfl
  | cons a as ih =>
    intro n f seen
    obtain ⟨name, v⟩ := a
    simp only [expandNames, ih]
    rfl

theorem same_store (D : Dtd) (int x : XEnc) (opened : List Buf) (flags : Buf → AFlag) (env : Env) (raw b : Buf) :
    Same c (storeAtts c D int x opened flags env raw b) (storeAtts (full c) D int x opened flags env raw b) := by
  unfold storeAtts
  simp only
  have h := same_chain (c := c) (fun s a => same_attOne D int x opened (D.elem raw) b s a) (getAtts x.e b) ⟨[], flags, env, [], 0⟩
  generalize chain (attOne c D int x opened (D.elem raw) b) ⟨[], flags, env, [], 0⟩ (getAtts x.e b) = r at *
  generalize chain (attOne (full c) D int x opened (D.elem raw) b) ⟨[], flags, env, [], 0⟩ (getAtts x.e b) = q at *
  obtain ⟨E, o⟩ := r
  obtain ⟨F, o'⟩ := q
  obtain ⟨h1, h2⟩ := h
  simp only at h1 h2
  subst h1
  cases o with
  | error e => exact ⟨rfl, h2⟩
  | ok s =>
    simp only
    have h := same_chain (c := c) same_defOne (D.elem raw).atts s
    generalize chain (defOne c) s (D.elem raw).atts = r at *
    generalize chain (defOne (full c)) s (D.elem raw).atts = q at *
    obtain ⟨E2, o⟩ := r
    obtain ⟨F2, o'⟩ := q
    obtain ⟨h1, h3⟩ := h
    simp only at h1 h3
    subst h1
    have h4 : own (E ++ E2) = (F ++ F2).filter (wants c) := by rw [own_append, h2, h3, List.filter_append]
    cases o with
    | error e => exact ⟨rfl, h4⟩
    | ok s =>
      simp only
      rw [full_expandNames]
      generalize expandNames c s.env s.nPre s.flags [] s.atts = z
      cases z with
      | error e => exact ⟨rfl, h4⟩
      | ok z =>
        obtain ⟨atts, f⟩ := z
        simp only
        rw [show elemName (full c) s.env raw = elemName c s.env raw from rfl]
        generalize elemName c s.env raw = y
        cases y <;> exact ⟨rfl, h4⟩

/-- Comments and processing instructions are always stored (7612-7677). -/
theorem comment_some {x : XEnc} {asc : UInt8 → Buf} (S : XSupported x asc) (al : Allocator) (w : Buf) :
    ∃ d, reportComment al x Pool.new w = some d := by
  rw [reportComment]
  obtain ⟨q, h1, h2⟩ := C14.store_keeps al S new_inv ((w.drop (4 * x.e.mb)).take (w.length - 4 * x.e.mb - 3 * x.e.mb))
  rw [h1, Option.bind_some, h2.cur]
  obtain ⟨m, h3, -⟩ := C14.normalize_any (Pool.new.current ++ converted x ((w.drop (4 * x.e.mb)).take (w.length - 4 * x.e.mb - 3 * x.e.mb)))
  exact ⟨_, by rw [h3, Option.map_some]⟩

theorem pi_some {x : XEnc} {asc : UInt8 → Buf} (S : XSupported x asc) (al : Allocator) (w : Buf) :
    ∃ d, reportPI al x Pool.new w = some d := by
  unfold reportPI
  simp only
  obtain ⟨q, h1, h2⟩ := C14.store_keeps al S new_inv ((w.drop (2 * x.e.mb)).take (nameLength x.e (w.drop (2 * x.e.mb))))
  rw [h1, Option.bind_some]
  generalize skipS x.e ((w.drop (2 * x.e.mb)).drop (nameLength x.e (w.drop (2 * x.e.mb)))) = d
  obtain ⟨q2, h3, h4⟩ := C14.store_keeps al S (finish_inv (p := q)) (d.take (d.length - 2 * x.e.mb))
  rw [h3, Option.bind_some, h4.cur]
  obtain ⟨m, h5, -⟩ := C14.normalize_any (q.finish.current ++ converted x (d.take (d.length - 2 * x.e.mb)))
  exact ⟨_, by rw [h5, Option.map_some]⟩

section
variable {D : Dtd} {int x : XEnc} {asc : UInt8 → Buf} {opened : List Buf} {start : Nat}
  {expand expand' : Buf → Buf → CState → List Ev × Except XErr CState}

theorem same_start (s : CState) (w : Buf) : Same c (actStart c D int x opened s w) (actStart (full c) D int x opened s w) := by
  unfold actStart
  simp only
  have h := same_store (c := c) D int x opened s.flags s.env (converted x (rawName x x.e.mb w)) w
  generalize storeAtts c D int x opened s.flags s.env (converted x (rawName x x.e.mb w)) w = r at *
  generalize storeAtts (full c) D int x opened s.flags s.env (converted x (rawName x x.e.mb w)) w = q at *
  obtain ⟨E, o⟩ := r
  obtain ⟨F, o'⟩ := q
  obtain ⟨h1, h2⟩ := h
  simp only at h1 h2
  subst h1
  cases o with
  | error e => exact ⟨rfl, h2⟩
  | ok r =>
    refine ⟨rfl, ?_⟩
    simp only
    rw [own_append, h2, List.filter_append]
    congr 1
    exact same_or x (.startElement (r.name.full c) r.atts r.specified r.idIndex) rfl rfl w

theorem same_empty (s : CState) (w : Buf) : Same c (actEmpty c D int x opened s w) (actEmpty (full c) D int x opened s w) := by
  unfold actEmpty
  have h := same_store (c := c) D int x opened s.flags s.env (converted x (rawName x x.e.mb w)) w
  generalize storeAtts c D int x opened s.flags s.env (converted x (rawName x x.e.mb w)) w = r at *
  generalize storeAtts (full c) D int x opened s.flags s.env (converted x (rawName x x.e.mb w)) w = q at *
  obtain ⟨E, o⟩ := r
  obtain ⟨F, o'⟩ := q
  obtain ⟨h1, h2⟩ := h
  simp only at h1 h2
  subst h1
  cases o with
  | error e =>
    obtain ⟨e, bs⟩ := e
    refine ⟨rfl, ?_⟩
    simp only
    rw [own_append, h2, (same_free bs s.env).2, List.filter_append]
  | ok r =>
    obtain ⟨h3, h4⟩ := same_free (c := c) r.binds r.env
    refine ⟨by simp only [h3], ?_⟩
    simp only
    rw [own_append, own_append, own_append, own_append, h2, h4, List.filter_append, List.filter_append, List.filter_append, List.filter_append,
      show (full c).startElement = true from rfl, show (full c).endElement = true from rfl,
      show TagName.full (full c) r.name = r.name.full c from rfl]
    have h1 (d : List Ev) (hd : own d = []) (b : Bool) : own (if b then d else []) = [] := by cases b <;> simp [hd]; rfl
    rw [h1 _ (own_default c x w)]
    have h2 (b : Bool) (v : Ev) (hn : notDefault v = true) (hw : wants c v = b) : own (if b then [v] else []) = [v].filter (wants c) := by
      cases b <;> simp [own, hn, hw]
    rw [h2 c.startElement (.startElement (r.name.full c) r.atts r.specified r.idIndex) rfl rfl, h2 c.endElement (.endElement (r.name.full c)) rfl rfl]
    simp

theorem same_end (s : CState) (w : Buf) : Same c (actEnd c x start s w) (actEnd (full c) x start s w) := by
  unfold actEnd
  split
  · exact .nil _ _
  · split
    · exact .nil _ _
    · rename_i tag tags _
      split
      · exact .nil _ _
      · obtain ⟨h3, h4⟩ := same_free (c := c) tag.binds s.env
        refine ⟨by simp only [h3], ?_⟩
        simp only
        rw [own_append, h4, List.filter_append]
        congr 1
        exact same_or x (.endElement (tag.name.full c)) rfl rfl w

theorem same_ref (hE : ∀ n t s, Same c (expand n t s) (expand' n t s)) (s : CState) (w : Buf) :
    Same c (actEntityRef c D x opened expand s w) (actEntityRef (full c) D x opened expand' s w) := by
  unfold actEntityRef
  simp only
  split
  · exact ⟨rfl, same_chars x _ w⟩
  · split
    · split
      · exact .nil _ _
      · exact ⟨rfl, same_or x (.skippedEntity (converted x (refName x.e w)) false) rfl rfl w⟩
    · rename_i ent _
      split
      · exact .nil _ _
      · split
        · exact .nil _ _
        · split
          · exact .nil _ _
          · split
            · rw [show (full c).expandInternal = c.expandInternal from rfl]
              split
              · exact ⟨rfl, same_or x (.skippedEntity (converted x (refName x.e w)) false) rfl rfl w⟩
              · exact hE _ _ _
            · rw [show (full c).externalRef = true from rfl, if_pos rfl,
                show (full c).refOk = if c.externalRef then c.refOk else fun _ _ => true from rfl]
              cases h : c.externalRef with
              | true => exact ⟨rfl, by simp [own, notDefault, wants, h]⟩
              | false => exact ⟨rfl, by simp [own_default, wants, h]⟩

theorem same_act (S : XSupported x asc) (hE : ∀ n t s, Same c (expand n t s) (expand' n t s)) (s : CState) (t : Tok) (w : Buf) :
    Same c (act c D int x opened start expand s t w) (act (full c) D int x opened start expand' s t w) := by
  have hd : Same c (toDefault c x w, Except.ok (ε := XErr) s) (toDefault (full c) x w, .ok s) :=
    ⟨rfl, by rw [own_default]; rfl⟩
  unfold act
  split
  · exact same_ref hE s w
  · exact same_start s w
  · exact same_start s w
  · exact same_empty s w
  · exact same_empty s w
  · exact same_end s w
  · simp only
    split
    · exact .nil _ _
    · exact ⟨rfl, same_chars x _ w⟩
  · exact .nil _ _
  · exact ⟨rfl, same_chars x _ w⟩
  · exact ⟨rfl, same_chars x _ w⟩
  · exact ⟨rfl, same_or x .startCdata rfl rfl w⟩
  · exact ⟨rfl, same_or x .endCdata rfl rfl w⟩
  · rw [show (full c).pi = true from rfl, if_pos rfl, show (full c).al = c.al from rfl]
    obtain ⟨y, hy⟩ := pi_some S c.al w
    rw [hy]
    split
    · rename_i h; exact ⟨rfl, by simp [own, notDefault, wants, h]⟩
    · rename_i h; exact ⟨rfl, by simp [own_default, wants, h]⟩
  · rw [show (full c).comment = true from rfl, if_pos rfl, show (full c).al = c.al from rfl]
    obtain ⟨y, hy⟩ := comment_some S c.al w
    rw [hy]
    split
    · rename_i h; exact ⟨rfl, by simp [own, notDefault, wants, h]⟩
    · rename_i h; exact ⟨rfl, by simp [own_default, wants, h]⟩
  · exact hd

end

theorem run_same {σ : Type} {M N : Sem σ} (hm : ∀ s, M.mode s = N.mode s) (hs : ∀ s, M.stop s = N.stop s) (hf : ∀ s, M.fin s = N.fin s)
    (ha : ∀ s t w, Same c (M.act s t w) (N.act s t w)) (e : Enc) (more : Bool) (n : Nat) : ∀ (via : Bool) (s : σ) (b : Buf), b.length = n →
      Same c (run M e more via s b) (run N e more via s b) := by
  have hfin (s : σ) (r : Buf) : finish M s r = finish N s r := by rw [finish, finish, hf]
  induction n using Nat.strongRecOn with
  | _ n ih =>
    intro via s b hn
    rw [run.eq_def M, run.eq_def N]
    simp only
    rw [hm s]
    generalize (N.mode s).tok e b = r
    obtain ⟨t, k⟩ := r
    simp only
    have hA (u w) := ha s u w
    cases (N.mode s).verdict t with
    | wait e => simp only; split <;> exact .nil _ _
    | done => simp only; rw [hfin]; split <;> exact .nil _ _
    | stop => exact .nil _ _
    | fail e => exact .nil _ _
    | last u =>
      simp only
      split
      · exact .nil _ _
      · obtain ⟨h1, h2⟩ := hA u b
        generalize M.act s u b = p at *
        generalize N.act s u b = q at *
        obtain ⟨E, o⟩ := p
        obtain ⟨F, o'⟩ := q
        simp only at h1 h2
        subst h1
        cases o with
        | error e => exact ⟨rfl, h2⟩
        | ok s' => exact ⟨hfin _ _, h2⟩
    | actStop =>
      simp only
      obtain ⟨h1, h2⟩ := hA .PROLOG_S (b.take k)
      generalize M.act s .PROLOG_S (b.take k) = p at *
      generalize N.act s .PROLOG_S (b.take k) = q at *
      obtain ⟨E, o⟩ := p
      obtain ⟨F, o'⟩ := q
      simp only at h1 h2
      subst h1
      cases o with
      | error e => exact ⟨rfl, h2⟩
      | ok s' => exact ⟨by simp only [hs], h2⟩
    | act =>
      simp only
      obtain ⟨h1, h2⟩ := hA t (b.take k)
      generalize M.act s t (b.take k) = p at *
      generalize N.act s t (b.take k) = q at *
      obtain ⟨E, o⟩ := p
      obtain ⟨F, o'⟩ := q
      simp only at h1 h2
      subst h1
      cases o with
      | error e => exact ⟨rfl, h2⟩
      | ok s' =>
        simp only
        rw [hs s']
        split
        · split
          · rename_i hlt
            obtain ⟨h3, h4⟩ := ih _ (by omega) (via && t != .CDATA_SECT_CLOSE) s' (b.drop k) rfl
            exact ⟨h3, by rw [pre, pre]; simp only; rw [own_append, h2, h4, List.filter_append]⟩
          · exact ⟨rfl, h2⟩
        · split <;> exact ⟨rfl, h2⟩

theorem sem_same {D : Dtd} {int : XEnc} {iasc : UInt8 → Buf} (I : XSupported int iasc) (k : Nat) : ∀ {x : XEnc} {asc : UInt8 → Buf}, XSupported x asc →
    ∀ (opened : List Buf) (start : Nat) (s : CState) (t : Tok) (w : Buf),
      Same c ((sem c D int k x opened start).act s t w) ((sem (full c) D int k x opened start).act s t w) := by
  induction k with
  | zero => intro x asc S opened start s t w; exact same_act S (fun _ _ _ => .nil _ _) s t w
  | succ k ih =>
    intro x asc S opened start s t w
    refine same_act S (fun n u s => ?_) s t w
    obtain ⟨h1, h2⟩ := run_same (c := c) (M := sem c D int k int (n :: opened) s.level) (N := sem (full c) D int k int (n :: opened) s.level)
      (by intro s; rw [sem_mode, sem_mode]) (by intro s; cases k <;> rfl) (by intro s; cases k <;> rfl)
      (fun s t w => ih I (n :: opened) _ s t w) int.e false _ false s u rfl
    generalize run (sem c D int k int (n :: opened) s.level) int.e false false s u = p at *
    generalize run (sem (full c) D int k int (n :: opened) s.level) int.e false false s u = q at *
    obtain ⟨E, o⟩ := p
    obtain ⟨F, o'⟩ := q
    simp only at h1 h2
    subst h1
    cases o <;> exact ⟨rfl, h2⟩

/-- One call of the content processors, with the handlers of `c` and with all. -/
theorem call_same {D : Dtd} {int x : XEnc} {asc iasc : UInt8 → Buf} (S : XSupported x asc) (I : XSupported int iasc) (more : Bool) (s : CState) (b : Buf) :
    Same c (call (parser c D int x) x.e more s b) (call (parser (full c) D int x) x.e more s b) := by
  rw [call, call, parser, parser, sem_mode, sem_mode]
  exact run_same (by intro s; rw [sem_mode, sem_mode]) (by intro s; cases D.fuel <;> rfl) (by intro s; cases D.fuel <;> rfl)
    (fun s t w => sem_same I D.fuel S _ _ s t w) _ _ _ _ _ _ rfl

theorem feed_same {D : Dtd} {int x : XEnc} {asc iasc : UInt8 → Buf} (S : XSupported x asc) (I : XSupported int iasc) (xs : List Buf) : ∀ (s : CState) (r : Buf),
    Same c (feed (parser c D int x) x.e s r xs) (feed (parser (full c) D int x) x.e s r xs) := by
  induction xs with
  | nil => intro s r; exact call_same S I _ _ _
  | cons y ys ih =>
    intro s r
    cases ys with
    | nil => exact call_same S I _ _ _
    | cons z zs =>
      rw [feed, feed]
      obtain ⟨h1, h2⟩ := call_same (c := c) (D := D) S I true s (r ++ y)
      generalize call (parser c D int x) x.e true s (r ++ y) = p at *
      generalize call (parser (full c) D int x) x.e true s (r ++ y) = q at *
      obtain ⟨E, o⟩ := p
      obtain ⟨F, o'⟩ := q
      simp only at h1 h2
      subst h1
      cases o with
      | err e => exact ⟨rfl, h2⟩
      | ok s' r' =>
        obtain ⟨h3, h4⟩ := ih s' r'
        exact ⟨h3, by simp only [pre]; rw [own_append, h2, h4, List.filter_append]⟩
      · simp
      · simp

theorem full_all (h : c.expandInternal = true) : AllSet (full c) := by constructor <;> first | rfl | exact h

theorem full_eq (a : AllSet c) : full c = c := by
  obtain ⟨h1, h2, h3, h4, h5, h6, h7, h8, h9, h10, h11, h12, h13⟩ := a
  cases c
  simp only at h1 h2 h3 h4 h5 h6 h7 h8 h9 h10 h11 h12 h13
  subst h1 h2 h3 h4 h5 h6 h7 h8 h9 h10 h11 h12
  rfl

theorem wants_all (a : AllSet c) (v : Ev) : wants c v = notDefault v := by
  cases v <;> simp [wants, notDefault, a.startElement, a.endElement, a.chars, a.pi, a.comment, a.startCdata, a.endCdata, a.startNs, a.endNs, a.skipped, a.externalRef]

theorem filter_slice {p : Ev → Bool} (hp : ∀ v, ∀ u ∈ C04.slice v, p u = p v) (E : List Ev) : (C04.flat E).filter p = C04.flat (E.filter p) := by
  induction E with
  | nil => rfl
  | cons v E ih =>
    have h1 (F : List Ev) : C04.flat (v :: F) = C04.slice v ++ C04.flat F := by simp [C04.flat]
    rw [h1, List.filter_append, ih, List.filter_cons]
    split
    · rename_i h
      rw [h1, List.filter_eq_self.2]
      intro u hu; rw [hp v u hu]; exact h
    · rename_i h
      rw [List.filter_eq_nil_iff.2, List.nil_append]
      intro u hu; rw [hp v u hu]; exact h

theorem flat_own (E : List Ev) : own (C04.flat E) = C04.flat (own E) := by
  refine filter_slice (fun v u hu => ?_) E
  cases v <;> simp [C04.slice] at hu <;> first | (obtain ⟨_, -, rfl⟩ := hu; rfl) | (subst hu; rfl)

theorem flat_wants (E : List Ev) : (C04.flat E).filter (wants c) = C04.flat (E.filter (wants c)) := by
  refine filter_slice (fun v u hu => ?_) E
  cases v <;> simp [C04.slice] at hu <;> first | (obtain ⟨_, -, rfl⟩ := hu; rfl) | (subst hu; rfl)

/-- C55 for any set of handlers: a document is accepted, and the handlers that are set are told their part. -/
theorem accepted {D : Dtd} {int x : XEnc} {asc iasc : UInt8 → Buf} (S : XSupported x asc) (he : c.expandInternal = true) (I : XSupported int iasc)
    (hi : int.e.mb = 1) (xs : List Buf) (hd : x.e.mb ∣ xs.flatten.length) {E : List Ev} (h : Document (full c) D int iasc x asc xs.flatten E) :
    ∃ F s r, feed (parser c D int x) x.e CState.init [] xs = (F, .ok s r) ∧ own (C04.flat F) = E.filter (wants c) := by
  obtain ⟨F, s, r, h1, rfl⟩ := C55.accepted S (full_all he) I hi xs hd h
  obtain ⟨h2, h3⟩ := feed_same (c := c) (D := D) S I xs CState.init []
  rw [h1] at h2 h3
  refine ⟨_, s, r, Prod.ext rfl h2, ?_⟩
  rw [flat_own, h3, flat_wants]

/-- What is accepted is a document, and the handlers that are set have been told their part. -/
theorem only {D : Dtd} {int x : XEnc} {asc iasc : UInt8 → Buf} (S : XSupported x asc) (he : c.expandInternal = true) (I : XSupported int iasc)
    (hi : int.e.mb = 1) (xs : List Buf) (hd : x.e.mb ∣ xs.flatten.length) (hb : prologTok x.e xs.flatten = ⟨.INSTANCE_START, 0⟩) {F : List Ev} {s : CState}
    {r : Buf} (h : feed (parser c D int x) x.e CState.init [] xs = (F, .ok s r)) :
    ∃ E, Document (full c) D int iasc x asc xs.flatten E ∧ own (C04.flat F) = E.filter (wants c) := by
  obtain ⟨h2, h3⟩ := feed_same (c := c) (D := D) S I xs CState.init []
  rw [h] at h2 h3
  refine ⟨_, (C55.accepted_iff S (full_all he) I hi xs hd hb _).1 ⟨_, s, r, Prod.ext rfl h2.symm, rfl⟩, ?_⟩
  rw [flat_own, h3, flat_wants]

end Verif.C64
