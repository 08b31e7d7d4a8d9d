import Verif.XmlwfThm
import Verif.Props.C76

/-! # C79: what `xmlwf` says of a file

The result for a file does not depend on how the file is read (whole, with `-r` in pieces, in whatever portions read(2) gives): it is a success
exactly if the file is a document; otherwise an error is reported.  The same output is written either way.  The exit status of a command says
whether all files are documents; the output of the first that is not is removed, and no more files are read.  The file for an external entity is
looked for in the directory of the one that refers to it. -/

set_option autoImplicit false

namespace Verif.C79
open C63 Spec Verif PState Api Wf

/-- The operating system has the file and no errors: it says how long it is, gives all of it, or portions of it up to its end. -/
structure IsFile (f : File) (text : Buf) : Prop where
  opens : f.opens = true
  stat : f.stat = some (true, text.length)
  whole : f.whole = some text
  reads : f.reads.flatten = text
  portions : ∀ w ∈ f.reads, w ≠ [] ∧ w.length ≤ 8192
  ends : f.ends = true

/-- Not near the limits of C `int`. -/
def Small (text : Buf) : Prop := text.length + 8192 + 1024 ≤ 2 ^ 30

section
variable {C : PCfg} {ext : Ext} {fuel : Nat} {upd : Buf → Pos → Option Pos} {alloc : Nat → Bool}

local notation "En" => docEngine C ext fuel upd alloc

/-- The file is parsed as by calls of XML_Parse. -/
theorem as_calls (hu : ∀ b x, upd b x ≠ none) (ha : ∀ n, alloc n = true) {p : Parser Inner} (hn : New p) {f : File} {text : Buf} (h : IsFile f text) (hs : Small text)
    (map : Bool) : ∃ ws w o rs q, ws.flatten ++ w = text ∧ Wf.process En p f map = some o ∧ Path En p (calls ws w) rs q ∧ Agrees o rs q := by
  simp only [Small] at hs
  cases map with
  | false =>
    have hr : ∀ v ∈ f.reads, v.length < 2 ^ 31 := fun v hv => by have := (h.portions v hv).2; omega
    obtain ⟨rs, q, hp⟩ := path_exists (C := C) (ext := ext) (fuel := fuel) (alloc := alloc) hu [] (by simp) f.reads hn.inv hr
    obtain ⟨o, ho, A⟩ := stream_agrees hu ha f.reads hn.reading hn.inv rfl h.portions (by rw [hn.pending, h.reads]; simp only [readSize, List.length_nil]; omega) hp
    exact ⟨f.reads, [], o, rs, q, by simp [h.reads], by simp [Wf.process, processStream, h.opens, h.ends, ho], hp, A⟩
  | true =>
    obtain ⟨rs, q, hp⟩ := path_exists (C := C) (ext := ext) (fuel := fuel) (alloc := alloc) hu text (by omega) [] hn.inv (by simp)
    obtain ⟨o, ho, A⟩ := file_agrees hu ha hn.reading (by rw [hn.pending]; simp only [List.length_nil]; omega) hp
    refine ⟨[], text, o, rs, q, rfl, ?_, hp, A⟩
    have hm : ¬ maxChunk < text.length := by simp only [maxChunk]; omega
    simp only [Wf.process, if_true, processMapped, h.opens, h.stat, Bool.true_eq_false, if_false, if_neg hm, h.whole]
    by_cases h0 : text.length = 0
    · rw [if_pos h0, ← ho, List.length_eq_zero_iff.1 h0]
    · rw [if_neg h0, if_neg (by simp), ho]

variable {i : EncId} {idx : EncIndex} {m t : Buf}

/-- **C79**, the verdict. -/
theorem verdict (U : C61.Usual C) {p : Parser Inner} (hn : New p) (ho : NoDtd p.conf) (hi : getEncodingIndex p.conf.encoding = some idx)
    (h0 : C60.Found idx m t i) (hd : (i.x C.c.ns).e.mb ∣ t.length) (hs : Small (m ++ t)) :
    ∃ N, ∀ (ext : Ext) (fuel : Nat) (upd : Buf → Pos → Option Pos) (alloc : Nat → Bool), (∀ b x, upd b x ≠ none) → (∀ n, alloc n = true) → N ≤ fuel →
      ∀ (f : File) (map : Bool), IsFile f (m ++ t) → ∃ o, Wf.process (docEngine C ext fuel upd alloc) p f map = some o ∧
        (o.result = true ↔ C61.IsDocument (settings C p.conf) i t) ∧ (o.result = true → o.said = none) ∧
        (o.result = false → ∃ e l c, o.said = some (.error (some e) l c)) := by
  obtain ⟨N, hN⟩ := accepted_iff U hn ho hi h0 hd
  refine ⟨max N (t.length + 1), fun ext fuel upd alloc hu ha hf f map h => ?_⟩
  obtain ⟨ws, w, o, rs, q, hx, h1, hp, A⟩ := as_calls (C := C) (ext := ext) (fuel := fuel) hu ha hn h hs map
  have hl := congrArg List.length hx
  simp only [Small] at hs
  rw [List.length_append] at hl
  obtain ⟨-, k2, k3⟩ := hN ext fuel upd alloc ha (by omega) ws w hx (by omega) rs q hp
  refine ⟨o, h1, ?_, ?_, ?_⟩
  · rw [← k2]
    refine ⟨A.yes, fun g => ?_⟩
    cases hr : o.result with
    | true => rfl
    | false => rw [A.no hr] at g; cases g
  · intro g
    rcases A.said with ⟨-, s⟩ | ⟨s, -⟩
    · exact s
    · rw [s] at g; cases g
  · intro g
    rcases A.said with ⟨s, -⟩ | ⟨-, l, c, s⟩
    · rw [s] at g; cases g
    · obtain ⟨-, k⟩ := nothing_else (fuel := fuel) U ha hn ho hi h0 hd (by omega) (k3.1 (A.no g)) hx (by omega) hp
      obtain ⟨e, he⟩ := Option.ne_none_iff_exists'.1 k
      exact ⟨e, l, c, by rw [s, he]⟩

theorem says_written {A : List C59.Said} {E G : List PEv} (h : C59.Says A E) (h' : C59.Says A G) : E.flatMap C76.putP = G.flatMap C76.putP := by
  induction h generalizing G with
  | nil => cases h'; rfl
  | @cons a v A E h1 h2 ih =>
    cases h' with
    | cons g1 g2 =>
      rw [List.flatMap_cons, List.flatMap_cons, ih g2]
      congr 1
      cases a with
      | call u => rw [show _ = u from h1, show _ = u from g1]
      | model n m =>
        obtain ⟨b, rfl, -⟩ := h1
        obtain ⟨b', rfl, -⟩ := g1
        rfl

/-- **C79**, the output (`-d`, C76): one text for a document, however it is read. -/
theorem output (U : C61.Usual C) (W : C76.Writes C) {p : Parser Inner} (hn : New p) (ho : NoDtd p.conf) (hi : getEncodingIndex p.conf.encoding = some idx)
    (h0 : C60.Found idx m t i) (hd : (i.x C.c.ns).e.mb ∣ t.length) (hs : Small (m ++ t)) :
    ∃ N out, ∀ (ext : Ext) (fuel : Nat) (upd : Buf → Pos → Option Pos) (alloc : Nat → Bool), (∀ b x, upd b x ≠ none) → (∀ n, alloc n = true) → N ≤ fuel →
      ∀ (f : File) (map : Bool) (o : Wf.Out Inner), IsFile f (m ++ t) → Wf.process (docEngine C ext fuel upd alloc) p f map = some o → o.result = true →
        C76.written o.st.inner.P o.st.inner.F = out := by
  by_cases hdoc : C61.IsDocument (settings C p.conf) i t
  · obtain ⟨h, w, b, d, j, A, D', Ev, rfl, g2, g3, g4⟩ := hdoc
    obtain ⟨N, hN⟩ := documents U hn ho hi h0 hd g2 g3 g4
    by_cases hA : ∃ E, C59.Says A E
    · obtain ⟨E0, hE0⟩ := hA
      refine ⟨N, E0.flatMap C76.putP ++ Ev.flatMap C76.put, fun ext fuel upd alloc hu ha hf f map o hfile h1 _ => ?_⟩
      obtain ⟨ws, v, o', rs, q, hx, h1', hp, Ag⟩ := as_calls (C := C) (ext := ext) (fuel := fuel) hu ha hn hfile hs map
      rw [h1'] at h1
      cases h1
      have hl := congrArg List.length hx
      simp only [Small] at hs
      rw [List.length_append] at hl
      obtain ⟨-, -, ⟨V, E, e1, e2, e3⟩, e4⟩ := hN ext fuel upd alloc ha hf ws v hx (by omega) rs q hp
      obtain ⟨w1, -, w3, -⟩ := C76.written_calls W e1 e2 e4
      rw [C76.written, Ag.inner, w1, w3, says_written e3 hE0]
    · refine ⟨N, [], fun ext fuel upd alloc hu ha hf f map o hfile h1 _ => ?_⟩
      obtain ⟨ws, v, o', rs, q, hx, h1', hp, Ag⟩ := as_calls (C := C) (ext := ext) (fuel := fuel) hu ha hn hfile hs map
      have hl := congrArg List.length hx
      simp only [Small] at hs
      rw [List.length_append] at hl
      obtain ⟨-, -, ⟨V, E, e1, e2, e3⟩, e4⟩ := hN ext fuel upd alloc ha hf ws v hx (by omega) rs q hp
      exact absurd ⟨E, e3⟩ hA
  · obtain ⟨N, hN⟩ := verdict U hn ho hi h0 hd hs
    refine ⟨N, [], fun ext fuel upd alloc hu ha hf f map o hfile h1 hr => ?_⟩
    obtain ⟨o', h1', k, -⟩ := hN ext fuel upd alloc hu ha hf f map hfile
    rw [h1'] at h1
    cases h1
    exact absurd (k.1 hr) hdoc

/-! ### Errors of the operating system -/

theorem report_fails {σ : Type} {E : Engine σ} {p : Parser σ} {o : Wf.Out σ} (h : reportError E p = some o) : o.result = false := by
  unfold reportError at h
  split at h
  · cases h
  · split at h
    · cases h
    · cases h; rfl

theorem stream_unread {σ : Type} {E : Engine σ} {ws : List Buf} (hw : ∀ w ∈ ws, w ≠ []) : ∀ {p : Parser σ} {o : Wf.Out σ},
    stream E false ws p = some o → o.result = false := by
  induction ws with
  | nil =>
    intro p o h
    simp only [stream, room] at h
    split at h
    · cases h
    · split at h <;> cases h <;> rfl
  | cons w ws ih =>
    intro p o h
    simp only [stream, room] at h
    split at h
    · cases h
    · split at h
      · simp only [parsed, if_neg (hw w (by simp))] at h
        split at h
        · cases h
        · split at h
          · exact report_fails h
          · exact ih (fun v hv => hw v (by simp [hv])) h
      · cases h; rfl

/-- **C79**, files that cannot be read: a success is reported only if the file could be opened and was read to its end; with any handlers. -/
theorem read_all {σ : Type} {E : Engine σ} {p : Parser σ} {f : File} {map : Bool} {o : Wf.Out σ} (hw : ∀ w ∈ f.reads, w ≠ []) (h : Wf.process E p f map = some o)
    (hr : o.result = true) : f.opens = true ∧ (map = false ∧ f.ends = true ∨
      map = true ∧ ∃ n, f.stat = some (true, n) ∧ (2 ^ 30 < n ∧ f.ends = true ∨ n = 0 ∨ n ≤ 2 ^ 30 ∧ ∃ d, f.whole = some d ∧ d.length = n)) := by
  have st {o : Wf.Out σ} (h : processStream E p f = some o) (hr : o.result = true) : f.opens = true ∧ f.ends = true := by
    unfold processStream at h
    split at h
    · rename_i h1
      refine ⟨h1, ?_⟩
      cases he : f.ends with
      | true => rfl
      | false =>
        rw [he] at h
        rw [stream_unread hw h] at hr
        cases hr
    · cases h; cases hr
  unfold Wf.process at h
  cases map with
  | false => exact ⟨(st h hr).1, .inl ⟨rfl, (st h hr).2⟩⟩
  | true =>
    simp only [if_true, processMapped] at h
    by_cases ho : f.opens = true
    · rw [if_pos ho] at h
      refine ⟨ho, .inr ⟨rfl, ?_⟩⟩
      cases hs : f.stat with
      | none => rw [hs] at h; cases h; cases hr
      | some x =>
        obtain ⟨b, n⟩ := x
        rw [hs] at h
        simp only at h
        cases b with
        | false => rw [if_pos rfl] at h; cases h; cases hr
        | true =>
          rw [if_neg (by simp)] at h
          refine ⟨n, rfl, ?_⟩
          by_cases hm : maxChunk < n
          · rw [if_pos hm] at h
            exact .inl ⟨by simp only [maxChunk] at hm; omega, (st h hr).2⟩
          · rw [if_neg hm] at h
            by_cases h0 : n = 0
            · exact .inr (.inl h0)
            · rw [if_neg h0] at h
              refine .inr (.inr ⟨by simp only [maxChunk] at hm; omega, ?_⟩)
              cases hd : f.whole with
              | none => rw [hd] at h; cases h; cases hr
              | some d =>
                rw [hd] at h
                simp only at h
                by_cases hl : d.length = n
                · exact ⟨d, rfl, hl⟩
                · rw [if_pos hl] at h; cases h; cases hr
    · rw [if_neg ho] at h; cases h; cases hr

/-! ### Commands -/

/-- A file with its text: byte order mark, text, encoding. -/
structure Input where
  file : File
  mark : Buf
  text : Buf
  enc : EncId

/-- The conditions of `verdict`. -/
structure Input.Fine (C : PCfg) (idx : EncIndex) (x : Input) : Prop where
  file : IsFile x.file (x.mark ++ x.text)
  found : C60.Found idx x.mark x.text x.enc
  units : (x.enc.x C.c.ns).e.mb ∣ x.text.length
  small : Small (x.mark ++ x.text)

/-- The options of a parser `xmlwf` creates (without `-p`). -/
def conf (enc : Option Buf) : Conf := ⟨enc, false, false, .never⟩

def Input.Doc (C : PCfg) (enc : Option Buf) (x : Input) : Prop := C61.IsDocument (settings C (conf enc)) x.enc x.text

/-- **C79**, the exit status: the command ends, with status 0 if all files are documents, and otherwise with status 2 after the first that is not
one; the outputs kept are those of the documents before it. -/
theorem exits (U : C61.Usual C) {enc : Option Buf} (hi : getEncodingIndex enc = some idx) (map : Bool) (xs : List Input) (hx : ∀ x ∈ xs, x.Fine C idx) :
    ∃ N, ∀ (ext : Ext) (fuel : Nat) (upd : Buf → Pos → Option Pos) (alloc : Nat → Bool), (∀ b x, upd b x ≠ none) → (∀ n, alloc n = true) → N ≤ fuel →
      ∃ e, Wf.run (docEngine C ext fuel upd alloc) enc map (xs.map (·.file)) = some e ∧
        ((∀ x ∈ xs, x.Doc C enc) ∧ e = ⟨0, xs.map fun _ => true⟩ ∨
          ∃ ys y zs, xs = ys ++ y :: zs ∧ (∀ x ∈ ys, x.Doc C enc) ∧ ¬ y.Doc C enc ∧ e = ⟨2, (ys.map fun _ => true) ++ [false]⟩) := by
  induction xs with
  | nil => exact ⟨0, fun ext fuel upd alloc _ _ _ => ⟨_, rfl, .inl ⟨by simp, rfl⟩⟩⟩
  | cons x xs ih =>
    obtain ⟨N, hN⟩ := ih fun y hy => hx y (by simp [hy])
    obtain ⟨hf, h0, hd, hs⟩ := hx x (by simp)
    obtain ⟨N', hN'⟩ := verdict U (p := create (docEngine C C61.exExt 0 (fun _ _ => none) (fun _ => true)) enc) (new_create enc) ⟨rfl, rfl⟩ hi h0 hd hs
    refine ⟨max N N', fun ext fuel upd alloc hu ha hfu => ?_⟩
    obtain ⟨o, h1, h2, -⟩ := hN' ext fuel upd alloc hu ha (by omega) x.file map hf
    obtain ⟨e, h3, h4⟩ := hN ext fuel upd alloc hu ha (by omega)
    have h1' : Wf.process (docEngine C ext fuel upd alloc) (create (docEngine C ext fuel upd alloc) enc) x.file map = some o := h1
    have h2' : o.result = true ↔ x.Doc C enc := h2
    rw [List.map_cons, Wf.run, h1']
    simp only
    cases hr : o.result with
    | false =>
      rw [hr] at h2'
      exact ⟨_, rfl, .inr ⟨[], x, xs, rfl, by simp, fun g => by simpa using h2'.2 g, rfl⟩⟩
    | true =>
      have hx' := h2'.1 hr
      rw [if_neg (by simp), h3]
      refine ⟨_, rfl, ?_⟩
      rcases h4 with ⟨k1, rfl⟩ | ⟨ys, y, zs, rfl, k1, k2, rfl⟩
      · exact .inl ⟨by simpa using ⟨hx', k1⟩, rfl⟩
      · exact .inr ⟨x :: ys, y, zs, rfl, by simpa using ⟨hx', k1⟩, k2, rfl⟩

end

/-! ### Names -/

/-- `d` is the directory part of `b`: all up to the last `/`. -/
def Dir (b d : Buf) : Prop := (∃ a s, b = a ++ 0x2F :: s ∧ 0x2F ∉ s ∧ d = a ++ [0x2F]) ∨ (0x2F ∉ b ∧ d = [])

theorem dir_exists (b : Buf) : ∃ d, Dir b d := by
  induction b with
  | nil => exact ⟨[], .inr ⟨by simp, rfl⟩⟩
  | cons c b ih =>
    obtain ⟨d, ⟨a, s, rfl, h1, rfl⟩ | ⟨h, rfl⟩⟩ := ih
    · exact ⟨c :: (a ++ [0x2F]), .inl ⟨c :: a, s, rfl, h1, rfl⟩⟩
    · by_cases hc : c = 0x2F
      · subst hc
        exact ⟨[0x2F], .inl ⟨[], b, rfl, h, rfl⟩⟩
      · exact ⟨[], .inr ⟨by simp only [List.mem_cons, not_or]; exact ⟨fun g => hc g.symm, h⟩, rfl⟩⟩

/-- **C79**, external entities: the file for `name` in the file `base` is `name` itself if it begins with `/` or the base is not known (standard input),
and otherwise `name` in the directory of `base`; nothing is written beyond the memory allocated for it, whatever was in it. -/
theorem resolves {base name d : Buf} (hb : 0 ∉ base) (hn : 0 ∉ name) (hd : Dir base d) (junk : Nat → Buf) (hj : ∀ n, (junk n).length = n) (r1 r2 : Buf) :
    resolveSystemId none (name ++ 0 :: r2) junk = .same ∧
    (name.head? = some 0x2F → resolveSystemId (some (base ++ 0 :: r1)) (name ++ 0 :: r2) junk = .same) ∧
    (name.head? ≠ some 0x2F → ∃ rest, resolveSystemId (some (base ++ 0 :: r1)) (name ++ 0 :: r2) junk = .made (d ++ name ++ 0 :: rest)) := by
  have hh : (name ++ 0 :: r2).head? = some 0x2F ↔ name.head? = some 0x2F := by
    cases name with
    | nil => simp
    | cons c s => simp
  refine ⟨rfl, fun h => by simp only [resolveSystemId]; rw [if_pos (hh.2 h)], fun h => ?_⟩
  simp only [resolveSystemId]
  rw [if_neg (fun g => h (hh.1 g)), strlen_text base r1 hb, strlen_text name r2 hn]
  simp only
  rw [strcpy_text _ 0 base r1 hb (by rw [hj]; omega)]
  simp only [List.take_zero, List.nil_append, Nat.zero_add]
  have hlen : ((junk (base.length + name.length + 2)).drop (base.length + 1)).length = name.length + 1 := by simp [hj]; omega
  generalize (junk (base.length + name.length + 2)).drop (base.length + 1) = J at hlen
  rcases hd with ⟨a, s, rfl, h1, rfl⟩ | ⟨h1, rfl⟩
  · have ha : 0 ∉ a := fun g => hb (by simp [g])
    have he : a ++ 0x2F :: s ++ 0 :: J = a ++ 0x2F :: (s ++ 0 :: J) := by simp
    rw [he, strrchr_last 0x2F (by decide) a s J ha h1]
    simp only
    rw [strcpy_text _ (a.length + 1) name r2 hn (by simp [hlen]; omega)]
    have ht : (a ++ 0x2F :: (s ++ 0 :: J)).take (a.length + 1) = a ++ [0x2F] := by
      rw [List.take_append]
      simp [List.take_of_length_le]
    rw [ht]
    exact ⟨_, rfl⟩
  · rw [strrchr_none 0x2F base J h1]
    simp only
    rw [strcpy_text _ 0 name r2 hn (by simp [hlen]; omega)]
    exact ⟨_, rfl⟩

/-! ### Examples -/

/-- A file in the given portions. -/
def portions (ws : List Buf) : File := ⟨true, some (true, ws.flatten.length), some ws.flatten, ws, true⟩

theorem portions_file {ws : List Buf} (h : ∀ w ∈ ws, w ≠ [] ∧ w.length ≤ 8192) : IsFile (portions ws) ws.flatten := ⟨rfl, rfl, rfl, rfl, h, rfl⟩

def exFile : File := portions ["<a><".toUTF8.toList, "b/>".toUTF8.toList, "</a>".toUTF8.toList]

def exBad : File := portions ["<a></".toUTF8.toList, "b>".toUTF8.toList]

/-- Three files, the second of which is not well-formed: the third is not looked at. -/
theorem ex_run : (∀ map : Bool, Wf.run exEngine none map [exFile, exBad, exFile] = some ⟨2, [true, false]⟩) ∧
    Wf.run exEngine none false [exFile, exFile] = some ⟨0, [true, true]⟩ ∧
    (Wf.process exEngine (create exEngine none) exBad false).map (fun o => (o.result, o.said.isSome)) = some (false, true) ∧
    Wf.run exEngine none true [{ exFile with whole := some [0x3C] }] = some ⟨2, [false]⟩ := by decide +kernel

/-- The theorems apply to the first file, however it is divided. -/
example : ∃ N, ∀ (ext : Ext) (fuel : Nat), N ≤ fuel → ∀ (f : File) (map : Bool), IsFile f "<a><b/></a>".toUTF8.toList →
    ∃ o, Wf.process (docEngine C59.exCfg ext fuel exUpd (fun _ => true)) (create exEngine none) f map = some o ∧
      (o.result = true ↔ C61.IsDocument (settings C59.exCfg (create exEngine none).conf) .utf8 "<a><b/></a>".toUTF8.toList) := by
  obtain ⟨N, hN⟩ := verdict (C := C59.exCfg) (p := create exEngine none) (i := .utf8) (idx := .noEnc) (m := []) (t := "<a><b/></a>".toUTF8.toList) C61.ex_usual
    (new_create (C := C59.exCfg) (ext := C61.exExt) (fuel := 200) (upd := exUpd) (alloc := fun _ => true) none) ⟨rfl, rfl⟩ rfl (by
      have h : "<a><b/></a>".toUTF8.toList = 0x3C :: 0x61 :: "<a><b/></a>".toUTF8.toList.drop 2 := by decide +kernel
      rw [h]; exact .plain 0x3C 0x61 _ (by decide) (by decide)) (Nat.one_dvd _) (by simp only [Small]; decide +kernel)
  refine ⟨N, fun ext fuel hf f map h => ?_⟩
  obtain ⟨o, h1, h2, -⟩ := hN ext fuel exUpd (fun _ => true) (fun b x => by simp [exUpd]) (fun _ => rfl) hf f map h
  exact ⟨o, h1, h2⟩

/-- `b/d.xml` in `a/c.xml`, and in `c.xml`. -/
example : (∃ rest, resolveSystemId (some "a/c.xml\x00".toUTF8.toList) "b/d.xml\x00".toUTF8.toList (fun n => List.replicate n 7) = .made ("a/b/d.xml".toUTF8.toList ++ 0 :: rest)) ∧
    resolveSystemId (some "c.xml\x00".toUTF8.toList) "d\x00".toUTF8.toList (fun n => List.replicate n 7) = .made ("d\x00xml\x00".toUTF8.toList ++ [7, 7]) := by
  refine ⟨⟨List.replicate 6 7, ?_⟩, ?_⟩ <;> decide +kernel

end Verif.C79
