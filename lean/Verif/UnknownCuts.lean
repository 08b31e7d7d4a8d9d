import Verif.Props.C20
import Verif.PrologChunks

/-! Encodings supplied by the application: more input does not change a token, and converted text may be cut after any
character. -/

set_option autoImplicit false

namespace Verif
open Spec C43

/-- The encoding which the parser uses after a call of the unknown-encoding handler (src/lib/xmlparse.rs:5365-5376). -/
def unknownX (u : Unknown) : XEnc := ⟨unknownEncOf u, unknownConvert u, false⟩

section
variable {m : List Int} {f : Option (Buf → Int)} {ns : Bool} {u : Unknown} (h : unknownInit m f ns = some u)
  (hl : m.length = 256)
include h hl

theorem fits_unknown : C43.Fits (unknownConvStep u) := by
  intro b cap _ hcap
  have hw : ∀ w : List UInt8, w.length ≤ 4 → ∀ n, (if cap < w.length then CStep.stop .outputExhausted else .emit w n) ≠
      .stop .outputExhausted := by
    intro w hw n
    rw [if_neg (by omega)]
    simp
  have hc : ∀ z : Int, (xmlUtf8Encode z).length ≤ 4 := by
    intro z
    by_cases hz : z < 0 ∨ 0x110000 ≤ z
    · rw [C11.encode_none z hz]; simp
    · have : z = (z.toNat : Int) := by omega
      rw [this, C11.encode_spec _ (by omega), utf8]
      split <;> (try split) <;> (try split) <;> simp
  obtain ⟨x, h1, -, h3, -⟩ := C20.tables h hl (byteAt b 0)
  unfold unknownConvStep
  rw [h3]
  split
  · apply hw
    split
    · exact hc _
    · simp
  · apply hw
    unfold unknownEntry at h1
    split at h1
    · cases h1; simp
    · split at h1
      · split at h1
        · cases h1
        · split at h1
          · cases h1
          · cases h1; simp
      · split at h1
        · simp only at h1
          split at h1
          · cases h1
          · cases h1; simp
        · split at h1
          · cases h1; simp
          · split at h1
            · cases h1
            · cases h1; exact hc _

theorem unknown_charStep : CharStep (unknownEncOf u) (unknownConvStep u) := by
  intro w hw
  obtain ⟨c, hc, hm, hx⟩ := (C20.legal_iff h hl w).1 hw
  refine ⟨utf8 c, fun r cap hcap => ?_⟩
  rw [C20.step h hl hm hx hc, if_neg]
  rw [utf8]
  split <;> (try split) <;> (try split) <;> simp <;> omega

theorem unknown_cuts : (unknownX u).Cuts where
  ok := unknownEncOf_ok u
  even _ := Nat.one_dvd _
  mb2 := by show 1 ≤ 2; omega
  space b n v ht := by
    have hd : Delivers (unknownX u) := loop_delivers (C12.uniform_unknown u) (fits_unknown h hl) _ rfl
    obtain ⟨ws, hw, he⟩ := space_chars_ok (unknownEncOf_ok u) (.inl rfl) ht
    have hp : ∀ b, (pieces (unknownX u) b).flatten = converted (unknownX u) b := fun b => deliver_flatten hd b
    rw [hp, hp, hp, he]
    exact loop_app (unknown_charStep h hl) (C12.uniform_unknown u) (fits_unknown h hl) (show (1:Nat) ≤ 2 by omega) ws hw v
      _ _ _ (by simp only [unknownX] at *; omega) (by omega) (by omega)

end

/-- A parser whose unknown-encoding handler is `g` (src/lib/xmlparse.rs:5322-5325, 5336-5391): every name is looked up by
the handler. -/
def unknownBy (g : Option (List UInt8 → Bool × EncInfo)) (ns : Bool) (name : Buf) : Option XEnc :=
  (handleUnknownEncoding g name ns).enc.map unknownX

/-- Whatever the handler answers, the encodings which the parser then installs are as C57 needs. -/
theorem unknownBy_ok (g : Option (List UInt8 → Bool × EncInfo)) (hg : ∀ k, g = some k → ∀ n, (k n).2.map.length = 256)
    (ns : Bool) (n : Buf) (y : XEnc) (hy : unknownBy g ns n = some y) : y.Cuts ∧ y.e.mb = 1 := by
  unfold unknownBy at hy
  cases hu : (handleUnknownEncoding g n ns).enc with
  | none => rw [hu] at hy; cases hy
  | some u =>
    rw [hu] at hy
    simp only [Option.map_some, Option.some.injEq] at hy
    subst hy
    unfold handleUnknownEncoding at hu
    cases g with
    | none => cases hu
    | some k =>
      simp only at hu
      split at hu
      · split at hu
        · rename_i v hv
          simp only [Option.some.injEq] at hu
          subst hu
          exact ⟨unknown_cuts hv (hg k rfl n), rfl⟩
        · cases hu
      · cases hu

end Verif
