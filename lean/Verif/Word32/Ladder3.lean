import Verif.Word32.Build
import Verif.Sidh.WModel

/-!
# `LADDER3PT` with 32-bit digits

The scalar of the key exchange is read digit by digit; everything else in `sidh.c` is as with 64-bit digits.
-/

namespace Secuer.Word32

open Secuer.Word (UInt Arith Bit)
open Secuer.Field Secuer.Scalar
open Secuer.Curve (Pt)

/-- The main loop of `LADDER3PT` (`ec_isogeny.c:352-364`): `n` iterations left, the next one looks at bit `i`; `none` for an access
beyond the scalar -/
def ladder3Loop [Arith] (l : Level) (m : List Digit) (A24 : Word.F2) :
    (n i : ℕ) → (prevbit : UInt) → (R0 R2 R : Pt Word.F2) → Option (Pt Word.F2)
  | 0, _, prevbit, _, R2, R => some (swapPoints (ladderMask prevbit) R R2).1
  | n + 1, i, prevbit, R0, R2, R => do
    let bit ← scalarBit m i
    let s := swapPoints (ladderMask (bit ^^^ prevbit)) R R2
    let r := WCurve.xDBLADD l R0 s.2 s.1.X s.1.Z A24
    ladder3Loop l m A24 n (i + 1) bit r.1 r.2 s.1

/-- `LADDER3PT` (`ec_isogeny.c:323-365`) -/
def ladder3pt [Arith] (l : Level) (xP xQ xPQ : Word.F2) (m : List Digit) (nbits : ℕ) (A : Word.F2) : Option (Pt Word.F2) :=
  let A24 := Word.fp2one (Word.tables l)
  let A24 := Word.mp2add A24 A24
  let A24 := Word.mp2add A A24
  let A24 := Word.fp2div2 (Word.tables l) A24
  let A24 := Word.fp2div2 (Word.tables l) A24
  let R0 : Pt Word.F2 := ⟨xQ, Word.fp2one (Word.tables l)⟩
  let R2 : Pt Word.F2 := ⟨xPQ, Word.fp2one (Word.tables l)⟩
  let R : Pt Word.F2 := ⟨xP, Word.fp2one (Word.tables l)⟩
  ladder3Loop l m A24 nbits 0 0 R0 R2 R

/-- `decode_to_digits` of a private key into an array of `NWORDS_ORDER` zero digits (`sidh.c:58, 73` …), `nbytes` the size of the key -/
def readKey (l : Level) (nbytes : ℕ) (k : List UInt8) : Option (List Digit) :=
  if nbytes ≤ k.length then some (decodeToDigits (List.replicate (nwordsOrder l) 0) k nbytes (nwordsOrder l)) else none

theorem ladder3Loop_eq [Arith] {l : Level} {m : List Digit} {m' : List Word.Digit} {A24 : Word.F2} :
    ∀ (n i : ℕ), (∀ j < i + n, ∃ b, Bit b ∧ scalarBit m j = some b ∧ scalarBit64 m' j = some b) →
      ∀ (prev : UInt), Bit prev → ∀ R0 R2 R, ladder3Loop l m A24 n i prev R0 R2 R = WSidh.ladder3Loop l m' A24 n i prev R0 R2 R
  | 0, _, _, prev, hp, R0, R2, R => by
    rw [ladder3Loop, WSidh.ladder3Loop, swapPoints_eq hp]
  | n + 1, i, h, prev, hp, R0, R2, R => by
    obtain ⟨b, hb, e1, e2⟩ := h i (by omega)
    rw [ladder3Loop, WSidh.ladder3Loop, e1]
    unfold scalarBit64 at e2
    cases hw : m'[i / 64]? with
    | none => rw [hw] at e2; cases e2
    | some w =>
      rw [hw] at e2
      have e3 : ((w >>> (i % 64)) &&& 1).setWidth 32 = b := Option.some.inj e2
      show ladder3Loop l m A24 n (i + 1) b _ _ _ = WSidh.ladder3Loop l m' A24 n (i + 1) (((w >>> (i % 64)) &&& 1).setWidth 32) _ _ _
      rw [e3, swapPoints_eq (bit_xor hb hp)]
      exact ladder3Loop_eq n (i + 1) (fun j hj => h j (by omega)) b hb _ _ _

/-- Reading a private key and the ladder with it -/
theorem ladder3pt_eq [Arith] {l : Level} {nbytes nbits : ℕ} (h1 : nbytes ≤ 8 * WCurve.nwordsOrder l) (h2 : nbits ≤ 8 * nbytes)
    (k : List UInt8) (xP xQ xPQ A : Word.F2) :
    ((readKey l nbytes k).bind fun m => ladder3pt l xP xQ xPQ m nbits A) =
      (WSidh.readKey l nbytes k).bind fun m => WSidh.ladder3pt l xP xQ xPQ m nbits A := by
  have hn : nwordsOrder l = 2 * WCurve.nwordsOrder l := by cases l <;> rfl
  unfold readKey WSidh.readKey
  by_cases hk : nbytes ≤ k.length
  · rw [if_pos hk, if_pos hk]
    show ladder3pt l xP xQ xPQ _ nbits A = WSidh.ladder3pt l xP xQ xPQ _ nbits A
    unfold ladder3pt WSidh.ladder3pt
    refine ladder3Loop_eq _ _ (fun j hj => ?_) _ Word.bit_zero _ _ _
    exact ⟨_, ofNat_bit _, decode_bits List.length_replicate hk (by omega) (by omega),
      decode_bits64 List.length_replicate hk h1 (by omega)⟩
  · rw [if_neg hk, if_neg hk]
    rfl

end Secuer.Word32
