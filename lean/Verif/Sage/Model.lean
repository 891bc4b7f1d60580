import Verif.Props.ProtocolProps

/-!
# Hashing in the Sage verifier: `sage-impl/verify.sage`

`pack`, `hash_hiding`, `challenge` and what the `unpack` methods hash, given the curves that `unpack_chain` reaches. The rest of
the script is in `Sage/Verifier`.

`out n x` is `n` bytes of SHAKE256, as in `Hash`.
-/

namespace Secuer.Sage

open Secuer.Protocol Secuer.Curve Secuer.Mont Secuer.Field Secuer.Text Secuer.Scalar
open Secuer.CurveProps (jOf)

variable (l : Level)

/-- `pack` (`verify.sage:27-30`); `plen = (p.bit_length() + 7) // 8` -/
def pack (v : l.F) : Bytes := leBytes ((Nat.size l.p + 7) / 8) v.re.val ++ leBytes ((Nat.size l.p + 7) / 8) v.im.val

/-- `hash_hiding` (`verify.sage:32-37`): `h.read(int(32))` -/
def hashHiding (H : Hash) (r : Bytes) (v : l.F) : Bytes := H.out 32 ([2] ++ r ++ pack l v)

/-- The `unpack` methods (`verify.sage:129-132`, `144-149`, `160-163`), given the curves `a₂`, `a₃` they arrive at. -/
def unpack (H : Hash) (a₂ a₃ : l.F) : Resp → Bytes × Bytes
  | .left r2 h3 _ => (hashHiding l H r2 (jOf a₂), h3)
  | .bottom r2 r3 _ _ => (hashHiding l H r2 (jOf a₂), hashHiding l H r3 (jOf a₃))
  | .right h2 r3 _ => (h2, hashHiding l H r3 (jOf a₃))

/-- What `challenge` feeds to SHAKE256 (`verify.sage:45-51`) -/
def challengeInput (a₀ a₁ : l.F) (hs : List (Bytes × Bytes)) : Bytes :=
  hs.foldl (fun buf c => buf ++ (c.1 ++ c.2)) ([1] ++ pack l (jOf a₀) ++ pack l (jOf a₁))

/-- One byte of the loop (`verify.sage:55-60`) -/
def step (v : UInt8) (trits : List Int) : List Int :=
  if v.toNat ≥ 243 then trits
  else ((List.range 5).foldl (fun (s : ℕ × List Int) _ =>
      let r := s.1 % 3
      (s.1 / 3, s.2 ++ [if r = 2 then -1 else (r : Int)])) (v.toNat, trits)).2

/-- The loop of `challenge` (`verify.sage:54-61`) on the bytes that `h.read(1)` returns one after the other; `none` if it is not
finished when they are used up. `n` is `len(hs)`. -/
def sampler (n : ℕ) : List UInt8 → List Int → Option (List Int)
  | bytes, trits =>
    if trits.length < n then
      match bytes with
      | [] => none
      | v :: bytes => sampler n bytes (step v trits)
    else some (trits.take n)

end Secuer.Sage
