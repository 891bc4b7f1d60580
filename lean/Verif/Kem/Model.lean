import Verif.Protocol.Model
import Verif.Util.Model

/-!
# Key encapsulation: `sike.c`

`sike.c` is compiled into the library but not called by the proof tools. The functions of `sidh.c` that it calls enter as
`Kex`: arbitrary functions on byte strings. Reading or writing outside a buffer is `none`.
-/

namespace Secuer.Kem

open Secuer.Text Secuer.Protocol Secuer.Util Secuer.Scalar

/-- Sizes (`P434_api.h:17-20`, `P434_internal.h:41-54`, and likewise for the other parameter sets) -/
structure Sizes where
  /-- `MSG_BYTES` -/
  msg : ℕ
  /-- `SECRETKEY_A_BYTES` -/
  skA : ℕ
  /-- `SECRETKEY_B_BYTES` -/
  skB : ℕ
  /-- `CRYPTO_PUBLICKEYBYTES` -/
  pk : ℕ
  /-- `CRYPTO_BYTES` -/
  ss : ℕ
  /-- `CRYPTO_CIPHERTEXTBYTES` -/
  ct : ℕ
  /-- `CRYPTO_SECRETKEYBYTES` -/
  sk : ℕ
  /-- `MASK_ALICE` -/
  maskA : UInt8
  /-- `MASK_BOB` -/
  maskB : UInt8

/-- `P434_api.h:17-20`, `P434_internal.h:38-53` -/
def sizes434 : Sizes := ⟨16, (216 + 7) / 8, (218 - 1 + 7) / 8, 330, 16, 346, 374, 0xFF, 0x01⟩
/-- `P503_api.h:17-20`, `P503_internal.h:38-53` -/
def sizes503 : Sizes := ⟨24, (250 + 7) / 8, (253 - 1 + 7) / 8, 378, 24, 402, 434, 0x03, 0x0F⟩
/-- `P610_api.h:17-20`, `P610_internal.h:38-53` -/
def sizes610 : Sizes := ⟨24, (305 + 7) / 8, (305 - 1 + 7) / 8, 462, 24, 486, 524, 0x01, 0xFF⟩
/-- `P751_api.h:17-20`, `P751_internal.h:38-53` -/
def sizes751 : Sizes := ⟨32, (372 + 7) / 8, (379 - 1 + 7) / 8, 564, 32, 596, 644, 0x0F, 0x03⟩

/-- What `sike.c` uses of `sidh.c`; keys are passed as exactly the bytes that the functions read. -/
structure Kex where
  /-- `EphemeralKeyGeneration_A` (`sidh.c:53`) -/
  genA : Bytes → Bytes
  /-- `EphemeralKeyGeneration_B` (`sidh.c:134`) -/
  genB : Bytes → Bytes
  /-- `EphemeralSecretAgreement_A` (`sidh.c:204`) -/
  agreeA : Bytes → Bytes → Bytes
  /-- `EphemeralSecretAgreement_B_extended` with `sike = 1` (`sidh.c:318`); `none` if it returns 1 -/
  agreeB : Bytes → Bytes → Option Bytes

/-- Read `n` bytes from position `i`. -/
def slice (buf : Bytes) (i n : ℕ) : Option Bytes := if i + n ≤ buf.length then some ((buf.drop i).take n) else none

/-- `memcpy(&buf[i], bs, n)`, or a loop storing byte after byte -/
def put (buf : Bytes) (i : ℕ) (bs : Bytes) : Option Bytes := if i + bs.length ≤ buf.length then some (blit buf i bs) else none

/-- The loops at `sike.c:67-69` and `sike.c:108-110` -/
def xorBytes : Bytes → Bytes → Bytes
  | a :: as, b :: bs => (a ^^^ b) :: xorBytes as bs
  | _, _ => []

variable (H : Hash) (K : Kex) (P : Sizes)

/-- `crypto_kem_keypair` (`sike.c:19-43`): the return value and what is written to `pk` and `sk`. `s`, `b` are the bytes that
the two calls of `randombytes` deliver, `none` if a call fails; `pk₀`, `sk₀` are the buffers before. `random_mod_order_B` is
`sidh.c:38-47`. -/
def keypair (s b : Option Bytes) (pk₀ sk₀ : Bytes) : Option (ℕ × Bytes × Bytes) := do
  match s with
  | none => pure (1, pk₀, sk₀)
  | some s =>
    let sk ← put sk₀ 0 s
    match b with
    | none => pure (1, pk₀, sk)
    | some b =>
      let sk ← put sk P.msg (maskLast P.maskB b)
      let skB ← slice sk P.msg P.skB
      let pk ← put pk₀ 0 (K.genB skB)
      let pk' ← slice pk 0 P.pk
      let sk ← put sk (P.msg + P.skB) pk'
      pure (0, pk, sk)

/-- `crypto_kem_enc` (`sike.c:46-80`): the return value and what is written to `ct` and `ss`; `m` are the bytes delivered by
`randombytes`, `temp₀` the uninitialised array `temp`, `ct₀`, `ss₀` the buffers before. -/
def enc (m : Option Bytes) (temp₀ ct₀ ss₀ pk : Bytes) : Option (ℕ × Bytes × Bytes) := do
  match m with
  | none => pure (1, ct₀, ss₀)
  | some m =>
    let temp ← put temp₀ 0 m
    let pk ← slice pk 0 P.pk
    let temp ← put temp P.msg pk
    let inp ← slice temp 0 (P.pk + P.msg)
    let esk := maskLast P.maskA (H.out P.skA inp)
    let ct ← put ct₀ 0 (K.genA esk)
    let h := H.out P.msg (K.agreeA esk pk)
    let m' ← slice temp 0 P.msg
    let ct ← put ct P.pk (xorBytes m' h)
    let ct' ← slice ct 0 P.ct
    let temp ← put temp P.msg ct'
    let inp ← slice temp 0 (P.ct + P.msg)
    let ss ← put ss₀ 0 (H.out P.ss inp)
    pure (0, ct, ss)

/-- `crypto_kem_dec` (`sike.c:83-134`): the return value and what is written to `ss`. -/
def dec (temp₀ ss₀ ct sk : Bytes) : Option (ℕ × Bytes) := do
  let skB ← slice sk P.msg P.skB
  let c0 ← slice ct 0 P.pk
  let (temp, selector) ←
    -- `if (!EphemeralSecretAgreement_B_extended(...) == 0) goto Hashing;`: `!` binds tighter than `==`
    match K.agreeB skB c0 with
    | none => pure (temp₀, (255 : UInt8))
    | some j => do
      let h := H.out P.msg j
      let c1 ← slice ct P.pk P.msg
      let temp ← put temp₀ 0 (xorBytes c1 h)
      let pk ← slice sk (P.msg + P.skB) P.pk
      let temp ← put temp P.msg pk
      let inp ← slice temp 0 (P.pk + P.msg)
      let esk := maskLast P.maskA (H.out P.skA inp)
      pure (temp, UInt8.ofBitVec (ctCompare (K.genA esk) c0))
  let m ← slice temp 0 P.msg
  let s ← slice sk 0 P.msg
  let temp ← put temp 0 (ctCmov selector m s)
  let ct' ← slice ct 0 P.ct
  let temp ← put temp P.msg ct'
  let inp ← slice temp 0 (P.ct + P.msg)
  let ss ← put ss₀ 0 (H.out P.ss inp)
  pure (0, ss)

end Secuer.Kem
