/-!
# Protocol parameters

Models `poik.h` lines 19-45 and the sizes `SIDH_BYTES`/`FP2_ENCODED_BYTES` it relies on
(`P434_internal.h`, ..., `P751_internal.h`: `FP2_ENCODED_BYTES = 2*((NBITS_FIELD+7)/8)`).
All paths below are relative to `/repo/c-impl/PQCrypto-SIDH/src`.
-/

namespace Secuer

/-- Compile-time constants selected by `POIK_BITS` (`poik.h:19-45`).
`fpBytes` is `SIDH_BYTES/2 = FP2_ENCODED_BYTES/2`, the size of one packed coordinate
(`poik.h:49-56`, `poik.c:1518`). -/
structure Params where
  /-- `SIDH_BYTES/2` -/
  fpBytes : Nat
  /-- `POIK_REPS` -/
  reps : Nat
  /-- `POIK_WIDTH` -/
  width : Nat
  /-- `POIK_HEIGHT` -/
  height : Nat
  /-- `HASH_BYTES` -/
  hash : Nat
  /-- `HIDE_BYTES` -/
  hide : Nat
deriving DecidableEq, Repr

/-- `POIK_BITS == 434` (`poik.h:19-24`; `SIDH_BYTES = 110`). -/
def params434 : Params := ⟨(434 + 7) / 8, 219, 4, 7, 32, 64⟩
/-- `POIK_BITS == 503` (`poik.h:25-30`; `SIDH_BYTES = 126`). -/
def params503 : Params := ⟨(503 + 7) / 8, 219, 4, 7, 32, 64⟩
/-- `POIK_BITS == 610` (`poik.h:31-36`; `SIDH_BYTES = 154`). -/
def params610 : Params := ⟨(610 + 7) / 8, 329, 4, 7, 48, 96⟩
/-- `POIK_BITS == 751` (`poik.h:37-42`; `SIDH_BYTES = 188`). -/
def params751 : Params := ⟨(751 + 7) / 8, 438, 4, 7, 64, 128⟩

/-- The four configurations that compile (`poik.h:43-45` rejects every other value). -/
def Params.Supported (P : Params) : Prop :=
  P = params434 ∨ P = params503 ∨ P = params610 ∨ P = params751

/-- All sizes are positive: the only thing most theorems need to know about the parameters. -/
structure Params.Pos (P : Params) : Prop where
  fpBytes : 0 < P.fpBytes
  reps : 0 < P.reps
  width : 0 < P.width
  height : 0 < P.height
  hash : 0 < P.hash
  hide : 0 < P.hide

theorem Params.Supported.pos {P : Params} (h : P.Supported) : P.Pos := by
  rcases h with rfl | rfl | rfl | rfl <;> constructor <;> decide

end Secuer
