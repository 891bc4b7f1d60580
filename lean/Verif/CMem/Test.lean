import Verif.CMem.Prove
import Verif.Util.Model

/-!
# `test.c` on memory

The test program of the repository, for the portable build without threads.  Not modelled: what it prints (except `render_progress`) and the clocks
(`test.c:16-23, 64-90`).  The proofs from `malloc` are never freed (`test.c:122, 158`); every call has its own results of `malloc`.
-/

namespace Secuer.CMem

open Secuer.Word Secuer.Field
open Secuer.WCurve (Draw)
open Secuer.Curve (Out Tape)
open Secuer.Protocol (Hash)

attribute [local instance] Arith.portable

/-- `345[(char*)prf] ^= 1` (`test.c:134`) -/
def flipM (prf : ℕ) (m : Mem) : Mem := setByte m (prf + 345) (byteAt m (prf + 345) ^^^ 1)

/-- The results of the calls of `malloc` in a run of `test_poik` or `bench_poik`: the proof (`test.c:122, 158`, a byte address), and the instances
(`poik.c:1417`, a word address) -/
structure Heap where
  prf : Option ℕ
  inst : Option ℕ

/-- `test_poik` (`test.c:97-141`); local: `sec` -/
def testM (l : Level) (H : Hash) (fuel startE : ℕ) (h : Heap) (sp : ℕ) (t : Tape Draw) (m : Mem) : Out ((Bool × Mem) × Tape Draw) :=
  let sec := 8 * sp
  let sp := sp + secretSize l
  bindT (generateM l startE sec sp t m) fun q t =>
    if q.1 = false then .ok ((false, q.2), t) else
    match h.prf with
    | none => .ok ((false, q.2), t)
    | some prf =>
      bindT (proveM l H fuel sec prf h.inst sp t q.2) fun m t =>
      bindT (verifyM l H fuel prf sp t m) fun q t =>
      bindT (verifyM l H fuel prf sp t (flipM prf q.2)) fun r t =>
      .ok ((q.1 && !r.1, r.2), t)

/-- `bench_poik` (`test.c:144-173`) -/
def benchM (l : Level) (H : Hash) (fuel startE : ℕ) (h : Heap) (sp : ℕ) (t : Tape Draw) (m : Mem) : Out ((Bool × Mem) × Tape Draw) :=
  let sec := 8 * sp
  let sp := sp + secretSize l
  bindT (generateM l startE sec sp t m) fun q t =>
    if q.1 = false then .ok ((false, q.2), t) else
    match h.prf with
    | none => .ok ((false, q.2), t)
    | some prf =>
      bindT (proveM l H fuel sec prf h.inst sp t q.2) fun m t =>
      verifyM l H fuel prf sp t m

/-- The loop of `main` (`test.c:188-191`): the result of `bench_poik` is ignored. -/
def benchLoopM (l : Level) (H : Hash) (fuel startE sp : ℕ) : List Heap → Tape Draw → Mem → Out (Mem × Tape Draw)
  | [], t, m => .ok (m, t)
  | h :: hs, t, m => bindT (benchM l H fuel startE h sp t m) fun q t => benchLoopM l H fuel startE sp hs t q.2

/-- `main` (`test.c:179-200`) with `BENCH_LOOPS` elements in `hs`: the exit status -/
def mainM (l : Level) (H : Hash) (fuel E0 : ℕ) (h : Heap) (hs : List Heap) (sp : ℕ) (t : Tape Draw) (m : Mem) : Out ((ℕ × Mem) × Tape Draw) :=
  bindT (testM l H fuel E0 h sp t m) fun q t =>
    if q.1 = false then .ok ((1, q.2), t) else
    bindT (benchLoopM l H fuel E0 sp hs t q.2) fun m t => .ok ((0, m), t)

/-- `render_progress(idx)` of `test.c` (`test.c:38-62`) with a progress file set and `BENCH_LOOPS = loops`.  `64 * idx` is an `int`; its overflow is
undefined.  The division is by an `int` as well, and the quotient is converted to `unsigned`. -/
def benchProgress (loops last : ℕ) (idx : Int) : Util.Res (List UInt8 × ℕ) :=
  if idx = -1 then .ok (Util.eraseLine, last)
  else if 2 ^ 31 ≤ 64 * idx ∨ 64 * idx < -2 ^ 31 ∨ loops = 0 then .ub
  else
    let done := ((64 * idx).tdiv loops % 2 ^ 32).toNat
    if done = last then .ok ([], last)
    else
      (Util.memset (List.replicate 65 0) 46 64).bind fun buf =>
      (Util.memset buf 61 done).bind fun buf =>
      (Util.store buf done 62).bind fun buf =>
      (Util.cString buf).bind fun s => .ok (Util.eraseLine ++ s, done)

end Secuer.CMem
