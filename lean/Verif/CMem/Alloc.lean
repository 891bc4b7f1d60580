import Verif.CMem.Cli
import Verif.CMem.Test

/-!
# The programs with their calls of `malloc` and `free`

`prove.c`, `verify.c` and `test.c` once more, now with the list of the blocks that are allocated.  The allocator is an arbitrary function.  Simplified: the
blocks of `stdio` and of the threads library are not modelled.
-/

namespace Secuer.CMem

open Secuer.Word Secuer.Field
open Secuer.WCurve (Draw)
open Secuer.Curve (Out Tape)
open Secuer.Protocol (Hash params)
open Secuer.Text (parse parseFp2 dumpFp2 dumpC andThen)
open Secuer.Cli (World Report leave wantsInput)

attribute [local instance] Arith.portable

/-- How `malloc` answers: it may depend on the number of calls so far, the blocks (address and size) in use and the size that is asked for. -/
abbrev Malloc := ℕ → List (ℕ × ℕ) → ℕ → Option ℕ

/-- The state of the heap: the number of calls of `malloc` so far and the blocks in use -/
structure Hp where
  calls : ℕ
  live : List (ℕ × ℕ)

/-- `malloc(n)` -/
def Hp.malloc (A : Malloc) (n : ℕ) (s : Hp) : Option ℕ × Hp :=
  match A s.calls s.live n with
  | none => (none, ⟨s.calls + 1, s.live⟩)
  | some x => (some x, ⟨s.calls + 1, (x, n) :: s.live⟩)

/-- `free(x)`: undefined if `x` is not the address of a block in use -/
def Hp.free (x : ℕ) (s : Hp) : Option Hp :=
  if s.live.any (fun b => b.1 == x) = true then some ⟨s.calls, s.live.eraseP fun b => b.1 == x⟩ else none

/-- `free(x)` as the last step of a function that returns `a` -/
def freeing {α : Type} (x : ℕ) (s : Hp) (a : α) (t : Tape Draw) : Out ((α × Hp) × Tape Draw) :=
  match s.free x with
  | none => .ub
  | some s => .ok ((a, s), t)

/-- The size of the array of instances (`poik.c:1417`) -/
def arraySize (l : Level) : ℕ := 8 * ((params l).reps * instW l)

/-- `Prove` (`poik.c:1406-1461`): `malloc` and `free` of the array of instances around what `proveM` describes.  The two calls of `unpack_curve` before
`malloc` write to local variables only; they are part of `proveM`. -/
def proveA (A : Malloc) (l : Level) (H : Hash) (fuel sec prf sp : ℕ) (t : Tape Draw) (m : Mem) (s : Hp) : Out ((Mem × Hp) × Tape Draw) :=
  match s.malloc A (arraySize l) with
  | (none, _) => .abort
  | (some a, s) => bindT (proveM l H fuel sec prf (some (a / 8)) sp t m) fun m t => freeing a s m t

/-- `main` of `verify.c` (`verify.c:7-38`) -/
def verifyMainA (A : Malloc) (l : Level) (H : Hash) (fuel sp : ℕ) (w : World) (t : Tape Draw) (m : Mem) (s : Hp) :
    Out (((Report × Mem) × Hp) × Tape Draw) :=
  match s.malloc A (proofSize l) with
  | (none, s) => .ok (((leave w w.stdout 1 "could not allocate proof structure\n", m), s), t)
  | (some prf, s) =>
    match parse (params l) w.stdin with
    | .ub => .ub
    | .fail => freeing prf s (leave w w.stdout (-1) "please provide proof on stdin\n", m) t
    | .ok p _ =>
      bindT (verifyM l H fuel prf sp t (storeProof l prf p m)) fun q t =>
        if q.1 = false then freeing prf s (leave w w.stdout 2 "invalid proof\n", q.2) t else
        let r := andThen (dumpFp2 w.stdout (rdPF l q.2 prf)) fun f => dumpFp2 f (rdPF l q.2 (prf + sz l))
        if r.1 = false then freeing prf s (leave w r.2 3 "could not write curve to output file\n", q.2) t else
        freeing prf s (leave w r.2 0 "", q.2) t

/-- `main` of `prove.c` from `Generate` on (`prove.c:21-42`) -/
def proveFromA (A : Malloc) (l : Level) (H : Hash) (fuel E0 sec sp : ℕ) (w : World) (t : Tape Draw) (m : Mem) (s : Hp) :
    Out (((Report × Mem) × Hp) × Tape Draw) :=
  bindT (generateM l E0 sec sp t m) fun q t =>
    if q.1 = false then .ok (((leave w w.stdout 1 "invalid curve\n", q.2), s), t) else
    match s.malloc A (proofSize l) with
    | (none, s) => .ok (((leave w w.stdout 2 "could not allocate proof structure\n", q.2), s), t)
    | (some prf, s) =>
      bindT (proveA A l H fuel sec prf sp t q.2 s) fun q t =>
        match dumpC w.stdout (rdProof l q.1 prf) with
        | none => .ub
        | some r =>
          if r.1 = false then freeing prf q.2 (leave w r.2 3 "could not write proof to output file\n", q.1) t else
          freeing prf q.2 (leave w r.2 0 "", q.1) t

/-- `main` of `prove.c` (`prove.c:8-43`) -/
def proveMainA (A : Malloc) (l : Level) (H : Hash) (fuel : ℕ) (args : List String) (sp : ℕ) (w : World) (t : Tape Draw) (m : Mem) (s : Hp) :
    Out (((Report × Mem) × Hp) × Tape Draw) :=
  let E0 := 8 * sp
  let sec := 8 * (sp + sz l)
  let sp := sp + sz l + secretSize l
  let m := wrBytes E0 (List.replicate (sz l) 0) m
  if wantsInput args = true then
    match parseFp2 (params l) w.stdin with
    | .ub => .ub
    | .fail => .ok (((leave w w.stdout (-1) "please provide curve on stdin", m), s), t)
    | .ok v _ => proveFromA A l H fuel E0 sec sp w t (wrBytes E0 (pfBytes v) m) s
  else proveFromA A l H fuel E0 sec sp w t m s

/-- `test_poik` (`test.c:97-141`): the proof is not freed. -/
def testA (A : Malloc) (l : Level) (H : Hash) (fuel startE sp : ℕ) (t : Tape Draw) (m : Mem) (s : Hp) : Out (((Bool × Mem) × Hp) × Tape Draw) :=
  let sec := 8 * sp
  let sp := sp + secretSize l
  bindT (generateM l startE sec sp t m) fun q t =>
    if q.1 = false then .ok (((false, q.2), s), t) else
    match s.malloc A (proofSize l) with
    | (none, s) => .ok (((false, q.2), s), t)
    | (some prf, s) =>
      bindT (proveA A l H fuel sec prf sp t q.2 s) fun q t =>
      bindT (verifyM l H fuel prf sp t q.1) fun r t =>
      bindT (verifyM l H fuel prf sp t (flipM prf r.2)) fun r' t =>
      .ok (((r.1 && !r'.1, r'.2), q.2), t)

/-- `bench_poik` (`test.c:144-173`): the proof is not freed. -/
def benchA (A : Malloc) (l : Level) (H : Hash) (fuel startE sp : ℕ) (t : Tape Draw) (m : Mem) (s : Hp) : Out (((Bool × Mem) × Hp) × Tape Draw) :=
  let sec := 8 * sp
  let sp := sp + secretSize l
  bindT (generateM l startE sec sp t m) fun q t =>
    if q.1 = false then .ok (((false, q.2), s), t) else
    match s.malloc A (proofSize l) with
    | (none, s) => .ok (((false, q.2), s), t)
    | (some prf, s) =>
      bindT (proveA A l H fuel sec prf sp t q.2 s) fun q t =>
      bindT (verifyM l H fuel prf sp t q.1) fun r t => .ok ((r, q.2), t)

/-- The loop of `main` (`test.c:188-191`) -/
def benchLoopA (A : Malloc) (l : Level) (H : Hash) (fuel startE sp : ℕ) : ℕ → Tape Draw → Mem → Hp → Out ((Mem × Hp) × Tape Draw)
  | 0, t, m, s => .ok ((m, s), t)
  | n + 1, t, m, s => bindT (benchA A l H fuel startE sp t m s) fun q t => benchLoopA A l H fuel startE sp n t q.1.2 q.2

/-- `main` of `test.c` (`test.c:179-200`) with `BENCH_LOOPS = n` -/
def testMainA (A : Malloc) (l : Level) (H : Hash) (fuel E0 sp n : ℕ) (t : Tape Draw) (m : Mem) (s : Hp) : Out (((ℕ × Mem) × Hp) × Tape Draw) :=
  bindT (testA A l H fuel E0 sp t m s) fun q t =>
    if q.1.1 = false then .ok (((1, q.1.2), q.2), t) else
    bindT (benchLoopA A l H fuel E0 sp n t q.1.2 q.2) fun r t => .ok (((0, r.1), r.2), t)

end Secuer.CMem
