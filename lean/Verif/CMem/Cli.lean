import Verif.CMem.Prove
import Verif.Cli.Model

/-!
# `prove.c` and `verify.c` on memory

`main` of both programs, for the portable build without threads.  Standard input and output are as in `Cli/Model`.  Simplified: `Parse` first reads all of
its input and then stores what it has read; what it has stored before it fails is not modelled.  `free` is not modelled.
-/

namespace Secuer.CMem

open Secuer.Word Secuer.Field
open Secuer.WCurve (Draw)
open Secuer.Curve (Out Tape)
open Secuer.Protocol (Hash params)
open Secuer.Text (PFp2 Resp Proof parse parseFp2 dumpFp2 dumpC andThen)
open Secuer.Cli (World Report leave wantsInput)

attribute [local instance] Arith.portable

/-- The four bytes of the tag, an `int` (`poik.h:74-78`) -/
def tagBytes (v : Int) : List UInt8 := (List.range 4).map fun i => UInt8.ofNat ((v % 4294967296).toNat / 256 ^ i)

/-- The bytes of a `packed_fp2` (`poik.h:49-56`) -/
def pfBytes (v : PFp2) : List UInt8 := v.real ++ v.imag

/-- The bytes of an array of `packed_fp2` -/
def cells (xs : List PFp2) : List UInt8 := xs.flatMap pfBytes

/-- The bytes of the member of the union that the tag selects (`poik.h:79-93`) -/
def payload : Resp → List UInt8
  | .left r2 h3 chain => r2 ++ (h3 ++ cells chain)
  | .bottom r2 r3 E2 chain => r2 ++ (r3 ++ (pfBytes E2 ++ cells chain))
  | .right h2 r3 chain => h2 ++ (r3 ++ cells chain)

/-- What `Parse` stores for a response (`poik.c:1642-1668`) -/
def storeResp (r : ℕ) (q : Resp) (m : Mem) : Mem := wrBytes (uni r) (payload q) (wrBytes r (tagBytes q.tag) m)

/-- The loop of `Parse` (`poik.c:1639-1671`) -/
def storeResps (l : Level) : ℕ → List Resp → Mem → Mem
  | _, [], m => m
  | r, q :: qs, m => storeResps l (r + respSize l) qs (storeResp r q m)

/-- What `Parse` stores (`poik.c:1632-1674`) -/
def storeProof (l : Level) (prf : ℕ) (p : Proof) (m : Mem) : Mem :=
  storeResps l (prf + sz l + sz l) p.resp (wrBytes (prf + sz l) (pfBytes p.E1) (wrBytes prf (pfBytes p.E0) m))

/-- `main` of `verify.c` (`verify.c:7-38`); `prf` is the result of `malloc` if it succeeds (`w.memory`). -/
def verifyMainM (l : Level) (H : Hash) (fuel prf sp : ℕ) (w : World) (t : Tape Draw) (m : Mem) : Out ((Report × Mem) × Tape Draw) :=
  if w.memory = false then .ok ((leave w w.stdout 1 "could not allocate proof structure\n", m), t) else
  match parse (params l) w.stdin with
  | .ub => .ub
  | .fail => .ok ((leave w w.stdout (-1) "please provide proof on stdin\n", m), t)
  | .ok p _ =>
    bindT (verifyM l H fuel prf sp t (storeProof l prf p m)) fun q t =>
      if q.1 = false then .ok ((leave w w.stdout 2 "invalid proof\n", q.2), t) else
      let r := andThen (dumpFp2 w.stdout (rdPF l q.2 prf)) fun f => dumpFp2 f (rdPF l q.2 (prf + sz l))
      if r.1 = false then .ok ((leave w r.2 3 "could not write curve to output file\n", q.2), t) else
      .ok ((leave w r.2 0 "", q.2), t)

/-- `main` of `prove.c` from `Generate` on (`prove.c:21-42`); `prf` is the result of its `malloc` if it succeeds (`w.memory`), `inst` that of the one
in `Prove`. -/
def proveFromM (l : Level) (H : Hash) (fuel E0 sec prf : ℕ) (inst : Option ℕ) (sp : ℕ) (w : World) (t : Tape Draw) (m : Mem) :
    Out ((Report × Mem) × Tape Draw) :=
  bindT (generateM l E0 sec sp t m) fun q t =>
    if q.1 = false then .ok ((leave w w.stdout 1 "invalid curve\n", q.2), t) else
    if w.memory = false then .ok ((leave w w.stdout 2 "could not allocate proof structure\n", q.2), t) else
    bindT (proveM l H fuel sec prf inst sp t q.2) fun m t =>
      match dumpC w.stdout (rdProof l m prf) with
      | none => .ub
      | some r =>
        if r.1 = false then .ok ((leave w r.2 3 "could not write proof to output file\n", m), t) else
        .ok ((leave w r.2 0 "", m), t)

/-- `main` of `prove.c` (`prove.c:8-43`); locals: `E0`, `sec` -/
def proveMainM (l : Level) (H : Hash) (fuel : ℕ) (args : List String) (prf : ℕ) (inst : Option ℕ) (sp : ℕ) (w : World) (t : Tape Draw) (m : Mem) :
    Out ((Report × Mem) × Tape Draw) :=
  let E0 := 8 * sp
  let sec := 8 * (sp + sz l)
  let sp := sp + sz l + secretSize l
  let m := wrBytes E0 (List.replicate (sz l) 0) m
  if wantsInput args = true then
    match parseFp2 (params l) w.stdin with
    | .ub => .ub
    | .fail => .ok ((leave w w.stdout (-1) "please provide curve on stdin", m), t)
    | .ok v _ => proveFromM l H fuel E0 sec prf inst sp w t (wrBytes E0 (pfBytes v) m)
  else proveFromM l H fuel E0 sec prf inst sp w t m

end Secuer.CMem
