import Verif.Protocol.Model

/-!
# Model of the command-line tools

`prove.c` and `verify.c`, for one parameter set `l`, on standard input and standard output.

* Not modelled: what `render_progress` writes to standard error; only the messages of `main` itself appear here.
* Standard output is buffered: what is still in the buffer is written when `main` has returned, and if that fails nobody
  notices. `atExit` says how many of the bytes handed to stdio are lost then.
* The loops over repetitions are those of `Verif.Protocol.Model`.
-/

namespace Secuer.Cli

open Secuer.Protocol Secuer.Curve Secuer.Field Secuer.Text

variable (l : Level)

/-- What the operating system provides to a run. -/
structure World where
  /-- the bytes on standard input -/
  stdin : Bytes
  /-- standard output as seen through stdio, initially -/
  stdout : Sink
  /-- does `malloc` of the proof structure succeed? -/
  memory : Bool
  /-- number of buffered bytes lost when the process exits -/
  atExit : ℕ
  /-- previous contents of the allocated proof structure -/
  old : List CResp

/-- What is visible of a finished run. -/
structure Report where
  /-- exit status, reduced modulo 256 as the operating system does -/
  status : ℕ
  /-- bytes that arrived on standard output -/
  out : Bytes
  /-- messages of `main` on standard error -/
  err : Bytes
deriving DecidableEq, Repr

/-- The bytes of a message (ASCII) -/
def bytesOf (s : String) : Bytes := s.toList.map fun c => UInt8.ofNat c.toNat

/-- Return from `main` with a value: the exit status is the value modulo 256, buffers are flushed. -/
def leave (w : World) (f : Sink) (value : Int) (msg : String) : Report :=
  ⟨(value % 256).toNat, f.out.take (f.out.length - w.atExit), bytesOf msg⟩

/-- The proof structure after `Parse` (`poik.c:1642-1673`): members of the unions that the tag does not select keep their
old contents. -/
def parsed (old : List CResp) (p : Proof) : CProof :=
  ⟨p.E0, p.E1, List.zipWith inMemory old p.resp⟩

/-- `main` of `verify.c` (`verify.c:7-38`) -/
def verifyMain (H : Hash) (mem : Mem l) (fuel : ℕ) (w : World) : M l.F Report :=
  if w.memory = false then pure (leave w w.stdout 1 "could not allocate proof structure\n") else
  match parse (params l) w.stdin with
  | .ub => M.ub
  | .fail => pure (leave w w.stdout (-1) "please provide proof on stdin\n")
  | .ok p _ => do
    let prf := parsed w.old p
    if (← verify l H mem fuel prf) = false then pure (leave w w.stdout 2 "invalid proof\n") else
    let r := andThen (dumpFp2 w.stdout prf.E0) fun f => dumpFp2 f prf.E1
    if r.1 = false then pure (leave w r.2 3 "could not write curve to output file\n") else
    pure (leave w r.2 0 "")

/-- `packed_fp2 E0 = {0}` (`prove.c:12`) -/
def zeroFp2 : PFp2 := ⟨List.replicate (params l).fpBytes 0, List.replicate (params l).fpBytes 0⟩

/-- `argc <= 1 || strcmp(argv[1], "--initial")` (`prove.c:14`); the list are the arguments after the program name. -/
def wantsInput (args : List String) : Bool :=
  match args with
  | [] => true
  | a :: _ => a != "--initial"

/-- `main` of `prove.c` from `Generate` on (`prove.c:21-42`) -/
def proveFrom (H : Hash) (mem mem' : Mem l) (fuel : ℕ) (w : World) (E0 : PFp2) : M l.F Report := do
  match ← generate l mem E0 with
  | none => pure (leave w w.stdout 1 "invalid curve\n")
  | some sec =>
    if w.memory = false then pure (leave w w.stdout 2 "could not allocate proof structure\n") else
    let prf ← prove l H mem' fuel sec
    let r := dump w.stdout prf
    if r.1 = false then pure (leave w r.2 3 "could not write proof to output file\n") else
    pure (leave w r.2 0 "")

/-- `main` of `prove.c` (`prove.c:8-43`) -/
def proveMain (H : Hash) (mem mem' : Mem l) (fuel : ℕ) (args : List String) (w : World) : M l.F Report :=
  if wantsInput args = true then
    match parseFp2 (params l) w.stdin with
    | .ub => M.ub
    | .fail => pure (leave w w.stdout (-1) "please provide curve on stdin")
    | .ok E0 _ => proveFrom l H mem mem' fuel w E0
  else proveFrom l H mem mem' fuel w (zeroFp2 l)

end Secuer.Cli
