/-!
# Model of the worker pool

`run_threads` and the three workers (`poik.c:1288-1383`), as an interleaving semantics with
sequentially consistent atomics. One transition is one atomic access or one start/end of the
(non-atomic) computation for an index. `β` is what the computation for an index leaves in its
array slot (instance and commitment, or response, or tag and commitment together with the Boolean
result). Since the computations use randomness, the value is chosen by a relation `R i v`
("computing index `i` can yield `v`").

Simplifications: `pthread_create`/`pthread_join` failures (which abort the process) are not
modelled; all threads exist from the start, which only adds interleavings.
-/

namespace Secuer.Threads

/-- Where a worker is. -/
inductive PC where
  /-- about to execute `atomic_fetch_add(&state->idx, 1)` -/
  | fetch
  /-- computing index `i` -/
  | work (i : Nat)
  /-- about to execute `atomic_store(data->okay, false)` -/
  | clearOkay
  /-- about to execute `atomic_store(&state->idx, POIK_REPS)` -/
  | resetIdx
  /-- returned -/
  | stop
deriving DecidableEq, Repr

/-- Shared memory and program counters. `runs i` (how often index `i` has been written) and
`fetches t` (how often thread `t` has fetched) are ghost counters. -/
structure St (β : Type) where
  idx : Nat
  okay : Bool
  pc : Nat → PC
  slot : Nat → Option β
  runs : Nat → Nat
  fetches : Nat → Nat

/-- Function update. -/
def upd {α : Type} (f : Nat → α) (i : Nat) (x : α) : Nat → α := fun j => if j = i then x else f j

/-- Number of values of `size_t`. -/
def sizeMod : Nat := 2 ^ 64

/-- `struct thread_state state = {...}` with `idx` zero-initialised (`poik.c:1429, 1448, 1483`) and
`atomic_bool okay = true` (`poik.c:1481`), workers not started yet. -/
def init (β : Type) : St β := ⟨0, true, fun _ => .fetch, fun _ => none, fun _ => 0, fun _ => 0⟩

/-- `size_t i = atomic_fetch_add(&state->idx, 1); if (i >= POIK_REPS) return 0;`
(`poik.c:1337-1339, 1352-1354, 1367-1369`). -/
def fetchStep {β : Type} (reps : Nat) (s : St β) (t : Nat) : St β :=
  let i := s.idx
  { s with
    idx := (s.idx + 1) % sizeMod
    pc := upd s.pc t (if i ≥ reps then .stop else .work i)
    fetches := upd s.fetches t (s.fetches t + 1) }

/-- The computation for index `i` ends: its slot is filled. -/
def writeSlot {β : Type} (s : St β) (i : Nat) (v : β) : St β :=
  { s with slot := upd s.slot i (some v), runs := upd s.runs i (s.runs i + 1) }

/-- One step of a thread running `Worker_Instance` or `Worker_Pack_Response`
(`poik.c:1330-1357`). -/
inductive ComputeStep {β : Type} (reps : Nat) (R : Nat → β → Prop) (t : Nat) : St β → St β → Prop
  | fetch (s) : s.pc t = .fetch → ComputeStep reps R t s (fetchStep reps s t)
  | done (s) (i : Nat) (v : β) : s.pc t = .work i → R i v →
      ComputeStep reps R t s { writeSlot s i v with pc := upd s.pc t .fetch }

/-- One step of a thread running `Worker_Unpack_Response` (`poik.c:1360-1378`). `ok v` is the
Boolean returned by `Unpack_Response`. -/
inductive UnpackStep {β : Type} (reps : Nat) (R : Nat → β → Prop) (ok : β → Bool) (t : Nat) :
    St β → St β → Prop
  | fetch (s) : s.pc t = .fetch → UnpackStep reps R ok t s (fetchStep reps s t)
  | good (s) (i : Nat) (v : β) : s.pc t = .work i → R i v → ok v = true →
      UnpackStep reps R ok t s { writeSlot s i v with pc := upd s.pc t .fetch }
  | bad (s) (i : Nat) (v : β) : s.pc t = .work i → R i v → ok v = false →
      UnpackStep reps R ok t s { writeSlot s i v with pc := upd s.pc t .clearOkay }
  | clearOkay (s) : s.pc t = .clearOkay →
      UnpackStep reps R ok t s { s with okay := false, pc := upd s.pc t .resetIdx }
  | resetIdx (s) : s.pc t = .resetIdx →
      UnpackStep reps R ok t s { s with idx := reps, pc := upd s.pc t .stop }

/-- Executions of a pool of `n` threads: any thread may take the next step. The index counts the
steps. -/
inductive Exec {β : Type} (step : Nat → St β → St β → Prop) (n : Nat) : Nat → St β → Prop
  | init : Exec step n 0 (init β)
  | step {k s s'} (t : Nat) : Exec step n k s → t < n → step t s s' → Exec step n (k + 1) s'

/-- All threads have returned, i.e. `pthread_join` has succeeded for all of them. -/
def Joined {β : Type} (n : Nat) (s : St β) : Prop := ∀ t < n, s.pc t = .stop

/-- The single-threaded loop of `Verify` (`poik.c:1490-1492`): stop at the first failure. -/
def seqVerify {β : Type} (ok : β → Bool) : List β → Bool
  | [] => true
  | v :: vs => if ok v then seqVerify ok vs else false

end Secuer.Threads
