import Verif.Params

/-!
# Models of small self-contained functions

`render_progress` (`poik.c:1245-1268`) with its callers, `proves_order` (`poik.c:763-773`),
`randombytes` (`random/random.c:23-58`), `ct_compare` and `ct_cmov` (`fpx.c:24-42`).
-/

namespace Secuer.Util

/-! ## Progress bar -/

/-- Outcome of code writing to a local array. -/
inductive Res (α : Type) where
  | ok (v : α)
  /-- access outside the array, or `%s` on an array without terminator -/
  | ub
deriving Repr, DecidableEq

def Res.bind {α β : Type} : Res α → (α → Res β) → Res β
  | .ok v, k => k v
  | .ub, _ => .ub

/-- `memset(buf, c, n)` on an array; writing past its end is `ub`. -/
def memset (buf : List UInt8) (c : UInt8) (n : Nat) : Res (List UInt8) :=
  if n ≤ buf.length then .ok (List.replicate n c ++ buf.drop n) else .ub

/-- `buf[i] = c` -/
def store (buf : List UInt8) (i : Nat) (c : UInt8) : Res (List UInt8) :=
  if i < buf.length then .ok (buf.set i c) else .ub

/-- The characters `%s` prints: everything before the first NUL, which must be inside. -/
def cString : List UInt8 → Res (List UInt8)
  | [] => .ub
  | c :: cs => if c = 0 then .ok [] else (cString cs).bind fun s => .ok (c :: s)

/-- `"\r\x1b[K"` -/
def eraseLine : List UInt8 := [13, 27, 91, 75]

/-- `unsigned const done = 63 * idx / POIK_REPS;` (`poik.c:1257`): `size_t` arithmetic, then
conversion to a 32-bit `unsigned`. -/
def doneOf (reps idx : Nat) : Nat := (63 * idx % 2 ^ 64 / reps) % 2 ^ 32

/-- `render_progress(idx)` (`poik.c:1245-1268`) with a progress file set. `idx` is a `size_t`, so
`-1` is `2^64 - 1`. `last` is the static variable; returns the text written and the new `last`. -/
def renderProgress (reps : Nat) (last idx : Nat) : Res (List UInt8 × Nat) :=
  if idx = 2 ^ 64 - 1 then .ok (eraseLine, last)
  else
    let done := doneOf reps idx
    if done = last then .ok ([], last)
    else
      (memset (List.replicate 65 0) 46 64).bind fun buf =>
      (memset buf 61 done).bind fun buf =>
      (store buf done 62).bind fun buf =>
      (cString buf).bind fun s => .ok (eraseLine ++ s, done)

/-- Progress loop of the main thread in `run_threads` (`poik.c:1325-1331`): `vals` are the values
returned by the successive atomic loads. When the list ends the loop is still running. -/
def mainLoop (reps : Nat) : List Nat → Nat → Res (List UInt8)
  | [], _ => .ok []
  | v :: vals, last =>
    if v < reps then
      (renderProgress reps last v).bind fun (s, last) =>
      (mainLoop reps vals last).bind fun t => .ok (s ++ t)
    else (renderProgress reps last (2 ^ 64 - 1)).bind fun (s, _) => .ok s

/-- Progress output of the sequential loops in `Prove` (`poik.c:1433-1437, 1453-1457`) from
iteration `i`, with `k` iterations left. -/
def seqLoop (reps : Nat) : (k : Nat) → (i last : Nat) → Res (List UInt8)
  | 0, _, last => (renderProgress reps last (2 ^ 64 - 1)).bind fun (s, _) => .ok s
  | k + 1, i, last =>
    (renderProgress reps last (i + 1)).bind fun (s, last) =>
    (seqLoop reps k (i + 1) last).bind fun t => .ok (s ++ t)

/-! ## Order bound -/

/-- `proves_order` (`poik.c:763-773`) in 64-bit `unsigned long` arithmetic. `e2`, `e3` are
`OALICE_BITS`, `OBOB_EXPON`. -/
def provesOrder (e2 e3 : UInt64) (order2 order3 : UInt64) : Bool :=
  let N : UInt64 := 1054
  let D : UInt64 := 665
  let bound := D * (2 + e2) + (N + 1) * e3
  let value := D * order2 + (N + 0) * order3
  value > bound

/-! ## Random bytes -/

/-- Result of one `read` from the device: `-1`, or that many bytes (possibly none). -/
inductive ReadRes where
  | err
  | data (bytes : List UInt8)
deriving Repr, DecidableEq

/-- Outcome of `randombytes` for a finite prefix of system-call results. -/
inductive RandRes where
  /-- returned `passed` with this buffer -/
  | done (buf : List UInt8)
  /-- still waiting when the given results are used up -/
  | waiting
  /-- the kernel delivered more bytes than asked for (cannot happen) or wrote outside `buf` -/
  | ub
deriving Repr, DecidableEq

/-- Overwrite `buf` from position `i`. -/
def blit (buf : List UInt8) (i : Nat) (bs : List UInt8) : List UInt8 :=
  buf.take i ++ bs ++ buf.drop (i + bs.length)

/-- The read loop (`random.c:46-55`). `n` is the signed counter of missing bytes, `count` the
number of bytes stored. -/
def readLoop : (buf : List UInt8) → (n : Int) → (count : Nat) → List ReadRes → RandRes
  | buf, n, _, [] => if n > 0 then .waiting else .done buf
  | buf, n, count, .err :: reads => if n > 0 then readLoop buf n count reads else .done buf
  | buf, n, count, .data bs :: reads =>
    if n > 0 then
      if bs.length ≤ n ∧ count + bs.length ≤ buf.length then
        readLoop (blit buf count bs) (n - bs.length) (count + bs.length) reads
      else .ub
    else .done buf

/-- `(int)nbytes` for a 32-bit two's complement `int`. -/
def toInt32 (nbytes : Nat) : Int :=
  if nbytes % 2 ^ 32 < 2 ^ 31 then (nbytes % 2 ^ 32 : Nat) else (nbytes % 2 ^ 32 : Nat) - 2 ^ 32

/-- `randombytes(buf, nbytes)` (`random.c:23-58`, Unix branch). `opens` are the results of the
`open` calls still to come (`false` is `-1`), `locked` whether the descriptor is already open. The
`sleep(1)` calls have no effect on the state. -/
def randombytes (locked : Bool) (opens : List Bool) (reads : List ReadRes) (buf : List UInt8)
    (nbytes : Nat) : RandRes :=
  if locked then readLoop buf (toInt32 nbytes) 0 reads
  else
    match opens with
    | [] => .waiting
    | o :: opens => randombytes o opens reads buf nbytes

/-! ## Constant-time helpers -/

/-- The accumulator loop of `ct_compare` (`fpx.c:27-30`). -/
def ctAcc : UInt8 → List UInt8 → List UInt8 → UInt8
  | r, a :: as, b :: bs => ctAcc (r ||| (a ^^^ b)) as bs
  | r, _, _ => r

/-- `ct_compare` (`fpx.c:24-33`) on two arrays of equal length: the `int8_t` result as a bit
vector. `>>` on a negative `int32_t` is an arithmetic shift (implementation-defined, true for gcc
and clang). -/
def ctCompare (a b : List UInt8) : BitVec 8 :=
  let r := ctAcc 0 a b
  let x : BitVec 32 := r.toBitVec.setWidth 32
  ((-x).sshiftRight 31).setWidth 8

/-- `ct_cmov(r, a, len, selector)` (`fpx.c:36-42`). -/
def ctCmov (selector : UInt8) : List UInt8 → List UInt8 → List UInt8
  | r :: rs, a :: as => (r ^^^ (selector &&& (a ^^^ r))) :: ctCmov selector rs as
  | rs, _ => rs

end Secuer.Util
