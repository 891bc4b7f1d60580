import Verif.Params

/-!
# Model of challenge sampling

`sample_ternary` and the squeeze loop of `Challenge` (`poik.c:225-242, 1154-1169`). The `int8_t`
array that is written to is an explicit list; a write outside it is the separate outcome `oob`.
The XOF output is an arbitrary sequence of blocks; the sponge itself is modelled elsewhere.
-/

namespace Secuer.Challenge

/-- Outcome of code that writes to the trit array. -/
inductive Res (α : Type) where
  | ok (v : α)
  /-- a write outside the array: undefined behaviour -/
  | oob
deriving Repr, DecidableEq

/-- `trits[i] = x` -/
def store (trits : List Int) (i : Nat) (x : Int) : Res (List Int) :=
  if i < trits.length then .ok (trits.set i x) else .oob

/-- `int8_t r = v%3; r > 3/2 ? r-3 : r` (`poik.c:235-236`); `3/2` is 1 in C. -/
def tritOf (v : UInt8) : Int :=
  let r : Int := (v % 3).toNat
  if r > 1 then r - 3 else r

/-- The inner loop `for (j = 0; j < 5 && done < num_trits; ++j)` (`poik.c:234-238`).
The first argument counts the remaining values of `j`; `base` is the offset of the pointer
`trits` in the underlying array. Returns the array and the new `done`. -/
def digitLoop (base num : Nat) : Nat → UInt8 → List Int → Nat → Res (List Int × Nat)
  | 0, _, trits, done => .ok (trits, done)
  | j + 1, v, trits, done =>
    if done < num then
      match store trits (base + done) (tritOf v) with
      | .ok trits => digitLoop base num j (v / 3) trits (done + 1)
      | .oob => .oob
    else .ok (trits, done)

/-- The outer loop of `sample_ternary` (`poik.c:229-239`); the list is the unread part of
`bytes`. Returns the array and the function's result. -/
def sampleLoop (base num : Nat) : List UInt8 → List Int → Nat → Res (List Int × Nat)
  | bytes, trits, done =>
    if done < num then
      match bytes with
      | [] => .ok (trits, done)
      | v :: bytes =>
        if v ≥ 243 then sampleLoop base num bytes trits done
        else
          match digitLoop base num 5 v trits done with
          | .ok (trits, done) => sampleLoop base num bytes trits done
          | .oob => .oob
    else .ok (trits, num)

/-- `sample_ternary(bytes, num_bytes, trits + base, num_trits)` (`poik.c:227-242`). -/
def sampleTernary (bytes : List UInt8) (trits : List Int) (base num : Nat) :
    Res (List Int × Nat) :=
  sampleLoop base num bytes trits 0

/-- State of the squeeze loop after some iterations: either finished (array, number of blocks
squeezed), still running, or out of bounds. -/
inductive Outcome where
  | finished (trits : List Int) (blocks : Nat)
  | running
  | oob
deriving Repr, DecidableEq

/-- The loop of `Challenge` (`poik.c:1164-1168`) run for at most `fuel` iterations. `blocks k` is
the `k`-th squeezed block, `k` the number of blocks squeezed so far. -/
def challengeLoop (reps : Nat) (blocks : Nat → List UInt8) :
    (fuel : Nat) → (k : Nat) → List Int → (done : Nat) → Outcome
  | 0, k, trits, done => if done < reps then .running else .finished trits k
  | fuel + 1, k, trits, done =>
    if done < reps then
      match sampleTernary (blocks k) trits done (reps - done) with
      | .ok (trits, n) => challengeLoop reps blocks fuel (k + 1) trits (done + n)
      | .oob => .oob
    else .finished trits k

/-- `Challenge` (`poik.c:1154-1169`) on an uninitialised array `challs` of `reps` elements,
observed after at most `fuel` iterations. -/
def challenge (reps : Nat) (blocks : Nat → List UInt8) (fuel : Nat) (challs : List Int) : Outcome :=
  challengeLoop reps blocks fuel 0 challs 0

end Secuer.Challenge
