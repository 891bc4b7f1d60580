import Mathlib.Data.List.Basic
import Mathlib.Data.Nat.Notation

/-!
# Specification of challenge sampling

A byte-at-a-time sampler, written without the functions of the model.
-/

namespace Secuer.Challenge.Spec

/-- The bytes that are used. -/
def Good (b : UInt8) : Prop := b.toNat < 3 ^ 5

instance (b : UInt8) : Decidable (Good b) := inferInstanceAs (Decidable (_ < _))

/-- The five base-3 digits of a byte, least significant first, with representatives -1, 0, 1. -/
def byteTrits (b : UInt8) : List Int :=
  (List.range 5).map fun i => Int.bmod (b.toNat / 3 ^ i : Nat) 3

/-- The unbounded sequence of trits carried by a byte string. -/
def tritStream (bs : List UInt8) : List Int := (bs.filter fun b => decide (Good b)).flatMap byteTrits

/-- The bytes of the first `k` blocks. -/
def firstBlocks (blocks : ℕ → List UInt8) (k : ℕ) : List UInt8 :=
  (List.range k).flatMap blocks

/-- Number of usable bytes in the first `k` blocks. -/
def goodBytes (blocks : ℕ → List UInt8) (k : ℕ) : ℕ :=
  ((firstBlocks blocks k).filter fun b => decide (Good b)).length

def Trit (t : Int) : Prop := t = -1 ∨ t = 0 ∨ t = 1

end Secuer.Challenge.Spec
