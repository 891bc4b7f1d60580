import Mathlib.Data.Fin.Basic
import Mathlib.Logic.Function.Iterate

/-!
# SHAKE256 after FIPS 202

Written from the standard, independently of the code: bits are Booleans, bit strings are lists, the state array is a
function of the coordinates `x`, `y`, `z`. Section numbers refer to FIPS PUB 202 (August 2015).
-/

namespace Secuer.Keccak.Spec

abbrev Bits := List Bool

/-- A state array `A[x, y, z]` for `b = 1600` (section 3.1.1); coordinates are taken modulo 5, 5 and 64. -/
abbrev Arr := Fin 5 → Fin 5 → Fin 64 → Bool

/-- Converting strings to state arrays (section 3.1.2): `A[x, y, z] = S[w(5y + x) + z]`. -/
def toArr (S : Bits) : Arr := fun x y z => S.getD (64 * (5 * y + x) + z) false

/-- Converting state arrays to strings (section 3.1.3): bit `w(5y + x) + z` of the string is `A[x, y, z]`. -/
def toBits (A : Arr) : Bits :=
  (List.range 1600).map fun k => A (Fin.ofNat 5 (k / 64)) (Fin.ofNat 5 (k / 320)) (Fin.ofNat 64 k)

/-- θ (Algorithm 1) -/
def theta (A : Arr) : Arr :=
  let C : Fin 5 → Fin 64 → Bool := fun x z => A x 0 z ^^ A x 1 z ^^ A x 2 z ^^ A x 3 z ^^ A x 4 z
  let D : Fin 5 → Fin 64 → Bool := fun x z => C (x - 1) z ^^ C (x + 1) (z - 1)
  fun x y z => A x y z ^^ D x z

/-- The values that `(x, y)` takes in step 3 of Algorithm 2 -/
def rhoPos (t : ℕ) : Fin 5 × Fin 5 := (fun (x, y) => (y, 2 * x + 3 * y))^[t] (1, 0)

/-- ρ (Algorithm 2): the lane with coordinates `(0, 0)` is kept, the others are rotated one after the other. -/
def rho (A : Arr) : Arr :=
  (List.range 24).foldl
    (fun A' t x y z => if (x, y) = rhoPos t then A x y (z - Fin.ofNat 64 ((t + 1) * (t + 2) / 2)) else A' x y z) A

/-- π (Algorithm 3) -/
def pi (A : Arr) : Arr := fun x y z => A (x + 3 * y) x z

/-- χ (Algorithm 4) -/
def chi (A : Arr) : Arr := fun x y z => A x y z ^^ ((A (x + 1) y z ^^ true) && A (x + 2) y z)

/-- One pass of step 3 of Algorithm 5; `R` has eight bits. -/
def rcStep (R : Bits) : Bits :=
  let R := false :: R
  let R := R.set 0 (R.getD 0 false ^^ R.getD 8 false)
  let R := R.set 4 (R.getD 4 false ^^ R.getD 8 false)
  let R := R.set 5 (R.getD 5 false ^^ R.getD 8 false)
  let R := R.set 6 (R.getD 6 false ^^ R.getD 8 false)
  R.take 8

/-- `rc(t)` (Algorithm 5) -/
def rc (t : ℕ) : Bool :=
  if t % 255 = 0 then true
  else (rcStep^[t % 255] [true, false, false, false, false, false, false, false]).getD 0 false

/-- `RC` of Algorithm 6, for `ℓ = 6`: bit `2^j - 1` is `rc(j + 7 i_r)`, the others are zero. -/
def RC (ir : ℕ) : Bits :=
  (List.range 7).foldl (fun R j => R.set (2 ^ j - 1) (rc (j + 7 * ir))) (List.replicate 64 false)

/-- ι (Algorithm 6) -/
def iota (A : Arr) (ir : ℕ) : Arr := fun x y z => if x = 0 ∧ y = 0 then A x y z ^^ (RC ir).getD z false else A x y z

/-- The round function (section 3.3) -/
def round (A : Arr) (ir : ℕ) : Arr := iota (chi (pi (rho (theta A)))) ir

/-- KECCAK-f[1600] (sections 3.3, 3.4): 24 rounds -/
def keccakF (S : Bits) : Bits := toBits ((List.range 24).foldl round (toArr S))

/-- pad10*1 (Algorithm 9): `1 0^j 1` with `j = (-m - 2) mod x` -/
def pad (x m : ℕ) : Bits := true :: (List.replicate ((-(m : Int) - 2) % (x : Int)).toNat false ++ [true])

/-- Steps 1-6 of Algorithm 8 (SPONGE), for a permutation of 1600 bits -/
def spongeAbsorb (f : Bits → Bits) (r : ℕ) (N : Bits) : Bits :=
  let P := N ++ pad r N.length
  let n := P.length / r
  (List.range n).foldl
    (fun S i => f (List.zipWith xor S ((P.drop (i * r)).take r ++ List.replicate (1600 - r) false)))
    (List.replicate 1600 false)

/-- Steps 7-10 of Algorithm 8: the first `d` bits of `Trunc_r(S), Trunc_r(f(S)), Trunc_r(f(f(S))), …`; `d / r + 1` of these
are enough. -/
def spongeSqueeze (f : Bits → Bits) (r d : ℕ) (S : Bits) : Bits :=
  ((List.range (d / r + 1)).flatMap fun i => (f^[i] S).take r).take d

/-- SPONGE[f, pad10*1, r](N, d) (Algorithm 8) -/
def sponge (f : Bits → Bits) (r : ℕ) (N : Bits) (d : ℕ) : Bits := spongeSqueeze f r d (spongeAbsorb f r N)

/-- KECCAK[c] (section 5.2) -/
def keccak (c : ℕ) (N : Bits) (d : ℕ) : Bits := sponge keccakF (1600 - c) N d

/-- SHAKE256(M, d) (section 6.2) -/
def shake256 (M : Bits) (d : ℕ) : Bits := keccak 512 (M ++ [true, true, true, true]) d

/-- The bits of a byte, the least significant one first (appendix B.1) -/
def byteBits (b : UInt8) : Bits := (List.range 8).map fun i => b.toNat.testBit i

/-- The bit string that a byte string stands for (appendix B.1) -/
def bitsOf (bs : List UInt8) : Bits := bs.flatMap byteBits

end Secuer.Keccak.Spec
