import Verif.Params
import Mathlib.Algebra.Field.Defs

/-!
# Model of the curve and isogeny formulas

`ec_isogeny.c` and the curve-level part of `poik.c`, over an arbitrary field `F` in the role of
GF(p²). Every statement of the C functions is one `let`, in the order of the code. Differences to
the code, common to all definitions of this file:

* field elements are values, not lists of words (the word level is modelled separately);
* `mp2_add`, `mp2_sub_p2` (additions without reduction) are plain `+` and `-`;
* in-place updates are expressed by shadowing.

Inversion of zero gives zero, in the code (a power of the argument) as in Lean.
-/

namespace Secuer.Curve

variable {F : Type}

/-- `point_proj` -/
@[ext] structure Pt (F : Type) where
  X : F
  Z : F
deriving DecidableEq, Repr

/-- `curve_proj` (`poik.c:9-11`) -/
@[ext] structure Crv (F : Type) where
  A : F
  C : F
deriving DecidableEq, Repr

/-- `mont_iso` (`poik.c:13-16`) -/
@[ext] structure Iso (F : Type) where
  B : F
  r : F
  u2 : F
deriving DecidableEq, Repr

section formulas

variable [Field F]

/-- `fp2div` (`poik.c:115-122`) -/
def fp2div (X Z : F) : F := X * Z⁻¹

/-- `xDBL` (`ec_isogeny.c:12-29`) -/
def xDBL (P : Pt F) (A24plus C24 : F) : Pt F :=
  let t0 := P.X - P.Z
  let t1 := P.X + P.Z
  let t0 := t0 * t0
  let t1 := t1 * t1
  let QZ := C24 * t0
  let QX := t1 * QZ
  let t1 := t1 - t0
  let t0 := A24plus * t1
  let QZ := QZ + t0
  let QZ := QZ * t1
  ⟨QX, QZ⟩

/-- `xDBLe` (`ec_isogeny.c:31-41`) -/
def xDBLe (P : Pt F) (A24plus C24 : F) : ℕ → Pt F
  | 0 => P
  | e + 1 => xDBLe (xDBL P A24plus C24) A24plus C24 e

/-- `get_2_isog` (`ec_isogeny.c:45-53`): returns `(A24plus, C24)`. -/
def get2isog (P : Pt F) : F × F :=
  let A24plus := P.X * P.X
  let C24 := P.Z * P.Z
  let A24plus := C24 - A24plus
  (A24plus, C24)

/-- `eval_2_isog` (`ec_isogeny.c:56-72`) -/
def eval2isog (P Q : Pt F) : Pt F :=
  let t0 := Q.X + Q.Z
  let t1 := Q.X - Q.Z
  let t2 := P.X + P.Z
  let t3 := P.X - P.Z
  let t0 := t0 * t3
  let t1 := t1 * t2
  let t2 := t0 + t1
  let t3 := t0 - t1
  ⟨P.X * t2, P.Z * t3⟩

/-- `get_4_isog` (`ec_isogeny.c:76-91`): returns `(A24plus, C24, coeff)`. -/
def get4isog (P : Pt F) : F × F × F × F × F :=
  let c1 := P.X - P.Z
  let c2 := P.X + P.Z
  let c0 := P.Z * P.Z
  let c0 := c0 + c0
  let C24 := c0 * c0
  let c0 := c0 + c0
  let A24plus := P.X * P.X
  let A24plus := A24plus + A24plus
  let A24plus := A24plus * A24plus
  (A24plus, C24, c0, c1, c2)

/-- `eval_4_isog` (`ec_isogeny.c:94-115`) -/
def eval4isog (P : Pt F) (c0 c1 c2 : F) : Pt F :=
  let t0 := P.X + P.Z
  let t1 := P.X - P.Z
  let PX := t0 * c1
  let PZ := t1 * c2
  let t0 := t0 * t1
  let t0 := c0 * t0
  let t1 := PX + PZ
  let PZ := PX - PZ
  let t1 := t1 * t1
  let PZ := PZ * PZ
  let PX := t1 + t0
  let t0 := PZ - t0
  ⟨PX * t1, PZ * t0⟩

/-- `xTPL` (`ec_isogeny.c:118-146`) -/
def xTPL (P : Pt F) (A24minus A24plus : F) : Pt F :=
  let t0 := P.X - P.Z
  let t2 := t0 * t0
  let t1 := P.X + P.Z
  let t3 := t1 * t1
  let t4 := P.X + P.X
  let t0 := P.Z + P.Z
  let t1 := t4 * t4
  let t1 := t1 - t3
  let t1 := t1 - t2
  let t5 := A24plus * t3
  let t3 := t3 * t5
  let t6 := A24minus * t2
  let t2 := t2 * t6
  let t3 := t2 - t3
  let t2 := t5 - t6
  let t1 := t1 * t2
  let t2 := t3 + t1
  let t2 := t2 * t2
  let QX := t4 * t2
  let t1 := t3 - t1
  let t1 := t1 * t1
  let QZ := t0 * t1
  ⟨QX, QZ⟩

/-- `xTPLe` (`ec_isogeny.c:149-159`) -/
def xTPLe (P : Pt F) (A24minus A24plus : F) : ℕ → Pt F
  | 0 => P
  | e + 1 => xTPLe (xTPL P A24minus A24plus) A24minus A24plus e

/-- `get_3_isog` (`ec_isogeny.c:162-184`): returns `(A24minus, A24plus, coeff)`. -/
def get3isog (P : Pt F) : F × F × F × F :=
  let c0 := P.X - P.Z
  let t0 := c0 * c0
  let c1 := P.X + P.Z
  let t1 := c1 * c1
  let t3 := P.X + P.X
  let t3 := t3 * t3
  let t2 := t3 - t0
  let t3 := t3 - t1
  let t4 := t0 + t3
  let t4 := t4 + t4
  let t4 := t1 + t4
  let A24minus := t2 * t4
  let t4 := t1 + t2
  let t4 := t4 + t4
  let t4 := t0 + t4
  let A24plus := t3 * t4
  (A24minus, A24plus, c0, c1)

/-- `eval_3_isog` (`ec_isogeny.c:187-204`) -/
def eval3isog (Q : Pt F) (c0 c1 : F) : Pt F :=
  let t0 := Q.X + Q.Z
  let t1 := Q.X - Q.Z
  let t0 := c0 * t0
  let t1 := c1 * t1
  let t2 := t0 + t1
  let t0 := t1 - t0
  let t2 := t2 * t2
  let t0 := t0 * t0
  ⟨Q.X * t2, Q.Z * t0⟩

/-- `j_inv` (`ec_isogeny.c:247-269`) -/
def jInv (A C : F) : F :=
  let jinv := A * A
  let t1 := C * C
  let t0 := t1 + t1
  let t0 := jinv - t0
  let t0 := t0 - t1
  let jinv := t0 - t1
  let t1 := t1 * t1
  let jinv := jinv * t1
  let t0 := t0 + t0
  let t0 := t0 + t0
  let t1 := t0 * t0
  let t0 := t0 * t1
  let t0 := t0 + t0
  let t0 := t0 + t0
  let jinv := jinv⁻¹
  jinv * t0

/-- `xDBLADD` (`ec_isogeny.c:272-297`): returns the new `(P, Q)`. -/
def xDBLADD (P Q : Pt F) (XPQ ZPQ A24 : F) : Pt F × Pt F :=
  let t0 := P.X + P.Z
  let t1 := P.X - P.Z
  let PX := t0 * t0
  let t2 := Q.X - Q.Z
  let QX := Q.X + Q.Z
  let t0 := t0 * t2
  let PZ := t1 * t1
  let t1 := t1 * QX
  let t2 := PX - PZ
  let PX := PX * PZ
  let QX := A24 * t2
  let QZ := t0 - t1
  let PZ := QX + PZ
  let QX := t0 + t1
  let PZ := PZ * t2
  let QZ := QZ * QZ
  let QX := QX * QX
  let QZ := QZ * XPQ
  let QX := QX * ZPQ
  (⟨PX, PZ⟩, ⟨QX, QZ⟩)

/-- `AC_to_AAC24` (`poik.c:246-255`): returns `(A24plus, A24minus, C24)`. -/
def acToAac24 (E : Crv F) : F × F × F :=
  let CC := E.C + E.C
  let A24plus := E.A + CC
  let CC := CC + CC
  let A24minus := A24plus - CC
  (A24plus, A24minus, CC)

/-- `AC24_to_AC` (`poik.c:257-263`) -/
def ac24ToAc (A24plus C24 : F) : Crv F :=
  let A := A24plus + A24plus
  let A := A - C24
  let A := A + A
  ⟨A, C24⟩

/-- `AA24_to_AC` (`poik.c:265-271`) -/
def aa24ToAc (A24minus A24plus : F) : Crv F :=
  let A := A24plus + A24minus
  let C := A24minus + A24minus
  let C := A - C
  let A := A + A
  ⟨A, C⟩

/-- `eval_iso` (`poik.c:361-367`) -/
def evalIso (iso : Iso F) (P : Pt F) : Pt F :=
  let rz := iso.r * P.Z
  ⟨P.X - rz, iso.u2 * P.Z⟩

end formulas

/-- `proj_equal` (`poik.c:92-98`) with `fp2_equal` as equality of field elements. -/
def projEqual [Field F] [DecidableEq F] (X1 Z1 X2 Z2 : F) : Bool :=
  X1 * Z2 = X2 * Z1

/-- `point_equal` (`poik.c:100`) -/
def pointEqual [Field F] [DecidableEq F] (P Q : Pt F) : Bool := projEqual P.X P.Z Q.X Q.Z

/-- The part of a parameter set that the isogeny routines depend on. -/
structure IsoParams where
  /-- `OALICE_BITS`, `OBOB_EXPON` -/
  e2 : ℕ
  e3 : ℕ
  /-- `MAX_Alice`, `MAX_Bob` -/
  maxA : ℕ
  maxB : ℕ
  /-- `MAX_INT_POINTS_ALICE`, `MAX_INT_POINTS_BOB` -/
  ptsA : ℕ
  ptsB : ℕ
  /-- `strat_Alice`, `strat_Bob` -/
  stratA : List ℕ
  stratB : List ℕ

/-- What the code gets from its build configuration and its lower layers. -/
structure Env (F : Type) extends IsoParams where
  /-- the `y` computed by `fp2sqrt(x, y, _)` (`poik.c:139-222`) -/
  sqrt : F → F
  /-- `from_mont` of the two components (`fpx.c:121-129`), as integers -/
  re : F → ℕ
  im : F → ℕ

section models

variable [Field F] [DecidableEq F] (env : Env F)

/-- `solve_quadratic` (`poik.c:370-405`): the two entries of `sols`. -/
def solveQuadratic (A : F) : F × F :=
  let four : F := 1
  let four := four + four
  let four := four + four
  let disc := A * A
  let disc := disc - four
  let sqrtDisc := env.sqrt disc
  let sol0 := sqrtDisc - A
  let sol0 := sol0 / 2
  let sol1 := sol0 - sqrtDisc
  (sol0, sol1)

/-- The return value of `solve_quadratic` (`poik.c:389`): `2 - fp2_equal(...)` as a `size_t`, where
`fp2_equal` returns 255 (not 1) for equal arguments, so `2 - 255` wraps round. -/
def solveQuadraticNum (A : F) : ℕ :=
  let s := solveQuadratic env A
  if s.1 = s.2 then 2 ^ 64 + 2 - 255 else 2

/-- One pass of the inner loop of `all_models` (`poik.c:429-445`). -/
def modelAt (A x2 x4 : F) : Iso F :=
  let min2x2 := x2 + x2
  let min2x2 := -min2x2
  let u2 := x4 - x2
  let B := x2 - min2x2
  let B := B + A
  let B := fp2div B u2
  ⟨B, x2, u2⟩

/-- `all_models` (`poik.c:407-447`): the six entries of `iso`, provided both quadratics have two
solutions (otherwise the loop bounds `n2`, `n4` are wrong; see `allModelsUB`). -/
def allModels (E : Crv F) : List (Iso F) :=
  let A := fp2div E.A E.C
  let x2 := solveQuadratic env A
  let min2x2 := fun x : F => -(x + x)
  let x4 := solveQuadratic env (min2x2 x2.1)
  let x4' := solveQuadratic env (min2x2 x2.2)
  [⟨A, 0, 1⟩, ⟨-A, 0, -1⟩, modelAt A x2.1 x4.1, modelAt A x2.1 x4.2, modelAt A x2.2 x4'.1,
    modelAt A x2.2 x4'.2]

/-- `all_models` reads and writes out of bounds: one of the quadratics has a double root. -/
def allModelsUB (E : Crv F) : Bool :=
  let A := fp2div E.A E.C
  let x2 := solveQuadratic env A
  solveQuadraticNum env A ≠ 2 || solveQuadraticNum env (-(x2.1 + x2.1)) ≠ 2 ||
    solveQuadraticNum env (-(x2.2 + x2.2)) ≠ 2

/-- The comparison in `canonical_model` (`poik.c:491-501`) on canonical integers. -/
def modelLt (a b : F) : Bool :=
  env.re a < env.re b || (env.re a = env.re b && env.im a < env.im b)

/-- The selection loop of `canonical_model` (`poik.c:490-502`). -/
def selectModel (iso : Iso F) : List (Iso F) → Iso F
  | [] => iso
  | c :: cs => selectModel (if modelLt env c.B iso.B then c else iso) cs

/-- `canonical_model` (`poik.c:485-503`) -/
def canonicalModel (E : Crv F) : Iso F :=
  match allModels env E with
  | [] => ⟨0, 0, 0⟩
  | i :: is => selectModel env i is

/-- `change_model` (`poik.c:505-513`): returns `(iso, identity)`. -/
def changeModel (E : Crv F) : Iso F × Iso F :=
  let A := fp2div E.A E.C
  let x2 := solveQuadratic env A
  let x4 := solveQuadratic env (-(x2.1 + x2.1))
  (modelAt A x2.1 x4.1, ⟨A, 0, 1⟩)

end models

/-- `Ladder` (`poik.c:518-547`): the main loop, over the bits of the scalar from the top. `prev` is
`prevbit`. `swap_points` with mask `-(bit ^ prevbit)` swaps iff the bits differ. -/
def ladderLoop [Field F] (PX PZ A24 : F) : List Bool → (prev : Bool) → Pt F → Pt F → Pt F
  | [], prev, R0, R1 => if prev then R1 else R0
  | bit :: bits, prev, R0, R1 =>
    let (R0, R1) := if bit != prev then (R1, R0) else (R0, R1)
    let (R0, R1) := xDBLADD R0 R1 PX PZ A24
    ladderLoop PX PZ A24 bits bit R0 R1

/-- The bits `order_bits-1, ..., 0` of `m` (`poik.c:534-535`). -/
def bitsOf (m : ℕ) : (orderBits : ℕ) → List Bool
  | 0 => []
  | n + 1 => m.testBit n :: bitsOf m n

/-- `Ladder(P, m, A, order_bits, R)` (`poik.c:518-547`). -/
def ladder [Field F] (P : Pt F) (m : ℕ) (A : F) (orderBits : ℕ) : Pt F :=
  let A24 : F := 1
  let A24 := A24 + A24
  let A24 := A + A24
  let A24 := A24 / 2
  let A24 := A24 / 2
  ladderLoop P.X P.Z A24 (bitsOf m orderBits) false ⟨1, 0⟩ P

end Secuer.Curve
