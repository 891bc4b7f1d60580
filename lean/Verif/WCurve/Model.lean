import Verif.Word.Fp2
import Verif.Util.Scalar
import Verif.Curve.Algo

/-!
# The curve and isogeny functions on machine words

`ec_isogeny.c` and the curve-level part of `poik.c` (`poik.c:85-1083`) once more, now on the arrays of digits of the
portable backend: a field element is an `F2` (two arrays of `NWORDS_FIELD` digits), and every call of a field function is
the word-level function of `Verif.Word.Model`, with the exact choice between the reducing (`fp2add`, `fp2sub`) and the
non-reducing (`mp2_add`, `mp2_sub_p2`) version that the code makes.  The types `Pt`, `Crv`, `Iso`, `Chain`, the monad `M`,
and the strategy loop (which only moves points about) are those of `Verif.Curve`.

Masked moves and swaps (`ct_cmov`, `swap_points`) are the bit operations of the code on bytes and digits.

In-place updates are expressed by shadowing; every function modelled here reads its inputs before it overwrites them
(for calls on memory see `Verif/CMem` and C95).
-/

namespace Secuer.WCurve

open Secuer.Word Secuer.Field
open Secuer.Curve (Pt Crv Iso Out M Tape Chain StratOps StratState stratRows ProvesOrder)

variable (l : Level) [Arith]

local notation "T" => tables l

/-- `xDBL` (`ec_isogeny.c:12-29`) -/
def xDBL (P : Pt F2) (A24plus C24 : F2) : Pt F2 :=
  let t0 := mp2subP2 T P.X P.Z
  let t1 := mp2add P.X P.Z
  let t0 := fp2sqr T t0
  let t1 := fp2sqr T t1
  let QZ := fp2mul T C24 t0
  let QX := fp2mul T t1 QZ
  let t1 := mp2subP2 T t1 t0
  let t0 := fp2mul T A24plus t1
  let QZ := mp2add QZ t0
  let QZ := fp2mul T QZ t1
  ⟨QX, QZ⟩

/-- `xDBLe` (`ec_isogeny.c:31-41`) -/
def xDBLe (P : Pt F2) (A24plus C24 : F2) : ℕ → Pt F2
  | 0 => P
  | e + 1 => xDBLe (xDBL l P A24plus C24) A24plus C24 e

/-- `get_2_isog` (`ec_isogeny.c:45-53`): `(A24plus, C24)` -/
def get2isog (P : Pt F2) : F2 × F2 :=
  let A24plus := fp2sqr T P.X
  let C24 := fp2sqr T P.Z
  let A24plus := mp2subP2 T C24 A24plus
  (A24plus, C24)

/-- `eval_2_isog` (`ec_isogeny.c:56-72`) -/
def eval2isog (P Q : Pt F2) : Pt F2 :=
  let t0 := mp2add Q.X Q.Z
  let t1 := mp2subP2 T Q.X Q.Z
  let t2 := mp2add P.X P.Z
  let t3 := mp2subP2 T P.X P.Z
  let t0 := fp2mul T t0 t3
  let t1 := fp2mul T t1 t2
  let t2 := mp2add t0 t1
  let t3 := mp2subP2 T t0 t1
  ⟨fp2mul T P.X t2, fp2mul T P.Z t3⟩

/-- `get_4_isog` (`ec_isogeny.c:76-91`): `(A24plus, C24, coeff)` -/
def get4isog (P : Pt F2) : F2 × F2 × F2 × F2 × F2 :=
  let c1 := mp2subP2 T P.X P.Z
  let c2 := mp2add P.X P.Z
  let c0 := fp2sqr T P.Z
  let c0 := mp2add c0 c0
  let C24 := fp2sqr T c0
  let c0 := mp2add c0 c0
  let A24plus := fp2sqr T P.X
  let A24plus := mp2add A24plus A24plus
  let A24plus := fp2sqr T A24plus
  (A24plus, C24, c0, c1, c2)

/-- `eval_4_isog` (`ec_isogeny.c:94-115`) -/
def eval4isog (P : Pt F2) (c0 c1 c2 : F2) : Pt F2 :=
  let t0 := mp2add P.X P.Z
  let t1 := mp2subP2 T P.X P.Z
  let PX := fp2mul T t0 c1
  let PZ := fp2mul T t1 c2
  let t0 := fp2mul T t0 t1
  let t0 := fp2mul T c0 t0
  let t1 := mp2add PX PZ
  let PZ := mp2subP2 T PX PZ
  let t1 := fp2sqr T t1
  let PZ := fp2sqr T PZ
  let PX := mp2add t1 t0
  let t0 := mp2subP2 T PZ t0
  ⟨fp2mul T PX t1, fp2mul T PZ t0⟩

/-- `xTPL` (`ec_isogeny.c:118-146`) -/
def xTPL (P : Pt F2) (A24minus A24plus : F2) : Pt F2 :=
  let t0 := mp2subP2 T P.X P.Z
  let t2 := fp2sqr T t0
  let t1 := mp2add P.X P.Z
  let t3 := fp2sqr T t1
  let t4 := mp2add P.X P.X
  let t0 := mp2add P.Z P.Z
  let t1 := fp2sqr T t4
  let t1 := mp2subP2 T t1 t3
  let t1 := mp2subP2 T t1 t2
  let t5 := fp2mul T A24plus t3
  let t3 := fp2mul T t3 t5
  let t6 := fp2mul T A24minus t2
  let t2 := fp2mul T t2 t6
  let t3 := mp2subP2 T t2 t3
  let t2 := mp2subP2 T t5 t6
  let t1 := fp2mul T t1 t2
  let t2 := fp2add T t3 t1
  let t2 := fp2sqr T t2
  let QX := fp2mul T t4 t2
  let t1 := fp2sub T t3 t1
  let t1 := fp2sqr T t1
  let QZ := fp2mul T t0 t1
  ⟨QX, QZ⟩

/-- `xTPLe` (`ec_isogeny.c:149-159`) -/
def xTPLe (P : Pt F2) (A24minus A24plus : F2) : ℕ → Pt F2
  | 0 => P
  | e + 1 => xTPLe (xTPL l P A24minus A24plus) A24minus A24plus e

/-- `get_3_isog` (`ec_isogeny.c:162-184`): `(A24minus, A24plus, coeff)` -/
def get3isog (P : Pt F2) : F2 × F2 × F2 × F2 :=
  let c0 := mp2subP2 T P.X P.Z
  let t0 := fp2sqr T c0
  let c1 := mp2add P.X P.Z
  let t1 := fp2sqr T c1
  let t3 := mp2add P.X P.X
  let t3 := fp2sqr T t3
  let t2 := fp2sub T t3 t0
  let t3 := fp2sub T t3 t1
  let t4 := mp2add t0 t3
  let t4 := mp2add t4 t4
  let t4 := mp2add t1 t4
  let A24minus := fp2mul T t2 t4
  let t4 := mp2add t1 t2
  let t4 := mp2add t4 t4
  let t4 := mp2add t0 t4
  let A24plus := fp2mul T t3 t4
  (A24minus, A24plus, c0, c1)

/-- `eval_3_isog` (`ec_isogeny.c:187-204`) -/
def eval3isog (Q : Pt F2) (c0 c1 : F2) : Pt F2 :=
  let t0 := mp2add Q.X Q.Z
  let t1 := mp2subP2 T Q.X Q.Z
  let t0 := fp2mul T c0 t0
  let t1 := fp2mul T c1 t1
  let t2 := mp2add t0 t1
  let t0 := mp2subP2 T t1 t0
  let t2 := fp2sqr T t2
  let t0 := fp2sqr T t0
  ⟨fp2mul T Q.X t2, fp2mul T Q.Z t0⟩

/-- `j_inv` (`ec_isogeny.c:247-269`) -/
def jInv (A C : F2) : F2 :=
  let jinv := fp2sqr T A
  let t1 := fp2sqr T C
  let t0 := fp2add T t1 t1
  let t0 := fp2sub T jinv t0
  let t0 := fp2sub T t0 t1
  let jinv := fp2sub T t0 t1
  let t1 := fp2sqr T t1
  let jinv := fp2mul T jinv t1
  let t0 := fp2add T t0 t0
  let t0 := fp2add T t0 t0
  let t1 := fp2sqr T t0
  let t0 := fp2mul T t0 t1
  let t0 := fp2add T t0 t0
  let t0 := fp2add T t0 t0
  let jinv := fp2inv T l.chain jinv
  fp2mul T jinv t0

/-- `xDBLADD` (`ec_isogeny.c:272-297`): the new `(P, Q)` -/
def xDBLADD (P Q : Pt F2) (XPQ ZPQ A24 : F2) : Pt F2 × Pt F2 :=
  let t0 := mp2add P.X P.Z
  let t1 := mp2subP2 T P.X P.Z
  let PX := fp2sqr T t0
  let t2 := mp2subP2 T Q.X Q.Z
  let QX := mp2add Q.X Q.Z
  let t0 := fp2mul T t0 t2
  let PZ := fp2sqr T t1
  let t1 := fp2mul T t1 QX
  let t2 := mp2subP2 T PX PZ
  let PX := fp2mul T PX PZ
  let QX := fp2mul T A24 t2
  let QZ := mp2subP2 T t0 t1
  let PZ := mp2add QX PZ
  let QX := mp2add t0 t1
  let PZ := fp2mul T PZ t2
  let QZ := fp2sqr T QZ
  let QX := fp2sqr T QX
  let QZ := fp2mul T QZ XPQ
  let QX := fp2mul T QX ZPQ
  (⟨PX, PZ⟩, ⟨QX, QZ⟩)

/-- `AC_to_AAC24` (`poik.c:246-255`): `(A24plus, A24minus, C24)` -/
def acToAac24 (E : Crv F2) : F2 × F2 × F2 :=
  let CC := fp2add T E.C E.C
  let A24plus := fp2add T E.A CC
  let CC := fp2add T CC CC
  let A24minus := fp2sub T A24plus CC
  (A24plus, A24minus, CC)

/-- `AC24_to_AC` (`poik.c:257-263`) -/
def ac24ToAc (A24plus C24 : F2) : Crv F2 :=
  let A := fp2add T A24plus A24plus
  let A := fp2sub T A C24
  let A := fp2add T A A
  ⟨A, C24⟩

/-- `AA24_to_AC` (`poik.c:265-271`) -/
def aa24ToAc (A24minus A24plus : F2) : Crv F2 :=
  let A := fp2add T A24plus A24minus
  let C := fp2add T A24minus A24minus
  let C := fp2sub T A C
  let A := fp2add T A A
  ⟨A, C⟩

/-- `eval_iso` (`poik.c:361-367`) -/
def evalIso (iso : Iso F2) (P : Pt F2) : Pt F2 :=
  let rz := fp2mul T iso.r P.Z
  ⟨fp2sub T P.X rz, fp2mul T iso.u2 P.Z⟩

variable [FpEq]

/-- `fp2_iszero` (`poik.c:89`) -/
def iszero (x : F2) : BitVec 8 := fp2equal T x (fp2zero T)

/-- `proj_equal` (`poik.c:92-98`) -/
def projEqual (X1 Z1 X2 Z2 : F2) : BitVec 8 :=
  let U := fp2mul T X1 Z2
  let V := fp2mul T X2 Z1
  fp2equal T U V

/-- `point_equal` (`poik.c:100`) -/
def pointEqual (P Q : Pt F2) : BitVec 8 := projEqual l P.X P.Z Q.X Q.Z

/-- `fp2div` (`poik.c:115-122`) -/
def div (X Z : F2) : F2 := fp2div T l.chain X Z

/-- `solve_quadratic` (`poik.c:370-405`): `sols[0]`, `sols[1]` and the returned `size_t`.  `fp2_equal` returns an `uint8_t`
(0 or 255), which is promoted to `int` before the subtraction; the difference is converted to `size_t`. -/
def solveQuadratic (A : F2) : F2 × F2 × BitVec 64 :=
  let four := fp2one T
  let four := fp2add T four four
  let four := fp2add T four four
  let disc := fp2sqr T A
  let disc := fp2sub T disc four
  let sqrtDisc := (fp2sqrt T l.chain l.iso.e2 l.iso.e3 true disc).1
  let sol0 := fp2sub T sqrtDisc A
  let sol0 := fp2div2 T sol0
  let sol1 := fp2sub T sol0 sqrtDisc
  (sol0, sol1, 2 - (fp2equal T sol0 sol1).setWidth 64)

/-- The inner loop of `all_models` over `j` (`poik.c:437-445`) for the given `x2[i]`, `min2x2`, `x4[j]` -/
def modelAt (A x2 min2x2 x4 : F2) : Iso F2 :=
  let u2 := fp2sub T x4 x2
  let B := fp2sub T x2 min2x2
  let B := fp2add T B A
  let B := div l B u2
  ⟨B, x2, u2⟩

/-- One pass of the outer loop of `all_models` (`poik.c:428-446`); for a return value of `solve_quadratic` other than 2 the
inner loop runs beyond `x4`. -/
def modelsAt (A x2 : F2) : Out (List (Iso F2)) :=
  let min2x2 := fp2add T x2 x2
  let min2x2 := fp2neg T min2x2
  let (x40, x41, n4) := solveQuadratic l min2x2
  if n4 = 2 then .ok [modelAt l A x2 min2x2 x40, modelAt l A x2 min2x2 x41] else .ub

/-- `all_models` (`poik.c:407-447`): the six entries of `iso`; for a return value of `solve_quadratic` other than 2 the
outer loop runs beyond `x2`. -/
def allModels (E : Crv F2) : Out (List (Iso F2)) :=
  let A := div l E.A E.C
  let iso0 : Iso F2 := ⟨A, fp2zero T, fp2one T⟩
  let iso1 : Iso F2 := ⟨fp2neg T iso0.B, iso0.r, fp2neg T iso0.u2⟩
  let (x20, x21, n2) := solveQuadratic l A
  if n2 = 2 then
    match modelsAt l A x20 with
    | .ok is =>
      match modelsAt l A x21 with
      | .ok js => .ok (iso0 :: iso1 :: is ++ js)
      | _ => .ub
    | _ => .ub
  else .ub

/-- `mont_iso` (`poik.c:13-16`) as an array of digits in memory -/
def isoWords (i : Iso F2) : List Digit := i.B.c0 ++ i.B.c1 ++ i.r.c0 ++ i.r.c1 ++ i.u2.c0 ++ i.u2.c1

/-- The `mont_iso` at the given array of digits, `n` digits to an element of the prime field -/
def isoOfWords (n : ℕ) (w : List Digit) : Iso F2 :=
  let w1 := w.drop n
  let w2 := w1.drop n
  let w3 := w2.drop n
  let w4 := w3.drop n
  let w5 := w4.drop n
  ⟨⟨w.take n, w1.take n⟩, ⟨w2.take n, w3.take n⟩, ⟨w4.take n, w5.take n⟩⟩

/-- `ct_cmov((void *) iso, (void const *) a, sizeof(*iso), selector)` (`poik.c:501, 576`) -/
def cmovIso (selector : BitVec 8) (iso a : Iso F2) : Iso F2 :=
  isoOfWords (tables l).n (digitsOf (6 * (tables l).n)
    (Util.ctCmov (.ofBitVec selector) (digitBytes (isoWords iso)) (digitBytes (isoWords a))))

/-- The mask `lt` in `canonical_model` (`poik.c:491-500`), `a` the candidate and `b` the current one -/
def modelLt (a b : F2) : BitVec 8 :=
  let re0 := fromMont T b.c0
  let im0 := fromMont T b.c1
  let re := fromMont T a.c0
  let im := fromMont T a.c1
  let ltRe := fpLt re re0
  let gtRe := fpLt re0 re
  let ltIm := fpLt im im0
  let eqRe := ~~~ ltRe &&& ~~~ gtRe
  ltRe ||| (eqRe &&& ltIm)

/-- The selection loop of `canonical_model` (`poik.c:490-502`) -/
def selectModel (iso : Iso F2) : List (Iso F2) → Iso F2
  | [] => iso
  | c :: cs => selectModel (cmovIso l (modelLt l c.B iso.B) iso c) cs

/-- `canonical_model` (`poik.c:485-503`) -/
def canonicalModel (E : Crv F2) : Out (Iso F2) :=
  match allModels l E with
  | .ok (i :: is) => .ok (selectModel l i is)
  | _ => .ub

/-- `change_model` (`poik.c:505-513`): `(iso, identity)` -/
def changeModel (E : Crv F2) : Out (Iso F2 × Iso F2) :=
  match allModels l E with
  | .ok (i0 :: _ :: i2 :: _) => .ok (i2, i0)
  | _ => .ub

/-- the loop body of `swap_points` (`ec_isogeny.c:306-318`) for one of the arrays -/
def swapWords (option : Digit) (a b : List Digit) : List Digit × List Digit :=
  (List.zipWith (fun x y => (option &&& (x ^^^ y)) ^^^ x) a b,
    List.zipWith (fun x y => (option &&& (x ^^^ y)) ^^^ y) a b)

/-- `swap_points` (`ec_isogeny.c:300-319`) -/
def swapPoints (option : Digit) (P Q : Pt F2) : Pt F2 × Pt F2 :=
  let x0 := swapWords option P.X.c0 Q.X.c0
  let x1 := swapWords option P.X.c1 Q.X.c1
  let z0 := swapWords option P.Z.c0 Q.Z.c0
  let z1 := swapWords option P.Z.c1 Q.Z.c1
  (⟨⟨x0.1, x1.1⟩, ⟨z0.1, z1.1⟩⟩, ⟨⟨x0.2, x1.2⟩, ⟨z0.2, z1.2⟩⟩)

/-- The main loop of `Ladder` (`poik.c:533-546`), `i` iterations left; `none` for an access beyond the scalar -/
def ladderLoop (P : Pt F2) (m : List Digit) (A24 : F2) : ℕ → (prevbit : UInt) → Pt F2 → Pt F2 → Option (Pt F2)
  | 0, prevbit, R0, R1 =>
    let mask : Digit := - prevbit.setWidth 64
    some (swapPoints mask R0 R1).1
  | i + 1, prevbit, R0, R1 => do
    let w ← m[i / 64]?
    let bit : UInt := ((w >>> (i % 64)) &&& 1).setWidth 32
    let mask : Digit := - (bit ^^^ prevbit).setWidth 64
    let r := swapPoints mask R0 R1
    let r := xDBLADD l r.1 r.2 P.X P.Z A24
    ladderLoop P m A24 i bit r.1 r.2

/-- `Ladder` (`poik.c:518-547`) -/
def ladder (P : Pt F2) (m : List Digit) (A : F2) (orderBits : ℕ) : Option (Pt F2) :=
  let A24 := fp2one T
  let A24 : F2 := ⟨fpadd T A24.c0 A24.c0, A24.c1⟩
  let A24 := fp2add T A A24
  let A24 := fp2div2 T A24
  let A24 := fp2div2 T A24
  ladderLoop l P m A24 orderBits 0 ⟨fp2one T, fp2zero T⟩ P

/-! ### Isogenies with strategies -/

/-- The operations used by `Isogeny_A`; `Cv` is `(A24plus, C24)`. -/
def opsA : StratOps F2 (F2 × F2) (F2 × F2 × F2) where
  mul cv R m := xDBLe l R cv.1 cv.2 (2 * m)
  get R := let g := get4isog l R; ((g.1, g.2.1), g.2.2)
  eval co P := eval4isog l P co.1 co.2.1 co.2.2

/-- The operations used by `Isogeny_B`; `Cv` is `(A24minus, A24plus)`. -/
def opsB : StratOps F2 (F2 × F2) (F2 × F2) where
  mul cv R m := xTPLe l R cv.1 cv.2 m
  get R := let g := get3isog l R; ((g.1, g.2.1), g.2.2)
  eval co P := eval3isog l P co.1 co.2

/-- `Isogeny_A` (`poik.c:554-646`): `ok none` if it returns false, else codomain, image of `Q` and the point written to
`back`. -/
def isogenyA (E : Crv F2) (K : Pt F2) (Q : Option (Pt F2)) : Out (Option (Crv F2 × Option (Pt F2) × Pt F2)) :=
  let (A24plus, _, C24) := acToAac24 l E
  let Tp := xDBLe l K A24plus C24 (l.iso.e2 - 1)
  let above00 := iszero l Tp.X
  match changeModel l E with
  | .ok (other, iso) =>
    let iso := cmovIso l above00 iso other
    let (A24plus, _, C24) := acToAac24 l ⟨iso.B, fp2one T⟩
    let R := evalIso l iso K
    let Q := Q.map (evalIso l iso)
    let Tp := xDBLe l R A24plus C24 (l.iso.e2 - 1)
    let O := xDBL l Tp A24plus C24
    let bad := iszero l Tp.Z ||| ~~~ iszero l O.Z
    if bad ≠ 0 then .ok none else
    let (A24plus, C24, R, Q) :=
      if l.iso.e2 % 2 = 1 then
        let S := xDBLe l R A24plus C24 (l.iso.e2 - 1)
        let g := get2isog l S
        (g.1, g.2, eval2isog l R S, Q.map (fun q => eval2isog l q S))
      else (A24plus, C24, R, Q)
    match stratRows (opsA l) l.iso.ptsA (l.iso.maxA - 1) ⟨(A24plus, C24), R, Q, [], 0, l.iso.stratA⟩ with
    | none => .ub
    | some s =>
      let (cv, co) := (opsA l).get s.R
      .ok (some (ac24ToAc l cv.1 cv.2, s.Q.map ((opsA l).eval co), ⟨fp2zero T, fp2one T⟩))
  | _ => .ub

/-! ### Random points -/

/-- The bytes delivered by `randombytes` for the two calls of `fprand` in one iteration of `random_point` -/
abbrev Draw := List UInt8 × List UInt8

/-- The candidate `x` (`poik.c:280-281`) -/
def candidate (d : Draw) : F2 := ⟨Arith.rand T d.1, Arith.rand T d.2⟩

/-- `rhs` in `random_point` (`poik.c:283-287`) -/
def rhsOf (A x : F2) : F2 :=
  let rhs := fp2add T A x
  let rhs := fp2mul T rhs x
  let rhs : F2 := ⟨fpadd T rhs.c0 (tables l).one, rhs.c1⟩
  fp2mul T rhs x

/-- The loop of `random_point` (`poik.c:279-292`) -/
def randomPointAux (A : F2) : List Draw → Option (F2 × List Draw)
  | [] => none
  | d :: ds =>
    let x := candidate l d
    if (fp2sqrt T l.chain l.iso.e2 l.iso.e3 false (rhsOf l A x)).2 then some (x, ds) else randomPointAux A ds

/-- `random_point` (`poik.c:276-296`) -/
def randomPoint (A : F2) : M Draw (Pt F2) := fun t =>
  match randomPointAux l A t.pts with
  | none => .starved
  | some (x, ds) => .ok (⟨x, fp2one T⟩, { t with pts := ds })

/-- First loop of `random_point_with_order` (`poik.c:312-325`), `n` iterations left -/
def randomPointCof (A : F2) (cof : Pt F2 → Pt F2) : ℕ → M Draw (Pt F2)
  | 0 => M.abort
  | n + 1 => do
    let P ← randomPoint l A
    let P := cof P
    if iszero l P.Z ≠ 0 then randomPointCof A cof n else pure P

/-- Second loop of `random_point_with_order` (`poik.c:330-343`), `n` iterations left: `(e, Q)` -/
def orderLoop (mul : Pt F2 → Pt F2) : (n : ℕ) → (e : ℕ) → Pt F2 → Out (ℕ × Pt F2)
  | 0, _, _ => .abort
  | n + 1, e, Q =>
    let Tp := mul Q
    if iszero l Tp.Z ≠ 0 then .ok (e, Q) else orderLoop mul n (e + 1) Tp

/-- `random_point_with_order(A, q, P, e, Q)` (`poik.c:299-343`), `q` 2 or 3: `(P, e, Q)` -/
def randomPointWithOrder (A : F2) (q : ℕ) : M Draw (Pt F2 × ℕ × Pt F2) := do
  let C24 := fp2one T
  let C24 := fp2add T C24 C24
  let A24plus := fp2add T A C24
  let A24minus := fp2sub T A C24
  let C24 := fp2add T C24 C24
  let cof := fun P => if q = 2 then xTPLe l P A24minus A24plus l.iso.e3 else xDBLe l P A24plus C24 l.iso.e2
  let mul := fun Q => if q = 2 then xDBL l Q A24plus C24 else xTPL l Q A24minus A24plus
  let P ← randomPointCof l A cof 9998
  let r ← M.lift (orderLoop l mul 9998 1 P)
  pure (P, r.1, r.2)

/-- `Random_Point_AB` (`poik.c:728-753`): the loop with `n` iterations left -/
def randomPointABLoop (A : F2) (q emax : ℕ) (avoid : Option (Pt F2)) : ℕ → M Draw (Pt F2)
  | 0 => M.abort
  | n + 1 => do
    let (P, e, Q) ← randomPointWithOrder l A q
    if e < emax then randomPointABLoop A q emax avoid n
    else if avoid.any (fun a => pointEqual l Q a ≠ 0) then randomPointABLoop A q emax avoid n
    else pure P

/-- `Random_Point_AB` (`poik.c:728-753`) -/
def randomPointAB (E : Crv F2) (q : ℕ) (avoid : Option (Pt F2)) : M Draw (Pt F2) :=
  randomPointABLoop l (div l E.A E.C) q (if q = 2 then l.iso.e2 else l.iso.e3) avoid 9999

/-- The loop in `Isogeny_B` looking for a point of order 3 outside the last kernel (`poik.c:707-712`) -/
def backLoop (A : F2) (R : Pt F2) : (fuel : ℕ) → M Draw (Pt F2)
  | 0 => M.starved
  | n + 1 => do
    let (_, _, back) ← randomPointWithOrder l A 3
    if pointEqual l back R ≠ 0 then backLoop A R n else pure back

/-- `Isogeny_B` (`poik.c:651-723`) -/
def isogenyB (wantBack : Bool) (E : Crv F2) (K : Pt F2) (Q : Option (Pt F2)) :
    M Draw (Option (Crv F2 × Option (Pt F2) × Option (Pt F2))) := do
  let (A24plus, A24minus, _) := acToAac24 l E
  let Tp := xTPLe l K A24minus A24plus (l.iso.e3 - 1)
  let O := xTPL l Tp A24minus A24plus
  let bad := iszero l Tp.Z ||| ~~~ iszero l O.Z
  if bad ≠ 0 then pure none else
  match stratRows (opsB l) l.iso.ptsB (l.iso.maxB - 1) ⟨(A24minus, A24plus), K, Q, [], 0, l.iso.stratB⟩ with
  | none => M.ub
  | some s =>
    let back ←
      if wantBack then
        let E := aa24ToAc l s.cv.1 s.cv.2
        (fun t => (M.bind (backLoop l (div l E.A E.C) s.R (t.pts.length + 1))
          (fun b => M.pure (some b))) t : M Draw (Option (Pt F2)))
      else pure none
    let (cv, co) := (opsB l).get s.R
    pure (some (aa24ToAc l cv.1 cv.2, s.Q.map ((opsB l).eval co), back.map ((opsB l).eval co)))

/-! ### The curve check -/

/-- One of the valuation loops of `Check_Curve` (`poik.c:799-804`, `poik.c:817-822`) -/
def valLoop (mul : Pt F2 → Pt F2) : (n : ℕ) → (h : ℕ) → (Tp Q : Pt F2) → ℕ × Pt F2 × Pt F2
  | 0, h, Tp, Q => (h, Tp, Q)
  | n + 1, h, Tp, Q => if iszero l Q.Z ≠ 0 then (h, Tp, Q) else valLoop mul n (h + 1) Q (mul Q)

/-- The loop of `Check_Curve` (`poik.c:791-837`) -/
def checkCurveLoop (junk : ℕ → Pt F2 × Pt F2) (A A24plus A24minus C24 : F2) :
    (n : ℕ) → (max2 max3 : Pt F2 × ℕ) → M Draw Bool
  | 0, _, _ => M.abort
  | n + 1, max2, max3 => do
    let P ← randomPoint l A
    let Q := xTPLe l P A24minus A24plus l.iso.e3
    let (h2, T2, Q) := valLoop l (fun Q => xDBL l Q A24plus C24) l.iso.e2 0 (junk n).1 Q
    if iszero l Q.Z = 0 then pure false else
    let ord2 := if pointEqual l T2 max2.1 ≠ 0 then max2.2 else max2.2 + h2
    if l.po ord2 max3.2 then pure true else
    let Q := xDBLe l P A24plus C24 h2
    let (h3, T3, Q) := valLoop l (fun Q => xTPL l Q A24minus A24plus) l.iso.e3 0 (junk n).2 Q
    if iszero l Q.Z = 0 then pure false else
    let ord3 := if pointEqual l T3 max3.1 ≠ 0 then max3.2 else max3.2 + h3
    if l.po ord2 ord3 then pure true else
    let max2 := if h2 > max2.2 then (T2, h2) else max2
    let max3 := if h3 > max3.2 then (T3, h3) else max3
    checkCurveLoop junk A A24plus A24minus C24 n max2 max3

/-- `Check_Curve` (`poik.c:775-840`) -/
def checkCurve (junk : ℕ → Pt F2 × Pt F2) (E : Crv F2) : M Draw Bool :=
  let (A24plus, A24minus, C24) := acToAac24 l E
  checkCurveLoop l junk E.A A24plus A24minus C24 9999 (⟨fp2zero T, fp2zero T⟩, 0) (⟨fp2zero T, fp2zero T⟩, 0)

/-! ### Chains -/

/-- `point_proj const Pback = {{0}, {1}}` (`poik.c:848`): the lowest digit of `Z` is 1, all others 0 -/
def pback : Pt F2 := ⟨fp2zero T, ⟨(List.replicate (tables l).n 0).set 0 1, List.replicate (tables l).n 0⟩⟩

/-- `Random_Isogeny_Chain_A` (`poik.c:846-860`): the loop -/
def chainALoop (E : Crv F2) (avoid : Option (Pt F2)) : ℕ → M Draw (List (Pt F2) × List (Crv F2))
  | 0 => pure ([], [])
  | n + 1 => do
    let P ← randomPointAB l E 2 avoid
    match ← M.lift (isogenyA l E P none) with
    | none => M.ub
    | some (E', _, _) => do
      let (Ps, Es) ← chainALoop E' (some (pback l)) n
      pure (P :: Ps, E' :: Es)

/-- `Random_Isogeny_Chain_A` -/
def randomChainA (width : ℕ) (E0 : Crv F2) : M Draw (Chain F2) := do
  let (Ps, Es) ← chainALoop l E0 none width
  pure ⟨E0 :: Es, Ps⟩

/-- `Random_Isogeny_Chain_B` (`poik.c:891-899`): the loop -/
def chainBLoop (E : Crv F2) (avoid : Option (Pt F2)) : ℕ → M Draw (List (Pt F2) × List (Crv F2))
  | 0 => pure ([], [])
  | n + 1 => do
    let P ← randomPointAB l E 3 avoid
    match ← isogenyB l true E P none with
    | none => M.ub
    | some (E', _, back) => do
      let (Ps, Es) ← chainBLoop E' back n
      pure (P :: Ps, E' :: Es)

/-- `Random_Isogeny_Chain_B` -/
def randomChainB (height : ℕ) (E0 : Crv F2) : M Draw (Chain F2) := do
  let (Ps, Es) ← chainBLoop l E0 none height
  pure ⟨E0 :: Es, Ps⟩

/-! ### Packing -/

/-- `pack_curve` (`poik.c:932-946`) before encoding -/
def packCurve (E : Crv F2) : Out F2 :=
  match canonicalModel l E with
  | .ok iso => .ok iso.B
  | _ => .ub

/-- `pack_point` (`poik.c:932-947`) before encoding -/
def packPoint (E : Crv F2) (P : Pt F2) : Out F2 :=
  match canonicalModel l E with
  | .ok iso => let Q := evalIso l iso P; .ok (div l Q.X Q.Z)
  | _ => .ub

/-- `NWORDS_ORDER` (`P434_internal.h:33` …): `NBITS_ORDER` is 256, 256, 320, 384. -/
def nwordsOrder : Level → ℕ
  | .l434 => 4
  | .l503 => 4
  | .l610 => 5
  | .l751 => 6

/-- The array `scalar` in `Pack_Chain_A` (`poik.c:954-960`): random bytes (the tape holds their value as an integer),
`random_mod_order_A` (`sidh.c:26-35`), `buf[0] |= 1`, `decode_to_digits`; `old` is the array before the call. -/
def scalarOf (old : List Digit) (m : ℕ) : List Digit :=
  let buf := Scalar.leBytes (Scalar.keyBytes l.iso.e2) m
  let buf := Scalar.maskLast (Scalar.maskAlice l.iso.e2) buf
  let buf := Scalar.setOdd buf
  decodeToDigits old buf (Scalar.keyBytes l.iso.e2) (nwordsOrder l)

/-- drawing the bytes of a scalar -/
def randomScalar (old : List Digit) : M Draw (List Digit) := fun t =>
  match t.scal with
  | [] => .starved
  | m :: ms => .ok (scalarOf l old m, { t with scal := ms })

/-- `Pack_Chain_A` (`poik.c:951-999`); `old` is the uninitialised array `scalar` -/
def packChainA (old : List Digit) : List (Crv F2) → List (Pt F2) → M Draw (List F2)
  | E :: Es, P :: Ps => do
    let scalar ← randomScalar l old
    let A := div l E.A E.C
    match ladder l P scalar A l.iso.e2 with
    | none => M.ub
    | some Q =>
      let x ← M.lift (packPoint l E Q)
      let xs ← packChainA old Es Ps
      pure (x :: xs)
  | _, _ => pure []

/-- `Pack_Chain_B` (`poik.c:1001-1035`) -/
def packChainB : List (Crv F2) → List (Pt F2) → M Draw (List F2)
  | E :: Es, P :: Ps => do
    let x ← M.lift (packPoint l E P)
    let xs ← packChainB Es Ps
    pure (x :: xs)
  | _, _ => pure []

/-- `unpack_point` (`poik.c:949`) after decoding -/
def unpackPoint (x : F2) : Pt F2 := ⟨x, fp2one T⟩

/-- The loop of `Unpack_Chain_A` (`poik.c:1043-1056`) for `i ≥ 1` -/
def unpackChainALoop : List F2 → Crv F2 → Pt F2 → M Draw (Option (Crv F2 × Pt F2))
  | [], E, back => pure (some (E, back))
  | x :: xs, E, back => do
    let iso ← M.lift (canonicalModel l E)
    let back := evalIso l iso back
    match ← M.lift (isogenyA l ⟨iso.B, fp2one T⟩ (unpackPoint l x) (some back)) with
    | none => pure none
    | some (E', Q, _) =>
      match Q with
      | none => M.ub
      | some back => unpackChainALoop xs E' back

/-- `Unpack_Chain_A` (`poik.c:1037-1059`) -/
def unpackChainA (junk : ℕ → Pt F2 × Pt F2) (a : F2) (xs : List F2) : M Draw (Option (Crv F2)) := do
  let E : Crv F2 := ⟨a, fp2one T⟩
  let _ ← checkCurve l junk E
  match xs with
  | [] => M.ub
  | x :: xs =>
    match ← M.lift (isogenyA l E (unpackPoint l x) none) with
    | none => pure none
    | some (E, _, back) =>
      match ← unpackChainALoop l xs E back with
      | none => pure none
      | some (E, back) => if iszero l back.Z ≠ 0 then pure none else pure (some E)

/-- The loop of `Unpack_Chain_B` (`poik.c:1067-1080`) for `i ≥ 1` -/
def unpackChainBLoop : List F2 → Crv F2 → Pt F2 → M Draw (Option (Crv F2 × Pt F2))
  | [], E, back => pure (some (E, back))
  | x :: xs, E, back => do
    let iso ← M.lift (canonicalModel l E)
    let back := evalIso l iso back
    match ← isogenyB l false ⟨iso.B, fp2one T⟩ (unpackPoint l x) (some back) with
    | none => pure none
    | some (E', Q, _) =>
      match Q with
      | none => M.ub
      | some back => unpackChainBLoop xs E' back

/-- `Unpack_Chain_B` (`poik.c:1061-1083`) -/
def unpackChainB (junk : ℕ → Pt F2 × Pt F2) (a : F2) (xs : List F2) : M Draw (Option (Crv F2)) := do
  let E : Crv F2 := ⟨a, fp2one T⟩
  let _ ← checkCurve l junk E
  match xs with
  | [] => pure none
  | x :: xs =>
    match ← isogenyB l true E (unpackPoint l x) none with
    | none => pure none
    | some (E, _, back) =>
      match back with
      | none => M.ub
      | some back =>
        match ← unpackChainBLoop l xs E back with
        | none => pure none
        | some (E, back) => if iszero l back.Z ≠ 0 then pure none else pure (some E)

end Secuer.WCurve
