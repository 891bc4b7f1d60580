import Verif.Word.Fp2

/-!
# The arithmetic on 32-bit words

The portable C backend (`GENERIC_IMPLEMENTATION`) on the targets with 32-bit digits (`_X86_` and `_ARM_`, `config.h:63-68`,
`75-80`: `RADIX` = 32, `digit_t` = `uint32_t`).  The C text is the one of `Verif/Word/Model.lean`; what differs is the type of
a digit, the number of digits (`NWORDS_FIELD` 14, 16, 20, 24), the number of zero digits of `p + 1` (`P434_internal.h:20-23`,
… : 6, 7, 9, 11), and the contents of the constant tables, which are arrays of `uint64_t` read through a `digit_t*`.

A digit is a `BitVec 32`, an `unsigned int` a `BitVec 32`.  Conventions as in `Verif/Word/Model.lean`.
-/

namespace Secuer.Word32

open Secuer.Word (UInt)

/-- `digit_t` (`config.h:67`, `79`, `RADIX` = 32) -/
abbrev Digit := BitVec 32

/-- `is_digit_nonzero_ct` (`config.h:167-170`) -/
def nonzeroCt (x : Digit) : UInt := ((x ||| (0 - x)) >>> 31).setWidth 32

/-- `is_digit_zero_ct` (`config.h:172-175`) -/
def zeroCt (x : Digit) : UInt := 1 ^^^ nonzeroCt x

/-- `is_digit_lessthan_ct` (`config.h:177-180`) -/
def lessCt (x y : Digit) : UInt := ((x ^^^ ((x ^^^ y) ||| ((x - y) ^^^ y))) >>> 31).setWidth 32

/-- `ADDC` (`config.h:193-196`): carry out and sum -/
def addc (carryIn : UInt) (a b : Digit) : UInt × Digit :=
  let tempReg := a + carryIn.setWidth 32
  let sum := b + tempReg
  (lessCt tempReg (carryIn.setWidth 32) ||| lessCt sum tempReg, sum)

/-- `SUBC` (`config.h:199-203`): borrow out and difference -/
def subc (borrowIn : UInt) (a b : Digit) : UInt × Digit :=
  let tempReg := a - b
  (lessCt a b ||| (borrowIn &&& zeroCt tempReg), tempReg - borrowIn.setWidth 32)

/-- The loop `ADDC(carry, a[i], b[i], carry, c[i])` (`fpx.c:260-262`, `fp_generic.c:60-62`, …) from a given carry -/
def addLoop (carry : UInt) : List Digit → List Digit → UInt × List Digit
  | a :: as, b :: bs =>
    let r := addc carry a b
    let s := addLoop r.1 as bs
    (s.1, r.2 :: s.2)
  | _, _ => (carry, [])

/-- The loop `SUBC(borrow, a[i], b[i], borrow, c[i])` (`fpx.c:294-295`, `fp_generic.c:65-67`, …) from a given borrow -/
def subLoop (borrow : UInt) : List Digit → List Digit → UInt × List Digit
  | a :: as, b :: bs =>
    let r := subc borrow a b
    let s := subLoop r.1 as bs
    (s.1, r.2 :: s.2)
  | _, _ => (borrow, [])

/-- `mp_add` (`fpx.c:256-265`): the returned carry and the array `c` -/
def mpAdd (a b : List Digit) : UInt × List Digit := addLoop 0 a b

/-- `mp_sub` (`fpx.c:290-298`): the returned borrow and the array `c` -/
def mpSub (a b : List Digit) : UInt × List Digit := subLoop 0 a b

/-- `mask = 0 - (digit_t)carry` -/
def maskOf (carry : UInt) : Digit := 0 - carry.setWidth 32

/-- the operand `x[i] & mask` -/
def masked (mask : Digit) (x : List Digit) : List Digit := x.map (· &&& mask)

/-- `SHIFTR(highIn, lowIn, 1, shiftOut, RADIX)` (`config.h:206-207`) -/
def shiftR (high low : Digit) : Digit := (low >>> 1) ^^^ (high <<< (32 - 1))

/-- `mp_shiftr1` (`fpx.c:833-840`) -/
def shiftr1 : List Digit → List Digit
  | [] => []
  | [x] => [x >>> 1]
  | x :: y :: xs => shiftR y x :: shiftr1 (y :: xs)

/-- `digit_x_digit` (`fp_generic.c:139-170`): `(c[0], c[1])` -/
def digitXDigit (a b : Digit) : Digit × Digit :=
  let maskLow : Digit := (-1 : Digit) >>> 16
  let maskHigh : Digit := (-1 : Digit) <<< 16
  let al := a &&& maskLow
  let ah := a >>> 16
  let bl := b &&& maskLow
  let bh := b >>> 16
  let albl := al * bl
  let albh := al * bh
  let ahbl := ah * bl
  let ahbh := ah * bh
  let c0 := albl &&& maskLow
  let res1 := albl >>> 16
  let res2 := ahbl &&& maskLow
  let res3 := albh &&& maskLow
  let temp := res1 + res2 + res3
  let carry := temp >>> 16
  let c0 := c0 ^^^ (temp <<< 16)
  let res1 := ahbl >>> 16
  let res2 := albh >>> 16
  let res3 := ahbh &&& maskLow
  let temp := res1 + res2 + res3 + carry
  let c1 := temp &&& maskLow
  let carry := temp &&& maskHigh
  let c1 := c1 ^^^ ((ahbh &&& maskHigh) + carry)
  (c0, c1)

/-- The accumulators `t`, `u`, `v` of `mp_mul` and `rdc_mont` -/
structure Acc where
  (t u v : Digit)

/-- `MUL(x, y, UV+1, UV[0]); ADDC(0, UV[0], v, carry, v); ADDC(carry, UV[1], u, carry, u); t += carry;`
(`fp_generic.c:181-184`) -/
def Acc.mac (s : Acc) (x y : Digit) : Acc :=
  let uv := digitXDigit x y
  let r := addc 0 uv.1 s.v
  let r' := addc r.1 uv.2 s.u
  ⟨s.t + r'.1.setWidth 32, r'.2, r.2⟩

/-- `ADDC(0, v, w, carry, v); ADDC(carry, u, 0, carry, u); t += carry;` (`fp_generic.c:230-232`) -/
def Acc.addWord (s : Acc) (w : Digit) : Acc :=
  let r := addc 0 s.v w
  let r' := addc r.1 s.u 0
  ⟨s.t + r'.1.setWidth 32, r'.2, r.2⟩

/-- `v = u; u = t; t = 0;` (`fp_generic.c:187-189`) -/
def Acc.next (s : Acc) : Acc := ⟨0, s.t, s.u⟩

/-- `x[i-j]` with `unsigned` index: for `j > i` the index is beyond any array -/
def at? (x : List Digit) (i j : ℕ) : Option Digit := if j ≤ i then x[i - j]? else none

/-- `x[i] = w` -/
def put? (x : List Digit) (i : ℕ) (w : Digit) : Option (List Digit) := if i < x.length then some (x.set i w) else none

/-- The inner loop of `mp_mul` (`fp_generic.c:180-185`, `194-199`) for column `i`, over the given values of `j` -/
def mulCol (a b : List Digit) (i : ℕ) : List ℕ → Acc → Option Acc
  | [], s => some s
  | j :: js, s => do
    let x ← a[j]?
    let y ← at? b i j
    mulCol a b i js (s.mac x y)

/-- The outer loops of `mp_mul`; `c[i]` is written for `i = 0, 1, 2, …` in turn, so the array is built up at its end. -/
def mulCols (a b : List Digit) (js : ℕ → List ℕ) : List ℕ → Acc × List Digit → Option (Acc × List Digit)
  | [], r => some r
  | i :: is, (s, c) => do
    let s ← mulCol a b i (js i) s
    mulCols a b js is (s.next, c ++ [s.v])

/-- `mp_mul` (`fp_generic.c:173-205`) -/
def mpMul (n : ℕ) (a b : List Digit) : Option (List Digit) := do
  let r ← mulCols a b (fun i => List.range (i + 1)) (List.range n) (⟨0, 0, 0⟩, [])
  let r ← mulCols a b (fun i => List.range' (i - n + 1) (n - (i - n + 1))) (List.range' n (n - 1)) r
  some (r.2 ++ [r.1.v])

/-- Tables and sizes of a parameter set -/
structure Tables where
  /-- `NBITS_FIELD` -/
  nbits : ℕ
  /-- `NWORDS_FIELD` -/
  n : ℕ
  /-- `p434_ZERO_WORDS` … -/
  z : ℕ
  /-- `p434` … -/
  p : List Digit
  /-- `p434p1` … -/
  p1 : List Digit
  /-- `p434x2` … -/
  x2 : List Digit
  /-- `p434x4` … -/
  x4 : List Digit
  /-- `Montgomery_R2` -/
  r2 : List Digit
  /-- `Montgomery_one` -/
  one : List Digit
  /-- `Alice_order` -/
  oA : List Digit
  /-- `Bob_order` -/
  oB : List Digit

section
variable (T : Tables)

/-- `mp_sub434_p2` … (`fp_generic.c:22-34`) -/
def subP2C (a b : List Digit) : List Digit := (addLoop 0 (subLoop 0 a b).2 T.x2).2

/-- `mp_sub434_p4` … (`fp_generic.c:37-49`) -/
def subP4 (a b : List Digit) : List Digit := (addLoop 0 (subLoop 0 a b).2 T.x4).2

/-- `fpadd434` … (`fp_generic.c:52-73`) -/
def fpaddC (a b : List Digit) : List Digit :=
  let c := (addLoop 0 a b).2
  let r := subLoop 0 c T.x2
  let mask := maskOf r.1
  (addLoop 0 r.2 (masked mask T.x2)).2

/-- `fpsub434` … (`fp_generic.c:76-92`) -/
def fpsubC (a b : List Digit) : List Digit :=
  let r := subLoop 0 a b
  let mask := maskOf r.1
  (addLoop 0 r.2 (masked mask T.x2)).2

/-- `fpneg434` … (`fp_generic.c:95-103`) -/
def fpneg (a : List Digit) : List Digit := (subLoop 0 T.x2 a).2

/-- `fpdiv2_434` … (`fp_generic.c:106-119`); `a[0]` exists for every element -/
def fpdiv2 (a : List Digit) : List Digit :=
  let mask : Digit := 0 - (a.headD 0 &&& 1)
  shiftr1 (addLoop 0 a (masked mask T.p)).2

/-- `fpcorrection434` … (`fp_generic.c:122-136`) -/
def fpcorrection (a : List Digit) : List Digit :=
  let r := subLoop 0 a T.p
  let mask := maskOf r.1
  (addLoop 0 r.2 (masked mask T.p)).2

/-- The inner loops of `rdc_mont` (`fp_generic.c:222-229`, `244-251`) for column `i` over the given values of `j`; `keep j`
is the condition in the loop. -/
def rdcCol (mc : List Digit) (i : ℕ) (keep : ℕ → Bool) : List ℕ → Acc → Option Acc
  | [], s => some s
  | j :: js, s =>
    if keep j then do
      let x ← mc[j]?
      let y ← at? T.p1 i j
      rdcCol mc i keep js (s.mac x y)
    else rdcCol mc i keep js s

/-- `j < (i-p434_ZERO_WORDS+1)` in `unsigned int` (`fp_generic.c:223`): for `i+1 < p434_ZERO_WORDS` the right-hand side
wraps round. -/
def keepLow (i j : ℕ) : Bool := decide (BitVec.ofNat 32 j < BitVec.ofNat 32 i - BitVec.ofNat 32 T.z + 1)

/-- `j < (NWORDS_FIELD-count)` in `unsigned int` (`fp_generic.c:245`) -/
def keepHigh (count : UInt) (j : ℕ) : Bool := decide (BitVec.ofNat 32 j < BitVec.ofNat 32 T.n - count)

/-- First loop of `rdc_mont` (`fp_generic.c:221-237`) -/
def rdcLow (ma : List Digit) : List ℕ → Acc × List Digit → Option (Acc × List Digit)
  | [], r => some r
  | i :: is, (s, mc) => do
    let s ← rdcCol T mc i (keepLow T i) (List.range i) s
    let s := s.addWord (← ma[i]?)
    rdcLow ma is (s.next, ← put? mc i s.v)

/-- Second loop of `rdc_mont` (`fp_generic.c:239-258`) -/
def rdcHigh (ma : List Digit) : List ℕ → UInt → Acc × List Digit → Option (Acc × List Digit)
  | [], _, r => some r
  | i :: is, count, (s, mc) => do
    let count := if count > 0 then count - 1 else count
    let s ← rdcCol T mc i (keepHigh T count) (List.range' (i - T.n + 1) (T.n - (i - T.n + 1))) s
    let s := s.addWord (← ma[i]?)
    rdcHigh ma is count (s.next, ← put? mc (i - T.n) s.v)

/-- `rdc_mont` (`fp_generic.c:208-260`) -/
def rdcMont (ma : List Digit) : Option (List Digit) := do
  let mc := List.replicate T.n (0 : Digit)
  let r ← rdcLow T ma (List.range T.n) (⟨0, 0, 0⟩, mc)
  let r ← rdcHigh T ma (List.range' T.n (T.n - 1)) (BitVec.ofNat 32 T.z) r
  let v := (addc 0 r.1.v (← ma[2 * T.n - 1]?)).2
  put? r.2 (T.n - 1) v

/-- `fpmul_mont` (`fpx.c:141-151`) -/
def fpmul? (a b : List Digit) : Option (List Digit) := do
  let temp ← mpMul T.n a b
  rdcMont T temp

/-- `fpmul_mont`; the value `[]` in place of an access outside an array.  By `fpmulC_split` it does
not occur for products in range. -/
def fpmulC (a b : List Digit) : List Digit := (fpmul? T a b).getD []

/-- `f2elm_t`: `a[0]`, `a[1]` -/
@[ext] structure F2 where
  (c0 c1 : List Digit)
deriving DecidableEq

/-- `mp_addfast` (`fpx.c:228-239`) -/
def mpAddfastC (a b : List Digit) : List Digit := (mpAdd a b).2

/-- `fp2sqr_mont` (`fpx.c:268-287`) -/
def fp2sqrC (a : F2) : F2 :=
  let t1 := mpAddfastC a.c0 a.c1
  let t2 := subP4 T a.c0 a.c1
  let t3 := mpAddfastC a.c0 a.c0
  ⟨fpmulC T t1 t2, fpmulC T t3 a.c1⟩

/-- `mp_subaddfast` (`fpx.c:301-316`) -/
def mpSubaddfast (a b : List Digit) : List Digit :=
  let r := mpSub a b
  let mask := maskOf r.1
  let t1 := masked mask T.p
  r.2.take T.n ++ mpAddfastC (r.2.drop T.n) t1

/-- `mp_dblsubfast` (`fpx.c:319-331`): the new value of `c` -/
def mpDblsubfast (a b c : List Digit) : List Digit :=
  let c := (mpSub c a).2
  (mpSub c b).2

/-- `fp2mul_mont` (`fpx.c:334-358`) -/
def fp2mul? (a b : F2) : Option F2 := do
  let t1 := mpAddfastC a.c0 a.c1
  let t2 := mpAddfastC b.c0 b.c1
  let tt1 ← mpMul T.n a.c0 b.c0
  let tt2 ← mpMul T.n a.c1 b.c1
  let tt3 ← mpMul T.n t1 t2
  let tt3 := mpDblsubfast tt1 tt2 tt3
  let tt1 := mpSubaddfast T tt1 tt2
  let c1 ← rdcMont T tt3
  let c0 ← rdcMont T tt1
  some ⟨c0, c1⟩

/-- `fp2mul_mont`; a pair of empty lists in place of an access outside an array, which does not occur
(`fp2mulC_split`) -/
def fp2mulC (a b : F2) : F2 := (fp2mul? T a b).getD ⟨[], []⟩

/-- The bytes of an array of digits in memory, on a little-endian machine -/
def digitBytes (x : List Digit) : List UInt8 :=
  x.flatMap fun (d : Digit) => (List.range 4).map fun k => UInt8.ofBitVec ((d >>> (8 * k)).setWidth 8)

/-- The digit whose bytes in memory (at most four) are given -/
def digitOf (b : List UInt8) : Digit :=
  match b with
  | [] => 0
  | x :: xs => x.toBitVec.setWidth 32 ||| (digitOf xs <<< 8)

/-- The array of `n` digits whose bytes are given -/
def digitsOf : ℕ → List UInt8 → List Digit
  | 0, _ => []
  | n + 1, b => digitOf (b.take 4) :: digitsOf n (b.drop 4)

/-- `encode_to_bytes` (`fpx.c:45-59`) on a little-endian machine -/
def encodeToBytes (x : List Digit) (nbytes : ℕ) : List UInt8 := (digitBytes x).take nbytes

/-- `decode_to_digits` (`fpx.c:62-72`) on a little-endian machine, `dec` the array before the call: only its last digit is
cleared. -/
def decodeToDigits (dec : List Digit) (x : List UInt8) (nbytes ndigits : ℕ) : List Digit :=
  let dec := dec.set (ndigits - 1) 0
  digitsOf ndigits (x.take nbytes ++ (digitBytes dec).drop nbytes)

/-- `fp_lt` (`poik.c:131-136`) -/
def fpLt (x y : List Digit) : BitVec 8 := - ((mpSub x y).1 &&& 1).setWidth 8

/-- `fprand` (`poik.c:108-113`) on the bytes delivered by `randombytes` (one array of `NWORDS_FIELD` digits) -/
def fprand (bytes : List UInt8) : List Digit :=
  let el := digitsOf T.n bytes
  el.modify (T.n - 1) fun w => w &&& ((-1 : Digit) >>> (T.nbits % 32))

/-- the loop body of `swap_points` (`ec_isogeny.c:306-318`) for one of the arrays -/
def swapWords (option : Digit) (a b : List Digit) : List Digit × List Digit :=
  (List.zipWith (fun x y => (option &&& (x ^^^ y)) ^^^ x) a b,
    List.zipWith (fun x y => (option &&& (x ^^^ y)) ^^^ y) a b)

/-- The bit of the scalar read in one iteration of `Ladder` (`poik.c:536`); `none` for an access beyond the scalar -/
def scalarBit (m : List Digit) (i : ℕ) : Option UInt := do
  let w ← m[i / 32]?
  some (((w >>> (i % 32)) &&& 1).setWidth 32)

/-- The masks in `Ladder` (`poik.c:537`, `543`) -/
def ladderMask (bit : UInt) : Digit := - bit.setWidth 32

end

/-- A `uint64_t` as two consecutive `uint32_t` in the memory of a little-endian machine, the lower half first -/
def split : List Secuer.Word.Digit → List Digit
  | [] => []
  | x :: xs => x.setWidth 32 :: (x >>> 32).setWidth 32 :: split xs

/-- Both components of an element of `GF(p²)` -/
def split2 (x : Secuer.Word.F2) : F2 := ⟨split x.c0, split x.c1⟩

/-- The tables of `P434/P434.c`, … (arrays of `uint64_t`) read through `digit_t*`, with the numbers `NWORDS_FIELD` and
`p434_ZERO_WORDS` for 32-bit targets. -/
def ofTables (T : Secuer.Word.Tables) (n z : ℕ) : Tables where
  nbits := T.nbits
  n := n
  z := z
  p := split T.p
  p1 := split T.p1
  x2 := split T.x2
  x4 := split T.x4
  r2 := split T.r2
  one := split T.one
  oA := split T.oA
  oB := split T.oB

open Secuer.Field

/-- `NWORDS_FIELD` (`P434_internal.h:21`, `P503_internal.h:21`, `P610_internal.h:21`, `P751_internal.h:21`) -/
def nwords : Level → ℕ
  | .l434 => 14 | .l503 => 16 | .l610 => 20 | .l751 => 24

/-- `p434_ZERO_WORDS`, … (`P434_internal.h:22`, …) -/
def zwords : Level → ℕ
  | .l434 => 6 | .l503 => 7 | .l610 => 9 | .l751 => 11

/-- `NWORDS_ORDER` (`P434_internal.h:33`, … : 256, 256, 320, 384 bits) -/
def nwordsOrder : Level → ℕ
  | .l434 => 8 | .l503 => 8 | .l610 => 10 | .l751 => 12

/-- The tables of a parameter set -/
def tables (l : Level) : Tables := ofTables (Secuer.Word.tables l) (nwords l) (zwords l)

end Secuer.Word32
