import Mathlib.Data.List.Basic
import Mathlib.Data.Nat.Notation
import Verif.Field.Chain
import Verif.Util.Model
import Mathlib.Logic.Function.Iterate

/-!
# The arithmetic on machine words

The portable C backend (`GENERIC_IMPLEMENTATION`, 64-bit digits) of the prime field and of its quadratic extension:
`config.h`, `P434/generic/fp_generic.c` (the versions for 503, 610, 751 have the same text up to the number in the names
and in comments; line numbers are those of the 434 version), `fpx.c`, and the word-level helpers of `poik.c`.

A digit is a `BitVec 64`, an `unsigned int` a `BitVec 32`; all C arithmetic is on these types, hence wraps round as in C.
An array of digits is the list of its entries, least significant first (the index order of the C arrays).  Reads and
writes at computed indices go through `[i]?`, `at?`, `put?`, so an access outside an array makes the function return
`none`.  The loops `for (i = 0; i < n; i++)` over whole arrays are recursions over the lists; they stop at the end of
the shorter list, all theorems have the arrays' lengths as hypotheses or conclusions.

Output arrays that alias inputs: every loop modelled here reads the entries `i` of its inputs before it writes the entry
`i` of its output and never reads it again, so functional results are the same with and without aliasing.  C95 proves this
about the functions executed on memory (`Verif/CMem`).
-/

namespace Secuer.Word

/-- `digit_t` (`config.h`, `RADIX` = 64) -/
abbrev Digit := BitVec 64

/-- `unsigned int` -/
abbrev UInt := BitVec 32

/-- `is_digit_nonzero_ct` (`config.h:167-170`) -/
def nonzeroCt (x : Digit) : UInt := ((x ||| (0 - x)) >>> 63).setWidth 32

/-- `is_digit_zero_ct` (`config.h:172-175`) -/
def zeroCt (x : Digit) : UInt := 1 ^^^ nonzeroCt x

/-- `is_digit_lessthan_ct` (`config.h:177-180`) -/
def lessCt (x y : Digit) : UInt := ((x ^^^ ((x ^^^ y) ||| ((x - y) ^^^ y))) >>> 63).setWidth 32

/-- `ADDC` (`config.h:193-196`): carry out and sum -/
def addc (carryIn : UInt) (a b : Digit) : UInt × Digit :=
  let tempReg := a + carryIn.setWidth 64
  let sum := b + tempReg
  (lessCt tempReg (carryIn.setWidth 64) ||| lessCt sum tempReg, sum)

/-- `SUBC` (`config.h:199-203`): borrow out and difference -/
def subc (borrowIn : UInt) (a b : Digit) : UInt × Digit :=
  let tempReg := a - b
  (lessCt a b ||| (borrowIn &&& zeroCt tempReg), tempReg - borrowIn.setWidth 64)

/-- The loop `ADDC(carry, a[i], b[i], carry, c[i])` (`fpx.c:260-262`, `fp_generic.c:60-62`, …) from a given carry -/
def addLoop (carry : UInt) : List Digit → List Digit → UInt × List Digit
  | a :: as, b :: bs =>
    let r := addc carry a b
    let s := addLoop r.1 as bs
    (s.1, r.2 :: s.2)
  | _, _ => (carry, [])

/-- The loop `SUBC(borrow, a[i], b[i], borrow, c[i])` (`fpx.c:294-295`, `fp_generic.c:65-67`, …) from a given borrow -/
def subLoop (borrow : UInt) : List Digit → List Digit → UInt × List Digit
  | a :: as, b :: bs =>
    let r := subc borrow a b
    let s := subLoop r.1 as bs
    (s.1, r.2 :: s.2)
  | _, _ => (borrow, [])

/-- `mp_add` (`fpx.c:256-265`): the returned carry and the array `c` -/
def mpAdd (a b : List Digit) : UInt × List Digit := addLoop 0 a b

/-- `mp_sub` (`fpx.c:290-298`): the returned borrow and the array `c` -/
def mpSub (a b : List Digit) : UInt × List Digit := subLoop 0 a b

/-- `mask = 0 - (digit_t)carry` -/
def maskOf (carry : UInt) : Digit := 0 - carry.setWidth 64

/-- the operand `x[i] & mask` -/
def masked (mask : Digit) (x : List Digit) : List Digit := x.map (· &&& mask)

/-- `SHIFTR(highIn, lowIn, 1, shiftOut, RADIX)` (`config.h:206-207`) -/
def shiftR (high low : Digit) : Digit := (low >>> 1) ^^^ (high <<< (64 - 1))

/-- `mp_shiftr1` (`fpx.c:833-840`) -/
def shiftr1 : List Digit → List Digit
  | [] => []
  | [x] => [x >>> 1]
  | x :: y :: xs => shiftR y x :: shiftr1 (y :: xs)

/-- `digit_x_digit` (`fp_generic.c:139-170`): `(c[0], c[1])` -/
def digitXDigit (a b : Digit) : Digit × Digit :=
  let maskLow : Digit := (-1 : Digit) >>> 32
  let maskHigh : Digit := (-1 : Digit) <<< 32
  let al := a &&& maskLow
  let ah := a >>> 32
  let bl := b &&& maskLow
  let bh := b >>> 32
  let albl := al * bl
  let albh := al * bh
  let ahbl := ah * bl
  let ahbh := ah * bh
  let c0 := albl &&& maskLow
  let res1 := albl >>> 32
  let res2 := ahbl &&& maskLow
  let res3 := albh &&& maskLow
  let temp := res1 + res2 + res3
  let carry := temp >>> 32
  let c0 := c0 ^^^ (temp <<< 32)
  let res1 := ahbl >>> 32
  let res2 := albh >>> 32
  let res3 := ahbh &&& maskLow
  let temp := res1 + res2 + res3 + carry
  let c1 := temp &&& maskLow
  let carry := temp &&& maskHigh
  let c1 := c1 ^^^ ((ahbh &&& maskHigh) + carry)
  (c0, c1)

/-- The accumulators `t`, `u`, `v` of `mp_mul` and `rdc_mont` -/
structure Acc where
  (t u v : Digit)

/-- `MUL(x, y, UV+1, UV[0]); ADDC(0, UV[0], v, carry, v); ADDC(carry, UV[1], u, carry, u); t += carry;`
(`fp_generic.c:181-184`) -/
def Acc.mac (s : Acc) (x y : Digit) : Acc :=
  let uv := digitXDigit x y
  let r := addc 0 uv.1 s.v
  let r' := addc r.1 uv.2 s.u
  ⟨s.t + r'.1.setWidth 64, r'.2, r.2⟩

/-- `ADDC(0, v, w, carry, v); ADDC(carry, u, 0, carry, u); t += carry;` (`fp_generic.c:230-232`) -/
def Acc.addWord (s : Acc) (w : Digit) : Acc :=
  let r := addc 0 s.v w
  let r' := addc r.1 s.u 0
  ⟨s.t + r'.1.setWidth 64, r'.2, r.2⟩

/-- `v = u; u = t; t = 0;` (`fp_generic.c:187-189`) -/
def Acc.next (s : Acc) : Acc := ⟨0, s.t, s.u⟩

/-- `x[i-j]` with `unsigned` index: for `j > i` the index is beyond any array -/
def at? (x : List Digit) (i j : ℕ) : Option Digit := if j ≤ i then x[i - j]? else none

/-- `x[i] = w` -/
def put? (x : List Digit) (i : ℕ) (w : Digit) : Option (List Digit) := if i < x.length then some (x.set i w) else none

/-- The inner loop of `mp_mul` (`fp_generic.c:180-185`, `194-199`) for column `i`, over the given values of `j` -/
def mulCol (a b : List Digit) (i : ℕ) : List ℕ → Acc → Option Acc
  | [], s => some s
  | j :: js, s => do
    let x ← a[j]?
    let y ← at? b i j
    mulCol a b i js (s.mac x y)

/-- The outer loops of `mp_mul`; `c[i]` is written for `i = 0, 1, 2, …` in turn, so the array is built up at its end. -/
def mulCols (a b : List Digit) (js : ℕ → List ℕ) : List ℕ → Acc × List Digit → Option (Acc × List Digit)
  | [], r => some r
  | i :: is, (s, c) => do
    let s ← mulCol a b i (js i) s
    mulCols a b js is (s.next, c ++ [s.v])

/-- `mp_mul` (`fp_generic.c:173-205`) -/
def mpMul (n : ℕ) (a b : List Digit) : Option (List Digit) := do
  let r ← mulCols a b (fun i => List.range (i + 1)) (List.range n) (⟨0, 0, 0⟩, [])
  let r ← mulCols a b (fun i => List.range' (i - n + 1) (n - (i - n + 1))) (List.range' n (n - 1)) r
  some (r.2 ++ [r.1.v])

/-- Tables and sizes of a parameter set -/
structure Tables where
  /-- `NBITS_FIELD` -/
  nbits : ℕ
  /-- `NWORDS_FIELD` -/
  n : ℕ
  /-- `p434_ZERO_WORDS` … -/
  z : ℕ
  /-- `p434` … -/
  p : List Digit
  /-- `p434p1` … -/
  p1 : List Digit
  /-- `p434x2` … -/
  x2 : List Digit
  /-- `p434x4` … -/
  x4 : List Digit
  /-- `Montgomery_R2` -/
  r2 : List Digit
  /-- `Montgomery_one` -/
  one : List Digit
  /-- `Alice_order` -/
  oA : List Digit
  /-- `Bob_order` -/
  oB : List Digit

/-- Tables of `P434/P434.c:28-73`; `NWORDS_FIELD` and `p434_ZERO_WORDS` of `P434/P434_internal.h:18-19`;
`NBITS_FIELD` of `P434/P434_internal.h`. -/
def words434 : Tables where
  nbits := 434
  n := 7
  z := 3
  p := [
    0xFFFFFFFFFFFFFFFF, 0xFFFFFFFFFFFFFFFF, 0xFFFFFFFFFFFFFFFF, 0xFDC1767AE2FFFFFF, 0x7BC65C783158AEA3,
    0x6CFC5FD681C52056, 0x0002341F27177344]
  p1 := [
    0x0000000000000000, 0x0000000000000000, 0x0000000000000000, 0xFDC1767AE3000000, 0x7BC65C783158AEA3,
    0x6CFC5FD681C52056, 0x0002341F27177344]
  x2 := [
    0xFFFFFFFFFFFFFFFE, 0xFFFFFFFFFFFFFFFF, 0xFFFFFFFFFFFFFFFF, 0xFB82ECF5C5FFFFFF, 0xF78CB8F062B15D47,
    0xD9F8BFAD038A40AC, 0x0004683E4E2EE688]
  x4 := [
    0xFFFFFFFFFFFFFFFC, 0xFFFFFFFFFFFFFFFF, 0xFFFFFFFFFFFFFFFF, 0xF705D9EB8BFFFFFF, 0xEF1971E0C562BA8F,
    0xB3F17F5A07148159, 0x0008D07C9C5DCD11]
  r2 := [
    0x28E55B65DCD69B30, 0xACEC7367768798C2, 0xAB27973F8311688D, 0x175CC6AF8D6C7C0B, 0xABCD92BF2DDE347E,
    0x69E16A61C7686D9A, 0x000025A89BCDD12A]
  one := [
    0x000000000000742C, 0x0000000000000000, 0x0000000000000000, 0xB90FF404FC000000, 0xD801A4FB559FACD4,
    0xE93254545F77410C, 0x0000ECEEA7BD2EDA]
  oA := [
    0x0000000000000000, 0x0000000000000000, 0x0000000000000000, 0x0000000001000000]
  oB := [
    0x58AEA3FDC1767AE3, 0xC520567BC65C7831, 0x1773446CFC5FD681, 0x0000000002341F27]

/-- Tables of `P503/P503.c:28-73`; `NWORDS_FIELD` and `p503_ZERO_WORDS` of `P503/P503_internal.h:18-19`;
`NBITS_FIELD` of `P503/P503_internal.h`. -/
def words503 : Tables where
  nbits := 503
  n := 8
  z := 3
  p := [
    0xFFFFFFFFFFFFFFFF, 0xFFFFFFFFFFFFFFFF, 0xFFFFFFFFFFFFFFFF, 0xABFFFFFFFFFFFFFF, 0x13085BDA2211E7A0,
    0x1B9BF6C87B7E7DAF, 0x6045C6BDDA77A4D0, 0x004066F541811E1E]
  p1 := [
    0x0000000000000000, 0x0000000000000000, 0x0000000000000000, 0xAC00000000000000, 0x13085BDA2211E7A0,
    0x1B9BF6C87B7E7DAF, 0x6045C6BDDA77A4D0, 0x004066F541811E1E]
  x2 := [
    0xFFFFFFFFFFFFFFFE, 0xFFFFFFFFFFFFFFFF, 0xFFFFFFFFFFFFFFFF, 0x57FFFFFFFFFFFFFF, 0x2610B7B44423CF41,
    0x3737ED90F6FCFB5E, 0xC08B8D7BB4EF49A0, 0x0080CDEA83023C3C]
  x4 := [
    0xFFFFFFFFFFFFFFFC, 0xFFFFFFFFFFFFFFFF, 0xFFFFFFFFFFFFFFFF, 0xAFFFFFFFFFFFFFFF, 0x4C216F6888479E82,
    0x6E6FDB21EDF9F6BC, 0x81171AF769DE9340, 0x01019BD506047879]
  r2 := [
    0x5289A0CF641D011F, 0x9B88257189FED2B9, 0xA3B365D58DC8F17A, 0x5BC57AB6EFF168EC, 0x9E51998BD84D4423,
    0xBF8999CBAC3B5695, 0x46E9127BCE14CDB6, 0x003F6CFCE8B81771]
  one := [
    0x00000000000003F9, 0x0000000000000000, 0x0000000000000000, 0xB400000000000000, 0x63CB1A6EA6DED2B4,
    0x51689D8D667EB37D, 0x8ACD77C71AB24142, 0x0026FBAEC60F5953]
  oA := [
    0x0000000000000000, 0x0000000000000000, 0x0000000000000000, 0x0400000000000000]
  oB := [
    0xC216F6888479E82B, 0xE6FDB21EDF9F6BC4, 0x1171AF769DE93406, 0x1019BD5060478798]

/-- Tables of `P610/P610.c:28-73`; `NWORDS_FIELD` and `p610_ZERO_WORDS` of `P610/P610_internal.h:18-19`;
`NBITS_FIELD` of `P610/P610_internal.h`. -/
def words610 : Tables where
  nbits := 610
  n := 10
  z := 4
  p := [
    0xFFFFFFFFFFFFFFFF, 0xFFFFFFFFFFFFFFFF, 0xFFFFFFFFFFFFFFFF, 0xFFFFFFFFFFFFFFFF, 0x6E01FFFFFFFFFFFF,
    0xB1784DE8AA5AB02E, 0x9AE7BF45048FF9AB, 0xB255B2FA10C4252A, 0x819010C251E7D88C, 0x000000027BF6A768]
  p1 := [
    0x0000000000000000, 0x0000000000000000, 0x0000000000000000, 0x0000000000000000, 0x6E02000000000000,
    0xB1784DE8AA5AB02E, 0x9AE7BF45048FF9AB, 0xB255B2FA10C4252A, 0x819010C251E7D88C, 0x000000027BF6A768]
  x2 := [
    0xFFFFFFFFFFFFFFFE, 0xFFFFFFFFFFFFFFFF, 0xFFFFFFFFFFFFFFFF, 0xFFFFFFFFFFFFFFFF, 0xDC03FFFFFFFFFFFF,
    0x62F09BD154B5605C, 0x35CF7E8A091FF357, 0x64AB65F421884A55, 0x03202184A3CFB119, 0x00000004F7ED4ED1]
  x4 := [
    0xFFFFFFFFFFFFFFFC, 0xFFFFFFFFFFFFFFFF, 0xFFFFFFFFFFFFFFFF, 0xFFFFFFFFFFFFFFFF, 0xB807FFFFFFFFFFFF,
    0xC5E137A2A96AC0B9, 0x6B9EFD14123FE6AE, 0xC956CBE8431094AA, 0x06404309479F6232, 0x00000009EFDA9DA2]
  r2 := [
    0xE75F5D201A197727, 0xE0B85963B627392E, 0x6BC1707818DE493D, 0xDC7F419940D1A0C5, 0x7358030979EDE54A,
    0x84F4BEBDEED75A5C, 0x7ECCA66E13427B47, 0xC5BB4E65280080B3, 0x7019950F516DA19A, 0x000000008E290FF3]
  one := [
    0x00000000670CC8E6, 0x0000000000000000, 0x0000000000000000, 0x0000000000000000, 0x9A34000000000000,
    0x4D99C2BD28717A3F, 0x0A4A1839A323D41C, 0xD2B62215D06AD1E2, 0x1369026E862CAF3D, 0x000000010894E964]
  oA := [
    0x0000000000000000, 0x0000000000000000, 0x0000000000000000, 0x0000000000000000, 0x0002000000000000]
  oB := [
    0x26F4552D58173701, 0xDFA28247FCD5D8BC, 0xD97D086212954D73, 0x086128F3EC46592A, 0x00013DFB53B440C8]

/-- Tables of `P751/P751.c:28-71`; `NWORDS_FIELD` and `p751_ZERO_WORDS` of `P751/P751_internal.h:18-19`;
`NBITS_FIELD` of `P751/P751_internal.h`. -/
def words751 : Tables where
  nbits := 751
  n := 12
  z := 5
  p := [
    0xFFFFFFFFFFFFFFFF, 0xFFFFFFFFFFFFFFFF, 0xFFFFFFFFFFFFFFFF, 0xFFFFFFFFFFFFFFFF, 0xFFFFFFFFFFFFFFFF,
    0xEEAFFFFFFFFFFFFF, 0xE3EC968549F878A8, 0xDA959B1A13F7CC76, 0x084E9867D6EBE876, 0x8562B5045CB25748,
    0x0E12909F97BADC66, 0x00006FE5D541F71C]
  p1 := [
    0x0000000000000000, 0x0000000000000000, 0x0000000000000000, 0x0000000000000000, 0x0000000000000000,
    0xEEB0000000000000, 0xE3EC968549F878A8, 0xDA959B1A13F7CC76, 0x084E9867D6EBE876, 0x8562B5045CB25748,
    0x0E12909F97BADC66, 0x00006FE5D541F71C]
  x2 := [
    0xFFFFFFFFFFFFFFFE, 0xFFFFFFFFFFFFFFFF, 0xFFFFFFFFFFFFFFFF, 0xFFFFFFFFFFFFFFFF, 0xFFFFFFFFFFFFFFFF,
    0xDD5FFFFFFFFFFFFF, 0xC7D92D0A93F0F151, 0xB52B363427EF98ED, 0x109D30CFADD7D0ED, 0x0AC56A08B964AE90,
    0x1C25213F2F75B8CD, 0x0000DFCBAA83EE38]
  x4 := [
    0xFFFFFFFFFFFFFFFC, 0xFFFFFFFFFFFFFFFF, 0xFFFFFFFFFFFFFFFF, 0xFFFFFFFFFFFFFFFF, 0xFFFFFFFFFFFFFFFF,
    0xBABFFFFFFFFFFFFF, 0x8FB25A1527E1E2A3, 0x6A566C684FDF31DB, 0x213A619F5BAFA1DB, 0x158AD41172C95D20,
    0x384A427E5EEB719A, 0x0001BF975507DC70]
  r2 := [
    0x233046449DAD4058, 0xDB010161A696452A, 0x5E36941472E3FD8E, 0xF40BFE2082A2E706, 0x4932CCA8904F8751,
    0x1F735F1F1EE7FC81, 0xA24F4D80C1048E18, 0xB56C383CCDB607C5, 0x441DD47B735F9C90, 0x5673ED2C6A6AC82A,
    0x06C905261132294B, 0x000041AD830F1F35]
  one := [
    0x00000000000249ad, 0x0000000000000000, 0x0000000000000000, 0x0000000000000000, 0x0000000000000000,
    0x8310000000000000, 0x5527b1e4375c6c66, 0x697797bf3f4f24d0, 0xc89db7b2ac5c4e2e, 0x4ca4b439d2076956,
    0x10f7926c7512c7e9, 0x00002d5b24bce5e2]
  oA := [
    0x0000000000000000, 0x0000000000000000, 0x0000000000000000, 0x0000000000000000, 0x0000000000000000,
    0x0010000000000000]
  oB := [
    0xC968549F878A8EEB, 0x59B1A13F7CC76E3E, 0xE9867D6EBE876DA9, 0x2B5045CB25748084, 0x2909F97BADC66856,
    0x06FE5D541F71C0E1]

section
variable (T : Tables)

/-- `mp_sub434_p2` … (`fp_generic.c:22-34`) -/
def subP2C (a b : List Digit) : List Digit := (addLoop 0 (subLoop 0 a b).2 T.x2).2

/-- `mp_sub434_p4` … (`fp_generic.c:37-49`) -/
def subP4 (a b : List Digit) : List Digit := (addLoop 0 (subLoop 0 a b).2 T.x4).2

/-- `fpadd434` … (`fp_generic.c:52-73`) -/
def fpaddC (a b : List Digit) : List Digit :=
  let c := (addLoop 0 a b).2
  let r := subLoop 0 c T.x2
  let mask := maskOf r.1
  (addLoop 0 r.2 (masked mask T.x2)).2

/-- `fpsub434` … (`fp_generic.c:76-92`) -/
def fpsubC (a b : List Digit) : List Digit :=
  let r := subLoop 0 a b
  let mask := maskOf r.1
  (addLoop 0 r.2 (masked mask T.x2)).2

/-- `fpneg434` … (`fp_generic.c:95-103`) -/
def fpneg (a : List Digit) : List Digit := (subLoop 0 T.x2 a).2

/-- `fpdiv2_434` … (`fp_generic.c:106-119`); `a[0]` exists for every element -/
def fpdiv2 (a : List Digit) : List Digit :=
  let mask : Digit := 0 - (a.headD 0 &&& 1)
  shiftr1 (addLoop 0 a (masked mask T.p)).2

/-- `fpcorrection434` … (`fp_generic.c:122-136`) -/
def fpcorrection (a : List Digit) : List Digit :=
  let r := subLoop 0 a T.p
  let mask := maskOf r.1
  (addLoop 0 r.2 (masked mask T.p)).2

/-- The inner loops of `rdc_mont` (`fp_generic.c:222-229`, `244-251`) for column `i` over the given values of `j`; `keep j`
is the condition in the loop. -/
def rdcCol (mc : List Digit) (i : ℕ) (keep : ℕ → Bool) : List ℕ → Acc → Option Acc
  | [], s => some s
  | j :: js, s =>
    if keep j then do
      let x ← mc[j]?
      let y ← at? T.p1 i j
      rdcCol mc i keep js (s.mac x y)
    else rdcCol mc i keep js s

/-- `j < (i-p434_ZERO_WORDS+1)` in `unsigned int` (`fp_generic.c:223`): for `i+1 < p434_ZERO_WORDS` the right-hand side
wraps round. -/
def keepLow (i j : ℕ) : Bool := decide (BitVec.ofNat 32 j < BitVec.ofNat 32 i - BitVec.ofNat 32 T.z + 1)

/-- `j < (NWORDS_FIELD-count)` in `unsigned int` (`fp_generic.c:245`) -/
def keepHigh (count : UInt) (j : ℕ) : Bool := decide (BitVec.ofNat 32 j < BitVec.ofNat 32 T.n - count)

/-- First loop of `rdc_mont` (`fp_generic.c:221-237`) -/
def rdcLow (ma : List Digit) : List ℕ → Acc × List Digit → Option (Acc × List Digit)
  | [], r => some r
  | i :: is, (s, mc) => do
    let s ← rdcCol T mc i (keepLow T i) (List.range i) s
    let s := s.addWord (← ma[i]?)
    rdcLow ma is (s.next, ← put? mc i s.v)

/-- Second loop of `rdc_mont` (`fp_generic.c:239-258`) -/
def rdcHigh (ma : List Digit) : List ℕ → UInt → Acc × List Digit → Option (Acc × List Digit)
  | [], _, r => some r
  | i :: is, count, (s, mc) => do
    let count := if count > 0 then count - 1 else count
    let s ← rdcCol T mc i (keepHigh T count) (List.range' (i - T.n + 1) (T.n - (i - T.n + 1))) s
    let s := s.addWord (← ma[i]?)
    rdcHigh ma is count (s.next, ← put? mc (i - T.n) s.v)

/-- `rdc_mont` (`fp_generic.c:208-260`) -/
def rdcMont (ma : List Digit) : Option (List Digit) := do
  let mc := List.replicate T.n (0 : Digit)
  let r ← rdcLow T ma (List.range T.n) (⟨0, 0, 0⟩, mc)
  let r ← rdcHigh T ma (List.range' T.n (T.n - 1)) (BitVec.ofNat 32 T.z) r
  let v := (addc 0 r.1.v (← ma[2 * T.n - 1]?)).2
  put? r.2 (T.n - 1) v

/-- `fpmul_mont` (`fpx.c:141-151`) -/
def fpmul? (a b : List Digit) : Option (List Digit) := do
  let temp ← mpMul T.n a b
  rdcMont T temp

/-- `fpmul_mont`; the value `[]` in place of an access outside an array.  By `fpmul_spec` it does not occur for arrays of
`NWORDS_FIELD` digits. -/
def fpmulC (a b : List Digit) : List Digit := (fpmul? T a b).getD []

/-- `f2elm_t`: `a[0]`, `a[1]` -/
@[ext] structure F2 where
  (c0 c1 : List Digit)
deriving DecidableEq

/-- `mp_addfast` (`fpx.c:228-239`) -/
def mpAddfastC (a b : List Digit) : List Digit := (mpAdd a b).2

/-- `fp2sqr_mont` (`fpx.c:268-287`) -/
def fp2sqrC (a : F2) : F2 :=
  let t1 := mpAddfastC a.c0 a.c1
  let t2 := subP4 T a.c0 a.c1
  let t3 := mpAddfastC a.c0 a.c0
  ⟨fpmulC T t1 t2, fpmulC T t3 a.c1⟩

/-- `mp_subaddfast` (`fpx.c:301-316`) -/
def mpSubaddfast (a b : List Digit) : List Digit :=
  let r := mpSub a b
  let mask := maskOf r.1
  let t1 := masked mask T.p
  r.2.take T.n ++ mpAddfastC (r.2.drop T.n) t1

/-- `mp_dblsubfast` (`fpx.c:319-331`): the new value of `c` -/
def mpDblsubfast (a b c : List Digit) : List Digit :=
  let c := (mpSub c a).2
  (mpSub c b).2

/-- `fp2mul_mont` (`fpx.c:334-358`) -/
def fp2mul? (a b : F2) : Option F2 := do
  let t1 := mpAddfastC a.c0 a.c1
  let t2 := mpAddfastC b.c0 b.c1
  let tt1 ← mpMul T.n a.c0 b.c0
  let tt2 ← mpMul T.n a.c1 b.c1
  let tt3 ← mpMul T.n t1 t2
  let tt3 := mpDblsubfast tt1 tt2 tt3
  let tt1 := mpSubaddfast T tt1 tt2
  let c1 ← rdcMont T tt3
  let c0 ← rdcMont T tt1
  some ⟨c0, c1⟩

/-- `fp2mul_mont`; a pair of empty lists in place of an access outside an array, which does not occur (`fp2mul_spec`) -/
def fp2mulC (a b : F2) : F2 := (fp2mul? T a b).getD ⟨[], []⟩

/-- `fp2zero` (`fpx.c:187-191`), `fpzero` (`fpx.c:103-109`); also `zero` (`poik.c:76`) -/
def fp2zero : F2 := ⟨List.replicate T.n 0, List.replicate T.n 0⟩

/-- `fp2one` (`poik.c:70-74`) -/
def fp2one : F2 := ⟨T.one, List.replicate T.n 0⟩

/-- `fp2neg` (`fpx.c:193-197`) -/
def fp2neg (a : F2) : F2 := ⟨fpneg T a.c0, fpneg T a.c1⟩

/-- `fp2div2` (`fpx.c:214-218`) -/
def fp2div2 (a : F2) : F2 := ⟨fpdiv2 T a.c0, fpdiv2 T a.c1⟩

/-- `fp2correction` (`fpx.c:221-225`) -/
def fp2correction (a : F2) : F2 := ⟨fpcorrection T a.c0, fpcorrection T a.c1⟩

/-- The bytes of an array of digits in memory, on a little-endian machine -/
def digitBytes (x : List Digit) : List UInt8 :=
  x.flatMap fun (d : Digit) => (List.range 8).map fun k => UInt8.ofBitVec ((d >>> (8 * k)).setWidth 8)

/-- The digit whose bytes in memory (at most eight) are given -/
def digitOf (b : List UInt8) : Digit :=
  match b with
  | [] => 0
  | x :: xs => x.toBitVec.setWidth 64 ||| (digitOf xs <<< 8)

/-- The array of `n` digits whose bytes are given -/
def digitsOf : ℕ → List UInt8 → List Digit
  | 0, _ => []
  | n + 1, b => digitOf (b.take 8) :: digitsOf n (b.drop 8)

/-- `encode_to_bytes` (`fpx.c:45-59`) on a little-endian machine -/
def encodeToBytes (x : List Digit) (nbytes : ℕ) : List UInt8 := (digitBytes x).take nbytes

/-- `decode_to_digits` (`fpx.c:62-72`) on a little-endian machine, `dec` the array before the call: only its last digit is
cleared. -/
def decodeToDigits (dec : List Digit) (x : List UInt8) (nbytes ndigits : ℕ) : List Digit :=
  let dec := dec.set (ndigits - 1) 0
  digitsOf ndigits (x.take nbytes ++ (digitBytes dec).drop nbytes)

/-- `FP2_ENCODED_BYTES / 2` (`P434/P434_internal.h:54` …) -/
def half : ℕ := (T.nbits + 7) / 8

/-- `fp_lt` (`poik.c:131-136`) -/
def fpLt (x y : List Digit) : BitVec 8 := - ((mpSub x y).1 &&& 1).setWidth 8

/-- `fprand` (`poik.c:108-113`) on the bytes delivered by `randombytes` (one array of `NWORDS_FIELD` digits) -/
def fprand (bytes : List UInt8) : List Digit :=
  let el := digitsOf T.n bytes
  el.modify (T.n - 1) fun w => w &&& ((-1 : Digit) >>> (T.nbits % 64))

/-! ### The routines that the build chooses

The functions above are those of the portable build (`fp_generic.c` and the C text of `fpx.c`).  In the default build for
x86-64 the first seven routines below are assembly (`fp_x64.c`, `fp_x64_asm.S`, and `fpx.c` under `_FAST_`-dependent `#if`s);
their models are `Secuer.X64.fpaddX` … .  Everything from here on is the same C text in both builds and is parametrised by
them. -/

/-- The routines whose code depends on the build -/
class Arith where
  /-- `fpadd434` … (`fpx.c` calls it `fpadd`, `P434/P434.c` maps the name) -/
  fpadd : Tables → List Digit → List Digit → List Digit
  /-- `fpsub434` … -/
  fpsub : Tables → List Digit → List Digit → List Digit
  /-- `mp_sub434_p2` … -/
  subP2 : Tables → List Digit → List Digit → List Digit
  /-- `mp_addfast` (`fpx.c:228-239`) -/
  mpAddfast : List Digit → List Digit → List Digit
  /-- `fpmul_mont` (`fpx.c:141-151`) -/
  fpmul : Tables → List Digit → List Digit → List Digit
  /-- `fp2sqr_mont` (`fpx.c:268-287`) -/
  fp2sqr : Tables → F2 → F2
  /-- `fp2mul_mont` (`fpx.c:334-358`) -/
  fp2mul : Tables → F2 → F2 → F2
  /-- `fprand` (`poik.c:108-113`) as a function of the bytes delivered by `randombytes`: the same C text in all builds, but what it
  does depends on the size of a digit -/
  rand : Tables → List UInt8 → List Digit

export Arith (fpadd fpsub subP2 mpAddfast fpmul fp2sqr fp2mul)

/-- The portable build (`OPT_LEVEL=GENERIC`).  It is the instance that statements without another one are about. -/
instance Arith.portable : Arith := ⟨fpaddC, fpsubC, subP2C, mpAddfastC, fpmulC, fp2sqrC, fp2mulC, fprand⟩

/-- The comparison `fp_equal` that the callers use. It is a parameter of theirs, so that one can say what they do if the
answers of `fp_equal` on arrays outside its range were others (`Secuer.WProtocolProps.C48_out_of_range`); in the code it is
`fpEqual`. -/
class FpEq where
  eq : Tables → List Digit → List Digit → BitVec 8

variable [Arith]

/-- `fpsqr_mont` (`fpx.c:154-164`) -/
def fpsqr (a : List Digit) : List Digit := fpmul T a a

/-- `to_mont` (`fpx.c:112-118`) -/
def toMont (a : List Digit) : List Digit := fpmul T a T.r2

/-- `from_mont` (`fpx.c:121-129`) -/
def fromMont (a : List Digit) : List Digit :=
  let one := (List.replicate T.n (0 : Digit)).set 0 1
  fpcorrection T (fpmul T a one)

/-- `fpinv_chain_mont` (`fpx.c:361-777`): the chain of the parameter set on words.  `[]` when the chain reads an
unassigned table entry, which does not occur. -/
def fpinvChain (chain : ℕ × List Field.Instr) (a : List Digit) : List Digit :=
  (Field.runChain (fpsqr T) (fpmul T) a chain.1 chain.2).getD []

/-- `fpinv_mont` (`fpx.c:167-176`) -/
def fpinv (chain : ℕ × List Field.Instr) (a : List Digit) : List Digit :=
  let tt := fpinvChain T chain a
  let tt := fpsqr T tt
  let tt := fpsqr T tt
  fpmul T a tt

/-- `fp2add` (`fpx.c:200-204`) -/
def fp2add (a b : F2) : F2 := ⟨fpadd T a.c0 b.c0, fpadd T a.c1 b.c1⟩

/-- `fp2sub` (`fpx.c:207-211`) -/
def fp2sub (a b : F2) : F2 := ⟨fpsub T a.c0 b.c0, fpsub T a.c1 b.c1⟩

/-- `mp2_add` (`fpx.c:242-246`) -/
def mp2add (a b : F2) : F2 := ⟨mpAddfast a.c0 b.c0, mpAddfast a.c1 b.c1⟩

/-- `mp2_sub_p2` (`fpx.c:249-253`) -/
def mp2subP2 (a b : F2) : F2 := ⟨subP2 T a.c0 b.c0, subP2 T a.c1 b.c1⟩

/-- `fp2inv_mont` (`fpx.c:780-791`) -/
def fp2inv (chain : ℕ × List Field.Instr) (a : F2) : F2 :=
  let t10 := fpsqr T a.c0
  let t11 := fpsqr T a.c1
  let t10 := fpadd T t10 t11
  let t10 := fpinv T chain t10
  let a1 := fpneg T a.c1
  ⟨fpmul T a.c0 t10, fpmul T a1 t10⟩

/-- `to_fp2mont` (`fpx.c:794-800`) -/
def toFp2mont (a : F2) : F2 := ⟨toMont T a.c0, toMont T a.c1⟩

/-- `from_fp2mont` (`fpx.c:803-809`) -/
def fromFp2mont (a : F2) : F2 := ⟨fromMont T a.c0, fromMont T a.c1⟩

/-- `fp2_encode` (`fpx.c:74-82`) -/
def fp2encode (x : F2) : List UInt8 :=
  let t := fromFp2mont T x
  encodeToBytes t.c0 (half T) ++ encodeToBytes t.c1 (half T)

/-- `fp2_decode` (`fpx.c:85-91`), `dec` the output variable before the call -/
def fp2decode (dec : F2) (x : List UInt8) : F2 :=
  let d0 := decodeToDigits dec.c0 x (half T) T.n
  let d1 := decodeToDigits dec.c1 (x.drop (half T)) (half T) T.n
  toFp2mont T ⟨d0, d1⟩

/-- `fp_equal` (`poik.c:78-84`); `ct_compare` returns -1 (that is 255) or 0, `~` complements -/
def fpEqual (a b : List Digit) : BitVec 8 :=
  let c := fpsub T a b
  let c := fpcorrection T c
  ~~~ Util.ctCompare (digitBytes c) (digitBytes (List.replicate T.n 0))

/-- The code, in the build at hand -/
instance FpEq.code : FpEq := ⟨fun T => fpEqual T⟩

variable [FpEq]

/-- `fp2_equal` (`poik.c:85-88`) -/
def fp2equal (a b : F2) : BitVec 8 := FpEq.eq T a.c0 b.c0 &&& FpEq.eq T a.c1 b.c1

omit [FpEq] in

/-- The loops `poik.c:148-154` resp. `178-184` on words: `n` squarings, then `m` times `t1 = t1 * t1²` -/
def powLoops (n m : ℕ) (t1 : List Digit) : List Digit :=
  (fun t1 => fpmul T t1 (fpsqr T t1))^[m] ((fpsqr T)^[n] t1)

/-- `fp2sqrt` (`poik.c:139-206`): the array `y`.  `e2`, `e3` are `OALICE_BITS`, `OBOB_EXPON`; `memcmp` compares
`NBITS_TO_NBYTES(NBITS_FIELD)` bytes. -/
def fp2sqrtY (chain : ℕ × List Field.Instr) (e2 e3 : ℕ) (x : F2) : F2 :=
  let a := x.c0
  let b := x.c1
  let zero := List.replicate T.n (0 : Digit)
  if FpEq.eq T b zero ≠ 0 then
    let t1 := powLoops T (e2 - 2) e3 a
    let t0 := fpsqr T t1
    if FpEq.eq T t0 a ≠ 0 then ⟨t1, zero⟩ else ⟨zero, t1⟩
  else
    let t0 := fpsqr T a
    let t1 := fpsqr T b
    let t0 := fpadd T t0 t1
    let t1 := powLoops T (e2 - 2) e3 t0
    let v := fpadd T a t1
    let v := fpdiv2 T v
    let v := fpcorrection T v
    let t2 := fpinvChain T chain v
    let t1 := fpmul T v t2
    let t2 := fpmul T t2 b
    let t2 := fpdiv2 T t2
    let w := fpsqr T t1
    let w := fpcorrection T w
    if (digitBytes v).take (half T) = (digitBytes w).take (half T) then ⟨t1, t2⟩ else ⟨t2, fpneg T t1⟩

/-- `fp2sqrt` (`poik.c:139-222`): `y` and the returned `bool` -/
def fp2sqrt (chain : ℕ × List Field.Instr) (e2 e3 : ℕ) (knownSquare : Bool) (x : F2) : F2 × Bool :=
  let y := fp2sqrtY T chain e2 e3 x
  if knownSquare then (y, true)
  else
    let chk := fp2sqr T y
    (y, decide (fp2equal T chk x ≠ 0))

omit [FpEq]

/-- `fp2div` (`poik.c:115-122`) with `assert` compiled out -/
def fp2div (chain : ℕ × List Field.Instr) (X Z : F2) : F2 :=
  let inv := fp2inv T chain Z
  fp2mul T X inv

end

end Secuer.Word
