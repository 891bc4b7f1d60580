import Verif.Word.Model

/-!
# The portable field arithmetic on memory

The models of `fp_generic.c` and `fpx.c` in `Verif/Word/Model.lean` are functions from arrays to arrays.  The C functions get
pointers, and the callers often pass the same array as input and output (`fp2sqr_mont(t0, t0)`, `xDBL(Q, Q, …)`).  Here the
functions are modelled once more, now as programs that read and write one memory digit by digit in the order of the C text, so that
an array that is both input and output changes while it is being read.

* The memory is a function from addresses to digits; addresses count digits.  A pointer is an address.
* Local arrays lie on a stack: a function gets an address `sp`, puts its locals at `sp`, `sp + n`, … and passes a higher address to the
  functions it calls.  What is above `sp` may be overwritten.  (The real stack grows downwards and is finite; see `DESIGN.md`.)
* Scalar locals (`carry`, `mask`, `t`, `u`, `v`) are not in memory, and neither are the constant tables, which are never written.
* Loops advance the pointers where the C text has an index.
-/

namespace Secuer.CMem

open Secuer.Word Secuer.Field

/-- Memory: the digit at each address -/
abbrev Mem := ℕ → Digit

/-- The array of `n` digits at `a` -/
def rd (m : Mem) : (n a : ℕ) → List Digit
  | 0, _ => []
  | n + 1, a => m a :: rd m n (a + 1)

/-- The memory with the digit at `a` replaced -/
def upd (m : Mem) (a : ℕ) (w : Digit) : Mem := fun x => if x = a then w else m x

/-- The memory with the array `v` at `a` -/
def wr (m : Mem) (a : ℕ) (v : List Digit) : Mem := fun x => if a ≤ x then (v[x - a]?).getD (m x) else m x

/-! ## `fp_generic.c`, and the loops of `fpx.c` -/

/-- `for (i = 0; i < n; i++) ADDC(carry, a[i], b[i], carry, c[i]);` (`fpx.c:260-262`, `fp_generic.c:60-62`, …) -/
def addMem : (n : ℕ) → (carry : UInt) → (a b c : ℕ) → Mem → UInt × Mem
  | 0, carry, _, _, _, m => (carry, m)
  | n + 1, carry, a, b, c, m =>
    let r := addc carry (m a) (m b)
    addMem n r.1 (a + 1) (b + 1) (c + 1) (upd m c r.2)

/-- `for (i = 0; i < n; i++) SUBC(borrow, a[i], b[i], borrow, c[i]);` (`fpx.c:294-295`, `fp_generic.c:26-28`, …) -/
def subMem : (n : ℕ) → (borrow : UInt) → (a b c : ℕ) → Mem → UInt × Mem
  | 0, borrow, _, _, _, m => (borrow, m)
  | n + 1, borrow, a, b, c, m =>
    let r := subc borrow (m a) (m b)
    subMem n r.1 (a + 1) (b + 1) (c + 1) (upd m c r.2)

/-- `ADDC(carry, a[i], t[i], carry, c[i])` for the entries of a constant table, masked or not (`fp_generic.c:31-33`, `70-72`, …) -/
def addTab : List Digit → (carry : UInt) → (a c : ℕ) → Mem → UInt × Mem
  | [], carry, _, _, m => (carry, m)
  | w :: t, carry, a, c, m =>
    let r := addc carry (m a) w
    addTab t r.1 (a + 1) (c + 1) (upd m c r.2)

/-- `SUBC(borrow, a[i], t[i], borrow, c[i])` for the entries of a constant table (`fp_generic.c:65-67`, `127-129`) -/
def subTab : List Digit → (borrow : UInt) → (a c : ℕ) → Mem → UInt × Mem
  | [], borrow, _, _, m => (borrow, m)
  | w :: t, borrow, a, c, m =>
    let r := subc borrow (m a) w
    subTab t r.1 (a + 1) (c + 1) (upd m c r.2)

/-- `SUBC(borrow, t[i], a[i], borrow, a[i])` for the entries of a constant table (`fp_generic.c:100-102`) -/
def negTab : List Digit → (borrow : UInt) → (a : ℕ) → Mem → UInt × Mem
  | [], borrow, _, m => (borrow, m)
  | w :: t, borrow, a, m =>
    let r := subc borrow w (m a)
    negTab t r.1 (a + 1) (upd m a r.2)

/-- `mp_shiftr1` (`fpx.c:833-840`), for `nwords > 0` -/
def shiftMem : (n x : ℕ) → Mem → Mem
  | 0, _, m => m
  | 1, x, m => upd m x (m x >>> 1)
  | n + 2, x, m => shiftMem (n + 1) (x + 1) (upd m x (shiftR (m (x + 1)) (m x)))

/-- `fpcopy` (`fpx.c:94-100`), `copy_words` (`fpx.c:132-138`) -/
def copyMem : (n a c : ℕ) → Mem → Mem
  | 0, _, _, m => m
  | n + 1, a, c, m => copyMem n (a + 1) (c + 1) (upd m c (m a))

/-- Copying a constant table (`fpcopy((digit_t*)&Montgomery_one, …)`), filling with zeros (`fpzero`, `fpx.c:103-109`; initialisers) -/
def fillMem : List Digit → (c : ℕ) → Mem → Mem
  | [], _, m => m
  | w :: t, c, m => fillMem t (c + 1) (upd m c w)

section
variable (T : Tables)

/-- `mp_sub434_p2` … (`fp_generic.c:22-34`) -/
def subP2M (a b c : ℕ) (m : Mem) : Mem :=
  let m := (subMem T.n 0 a b c m).2
  (addTab T.x2 0 c c m).2

/-- `mp_sub434_p4` … (`fp_generic.c:37-49`) -/
def subP4M (a b c : ℕ) (m : Mem) : Mem :=
  let m := (subMem T.n 0 a b c m).2
  (addTab T.x4 0 c c m).2

/-- `fpadd434` … (`fp_generic.c:52-73`) -/
def fpaddM (a b c : ℕ) (m : Mem) : Mem :=
  let m := (addMem T.n 0 a b c m).2
  let r := subTab T.x2 0 c c m
  let mask := maskOf r.1
  (addTab (masked mask T.x2) 0 c c r.2).2

/-- `fpsub434` … (`fp_generic.c:76-92`) -/
def fpsubM (a b c : ℕ) (m : Mem) : Mem :=
  let r := subMem T.n 0 a b c m
  let mask := maskOf r.1
  (addTab (masked mask T.x2) 0 c c r.2).2

/-- `fpneg434` … (`fp_generic.c:95-103`) -/
def fpnegM (a : ℕ) (m : Mem) : Mem := (negTab T.x2 0 a m).2

/-- `fpdiv2_434` … (`fp_generic.c:106-119`) -/
def fpdiv2M (a c : ℕ) (m : Mem) : Mem :=
  let mask : Digit := 0 - (m a &&& 1)
  let m := (addTab (masked mask T.p) 0 a c m).2
  shiftMem T.n c m

/-- `fpcorrection434` … (`fp_generic.c:122-136`) -/
def fpcorrectionM (a : ℕ) (m : Mem) : Mem :=
  let r := subTab T.p 0 a a m
  let mask := maskOf r.1
  (addTab (masked mask T.p) 0 a a r.2).2

end

/-- The inner loop of `mp_mul` (`fp_generic.c:180-185`, `194-199`) for column `i`, over the given values of `j` -/
def mulColM (m : Mem) (a b i : ℕ) : List ℕ → Acc → Acc
  | [], s => s
  | j :: js, s => mulColM m a b i js (s.mac (m (a + j)) (m (b + (i - j))))

/-- The outer loops of `mp_mul` -/
def mulColsM (a b c : ℕ) (js : ℕ → List ℕ) : List ℕ → Acc × Mem → Acc × Mem
  | [], r => r
  | i :: is, (s, m) =>
    let s := mulColM m a b i (js i) s
    mulColsM a b c js is (s.next, upd m (c + i) s.v)

/-- `mp_mul` (`fp_generic.c:173-205`) -/
def mpMulM (n a b c : ℕ) (m : Mem) : Mem :=
  let r := mulColsM a b c (fun i => List.range (i + 1)) (List.range n) (⟨0, 0, 0⟩, m)
  let r := mulColsM a b c (fun i => List.range' (i - n + 1) (n - (i - n + 1))) (List.range' n (n - 1)) r
  upd r.2 (c + (2 * n - 1)) r.1.v

section
variable (T : Tables)

/-- The inner loops of `rdc_mont` (`fp_generic.c:222-229`, `244-251`) for column `i` over the given values of `j`; `keep j` is the
condition in the loop.  The table `p434p1` has `n` entries, and the index is below `n`. -/
def rdcColM (m : Mem) (mc i : ℕ) (keep : ℕ → Bool) : List ℕ → Acc → Acc
  | [], s => s
  | j :: js, s =>
    if keep j then rdcColM m mc i keep js (s.mac (m (mc + j)) ((T.p1[i - j]?).getD 0)) else rdcColM m mc i keep js s

/-- First loop of `rdc_mont` (`fp_generic.c:221-237`) -/
def rdcLowM (ma mc : ℕ) : List ℕ → Acc × Mem → Acc × Mem
  | [], r => r
  | i :: is, (s, m) =>
    let s := rdcColM T m mc i (keepLow T i) (List.range i) s
    let s := s.addWord (m (ma + i))
    rdcLowM ma mc is (s.next, upd m (mc + i) s.v)

/-- Second loop of `rdc_mont` (`fp_generic.c:239-258`) -/
def rdcHighM (ma mc : ℕ) : List ℕ → UInt → Acc × Mem → Acc × Mem
  | [], _, r => r
  | i :: is, count, (s, m) =>
    let count := if count > 0 then count - 1 else count
    let s := rdcColM T m mc i (keepHigh T count) (List.range' (i - T.n + 1) (T.n - (i - T.n + 1))) s
    let s := s.addWord (m (ma + i))
    rdcHighM ma mc is count (s.next, upd m (mc + (i - T.n)) s.v)

/-- `rdc_mont` (`fp_generic.c:208-260`) -/
def rdcMontM (ma mc : ℕ) (m : Mem) : Mem :=
  let m := fillMem (List.replicate T.n 0) mc m
  let r := rdcLowM T ma mc (List.range T.n) (⟨0, 0, 0⟩, m)
  let r := rdcHighM T ma mc (List.range' T.n (T.n - 1)) (BitVec.ofNat 32 T.z) r
  upd r.2 (mc + (T.n - 1)) (addc 0 r.1.v (r.2 (ma + (2 * T.n - 1)))).2

/-! ## `fpx.c` -/

/-- `mp_addfast` (`fpx.c:228-239`), `mp_add` (`fpx.c:256-265`) -/
def mpAddfastM (a b c : ℕ) (m : Mem) : Mem := (addMem T.n 0 a b c m).2

/-- `fpmul_mont` (`fpx.c:141-151`); local: `temp` -/
def fpmulM (a b c sp : ℕ) (m : Mem) : Mem :=
  let temp := sp
  let m := fillMem (List.replicate (2 * T.n) 0) temp m
  let m := mpMulM T.n a b temp m
  rdcMontM T temp c m

/-- `fpsqr_mont` (`fpx.c:154-164`) -/
def fpsqrM (a c sp : ℕ) (m : Mem) : Mem := fpmulM T a a c sp m

/-- `to_mont` (`fpx.c:112-118`); the table `Montgomery_R2` is copied to the stack first, since `fpmul_mont` takes pointers to memory -/
def toMontM (a mc sp : ℕ) (m : Mem) : Mem :=
  let r2 := sp
  let m := fillMem T.r2 r2 m
  fpmulM T a r2 mc (sp + T.n) m

/-- `from_mont` (`fpx.c:121-129`); local: `one` -/
def fromMontM (a c sp : ℕ) (m : Mem) : Mem :=
  let one := sp
  let m := fillMem (List.replicate T.n 0) one m
  let m := upd m one 1
  let m := fpmulM T a one c (sp + T.n) m
  fpcorrectionM T c m

/-- A call in `fpinv_chain_mont`; `a` is the argument, `t` the table, `tt` the accumulator -/
def primM (a t tt sp : ℕ) (m : Mem) : Prim → Mem
  | .sqA => fpsqrM T a tt sp m
  | .setA j => fpmulM T a tt (t + j * T.n) sp m
  | .tab i j => fpmulM T (t + i * T.n) tt (t + j * T.n) sp m
  | .load => copyMem T.n a tt m
  | .sq => fpsqrM T tt tt sp m
  | .mt i => fpmulM T (t + i * T.n) tt tt sp m
  | .ma => fpmulM T a tt tt sp m

/-- `fpinv_chain_mont` (`fpx.c:361-777`), locals: the table `t` and `tt` -/
def fpinvChainM (chain : ℕ × List Instr) (a sp : ℕ) (m : Mem) : Mem :=
  let t := sp
  let tt := sp + chain.1 * T.n
  let m := (chain.2.flatMap Instr.expand).foldl (primM T a t tt (tt + T.n)) m
  copyMem T.n tt a m

/-- `fpinv_mont` (`fpx.c:167-176`); local: `tt` -/
def fpinvM (chain : ℕ × List Instr) (a sp : ℕ) (m : Mem) : Mem :=
  let tt := sp
  let m := copyMem T.n a tt m
  let m := fpinvChainM T chain tt (sp + T.n) m
  let m := fpsqrM T tt tt (sp + T.n) m
  let m := fpsqrM T tt tt (sp + T.n) m
  fpmulM T a tt a (sp + T.n) m

/-- `fp2copy` (`fpx.c:179-183`) -/
def fp2copyM (a c : ℕ) (m : Mem) : Mem := copyMem T.n (a + T.n) (c + T.n) (copyMem T.n a c m)

/-- `fp2zero` (`fpx.c:187-191`) -/
def fp2zeroM (a : ℕ) (m : Mem) : Mem := fillMem (List.replicate T.n 0) (a + T.n) (fillMem (List.replicate T.n 0) a m)

/-- `fp2one` (`poik.c:70-74`) -/
def fp2oneM (a : ℕ) (m : Mem) : Mem := fillMem (List.replicate T.n 0) (a + T.n) (fillMem T.one a m)

/-- `fp2neg` (`fpx.c:193-197`) -/
def fp2negM (a : ℕ) (m : Mem) : Mem := fpnegM T (a + T.n) (fpnegM T a m)

/-- `fp2add` (`fpx.c:200-204`) -/
def fp2addM (a b c : ℕ) (m : Mem) : Mem := fpaddM T (a + T.n) (b + T.n) (c + T.n) (fpaddM T a b c m)

/-- `fp2sub` (`fpx.c:207-211`) -/
def fp2subM (a b c : ℕ) (m : Mem) : Mem := fpsubM T (a + T.n) (b + T.n) (c + T.n) (fpsubM T a b c m)

/-- `fp2div2` (`fpx.c:214-218`) -/
def fp2div2M (a c : ℕ) (m : Mem) : Mem := fpdiv2M T (a + T.n) (c + T.n) (fpdiv2M T a c m)

/-- `fp2correction` (`fpx.c:221-225`) -/
def fp2correctionM (a : ℕ) (m : Mem) : Mem := fpcorrectionM T (a + T.n) (fpcorrectionM T a m)

/-- `mp2_add` (`fpx.c:242-246`) -/
def mp2addM (a b c : ℕ) (m : Mem) : Mem := mpAddfastM T (a + T.n) (b + T.n) (c + T.n) (mpAddfastM T a b c m)

/-- `mp2_sub_p2` (`fpx.c:249-253`) -/
def mp2subP2M (a b c : ℕ) (m : Mem) : Mem := subP2M T (a + T.n) (b + T.n) (c + T.n) (subP2M T a b c m)

/-- `fp2sqr_mont` (`fpx.c:268-287`); locals: `t1`, `t2`, `t3` -/
def fp2sqrM (a c sp : ℕ) (m : Mem) : Mem :=
  let t1 := sp
  let t2 := sp + T.n
  let t3 := sp + 2 * T.n
  let m := mpAddfastM T a (a + T.n) t1 m
  let m := subP4M T a (a + T.n) t2 m
  let m := mpAddfastM T a a t3 m
  let m := fpmulM T t1 t2 c (sp + 3 * T.n) m
  fpmulM T t3 (a + T.n) (c + T.n) (sp + 3 * T.n) m

/-- `mp_subaddfast` (`fpx.c:301-316`); local: `t1` -/
def mpSubaddfastM (a b c sp : ℕ) (m : Mem) : Mem :=
  let t1 := sp
  let r := subMem (2 * T.n) 0 a b c m
  let mask := maskOf r.1
  let m := fillMem (masked mask T.p) t1 r.2
  mpAddfastM T (c + T.n) t1 (c + T.n) m

/-- `mp_dblsubfast` (`fpx.c:319-331`) -/
def mpDblsubfastM (a b c : ℕ) (m : Mem) : Mem :=
  let m := (subMem (2 * T.n) 0 c a c m).2
  (subMem (2 * T.n) 0 c b c m).2

/-- `fp2mul_mont` (`fpx.c:334-358`); locals: `t1`, `t2`, `tt1`, `tt2`, `tt3` -/
def fp2mulM (a b c sp : ℕ) (m : Mem) : Mem :=
  let t1 := sp
  let t2 := sp + T.n
  let tt1 := sp + 2 * T.n
  let tt2 := sp + 4 * T.n
  let tt3 := sp + 6 * T.n
  let m := mpAddfastM T a (a + T.n) t1 m
  let m := mpAddfastM T b (b + T.n) t2 m
  let m := mpMulM T.n a b tt1 m
  let m := mpMulM T.n (a + T.n) (b + T.n) tt2 m
  let m := mpMulM T.n t1 t2 tt3 m
  let m := mpDblsubfastM T tt1 tt2 tt3 m
  let m := mpSubaddfastM T tt1 tt2 tt1 (sp + 8 * T.n) m
  let m := rdcMontM T tt3 (c + T.n) m
  rdcMontM T tt1 c m

/-- `fp2inv_mont` (`fpx.c:780-791`); local: `t1` -/
def fp2invM (chain : ℕ × List Instr) (a sp : ℕ) (m : Mem) : Mem :=
  let t10 := sp
  let t11 := sp + T.n
  let sp' := sp + 2 * T.n
  let m := fpsqrM T a t10 sp' m
  let m := fpsqrM T (a + T.n) t11 sp' m
  let m := fpaddM T t10 t11 t10 m
  let m := fpinvM T chain t10 sp' m
  let m := fpnegM T (a + T.n) m
  let m := fpmulM T a t10 a sp' m
  fpmulM T (a + T.n) t10 (a + T.n) sp' m

/-- `to_fp2mont` (`fpx.c:794-800`) -/
def toFp2montM (a mc sp : ℕ) (m : Mem) : Mem := toMontM T (a + T.n) (mc + T.n) sp (toMontM T a mc sp m)

/-- `from_fp2mont` (`fpx.c:803-809`) -/
def fromFp2montM (a c sp : ℕ) (m : Mem) : Mem := fromMontM T (a + T.n) (c + T.n) sp (fromMontM T a c sp m)

end

end Secuer.CMem
