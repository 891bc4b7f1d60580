import Verif.Sidh.Model
import Verif.WCurve.Model

/-!
# The key exchange on machine words

`sidh.c` and the functions of `ec_isogeny.c` that only it uses once more, on arrays of digits: a field element is an `F2`, and every
call of a field function is the word-level function of `Verif.Word.Model`, with the choice between reducing and non-reducing versions
that the code makes. The formulas shared with the proof tools are those of `Verif.WCurve.Model`; the loop over the strategy
(`Secuer.Sidh.keyRows`) only moves points about. `none` is an access outside an array; the arguments are the whole of the buffers
passed. What an uninitialised array holds before it is written is an argument.
-/

namespace Secuer.WSidh

open Secuer.Word Secuer.Field Secuer.Text Secuer.WCurve
open Secuer.Curve (Pt StratOps StratState)
open Secuer.Sidh (Three keyRows aGen bGen obobBits skABytes skBBytes)
open Secuer.Protocol (params)

variable (l : Level) [Arith]

local notation "T" => tables l

/-! ### Formulas -/

/-- `inv_3_way` (`ec_isogeny.c:207-221`): the three new values. -/
def inv3way (z1 z2 z3 : F2) : F2 × F2 × F2 :=
  let t0 := fp2mul T z1 z2
  let t1 := fp2mul T z3 t0
  let t1 := fp2inv T l.chain t1
  let t2 := fp2mul T z3 t1
  let z3 := fp2mul T t0 t1
  let t0 := fp2mul T t2 z2
  let z2 := fp2mul T t2 z1
  let z1 := t0
  (z1, z2, z3)

/-- `get_A` (`ec_isogeny.c:224-244`) -/
def getA (xP xQ xR : F2) : F2 :=
  let one := fp2one T
  let t1 := fp2add T xP xQ
  let t0 := fp2mul T xP xQ
  let A := fp2mul T xR t1
  let A := fp2add T t0 A
  let t0 := fp2mul T t0 xR
  let A := fp2sub T A one
  let t0 := fp2add T t0 t0
  let t1 := fp2add T t1 xR
  let t0 := fp2add T t0 t0
  let A := fp2sqr T A
  let t0 := fp2inv T l.chain t0
  let A := fp2mul T A t0
  fp2sub T A t1

/-- The main loop of `LADDER3PT` (`ec_isogeny.c:352-364`): `n` iterations left, the next one looks at bit `i`; `none` for an access
beyond the scalar -/
def ladder3Loop (m : List Digit) (A24 : F2) : (n i : ℕ) → (prevbit : UInt) → (R0 R2 R : Pt F2) → Option (Pt F2)
  | 0, _, prevbit, _, R2, R =>
    let mask : Digit := - prevbit.setWidth 64
    some (swapPoints mask R R2).1
  | n + 1, i, prevbit, R0, R2, R => do
    let w ← m[i / 64]?
    let bit : UInt := ((w >>> (i % 64)) &&& 1).setWidth 32
    let mask : Digit := - (bit ^^^ prevbit).setWidth 64
    let s := swapPoints mask R R2
    let r := xDBLADD l R0 s.2 s.1.X s.1.Z A24
    ladder3Loop m A24 n (i + 1) bit r.1 r.2 s.1

/-- `LADDER3PT` (`ec_isogeny.c:323-365`) -/
def ladder3pt (xP xQ xPQ : F2) (m : List Digit) (nbits : ℕ) (A : F2) : Option (Pt F2) :=
  let A24 := fp2one T
  let A24 := mp2add A24 A24
  let A24 := mp2add A A24
  let A24 := fp2div2 T A24
  let A24 := fp2div2 T A24
  let R0 : Pt F2 := ⟨xQ, fp2one T⟩
  let R2 : Pt F2 := ⟨xPQ, fp2one T⟩
  let R : Pt F2 := ⟨xP, fp2one T⟩
  ladder3Loop l m A24 nbits 0 0 R0 R2 R

/-- `xTPL_fast` (`ec_isogeny.c:368-396`) -/
def xTPLfast (P : Pt F2) (A2 : F2) : Pt F2 :=
  let t1 := fp2sqr T P.X
  let t2 := fp2sqr T P.Z
  let t3 := fp2add T t1 t2
  let t4 := fp2add T P.X P.Z
  let t4 := fp2sqr T t4
  let t4 := fp2sub T t4 t3
  let t4 := fp2mul T A2 t4
  let t4 := fp2add T t3 t4
  let t3 := fp2sub T t1 t2
  let t3 := fp2sqr T t3
  let t1 := fp2mul T t1 t4
  let t1 := fp2add T t1 t1
  let t1 := fp2add T t1 t1
  let t1 := fp2sub T t1 t3
  let t1 := fp2sqr T t1
  let t2 := fp2mul T t2 t4
  let t2 := fp2add T t2 t2
  let t2 := fp2add T t2 t2
  let t2 := fp2sub T t2 t3
  let t2 := fp2sqr T t2
  ⟨fp2mul T P.X t2, fp2mul T P.Z t1⟩

/-- `xTPLe_fast` (`ec_isogeny.c:399-410`) -/
def xTPLeFast (P : Pt F2) (A2 : F2) : ℕ → Pt F2
  | 0 => P
  | e + 1 => xTPLeFast (xTPLfast l P A2) A2 e

/-- `is_felm_zero` (`fpx.c:853-861`) -/
def isFelmZero (x : List Digit) : Bool := x.all (· == 0)

/-- `is_sqr_fp2` (`fpx.c:864-890`), return value; `memcmp` compares `NBITS_TO_NBYTES(NBITS_FIELD)` bytes. -/
def isSqrFp2 (a : F2) : Bool :=
  let a0 := fpsqr T a.c0
  let a1 := fpsqr T a.c1
  let z := fpadd T a0 a1
  let s := z
  let s := powLoops T (l.iso.e2 - 2) l.iso.e3 s
  let temp := fpsqr T s
  let temp := fpcorrection T temp
  let z := fpcorrection T z
  decide ((digitBytes temp).take (half T) = (digitBytes z).take (half T))

/-! ### Isogenies -/

/-- Alice's traversal of the strategy tree (`sidh.c:77-117` with `qs = [phiP, phiQ, phiR]`; `sidh.c:232-263` with `qs = []`) -/
def walkA (A24plus C24 : F2) (R : Pt F2) (qs : List (Pt F2)) : Option ((F2 × F2) × List (Pt F2)) :=
  let (A24plus, C24, R, qs) :=
    if l.iso.e2 % 2 = 1 then
      let S := xDBLe l R A24plus C24 (l.iso.e2 - 1)
      let g := get2isog l S
      (g.1, g.2, eval2isog l R S, qs.map (fun q => eval2isog l q S))
    else (A24plus, C24, R, qs)
  match keyRows (opsA l) l.iso.ptsA (l.iso.maxA - 1) ⟨(A24plus, C24), R, none, [], 0, l.iso.stratA⟩ qs with
  | none => none
  | some (s, qs) =>
    let (cv, co) := (opsA l).get s.R
    some (cv, qs.map ((opsA l).eval co))

/-- The same on Bob's side (`sidh.c:160-189` with `qs = [phiP, phiQ, phiR]`; `sidh.c:352-375` with `qs = []`) -/
def walkB (A24minus A24plus : F2) (R : Pt F2) (qs : List (Pt F2)) : Option ((F2 × F2) × List (Pt F2)) :=
  match keyRows (opsB l) l.iso.ptsB (l.iso.maxB - 1) ⟨(A24minus, A24plus), R, none, [], 0, l.iso.stratB⟩ qs with
  | none => none
  | some (s, qs) =>
    let (cv, co) := (opsB l).get s.R
    some (cv, qs.map ((opsB l).eval co))

/-! ### Reading and writing buffers -/

omit [Arith] in
/-- `init_basis` (`sidh.c:14-23`); the six arrays are adjacent in `gen`. -/
def initBasis : List (List Digit) → Three F2
  | [a, b, c, d, e, f] => ⟨⟨a, b⟩, ⟨c, d⟩, ⟨e, f⟩⟩
  | _ => ⟨⟨[], []⟩, ⟨[], []⟩, ⟨[], []⟩⟩

/-- `decode_to_digits` of a private key into an array of `NWORDS_ORDER` zero digits (`sidh.c:58, 73` …), `nbytes` the size of the key -/
def readKey (nbytes : ℕ) (k : Bytes) : Option (List Digit) :=
  if nbytes ≤ k.length then some (decodeToDigits (List.replicate (nwordsOrder l) 0) k nbytes (nwordsOrder l)) else none

/-- The three calls of `fp2_decode` on a public key (`sidh.c:218-220`, `sidh.c:331-333`); `old` is the array `PKB` before. -/
def readPk (old : Three F2) (pk : Bytes) : Option (Three F2) :=
  if 6 * half T ≤ pk.length then
    some ⟨fp2decode T old.P pk, fp2decode T old.Q (pk.drop (2 * half T)), fp2decode T old.R (pk.drop (2 * (2 * half T)))⟩
  else none

/-- The end of the key generation functions (`sidh.c:119-127`, `sidh.c:191-199`): normalise three points and write them one after the
other. -/
def writePk : List (Pt F2) → Option Bytes
  | [P, Q, R] =>
    let z := inv3way l P.Z Q.Z R.Z
    let PX := fp2mul T P.X z.1
    let QX := fp2mul T Q.X z.2.1
    let RX := fp2mul T R.X z.2.2
    some (fp2encode T PX ++ fp2encode T QX ++ fp2encode T RX)
  | _ => none

/-! ### The functions of `sidh.c` -/

/-- `EphemeralKeyGeneration_A` (`sidh.c:50-130`): the bytes of the public key -/
def ephGenA (k : Bytes) : Option Bytes := do
  let gA := initBasis (aGen l)
  let gB := initBasis (bGen l)
  let phiP : Pt F2 := ⟨gB.P, fp2one T⟩
  let phiQ : Pt F2 := ⟨gB.Q, fp2one T⟩
  let phiR : Pt F2 := ⟨gB.R, fp2one T⟩
  let A24plus := fp2one T
  let A24plus := mp2add A24plus A24plus
  let C24 := mp2add A24plus A24plus
  let A := mp2add A24plus C24
  let A24plus := mp2add C24 C24
  let m ← readKey l (skABytes l) k
  let R ← ladder3pt l gA.P gA.Q gA.R m l.iso.e2 A
  let w ← walkA l A24plus C24 R [phiP, phiQ, phiR]
  writePk l w.2

/-- `EphemeralKeyGeneration_B` (`sidh.c:133-202`) -/
def ephGenB (k : Bytes) : Option Bytes := do
  let gB := initBasis (bGen l)
  let gA := initBasis (aGen l)
  let phiP : Pt F2 := ⟨gA.P, fp2one T⟩
  let phiQ : Pt F2 := ⟨gA.Q, fp2one T⟩
  let phiR : Pt F2 := ⟨gA.R, fp2one T⟩
  let A24plus := fp2one T
  let A24plus := mp2add A24plus A24plus
  let A24minus := mp2add A24plus A24plus
  let A := mp2add A24plus A24minus
  let A24plus := mp2add A24minus A24minus
  let m ← readKey l (skBBytes l) k
  let R ← ladder3pt l gB.P gB.Q gB.R m (obobBits l - 1) A
  let w ← walkB l A24minus A24plus R [phiP, phiQ, phiR]
  writePk l w.2

/-- `EphemeralSecretAgreement_A` (`sidh.c:205-271`): the bytes of the shared secret; `old` is the array `PKB` before. -/
def ephAgreeA (old : Three F2) (k pk : Bytes) : Option Bytes := do
  let PKB ← readPk l old pk
  let A := getA l PKB.P PKB.Q PKB.R
  let C24 : F2 := ⟨(mpAdd (tables l).one (tables l).one).2, List.replicate (tables l).n 0⟩
  let A24plus := mp2add A C24
  let C24 : F2 := ⟨(mpAdd C24.c0 C24.c0).2, C24.c1⟩
  let m ← readKey l (skABytes l) k
  let R ← ladder3pt l PKB.P PKB.Q PKB.R m l.iso.e2 A
  let w ← walkA l A24plus C24 R []
  let A24plus := w.1.1
  let C24 := w.1.2
  let A24plus := mp2add A24plus A24plus
  let A24plus := fp2sub T A24plus C24
  let A24plus := fp2add T A24plus A24plus
  some (fp2encode T (jInv l A24plus C24))

omit [Arith] in
/-- An `f2elm_t` in memory -/
def f2Bytes (x : F2) : Bytes := digitBytes x.c0 ++ digitBytes x.c1

/-- `publickey_validation` (`sidh.c:274-315`): true iff it returns 0. `memcmp` compares `2*NBITS_TO_NBYTES(NBITS_FIELD)` bytes. -/
def validate (PKB : Three F2) (A A24plus A24minus : F2) : Bool :=
  let A2 := fp2div2 T A
  let P : Pt F2 := ⟨PKB.P, fp2one T⟩
  let Q : Pt F2 := ⟨PKB.Q, fp2one T⟩
  let P := xTPLeFast l P A2 (l.iso.maxB - 1)
  let Q := xTPLeFast l Q A2 (l.iso.maxB - 1)
  let P : Pt F2 := ⟨P.X, fp2correction T P.Z⟩
  let Q : Pt F2 := ⟨Q.X, fp2correction T Q.Z⟩
  if (isFelmZero P.Z.c0 && isFelmZero P.Z.c1) || (isFelmZero Q.Z.c0 && isFelmZero Q.Z.c1) then false else
  let tmp1 := fp2mul T P.X Q.Z
  let tmp2 := fp2mul T P.Z Q.X
  let tmp1 := fp2correction T tmp1
  let tmp2 := fp2correction T tmp2
  if (f2Bytes tmp1).take (2 * half T) = (f2Bytes tmp2).take (2 * half T) then false else
  let P := xTPLfast l P A2
  let Q := xTPLfast l Q A2
  let P : Pt F2 := ⟨P.X, fp2correction T P.Z⟩
  let Q : Pt F2 := ⟨Q.X, fp2correction T Q.Z⟩
  if !isFelmZero P.Z.c0 || !isFelmZero P.Z.c1 || !isFelmZero Q.Z.c0 || !isFelmZero Q.Z.c1 then false else
  if (tables l).nbits = 610 then
    if !isSqrFp2 l A24plus || !isSqrFp2 l A24minus then false else true
  else true

/-- `EphemeralSecretAgreement_B_extended` (`sidh.c:318-383`): `some none` if it returns 1; `old` is the array `PKB` before. -/
def ephAgreeBExt (sike : ℕ) (old : Three F2) (k pk : Bytes) : Option (Option Bytes) := do
  let PKB ← readPk l old pk
  let A := getA l PKB.P PKB.Q PKB.R
  let A24minus : F2 := ⟨(mpAdd (tables l).one (tables l).one).2, List.replicate (tables l).n 0⟩
  let A24plus := mp2add A A24minus
  let A24minus := mp2subP2 T A A24minus
  if sike = 1 ∧ validate l PKB A A24plus A24minus = false then some none else do
  let m ← readKey l (skBBytes l) k
  let R ← ladder3pt l PKB.P PKB.Q PKB.R m (obobBits l - 1) A
  let w ← walkB l A24minus A24plus R []
  let A24minus := w.1.1
  let A24plus := w.1.2
  let A := fp2add T A24plus A24minus
  let A := fp2add T A A
  let A24plus := fp2sub T A24plus A24minus
  some (some (fp2encode T (jInv l A A24plus)))

/-- `EphemeralSecretAgreement_B` (`sidh.c:386-394`) -/
def ephAgreeB (old : Three F2) (k pk : Bytes) : Option (Option Bytes) := ephAgreeBExt l 0 old k pk

end Secuer.WSidh
