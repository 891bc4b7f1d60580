import Verif.Field.Level
import Verif.Text.Model
import Verif.Challenge.Model
import Verif.Util.Scalar

/-!
# Model of the protocol layer

Commitments, challenge, responses, `Generate`, `Prove` and `Verify` (`poik.c:932-949, 1086-1239, 1389-1500`), on the byte
strings of the C structs, for a parameter set `l`.

* SHAKE256 enters as a `Hash`; the code of `fips202.c` is modelled in `Verif.Keccak`.
* `fp2_encode`, `fp2_decode` are modelled here by what they do to the residue: decoding takes the little-endian integer
  modulo `p`, encoding gives the bytes of the least residue.
* The loops over repetitions are the single-threaded ones (`poik.c:1433-1437, 1452-1456, 1490-1492`); the worker pool that
  replaces them under `THREADING` is modelled in `Verif.Threads.Model`.
* Arrays are lists; loops run over the lists. Their lengths are fixed by well-formedness predicates.
-/

namespace Secuer.Protocol

open Secuer.Curve Secuer.Field Secuer.Text Secuer.Scalar

/-- The size constants of a parameter set (`poik.h:19-45`) -/
def params : Level → Params
  | .l434 => params434
  | .l503 => params503
  | .l610 => params610
  | .l751 => params751

/-- What the protocol uses of `fips202.c`. -/
structure Hash where
  /-- `shake256(h, n, buf, len)` -/
  out : ℕ → Bytes → Bytes
  /-- the `k`-th block squeezed by `shake256_squeezeblocks` after `shake256_absorb` of the input into a zero state -/
  block : Bytes → ℕ → Bytes

/-- Contents of memory that the code reads or overwrites without having initialised it. -/
structure Mem (l : Level) where
  /-- `cur2.T`, `cur3.T` in `Check_Curve` (`poik.c:785`) -/
  pts : ℕ → Pt l.F × Pt l.F
  /-- the array `challenge` (`poik.c:1442, 1497`) -/
  challs : List Int

variable (l : Level) (H : Hash) (mem : Mem l)

/-! ### Packed field elements -/

/-- `fp2_decode` (`fpx.c:85-91`), on residues -/
def decode (x : PFp2) : l.F := ⟨(leNat x.real : ZMod l.p), (leNat x.imag : ZMod l.p)⟩

/-- `fp2_encode` (`fpx.c:74-83`), on residues -/
def encode (v : l.F) : PFp2 := ⟨leBytes (params l).fpBytes v.re.val, leBytes (params l).fpBytes v.im.val⟩

/-- The union member `bytes` of `packed_fp2` (`poik.h:49-55`) -/
def flat (x : PFp2) : Bytes := x.real ++ x.imag

/-- `unpack_curve(a, E, true)` (`poik.c:948`) -/
def checkedCurve (x : PFp2) : M l.F Bool := checkCurve l.env l.po mem.pts ⟨decode l x, 1⟩

/-- `enc_j` (`poik.c:1086-1091`) -/
def encJ (E : Crv l.F) : PFp2 := encode l (jInv E.A E.C)

/-! ### Hashing -/

/-- `RO_COMMIT "\x02"` (`poik.c:39`) -/
def roCommit : Bytes := [2]
/-- `RO_CHALLENGE "\x01"` (`poik.c:38`) -/
def roChallenge : Bytes := [1]

/-- The buffer hashed by `hash_hiding` (`poik.c:1095-1098`) -/
def commitInput (r : Bytes) (v : PFp2) : Bytes := roCommit ++ r ++ flat v

/-- `hash_hiding` (`poik.c:1093-1100`) -/
def hashHiding (r : Bytes) (v : PFp2) : Bytes := H.out (params l).hash (commitInput r v)

/-- `struct commitment1` (`poik.c:44-46`) -/
structure Comm where
  h2 : Bytes
  h3 : Bytes
deriving DecidableEq, Repr

/-- The buffer absorbed by `Challenge` (`poik.c:1157-1160`); `struct commitment` is packed (`poik.c:41-48`). -/
def challengeInput (j0 j1 : PFp2) (hs : List Comm) : Bytes :=
  roChallenge ++ (flat j0 ++ flat j1 ++ hs.flatMap fun c => c.h2 ++ c.h3)

/-- `Challenge` (`poik.c:1154-1169`), observed for `fuel` iterations; if it is not finished by then the outcome is
`starved`. -/
def challengeM (fuel : ℕ) (j0 j1 : PFp2) (hs : List Comm) : M l.F (List Int) :=
  match Challenge.challenge (params l).reps (H.block (challengeInput j0 j1 hs)) fuel mem.challs with
  | .finished ts _ => pure ts
  | .running => M.starved
  | .oob => M.ub

/-! ### The verifier -/

/-- Conversion of an `int` to `int8_t` (`*which = r->tag`, `poik.c:1205`): gcc and clang reduce modulo 256. -/
def int8 (t : Int) : Int := Int.bmod t 256

/-- `Unpack_Response` (`poik.c:1200-1239`): `none` if it returns false, else `*which` and `*comm`. -/
def unpackResponse (E0 E1 : PFp2) (r : CResp) : M l.F (Option (Int × Comm)) := do
  let which := int8 r.tag
  if which = -1 then
    match ← unpackChainB l.env l.po mem.pts (decode l E0) (r.leftChain.map (decode l)) with
    | none => pure none
    | some E2 =>
      let j2 := encJ l E2
      pure (some (which, ⟨hashHiding l H r.leftR2 j2, r.leftH3⟩))
  else if which = 0 then
    if (← checkedCurve l mem r.bottomE2) = false then pure none else
    match ← unpackChainA l.env l.po mem.pts (decode l r.bottomE2) (r.bottomChain.map (decode l)) with
    | none => pure none
    | some E3 =>
      let j2 := encJ l ⟨decode l r.bottomE2, 1⟩
      let j3 := encJ l E3
      pure (some (which, ⟨hashHiding l H r.bottomR2 j2, hashHiding l H r.bottomR3 j3⟩))
  else if which = 1 then
    match ← unpackChainB l.env l.po mem.pts (decode l E1) (r.rightChain.map (decode l)) with
    | none => pure none
    | some E3 =>
      let j3 := encJ l E3
      pure (some (which, ⟨r.rightH2, hashHiding l H r.rightR3 j3⟩))
  else pure none

/-- The loop over the responses in `Verify` (`poik.c:1490-1492`); `none` as soon as one of them fails. -/
def unpackAll (E0 E1 : PFp2) : List CResp → M l.F (Option (List (Int × Comm)))
  | [] => pure (some [])
  | r :: rs => do
    match ← unpackResponse l H mem E0 E1 r with
    | none => pure none
    | some o =>
      match ← unpackAll E0 E1 rs with
      | none => pure none
      | some os => pure (some (o :: os))

/-- `Verify` (`poik.c:1464-1500`) -/
def verify (fuel : ℕ) (prf : CProof) : M l.F Bool := do
  if (← checkedCurve l mem prf.E0) = false then pure false else
  if (← checkedCurve l mem prf.E1) = false then pure false else
  let j0 := encJ l ⟨decode l prf.E0, 1⟩
  let j1 := encJ l ⟨decode l prf.E1, 1⟩
  match ← unpackAll l H mem prf.E0 prf.E1 prf.resp with
  | none => pure false
  | some os =>
    let challenge ← challengeM l H mem fuel j0 j1 (os.map Prod.snd)
    pure (decide (challenge = os.map Prod.fst))

/-! ### The prover -/

/-- `struct secret` (`poik.h:58-61`) -/
structure Secret where
  E : List PFp2
  P : List PFp2
deriving DecidableEq, Repr

/-- `struct instance` (`poik.c:28-35`) -/
structure Inst where
  r2 : Bytes
  r3 : Bytes
  E2 : Crv l.F
  E3 : Crv l.F
  left : Chain l.F
  bottom : Chain l.F
  right : Chain l.F

/-- `randombytes_strict(r, n)` for a hiding string; tapes whose next string has another length do not describe a run. -/
def randomHide (n : ℕ) : M l.F Bytes := fun t =>
  match t.hide with
  | [] => .starved
  | r :: rs => if r.length = n then .ok (r, { t with hide := rs }) else .starved

/-- The inner loop of `Instance` over the columns (`poik.c:1115-1129`): pushes the 3-power kernel `Kl` on `El` to the right
and the 2-power kernels down. The return values of `Isogeny_A`, `Isogeny_B` are ignored by the code; if one is false, a
curve is used that was never written. Returns the new `bottom.E`, `bottom.P` and the last `El`, `Kl`. -/
def gridRow : List (Crv l.F × Pt l.F) → Crv l.F → Pt l.F → M l.F (List (Crv l.F × Pt l.F) × Crv l.F × Pt l.F)
  | [], El, Kl => pure ([], El, Kl)
  | (Et, Kt) :: rest, El, Kl => do
    match ← M.lift (isogenyA l.env Et Kt (some Kl)) with
    | some (Er, some Kr, _) =>
      match ← isogenyB l.env false El Kl (some Kt) with
      | some (Eb, some Kb, _) =>
        let (rest, El, Kl) ← gridRow rest Er Kr
        pure ((Eb, Kb) :: rest, El, Kl)
      | _ => M.ub
    | _ => M.ub

/-- The outer loop of `Instance` over the rows (`poik.c:1112-1132`); the first argument are `left.E[row]`, `left.P[row]`.
Returns `bottom` and the `right.E[row]`, `right.P[row]`. -/
def gridLoop : List (Crv l.F × Pt l.F) → List (Crv l.F × Pt l.F) →
    M l.F (List (Crv l.F × Pt l.F) × List (Crv l.F × Pt l.F))
  | [], bottom => pure (bottom, [])
  | (El, Kl) :: rows, bottom => do
    let (bottom, Er, Kr) ← gridRow l bottom El Kl
    let (bottom, right) ← gridLoop rows bottom
    pure (bottom, (Er, Kr) :: right)

/-- `Isogeny_A(&bottom.E[POIK_WIDTH-1], &bottom.P[POIK_WIDTH-1], &bottom.E[POIK_WIDTH], NULL, NULL)` (`poik.c:1134`) -/
def lastA (bottom : List (Crv l.F × Pt l.F)) : M l.F (Crv l.F) :=
  match bottom.getLast? with
  | none => M.ub
  | some (E, P) => do
    match ← M.lift (isogenyA l.env E P none) with
    | some (E', _, _) => pure E'
    | none => M.ub

/-- `Isogeny_B(&right.E[POIK_HEIGHT-1], …, &right.E[POIK_HEIGHT], NULL, NULL)` (`poik.c:1135`) -/
def lastB (right : List (Crv l.F × Pt l.F)) : M l.F (Crv l.F) :=
  match right.getLast? with
  | none => M.ub
  | some (E, P) => do
    match ← isogenyB l.env false E P none with
    | some (E', _, _) => pure E'
    | none => M.ub

/-- `Instance` (`poik.c:1102-1152`) -/
def instanceM (sec : Secret) : M l.F (Inst l × Comm) := do
  let bottomE := sec.E.map fun a => (⟨decode l a, 1⟩ : Crv l.F)
  let bottomP := sec.P.map fun x => unpackPoint (decode l x)
  match bottomE with
  | [] => M.ub
  | E0 :: _ =>
    let left ← randomChainB l.env (params l).height E0
    let (bottom, right) ← gridLoop l (left.E.zip left.P) (bottomE.zip bottomP)
    let EA ← lastA l bottom
    let EB ← lastB l right
    match left.E.getLast? with
    | none => M.ub
    | some E2 =>
      let E3 := EB
      let r2 ← randomHide l (params l).hide
      let r3 ← randomHide l (params l).hide
      let v : Inst l := ⟨r2, r3, E2, E3, left, ⟨bottom.map Prod.fst ++ [EA], bottom.map Prod.snd⟩,
        ⟨right.map Prod.fst ++ [EB], right.map Prod.snd⟩⟩
      pure (v, ⟨hashHiding l H r2 (encJ l E2), hashHiding l H r3 (encJ l E3)⟩)

/-- `Pack_Response` (`poik.c:1172-1198`) -/
def packResponse (which : Int) (v : Inst l) (c : Comm) : M l.F Resp :=
  if which = -1 then do
    let xs ← packChainB l.env v.left.E v.left.P
    pure (.left v.r2 c.h3 (xs.map (encode l)))
  else if which = 0 then do
    let a ← M.lift (packCurve l.env v.E2)
    let xs ← packChainA l.env v.bottom.E v.bottom.P
    pure (.bottom v.r2 v.r3 (encode l a) (xs.map (encode l)))
  else if which = 1 then do
    let xs ← packChainB l.env v.right.E v.right.P
    pure (.right c.h2 v.r3 (xs.map (encode l)))
  else M.ub

/-- `Generate` (`poik.c:1389-1404`): `none` if it returns false -/
def generate (E0 : PFp2) : M l.F (Option Secret) := do
  if (← checkedCurve l mem E0) = false then pure none else
  let c ← randomChainA l.env (params l).width ⟨decode l E0, 1⟩
  pure (some ⟨c.E.map fun E => encode l (fp2div E.A E.C), c.P.map fun P => encode l (fp2div P.X P.Z)⟩)

/-- The first loop of `Prove` (`poik.c:1433-1437`), `n` repetitions left -/
def instances (sec : Secret) : ℕ → M l.F (List (Inst l × Comm))
  | 0 => pure []
  | n + 1 => do
    let v ← instanceM l H sec
    let vs ← instances sec n
    pure (v :: vs)

/-- The second loop of `Prove` (`poik.c:1452-1456`) -/
def packAll : List Int → List (Inst l × Comm) → M l.F (List Resp)
  | ch :: chs, v :: vs => do
    let r ← packResponse l ch v.1 v.2
    let rs ← packAll chs vs
    pure (r :: rs)
  | _, _ => pure []

/-- `Prove` (`poik.c:1406-1461`). Failure of `malloc` (`poik.c:1420-1421`) aborts and is not modelled. -/
def prove (fuel : ℕ) (sec : Secret) : M l.F Proof := do
  match sec.E.head?, sec.E.getLast? with
  | some a0, some a1 =>
    let E0 : Crv l.F := ⟨decode l a0, 1⟩
    let E1 : Crv l.F := ⟨decode l a1, 1⟩
    let vs ← instances l H sec (params l).reps
    let chall ← challengeM l H mem fuel (encJ l E0) (encJ l E1) (vs.map Prod.snd)
    let e0 ← M.lift (packCurve l.env E0)
    let e1 ← M.lift (packCurve l.env E1)
    let resp ← packAll l chall vs
    pure ⟨encode l e0, encode l e1, resp⟩
  | _, _ => M.ub

/-- `struct response` in memory whose active member is `r`; the rest of the union is whatever was there (`old`). -/
def inMemory (old : CResp) : Resp → CResp
  | .left r2 h3 chain => { old with tag := -1, leftR2 := r2, leftH3 := h3, leftChain := chain }
  | .bottom r2 r3 E2 chain => { old with tag := 0, bottomR2 := r2, bottomR3 := r3, bottomE2 := E2, bottomChain := chain }
  | .right h2 r3 chain => { old with tag := 1, rightH2 := h2, rightR3 := r3, rightChain := chain }

end Secuer.Protocol
