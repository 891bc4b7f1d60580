import Verif.WCurve.Model
import Verif.Protocol.Model

/-!
# Model of the protocol layer on machine words

The functions of `Verif.Protocol.Model` once more, on the arrays of 64-bit words that the code computes with (portable
backend), with `fp2_encode`, `fp2_decode` from `Verif.Word.Model` and the curve functions from `Verif.WCurve.Model`. Types of
byte strings (packed elements, responses, proofs, commitments) are shared. What is simplified there (hash function as a
parameter, single-threaded loops, arrays as lists, no failure of `malloc`) is simplified here in the same way.
-/

namespace Secuer.WProtocol

open Secuer.Word Secuer.Field Secuer.Text Secuer.WCurve
open Secuer.Curve (Pt Crv Out M Tape Chain)
open Secuer.Protocol (Hash Comm Secret params flat hashHiding challengeInput int8)

/-- Contents of memory that the code reads or overwrites without having initialised it. -/
structure Mem where
  /-- `cur2.T`, `cur3.T` in `Check_Curve` (`poik.c:785`) -/
  pts : ℕ → Pt F2 × Pt F2
  /-- the array `challenge` (`poik.c:1442, 1497`) -/
  challs : List Int
  /-- output variables of `fp2_decode` before the call; what is written does not depend on it
  (`Secuer.WProtocol.decode_indep`) -/
  dec : F2
  /-- `scalar` in `Pack_Chain_A` (`poik.c:954`) before `decode_to_digits`; what is written does not depend on it
  (`Secuer.WProtocol.scalarOf_indep`) -/
  scalar : List Digit

/-- The arrays have the sizes they are declared with. -/
structure Mem.WF (l : Level) (mem : Mem) : Prop where
  dec0 : mem.dec.c0.length = (tables l).n
  dec1 : mem.dec.c1.length = (tables l).n
  scalar : mem.scalar.length = nwordsOrder l

variable (l : Level) [Arith] (H : Hash) (mem : Mem)

local notation "T" => tables l

/-! ### Packed field elements -/

/-- `fp2_decode` (`fpx.c:85-91`) -/
def decode (x : PFp2) : F2 := fp2decode T mem.dec (flat x)

/-- `fp2_encode` (`fpx.c:74-83`); the two halves of the bytes written are `real` and `imag` (`poik.h:49-55`) -/
def encode (x : F2) : PFp2 := ⟨(fp2encode T x).take (params l).fpBytes, (fp2encode T x).drop (params l).fpBytes⟩

variable [FpEq]

omit [FpEq] in
/-- The curve that `unpack_curve` writes (`poik.c:948`) -/
def unpackCurve (x : PFp2) : Crv F2 := ⟨decode l mem x, fp2one T⟩

/-- `unpack_curve(a, E, true)` (`poik.c:948`) -/
def checkedCurve (x : PFp2) : M Draw Bool := checkCurve l mem.pts (unpackCurve l mem x)

/-- `enc_j` (`poik.c:1086-1091`) -/
def encJ (E : Crv F2) : PFp2 := encode l (jInv l E.A E.C)

/-- `Challenge` (`poik.c:1154-1169`), observed for `fuel` iterations -/
def challengeM (fuel : ℕ) (j0 j1 : PFp2) (hs : List Comm) : M Draw (List Int) :=
  match Challenge.challenge (params l).reps (H.block (challengeInput j0 j1 hs)) fuel mem.challs with
  | .finished ts _ => pure ts
  | .running => M.starved
  | .oob => M.ub

/-! ### The verifier -/

/-- `Unpack_Response` (`poik.c:1200-1239`) -/
def unpackResponse (E0 E1 : PFp2) (r : CResp) : M Draw (Option (Int × Comm)) := do
  let which := int8 r.tag
  if which = -1 then
    match ← unpackChainB l mem.pts (decode l mem E0) (r.leftChain.map (decode l mem)) with
    | none => pure none
    | some E2 =>
      let j2 := encJ l E2
      pure (some (which, ⟨hashHiding l H r.leftR2 j2, r.leftH3⟩))
  else if which = 0 then
    if (← checkedCurve l mem r.bottomE2) = false then pure none else
    match ← unpackChainA l mem.pts (decode l mem r.bottomE2) (r.bottomChain.map (decode l mem)) with
    | none => pure none
    | some E3 =>
      let j2 := encJ l (unpackCurve l mem r.bottomE2)
      let j3 := encJ l E3
      pure (some (which, ⟨hashHiding l H r.bottomR2 j2, hashHiding l H r.bottomR3 j3⟩))
  else if which = 1 then
    match ← unpackChainB l mem.pts (decode l mem E1) (r.rightChain.map (decode l mem)) with
    | none => pure none
    | some E3 =>
      let j3 := encJ l E3
      pure (some (which, ⟨r.rightH2, hashHiding l H r.rightR3 j3⟩))
  else pure none

/-- The loop over the responses in `Verify` (`poik.c:1490-1492`) -/
def unpackAll (E0 E1 : PFp2) : List CResp → M Draw (Option (List (Int × Comm)))
  | [] => pure (some [])
  | r :: rs => do
    match ← unpackResponse l H mem E0 E1 r with
    | none => pure none
    | some o =>
      match ← unpackAll E0 E1 rs with
      | none => pure none
      | some os => pure (some (o :: os))

/-- `Verify` (`poik.c:1464-1500`) -/
def verify (fuel : ℕ) (prf : CProof) : M Draw Bool := do
  if (← checkedCurve l mem prf.E0) = false then pure false else
  if (← checkedCurve l mem prf.E1) = false then pure false else
  let j0 := encJ l (unpackCurve l mem prf.E0)
  let j1 := encJ l (unpackCurve l mem prf.E1)
  match ← unpackAll l H mem prf.E0 prf.E1 prf.resp with
  | none => pure false
  | some os =>
    let challenge ← challengeM l H mem fuel j0 j1 (os.map Prod.snd)
    pure (decide (challenge = os.map Prod.fst))

/-! ### The prover -/

/-- `struct instance` (`poik.c:28-35`) -/
structure Inst where
  r2 : Bytes
  r3 : Bytes
  E2 : Crv F2
  E3 : Crv F2
  left : Chain F2
  bottom : Chain F2
  right : Chain F2

/-- `randombytes_strict(r, n)` for a hiding string -/
def randomHide (n : ℕ) : M Draw Bytes := fun t =>
  match t.hide with
  | [] => .starved
  | r :: rs => if r.length = n then .ok (r, { t with hide := rs }) else .starved

/-- The inner loop of `Instance` over the columns (`poik.c:1115-1129`) -/
def gridRow : List (Crv F2 × Pt F2) → Crv F2 → Pt F2 → M Draw (List (Crv F2 × Pt F2) × Crv F2 × Pt F2)
  | [], El, Kl => pure ([], El, Kl)
  | (Et, Kt) :: rest, El, Kl => do
    match ← M.lift (isogenyA l Et Kt (some Kl)) with
    | some (Er, some Kr, _) =>
      match ← isogenyB l false El Kl (some Kt) with
      | some (Eb, some Kb, _) =>
        let (rest, El, Kl) ← gridRow rest Er Kr
        pure ((Eb, Kb) :: rest, El, Kl)
      | _ => M.ub
    | _ => M.ub

/-- The outer loop of `Instance` over the rows (`poik.c:1112-1132`) -/
def gridLoop : List (Crv F2 × Pt F2) → List (Crv F2 × Pt F2) → M Draw (List (Crv F2 × Pt F2) × List (Crv F2 × Pt F2))
  | [], bottom => pure (bottom, [])
  | (El, Kl) :: rows, bottom => do
    let (bottom, Er, Kr) ← gridRow l bottom El Kl
    let (bottom, right) ← gridLoop rows bottom
    pure (bottom, (Er, Kr) :: right)

/-- The last `Isogeny_A` of `Instance` (`poik.c:1134`) -/
def lastA (bottom : List (Crv F2 × Pt F2)) : M Draw (Crv F2) :=
  match bottom.getLast? with
  | none => M.ub
  | some (E, P) => do
    match ← M.lift (isogenyA l E P none) with
    | some (E', _, _) => pure E'
    | none => M.ub

/-- The last `Isogeny_B` of `Instance` (`poik.c:1135`) -/
def lastB (right : List (Crv F2 × Pt F2)) : M Draw (Crv F2) :=
  match right.getLast? with
  | none => M.ub
  | some (E, P) => do
    match ← isogenyB l false E P none with
    | some (E', _, _) => pure E'
    | none => M.ub

/-- `Instance` (`poik.c:1102-1152`) -/
def instanceM (sec : Secret) : M Draw (Inst × Comm) := do
  let bottomE := sec.E.map (unpackCurve l mem)
  let bottomP := sec.P.map fun x => unpackPoint l (decode l mem x)
  match bottomE with
  | [] => M.ub
  | E0 :: _ =>
    let left ← randomChainB l (params l).height E0
    let (bottom, right) ← gridLoop l (left.E.zip left.P) (bottomE.zip bottomP)
    let EA ← lastA l bottom
    let EB ← lastB l right
    match left.E.getLast? with
    | none => M.ub
    | some E2 =>
      let E3 := EB
      let r2 ← randomHide (params l).hide
      let r3 ← randomHide (params l).hide
      let v : Inst := ⟨r2, r3, E2, E3, left, ⟨bottom.map Prod.fst ++ [EA], bottom.map Prod.snd⟩,
        ⟨right.map Prod.fst ++ [EB], right.map Prod.snd⟩⟩
      pure (v, ⟨hashHiding l H r2 (encJ l E2), hashHiding l H r3 (encJ l E3)⟩)

/-- `Pack_Response` (`poik.c:1172-1198`) -/
def packResponse (which : Int) (v : Inst) (c : Comm) : M Draw Resp :=
  if which = -1 then do
    let xs ← packChainB l v.left.E v.left.P
    pure (.left v.r2 c.h3 (xs.map (encode l)))
  else if which = 0 then do
    let a ← M.lift (packCurve l v.E2)
    let xs ← packChainA l mem.scalar v.bottom.E v.bottom.P
    pure (.bottom v.r2 v.r3 (encode l a) (xs.map (encode l)))
  else if which = 1 then do
    let xs ← packChainB l v.right.E v.right.P
    pure (.right c.h2 v.r3 (xs.map (encode l)))
  else M.ub

/-- `Generate` (`poik.c:1389-1404`); `fp2div_enc` (`poik.c:123-128`) is `fp2div` followed by `fp2_encode` -/
def generate (E0 : PFp2) : M Draw (Option Secret) := do
  if (← checkedCurve l mem E0) = false then pure none else
  let c ← randomChainA l (params l).width (unpackCurve l mem E0)
  pure (some ⟨c.E.map fun E => encode l (div l E.A E.C), c.P.map fun P => encode l (div l P.X P.Z)⟩)

/-- The first loop of `Prove` (`poik.c:1433-1437`), `n` repetitions left -/
def instances (sec : Secret) : ℕ → M Draw (List (Inst × Comm))
  | 0 => pure []
  | n + 1 => do
    let v ← instanceM l H mem sec
    let vs ← instances sec n
    pure (v :: vs)

/-- The second loop of `Prove` (`poik.c:1452-1456`) -/
def packAll : List Int → List (Inst × Comm) → M Draw (List Resp)
  | ch :: chs, v :: vs => do
    let r ← packResponse l mem ch v.1 v.2
    let rs ← packAll chs vs
    pure (r :: rs)
  | _, _ => pure []

/-- `Prove` (`poik.c:1406-1461`) -/
def prove (fuel : ℕ) (sec : Secret) : M Draw Proof := do
  match sec.E.head?, sec.E.getLast? with
  | some a0, some a1 =>
    let E0 := unpackCurve l mem a0
    let E1 := unpackCurve l mem a1
    let vs ← instances l H mem sec (params l).reps
    let chall ← challengeM l H mem fuel (encJ l E0) (encJ l E1) (vs.map Prod.snd)
    let e0 ← M.lift (packCurve l E0)
    let e1 ← M.lift (packCurve l E1)
    let resp ← packAll l mem chall vs
    pure ⟨encode l e0, encode l e1, resp⟩
  | _, _ => M.ub

end Secuer.WProtocol
