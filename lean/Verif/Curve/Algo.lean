import Verif.Curve.Model

/-!
# Model of the curve-level algorithms of `poik.c`

Isogeny evaluation with a strategy, random points, the curve check and isogeny chains
(`poik.c:276-356, 554-928`).

* Outcomes. Every function that can fail to return has outcome type `Out`: `abort` is a call of
  `fail(...)` (`poik.c:58`), `ub` an access outside an array or a read of something never written, and
  `starved` means that the (finite) supply of random values of the run was used up; theorems about all
  supplies are theorems about all executions.
* Randomness. The random bytes consumed by a run are given up front as a `Tape`, split by purpose: field
  elements drawn by `fprand` pairs, hiding strings, raw scalars.
* `assert`s are not modelled: the Makefile compiles with `-DNDEBUG`.
-/

namespace Secuer.Curve

/-- How a call ends. -/
inductive Out (α : Type) where
  | ok (a : α)
  | abort
  | ub
  | starved
deriving DecidableEq, Repr

/-- The random values consumed by a run, by purpose. -/
structure Tape (F : Type) where
  /-- candidates for x in `random_point` (`poik.c:280-281`) -/
  pts : List F
  /-- hiding strings (`poik.c:1148-1149`) -/
  hide : List (List UInt8)
  /-- values of `random_mod_order_A` as integers (`poik.c:957`, `sidh.c:26-35`) -/
  scal : List ℕ

/-- Computations that draw random values. -/
def M (F α : Type) : Type := Tape F → Out (α × Tape F)

namespace M

variable {F α β : Type}

def pure (a : α) : M F α := fun t => .ok (a, t)

def bind (m : M F α) (k : α → M F β) : M F β := fun t =>
  match m t with
  | .ok (a, t') => k a t'
  | .abort => .abort
  | .ub => .ub
  | .starved => .starved

instance : Monad (M F) where
  pure := pure
  bind := bind

def abort : M F α := fun _ => .abort
def ub : M F α := fun _ => .ub
def starved : M F α := fun _ => .starved

def lift : Out α → M F α
  | .ok a => pure a
  | .abort => abort
  | .ub => ub
  | .starved => starved

end M

variable {F : Type} [Field F] [DecidableEq F] (env : Env F)

/-! ### Isogenies with strategies -/

/-- The operations a strategy loop is made of; `Cv` are the curve constants, `Co` the coefficients of
one isogeny step. -/
structure StratOps (F Cv Co : Type) where
  /-- the multiplication in the inner loop: `xDBLe(R, R, .., 2*m)` (`poik.c:619`) resp.
  `xTPLe(R, R, .., m)` (`poik.c:683`) -/
  mul : Cv → Pt F → ℕ → Pt F
  /-- `get_4_isog` resp. `get_3_isog` -/
  get : Pt F → Cv × Co
  /-- `eval_4_isog` resp. `eval_3_isog` -/
  eval : Co → Pt F → Pt F

/-- The variables of the strategy loop (`poik.c:606-611`, `poik.c:670-675`). `stack` are `pts` and
`pts_index` up to `npts`, top first; `strat` is what is left of the strategy table from `ii` on. -/
structure StratState (F Cv : Type) where
  cv : Cv
  R : Pt F
  Q : Option (Pt F)
  stack : List (Pt F × ℕ)
  index : ℕ
  strat : List ℕ

/-- The inner loop `while (index < MAX - row)` (`poik.c:614-621`, `poik.c:678-685`). `room` is the number
of free entries in `pts`; `none` is an access outside `pts` or outside the strategy table. -/
def stratInner {F Cv Co : Type} (ops : StratOps F Cv Co) (target : ℕ) :
    (room : ℕ) → StratState F Cv → Option (StratState F Cv)
  | 0, s => if s.index < target then none else some s
  | room + 1, s =>
    if s.index < target then
      match s.strat with
      | [] => none
      | m :: ms =>
        stratInner ops target room
          { s with stack := (s.R, s.index) :: s.stack, R := ops.mul s.cv s.R m, index := s.index + m,
                   strat := ms }
    else some s

/-- The outer loop (`poik.c:613-633`, `poik.c:677-698`); the argument `n` is `MAX - row`, the number of
rows still to do. `none` is out of bounds, as `pts[npts-1]` is for `npts == 0`. -/
def stratRows {F Cv Co : Type} (ops : StratOps F Cv Co) (maxPts : ℕ) :
    (n : ℕ) → StratState F Cv → Option (StratState F Cv)
  | 0, s => some s
  | n + 1, s =>
    match stratInner ops (n + 1) (maxPts - s.stack.length) s with
    | none => none
    | some s =>
      let (cv, co) := ops.get s.R
      match s.stack.map (fun e => (ops.eval co e.1, e.2)) with
      | [] => none
      | (R, index) :: stack =>
        stratRows ops maxPts n
          { s with cv := cv, Q := s.Q.map (ops.eval co), R := R, index := index, stack := stack }

/-- The operations used by `Isogeny_A`; `Cv` is `(A24plus, C24)`. -/
def opsA : StratOps F (F × F) (F × F × F) where
  mul cv R m := xDBLe R cv.1 cv.2 (2 * m)
  get R := let g := get4isog R; ((g.1, g.2.1), g.2.2)
  eval co P := eval4isog P co.1 co.2.1 co.2.2

/-- The operations used by `Isogeny_B`; `Cv` is `(A24minus, A24plus)`. -/
def opsB : StratOps F (F × F) (F × F) where
  mul cv R m := xTPLe R cv.1 cv.2 m
  get R := let g := get3isog R; ((g.1, g.2.1), g.2.2)
  eval co P := eval3isog P co.1 co.2

/-- `Isogeny_A` (`poik.c:554-646`): `ok none` if it returns false, else codomain, image of `Q` and the
point written to `back`. -/
def isogenyA (E : Crv F) (K : Pt F) (Q : Option (Pt F)) :
    Out (Option (Crv F × Option (Pt F) × Pt F)) :=
  let (A24plus, _, C24) := acToAac24 E
  let T := xDBLe K A24plus C24 (env.e2 - 1)
  if allModelsUB env E then .ub else
  let (other, iso) := changeModel env E
  let iso := if T.X = 0 then other else iso
  let (A24plus, _, C24) := acToAac24 ⟨iso.B, 1⟩
  let R := evalIso iso K
  let Q := Q.map (evalIso iso)
  let T := xDBLe R A24plus C24 (env.e2 - 1)
  let O := xDBL T A24plus C24
  if T.Z = 0 ∨ O.Z ≠ 0 then .ok none else
  let (A24plus, C24, R, Q) :=
    if env.e2 % 2 = 1 then
      let S := xDBLe R A24plus C24 (env.e2 - 1)
      let g := get2isog S
      (g.1, g.2, eval2isog R S, Q.map (fun q => eval2isog q S))
    else (A24plus, C24, R, Q)
  match stratRows opsA env.ptsA (env.maxA - 1) ⟨(A24plus, C24), R, Q, [], 0, env.stratA⟩ with
  | none => .ub
  | some s =>
    let (cv, co) := opsA.get s.R
    .ok (some (ac24ToAc cv.1 cv.2, s.Q.map (opsA.eval co), ⟨0, 1⟩))

/-! ### Random points -/

/-- The right-hand side of the curve equation as computed in `random_point` (`poik.c:283-287`). -/
def rhsOf (A x : F) : F := ((A + x) * x + 1) * x

/-- The loop of `random_point` (`poik.c:279-292`) over the supply of candidates; `fp2sqrt` returns true
iff the root it computed is a root. -/
def randomPointAux (A : F) : List F → Option (F × List F)
  | [] => none
  | x :: xs =>
    let rhs := rhsOf A x
    if env.sqrt rhs * env.sqrt rhs = rhs then some (x, xs) else randomPointAux A xs

/-- `random_point` (`poik.c:276-296`) -/
def randomPoint (A : F) : M F (Pt F) := fun t =>
  match randomPointAux env A t.pts with
  | none => .starved
  | some (x, xs) => .ok (⟨x, 1⟩, { t with pts := xs })

/-- First loop of `random_point_with_order` (`poik.c:312-325`); `n` iterations are left. -/
def randomPointCof (A : F) (l : ℕ) (cof : Pt F → Pt F) : ℕ → M F (Pt F)
  | 0 => M.abort
  | n + 1 => do
    let P ← randomPoint env A
    let P := cof P
    if P.Z = 0 then randomPointCof A l cof n else pure P

/-- Second loop of `random_point_with_order` (`poik.c:330-343`); `n` iterations are left. Returns
`(e, Q)`. -/
def orderLoop (mul : Pt F → Pt F) : (n : ℕ) → (e : ℕ) → Pt F → Out (ℕ × Pt F)
  | 0, _, _ => .abort
  | n + 1, e, Q =>
    let T := mul Q
    if T.Z = 0 then .ok (e, Q) else orderLoop mul n (e + 1) T

/-- `random_point_with_order(A, l, P, e, Q)` (`poik.c:299-343`), `l` 2 or 3; returns `(P, e, Q)`. The
loops run at most 9998 times, as `count` is incremented before it is compared with 9999. -/
def randomPointWithOrder (A : F) (l : ℕ) : M F (Pt F × ℕ × Pt F) := do
  let C24 : F := 1
  let C24 := C24 + C24
  let A24plus := A + C24
  let A24minus := A - C24
  let C24 := C24 + C24
  let cof := fun P => if l = 2 then xTPLe P A24minus A24plus env.e3 else xDBLe P A24plus C24 env.e2
  let mul := fun Q => if l = 2 then xDBL Q A24plus C24 else xTPL Q A24minus A24plus
  let P ← randomPointCof env A l cof 9998
  let r ← M.lift (orderLoop mul 9998 1 P)
  pure (P, r.1, r.2)

/-- `Random_Point_AB` (`poik.c:728-753`): the loop with `n` iterations left. -/
def randomPointABLoop (A : F) (l emax : ℕ) (avoid : Option (Pt F)) : ℕ → M F (Pt F)
  | 0 => M.abort
  | n + 1 => do
    let (P, e, Q) ← randomPointWithOrder env A l
    if e < emax then randomPointABLoop A l emax avoid n
    else if avoid.any (fun a => pointEqual Q a) then randomPointABLoop A l emax avoid n
    else pure P

/-- `Random_Point_AB` (`poik.c:728-753`) -/
def randomPointAB (E : Crv F) (l : ℕ) (avoid : Option (Pt F)) : M F (Pt F) :=
  randomPointABLoop env (fp2div E.A E.C) l (if l = 2 then env.e2 else env.e3) avoid 9999

/-- The loop in `Isogeny_B` looking for a point of order 3 outside the last kernel
(`poik.c:707-712`). The code does not bound it; every iteration draws at least one random value, so a
run with `n` values left makes at most `n` iterations (`fuel`). -/
def backLoop (A : F) (R : Pt F) : (fuel : ℕ) → M F (Pt F)
  | 0 => M.starved
  | n + 1 => do
    let (_, _, back) ← randomPointWithOrder env A 3
    if pointEqual back R then backLoop A R n else pure back

/-- `Isogeny_B` (`poik.c:651-723`): `none` if it returns false; `wantBack` says whether `back` is not
`NULL`. -/
def isogenyB (wantBack : Bool) (E : Crv F) (K : Pt F) (Q : Option (Pt F)) :
    M F (Option (Crv F × Option (Pt F) × Option (Pt F))) := do
  let (A24plus, A24minus, _) := acToAac24 E
  let T := xTPLe K A24minus A24plus (env.e3 - 1)
  let O := xTPL T A24minus A24plus
  if T.Z = 0 ∨ O.Z ≠ 0 then pure none else
  match stratRows opsB env.ptsB (env.maxB - 1) ⟨(A24minus, A24plus), K, Q, [], 0, env.stratB⟩ with
  | none => M.ub
  | some s =>
    let back ←
      if wantBack then
        let E := aa24ToAc s.cv.1 s.cv.2
        (fun t => (M.bind (backLoop env (fp2div E.A E.C) s.R (t.pts.length + 1))
          (fun b => M.pure (some b))) t : M F (Option (Pt F)))
      else pure none
    let (cv, co) := opsB.get s.R
    pure (some (aa24ToAc cv.1 cv.2, s.Q.map (opsB.eval co), back.map (opsB.eval co)))

/-! ### The curve check -/

/-- `proves_order` is modelled in `Verif.Util.Model`; here it is a parameter of the check. -/
abbrev ProvesOrder := ℕ → ℕ → Bool

/-- One of the valuation loops of `Check_Curve` (`poik.c:799-804`, `poik.c:817-822`): `n` is the number of
iterations left, `h` the counter, `T` the content of `cur.T` (initially uninitialised memory). Returns
`(h, T, Q)`. -/
def valLoop (mul : Pt F → Pt F) : (n : ℕ) → (h : ℕ) → (T Q : Pt F) → ℕ × Pt F × Pt F
  | 0, h, T, Q => (h, T, Q)
  | n + 1, h, T, Q => if Q.Z = 0 then (h, T, Q) else valLoop mul n (h + 1) Q (mul Q)

/-- The loop of `Check_Curve` (`poik.c:791-837`), `n` iterations left; `max2`, `max3` are pairs of a point
and a height; `junk n` is the content of the uninitialised `cur2.T`, `cur3.T` in that iteration. -/
def checkCurveLoop (po : ProvesOrder) (junk : ℕ → Pt F × Pt F) (A A24plus A24minus C24 : F) :
    (n : ℕ) → (max2 max3 : Pt F × ℕ) → M F Bool
  | 0, _, _ => M.abort
  | n + 1, max2, max3 => do
    let P ← randomPoint env A
    let Q := xTPLe P A24minus A24plus env.e3
    let (h2, T2, Q) := valLoop (fun Q => xDBL Q A24plus C24) env.e2 0 (junk n).1 Q
    if Q.Z ≠ 0 then pure false else
    let ord2 := if pointEqual T2 max2.1 then max2.2 else max2.2 + h2
    if po ord2 max3.2 then pure true else
    let Q := xDBLe P A24plus C24 h2
    let (h3, T3, Q) := valLoop (fun Q => xTPL Q A24minus A24plus) env.e3 0 (junk n).2 Q
    if Q.Z ≠ 0 then pure false else
    let ord3 := if pointEqual T3 max3.1 then max3.2 else max3.2 + h3
    if po ord2 ord3 then pure true else
    let max2 := if h2 > max2.2 then (T2, h2) else max2
    let max3 := if h3 > max3.2 then (T3, h3) else max3
    checkCurveLoop po junk A A24plus A24minus C24 n max2 max3

/-- `Check_Curve` (`poik.c:775-840`) -/
def checkCurve (po : ProvesOrder) (junk : ℕ → Pt F × Pt F) (E : Crv F) : M F Bool :=
  let (A24plus, A24minus, C24) := acToAac24 E
  checkCurveLoop env po junk E.A A24plus A24minus C24 9999 (⟨0, 0⟩, 0) (⟨0, 0⟩, 0)

/-! ### Chains -/

/-- `Random_Isogeny_Chain_A` (`poik.c:846-860`): the loop, `n` steps left; `avoid` is the argument
`i ? &Pback : NULL`. Returns the points `P[i]` and the curves `E[i+1]`. The return value of `Isogeny_A` is
ignored by the code; if it is false, `E[i+1]` is never written. -/
def chainALoop (E : Crv F) (avoid : Option (Pt F)) : ℕ → M F (List (Pt F) × List (Crv F))
  | 0 => pure ([], [])
  | n + 1 => do
    let P ← randomPointAB env E 2 avoid
    match ← M.lift (isogenyA env E P none) with
    | none => M.ub
    | some (E', _, _) => do
      -- `{{0}, {1}}`: the limbs of `Z` are `1`, a nonzero element but not the Montgomery one; only
      -- its being nonzero matters, we take one
      let (Ps, Es) ← chainALoop E' (some ⟨0, 1⟩) n
      pure (P :: Ps, E' :: Es)

/-- `chain_A`, `chain_B` (`poik.c:18-26`) -/
structure Chain (F : Type) where
  E : List (Crv F)
  P : List (Pt F)

/-- `Random_Isogeny_Chain_A` -/
def randomChainA (width : ℕ) (E0 : Crv F) : M F (Chain F) := do
  let (Ps, Es) ← chainALoop env E0 none width
  pure ⟨E0 :: Es, Ps⟩

/-- `Random_Isogeny_Chain_B` (`poik.c:891-899`): the loop. -/
def chainBLoop (E : Crv F) (avoid : Option (Pt F)) : ℕ → M F (List (Pt F) × List (Crv F))
  | 0 => pure ([], [])
  | n + 1 => do
    let P ← randomPointAB env E 3 avoid
    match ← isogenyB env true E P none with
    | none => M.ub
    | some (E', _, back) => do
      let (Ps, Es) ← chainBLoop E' back n
      pure (P :: Ps, E' :: Es)

/-- `Random_Isogeny_Chain_B` -/
def randomChainB (height : ℕ) (E0 : Crv F) : M F (Chain F) := do
  let (Ps, Es) ← chainBLoop env E0 none height
  pure ⟨E0 :: Es, Ps⟩

/-! ### Packing -/

/-- `canonical_model` with its undefined behaviour. -/
def canonicalModelM (E : Crv F) : Out (Iso F) :=
  if allModelsUB env E then .ub else .ok (canonicalModel env E)

/-- `pack_curve` (`poik.c:932-946`), as a field element; encoding is modelled separately. -/
def packCurve (E : Crv F) : Out F :=
  match canonicalModelM env E with
  | .ok iso => .ok iso.B
  | .abort => .abort
  | .ub => .ub
  | .starved => .starved

/-- `pack_point` (`poik.c:932-947`), as a field element. -/
def packPoint (E : Crv F) (P : Pt F) : Out F :=
  match canonicalModelM env E with
  | .ok iso => let Q := evalIso iso P; .ok (fp2div Q.X Q.Z)
  | .abort => .abort
  | .ub => .ub
  | .starved => .starved

/-- `unpack_point` (`poik.c:949`) -/
def unpackPoint (x : F) : Pt F := ⟨x, 1⟩

/-- `random_mod_order_A`, made odd, as an integer (`poik.c:954-960`, `sidh.c:26-35`); the value on the tape
is that of the random bytes before masking. The byte level is `Secuer.Scalar.oddScalar`, which computes
this function (`Secuer.Scalar.oddScalar_eq`). -/
def randomOdd : M F ℕ := fun t =>
  match t.scal with
  | [] => .starved
  | m :: ms => .ok (m % 2 ^ env.e2 ||| 1, { t with scal := ms })

/-- `Pack_Chain_A` (`poik.c:951-999`) -/
def packChainA : List (Crv F) → List (Pt F) → M F (List F)
  | E :: Es, P :: Ps => do
    let scalar ← randomOdd env
    let A := fp2div E.A E.C
    let Q := ladder P scalar A env.e2
    let x ← M.lift (packPoint env E Q)
    let xs ← packChainA Es Ps
    pure (x :: xs)
  | _, _ => pure []

/-- `Pack_Chain_B` (`poik.c:1001-1035`) -/
def packChainB : List (Crv F) → List (Pt F) → M F (List F)
  | E :: Es, P :: Ps => do
    let x ← M.lift (packPoint env E P)
    let xs ← packChainB Es Ps
    pure (x :: xs)
  | _, _ => pure []

/-- The loop of `Unpack_Chain_A` (`poik.c:1043-1056`) for `i ≥ 1`, on the list of remaining points;
returns the final curve and `back`, or `none` when `Isogeny_A` returns false. -/
def unpackChainALoop : List F → Crv F → Pt F → M F (Option (Crv F × Pt F))
  | [], E, back => pure (some (E, back))
  | x :: xs, E, back => do
    let iso ← M.lift (canonicalModelM env E)
    let back := evalIso iso back
    match ← M.lift (isogenyA env ⟨iso.B, 1⟩ (unpackPoint x) (some back)) with
    | none => pure none
    | some (E', Q, _) =>
      match Q with
      | none => M.ub
      | some back => unpackChainALoop xs E' back

/-- `Unpack_Chain_A` (`poik.c:1037-1059`): `none` if it returns false, else the curve written to `E`. The
result of the curve check is ignored by the code. -/
def unpackChainA (po : ProvesOrder) (junk : ℕ → Pt F × Pt F) (a : F) (xs : List F) :
    M F (Option (Crv F)) := do
  let E : Crv F := ⟨a, 1⟩
  let _ ← checkCurve env po junk E
  match xs with
  | [] => M.ub
  | x :: xs =>
    match ← M.lift (isogenyA env E (unpackPoint x) none) with
    | none => pure none
    | some (E, _, back) =>
      match ← unpackChainALoop env xs E back with
      | none => pure none
      | some (E, back) => if back.Z = 0 then pure none else pure (some E)

/-- The loop of `Unpack_Chain_B` (`poik.c:1067-1080`) for `i ≥ 1`. -/
def unpackChainBLoop : List F → Crv F → Pt F → M F (Option (Crv F × Pt F))
  | [], E, back => pure (some (E, back))
  | x :: xs, E, back => do
    let iso ← M.lift (canonicalModelM env E)
    let back := evalIso iso back
    match ← isogenyB env false ⟨iso.B, 1⟩ (unpackPoint x) (some back) with
    | none => pure none
    | some (E', Q, _) =>
      match Q with
      | none => M.ub
      | some back => unpackChainBLoop xs E' back

/-- `Unpack_Chain_B` (`poik.c:1061-1083`). For an empty chain the code would return the initial `back`'s
verdict; the chain is never empty (`POIK_HEIGHT > 0`). -/
def unpackChainB (po : ProvesOrder) (junk : ℕ → Pt F × Pt F) (a : F) (xs : List F) :
    M F (Option (Crv F)) := do
  let E : Crv F := ⟨a, 1⟩
  let _ ← checkCurve env po junk E
  match xs with
  | [] => pure none
  | x :: xs =>
    match ← isogenyB env true E (unpackPoint x) none with
    | none => pure none
    | some (E, _, back) =>
      match back with
      | none => M.ub
      | some back =>
        match ← unpackChainBLoop env xs E back with
        | none => pure none
        | some (E, back) => if back.Z = 0 then pure none else pure (some E)

end Secuer.Curve
