import Verif.Arm.Sym

/-!
# Checking an ARM function
-/

namespace Secuer.Arm

open Secuer.X64 (Tab Poly SVal Lay Sig initMem)

/-- The memory areas of a function: the stack below its stack pointer and its arguments -/
def lay (S : Sig) : Lay where
  rsz := S.stack :: (S.ins ++ [S.out]).map (8 * ·)
  wsz := S.stack :: ((S.ins.mapIdx fun i n => if i ∈ S.io then 8 * n else 0) ++ [8 * S.out])
  al := S.al.map fun t => (t.1 + 1, S.ins.length + 1, t.2)

/-- For every assumption `0 ≤ P ≤ u` the equation of `P` with a variable -/
def hypEqs : ℕ → List (Poly × ℕ) → List Poly
  | _, [] => []
  | x, (P, _) :: ts => Poly.sub P (Poly.var x) :: hypEqs (x + 1) ts

/-- The bounds of the words of the inputs, of five registers and of the assumptions -/
def allBounds (bounds : List ℕ) (hyps : List (Poly × ℕ)) : List ℕ :=
  bounds ++ ([2 ^ 64 - 1, 2 ^ 64 - 1, 2 ^ 64 - 1, 2 ^ 64 - 1, 2 ^ 64 - 1] ++ hyps.map (·.2))

/-- The state at the call.  The variables 1 to 7 are the values of `x19` to `x25`, then there are the words of the inputs, with
the given bounds, the values of `x26` to `x30`, and a variable for every assumption given. -/
def init (S : Sig) (bounds : List ℕ) (hyps : List (Poly × ℕ)) : Sym where
  core :=
    { regs :=
        [.ptr 1 0, .ptr 2 0, if 2 ≤ S.ins.length then .ptr 3 0 else .any, .any, .any, .any, .any, .any, .any, .any, .any, .any,
         .any, .any, .any, .any, .any, .any, .any, .poly (Poly.var 1), .poly (Poly.var 2), .poly (Poly.var 3),
         .poly (Poly.var 4), .poly (Poly.var 5), .poly (Poly.var 6), .poly (Poly.var 7), .poly (Poly.var (8 + bounds.length)),
         .poly (Poly.var (9 + bounds.length)), .poly (Poly.var (10 + bounds.length)), .poly (Poly.var (11 + bounds.length)),
         .poly (Poly.var (12 + bounds.length)), .ptr 0 S.stack]
      cf := none
      of := none
      mem := initMem 1 S.ins 8
      next := 8 + (allBounds bounds hyps).length
      ubs := (allBounds bounds hyps).reverse ++
        [2 ^ 64 - 1, 2 ^ 64 - 1, 2 ^ 64 - 1, 2 ^ 64 - 1, 2 ^ 64 - 1, 2 ^ 64 - 1, 2 ^ 64 - 1, 1]
      eqs := (hypEqs (13 + bounds.length) hyps).reverse }
  prods := []

/-- Does the state have variable `v` in register `r`? -/
def Sym.has (σ : Sym) (r : Reg) (v : ℕ) : Bool := σ.reg r == .poly (Poly.var v)

/-- The run of the function from its initial state succeeds, returns, restores the registers and makes the claim true -/
def check (tabs : Tab → List ℕ) (S : Sig) (prog : List Instr) (hints : List (ℕ × List Hint)) (bounds : List ℕ)
    (hyps : List (Poly × ℕ)) (claim : X64.Sym → Bool) : Bool :=
  match symRun tabs (lay S) (weave 0 prog hints) (init S bounds hyps) with
  | some σ =>
    σ.has .x19 1 && σ.has .x20 2 && σ.has .x21 3 && σ.has .x22 4 && σ.has .x23 5 && σ.has .x24 6 && σ.has .x25 7 &&
    σ.has .x26 (8 + bounds.length) && σ.has .x27 (9 + bounds.length) && σ.has .x28 (10 + bounds.length) &&
    σ.has .x29 (11 + bounds.length) && σ.has .x30 (12 + bounds.length) && σ.reg .sp == .ptr 0 S.stack && claim σ.core
  | none => false

end Secuer.Arm
