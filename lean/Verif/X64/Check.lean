import Verif.X64.Sym

/-!
# Checking a function

Hints are kept apart from the programs: `weave` puts them in.
-/

namespace Secuer.X64

/-- A hint for the checker -/
inductive Hint
  /-- before the instruction, name the given words -/
  | name (exact : Bool) (locs : List Opd) (use : List (ℕ × ℕ))
  /-- before the instruction, multiply an equation by the number with the given variables as its words -/
  | times (i : ℕ) (vs : List ℕ)
  /-- the instruction adds to the word above the given ones without reaching 2^63 -/
  | top (lows : List Opd)

/-- Put the hints into the program, each at the instruction with its number -/
def weave : ℕ → List Instr → List (ℕ × Hint) → List Item
  | _, [], _ => []
  | k, i :: is, [] => .ins i :: weave (k + 1) is []
  | k, i :: is, (j, h) :: hs =>
    bif k == j then
      match h with
      | .name e l u => .name e l u :: .ins i :: weave (k + 1) is hs
      | .times j vs => .times j vs :: .ins i :: weave (k + 1) is hs
      | .top l => .top l i :: weave (k + 1) is hs
    else .ins i :: weave (k + 1) is ((j, h) :: hs)

/-- The signature of a function -/
structure Sig where
  /-- sizes of its inputs in words -/
  ins : List ℕ
  /-- size of its output in words -/
  out : ℕ
  /-- bytes of stack it may use -/
  stack : ℕ
  /-- where its output may begin in its inputs: number of the input, offset in bytes -/
  al : List (ℕ × ℕ)
  /-- the inputs it may also write to -/
  io : List ℕ

def Sig.lay (S : Sig) : Lay where
  rsz := (S.stack + 8) :: (S.ins ++ [S.out]).map (8 * ·)
  wsz := S.stack :: ((S.ins.mapIdx fun i n => if i ∈ S.io then 8 * n else 0) ++ [8 * S.out])
  al := S.al.map fun t => (t.1 + 1, S.ins.length + 1, t.2)

/-- The words of area `b`, variables from `v` -/
def initWords (b : ℕ) : ℕ → ℕ → ℕ → List ((ℕ × ℕ) × SVal)
  | 0, _, _ => []
  | k + 1, o, v => ((b, o), .poly (Poly.var v)) :: initWords b k (o + 8) (v + 1)

def initMem : ℕ → List ℕ → ℕ → List ((ℕ × ℕ) × SVal)
  | _, [], _ => []
  | b, n :: ns, v => initWords b n 0 v ++ initMem (b + 1) ns (v + n)

/-- The number with the variables `v`, …, `v + n - 1` as its words -/
def num (v n : ℕ) : Poly := nums (List.range' v n)

/-- For every inequality `num v n ≤ k` the equation with a variable for the difference -/
def slackEqs : ℕ → List (ℕ × ℕ × ℕ) → List Poly
  | _, [] => []
  | x, (v, n, k) :: ts => Poly.sub (Poly.add (num v n) (Poly.var x)) (Poly.const k) :: slackEqs (x + 1) ts

/-- The state at the call.  The variables 1 to 6 are the values of the registers the function has to preserve, 7 is the return
address, then there are the words of the inputs, with the given bounds, and a variable for every inequality given. -/
def Sig.init (S : Sig) (bounds : List ℕ) (slacks : List (ℕ × ℕ × ℕ)) : Sym where
  regs :=
    [.any, .poly (Poly.var 1), .any, if 2 ≤ S.ins.length then .ptr 3 0 else .any, .ptr 2 0, .ptr 1 0, .poly (Poly.var 2),
     .ptr 0 S.stack, .any, .any, .any, .any, .poly (Poly.var 3), .poly (Poly.var 4), .poly (Poly.var 5), .poly (Poly.var 6)]
  cf := none
  of := none
  mem := ((0, S.stack), .poly (Poly.var 7)) :: initMem 1 S.ins 8
  next := 8 + (bounds ++ slacks.map (·.2.2)).length
  ubs := (bounds ++ slacks.map (·.2.2)).reverse ++
    [2 ^ 64 - 1, 2 ^ 64 - 1, 2 ^ 64 - 1, 2 ^ 64 - 1, 2 ^ 64 - 1, 2 ^ 64 - 1, 2 ^ 64 - 1, 1]
  eqs := (slackEqs (8 + bounds.length) slacks).reverse

/-- `t` is a combination of the equations found -/
def Sym.zero (σ : Sym) (ws : List (ℕ × ℕ)) (t : Poly) : Bool := Poly.sub t (σ.comb ws) == []

/-- The polynomials of `n` words of area `b` from offset `o` -/
def Sym.words (σ : Sym) (b : ℕ) : ℕ → ℕ → Option (List Poly)
  | _, 0 => some []
  | o, n + 1 =>
    match lookup σ.mem b o, σ.words b (o + 8) n with
    | .poly p, some ps => some (p :: ps)
    | _, _ => none

/-- The number in the output -/
def Sym.outNum (σ : Sym) (S : Sig) : Option Poly :=
  match σ.words (S.ins.length + 1) 0 S.out with
  | some ps => some (Poly.horner ps)
  | none => none

/-- `t` is a multiple of `m` by the equations found -/
def Sym.cong (σ : Sym) (ws : List (ℕ × ℕ)) (m : ℤ) (t : Poly) : Bool := Poly.allMod m (Poly.sub t (σ.comb ws))

/-- The values of the variables are at most `u` -/
def Sym.below (σ : Sym) (u : ℕ) (vs : List ℕ) : Bool :=
  vs.all fun v => Nat.blt v 65536 && match Poly.ubVar σ.next σ.ubs v with
    | some w => Nat.ble w u
    | none => false

/-- The run of the function from its initial state succeeds, returns, restores the registers and makes the claim true -/
def check (tabs : Tab → List ℕ) (S : Sig) (prog : List Instr) (hints : List (ℕ × Hint)) (bounds : List ℕ)
    (slacks : List (ℕ × ℕ × ℕ)) (claim : Sym → Bool) : Bool :=
  match symRun tabs S.lay (weave 0 prog hints) (S.init bounds slacks) with
  | some (σ, v) =>
    v == .poly (Poly.var 7) && σ.reg .rbx == .poly (Poly.var 1) && σ.reg .rbp == .poly (Poly.var 2) &&
    σ.reg .r12 == .poly (Poly.var 3) && σ.reg .r13 == .poly (Poly.var 4) && σ.reg .r14 == .poly (Poly.var 5) &&
    σ.reg .r15 == .poly (Poly.var 6) && σ.reg .rsp == .ptr 0 (S.stack + 8) && claim σ
  | none => false

end Secuer.X64
