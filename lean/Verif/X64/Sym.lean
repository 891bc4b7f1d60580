import Mathlib.Data.Int.Notation
import Verif.X64.Model

/-!
# Symbolic execution of x86-64 code

A checker for the programs of `Verif/X64`.  It runs a program on words given as polynomials with integer coefficients over
variables that stand for natural numbers with known upper bounds.  `Verif/X64/Sound.lean` proves that what it finds is true of
every execution; nothing here is trusted.
-/

namespace Secuer.X64

/-! ## Polynomials -/

/-- A polynomial of degree at most two: pairs of a monomial and its coefficient.  The monomial `65536 i + j` is the product of
the variables `i` and `j`; variable 0 is the constant 1. -/
abbrev Poly := List (ℕ × ℤ)

namespace Poly

def const (c : ℤ) : Poly := if c = 0 then [] else [(0, c)]

def var (i : ℕ) : Poly := [(i, 1)]

/-- Sum of two polynomials, merging the sorted lists.  The first argument is fuel. -/
def addF : ℕ → Poly → Poly → Poly
  | 0, p, q => p ++ q
  | _ + 1, [], q => q
  | _ + 1, p, [] => p
  | f + 1, (k, c) :: p, (k', c') :: q =>
    bif Nat.blt k k' then (k, c) :: addF f p ((k', c') :: q)
    else bif Nat.blt k' k then (k', c') :: addF f ((k, c) :: p) q
    else
      let s := c + c'
      bif s == 0 then addF f p q else (k, s) :: addF f p q

def add (p q : Poly) : Poly := addF 100000 p q

def scale (c : ℤ) (p : Poly) : Poly := p.map fun t => (t.1, c * t.2)

def sub (p q : Poly) : Poly := add p (scale (-1) q)

/-- Product of two monomials, if its degree is at most two -/
def mulKey (k k' : ℕ) : Option ℕ :=
  bif k == 0 then some k'
  else bif k' == 0 then some k
  else bif Nat.blt k 65536 && Nat.blt k' 65536 then
    some (bif Nat.ble k k' then 65536 * k + k' else 65536 * k' + k)
  else none

/-- Product of a term and a polynomial -/
def mulTerm (t : ℕ × ℤ) : Poly → Option Poly
  | [] => some []
  | u :: q =>
    match mulKey t.1 u.1 with
    | none => none
    | some k =>
      match mulTerm t q with
      | none => none
      | some r => some (add [(k, t.2 * u.2)] r)

/-- Product of two polynomials -/
def mul : Poly → Poly → Option Poly
  | [], _ => some []
  | t :: p, q =>
    match mulTerm t q with
    | none => none
    | some r =>
      match mul p q with
      | none => none
      | some r' => some (add r r')

/-- `Σ 2^(64 j) p_j` -/
def horner : List Poly → Poly
  | [] => []
  | p :: ps => add p (scale (2 ^ 64) (horner ps))

/-- Leave out the terms whose coefficient is divisible by `m` -/
def dropMod (m : ℤ) (p : Poly) : Poly := p.filter fun t => t.2 % m != 0

/-- Are all coefficients divisible by `m`? -/
def allMod (m : ℤ) (p : Poly) : Bool := p.all fun t => t.2 % m == 0

/-- Upper bound of a variable; `ubs` has the bounds of the `next` variables, the last one first -/
def ubVar (next : ℕ) (ubs : List ℕ) (i : ℕ) : Option ℕ := bif Nat.blt i next then ubs[next - 1 - i]? else none

def ubKey (next : ℕ) (ubs : List ℕ) (k : ℕ) : Option ℕ :=
  match ubVar next ubs (k / 65536), ubVar next ubs (k % 65536) with
  | some x, some y => some (x * y)
  | _, _ => none

/-- Upper bound of a polynomial -/
def ub (next : ℕ) (ubs : List ℕ) : Poly → Option ℤ
  | [] => some 0
  | (k, c) :: p =>
    match ub next ubs p with
    | none => none
    | some r =>
      bif k == 0 then some (r + c)
      else bif decide (c < 0) then some r
      else
        match ubKey next ubs k with
        | none => none
        | some u => some (r + c * u)

/-- Lower bound of a polynomial -/
def lb (next : ℕ) (ubs : List ℕ) : Poly → Option ℤ
  | [] => some 0
  | (k, c) :: p =>
    match lb next ubs p with
    | none => none
    | some r =>
      bif k == 0 then some (r + c)
      else bif decide (0 < c) then some r
      else
        match ubKey next ubs k with
        | none => none
        | some u => some (r + c * u)

end Poly

/-! ## Symbolic states -/

/-- What is known of a word -/
inductive SVal
  /-- nothing -/
  | any
  /-- its value is that of the polynomial -/
  | poly (p : Poly)
  /-- it is an address: base number `b` plus `o` bytes -/
  | ptr (b o : ℕ)
  /-- its lowest bit is the value of the polynomial -/
  | low (p : Poly)
deriving DecidableEq

def Reg.idx : Reg → ℕ
  | .rax => 0 | .rbx => 1 | .rcx => 2 | .rdx => 3 | .rsi => 4 | .rdi => 5 | .rbp => 6 | .rsp => 7
  | .r8 => 8 | .r9 => 9 | .r10 => 10 | .r11 => 11 | .r12 => 12 | .r13 => 13 | .r14 => 14 | .r15 => 15

/-- The memory areas a function works on.  Area 0 is the stack, the others are its arguments. -/
structure Lay where
  /-- number of bytes of each area that may be read -/
  rsz : List ℕ
  /-- number of bytes of each area that may be written -/
  wsz : List ℕ
  /-- `(x, y, s)`: area `y` may begin `s` bytes after the beginning of area `x` -/
  al : List (ℕ × ℕ × ℕ)

/-- Symbolic state -/
structure Sym where
  regs : List SVal
  cf : Option Poly
  of : Option Poly
  mem : List ((ℕ × ℕ) × SVal)
  next : ℕ
  ubs : List ℕ
  /-- polynomials that are 0 -/
  eqs : List Poly
deriving DecidableEq

/-- A program for the checker: instructions and hints -/
inductive Item
  | ins (i : Instr)
  /-- the next instruction adds to the word above the given ones without a carry and without reaching 2^63 -/
  | top (lows : List Opd) (i : Instr)
  /-- introduce variables for the given words; `exact`: their number, after adding the equations `use`, is small enough to tell
  them from its residue -/
  | name (exact : Bool) (locs : List Opd) (use : List (ℕ × ℕ))
  /-- equation `i` times the number with the variables `vs` as its words -/
  | times (i : ℕ) (vs : List ℕ)
deriving DecidableEq

/-- The instructions of a program -/
def strip : List Item → List Instr
  | [] => []
  | .ins i :: is => i :: strip is
  | .top _ i :: is => i :: strip is
  | .name _ _ _ :: is => strip is
  | .times _ _ :: is => strip is

/-- The number with the given variables as its words -/
def nums (vs : List ℕ) : Poly := Poly.horner (vs.map Poly.var)

variable (tabs : Tab → List ℕ) (L : Lay)

def lookup (m : List ((ℕ × ℕ) × SVal)) (b o : ℕ) : SVal :=
  match m with
  | [] => .any
  | ((b', o'), v) :: m => bif b == b' && o == o' then v else lookup m b o

/-- Does a store to `(y, o)` possibly change the word at `(x, o')`? -/
def hits (y o x o' : ℕ) : Bool :=
  bif x == y then o == o'
  else L.al.any fun t => t.1 == x && t.2.1 == y && o' == o + t.2.2

/-- The value of a register -/
def Sym.reg (σ : Sym) (r : Reg) : SVal := (σ.regs[r.idx]?).getD .any

def Sym.setReg (σ : Sym) (r : Reg) (v : SVal) : Sym := { σ with regs := σ.regs.set r.idx v }

def Sym.load (σ : Sym) (b o : ℕ) : Option SVal :=
  bif Nat.blt o ((L.rsz[b]?).getD 0) && o % 8 == 0 then some (lookup σ.mem b o) else none

def Sym.store (σ : Sym) (b o : ℕ) (v : SVal) : Option Sym :=
  bif Nat.blt o ((L.wsz[b]?).getD 0) && o % 8 == 0 then
    some { σ with mem := ((b, o), v) :: σ.mem.filter fun e => !hits L b o e.1.1 e.1.2 }
  else none

def Sym.get (σ : Sym) : Opd → Option SVal
  | .reg r => some (σ.reg r)
  | .imm v => some (.poly (Poly.const v.toNat))
  | .mem r d =>
    match σ.reg r with
    | .ptr b o => σ.load L b (o + d)
    | _ => none
  | .tab t i =>
    match (tabs t)[i]? with
    | some v => some (.poly (Poly.const v))
    | none => none

def Sym.put (σ : Sym) (v : SVal) : Opd → Option Sym
  | .reg r => some (σ.setReg r v)
  | .imm _ => none
  | .mem r d =>
    match σ.reg r with
    | .ptr b o => σ.store L b (o + d) v
    | _ => none
  | .tab _ _ => none

def Sym.getP (σ : Sym) (o : Opd) : Option Poly :=
  match σ.get tabs L o with
  | some (.poly p) => some p
  | _ => none

/-- A new variable -/
def Sym.fresh (σ : Sym) (u : ℕ) : Sym := { σ with next := σ.next + 1, ubs := u :: σ.ubs }

/-- Sum of two words and a carry: the word and the carry out, a new variable -/
def Sym.addc (σ : Sym) (d o : Opd) (c : Poly) : Option (Sym × Poly) :=
  match σ.getP tabs L d, σ.getP tabs L o with
  | some p, some q =>
    let v := Poly.var σ.next
    match (σ.fresh 1).put L (.poly (Poly.sub (Poly.add (Poly.add p q) c) (Poly.scale (2 ^ 64) v))) d with
    | some σ' => some (σ', v)
    | none => none
  | _, _ => none

/-- Difference of two words and a borrow: the word and the borrow out, a new variable -/
def Sym.subc (σ : Sym) (d o : Opd) (c : Poly) : Option (Sym × Poly) :=
  match σ.getP tabs L d, σ.getP tabs L o with
  | some p, some q =>
    let v := Poly.var σ.next
    match (σ.fresh 1).put L (.poly (Poly.add (Poly.sub (Poly.sub p q) c) (Poly.scale (2 ^ 64) v))) d with
    | some σ' => some (σ', v)
    | none => none
  | _, _ => none

/-- `sbb r, 0` on 0: the word `2^64 - 1` if there is a borrow -/
def Sym.subcMask (σ : Sym) (d o : Opd) (c : Poly) : Option (Sym × Poly) :=
  match σ.getP tabs L d, σ.getP tabs L o with
  | some [], some [] =>
    match σ.put L (.poly (Poly.scale (2 ^ 64 - 1) c)) d with
    | some σ' => some (σ', c)
    | none => none
  | _, _ => σ.subc tabs L d o c

/-- All coefficients divided by `2^64 - 1`, if the polynomial is such a multiple of a variable with bound 1 -/
def maskVar (next : ℕ) (ubs : List ℕ) : Poly → Option ℕ
  | [(k, c)] =>
    bif c == 2 ^ 64 - 1 && Nat.blt k 65536 then
      match Poly.ubVar next ubs k with
      | some u => bif Nat.ble u 1 then some k else none
      | none => none
    else none
  | _ => none

/-- The polynomials of a list of words -/
def Sym.getPs (σ : Sym) : List Opd → Option (List Poly)
  | [] => some []
  | o :: os =>
    match σ.getP tabs L o, σ.getPs os with
    | some p, some ps => some (p :: ps)
    | _, _ => none

/-- Replace the value of a register or a word in memory -/
def Sym.rename (σ : Sym) (v : SVal) : Opd → Option Sym
  | .reg r => some (σ.setReg r v)
  | .mem r d =>
    match σ.reg r with
    | .ptr b o =>
      bif Nat.blt (o + d) ((L.rsz[b]?).getD 0) && (o + d) % 8 == 0 then
        some { σ with mem := ((b, o + d), v) :: σ.mem.filter fun e => !(e.1.1 == b && e.1.2 == o + d) }
      else none
    | _ => none
  | _ => none

/-- Name the words with new variables, bounded by `u` -/
def Sym.renames (σ : Sym) (u : ℕ) : List Opd → Option Sym
  | [] => some σ
  | o :: os =>
    match (σ.fresh (Nat.min u (2 ^ 64 - 1))).rename L (.poly (Poly.var σ.next)) o with
    | some σ' => σ'.renames (u / 2 ^ 64) os
    | none => none

/-- The equations found, each times the power of two given for it (number of the equation, 1000 more for its negative;
exponent) -/
def Sym.comb (σ : Sym) : List (ℕ × ℕ) → Poly
  | [] => []
  | (i, e) :: ws =>
    Poly.add (Poly.scale (bif Nat.blt i 1000 then 2 ^ e else -2 ^ e) ((σ.eqs.reverse[i % 1000]?).getD [])) (σ.comb ws)

/-- One step of the checker -/
def step (σ : Sym) : Item → Option Sym
  | .ins (.mov d o) =>
    match σ.get tabs L o with
    | some v => σ.put L v d
    | none => none
  | .ins (.add d o) =>
    match σ.get tabs L d, o with
    | some (.ptr b x), .imm v => 
      match σ.put L (.ptr b (x + v.toNat)) d with
      | some σ' => some { σ' with cf := none, of := none }
      | none => none
    | _, _ =>
      match σ.addc tabs L d o [] with
      | some (σ', v) => some { σ' with cf := some v, of := none }
      | none => none
  | .ins (.adc d o) =>
    match σ.cf with
    | some c =>
      match σ.addc tabs L d o c with
      | some (σ', v) => some { σ' with cf := some v, of := none }
      | none => none
    | none => none
  | .ins (.adcx d o) =>
    match σ.cf with
    | some c =>
      match σ.addc tabs L d o c with
      | some (σ', v) => some { σ' with cf := some v }
      | none => none
    | none => none
  | .ins (.adox d o) =>
    match σ.of with
    | some c =>
      match σ.addc tabs L d o c with
      | some (σ', v) => some { σ' with of := some v }
      | none => none
    | none => none
  | .ins (.sub d o) =>
    match σ.get tabs L d, o with
    | some (.ptr b x), .imm v => 
      bif Nat.ble v.toNat x then
        match σ.put L (.ptr b (x - v.toNat)) d with
        | some σ' => some { σ' with cf := none, of := none }
        | none => none
      else none
    | _, _ =>
      match σ.subcMask tabs L d o [] with
      | some (σ', v) => some { σ' with cf := some v, of := none }
      | none => none
  | .ins (.sbb d o) =>
    match σ.cf with
    | some c =>
      match σ.subcMask tabs L d o c with
      | some (σ', v) => some { σ' with cf := some v, of := none }
      | none => none
    | none => none
  | .ins (.and d o) =>
    match σ.getP tabs L d, σ.getP tabs L o with
    | some p, some m =>
      match maskVar σ.next σ.ubs m with
      | some k =>
        match Poly.mul p (Poly.var k) with
        | some r =>
          match σ.put L (.poly r) d with
          | some σ' => some { σ' with cf := some [], of := some [] }
          | none => none
        | none => none
      | none => none
    | _, _ => none
  | .ins (.xor (.reg r) (.reg q)) =>
    bif r.idx == q.idx then some { σ.setReg r (.poly []) with cf := some [], of := some [] } else none
  | .ins (.mulx hi lo o) =>
    match σ.reg .rdx, σ.getP tabs L o with
    | .poly p, some q =>
      match Poly.mul p q with
      | some r =>
        let h := Poly.var σ.next
        some (((σ.fresh (2 ^ 64 - 1)).setReg lo (.poly (Poly.sub r (Poly.scale (2 ^ 64) h)))).setReg hi (.poly h))
      | none => none
    | _, _ => none
  | .ins (.push r) =>
    match σ.reg .rsp with
    | .ptr b o =>
      bif Nat.ble 8 o then (σ.setReg .rsp (.ptr b (o - 8))).store L b (o - 8) (σ.reg r)
      else none
    | _ => none
  | .ins (.pop r) =>
    match σ.reg .rsp with
    | .ptr b o =>
      match σ.load L b o with
      | some v => some ((σ.setReg .rsp (.ptr b (o + 8))).setReg r v)
      | none => none
    | _ => none
  | .ins (.setc r) =>
    match σ.cf with
    | some c => some (σ.setReg r (.low c))
    | none => none
  | .ins (.bt r) =>
    match σ.reg r with
    | .low c => some { σ with cf := some c, of := none }
    | _ => none
  | .top lows (.adc d o) =>
    match σ.cf, σ.getPs tabs L lows, σ.getP tabs L d, σ.getP tabs L o with
    | some c, some ls, some p, some q =>
      let r := Poly.add (Poly.add p q) c
      match Poly.ub σ.next σ.ubs (Poly.horner (ls ++ [r])) with
      | some u =>
        bif decide (u < 2 ^ (64 * ls.length + 63)) then
          match σ.put L (.poly r) d with
          | some σ' => some { σ' with cf := some [], of := some [] }
          | none => none
        else none
      | none => none
    | _, _, _, _ => none
  | .name exact locs use =>
    match bif Nat.blt locs.length 500 then σ.getPs tabs L locs else none with
    | some ps =>
      let P := Poly.horner ps
      bif exact then
        let P' := Poly.dropMod (2 ^ (64 * locs.length)) (Poly.add P (σ.comb use))
        match Poly.ub σ.next σ.ubs P', Poly.lb σ.next σ.ubs P' with
        | some u, some l =>
          bif decide (0 ≤ l) && decide (u < 2 ^ (64 * locs.length)) then
            match σ.renames L u.toNat locs with
            | some σ' => σ'.getPs tabs L locs |>.map fun ys => { σ' with eqs := Poly.sub (Poly.horner ys) P' :: σ'.eqs }
            | none => none
          else none
        | _, _ => none
      else
        match σ.renames L (2 ^ (64 * locs.length) - 1) locs with
        | some σ' => σ'.getPs tabs L locs |>.map fun ys => { σ' with eqs := Poly.sub (Poly.horner ys) P :: σ'.eqs }
        | none => none
    | none => none
  | .times i vs =>
    bif vs.all fun v => Nat.blt v σ.next then
      match Poly.mul ((σ.eqs.reverse[i]?).getD []) (nums vs) with
      | some r => some { σ with eqs := r :: σ.eqs }
      | none => none
    else none
  | _ => none

/-- Run a program up to its `ret`.  The result has the state after the return and what is known of the address returned to. -/
def symRun : List Item → Sym → Option (Sym × SVal)
  | [], _ => none
  | .ins .ret :: _, σ =>
    match σ.reg .rsp with
    | .ptr b o =>
      match σ.load L b o with
      | some v => some (σ.setReg .rsp (.ptr b (o + 8)), v)
      | none => none
    | _ => none
  | i :: is, σ =>
    match bif Nat.blt σ.next 65000 then step tabs L σ i else none with
    | some σ' => symRun is σ'
    | none => none

end Secuer.X64
