import Verif.Arm.Model
import Verif.X64.Check

/-!
# Symbolic execution of ARM code

The checker of `Verif/X64/Sym.lean` for the instructions of `Verif/Arm/Model.lean`.  `Verif/Arm/Sound.lean` proves that what it
finds is true of every execution; nothing here is trusted.
-/

namespace Secuer.Arm

open Secuer.X64 (Digit Tab Env Poly SVal Lay lookup hits maskVar nums)

def Reg.idx : Reg → ℕ
  | .x0 => 0 | .x1 => 1 | .x2 => 2 | .x3 => 3 | .x4 => 4 | .x5 => 5 | .x6 => 6 | .x7 => 7 | .x8 => 8 | .x9 => 9 | .x10 => 10
  | .x11 => 11 | .x12 => 12 | .x13 => 13 | .x14 => 14 | .x15 => 15 | .x16 => 16 | .x17 => 17 | .x18 => 18 | .x19 => 19
  | .x20 => 20 | .x21 => 21 | .x22 => 22 | .x23 => 23 | .x24 => 24 | .x25 => 25 | .x26 => 26 | .x27 => 27 | .x28 => 28
  | .x29 => 29 | .x30 => 30 | .sp => 31

/-- Symbolic state: that of the other checker, with 32 registers, `cf` for C and `of` not used; and for products their
polynomials and the variables of their upper words -/
structure Sym where
  core : X64.Sym
  prods : List (Poly × ℕ)

/-- The places of words -/
inductive Loc
  | reg (r : Reg)
  | mem (b : Reg) (o : ℕ)

/-- A hint for the checker -/
inductive Hint
  /-- introduce variables for the given words; `exact`: their number, after adding the equations `use`, is small enough to tell
  them from its residue -/
  | name (exact : Bool) (locs : List Loc) (use : List (ℕ × ℕ))
  /-- equation `i` times the number with the variables `vs` as its words -/
  | times (i : ℕ) (vs : List ℕ)

/-- A program for the checker: instructions and hints -/
inductive Item
  | ins (i : Instr)
  | hint (h : Hint)

/-- The instructions of a program -/
def strip : List Item → List Instr
  | [] => []
  | .ins i :: is => i :: strip is
  | .hint _ :: is => strip is

/-- Put the hints into the program, each before the instruction with its number -/
def weave : ℕ → List Instr → List (ℕ × List Hint) → List Item
  | _, [], _ => []
  | k, i :: is, [] => .ins i :: weave (k + 1) is []
  | k, i :: is, (j, h) :: hs =>
    bif k == j then h.map .hint ++ .ins i :: weave (k + 1) is hs
    else .ins i :: weave (k + 1) is ((j, h) :: hs)

variable (tabs : Tab → List ℕ) (L : Lay)

/-- The value of a register -/
def Sym.reg (σ : Sym) (r : Reg) : SVal := (σ.core.regs[r.idx]?).getD .any

def Sym.setReg (σ : Sym) (r : Reg) (v : SVal) : Sym :=
  { σ with core := { σ.core with regs := σ.core.regs.set r.idx v } }

def Sym.setC (σ : Sym) (c : Option Poly) : Sym := { σ with core := { σ.core with cf := c } }

def Sym.load (σ : Sym) (b o : ℕ) : Option SVal :=
  bif Nat.blt o ((L.rsz[b]?).getD 0) && o % 8 == 0 then some (lookup σ.core.mem b o) else none

def Sym.store (σ : Sym) (b o : ℕ) (v : SVal) : Option Sym :=
  bif Nat.blt o ((L.wsz[b]?).getD 0) && o % 8 == 0 then
    some { σ with core := { σ.core with mem := ((b, o), v) :: σ.core.mem.filter fun e => !hits L b o e.1.1 e.1.2 } }
  else none

/-- The address `[r, #o]` -/
def Sym.addr (σ : Sym) (r : Reg) (o : ℕ) : Option (ℕ × ℕ) :=
  match σ.reg r with
  | .ptr b x => bif r.idx == 31 && !(b == 0 && x % 16 == 0) then none else some (b, x + o)
  | _ => none

/-- What is known of a source operand -/
def Sym.val (σ : Sym) : Src → SVal
  | .reg r => σ.reg r
  | .xzr => .poly []

def Sym.get (σ : Sym) (a : Src) : Option Poly :=
  match σ.val a with
  | .poly p => some p
  | _ => none

/-- A new variable -/
def Sym.fresh (σ : Sym) (u : ℕ) : Sym :=
  { σ with core := { σ.core with next := σ.core.next + 1, ubs := u :: σ.core.ubs } }

/-- Sum of two words and a carry: the word and the carry out, a new variable if it may be 1 -/
def Sym.addc (σ : Sym) (p q c : Poly) : Option (Sym × Poly × Poly) :=
  let t := Poly.add (Poly.add p q) c
  match Poly.ub σ.core.next σ.core.ubs t with
  | some u =>
    bif decide (u < 2 ^ 64) then some (σ, t, [])
    else some (σ.fresh 1, Poly.sub t (Poly.scale (2 ^ 64) (Poly.var σ.core.next)), Poly.var σ.core.next)
  | none => none

/-- Is the word 0 or 1? -/
def Sym.isBit (σ : Sym) (p : Poly) : Bool :=
  match Poly.ub σ.core.next σ.core.ubs p with
  | some u => decide (u ≤ 1)
  | none => false

/-- Difference of two words and a borrow: the word and the borrow out, a new variable if it may be 1 and is not known -/
def Sym.subc (σ : Sym) (p q b : Poly) : Option (Sym × Poly × Poly) :=
  let t := Poly.sub (Poly.sub p q) b
  match Poly.lb σ.core.next σ.core.ubs t with
  | some l =>
    bif decide (0 ≤ l) then some (σ, t, [])
    else bif p.isEmpty && q.isEmpty then some (σ, Poly.scale (2 ^ 64 - 1) b, b)
    else bif p.isEmpty && b.isEmpty && σ.isBit q then some (σ, Poly.scale (2 ^ 64 - 1) q, q)
    else some (σ.fresh 1, Poly.add t (Poly.scale (2 ^ 64) (Poly.var σ.core.next)), Poly.var σ.core.next)
  | none => none

def find (r : Poly) : List (Poly × ℕ) → Option ℕ
  | [] => none
  | (q, v) :: ps => bif q == r then some v else find r ps

/-- The upper word of a number with two words, at most `u`: a variable -/
def Sym.high (σ : Sym) (r : Poly) (u : ℕ) : Sym × ℕ :=
  match find r σ.prods with
  | some v => (σ, v)
  | none => ({ σ.fresh u with prods := (r, σ.core.next) :: σ.prods }, σ.core.next)

/-- Conjunction of two words: one of them 0 or `2^64 - 1`, or both 0 or 1 -/
def Sym.conj (σ : Sym) (p q : Poly) : Option Poly :=
  match maskVar σ.core.next σ.core.ubs q with
  | some k => Poly.mul p (Poly.var k)
  | none =>
    match maskVar σ.core.next σ.core.ubs p with
    | some k => Poly.mul q (Poly.var k)
    | none => bif σ.isBit p && σ.isBit q then Poly.mul p q else none

/-- The value of a word -/
def Sym.at (σ : Sym) : Loc → Option Poly
  | .reg r => σ.get r
  | .mem r o =>
    match σ.addr r o with
    | some (b, x) =>
      match σ.load L b x with
      | some (.poly p) => some p
      | _ => none
    | none => none

def Sym.ats (σ : Sym) : List Loc → Option (List Poly)
  | [] => some []
  | o :: os =>
    match σ.at L o, σ.ats os with
    | some p, some ps => some (p :: ps)
    | _, _ => none

/-- Replace the value of a word -/
def Sym.rename (σ : Sym) (v : SVal) : Loc → Option Sym
  | .reg r => some (σ.setReg r v)
  | .mem r o =>
    match σ.addr r o with
    | some (b, x) =>
      bif Nat.blt x ((L.rsz[b]?).getD 0) && x % 8 == 0 then
        some { σ with core := { σ.core with mem := ((b, x), v) :: σ.core.mem.filter fun e => !(e.1.1 == b && e.1.2 == x) } }
      else none
    | none => none

/-- Name the words with new variables, bounded by `u` -/
def Sym.renames (σ : Sym) (u : ℕ) : List Loc → Option Sym
  | [] => some σ
  | o :: os =>
    match (σ.fresh (Nat.min u (2 ^ 64 - 1))).rename L (.poly (Poly.var σ.core.next)) o with
    | some σ' => σ'.renames (u / 2 ^ 64) os
    | none => none

def Sym.addEq (σ : Sym) (p : Poly) : Sym := { σ with core := { σ.core with eqs := p :: σ.core.eqs } }

/-- Name the words `locs`, whose number is `P`, at most `u` -/
def Sym.nameAs (σ : Sym) (locs : List Loc) (P : Poly) (u : ℕ) : Option Sym :=
  match σ.renames L u locs with
  | some σ' =>
    match σ'.ats L locs with
    | some ys => some (σ'.addEq (Poly.sub (Poly.horner ys) P))
    | none => none
  | none => none

/-- A hint -/
def Sym.hint (σ : Sym) : Hint → Option Sym
  | .name exact locs use =>
    match bif Nat.blt locs.length 500 then σ.ats L locs else none with
    | some ps =>
      bif exact then
        let P := Poly.dropMod (2 ^ (64 * locs.length)) (Poly.add (Poly.horner ps) (σ.core.comb use))
        match Poly.ub σ.core.next σ.core.ubs P, Poly.lb σ.core.next σ.core.ubs P with
        | some u, some l =>
          bif decide (0 ≤ l) && decide (u < 2 ^ (64 * locs.length)) then σ.nameAs L locs P u.toNat else none
        | _, _ => none
      else σ.nameAs L locs (Poly.horner ps) (2 ^ (64 * locs.length) - 1)
    | none => none
  | .times i vs =>
    bif vs.all fun v => Nat.blt v σ.core.next then
      match Poly.mul ((σ.core.eqs.reverse[i]?).getD []) (nums vs) with
      | some r => some (σ.addEq r)
      | none => none
    else none

/-- `adds`, `adcs`, `adc` with the given carry in; `f`: does it set C? -/
def Sym.doAdd (σ : Sym) (f : Bool) (d : Reg) (a b : Src) (c : Poly) : Option Sym :=
  match σ.get a, σ.get b with
  | some p, some q =>
    match σ.addc p q c with
    | some (σ', w, v) => some (bif f then (σ'.setReg d (.poly w)).setC (some v) else σ'.setReg d (.poly w))
    | none => none
  | _, _ => none

/-- `subs`, `sbcs`, `sbc`, `sub` with the given borrow in -/
def Sym.doSub (σ : Sym) (f : Bool) (d : Reg) (a b : Src) (c : Poly) : Option Sym :=
  match σ.get a, σ.get b with
  | some p, some q =>
    match σ.subc p q c with
    | some (σ', w, v) =>
      some (bif f then (σ'.setReg d (.poly w)).setC (some (Poly.sub (Poly.const 1) v)) else σ'.setReg d (.poly w))
    | none => none
  | _, _ => none

/-- One instruction other than `ret` -/
def Sym.exec (σ : Sym) : Instr → Option Sym
  | .ldr d b o =>
    match σ.addr b o with
    | some (y, x) =>
      match σ.load L y x with
      | some v => some (σ.setReg d v)
      | none => none
    | none => none
  | .ldp d e b o =>
    bif d.idx == e.idx then none
    else
      match σ.addr b o with
      | some (y, x) =>
        match σ.load L y x, σ.load L y (x + 8) with
        | some v, some w => some ((σ.setReg d v).setReg e w)
        | _, _ => none
      | none => none
  | .lit d t i =>
    match (tabs t)[i]? with
    | some v => some (σ.setReg d (.poly (Poly.const v)))
    | none => none
  | .str a b o =>
    match σ.addr b o with
    | some (y, x) => σ.store L y x (σ.val a)
    | none => none
  | .stp a a' b o =>
    match σ.addr b o with
    | some (y, x) =>
      match σ.store L y x (σ.val a) with
      | some σ' => σ'.store L y (x + 8) (σ.val a')
      | none => none
    | none => none
  | .addi d a k =>
    match σ.reg a with
    | .ptr b x => some (σ.setReg d (.ptr b (x + k)))
    | _ => none
  | .subi d a k =>
    match σ.reg a with
    | .ptr b x => bif Nat.ble k x then some (σ.setReg d (.ptr b (x - k))) else none
    | _ => none
  | .addsi d a k =>
    bif k == 1 then
      match σ.get a with
      | some p =>
        match maskVar σ.core.next σ.core.ubs p with
        | some v => some ((σ.setReg d (.poly (Poly.sub (Poly.const 1) (Poly.var v)))).setC (some (Poly.var v)))
        | none => none
      | none => none
    else none
  | .adds d a b => σ.doAdd true d a b []
  | .adcs d a b =>
    match σ.core.cf with
    | some c => σ.doAdd true d a b c
    | none => none
  | .adc d a b =>
    match σ.core.cf with
    | some c => σ.doAdd false d a b c
    | none => none
  | .subs d a b => σ.doSub true d a b []
  | .sbcs d a b =>
    match σ.core.cf with
    | some c => σ.doSub true d a b (Poly.sub (Poly.const 1) c)
    | none => none
  | .sbc d a b =>
    match σ.core.cf with
    | some c => σ.doSub false d a b (Poly.sub (Poly.const 1) c)
    | none => none
  | .sub d a b => σ.doSub false d a b []
  | .and d a b =>
    match σ.get a, σ.get b with
    | some p, some q =>
      match σ.conj p q with
      | some r => some (σ.setReg d (.poly r))
      | none => none
    | _, _ => none
  | .orr d a b k =>
    match σ.get a, σ.get b with
    | some p, some q =>
      bif Nat.blt 0 k && Nat.blt k 64 && Poly.allMod (2 ^ (64 - k)) p then
        let (σ', h) := σ.high (Poly.scale (2 ^ (64 - k)) q) (2 ^ (64 - k) - 1)
        some (σ'.setReg d (.poly (Poly.add p (Poly.var h))))
      else none
    | _, _ => none
  | .lsl d a k =>
    match σ.get a with
    | some p =>
      bif Nat.blt k 64 then
        let r := Poly.scale (2 ^ k) p
        let (σ', h) := σ.high r (2 ^ k - 1)
        some (σ'.setReg d (.poly (Poly.sub r (Poly.scale (2 ^ 64) (Poly.var h)))))
      else none
    | none => none
  | .mul d a b =>
    match σ.get a, σ.get b with
    | some p, some q =>
      match Poly.mul p q with
      | some r =>
        let (σ', h) := σ.high r (2 ^ 64 - 2)
        some (σ'.setReg d (.poly (Poly.sub r (Poly.scale (2 ^ 64) (Poly.var h)))))
      | none => none
    | _, _ => none
  | .umulh d a b =>
    match σ.get a, σ.get b with
    | some p, some q =>
      match Poly.mul p q with
      | some r =>
        let (σ', h) := σ.high r (2 ^ 64 - 2)
        some (σ'.setReg d (.poly (Poly.var h)))
      | none => none
    | _, _ => none
  | .ret => none

/-- Run a program up to its `ret` -/
def symRun : List Item → Sym → Option Sym
  | [], _ => none
  | .ins .ret :: _, σ => some σ
  | .ins i :: is, σ =>
    match bif Nat.blt σ.core.next 65000 then σ.exec tabs L i else none with
    | some σ' => symRun is σ'
    | none => none
  | .hint h :: is, σ =>
    match bif Nat.blt σ.core.next 65000 then σ.hint L h else none with
    | some σ' => symRun is σ'
    | none => none

end Secuer.Arm
