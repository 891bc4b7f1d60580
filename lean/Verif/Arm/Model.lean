import Verif.X64.Model

/-!
# 64-bit ARM machine code

The instructions used by `P434/ARM64/fp_arm64_asm.S` and its versions for the other parameter sets (the builds with
`ARCH=ARM64` and `ARCH=M1`, `c-impl/Makefile`), with the semantics of the ARM architecture reference manual for 64-bit
operands.  Of the flags only C is modelled, no instruction used here reads another one.

A machine state has the registers `x0` to `x30` and `sp`, the flag C (`none`: not known), and a memory of 64-bit words.  As in
`Verif/X64/Model.lean` only aligned words are modelled: an access to an address that is not divisible by 8 makes the execution
fail (`none`), and so do a read or write that the environment does not permit, a use of an unknown flag, an access relative to
a stack pointer that is not divisible by 16 (the processor traps), and a load of two words into one register (unpredictable).

The constants (`p434`, `p434x2`, …) are in read-only tables of their own, so no store changes them; `ldr x, p434x2 + 8` loads
a word of such a table.

The words, environments, sums and differences are those of `Verif/X64/Model.lean`, nothing else of it is used.
-/

namespace Secuer.Arm

open Secuer.X64 (Digit Tab Env aligned bit sumOf carryOf diffOf borrowOf)

/-- The general registers and the stack pointer -/
inductive Reg
  | x0 | x1 | x2 | x3 | x4 | x5 | x6 | x7 | x8 | x9 | x10 | x11 | x12 | x13 | x14 | x15
  | x16 | x17 | x18 | x19 | x20 | x21 | x22 | x23 | x24 | x25 | x26 | x27 | x28 | x29 | x30 | sp
deriving DecidableEq, Repr

/-- A source operand: a register or the zero register -/
inductive Src
  | reg (r : Reg)
  | xzr
deriving DecidableEq, Repr

instance : Coe Reg Src := ⟨.reg⟩

/-- Instructions -/
inductive Instr
  /-- `ldr d, [b, #o]` -/
  | ldr (d b : Reg) (o : ℕ)
  /-- `ldp d, e, [b, #o]` -/
  | ldp (d e b : Reg) (o : ℕ)
  /-- `ldr d, table + 8 i` -/
  | lit (d : Reg) (t : Tab) (i : ℕ)
  /-- `str s, [b, #o]` -/
  | str (s : Src) (b : Reg) (o : ℕ)
  /-- `stp s, t, [b, #o]` -/
  | stp (s t : Src) (b : Reg) (o : ℕ)
  /-- `add d, a, #k` -/
  | addi (d a : Reg) (k : ℕ)
  /-- `sub d, a, #k` -/
  | subi (d a : Reg) (k : ℕ)
  /-- `adds d, a, #k` -/
  | addsi (d : Reg) (a : Src) (k : ℕ)
  | adds (d : Reg) (a b : Src)
  | adcs (d : Reg) (a b : Src)
  | adc (d : Reg) (a b : Src)
  | subs (d : Reg) (a b : Src)
  | sbcs (d : Reg) (a b : Src)
  | sbc (d : Reg) (a b : Src)
  /-- `sub d, a, b`; `neg d, b` is `sub d, xzr, b` -/
  | sub (d : Reg) (a b : Src)
  | and (d : Reg) (a b : Src)
  /-- `orr d, a, b, lsr #k` -/
  | orr (d : Reg) (a b : Src) (k : ℕ)
  /-- `lsl d, a, #k` -/
  | lsl (d : Reg) (a : Src) (k : ℕ)
  /-- lower word of the product -/
  | mul (d : Reg) (a b : Src)
  /-- upper word of the product -/
  | umulh (d : Reg) (a b : Src)
  | ret
deriving DecidableEq, Repr

/-- The machine state -/
structure St where
  reg : Reg → Digit
  c : Option Bool
  mem : Digit → Digit

variable (E : Env)

def St.setReg (s : St) (r : Reg) (v : Digit) : St := { s with reg := fun q => if q = r then v else s.reg q }

def St.setMem (s : St) (a v : Digit) : St := { s with mem := fun b => if b = a then v else s.mem b }

def St.setC (s : St) (c : Bool) : St := { s with c := some c }

/-- The value of a source operand -/
def St.get (s : St) : Src → Digit
  | .reg r => s.reg r
  | .xzr => 0

/-- Load a word -/
def load (s : St) (a : Digit) : Option Digit := if aligned a && E.rd a then some (s.mem a) else none

/-- Store a word -/
def store (s : St) (a v : Digit) : Option St := if aligned a && E.wr a then some (s.setMem a v) else none

/-- The address `[b, #o]`; the stack pointer has to be divisible by 16 -/
def addr (s : St) (b : Reg) (o : ℕ) : Option Digit :=
  if b = .sp ∧ (s.reg .sp).toNat % 16 ≠ 0 then none else some (s.reg b + BitVec.ofNat 64 o)

/-- One instruction other than `ret` -/
def exec (s : St) : Instr → Option St
  | .ldr d b o => do
    let a ← addr s b o
    let v ← load E s a
    some (s.setReg d v)
  | .ldp d e b o => do
    if d = e then none else
    let a ← addr s b o
    let v ← load E s a
    let a' ← addr s b (o + 8)
    let w ← load E s a'
    some ((s.setReg d v).setReg e w)
  | .lit d t i => do
    let v ← (E.tab t)[i]?
    some (s.setReg d v)
  | .str x b o => do
    let a ← addr s b o
    store E s a (s.get x)
  | .stp x y b o => do
    let a ← addr s b o
    let s' ← store E s a (s.get x)
    let a' ← addr s b (o + 8)
    store E s' a' (s.get y)
  | .addi d a k => some (s.setReg d (s.reg a + BitVec.ofNat 64 k))
  | .subi d a k => some (s.setReg d (s.reg a - BitVec.ofNat 64 k))
  | .addsi d a k =>
    some ((s.setReg d (sumOf (s.get a) (BitVec.ofNat 64 k) false)).setC (carryOf (s.get a) (BitVec.ofNat 64 k) false))
  | .adds d a b => some ((s.setReg d (sumOf (s.get a) (s.get b) false)).setC (carryOf (s.get a) (s.get b) false))
  | .adcs d a b => do
    let c ← s.c
    some ((s.setReg d (sumOf (s.get a) (s.get b) c)).setC (carryOf (s.get a) (s.get b) c))
  | .adc d a b => do
    let c ← s.c
    some (s.setReg d (sumOf (s.get a) (s.get b) c))
  | .subs d a b => some ((s.setReg d (diffOf (s.get a) (s.get b) false)).setC (!borrowOf (s.get a) (s.get b) false))
  | .sbcs d a b => do
    let c ← s.c
    some ((s.setReg d (diffOf (s.get a) (s.get b) (!c))).setC (!borrowOf (s.get a) (s.get b) (!c)))
  | .sbc d a b => do
    let c ← s.c
    some (s.setReg d (diffOf (s.get a) (s.get b) (!c)))
  | .sub d a b => some (s.setReg d (diffOf (s.get a) (s.get b) false))
  | .and d a b => some (s.setReg d (s.get a &&& s.get b))
  | .orr d a b k => if k < 64 then some (s.setReg d (s.get a ||| (s.get b >>> k))) else none
  | .lsl d a k => if k < 64 then some (s.setReg d (s.get a <<< k)) else none
  | .mul d a b => some (s.setReg d (BitVec.ofNat 64 ((s.get a).toNat * (s.get b).toNat)))
  | .umulh d a b => some (s.setReg d (BitVec.ofNat 64 ((s.get a).toNat * (s.get b).toNat / 2 ^ 64)))
  | .ret => none

/-- Run a function up to its `ret`: the state at the return and the address returned to.  `none` if the execution fails or
does not end in `ret`. -/
def run : List Instr → St → Option (St × Digit)
  | [], _ => none
  | .ret :: _, s => some (s, s.reg .x30)
  | i :: is, s => do run is (← exec E s i)

end Secuer.Arm
