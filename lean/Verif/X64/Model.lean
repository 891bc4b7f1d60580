import Mathlib.Data.Nat.Notation

/-!
# x86-64 machine code

The instructions used by `P434/AMD64/fp_x64_asm.S` and its versions for the other parameter sets, with the semantics of the
Intel manual for 64-bit operands.  Of the flags only CF and OF are modelled, no instruction used here reads another one.

A machine state has the sixteen general registers, CF and OF (`none`: undefined after the last instruction that touched it),
and a memory of 64-bit words.  Only addresses divisible by 8 are modelled; since all accesses are to whole aligned words, two
accesses touch the same bytes if and only if their addresses are equal.  An access to an address that is not divisible by 8, a
read or write that the environment does not permit, and a read of an undefined flag make the execution fail (`none`).

Operands `[rip+p434x2+8]` etc. refer to the constant tables of `P434.c`; these are not in the modelled memory but in
read-only tables of their own, so no store changes them.
-/

namespace Secuer.X64

/-- A 64-bit word -/
abbrev Digit := BitVec 64

/-- The general registers -/
inductive Reg
  | rax | rbx | rcx | rdx | rsi | rdi | rbp | rsp | r8 | r9 | r10 | r11 | r12 | r13 | r14 | r15
deriving DecidableEq, Repr

/-- The tables of constants of a parameter set (`p434`, `p434p1`, `p434x2`, `p434x4`, `p434x8`) -/
inductive Tab
  | p | p1 | x2 | x4 | x8
deriving DecidableEq, Repr

/-- Operands -/
inductive Opd
  /-- a register -/
  | reg (r : Reg)
  /-- an immediate operand -/
  | imm (v : Digit)
  /-- `[base+disp]` -/
  | mem (base : Reg) (disp : ℕ)
  /-- `[rip+table+8*i]` -/
  | tab (t : Tab) (i : ℕ)
deriving DecidableEq, Repr

instance : Coe Reg Opd := ⟨.reg⟩

/-- The operand `k` bytes further (`8\M1` in the macros) -/
def Opd.at (o : Opd) (k : ℕ) : Opd :=
  match o with
  | .mem b d => .mem b (d + k)
  | .tab t i => .tab t (i + k / 8)
  | o => o

/-- Instructions -/
inductive Instr
  | mov (d s : Opd)
  | add (d s : Opd)
  | adc (d s : Opd)
  | sub (d s : Opd)
  | sbb (d s : Opd)
  | and (d s : Opd)
  | xor (d s : Opd)
  /-- addition with CF, leaving OF alone -/
  | adcx (d s : Opd)
  /-- addition with OF in the place of CF, leaving CF alone -/
  | adox (d s : Opd)
  /-- `hi:lo = rdx * s`, leaving the flags alone -/
  | mulx (hi lo : Reg) (s : Opd)
  | push (r : Reg)
  | pop (r : Reg)
  /-- CF into the lowest byte of the register (`setc cl` …) -/
  | setc (r : Reg)
  /-- bit 0 of the register into CF (`bt rcx, 0` …) -/
  | bt (r : Reg)
  | ret
deriving DecidableEq, Repr

/-- The machine state -/
structure St where
  reg : Reg → Digit
  cf : Option Bool
  of : Option Bool
  mem : Digit → Digit

/-- What a program runs in: the tables of constants and the addresses it may read and write -/
structure Env where
  tab : Tab → List Digit
  rd : Digit → Bool
  wr : Digit → Bool

variable (E : Env)

def St.setReg (s : St) (r : Reg) (v : Digit) : St := { s with reg := fun q => if q = r then v else s.reg q }

def St.setMem (s : St) (a v : Digit) : St := { s with mem := fun b => if b = a then v else s.mem b }

/-- Divisible by 8 -/
def aligned (a : Digit) : Bool := a.toNat % 8 = 0

/-- Load a word -/
def load (s : St) (a : Digit) : Option Digit := if aligned a && E.rd a then some (s.mem a) else none

/-- Store a word -/
def store (s : St) (a v : Digit) : Option St := if aligned a && E.wr a then some (s.setMem a v) else none

/-- The value of an operand -/
def get (s : St) : Opd → Option Digit
  | .reg r => some (s.reg r)
  | .imm v => some v
  | .mem b d => load E s (s.reg b + BitVec.ofNat 64 d)
  | .tab t i => (E.tab t)[i]?

/-- Write to an operand -/
def put (s : St) (v : Digit) : Opd → Option St
  | .reg r => some (s.setReg r v)
  | .imm _ => none
  | .mem b d => store E s (s.reg b + BitVec.ofNat 64 d) v
  | .tab _ _ => none

def bit (c : Bool) : ℕ := if c then 1 else 0

/-- The sum of two words and a carry bit -/
def sumOf (x y : Digit) (c : Bool) : Digit := x + y + BitVec.ofNat 64 (bit c)

/-- Carry out of the sum -/
def carryOf (x y : Digit) (c : Bool) : Bool := decide (2 ^ 64 ≤ x.toNat + y.toNat + bit c)

/-- Signed overflow of the sum -/
def overOf (x y : Digit) (c : Bool) : Bool := x.msb == y.msb && (sumOf x y c).msb != x.msb

/-- The difference of two words and a borrow bit -/
def diffOf (x y : Digit) (c : Bool) : Digit := x - y - BitVec.ofNat 64 (bit c)

/-- Borrow out of the difference -/
def borrowOf (x y : Digit) (c : Bool) : Bool := decide (x.toNat < y.toNat + bit c)

/-- Signed overflow of the difference -/
def underOf (x y : Digit) (c : Bool) : Bool := x.msb != y.msb && (diffOf x y c).msb != x.msb

/-- `add`, `adc` with the given carry in -/
def execAdd (s : St) (d o : Opd) (c : Bool) : Option St := do
  let x ← get E s d
  let y ← get E s o
  let s ← put E s (sumOf x y c) d
  some { s with cf := some (carryOf x y c), of := some (overOf x y c) }

/-- `sub`, `sbb` with the given borrow in -/
def execSub (s : St) (d o : Opd) (c : Bool) : Option St := do
  let x ← get E s d
  let y ← get E s o
  let s ← put E s (diffOf x y c) d
  some { s with cf := some (borrowOf x y c), of := some (underOf x y c) }

/-- `and`, `xor` -/
def execBits (f : Digit → Digit → Digit) (s : St) (d o : Opd) : Option St := do
  let x ← get E s d
  let y ← get E s o
  let s ← put E s (f x y) d
  some { s with cf := some false, of := some false }

/-- One instruction other than `ret` -/
def exec (s : St) : Instr → Option St
  | .mov d o => do
    let v ← get E s o
    put E s v d
  | .add d o => execAdd E s d o false
  | .adc d o => do execAdd E s d o (← s.cf)
  | .sub d o => execSub E s d o false
  | .sbb d o => do execSub E s d o (← s.cf)
  | .and d o => execBits E (· &&& ·) s d o
  | .xor d o => execBits E (· ^^^ ·) s d o
  | .adcx d o => do
    let c ← s.cf
    let x ← get E s d
    let y ← get E s o
    let s ← put E s (sumOf x y c) d
    some { s with cf := some (carryOf x y c) }
  | .adox d o => do
    let c ← s.of
    let x ← get E s d
    let y ← get E s o
    let s ← put E s (sumOf x y c) d
    some { s with of := some (carryOf x y c) }
  | .mulx hi lo o => do
    let y ← get E s o
    let m := (s.reg .rdx).toNat * y.toNat
    some ((s.setReg lo (BitVec.ofNat 64 m)).setReg hi (BitVec.ofNat 64 (m / 2 ^ 64)))
  | .push r => do
    let s' := s.setReg .rsp (s.reg .rsp - 8)
    store E s' (s'.reg .rsp) (s.reg r)
  | .pop r => do
    let v ← load E s (s.reg .rsp)
    some ((s.setReg .rsp (s.reg .rsp + 8)).setReg r v)
  | .setc r => do
    let c ← s.cf
    some (s.setReg r ((s.reg r &&& ~~~ 0xFF#64) ||| BitVec.ofNat 64 (bit c)))
  | .bt r => some { s with cf := some ((s.reg r).getLsbD 0), of := none }
  | .ret => none

/-- Run a function up to its `ret`: the state after the return and the address returned to.  `none` if the execution fails or
does not end in `ret`. -/
def run : List Instr → St → Option (St × Digit)
  | [], _ => none
  | .ret :: _, s => do
    let a ← load E s (s.reg .rsp)
    some (s.setReg .rsp (s.reg .rsp + 8), a)
  | i :: is, s => do run is (← exec E s i)

end Secuer.X64
