import Verif.X64.BackendMul

/-!
# Properties of the assembly routines of the default build on x86-64 (C69, C70)

`P434/AMD64/fp_x64_asm.S` and its versions for p503, p610, p751, instruction by instruction (`X64/Code434.lean` …) on the machine
of `X64/Model.lean`.  `Pre` is what a caller provides: aligned arguments at any addresses, room on the stack, the output apart
from the inputs or at a place where the C code puts it (in place).  `Done` is what it gets back: the routine returns to it, with
the registers of the ABI preserved, and with nothing written outside the output and the stack below `rsp`.
-/

set_option maxRecDepth 100000

namespace Secuer.X64

open Secuer.Word Secuer.Field

/-- The array of argument `i` at the call -/
abbrev arg (s : St) (i n : ℕ) : List Digit := wordsAt s.mem (ptr s i) n

/-- The array at the address of argument `i` after the return -/
abbrev res (s s' : St) (i n : ℕ) : List Digit := wordsAt s'.mem (ptr s i) n

/-- The pair of arrays of argument `i` at the call -/
abbrev arg2 (s : St) (i n : ℕ) : F2 := f2At s.mem (ptr s i) n

/-- Below `2p` and congruent to `m / 2^(64 n)` -/
def Mont (l : Level) (c m : ℕ) : Prop := c < 2 * l.p ∧ c * 2 ^ (64 * (tables l).n) ≡ m [MOD l.p]

/-- `ADDC` with gcc or clang on x86-64 (`config.h:258-261`); `carryOut` is an `unsigned int` -/
def addc128 (carryIn : UInt) (a b : Digit) : UInt × Digit :=
  let tempReg : BitVec 128 := a.setWidth 128 + b.setWidth 128 + carryIn.setWidth 128
  (((tempReg >>> 64).setWidth 64 : Digit).setWidth 32, tempReg.setWidth 64)

/-- `SUBC` with gcc or clang on x86-64 (`config.h:264-267`) -/
def subc128 (borrowIn : UInt) (a b : Digit) : UInt × Digit :=
  let tempReg : BitVec 128 := a.setWidth 128 - b.setWidth 128 - borrowIn.setWidth 128
  (((tempReg >>> (128 - 1)).setWidth 64 : Digit).setWidth 32, tempReg.setWidth 64)

/-! ## C69 -/

section C69
variable (l : Level)

/-- **C69.** `mp_add434_asm` …: every call returns with the sum modulo `2^(64 n)` in its output, the portable result word for
word. -/
theorem C69_mp_add (E : Env) (s : St) (hE : E.tab = asmTabs l) (hp : Pre E (mpAddF l).sig s) :
    ∃ s', Done E (mpAddF l).sig (mpAddF l).code s s' ∧
      res s s' 2 (tables l).n = mpAddfastC (arg s 0 (tables l).n) (arg s 1 (tables l).n) ∧
      val (res s s' 2 (tables l).n) =
        (val (arg s 0 (tables l).n) + val (arg s 1 (tables l).n)) % 2 ^ (64 * (tables l).n) := by
  obtain ⟨s', hd, hr⟩ := mpAddF_ok l E s hE hp trivial
  refine ⟨s', hd, hr, ?_⟩
  rw [res, hr]
  exact (add0 (wordsAt_length _ _ _) (wordsAt_length _ _ _)).2

/-- **C69.** `fpadd434_asm` …: every call returns with the portable result in its output, word for word; if the sum is below
`2^(64 n)` then this is the sum, reduced by `2p` if it is not below. -/
theorem C69_fpadd (E : Env) (s : St) (hE : E.tab = asmTabs l) (hp : Pre E (fpaddF l).sig s) :
    ∃ s', Done E (fpaddF l).sig (fpaddF l).code s s' ∧
      res s s' 2 (tables l).n = fpaddC (tables l) (arg s 0 (tables l).n) (arg s 1 (tables l).n) ∧
      (val (arg s 0 (tables l).n) + val (arg s 1 (tables l).n) < 2 ^ (64 * (tables l).n) →
        val (res s s' 2 (tables l).n) = if 2 * l.p ≤ val (arg s 0 (tables l).n) + val (arg s 1 (tables l).n)
          then val (arg s 0 (tables l).n) + val (arg s 1 (tables l).n) - 2 * l.p
          else val (arg s 0 (tables l).n) + val (arg s 1 (tables l).n)) := by
  obtain ⟨s', hd, hr⟩ := fpaddF_ok l E s hE hp trivial
  refine ⟨s', hd, hr, fun h => ?_⟩
  rw [res, hr]
  exact (fpadd_val (good l) (wordsAt_length _ _ _) (wordsAt_length _ _ _) h).2

/-- **C69.** `fpsub434_asm` …: every call returns with the portable result in its output, word for word; if `b ≤ a + 2p` then
this is the difference, with `2p` added if it is negative. -/
theorem C69_fpsub (E : Env) (s : St) (hE : E.tab = asmTabs l) (hp : Pre E (fpsubF l).sig s) :
    ∃ s', Done E (fpsubF l).sig (fpsubF l).code s s' ∧
      res s s' 2 (tables l).n = fpsubC (tables l) (arg s 0 (tables l).n) (arg s 1 (tables l).n) ∧
      (val (arg s 1 (tables l).n) ≤ val (arg s 0 (tables l).n) + 2 * l.p →
        val (res s s' 2 (tables l).n) = if val (arg s 1 (tables l).n) ≤ val (arg s 0 (tables l).n)
          then val (arg s 0 (tables l).n) - val (arg s 1 (tables l).n)
          else val (arg s 0 (tables l).n) + 2 * l.p - val (arg s 1 (tables l).n)) := by
  obtain ⟨s', hd, hr⟩ := fpsubF_ok l E s hE hp trivial
  refine ⟨s', hd, hr, fun h => ?_⟩
  rw [res, hr]
  exact (fpsub_val (good l) (wordsAt_length _ _ _) (wordsAt_length _ _ _) h).2

/-- **C69.** `mp_sub434_p2_asm` …: every call returns with the portable result in its output, word for word; this is
`a - b + 2p` if that is a number of `n` words. -/
theorem C69_sub_p2 (E : Env) (s : St) (hE : E.tab = asmTabs l) (hp : Pre E (subP2F l).sig s) :
    ∃ s', Done E (subP2F l).sig (subP2F l).code s s' ∧
      res s s' 2 (tables l).n = subP2C (tables l) (arg s 0 (tables l).n) (arg s 1 (tables l).n) ∧
      (val (arg s 1 (tables l).n) ≤ val (arg s 0 (tables l).n) + 2 * l.p →
        val (arg s 0 (tables l).n) + 2 * l.p - val (arg s 1 (tables l).n) < 2 ^ (64 * (tables l).n) →
        val (res s s' 2 (tables l).n) = val (arg s 0 (tables l).n) + 2 * l.p - val (arg s 1 (tables l).n)) := by
  obtain ⟨s', hd, hr⟩ := subP2F_ok l E s hE hp trivial
  refine ⟨s', hd, hr, fun h h' => ?_⟩
  rw [res, hr]
  exact (subP2_val (good l) (wordsAt_length _ _ _) (wordsAt_length _ _ _) h h').2

/-- **C69.** What these routines ask of their callers: two inputs and an output of `n` words, at most 80 bytes of stack, and the
output may be one of the inputs. -/
theorem C69_calls (f : Func) (hf : f ∈ [mpAddF l, fpaddF l, fpsubF l, subP2F l]) :
    f.sig.ins = [(tables l).n, (tables l).n] ∧ f.sig.out = (tables l).n ∧ f.sig.stack ≤ 80 ∧ f.sig.io = [] ∧
      (0, 0) ∈ f.sig.al ∧ (1, 0) ∈ f.sig.al := by
  simp only [List.mem_cons, List.not_mem_nil, or_false] at hf
  rcases hf with rfl | rfl | rfl | rfl <;> cases l <;> decide

theorem setWidth128 (a : Digit) : (a.setWidth 128).toNat = a.toNat := by
  rw [BitVec.toNat_setWidth]; have := a.isLt; omega

theorem setWidth128' (c : UInt) : (c.setWidth 128).toNat = c.toNat := by
  rw [BitVec.toNat_setWidth]; have := c.isLt; omega

/-- **C69.** The macros `ADDC` and `SUBC` of `config.h` for x86-64, with 128-bit integers, are those of the portable build for
every carry bit. -/
theorem C69_macros (c : UInt) (hc : c.toNat ≤ 1) (a b : Digit) : addc128 c a b = addc c a b ∧ subc128 c a b = subc c a b := by
  obtain ⟨h1, h2⟩ := addc_spec (c := c) hc a b
  obtain ⟨h3, h4⟩ := subc_spec (c := c) hc a b
  have ha := a.isLt
  have hb := b.isLt
  have h1' : (addc c a b).1.toNat ≤ 1 := h1
  have h3' : (subc c a b).1.toNat ≤ 1 := h3
  have hs := (addc c a b).2.isLt
  have hd := (subc c a b).2.isLt
  constructor
  · have ht : (a.setWidth 128 + b.setWidth 128 + c.setWidth 128 : BitVec 128).toNat = a.toNat + b.toNat + c.toNat := by
      rw [BitVec.toNat_add, BitVec.toNat_add, setWidth128, setWidth128, setWidth128']; omega
    unfold addc128
    dsimp only
    refine Prod.ext (BitVec.eq_of_toNat_eq ?_) (BitVec.eq_of_toNat_eq ?_)
    · dsimp only
      rw [BitVec.toNat_setWidth, BitVec.toNat_setWidth, BitVec.toNat_ushiftRight, Nat.shiftRight_eq_div_pow, ht]
      omega
    · dsimp only
      rw [BitVec.toNat_setWidth, ht]
      omega
  · have ht : (a.setWidth 128 - b.setWidth 128 - c.setWidth 128 : BitVec 128).toNat =
        (subc c a b).2.toNat + (2 ^ 128 - 2 ^ 64) * (subc c a b).1.toNat := by
      rw [BitVec.toNat_sub, BitVec.toNat_sub, setWidth128, setWidth128, setWidth128']; omega
    unfold subc128
    dsimp only
    refine Prod.ext (BitVec.eq_of_toNat_eq ?_) (BitVec.eq_of_toNat_eq ?_)
    · dsimp only
      rw [BitVec.toNat_setWidth, BitVec.toNat_setWidth, BitVec.toNat_ushiftRight, Nat.shiftRight_eq_div_pow, ht]
      have : (subc c a b).1.toNat = 0 ∨ (subc c a b).1.toNat = 1 := by omega
      rcases this with h | h <;> rw [h] <;> omega
    · dsimp only
      rw [BitVec.toNat_setWidth, ht]
      omega

end C69

/-- A call of `fpadd434_asm`, and what comes out for concrete arguments -/
example : Pre (callEnv .l434) (fpaddF .l434).sig (callSt [words434.p, words434.p]) ∧
    arg (callSt [words434.p, words434.p]) 0 7 = words434.p ∧
    fpaddX .l434 words434.p words434.p = List.replicate 7 0 := by
  refine ⟨pre_call _ _ (by decide) (by decide) (Or.inl (by decide)), wordsAt_callMem (by norm_num) rfl rfl (by norm_num), ?_⟩
  rw [fpaddX_eq .l434 rfl rfl]
  decide +kernel

/-- The state of a call with all three arguments at the same address -/
def inPlace (x : List Digit) : St where
  reg
    | .rdi => 0x10000
    | .rsi => 0x10000
    | .rdx => 0x10000
    | .rsp => 0x100000
    | _ => 0
  cf := none
  of := none
  mem := callMem [x]

/-- A call in place (`fpadd(a, a, a)`) meets the conventions as well. -/
example (x : List Digit) : Pre (callEnv .l434) (fpaddF .l434).sig (inPlace x) := by
  have hp : ∀ i, (ptr (inPlace x) i).toNat = 0x10000 := by
    intro i
    rcases i with _ | _ | i <;> rfl
  have hs : ∀ i, (fpaddF .l434).sig.size i ≤ 7 := by
    intro i
    rcases i with _ | _ | _ | i
    · decide
    · decide
    · decide
    · rw [size_big _ (by show 2 < _; omega)]; norm_num
  have hrsp : ((inPlace x).reg .rsp).toNat = 0x100000 := rfl
  have hk : (fpaddF .l434).sig.stack = 56 := rfl
  constructor
  · rw [hrsp]
  · rw [hrsp, hk]; norm_num
  · rw [hrsp]; norm_num
  · intros; rfl
  · intros; rfl
  · intro i _; rw [hp]
  · intro i _; rw [hp]; have := hs i; omega
  · intros; rfl
  · intros; rfl
  · intro i _; rw [hp, hrsp, hk]; have := hs i; omega
  · intro i hi
    left
    have hi : i < 2 := hi
    refine ⟨0, ?_, by rw [hp, hp]⟩
    interval_cases i <;> decide
  · intros; rfl
  · intro i hi
    exact absurd hi (by show i ∉ []; simp)

/-! ## C70 -/

section C70
variable (k : Small)

theorem mont_of {l : Level} {c m : ℕ} (h : IsMont (tables l).n l.p c m) (hm : m < 2 ^ (64 * (tables l).n) * l.p) : Mont l c m := by
  obtain ⟨q, hq, hv⟩ := h
  refine ⟨lt_two_of_exact hq hm hv, ?_⟩
  rw [hv, Nat.ModEq, Nat.add_mul_mod_self_right]

/-- **C70.** `fpmul434_asm`, `fpmul503_asm`, `fpmul610_asm`: every call with inputs below `120 p` whose product is below
`2^(64 n) p` returns with the Montgomery product in its output, the portable result word for word. -/
theorem C70_fpmul (E : Env) (s : St) (hE : E.tab = asmTabs k.level) (hp : Pre E (fpmulF k).sig s)
    (h0 : val (arg s 0 (tables k.level).n) < 120 * k.level.p) (h1 : val (arg s 1 (tables k.level).n) < 120 * k.level.p)
    (h : val (arg s 0 (tables k.level).n) * val (arg s 1 (tables k.level).n) < 2 ^ (64 * (tables k.level).n) * k.level.p) :
    ∃ s', Done E (fpmulF k).sig (fpmulF k).code s s' ∧
      res s s' 2 (tables k.level).n = fpmulC (tables k.level) (arg s 0 (tables k.level).n) (arg s 1 (tables k.level).n) ∧
      Mont k.level (val (res s s' 2 (tables k.level).n))
        (val (arg s 0 (tables k.level).n) * val (arg s 1 (tables k.level).n)) := by
  obtain ⟨s', hd, hr⟩ := fpmulF_ok k E s hE hp ⟨h0, h1, h⟩
  refine ⟨s', hd, hr, ?_⟩
  rw [res, hr]
  exact mont_of (fpmul_isMont (good _) (wordsAt_length _ _ _) (wordsAt_length _ _ _) h).2 h

/-- **C70.** `fp2sqr434_c0_asm` …: every call with both parts of the input below `4p` returns with the real part of the square in
its output, the portable result word for word. -/
theorem C70_fp2sqr_c0 (E : Env) (s : St) (hE : E.tab = asmTabs k.level) (hp : Pre E (sqr0F k).sig s)
    (h0 : val (arg2 s 0 (tables k.level).n).c0 < 4 * k.level.p) (h1 : val (arg2 s 0 (tables k.level).n).c1 < 4 * k.level.p) :
    ∃ s', Done E (sqr0F k).sig (sqr0F k).code s s' ∧
      res s s' 1 (tables k.level).n = (fp2sqrC (tables k.level) (arg2 s 0 (tables k.level).n)).c0 ∧
      val (res s s' 1 (tables k.level).n) < 2 * k.level.p ∧
      val (res s s' 1 (tables k.level).n) * 2 ^ (64 * (tables k.level).n) + val (arg2 s 0 (tables k.level).n).c1 ^ 2 ≡
        val (arg2 s 0 (tables k.level).n).c0 ^ 2 [MOD k.level.p] := by
  obtain ⟨s', hd, hr⟩ := sqr0F_ok k E s hE hp ⟨h0, h1⟩
  refine ⟨s', hd, hr, ?_⟩
  rw [res, hr]
  obtain ⟨l0, l1⟩ := f2At_length s.mem (ptr s 0) (tables k.level).n
  dsimp only [arg2] at *
  generalize f2At s.mem (ptr s 0) (tables k.level).n = a at *
  have g := good k.level
  have hr := g.room
  obtain ⟨r1, v1⟩ := add0_exact l0 l1 (by omega)
  obtain ⟨r2, v2⟩ := subP4_val g l0 l1 (by omega) (by omega)
  have hlt : val (addLoop 0 a.c0 a.c1).2 * val (subP4 (tables k.level) a.c0 a.c1) <
      2 ^ (64 * (tables k.level).n) * k.level.p :=
    mul_bound g (B := 8) (C := 8) (by omega) (by omega) (by norm_num)
  obtain ⟨h2, h3⟩ := mont_of (fpmul_isMont g r1 r2 hlt).2 hlt
  refine ⟨h2, (Nat.ModEq.add_right _ h3).trans ?_⟩
  rw [v1, v2, Nat.modEq_iff_dvd]
  push_cast [Nat.cast_sub (show val a.c1 ≤ val a.c0 + 4 * k.level.p by omega)]
  exact ⟨-(4 * ((val a.c0 : ℤ) + val a.c1)), by ring⟩

/-- **C70.** `fp2sqr434_c1_asm` …: every call with both parts of the input below `4p` returns with the imaginary part of the
square in its output, the portable result word for word. -/
theorem C70_fp2sqr_c1 (E : Env) (s : St) (hE : E.tab = asmTabs k.level) (hp : Pre E (sqr1F k).sig s)
    (h0 : val (arg2 s 0 (tables k.level).n).c0 < 4 * k.level.p) (h1 : val (arg2 s 0 (tables k.level).n).c1 < 4 * k.level.p) :
    ∃ s', Done E (sqr1F k).sig (sqr1F k).code s s' ∧
      res s s' 1 (tables k.level).n = (fp2sqrC (tables k.level) (arg2 s 0 (tables k.level).n)).c1 ∧
      Mont k.level (val (res s s' 1 (tables k.level).n))
        (2 * (val (arg2 s 0 (tables k.level).n).c0 * val (arg2 s 0 (tables k.level).n).c1)) := by
  obtain ⟨s', hd, hr⟩ := sqr1F_ok k E s hE hp ⟨h0, h1⟩
  refine ⟨s', hd, hr, ?_⟩
  rw [res, hr]
  obtain ⟨l0, l1⟩ := f2At_length s.mem (ptr s 0) (tables k.level).n
  dsimp only [arg2] at *
  generalize f2At s.mem (ptr s 0) (tables k.level).n = a at *
  have g := good k.level
  have hr := g.room
  obtain ⟨r1, v1⟩ := add0_exact l0 l0 (by omega)
  have hlt : val (addLoop 0 a.c0 a.c0).2 * val a.c1 < 2 ^ (64 * (tables k.level).n) * k.level.p :=
    mul_bound g (B := 8) (C := 4) (by omega) h1 (by norm_num)
  have h2 := mont_of (fpmul_isMont g r1 l1 hlt).2 hlt
  rw [v1, ← Nat.two_mul, Nat.mul_assoc] at h2
  exact h2

/-- **C70.** `fp2mul434_c0_asm` …: every call with the parts of the first input below `16p` and those of the second below `8p`
returns with the real part of the product in its output. -/
theorem C70_fp2mul_c0 (E : Env) (s : St) (hE : E.tab = asmTabs k.level) (hp : Pre E (mul0F k).sig s)
    (h0 : val (arg2 s 0 (tables k.level).n).c0 < 16 * k.level.p) (h1 : val (arg2 s 0 (tables k.level).n).c1 < 16 * k.level.p)
    (h2 : val (arg2 s 1 (tables k.level).n).c0 < 8 * k.level.p) (h3 : val (arg2 s 1 (tables k.level).n).c1 < 8 * k.level.p) :
    ∃ s', Done E (mul0F k).sig (mul0F k).code s s' ∧
      val (res s s' 2 (tables k.level).n) < 2 * k.level.p ∧
      val (res s s' 2 (tables k.level).n) * 2 ^ (64 * (tables k.level).n) +
          val (arg2 s 0 (tables k.level).n).c1 * val (arg2 s 1 (tables k.level).n).c1 ≡
        val (arg2 s 0 (tables k.level).n).c0 * val (arg2 s 1 (tables k.level).n).c0 [MOD k.level.p] := by
  obtain ⟨s', hd, hr⟩ := mul0F_ok k E s hE hp ⟨⟨h0, h1⟩, h2, h3⟩
  refine ⟨s', hd, ?_⟩
  have g := good k.level
  obtain ⟨h4, h5⟩ := mont_of hr (dot_lt g h0 h1 h2)
  refine ⟨h4, (Nat.ModEq.add_right _ h5).trans ?_⟩
  rw [Nat.modEq_iff_dvd]
  push_cast [Nat.cast_sub h3.le]
  exact ⟨-(8 * (val (arg2 s 0 (tables k.level).n).c1 : ℤ)), by ring⟩

/-- **C70.** `fp2mul434_c1_asm` …: every call with the parts of the first input below `16p` and those of the second below `8p`
returns with the imaginary part of the product in its output, the portable result word for word. -/
theorem C70_fp2mul_c1 (E : Env) (s : St) (hE : E.tab = asmTabs k.level) (hp : Pre E (mul1F k).sig s)
    (h0 : val (arg2 s 0 (tables k.level).n).c0 < 16 * k.level.p) (h1 : val (arg2 s 0 (tables k.level).n).c1 < 16 * k.level.p)
    (h2 : val (arg2 s 1 (tables k.level).n).c0 < 8 * k.level.p) (h3 : val (arg2 s 1 (tables k.level).n).c1 < 8 * k.level.p) :
    ∃ s', Done E (mul1F k).sig (mul1F k).code s s' ∧
      res s s' 2 (tables k.level).n =
        (fp2mulC (tables k.level) (arg2 s 0 (tables k.level).n) (arg2 s 1 (tables k.level).n)).c1 ∧
      Mont k.level (val (res s s' 2 (tables k.level).n))
        (val (arg2 s 0 (tables k.level).n).c0 * val (arg2 s 1 (tables k.level).n).c1 +
          val (arg2 s 0 (tables k.level).n).c1 * val (arg2 s 1 (tables k.level).n).c0) := by
  obtain ⟨s', hd, hr⟩ := mul1F_ok k E s hE hp ⟨⟨h0, h1⟩, h2, h3⟩
  refine ⟨s', hd, hr, ?_⟩
  rw [res, hr]
  obtain ⟨l0, l1⟩ := f2At_length s.mem (ptr s 0) (tables k.level).n
  obtain ⟨l2, l3⟩ := f2At_length s.mem (ptr s 1) (tables k.level).n
  have g := good k.level
  obtain ⟨-, -, hm, -⟩ := fp2mul_isMont g l0 l1 l2 l3 ⟨h0, h1⟩ ⟨h2, h3⟩ (by norm_num) (by norm_num) (by norm_num)
  refine mont_of hm ?_
  have q1 := mul_bound g (x := 2 * val (arg2 s 0 (tables k.level).n).c0) (B := 32) (C := 8) (by omega) h3 (by norm_num)
  have q2 := mul_bound g (x := 2 * val (arg2 s 0 (tables k.level).n).c1) (B := 32) (C := 8) (by omega) h2 (by norm_num)
  rw [Nat.mul_assoc] at q1 q2
  exact half_lt q1 q2

/-- **C70.** The routines for p751: product, reduction, `a - b + 4p`, and the additions and subtractions of double width, all
with the portable result word for word. -/
theorem C70_751 (E : Env) (s : St) (hE : E.tab = asmTabs .l751) :
    (Pre E mul751F.sig s → val (arg s 0 12) < 2 ^ 15 * Level.l751.p → val (arg s 1 12) < 2 ^ 15 * Level.l751.p →
      ∃ s', Done E mul751F.sig mul751F.code s s' ∧ mpMul 12 (arg s 0 12) (arg s 1 12) = some (res s s' 2 24) ∧
        val (res s s' 2 24) = val (arg s 0 12) * val (arg s 1 12)) ∧
    (Pre E rdc751F.sig s → val (arg s 0 24) < 2 ^ 768 * Level.l751.p →
      ∃ s', Done E rdc751F.sig rdc751F.code s s' ∧ rdcMont words751 (arg s 0 24) = some (res s s' 1 12) ∧
        Mont .l751 (val (res s s' 1 12)) (val (arg s 0 24))) ∧
    (Pre E subP4751F.sig s →
      ∃ s', Done E subP4751F.sig subP4751F.code s s' ∧ res s s' 2 12 = subP4 words751 (arg s 0 12) (arg s 1 12)) ∧
    (Pre E subadd751F.sig s →
      ∃ s', Done E subadd751F.sig subadd751F.code s s' ∧ res s s' 2 24 = mpSubaddfast words751 (arg s 0 24) (arg s 1 24)) ∧
    (Pre E dblsub751F.sig s →
      ∃ s', Done E dblsub751F.sig dblsub751F.code s s' ∧
        res s s' 2 24 = mpDblsubfast (arg s 0 24) (arg s 1 24) (arg s 2 24)) := by
  refine ⟨fun hp h0 h1 => ?_, fun hp h0 => ?_, fun hp => subP4751F_ok E s hE hp trivial, fun hp => subadd751F_ok E s hE hp trivial,
    fun hp => dblsub751F_ok E s hE hp trivial⟩
  · obtain ⟨s', hd, hr⟩ := mul751F_ok E s hE hp ⟨h0, h1⟩
    refine ⟨s', hd, hr, ?_⟩
    obtain ⟨m, e, -, w⟩ := mpMul_spec (n := 12) (by norm_num) (by norm_num) (wordsAt_length s.mem (ptr s 0) 12)
      (wordsAt_length s.mem (ptr s 1) 12)
    have := Option.some.inj (hr.symm.trans e)
    rw [res, this, w]
  · obtain ⟨s', hd, hr⟩ := rdc751F_ok E s hE hp h0
    refine ⟨s', hd, hr, ?_⟩
    obtain ⟨c, q, e, -, u, v⟩ := rdcMont_exact (good .l751) (wordsAt_length s.mem (ptr s 0) 24) h0
    have := Option.some.inj (hr.symm.trans e)
    rw [res, this]
    exact mont_of ⟨q, u, v⟩ h0

/-- **C70.** What the routines for products ask of their callers. -/
theorem C70_calls :
    ((fpmulF k).sig.ins = [(tables k.level).n, (tables k.level).n] ∧ (fpmulF k).sig.out = (tables k.level).n ∧
      (0, 0) ∈ (fpmulF k).sig.al ∧ (1, 0) ∈ (fpmulF k).sig.al) ∧
    ((sqr0F k).sig.ins = [2 * (tables k.level).n] ∧ (sqr0F k).sig.out = 2 * (tables k.level).n) ∧
    ((sqr1F k).sig.ins = [2 * (tables k.level).n] ∧ (sqr1F k).sig.out = (tables k.level).n ∧
      (0, 8 * (tables k.level).n) ∈ (sqr1F k).sig.al) ∧
    ((mul0F k).sig.ins = [2 * (tables k.level).n, 2 * (tables k.level).n] ∧ (mul0F k).sig.out = (tables k.level).n) ∧
    ((mul1F k).sig.ins = [2 * (tables k.level).n, 2 * (tables k.level).n] ∧ (mul1F k).sig.out = (tables k.level).n ∧
      (0, 8 * (tables k.level).n) ∈ (mul1F k).sig.al ∧ (1, 8 * (tables k.level).n) ∈ (mul1F k).sig.al) ∧
    (∀ f ∈ [fpmulF k, sqr0F k, sqr1F k, mul0F k, mul1F k, mul751F, rdc751F, subP4751F, subadd751F, dblsub751F],
      f.sig.stack ≤ 200) ∧
    (mul751F.sig.ins = [12, 12] ∧ mul751F.sig.out = 24) ∧ (rdc751F.sig.ins = [24] ∧ rdc751F.sig.out = 12) := by
  cases k <;> decide

/-- **C70.** `fpmul_mont`, `fp2sqr_mont`, `fp2mul_mont` of the default build, made of the calls: on inputs in range the first two
are the portable functions, the third is below `2p` and the product. -/
theorem C70_fpx (l : Level) [Fact l.p.Prime] :
    (∀ a b : List Digit, a.length = (tables l).n → b.length = (tables l).n → val a < 120 * l.p → val b < 120 * l.p →
      val a * val b < 2 ^ (64 * (tables l).n) * l.p → fpmulX l a b = fpmulC (tables l) a b) ∧
    (∀ a : F2, Rng2 (tables l) (4 * l.p) a → fp2sqrX l a = fp2sqrC (tables l) a) ∧
    (∀ a b : F2, Rng2 (tables l) (16 * l.p) a → Rng2 (tables l) (8 * l.p) b →
      Rng2 (tables l) (2 * l.p) (fp2mulX l a b) ∧
        f2Val (tables l) l.p (fp2mulX l a b) = f2Val (tables l) l.p a * f2Val (tables l) l.p b) :=
  ⟨fun _ _ la lb h0 h1 h => fpmulX_eq l la lb h0 h1 h,
    fun _ ha => fp2sqrX_eq l ha.c0.len ha.c1.len ⟨ha.c0.lt, ha.c1.lt⟩,
    fun _ _ ha hb => fp2mulX_spec l ha hb (le_refl _) (le_refl _)⟩

end C70

/-- A call of `fpmul434_asm` with one and `p`. -/
example : Pre (callEnv .l434) (fpmulF .s434).sig (callSt [words434.one, words434.p]) ∧
    val words434.p < 120 * Level.l434.p ∧ val words434.one * val words434.p < 2 ^ (64 * 7) * Level.l434.p :=
  ⟨pre_call _ _ (by decide) (by decide) (Or.inl (by decide)), by decide +kernel, by decide +kernel⟩

/-- A call of `mul751_asm` and one of `mp_dblsub751x2_asm` -/
example : Pre (callEnv .l751) mul751F.sig (callSt [words751.one, words751.p]) ∧
    Pre (callEnv .l751) dblsub751F.sig (callSt [List.replicate 24 5, List.replicate 24 6, List.replicate 24 7]) :=
  ⟨pre_call _ _ (by decide) (by decide) (Or.inl (by decide)), pre_call _ _ (by decide) (by decide) (Or.inr (by decide))⟩

end Secuer.X64
