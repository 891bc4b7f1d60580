import Verif.Arm.Backend
import Verif.Arm.Regs
import Verif.Props.BuildProps
import Verif.Props.WSidhProps
import Verif.Props.X64Props

/-!
# Properties of the assembly functions and of the protocol on 64-bit ARM (C85 - C90)

`P434/ARM64/fp_arm64_asm.S` and its versions for p503, p610, p751, instruction by instruction (`Arm/Code434.lean` …) on the machine
of `Arm/Model.lean`.  `Pre` is what a caller provides, `Done` what it gets back: a return with the registers of the procedure call
standard preserved and with nothing written outside the output and the stack below `sp`.
-/

set_option maxRecDepth 100000

namespace Secuer.Arm

open Secuer.Word Secuer.Field
open Secuer.X64 (Env Sig wordsAt wordsAt_length Mont mont_of)

/-- The array of argument `i` at the call -/
abbrev arg (s : St) (i n : ℕ) : List Digit := wordsAt s.mem (ptr s i) n

/-- The array at the address of argument `i` after the return -/
abbrev res (s s' : St) (i n : ℕ) : List Digit := wordsAt s'.mem (ptr s i) n

/-! ## C85 -/

section C85
variable (l : Level)

/-- **C85.** `mp_add434_asm` …: every call returns with the sum modulo `2^(64 n)` in its output, the portable result word for
word. -/
theorem C85_mp_add (E : Env) (s : St) (hE : E.tab = asmTab l) (hp : Pre E (mpAddF l).sig s) :
    ∃ s', Done E (mpAddF l).sig (mpAddF l).code s s' ∧
      res s s' 2 (tables l).n = mpAddfastC (arg s 0 (tables l).n) (arg s 1 (tables l).n) ∧
      val (res s s' 2 (tables l).n) =
        (val (arg s 0 (tables l).n) + val (arg s 1 (tables l).n)) % 2 ^ (64 * (tables l).n) := by
  obtain ⟨s', hd, hr⟩ := mpAddF_ok l E s hE hp trivial
  refine ⟨s', hd, hr, ?_⟩
  rw [res, hr]
  exact (add0 (wordsAt_length _ _ _) (wordsAt_length _ _ _)).2

/-- **C85.** `fpadd434_asm` …: every call returns with the portable result in its output, word for word; if the sum is below
`2^(64 n)` then this is the sum, reduced by `2p` if it is not below. -/
theorem C85_fpadd (E : Env) (s : St) (hE : E.tab = asmTab l) (hp : Pre E (fpaddF l).sig s) :
    ∃ s', Done E (fpaddF l).sig (fpaddF l).code s s' ∧
      res s s' 2 (tables l).n = fpaddC (tables l) (arg s 0 (tables l).n) (arg s 1 (tables l).n) ∧
      (val (arg s 0 (tables l).n) + val (arg s 1 (tables l).n) < 2 ^ (64 * (tables l).n) →
        val (res s s' 2 (tables l).n) = if 2 * l.p ≤ val (arg s 0 (tables l).n) + val (arg s 1 (tables l).n)
          then val (arg s 0 (tables l).n) + val (arg s 1 (tables l).n) - 2 * l.p
          else val (arg s 0 (tables l).n) + val (arg s 1 (tables l).n)) := by
  obtain ⟨s', hd, hr⟩ := fpaddF_ok l E s hE hp trivial
  refine ⟨s', hd, hr, fun h => ?_⟩
  rw [res, hr]
  exact (fpadd_val (good l) (wordsAt_length _ _ _) (wordsAt_length _ _ _) h).2

/-- **C85.** `fpsub434_asm` …: every call returns with the portable result in its output, word for word; if `b ≤ a + 2p` then
this is the difference, with `2p` added if it is negative. -/
theorem C85_fpsub (E : Env) (s : St) (hE : E.tab = asmTab l) (hp : Pre E (fpsubF l).sig s) :
    ∃ s', Done E (fpsubF l).sig (fpsubF l).code s s' ∧
      res s s' 2 (tables l).n = fpsubC (tables l) (arg s 0 (tables l).n) (arg s 1 (tables l).n) ∧
      (val (arg s 1 (tables l).n) ≤ val (arg s 0 (tables l).n) + 2 * l.p →
        val (res s s' 2 (tables l).n) = if val (arg s 1 (tables l).n) ≤ val (arg s 0 (tables l).n)
          then val (arg s 0 (tables l).n) - val (arg s 1 (tables l).n)
          else val (arg s 0 (tables l).n) + 2 * l.p - val (arg s 1 (tables l).n)) := by
  obtain ⟨s', hd, hr⟩ := fpsubF_ok l E s hE hp trivial
  refine ⟨s', hd, hr, fun h => ?_⟩
  rw [res, hr]
  exact (fpsub_val (good l) (wordsAt_length _ _ _) (wordsAt_length _ _ _) h).2

/-- **C85.** `mp_sub434_p2_asm`, `mp_sub434_p4_asm` …: every call returns with the portable result in its output, word for word;
this is `a - b + 2p` (`a - b + 4p`) if that is a number of `n` words. -/
theorem C85_sub (E : Env) (s : St) (hE : E.tab = asmTab l) :
    (Pre E (subP2F l).sig s → ∃ s', Done E (subP2F l).sig (subP2F l).code s s' ∧
      res s s' 2 (tables l).n = subP2C (tables l) (arg s 0 (tables l).n) (arg s 1 (tables l).n) ∧
      (val (arg s 1 (tables l).n) ≤ val (arg s 0 (tables l).n) + 2 * l.p →
        val (arg s 0 (tables l).n) + 2 * l.p - val (arg s 1 (tables l).n) < 2 ^ (64 * (tables l).n) →
        val (res s s' 2 (tables l).n) = val (arg s 0 (tables l).n) + 2 * l.p - val (arg s 1 (tables l).n))) ∧
    (Pre E (subP4F l).sig s → ∃ s', Done E (subP4F l).sig (subP4F l).code s s' ∧
      res s s' 2 (tables l).n = subP4 (tables l) (arg s 0 (tables l).n) (arg s 1 (tables l).n) ∧
      (val (arg s 1 (tables l).n) ≤ val (arg s 0 (tables l).n) + 4 * l.p →
        val (arg s 0 (tables l).n) + 4 * l.p - val (arg s 1 (tables l).n) < 2 ^ (64 * (tables l).n) →
        val (res s s' 2 (tables l).n) = val (arg s 0 (tables l).n) + 4 * l.p - val (arg s 1 (tables l).n))) := by
  refine ⟨fun hp => ?_, fun hp => ?_⟩
  · obtain ⟨s', hd, hr⟩ := subP2F_ok l E s hE hp trivial
    refine ⟨s', hd, hr, fun h h' => ?_⟩
    rw [res, hr]
    exact (subP2_val (good l) (wordsAt_length _ _ _) (wordsAt_length _ _ _) h h').2
  · obtain ⟨s', hd, hr⟩ := subP4F_ok l E s hE hp trivial
    refine ⟨s', hd, hr, fun h h' => ?_⟩
    rw [res, hr]
    exact (subP4_val (good l) (wordsAt_length _ _ _) (wordsAt_length _ _ _) h h').2

/-- **C85.** `rdc434_asm` …: every call with an input below `2^(64 n) p` returns with the Montgomery reduction in its output, the
portable result word for word. -/
theorem C85_rdc (E : Env) (s : St) (hE : E.tab = asmTab l) (hp : Pre E (rdcF l).sig s)
    (h : val (arg s 0 (2 * (tables l).n)) < 2 ^ (64 * (tables l).n) * l.p) :
    ∃ s', Done E (rdcF l).sig (rdcF l).code s s' ∧
      rdcMont (tables l) (arg s 0 (2 * (tables l).n)) = some (res s s' 1 (tables l).n) ∧
      Mont l (val (res s s' 1 (tables l).n)) (val (arg s 0 (2 * (tables l).n))) := by
  obtain ⟨s', hd, hr⟩ := rdcF_ok l E s hE hp h
  refine ⟨s', hd, hr, ?_⟩
  obtain ⟨c, q, e, -, u, v⟩ := rdcMont_exact (good l) (wordsAt_length s.mem (ptr s 0) (2 * (tables l).n)) h
  have := Option.some.inj (hr.symm.trans e)
  rw [res, this]
  exact mont_of ⟨q, u, v⟩ h

/-- **C85.** `mp_subadd434x2_asm`, `mp_dblsub434x2_asm` …: every call returns with the portable result in its output, word for
word. -/
theorem C85_double (E : Env) (s : St) (hE : E.tab = asmTab l) :
    (Pre E (subaddF l).sig s → ∃ s', Done E (subaddF l).sig (subaddF l).code s s' ∧
      res s s' 2 (2 * (tables l).n) =
        mpSubaddfast (tables l) (arg s 0 (2 * (tables l).n)) (arg s 1 (2 * (tables l).n))) ∧
    (Pre E (dblsubF l).sig s → ∃ s', Done E (dblsubF l).sig (dblsubF l).code s s' ∧
      res s s' 2 (2 * (tables l).n) =
        mpDblsubfast (arg s 0 (2 * (tables l).n)) (arg s 1 (2 * (tables l).n)) (arg s 2 (2 * (tables l).n))) :=
  ⟨fun hp => subaddF_ok l E s hE hp trivial, fun hp => dblsubF_ok l E s hE hp trivial⟩

/-- **C85.** `mul434_asm`, `mul610_asm`: every call with inputs below `120 p` returns with the product in its output, the portable
result word for word. -/
theorem C85_mul (hl : l = .l434 ∨ l = .l610) (E : Env) (s : St) (hE : E.tab = asmTab l) (hp : Pre E (mulF l).sig s)
    (h0 : val (arg s 0 (tables l).n) < 120 * l.p) (h1 : val (arg s 1 (tables l).n) < 120 * l.p) :
    ∃ s', Done E (mulF l).sig (mulF l).code s s' ∧
      val (res s s' 2 (2 * (tables l).n)) = val (arg s 0 (tables l).n) * val (arg s 1 (tables l).n) ∧
      mpMul (tables l).n (arg s 0 (tables l).n) (arg s 1 (tables l).n) = some (res s s' 2 (2 * (tables l).n)) := by
  obtain ⟨s', hd, hr⟩ := mulF_ok l E s hE hp ⟨h0, h1⟩
  have hm : mulVal l (val (arg s 0 (tables l).n)) (val (arg s 1 (tables l).n)) =
      val (arg s 0 (tables l).n) * val (arg s 1 (tables l).n) := by
    rcases hl with rfl | rfl <;> rfl
  have hv := hr.trans hm
  refine ⟨s', hd, hv, ?_⟩
  obtain ⟨c, e, lc, v⟩ := mpMul_spec (n := (tables l).n) (by cases l <;> decide) (by cases l <;> decide)
    (wordsAt_length s.mem (ptr s 0) (tables l).n) (wordsAt_length s.mem (ptr s 1) (tables l).n)
  rw [e]
  exact congrArg some (val_inj (lc.trans (wordsAt_length _ _ _).symm) (v.trans hv.symm))

/-- **C85.** What the functions ask of their callers: the lengths of the inputs and of the output, at most 96 bytes of stack, and
the output of the functions of single length may be one of the inputs. -/
theorem C85_calls :
    (∀ f ∈ [mpAddF l, fpaddF l, fpsubF l, subP2F l, subP4F l], f.sig.ins = [(tables l).n, (tables l).n] ∧
      f.sig.out = (tables l).n ∧ f.sig.stack ≤ 96 ∧ f.sig.io = [] ∧ (0, 0) ∈ f.sig.al ∧ (1, 0) ∈ f.sig.al) ∧
    ((mulF l).sig.ins = [(tables l).n, (tables l).n] ∧ (mulF l).sig.out = 2 * (tables l).n ∧ (mulF l).sig.stack ≤ 96) ∧
    ((rdcF l).sig.ins = [2 * (tables l).n] ∧ (rdcF l).sig.out = (tables l).n ∧ (rdcF l).sig.stack ≤ 96) ∧
    ((subaddF l).sig.ins = [2 * (tables l).n, 2 * (tables l).n] ∧ (subaddF l).sig.out = 2 * (tables l).n ∧
      (subaddF l).sig.stack ≤ 96) ∧
    ((dblsubF l).sig.ins = [2 * (tables l).n, 2 * (tables l).n, 2 * (tables l).n] ∧ (dblsubF l).sig.io = [2] ∧
      (dblsubF l).sig.stack ≤ 96) := by
  cases l <;> decide

end C85

/-- Calls with concrete arguments that meet the conventions -/
example : Pre (callEnv .l434) (fpaddF .l434).sig (callSt [words434.p, words434.p]) ∧
    arg (callSt [words434.p, words434.p]) 0 7 = words434.p ∧
    fpaddA .l434 words434.p words434.p = List.replicate 7 0 := by
  refine ⟨pre_call _ _ (by decide) (by decide) (Or.inl (by decide)), wordsAt_callMem (by norm_num) rfl rfl (by norm_num), ?_⟩
  rw [fpaddA_eq .l434 rfl rfl]
  decide +kernel

example : Pre (callEnv .l610) (mulF .l610).sig (callSt [words610.one, words610.p]) ∧ val words610.p < 120 * Level.l610.p ∧
    Pre (callEnv .l751) (rdcF .l751).sig (callSt [List.replicate 24 5]) ∧
    Pre (callEnv .l503) (dblsubF .l503).sig (callSt [List.replicate 16 5, List.replicate 16 6, List.replicate 16 7]) :=
  ⟨pre_call _ _ (by decide) (by decide) (Or.inl (by decide)), by decide +kernel,
    pre_call _ _ (by decide) (by decide) (Or.inl (by decide)), pre_call _ _ (by decide) (by decide) (Or.inr (by decide))⟩

/-! ## C87 -/

/-- **C87.** `mul503_asm`: what every call with inputs `a`, `b` below `120 p` stores, exactly.  All words are those of the product but
word 13: there is word 5 of the product of the upper halves (`P503/ARM64/fp_arm64_asm.S:464-465`: stored before the carry is
added).  So the result is the product exactly if these two words agree. -/
theorem C87_exact (E : Env) (s : St) (hE : E.tab = asmTab .l503) (hp : Pre E (mulF .l503).sig s)
    (h0 : val (arg s 0 8) < 120 * Level.l503.p) (h1 : val (arg s 1 8) < 120 * Level.l503.p) :
    ∃ s', Done E (mulF .l503).sig (mulF .l503).code s s' ∧
      let a := val (arg s 0 8)
      let b := val (arg s 1 8)
      val (res s s' 2 16) =
        a * b % 2 ^ 832 + 2 ^ 832 * (a / 2 ^ 256 * (b / 2 ^ 256) / 2 ^ 320 % 2 ^ 64) + 2 ^ 896 * (a * b / 2 ^ 896) ∧
      (val (res s s' 2 16) = a * b ↔ a / 2 ^ 256 * (b / 2 ^ 256) / 2 ^ 320 % 2 ^ 64 = a * b / 2 ^ 832 % 2 ^ 64) := by
  obtain ⟨s', hd, hr⟩ := mulF_ok .l503 E s hE hp ⟨h0, h1⟩
  refine ⟨s', hd, ?_⟩
  have hr' : val (res s s' 2 16) = mul503Val (val (arg s 0 8)) (val (arg s 1 8)) := hr
  intro a b
  have e : val (res s s' 2 16) =
      a * b % 2 ^ 832 + 2 ^ 832 * (a / 2 ^ 256 * (b / 2 ^ 256) / 2 ^ 320 % 2 ^ 64) + 2 ^ 896 * (a * b / 2 ^ 896) := hr'
  refine ⟨e, ?_⟩
  rw [e]
  generalize a / 2 ^ 256 * (b / 2 ^ 256) / 2 ^ 320 % 2 ^ 64 = w
  have h1 := Nat.div_add_mod (a * b) (2 ^ 832)
  have h2 := Nat.div_add_mod (a * b / 2 ^ 832) (2 ^ 64)
  rw [Nat.div_div_eq_div_mul, ← pow_add] at h2
  have h3 : a * b = 2 ^ 896 * (a * b / 2 ^ 896) + 2 ^ 832 * (a * b / 2 ^ 832 % 2 ^ 64) + a * b % 2 ^ 832 := by
    calc a * b = 2 ^ 832 * (a * b / 2 ^ 832) + a * b % 2 ^ 832 := h1.symm
      _ = 2 ^ 832 * (2 ^ 64 * (a * b / 2 ^ (832 + 64)) + a * b / 2 ^ 832 % 2 ^ 64) + a * b % 2 ^ 832 := by rw [h2]
      _ = _ := by rw [Nat.mul_add, ← Nat.mul_assoc, ← pow_add]
  generalize a * b / 2 ^ 832 % 2 ^ 64 = v at *
  generalize a * b / 2 ^ 896 = u at *
  generalize a * b % 2 ^ 832 = z at *
  generalize a * b = m at *
  have hpos : 0 < 2 ^ 832 := Nat.two_pow_pos _
  generalize 2 ^ 896 = x at *
  generalize 2 ^ 832 = y at *
  constructor
  · intro h
    rw [h3] at h
    have : y * w = y * v := by omega
    exact Nat.eq_of_mul_eq_mul_left hpos this
  · rintro rfl
    omega

/-- **C87.** The product is right if one of the factors is below `2^256`, as in `from_mont` (`fpx.c:121-128`). -/
theorem C87_small (E : Env) (s : St) (hE : E.tab = asmTab .l503) (hp : Pre E (mulF .l503).sig s)
    (h0 : val (arg s 0 8) < 120 * Level.l503.p) (h1 : val (arg s 1 8) < 2 ^ 256) :
    ∃ s', Done E (mulF .l503).sig (mulF .l503).code s s' ∧ val (res s s' 2 16) = val (arg s 0 8) * val (arg s 1 8) := by
  obtain ⟨s', hd, -, h⟩ := C87_exact E s hE hp h0 (h1.trans (by decide +kernel))
  have h2 : val (arg s 0 8) < 2 ^ 512 := val_lt (arg s 0 8)
  refine ⟨s', hd, h.2 ?_⟩
  rw [Nat.div_eq_of_lt h1, Nat.mul_zero, Nat.zero_div, Nat.zero_mod]
  rw [Nat.div_eq_of_lt, Nat.zero_mod]
  calc val (arg s 0 8) * val (arg s 1 8) < 2 ^ 512 * 2 ^ 256 := Nat.mul_lt_mul'' h2 h1
    _ ≤ 2 ^ 832 := by rw [← pow_add]; exact Nat.pow_le_pow_right (by norm_num) (by norm_num)

/-- Two field elements whose product is wrong: `2^416 - 1` and `2^416 + 2^256` -/
def bad503 : List Digit × List Digit :=
  ([0xffffffffffffffff, 0xffffffffffffffff, 0xffffffffffffffff, 0xffffffffffffffff, 0xffffffffffffffff, 0xffffffffffffffff,
    0xffffffff, 0], [0, 0, 0, 0, 1, 0, 0x100000000, 0])

/-- A wrong product makes a wrong field element: reduction keeps a difference that is not a multiple of `p`. -/
theorem fpmulA_wrong {l : Level} {a b : List Digit} (ha : a.length = (tables l).n) (hb : b.length = (tables l).n)
    (h0 : val a < 120 * l.p) (h1 : val b < 120 * l.p) (hm : mulVal l (val a) (val b) < 2 ^ (64 * (tables l).n) * l.p)
    (hne : ¬ mulVal l (val a) (val b) ≡ val a * val b [MOD l.p]) :
    (fpmulA l a b).length = (tables l).n ∧ ¬ val (fpmulA l a b) * 2 ^ (64 * (tables l).n) ≡ val a * val b [MOD l.p] := by
  obtain ⟨c, e, lc, v⟩ := mpMulA_val l ha hb h0 h1
  have hr := rdcA_eq l lc (v ▸ hm)
  obtain ⟨r, q, e', lr, -, v'⟩ := rdcMont_exact (good l) lc (v ▸ hm)
  have hf : fpmulA l a b = r := by rw [fpmulA, e, Option.bind_some, hr, e', Option.getD_some]
  rw [hf]
  refine ⟨lr, fun h => hne ?_⟩
  rw [v', v, Nat.ModEq, Nat.add_mul_mod_self_right] at h
  exact h

/-- **C87.** The field multiplication of the build for ARM with p503 is wrong: there are elements below `p` whose product it gets
wrong modulo `p`. -/
theorem C87_wrong : ∃ a b : List Digit, a.length = 8 ∧ b.length = 8 ∧ val a < Level.l503.p ∧ val b < Level.l503.p ∧
    (fpmulA .l503 a b).length = 8 ∧ ¬ val (fpmulA .l503 a b) * 2 ^ 512 ≡ val a * val b [MOD Level.l503.p] ∧
    val (fpmulC words503 a b) * 2 ^ 512 ≡ val a * val b [MOD Level.l503.p] := by
  refine ⟨bad503.1, bad503.2, rfl, rfl, by decide +kernel, by decide +kernel, ?_⟩
  obtain ⟨h1, h2⟩ := fpmulA_wrong (l := .l503) (a := bad503.1) (b := bad503.2) rfl rfl (by decide +kernel) (by decide +kernel)
    (by decide +kernel) (by decide +kernel)
  exact ⟨h1, h2, by decide +kernel⟩

/-! ## C88 -/

/-- **C88.** `mul751_asm`: what every call with inputs `a`, `b` below `120 p` stores, exactly.  With the halves `a = a0 + 2^384 a1`,
`b = b0 + 2^384 b1` it is the product, and `2^1216` too much exactly if subtracting `a1 b1` from the middle term borrows in its
lower half and adding the upper half of `a0 b0` makes up for that (`P751/ARM64/fp_arm64_asm.S:709-785`). -/
theorem C88_exact (E : Env) (s : St) (hE : E.tab = asmTab .l751) (hp : Pre E (mulF .l751).sig s)
    (h0 : val (arg s 0 12) < 120 * Level.l751.p) (h1 : val (arg s 1 12) < 120 * Level.l751.p) :
    ∃ s', Done E (mulF .l751).sig (mulF .l751).code s s' ∧
      let a := val (arg s 0 12)
      let b := val (arg s 1 12)
      let low := a % 2 ^ 384 * (b % 2 ^ 384) / 2 ^ 384
      let mid := a % 2 ^ 384 * (b / 2 ^ 384) + a / 2 ^ 384 * (b % 2 ^ 384)
      let lost := mid + low < 2 ^ 384 ∧ 2 ^ 384 ≤ (mid + a / 2 ^ 384 * (b / 2 ^ 384)) % 2 ^ 384 + low
      (¬ lost → val (res s s' 2 24) = a * b) ∧ (lost → val (res s s' 2 24) = a * b + 2 ^ 1216) := by
  obtain ⟨s', hd, hr⟩ := mulF_ok .l751 E s hE hp ⟨h0, h1⟩
  refine ⟨s', hd, ?_⟩
  have hr' : val (res s s' 2 24) = mul751Val (val (arg s 0 12)) (val (arg s 1 12)) := hr
  intro a b low mid lost
  have hl : lost ↔ Lost751 (val (arg s 0 12)) (val (arg s 1 12)) := Iff.rfl
  rw [hr', mul751Val]
  refine ⟨fun h => ?_, fun h => ?_⟩
  · rw [if_neg (fun h' => h (hl.2 h')), Nat.add_zero]
  · rw [if_pos (hl.1 h)]

/-- **C88.** The product is right if the upper half of one of the factors is zero, as in `from_mont` (`fpx.c:121-128`). -/
theorem C88_small (E : Env) (s : St) (hE : E.tab = asmTab .l751) (hp : Pre E (mulF .l751).sig s)
    (h0 : val (arg s 0 12) < 120 * Level.l751.p) (h1 : val (arg s 1 12) < 2 ^ 384) :
    ∃ s', Done E (mulF .l751).sig (mulF .l751).code s s' ∧ val (res s s' 2 24) = val (arg s 0 12) * val (arg s 1 12) := by
  obtain ⟨s', hd, h, -⟩ := C88_exact E s hE hp h0 (h1.trans (by decide +kernel))
  refine ⟨s', hd, h ?_⟩
  rw [Nat.div_eq_of_lt h1, Nat.mul_zero, Nat.mul_zero, Nat.zero_add, Nat.add_zero]
  rintro ⟨h2, h3⟩
  rw [Nat.mod_eq_of_lt (by omega)] at h3
  omega

/-- Two field elements whose product is wrong: `2^384 + 2` and `2^385 - 4` -/
def bad751 : List Digit × List Digit :=
  ([2, 0, 0, 0, 0, 0, 1, 0, 0, 0, 0, 0],
    [0xfffffffffffffffc, 0xffffffffffffffff, 0xffffffffffffffff, 0xffffffffffffffff, 0xffffffffffffffff, 0xffffffffffffffff,
      1, 0, 0, 0, 0, 0])

/-- **C88.** The field multiplication of the build for ARM with p751 is wrong: there are elements below `p` whose product it gets
wrong modulo `p`. -/
theorem C88_wrong : ∃ a b : List Digit, a.length = 12 ∧ b.length = 12 ∧ val a < Level.l751.p ∧ val b < Level.l751.p ∧
    (fpmulA .l751 a b).length = 12 ∧ ¬ val (fpmulA .l751 a b) * 2 ^ 768 ≡ val a * val b [MOD Level.l751.p] ∧
    val (fpmulC words751 a b) * 2 ^ 768 ≡ val a * val b [MOD Level.l751.p] := by
  refine ⟨bad751.1, bad751.2, rfl, rfl, by decide +kernel, by decide +kernel, ?_⟩
  obtain ⟨h1, h2⟩ := fpmulA_wrong (l := .l751) (a := bad751.1) (b := bad751.2) rfl rfl (by decide +kernel) (by decide +kernel)
    (by decide +kernel) (by decide +kernel)
  exact ⟨h1, h2, by decide +kernel⟩

/-- Calls that meet the hypotheses of `C87_exact` and `C88_exact`, with right and with wrong results -/
example : Pre (callEnv .l503) (mulF .l503).sig (callSt [bad503.1, bad503.2]) ∧ val bad503.1 < 120 * Level.l503.p ∧
    mul503Val (val bad503.1) (val bad503.2) ≠ val bad503.1 * val bad503.2 ∧
    mul503Val (val words503.p) (val words503.one) = val words503.p * val words503.one ∧
    Pre (callEnv .l751) (mulF .l751).sig (callSt [bad751.1, bad751.2]) ∧ val bad751.1 < 120 * Level.l751.p ∧
    Lost751 (val bad751.1) (val bad751.2) ∧ ¬ Lost751 (val words751.p) (val words751.one) :=
  ⟨pre_call _ _ (by decide) (by decide) (Or.inl (by decide)), by decide +kernel, by decide +kernel, by decide +kernel,
    pre_call _ _ (by decide) (by decide) (Or.inl (by decide)), by decide +kernel, by decide +kernel, by decide +kernel⟩

/-! ## C89 -/

/-- The functions called by the C code -/
def allF (l : Level) : List Func :=
  [mpAddF l, fpaddF l, fpsubF l, subP2F l, subP4F l, mulF l, rdcF l, subaddF l, dblsubF l]

/-- The functions that overwrite `x18` -/
def x18F : List Func :=
  [mpAddF .l503, fpaddF .l503, fpsubF .l503, subP2F .l503, subP4F .l503, mulF .l503, rdcF .l503, dblsubF .l503, dblsubF .l610,
    mpAddF .l751, dblsubF .l751]

/-- **C89.** `x18`, which the procedure call standard leaves to the platform and which programs may not use on some (Apple, a target
of the Makefile as `ARCH=M1`): the functions for p434 leave it as it was.  Of those for the other primes eleven do not: whatever `x18`
held at the call, it comes out the same, so for all values at the call but one it has changed.  The others leave it as it was. -/
theorem C89_x18 (E : Env) (s s' : St) (b : Digit) :
    (∀ f ∈ allF .l434, run E f.code s = some (s', b) → s'.reg .x18 = s.reg .x18) ∧
    (∀ f ∈ x18F, run E f.code s = some (s', b) → ∀ v, run E f.code (s.setReg .x18 v) = some (s', b)) ∧
    (∀ l, ∀ f ∈ allF l, f.code ∉ x18F.map Func.code → run E f.code s = some (s', b) → s'.reg .x18 = s.reg .x18) := by
  have key : ∀ l, ∀ f ∈ allF l, f.code ∉ x18F.map Func.code → ∀ i ∈ f.code, Reg.x18 ∉ i.writes := by
    intro l
    cases l <;> decide +kernel
  refine ⟨fun f hf => ?_, fun f hf h v => ?_, fun l f hf hn => run_keep (key l f hf hn)⟩
  · have : ∀ f ∈ allF .l434, ∀ i ∈ f.code, Reg.x18 ∉ i.writes := by decide +kernel
    exact run_keep (this f hf)
  · have : ∀ f ∈ x18F, writesFirst .x18 f.code = true := by decide +kernel
    rw [run_set (this f hf), h]

/-- **C89.** Hence there are calls after which `x18` has another value, for each of the eleven functions: from every call that
succeeds one gets such a call by changing `x18` only. -/
theorem C89_changed (E : Env) (s s' : St) (b : Digit) (f : Func) (hf : f ∈ x18F) (h : run E f.code s = some (s', b)) :
    ∃ v, ∃ t, run E f.code (s.setReg .x18 v) = some (t, b) ∧ t.reg .x18 ≠ v := by
  refine ⟨s'.reg .x18 + 1, s', (C89_x18 E s s' b).2.1 f hf h _, fun e => ?_⟩
  have := congrArg BitVec.toNat e
  rw [BitVec.toNat_add] at this
  have h1 := (s'.reg .x18).isLt
  have h2 : (1 : Digit).toNat = 1 := rfl
  rw [h2] at this
  omega

/-- A call of one of these functions succeeds. -/
example : ∃ s', run (callEnv .l503) (mulF .l503).code (callSt [bad503.1, bad503.2]) = some (s', 0) := by
  obtain ⟨s', hd, -⟩ := C87_exact (callEnv .l503) (callSt [bad503.1, bad503.2]) rfl
    (pre_call _ _ (by decide) (by decide) (Or.inl (by decide)))
    (by rw [arg, wordsAt_callMem (x := bad503.1) (n := 8) (by norm_num) rfl rfl (by norm_num)]; decide +kernel)
    (by rw [arg, wordsAt_callMem (x := bad503.2) (n := 8) (by norm_num) rfl rfl (by norm_num)]; decide +kernel)
  exact ⟨s', hd.run⟩

/-! ## C90 -/

/-- **C90.** `mp_add610x2_asm` (`P610/ARM64/fp_arm64_asm.S:913-970`, not called from C), for the addition of numbers of 20 words:
it accesses the words 20 and 21 of the first input, so it fails if these are not accessible, and it never writes the words 10 and 11
of the output. -/
theorem C90_add610x2 (E : Env) (s : St) :
    (E.rd (s.reg .x0 + BitVec.ofNat 64 (8 * 20)) = false → run E P610.mp_add610x2_asm s = none) ∧
    (∀ s' b, run E P610.mp_add610x2_asm s = some (s', b) →
      ∀ j, j = 10 ∨ j = 11 → s'.mem (wordAddr s 2 j) = s.mem (wordAddr s 2 j)) := by
  refine ⟨fun h => run_load_none (r := .x0) (o := 160) (by decide) h, fun s' b h j hj => ?_⟩
  refine run_mem (r := .x2) (ok := fun o => o % 8 = 0 && (o ≤ 72 || (96 ≤ o && o ≤ 168))) (by decide) (by decide) ?_ h
  intro o ho e
  simp only [Bool.and_eq_true, Bool.or_eq_true, decide_eq_true_eq] at ho
  have e' : s.reg .x2 + BitVec.ofNat 64 (8 * j) = s.reg .x2 + BitVec.ofNat 64 o := e
  have e2 := congrArg BitVec.toNat e'
  rw [BitVec.toNat_add, BitVec.toNat_add, BitVec.toNat_ofNat, BitVec.toNat_ofNat] at e2
  have := (s.reg .x2).isLt
  omega

/-- **C90.** So it does not compute the sum: with zeros in the output before the call, and all of memory accessible, it gives zero
for the sum of `2^640` and zero. -/
theorem C90_wrong : ∃ x y z : List Digit, val x = 2 ^ 640 ∧ val y = 0 ∧ val z = 0 ∧ x.length = 20 ∧ y.length = 20 ∧
    Func.call ⟨⟨[20, 20], 20, 0, [], []⟩, P610.mp_add610x2_asm⟩ .l610 [x, y] 2 20 = some z :=
  ⟨List.replicate 10 0 ++ [1] ++ List.replicate 9 0, List.replicate 20 0, List.replicate 20 0, by decide +kernel, by decide +kernel,
    by decide +kernel, rfl, rfl, by decide +kernel⟩

/-- An environment in which exactly the 20 words of each argument are accessible: the call fails. -/
example : run ⟨asmTab .l610, fun a => decide (a.toNat < 0x10000 + 160 ∨ 0x20000 ≤ a.toNat), fun _ => true⟩ P610.mp_add610x2_asm
    (callSt [List.replicate 20 1, List.replicate 20 2]) = none :=
  (C90_add610x2 _ _).1 (by decide +kernel)

end Secuer.Arm

/-! ## C86 -/

namespace Secuer.ArmProps

open Secuer.Word Secuer.Field Secuer.Text Secuer.WCurve Secuer.WProtocol Secuer.WProtocolProps Secuer.BuildProps
open Secuer.Curve (Pt Crv Out M Tape)
open Secuer.Protocol (Hash Comm Secret params)
open Secuer.ChainProps (RightOrder)
open Secuer.ProtocolProps (Valid Opens IsChallenge challengeBytes)
open Secuer.KeccakProps (shakeHash)
open Secuer.Sidh (Three skABytes skBBytes)
open Secuer.WSidh (Sized)

/-- `Verify` in the build for 64-bit ARM -/
def verifyA (l : Level) (H : Hash) (mem : WProtocol.Mem) (fuel : ℕ) (prf : CProof) : M Draw Bool :=
  letI := Arm.arith l
  verify l H mem fuel prf

/-- `Prove` in the build for 64-bit ARM -/
def proveA (l : Level) (H : Hash) (mem : WProtocol.Mem) (fuel : ℕ) (sec : Secret) : M Draw Proof :=
  letI := Arm.arith l
  prove l H mem fuel sec

/-- `Generate` in the build for 64-bit ARM -/
def generateA (l : Level) (mem : WProtocol.Mem) (x : PFp2) : M Draw (Option Secret) :=
  letI := Arm.arith l
  generate l mem x

variable (l : Level) (hl : l = .l434 ∨ l = .l610)
include hl

theorem right : Arm.Right l := by
  rcases hl with rfl | rfl
  · exact Arm.right434
  · exact Arm.right610

/-- **C86.** `Verify` in the build for 64-bit ARM with p434 or p610 ends as the verifier over the field does on the elements the random
bytes stand for. -/
theorem C86_verify (H : Hash) (mem : WProtocol.Mem) (hm : mem.WF l) (pts : ℕ → Pt l.F × Pt l.F) (fuel : ℕ) (prf : CProof)
    (hw : prf.WF (params l)) (t : Tape Draw) (ht : TapeLen l t) :
    Protocol.verify l H (fieldMem l mem pts) fuel prf (fieldTape l t) = onField l (verifyA l H mem fuel prf t) ∧
      ∀ b t', verifyA l H mem fuel prf t = .ok (b, t') → TapeLen l t' :=
  letI := Arm.arith l
  haveI := Arm.arith_ok (right l hl)
  haveI := Arm.rand_ok l
  @onField_of l Arith.portable _ _ _ (Ref.congr (i := Arm.arith l) (j := Arith.portable) rfl (verify_ref hm rfl fuel hw)) _ ht

/-- **C86.** `Prove` -/
theorem C86_prove (H : Hash) (mem : WProtocol.Mem) (hm : mem.WF l) (pts : ℕ → Pt l.F × Pt l.F) (fuel : ℕ) (sec : Secret)
    (hs : SecWF l sec) (t : Tape Draw) (ht : TapeLen l t) :
    Protocol.prove l H (fieldMem l mem pts) fuel sec (fieldTape l t) = onField l (proveA l H mem fuel sec t) ∧
      ∀ b t', proveA l H mem fuel sec t = .ok (b, t') → TapeLen l t' :=
  letI := Arm.arith l
  haveI := Arm.arith_ok (right l hl)
  haveI := Arm.rand_ok l
  @onField_of l Arith.portable _ _ _ (Ref.congr (i := Arm.arith l) (j := Arith.portable) rfl (prove_ref hm rfl fuel hs)) _ ht

/-- **C86.** `Generate` -/
theorem C86_generate (mem : WProtocol.Mem) (hm : mem.WF l) (pts : ℕ → Pt l.F × Pt l.F) (x : PFp2)
    (hx : x.WF (params l)) (t : Tape Draw) (ht : TapeLen l t) :
    Protocol.generate l (fieldMem l mem pts) x (fieldTape l t) = onField l (generateA l mem x t) ∧
      ∀ b t', generateA l mem x t = .ok (b, t') → TapeLen l t' :=
  letI := Arm.arith l
  haveI := Arm.arith_ok (right l hl)
  haveI := Arm.rand_ok l
  @onField_of l Arith.portable _ _ _ (Ref.congr (i := Arm.arith l) (j := Arith.portable) rfl (generate_ref hm hx)) _ ht

/-- **C86.** From the same inputs and the same random bytes the build for 64-bit ARM and the other builds give the same verdict, the
same proof and the same secret, byte by byte - or both abort.  So proofs made on one kind of machine can be verified on the other. -/
theorem C86_same (bd : Build) (H : Hash) (mem : WProtocol.Mem) (hm : mem.WF l) (fuel : ℕ) (t : Tape Draw) (ht : TapeLen l t) :
    (∀ prf : CProof, prf.WF (params l) → result (verifyA l H mem fuel prf t) = result (verifyB bd l H mem fuel prf t)) ∧
    (∀ sec : Secret, SecWF l sec → result (proveA l H mem fuel sec t) = result (proveB bd l H mem fuel sec t)) ∧
    (∀ x : PFp2, x.WF (params l) → result (generateA l mem x t) = result (generateB bd l mem x t)) := by
  refine ⟨fun prf hw => result_of l ?_, fun sec hs => result_of l ?_, fun x hx => result_of l ?_⟩
  · rw [← (C86_verify l hl H mem hm (fun _ => (⟨0, 0⟩, ⟨0, 0⟩)) fuel prf hw t ht).1,
      ← (C71_verify bd l H mem hm (fun _ => (⟨0, 0⟩, ⟨0, 0⟩)) fuel prf hw t ht).1]
  · rw [← (C86_prove l hl H mem hm (fun _ => (⟨0, 0⟩, ⟨0, 0⟩)) fuel sec hs t ht).1,
      ← (C71_prove bd l H mem hm (fun _ => (⟨0, 0⟩, ⟨0, 0⟩)) fuel sec hs t ht).1]
  · rw [← (C86_generate l hl mem hm (fun _ => (⟨0, 0⟩, ⟨0, 0⟩)) x hx t ht).1,
      ← (C71_generate bd l mem hm (fun _ => (⟨0, 0⟩, ⟨0, 0⟩)) x hx t ht).1]

/-- **C86.** With SHAKE256 as implemented: `Verify` has no undefined behaviour on any proof in memory, if it returns then it returns
true exactly if the proof is valid, and an accepted proof contains isogenies with cyclic kernels that open the commitments. -/
theorem C86_verdict (mem : WProtocol.Mem) (hm : mem.WF l) (hc : mem.challs.length = (params l).reps) (fuel : ℕ)
    (prf : CProof) (hw : prf.WF (params l)) (t : Tape Draw) (ht : TapeLen l t) :
    verifyA l shakeHash mem fuel prf t ≠ .ub ∧
    (∀ b t', verifyA l shakeHash mem fuel prf t = .ok (b, t') → (b = true ↔ Valid l shakeHash prf)) ∧
    (∀ t', verifyA l shakeHash mem fuel prf t = .ok (true, t') →
      RightOrder l (Protocol.decode l prf.E0) ∧ RightOrder l (Protocol.decode l prf.E1) ∧ ∃ os : List (Int × Comm),
        os.length = (params l).reps ∧
        List.Forall₂ (fun r o => Opens l shakeHash (Protocol.decode l prf.E0) (Protocol.decode l prf.E1) r o) prf.resp os ∧
        IsChallenge l shakeHash (challengeBytes l (Protocol.decode l prf.E0) (Protocol.decode l prf.E1)
          (os.map fun o => (o.2.h2, o.2.h3))) (os.map Prod.fst)) := by
  have h1 := (C86_verify l hl shakeHash mem hm (fun _ => (⟨0, 0⟩, ⟨0, 0⟩)) fuel prf hw t ht).1
  refine ⟨onField_ub l (h1 ▸ ProtocolProps.c15_no_ub l shakeHash _ hc fuel hw _), fun b t' h => ?_, fun t' h => ?_⟩
  · rw [h] at h1
    exact ProtocolProps.c15_verdict l shakeHash _ hc fuel prf _ _ b h1
  · rw [h] at h1
    exact ProtocolProps.c15_sound l shakeHash _ hc fuel hw _ _ h1

/-- **C86.** The key exchange (`sidh.c`) in the build for 64-bit ARM with p434 or p610: on buffers that are large enough the
functions return what they do over the field, whatever uninitialised arrays hold, hence the same bytes as in the other builds. -/
theorem C86_sidh (bd : Build) (old old' : Three F2) (ho : Sized l old) (ho' : Sized l old') (kA kB pk : Bytes)
    (hA : skABytes l ≤ kA.length) (hB : skBBytes l ≤ kB.length) (hpk : 6 * (params l).fpBytes ≤ pk.length) (sike : ℕ) :
    letI := Arm.arith l
    (WSidh.ephGenA l kA = Sidh.ephGenA l kA ∧ WSidh.ephGenB l kB = Sidh.ephGenB l kB ∧
      WSidh.ephAgreeA l old kA pk = Sidh.ephAgreeA l kA pk ∧
      WSidh.ephAgreeBExt l sike old kB pk = Sidh.ephAgreeBExt l sike kB pk) ∧
    (WSidh.ephGenA l kA = WSidhProps.genA bd l kA ∧ WSidh.ephGenB l kB = WSidhProps.genB bd l kB ∧
      WSidh.ephAgreeA l old kA pk = WSidhProps.agreeA bd l old' kA pk ∧
      WSidh.ephAgreeBExt l sike old kB pk = WSidhProps.agreeBExt bd l sike old' kB pk) := by
  letI := Arm.arith l
  haveI := Arm.arith_ok (right l hl)
  obtain ⟨w1, w2, w3, w4, -⟩ := WSidhProps.C81_words bd l old' ho' kA kB pk hA hB hpk sike
  have v1 := WSidh.ephGenA_ref hA
  have v2 := WSidh.ephGenB_ref hB
  have v3 := WSidh.ephAgreeA_ref ho hA hpk
  have v4 := WSidh.ephAgreeBExt_ref sike ho hB hpk
  exact ⟨⟨v1, v2, v3, v4⟩, v1.trans w1.symm, v2.trans w2.symm, v3.trans w3.symm, v4.trans w4.symm⟩

omit hl in
/-- The hypotheses on memory, proof and random bytes can be met together. -/
example : (someMem .l610).WF .l610 ∧ (someMem .l610).challs.length = (params .l610).reps ∧
    (flatProof .l610 77 (-1)).WF (params .l610) ∧ (Level.l610 = .l434 ∨ Level.l610 = .l610) :=
  ⟨someMem_wf _, List.length_replicate, flatProof_wf _ 77 (-1) (by norm_num), Or.inr rfl⟩

end Secuer.ArmProps
