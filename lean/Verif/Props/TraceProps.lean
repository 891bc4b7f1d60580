import Verif.Arm.Trace
import Verif.X64.Trace
import Verif.Props.ArmProps

/-!
# The addresses accessed by the assembly functions (C91)

No assembly function of the builds for x86-64 and 64-bit ARM has a branch, so all executions of one consist of the same instructions.
C91 is that the memory they access is the same too: it is given by the pointers, whatever the numbers in the arrays.
-/

set_option maxRecDepth 100000

namespace Secuer.X64

open Secuer.Word Secuer.Field

/-- The assembly functions of the default build on x86-64 -/
def allF : Level → List Func
  | .l434 => [mpAddF .l434, fpaddF .l434, fpsubF .l434, subP2F .l434] ++ [fpmulF, sqr0F, sqr1F, mul0F, mul1F].map (· .s434)
  | .l503 => [mpAddF .l503, fpaddF .l503, fpsubF .l503, subP2F .l503] ++ [fpmulF, sqr0F, sqr1F, mul0F, mul1F].map (· .s503)
  | .l610 => [mpAddF .l610, fpaddF .l610, fpsubF .l610, subP2F .l610] ++ [fpmulF, sqr0F, sqr1F, mul0F, mul1F].map (· .s610)
  | .l751 => [mpAddF .l751, fpaddF .l751, fpsubF .l751, subP2F .l751, mul751F, rdc751F, subP4751F, subadd751F, dblsub751F]

/-- **C91.** x86-64: two calls of an assembly function with the same pointers (`rdi`, `rsi`, `rdx`, `rsp`) that return read and write
the same addresses in the same order.  Nothing else need be the same: neither the arrays and the rest of the memory, nor the other
registers and the flags, nor even the tables of constants. -/
theorem C91_x64 (l : Level) (f : Func) (hf : f ∈ allF l) (E E' : Env) (s t : St) (a b : St × Digit)
    (hp : s.reg .rdi = t.reg .rdi ∧ s.reg .rsi = t.reg .rsi ∧ s.reg .rdx = t.reg .rdx ∧ s.reg .rsp = t.reg .rsp)
    (hs : run E f.code s = some a) (ht : run E' f.code t = some b) : trace E f.code s = trace E' f.code t := by
  have key : ∀ f ∈ allF l, pubRun [.rdi, .rsi, .rdx, .rsp] f.code = true := by
    cases l <;> decide +kernel
  refine trace_eq (pub := [.rdi, .rsi, .rdx, .rsp]) ?_ (key f hf) hs ht
  intro r hr
  simp only [List.mem_cons, List.not_mem_nil, or_false] at hr
  rcases hr with rfl | rfl | rfl | rfl
  exacts [hp.1, hp.2.1, hp.2.2.1, hp.2.2.2]

end Secuer.X64

namespace Secuer.Arm

open Secuer.Word Secuer.Field
open Secuer.X64 (Env)

/-- **C91.** 64-bit ARM: two calls of an assembly function with the same pointers (`x0`, `x1`, `x2`, `sp`) that return read and write
the same addresses in the same order, whatever else differs. -/
theorem C91_arm (l : Level) (f : Func) (hf : f ∈ allF l) (E E' : Env) (s t : St) (a b : St × Digit)
    (hp : s.reg .x0 = t.reg .x0 ∧ s.reg .x1 = t.reg .x1 ∧ s.reg .x2 = t.reg .x2 ∧ s.reg .sp = t.reg .sp)
    (hs : run E f.code s = some a) (ht : run E' f.code t = some b) : trace E f.code s = trace E' f.code t := by
  have key : ∀ f ∈ allF l, pubRun [.x0, .x1, .x2, .sp] f.code = true := by
    cases l <;> decide +kernel
  refine trace_eq (pub := [.x0, .x1, .x2, .sp]) ?_ (key f hf) hs ht
  intro r hr
  simp only [List.mem_cons, List.not_mem_nil, or_false] at hr
  rcases hr with rfl | rfl | rfl | rfl
  exacts [hp.1, hp.2.1, hp.2.2.1, hp.2.2.2]

/-- A call that returns; it accesses at least the 21 words of its arguments and its result. -/
example : ∃ s' xs, run (callEnv .l434) (fpaddF .l434).code (callSt [words434.p, words434.p]) = some (s', 0) ∧
    trace (callEnv .l434) (fpaddF .l434).code (callSt [words434.p, words434.p]) = xs ∧ 21 ≤ xs.length := by
  obtain ⟨s', hd, -⟩ := C85_fpadd .l434 (callEnv .l434) (callSt [words434.p, words434.p]) rfl
    (pre_call _ _ (by decide) (by decide) (Or.inl (by decide)))
  exact ⟨s', _, hd.run, rfl, by decide +kernel⟩

end Secuer.Arm
