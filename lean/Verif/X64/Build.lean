import Verif.X64.BackendMul

/-!
# The default build for x86-64 as a build of the field arithmetic
-/

namespace Secuer.X64

open Secuer.Word Secuer.Field

/-- The routines of the default build on x86-64 (`c-impl/PQCrypto-SIDH/Makefile`: `-D _FAST_ -D _MULX_ -D _ADX_`) compiled for a
level: what the calls of the assembly routines leave in the output (`Secuer.X64.fpaddX` …).  The tables are those of the
level. -/
@[reducible] def arith (l : Level) : Arith where
  fpadd _ := fpaddX l
  fpsub _ := fpsubX l
  subP2 _ := subP2X l
  mpAddfast := mpAddX l
  fpmul _ := fpmulX l
  fp2sqr _ := fp2sqrX l
  fp2mul _ := fp2mulX l
  rand := fprand

/-- It has what the code above it needs. -/
theorem arith_ok (l : Level) : @ArithOK (tables l) l.p (arith l) :=
  @ArithOK.mk (tables l) l.p (arith l) (fun ha hb => fpaddX_eq l ha hb) (fun ha hb => fpsubX_eq l ha hb)
    (fun ha hb => subP2X_eq l ha hb) (fun ha hb => mpAddX_eq l ha hb)
    (fun ha hb h => fpmulX_eq l ha.len hb.len ha.lt hb.lt h)
    (fun ha => fp2sqrX_eq l ha.c0.len ha.c1.len ⟨ha.c0.lt, ha.c1.lt⟩)
    (fun ha hb => fp2mulX_spec l ha hb (le_refl _) (le_refl _))

theorem rand_ok (l : Level) : @RandOK (tables l) l.p (arith l) :=
  @RandOK.mk (tables l) l.p (arith l) fun b _ => fprand_rng (good l) b

end Secuer.X64
