import Verif.CMem.Ops
import Verif.Sidh.WModel

/-!
# The functions of `ec_isogeny.c` on memory

The functions that consist of calls of field functions only.  Each is a list of calls, in the order of the C text and with its arguments,
executed with the field functions of a build (`Exec`).  The theorems give the effect of each function, called with pairwise disjoint
arguments and, where the code does so, with an argument that is both input and output.
-/

namespace Secuer.CMem

open Secuer.Word Secuer.Field
open Secuer.Curve (Pt Crv Iso)

variable {l : Level} [Arith] (X : Exec l)

/-- The `point_proj` at address `P`: `X`, then `Z` (`P434_internal.h`: `typedef struct { f2elm_t X; f2elm_t Z; } point_proj;`) -/
def rdP (n : ℕ) (m : Mem) (P : ℕ) : Pt F2 := ⟨rdF n m P, rdF n m (P + 2 * n)⟩

/-- The two variables of the `point_proj` at address `P`, with values -/
def ptVars (n P : ℕ) (x : Pt F2) : List (ℕ × F2) := [(P, x.X), (P + 2 * n, x.Z)]

/-- The addresses of the two variables of a `point_proj` -/
def ptAddr (n P : ℕ) : List ℕ := [P, P + 2 * n]

/-- Computes the values of the output variables of a list of calls -/
macro "values" : tactic => `(tactic| (
  intro junk
  simp only [List.forall_mem_cons]
  (repeat' apply And.intro) <;> first
    | exact List.forall_mem_nil _
    | (simp [evals, start, Op.dst, Op.val, Function.update]; done)
    | (simp [evals, start, Op.dst, Op.val, Function.update]; rfl)))

/-- The calls in `xDBL` (`ec_isogeny.c:12-29`); local variables: `t0`, `t1` -/
def xDBLops (PX PZ QX QZ A24plus C24 t0 t1 : ℕ) : List Op :=
  [.mpsub PX PZ t0, .mpadd PX PZ t1, .sqr t0 t0, .sqr t1 t1, .mul C24 t0 QZ, .mul t1 QZ QX, .mpsub t1 t0 t1, .mul A24plus t1 t0,
    .mpadd QZ t0 QZ, .mul QZ t1 QZ]

/-- `xDBL` (`ec_isogeny.c:12-29`) -/
def xDBLM (P Q A24plus C24 sp : ℕ) (m : Mem) : Mem :=
  X.runs (loc (nw l) sp 2)
    (xDBLops P (P + 2 * nw l) Q (Q + 2 * nw l) A24plus C24 (loc (nw l) sp 0) (loc (nw l) sp 1)) m

/-- `xDBL`, for `P` and `Q` disjoint -/
theorem xDBLM_effect (m : Mem) {P Q A24plus C24 s : ℕ} (hL : Layout (nw l) s [P, P + 2 * nw l, Q, Q + 2 * nw l, A24plus, C24]) :
    Effect (nw l) s m (xDBLM X P Q A24plus C24 s m) (ptVars (nw l) Q (WCurve.xDBL l (rdP (nw l) m P) (rdF (nw l) m A24plus) (rdF (nw l) m C24))) := by
  refine X.prog m hL (k := 2) (xDBLops 0 1 2 3 4 5 6 7) [(2, _), (3, _)] rfl rfl rfl ?_
  simp only [xDBLops]
  values

/-- `xDBL(P, P, …)` -/
theorem xDBLM_effect_inplace (m : Mem) {P A24plus C24 s : ℕ} (hL : Layout (nw l) s [P, P + 2 * nw l, A24plus, C24]) :
    Effect (nw l) s m (xDBLM X P P A24plus C24 s m) (ptVars (nw l) P (WCurve.xDBL l (rdP (nw l) m P) (rdF (nw l) m A24plus) (rdF (nw l) m C24))) := by
  refine X.prog m hL (k := 2) (xDBLops 0 1 0 1 2 3 4 5) [(0, _), (1, _)] rfl rfl rfl ?_
  simp only [xDBLops]
  values

/-- The calls in `get_2_isog` (`ec_isogeny.c:45-53`) -/
def get2isogops (PX PZ A24plus C24 : ℕ) : List Op :=
  [.sqr PX A24plus, .sqr PZ C24, .mpsub C24 A24plus A24plus]

/-- `get_2_isog` (`ec_isogeny.c:45-53`) -/
def get2isogM (P A24plus C24 sp : ℕ) (m : Mem) : Mem :=
  X.runs (loc (nw l) sp 0)
    (get2isogops P (P + 2 * nw l) A24plus C24 ) m

/-- `get_2_isog` -/
theorem get2isogM_effect (m : Mem) {P A24plus C24 s : ℕ} (hL : Layout (nw l) s [P, P + 2 * nw l, A24plus, C24]) :
    Effect (nw l) s m (get2isogM X P A24plus C24 s m) [(A24plus, (WCurve.get2isog l (rdP (nw l) m P)).1), (C24, (WCurve.get2isog l (rdP (nw l) m P)).2)] := by
  refine X.prog m hL (k := 0) (get2isogops 0 1 2 3) [(2, _), (3, _)] rfl rfl rfl ?_
  simp only [get2isogops]
  values

/-- The calls in `eval_2_isog` (`ec_isogeny.c:56-72`); local variables: `t0`, `t1`, `t2`, `t3` -/
def eval2isogops (PX PZ QX QZ t0 t1 t2 t3 : ℕ) : List Op :=
  [.mpadd QX QZ t0, .mpsub QX QZ t1, .mpadd PX PZ t2, .mpsub PX PZ t3, .mul t0 t3 t0, .mul t1 t2 t1, .mpadd t0 t1 t2,
    .mpsub t0 t1 t3, .mul PX t2 PX, .mul PZ t3 PZ]

/-- `eval_2_isog` (`ec_isogeny.c:56-72`) -/
def eval2isogM (P Q sp : ℕ) (m : Mem) : Mem :=
  X.runs (loc (nw l) sp 4)
    (eval2isogops P (P + 2 * nw l) Q (Q + 2 * nw l) (loc (nw l) sp 0) (loc (nw l) sp 1) (loc (nw l) sp 2) (loc (nw l) sp 3)) m

/-- `eval_2_isog`, which updates `P` -/
theorem eval2isogM_effect (m : Mem) {P Q s : ℕ} (hL : Layout (nw l) s [P, P + 2 * nw l, Q, Q + 2 * nw l]) :
    Effect (nw l) s m (eval2isogM X P Q s m) (ptVars (nw l) P (WCurve.eval2isog l (rdP (nw l) m P) (rdP (nw l) m Q))) := by
  refine X.prog m hL (k := 4) (eval2isogops 0 1 2 3 4 5 6 7) [(0, _), (1, _)] rfl rfl rfl ?_
  simp only [eval2isogops]
  values

/-- The calls in `get_4_isog` (`ec_isogeny.c:76-91`) -/
def get4isogops (PX PZ A24plus C24 c0 c1 c2 : ℕ) : List Op :=
  [.mpsub PX PZ c1, .mpadd PX PZ c2, .sqr PZ c0, .mpadd c0 c0 c0, .sqr c0 C24, .mpadd c0 c0 c0, .sqr PX A24plus,
    .mpadd A24plus A24plus A24plus, .sqr A24plus A24plus]

/-- `get_4_isog` (`ec_isogeny.c:76-91`) -/
def get4isogM (P A24plus C24 coeff sp : ℕ) (m : Mem) : Mem :=
  X.runs (loc (nw l) sp 0)
    (get4isogops P (P + 2 * nw l) A24plus C24 coeff (coeff + 2 * nw l) (coeff + 2 * nw l + 2 * nw l) ) m

/-- `get_4_isog` -/
theorem get4isogM_effect (m : Mem) {P A24plus C24 coeff s : ℕ} (hL : Layout (nw l) s [P, P + 2 * nw l, A24plus, C24, coeff, coeff + 2 * nw l, coeff + 2 * nw l + 2 * nw l]) :
    Effect (nw l) s m (get4isogM X P A24plus C24 coeff s m) [(A24plus, (WCurve.get4isog l (rdP (nw l) m P)).1), (C24, (WCurve.get4isog l (rdP (nw l) m P)).2.1), (coeff, (WCurve.get4isog l (rdP (nw l) m P)).2.2.1),
      (coeff + 2 * nw l, (WCurve.get4isog l (rdP (nw l) m P)).2.2.2.1), (coeff + 2 * nw l + 2 * nw l, (WCurve.get4isog l (rdP (nw l) m P)).2.2.2.2)] := by
  refine X.prog m hL (k := 0) (get4isogops 0 1 2 3 4 5 6) [(2, _), (3, _), (4, _), (5, _), (6, _)] rfl rfl rfl ?_
  simp only [get4isogops]
  values

/-- The calls in `eval_4_isog` (`ec_isogeny.c:94-115`); local variables: `t0`, `t1` -/
def eval4isogops (PX PZ c0 c1 c2 t0 t1 : ℕ) : List Op :=
  [.mpadd PX PZ t0, .mpsub PX PZ t1, .mul t0 c1 PX, .mul t1 c2 PZ, .mul t0 t1 t0, .mul c0 t0 t0, .mpadd PX PZ t1, .mpsub PX PZ PZ,
    .sqr t1 t1, .sqr PZ PZ, .mpadd t1 t0 PX, .mpsub PZ t0 t0, .mul PX t1 PX, .mul PZ t0 PZ]

/-- `eval_4_isog` (`ec_isogeny.c:94-115`) -/
def eval4isogM (P coeff sp : ℕ) (m : Mem) : Mem :=
  X.runs (loc (nw l) sp 2)
    (eval4isogops P (P + 2 * nw l) coeff (coeff + 2 * nw l) (coeff + 2 * nw l + 2 * nw l) (loc (nw l) sp 0) (loc (nw l) sp 1)) m

/-- `eval_4_isog`, which updates `P` -/
theorem eval4isogM_effect (m : Mem) {P coeff s : ℕ} (hL : Layout (nw l) s [P, P + 2 * nw l, coeff, coeff + 2 * nw l, coeff + 2 * nw l + 2 * nw l]) :
    Effect (nw l) s m (eval4isogM X P coeff s m) (ptVars (nw l) P
      (WCurve.eval4isog l (rdP (nw l) m P) (rdF (nw l) m coeff) (rdF (nw l) m (coeff + 2 * nw l)) (rdF (nw l) m (coeff + 2 * nw l + 2 * nw l)))) := by
  refine X.prog m hL (k := 2) (eval4isogops 0 1 2 3 4 5 6) [(0, _), (1, _)] rfl rfl rfl ?_
  simp only [eval4isogops]
  values

/-- The calls in `xTPL` (`ec_isogeny.c:118-146`); local variables: `t0`, `t1`, `t2`, `t3`, `t4`, `t5`, `t6` -/
def xTPLops (PX PZ QX QZ A24minus A24plus t0 t1 t2 t3 t4 t5 t6 : ℕ) : List Op :=
  [.mpsub PX PZ t0, .sqr t0 t2, .mpadd PX PZ t1, .sqr t1 t3, .mpadd PX PX t4, .mpadd PZ PZ t0, .sqr t4 t1, .mpsub t1 t3 t1,
    .mpsub t1 t2 t1, .mul A24plus t3 t5, .mul t3 t5 t3, .mul A24minus t2 t6, .mul t2 t6 t2, .mpsub t2 t3 t3, .mpsub t5 t6 t2,
    .mul t1 t2 t1, .add t3 t1 t2, .sqr t2 t2, .mul t4 t2 QX, .sub t3 t1 t1, .sqr t1 t1, .mul t0 t1 QZ]

/-- `xTPL` (`ec_isogeny.c:118-146`) -/
def xTPLM (P Q A24minus A24plus sp : ℕ) (m : Mem) : Mem :=
  X.runs (loc (nw l) sp 7)
    (xTPLops P (P + 2 * nw l) Q (Q + 2 * nw l) A24minus A24plus (loc (nw l) sp 0) (loc (nw l) sp 1) (loc (nw l) sp 2) (loc (nw l) sp 3) (loc (nw l) sp 4) (loc (nw l) sp 5) (loc (nw l) sp 6)) m

/-- `xTPL`, for `P` and `Q` disjoint -/
theorem xTPLM_effect (m : Mem) {P Q A24minus A24plus s : ℕ} (hL : Layout (nw l) s [P, P + 2 * nw l, Q, Q + 2 * nw l, A24minus, A24plus]) :
    Effect (nw l) s m (xTPLM X P Q A24minus A24plus s m) (ptVars (nw l) Q (WCurve.xTPL l (rdP (nw l) m P) (rdF (nw l) m A24minus) (rdF (nw l) m A24plus))) := by
  refine X.prog m hL (k := 7) (xTPLops 0 1 2 3 4 5 6 7 8 9 10 11 12) [(2, _), (3, _)] rfl rfl rfl ?_
  simp only [xTPLops]
  values

/-- `xTPL(P, P, …)` -/
theorem xTPLM_effect_inplace (m : Mem) {P A24minus A24plus s : ℕ} (hL : Layout (nw l) s [P, P + 2 * nw l, A24minus, A24plus]) :
    Effect (nw l) s m (xTPLM X P P A24minus A24plus s m) (ptVars (nw l) P (WCurve.xTPL l (rdP (nw l) m P) (rdF (nw l) m A24minus) (rdF (nw l) m A24plus))) := by
  refine X.prog m hL (k := 7) (xTPLops 0 1 0 1 2 3 4 5 6 7 8 9 10) [(0, _), (1, _)] rfl rfl rfl ?_
  simp only [xTPLops]
  values

/-- The calls in `get_3_isog` (`ec_isogeny.c:162-184`); local variables: `t0`, `t1`, `t2`, `t3`, `t4` -/
def get3isogops (PX PZ A24minus A24plus c0 c1 t0 t1 t2 t3 t4 : ℕ) : List Op :=
  [.mpsub PX PZ c0, .sqr c0 t0, .mpadd PX PZ c1, .sqr c1 t1, .mpadd PX PX t3, .sqr t3 t3, .sub t3 t0 t2, .sub t3 t1 t3,
    .mpadd t0 t3 t4, .mpadd t4 t4 t4, .mpadd t1 t4 t4, .mul t2 t4 A24minus, .mpadd t1 t2 t4, .mpadd t4 t4 t4, .mpadd t0 t4 t4,
    .mul t3 t4 A24plus]

/-- `get_3_isog` (`ec_isogeny.c:162-184`) -/
def get3isogM (P A24minus A24plus coeff sp : ℕ) (m : Mem) : Mem :=
  X.runs (loc (nw l) sp 5)
    (get3isogops P (P + 2 * nw l) A24minus A24plus coeff (coeff + 2 * nw l) (loc (nw l) sp 0) (loc (nw l) sp 1) (loc (nw l) sp 2) (loc (nw l) sp 3) (loc (nw l) sp 4)) m

/-- `get_3_isog`; of `coeff` it uses two entries -/
theorem get3isogM_effect (m : Mem) {P A24minus A24plus coeff s : ℕ} (hL : Layout (nw l) s [P, P + 2 * nw l, A24minus, A24plus, coeff, coeff + 2 * nw l]) :
    Effect (nw l) s m (get3isogM X P A24minus A24plus coeff s m) [(A24minus, (WCurve.get3isog l (rdP (nw l) m P)).1), (A24plus, (WCurve.get3isog l (rdP (nw l) m P)).2.1), (coeff, (WCurve.get3isog l (rdP (nw l) m P)).2.2.1),
      (coeff + 2 * nw l, (WCurve.get3isog l (rdP (nw l) m P)).2.2.2)] := by
  refine X.prog m hL (k := 5) (get3isogops 0 1 2 3 4 5 6 7 8 9 10) [(2, _), (3, _), (4, _), (5, _)] rfl rfl rfl ?_
  simp only [get3isogops]
  values

/-- The calls in `eval_3_isog` (`ec_isogeny.c:187-204`); local variables: `t0`, `t1`, `t2` -/
def eval3isogops (QX QZ c0 c1 t0 t1 t2 : ℕ) : List Op :=
  [.mpadd QX QZ t0, .mpsub QX QZ t1, .mul c0 t0 t0, .mul c1 t1 t1, .mpadd t0 t1 t2, .mpsub t1 t0 t0, .sqr t2 t2, .sqr t0 t0,
    .mul QX t2 QX, .mul QZ t0 QZ]

/-- `eval_3_isog` (`ec_isogeny.c:187-204`) -/
def eval3isogM (Q coeff sp : ℕ) (m : Mem) : Mem :=
  X.runs (loc (nw l) sp 3)
    (eval3isogops Q (Q + 2 * nw l) coeff (coeff + 2 * nw l) (loc (nw l) sp 0) (loc (nw l) sp 1) (loc (nw l) sp 2)) m

/-- `eval_3_isog`, which updates `Q` -/
theorem eval3isogM_effect (m : Mem) {Q coeff s : ℕ} (hL : Layout (nw l) s [Q, Q + 2 * nw l, coeff, coeff + 2 * nw l]) :
    Effect (nw l) s m (eval3isogM X Q coeff s m) (ptVars (nw l) Q (WCurve.eval3isog l (rdP (nw l) m Q) (rdF (nw l) m coeff) (rdF (nw l) m (coeff + 2 * nw l)))) := by
  refine X.prog m hL (k := 3) (eval3isogops 0 1 2 3 4 5 6) [(0, _), (1, _)] rfl rfl rfl ?_
  simp only [eval3isogops]
  values

/-- The calls in `inv_3_way` (`ec_isogeny.c:207-221`); local variables: `t0`, `t1`, `t2` -/
def inv3wayops (z1 z2 z3 t0 t1 t2 : ℕ) : List Op :=
  [.mul z1 z2 t0, .mul z3 t0 t1, .inv t1, .mul z3 t1 t2, .mul t0 t1 z3, .mul t2 z2 t0, .mul t2 z1 z2, .copy t0 z1]

/-- `inv_3_way` (`ec_isogeny.c:207-221`) -/
def inv3wayM (z1 z2 z3 sp : ℕ) (m : Mem) : Mem :=
  X.runs (loc (nw l) sp 3)
    (inv3wayops z1 z2 z3 (loc (nw l) sp 0) (loc (nw l) sp 1) (loc (nw l) sp 2)) m

/-- `inv_3_way`, which updates its arguments -/
theorem inv3wayM_effect (m : Mem) {z1 z2 z3 s : ℕ} (hL : Layout (nw l) s [z1, z2, z3]) :
    Effect (nw l) s m (inv3wayM X z1 z2 z3 s m) [(z1, (WSidh.inv3way l (rdF (nw l) m z1) (rdF (nw l) m z2) (rdF (nw l) m z3)).1), (z2, (WSidh.inv3way l (rdF (nw l) m z1) (rdF (nw l) m z2) (rdF (nw l) m z3)).2.1),
      (z3, (WSidh.inv3way l (rdF (nw l) m z1) (rdF (nw l) m z2) (rdF (nw l) m z3)).2.2)] := by
  refine X.prog m hL (k := 3) (inv3wayops 0 1 2 3 4 5) [(0, _), (1, _), (2, _)] rfl rfl rfl ?_
  simp only [inv3wayops]
  values

/-- The calls in `get_A` (`ec_isogeny.c:224-244`); local variables: `t0`, `t1`, `one` -/
def getAops (xP xQ xR A t0 t1 one : ℕ) : List Op :=
  [.one one, .add xP xQ t1, .mul xP xQ t0, .mul xR t1 A, .add t0 A A, .mul t0 xR t0, .sub A one A, .add t0 t0 t0, .add t1 xR t1,
    .add t0 t0 t0, .sqr A A, .inv t0, .mul A t0 A, .sub A t1 A]

/-- `get_A` (`ec_isogeny.c:224-244`) -/
def getAM (xP xQ xR A sp : ℕ) (m : Mem) : Mem :=
  X.runs (loc (nw l) sp 3)
    (getAops xP xQ xR A (loc (nw l) sp 0) (loc (nw l) sp 1) (loc (nw l) sp 2)) m

/-- `get_A`; the initialiser and the copy of `Montgomery_one` in `one` are taken together. -/
theorem getAM_effect (m : Mem) {xP xQ xR A s : ℕ} (hL : Layout (nw l) s [xP, xQ, xR, A]) :
    Effect (nw l) s m (getAM X xP xQ xR A s m) [(A, WSidh.getA l (rdF (nw l) m xP) (rdF (nw l) m xQ) (rdF (nw l) m xR))] := by
  refine X.prog m hL (k := 3) (getAops 0 1 2 3 4 5 6) [(3, _)] rfl rfl rfl ?_
  simp only [getAops]
  values

/-- The calls in `j_inv` (`ec_isogeny.c:247-269`); local variables: `t0`, `t1` -/
def jInvops (A C jinv t0 t1 : ℕ) : List Op :=
  [.sqr A jinv, .sqr C t1, .add t1 t1 t0, .sub jinv t0 t0, .sub t0 t1 t0, .sub t0 t1 jinv, .sqr t1 t1, .mul jinv t1 jinv,
    .add t0 t0 t0, .add t0 t0 t0, .sqr t0 t1, .mul t0 t1 t0, .add t0 t0 t0, .add t0 t0 t0, .inv jinv, .mul jinv t0 jinv]

/-- `j_inv` (`ec_isogeny.c:247-269`) -/
def jInvM (A C jinv sp : ℕ) (m : Mem) : Mem :=
  X.runs (loc (nw l) sp 2)
    (jInvops A C jinv (loc (nw l) sp 0) (loc (nw l) sp 1)) m

/-- `j_inv` -/
theorem jInvM_effect (m : Mem) {A C jinv s : ℕ} (hL : Layout (nw l) s [A, C, jinv]) :
    Effect (nw l) s m (jInvM X A C jinv s m) [(jinv, WCurve.jInv l (rdF (nw l) m A) (rdF (nw l) m C))] := by
  refine X.prog m hL (k := 2) (jInvops 0 1 2 3 4) [(2, _)] rfl rfl rfl ?_
  simp only [jInvops]
  values

/-- `j_inv(A, C, A)` -/
theorem jInvM_effect_inplace (m : Mem) {A C s : ℕ} (hL : Layout (nw l) s [A, C]) :
    Effect (nw l) s m (jInvM X A C A s m) [(A, WCurve.jInv l (rdF (nw l) m A) (rdF (nw l) m C))] := by
  refine X.prog m hL (k := 2) (jInvops 0 1 0 2 3) [(0, _)] rfl rfl rfl ?_
  simp only [jInvops]
  values

/-- The calls in `xDBLADD` (`ec_isogeny.c:272-297`); local variables: `t0`, `t1`, `t2` -/
def xDBLADDops (PX PZ QX QZ XPQ ZPQ A24 t0 t1 t2 : ℕ) : List Op :=
  [.mpadd PX PZ t0, .mpsub PX PZ t1, .sqr t0 PX, .mpsub QX QZ t2, .mpadd QX QZ QX, .mul t0 t2 t0, .sqr t1 PZ, .mul t1 QX t1,
    .mpsub PX PZ t2, .mul PX PZ PX, .mul A24 t2 QX, .mpsub t0 t1 QZ, .mpadd QX PZ PZ, .mpadd t0 t1 QX, .mul PZ t2 PZ, .sqr QZ QZ,
    .sqr QX QX, .mul QZ XPQ QZ, .mul QX ZPQ QX]

/-- `xDBLADD` (`ec_isogeny.c:272-297`) -/
def xDBLADDM (P Q XPQ ZPQ A24 sp : ℕ) (m : Mem) : Mem :=
  X.runs (loc (nw l) sp 3)
    (xDBLADDops P (P + 2 * nw l) Q (Q + 2 * nw l) XPQ ZPQ A24 (loc (nw l) sp 0) (loc (nw l) sp 1) (loc (nw l) sp 2)) m

/-- `xDBLADD`, which updates `P` and `Q` -/
theorem xDBLADDM_effect (m : Mem) {P Q XPQ ZPQ A24 s : ℕ} (hL : Layout (nw l) s [P, P + 2 * nw l, Q, Q + 2 * nw l, XPQ, ZPQ, A24]) :
    Effect (nw l) s m (xDBLADDM X P Q XPQ ZPQ A24 s m) 
      (ptVars (nw l) P (WCurve.xDBLADD l (rdP (nw l) m P) (rdP (nw l) m Q) (rdF (nw l) m XPQ) (rdF (nw l) m ZPQ) (rdF (nw l) m A24)).1 ++
        ptVars (nw l) Q (WCurve.xDBLADD l (rdP (nw l) m P) (rdP (nw l) m Q) (rdF (nw l) m XPQ) (rdF (nw l) m ZPQ) (rdF (nw l) m A24)).2) := by
  refine X.prog m hL (k := 3) (xDBLADDops 0 1 2 3 4 5 6 7 8 9) [(0, _), (1, _), (2, _), (3, _)] rfl rfl rfl ?_
  simp only [xDBLADDops]
  values

/-- The calls in `xTPL_fast` (`ec_isogeny.c:368-396`); local variables: `t1`, `t2`, `t3`, `t4` -/
def xTPLfastops (PX PZ QX QZ A2 t1 t2 t3 t4 : ℕ) : List Op :=
  [.sqr PX t1, .sqr PZ t2, .add t1 t2 t3, .add PX PZ t4, .sqr t4 t4, .sub t4 t3 t4, .mul A2 t4 t4, .add t3 t4 t4, .sub t1 t2 t3,
    .sqr t3 t3, .mul t1 t4 t1, .add t1 t1 t1, .add t1 t1 t1, .sub t1 t3 t1, .sqr t1 t1, .mul t2 t4 t2, .add t2 t2 t2,
    .add t2 t2 t2, .sub t2 t3 t2, .sqr t2 t2, .mul PX t2 QX, .mul PZ t1 QZ]

/-- `xTPL_fast` (`ec_isogeny.c:368-396`) -/
def xTPLfastM (P Q A2 sp : ℕ) (m : Mem) : Mem :=
  X.runs (loc (nw l) sp 4)
    (xTPLfastops P (P + 2 * nw l) Q (Q + 2 * nw l) A2 (loc (nw l) sp 0) (loc (nw l) sp 1) (loc (nw l) sp 2) (loc (nw l) sp 3)) m

/-- `xTPL_fast`, for `P` and `Q` disjoint -/
theorem xTPLfastM_effect (m : Mem) {P Q A2 s : ℕ} (hL : Layout (nw l) s [P, P + 2 * nw l, Q, Q + 2 * nw l, A2]) :
    Effect (nw l) s m (xTPLfastM X P Q A2 s m) (ptVars (nw l) Q (WSidh.xTPLfast l (rdP (nw l) m P) (rdF (nw l) m A2))) := by
  refine X.prog m hL (k := 4) (xTPLfastops 0 1 2 3 4 5 6 7 8) [(2, _), (3, _)] rfl rfl rfl ?_
  simp only [xTPLfastops]
  values

/-- `xTPL_fast(P, P, …)` -/
theorem xTPLfastM_effect_inplace (m : Mem) {P A2 s : ℕ} (hL : Layout (nw l) s [P, P + 2 * nw l, A2]) :
    Effect (nw l) s m (xTPLfastM X P P A2 s m) (ptVars (nw l) P (WSidh.xTPLfast l (rdP (nw l) m P) (rdF (nw l) m A2))) := by
  refine X.prog m hL (k := 4) (xTPLfastops 0 1 0 1 2 3 4 5 6) [(0, _), (1, _)] rfl rfl rfl ?_
  simp only [xTPLfastops]
  values

end Secuer.CMem
