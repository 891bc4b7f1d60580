import Verif.CMem.Poik
import Verif.WCurve.RefineAlgo

/-!
# Functions on memory (C95)

The functions get pointers, and some callers pass the same pointer for an input and for the output.  The theorems are about the functions
executed on memory digit by digit (`CMem/Model`, `CMem/Curve`, `CMem/Loops`, `CMem/Ladder`, `CMem/Poik`), in the portable build.  `n` is
`NWORDS_FIELD`; an element of GF(p^2) takes `2 n` digits, a point `4 n`.  Arguments lie below the stack pointer `s`; above it the functions
may write what they like.
-/

set_option maxRecDepth 100000

namespace Secuer.MemProps

open Secuer.Word Secuer.Field Secuer.CMem
open Secuer.WCurve (V VP VI xDBLe_ref xTPLe_ref evalIso_ref ladder_ref jInv_ref)
open Secuer.Curve (Pt Crv Iso)

variable {l : Level}

/-- The `k` digits at `a` are the only ones below `s` that may differ between `m` and `m'`. -/
def Only (s a k : ℕ) (m m' : Mem) : Prop := ∀ x < s, x < a ∨ a + k ≤ x → m' x = m x

/-- Each of the functions on field elements that consist of loops, called with any pointers: each input is the output or disjoint from
it, inputs may coincide.  The output is what the functional model computes from the inputs as they were before the call. -/
theorem C95_field (op : Op) (s : ℕ) (m : Mem) (hd : op.dst + 2 * nw l ≤ s) (hs : ∀ x ∈ op.srcs, x + 2 * nw l ≤ s)
    (ho : ∀ x ∈ op.srcs, x = op.dst ∨ x + 2 * nw l ≤ op.dst ∨ op.dst + 2 * nw l ≤ x) :
    rdF (nw l) ((portable l).run op s m) op.dst = op.val l (rdF (nw l) m) ∧ Only s op.dst (2 * nw l) m ((portable l).run op s m) := by
  have h := (portable l).step op s m hd hs ho
  have hl := (portable l).len op (rdF (nw l) m) fun x _ => rdF_len _ _ _
  refine ⟨by rw [h.rdF hd, rdF_wrF_same hl], fun x hx hx' => ?_⟩
  have l0 := hl.c0
  have l1 := hl.c1
  rw [h x hx]
  simp only [wrF]
  rcases hx' with hx' | hx'
  · rw [wr_of_lt (by omega), wr_of_lt (by omega)]
  · rw [wr_of_ge (by omega), wr_of_ge (by omega)]

/-- `fp2mul_mont(a, a, a)` -/
example : rdF (nw .l434) ((portable .l434).run (.mul 5 5 5) 100 fun _ => 3) 5 =
    fp2mul (tables .l434) ⟨List.replicate 7 3, List.replicate 7 3⟩ ⟨List.replicate 7 3, List.replicate 7 3⟩ :=
  (C95_field (l := .l434) (.mul 5 5 5) 100 _ (by decide) (by decide) (by decide)).1

theorem only_of_effect {s Q : ℕ} {m m' : Mem} {x : Pt F2} {n : ℕ} (h : Effect n s m m' (ptVars n Q x)) : Only s Q (4 * n) m m' :=
  fun y hy hy' => h.frame y hy (by
    simp only [ptVars, List.forall_mem_cons]
    exact ⟨by omega, by omega, by simp⟩)

/-- A place for four elements of GF(p^2) that are pairwise disjoint; p434 -/
theorem layout4 : Layout (nw .l434) 60 [0, 0 + 2 * nw .l434, 30, 46] := ⟨by decide, by decide⟩

/-- `xDBLe`, with the result in another place -/
theorem C95_xDBLe (m : Mem) {P Q A24plus C24 s : ℕ} (e : ℕ)
    (hL : Layout (nw l) s [P, P + 2 * nw l, Q, Q + 2 * nw l, A24plus, C24]) {P' : Pt l.F} {a c : l.F}
    (hP : VP l (rdP (nw l) m P) P') (ha : V l 4 (rdF (nw l) m A24plus) a) (hc : V l 4 (rdF (nw l) m C24) c) :
    VP l (rdP (nw l) (xDBLeM (portable l) P Q A24plus C24 e s m) Q) (Curve.xDBLe P' a c e) ∧
      Only s Q (4 * nw l) m (xDBLeM (portable l) P Q A24plus C24 e s m) := by
  have h := xDBLeM_effect (portable l) m e hL
  exact ⟨by rw [rdP_of_effect h]; exact xDBLe_ref ha hc e hP, only_of_effect h⟩

/-- `xDBLe(P, P, …)` (`poik.c:320, 619`) -/
theorem C95_xDBLe_inplace (m : Mem) {P A24plus C24 s : ℕ} (e : ℕ) (hL : Layout (nw l) s [P, P + 2 * nw l, A24plus, C24])
    {P' : Pt l.F} {a c : l.F} (hP : VP l (rdP (nw l) m P) P') (ha : V l 4 (rdF (nw l) m A24plus) a)
    (hc : V l 4 (rdF (nw l) m C24) c) :
    VP l (rdP (nw l) (xDBLeM (portable l) P P A24plus C24 e s m) P) (Curve.xDBLe P' a c e) ∧
      Only s P (4 * nw l) m (xDBLeM (portable l) P P A24plus C24 e s m) := by
  have h := xDBLeM_effect_inplace (portable l) m e hL
  exact ⟨by rw [rdP_of_effect h]; exact xDBLe_ref ha hc e hP, only_of_effect h⟩

/-- `xTPLe(P, P, …)` (`poik.c:319, 683`) -/
theorem C95_xTPLe_inplace (m : Mem) {P A24minus A24plus s : ℕ} (e : ℕ) (hL : Layout (nw l) s [P, P + 2 * nw l, A24minus, A24plus])
    {P' : Pt l.F} {a c : l.F} (hP : VP l (rdP (nw l) m P) P') (ha : V l 2 (rdF (nw l) m A24minus) a)
    (hc : V l 2 (rdF (nw l) m A24plus) c) :
    VP l (rdP (nw l) (xTPLeM (portable l) P P A24minus A24plus e s m) P) (Curve.xTPLe P' a c e) ∧
      Only s P (4 * nw l) m (xTPLeM (portable l) P P A24minus A24plus e s m) := by
  have h := xTPLeM_effect_inplace (portable l) m e hL
  exact ⟨by rw [rdP_of_effect h]; exact xTPLe_ref ha hc e hP, only_of_effect h⟩

/-- `eval_iso(iso, P, P)` (`poik.c:581, 582, 1049, 1073`) -/
theorem C95_evalIso_inplace (m : Mem) {iso P s : ℕ}
    (hL : Layout (nw l) s [iso + 2 * nw l, iso + 2 * nw l + 2 * nw l, P, P + 2 * nw l]) {P' : Pt l.F} {i' : Iso l.F}
    (hi : VI l (rdI (nw l) m iso) i') (hP : VP l (rdP (nw l) m P) P') :
    VP l (rdP (nw l) (evalIsoM (portable l) iso P P s m) P) (Curve.evalIso i' P') ∧
      Only s P (4 * nw l) m (evalIsoM (portable l) iso P P s m) := by
  have h := evalIsoM_effect_inplace (portable l) m hL
  exact ⟨by rw [rdP_of_effect h]; exact evalIso_ref hi hP, only_of_effect h⟩

/-- `Ladder` (`poik.c:518-547`) with a scalar of `w` digits at `sc` -/
theorem C95_ladder (m : Mem) {P sc w A R s orderBits : ℕ} (hL : Layout (nw l) s [P, P + 2 * nw l, A, R, R + 2 * nw l])
    (hsc : sc + w ≤ s) (hk : orderBits ≤ 64 * w) {P' : Pt l.F} {A' : l.F} (hP : VP l (rdP (nw l) m P) P')
    (hA : V l 2 (rdF (nw l) m A) A') :
    VP l (rdP (nw l) (ladderM (portable l) P sc A orderBits R s m) R) (Curve.ladder P' (val (rd m w sc)) A' orderBits) ∧
      Only s R (4 * nw l) m (ladderM (portable l) P sc A orderBits R s m) := by
  obtain ⟨r, e, hr⟩ := ladder_ref (m := rd m w sc) hA hP (k := orderBits) (by rw [rd_length]; exact hk)
  have h := ladderM_effect (portable l) m hL hsc e
  exact ⟨by rw [rdP_of_effect h]; exact hr, only_of_effect h⟩

/-! The hypotheses can be met: memory with the point (1 : 1) and the constants 1 and 0 -/

/-- Memory with `Montgomery_one` at 0, 14 and 30, zero elsewhere; p434 -/
def exMem : Mem := wr (wr (wr (fun _ => 0) 0 (tables .l434).one) 14 (tables .l434).one) 30 (tables .l434).one

theorem ex0 : rdF (nw .l434) exMem 0 = fp2one (tables .l434) := by decide +kernel
theorem ex14 : rdF (nw .l434) exMem (0 + 2 * nw .l434) = fp2one (tables .l434) := by decide +kernel
theorem ex30 : rdF (nw .l434) exMem 30 = fp2one (tables .l434) := by decide +kernel
theorem ex46 : rdF (nw .l434) exMem 46 = fp2zero (tables .l434) := by decide +kernel

theorem exPt : VP .l434 (rdP (nw .l434) exMem 0) ⟨1, 1⟩ := ⟨by rw [rdP, ex0]; exact WCurve.one_v, by rw [rdP, ex14]; exact WCurve.one_v⟩

example (e : ℕ) : VP .l434 (rdP (nw .l434) (xDBLeM (portable .l434) 0 0 30 46 e 60 exMem) 0) (Curve.xDBLe ⟨1, 1⟩ 1 0 e) :=
  (C95_xDBLe_inplace (l := .l434) exMem e layout4 exPt (by rw [ex30]; exact WCurve.one_v.mono (by omega))
    (by rw [ex46]; exact WCurve.zero_v.mono (by omega))).1

example (e : ℕ) : VP .l434 (rdP (nw .l434) (xTPLeM (portable .l434) 0 0 30 46 e 60 exMem) 0) (Curve.xTPLe ⟨1, 1⟩ 1 0 e) :=
  (C95_xTPLe_inplace (l := .l434) exMem e layout4 exPt (by rw [ex30]; exact WCurve.one_v) (by rw [ex46]; exact WCurve.zero_v)).1

example (e : ℕ) : VP .l434 (rdP (nw .l434) (xDBLeM (portable .l434) 0 60 30 46 e 100 exMem) 60) (Curve.xDBLe ⟨1, 1⟩ 1 0 e) :=
  (C95_xDBLe (l := .l434) exMem e (P := 0) (Q := 60) ⟨by decide, by decide⟩ exPt (by rw [ex30]; exact WCurve.one_v.mono (by omega))
    (by rw [ex46]; exact WCurve.zero_v.mono (by omega))).1

example : VP .l434 (rdP (nw .l434) (ladderM (portable .l434) 0 0 30 217 60 100 exMem) 60)
    (Curve.ladder ⟨1, 1⟩ (val (rd exMem 4 0)) 1 217) :=
  (C95_ladder (l := .l434) exMem (P := 0) (A := 30) (R := 60) (w := 4) ⟨by decide, by decide⟩ (by decide) (by decide) exPt
    (by rw [ex30]; exact WCurve.one_v)).1

/-- The isomorphism at 100 with `r = 0` and `u2 = 1` -/
example : VP .l434 (rdP (nw .l434) (evalIsoM (portable .l434) 100 0 0 200 (wr exMem 128 (tables .l434).one)) 0)
    (Curve.evalIso ⟨0, 0, 1⟩ ⟨1, 1⟩) := by
  have e : rdP (nw .l434) (wr exMem 128 (tables .l434).one) 0 = rdP (nw .l434) exMem 0 := by decide +kernel
  refine (C95_evalIso_inplace (l := .l434) _ ⟨by decide, by decide⟩ ⟨?_, ?_, ?_⟩ (by rw [e]; exact exPt)).1
  · rw [show (rdI (nw .l434) (wr exMem 128 (tables .l434).one) 100).B = fp2zero (tables .l434) by decide +kernel]
    exact WCurve.zero_v.n
  · rw [show (rdI (nw .l434) (wr exMem 128 (tables .l434).one) 100).r = fp2zero (tables .l434) by decide +kernel]
    exact WCurve.zero_v
  · rw [show (rdI (nw .l434) (wr exMem 128 (tables .l434).one) 100).u2 = fp2one (tables .l434) by decide +kernel]
    exact WCurve.one_v.n

/-- The conditions on the pointers are needed: `fpadd434(a, b, c)` with `c = a + 1` computes something else … -/
theorem C95_overlap : ∃ (a b c : ℕ) (m : Mem), c = a + 1 ∧ b = a + 20 ∧
    rd (fpaddM (tables .l434) a b c m) 7 c ≠ fpadd (tables .l434) (rd m 7 a) (rd m 7 b) :=
  ⟨0, 20, 1, fun _ => 1, rfl, rfl, by decide +kernel⟩

/-- … and so does `mp_mul(a, b, a)`, the product of the portable build, which must not overwrite its operands. -/
theorem C95_mul_overlap : ∃ (a b : ℕ) (m : Mem), b = a + 20 ∧
    some (rd (mpMulM 7 a b a m) 14 a) ≠ mpMul 7 (rd m 7 a) (rd m 7 b) :=
  ⟨0, 20, fun x => if x = 1 then 1 else if x = 0 then 2 else if x = 21 then 1 else if x = 20 then 5 else 0, rfl, by decide +kernel⟩

end Secuer.MemProps
