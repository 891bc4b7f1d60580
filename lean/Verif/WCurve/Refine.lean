import Verif.WCurve.Model
import Verif.Word.Encode
import Verif.Props.UtilProps
import Verif.Field.Level

/-!
# The curve formulas on words refine the formulas over the field

`V l B x v`: the arrays `x` represent `v` and are below `B * p`; `N l x v`: … and are at most `2p`.
-/

namespace Secuer.WCurve

open Secuer.Word Secuer.Field Secuer.Scalar
open Secuer.Curve (Pt Crv Iso Out M Tape Chain StratOps StratState stratRows stratInner ProvesOrder)

/-- The arrays are below `B * p` and represent `v`. -/
structure V (l : Level) (B : ℕ) (x : F2) (v : l.F) : Prop where
  rng : Rng2 (tables l) (B * l.p) x
  val : f2Val (tables l) l.p x = v

/-- The arrays are at most `2p` and represent `v`. -/
structure N (l : Level) (x : F2) (v : l.F) : Prop where
  rng : Rng2 (tables l) (2 * l.p + 1) x
  val : f2Val (tables l) l.p x = v

/-- Points: both coordinates below `2p`. -/
structure VP (l : Level) (P : Pt F2) (Q : Pt l.F) : Prop where
  X : V l 2 P.X Q.X
  Z : V l 2 P.Z Q.Z

/-- Curves: `A` at most `2p`, `C` below `2p`. -/
structure VC (l : Level) (E : Crv F2) (E' : Crv l.F) : Prop where
  A : N l E.A E'.A
  C : V l 2 E.C E'.C

/-- Models: `B` and `u2` at most `2p`, `r` below. -/
structure VI (l : Level) (i : Iso F2) (i' : Iso l.F) : Prop where
  B : N l i.B i'.B
  r : V l 2 i.r i'.r
  u2 : N l i.u2 i'.u2

variable {l : Level}

local notation "T" => tables l

section general

variable {T' : Tables} {p : ℕ} [hp : Fact p.Prime] [Arith] [ok : ArithOK T' p]

/-- `fpadd` beyond its documented range -/
theorem fpadd_wide (g : Good T' p) {a b : List Digit} {B C D : ℕ} (ha : Rng T' B a) (hb : Rng T' C b)
    (h : B + C ≤ D + 2 * p + 1) (h2 : 2 * p ≤ D) (hr : B + C ≤ 256 * p) :
    Rng T' D (fpadd T' a b) ∧ fpVal T' p (fpadd T' a b) = fpVal T' p a + fpVal T' p b := by
  have h1 := ha.lt
  have h2 := hb.lt
  have := g.room
  rw [ok.fpadd ha.len hb.len]
  obtain ⟨l, hv⟩ := fpadd_val g ha.len hb.len (by omega)
  refine ⟨⟨l, by rw [hv]; split <;> omega⟩, ?_⟩
  unfold fpVal
  rw [← add_mul, hv]
  congr 1
  split
  · rw [Nat.cast_sub (by assumption), Nat.cast_add, cast_kp, sub_zero]
  · rw [Nat.cast_add]

/-- `fpsub` beyond its documented range -/
theorem fpsub_wide (g : Good T' p) {a b : List Digit} {B D : ℕ} (ha : Rng T' B a) (hb : Rng T' (2 * p + 1) b)
    (h1 : B ≤ D) (h2 : 2 * p ≤ D) :
    Rng T' D (fpsub T' a b) ∧ fpVal T' p (fpsub T' a b) = fpVal T' p a - fpVal T' p b := by
  have h1 := ha.lt
  have h2 := hb.lt
  rw [ok.fpsub ha.len hb.len]
  obtain ⟨l, hv⟩ := fpsub_val g ha.len hb.len (by omega)
  refine ⟨⟨l, by rw [hv]; split <;> omega⟩, ?_⟩
  unfold fpVal
  rw [← sub_mul, hv]
  congr 1
  split
  · rw [Nat.cast_sub (by assumption)]
  · rw [Nat.cast_sub (by omega), Nat.cast_add, cast_kp, add_zero]

end general

variable {x y : F2} {u v : l.F} {B C D : ℕ}

theorem V.mono (h : V l B x v) (hB : B ≤ C) : V l C x v := ⟨h.rng.mono (Nat.mul_le_mul_right _ hB), h.val⟩

theorem V.n (h : V l 2 x v) : N l x v := ⟨h.rng.mono (by omega), h.val⟩

theorem pos (l : Level) : 2 < l.p := (good l).pos

theorem N.wide (h : N l x v) : V l 3 x v := ⟨h.rng.mono (by have := pos l; omega), h.val⟩

variable [Arith] [ok : ArithOK (tables l) l.p]

theorem V.mul (hx : V l B x u) (hy : V l C y v) (hB : B ≤ 16 := by norm_num) (hC : C ≤ 8 := by norm_num) :
    V l 2 (fp2mul T x y) (u * v) := by
  obtain ⟨r, e⟩ := fp2mul_spec (good l) hx.rng hy.rng hB hC
  exact ⟨r, by rw [e, hx.val, hy.val]⟩

theorem V.sqr (hx : V l B x u) (hB : B ≤ 4 := by norm_num) : V l 2 (fp2sqr T x) (u * u) := by
  obtain ⟨r, e⟩ := fp2sqr_spec (good l) hx.rng hB
  exact ⟨r, by rw [e, hx.val]⟩

/-- Squares are below `5p/4`. -/
theorem V.sqr_tight (hx : V l B x u) (hB : B ≤ 4 := by norm_num) :
    4 * Word.val (fp2sqr T x).c0 < 5 * l.p ∧ 4 * Word.val (fp2sqr T x).c1 < 5 * l.p := fp2sqr_tight (good l) hx.rng hB

theorem V.madd_val (hx : V l B x u) (hy : V l C y v) (h : B + C ≤ 256 := by norm_num) :
    Word.val (mp2add x y).c0 = Word.val x.c0 + Word.val y.c0 ∧ Word.val (mp2add x y).c1 = Word.val x.c1 + Word.val y.c1 := by
  have h' := Nat.mul_le_mul_right l.p h
  rw [Nat.add_mul] at h'
  exact ⟨(mpAddfast_spec (good l) hx.rng.c0 hy.rng.c0 h').2.1, (mpAddfast_spec (good l) hx.rng.c1 hy.rng.c1 h').2.1⟩

theorem V.madd (hx : V l B x u) (hy : V l C y v) (h : B + C ≤ 256 := by norm_num) : V l (B + C) (mp2add x y) (u + v) := by
  have h' := Nat.mul_le_mul_right l.p h
  rw [Nat.add_mul] at h'
  obtain ⟨r, e⟩ := mp2add_spec (good l) hx.rng hy.rng h'
  exact ⟨by rw [Nat.add_mul]; exact r, by rw [e, hx.val, hy.val]⟩

theorem V.msub (hx : V l B x u) (hy : V l C y v) (hC : C ≤ 2 := by norm_num) (h : B + 2 ≤ 256 := by norm_num) :
    V l (B + 2) (mp2subP2 T x y) (u - v) := by
  have h' := Nat.mul_le_mul_right l.p h
  have h2 := Nat.mul_le_mul_right l.p hC
  rw [Nat.add_mul] at h'
  obtain ⟨r, e⟩ := mp2subP2_spec (good l) hx.rng hy.rng (by omega) h'
  exact ⟨by rw [Nat.add_mul]; exact r, by rw [e, hx.val, hy.val]⟩

theorem V.add (hx : V l 2 x u) (hy : V l 2 y v) : V l 2 (fp2add T x y) (u + v) := by
  obtain ⟨r, e⟩ := fp2add_spec (good l) hx.rng hy.rng (by omega)
  exact ⟨r, by rw [e, hx.val, hy.val]⟩

theorem N.add (hx : N l x u) (hy : V l 2 y v) : V l 2 (fp2add T x y) (u + v) := by
  obtain ⟨r, e⟩ := fp2add_spec (good l) hx.rng hy.rng (by omega)
  exact ⟨r, by rw [e, hx.val, hy.val]⟩

theorem V.sub (hx : V l 2 x u) (hy : V l 2 y v) : V l 2 (fp2sub T x y) (u - v) := by
  obtain ⟨r, e⟩ := fp2sub_spec (good l) hx.rng (hy.rng.mono (by omega))
  exact ⟨r, by rw [e, hx.val, hy.val]⟩

theorem V.subN (hx : V l 2 x u) (hy : N l y v) : V l 2 (fp2sub T x y) (u - v) := by
  obtain ⟨r, e⟩ := fp2sub_spec (good l) hx.rng hy.rng
  exact ⟨r, by rw [e, hx.val, hy.val]⟩

theorem V.addW (hx : V l 4 x u) (hy : V l 2 y v) : V l 4 (fp2add T x y) (u + v) := by
  have := pos l
  obtain ⟨r0, e0⟩ := fpadd_wide (D := 4 * l.p) (good l) hx.rng.c0 hy.rng.c0 (by omega) (by omega) (by omega)
  obtain ⟨r1, e1⟩ := fpadd_wide (D := 4 * l.p) (good l) hx.rng.c1 hy.rng.c1 (by omega) (by omega) (by omega)
  exact ⟨⟨r0, r1⟩, by rw [← hx.val, ← hy.val]; exact QuadraticAlgebra.ext e0 e1⟩

theorem V.subW (hx : V l 4 x u) (hy : V l 2 y v) : V l 4 (fp2sub T x y) (u - v) := by
  have := pos l
  have hy' := hy.rng.mono (show 2 * l.p ≤ 2 * l.p + 1 by omega)
  obtain ⟨r0, e0⟩ := fpsub_wide (D := 4 * l.p) (good l) hx.rng.c0 hy'.c0 (by omega) (by omega)
  obtain ⟨r1, e1⟩ := fpsub_wide (D := 4 * l.p) (good l) hx.rng.c1 hy'.c1 (by omega) (by omega)
  exact ⟨⟨r0, r1⟩, by rw [← hx.val, ← hy.val]; exact QuadraticAlgebra.ext e0 e1⟩

theorem N.neg (hx : N l x u) : N l (fp2neg T x) (-u) := by
  obtain ⟨r, e⟩ := fp2neg_spec (good l) hx.rng
  exact ⟨r, by rw [e, hx.val]⟩

theorem V.div2 (hx : V l 2 x u) : V l 2 (fp2div2 T x) (u / 2) := by
  obtain ⟨r, e⟩ := fp2div2_spec (good l) hx.rng (by omega)
  exact ⟨r, by rw [e, hx.val]⟩

theorem V.inv (hx : V l 2 x u) : V l 2 (fp2inv T l.chain x) u⁻¹ := by
  obtain ⟨r, e⟩ := fp2inv_spec (good l) l.chain_exp (hx.rng.mono (by omega))
  exact ⟨r, by rw [e, hx.val]⟩

theorem V.divN (hx : V l 4 x u) (hy : V l 2 y v) : V l 2 (div l x y) (Curve.fp2div u v) := by
  obtain ⟨r, e⟩ := fp2div_spec (good l) l.chain_exp hx.rng (hy.rng.mono (by omega))
  exact ⟨r, by rw [div, e, hx.val, hy.val]; rfl⟩

theorem zero_v : V l 2 (fp2zero T) 0 := by
  have := pos l
  exact ⟨⟨rng_zero (good l) (by omega), rng_zero (good l) (by omega)⟩, QuadraticAlgebra.ext fpVal_zero fpVal_zero⟩

theorem one_rng : Rng T (2 * l.p) (tables l).one ∧ fpVal T l.p (tables l).one = 1 := by
  have g := good l
  have := g.pos
  refine ⟨⟨g.len_one, by rw [g.val_one]; have := Nat.mod_lt (2 ^ (64 * (tables l).n)) (by omega : l.p > 0); omega⟩, ?_⟩
  rw [fpVal, g.val_one, ZMod.natCast_mod, Nat.cast_pow, Nat.cast_ofNat, mul_inv_cancel₀ (R_ne_zero g)]

theorem one_v : V l 2 (fp2one T) 1 := by
  have := pos l
  exact ⟨⟨one_rng.1, rng_zero (good l) (by omega)⟩, QuadraticAlgebra.ext one_rng.2 fpVal_zero⟩

variable {P Q : Pt F2} {P' Q' : Pt l.F} {E : Crv F2} {E' : Crv l.F} {a b : F2} {a' b' : l.F}

theorem xDBL_ref (hP : VP l P P') (ha : V l 4 a a') (hb : V l 4 b b') : VP l (xDBL l P a b) (Curve.xDBL P' a' b') := by
  have t0 := (hP.X.msub hP.Z).sqr
  have t1 := (hP.X.madd hP.Z).sqr
  have QZ := hb.mul t0
  have t2 := t1.msub t0
  exact ⟨t1.mul QZ, (QZ.madd (ha.mul t2)).mul t2⟩

theorem xDBLe_ref (ha : V l 4 a a') (hb : V l 4 b b') : ∀ (e : ℕ) {P : Pt F2} {P' : Pt l.F}, VP l P P' →
    VP l (xDBLe l P a b e) (Curve.xDBLe P' a' b' e)
  | 0, _, _, h => h
  | e + 1, _, _, h => xDBLe_ref ha hb e (xDBL_ref h ha hb)

theorem get2isog_ref (hP : VP l P P') :
    V l 4 (get2isog l P).1 (Curve.get2isog P').1 ∧ V l 4 (get2isog l P).2 (Curve.get2isog P').2 := by
  have A := hP.X.sqr
  have C := hP.Z.sqr
  exact ⟨C.msub A, C.mono (by norm_num)⟩

theorem eval2isog_ref (hP : VP l P P') (hQ : VP l Q Q') : VP l (eval2isog l P Q) (Curve.eval2isog P' Q') := by
  have t0 := (hQ.X.madd hQ.Z).mul (hP.X.msub hP.Z)
  have t1 := (hQ.X.msub hQ.Z).mul (hP.X.madd hP.Z)
  exact ⟨hP.X.mul (t0.madd t1), hP.Z.mul (t0.msub t1)⟩

theorem get4isog_ref (hP : VP l P P') :
    V l 2 (get4isog l P).1 (Curve.get4isog P').1 ∧ V l 2 (get4isog l P).2.1 (Curve.get4isog P').2.1 ∧
      V l 8 (get4isog l P).2.2.1 (Curve.get4isog P').2.2.1 ∧ V l 4 (get4isog l P).2.2.2.1 (Curve.get4isog P').2.2.2.1 ∧
      V l 4 (get4isog l P).2.2.2.2 (Curve.get4isog P').2.2.2.2 := by
  have c1 := hP.X.msub hP.Z
  have c2 := hP.X.madd hP.Z
  have c0 := hP.Z.sqr.madd hP.Z.sqr
  have A := hP.X.sqr.madd hP.X.sqr
  exact ⟨A.sqr, c0.sqr, c0.madd c0, c1, c2⟩

theorem eval4isog_ref {c0 c1 c2 : F2} {c0' c1' c2' : l.F} (hP : VP l P P') (h0 : V l 8 c0 c0') (h1 : V l 4 c1 c1')
    (h2 : V l 4 c2 c2') : VP l (eval4isog l P c0 c1 c2) (Curve.eval4isog P' c0' c1' c2') := by
  have t0 := hP.X.madd hP.Z
  have t1 := hP.X.msub hP.Z
  have PX := t0.mul h1
  have PZ := t1.mul h2
  have t2 := h0.mul (t0.mul t1)
  have t3 := (PX.madd PZ).sqr
  have PZ2 := (PX.msub PZ).sqr
  exact ⟨(t3.madd t2).mul t3, PZ2.mul (PZ2.msub t2)⟩

theorem xTPL_ref (hP : VP l P P') (ha : V l 2 a a') (hb : V l 2 b b') : VP l (xTPL l P a b) (Curve.xTPL P' a' b') := by
  have t2 := (hP.X.msub hP.Z).sqr
  have t3 := (hP.X.madd hP.Z).sqr
  have t4 := hP.X.madd hP.X
  have t0 := hP.Z.madd hP.Z
  have t1 := (t4.sqr.msub t3).msub t2
  have t5 := hb.mul t3
  have t6 := ha.mul t2
  have s3 := (t2.mul t6).msub (t3.mul t5)
  have s1 := t1.mul (t5.msub t6)
  exact ⟨t4.mul (s3.addW s1).sqr, t0.mul (s3.subW s1).sqr⟩

theorem xTPLe_ref (ha : V l 2 a a') (hb : V l 2 b b') : ∀ (e : ℕ) {P : Pt F2} {P' : Pt l.F}, VP l P P' →
    VP l (xTPLe l P a b e) (Curve.xTPLe P' a' b' e)
  | 0, _, _, h => h
  | e + 1, _, _, h => xTPLe_ref ha hb e (xTPL_ref h ha hb)

theorem get3isog_ref (hP : VP l P P') :
    V l 2 (get3isog l P).1 (Curve.get3isog P').1 ∧ V l 2 (get3isog l P).2.1 (Curve.get3isog P').2.1 ∧
      V l 4 (get3isog l P).2.2.1 (Curve.get3isog P').2.2.1 ∧ V l 4 (get3isog l P).2.2.2 (Curve.get3isog P').2.2.2 := by
  have c0 := hP.X.msub hP.Z
  have t0 := c0.sqr
  have c1 := hP.X.madd hP.Z
  have t1 := c1.sqr
  have t3 := (hP.X.madd hP.X).sqr
  have t2 := t3.sub t0
  have s3 := t3.sub t1
  have b0 := c0.sqr_tight
  have b1 := c1.sqr_tight
  -- the second factors of the two products are below `8p`
  have key : ∀ {x y z : F2} {u v w : l.F}, V l 2 x u → V l 2 y v → V l 2 z w → 4 * Word.val x.c0 < 5 * l.p ∧ 4 * Word.val x.c1 < 5 * l.p →
      4 * Word.val y.c0 < 5 * l.p ∧ 4 * Word.val y.c1 < 5 * l.p →
      V l 8 (mp2add x (mp2add (mp2add y z) (mp2add y z))) (u + (v + w + (v + w))) := by
    intro x y z u v w hx hy hz bx bz
    have h1 := hy.madd hz
    have h2 := h1.madd h1
    have h3 := hx.madd h2
    obtain ⟨e1, f1⟩ := hy.madd_val hz
    obtain ⟨e2, f2⟩ := h1.madd_val h1
    obtain ⟨e3, f3⟩ := hx.madd_val h2
    have z0 := hz.rng.c0.lt
    have z1 := hz.rng.c1.lt
    exact ⟨⟨⟨h3.rng.c0.len, by omega⟩, ⟨h3.rng.c1.len, by omega⟩⟩, h3.val⟩
  exact ⟨t2.mul (key t1 t0 s3 b1 b0), s3.mul (key t0 t1 t2 b0 b1), c0, c1⟩

theorem eval3isog_ref {c0 c1 : F2} {c0' c1' : l.F} (hQ : VP l Q Q') (h0 : V l 4 c0 c0') (h1 : V l 4 c1 c1') :
    VP l (eval3isog l Q c0 c1) (Curve.eval3isog Q' c0' c1') := by
  have t0 := h0.mul (hQ.X.madd hQ.Z)
  have t1 := h1.mul (hQ.X.msub hQ.Z)
  exact ⟨hQ.X.mul (t0.madd t1).sqr, hQ.Z.mul (t1.msub t0).sqr⟩

theorem jInv_ref (ha : V l 3 a a') (hb : V l 2 b b') : V l 2 (jInv l a b) (Curve.jInv a' b') := by
  have j := ha.sqr
  have t1 := hb.sqr
  have t0 := (j.sub (t1.add t1)).sub t1
  have j := (t0.sub t1).mul t1.sqr
  have s0 := t0.add t0
  have s0 := s0.add s0
  have r0 := s0.mul s0.sqr
  have r0 := r0.add r0
  have r0 := r0.add r0
  exact j.inv.mul r0

theorem xDBLADD_ref {x z c : F2} {x' z' c' : l.F} (hP : VP l P P') (hQ : VP l Q Q') (hx : V l 2 x x') (hz : V l 2 z z')
    (hc : V l 2 c c') : VP l (xDBLADD l P Q x z c).1 (Curve.xDBLADD P' Q' x' z' c').1 ∧
      VP l (xDBLADD l P Q x z c).2 (Curve.xDBLADD P' Q' x' z' c').2 := by
  have t0 := hP.X.madd hP.Z
  have t1 := hP.X.msub hP.Z
  have PX := t0.sqr
  have t2 := hQ.X.msub hQ.Z
  have QX := hQ.X.madd hQ.Z
  have s0 := t0.mul t2
  have PZ := t1.sqr
  have s1 := t1.mul QX
  have s2 := PX.msub PZ
  have QX := hc.mul s2
  have QZ := s0.msub s1
  exact ⟨⟨PX.mul PZ, (QX.madd PZ).mul s2⟩, ⟨(s0.madd s1).sqr.mul hz, QZ.sqr.mul hx⟩⟩

theorem acToAac24_ref (h : VC l E E') :
    V l 2 (acToAac24 l E).1 (Curve.acToAac24 E').1 ∧ V l 2 (acToAac24 l E).2.1 (Curve.acToAac24 E').2.1 ∧
      V l 2 (acToAac24 l E).2.2 (Curve.acToAac24 E').2.2 := by
  have c := h.C.add h.C
  have a := h.A.add c
  have c2 := c.add c
  exact ⟨a, a.sub c2, c2⟩

theorem ac24ToAc_ref (ha : V l 2 a a') (hb : V l 2 b b') : VC l (ac24ToAc l a b) (Curve.ac24ToAc a' b') := by
  have A := (ha.add ha).sub hb
  exact ⟨(A.add A).n, hb⟩

theorem aa24ToAc_ref (ha : V l 2 a a') (hb : V l 2 b b') :
    V l 2 (aa24ToAc l a b).A (Curve.aa24ToAc a' b').A ∧ VC l (aa24ToAc l a b) (Curve.aa24ToAc a' b') := by
  have A := hb.add ha
  have C := A.sub (ha.add ha)
  exact ⟨A.add A, (A.add A).n, C⟩

theorem evalIso_ref {i : Iso F2} {i' : Iso l.F} (hi : VI l i i') (hP : VP l P P') : VP l (evalIso l i P) (Curve.evalIso i' P') :=
  ⟨hP.X.sub (hi.r.mul hP.Z), hi.u2.wide.mul hP.Z⟩

variable [FpEq] [FpEqOK (tables l) l.p]

theorem iszero_ref (hx : V l 2 x u) : iszero l x ≠ 0 ↔ u = 0 := by
  rw [iszero, fp2equal_ne (good l) hx.rng (zero_v.n).rng, hx.val, zero_v.val]

theorem iszero_cases (hx : V l 2 x u) : iszero l x = if u = 0 then 255#8 else 0#8 := by
  rw [iszero, fp2equal_spec (good l) hx.rng (zero_v.n).rng, hx.val, zero_v.val]

theorem pointEqual_ref (hP : VP l P P') (hQ : VP l Q Q') : pointEqual l P Q ≠ 0 ↔ Curve.pointEqual P' Q' = true := by
  have U := hP.X.mul hQ.Z
  have W := hQ.X.mul hP.Z
  rw [pointEqual, projEqual, fp2equal_ne (good l) U.rng W.n.rng, U.val, W.val, Curve.pointEqual, Curve.projEqual,
    decide_eq_true_iff]

/-! ### Models -/

theorem sqrt_v {known : Bool} (hx : V l 2 x u) : V l 2 (fp2sqrt T l.chain l.iso.e2 l.iso.e3 known x).1 (l.env.sqrt u) := by
  have hb := half_bounds l
  obtain ⟨r, v⟩ := fp2sqrtY_spec (good l) l.chain_exp (e2 := l.iso.e2) (e3 := l.iso.e3) (by cases l <;> decide) hb.2.1
    hb.2.2 (hx.rng.c0.mono (by omega)) hx.rng.c1
  have e1 : (fp2sqrt T l.chain l.iso.e2 l.iso.e3 known x).1 = fp2sqrtY T l.chain l.iso.e2 l.iso.e3 x := by
    cases known <;> rfl
  rw [e1]
  refine ⟨r, v.trans ?_⟩
  rw [hx.val]
  show sqrtF _ _ _ _ = sqrtF _ _ _ _
  rw [show l.chainF = fun v => v ^ ((l.p - 3) / 4) from funext l.chainF_eq]

theorem sqrt_bool (hx : V l 2 x u) :
    (fp2sqrt T l.chain l.iso.e2 l.iso.e3 false x).2 = true ↔ l.env.sqrt u * l.env.sqrt u = u := by
  have h := (sqrt_v (known := false) hx).sqr
  replace h : V l 2 (fp2sqr T (fp2sqrtY T l.chain l.iso.e2 l.iso.e3 x)) _ := h
  show decide (fp2equal T (fp2sqr T (fp2sqrtY T l.chain l.iso.e2 l.iso.e3 x)) x ≠ 0) = true ↔ _
  rw [decide_eq_true_iff, fp2equal_ne (good l) h.rng hx.n.rng, hx.val, h.val]

theorem solveQuadratic_ref (hx : N l x u) :
    V l 2 (solveQuadratic l x).1 (Curve.solveQuadratic l.env u).1 ∧
      V l 2 (solveQuadratic l x).2.1 (Curve.solveQuadratic l.env u).2 ∧
      ((solveQuadratic l x).2.2 = 2 ↔ Curve.solveQuadraticNum l.env u = 2) := by
  have four := one_v.add (one_v (l := l))
  have four := four.add four
  have disc := hx.wide.sqr.sub four
  have rt := sqrt_v (known := true) disc
  have s0 := (rt.subN hx).div2
  have s1 := s0.sub rt
  replace s0 : V l 2 (solveQuadratic l x).1 (Curve.solveQuadratic l.env u).1 := s0
  replace s1 : V l 2 (solveQuadratic l x).2.1 (Curve.solveQuadratic l.env u).2 := s1
  refine ⟨s0, s1, ?_⟩
  show (2 : BitVec 64) - (fp2equal T (solveQuadratic l x).1 (solveQuadratic l x).2.1).setWidth 64 = 2 ↔
    (if (Curve.solveQuadratic l.env u).1 = (Curve.solveQuadratic l.env u).2 then 2 ^ 64 + 2 - 255 else 2) = 2
  rw [fp2equal_spec (good l) s0.rng s1.n.rng, s0.val, s1.val]
  by_cases h : (Curve.solveQuadratic l.env u).1 = (Curve.solveQuadratic l.env u).2
  · rw [if_pos h, if_pos h]
    decide
  · rw [if_neg h, if_neg h]
    decide

theorem modelAt_ref {A x2 m x4 : F2} {A' x2' x4' : l.F} (hA : V l 2 A A') (h2 : V l 2 x2 x2') (hm : N l m (-(x2' + x2')))
    (h4 : V l 2 x4 x4') : VI l (modelAt l A x2 m x4) (Curve.modelAt A' x2' x4') := by
  have u2 := h4.sub h2
  have B := ((h2.subN hm).add hA)
  exact ⟨((B.mono (by norm_num)).divN u2).n, h2, u2.n⟩

/-- Related lists -/
abbrev VL (R : α → β → Prop) : List α → List β → Prop := List.Forall₂ R

theorem modelsAt_ref {A x2 : F2} {A' x2' : l.F} (hA : V l 2 A A') (h2 : V l 2 x2 x2') :
    (Curve.solveQuadraticNum l.env (-(x2' + x2')) = 2 → ∃ i j, modelsAt l A x2 = .ok [i, j] ∧
      VI l i (Curve.modelAt A' x2' (Curve.solveQuadratic l.env (-(x2' + x2'))).1) ∧
      VI l j (Curve.modelAt A' x2' (Curve.solveQuadratic l.env (-(x2' + x2'))).2)) ∧
    (Curve.solveQuadraticNum l.env (-(x2' + x2')) ≠ 2 → modelsAt l A x2 = .ub) := by
  have m := (h2.add h2).n.neg
  obtain ⟨s0, s1, sn⟩ := solveQuadratic_ref m
  constructor
  · intro h
    refine ⟨_, _, if_pos (sn.2 h), modelAt_ref hA h2 m s0, modelAt_ref hA h2 m s1⟩
  · intro h
    exact if_neg (fun h' => h (sn.1 h'))

theorem ub_iff (E' : Crv l.F) : Curve.allModelsUB l.env E' = false ↔
    Curve.solveQuadraticNum l.env (Curve.fp2div E'.A E'.C) = 2 ∧
      Curve.solveQuadraticNum l.env (-((Curve.solveQuadratic l.env (Curve.fp2div E'.A E'.C)).1 +
        (Curve.solveQuadratic l.env (Curve.fp2div E'.A E'.C)).1)) = 2 ∧
      Curve.solveQuadraticNum l.env (-((Curve.solveQuadratic l.env (Curve.fp2div E'.A E'.C)).2 +
        (Curve.solveQuadratic l.env (Curve.fp2div E'.A E'.C)).2)) = 2 := by
  unfold Curve.allModelsUB
  dsimp only
  rw [Bool.or_eq_false_iff, Bool.or_eq_false_iff, decide_eq_false_iff_not, decide_eq_false_iff_not,
    decide_eq_false_iff_not, not_not, not_not, not_not, and_assoc]

/-- `all_models` on words, with its steps named -/
theorem allModels_eq (E : Crv F2) : allModels l E =
    if (solveQuadratic l (div l E.A E.C)).2.2 = 2 then
      (match modelsAt l (div l E.A E.C) (solveQuadratic l (div l E.A E.C)).1 with
      | .ok is =>
        match modelsAt l (div l E.A E.C) (solveQuadratic l (div l E.A E.C)).2.1 with
        | .ok js => .ok ((⟨div l E.A E.C, fp2zero T, fp2one T⟩ : Iso F2) ::
            ⟨fp2neg T (div l E.A E.C), fp2zero T, fp2neg T (fp2one T)⟩ :: is ++ js)
        | _ => .ub
      | _ => .ub) else .ub := rfl

theorem allModels_ok (hE : VC l E E') (h : Curve.allModelsUB l.env E' = false) :
    ∃ is, allModels l E = .ok is ∧ VL (VI l) is (Curve.allModels l.env E') := by
  have A := (hE.A.wide.mono (show 3 ≤ 4 by norm_num)).divN hE.C
  obtain ⟨s0, s1, sn⟩ := solveQuadratic_ref A.n
  rw [ub_iff] at h
  obtain ⟨i, j, e, hi, hj⟩ := (modelsAt_ref A s0).1 h.2.1
  obtain ⟨i', j', e', hi', hj'⟩ := (modelsAt_ref A s1).1 h.2.2
  rw [allModels_eq, if_pos (sn.2 h.1), e, e']
  exact ⟨_, rfl, .cons ⟨A.n, zero_v, one_v.n⟩ (.cons ⟨A.n.neg, zero_v, one_v.n.neg⟩ (.cons hi (.cons hj (.cons hi' (.cons hj' .nil)))))⟩

theorem allModels_ub (hE : VC l E E') (h : Curve.allModelsUB l.env E' = true) : allModels l E = .ub := by
  have A := (hE.A.wide.mono (show 3 ≤ 4 by norm_num)).divN hE.C
  obtain ⟨s0, s1, sn⟩ := solveQuadratic_ref A.n
  have h' : ¬ Curve.allModelsUB l.env E' = false := by rw [h]; exact Bool.noConfusion
  rw [ub_iff] at h'
  rw [allModels_eq]
  by_cases h1 : (solveQuadratic l (div l E.A E.C)).2.2 = 2
  · rw [if_pos h1]
    by_cases h3 : Curve.solveQuadraticNum l.env (-((Curve.solveQuadratic l.env (Curve.fp2div E'.A E'.C)).1 +
        (Curve.solveQuadratic l.env (Curve.fp2div E'.A E'.C)).1)) = 2
    · obtain ⟨i, j, e, -, -⟩ := (modelsAt_ref A s0).1 h3
      rw [e, (modelsAt_ref A s1).2 (fun h4 => h' ⟨sn.1 h1, h3, h4⟩)]
    · rw [(modelsAt_ref A s0).2 h3]
  · rw [if_neg h1]

/-! ### Masked moves -/

theorem digitsOf_digitBytes : ∀ x : List Digit, digitsOf x.length (digitBytes x) = x := by
  intro x
  have h := val_digitsOf x.length (digitBytes x) (by rw [digitBytes_length])
  rw [leNat_digitBytes] at h
  exact val_inj (by rw [digitsOf_length]) h

theorem isoOfWords_isoWords {i : Iso F2} {n : ℕ} (h : i.B.c0.length = n ∧ i.B.c1.length = n ∧ i.r.c0.length = n ∧
    i.r.c1.length = n ∧ i.u2.c0.length = n ∧ i.u2.c1.length = n) : isoOfWords n (isoWords i) = i := by
  obtain ⟨⟨b0, b1⟩, ⟨r0, r1⟩, ⟨u0, u1⟩⟩ := i
  obtain ⟨h1, h2, h3, h4, h5, h6⟩ := h
  simp only at h1 h2 h3 h4 h5 h6
  have d : ∀ (a b : List Digit), a.length = n → (a ++ b).drop n = b := fun a b h => List.drop_left' h
  have t : ∀ (a b : List Digit), a.length = n → (a ++ b).take n = a := fun a b h => List.take_left' h
  simp only [isoOfWords, isoWords, List.append_assoc]
  rw [d _ _ h1, d _ _ h2, d _ _ h3, d _ _ h4, d _ _ h5, t _ _ h1, t _ _ h2, t _ _ h3, t _ _ h4, t _ _ h5,
    List.take_of_length_le h6.le]

/-- `mont_iso`s of the right size -/
def IsoLen (l : Level) (i : Iso F2) : Prop := i.B.c0.length = (tables l).n ∧ i.B.c1.length = (tables l).n ∧
  i.r.c0.length = (tables l).n ∧ i.r.c1.length = (tables l).n ∧ i.u2.c0.length = (tables l).n ∧
  i.u2.c1.length = (tables l).n

theorem VI.len {i : Iso F2} {i' : Iso l.F} (h : VI l i i') : IsoLen l i :=
  ⟨h.B.rng.c0.len, h.B.rng.c1.len, h.r.rng.c0.len, h.r.rng.c1.len, h.u2.rng.c0.len, h.u2.rng.c1.len⟩

theorem isoWords_length {i : Iso F2} (h : IsoLen l i) : (isoWords i).length = 6 * (tables l).n := by
  obtain ⟨h1, h2, h3, h4, h5, h6⟩ := h
  simp only [isoWords, List.length_append, h1, h2, h3, h4, h5, h6]
  omega

/-- `ct_cmov` with an all-one or all-zero selector -/
theorem cmovIso_eq {i a : Iso F2} (hi : IsoLen l i) (ha : IsoLen l a) (c : Prop) [Decidable c] :
    cmovIso l (if c then 255#8 else 0#8) i a = if c then a else i := by
  have hl : (digitBytes (isoWords i)).length = (digitBytes (isoWords a)).length := by
    rw [digitBytes_length, digitBytes_length, isoWords_length hi, isoWords_length ha]
  have h := Util.C53_ct_cmov _ _ hl
  unfold cmovIso
  by_cases hc : c
  · rw [if_pos hc, if_pos hc, show UInt8.ofBitVec 255#8 = 255 from rfl, h.1, ← isoWords_length ha, digitsOf_digitBytes,
      isoOfWords_isoWords ha]
  · rw [if_neg hc, if_neg hc, show UInt8.ofBitVec 0#8 = 0 from rfl, h.2, ← isoWords_length hi, digitsOf_digitBytes,
      isoOfWords_isoWords hi]

theorem fpLt_spec {n : ℕ} {x y : List Digit} (hx : x.length = n) (hy : y.length = n) :
    fpLt x y = if val x < val y then 255#8 else 0#8 := by
  obtain ⟨-, hb, h⟩ := sub0 hx hy
  unfold fpLt mpSub
  rcases h with ⟨h1, h2, -⟩ | ⟨h1, h2, -⟩
  · rw [if_neg (by omega), show (subLoop 0 x y).1 = 0 from BitVec.eq_of_toNat_eq h2]
    decide
  · rw [if_pos h1, show (subLoop 0 x y).1 = 1 from BitVec.eq_of_toNat_eq h2]
    decide

theorem modelLt_ref (hx : N l x u) (hy : N l y v) :
    modelLt l x y = if Curve.modelLt l.env u v = true then 255#8 else 0#8 := by
  have hpos := pos l
  obtain ⟨l0, v0⟩ := fromMont_spec (good l) (hx.rng.c0.mono (show 2 * l.p + 1 ≤ 120 * l.p by omega))
  obtain ⟨l1, v1⟩ := fromMont_spec (good l) (hx.rng.c1.mono (show 2 * l.p + 1 ≤ 120 * l.p by omega))
  obtain ⟨m0, w0⟩ := fromMont_spec (good l) (hy.rng.c0.mono (show 2 * l.p + 1 ≤ 120 * l.p by omega))
  obtain ⟨m1, w1⟩ := fromMont_spec (good l) (hy.rng.c1.mono (show 2 * l.p + 1 ≤ 120 * l.p by omega))
  have e0 : (fpVal T l.p x.c0) = u.re := congrArg QuadraticAlgebra.re hx.val
  have e1 : (fpVal T l.p x.c1) = u.im := congrArg QuadraticAlgebra.im hx.val
  have e2 : (fpVal T l.p y.c0) = v.re := congrArg QuadraticAlgebra.re hy.val
  have e3 : (fpVal T l.p y.c1) = v.im := congrArg QuadraticAlgebra.im hy.val
  rw [e0] at v0
  rw [e1] at v1
  rw [e2] at w0
  rw [e3] at w1
  unfold modelLt
  dsimp only
  rw [fpLt_spec l0 m0, fpLt_spec m0 l0, fpLt_spec l1 m1, v0, v1, w0, w1]
  have hd : Curve.modelLt l.env u v = true ↔ u.re.val < v.re.val ∨ (u.re.val = v.re.val ∧ u.im.val < v.im.val) := by
    show (decide (u.re.val < v.re.val) || (decide (u.re.val = v.re.val) && decide (u.im.val < v.im.val))) = true ↔ _
    rw [Bool.or_eq_true, Bool.and_eq_true, decide_eq_true_iff, decide_eq_true_iff, decide_eq_true_iff]
  by_cases h1 : u.re.val < v.re.val
  · rw [if_pos h1, if_neg (by omega : ¬ v.re.val < u.re.val), if_pos (hd.2 (Or.inl h1))]
    split <;> decide
  · rw [if_neg h1]
    by_cases h2 : v.re.val < u.re.val
    · have hn : ¬ Curve.modelLt l.env u v = true := by rw [hd]; omega
      rw [if_pos h2, if_neg hn]
      split <;> decide
    · rw [if_neg h2]
      by_cases h3 : u.im.val < v.im.val
      · rw [if_pos h3, if_pos (hd.2 (by omega))]; decide
      · have hn : ¬ Curve.modelLt l.env u v = true := by rw [hd]; omega
        rw [if_neg h3, if_neg hn]; decide

theorem selectModel_ref : ∀ {is : List (Iso F2)} {is' : List (Iso l.F)}, VL (VI l) is is' → ∀ {i : Iso F2} {i' : Iso l.F},
    VI l i i' → VI l (selectModel l i is) (Curve.selectModel l.env i' is')
  | _, _, .nil, _, _, h => h
  | _, _, .cons (a := c) (b := c') (l₁ := cs) (l₂ := cs') hc hcs, i, i', h => by
    show VI l (selectModel l (cmovIso l (modelLt l c.B i.B) i c) cs) (Curve.selectModel l.env (if _ then _ else _) cs')
    rw [modelLt_ref hc.B h.B, cmovIso_eq h.len hc.len]
    apply selectModel_ref hcs
    split
    · exact hc
    · exact h

/-- Related outcomes -/
inductive OR (R : α → β → Prop) : Out α → Out β → Prop
  | ok {r s} : R r s → OR R (.ok r) (.ok s)
  | abort : OR R .abort .abort
  | ub : OR R .ub .ub
  | starved : OR R .starved .starved

theorem canonicalModel_ref (hE : VC l E E') : OR (VI l) (canonicalModel l E) (Curve.canonicalModelM l.env E') := by
  unfold canonicalModel Curve.canonicalModelM
  by_cases h : Curve.allModelsUB l.env E' = true
  · rw [allModels_ub hE h, if_pos h]
    exact .ub
  · rw [if_neg h]
    obtain ⟨is, e, hr⟩ := allModels_ok hE (Bool.not_eq_true _ ▸ h)
    rw [e]
    unfold Curve.canonicalModel
    cases hr with
    | cons hc hcs => exact .ok (selectModel_ref hcs hc)

theorem changeModel_ref (hE : VC l E E') :
    (Curve.allModelsUB l.env E' = true → changeModel l E = .ub) ∧
    (Curve.allModelsUB l.env E' = false → ∃ i j, changeModel l E = .ok (i, j) ∧
      VI l i (Curve.changeModel l.env E').1 ∧ VI l j (Curve.changeModel l.env E').2) := by
  constructor
  · intro h
    rw [changeModel, allModels_ub hE h]
  · intro h
    obtain ⟨is, e, hr⟩ := allModels_ok hE h
    rw [changeModel, e]
    cases hr with
    | cons h0 hr => cases hr with
      | cons h1 hr => cases hr with
        | cons h2 hr => exact ⟨_, _, rfl, h2, h0⟩

end Secuer.WCurve
