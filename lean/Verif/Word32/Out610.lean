import Verif.Word32.Wide

/-!
# The right-hand side in `random_point` with 32-bit digits and p610

`fprand` returns numbers of 638 bits there, `2 p` has 611.
-/

namespace Secuer.Word32

open Secuer.Field
open Secuer.Word (subadd WideOK Rng Rng2)

theorem first_bounds {R p u x0 a0 a1 : ℕ} (hp : 0 < p) (h1 : p * 2 ^ 30 ≤ R) (h2 : 4 * u ≤ R) (h3 : R ≤ 2 ^ 10 * u)
    (hx : 3 * x0 ≤ u) (ha0 : a0 ≤ x0 + 2 * p) (ha1 : a1 ≤ u) (ha1' : u ≤ a1 + 2 * p) :
    a0 * x0 + R * p < a1 * u ∧ a0 * x0 + R * p + 2 * (R * p) ≤ a1 * u ∧
    a0 * x0 + a0 * u + a1 * x0 + 2 * (R * p) ≤ a1 * u ∧ 16 * (a1 * u) ≤ R * R ∧
    2 * (a0 * u + a1 * x0) ≤ R * x0 + R * p ∧ a0 * u + a1 * x0 + R * p ≤ R * R := by
  have e0 : 0 < R * p := Nat.mul_pos (by omega) hp
  have e1 : 3 * (x0 * u) ≤ u * u := by nlinarith
  have e2 : 9 * (x0 * x0) ≤ u * u := by nlinarith
  have e3 : R * p * 2 ^ 10 ≤ u * u := by
    have : R * p * 2 ^ 30 ≤ R * R := by nlinarith
    have : R * R ≤ (2 ^ 10 * u) * (2 ^ 10 * u) := Nat.mul_le_mul h3 h3
    nlinarith
  have e4 : 4 * (p * u) ≤ R * p := by nlinarith
  have e5 : a0 * x0 ≤ x0 * x0 + 2 * (p * x0) := by nlinarith
  have e6 : a0 * u ≤ x0 * u + 2 * (p * u) := by nlinarith
  have e7 : a1 * x0 ≤ x0 * u := by nlinarith
  have e8 : u * u ≤ a1 * u + 2 * (p * u) := by nlinarith
  have e9 : a1 * u ≤ u * u := by nlinarith
  have e10 : 16 * (u * u) ≤ R * R := by nlinarith
  have e11 : 3 * (p * x0) ≤ p * u := by nlinarith
  have e12 : 4 * (x0 * u) ≤ R * x0 := by nlinarith
  generalize R * p = Rp at *
  generalize R * R = RR at *
  generalize R * x0 = Rx at *
  generalize a0 * x0 = b1 at *
  generalize a1 * u = b2 at *
  generalize a0 * u = b3 at *
  generalize a1 * x0 = b4 at *
  generalize u * u = uu at *
  generalize x0 * u = xu at *
  generalize x0 * x0 = xx at *
  generalize p * u = pu at *
  generalize p * x0 = px at *
  clear h1 h2 h3 hx ha0 ha1 ha1'
  refine ⟨?_, ?_, ?_, ?_, ?_, ?_⟩ <;> omega

theorem third_bounds {R p u x0 t0 c1 : ℕ} (h1 : p * 2 ^ 30 ≤ R) (h2 : 4 * u ≤ R) (hx : 3 * x0 ≤ u) (ht : t0 ≤ R)
    (k4 : 2 * c1 ≤ x0 + 3 * p) (k5 : 7 * R ≤ 8 * t0) (hc : c1 ≤ R) :
    c1 * u ≤ t0 * x0 + R * p ∧ t0 * x0 + R * p + R * p ≤ R * R ∧ t0 * u + c1 * x0 + R * p ≤ R * R := by
  have m0 := Nat.mul_le_mul_right u k4
  have m2 := Nat.mul_le_mul_right p h2
  have m3 := Nat.mul_le_mul_right x0 h2
  have m4 := Nat.mul_le_mul_right x0 k5
  have n1 := Nat.mul_le_mul_right x0 ht
  have n2 := Nat.mul_le_mul_left R (show 12 * x0 ≤ R by omega)
  have n3 := Nat.mul_le_mul_left R (show 8 * p ≤ R by omega)
  have n4 := Nat.mul_le_mul_right u ht
  have n5 := Nat.mul_le_mul_left R h2
  have n6 := Nat.mul_le_mul_right x0 hc
  simp only [Nat.add_mul, Nat.mul_assoc, Nat.mul_left_comm R] at m0 m2 m3 m4 n1 n2 n3 n4 n5 n6
  rw [Nat.mul_comm u p] at m2
  rw [Nat.mul_comm u x0] at m3
  generalize R * R = v0 at *
  generalize c1 * u = v1 at *
  generalize x0 * u = v2 at *
  generalize p * u = v3 at *
  generalize R * p = v4 at *
  generalize R * x0 = v5 at *
  generalize t0 * x0 = v6 at *
  generalize t0 * u = v7 at *
  generalize R * u = v8 at *
  generalize c1 * x0 = v9 at *
  clear h1 h2 hx ht k4 k5 hc
  refine ⟨?_, ?_, ?_⟩ <;> omega

/-- What the first multiplication leaves: `c0` is close to `R`, the sum of the components is less. -/
theorem second_bounds {R p u x0 a0 a1 c0 c1 q0 q1 one : ℕ} (hp : 0 < p) (h1 : p * 2 ^ 30 ≤ R) (h2 : 4 * u ≤ R) (h3 : R ≤ 2 ^ 10 * u)
    (hx : 3 * x0 ≤ u) (ha0 : a0 ≤ x0 + 2 * p) (ha1 : a1 ≤ u) (ha1' : u ≤ a1 + 2 * p) (ho : one < p) (hq0 : q0 < R) (hq1 : q1 < R)
    (e0 : c0 * R = R * R + (a0 * x0 + R * p) - a1 * u + q0 * p) (e1 : c1 * R = a0 * u + a1 * x0 + q1 * p) :
    c0 + one < R ∧ 2 * p ≤ c0 + one ∧ c0 + one - 2 * p + c1 < R ∧ 7 * R ≤ 8 * (c0 + one - 2 * p) ∧
      c1 * u ≤ (c0 + one - 2 * p) * x0 + R * p ∧ (c0 + one - 2 * p) * x0 + R * p + R * p ≤ R * R ∧
      (c0 + one - 2 * p) * u + c1 * x0 + R * p ≤ R * R := by
  obtain ⟨f1, f2, f3, f4, f5, f6⟩ := first_bounds hp h1 h2 h3 hx ha0 ha1 ha1'
  have hR : 0 < R := by omega
  have g0 : q0 * p ≤ R * p := Nat.mul_le_mul_right _ hq0.le
  have g1 : q1 * p ≤ R * p := Nat.mul_le_mul_right _ hq1.le
  have k1 : c0 + p ≤ R := by
    refine Nat.le_of_mul_le_mul_right (c := R) ?_ hR
    rw [Nat.add_mul, e0, Nat.mul_comm p R]
    omega
  have k2 : c0 + c1 ≤ R + p := by
    refine Nat.le_of_mul_le_mul_right (c := R) ?_ hR
    rw [Nat.add_mul, Nat.add_mul, e0, e1, Nat.mul_comm p R]
    omega
  have k3 : 15 * R ≤ 16 * c0 := by
    refine Nat.le_of_mul_le_mul_right (c := R) ?_ hR
    rw [Nat.mul_assoc, Nat.mul_assoc, e0]
    omega
  have k4 : 2 * c1 ≤ x0 + 3 * p := by
    refine Nat.le_of_mul_le_mul_right (c := R) ?_ hR
    rw [Nat.mul_assoc, e1, Nat.add_mul, Nat.mul_assoc, Nat.mul_comm p R, Nat.mul_comm x0 R]
    omega
  have k5 : 7 * R ≤ 8 * (c0 + one - 2 * p) := by omega
  obtain ⟨z1, z2, z3⟩ := third_bounds h1 h2 hx (t0 := c0 + one - 2 * p) (by omega) k4 k5 (by omega)
  exact ⟨by omega, by omega, by omega, k5, z1, z2, z3⟩

theorem fpVal_sub_p {l : Level} {x y z : List Word.Digit} (h : Word.val z + 2 * l.p = Word.val x + Word.val y) :
    Word.fpVal (Word.tables l) l.p z = Word.fpVal (Word.tables l) l.p x + Word.fpVal (Word.tables l) l.p y := by
  have := congrArg (Nat.cast : ℕ → ZMod l.p) h
  push_cast at this
  rw [ZMod.natCast_self, mul_zero, add_zero] at this
  rw [Word.fpVal, this, add_mul]
  rfl

/-- The right-hand side with `x` out of range: `2 x` instead of `x`, and the imaginary part out of range. -/
theorem rhs_wide {l : Level} {A x : Word.F2} (hA : Rng2 (Word.tables l) (2 * l.p) A)
    (hx0 : x.c0.length = (Word.tables l).n) (hx1 : x.c1.length = (Word.tables l).n)
    (h1 : l.p * 2 ^ 30 ≤ 2 ^ (64 * (Word.tables l).n)) (h2 : 4 * Word.val x.c1 ≤ 2 ^ (64 * (Word.tables l).n))
    (h3 : 2 ^ (64 * (Word.tables l).n) ≤ 2 ^ 10 * Word.val x.c1) (hx : 3 * Word.val x.c0 ≤ Word.val x.c1) :
    letI := arith l
    Word.f2Val (Word.tables l) l.p (WCurve.rhsOf l A x) =
      Word.f2Val (Word.tables l) l.p x ^ 3 + Word.f2Val (Word.tables l) l.p A * Word.f2Val (Word.tables l) l.p x ^ 2 +
        2 * Word.f2Val (Word.tables l) l.p x ∧
    7 * Word.val x.c1 ≤ 8 * Word.val (WCurve.rhsOf l A x).c1 := by
  letI := arith l
  have g := Word.good l
  have ok := arith_ok l
  have hp : 0 < l.p := by have := g.pos; omega
  have hone := Nat.mod_lt (2 ^ (64 * (Word.tables l).n)) hp
  rw [← g.val_one] at hone
  have lone := g.len_one
  have hA0 := hA.c0.lt
  have hA1 := hA.c1.lt
  obtain ⟨la0, va0⟩ := Word.fpadd_val g hA.c0.len hx0 (by omega)
  obtain ⟨la1, va1⟩ := Word.fpadd_val g hA.c1.len hx1 (by omega)
  rw [if_pos (by omega)] at va1
  have fa0 : Word.fpVal (Word.tables l) l.p (Word.fpaddC (Word.tables l) A.c0 x.c0) =
      Word.fpVal (Word.tables l) l.p A.c0 + Word.fpVal (Word.tables l) l.p x.c0 := by
    by_cases hc : 2 * l.p ≤ Word.val A.c0 + Word.val x.c0
    · rw [if_pos hc] at va0
      exact fpVal_sub_p (by omega)
    · rw [if_neg hc] at va0
      rw [Word.fpVal, va0, Nat.cast_add, add_mul]
      rfl
  have fa1 := fpVal_sub_p (l := l) (x := A.c1) (y := x.c1) (z := Word.fpaddC (Word.tables l) A.c1 x.c1) (by omega)
  have ba0 : Word.val (Word.fpaddC (Word.tables l) A.c0 x.c0) ≤ Word.val x.c0 + 2 * l.p := by
    rw [va0]; split <;> omega
  unfold WCurve.rhsOf
  have ea : Word.fp2add (Word.tables l) A x =
      ⟨Word.fpaddC (Word.tables l) A.c0 x.c0, Word.fpaddC (Word.tables l) A.c1 x.c1⟩ := by
    rw [Word.fp2add, ok.fpadd hA.c0.len hx0, ok.fpadd hA.c1.len hx1]
  dsimp only
  rw [ea]
  have fa : Word.f2Val (Word.tables l) l.p ⟨Word.fpaddC (Word.tables l) A.c0 x.c0, Word.fpaddC (Word.tables l) A.c1 x.c1⟩ =
      Word.f2Val (Word.tables l) l.p A + Word.f2Val (Word.tables l) l.p x := QuadraticAlgebra.ext fa0 fa1
  generalize Word.fpaddC (Word.tables l) A.c0 x.c0 = a0 at *
  generalize Word.fpaddC (Word.tables l) A.c1 x.c1 = a1 at *
  clear ea fa0 fa1 va0
  obtain ⟨f1, f2, f3, f4, f5, f6⟩ := first_bounds hp h1 h2 h3 hx ba0 (a1 := Word.val a1) (by omega) (by omega)
  have hs : subadd (2 ^ (64 * (Word.tables l).n)) l.p (Word.val a0 * Word.val x.c0) (Word.val a1 * Word.val x.c1) =
      2 ^ (64 * (Word.tables l).n) * 2 ^ (64 * (Word.tables l).n) +
        (Word.val a0 * Word.val x.c0 + 2 ^ (64 * (Word.tables l).n) * l.p) - Word.val a1 * Word.val x.c1 := by
    unfold subadd
    rw [if_neg (by omega), if_neg (by omega)]
  have w1 : WideOK (Word.tables l) l.p ⟨a0, a1⟩ x :=
    ⟨la0, la1, hx0, hx1, by show Word.val a0 + Word.val a1 < _; omega, by omega, by
      show subadd _ _ (Word.val a0 * Word.val x.c0) (Word.val a1 * Word.val x.c1) + _ ≤ _
      rw [hs]; omega, by
      show Word.val a0 * Word.val x.c1 + Word.val a1 * Word.val x.c0 + _ ≤ _
      omega⟩
  obtain ⟨lc0, lc1, ⟨q0, hq0, e0⟩, ⟨q1, hq1, e1⟩, ev⟩ := fp2mul_wide_val w1
  change Word.f2Val _ _ (Word.fp2mul (Word.tables l) ⟨a0, a1⟩ x) = Word.f2Val _ _ ⟨a0, a1⟩ * _ +
    (if Word.val a1 * Word.val x.c1 ≤ Word.val a0 * Word.val x.c0 + _ then 0 else 1) at ev
  rw [if_neg (by omega), fa] at ev
  generalize Word.fp2mul (Word.tables l) ⟨a0, a1⟩ x = c at *
  change _ = subadd _ _ (Word.val a0 * Word.val x.c0) (Word.val a1 * Word.val x.c1) + _ at e0
  change _ = Word.val a0 * Word.val x.c1 + Word.val a1 * Word.val x.c0 + _ at e1
  rw [hs] at e0
  obtain ⟨g1, g2, g3, g4, g5, g6, g7⟩ := second_bounds hp h1 h2 h3 hx ba0 (a1 := Word.val a1) (by omega) (by omega) hone hq0 hq1 e0 e1
  obtain ⟨lt0, vt0⟩ := Word.fpadd_val g lc0 lone g1
  rw [if_pos g2] at vt0
  rw [ok.fpadd lc0 lone]
  have ft := fpVal_sub_p (l := l) (x := c.c0) (y := (Word.tables l).one) (z := Word.fpaddC (Word.tables l) c.c0 (Word.tables l).one)
    (by omega)
  generalize Word.fpaddC (Word.tables l) c.c0 (Word.tables l).one = t0 at *
  rw [← vt0] at g3 g4 g5 g6 g7
  rw [WCurve.one_rng.2] at ft
  have ft2 : Word.f2Val (Word.tables l) l.p ⟨t0, c.c1⟩ = Word.f2Val (Word.tables l) l.p c + 1 :=
    QuadraticAlgebra.ext ft (by show _ = _ + (0 : ZMod l.p); rw [add_zero]; rfl)
  have w2 : WideOK (Word.tables l) l.p ⟨t0, c.c1⟩ x :=
    ⟨lt0, lc1, hx0, hx1, g3, by omega, by
      show subadd _ _ (Word.val t0 * Word.val x.c0) (Word.val c.c1 * Word.val x.c1) + _ ≤ _
      unfold subadd
      by_cases hh : Word.val c.c1 * Word.val x.c1 ≤ Word.val t0 * Word.val x.c0
      · rw [if_pos hh]; omega
      · rw [if_neg hh, if_pos g5]; omega, g7⟩
  obtain ⟨-, -, -, ⟨q2, -, e2⟩, ev2⟩ := fp2mul_wide_val w2
  change Word.f2Val _ _ (Word.fp2mul (Word.tables l) ⟨t0, c.c1⟩ x) = Word.f2Val _ _ ⟨t0, c.c1⟩ * _ +
    (if Word.val c.c1 * Word.val x.c1 ≤ Word.val t0 * Word.val x.c0 + _ then 0 else 1) at ev2
  change _ = Word.val t0 * Word.val x.c1 + Word.val c.c1 * Word.val x.c0 + _ at e2
  rw [if_pos g5, ft2, ev] at ev2
  refine ⟨?_, ?_⟩
  · show Word.f2Val _ _ (Word.fp2mul (Word.tables l) ⟨t0, c.c1⟩ x) = _
    rw [ev2]
    ring
  · show _ ≤ 8 * Word.val (Word.fp2mul (Word.tables l) ⟨t0, c.c1⟩ x).c1
    generalize Word.val (Word.fp2mul (Word.tables l) ⟨t0, c.c1⟩ x).c1 = r at *
    refine Nat.le_of_mul_le_mul_right (c := 2 ^ (64 * (Word.tables l).n)) ?_ (by positivity)
    rw [Nat.mul_assoc 8, e2]
    have := Nat.mul_le_mul_right (Word.val x.c1) g4
    rw [Nat.mul_assoc, Nat.mul_assoc, Nat.mul_comm (2 ^ (64 * (Word.tables l).n))] at this
    rw [Nat.mul_assoc]
    omega

end Secuer.Word32
