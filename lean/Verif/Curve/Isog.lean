import Verif.Curve.XHom

/-!
# The isogeny formulas of the code

`get_ℓ_isog`/`eval_ℓ_isog` for ℓ = 2, 3, 4 against `Mont.XHom`.
-/

namespace Secuer.Curve

open Secuer.Mont

variable {K : Type} [Field K]

theorem four_ne_zero_of {K : Type} [Field K] (h2 : (2 : K) ≠ 0) : (4 : K) ≠ 0 := by
  have : (4 : K) = 2 * 2 := by norm_num
  rw [this]; exact mul_ne_zero h2 h2

/-- `eval_2_isog` is `f2` at the kernel's x-coordinate, up to scaling. -/
theorem eval2isog_eq {k : Pt K} (hz : k.Z ≠ 0) (p : Pt K) :
    (eval2isog p k).X = (2 * k.Z) * (f2 (k.X / k.Z) p).X ∧
      (eval2isog p k).Z = (2 * k.Z) * (f2 (k.X / k.Z) p).Z := by
  simp only [eval2isog, f2]; constructor <;> field_simp <;> ring

theorem get2isog_is24 {k : Pt K} (h2 : (2 : K) ≠ 0) (hz : k.Z ≠ 0) :
    Is24 (2 - 4 * (k.X / k.Z) ^ 2) (get2isog k).1 (get2isog k).2 := by
  have h4 := four_ne_zero_of h2
  refine ⟨k.Z ^ 2 / 4, div_ne_zero (pow_ne_zero _ hz) h4, ?_, ?_⟩ <;> simp only [get2isog]
  · field_simp; ring
  · field_simp

/-- `eval_3_isog` is `f3` at the kernel's x-coordinate, up to scaling. -/
theorem eval3isog_eq {k : Pt K} (hz : k.Z ≠ 0) (p : Pt K) :
    (eval3isog p (get3isog k).2.2.1 (get3isog k).2.2.2).X = (4 * k.Z ^ 2) * (f3 (k.X / k.Z) p).X ∧
      (eval3isog p (get3isog k).2.2.1 (get3isog k).2.2.2).Z = (4 * k.Z ^ 2) * (f3 (k.X / k.Z) p).Z := by
  simp only [eval3isog, get3isog, f3]; constructor <;> field_simp <;> ring

theorem get3isog_isPM {A : K} {k : Pt K} (h2 : (2 : K) ≠ 0) (hz : k.Z ≠ 0) (hx : k.X ≠ 0)
    (hA : 3 * (k.X / k.Z) ^ 4 + 4 * A * (k.X / k.Z) ^ 3 + 6 * (k.X / k.Z) ^ 2 - 1 = 0) :
    IsPM ((A * (k.X / k.Z) - 6 * (k.X / k.Z) ^ 2 + 6) * (k.X / k.Z)) (get3isog k).1
      (get3isog k).2.1 := by
  have h4 := four_ne_zero_of h2
  have hA' : A = (1 - 6 * (k.X / k.Z) ^ 2 - 3 * (k.X / k.Z) ^ 4) / (4 * (k.X / k.Z) ^ 3) := by
    rw [eq_div_iff (mul_ne_zero h4 (pow_ne_zero _ (div_ne_zero hx hz)))]
    linear_combination hA
  refine ⟨-4 * k.X * k.Z ^ 3, mul_ne_zero (mul_ne_zero (neg_ne_zero.2 h4) hx) (pow_ne_zero _ hz),
    ?_, ?_⟩ <;> subst hA' <;> simp only [get3isog] <;> field_simp <;> ring

/-- `eval_4_isog` is `f4` at the kernel's x-coordinate, up to scaling. -/
theorem eval4isog_eq {k : Pt K} (hz : k.Z ≠ 0) (p : Pt K) :
    (eval4isog p (get4isog k).2.2.1 (get4isog k).2.2.2.1 (get4isog k).2.2.2.2).X =
        (16 * k.Z ^ 4) * (f4 (k.X / k.Z) p).X ∧
      (eval4isog p (get4isog k).2.2.1 (get4isog k).2.2.2.1 (get4isog k).2.2.2.2).Z =
        (16 * k.Z ^ 4) * (f4 (k.X / k.Z) p).Z := by
  simp only [eval4isog, get4isog, f4]; constructor <;> field_simp <;> ring

theorem get4isog_is24 {k : Pt K} (hz : k.Z ≠ 0) :
    Is24 (4 * (k.X / k.Z) ^ 4 - 2) (get4isog k).1 (get4isog k).2.1 := by
  refine ⟨k.Z ^ 4, pow_ne_zero _ hz, ?_, ?_⟩ <;> simp only [get4isog] <;> field_simp <;> ring

variable [DecidableEq K]

/-! ### Kernel points of order 2, 3 and 4 in terms of their x-coordinate -/

theorem torsion2_x {A x y : K} (h2 : (2 : K) ≠ 0) {h : (W A).Nonsingular x y}
    (ho : (2 : ℕ) • (.some x y h : (W A).Point) = 0) (hx : x ≠ 0) : x ^ 2 + A * x + 1 = 0 := by
  have hd := xDBL_rep h2 (a := A + 2) (c := 4) ⟨1, one_ne_zero, by ring, by ring⟩
    (rep_xr (.some x y h : (W A).Point))
  have hz := hd.Z_iff.2 ho
  simp only [xDBL, xr_some] at hz
  have h4 := four_ne_zero_of h2
  have : 4 * 4 * x * (x ^ 2 + A * x + 1) = 0 := by linear_combination hz
  exact (mul_eq_zero.1 this).resolve_left (mul_ne_zero (mul_ne_zero h4 h4) hx)

omit [DecidableEq K] in
theorem sq_ne_one_of {A x : K} (hA : A ^ 2 ≠ 4) (h : x ^ 2 + A * x + 1 = 0) : x ^ 2 ≠ 1 := by
  intro h1
  have : A * x = -2 := by linear_combination h - h1
  have : A ^ 2 = 4 := by linear_combination (A * x - 2) * this - A ^ 2 * h1
  exact hA this

theorem torsion3_x {A x y : K} (h2 : (2 : K) ≠ 0) {h : (W A).Nonsingular x y}
    (ho : (3 : ℕ) • (.some x y h : (W A).Point) = 0) :
    3 * x ^ 4 + 4 * A * x ^ 3 + 6 * x ^ 2 - 1 = 0 := by
  have hd := xTPL_rep h2 (a := A - 2) (c := A + 2) ⟨1, one_ne_zero, by ring, by ring⟩
    (rep_xr (.some x y h : (W A).Point))
  have hz := hd.Z_iff.2 ho
  simp only [xTPL, xr_some] at hz
  have h4 := four_ne_zero_of h2
  have : 2 * 4 ^ 2 * (3 * x ^ 4 + 4 * A * x ^ 3 + 6 * x ^ 2 - 1) ^ 2 = 0 := by
    linear_combination hz
  exact pow_eq_zero_iff two_ne_zero |>.1
    ((mul_eq_zero.1 this).resolve_left (mul_ne_zero h2 (pow_ne_zero _ h4)))

omit [DecidableEq K] in
theorem torsion3_ne {A x : K} (h2 : (2 : K) ≠ 0) (hA : A ^ 2 ≠ 4)
    (h : 3 * x ^ 4 + 4 * A * x ^ 3 + 6 * x ^ 2 - 1 = 0) :
    x ≠ 0 ∧ x ^ 2 ≠ 1 ∧ ((A * x - 6 * x ^ 2 + 6) * x) ^ 2 ≠ 4 := by
  have h4 := four_ne_zero_of h2
  have hx : x ≠ 0 := by rintro rfl; simp at h
  have key : (4 * x ^ 3) ^ 2 * (A ^ 2 - 4) = (x ^ 2 - 1) ^ 3 * (9 * x ^ 2 - 1) := by
    linear_combination (4 * x ^ 3 * A + 1 - 6 * x ^ 2 - 3 * x ^ 4) * h
  have key' : (4 * x) ^ 2 * (((A * x - 6 * x ^ 2 + 6) * x) ^ 2 - 4) =
      (9 * x ^ 2 - 1) ^ 3 * (x ^ 2 - 1) := by
    linear_combination (4 * x ^ 3 * A - 24 * x ^ 4 + 24 * x ^ 2 + 1 + 18 * x ^ 2 - 27 * x ^ 4) * h
  have hne : (x ^ 2 - 1) ^ 3 * (9 * x ^ 2 - 1) ≠ 0 := by
    rw [← key]; exact mul_ne_zero (pow_ne_zero _ (mul_ne_zero h4 (pow_ne_zero _ hx))) (sub_ne_zero.2 hA)
  have n1 : x ^ 2 - 1 ≠ 0 := fun h => hne (by rw [h]; ring)
  have n2 : 9 * x ^ 2 - 1 ≠ 0 := fun h => hne (by rw [h]; ring)
  refine ⟨hx, sub_ne_zero.1 n1, fun h => ?_⟩
  have : (9 * x ^ 2 - 1) ^ 3 * (x ^ 2 - 1) = 0 := by rw [← key', h]; ring
  exact mul_ne_zero (pow_ne_zero _ n2) n1 this

theorem torsion4_x {A x y : K} (h2 : (2 : K) ≠ 0) {h : (W A).Nonsingular x y}
    (ho : (4 : ℕ) • (.some x y h : (W A).Point) = 0) (hn : (2 : ℕ) • (.some x y h : (W A).Point) ≠ 0)
    (h0 : (xr ((2 : ℕ) • (.some x y h : (W A).Point))).X ≠ 0) :
    x ^ 4 + 6 * x ^ 2 + 1 + 2 * A * x * (x ^ 2 + 1) = 0 ∧ x ≠ 0 ∧ x ^ 2 ≠ 1 ∧ x ^ 2 ≠ -1 ∧
      (4 * x ^ 4 - 2) ^ 2 ≠ 4 := by
  have hac : Is24 A (A + 2) 4 := ⟨1, one_ne_zero, by ring, by ring⟩
  have h4 := four_ne_zero_of h2
  have hd := xDBL_rep h2 hac (rep_xr (.some x y h : (W A).Point))
  have hdd := xDBL_rep h2 hac hd
  rw [← mul_smul] at hdd
  have hz := hdd.Z_iff.2 ho
  have hn' := mt hd.Z_iff.1 hn
  have hX : (xDBL (xr (.some x y h : (W A).Point)) (A + 2) 4).X ≠ 0 := fun h => h0 (PEq.X_iff hd |>.1 h)
  simp only [xDBL, xr_some] at hz hn' hX
  have hx1 : x ^ 2 ≠ 1 := by
    intro h; apply hX
    linear_combination 4 * (x ^ 2 - 1) * h
  have key : x ^ 4 + 6 * x ^ 2 + 1 + 2 * A * x * (x ^ 2 + 1) = 0 := by
    have hx0 : x * (x ^ 2 + A * x + 1) ≠ 0 := by
      intro h; apply hn'; linear_combination 16 * h
    have : 4 ^ 7 * (x ^ 2 - 1) ^ 2 * (x * (x ^ 2 + A * x + 1)) *
        (x ^ 4 + 6 * x ^ 2 + 1 + 2 * A * x * (x ^ 2 + 1)) ^ 2 = 0 := by
      linear_combination hz
    refine pow_eq_zero_iff two_ne_zero |>.1 ((mul_eq_zero.1 this).resolve_left ?_)
    exact mul_ne_zero (mul_ne_zero (pow_ne_zero _ h4) (pow_ne_zero _ (sub_ne_zero.2 hx1))) hx0
  have hxi : x ^ 2 ≠ -1 := by
    intro h
    have : (4 : K) = 0 := by linear_combination -key + (x ^ 2 + 5 + 2 * A * x) * h
    exact h4 this
  have hx : x ≠ 0 := by rintro rfl; simp at key
  refine ⟨key, hx, hx1, hxi, fun h => ?_⟩
  have : 4 ^ 2 * x ^ 4 * ((x ^ 2 - 1) * (x ^ 2 + 1)) = 0 := by linear_combination h
  refine mul_ne_zero (mul_ne_zero (pow_ne_zero _ h4) (pow_ne_zero _ hx))
    (mul_ne_zero (sub_ne_zero.2 hx1) ?_) this
  intro h; exact hxi (by linear_combination h)

end Secuer.Curve
