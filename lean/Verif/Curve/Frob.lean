import Verif.Curve.IsogSpecB
import Mathlib.FieldTheory.Finite.Basic
import Mathlib.Algebra.CharP.Frobenius

/-!
# Frobenius and the curves of the protocol

All curves of the protocol are supersingular with the `p²`-power Frobenius acting as multiplication by `-p`;
then every point killed by `p + 1` is rational. This file states that (`Super`) and shows that it is inherited
along isogenies and changes of model.
-/

namespace Secuer.Curve

open Secuer.Mont

section pointmap

variable {F K : Type} [Field F] [Field K] [DecidableEq F] [DecidableEq K]

/-- A field homomorphism maps points to points. -/
theorem exists_pointMap (φ : F →+* K) (A : F) : ∃ ι : (W A).Point →+ (W (φ A)).Point,
    Function.Injective ι ∧ ∀ x y h, ∃ h', ι (.some x y h) = .some (φ x) (φ y) h' := by
  letI := φ.toAlgebra
  have hW : ((W A).baseChange K).toAffine = W (φ A) := by
    show (W A).map (algebraMap F K) = W (φ A)
    simp only [WeierstrassCurve.map, W, map_zero, map_one]
    rfl
  have hW0 : ((W A).baseChange F).toAffine = W A := by
    show (W A).map (algebraMap F F) = W A
    simp only [WeierstrassCurve.map, W, map_zero, map_one]
    rfl
  have key : ∃ ι : ((W A).baseChange F).toAffine.Point →+ ((W A).baseChange K).toAffine.Point,
    Function.Injective ι ∧ ∀ x y h, ∃ h', ι (.some x y h) = .some (φ x) (φ y) h' :=
    ⟨WeierstrassCurve.Affine.Point.map (Algebra.ofId F K), WeierstrassCurve.Affine.Point.map_injective _,
      fun x y h => ⟨_, WeierstrassCurve.Affine.Point.map_some _ h⟩⟩
  rw [hW0, hW] at key
  exact key

end pointmap

variable {F K : Type} [Field F] [Field K] [DecidableEq F] [DecidableEq K] [IsAlgClosed K] (φ : F →+* K)
variable (σ : K →+* K) (p : ℕ)

/-- `σ` is the Frobenius of `F`: its fixed field is `F`; and `8 ∣ p + 1`. -/
structure FrobData : Prop where
  fixed : ∀ z : K, σ z = z ↔ ∃ a, φ a = z
  eight : 8 ∣ p + 1

/-- Frobenius is multiplication by `-p` on the curve with coefficient `A`. -/
def Super (A : F) : Prop := A ^ 2 ≠ 4 ∧ ∀ x y (h : (W (φ A)).Nonsingular x y),
  ∃ h', (.some (σ x) (σ y) h' : (W (φ A)).Point) = -(p • (.some x y h : (W (φ A)).Point))

/-- The same on x-coordinates, which does not see the sign. -/
def SuperX (A : F) : Prop := A ^ 2 ≠ 4 ∧ ∀ P : (W (φ A)).Point, Rep ((xr P).map σ) (p • P)

variable {φ σ p}

theorem FrobData.fix (hd : FrobData φ σ p) (a : F) : σ (φ a) = φ a := (hd.fixed _).2 ⟨a, rfl⟩

theorem FrobData.exists_frob (hd : FrobData φ σ p) (A : F) :
    ∃ π : (W (φ A)).Point →+ (W (φ A)).Point, (∀ x y h, ∃ h', π (.some x y h) = .some (σ x) (σ y) h') ∧
      ∀ P, xr (π P) = (xr P).map σ := by
  have key : ∃ π : (W (φ A)).Point →+ (W (φ A)).Point,
      ∀ x y h, ∃ h', π (.some x y h) = .some (σ x) (σ y) h' := by
    obtain ⟨π, hi, h⟩ := exists_pointMap σ (φ A)
    have e := hd.fix A
    revert π
    rw [e]
    exact fun π _ h => ⟨π, h⟩
  obtain ⟨π, h⟩ := key
  refine ⟨π, h, ?_⟩
  intro P
  cases P with
  | zero =>
    change xr (π 0) = (xr (0 : (W (φ A)).Point)).map σ
    rw [map_zero]; simp [Pt.map]
  | some x y hn =>
    obtain ⟨h', e⟩ := h x y hn
    rw [e]; simp [Pt.map]

theorem Super.x (h : Super φ σ p A) : SuperX φ σ p A := by
  refine ⟨h.1, ?_⟩
  intro P
  cases P with
  | zero =>
    change Rep ((xr (0 : (W (φ A)).Point)).map σ) (p • (0 : (W (φ A)).Point))
    rw [smul_zero, rep_zero_iff]; simp [Pt.map]
  | some x y hn =>
    obtain ⟨h', e⟩ := h.2 x y hn
    have := (rep_xr (.some (σ x) (σ y) h' : (W (φ A)).Point))
    rw [e] at this
    have := this.neg
    rw [neg_neg, ← e] at this
    simpa [Pt.map] using this

/-- x-coordinate of the double. -/
theorem double_rep {k : Type} [Field k] [DecidableEq k] {a : k} (h2 : (2 : k) ≠ 0) {x y : k}
    (h : (W a).Nonsingular x y) :
    Rep ⟨(x ^ 2 - 1) ^ 2, 4 * (x * (x ^ 2 + a * x + 1))⟩ ((2 : ℕ) • (.some x y h : (W a).Point)) := by
  have := xDBL_rep h2 (is24_std a) (rep_xr (.some x y h : (W a).Point))
  have h4 := four_ne_zero_of h2
  refine this.peq ⟨4⁻¹, inv_ne_zero h4, ?_, ?_⟩
  · simp only [xr_some, xDBL]; field_simp; ring
  · simp only [xr_some, xDBL]; field_simp; ring

theorem two_smul_eq_zero {k : Type} [Field k] [DecidableEq k] {a : k} (h2 : (2 : k) ≠ 0) {x y : k}
    (h : (W a).Nonsingular x y) : (2 : ℕ) • (.some x y h : (W a).Point) = 0 ↔ y = 0 := by
  have := double_rep h2 h
  rw [← this.Z_iff]
  have he := (W_equation a x y).1 h.1
  have h4 := four_ne_zero_of h2
  have e : x * (x ^ 2 + a * x + 1) = y ^ 2 := by rw [he]; ring
  simp [e, h4]

/-- The point with x-coordinate one. -/
theorem one_order_four {k : Type} [Field k] [DecidableEq k] {a : k} (h2 : (2 : k) ≠ 0) (ha : a ^ 2 ≠ 4) {y : k}
    (h : (W a).Nonsingular 1 y) : (2 : ℕ) • (.some 1 y h : (W a).Point) ≠ 0 ∧
      (4 : ℕ) • (.some 1 y h : (W a).Point) = 0 := by
  have he := (W_equation a 1 y).1 h.1
  have hr := double_rep h2 h
  constructor
  · rw [ne_eq, two_smul_eq_zero h2]
    rintro rfl
    apply ha
    have : a = -2 := by linear_combination -he
    rw [this]; norm_num
  · have e : (4 : ℕ) • (.some 1 y h : (W a).Point) = (2 : ℕ) • (2 : ℕ) • (.some 1 y h : (W a).Point) := by
      rw [← mul_nsmul]
    rw [e]
    generalize (2 : ℕ) • (.some 1 y h : (W a).Point) = T at hr
    cases T with
    | zero => exact smul_zero _
    | some x' y' h' =>
      rw [two_smul_eq_zero h2]
      obtain ⟨hz, hx⟩ := (rep_some_iff h' _).1 hr
      have he' := (W_equation a x' y').1 h'.1
      simp only [one_pow, sub_self, ne_eq, OfNat.ofNat_ne_zero, not_false_eq_true, zero_pow] at hx hz
      have hx0 : x' = 0 := by
        rcases mul_eq_zero.1 hx.symm with h | h
        · exact h
        · exact absurd h hz
      rw [hx0] at he'
      simpa using he'

/-- The sign is determined by one rational point killed by `p + 1` but not by `2`. -/
theorem SuperX.super_of_point (hd : FrobData φ σ p) {A : F} (h : SuperX φ σ p A) {T : (W A).Point}
    (hT : (p + 1) • T = 0) (hT2 : (2 : ℕ) • T ≠ 0) : Super φ σ p A := by
  obtain ⟨π, hπ, hx⟩ := hd.exists_frob A
  obtain ⟨ι, hinj, hι⟩ := exists_pointMap φ A
  obtain ⟨P1, hP1⟩ : ∃ P1 : (W (φ A)).Point, P1 = ι T := ⟨_, rfl⟩
  have hπ1 : π P1 = P1 := by
    rw [hP1]
    cases T with
    | zero => change π (ι 0) = ι 0; rw [map_zero, map_zero]
    | some x y hn =>
      obtain ⟨h1, e1⟩ := hι x y hn
      rw [e1]
      obtain ⟨h', e⟩ := hπ _ _ h1
      rw [e]
      simp only [hd.fix]
  have h21 : (2 : ℕ) • P1 ≠ 0 := by
    rw [hP1, ← map_nsmul]
    intro h0
    exact hT2 (hinj (by rw [h0, map_zero]))
  have hp1 : p • P1 = -P1 := by
    have : (p + 1) • P1 = 0 := by rw [hP1, ← map_nsmul, hT, map_zero]
    rw [add_nsmul, one_nsmul] at this
    exact eq_neg_of_add_eq_zero_left this
  have hpm : ∀ P, π P = p • P ∨ π P = -(p • P) := by
    intro P
    have h1 := rep_xr (π P)
    rw [hx] at h1
    exact h1.eq_or_neg (h.2 P)
  have hall : ∀ P, π P = -(p • P) := by
    intro P
    rcases hpm P with h1 | h1
    · have hsum : π (P + P1) = p • P + P1 := by rw [map_add, h1, hπ1]
      have hs2 : p • (P + P1) = p • P - P1 := by rw [smul_add, hp1, sub_eq_add_neg]
      rcases hpm (P + P1) with h3 | h3
      · rw [hsum, hs2] at h3
        exfalso
        apply h21
        have : P1 = -P1 := by
          have := add_left_cancel (h3.trans (sub_eq_add_neg _ _))
          exact this
        rw [two_nsmul]; nth_rw 2 [this]; exact add_neg_cancel _
      · rw [hsum, hs2] at h3
        have : p • P = -(p • P) := by
          have h4 : p • P + P1 = -(p • P) + P1 := by rw [h3]; abel
          exact add_right_cancel h4
        rw [h1]; exact this
    · exact h1
  refine ⟨h.1, ?_⟩
  intro x y hxy
  obtain ⟨h', e⟩ := hπ x y hxy
  exact ⟨h', by rw [← e]; exact hall _⟩

/-- The sign is determined by one point of order four. -/
theorem SuperX.super (hd : FrobData φ σ p) (h2F : (2 : F) ≠ 0) {A : F} (h : SuperX φ σ p A)
    (hsq : IsSquare (A + 2)) : Super φ σ p A := by
  obtain ⟨s, hs⟩ := hsq
  have hn : (W A).Nonsingular 1 s := W_nonsingular h2F h.1 (by rw [pow_two, ← hs]; ring)
  obtain ⟨h21, h41⟩ := one_order_four h2F h.1 hn
  refine h.super_of_point hd ?_ h21
  obtain ⟨k, hk⟩ := hd.eight
  rw [hk, show 8 * k = 4 * (2 * k) by ring, mul_nsmul, h41, smul_zero]

/-- All rational points are killed by `p + 1`. -/
theorem Super.kill (hd : FrobData φ σ p) {A : F} (h : Super φ σ p A) (X : (W A).Point) : (p + 1) • X = 0 := by
  obtain ⟨ι, hinj, hι⟩ := exists_pointMap φ A
  apply hinj
  rw [map_nsmul, map_zero]
  cases X with
  | zero => change (p + 1) • ι 0 = 0; rw [map_zero, smul_zero]
  | some x y hn =>
    obtain ⟨h', e⟩ := hι x y hn
    rw [e]
    obtain ⟨h'', e'⟩ := h.2 _ _ h'
    simp only [hd.fix] at e'
    rw [add_nsmul, one_nsmul]
    nth_rw 2 [e']
    exact add_neg_cancel _

/-- Points killed by `p + 1` are rational. -/
theorem Super.rational (hd : FrobData φ σ p) {A : F} (h : Super φ σ p A) {x y : K}
    {hn : (W (φ A)).Nonsingular x y} (hk : (p + 1) • (.some x y hn : (W (φ A)).Point) = 0) :
    ∃ a b, φ a = x ∧ φ b = y := by
  obtain ⟨h', e⟩ := h.2 x y hn
  have : -(p • (.some x y hn : (W (φ A)).Point)) = .some x y hn := by
    rw [add_nsmul, one_nsmul, add_comm] at hk
    exact (eq_neg_of_add_eq_zero_left hk).symm
  rw [this] at e
  simp only [WeierstrassCurve.Affine.Point.some.injEq] at e
  obtain ⟨a, ha⟩ := (hd.fixed x).1 e.1
  obtain ⟨b, hb⟩ := (hd.fixed y).1 e.2
  exact ⟨a, b, ha, hb⟩

theorem kill_of_eight (hd : FrobData φ σ p) {A : F} {P : (W (φ A)).Point} (h : (8 : ℕ) • P = 0) :
    (p + 1) • P = 0 := by
  obtain ⟨k, hk⟩ := hd.eight
  rw [hk, mul_nsmul, h, smul_zero]

/-- `A + 2` is a square. -/
theorem Super.sq (hd : FrobData φ σ p) (h2F : (2 : F) ≠ 0) {A : F} (h : Super φ σ p A) : IsSquare (A + 2) := by
  have h2 := two_map φ h2F
  obtain ⟨y, hy⟩ := IsAlgClosed.exists_pow_nat_eq ((1 : K) ^ 3 + φ A * 1 ^ 2 + 1) (n := 2) (by norm_num)
  have hn := W_nonsingular h2 (sq_ne_four_map φ h.1) hy
  obtain ⟨_, h4⟩ := one_order_four h2 (sq_ne_four_map φ h.1) hn
  obtain ⟨a, b, _, hb⟩ := h.rational hd (hn := hn) (kill_of_eight hd (by
    rw [show 8 = 4 * 2 by norm_num, mul_nsmul, h4, smul_zero]))
  refine ⟨b, φ.injective ?_⟩
  rw [map_mul, hb, ← pow_two, hy]; simp [map_ofNat]; ring

/-- The roots of `x² + A x + 1` are rational. -/
theorem Super.disc (hd : FrobData φ σ p) (h2F : (2 : F) ≠ 0) {A : F} (h : Super φ σ p A) :
    IsSquare (A ^ 2 - 4) := by
  have h2 := two_map φ h2F
  obtain ⟨d, hd'⟩ := IsAlgClosed.exists_pow_nat_eq (φ A ^ 2 - 4) (n := 2) (by norm_num)
  have hn : (W (φ A)).Nonsingular ((d - φ A) / 2) 0 := W_nonsingular h2 (sq_ne_four_map φ h.1) (by
    field_simp
    linear_combination -(d - φ A) * hd')
  obtain ⟨a, b, ha, _⟩ := h.rational hd (hn := hn) (kill_of_eight hd (by
    rw [show 8 = 2 * 4 by norm_num, mul_nsmul, (two_smul_eq_zero h2 hn).2 rfl, smul_zero]))
  refine ⟨2 * a + A, φ.injective ?_⟩
  simp only [map_sub, map_pow, map_ofNat, map_mul, map_add, ha]
  field_simp
  linear_combination -hd'

/-- Points of order four above a root. -/
theorem Super.four (hd : FrobData φ σ p) (h2F : (2 : F) ≠ 0) {A : F} (h : Super φ σ p A) {r : F}
    (hr : r ^ 2 + A * r + 1 = 0) :
    ∃ u : F, u ^ 2 = r ^ 2 - 1 ∧ ∀ u : F, u ^ 2 = r ^ 2 - 1 → IsSquare r ∧ IsSquare u := by
  have h2 := two_map φ h2F
  have hA' := sq_ne_four_map φ h.1
  have h4 := four_ne_zero_of h2
  have hrK : φ r ^ 2 + φ A * φ r + 1 = 0 := by
    have := congrArg φ hr; simpa using this
  have hr1 : φ r ^ 2 ≠ 1 := sq_ne_one_of hA' hrK
  have hr0 : φ r ≠ 0 := by intro h0; rw [h0] at hrK; simp at hrK
  -- a point of order 4 over K
  have main : ∀ u : K, u ^ 2 = φ r ^ 2 - 1 → ∃ y, ∃ hn : (W (φ A)).Nonsingular (φ r + u) y,
      (2 : ℕ) • (.some _ y hn : (W (φ A)).Point) ≠ 0 ∧ (4 : ℕ) • (.some _ y hn : (W (φ A)).Point) = 0 ∧
      y ^ 2 = (φ r + u) ^ 2 * (2 * φ r + φ A) := by
    intro u hu
    obtain ⟨y, hy⟩ := IsAlgClosed.exists_pow_nat_eq
      ((φ r + u) ^ 3 + φ A * (φ r + u) ^ 2 + (φ r + u)) (n := 2) (by norm_num)
    have hn := W_nonsingular h2 hA' hy
    have hy2 : y ^ 2 = (φ r + u) ^ 2 * (2 * φ r + φ A) := by
      rw [hy]; linear_combination (φ r + u) * hu
    have hx4 : (φ r + u) * (φ r - u) = 1 := by linear_combination -hu
    have hx40 : φ r + u ≠ 0 := by intro h0; rw [h0] at hx4; simp at hx4
    have hrA : φ r * (2 * φ r + φ A) = u ^ 2 := by linear_combination hrK - hu
    have hu0 : u ≠ 0 := by
      rintro rfl; apply hr1; linear_combination -hu
    have hrA0 : 2 * φ r + φ A ≠ 0 := by
      intro h0; rw [h0, mul_zero] at hrA; exact hu0 (by simpa using hrA.symm)
    have hy0 : y ≠ 0 := by
      rintro rfl
      have := hy2.symm
      rcases mul_eq_zero.1 (this.trans (by simp)) with h | h
      · exact hx40 (by simpa using h)
      · exact hrA0 h
    refine ⟨y, hn, by rw [ne_eq, two_smul_eq_zero h2]; exact hy0, ?_, hy2⟩
    have e : (4 : ℕ) • (.some _ y hn : (W (φ A)).Point) = (2 : ℕ) • (2 : ℕ) • (.some _ y hn : (W (φ A)).Point) := by
      rw [← mul_nsmul]
    rw [e]
    have hrep := double_rep h2 hn
    generalize (2 : ℕ) • (.some _ y hn : (W (φ A)).Point) = T at hrep
    cases T with
    | zero => exact smul_zero _
    | some x' y' h' =>
      rw [two_smul_eq_zero h2]
      obtain ⟨hz, hx⟩ := (rep_some_iff h' _).1 hrep
      have he' := (W_equation (φ A) x' y').1 h'.1
      have hxr : x' = φ r := by
        apply mul_right_cancel₀ hz
        rw [← hx]
        simp only
        have e3 : (φ r + u) ^ 2 - 1 = 2 * u * (φ r + u) := by linear_combination -hu
        have e4 : (φ r + u) ^ 2 + φ A * (φ r + u) + 1 = (φ r + u) * (2 * φ r + φ A) := by
          linear_combination hu
        rw [e3, e4]
        linear_combination -4 * (φ r + u) ^ 2 * hrA
      have : y' ^ 2 = 0 := by rw [he', hxr]; linear_combination φ r * hrK
      simpa using this
  have rat4 : ∀ u : K, u ^ 2 = φ r ^ 2 - 1 → ∃ a b : F, φ a = φ r + u ∧ φ b ^ 2 = (φ r + u) ^ 2 * (2 * φ r + φ A) := by
    intro u hu
    obtain ⟨y, hn, _, h4', hy2⟩ := main u hu
    obtain ⟨a, b, ha, hb⟩ := h.rational hd (hn := hn) (kill_of_eight hd (by
      rw [show 8 = 4 * 2 by norm_num, mul_nsmul, h4', smul_zero]))
    exact ⟨a, b, ha, by rw [hb, hy2]⟩
  obtain ⟨u0, hu0⟩ := IsAlgClosed.exists_pow_nat_eq (φ r ^ 2 - 1) (n := 2) (by norm_num)
  obtain ⟨a0, _, ha0, _⟩ := rat4 u0 hu0
  refine ⟨a0 - r, φ.injective ?_, ?_⟩
  · simp only [map_sub, map_pow, map_one, ha0]
    linear_combination hu0
  · intro u hu
    have huK : φ u ^ 2 = φ r ^ 2 - 1 := by have := congrArg φ hu; simpa using this
    have hx4 : (r + u) * (r - u) = 1 := by linear_combination -hu
    have hx40 : r + u ≠ 0 := by intro h0; rw [h0] at hx4; simp at hx4
    have hr0F : r ≠ 0 := by rintro rfl; simp at hr
    have hu0F : u ≠ 0 := by
      rintro rfl; apply hr1; simp only [map_zero] at huK; linear_combination -huK
    have hrA : r * (2 * r + A) = u ^ 2 := by linear_combination hr - hu
    have hrA0 : 2 * r + A ≠ 0 := by
      intro h0; rw [h0, mul_zero] at hrA; exact hu0F (by simpa using hrA.symm)
    constructor
    · obtain ⟨a, b, _, hb⟩ := rat4 (φ u) huK
      have hbF : b ^ 2 = (r + u) ^ 2 * (2 * r + A) := φ.injective (by
        simp only [map_pow, map_mul, map_add, map_ofNat]; exact hb)
      have hb0 : b ≠ 0 := by
        rintro rfl
        have : (r + u) ^ 2 * (2 * r + A) = 0 := by rw [← hbF]; simp
        rcases mul_eq_zero.1 this with h | h
        · exact hx40 (by simpa using h)
        · exact hrA0 h
      refine ⟨u * (r + u) / b, ?_⟩
      field_simp
      rw [hbF]
      linear_combination (r + u) ^ 2 * hrA
    · -- a point of order eight above
      obtain ⟨y4, hn4, h24, h44, hy4⟩ := main (φ u) huK
      obtain ⟨t, ht⟩ := exists_eval_eq ((Polynomial.X ^ 2 - 1) ^ 2)
        (4 * (Polynomial.X * (Polynomial.X ^ 2 + Polynomial.C (φ A) * Polynomial.X + 1)))
        (by
          have e1 : ((Polynomial.X ^ 2 - 1 : Polynomial K) ^ 2).natDegree = 4 := by compute_degree!
          have e2 : (4 * (Polynomial.X * (Polynomial.X ^ 2 + Polynomial.C (φ A) * Polynomial.X + 1)) :
            Polynomial K).natDegree ≤ 3 := by compute_degree
          rw [e1]; omega) (φ r + φ u)
      simp only [Polynomial.eval_pow, Polynomial.eval_sub, Polynomial.eval_X, Polynomial.eval_one,
        Polynomial.eval_mul, Polynomial.eval_add, Polynomial.eval_C, Polynomial.eval_ofNat] at ht
      obtain ⟨y, hy⟩ := IsAlgClosed.exists_pow_nat_eq (t ^ 3 + φ A * t ^ 2 + t) (n := 2) (by norm_num)
      have hn := W_nonsingular h2 hA' hy
      have hrep := double_rep h2 hn
      have hrep' : Rep ⟨(t ^ 2 - 1) ^ 2, 4 * (t * (t ^ 2 + φ A * t + 1))⟩ (.some _ y4 hn4 : (W (φ A)).Point) := by
        rw [rep_some_iff]
        refine ⟨?_, ht⟩
        intro hz
        rw [show 4 * (t * (t ^ 2 + φ A * t + 1)) = 0 from hz, mul_zero] at ht
        rcases hrep.nz with h | h
        · exact h ht
        · exact h hz
      have h8 : (8 : ℕ) • (.some t y hn : (W (φ A)).Point) = 0 := by
        rw [show 8 = 2 * 4 by norm_num, mul_nsmul]
        rcases hrep.eq_or_neg hrep' with h | h
        · rw [h, h44]
        · rw [h, smul_neg, h44, neg_zero]
      obtain ⟨a, b, ha, hb⟩ := h.rational hd (hn := hn) (kill_of_eight hd h8)
      have hy0 : y ≠ 0 := by
        intro h0
        have h0' := (two_smul_eq_zero h2 hn).2 h0
        rw [← hrep.Z_iff] at h0'
        exact ((rep_some_iff hn4 _).1 hrep').1 h0'
      have hb0 : b ≠ 0 := by rintro rfl; exact hy0 (by rw [← hb, map_zero])
      refine ⟨(a ^ 2 - 2 * r * a + 1) / (2 * b), φ.injective ?_⟩
      simp only [map_mul, map_div₀, map_add, map_sub, map_pow, map_ofNat, map_one, ha, hb]
      have hy' : y ^ 2 = t * (t ^ 2 + φ A * t + 1) := by rw [hy]; ring
      field_simp
      rw [hy']
      have e5 : φ r * (t * (t ^ 2 + φ A * t + 1)) = t * (t - φ r) * (φ r * t - 1) := by
        linear_combination t ^ 2 * hrK
      linear_combination -ht - 4 * e5

theorem Super.full4 (hd : FrobData φ σ p) (h2F : (2 : F) ≠ 0) {A : F} (h : Super φ σ p A) : Full4 A := by
  refine ⟨h.disc hd h2F, ?_⟩
  intro x hx
  obtain ⟨u, hu, _⟩ := h.four hd h2F hx
  exact ⟨u, by rw [← hu, pow_two]⟩

/-- The x-coordinate property is inherited along maps with coefficients in `F`. -/
theorem SuperX.trans (hd : FrobData φ σ p) (h2F : (2 : F) ≠ 0) {A A' : F} (h : SuperX φ σ p A) {g : Pt K → Pt K}
    (hg : XHom (φ A) (φ A') g) {d : ℕ} (hdef : DefOver φ d g) (hs : Surj g) (hA' : A' ^ 2 ≠ 4) : SuperX φ σ p A' := by
  have h2 := two_map φ h2F
  refine ⟨hA', ?_⟩
  intro P'
  obtain ⟨q, hq, hqP⟩ := hs _ (xr_nz P')
  obtain ⟨P, hP⟩ := exists_rep h2 (sq_ne_four_map φ h.1) hq
  have hgP : Rep (g (xr P)) P' := (PEq.symm hqP).trans (PEq.symm (hg.congr _ _ hP))
  have h1 := hg.nsmul h2 (rep_xr P) hgP p (h.2 P)
  rw [← hdef.comm φ σ hd.fix] at h1
  exact h1.peq (PEq.map σ (PEq.symm hgP))

/-- Changing the Montgomery model stays in the class. -/
theorem Super.model (hd : FrobData φ σ p) (h2F : (2 : F) ≠ 0) {A : F} (h : Super φ σ p A) {i : Iso F}
    (hi : ModelOK A i) (hneg : IsSquare (-1 : F)) : Super φ σ p i.B := by
  have hx := hi.isoX φ h.1
  refine (h.x.trans hd h2F hx.hom (defOver_isoK φ i) hx.surj hi.tgt).super hd h2F ?_
  obtain ⟨s, hs⟩ := h.sq hd h2F
  by_cases hr : i.r = 0
  · have husq := hi.usq
    have hB := hi.B
    rw [hr] at husq hB
    simp only [ne_eq, OfNat.ofNat_ne_zero, not_false_eq_true, zero_pow, mul_zero, zero_add, add_zero] at husq hB
    have : (i.u2 - 1) * (i.u2 + 1) = 0 := by linear_combination husq
    rcases mul_eq_zero.1 this with h1 | h1
    · have : i.B = A := by rw [← hB, show i.u2 = 1 by linear_combination h1, mul_one]
      rw [this]; exact ⟨s, hs⟩
    · have hBA : i.B = -A := by rw [← hB, show i.u2 = -1 by linear_combination h1]; ring
      obtain ⟨d, hd'⟩ := h.disc hd h2F
      obtain ⟨j, hj⟩ := hneg
      have hs0 : s ≠ 0 := by
        rintro rfl
        apply h.1
        have : A = -2 := by linear_combination hs
        rw [this]; norm_num
      refine ⟨j * d / s, ?_⟩
      rw [hBA]
      field_simp
      have e1 : s ^ 2 = A + 2 := by rw [hs]; ring
      have e2 : j ^ 2 = -1 := by rw [hj]; ring
      have e3 : d ^ 2 = A ^ 2 - 4 := by rw [hd']; ring
      rw [e1, e2, e3]; ring
  · have hroot : i.r ^ 2 + A * i.r + 1 = 0 := by
      have := hi.root
      have : i.r * (i.r ^ 2 + A * i.r + 1) = 0 := by linear_combination this
      exact (mul_eq_zero.1 this).resolve_left hr
    have husq : i.u2 ^ 2 = i.r ^ 2 - 1 := by
      rw [hi.usq]; linear_combination 2 * hroot
    obtain ⟨_, _, hall⟩ := h.four hd h2F hroot
    obtain ⟨⟨a, ha⟩, ⟨b, hb⟩⟩ := hall i.u2 husq
    have ha0 : a ≠ 0 := by rintro rfl; exact hr (by simpa using ha)
    have hu0 := hi.u0
    have hb0 : b ≠ 0 := by rintro rfl; exact hu0 (by simpa using hb)
    refine ⟨(i.r + i.u2) / (a * b), ?_⟩
    have e : i.r * i.u2 * (i.B + 2) = (i.r + i.u2) ^ 2 := by
      linear_combination i.r * hi.B - husq + hroot
    have e2 : i.r * i.u2 = (a * b) ^ 2 := by rw [ha, hb]; ring
    field_simp
    rw [← e]; linear_combination -(i.B + 2) * e2

end Secuer.Curve
