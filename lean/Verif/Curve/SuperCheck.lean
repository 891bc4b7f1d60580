import Verif.Curve.Frob
import Verif.Curve.Manin
import Verif.Curve.CheckSpec
import Verif.Props.UtilProps
import Mathlib.GroupTheory.Perm.Cycle.Type

/-!
# A curve accepted by `Check_Curve` is supersingular, with Frobenius `-p`

Puts together acceptance (`checkCurve_true`, `checkCurve_singular`), Hasse's bound (`Manin.hasse`) and
Manin's relation (`Manin.frobenius_x`).
-/

namespace Secuer.Curve

open Secuer.Mont

section

variable {F K : Type} [Field F] [Fintype F] [DecidableEq F] [Field K] [DecidableEq K] [Algebra F K]

/-- The `#F`-power Frobenius of an extension of `F`. -/
noncomputable def frobK (F K : Type) [Field F] [Fintype F] [Field K] [Algebra F K] : K →+* K :=
  (FiniteField.frobeniusAlgHom F K).toRingHom

theorem frobK_apply (z : K) : frobK F K z = z ^ Fintype.card F := rfl

theorem frobData {p : ℕ} (h8 : 8 ∣ p + 1) : FrobData (algebraMap F K) (frobK F K) p := by
  refine ⟨fun z => ?_, h8⟩
  rw [frobK_apply]
  constructor
  · intro h
    have e := congrArg (Polynomial.eval₂ (algebraMap F K) z) (Manin.X_pow_sub F)
    rw [Polynomial.eval₂_finset_prod] at e
    simp only [Polynomial.eval₂_sub, Polynomial.eval₂_pow, Polynomial.eval₂_X, Polynomial.eval₂_C, h,
      sub_self] at e
    obtain ⟨a, _, ha⟩ := Finset.prod_eq_zero_iff.1 e.symm
    exact ⟨a, (sub_eq_zero.1 ha).symm⟩
  · rintro ⟨a, rfl⟩
    rw [← map_pow, FiniteField.pow_card]

/-- The order `(p + 1)²` makes Frobenius multiplication by `-p`. -/
theorem super_of_card [IsAlgClosed K] (h2F : (2 : F) ≠ 0) {A : F} (hA : A ^ 2 ≠ 4) {p : ℕ}
    (hp : Fintype.card F = p ^ 2) (h8 : 8 ∣ p + 1) (h3 : 3 ∣ p + 1)
    (hN : Nat.card (W A).Point = (p + 1) ^ 2) : Super (algebraMap F K) (frobK F K) p A := by
  have hd := frobData (F := F) (K := K) h8
  have hx : SuperX (algebraMap F K) (frobK F K) p A := by
    refine ⟨hA, ?_⟩
    intro P
    cases P with
    | zero =>
      change Rep ((xr (0 : (W (algebraMap F K A)).Point)).map _) (p • (0 : (W (algebraMap F K A)).Point))
      rw [smul_zero, rep_zero_iff]; simp [Pt.map]
    | some x y hn =>
      have := Manin.frobenius_x h2F hA hp (by omega) hN (algebraMap F K) x y hn
      simpa [Pt.map, frobK_apply] using this
  haveI := Manin.finite_points A
  haveI := Fact.mk Nat.prime_three
  obtain ⟨T, hT⟩ := exists_prime_addOrderOf_dvd_card' (G := (W A).Point) 3 (by
    rw [hN]; exact Dvd.dvd.pow h3 (by norm_num))
  refine hx.super_of_point hd (T := T) ?_ ?_
  · apply addOrderOf_dvd_iff_nsmul_eq_zero.1; rw [hT]; exact h3
  · intro h
    have := addOrderOf_dvd_iff_nsmul_eq_zero.2 h
    rw [hT] at this
    omega

end

section

variable {F : Type} [Field F] [Fintype F] [DecidableEq F] {env : Env F}

/-- What the order test has to guarantee. -/
structure OrderTest (env : Env F) (po : ProvesOrder) : Prop where
  sound : ∀ a b, a ≤ 2 * env.e2 → b ≤ 2 * env.e3 → po a b = true → 4 * (2 ^ env.e2 * 3 ^ env.e3 - 1) < 2 ^ a * 3 ^ b
  small : ∀ a b, a ≤ env.e2 → b ≤ env.e3 + 1 → po a b = false

theorem Accepted.card (h2F : (2 : F) ≠ 0) {A : F} (hA : A ^ 2 ≠ 4) {po : ProvesOrder} (ho : OrderTest env po)
    {p : ℕ} (hp : Fintype.card F = p ^ 2) (hp1 : p + 1 = 2 ^ env.e2 * 3 ^ env.e3) (h : Accepted env po A) :
    Nat.card (W A).Point = (p + 1) ^ 2 := by
  obtain ⟨a, b, ha, hb, hpo, d2, d3⟩ := h
  have hlt := ho.sound a b ha hb hpo
  rw [← hp1, Nat.add_sub_cancel] at hlt
  have hdN : 2 ^ a * 3 ^ b ∣ Nat.card (W A).Point :=
    Nat.Coprime.mul_dvd_of_dvd_of_dvd (Nat.Coprime.pow a b (by norm_num)) d2 d3
  have hdp : 2 ^ a * 3 ^ b ∣ (p + 1) ^ 2 := by
    rw [hp1, mul_pow, ← pow_mul, ← pow_mul]
    exact mul_dvd_mul (pow_dvd_pow _ (by omega)) (pow_dvd_pow _ (by omega))
  obtain ⟨hlo, hhi⟩ := Manin.hasse h2F hA hp
  have hsub : 2 ^ a * 3 ^ b ∣ (p + 1) ^ 2 - Nat.card (W A).Point := Nat.dvd_sub hdp hdN
  have hle : (p + 1) ^ 2 - Nat.card (W A).Point ≤ 4 * p := by
    have h4 : (p + 1) ^ 2 ≤ (p - 1) ^ 2 + 4 * p := by
      rcases Nat.eq_zero_or_pos p with rfl | h
      · have := Fintype.card_pos (α := F); omega
      · obtain ⟨k, rfl⟩ : ∃ k, p = k + 1 := ⟨p - 1, by omega⟩
        rw [Nat.add_sub_cancel]; nlinarith
    omega
  have h0 := Nat.eq_zero_of_dvd_of_lt hsub (lt_of_le_of_lt hle hlt)
  omega

/-- **Soundness of `Check_Curve`**: whatever the random points and the memory, an accepted coefficient is
nonsingular and its curve has `(p + 1)²` points. -/
theorem checkCurve_sound (po : ProvesOrder) (ho : OrderTest env po) (junk : ℕ → Pt F × Pt F) (h2F : (2 : F) ≠ 0)
    (h3F : (3 : F) ≠ 0) (he3 : 1 ≤ env.e3) {p : ℕ} (hp : Fintype.card F = p ^ 2)
    (hp1 : p + 1 = 2 ^ env.e2 * 3 ^ env.e3) (A : F) :
    Ret (checkCurve env po junk ⟨A, 1⟩) (fun r => r = true →
      A ^ 2 ≠ 4 ∧ Nat.card (W A).Point = (p + 1) ^ 2) := by
  by_cases hA : A ^ 2 = 4
  · refine (checkCurve_singular po junk h2F h3F hA he3 ho.small).mono fun r hr h => ?_
    rw [hr] at h; cases h
  · haveI := Manin.finite_points A
    exact (checkCurve_true po junk h2F hA).mono fun r hr h => ⟨hA, (hr h).card h2F hA ho hp hp1⟩

end

end Secuer.Curve
