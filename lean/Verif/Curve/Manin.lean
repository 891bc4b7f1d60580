import Verif.Curve.Arith
import Mathlib.Algebra.Polynomial.Div
import Mathlib.Algebra.Polynomial.FieldDivision
import Mathlib.Algebra.Polynomial.Expand
import Mathlib.RingTheory.Polynomial.Basic
import Mathlib.RingTheory.PrincipalIdealDomain
import Mathlib.RingTheory.Ideal.Maximal
import Mathlib.FieldTheory.Finite.Basic
import Mathlib.NumberTheory.LegendreSymbol.QuadraticChar.Basic
import Mathlib.FieldTheory.IsAlgClosed.Basic
import Mathlib.FieldTheory.IsAlgClosed.AlgebraicClosure
import Mathlib.FieldTheory.RatFunc.Basic

/-!
# Manin's elementary proof of Hasse's bound, for Montgomery curves

Over the field of rational functions in `X` the curve has (in a quadratic extension) the points `Q` with
x-coordinate `X` and `P₀` with x-coordinate `X^q`, the image of `Q` under Frobenius. The x-coordinate of
`P₀ + n Q` is a rational function in `X` whose degree `d n` satisfies `d (n+1) + d (n-1) = 2 d n + 2`,
`d 0 = q`, `d (-1) = #E(F)`. So `d n = n² + (q + 1 - #E(F)) n + q ≥ 0` for all integers `n`, which is Hasse's
bound; and a zero of this polynomial is a relation `P₀ = -n Q`, that is Frobenius is multiplication by `-n`.
-/

namespace Secuer.Curve.Manin

open Polynomial Secuer.Mont Secuer.Curve

section step

variable {F L : Type} [Field F] [Field L] [DecidableEq L] (ψ : F[X] →+* L)

/-- `P` has x-coordinate a rational function of degree `d`, with a pole at infinity. -/
def Good {A : L} (P : (W A).Point) (d : ℕ) : Prop :=
  ∃ f g : F[X], IsCoprime f g ∧ Rep ⟨ψ f, ψ g⟩ P ∧ f.natDegree ≤ d ∧ g.natDegree ≤ d ∧ f.coeff d ≠ 0 ∧
    g.coeff d = 0

variable {ψ}

/-- The x-coordinate of `P + Q` from those of `P`, `Q`, `P - Q`, without division. -/
theorem exists_sum (hψ : Function.Injective ψ) {A : F} (h2 : (2 : L) ≠ 0) {P Q : (W (ψ (C A))).Point}
    {p q s : Pt F[X]} (hp : Rep ⟨ψ p.X, ψ p.Z⟩ P) (hq : Rep ⟨ψ q.X, ψ q.Z⟩ Q)
    (hs : Rep ⟨ψ s.X, ψ s.Z⟩ (P - Q)) : ∃ r : Pt F[X], Rep ⟨ψ r.X, ψ r.Z⟩ (P + Q) := by
  obtain ⟨c, hc, h0, h1, h2'⟩ := hp.as h2 hq (rep_xr (P + Q)) hs
  set r' := xr (P + Q) with hr'
  by_cases hz : s.Z = 0
  · have hsx : ψ s.X ≠ 0 := by
      rcases hs.nz with h | h
      · exact h
      · exact absurd (by simp [hz]) h
    refine ⟨⟨(p.X * q.X - p.Z * q.Z) ^ 2,
      2 * ((p.X * q.Z + q.X * p.Z) * (p.X * q.X + p.Z * q.Z) + 2 * C A * p.X * q.X * p.Z * q.Z)⟩, ?_⟩
    refine ⟨c * ψ s.X, mul_ne_zero hc hsx, ?_, ?_⟩
    · simp only [b0] at h0
      simp only [map_pow, map_sub, map_mul]
      rw [h0]; ring
    · simp only [b1, hz, map_zero] at h1
      simp only [map_add, map_mul, map_ofNat]
      rw [h1]; ring
  by_cases hx : s.X = 0
  · have hsz : ψ s.Z ≠ 0 := by rw [map_ne_zero_iff ψ hψ]; exact hz
    refine ⟨⟨2 * ((p.X * q.Z + q.X * p.Z) * (p.X * q.X + p.Z * q.Z) + 2 * C A * p.X * q.X * p.Z * q.Z),
      (p.X * q.Z - q.X * p.Z) ^ 2⟩, ?_⟩
    refine ⟨c * ψ s.Z, mul_ne_zero hc hsz, ?_, ?_⟩
    · simp only [b1, hx, map_zero] at h1
      simp only [map_add, map_mul, map_ofNat]
      rw [h1]; ring
    · simp only [b2] at h2'
      simp only [map_pow, map_sub, map_mul]
      rw [h2']; ring
  · have hsz : ψ s.Z ≠ 0 := by rw [map_ne_zero_iff ψ hψ]; exact hz
    have hsx : ψ s.X ≠ 0 := by rw [map_ne_zero_iff ψ hψ]; exact hx
    refine ⟨⟨(p.X * q.X - p.Z * q.Z) ^ 2 * s.Z, (p.X * q.Z - q.X * p.Z) ^ 2 * s.X⟩, ?_⟩
    refine ⟨c * ψ s.X * ψ s.Z, mul_ne_zero (mul_ne_zero hc hsx) hsz, ?_, ?_⟩
    · simp only [b0] at h0
      simp only [map_pow, map_sub, map_mul]
      rw [h0]; ring
    · simp only [b2] at h2'
      simp only [map_pow, map_sub, map_mul]
      rw [h2']; ring

/-- Reduced fractions. -/
theorem exists_coprime (hψ : Function.Injective ψ) {A : L} {P : (W A).Point} {r : Pt F[X]}
    (hr : Rep ⟨ψ r.X, ψ r.Z⟩ P) : ∃ f g : F[X], IsCoprime f g ∧ Rep ⟨ψ f, ψ g⟩ P := by
  classical
  have hne : r.X ≠ 0 ∨ r.Z ≠ 0 := by
    rcases hr.nz with h | h
    · left; rintro e; exact h (by simp [e])
    · right; rintro e; exact h (by simp [e])
  obtain ⟨f, hf⟩ := EuclideanDomain.gcd_dvd_left r.X r.Z
  obtain ⟨g, hg⟩ := EuclideanDomain.gcd_dvd_right r.X r.Z
  have hgcd : EuclideanDomain.gcd r.X r.Z ≠ 0 := by
    intro h
    rw [EuclideanDomain.gcd_eq_zero_iff] at h
    rcases hne with h' | h'
    · exact h' h.1
    · exact h' h.2
  refine ⟨f, g, ?_, ?_⟩
  · have hb := EuclideanDomain.gcd_eq_gcd_ab r.X r.Z
    refine ⟨EuclideanDomain.gcdA r.X r.Z, EuclideanDomain.gcdB r.X r.Z, ?_⟩
    apply mul_left_cancel₀ hgcd
    rw [mul_one]
    calc _ = EuclideanDomain.gcd r.X r.Z * f * EuclideanDomain.gcdA r.X r.Z +
          EuclideanDomain.gcd r.X r.Z * g * EuclideanDomain.gcdB r.X r.Z := by ring
      _ = _ := by rw [← hf, ← hg, ← hb]
  · refine hr.peq (PEq.symm ⟨ψ (EuclideanDomain.gcd r.X r.Z), ?_, ?_, ?_⟩)
    · rw [map_ne_zero_iff ψ hψ]; exact hgcd
    · simp only; rw [← map_mul, ← hf]
    · simp only; rw [← map_mul, ← hg]

/-- Products of reduced fractions are primitive as quadratic forms. -/
theorem primitive_mul {f g f' g' : F[X]} (h : IsCoprime f g) (h' : IsCoprime f' g') :
    ∃ a b c : F[X], a * (f * f') + b * (f * g' + g * f') + c * (g * g') = 1 := by
  have key : Ideal.span {f * f', f * g' + g * f', g * g'} = ⊤ := by
    by_contra hne
    obtain ⟨m, hm, hle⟩ := Ideal.exists_le_maximal _ hne
    have hp := hm.isPrime
    have m0 : f * f' ∈ m := hle (Ideal.subset_span (by simp))
    have m1 : f * g' + g * f' ∈ m := hle (Ideal.subset_span (by simp))
    have m2 : g * g' ∈ m := hle (Ideal.subset_span (by simp))
    have nc : ∀ {u v : F[X]}, IsCoprime u v → u ∈ m → v ∈ m → False := by
      rintro u v ⟨a, b, hab⟩ hu hv
      exact hm.ne_top ((Ideal.eq_top_iff_one m).2 (hab ▸ m.add_mem (m.mul_mem_left a hu) (m.mul_mem_left b hv)))
    rcases hp.mem_or_mem m0 with hf | hf
    · have hgf : g * f' ∈ m := by
        have := m.sub_mem m1 (m.mul_mem_right g' hf)
        rwa [add_sub_cancel_left] at this
      rcases hp.mem_or_mem hgf with hg | hf'
      · exact nc h hf hg
      · rcases hp.mem_or_mem m2 with hg | hg
        · exact nc h hf hg
        · exact nc h' hf' hg
    · have hfg : f * g' ∈ m := by
        have := m.sub_mem m1 (m.mul_mem_left g hf)
        rwa [add_sub_cancel_right] at this
      rcases hp.mem_or_mem hfg with hf0 | hg'
      · rcases hp.mem_or_mem m2 with hg | hg
        · exact nc h hf0 hg
        · exact nc h' hf hg
      · exact nc h' hf hg'
  have h1 : (1 : F[X]) ∈ Ideal.span {f * f', f * g' + g * f', g * g'} := by rw [key]; trivial
  rw [Ideal.mem_span_insert] at h1
  obtain ⟨a, z, hz, e⟩ := h1
  rw [Ideal.mem_span_pair] at hz
  obtain ⟨b, c, e'⟩ := hz
  exact ⟨a, b, c, by rw [e, ← e']; ring⟩

/-- The biquadratic forms of `f/g` and `X` have no common factor, the curve being smooth. -/
theorem primitive_b (h2 : (2 : F) ≠ 0) {A : F} (hA : A ^ 2 ≠ 4) {f g : F[X]} (h : IsCoprime f g) {γ : F[X]}
    (h0 : γ ∣ (f * X - g) ^ 2)
    (h1 : γ ∣ 2 * ((f + X * g) * (f * X + g) + 2 * C A * f * X * g)) (h2' : γ ∣ (f - X * g) ^ 2) :
    IsUnit γ := by
  by_contra hu
  obtain ⟨m, hm, hle⟩ := Ideal.exists_le_maximal (Ideal.span {γ}) (by
    rwa [ne_eq, Ideal.span_singleton_eq_top])
  have hγ : γ ∈ m := hle (Ideal.subset_span rfl)
  letI := Ideal.Quotient.field m
  set π : F[X] →+* F[X] ⧸ m := Ideal.Quotient.mk m
  have z : ∀ {u : F[X]}, γ ∣ u → π u = 0 := fun {u} hd =>
    Ideal.Quotient.eq_zero_iff_mem.2 (m.mem_of_dvd hd hγ)
  have hC : ∀ c : F, c ≠ 0 → π (C c) ≠ 0 := by
    intro c hc h
    have : π (C c * C c⁻¹) = 0 := by rw [map_mul, h, zero_mul]
    rw [← C_mul, mul_inv_cancel₀ hc, C_1, map_one] at this
    exact one_ne_zero this
  have e0 : π f * π X - π g = 0 := by simpa using z h0
  have e2 : π f - π X * π g = 0 := by simpa using z h2'
  have e1 := z h1
  simp only [map_add, map_mul, map_ofNat] at e1
  have hg : π g ≠ 0 := by
    intro hg
    rw [hg, mul_zero, sub_zero] at e2
    obtain ⟨a, b, hab⟩ := h
    have := congrArg π hab
    simp [hg, e2] at this
  have hf : π f = π X * π g := by linear_combination e2
  have hX : π X ^ 2 = 1 := by
    apply mul_right_cancel₀ hg
    rw [hf] at e0; linear_combination e0
  rw [hf] at e1
  have h22 : (2 : F[X] ⧸ m) ≠ 0 := by
    have := hC 2 h2
    simpa [map_ofNat] using this
  have e3 : 2 * π X + π (C A) = 0 := by
    have h4 : (2 * 2 : F[X] ⧸ m) ≠ 0 := mul_ne_zero h22 h22
    apply (mul_eq_zero.1 (?_ : (2 * 2 * π g ^ 2) * (2 * π X + π (C A)) = 0)).resolve_left
      (mul_ne_zero h4 (pow_ne_zero _ hg))
    linear_combination e1 - (4 * π X * π g ^ 2 + 4 * π (C A) * π g ^ 2) * hX
  have e4 : π (C (A ^ 2 - 4)) = 0 := by
    have : π (C (A ^ 2 - 4)) = π (C A) ^ 2 - 4 := by simp [map_ofNat]
    rw [this]
    linear_combination (π (C A) - 2 * π X) * e3 + 4 * hX
  exact hC _ (sub_ne_zero.2 hA) e4

/-- The degree recursion, and existence of the next x-coordinate. -/
theorem Good.step (hψ : Function.Injective ψ) {A : F} (h2 : (2 : F) ≠ 0) (hA : A ^ 2 ≠ 4)
    {P Q : (W (ψ (C A))).Point} (hQ : Rep ⟨ψ X, 1⟩ Q) {d d' : ℕ} (hP : Good ψ P d) (hS : Good ψ (P - Q) d') :
    ∃ d'', Good ψ (P + Q) d'' ∧ d'' + d' = 2 * d + 2 := by
  have h2L : (2 : L) ≠ 0 := by
    have : ψ (C 2) ≠ 0 := by rw [map_ne_zero_iff ψ hψ]; simpa using h2
    simpa [map_ofNat] using this
  obtain ⟨f, g, hfg, hp, nf, ng, cf, cg⟩ := hP
  obtain ⟨f', g', hfg', hs, nf', ng', cf', cg'⟩ := hS
  have hQ' : Rep ⟨ψ X, ψ 1⟩ Q := by rw [map_one]; exact hQ
  obtain ⟨r, hr⟩ := exists_sum hψ h2L (p := ⟨f, g⟩) (q := ⟨X, 1⟩) (s := ⟨f', g'⟩) hp hQ' hs
  obtain ⟨f1, g1, hfg1, hr1⟩ := exists_coprime hψ hr
  obtain ⟨c, hc, h0, h1, h2'⟩ := hp.as h2L hQ hr1 hs
  simp only [b0, b1, b2] at h0 h1 h2'
  obtain ⟨α, β, δ, hbez⟩ := primitive_mul hfg1 hfg'
  -- `c` is a polynomial
  obtain ⟨γ, hγ⟩ : ∃ γ : F[X], ψ γ = c := by
    refine ⟨α * (f * X - g) ^ 2 + β * (2 * ((f + X * g) * (f * X + g) + 2 * C A * f * X * g)) +
      δ * (f - X * g) ^ 2, ?_⟩
    have := congrArg ψ hbez
    simp only [map_add, map_mul, map_pow, map_sub, map_ofNat, map_one] at this ⊢
    linear_combination ψ α * h0 + ψ β * h1 + ψ δ * h2' + c * this
  have p0 : (f * X - g) ^ 2 = γ * (f1 * f') := by
    apply hψ; simp only [map_add, map_mul, map_pow, map_sub, map_ofNat, map_one]
    rw [hγ, ← h0]; ring
  have p1 : 2 * ((f + X * g) * (f * X + g) + 2 * C A * f * X * g) = γ * (f1 * g' + g1 * f') := by
    apply hψ; simp only [map_add, map_mul, map_pow, map_sub, map_ofNat, map_one]
    rw [hγ, ← h1]; ring
  have p2 : (f - X * g) ^ 2 = γ * (g1 * g') := by
    apply hψ; simp only [map_add, map_mul, map_pow, map_sub, map_ofNat, map_one]
    rw [hγ, ← h2']; ring
  have hu : IsUnit γ := primitive_b h2 hA hfg ⟨_, p0⟩ ⟨_, p1⟩ ⟨_, p2⟩
  obtain ⟨t, ht, rfl⟩ := Polynomial.isUnit_iff.1 hu
  have ht0 : t ≠ 0 := ht.ne_zero
  -- degrees
  have dfX : (f * X).natDegree ≤ d + 1 := (natDegree_mul_le_of_le nf natDegree_X_le)
  have dXg : (X * g).natDegree ≤ d + 1 := by
    rw [mul_comm]; exact natDegree_mul_le_of_le ng natDegree_X_le
  have dA : (f * X - g).natDegree ≤ d + 1 := by
    simpa using natDegree_sub_le_of_le dfX (ng.trans (Nat.le_succ d))
  have dB : (f - X * g).natDegree ≤ d + 1 := by
    simpa using natDegree_sub_le_of_le (nf.trans (Nat.le_succ d)) dXg
  have dC : (f + X * g).natDegree ≤ d + 1 := natDegree_add_le_of_degree_le (by omega) dXg
  have dD : (f * X + g).natDegree ≤ d + 1 := natDegree_add_le_of_degree_le dfX (by omega)
  have cA : (f * X - g).coeff (d + 1) = f.coeff d := by
    rw [coeff_sub, coeff_mul_X, coeff_eq_zero_of_natDegree_lt (p := g) (by omega), sub_zero]
  have cD : (f * X + g).coeff (d + 1) = f.coeff d := by
    rw [coeff_add, coeff_mul_X, coeff_eq_zero_of_natDegree_lt (p := g) (by omega), add_zero]
  have cB : (f - X * g).coeff (d + 1) = 0 := by
    rw [coeff_sub, coeff_X_mul, coeff_eq_zero_of_natDegree_lt (p := f) (by omega), cg, sub_zero]
  have cC : (f + X * g).coeff (d + 1) = 0 := by
    rw [coeff_add, coeff_X_mul, coeff_eq_zero_of_natDegree_lt (p := f) (by omega), cg, add_zero]
  have k0 : ((f * X - g) ^ 2).coeff (2 * d + 2) = f.coeff d ^ 2 := by
    rw [pow_two, show 2 * d + 2 = (d + 1) + (d + 1) by ring, coeff_mul_add_eq_of_natDegree_le dA dA, cA, pow_two]
  have k2 : ((f - X * g) ^ 2).coeff (2 * d + 2) = 0 := by
    rw [pow_two, show 2 * d + 2 = (d + 1) + (d + 1) by ring, coeff_mul_add_eq_of_natDegree_le dB dB, cB, zero_mul]
  have d3 : (2 * C A * f * X * g).natDegree ≤ 2 * d + 1 := by
    have : (2 * C A * f * X * g) = C (2 * A) * ((f * X) * g) := by rw [C_mul, show (C 2 : F[X]) = 2 from rfl]; ring
    rw [this]
    refine (natDegree_C_mul_le _ _).trans ((natDegree_mul_le_of_le dfX ng).trans (by omega))
  have k1 : (2 * ((f + X * g) * (f * X + g) + 2 * C A * f * X * g)).coeff (2 * d + 2) = 0 := by
    have e : (2 : F[X]) = C 2 := rfl
    conv_lhs => rw [e, coeff_C_mul, coeff_add]
    rw [coeff_eq_zero_of_natDegree_lt (p := C 2 * C A * f * X * g) (by rw [← e]; omega),
      show 2 * d + 2 = (d + 1) + (d + 1) by ring, coeff_mul_add_eq_of_natDegree_le dC dD, cC]
    ring
  have n0 : ((f * X - g) ^ 2).natDegree ≤ 2 * d + 2 := (natDegree_pow_le_of_le 2 dA).trans (by omega)
  have n2 : ((f - X * g) ^ 2).natDegree ≤ 2 * d + 2 := (natDegree_pow_le_of_le 2 dB).trans (by omega)
  have n1 : (2 * ((f + X * g) * (f * X + g) + 2 * C A * f * X * g)).natDegree ≤ 2 * d + 2 := by
    have e : (2 : F[X]) = C 2 := rfl
    rw [show (2 * ((f + X * g) * (f * X + g) + 2 * C A * f * X * g) : F[X]) =
      C 2 * ((f + X * g) * (f * X + g) + 2 * C A * f * X * g) by rw [← e]]
    refine (natDegree_C_mul_le _ _).trans (natDegree_add_le_of_degree_le ?_ (d3.trans (by omega)))
    exact (natDegree_mul_le_of_le dC dD).trans (by omega)
  rw [p0] at k0 n0
  rw [p1] at k1 n1
  rw [p2] at k2 n2
  rw [natDegree_C_mul ht0] at n0 n1 n2
  rw [coeff_C_mul] at k0 k1 k2
  set e := max f1.natDegree g1.natDegree with he
  have nf1 : f1.natDegree ≤ e := le_max_left _ _
  have ng1 : g1.natDegree ≤ e := le_max_right _ _
  have htop : f1.coeff e ≠ 0 ∨ g1.coeff e ≠ 0 := by
    have lc : ∀ {u : F[X]}, u ≠ 0 → u.coeff u.natDegree ≠ 0 := fun h => leadingCoeff_ne_zero.2 h
    have hne : f1 ≠ 0 ∨ g1 ≠ 0 := by
      by_contra h
      push Not at h
      obtain ⟨a, b, hab⟩ := hfg1
      rw [h.1, h.2] at hab
      simp at hab
    by_cases hg0 : g1 = 0
    · left
      have : e = f1.natDegree := by rw [he, hg0]; simp
      rw [this]
      exact lc (hne.resolve_right (not_not.2 hg0))
    by_cases hf0 : f1 = 0
    · right
      have : e = g1.natDegree := by rw [he, hf0]; simp
      rw [this]
      exact lc hg0
    rcases le_total f1.natDegree g1.natDegree with hle | hle
    · right; rw [he, max_eq_right hle]; exact lc hg0
    · left; rw [he, max_eq_left hle]; exact lc hf0
  have u0 : (f1 * f').coeff (e + d') = f1.coeff e * f'.coeff d' := coeff_mul_add_eq_of_natDegree_le nf1 nf'
  have u1 : (f1 * g' + g1 * f').coeff (e + d') = g1.coeff e * f'.coeff d' := by
    rw [coeff_add, coeff_mul_add_eq_of_natDegree_le nf1 ng', coeff_mul_add_eq_of_natDegree_le ng1 nf', cg']; ring
  have m0 : (f1 * f').natDegree ≤ e + d' := natDegree_mul_le_of_le nf1 nf'
  have hle : 2 * d + 2 ≤ e + d' := by
    by_contra hlt
    rw [coeff_eq_zero_of_natDegree_lt (p := f1 * f') (by omega), mul_zero] at k0
    exact pow_ne_zero 2 cf k0.symm
  have hge : e + d' ≤ 2 * d + 2 := by
    by_contra hlt
    rw [coeff_eq_zero_of_natDegree_lt (by omega)] at u0 u1
    rcases htop with h | h
    · exact mul_ne_zero h cf' u0.symm
    · exact mul_ne_zero h cf' u1.symm
  have heq : e + d' = 2 * d + 2 := le_antisymm hge hle
  refine ⟨e, ⟨f1, g1, hfg1, hr1, nf1, ng1, ?_⟩, heq⟩
  rw [← heq, u1] at k1
  have hG : g1.coeff e = 0 := by
    have := (mul_eq_zero.1 k1).resolve_left ht0
    exact (mul_eq_zero.1 this).resolve_right cf'
  exact ⟨htop.resolve_right (not_not.2 hG), hG⟩

end step

section base

variable {F : Type} [Field F] [Fintype F] [DecidableEq F]

/-- The right-hand side of the curve equation. -/
noncomputable def rhs (A : F) : F[X] := X ^ 3 + C A * X ^ 2 + X

/-- The number of points above `a`. -/
noncomputable def cnt (A a : F) : ℕ := Nat.card {y : F // y ^ 2 = (rhs A).eval a}

theorem rhs_eval (A a : F) : (rhs A).eval a = a ^ 3 + A * a ^ 2 + a := by simp [rhs]

theorem ringChar_ne_two (h2 : (2 : F) ≠ 0) : ringChar F ≠ 2 := by
  intro h
  apply h2
  have := ringChar.Nat.cast_ringChar (R := F)
  rw [h] at this
  exact_mod_cast this

theorem odd_card (h2 : (2 : F) ≠ 0) : ∃ m, 1 ≤ m ∧ Fintype.card F = 2 * m + 1 ∧ Fintype.card F / 2 = m := by
  have h := FiniteField.odd_card_of_char_ne_two (ringChar_ne_two h2)
  have h1 := Fintype.one_lt_card (α := F)
  exact ⟨Fintype.card F / 2, by omega, by omega, rfl⟩

theorem cnt_cases (h2 : (2 : F) ≠ 0) (A a : F) :
    ((rhs A).eval a = 0 ∧ cnt A a = 1) ∨
    ((rhs A).eval a ≠ 0 ∧ (rhs A).eval a ^ (Fintype.card F / 2) = 1 ∧ cnt A a = 2) ∨
    ((rhs A).eval a ^ (Fintype.card F / 2) = -1 ∧ cnt A a = 0) := by
  have hF := ringChar_ne_two h2
  have hc : (cnt A a : ℤ) = quadraticChar F ((rhs A).eval a) + 1 := by
    rw [← quadraticChar_card_sqrts hF, cnt, Nat.card_eq_fintype_card, Set.toFinset_card]
    rfl
  by_cases h0 : (rhs A).eval a = 0
  · left
    refine ⟨h0, ?_⟩
    rw [h0, quadraticChar_zero] at hc
    exact_mod_cast hc
  · right
    have hp := quadraticChar_eq_pow_of_char_ne_two' hF ((rhs A).eval a)
    rcases quadraticChar_dichotomy h0 with h | h
    · left
      rw [h] at hc hp
      exact ⟨h0, by rw [← hp]; simp, by exact_mod_cast hc⟩
    · right
      rw [h] at hc hp
      exact ⟨by rw [← hp]; simp, by omega⟩

theorem cnt_le (h2 : (2 : F) ≠ 0) (A a : F) : cnt A a ≤ 2 := by
  rcases cnt_cases h2 A a with h | h | h
  · omega
  · omega
  · omega

/-- Points of the curve over the field `F`. -/
theorem card_points (h2 : (2 : F) ≠ 0) {A : F} (hA : A ^ 2 ≠ 4) :
    Nat.card (W A).Point = 1 + ∑ a : F, cnt A a := by
  let e : (W A).Point ≃ Option (Σ a : F, {y : F // y ^ 2 = (rhs A).eval a}) :=
    { toFun := fun P => match P with
        | .zero => none
        | .some x y h => some ⟨x, y, by rw [rhs_eval]; exact (W_equation A x y).1 h.1⟩
      invFun := fun o => match o with
        | none => .zero
        | some ⟨x, y, h⟩ => .some x y (W_nonsingular h2 hA (by rw [h, rhs_eval]))
      left_inv := by rintro (_ | ⟨x, y, h⟩) <;> rfl
      right_inv := by rintro (_ | ⟨x, y, h⟩) <;> rfl }
  rw [Nat.card_congr e, Finite.card_option, Nat.card_sigma, add_comm]
  rfl

theorem finite_points (A : F) : Finite (W A).Point := by
  let f : (W A).Point → Option (F × F) := fun P => match P with
    | .zero => none
    | .some x y _ => some (x, y)
  apply Finite.of_injective f
  rintro (_ | ⟨x, y, h⟩) (_ | ⟨x', y', h'⟩) e
  · rfl
  · simp [f] at e
  · simp [f] at e
  · simp only [f, Option.some.injEq, Prod.mk.injEq] at e
    obtain ⟨rfl, rfl⟩ := e
    rfl

/-- Numerator of the x-coordinate of `P₀ - Q`. -/
noncomputable def num (A : F) : F[X] :=
  rhs A * (rhs A ^ (Fintype.card F / 2) + 1) ^ 2 -
    (C A + X + X ^ Fintype.card F) * (X ^ Fintype.card F - X) ^ 2

theorem rhs_pow (A : F) : rhs A ^ Fintype.card F =
    (X ^ Fintype.card F) ^ 3 + C A * (X ^ Fintype.card F) ^ 2 + X ^ Fintype.card F := by
  rw [← FiniteField.expand_card]
  simp [rhs, map_add, map_mul, expand_X, expand_C, map_pow]

theorem rhs_natDegree_le (A : F) : (rhs A).natDegree ≤ 3 := by
  unfold rhs; compute_degree

theorem num_natDegree (h2 : (2 : F) ≠ 0) (A : F) : (num A).natDegree = 2 * Fintype.card F + 1 := by
  obtain ⟨m, hm, hq, hq2⟩ := odd_card h2
  have e : num A = X ^ (2 * Fintype.card F + 1) + (C (2 * A) * X ^ (Fintype.card F + 1) +
      X ^ (Fintype.card F + 2) + C 2 * rhs A ^ (m + 1) + rhs A + X ^ Fintype.card F - C A * X ^ 2 - X ^ 3) := by
    have h := rhs_pow A
    have e1 : rhs A * (rhs A ^ m + 1) ^ 2 = rhs A ^ (2 * m + 1) + 2 * rhs A ^ (m + 1) + rhs A := by ring
    unfold num
    rw [hq2, e1, ← hq, h, C_mul, show (C 2 : F[X]) = 2 from rfl]
    ring
  have d1 : (C 2 * rhs A ^ (m + 1)).natDegree ≤ 3 * (m + 1) := by
    refine (natDegree_C_mul_le _ _).trans ((natDegree_pow_le_of_le (m + 1) (rhs_natDegree_le A)).trans ?_)
    rw [mul_comm]
  have dR : (C (2 * A) * X ^ (Fintype.card F + 1) + X ^ (Fintype.card F + 2) + C 2 * rhs A ^ (m + 1) +
      rhs A + X ^ Fintype.card F - C A * X ^ 2 - X ^ 3 : F[X]).natDegree ≤ 2 * Fintype.card F := by
    have a1 : (C (2 * A) * X ^ (Fintype.card F + 1) : F[X]).natDegree ≤ 2 * Fintype.card F :=
      (natDegree_C_mul_X_pow_le _ _).trans (by omega)
    have a2 : (X ^ (Fintype.card F + 2) : F[X]).natDegree ≤ 2 * Fintype.card F :=
      (natDegree_X_pow_le _).trans (by omega)
    have a3 : (C 2 * rhs A ^ (m + 1)).natDegree ≤ 2 * Fintype.card F := d1.trans (by omega)
    have a4 : (rhs A).natDegree ≤ 2 * Fintype.card F := (rhs_natDegree_le A).trans (by omega)
    have a5 : (X ^ (Fintype.card F) : F[X]).natDegree ≤ 2 * Fintype.card F :=
      (natDegree_X_pow_le _).trans (by omega)
    have a6 : (C A * X ^ 2 : F[X]).natDegree ≤ 2 * Fintype.card F :=
      (natDegree_C_mul_X_pow_le _ _).trans (by omega)
    have a7 : (X ^ 3 : F[X]).natDegree ≤ 2 * Fintype.card F :=
      (natDegree_X_pow_le _).trans (by omega)
    have sub : ∀ {u v : F[X]}, u.natDegree ≤ 2 * Fintype.card F → v.natDegree ≤ 2 * Fintype.card F →
      (u - v).natDegree ≤ 2 * Fintype.card F := fun h h' => by simpa using natDegree_sub_le_of_le h h'
    have add : ∀ {u v : F[X]}, u.natDegree ≤ 2 * Fintype.card F → v.natDegree ≤ 2 * Fintype.card F →
      (u + v).natDegree ≤ 2 * Fintype.card F := fun h h' => natDegree_add_le_of_degree_le h h'
    exact sub (sub (add (add (add (add a1 a2) a3) a4) a5) a6) a7
  rw [e, natDegree_add_eq_left_of_natDegree_lt, natDegree_X_pow]
  rw [natDegree_X_pow]
  omega

theorem X_pow_sub (F : Type) [Field F] [Fintype F] :
    (X ^ Fintype.card F - X : F[X]) = ∏ a : F, (X - C a) := by
  have hm : (X ^ Fintype.card F - X : F[X]).Monic := by
    apply monic_X_pow_sub
    rw [degree_X]
    exact_mod_cast Fintype.one_lt_card
  have hc : (X ^ Fintype.card F - X : F[X]).roots.card = (X ^ Fintype.card F - X : F[X]).natDegree := by
    rw [FiniteField.roots_X_pow_card_sub_X, FiniteField.X_pow_card_sub_X_natDegree_eq _ Fintype.one_lt_card]
    rfl
  have := prod_multiset_X_sub_C_of_monic_of_roots_card_eq hm hc
  rw [← this, FiniteField.roots_X_pow_card_sub_X]
  rfl

/-- The common factor of numerator and denominator. -/
noncomputable def cf (A : F) : F[X] := ∏ a : F, (X - C a) ^ (2 - cnt A a)

/-- The reduced denominator. -/
noncomputable def den (A : F) : F[X] := ∏ a : F, (X - C a) ^ cnt A a

theorem cf_mul_den (h2 : (2 : F) ≠ 0) (A : F) : cf A * den A = (X ^ Fintype.card F - X) ^ 2 := by
  rw [cf, den, ← Finset.prod_mul_distrib, X_pow_sub, ← Finset.prod_pow]
  refine Finset.prod_congr rfl fun a _ => ?_
  rw [← pow_add, Nat.sub_add_cancel (cnt_le h2 A a)]

theorem X_sub_dvd (a : F) : (X - C a) ∣ (X ^ Fintype.card F - X : F[X]) := by
  rw [X_pow_sub]; exact Finset.dvd_prod_of_mem _ (Finset.mem_univ a)

theorem cf_dvd (h2 : (2 : F) ≠ 0) (A : F) : cf A ∣ num A := by
  obtain ⟨m, hm, hq, hq2⟩ := odd_card h2
  refine Finset.prod_dvd_of_coprime ?_ ?_
  · intro a _ b _ hab
    exact (isCoprime_X_sub_C_of_isUnit_sub (sub_ne_zero.2 hab).isUnit).pow
  · intro a _
    have hle : (X - C a) ^ (2 - cnt A a) ∣ (X ^ Fintype.card F - X : F[X]) ^ 2 :=
      (pow_dvd_pow _ (Nat.sub_le _ _)).trans (pow_dvd_pow_of_dvd (X_sub_dvd a) 2)
    unfold num
    refine dvd_sub ?_ (hle.mul_left _)
    rcases cnt_cases h2 A a with ⟨h, hc⟩ | ⟨_, _, hc⟩ | ⟨h, hc⟩
    · rw [hc, pow_one]
      exact (dvd_iff_isRoot.2 h).mul_right _
    · rw [hc]; simp
    · rw [hc]
      refine Dvd.dvd.mul_left (pow_dvd_pow_of_dvd (dvd_iff_isRoot.2 ?_) 2) _
      simp [h]

theorem cf_natDegree (A : F) : (cf A).natDegree = ∑ a : F, (2 - cnt A a) := by
  rw [cf, natDegree_prod_of_monic _ _ (fun a _ => (monic_X_sub_C a).pow _)]
  refine Finset.sum_congr rfl fun a _ => ?_
  rw [natDegree_pow, natDegree_X_sub_C, mul_one]

theorem den_natDegree (A : F) : (den A).natDegree = ∑ a : F, cnt A a := by
  rw [den, natDegree_prod_of_monic _ _ (fun a _ => (monic_X_sub_C a).pow _)]
  refine Finset.sum_congr rfl fun a _ => ?_
  rw [natDegree_pow, natDegree_X_sub_C, mul_one]

theorem cf_ne_zero (A : F) : cf A ≠ 0 := (monic_prod_of_monic _ _ (fun a _ => (monic_X_sub_C a).pow _)).ne_zero

/-- The reduced numerator has degree the number of points of the curve. -/
theorem exists_num' (h2 : (2 : F) ≠ 0) {A : F} (hA : A ^ 2 ≠ 4) :
    ∃ n : F[X], num A = cf A * n ∧ IsCoprime n (den A) ∧ n.natDegree = Nat.card (W A).Point ∧
      (den A).natDegree < Nat.card (W A).Point := by
  obtain ⟨m, hm, hq, hq2⟩ := odd_card h2
  obtain ⟨n, hn⟩ := cf_dvd h2 A
  have hden : (den A).natDegree < Nat.card (W A).Point := by
    rw [den_natDegree, card_points h2 hA]; omega
  refine ⟨n, hn, ?_, ?_, hden⟩
  · unfold den
    refine IsCoprime.prod_right fun a _ => ?_
    by_cases hc0 : cnt A a = 0
    · rw [hc0, pow_zero]; exact isCoprime_one_right
    refine IsCoprime.pow_right (IsCoprime.symm ?_)
    rw [Irreducible.coprime_iff_not_dvd (irreducible_X_sub_C a)]
    intro hd
    have hX := X_sub_dvd a
    have hXe : (X ^ Fintype.card F - X : F[X]).eval a = 0 := dvd_iff_isRoot.1 hX
    rcases cnt_cases h2 A a with ⟨h, hc⟩ | ⟨h, h1, hc⟩ | ⟨h, hc⟩
    · have hcf : (X - C a) ∣ cf A := by
        have : (X - C a) ^ (2 - cnt A a) ∣ cf A := Finset.dvd_prod_of_mem _ (Finset.mem_univ a)
        rwa [hc, pow_one] at this
      have hsq : (X - C a) ^ 2 ∣ num A := by rw [hn, pow_two]; exact mul_dvd_mul hcf hd
      have hsq' : (X - C a) ^ 2 ∣ rhs A * (rhs A ^ (Fintype.card F / 2) + 1) ^ 2 := by
        have := dvd_add hsq ((pow_dvd_pow_of_dvd hX 2).mul_left (C A + X + X ^ Fintype.card F))
        unfold num at this
        rwa [sub_add_cancel] at this
      have hcop : IsCoprime ((X - C a) ^ 2) ((rhs A ^ (Fintype.card F / 2) + 1) ^ 2) := by
        refine IsCoprime.pow ?_
        rw [Irreducible.coprime_iff_not_dvd (irreducible_X_sub_C a)]
        intro hd'
        have := dvd_iff_isRoot.1 hd'
        simp [h, hq2, show m ≠ 0 by omega] at this
      obtain ⟨k, hk⟩ := hcop.dvd_of_dvd_mul_right hsq'
      have hder : (derivative (rhs A)).eval a = 0 := by
        rw [hk]; simp [derivative_mul, derivative_pow]
      have hder' : (derivative (rhs A)).eval a = 3 * a ^ 2 + 2 * A * a + 1 := by
        simp [rhs, derivative_mul, derivative_pow]; ring
      rw [hder'] at hder
      rw [rhs_eval] at h
      have hfac : a * (a ^ 2 + A * a + 1) = 0 := by linear_combination h
      rcases mul_eq_zero.1 hfac with ha | ha
      · rw [ha] at hder; simp at hder
      · have h3 : a * (2 * a + A) = 0 := by linear_combination hder - ha
        rcases mul_eq_zero.1 h3 with ha' | ha'
        · rw [ha'] at ha; simp at ha
        · apply hA
          have : A = -2 * a := by linear_combination ha'
          rw [this] at ha ⊢
          linear_combination (-4) * ha
    · have hne : (num A).eval a ≠ 0 := by
        unfold num
        simp only [eval_sub, eval_mul, eval_pow, eval_add, eval_one, h1]
        have : (X ^ Fintype.card F - X : F[X]).eval a = 0 := hXe
        simp only [eval_sub, eval_pow, eval_X] at this
        simp only [eval_X, this]
        have h4 : (1 + 1 : F) ≠ 0 := by rwa [one_add_one_eq_two]
        simp [h, h4]
      apply hne
      rw [hn, eval_mul, dvd_iff_isRoot.1 hd, mul_zero]
    · exact hc0 hc
  · have hd := num_natDegree h2 A
    have hn0 : n ≠ 0 := by
      rintro rfl
      rw [hn, mul_zero] at hd
      simp at hd
    rw [hn, natDegree_mul (cf_ne_zero A) hn0, cf_natDegree] at hd
    have hs : ∑ a : F, (2 - cnt A a) + ∑ a : F, cnt A a = 2 * Fintype.card F := by
      rw [← Finset.sum_add_distrib]
      have : ∀ a ∈ Finset.univ, 2 - cnt A a + cnt A a = 2 := fun a _ => Nat.sub_add_cancel (cnt_le h2 A a)
      rw [Finset.sum_congr rfl this]
      simp [mul_comm]
    rw [card_points h2 hA]
    omega

end base

section main

variable {F L : Type} [Field F] [Fintype F] [DecidableEq F] [Field L] [DecidableEq L] {ψ : F[X] →+* L}

/-- The points `P₀` and `Q`. -/
theorem exists_points [IsAlgClosed L] (hψ : Function.Injective ψ) (h2 : (2 : F) ≠ 0) {A : F} (hA : A ^ 2 ≠ 4) :
    ∃ P Q : (W (ψ (C A))).Point, Rep ⟨ψ X, 1⟩ Q ∧ Rep ⟨ψ X ^ Fintype.card F, 1⟩ P ∧
      Good ψ P (Fintype.card F) ∧ Good ψ (P - Q) (Nat.card (W A).Point) := by
  obtain ⟨m, hm, hq, hq2⟩ := odd_card h2
  have h2L : (2 : L) ≠ 0 := by
    have : ψ (C 2) ≠ 0 := by rw [map_ne_zero_iff ψ hψ]; simpa using h2
    simpa [map_ofNat] using this
  have hAL : ψ (C A) ^ 2 ≠ 4 := by
    intro h
    apply hA
    have : ψ (C (A ^ 2)) = ψ (C 4) := by rw [C_pow, map_pow, h]; simp [map_ofNat]
    exact C_injective (hψ this)
  obtain ⟨y, hy⟩ := IsAlgClosed.exists_pow_nat_eq (ψ (rhs A)) (n := 2) (by norm_num)
  have hy' : y ^ 2 = ψ X ^ 3 + ψ (C A) * ψ X ^ 2 + ψ X := by rw [hy]; simp [rhs]
  have hyq : (y ^ Fintype.card F) ^ 2 = (ψ X ^ Fintype.card F) ^ 3 +
      ψ (C A) * (ψ X ^ Fintype.card F) ^ 2 + ψ X ^ Fintype.card F := by
    rw [← pow_mul, mul_comm, pow_mul, hy, ← map_pow, rhs_pow]
    simp [map_add, map_mul, map_pow]
  have hnQ := W_nonsingular h2L hAL hy'
  have hnP := W_nonsingular h2L hAL hyq
  refine ⟨.some _ _ hnP, .some _ _ hnQ, rep_xr _, rep_xr _, ?_, ?_⟩
  · refine ⟨X ^ Fintype.card F, 1, isCoprime_one_right, ?_, natDegree_X_pow_le _, by simp, by simp, ?_⟩
    · rw [map_one, map_pow]; exact rep_xr _
    · rw [coeff_one, if_neg]; omega
  · obtain ⟨n, hn, hcop, hdeg, hden⟩ := exists_num' h2 hA
    refine ⟨n, den A, hcop, ?_, hdeg.le, hden.le, ?_, coeff_eq_zero_of_natDegree_lt hden⟩
    · have hG : ψ (cf A) ≠ 0 := by rw [map_ne_zero_iff ψ hψ]; exact cf_ne_zero A
      have hx : ψ X ^ Fintype.card F ≠ ψ X := by
        intro h
        have : (X ^ Fintype.card F - X : F[X]) = 0 := hψ (by simp [h])
        exact FiniteField.X_pow_card_sub_X_ne_zero F Fintype.one_lt_card this
      have hneg : -(.some _ _ hnQ : (W (ψ (C A))).Point) =
          .some (ψ X) (-y) (by simpa using (WeierstrassCurve.Affine.nonsingular_neg (W' := W (ψ (C A))) _ _).2 hnQ) := by
        rw [WeierstrassCurve.Affine.Point.neg_some]; congr 1; simp
      rw [sub_eq_add_neg, hneg, WeierstrassCurve.Affine.Point.add_of_X_ne hx]
      refine Rep.peq (p := ⟨ψ (num A), ψ ((X ^ Fintype.card F - X) ^ 2)⟩) ?_
        (PEq.symm ⟨ψ (cf A), hG, ?_, ?_⟩)
      · rw [rep_some_iff]
        have hd : ψ X ^ Fintype.card F - ψ X ≠ 0 := sub_ne_zero.2 hx
        refine ⟨by simpa using hd, ?_⟩
        simp only
        rw [WeierstrassCurve.Affine.slope_of_X_ne hx]
        simp only [WeierstrassCurve.Affine.addX, W_a1, W_a2, map_pow, map_sub]
        have hyy : (y ^ Fintype.card F - -y) ^ 2 = ψ (rhs A) * (ψ (rhs A) ^ m + 1) ^ 2 := by
          rw [← hy, hq]; ring
        unfold num
        simp only [map_sub, map_mul, map_add, map_pow, map_one, hq2]
        rw [← hyy]
        field_simp
        ring
      · simp only; rw [hn, map_mul]
      · simp only; rw [← cf_mul_den h2 A, map_mul]
    · rw [← hdeg]
      refine leadingCoeff_ne_zero.2 ?_
      rintro rfl
      rw [natDegree_zero] at hdeg
      omega

theorem Good.neg {A : L} {P : (W A).Point} {d : ℕ} (h : Good ψ P d) : Good ψ (-P) d := by
  obtain ⟨f, g, h1, h2, h3⟩ := h
  exact ⟨f, g, h1, h2.neg, h3⟩

/-- The degree of the x-coordinate of `P₀ + n Q`. -/
theorem exists_degree [IsAlgClosed L] (hψ : Function.Injective ψ) (h2 : (2 : F) ≠ 0) {A : F} (hA : A ^ 2 ≠ 4) :
    ∃ P Q : (W (ψ (C A))).Point, Rep ⟨ψ X, 1⟩ Q ∧ Rep ⟨ψ X ^ Fintype.card F, 1⟩ P ∧
      ∀ n : ℤ, ∃ d : ℕ, Good ψ (P + n • Q) d ∧
        (d : ℤ) = n ^ 2 + (Fintype.card F + 1 - Nat.card (W A).Point) * n + Fintype.card F := by
  obtain ⟨P, Q, hQ, hP, h0, h1⟩ := exists_points hψ h2 hA
  refine ⟨P, Q, hQ, hP, ?_⟩
  set q := Fintype.card F
  set N := Nat.card (W A).Point
  have key : ∀ n : ℤ, (∃ d : ℕ, Good ψ (P + n • Q) d ∧ (d : ℤ) = n ^ 2 + (q + 1 - N) * n + q) ∧
      (∃ d : ℕ, Good ψ (P + (n - 1) • Q) d ∧ (d : ℤ) = (n - 1) ^ 2 + (q + 1 - N) * (n - 1) + q) := by
    intro n
    induction n using Int.induction_on with
    | zero =>
      refine ⟨⟨q, by simpa using h0, by ring⟩, ⟨N, ?_, by ring⟩⟩
      simpa [sub_eq_add_neg] using h1
    | succ n ih =>
      obtain ⟨⟨d, hd, ed⟩, ⟨d', hd', ed'⟩⟩ := ih
      have hs : P + ((n : ℤ) - 1) • Q = (P + (n : ℤ) • Q) - Q := by rw [sub_smul, one_smul]; abel
      rw [hs] at hd'
      obtain ⟨d'', hd'', e⟩ := hd.step hψ h2 hA hQ hd'
      refine ⟨⟨d'', ?_, ?_⟩, ⟨d, by simpa using hd, ?_⟩⟩
      · rw [add_smul, one_smul, ← add_assoc]; exact hd''
      · have : (d'' : ℤ) + d' = 2 * d + 2 := by exact_mod_cast e
        rw [ed, ed'] at this
        linear_combination this
      · rw [ed]; ring
    | pred n ih =>
      obtain ⟨⟨d, hd, ed⟩, ⟨d', hd', ed'⟩⟩ := ih
      have hs : P + (-(n : ℤ)) • Q = (P + (-(n : ℤ) - 1) • Q) - (-Q) := by rw [sub_smul, one_smul]; abel
      rw [hs] at hd
      obtain ⟨d'', hd'', e⟩ := hd'.step hψ h2 hA hQ.neg hd
      refine ⟨⟨d', hd', ed'⟩, ⟨d'', ?_, ?_⟩⟩
      · have : P + (-(n : ℤ) - 1 - 1) • Q = (P + (-(n : ℤ) - 1) • Q) + -Q := by
          rw [sub_smul (-(n : ℤ) - 1), one_smul]; abel
        rw [this]; exact hd''
      · have : (d'' : ℤ) + d = 2 * d' + 2 := by exact_mod_cast e
        rw [ed, ed'] at this
        linear_combination this
  exact fun n => (key n).1

end main

section result

variable {F : Type} [Field F] [Fintype F] [DecidableEq F]

/-- The field in which the generic points live. -/
abbrev Big (F : Type) [Field F] : Type := AlgebraicClosure (RatFunc F)

/-- Polynomials are elements of it. -/
noncomputable def toBig (F : Type) [Field F] : F[X] →+* Big F :=
  (algebraMap (RatFunc F) (Big F)).comp (algebraMap F[X] (RatFunc F))

theorem toBig_injective (F : Type) [Field F] : Function.Injective (toBig F) := by
  intro a b h
  exact RatFunc.algebraMap_injective F ((algebraMap (RatFunc F) (Big F)).injective h)

/-- **Hasse's bound** for Montgomery curves over a field with `p²` elements. -/
theorem hasse (h2 : (2 : F) ≠ 0) {A : F} (hA : A ^ 2 ≠ 4) {p : ℕ} (hp : Fintype.card F = p ^ 2) :
    (p - 1) ^ 2 ≤ Nat.card (W A).Point ∧ Nat.card (W A).Point ≤ (p + 1) ^ 2 := by
  classical
  obtain ⟨P, Q, _, _, h⟩ := exists_degree (toBig_injective F) h2 hA
  have hp0 : 0 < p := by
    rcases Nat.eq_zero_or_pos p with rfl | h
    · have := Fintype.card_pos (α := F); omega
    · exact h
  obtain ⟨d, _, hd⟩ := h p
  obtain ⟨d', _, hd'⟩ := h (-p)
  have n1 : (0 : ℤ) ≤ d := Int.natCast_nonneg d
  have n2 : (0 : ℤ) ≤ d' := Int.natCast_nonneg d'
  rw [hd, hp] at n1
  rw [hd', hp] at n2
  push_cast at n1 n2
  have hpz : (0 : ℤ) < p := by exact_mod_cast hp0
  generalize Nat.card (W A).Point = N at *
  constructor
  · have : (0 : ℤ) ≤ p * (N - (p - 1) ^ 2) := by nlinarith
    have := nonneg_of_mul_nonneg_right this hpz
    obtain ⟨k, rfl⟩ : ∃ k, p = k + 1 := ⟨p - 1, by omega⟩
    rw [Nat.add_sub_cancel]
    push_cast at this
    have h3 : ((k ^ 2 : ℕ) : ℤ) ≤ N := by push_cast; nlinarith
    exact_mod_cast h3
  · have : (0 : ℤ) ≤ p * ((p + 1) ^ 2 - N) := by nlinarith
    have := nonneg_of_mul_nonneg_right this hpz
    have h3 : (N : ℤ) ≤ ((p + 1) ^ 2 : ℕ) := by push_cast; linarith
    exact_mod_cast h3

/-- Multiplication by `n` on x-coordinates, as a pair of polynomials valid at every point with nonzero
x-coordinate over every extension. -/
theorem exists_mul (h2 : (2 : F) ≠ 0) (A : F) (n : ℕ) : ∃ f g : F[X], ∀ (K : Type) [Field K] [DecidableEq K]
    (θ : F[X] →+* K) (a : K), θ (C A) = a → ∀ R : (W a).Point, θ X ≠ 0 → Rep ⟨θ X, 1⟩ R →
      Rep ⟨θ f, θ g⟩ (n • R) := by
  have h2K : ∀ (K : Type) [Field K] (θ : F[X] →+* K), (2 : K) ≠ 0 := by
    intro K _ θ h
    have : θ (C 2 * C 2⁻¹) = 0 := by
      rw [map_mul, show (C 2 : F[X]) = 2 from rfl, map_ofNat, h, zero_mul]
    rw [← C_mul, mul_inv_cancel₀ h2, C_1, map_one] at this
    exact one_ne_zero this
  induction n using Nat.strong_induction_on with
  | _ n ih =>
  rcases Nat.even_or_odd' n with ⟨m, rfl | rfl⟩
  · rcases Nat.eq_zero_or_pos m with rfl | hm
    · refine ⟨1, 0, ?_⟩
      intro K _ _ θ a ha R hx hR
      rw [mul_zero, zero_smul, rep_zero_iff]; simp
    · obtain ⟨f, g, hfg⟩ := ih m (by omega)
      refine ⟨(f ^ 2 - g ^ 2) ^ 2, 4 * f * g * (f ^ 2 + C A * f * g + g ^ 2), ?_⟩
      intro K _ _ θ a ha R hx hR
      have h := xDBL_rep (h2K K θ) (A := a) (a := a + 2) (c := 4) ⟨1, one_ne_zero, by ring, by ring⟩
        (hfg K θ a ha R hx hR)
      rw [mul_nsmul']
      have h4 := mul_ne_zero (h2K K θ) (h2K K θ)
      refine h.peq (PEq.symm ⟨2 * 2, h4, ?_, ?_⟩)
      · simp only [xDBL, map_pow, map_sub]; ring
      · simp only [xDBL, map_pow, map_mul, map_add, map_ofNat, ha]; ring
  · rcases Nat.eq_zero_or_pos m with rfl | hm
    · refine ⟨X, 1, ?_⟩
      intro K _ _ θ a ha R hx hR
      simpa using hR
    · obtain ⟨f, g, hfg⟩ := ih (m + 1) (by omega)
      obtain ⟨f', g', hfg'⟩ := ih m (by omega)
      refine ⟨(f * f' - g * g') ^ 2, (f * g' - f' * g) ^ 2 * X, ?_⟩
      intro K _ _ θ a ha R hx hR
      have e1 : (2 * m + 1) • R = (m + 1) • R + m • R := by rw [← add_nsmul]; congr 1; ring
      have e2 : (m + 1) • R - m • R = R := by rw [add_nsmul, one_nsmul, add_sub_cancel_left]
      have hp := hfg K θ a ha R hx hR
      have hq := hfg' K θ a ha R hx hR
      obtain ⟨c, hc, h0, h1, h2'⟩ := hp.as (h2K K θ) hq (rep_xr ((m + 1) • R + m • R)) (by rw [e2]; exact hR)
      rw [e1]
      simp only [b0, b2] at h0 h2'
      refine ⟨c * θ X, mul_ne_zero hc hx, ?_, ?_⟩
      · simp only [map_pow, map_sub, map_mul]
        rw [h0]; ring
      · simp only [map_pow, map_sub, map_mul]
        rw [h2']; ring

/-- When the curve has `(p + 1)²` or `(p - 1)²` points, the `p²`-power Frobenius acts as multiplication by `p` up to sign,
on every point over every extension. -/
theorem frobenius_x_of (h2 : (2 : F) ≠ 0) {A : F} (hA : A ^ 2 ≠ 4) {p : ℕ} (hp : Fintype.card F = p ^ 2)
    (hodd : ¬ 2 ∣ p) (hN : Nat.card (W A).Point = (p + 1) ^ 2 ∨ Nat.card (W A).Point = (p - 1) ^ 2)
    {K : Type} [Field K] [DecidableEq K] (φ : F →+* K)
    (x y : K) (hn : (W (φ A)).Nonsingular x y) :
    Rep ⟨x ^ Fintype.card F, 1⟩ (p • (.some x y hn : (W (φ A)).Point)) := by
  classical
  have h2K : (2 : K) ≠ 0 := by
    have : φ 2 ≠ 0 := (map_ne_zero φ).2 h2
    simpa [map_ofNat] using this
  obtain ⟨f, g, hfg⟩ := exists_mul h2 A p
  by_cases hx : x = 0
  · subst hx
    have hy : y = 0 := by
      have := (W_equation _ _ _).1 hn.1
      simpa using this
    subst hy
    have h20 : (2 : ℕ) • (.some 0 0 hn : (W (φ A)).Point) = 0 := by
      have := xDBL_rep h2K (A := φ A) (a := φ A + 2) (c := 4) ⟨1, one_ne_zero, by ring, by ring⟩
        (rep_xr (.some 0 0 hn : (W (φ A)).Point))
      rw [← this.Z_iff]; simp [xDBL]
    obtain ⟨k, rfl⟩ : ∃ k, p = 2 * k + 1 := ⟨p / 2, by omega⟩
    have hp0 : Fintype.card F ≠ 0 := Fintype.card_ne_zero
    rw [add_nsmul, one_nsmul, mul_nsmul, h20, smul_zero, zero_add, zero_pow hp0]
    exact rep_xr _
  obtain ⟨P, Q, hQ, hP, h⟩ := exists_degree (toBig_injective F) h2 hA
  have key : ∀ n : ℤ, n ^ 2 + (Fintype.card F + 1 - Nat.card (W A).Point) * n + Fintype.card F = 0 → P + n • Q = 0 := by
    intro n hn0
    obtain ⟨d, ⟨f', g', _, hr, _, hgd, _, hg⟩, hd⟩ := h n
    have hd0 : d = 0 := by
      rw [hn0] at hd
      exact_mod_cast hd
    subst hd0
    have hg0 : g' = 0 := by
      rw [eq_C_of_natDegree_le_zero hgd, hg, C_0]
    rw [← hr.Z_iff, hg0, map_zero]
  have hX0 : toBig F X ≠ 0 := by
    rw [map_ne_zero_iff _ (toBig_injective F)]; exact X_ne_zero
  have h1 := hfg (Big F) (toBig F) _ rfl Q hX0 hQ
  have h3 : Rep ⟨toBig F X ^ Fintype.card F, 1⟩ (p • Q) := by
    rcases hN with hN | hN
    · have hz := key p (by rw [hN, hp]; push_cast; ring)
      rw [natCast_zsmul] at hz
      have := hP.neg
      rwa [eq_neg_of_add_eq_zero_left hz, neg_neg] at this
    · have hp1 : 1 ≤ p := by omega
      have hz := key (-p) (by rw [hN, hp]; push_cast [Nat.cast_sub hp1]; ring)
      rw [neg_smul, natCast_zsmul, ← sub_eq_add_neg, sub_eq_zero] at hz
      rwa [hz] at hP
  have hcross := (h3.unique h1).cross
  simp only [one_mul, mul_one] at hcross
  have hpoly : X ^ Fintype.card F * g = f := by
    apply toBig_injective F
    rw [map_mul, map_pow, hcross]
  have hx1 : (eval₂RingHom φ x) X = x := by simp
  have hs := hfg K (eval₂RingHom φ x) (φ A) (by simp) (.some x y hn) (by rwa [hx1]) (by rw [hx1]; exact rep_xr _)
  refine hs.peq (peq_of_cross hs.nz (Or.inr one_ne_zero) ?_)
  rw [← hpoly]
  simp

/-- The same for `(p + 1)²` points. -/
theorem frobenius_x (h2 : (2 : F) ≠ 0) {A : F} (hA : A ^ 2 ≠ 4) {p : ℕ} (hp : Fintype.card F = p ^ 2)
    (hodd : ¬ 2 ∣ p) (hN : Nat.card (W A).Point = (p + 1) ^ 2) {K : Type} [Field K] [DecidableEq K] (φ : F →+* K)
    (x y : K) (hn : (W (φ A)).Nonsingular x y) :
    Rep ⟨x ^ Fintype.card F, 1⟩ (p • (.some x y hn : (W (φ A)).Point)) :=
  frobenius_x_of h2 hA hp hodd (.inl hN) φ x y hn

end result

end Secuer.Curve.Manin
