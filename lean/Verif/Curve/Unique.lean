import Verif.Curve.Lift
import Verif.Curve.Models
import Mathlib.Algebra.Polynomial.Roots

/-!
# An isogeny is determined by its kernel

`Isog d A B g ψ`: `ψ` is a surjective homomorphism of the groups of points of the curves `A` and `B`, with
kernel of order `d`, and it acts on x-coordinates by the pair `g` of forms of degree `d`.  Two such maps out
of the same curve with the same kernel differ by a change of model of the target: `Isog.unique`.
-/

namespace Secuer.Curve

open Secuer.Mont Polynomial

variable {K : Type} [Field K] [DecidableEq K] [IsAlgClosed K]

structure Isog (d : ℕ) (A B : K) (g : Pt K → Pt K) (ψ : (W A).Point →+ (W B).Point) : Prop where
  src : A ^ 2 ≠ 4
  tgt : B ^ 2 ≠ 4
  surj : Function.Surjective ψ
  rep : ∀ R r, Rep r R → Rep (g r) (ψ R)
  forms : DefOver (RingHom.id K) d g
  card : Nat.card ψ.ker = d
  pos : 0 < d

omit [DecidableEq K] [IsAlgClosed K] in
/-- A form in two variables, coefficient by coefficient. -/
theorem form_eval {d : ℕ} {N : MvPolynomial (Fin 2) K} (hN : N.IsHomogeneous d) :
    ∃ c : ℕ → K, ∀ x z, N.eval₂ (RingHom.id K) ![x, z] = ∑ i ∈ Finset.range (d + 1), c i * x ^ i * z ^ (d - i) := by
  have hfs : ∀ m ∈ N.support, m 0 + m 1 = d := by
    intro m hm
    have := hN (MvPolynomial.mem_support_iff.1 hm)
    simpa [Finsupp.weight_apply, Finsupp.sum_fintype, Fin.sum_univ_two] using this
  refine ⟨fun i => ∑ m ∈ N.support with m 0 = i, N.coeff m, fun x z => ?_⟩
  rw [MvPolynomial.eval₂_eq']
  have hmap : ∀ m ∈ N.support, m 0 ∈ Finset.range (d + 1) := by
    intro m hm
    have := hfs m hm
    rw [Finset.mem_range]; omega
  rw [← Finset.sum_fiberwise_of_maps_to hmap]
  refine Finset.sum_congr rfl fun i _ => ?_
  rw [Finset.sum_mul, Finset.sum_mul]
  refine Finset.sum_congr rfl fun m hm => ?_
  obtain ⟨h1, h2⟩ := Finset.mem_filter.1 hm
  have h3 := hfs m h1
  have h4 : m 1 = d - i := by omega
  rw [Fin.prod_univ_two, h2, h4]
  simp only [RingHom.id_apply, Matrix.cons_val_zero, Matrix.cons_val_one]
  ring

omit [DecidableEq K] [IsAlgClosed K] in
theorem forms_poly {d : ℕ} {g : Pt K → Pt K} (hd : DefOver (RingHom.id K) d g) :
    ∃ n δ : K[X], n.natDegree ≤ d ∧ δ.natDegree ≤ d ∧ g ⟨1, 0⟩ = ⟨n.coeff d, δ.coeff d⟩ ∧
      ∀ x, g ⟨x, 1⟩ = ⟨n.eval x, δ.eval x⟩ := by
  obtain ⟨N, D, hN, hD, hg⟩ := hd
  have aux : ∀ {M : MvPolynomial (Fin 2) K}, M.IsHomogeneous d → ∃ m : K[X], m.natDegree ≤ d ∧
      M.eval₂ (RingHom.id K) ![1, 0] = m.coeff d ∧ ∀ x, M.eval₂ (RingHom.id K) ![x, 1] = m.eval x := by
    intro M hM
    obtain ⟨c, hc⟩ := form_eval hM
    refine ⟨∑ i ∈ Finset.range (d + 1), Polynomial.C (c i) * X ^ i, ?_, ?_, fun x => ?_⟩
    · refine natDegree_sum_le_of_forall_le _ _ fun i hi => ?_
      have := Finset.mem_range.1 hi
      exact (natDegree_C_mul_X_pow_le _ _).trans (by omega)
    · rw [hc, finset_sum_coeff]
      refine Finset.sum_congr rfl fun i hi => ?_
      rw [coeff_C_mul, coeff_X_pow]
      have := Finset.mem_range.1 hi
      by_cases h : d = i
      · simp [h]
      · rw [if_neg h, zero_pow (by omega), mul_zero, mul_zero]
    · rw [hc, eval_finset_sum]
      simp
  obtain ⟨n, n1, n2, n3⟩ := aux hN
  obtain ⟨δ, d1, d2, d3⟩ := aux hD
  exact ⟨n, δ, n1, d1, by rw [hg]; simp only [n2, d2], fun x => by rw [hg]; simp only [n3, d3]⟩

variable {A B C : K} {d : ℕ}

/-- The polynomials of an isogeny. -/
theorem Isog.polys {g : Pt K → Pt K} {ψ : (W A).Point →+ (W B).Point} (h : Isog d A B g ψ) :
    ∃ n δ : K[X], n.natDegree ≤ d ∧ δ.natDegree < d ∧ n.coeff d ≠ 0 ∧ g ⟨1, 0⟩ = ⟨n.coeff d, 0⟩ ∧
      (∀ x, g ⟨x, 1⟩ = ⟨n.eval x, δ.eval x⟩) := by
  obtain ⟨n, δ, h1, h2, h3, h4⟩ := forms_poly h.forms
  have h0 := h.rep 0 ⟨1, 0⟩ (rep_xr _)
  rw [map_zero, rep_zero_iff, h3] at h0
  simp only at h0
  refine ⟨n, δ, h1, ?_, h0.2, by rw [h3, h0.1], h4⟩
  refine lt_of_le_of_ne h2 fun he => ?_
  have hd := h.pos
  have := h0.1
  rw [← he] at this
  have hz : δ = 0 := leadingCoeff_eq_zero.1 this
  rw [hz, natDegree_zero] at he
  omega

/-- The fibre of the x-coordinate map over the image of a point whose double is outside the kernel. -/
theorem Isog.fibre {g : Pt K → Pt K} {ψ : (W A).Point →+ (W B).Point} (h : Isog d A B g ψ) {n δ : K[X]}
    (h1 : n.natDegree ≤ d) (h2 : δ.natDegree < d) (hg : ∀ x, g ⟨x, 1⟩ = ⟨n.eval x, δ.eval x⟩)
    {S : (W A).Point} (hS : (2 : ℕ) • S ∉ ψ.ker) :
    ∃ c, xr (ψ S) = ⟨c, 1⟩ ∧ n - Polynomial.C c * δ = Polynomial.C (n.coeff d) *
      ∏ᶠ t : ψ.ker, (X - Polynomial.C (xr (S + (t : (W A).Point))).X) := by
  classical
  have hfin : Finite ψ.ker := Nat.finite_of_card_ne_zero (by rw [h.card]; exact h.pos.ne')
  have := Fintype.ofFinite ψ.ker
  have hS0 : ψ S ≠ 0 := fun h0 => hS (by rw [AddMonoidHom.mem_ker, map_nsmul, h0, nsmul_zero])
  obtain ⟨c, hc⟩ : ∃ c, xr (ψ S) = ⟨c, 1⟩ := by
    generalize ψ S = T at hS0
    cases T with
    | zero => exact absurd rfl hS0
    | some x y hn => exact ⟨x, rfl⟩
  refine ⟨c, hc, ?_⟩
  have hx : ∀ t : ψ.ker, xr (S + (t : (W A).Point)) = ⟨(xr (S + (t : (W A).Point))).X, 1⟩ := by
    intro t
    have hne : S + (t : (W A).Point) ≠ 0 := by
      intro h0
      apply hS0
      have := congrArg ψ h0
      rwa [map_add, (AddMonoidHom.mem_ker).1 t.2, add_zero, map_zero] at this
    generalize S + (t : (W A).Point) = T at hne
    cases T with
    | zero => exact absurd rfl hne
    | some x y hn => rfl
  have hroot : ∀ t : ψ.ker, (n - Polynomial.C c * δ).eval (xr (S + (t : (W A).Point))).X = 0 := by
    intro t
    have hr := h.rep _ _ (rep_xr (S + (t : (W A).Point)))
    rw [map_add, (AddMonoidHom.mem_ker).1 t.2, add_zero, Rep, hc, hx t, hg] at hr
    have := hr.cross
    simp only [one_mul, mul_one] at this
    rw [eval_sub, eval_mul, eval_C]
    linear_combination -this
  have hinj : Function.Injective (fun t : ψ.ker => (xr (S + (t : (W A).Point))).X) := by
    intro s t hst
    simp only at hst
    have : PEq (xr (S + (s : (W A).Point))) (xr (S + (t : (W A).Point))) := by rw [hx s, hx t, hst]; exact PEq.refl _
    rcases eq_or_neg_of_xr this with e | e
    · exact Subtype.ext (add_left_cancel e)
    · exfalso
      apply hS
      have : (2 : ℕ) • S = -((s : (W A).Point) + t) := by
        rw [two_nsmul]
        have h5 : S + (s : (W A).Point) + (S + (t : (W A).Point)) = 0 := by rw [e]; exact neg_add_cancel _
        have h6 : S + S + ((s : (W A).Point) + (t : (W A).Point)) = 0 := by rw [← h5]; abel
        exact eq_neg_of_add_eq_zero_left h6
      rw [this]
      exact neg_mem (add_mem s.2 t.2)
  rw [finprod_eq_prod_of_fintype]
  set P : K[X] := ∏ t : ψ.ker, (X - Polynomial.C (xr (S + (t : (W A).Point))).X) with hP
  have hmonic : P.Monic := monic_prod_of_monic _ _ fun t _ => monic_X_sub_C _
  have hPdeg : P.natDegree = d := by
    rw [hP, natDegree_prod_of_monic _ _ fun t _ => monic_X_sub_C _]
    simp only [natDegree_X_sub_C, Finset.sum_const, smul_eq_mul, mul_one]
    rw [← h.card, Nat.card_eq_fintype_card, Finset.card_univ]
  rw [← sub_eq_zero]
  by_contra hne
  set Q := n - Polynomial.C c * δ - Polynomial.C (n.coeff d) * P with hQ
  have hδc : δ.coeff d = 0 := coeff_eq_zero_of_natDegree_lt h2
  have hQc : Q.coeff d = 0 := by
    rw [hQ, coeff_sub, coeff_sub, coeff_C_mul, coeff_C_mul, hδc]
    have : P.coeff d = 1 := by rw [← hPdeg]; exact hmonic
    rw [this]; ring
  have hQd : Q.natDegree ≤ d := by
    refine (natDegree_sub_le _ _).trans (max_le ((natDegree_sub_le _ _).trans (max_le h1 ?_)) ?_)
    · exact (natDegree_C_mul_le _ _).trans h2.le
    · exact (natDegree_C_mul_le _ _).trans hPdeg.le
  have hQlt : Q.natDegree < d := by
    refine lt_of_le_of_ne hQd fun he => hne ?_
    rw [← he] at hQc
    exact leadingCoeff_eq_zero.1 hQc
  have hQroot : ∀ t : ψ.ker, (xr (S + (t : (W A).Point))).X ∈ Q.roots := by
    intro t
    rw [mem_roots hne, IsRoot, hQ, eval_sub, hroot, eval_mul, hP, eval_prod,
      Finset.prod_eq_zero (Finset.mem_univ t) (by simp), mul_zero, sub_zero]
  have hcard : d ≤ Q.roots.toFinset.card := by
    have : (Finset.univ.image (fun t : ψ.ker => (xr (S + (t : (W A).Point))).X)).card = d := by
      rw [Finset.card_image_of_injective _ hinj, Finset.card_univ, ← Nat.card_eq_fintype_card, h.card]
    rw [← this]
    refine Finset.card_le_card fun x hx => ?_
    obtain ⟨t, -, rfl⟩ := Finset.mem_image.1 hx
    exact Multiset.mem_toFinset.2 (hQroot t)
  have := (Multiset.toFinset_card_le Q.roots).trans (card_roots' Q)
  omega

/-- Two isogenies with the same kernel agree up to an affine change of coordinate. -/
theorem Isog.affine (h2 : (2 : K) ≠ 0) {f g : Pt K → Pt K} {ψ₁ : (W A).Point →+ (W B).Point}
    {ψ₂ : (W A).Point →+ (W C).Point} (hf : Isog d A B f ψ₁) (hg : Isog d A C g ψ₂) (hk : ψ₁.ker = ψ₂.ker) :
    ∃ r u : K, u ≠ 0 ∧ ∀ p, Nz p → PEq ⟨(f p).X - r * (f p).Z, u * (f p).Z⟩ (g p) := by
  classical
  obtain ⟨n₁, δ₁, a1, a2, a3, a4, a5⟩ := hf.polys
  obtain ⟨n₂, δ₂, b1, b2, b3, b4, b5⟩ := hg.polys
  have hfin : (ψ₁.ker : Set (W A).Point).Finite :=
    Set.finite_coe_iff.1 (Nat.finite_of_card_ne_zero (α := ψ₁.ker) (by rw [hf.card]; exact hf.pos.ne'))
  set G := hfin.toFinset with hG
  have hGm : ∀ t, t ∈ G ↔ t ∈ ψ₁.ker := fun t => by rw [hG, Set.Finite.mem_toFinset]; rfl
  obtain ⟨S, hS⟩ := exists_double_not_mem h2 hf.src G
  obtain ⟨S', hS'⟩ := exists_double_not_mem h2 hf.src
    (G ∪ (G.image (fun t => (2 : ℕ) • (S + t)) ∪ G.image (fun t => (2 : ℕ) • (-S + t))))
  simp only [Finset.mem_union, Finset.mem_image, not_or, not_exists, not_and] at hS'
  obtain ⟨hS1, hS2, hS3⟩ := hS'
  rw [hGm] at hS hS1
  obtain ⟨c₁, e1, p1⟩ := hf.fibre a1 a2 a5 hS
  obtain ⟨c₂, e2, p2⟩ := hg.fibre b1 b2 b5 (hk ▸ hS)
  obtain ⟨c₁', e1', p1'⟩ := hf.fibre a1 a2 a5 hS1
  obtain ⟨c₂', e2', p2'⟩ := hg.fibre b1 b2 b5 (hk ▸ hS1)
  have hprod : ∀ S : (W A).Point, (∏ᶠ t : ψ₂.ker, (X - Polynomial.C (xr (S + (t : (W A).Point))).X)) =
      ∏ᶠ t : ψ₁.ker, (X - Polynomial.C (xr (S + (t : (W A).Point))).X) := by
    intro S; rw [hk]
  rw [hprod] at p2 p2'
  have hne : c₁ ≠ c₁' := by
    intro he
    have : PEq (xr (ψ₁ S')) (xr (ψ₁ S)) := by rw [e1, e1', he]; exact PEq.refl _
    rcases eq_or_neg_of_xr this with e | e
    · refine hS2 (S' - S) ((hGm _).2 ?_) ?_
      · rw [AddMonoidHom.mem_ker, map_sub, e, sub_self]
      · rw [add_sub_cancel]
    · refine hS3 (S' + S) ((hGm _).2 ?_) ?_
      · rw [AddMonoidHom.mem_ker, map_add, e, neg_add_cancel]
      · congr 1; abel
  set ν₁ := n₁.coeff d
  set ν₂ := n₂.coeff d
  have q1 : Polynomial.C ν₂ * (n₁ - Polynomial.C c₁ * δ₁) = Polynomial.C ν₁ * (n₂ - Polynomial.C c₂ * δ₂) := by
    rw [p1, p2]; ring
  have q2 : Polynomial.C ν₂ * (n₁ - Polynomial.C c₁' * δ₁) = Polynomial.C ν₁ * (n₂ - Polynomial.C c₂' * δ₂) := by
    rw [p1', p2']; ring
  have q3 : ∀ x, ν₂ * (n₁.eval x - c₁ * δ₁.eval x) = ν₁ * (n₂.eval x - c₂ * δ₂.eval x) := fun x => by
    simpa using congrArg (eval x) q1
  have q4 : ∀ x, ν₂ * (n₁.eval x - c₁' * δ₁.eval x) = ν₁ * (n₂.eval x - c₂' * δ₂.eval x) := fun x => by
    simpa using congrArg (eval x) q2
  have q5 : ∀ x, ν₂ * (c₁ - c₁') * δ₁.eval x = ν₁ * (c₂ - c₂') * δ₂.eval x := fun x => by
    linear_combination q4 x - q3 x
  -- the denominators do not vanish at the point chosen
  obtain ⟨x, hx⟩ : ∃ x, xr S = ⟨x, 1⟩ := by
    have hS0 : S ≠ 0 := fun h0 => hS (by rw [h0, nsmul_zero]; exact zero_mem _)
    cases S with
    | zero => exact absurd rfl hS0
    | some x y hn => exact ⟨x, rfl⟩
  have hδ : δ₁.eval x ≠ 0 := by
    have := hf.rep _ _ (rep_xr S)
    rw [hx, a5, Rep, e1] at this
    intro h0
    have h1 := this.Z_iff.1 h0
    exact one_ne_zero h1
  have hc2 : c₂ - c₂' ≠ 0 := by
    intro h0
    have := q5 x
    rw [h0, mul_zero, zero_mul] at this
    exact (mul_ne_zero (mul_ne_zero b3 (sub_ne_zero.2 hne)) hδ) this
  have hc1 := sub_ne_zero.2 hne
  obtain ⟨u, hu⟩ : ∃ u, u = (c₁ - c₁') / (c₂ - c₂') := ⟨_, rfl⟩
  have hu0 : u ≠ 0 := by rw [hu]; exact div_ne_zero hc1 hc2
  have hu' : u * (c₂ - c₂') = c₁ - c₁' := by rw [hu]; field_simp
  refine ⟨c₁ - c₂ * u, u, hu0, fun p hp => ?_⟩
  have hδ2 : ∀ y, ν₁ * δ₂.eval y = ν₂ * u * δ₁.eval y := by
    intro y
    apply mul_right_cancel₀ hc2
    linear_combination -(q5 y) - ν₂ * δ₁.eval y * hu'
  have hn2 : ∀ y, ν₁ * n₂.eval y = ν₂ * (n₁.eval y - (c₁ - c₂ * u) * δ₁.eval y) := by
    intro y
    linear_combination -(q3 y) + c₂ * hδ2 y
  -- reduce to normal forms of the argument
  have hcongr : ∀ {p q : Pt K}, Nz p → PEq p q →
      PEq ⟨(f p).X - (c₁ - c₂ * u) * (f p).Z, u * (f p).Z⟩ (g p) →
      PEq ⟨(f q).X - (c₁ - c₂ * u) * (f q).Z, u * (f q).Z⟩ (g q) := by
    intro p q hp hpq h
    obtain ⟨P, hP⟩ := exists_rep (A := A) h2 hf.src hp
    obtain ⟨k, hk0, k1, k2⟩ := (hf.rep _ _ (hP.peq hpq)).unique (hf.rep _ _ hP)
    have hg' := (hg.rep _ _ hP).unique (hg.rep _ _ (hP.peq hpq))
    refine (PEq.trans ?_ h).trans hg'
    exact ⟨k, hk0, by simp only [k1, k2]; ring, by simp only [k2]; ring⟩
  by_cases hz : p.Z = 0
  · refine hcongr (p := ⟨1, 0⟩) (Or.inl one_ne_zero) ⟨p.X, hp.resolve_right (not_not.2 hz), by simp, by simp [hz]⟩ ?_
    rw [a4, b4]
    exact ⟨ν₂ / ν₁, div_ne_zero b3 a3, by simp only [mul_zero, sub_zero]; field_simp, by simp⟩
  · refine hcongr (p := ⟨p.X / p.Z, 1⟩) (Or.inr one_ne_zero) ⟨p.Z, hz, by field_simp, by simp⟩ ?_
    rw [a5, b5]
    refine ⟨ν₂ / ν₁, div_ne_zero b3 a3, ?_, ?_⟩
    · apply mul_left_cancel₀ a3
      simp only
      rw [hn2]; field_simp
    · apply mul_left_cancel₀ a3
      simp only
      rw [hδ2]; field_simp

theorem ModelOK.isoX' {A : K} {i : Iso K} (h : ModelOK A i) (hA : A ^ 2 ≠ 4) : IsoX A i.B (evalIso i) := by
  have := h.isoX (RingHom.id K) hA
  simp only [RingHom.id_apply] at this
  exact this

/-- A point of order two from a root of the cubic. -/
theorem exists_two_torsion (h2 : (2 : K) ≠ 0) (hA : A ^ 2 ≠ 4) {t : K} (ht : t ^ 3 + A * t ^ 2 + t = 0) :
    ∃ T : (W A).Point, 2 • T = 0 ∧ xr T = ⟨t, 1⟩ := by
  have hn : (W A).Nonsingular t 0 := W_nonsingular h2 hA (by rw [ht]; ring)
  refine ⟨.some t 0 hn, ?_, rfl⟩
  rw [two_nsmul]
  have : -(WeierstrassCurve.Affine.Point.some t 0 hn : (W A).Point) = .some t 0 hn := by
    rw [WeierstrassCurve.Affine.Point.neg_some]
    simp
  nth_rewrite 2 [← this]
  exact add_neg_cancel _

/-- Two isogenies with the same kernel differ by a change of model of the target. -/
theorem Isog.unique (h2 : (2 : K) ≠ 0) {f g : Pt K → Pt K} {ψ₁ : (W A).Point →+ (W B).Point}
    {ψ₂ : (W A).Point →+ (W C).Point} (hf : Isog d A B f ψ₁) (hg : Isog d A C g ψ₂) (hk : ψ₁.ker = ψ₂.ker) :
    ∃ i : Iso K, i.B = C ∧ ModelOK B i ∧ ∀ p, Nz p → PEq (evalIso i (f p)) (g p) := by
  obtain ⟨r, u, hu, hp⟩ := hf.affine h2 hg hk
  -- points of order two
  have key : ∀ t : K, t ^ 3 + C * t ^ 2 + t = 0 → (u * t + r) ^ 3 + B * (u * t + r) ^ 2 + (u * t + r) = 0 := by
    intro t ht
    obtain ⟨T, hT, hTx⟩ := exists_two_torsion h2 hg.tgt ht
    obtain ⟨S, hS⟩ := exists_rep (A := B) h2 hf.tgt (p := ⟨u * t + r, 1⟩) (Or.inr one_ne_zero)
    obtain ⟨P, hP⟩ := hf.surj S
    have e1 := hf.rep _ _ (rep_xr P)
    rw [hP] at e1
    have e2 := hg.rep _ _ (rep_xr P)
    have e3 : PEq (f (xr P)) ⟨u * t + r, 1⟩ := e1.unique hS
    have e4 : PEq (⟨t, 1⟩ : Pt K) (g (xr P)) := by
      refine PEq.trans ?_ (hp _ (xr_nz P))
      obtain ⟨c, hc, k1, k2⟩ := e3.symm
      refine ⟨c * u, mul_ne_zero hc hu, ?_, ?_⟩
      · simp only [k1, k2]; ring
      · simp only [k2]; ring
    have e5 : Rep (g (xr P)) T := by rw [Rep, hTx]; exact e4
    have e6 : 2 • ψ₂ P = 0 := by
      rcases e2.eq_or_neg e5 with h | h
      · rw [h, hT]
      · rw [h, smul_neg, hT, neg_zero]
    have e7 : 2 • P ∈ ψ₁.ker := by
      rw [hk, AddMonoidHom.mem_ker, map_nsmul, e6]
    rw [AddMonoidHom.mem_ker, map_nsmul, hP] at e7
    rcases two_torsion_cases h2 e7 with h0 | ⟨x, hx, hx'⟩
    · rw [h0] at hS
      exact absurd ((rep_zero_iff _).1 hS).1 one_ne_zero
    · rw [Rep, hx] at hS
      have := hS.cross
      simp only [mul_one] at this
      rw [← this]
      rcases hx' with h | h
      · rw [h]; ring
      · linear_combination x * h
  obtain ⟨s, hs⟩ := IsAlgClosed.exists_root (X ^ 2 + Polynomial.C C * X + 1 : K[X]) (by
    have : (X ^ 2 + Polynomial.C C * X + 1 : K[X]).degree = 2 := by compute_degree!
    rw [this]; norm_num)
  simp only [IsRoot, eval_add, eval_pow, eval_X, eval_mul, eval_C, eval_one] at hs
  have hs0 : s ≠ 0 := by rintro rfl; simp at hs
  have hCs : C = -(s ^ 2 + 1) / s := by field_simp; linear_combination hs
  have hs1 : s ^ 2 ≠ 1 := by
    intro h
    apply hg.tgt
    rw [hCs, h]; field_simp; rw [h]; norm_num
  have k0 := key 0 (by ring)
  have k1 := key s (by linear_combination s * hs)
  have k2 := key s⁻¹ (by rw [hCs]; field_simp; ring)
  rw [mul_zero, zero_add] at k0
  have hss : s * s⁻¹ = 1 := mul_inv_cancel₀ hs0
  -- divided differences
  have d1 : (u * s) ^ 2 + 3 * r * (u * s) + 3 * r ^ 2 + B * (u * s + 2 * r) + 1 = 0 := by
    apply mul_left_cancel₀ (mul_ne_zero hu hs0)
    linear_combination k1 - k0
  have d2 : (u * s⁻¹) ^ 2 + 3 * r * (u * s⁻¹) + 3 * r ^ 2 + B * (u * s⁻¹ + 2 * r) + 1 = 0 := by
    apply mul_left_cancel₀ (mul_ne_zero hu (inv_ne_zero hs0))
    linear_combination k2 - k0
  have hsd : s - s⁻¹ ≠ 0 := by
    intro h
    apply hs1
    linear_combination s * h + hss
  have d3 : u * (s + s⁻¹) + 3 * r + B = 0 := by
    apply mul_left_cancel₀ (mul_ne_zero hu hsd)
    linear_combination d1 - d2
  have hCs' : C = -(s + s⁻¹) := by rw [hCs]; field_simp
  have hB : C * u = B + 3 * r := by rw [hCs']; linear_combination -d3
  have husq : u ^ 2 = 3 * r ^ 2 + 2 * B * r + 1 := by
    linear_combination (u * s) * d3 - d1 - u ^ 2 * hss
  exact ⟨⟨C, r, u⟩, rfl, ⟨hu, k0, husq, hB, hg.tgt⟩, hp⟩

end Secuer.Curve
