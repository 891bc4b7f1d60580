import Verif.Sidh.Valid
import Verif.Curve.SuperCheck

/-!
# How many points the curve of an accepted public key has

A point whose x-coordinate lies in `F` is mapped to itself or to its negative by Frobenius. The first kind are the points of the
curve over `F`, the second those of its twist; together there are `2 (#F + 1)`. A basis of the `3^e3`-torsion made of such points
lies on one side, so `3^(2 e3)` divides the number of points of one side, and Hasse's bound leaves almost no choice.
-/

namespace Secuer.Sidh

open Secuer.Mont Secuer.Curve Secuer.Curve.Manin Polynomial

section sides

variable {F K : Type} [Field F] [Fintype F] [DecidableEq F] [Field K] [DecidableEq K] [IsAlgClosed K] {φ : F →+* K}
  {σ : K →+* K} {p : ℕ}

/-- Square roots on which `σ` is multiplication by `s` -/
abbrev Roots (φ : F →+* K) (σ : K →+* K) (s : K) (c : F) : Type := {y : K // y ^ 2 = φ c ∧ σ y = s * y}

theorem roots_neg (hd : FrobData φ σ p) (y : K) (c : F) (h : y ^ 2 = φ c) : σ y = 1 * y ∨ σ y = -1 * y := by
  have : (σ y) ^ 2 = y ^ 2 := by rw [← map_pow, h, hd.fix]
  rcases sq_eq_sq_iff_eq_or_eq_neg.1 this with h | h
  · exact .inl (by rw [h, one_mul])
  · exact .inr (by rw [h]; ring)

theorem one_ne_neg_one (h2 : (2 : K) ≠ 0) : (1 : K) ≠ -1 := by
  intro h; apply h2; linear_combination h

/-- The two square roots are on the same side. -/
theorem card_roots (hd : FrobData φ σ p) (h2 : (2 : K) ≠ 0) (c : F) :
    Nat.card (Roots φ σ 1 c) + Nat.card (Roots φ σ (-1) c) = 2 := by
  obtain ⟨y, hy⟩ := IsAlgClosed.exists_pow_nat_eq (φ c) (n := 2) (by norm_num)
  have hall : ∀ z : K, z ^ 2 = φ c → z = y ∨ z = -y := fun z hz => sq_eq_sq_iff_eq_or_eq_neg.1 (by rw [hz, hy])
  by_cases h0 : y = 0
  · have e : ∀ s : K, Nat.card (Roots φ σ s c) = 1 := by
      intro s
      rw [Nat.card_eq_one_iff_unique]
      refine ⟨⟨fun a b => ?_⟩, ⟨⟨0, by rw [← hy, h0], by rw [map_zero, mul_zero]⟩⟩⟩
      have ha : a.1 = 0 := by rcases hall _ a.2.1 with h | h <;> simp [h, h0]
      have hb : b.1 = 0 := by rcases hall _ b.2.1 with h | h <;> simp [h, h0]
      exact Subtype.ext (by rw [ha, hb])
    rw [e, e]
  · have hne : y ≠ -y := by
      intro h
      have : 2 * y = 0 := by linear_combination h
      exact (mul_ne_zero h2 h0) this
    have two : ∀ s : K, σ y = s * y → Nat.card (Roots φ σ s c) = 2 := by
      intro s hs
      rw [Nat.card_eq_two_iff]
      refine ⟨⟨y, hy, hs⟩, ⟨-y, by rw [neg_sq, hy], by rw [map_neg, hs]; ring⟩, fun h => hne (congrArg Subtype.val h), ?_⟩
      ext z
      simp only [Set.mem_insert_iff, Set.mem_singleton_iff, Set.mem_univ, iff_true]
      rcases hall _ z.2.1 with h | h
      · exact .inl (Subtype.ext h)
      · exact .inr (Subtype.ext h)
    have none : ∀ s : K, σ y ≠ s * y → Nat.card (Roots φ σ s c) = 0 := by
      intro s hs
      rw [Nat.card_eq_zero]
      refine .inl ⟨fun z => ?_⟩
      rcases hall _ z.2.1 with h | h
      · exact hs (by rw [← h]; exact z.2.2)
      · apply hs
        have := z.2.2
        rw [h, map_neg] at this
        linear_combination -this
    have hinj : (1 : K) * y ≠ -1 * y := fun h => hne (by linear_combination h)
    rcases roots_neg hd y c hy with h | h
    · rw [two _ h, none _ (by rw [h]; exact hinj)]
    · rw [two _ h, none _ (by rw [h]; exact hinj.symm)]

/-- Points `P` with `π P = s P` -/
structure Side (φ : F →+* K) (σ : K →+* K) (s : K) (A : F) (H : AddSubgroup (W (φ A)).Point) : Prop where
  mem : ∀ x y (h : (W (φ A)).Nonsingular x y), (.some x y h : (W (φ A)).Point) ∈ H ↔ σ x = x ∧ σ y = s * y

theorem Side.card (hd : FrobData φ σ p) (h2F : (2 : F) ≠ 0) {A : F} (hA : A ^ 2 ≠ 4) {s : K}
    {H : AddSubgroup (W (φ A)).Point} (hH : Side φ σ s A H) : Nat.card H = 1 + ∑ a : F, Nat.card (Roots φ σ s ((rhs A).eval a)) := by
  have h2 := two_map φ h2F
  have hAK := sq_ne_four_map φ hA
  have heq : ∀ a : F, φ ((rhs A).eval a) = φ a ^ 3 + φ A * φ a ^ 2 + φ a := by
    intro a; rw [rhs_eval]; simp
  let f : Option (Σ a : F, Roots φ σ s ((rhs A).eval a)) → H := fun o => match o with
    | none => 0
    | some ⟨a, y, h⟩ => ⟨.some (φ a) y (W_nonsingular h2 hAK (by rw [h.1, heq])), (hH.mem _ _ _).2 ⟨hd.fix a, h.2⟩⟩
  have hf : Function.Bijective f := by
    constructor
    · rintro (_ | ⟨a, y, h⟩) (_ | ⟨b, z, h'⟩) e
      · rfl
      · have e := congrArg Subtype.val e; cases e
      · have e := congrArg Subtype.val e; cases e
      · have e := congrArg Subtype.val e
        simp only [f, WeierstrassCurve.Affine.Point.some.injEq] at e
        obtain ⟨e1, rfl⟩ := e
        obtain rfl := φ.injective e1
        rfl
    · rintro ⟨P, hP⟩
      cases P with
      | zero => exact ⟨none, rfl⟩
      | some x y h =>
        obtain ⟨hx, hy⟩ := (hH.mem _ _ _).1 hP
        obtain ⟨a, rfl⟩ := (hd.fixed x).1 hx
        exact ⟨some ⟨a, y, by rw [heq]; exact (W_equation _ _ _).1 h.1, hy⟩, rfl⟩
  have hfin : ∀ a : F, Finite (Roots φ σ s ((rhs A).eval a)) := by
    intro a
    have : Set.Finite {y : K | y ^ 2 = φ ((rhs A).eval a)} := by
      obtain ⟨y, hy⟩ := IsAlgClosed.exists_pow_nat_eq (φ ((rhs A).eval a)) (n := 2) (by norm_num)
      refine Set.Finite.subset (Set.toFinite {y, -y}) fun z hz => ?_
      have hz : z ^ 2 = _ := hz
      exact sq_eq_sq_iff_eq_or_eq_neg.1 (by rw [hz, hy])
    exact (this.subset fun z hz => hz.1).to_subtype
  rw [← Nat.card_congr (Equiv.ofBijective f hf), Finite.card_option, Nat.card_sigma, add_comm]

theorem Side.finite (hd : FrobData φ σ p) (h2F : (2 : F) ≠ 0) {A : F} (hA : A ^ 2 ≠ 4) {s : K}
    {H : AddSubgroup (W (φ A)).Point} (hH : Side φ σ s A H) : Finite H :=
  Nat.finite_of_card_ne_zero (by rw [hH.card hd h2F hA]; omega)

/-- The side of `1` is the curve over `F`. -/
theorem Side.card_one (hd : FrobData φ σ p) (h2F : (2 : F) ≠ 0) {A : F} (hA : A ^ 2 ≠ 4)
    {H : AddSubgroup (W (φ A)).Point} (hH : Side φ σ 1 A H) : Nat.card H = Nat.card (W A).Point := by
  rw [hH.card hd h2F hA, card_points h2F hA]
  congr 1
  refine Finset.sum_congr rfl fun a _ => ?_
  symm
  refine Nat.card_congr (Equiv.ofBijective (fun y => ⟨φ y.1, by rw [← map_pow, y.2], by rw [hd.fix, one_mul]⟩) ⟨?_, ?_⟩)
  · intro y z e
    exact Subtype.ext (φ.injective (congrArg Subtype.val e))
  · rintro ⟨z, hz, hs⟩
    rw [one_mul] at hs
    obtain ⟨b, rfl⟩ := (hd.fixed z).1 hs
    exact ⟨⟨b, φ.injective (by rw [map_pow, hz])⟩, rfl⟩

/-- The curve and its twist -/
theorem Side.sum (hd : FrobData φ σ p) (h2F : (2 : F) ≠ 0) {A : F} (hA : A ^ 2 ≠ 4)
    {H H' : AddSubgroup (W (φ A)).Point} (hH : Side φ σ 1 A H) (hH' : Side φ σ (-1) A H') :
    Nat.card H + Nat.card H' = 2 * (Fintype.card F + 1) := by
  rw [hH.card hd h2F hA, hH'.card hd h2F hA]
  have : ∑ a : F, Nat.card (Roots φ σ 1 ((rhs A).eval a)) + ∑ a : F, Nat.card (Roots φ σ (-1) ((rhs A).eval a)) =
      2 * Fintype.card F := by
    rw [← Finset.sum_add_distrib, Finset.sum_congr rfl fun a _ => card_roots hd (two_map φ h2F) _]
    simp [mul_comm]
  omega

/-- Both sides exist as subgroups, and contain every point with x-coordinate in `F`. -/
theorem exists_sides (hd : FrobData φ σ p) (A : F) : ∃ H H' : AddSubgroup (W (φ A)).Point, Side φ σ 1 A H ∧ Side φ σ (-1) A H' ∧
    ∀ (x : F) (P : (W (φ A)).Point), Rep ⟨φ x, 1⟩ P → P ∈ H ∨ P ∈ H' := by
  obtain ⟨π, hπ, -⟩ := hd.exists_frob A
  have h1 : Side φ σ 1 A (π - AddMonoidHom.id _).ker := by
    constructor
    intro x y h
    obtain ⟨h', e⟩ := hπ x y h
    rw [AddMonoidHom.mem_ker, AddMonoidHom.sub_apply, e, AddMonoidHom.id_apply, sub_eq_zero, one_mul]
    simp
  have h2 : Side φ σ (-1) A (π + AddMonoidHom.id _).ker := by
    constructor
    intro x y h
    obtain ⟨h', e⟩ := hπ x y h
    rw [AddMonoidHom.mem_ker, AddMonoidHom.add_apply, e, AddMonoidHom.id_apply, ← eq_neg_iff_add_eq_zero,
      WeierstrassCurve.Affine.Point.neg_some]
    simp
  refine ⟨_, _, h1, h2, fun x P hP => ?_⟩
  cases P with
  | zero => exact .inl (zero_mem _)
  | some x' y h =>
    obtain ⟨-, hx⟩ := (rep_some_iff h _).1 hP
    have hx : φ x = x' := by simpa using hx
    subst hx
    have he := (W_equation _ _ _).1 h.1
    rw [← map_pow, ← map_pow, ← map_mul, ← map_add, ← map_add] at he
    rcases roots_neg hd y _ he with hy | hy
    · exact .inl ((h1.mem _ _ _).2 ⟨hd.fix x, hy⟩)
    · exact .inr ((h2.mem _ _ _).2 ⟨hd.fix x, hy⟩)

theorem sub_smul_val {G : Type} [AddCommGroup G] {H : AddSubgroup G} (n : ℕ) (X : H) : ((n • X : H) : G) = n • (X : G) := rfl

/-- A basis of the `3^e`-torsion inside a finite subgroup -/
theorem sq_dvd_card {A : K} {H : AddSubgroup (W A).Point} [Finite H] {e : ℕ} {P Q : (W A).Point} (hb : Basis3 e P Q)
    (hP : P ∈ H) (hQ : Q ∈ H) : 3 ^ (2 * e) ∣ Nat.card H := by
  haveI := Fact.mk Nat.prime_three
  have he : e - 1 + 1 = e := by have := hb.pos; omega
  have oP : addOrderOf (⟨P, hP⟩ : H) = 3 ^ e := by
    rw [← he]
    exact addOrderOf_eq_prime_pow (fun h => hb.topP (congrArg Subtype.val h)) (by rw [he]; exact Subtype.ext hb.killP)
  have oQ : addOrderOf (⟨Q, hQ⟩ : H) = 3 ^ e := by
    rw [← he]
    exact addOrderOf_eq_prime_pow (fun h => hb.topQ (congrArg Subtype.val h)) (by rw [he]; exact Subtype.ext hb.killQ)
  have := card_dvd_of_disjoint (disjoint_of_last (.inr rfl) oP oQ (fun h => hb.ne (congrArg Subtype.val h))
    (fun h => hb.ne' (congrArg Subtype.val h)))
  rwa [oP, oQ, ← pow_add, ← two_mul] at this

theorem dvd_card {A : K} {H : AddSubgroup (W A).Point} [Finite H] {n e : ℕ} (hn : n.Prime) {P : (W A).Point}
    (h0 : n ^ (e + 1) • P = 0) (h1 : n ^ e • P ≠ 0) (hP : P ∈ H) : n ^ (e + 1) ∣ Nat.card H := by
  haveI := Fact.mk hn
  have oP : addOrderOf (⟨P, hP⟩ : H) = n ^ (e + 1) :=
    addOrderOf_eq_prime_pow (fun h => h1 (congrArg Subtype.val h)) (Subtype.ext h0)
  rw [← oP]
  exact addOrderOf_dvd_natCard _

/-- Two points whose orders are powers of two -/
theorem dvd_card_two {A : K} {H : AddSubgroup (W A).Point} [Finite H] {a b : ℕ} {P Q : (W A).Point}
    (hP0 : 2 ^ (a + 1) • P = 0) (hP1 : 2 ^ a • P ≠ 0) (hQ0 : 2 ^ (b + 1) • Q = 0) (hQ1 : 2 ^ b • Q ≠ 0) (hP : P ∈ H) (hQ : Q ∈ H)
    (hne : (2 ^ a • P : (W A).Point) ≠ 2 ^ b • Q) : 2 ^ (a + 1) * 2 ^ (b + 1) ∣ Nat.card H := by
  haveI := Fact.mk Nat.prime_two
  have oP : addOrderOf (⟨P, hP⟩ : H) = 2 ^ (a + 1) :=
    addOrderOf_eq_prime_pow (fun h => hP1 (congrArg Subtype.val h)) (Subtype.ext hP0)
  have oQ : addOrderOf (⟨Q, hQ⟩ : H) = 2 ^ (b + 1) :=
    addOrderOf_eq_prime_pow (fun h => hQ1 (congrArg Subtype.val h)) (Subtype.ext hQ0)
  have hq : -(2 ^ b • Q) = (2 ^ b • Q : (W A).Point) := by
    rw [neg_eq_iff_add_eq_zero, ← two_nsmul, ← mul_nsmul, ← pow_succ, hQ0]
  have := card_dvd_of_disjoint (disjoint_of_last (.inl rfl) oP oQ (fun h => hne (congrArg Subtype.val h))
    (fun h => hne (by rw [← hq]; exact congrArg Subtype.val h)))
  rwa [oP, oQ] at this

theorem origin_ns (h2 : (2 : K) ≠ 0) {A : K} (hA : A ^ 2 ≠ 4) : (W A).Nonsingular 0 0 :=
  W_nonsingular h2 hA (by ring)

theorem eq_origin (h2 : (2 : K) ≠ 0) {A : K} (hA : A ^ 2 ≠ 4) {P : (W A).Point} {z : K} (hz : z ≠ 0) (h : Rep ⟨0, z⟩ P) :
    P = .some 0 0 (origin_ns h2 hA) := by
  cases P with
  | zero => exact absurd ((rep_zero_iff _).1 h).1 hz
  | some x y hn =>
    obtain ⟨-, hx⟩ := (rep_some_iff hn _).1 h
    have hx : x = 0 := by
      rcases mul_eq_zero.1 hx.symm with h | h
      · exact h
      · exact absurd h hz
    subst hx
    have hy : y = 0 := by
      have := (W_equation _ _ _).1 hn.1
      simpa using this
    subst hy
    rfl

theorem Side.even (hd : FrobData φ σ p) (h2F : (2 : F) ≠ 0) {A : F} (hA : A ^ 2 ≠ 4) {s : K}
    {H : AddSubgroup (W (φ A)).Point} (hH : Side φ σ s A H) : 2 ∣ Nat.card H := by
  haveI := hH.finite hd h2F hA
  have h2 := two_map φ h2F
  have hn := origin_ns h2 (sq_ne_four_map φ hA)
  have := dvd_card (e := 0) Nat.prime_two (P := .some 0 0 hn) (by simpa using (two_smul_eq_zero h2 hn).2 rfl)
    (by rw [pow_zero, one_smul]; exact WeierstrassCurve.Affine.Point.some_ne_zero _) ((hH.mem _ _ _).2 (by simp))
  simpa using this

/-- A point of order two is on both sides. -/
theorem Side.two {s s' : K} (h2F : (2 : F) ≠ 0) {A : F} {H H' : AddSubgroup (W (φ A)).Point} (hH : Side φ σ s A H)
    (hH' : Side φ σ s' A H') {U : (W (φ A)).Point} (h : (2 : ℕ) • U = 0) (hU : U ∈ H) : U ∈ H' := by
  cases U with
  | zero => exact zero_mem _
  | some x y hn =>
    rw [two_smul_eq_zero (two_map φ h2F)] at h
    subst h
    exact (hH'.mem _ _ _).2 ⟨((hH.mem _ _ _).1 hU).1, by simp⟩

/-- If both `A + 2` and `A - 2` are squares, there are eight rational points killed by four, and four on the twist. -/
theorem Side.eight (hd : FrobData φ σ p) (h2F : (2 : F) ≠ 0) {A : F} (hA : A ^ 2 ≠ 4) (s1 : IsSquare (A + 2)) (s2 : IsSquare (A - 2))
    {H H' : AddSubgroup (W (φ A)).Point} (hH : Side φ σ 1 A H) (hH' : Side φ σ (-1) A H') :
    8 ∣ Nat.card H ∧ 4 ∣ Nat.card H' := by
  haveI := hH.finite hd h2F hA
  haveI := hH'.finite hd h2F hA
  have h2 := two_map φ h2F
  have hAK := sq_ne_four_map φ hA
  have h4 := four_ne_zero_of h2
  have p2 : φ A + 2 ≠ 0 := fun h => hAK (by linear_combination (φ A - 2) * h)
  have m2 : φ A - 2 ≠ 0 := fun h => hAK (by linear_combination (φ A + 2) * h)
  obtain ⟨u, hu⟩ := s1
  obtain ⟨v, hv⟩ := s2
  have hφ2 : φ 2 = 2 := map_ofNat φ 2
  have hu' : φ A + 2 = φ u * φ u := by rw [← map_mul, ← hu, map_add, hφ2]
  have hv' : φ A - 2 = φ v * φ v := by rw [← map_mul, ← hv, map_sub, hφ2]
  have n1 : (W (φ A)).Nonsingular 1 (φ u) := W_nonsingular h2 hAK (by rw [pow_two, ← hu']; ring)
  have n2 : (W (φ A)).Nonsingular (-1) (φ v) := W_nonsingular h2 hAK (by rw [pow_two, ← hv']; ring)
  have n0 := origin_ns h2 hAK
  have d1 : (2 : ℕ) • (.some 1 (φ u) n1 : (W (φ A)).Point) = .some 0 0 n0 := by
    have := double_rep h2 n1
    have e : (1 ^ 2 - 1 : K) ^ 2 = 0 := by ring
    rw [e] at this
    exact eq_origin h2 hAK (mul_ne_zero h4 (by rw [one_mul]; intro h; apply p2; linear_combination h)) this
  have d2 : (2 : ℕ) • (.some (-1) (φ v) n2 : (W (φ A)).Point) = .some 0 0 n0 := by
    have := double_rep h2 n2
    have e : ((-1) ^ 2 - 1 : K) ^ 2 = 0 := by ring
    rw [e] at this
    exact eq_origin h2 hAK (mul_ne_zero h4 (by intro h; apply m2; linear_combination h)) this
  have m1 : (.some 1 (φ u) n1 : (W (φ A)).Point) ∈ H := (hH.mem _ _ _).2 ⟨map_one σ, by rw [hd.fix, one_mul]⟩
  have m3 : (.some (-1) (φ v) n2 : (W (φ A)).Point) ∈ H := (hH.mem _ _ _).2 ⟨by rw [map_neg, map_one], by rw [hd.fix, one_mul]⟩
  have hne : (.some 1 (φ u) n1 : (W (φ A)).Point) ≠ .some (-1) (φ v) n2 := by
    intro h
    simp only [WeierstrassCurve.Affine.Point.some.injEq] at h
    exact one_ne_neg_one h2 h.1
  have hne' : (.some 1 (φ u) n1 : (W (φ A)).Point) ≠ -.some (-1) (φ v) n2 := by
    intro h
    rw [WeierstrassCurve.Affine.Point.neg_some] at h
    simp only [WeierstrassCurve.Affine.Point.some.injEq] at h
    exact one_ne_neg_one h2 h.1
  have z0 : (.some 0 0 n0 : (W (φ A)).Point) ≠ 0 := WeierstrassCurve.Affine.Point.some_ne_zero _
  have k0 : (2 : ℕ) • (.some 0 0 n0 : (W (φ A)).Point) = 0 := (two_smul_eq_zero h2 n0).2 rfl
  have m0 : (.some 0 0 n0 : (W (φ A)).Point) ∈ H' := (hH'.mem _ _ _).2 (by simp)
  generalize (.some 1 (φ u) n1 : (W (φ A)).Point) = T1 at *
  generalize (.some (-1) (φ v) n2 : (W (φ A)).Point) = T2 at *
  generalize (.some 0 0 n0 : (W (φ A)).Point) = O at *
  have kU : (2 : ℕ) • (T1 - T2) = 0 := by rw [smul_sub, d1, d2, sub_self]
  have zU : T1 - T2 ≠ 0 := sub_ne_zero.2 hne
  have nU : O ≠ T1 - T2 := by
    intro h
    rw [← d1, two_nsmul] at h
    have : T1 + T1 - T1 = T1 - T2 - T1 := by rw [h]
    apply hne'
    rw [add_sub_cancel_right] at this
    rw [this]; abel
  have mU : T1 - T2 ∈ H := sub_mem m1 m3
  have k4 : (2 ^ (1 + 1)) • T1 = 0 := by
    rw [show (2 : ℕ) ^ (1 + 1) = 2 * 2 from rfl, mul_nsmul, d1, k0]
  constructor
  · have := dvd_card_two (a := 1) (b := 0) k4 (by rw [pow_one, d1]; exact z0) (by simpa using kU) (by simpa using zU) m1 mU
      (by rw [pow_one, d1]; simpa using nU)
    simpa using this
  · have := dvd_card_two (a := 0) (b := 0) (by simpa using k0) (by simpa using z0) (by simpa using kU) (by simpa using zU) m0
      (hH.two h2F hH' kU mU) (by simpa using nU)
    simpa using this

/-- Frobenius is `p` or `-p`: then half of the point with x-coordinate one has its x-coordinate in `F`, and `A + 2` is a square. -/
theorem square_of_superX (hd : FrobData φ σ p) (h2F : (2 : F) ≠ 0) {A : F} (h : SuperX φ σ p A) : IsSquare (A + 2) := by
  have h2 := two_map φ h2F
  have h4 := four_ne_zero_of h2
  have hAK := sq_ne_four_map φ h.1
  have hφ2 : φ 2 = 2 := map_ofNat φ 2
  obtain ⟨r, hr⟩ := IsAlgClosed.exists_pow_nat_eq (φ A + 2) (n := 2) (by norm_num)
  obtain ⟨w, hw⟩ := IsAlgClosed.exists_pow_nat_eq ((2 + 2 * r) ^ 2 - 4) (n := 2) (by norm_num)
  obtain ⟨x, hx⟩ : ∃ x : K, x = (2 + 2 * r + w) / 2 := ⟨_, rfl⟩
  have hxu : x ^ 2 - (2 + 2 * r) * x + 1 = 0 := by
    rw [hx]; field_simp; linear_combination hw
  have hx0 : x ≠ 0 := by
    rintro e; rw [e] at hxu; simp at hxu
  have huA : 2 + 2 * r + φ A ≠ 0 := by
    intro e
    have e1 : r * (r + 2) = 0 := by linear_combination e + hr
    rcases mul_eq_zero.1 e1 with e1 | e1
    · rw [e1] at hr
      apply hAK
      linear_combination (2 - φ A) * hr
    · have : r = -2 := by linear_combination e1
      rw [this] at hr
      apply hAK
      linear_combination -(φ A + 2) * hr
  obtain ⟨y, hy⟩ := IsAlgClosed.exists_pow_nat_eq (x ^ 3 + φ A * x ^ 2 + x) (n := 2) (by norm_num)
  have hn : (W (φ A)).Nonsingular x y := W_nonsingular h2 hAK hy
  have hd2 := double_rep h2 hn
  have eX : (x ^ 2 - 1) ^ 2 = 4 * x ^ 2 * (2 + 2 * r + φ A) := by
    linear_combination (x ^ 2 + 1 + (2 + 2 * r) * x) * hxu + 4 * x ^ 2 * hr
  have eZ : 4 * (x * (x ^ 2 + φ A * x + 1)) = 4 * x ^ 2 * (2 + 2 * r + φ A) := by
    linear_combination 4 * x * hxu
  rw [eX, eZ] at hd2
  have k8 : (8 : ℕ) • (.some x y hn : (W (φ A)).Point) = 0 := by
    rw [show (8 : ℕ) = 2 * 4 from rfl, mul_nsmul]
    generalize (2 : ℕ) • (.some x y hn : (W (φ A)).Point) = T at hd2
    cases T with
    | zero => exact smul_zero _
    | some x' y' h' =>
      obtain ⟨hz, he⟩ := (rep_some_iff h' _).1 hd2
      have : x' = 1 := by
        have : (x' - 1) * (4 * x ^ 2 * (2 + 2 * r + φ A)) = 0 := by linear_combination -he
        rcases mul_eq_zero.1 this with e | e
        · linear_combination e
        · exact absurd e hz
      subst this
      exact (one_order_four h2 hAK h').2
  have hp : p • (.some x y hn : (W (φ A)).Point) = -.some x y hn := by
    obtain ⟨k, hk⟩ := hd.eight
    rw [eq_neg_iff_add_eq_zero, ← succ_nsmul, hk, mul_nsmul, k8, smul_zero]
  have hσ := h.2 (.some x y hn)
  rw [hp] at hσ
  have hσ := hσ.neg
  rw [neg_neg] at hσ
  obtain ⟨-, hσx⟩ := (rep_some_iff hn _).1 hσ
  have hσx : σ x = x := by simpa [Pt.map] using hσx
  obtain ⟨b, hb⟩ := (hd.fixed x).1 hσx
  have hb0 : b ≠ 0 := by rintro rfl; exact hx0 (by rw [← hb, map_zero])
  refine ⟨((b ^ 2 + 1) / b - 2) / 2, φ.injective ?_⟩
  have e2 : ((φ b ^ 2 + 1) / φ b - 2) / 2 = r := by
    rw [hb]; field_simp; linear_combination hxu
  rw [map_mul, map_div₀, map_sub, map_div₀, map_add, map_add, map_pow, hφ2, map_one, e2, ← hr, pow_two]

end sides

section cards

variable {F K : Type} [Field F] [Fintype F] [DecidableEq F] [Field K] [DecidableEq K] [Algebra F K]

theorem superX_of_cards (h2F : (2 : F) ≠ 0) {A : F} (hA : A ^ 2 ≠ 4) {p : ℕ} (hp : Fintype.card F = p ^ 2) (ho : ¬ 2 ∣ p)
    (hN : Nat.card (W A).Point = (p + 1) ^ 2 ∨ Nat.card (W A).Point = (p - 1) ^ 2) :
    SuperX (algebraMap F K) (frobK F K) p A := by
  refine ⟨hA, fun P => ?_⟩
  cases P with
  | zero =>
    change Rep ((xr (0 : (W (algebraMap F K A)).Point)).map _) (p • (0 : (W (algebraMap F K A)).Point))
    rw [smul_zero, rep_zero_iff]; simp [Pt.map]
  | some x y hn =>
    have := Manin.frobenius_x_of h2F hA hp ho hN (algebraMap F K) x y hn
    simpa [Pt.map, frobK_apply] using this

end cards

/-- The arithmetic of the argument. -/
theorem few_multiples {X p n c : ℕ} (hX : X ∣ (p + 1) ^ 2) (hn : X ∣ n) (hp : 1 ≤ p) (lo : (p - 1) ^ 2 ≤ n) (hi : n ≤ (p + 1) ^ 2)
    (hc : 4 * p < c * X) : ∃ m < c, (p + 1) ^ 2 = n + X * m := by
  obtain ⟨m, hm⟩ := Nat.dvd_sub hX hn
  refine ⟨m, ?_, by omega⟩
  have h4 : (p + 1) ^ 2 = (p - 1) ^ 2 + 4 * p := by
    obtain ⟨k, rfl⟩ : ∃ k, p = k + 1 := ⟨p - 1, by omega⟩
    rw [Nat.add_sub_cancel]; ring
  have : X * m < X * c := by rw [mul_comm X c]; omega
  exact lt_of_mul_lt_mul_left this (Nat.zero_le _)

section levels

open Secuer.Field

variable (l : Level)

theorem superX_of_card {a : l.F} (ha : a ^ 2 ≠ 4) (hN : Nat.card (W a).Point = (l.p + 1) ^ 2 ∨ Nat.card (W a).Point = (l.p - 1) ^ 2) :
    SuperX l.φ l.σ l.p a := by
  have h8 := l.eight
  exact superX_of_cards l.two ha card_fp2 (by omega) hN

/-- Either number makes Frobenius `-p`; in fact the second does not occur. -/
theorem super_of_cards {a : l.F} (ha : a ^ 2 ≠ 4) (hN : Nat.card (W a).Point = (l.p + 1) ^ 2 ∨ Nat.card (W a).Point = (l.p - 1) ^ 2) :
    Super l.φ l.σ l.p a :=
  (superX_of_card l ha hN).super l.setting.frob l.two (square_of_superX l.setting.frob l.two (superX_of_card l ha hN))

/-- **The curve of a basis of the `3^e3`-torsion with x-coordinates in `GF(p²)`.** -/
theorem order_of_basis {a xP xQ : l.F} (ha : a ^ 2 ≠ 4) {P Q : (W (l.φ a)).Point} (hP : Rep ⟨l.φ xP, 1⟩ P) (hQ : Rep ⟨l.φ xQ, 1⟩ Q)
    (hb : Basis3 l.iso.e3 P Q) (h6 : l = .l610 → IsSquare (a + 2) ∧ IsSquare (a - 2)) :
    Super l.φ l.σ l.p a ∨ l = .l610 ∧ Nat.card (W a).Point = (l.p - 1) ^ 2 + 4 * 3 ^ (2 * l.iso.e3) := by
  have hd := l.setting.frob
  obtain ⟨H, H', hH, hH', hall⟩ := exists_sides hd a
  haveI := hH.finite hd l.two ha
  haveI := hH'.finite hd l.two ha
  have hsum := hH.sum hd l.two ha hH'
  have hone := hH.card_one hd l.two ha
  obtain ⟨lo, hi⟩ := Manin.hasse l.two ha (card_fp2 (p := l.p))
  have e1 := hH.even hd l.two ha
  have e2 := hH'.even hd l.two ha
  have e8 : l = .l610 → 8 ∣ Nat.card H ∧ 4 ∣ Nat.card H' := fun h => hH.eight hd l.two ha (h6 h).1 (h6 h).2 hH'
  rw [card_fp2, hone] at hsum
  rw [hone] at e1 e8
  have hp1 := l.p_succ
  have hpb := l.p_big
  have he : l.iso.e3 - 1 + 1 = l.iso.e3 := by have := hb.pos; omega
  have one : ∀ {X : AddSubgroup (W (l.φ a)).Point} [Finite X] {R : (W (l.φ a)).Point}, 3 ^ l.iso.e3 • R = 0 →
      3 ^ (l.iso.e3 - 1) • R ≠ 0 → R ∈ X → 3 ^ l.iso.e3 ∣ Nat.card X := by
    intro X _ R h0 h1 hR
    rw [← he]
    exact dvd_card Nat.prime_three (by rw [he]; exact h0) h1 hR
  have mixed : 3 ^ l.iso.e3 ∣ Nat.card H → 3 ^ l.iso.e3 ∣ Nat.card H' → False := by
    intro d1 d2
    have h3 : 3 ∣ 3 ^ l.iso.e3 := by rw [← he]; exact Dvd.intro_left _ rfl
    have a1 := h3.trans d1
    have a2 := h3.trans d2
    have a3 : 3 ∣ l.p + 1 := l.three
    have a4 : 3 ∣ (l.p + 1) ^ 2 := Dvd.dvd.pow a3 (by norm_num)
    have a5 : (l.p + 1) ^ 2 = l.p ^ 2 + 2 * l.p + 1 := by ring
    rw [hone] at a1
    omega
  have hXp : 3 ^ (2 * l.iso.e3) ∣ (l.p + 1) ^ 2 := by
    rw [hp1, mul_pow, ← pow_mul 3, mul_comm l.iso.e3 2]
    exact Dvd.intro_left _ rfl
  have hodd : ¬ 2 ∣ 3 ^ (2 * l.iso.e3) := fun h => absurd (Nat.prime_two.dvd_of_dvd_pow h) (by norm_num)
  have h2p : 8 ∣ (l.p + 1) ^ 2 := Dvd.dvd.pow l.eight (by norm_num)
  have h4 : (l.p + 1) ^ 2 = (l.p - 1) ^ 2 + 4 * l.p := by
    obtain ⟨k, hk⟩ : ∃ k, l.p = k + 1 := ⟨l.p - 1, by omega⟩
    rw [hk, Nat.add_sub_cancel]; ring
  have h5 : (l.p + 1) ^ 2 = l.p ^ 2 + 2 * l.p + 1 := by ring
  have c1 : l ≠ .l610 → 4 * l.p < 2 * 3 ^ (2 * l.iso.e3) := by
    intro h
    cases l <;> first | exact absurd rfl h | decide +kernel
  have c2 : 4 * l.p < 8 * 3 ^ (2 * l.iso.e3) := by cases l <;> decide +kernel
  have sq := fun h1 h2 => sq_dvd_card (H := H) hb h1 h2
  have sq' := fun h1 h2 => sq_dvd_card (H := H') hb h1 h2
  have s1 : 3 ^ (2 * l.iso.e3) ∣ Nat.card (W a).Point ∨ 3 ^ (2 * l.iso.e3) ∣ Nat.card H' := by
    rcases hall _ _ hP with p1 | p1 <;> rcases hall _ _ hQ with q1 | q1
    · rw [← hone]; exact .inl (sq p1 q1)
    · exact (mixed (one hb.killP hb.topP p1) (one hb.killQ hb.topQ q1)).elim
    · exact (mixed (one hb.killQ hb.topQ q1) (one hb.killP hb.topP p1)).elim
    · exact .inr (sq' p1 q1)
  have fin : Nat.card (W a).Point = (l.p + 1) ^ 2 ∨ Nat.card (W a).Point = (l.p - 1) ^ 2 ∨
      l = .l610 ∧ Nat.card (W a).Point = (l.p - 1) ^ 2 + 4 * 3 ^ (2 * l.iso.e3) := by
    generalize Nat.card (W a).Point = n at *
    generalize Nat.card H' = n' at *
    generalize 3 ^ (2 * l.iso.e3) = X at *
    generalize hpp : (l.p + 1) ^ 2 = S at *
    generalize hpm : (l.p - 1) ^ 2 = D at *
    by_cases h : l = .l610
    · obtain ⟨e8, e4⟩ := e8 h
      rcases s1 with s1 | s1
      · obtain ⟨m, hm, e⟩ := few_multiples (p := l.p) (by rwa [hpp]) s1 (by omega) (by rwa [hpm]) (by rwa [hpp]) c2
        rw [hpp] at e
        interval_cases m <;> omega
      · obtain ⟨m, hm, e⟩ := few_multiples (p := l.p) (by rwa [hpp]) s1 (by omega) (by rw [hpm]; omega) (by rw [hpp]; omega) c2
        rw [hpp] at e
        have : m = 0 ∨ m = 4 := by interval_cases m <;> omega
        rcases this with rfl | rfl
        · right; left; omega
        · right; right; exact ⟨h, by omega⟩
    · have c1 := c1 h
      rcases s1 with s1 | s1
      · obtain ⟨m, hm, e⟩ := few_multiples (p := l.p) (by rwa [hpp]) s1 (by omega) (by rwa [hpm]) (by rwa [hpp]) c1
        rw [hpp] at e
        interval_cases m <;> omega
      · obtain ⟨m, hm, e⟩ := few_multiples (p := l.p) (by rwa [hpp]) s1 (by omega) (by rw [hpm]; omega) (by rw [hpp]; omega) c1
        rw [hpp] at e
        have : m = 0 := by interval_cases m <;> omega
        subst this
        right; left; omega
  rcases fin with h | h | h
  · exact .inl (super_of_cards l ha (.inl h))
  · exact .inl (super_of_cards l ha (.inr h))
  · exact .inr h

end levels

end Secuer.Sidh
