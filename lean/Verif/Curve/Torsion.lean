import Verif.Curve.Frob
import Verif.Curve.Lift
import Mathlib.GroupTheory.QuotientGroup.Basic
import Mathlib.GroupTheory.Index
import Mathlib.GroupTheory.OrderOfElement

/-!
# The number of points of a curve with Frobenius `-p`

Multiplication by two and by three is onto, with four and nine points in the kernel. Hence a curve whose
`p²`-power Frobenius is multiplication by `-p`, where `p + 1 = 2^a * 3^b`, has `(p + 1)²` points over `F`.
-/

namespace Secuer.Curve

open Secuer.Mont

section group

variable {G : Type} [AddCommGroup G]

/-- The points killed by `n`. -/
def kerMul (G : Type) [AddCommGroup G] (n : ℕ) : AddSubgroup G := (nsmulAddMonoidHom n : G →+ G).ker

theorem mem_kerMul {n : ℕ} {x : G} : x ∈ kerMul G n ↔ n • x = 0 := Iff.rfl

theorem card_kerMul_mul (n m : ℕ) (hm : ∀ x : G, ∃ y, m • y = x) :
    Nat.card (kerMul G (n * m)) = Nat.card (kerMul G n) * Nat.card (kerMul G m) := by
  let f : kerMul G (n * m) →+ kerMul G n :=
    { toFun := fun x => ⟨m • x.1, by
        rw [mem_kerMul, ← mul_nsmul, mul_comm]; exact x.2⟩
      map_zero' := by ext; simp
      map_add' := fun x y => by ext; simp }
  have hf : Function.Surjective f := by
    rintro ⟨x, hx⟩
    obtain ⟨y, rfl⟩ := hm x
    refine ⟨⟨y, ?_⟩, rfl⟩
    rw [mem_kerMul, mul_comm, mul_nsmul]; exact hx
  rw [AddSubgroup.card_eq_card_quotient_mul_card_addSubgroup f.ker,
    Nat.card_congr (QuotientAddGroup.quotientKerEquivOfSurjective f hf).toEquiv]
  congr 1
  exact Nat.card_congr
    { toFun := fun x => ⟨x.1.1, by have := congrArg Subtype.val x.2; exact this⟩
      invFun := fun x => ⟨⟨x.1, by rw [mem_kerMul, mul_comm, mul_nsmul, mem_kerMul.1 x.2, nsmul_zero]⟩,
        Subtype.ext x.2⟩
      left_inv := fun x => rfl
      right_inv := fun x => rfl }

theorem card_kerMul_pow (m : ℕ) (hm : ∀ x : G, ∃ y, m • y = x) (k : ℕ) :
    Nat.card (kerMul G (m ^ k)) = Nat.card (kerMul G m) ^ k := by
  induction k with
  | zero =>
    rw [pow_zero, pow_zero, Nat.card_eq_one_iff_unique]
    exact ⟨⟨fun x y => Subtype.ext (by rw [show x.1 = 0 from (one_nsmul x.1).symm.trans x.2,
      show y.1 = 0 from (one_nsmul y.1).symm.trans y.2])⟩, ⟨0⟩⟩
  | succ k ih => rw [pow_succ, card_kerMul_mul _ _ hm, ih, pow_succ]

end group

section curve

variable {K : Type} [Field K] [DecidableEq K] [IsAlgClosed K] {A : K}

theorem mul_surj (h2 : (2 : K) ≠ 0) (hA : A ^ 2 ≠ 4) {n : ℕ} {g : Pt K → Pt K}
    (hg : ∀ (p : Pt K) (P : (W A).Point), Rep p P → Rep (g p) (n • P))
    (hs : ∀ c : K, ∃ t, (g ⟨t, 1⟩).X = c * (g ⟨t, 1⟩).Z) (X : (W A).Point) : ∃ Y, n • Y = X := by
  cases X with
  | zero => exact ⟨0, nsmul_zero n⟩
  | some x y h =>
    obtain ⟨t, ht⟩ := hs x
    obtain ⟨Y, hY⟩ := exists_rep (A := A) h2 hA (p := ⟨t, 1⟩) (Or.inr one_ne_zero)
    have h1 := hg _ _ hY
    have hz : (g ⟨t, 1⟩).Z ≠ 0 := by
      intro h0
      rw [h0, mul_zero] at ht
      exact h1.nz.elim (fun h => h ht) (fun h => h h0)
    have h3 : Rep (g ⟨t, 1⟩) (.some x y h : (W A).Point) := (rep_some_iff h _).2 ⟨hz, ht⟩
    rcases h1.eq_or_neg h3 with e | e
    · exact ⟨Y, e⟩
    · exact ⟨-Y, by rw [smul_neg, e, neg_neg]⟩

open Polynomial in
theorem two_surj (h2 : (2 : K) ≠ 0) (hA : A ^ 2 ≠ 4) (S : (W A).Point) : ∃ Y, 2 • Y = S := by
  refine mul_surj h2 hA (g := fun p => xDBL p (A + 2) 4)
    (fun p P h => xDBL_rep h2 ⟨1, one_ne_zero, by ring, by ring⟩ h) (fun c => ?_) S
  have h4 : (4 : K) ≠ 0 := four_ne_zero_of h2
  obtain ⟨N, hN⟩ : ∃ N : K[X], N = C 4 * X ^ 4 - C 8 * X ^ 2 + C 4 := ⟨_, rfl⟩
  obtain ⟨D, hD⟩ : ∃ D : K[X], D = C 16 * X ^ 3 + C (16 * A) * X ^ 2 + C 16 * X := ⟨_, rfl⟩
  have d1 : N.natDegree = 4 := by rw [hN]; compute_degree!
  have d2 : D.natDegree ≤ 3 := by rw [hD]; compute_degree!
  obtain ⟨t, ht⟩ := exists_eval_eq N D (by omega) c
  refine ⟨t, ?_⟩
  rw [hN, hD] at ht
  simp only [eval_add, eval_sub, eval_mul, eval_C, eval_pow, eval_X] at ht
  simp only [xDBL]
  linear_combination ht

/-- The numerator and the denominator of tripling. -/
theorem xTPL_eq (t : K) : (xTPL ⟨t, 1⟩ (A - 2) (A + 2)).X = 32 * (t * (t ^ 4 - 6 * t ^ 2 - 4 * A * t - 3) ^ 2) ∧
    (xTPL ⟨t, 1⟩ (A - 2) (A + 2)).Z = 32 * (3 * t ^ 4 + 4 * A * t ^ 3 + 6 * t ^ 2 - 1) ^ 2 := by
  constructor <;> simp only [xTPL] <;> ring

open Polynomial in
theorem three_surj (h2 : (2 : K) ≠ 0) (hA : A ^ 2 ≠ 4) (S : (W A).Point) : ∃ Y, 3 • Y = S := by
  refine mul_surj h2 hA (g := fun p => xTPL p (A - 2) (A + 2))
    (fun p P h => xTPL_rep h2 ⟨1, one_ne_zero, by ring, by ring⟩ h) (fun c => ?_) S
  obtain ⟨N, hN⟩ : ∃ N : K[X], N = X * (X ^ 4 - C 6 * X ^ 2 - C (4 * A) * X - C 3) ^ 2 := ⟨_, rfl⟩
  obtain ⟨D, hD⟩ : ∃ D : K[X], D = (C 3 * X ^ 4 + C (4 * A) * X ^ 3 + C 6 * X ^ 2 - 1) ^ 2 := ⟨_, rfl⟩
  have d0 : (X ^ 4 - C 6 * X ^ 2 - C (4 * A) * X - C 3 : K[X]).natDegree = 4 := by compute_degree!
  have d0' : (X ^ 4 - C 6 * X ^ 2 - C (4 * A) * X - C 3 : K[X]) ≠ 0 := by
    intro h; rw [h] at d0; simp at d0
  have d1 : N.natDegree = 9 := by
    rw [hN, natDegree_mul X_ne_zero (pow_ne_zero _ d0'), natDegree_pow, d0, natDegree_X]
  have d2 : D.natDegree ≤ 8 := by
    rw [hD]
    refine natDegree_pow_le.trans ?_
    have : (C 3 * X ^ 4 + C (4 * A) * X ^ 3 + C 6 * X ^ 2 - 1 : K[X]).natDegree ≤ 4 := by compute_degree!
    omega
  obtain ⟨t, ht⟩ := exists_eval_eq N D (by omega) c
  refine ⟨t, ?_⟩
  rw [hN, hD] at ht
  simp only [eval_add, eval_sub, eval_mul, eval_C, eval_pow, eval_X, eval_one] at ht
  rw [(xTPL_eq t).1, (xTPL_eq t).2]
  linear_combination 32 * ht

theorem card_two (h2 : (2 : K) ≠ 0) (hA : A ^ 2 ≠ 4) : Nat.card (kerMul (W A).Point 2) = 4 := by
  have h4 : (4 : K) ≠ 0 := four_ne_zero_of h2
  obtain ⟨d, hd⟩ := IsAlgClosed.exists_pow_nat_eq (A ^ 2 - 4) (n := 2) (by norm_num)
  have hd0 : d ≠ 0 := by rintro rfl; exact hA (by linear_combination -hd)
  obtain ⟨r, hr⟩ : ∃ r, r = (-A + d) / 2 := ⟨_, rfl⟩
  obtain ⟨s, hs⟩ : ∃ s, s = (-A - d) / 2 := ⟨_, rfl⟩
  have e1 : r + s = -A := by rw [hr, hs]; field_simp; ring
  have e2 : r * s = 1 := by rw [hr, hs]; field_simp; linear_combination -hd
  have e3 : r - s = d := by rw [hr, hs]; field_simp; ring
  have hr0 : r ≠ 0 := left_ne_zero_of_mul (e2 ▸ one_ne_zero)
  have hs0 : s ≠ 0 := right_ne_zero_of_mul (e2 ▸ one_ne_zero)
  have hrs : r ≠ s := fun h => hd0 (by rw [← e3, h, sub_self])
  have hA' : A = -(r + s) := by rw [e1, neg_neg]
  have n0 : (W A).Nonsingular 0 0 := W_nonsingular h2 hA (by ring)
  have nr : (W A).Nonsingular r 0 := W_nonsingular h2 hA (by rw [hA']; linear_combination r * e2)
  have ns : (W A).Nonsingular s 0 := W_nonsingular h2 hA (by rw [hA']; linear_combination s * e2)
  have key : (kerMul (W A).Point 2 : Set (W A).Point) =
      {0, .some 0 0 n0, .some r 0 nr, .some s 0 ns} := by
    ext P
    simp only [SetLike.mem_coe, mem_kerMul, Set.mem_insert_iff, Set.mem_singleton_iff]
    have hneg : (2 : ℕ) • P = 0 ↔ P = -P := by rw [two_nsmul, eq_neg_iff_add_eq_zero]
    rw [hneg]
    cases P with
    | zero => exact ⟨fun _ => Or.inl rfl, fun _ => rfl⟩
    | some x y h =>
      rw [WeierstrassCurve.Affine.Point.neg_some]
      simp only [W_negY, WeierstrassCurve.Affine.Point.some.injEq, true_and]
      have hne : (WeierstrassCurve.Affine.Point.some x y h : (W A).Point) ≠ 0 := by
        intro h; cases h
      simp only [hne, false_or]
      have he := (W_equation _ _ _).1 h.1
      constructor
      · intro hy
        have hy0 : y = 0 := by
          have : 2 * y = 0 := by linear_combination hy
          exact (mul_eq_zero.1 this).resolve_left h2
        subst hy0
        have : x * ((x - r) * (x - s)) = 0 := by rw [hA'] at he; linear_combination -he + x * e2
        rcases mul_eq_zero.1 this with h | h
        · exact Or.inl ⟨h, rfl⟩
        · rcases mul_eq_zero.1 h with h | h
          · exact Or.inr (Or.inl ⟨sub_eq_zero.1 h, rfl⟩)
          · exact Or.inr (Or.inr ⟨sub_eq_zero.1 h, rfl⟩)
      · rintro (⟨_, rfl⟩ | ⟨_, rfl⟩ | ⟨_, rfl⟩) <;> simp
  have hne : ∀ x h, (0 : (W A).Point) ≠ .some x 0 h := fun x h e => by cases e
  change Nat.card ((kerMul (W A).Point 2 : Set (W A).Point)) = 4
  rw [key, Nat.card_coe_set_eq, Set.ncard_insert_of_notMem, Set.ncard_insert_of_notMem, Set.ncard_pair]
  · simp [hrs]
  · simp [hr0.symm, hs0.symm]
  · simp [hne]

/-- A root of the third division polynomial is the x-coordinate of a point of order three. -/
theorem exists_three (h2 : (2 : K) ≠ 0) (hA : A ^ 2 ≠ 4) {t : K}
    (ht : 3 * t ^ 4 + 4 * A * t ^ 3 + 6 * t ^ 2 - 1 = 0) :
    ∃ T : (W A).Point, Rep ⟨t, 1⟩ T ∧ 3 • T = 0 ∧ T ≠ 0 := by
  obtain ⟨T, hT⟩ := exists_rep (A := A) h2 hA (p := ⟨t, 1⟩) (Or.inr one_ne_zero)
  refine ⟨T, hT, ?_, fun h0 => one_ne_zero (hT.Z_iff.2 h0)⟩
  have h := xTPL_rep h2 (a := A - 2) (c := A + 2) ⟨1, one_ne_zero, by ring, by ring⟩ hT
  refine h.Z_iff.1 ?_
  rw [(xTPL_eq t).2, ht]; ring

theorem card_zmultiples_three {G : Type} [AddCommGroup G] {P : G} (h : 3 • P = 0) (h0 : P ≠ 0) :
    Nat.card (AddSubgroup.zmultiples P) = 3 := by
  rw [Nat.card_zmultiples]
  haveI : Fact (Nat.Prime 3) := ⟨by decide⟩
  exact addOrderOf_eq_prime h h0

open Polynomial in
theorem card_three (h2 : (2 : K) ≠ 0) (h3 : (3 : K) ≠ 0) (hA : A ^ 2 ≠ 4) :
    Nat.card (kerMul (W A).Point 3) = 9 := by
  -- a point of order three
  obtain ⟨c, hc⟩ : ∃ c : K, 3 * c ^ 4 + 4 * A * c ^ 3 + 6 * c ^ 2 - 1 = 0 := by
    have d : (C 3 * X ^ 4 + C (4 * A) * X ^ 3 + C 6 * X ^ 2 - 1 : K[X]).natDegree = 4 := by compute_degree!
    obtain ⟨c, hc⟩ := IsAlgClosed.exists_root (C 3 * X ^ 4 + C (4 * A) * X ^ 3 + C 6 * X ^ 2 - 1 : K[X]) (by
      intro h
      have := natDegree_eq_zero_iff_degree_le_zero.2 h.le
      omega)
    refine ⟨c, ?_⟩
    simp only [IsRoot, eval_add, eval_sub, eval_mul, eval_C, eval_pow, eval_X, eval_one] at hc
    linear_combination hc
  -- another x-coordinate
  obtain ⟨t, ht⟩ : ∃ t : K, 3 * t ^ 3 + (3 * c + 4 * A) * t ^ 2 + (3 * c ^ 2 + 4 * A * c + 6) * t +
      (3 * c ^ 3 + 4 * A * c ^ 2 + 6 * c) = 0 := by
    have d : (C 3 * X ^ 3 + C (3 * c + 4 * A) * X ^ 2 + C (3 * c ^ 2 + 4 * A * c + 6) * X +
      C (3 * c ^ 3 + 4 * A * c ^ 2 + 6 * c) : K[X]).natDegree = 3 := by compute_degree!
    obtain ⟨t, ht⟩ := IsAlgClosed.exists_root (C 3 * X ^ 3 + C (3 * c + 4 * A) * X ^ 2 +
      C (3 * c ^ 2 + 4 * A * c + 6) * X + C (3 * c ^ 3 + 4 * A * c ^ 2 + 6 * c) : K[X]) (by
      intro h
      have := natDegree_eq_zero_iff_degree_le_zero.2 h.le
      omega)
    refine ⟨t, ?_⟩
    simp only [IsRoot, eval_add, eval_mul, eval_C, eval_pow, eval_X] at ht
    linear_combination ht
  have hne : t ≠ c := by
    rintro rfl
    have e : (3 * 4 : K) * (t * (t ^ 2 + A * t + 1)) = 0 := by linear_combination ht
    have e' : t * (t ^ 2 + A * t + 1) = 0 :=
      (mul_eq_zero.1 e).resolve_left (mul_ne_zero h3 (four_ne_zero_of h2))
    obtain ⟨T, hT, hT3, hT0⟩ := exists_three h2 hA hc
    have hd := xDBL_rep h2 (a := A + 2) (c := 4) ⟨1, one_ne_zero, by ring, by ring⟩ hT
    have hz : (xDBL ⟨t, 1⟩ (A + 2) 4).Z = 0 := by
      simp only [xDBL]; linear_combination 16 * e'
    have h2T := hd.Z_iff.1 hz
    apply hT0
    have : (3 : ℕ) • T = 2 • T + T := by rw [show (3 : ℕ) = 2 + 1 from rfl, add_nsmul, one_nsmul]
    rw [hT3, h2T, zero_add] at this
    exact this.symm
  have ht' : 3 * t ^ 4 + 4 * A * t ^ 3 + 6 * t ^ 2 - 1 = 0 := by linear_combination (t - c) * ht + hc
  obtain ⟨P, hP, hP3, hP0⟩ := exists_three h2 hA hc
  obtain ⟨T, hT, hT3, hT0⟩ := exists_three h2 hA ht'
  have hTP : T ∉ AddSubgroup.zmultiples P := by
    rw [zmultiples_three hP3]
    have hx : ∀ Q : (W A).Point, Rep ⟨c, 1⟩ Q → T ≠ Q := by
      rintro Q hQ rfl
      have := (hT.unique hQ).cross
      exact hne (by simpa using this)
    rintro (h | h | h)
    · exact hT0 h
    · exact hx P hP h
    · exact hx (-P) hP.neg h
  obtain ⟨x, _, _, _, hcyc⟩ := cyc3 h2 hA hP3 hP0
  obtain ⟨ψ, _, hψ, hker⟩ := hcyc.exists_hom h2
  let f : kerMul (W A).Point 3 →+ _ := ψ.comp (kerMul (W A).Point 3).subtype
  have hle : ∀ R ∈ ψ.ker, R ∈ kerMul (W A).Point 3 := by
    intro R hx
    rw [hker, AddSubgroup.mem_zmultiples_iff] at hx
    obtain ⟨k, hk⟩ := hx
    rw [mem_kerMul, ← hk, ← natCast_zsmul, ← mul_smul, mul_comm, mul_smul, natCast_zsmul, hP3, zsmul_zero]
  have hfk : Nat.card f.ker = 3 := by
    refine Eq.trans ?_ (card_zmultiples_three hP3 hP0)
    rw [← hker]
    exact Nat.card_congr
      { toFun := fun x => ⟨x.1.1, x.2⟩
        invFun := fun x => ⟨⟨x.1, hle x.1 x.2⟩, x.2⟩
        left_inv := fun x => rfl
        right_inv := fun x => rfl }
  have hfr : f.range = AddSubgroup.zmultiples (ψ T) := by
    apply le_antisymm
    · rintro _ ⟨⟨R, hR⟩, rfl⟩
      change ψ R ∈ _
      by_cases hRP : R ∈ AddSubgroup.zmultiples P
      · rw [← hker, AddMonoidHom.mem_ker] at hRP
        rw [hRP]; exact zero_mem _
      · have h1 := (hψ R _ (rep_xr R)).peq (hcyc.back R hR hRP)
        have h2 := (hψ T _ (rep_xr T)).peq (hcyc.back T hT3 hTP)
        rcases h1.eq_or_neg h2 with e | e
        · rw [e]; exact AddSubgroup.mem_zmultiples _
        · rw [e]; exact neg_mem (AddSubgroup.mem_zmultiples _)
    · rw [AddSubgroup.zmultiples_le]
      exact ⟨⟨T, hT3⟩, rfl⟩
  rw [AddSubgroup.card_eq_card_quotient_mul_card_addSubgroup f.ker, hfk,
    Nat.card_congr (QuotientAddGroup.quotientKerEquivRange f).toEquiv, hfr, card_zmultiples_three]
  · rw [← map_nsmul, hT3, map_zero]
  · intro h
    rw [← AddMonoidHom.mem_ker, hker] at h
    exact hTP h

end curve

variable {F K : Type} [Field F] [DecidableEq F] [Field K] [DecidableEq K] [IsAlgClosed K]

/-- A curve with Frobenius `-p` has `(p + 1)²` points over `F`. -/
theorem Super.card {φ : F →+* K} {σ : K →+* K} {p : ℕ} (hd : FrobData φ σ p) (h2F : (2 : F) ≠ 0) (h3F : (3 : F) ≠ 0)
    {a b : ℕ} (hp : p + 1 = 2 ^ a * 3 ^ b) {A : F} (h : Super φ σ p A) :
    Nat.card (W A).Point = (p + 1) ^ 2 := by
  have h2 := two_map φ h2F
  have h3 : (3 : K) ≠ 0 := by
    have := (map_ne_zero φ).2 h3F
    simpa [map_ofNat] using this
  have hA := sq_ne_four_map φ h.1
  obtain ⟨ι, hinj, hι⟩ := exists_pointMap φ A
  have hr : Set.range ι = (kerMul (W (φ A)).Point (p + 1) : Set _) := by
    ext P
    constructor
    · rintro ⟨X, rfl⟩
      change (p + 1) • ι X = 0
      rw [← map_nsmul, h.kill hd, map_zero]
    · intro hP
      cases P with
      | zero => exact ⟨0, map_zero ι⟩
      | some x y hn =>
        obtain ⟨a, b, rfl, rfl⟩ := h.rational hd (hn := hn) hP
        have hn' : (W A).Nonsingular a b := W_nonsingular h2F h.1 (by
          have := (W_equation _ _ _).1 hn.1
          apply φ.injective
          simpa using this)
        obtain ⟨h', e⟩ := hι a b hn'
        exact ⟨_, e⟩
  have e1 : Nat.card (W A).Point = Nat.card (Set.range ι) := (Nat.card_range_of_injective hinj).symm
  rw [e1, hr]
  change Nat.card (kerMul (W (φ A)).Point (p + 1)) = _
  rw [hp, card_kerMul_mul _ _ (by
      clear hp
      induction b with
      | zero => exact fun x => ⟨x, by simp⟩
      | succ b ih =>
        intro x
        obtain ⟨y, hy⟩ := ih x
        obtain ⟨z, hz⟩ := three_surj h2 hA y
        exact ⟨z, by rw [pow_succ', mul_nsmul, hz, hy]⟩),
    card_kerMul_pow 2 (two_surj h2 hA), card_kerMul_pow 3 (three_surj h2 hA), card_two h2 hA, card_three h2 h3 hA]
  rw [mul_pow, ← pow_mul, ← pow_mul, mul_comm a, mul_comm b, pow_mul, pow_mul]
  norm_num

end Secuer.Curve
