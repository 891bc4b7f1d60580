import Verif.Sidh.Ladder
import Verif.Curve.Square

/-!
# Torsion bases and their images

A basis of the `2^e`-torsion above `(0, 0)` and a basis of the `3^e`-torsion: all kernel generators `P + k Q` are good, and the
images under an isogeny of the other degree are again such bases.
-/

namespace Secuer.Sidh

open Secuer.Curve Secuer.Mont

variable {K : Type} [Field K] [DecidableEq K] {A : K}

theorem away_of_two (h2 : (2 : K) ≠ 0) {X : (W A).Point} (h : 2 • X ≠ 0) : Away X := by
  refine ⟨fun h0 => h (by rw [h0, smul_zero]), fun hx => h ?_⟩
  have := xDBL_rep h2 (is24_std A) (rep_xr X)
  rw [← this.Z_iff]
  simp only [xDBL, hx]
  ring

/-- Two points with x-coordinate zero are equal. -/
theorem eq_of_X_zero (h2 : (2 : K) ≠ 0) {S T : (W A).Point} (hS : S ≠ 0) (hT : T ≠ 0) (h0 : (xr S).X = 0) (h1 : (xr T).X = 0) :
    S = T := by
  have hS2 : 2 • T = 0 := by
    by_contra h
    exact (away_of_two h2 h).2 h1
  have hz : (xr S).Z ≠ 0 := fun e => hS ((rep_xr S).Z_iff.1 e)
  have hz' : (xr T).Z ≠ 0 := fun e => hT ((rep_xr T).Z_iff.1 e)
  have hp : PEq (xr S) (xr T) := peq_of_cross (xr_nz S) (xr_nz T) (by rw [h0, h1]; ring)
  rcases (rep_xr S).eq_or_neg (show Rep (xr S) T from hp.symm) with h | h
  · exact h
  · rw [h, neg_eq_iff_add_eq_zero, ← two_smul ℕ T]; exact hS2

/-- `P`, `Q` generate the `2^e`-torsion and `Q` lies above `(0, 0)`. -/
structure Basis2 (e : ℕ) (P Q : (W A).Point) : Prop where
  pos : 1 < e
  killP : 2 ^ e • P = 0
  killQ : 2 ^ e • Q = 0
  topP : 2 ^ (e - 1) • P ≠ 0
  topQ : 2 ^ (e - 1) • Q ≠ 0
  awayP : (xr (2 ^ (e - 1) • P)).X ≠ 0
  zeroQ : (xr (2 ^ (e - 1) • Q)).X = 0

/-- `P`, `Q` generate the `3^e`-torsion. -/
structure Basis3 (e : ℕ) (P Q : (W A).Point) : Prop where
  pos : 0 < e
  killP : 3 ^ e • P = 0
  killQ : 3 ^ e • Q = 0
  topP : 3 ^ (e - 1) • P ≠ 0
  topQ : 3 ^ (e - 1) • Q ≠ 0
  ne : (3 ^ (e - 1) • P : (W A).Point) ≠ 3 ^ (e - 1) • Q
  ne' : (3 ^ (e - 1) • P : (W A).Point) ≠ -(3 ^ (e - 1) • Q)

section group

variable {G : Type} [AddCommGroup G]

theorem smul_add_zsmul (n : ℕ) (P Q : G) (j : ℤ) : n • (P + j • Q) = n • P + j • (n • Q) := by
  rw [smul_add, smul_comm]

theorem zsmul_two_torsion {T : G} (h : 2 • T = 0) (j : ℤ) : j • T = 0 ∨ j • T = T := by
  have h' : (2 : ℤ) • T = 0 := by rw [← h]; exact natCast_zsmul T 2
  rcases Int.emod_two_eq_zero_or_one j with hj | hj
  · left
    rw [← Int.mul_ediv_add_emod j 2, hj, add_zero, mul_comm, mul_smul, h', smul_zero]
  · right
    rw [← Int.mul_ediv_add_emod j 2, hj, add_smul, mul_comm, mul_smul, h', smul_zero, one_smul, zero_add]

theorem zsmul_three_torsion {T : G} (h : 3 • T = 0) (j : ℤ) : j • T = 0 ∨ j • T = T ∨ j • T = -T := by
  have h' : (3 : ℤ) • T = 0 := by rw [← h]; exact natCast_zsmul T 3
  have e : j • T = (j % 3) • T := by
    conv_lhs => rw [← Int.mul_ediv_add_emod j 3, add_smul, mul_comm, mul_smul, h', smul_zero, zero_add]
  have hr : j % 3 = 0 ∨ j % 3 = 1 ∨ j % 3 = 2 := by omega
  rcases hr with hr | hr | hr
  · left; rw [e, hr, zero_smul]
  · right; left; rw [e, hr, one_smul]
  · right; right
    rw [e, hr, eq_neg_iff_add_eq_zero, ← h', show (3 : ℤ) = 2 + 1 by norm_num, add_smul (2 : ℤ) 1, one_smul]

theorem coprime_kill {T : G} {a b : ℕ} (hab : Nat.Coprime a b) (ha : a • T = 0) (hb : b • T = 0) : T = 0 := by
  have h1 := addOrderOf_dvd_of_nsmul_eq_zero ha
  have h2 := addOrderOf_dvd_of_nsmul_eq_zero hb
  have := Nat.dvd_gcd h1 h2
  rw [hab.gcd_eq_one, Nat.dvd_one] at this
  exact AddMonoid.addOrderOf_eq_one_iff.1 this

end group

theorem Basis2.two_top {e : ℕ} {P Q : (W A).Point} (h : Basis2 e P Q) :
    2 • (2 ^ (e - 1) • P) = 0 ∧ 2 • (2 ^ (e - 1) • Q) = 0 := by
  have he : e - 1 + 1 = e := by have := h.pos; omega
  constructor
  · rw [← mul_nsmul, ← pow_succ, he, h.killP]
  · rw [← mul_nsmul, ← pow_succ, he, h.killQ]

theorem Basis3.three_top {e : ℕ} {P Q : (W A).Point} (h : Basis3 e P Q) :
    3 • (3 ^ (e - 1) • P) = 0 ∧ 3 • (3 ^ (e - 1) • Q) = 0 := by
  have he : e - 1 + 1 = e := by have := h.pos; omega
  constructor
  · rw [← mul_nsmul, ← pow_succ, he, h.killP]
  · rw [← mul_nsmul, ← pow_succ, he, h.killQ]

/-- Every `P + j Q` is an admissible kernel generator. -/
theorem Basis2.good (h2 : (2 : K) ≠ 0) {e : ℕ} {P Q : (W A).Point} (h : Basis2 e P Q) (j : ℤ) : Good2 e (P + j • Q) := by
  obtain ⟨t1, t2⟩ := h.two_top
  refine ⟨by rw [smul_add_zsmul, h.killP, h.killQ, smul_zero, add_zero], fun _ => ?_⟩
  rw [smul_add_zsmul]
  rcases zsmul_two_torsion t2 j with hj | hj
  · rw [hj, add_zero]; exact ⟨h.topP, h.awayP⟩
  · rw [hj]
    have hne : (2 ^ (e - 1) • P + 2 ^ (e - 1) • Q : (W A).Point) ≠ 0 := by
      intro h0
      have e1 : (2 ^ (e - 1) • P : (W A).Point) = 2 ^ (e - 1) • Q := by
        rw [eq_neg_of_add_eq_zero_left h0, neg_eq_iff_add_eq_zero, ← two_smul ℕ]; exact t2
      exact h.awayP (by rw [e1]; exact h.zeroQ)
    refine ⟨hne, fun hx => h.topP ?_⟩
    have := eq_of_X_zero h2 hne h.topQ hx h.zeroQ
    simpa using this

theorem two_ne_of_top {G : Type} [AddCommGroup G] {e : ℕ} (he : 1 < e) {X : G} (h : 2 ^ (e - 1) • X ≠ 0) : 2 • X ≠ 0 := by
  intro h0
  apply h
  obtain ⟨k, rfl⟩ : ∃ k, e = k + 2 := ⟨e - 2, by omega⟩
  rw [show k + 2 - 1 = k + 1 by omega, pow_succ', mul_nsmul, h0, smul_zero]

theorem Basis2.away (h2 : (2 : K) ≠ 0) {e : ℕ} {P Q : (W A).Point} (h : Basis2 e P Q) (j : ℤ) : Away (P + j • Q) :=
  away_of_two h2 (two_ne_of_top h.pos ((h.good h2 j).2 (by have := h.pos; omega)).1)

theorem Basis2.away_Q (h2 : (2 : K) ≠ 0) {e : ℕ} {P Q : (W A).Point} (h : Basis2 e P Q) : Away Q :=
  away_of_two h2 (two_ne_of_top h.pos h.topQ)

theorem Basis2.away_P (h2 : (2 : K) ≠ 0) {e : ℕ} {P Q : (W A).Point} (h : Basis2 e P Q) : Away P := by
  have := h.away h2 0; simpa using this

theorem Basis2.away_PQ (h2 : (2 : K) ≠ 0) {e : ℕ} {P Q : (W A).Point} (h : Basis2 e P Q) : Away (P - Q) := by
  have := h.away h2 (-1); simpa [sub_eq_add_neg] using this

theorem Basis3.good {e : ℕ} {P Q : (W A).Point} (h : Basis3 e P Q) (j : ℤ) : Good3 e (P + j • Q) := by
  obtain ⟨t1, t2⟩ := h.three_top
  refine ⟨by rw [smul_add_zsmul, h.killP, h.killQ, smul_zero, add_zero], fun _ => ?_⟩
  rw [smul_add_zsmul]
  rcases zsmul_three_torsion t2 j with hj | hj | hj
  · rw [hj, add_zero]; exact h.topP
  · rw [hj]; exact fun h0 => h.ne' (eq_neg_of_add_eq_zero_left h0)
  · rw [hj]; exact fun h0 => h.ne (by simpa using eq_neg_of_add_eq_zero_left h0)

theorem two_ne_of_three {G : Type} [AddCommGroup G] {e : ℕ} {X : G} (hk : 3 ^ e • X = 0) (hX : X ≠ 0) : 2 • X ≠ 0 :=
  fun h0 => hX (coprime_kill (Nat.Coprime.pow_right e (by norm_num)) h0 hk)

theorem ne_of_smul_ne {G : Type} [AddCommGroup G] {n : ℕ} {X : G} (h : n • X ≠ 0) : X ≠ 0 :=
  fun h0 => h (by rw [h0, smul_zero])

theorem Basis3.away (h2 : (2 : K) ≠ 0) {e : ℕ} {P Q : (W A).Point} (h : Basis3 e P Q) (j : ℤ) : Away (P + j • Q) :=
  away_of_two h2 (two_ne_of_three (h.good j).1 (ne_of_smul_ne ((h.good j).2 h.pos)))

theorem Basis3.away_Q (h2 : (2 : K) ≠ 0) {e : ℕ} {P Q : (W A).Point} (h : Basis3 e P Q) : Away Q :=
  away_of_two h2 (two_ne_of_three h.killQ (ne_of_smul_ne h.topQ))

theorem Basis3.away_P (h2 : (2 : K) ≠ 0) {e : ℕ} {P Q : (W A).Point} (h : Basis3 e P Q) : Away P := by
  have := h.away h2 0; simpa using this

theorem Basis3.away_PQ (h2 : (2 : K) ≠ 0) {e : ℕ} {P Q : (W A).Point} (h : Basis3 e P Q) : Away (P - Q) := by
  have := h.away h2 (-1); simpa [sub_eq_add_neg] using this

section transfer

variable [IsAlgClosed K] {B : K}

theorem Isog.inj_coprime {d : ℕ} {g : Pt K → Pt K} {ψ : (W A).Point →+ (W B).Point} (hi : Isog d A B g ψ) {n : ℕ}
    (hn : Nat.Coprime d n) {T : (W A).Point} (hT : n • T = 0) (h0 : ψ T = 0) : T = 0 := by
  have hk : T ∈ ψ.ker := h0
  have hd : d • T = 0 := by
    have := card_nsmul_eq_zero' (x := (⟨T, hk⟩ : ψ.ker))
    rw [hi.card] at this
    exact congrArg Subtype.val this
  exact coprime_kill hn hd hT

theorem Basis2.map (h2 : (2 : K) ≠ 0) {e n : ℕ} {P Q : (W A).Point} (h : Basis2 e P Q) {g : Pt K → Pt K}
    {ψ : (W A).Point →+ (W B).Point} (hi : Isog (3 ^ n) A B g ψ) (hf : Fix01 g) : Basis2 e (ψ P) (ψ Q) := by
  obtain ⟨t1, t2⟩ := h.two_top
  have hinj : ∀ T : (W A).Point, 2 • T = 0 → ψ T = 0 → T = 0 := fun T => Isog.inj_coprime hi (Nat.Coprime.pow_left n (by norm_num))
  have tP : ψ (2 ^ (e - 1) • P) ≠ 0 := fun h0 => h.topP (hinj _ t1 h0)
  have tQ : ψ (2 ^ (e - 1) • Q) ≠ 0 := fun h0 => h.topQ (hinj _ t2 h0)
  have hzQ : (xr (2 ^ (e - 1) • Q)).Z ≠ 0 := fun e0 => h.topQ ((rep_xr _).Z_iff.1 e0)
  have r01 : Rep ⟨0, 1⟩ (2 ^ (e - 1) • Q : (W A).Point) :=
    peq_of_cross (xr_nz _) (Or.inr one_ne_zero) (by rw [h.zeroQ]; ring)
  have rQ : Rep ⟨0, 1⟩ (ψ (2 ^ (e - 1) • Q)) := (hi.rep _ _ r01).peq hf.1
  have xQ : (xr (ψ (2 ^ (e - 1) • Q))).X = 0 := rQ.X_iff.1 rfl
  refine ⟨h.pos, by rw [← map_nsmul, h.killP, map_zero], by rw [← map_nsmul, h.killQ, map_zero], ?_, ?_, ?_, ?_⟩ <;>
    rw [← map_nsmul]
  · exact tP
  · exact tQ
  · intro hx
    have e1 := eq_of_X_zero h2 tP tQ hx xQ
    have e2 : ψ (2 ^ (e - 1) • P - 2 ^ (e - 1) • Q) = 0 := by rw [map_sub, e1, sub_self]
    have e3 := hinj _ (by rw [smul_sub, t1, t2, sub_zero]) e2
    exact h.awayP (by rw [sub_eq_zero.1 e3]; exact h.zeroQ)
  · exact xQ

theorem Basis3.map {e n : ℕ} {P Q : (W A).Point} (h : Basis3 e P Q) {g : Pt K → Pt K}
    {ψ : (W A).Point →+ (W B).Point} (hi : Isog (2 ^ n) A B g ψ) : Basis3 e (ψ P) (ψ Q) := by
  obtain ⟨t1, t2⟩ := h.three_top
  have hinj : ∀ T : (W A).Point, 3 • T = 0 → ψ T = 0 → T = 0 := fun T => Isog.inj_coprime hi (Nat.Coprime.pow_left n (by norm_num))
  refine ⟨h.pos, by rw [← map_nsmul, h.killP, map_zero], by rw [← map_nsmul, h.killQ, map_zero], ?_, ?_, ?_, ?_⟩ <;>
    simp only [← map_nsmul]
  · exact fun h0 => h.topP (hinj _ t1 h0)
  · exact fun h0 => h.topQ (hinj _ t2 h0)
  · intro h0
    have := hinj (3 ^ (e - 1) • P - 3 ^ (e - 1) • Q) (by rw [smul_sub, t1, t2, sub_zero]) (by rw [map_sub, h0, sub_self])
    exact h.ne (sub_eq_zero.1 this)
  · intro h0
    have := hinj (3 ^ (e - 1) • P + 3 ^ (e - 1) • Q) (by rw [smul_add, t1, t2, add_zero])
      (by rw [map_add, h0, neg_add_cancel])
    exact h.ne' (eq_neg_of_add_eq_zero_left this)

end transfer

end Secuer.Sidh
