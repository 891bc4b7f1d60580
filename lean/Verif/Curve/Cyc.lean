import Verif.Curve.Kernels
import Mathlib.Tactic.ComputeDegree

/-!
# Cyclic isogenies on x-coordinates

`Cyc ℓ n A A' g P b`: `g` is the x-coordinate map of a separable isogeny from the curve `A` to the curve
`A'` whose kernel is the cyclic group generated by `P`, a point of order exactly `ℓ^n`, and `b` is the
common image (up to sign) of all points of order `ℓ` outside the kernel, the generator of the direction
back.
-/

namespace Secuer.Curve

open Secuer.Mont

variable {K : Type} [Field K] [DecidableEq K] [IsAlgClosed K]

/-- Every point of the target line is hit. -/
def Surj (g : Pt K → Pt K) : Prop := ∀ q, Nz q → ∃ p, Nz p ∧ PEq (g p) q

structure Cyc (ℓ n : ℕ) (A A' : K) (g : Pt K → Pt K) (P : (W A).Point) (b : Pt K) : Prop where
  hom : XHom A A' g
  src : A ^ 2 ≠ 4
  tgt : A' ^ 2 ≠ 4
  ker : ∀ R : (W A).Point, (g (xr R)).Z = 0 ↔ R ∈ AddSubgroup.zmultiples P
  pos : 0 < n
  kill : ℓ ^ n • P = 0
  exact : ℓ ^ (n - 1) • P ≠ 0
  surj : Surj g
  back : ∀ T : (W A).Point, ℓ • T = 0 → T ∉ AddSubgroup.zmultiples P → PEq (g (xr T)) b

omit [DecidableEq K] in
open Polynomial in
theorem exists_eval_eq (N D : K[X]) (h : D.natDegree < N.natDegree) (c : K) :
    ∃ t, N.eval t = c * D.eval t := by
  have hd : (N - C c * D).natDegree = N.natDegree :=
    natDegree_sub_eq_left_of_natDegree_lt (lt_of_le_of_lt (natDegree_C_mul_le _ _) h)
  obtain ⟨t, ht⟩ := IsAlgClosed.exists_root (N - C c * D) (by
    intro h0
    have := natDegree_eq_zero_iff_degree_le_zero.2 h0.le
    omega)
  refine ⟨t, ?_⟩
  rw [IsRoot, eval_sub, eval_mul, eval_C, sub_eq_zero] at ht
  exact ht

omit [DecidableEq K] [IsAlgClosed K] in
/-- Surjectivity from the affine part. -/
theorem surj_of_affine {g : Pt K → Pt K} (h0 : (g ⟨1, 0⟩).Z = 0) (hnz : ∀ p, Nz p → Nz (g p))
    (h : ∀ c, ∃ t, (g ⟨t, 1⟩).X = c * (g ⟨t, 1⟩).Z) : Surj g := by
  intro q hq
  by_cases hz : q.Z = 0
  · refine ⟨⟨1, 0⟩, Or.inl one_ne_zero, peq_of_cross (hnz _ (Or.inl one_ne_zero)) hq ?_⟩
    rw [h0, hz]; ring
  · obtain ⟨t, ht⟩ := h (q.X / q.Z)
    refine ⟨⟨t, 1⟩, Or.inr one_ne_zero, peq_of_cross (hnz _ (Or.inr one_ne_zero)) hq ?_⟩
    rw [ht]; field_simp

omit [DecidableEq K] [IsAlgClosed K] in
theorem Surj.comp {f g : Pt K → Pt K} (hg : Surj g) (hf : Surj f)
    (hc : ∀ p q, PEq p q → PEq (g p) (g q)) : Surj (fun p => g (f p)) := by
  intro q hq
  obtain ⟨r, hr, h1⟩ := hg q hq
  obtain ⟨p, hp, h2⟩ := hf r hr
  exact ⟨p, hp, (hc _ _ h2).trans h1⟩

open Polynomial in
omit [DecidableEq K] in
theorem f2_surj {x : K} (hx : x ≠ 0) (hx1 : x ^ 2 ≠ 1) : Surj (f2 x) := by
  refine surj_of_affine (by simp [f2]) (fun p hp => f2_nz hx hx1 hp) (fun c => ?_)
  have d1 : (C x * X ^ 2 - X : K[X]).natDegree = 2 := by compute_degree!
  have d2 : (X - C x : K[X]).natDegree = 1 := by compute_degree!
  obtain ⟨t, ht⟩ := exists_eval_eq (C x * X ^ 2 - X) (X - C x) (by omega) c
  refine ⟨t, ?_⟩
  simp at ht
  simp only [f2]; linear_combination ht

open Polynomial in
omit [DecidableEq K] in
theorem f3_surj {x : K} (hx : x ≠ 0) (hx1 : x ^ 2 ≠ 1) : Surj (f3 x) := by
  refine surj_of_affine (by simp [f3]) (fun p hp => f3_nz hx hx1 hp) (fun c => ?_)
  have d1 : (C (x ^ 2) * X ^ 3 - C (2 * x) * X ^ 2 + X : K[X]).natDegree = 3 := by
    compute_degree!
  have d2 : (X ^ 2 - C (2 * x) * X + C (x ^ 2) : K[X]).natDegree = 2 := by compute_degree!
  obtain ⟨t, ht⟩ := exists_eval_eq _ _ (by omega : (X ^ 2 - C (2 * x) * X + C (x ^ 2) : K[X]).natDegree <
    (C (x ^ 2) * X ^ 3 - C (2 * x) * X ^ 2 + X : K[X]).natDegree) c
  refine ⟨t, ?_⟩
  simp at ht
  simp only [f3]; linear_combination ht

open Polynomial in
omit [DecidableEq K] in
theorem f4_surj {A x : K} (hx : x ≠ 0) (hxi : x ^ 2 ≠ -1) (hf : XHom A (4 * x ^ 4 - 2) (f4 x)) :
    Surj (f4 x) := by
  refine surj_of_affine (by simp [f4]) hf.nz (fun c => ?_)
  have he : x ^ 2 + 1 ≠ 0 := fun h => hxi (by linear_combination h)
  obtain ⟨N, hN⟩ : ∃ N : K[X], N = C (x ^ 2 * (x ^ 2 + 1)) * X ^ 4 - C (2 * x * (x ^ 2 + 1) + 2 * x ^ 3) * X ^ 3
    + C (x ^ 2 + 1 + 4 * x ^ 2) * X ^ 2 - C (2 * x) * X := ⟨_, rfl⟩
  obtain ⟨D, hD⟩ : ∃ D : K[X], D = C (-2 * x) * X ^ 3 + C (x ^ 2 + 1 + 4 * x ^ 2) * X ^ 2
    - C (2 * x * (x ^ 2 + 1) + 2 * x ^ 3) * X + C (x ^ 2 * (x ^ 2 + 1)) := ⟨_, rfl⟩
  have d1 : N.natDegree = 4 := by
    rw [hN]; compute_degree!
  have d2 : D.natDegree ≤ 3 := by rw [hD]; compute_degree
  obtain ⟨t, ht⟩ := exists_eval_eq N D (by omega) c
  refine ⟨t, ?_⟩
  rw [hN, hD] at ht
  simp only [eval_add, eval_sub, eval_mul, eval_C, eval_pow, eval_X] at ht
  simp only [f4]; linear_combination ht

/-! ### Single steps -/

variable {A : K}

/-- The nonzero points of order dividing two. -/
theorem two_torsion_cases (h2 : (2 : K) ≠ 0) {T : (W A).Point} (h : 2 • T = 0) :
    T = 0 ∨ ∃ t, xr T = ⟨t, 1⟩ ∧ (t = 0 ∨ t ^ 2 + A * t + 1 = 0) := by
  cases T with
  | zero => exact Or.inl rfl
  | some x y hn =>
    right
    refine ⟨x, rfl, ?_⟩
    by_cases hx : x = 0
    · exact Or.inl hx
    · exact Or.inr (torsion2_x h2 h hx)

theorem cyc2 (h2 : (2 : K) ≠ 0) (hA : A ^ 2 ≠ 4) {P : (W A).Point} (h0 : 2 • P = 0) (h1 : P ≠ 0)
    (hx : (xr P).X ≠ 0) :
    ∃ x, xr P = ⟨x, 1⟩ ∧ Cyc 2 1 A (2 - 4 * x ^ 2) (f2 x) P ⟨0, 1⟩ := by
  obtain ⟨x, e, hc, hf, hker⟩ := step2 h2 hA h0 h1 hx
  have hx0 : x ≠ 0 := by rw [e] at hx; exact hx
  have hq : x ^ 2 + A * x + 1 = 0 := by
    rcases two_torsion_cases h2 h0 with h | ⟨t, ht, h⟩
    · exact absurd h h1
    · rw [ht] at e; simp only [Pt.mk.injEq, and_true] at e; subst e; exact h.resolve_left hx0
  have hx1 := sq_ne_one_of hA hq
  refine ⟨x, e, hf, hA, hc, ?_, Nat.one_pos, by simpa using h0, by simpa using h1, f2_surj hx0 hx1, ?_⟩
  · intro R; rw [← hker]; rfl
  · intro T hT hTP
    have hn := hf.nz _ (xr_nz T)
    refine peq_of_cross hn (Or.inr one_ne_zero) ?_
    rcases two_torsion_cases h2 hT with h | ⟨t, ht, h⟩
    · exact absurd (h ▸ zero_mem _) hTP
    · rw [ht]
      simp only [f2]
      rcases h with rfl | h
      · ring
      · have : (t * x - 1) * (t - x) = 0 := by linear_combination x * h - t * hq
        rcases mul_eq_zero.1 this with h' | h'
        · linear_combination t * h'
        · exfalso
          apply hTP
          rw [sub_eq_zero] at h'
          have hxr : PEq (xr T) (xr P) := by rw [ht, e, h']; exact PEq.refl _
          rcases eq_or_neg_of_xr hxr with h3 | h3
          · rw [h3]; exact AddSubgroup.mem_zmultiples _
          · rw [h3]; exact neg_mem (AddSubgroup.mem_zmultiples _)

theorem cyc3 (h2 : (2 : K) ≠ 0) (hA : A ^ 2 ≠ 4) {P : (W A).Point} (h0 : 3 • P = 0) (h1 : P ≠ 0) :
    ∃ x, xr P = ⟨x, 1⟩ ∧ 3 * x ^ 4 + 4 * A * x ^ 3 + 6 * x ^ 2 - 1 = 0 ∧ x ≠ 0 ∧
      Cyc 3 1 A ((A * x - 6 * x ^ 2 + 6) * x) (f3 x) P ⟨-1, 3 * x⟩ := by
  obtain ⟨x, e, hc, hx, hq, hf, hker⟩ := step3 h2 hA h0 h1
  obtain ⟨_, hx1, _⟩ := torsion3_ne h2 hA hq
  refine ⟨x, e, hq, hx, hf, hA, hc, ?_, Nat.one_pos, by simpa using h0, by simpa using h1, f3_surj hx hx1, ?_⟩
  · intro R; rw [← hker]; rfl
  · intro T hT hTP
    have hn := hf.nz _ (xr_nz T)
    cases T with
    | zero => exact absurd (zero_mem _) hTP
    | some t y h =>
      have ht := torsion3_x h2 hT
      have hne : t - x ≠ 0 := by
        intro h'
        apply hTP
        rw [sub_eq_zero] at h'
        have hxr : PEq (xr (.some t y h : (W A).Point)) (xr P) := by rw [xr_some, e, h']; exact PEq.refl _
        rcases eq_or_neg_of_xr hxr with h3 | h3
        · rw [h3]; exact AddSubgroup.mem_zmultiples _
        · rw [h3]; exact neg_mem (AddSubgroup.mem_zmultiples _)
      have hcub : 3 * x ^ 3 * t ^ 3 + (1 - 6 * x ^ 2) * t ^ 2 + x * t + x ^ 2 = 0 := by
        refine (mul_eq_zero.1 (?_ : (t - x) * _ = 0)).resolve_left hne
        linear_combination x ^ 3 * ht - t ^ 3 * hq
      refine peq_of_cross hn (Or.inl (neg_ne_zero.2 one_ne_zero)) ?_
      simp only [f3, xr_some]
      linear_combination hcub

theorem cyc4 (h2 : (2 : K) ≠ 0) (hA : A ^ 2 ≠ 4) {P : (W A).Point} (h0 : 4 • P = 0) (h1 : 2 • P ≠ 0)
    (hx : (xr (2 • P)).X ≠ 0) :
    ∃ x, xr P = ⟨x, 1⟩ ∧ x ≠ 0 ∧ Cyc 2 2 A (4 * x ^ 4 - 2) (f4 x) P ⟨0, 1⟩ := by
  obtain ⟨x, e, hc, hx0, hxi, hq, hd, hf, hker⟩ := step4 h2 h0 h1 hx
  refine ⟨x, e, hx0, hf, hA, hc, ?_, Nat.two_pos, by simpa using h0, by simpa using h1,
    f4_surj hx0 hxi hf, ?_⟩
  · intro R; rw [← hker]; rfl
  · intro T hT hTP
    have hn := hf.nz _ (xr_nz T)
    refine peq_of_cross hn (Or.inr one_ne_zero) ?_
    rcases two_torsion_cases h2 hT with h | ⟨t, ht, h⟩
    · exact absurd (h ▸ zero_mem _) hTP
    · rw [ht]
      simp only [f4]
      rcases h with rfl | h
      · ring
      · have : (t * (x ^ 2 + 1) - 2 * x) * (2 * x * t - (x ^ 2 + 1)) = 0 := by
          linear_combination (2 * x * (x ^ 2 + 1)) * h - t * hq
        rcases mul_eq_zero.1 this with h' | h'
        · linear_combination t * (t * x - 1) ^ 2 * h'
        · exfalso
          apply hTP
          have hxr : PEq (xr T) (xr (2 • P)) := by
            refine PEq.trans (peq_of_cross (xr_nz T) (Or.inr (mul_ne_zero h2 hx0)) ?_) hd.symm
            rw [ht]; simp only; linear_combination h'
          have hm : (2 : ℕ) • P ∈ AddSubgroup.zmultiples P := nsmul_mem (AddSubgroup.mem_zmultiples _) 2
          rcases eq_or_neg_of_xr hxr with h3 | h3
          · rw [h3]; exact hm
          · rw [h3]; exact neg_mem hm

/-! ### Composition -/

theorem Cyc.ker_eq {ℓ n : ℕ} {A' : K} {g : Pt K → Pt K} {P : (W A).Point} {b : Pt K}
    (h : Cyc ℓ n A A' g P b) (h2 : (2 : K) ≠ 0) : h.hom.ker h2 = AddSubgroup.zmultiples P := by
  ext R; exact h.ker R

/-- Composition when the total kernel is known to be cyclic. -/
theorem Cyc.comp_known {ℓ n m : ℕ} {B C : K} {f g : Pt K → Pt K} {P : (W A).Point} {P' : (W B).Point}
    {b b' : Pt K} (h2 : (2 : K) ≠ 0) (hf : Cyc ℓ n A B f (ℓ ^ m • P) b) (hg : Cyc ℓ m B C g P' b')
    (hP' : Rep (f (xr P)) P') : Cyc ℓ (m + n) A C (fun p => g (f p)) P b' := by
  have hker := ker_comp_cyclic hf.hom hg.hom h2 hf.tgt hP' _ (hf.ker_eq h2) (hg.ker_eq h2)
  have hk : ∀ R : (W A).Point, (g (f (xr R))).Z = 0 ↔ R ∈ AddSubgroup.zmultiples P := by
    intro R; rw [← hker]; rfl
  refine ⟨hg.hom.comp hf.hom, hf.src, hg.tgt, hk, Nat.add_pos_left hg.pos _, ?_, ?_,
    hg.surj.comp hf.surj hg.hom.congr, ?_⟩
  · rw [pow_add, mul_nsmul]; exact hf.kill
  · have := hf.exact
    rwa [← mul_nsmul, ← pow_add, ← Nat.add_sub_assoc hf.pos] at this
  · intro T hT hTP
    obtain ⟨T', hT'⟩ := exists_rep h2 hf.tgt (hf.hom.nz _ (xr_nz T))
    have h1 : PEq (g (f (xr T))) (g (xr T')) := (hg.hom.congr _ _ hT').symm
    refine h1.trans (hg.back T' ?_ ?_)
    · have := hf.hom.nsmul h2 (rep_xr T) hT' ℓ (rep_xr _)
      rw [hT] at this
      exact this.Z_iff.1 (hf.hom.infty h2)
    · intro hm
      apply hTP
      rw [← hk T]
      exact h1.symm.Z_iff.2 ((hg.ker T').2 hm)

theorem XHom.zsmul {A' : K} {f : Pt K → Pt K} (hf : XHom A A' f) (h2 : (2 : K) ≠ 0) {P : (W A).Point}
    {P' : (W A').Point} {p : Pt K} (hp : Rep p P) (hp' : Rep (f p) P') (k : ℤ) {q : Pt K}
    (hq : Rep q (k • P)) : Rep (f q) (k • P') := by
  rcases Int.natAbs_eq k with hk | hk
  · rw [hk, natCast_zsmul] at hq ⊢
    exact hf.nsmul h2 hp hp' _ hq
  · rw [hk, neg_smul, natCast_zsmul] at hq ⊢
    have hq' := hq.neg
    rw [neg_neg] at hq'
    exact (hf.nsmul h2 hp hp' _ hq').neg

/-- Composition when the second map does not kill the backtracking point of the first. -/
theorem Cyc.comp_back {ℓ n m : ℕ} (hℓ : ℓ.Prime) {B C : K} {f g : Pt K → Pt K} {P₁ : (W A).Point}
    {P₂ : (W B).Point} {b b' : Pt K} (h2 : (2 : K) ≠ 0) (hf : Cyc ℓ n A B f P₁ b) (hg : Cyc ℓ m B C g P₂ b')
    (hb : (g b).Z ≠ 0) :
    ∃ P, Cyc ℓ (n + m) A C (fun p => g (f p)) P (g b) ∧ Rep (f (xr P)) P₂ := by
  obtain ⟨p, hp, hpP⟩ := hf.surj (xr P₂) (xr_nz _)
  obtain ⟨P, hP⟩ := exists_rep h2 hf.src hp
  have hfP : Rep (f (xr P)) P₂ := (PEq.symm hpP).trans (hf.hom.congr _ _ hP).symm
  have hmul : ∀ j : ℕ, Rep (f (xr (j • P))) (j • P₂) := fun j =>
    hf.hom.nsmul h2 (rep_xr P) hfP j (rep_xr _)
  have hk : ℓ ^ m • P ∈ AddSubgroup.zmultiples P₁ := by
    rw [← hf.ker, (hmul _).Z_iff]; exact hg.kill
  obtain ⟨k, hk⟩ := AddSubgroup.mem_zmultiples_iff.1 hk
  have hmpos := hg.pos
  have hnpos := hf.pos
  have hndvd : ¬ (ℓ : ℤ) ∣ k := by
    rintro ⟨k', rfl⟩
    set T := ℓ ^ (m - 1) • P - k' • P₁ with hT
    have hTl : ℓ • T = 0 := by
      rw [hT, smul_sub, ← mul_nsmul, ← pow_succ, Nat.sub_add_cancel hmpos, ← hk, mul_smul, natCast_zsmul,
        sub_self]
    have hfT : PEq (f (xr T)) (f (xr (ℓ ^ (m - 1) • P))) := by
      refine (hf.hom.fibre h2 hf.tgt _ _).2 (Or.inr ?_)
      rw [hf.ker_eq h2, hT, sub_sub_cancel_left]
      exact neg_mem (AddSubgroup.zsmul_mem_zmultiples _ _)
    have hTk : T ∉ AddSubgroup.zmultiples P₁ := by
      rw [← hf.ker, hfT.symm.Z_iff, (hmul _).Z_iff]; exact hg.exact
    have hbT := hf.back T hTl hTk
    have hbr : Rep b (ℓ ^ (m - 1) • P₂) := (hmul _).peq (hfT.symm.trans hbT)
    apply hb
    rw [(hg.hom.congr _ _ hbr).Z_iff, hg.ker]
    exact nsmul_mem (AddSubgroup.mem_zmultiples _) _
  have hcop : IsCoprime k ((ℓ : ℤ) ^ n) := by
    apply IsCoprime.pow_right
    rw [Int.isCoprime_iff_gcd_eq_one, Int.gcd_comm]
    have := (Int.isCoprime_iff_gcd_eq_one.1 ((Nat.prime_iff_prime_int.1 hℓ).coprime_iff_not_dvd.2 hndvd))
    exact this
  obtain ⟨u, v, huv⟩ := hcop
  have hP1 : P₁ = u • (k • P₁) := by
    have : (u * k + v * (ℓ : ℤ) ^ n) • P₁ = P₁ := by rw [huv, one_smul]
    rw [add_smul, mul_smul, mul_smul] at this
    have hz : ((ℓ : ℤ) ^ n) • P₁ = 0 := by
      rw [← hf.kill, ← natCast_zsmul]; push_cast; rfl
    rw [hz, smul_zero, add_zero] at this
    exact this.symm
  have hle : AddSubgroup.zmultiples P₁ ≤ AddSubgroup.zmultiples P := by
    rw [AddSubgroup.zmultiples_le, hP1, hk]
    exact zsmul_mem (nsmul_mem (AddSubgroup.mem_zmultiples _) _) _
  have hker := ker_comp hf.hom hg.hom h2 hf.tgt hfP (AddSubgroup.zmultiples P) (by rw [hf.ker_eq h2]; exact hle)
    (by rw [hf.ker_eq h2]; exact (sup_eq_left.2 hle).symm) (hg.ker_eq h2)
  have hkk : ∀ R : (W A).Point, (g (f (xr R))).Z = 0 ↔ R ∈ AddSubgroup.zmultiples P := by
    intro R; rw [← hker]; rfl
  refine ⟨P, ⟨hg.hom.comp hf.hom, hf.src, hg.tgt, hkk, Nat.add_pos_left hnpos _, ?_, ?_,
    hg.surj.comp hf.surj hg.hom.congr, ?_⟩, hfP⟩
  · rw [add_comm, pow_add, mul_nsmul, ← hk, smul_comm, hf.kill, smul_zero]
  · intro h0
    apply hf.exact
    rw [hP1, hk, smul_comm]
    have : n + m - 1 = m + (n - 1) := by omega
    rw [this, pow_add, mul_nsmul] at h0
    rw [h0, smul_zero]
  · intro T hT hTP
    exact hg.hom.congr _ _ (hf.back T hT (fun h => hTP (hle h)))

/-! ### Isomorphisms -/

/-- `i` is the x-coordinate map of an isomorphism. -/
structure IsoX (A B : K) (i : Pt K → Pt K) : Prop where
  hom : XHom A B i
  src : A ^ 2 ≠ 4
  tgt : B ^ 2 ≠ 4
  inj : ∀ p, (i p).Z = 0 ↔ p.Z = 0
  surj : Surj i

theorem Cyc.pre_iso {ℓ n : ℕ} {B C : K} {i g : Pt K → Pt K} {P₂ : (W B).Point} {b : Pt K} (h2 : (2 : K) ≠ 0)
    (hi : IsoX A B i) (hg : Cyc ℓ n B C g P₂ b) {P : (W A).Point} (hiP : Rep (i (xr P)) P₂) :
    Cyc ℓ n A C (fun p => g (i p)) P b := by
  have hki : hi.hom.ker h2 = ⊥ := by
    ext R
    show (i (xr R)).Z = 0 ↔ _
    rw [hi.inj, (rep_xr R).Z_iff]; rfl
  have hker := ker_comp hi.hom hg.hom h2 hi.tgt hiP (AddSubgroup.zmultiples P) (by rw [hki]; exact bot_le)
    (by rw [hki, sup_bot_eq]) (hg.ker_eq h2)
  have hkk : ∀ R : (W A).Point, (g (i (xr R))).Z = 0 ↔ R ∈ AddSubgroup.zmultiples P := by
    intro R; rw [← hker]; rfl
  have hz : ∀ j : ℕ, j • P₂ = 0 ↔ j • P = 0 := by
    intro j
    have := hi.hom.nsmul h2 (rep_xr P) hiP j (rep_xr _)
    rw [← this.Z_iff, hi.inj, (rep_xr (j • P)).Z_iff]
  refine ⟨hg.hom.comp hi.hom, hi.src, hg.tgt, hkk, hg.pos, (hz _).1 hg.kill, fun h => hg.exact ((hz _).2 h),
    hg.surj.comp hi.surj hg.hom.congr, ?_⟩
  intro T hT hTP
  obtain ⟨T', hT'⟩ := exists_rep h2 hi.tgt (hi.hom.nz _ (xr_nz T))
  have h1 : PEq (g (i (xr T))) (g (xr T')) := (hg.hom.congr _ _ hT').symm
  refine h1.trans (hg.back T' ?_ ?_)
  · have := hi.hom.nsmul h2 (rep_xr T) hT' ℓ (rep_xr _)
    rw [hT] at this
    exact this.Z_iff.1 (hi.hom.infty h2)
  · intro hm
    apply hTP
    rw [← hkk T]
    exact h1.symm.Z_iff.2 ((hg.ker T').2 hm)

/-- The order of the kernel. -/
theorem Cyc.addOrderOf {ℓ n : ℕ} (hℓ : ℓ.Prime) {C : K} {g : Pt K → Pt K} {P : (W A).Point} {b : Pt K}
    (h : Cyc ℓ n A C g P b) : addOrderOf P = ℓ ^ n := by
  have := h.pos
  obtain ⟨m, rfl⟩ : ∃ m, n = m + 1 := ⟨n - 1, by omega⟩
  have hf : Fact ℓ.Prime := ⟨hℓ⟩
  exact addOrderOf_eq_prime_pow h.exact h.kill

/-! ### Which model of the target is produced -/

/-- `g` sends every point whose double is a point of order two outside `⟨P⟩` to a point with x-coordinate one. -/
def Norm2 (g : Pt K → Pt K) (P : (W A).Point) : Prop :=
  ∀ H : (W A).Point, 4 • H = 0 → 2 • H ∉ AddSubgroup.zmultiples P → PEq (g (xr H)) ⟨1, 1⟩

/-- `g` fixes the x-coordinates zero and one. -/
def Fix01 (g : Pt K → Pt K) : Prop := PEq (g ⟨0, 1⟩) ⟨0, 1⟩ ∧ PEq (g ⟨1, 1⟩) ⟨1, 1⟩

theorem norm2_f4 (h2 : (2 : K) ≠ 0) {x : K} {P : (W A).Point} {b : Pt K} (h0 : 4 • P = 0) (h1 : 2 • P ≠ 0)
    (hx : (xr (2 • P)).X ≠ 0) (hc : Cyc 2 2 A (4 * x ^ 4 - 2) (f4 x) P b) : Norm2 (f4 x) P := by
  intro H hH hHP
  have hx1 : x ^ 2 ≠ 1 := by
    intro h
    apply hc.tgt
    have : x ^ 4 = 1 := by rw [show x ^ 4 = (x ^ 2) ^ 2 by ring, h, one_pow]
    rw [this]; norm_num
  have aux : ∀ {H : (W A).Point}, 4 • H = 0 → (xr (2 • H)).X = 0 → PEq (f4 x (xr H)) ⟨1, 1⟩ := by
    intro H hH hHx
    obtain ⟨c, -, e0, -, -⟩ := as_points (A := A) h2 H H
    rw [← two_nsmul, hHx, zero_mul, mul_zero] at e0
    cases H with
    | zero => simp [b0, xr] at e0
    | some t y hn =>
      simp only [b0, xr_some] at e0 ⊢
      have e := pow_eq_zero_iff (two_ne_zero) |>.1 e0
      have : (t - 1) * (t + 1) = 0 := by linear_combination e
      rcases mul_eq_zero.1 this with h | h
      · rw [show t = 1 by linear_combination h]
        have hne : (x - 1) ^ 4 ≠ 0 := pow_ne_zero _ fun h => hx1 (by linear_combination (x + 1) * h)
        exact PEq.symm ⟨(x - 1) ^ 4, hne, by simp only [f4]; ring, by simp only [f4]; ring⟩
      · rw [show t = -1 by linear_combination h]
        have hne : (x + 1) ^ 4 ≠ 0 := pow_ne_zero _ fun h => hx1 (by linear_combination (x - 1) * h)
        exact PEq.symm ⟨(x + 1) ^ 4, hne, by simp only [f4]; ring, by simp only [f4]; ring⟩
  have hT : 2 • (2 • H) = 0 := by rw [← mul_nsmul]; exact hH
  have hP2 : 2 • (2 • P) = 0 := by rw [← mul_nsmul]; exact h0
  rcases two_torsion_cases h2 hT with h | ⟨t, ht, ht'⟩
  · exact absurd (h ▸ zero_mem _) hHP
  rcases ht' with ht' | ht'
  · exact aux hH (by rw [ht, ht'])
  rcases two_torsion_cases h2 hP2 with h | ⟨s, hs, hs'⟩
  · exact absurd h h1
  rcases hs' with hs' | hs'
  · rw [hs, hs'] at hx; exact absurd rfl hx
  have hts : t - s ≠ 0 := by
    intro h
    have : PEq (xr (2 • H)) (xr (2 • P)) := by rw [ht, hs, sub_eq_zero.1 h]; exact PEq.refl _
    have hm : (2 : ℕ) • P ∈ AddSubgroup.zmultiples P := nsmul_mem (AddSubgroup.mem_zmultiples P) 2
    rcases eq_or_neg_of_xr this with e | e
    · rw [e] at hHP; exact hHP hm
    · rw [e] at hHP; exact hHP (neg_mem hm)
  have hsum : t + s + A = 0 := by
    apply mul_left_cancel₀ hts
    linear_combination ht' - hs'
  have hprod : t * s = 1 := by
    linear_combination t * hsum - ht'
  have h4 : 4 • (H + P) = 0 := by rw [nsmul_add, hH, h0, add_zero]
  have hX : (xr (2 • (H + P))).X = 0 := by
    obtain ⟨c, hc0, e0, -, -⟩ := as_points (A := A) h2 (2 • H) (2 • P)
    have hneg : 2 • H - 2 • P = 2 • (H + P) := by
      rw [nsmul_add, sub_eq_add_neg]
      congr 1
      rw [neg_eq_iff_add_eq_zero, ← two_nsmul]; exact hP2
    rw [hneg, ← nsmul_add, ht, hs] at e0
    simp only [b0, mul_one, hprod, sub_self] at e0
    have : (xr (2 • (H + P))).X * (xr (2 • (H + P))).X = 0 := by
      rcases mul_eq_zero.1 (e0.symm.trans (by ring)) with h | h
      · exact absurd h hc0
      · exact h
    exact mul_self_eq_zero.1 this
  refine PEq.trans ?_ (aux h4 hX)
  rw [hc.hom.fibre h2 hc.tgt]
  right
  show (f4 x (xr _)).Z = 0
  rw [hc.ker, sub_add_cancel_left]
  exact neg_mem (AddSubgroup.mem_zmultiples P)

/-- The normalisation is that of the last map. -/
theorem Norm2.pre {ℓ n m : ℕ} {B C : K} {f g : Pt K → Pt K} {P : (W A).Point} {P' : (W B).Point} {b b' : Pt K}
    (h2 : (2 : K) ≠ 0) (hB : B ^ 2 ≠ 4) (hf : XHom A B f) (hg : Cyc ℓ n B C g P' b)
    (hc : Cyc ℓ m A C (fun p => g (f p)) P b') (hn : Norm2 g P') : Norm2 (fun p => g (f p)) P := by
  intro H hH hHP
  obtain ⟨H', hH'⟩ := exists_rep (A := B) h2 hB (hf.nz _ (xr_nz H))
  refine PEq.trans (hg.hom.congr _ _ hH').symm (hn H' ?_ fun hm => hHP ?_)
  · have := hf.nsmul h2 (rep_xr H) hH' 4 (rep_xr _)
    rw [hH] at this
    exact this.Z_iff.1 (hf.infty h2)
  · rw [← hc.ker]
    have := hf.nsmul h2 (rep_xr H) hH' 2 (rep_xr _)
    exact (hg.hom.congr _ _ this).Z_iff.2 ((hg.ker _).2 hm)

omit [DecidableEq K] [IsAlgClosed K] in
theorem fix01_f3 {x : K} (hx : x ≠ 0) (hx1 : x ≠ 1) : Fix01 (f3 x) := by
  refine ⟨PEq.symm ⟨x ^ 2, pow_ne_zero _ hx, by simp [f3], by simp [f3]⟩,
    PEq.symm ⟨(x - 1) ^ 2, pow_ne_zero _ (sub_ne_zero.2 hx1), by simp only [f3]; ring, by simp only [f3]; ring⟩⟩

omit [DecidableEq K] [IsAlgClosed K] in
theorem Fix01.comp {f g : Pt K → Pt K} (hg : Fix01 g) (hf : Fix01 f)
    (hc : ∀ p q, PEq p q → PEq (g p) (g q)) : Fix01 (fun p => g (f p)) :=
  ⟨(hc _ _ hf.1).trans hg.1, (hc _ _ hf.2).trans hg.2⟩

end Secuer.Curve
