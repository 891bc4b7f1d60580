import Verif.Curve.BaseChange

/-!
# Isogeny steps over an algebraically closed field: kernels and images of generators
-/

namespace Secuer.Curve

open Secuer.Mont

variable {K : Type} [Field K] [DecidableEq K] [IsAlgClosed K] {A : K}

theorem zmultiples_three {G : Type} [AddCommGroup G] {P : G} (h : 3 • P = 0) (R : G) :
    R ∈ AddSubgroup.zmultiples P ↔ R = 0 ∨ R = P ∨ R = -P := by
  rw [AddSubgroup.mem_zmultiples_iff]
  constructor
  · rintro ⟨k, rfl⟩
    have hz : (3 : ℤ) • P = 0 := by rw [← h, ← natCast_zsmul]; rfl
    have h3 : k = 3 * (k / 3) + k % 3 := by omega
    have hk : k • P = (k % 3) • P := by
      conv_lhs => rw [h3]
      rw [add_smul, mul_comm, mul_smul, hz, smul_zero, zero_add]
    rw [hk]
    have h0 := Int.emod_nonneg k (by norm_num : (3 : ℤ) ≠ 0)
    have h1 := Int.emod_lt_of_pos k (by norm_num : (0 : ℤ) < 3)
    obtain h | h | h : k % 3 = 0 ∨ k % 3 = 1 ∨ k % 3 = 2 := by omega
    · left; rw [h, zero_smul]
    · right; left; rw [h, one_smul]
    · right; right; rw [h, eq_neg_iff_add_eq_zero, ← hz]
      rw [show (3 : ℤ) = 2 + 1 from rfl, add_smul, one_smul]
  · rintro (rfl | rfl | rfl)
    · exact ⟨0, zero_smul _ _⟩
    · exact ⟨1, one_smul _ _⟩
    · exact ⟨-1, by simp⟩

theorem zmultiples_two {G : Type} [AddCommGroup G] {P : G} (h : 2 • P = 0) (R : G) :
    R ∈ AddSubgroup.zmultiples P ↔ R = 0 ∨ R = P := by
  rw [AddSubgroup.mem_zmultiples_iff]
  constructor
  · rintro ⟨k, rfl⟩
    have hz : (2 : ℤ) • P = 0 := by rw [← h, ← natCast_zsmul]; rfl
    have h3 : k = 2 * (k / 2) + k % 2 := by omega
    have hk : k • P = (k % 2) • P := by
      conv_lhs => rw [h3]
      rw [add_smul, mul_comm, mul_smul, hz, smul_zero, zero_add]
    rw [hk]
    obtain h | h : k % 2 = 0 ∨ k % 2 = 1 := by omega
    · left; rw [h, zero_smul]
    · right; rw [h, one_smul]
  · rintro (rfl | rfl)
    · exact ⟨0, zero_smul _ _⟩
    · exact ⟨1, one_smul _ _⟩

theorem zmultiples_four {G : Type} [AddCommGroup G] {P : G} (h : 4 • P = 0) (R : G) :
    R ∈ AddSubgroup.zmultiples P ↔ R = 0 ∨ R = P ∨ R = -P ∨ R = 2 • P := by
  rw [AddSubgroup.mem_zmultiples_iff]
  constructor
  · rintro ⟨k, rfl⟩
    have hz : (4 : ℤ) • P = 0 := by rw [← h, ← natCast_zsmul]; rfl
    have h3 : k = 4 * (k / 4) + k % 4 := by omega
    have hk : k • P = (k % 4) • P := by
      conv_lhs => rw [h3]
      rw [add_smul, mul_comm, mul_smul, hz, smul_zero, zero_add]
    rw [hk]
    obtain h | h | h | h : k % 4 = 0 ∨ k % 4 = 1 ∨ k % 4 = 2 ∨ k % 4 = 3 := by omega
    · left; rw [h, zero_smul]
    · right; left; rw [h, one_smul]
    · right; right; right; rw [h, ← natCast_zsmul]; rfl
    · right; right; left; rw [h, eq_neg_iff_add_eq_zero, ← hz]
      rw [show (4 : ℤ) = 3 + 1 from rfl, add_smul, one_smul]
  · rintro (rfl | rfl | rfl | rfl)
    · exact ⟨0, zero_smul _ _⟩
    · exact ⟨1, one_smul _ _⟩
    · exact ⟨-1, by simp⟩
    · exact ⟨2, by rw [← natCast_zsmul]; rfl⟩

/-- Points with the same finite x-coordinate. -/
theorem eq_or_neg_some {x y : K} {h : (W A).Nonsingular x y} {R : (W A).Point} :
    (R = .some x y h ∨ R = -.some x y h) ↔ PEq (xr R) ⟨x, 1⟩ := by
  constructor
  · rintro (rfl | rfl)
    · exact PEq.refl _
    · rw [xr_neg]; exact PEq.refl _
  · intro hp
    exact eq_or_neg_of_xr (Q := .some x y h) hp

/-- A nonzero multiple: the kernel of a composite is generated by `P` if the first kernel is generated by a
multiple of `P` and the second by the image of `P`. -/
theorem ker_comp {B C : K} {f g : Pt K → Pt K} (hf : XHom A B f) (hg : XHom B C g) (h2 : (2 : K) ≠ 0)
    (hB : B ^ 2 ≠ 4) {P : (W A).Point} {P' : (W B).Point} (hP' : Rep (f (xr P)) P')
    (H : AddSubgroup (W A).Point) (hkf : hf.ker h2 ≤ H) (hPH : H = AddSubgroup.zmultiples P ⊔ hf.ker h2)
    (hkg : hg.ker h2 = AddSubgroup.zmultiples P') : (hg.comp hf).ker h2 = H := by
  have mult : ∀ (k : ℤ) (q : Pt K), Rep q (k • P) → Rep (f q) (k • P') := by
    intro k q hq
    rcases Int.natAbs_eq k with hk | hk
    · rw [hk, natCast_zsmul] at hq ⊢
      exact hf.nsmul h2 (rep_xr P) hP' _ hq
    · rw [hk, neg_smul, natCast_zsmul] at hq ⊢
      have hq' := hq.neg
      rw [neg_neg] at hq'
      exact (hf.nsmul h2 (rep_xr P) hP' _ hq').neg
  ext R
  obtain ⟨R', hR'⟩ := exists_rep h2 hB (hf.nz _ (xr_nz R))
  have e1 : R ∈ (hg.comp hf).ker h2 ↔ R' ∈ hg.ker h2 := by
    show (g (f (xr R))).Z = 0 ↔ (g (xr R')).Z = 0
    exact (hg.congr _ _ hR').Z_iff
  rw [e1, hkg]
  constructor
  · intro h
    obtain ⟨k, rfl⟩ := AddSubgroup.mem_zmultiples_iff.1 h
    have h1 := mult k _ (rep_xr (k • P))
    have h3 : PEq (f (xr R)) (f (xr (k • P))) := hR'.symm.trans h1
    have hkP : k • P ∈ H := by
      rw [hPH]; exact AddSubgroup.mem_sup_left (AddSubgroup.zsmul_mem_zmultiples P k)
    rcases (hf.fibre h2 hB _ _).1 h3 with h4 | h4
    · have := H.sub_mem (hkf h4) hkP
      simpa using this
    · have := H.add_mem (hkf h4) hkP
      simpa using this
  · intro h
    rw [hPH] at h
    obtain ⟨a, ha, b, hb, rfl⟩ := AddSubgroup.mem_sup.1 h
    obtain ⟨k, rfl⟩ := AddSubgroup.mem_zmultiples_iff.1 ha
    have h1 := mult k _ (rep_xr (k • P))
    have h3 : PEq (f (xr (k • P + b))) (f (xr (k • P))) := by
      refine (hf.fibre h2 hB _ _).2 (Or.inr ?_)
      simpa using hb
    have h4 : Rep (f (xr (k • P + b))) (k • P') := h1.peq h3.symm
    rcases hR'.eq_or_neg h4 with h5 | h5
    · rw [h5]; exact AddSubgroup.zsmul_mem_zmultiples _ _
    · rw [h5]; exact AddSubgroup.neg_mem _ (AddSubgroup.zsmul_mem_zmultiples _ _)

/-- The kernel of a composite with cyclic pieces. -/
theorem ker_comp_cyclic {B C : K} {f g : Pt K → Pt K} (hf : XHom A B f) (hg : XHom B C g) (h2 : (2 : K) ≠ 0)
    (hB : B ^ 2 ≠ 4) {P : (W A).Point} {P' : (W B).Point} (hP' : Rep (f (xr P)) P') (m : ℕ)
    (hkf : hf.ker h2 = AddSubgroup.zmultiples (m • P)) (hkg : hg.ker h2 = AddSubgroup.zmultiples P') :
    (hg.comp hf).ker h2 = AddSubgroup.zmultiples P := by
  have hle : hf.ker h2 ≤ AddSubgroup.zmultiples P := by
    rw [hkf, AddSubgroup.zmultiples_le]
    exact AddSubgroup.nsmul_mem _ (AddSubgroup.mem_zmultiples P) m
  exact ker_comp hf hg h2 hB hP' _ hle (sup_eq_left.2 hle).symm hkg

/-! ### Degree two -/

/-- The 2-isogeny step at a point of order two other than `(0, 0)`. -/
theorem step2 (h2 : (2 : K) ≠ 0) (hA : A ^ 2 ≠ 4) {P : (W A).Point} (h0 : 2 • P = 0) (h1 : P ≠ 0)
    (hx : (xr P).X ≠ 0) :
    ∃ x, xr P = ⟨x, 1⟩ ∧ (2 - 4 * x ^ 2) ^ 2 ≠ 4 ∧
      ∃ hf : XHom A (2 - 4 * x ^ 2) (f2 x), hf.ker h2 = AddSubgroup.zmultiples P := by
  cases P with
  | zero => exact absurd rfl h1
  | some x y h =>
    simp only [xr_some] at hx
    have hq := torsion2_x h2 h0 hx
    have hx1 := sq_ne_one_of hA hq
    have h4 := four_ne_zero_of h2
    refine ⟨x, rfl, ?_, XHom.two hx hx1 hq, ?_⟩
    · intro he
      have : (16 : K) * (x ^ 2 * (x ^ 2 - 1)) = 0 := by linear_combination he
      rcases mul_eq_zero.1 this with h' | h'
      · have : (16 : K) = 4 * 4 := by norm_num
        rw [this] at h'
        exact mul_ne_zero h4 h4 h'
      · rcases mul_eq_zero.1 h' with h' | h'
        · exact hx (pow_eq_zero_iff (by norm_num) |>.1 h')
        · exact hx1 (by linear_combination h')
    · ext R
      rw [zmultiples_two h0]
      show (f2 x (xr R)).Z = 0 ↔ _
      cases R with
      | zero => exact ⟨fun _ => Or.inl rfl, fun _ => by simp [f2, xr]⟩
      | some x' y' h' =>
        have hn : -(.some x y h : (W A).Point) = .some x y h := by
          rw [neg_eq_iff_add_eq_zero, ← two_nsmul]; exact h0
        have := eq_or_neg_some (h := h) (R := .some x' y' h')
        rw [hn, or_self] at this
        rw [this]
        simp only [f2, xr_some, one_mul]
        constructor
        · intro e
          right; rw [sub_eq_zero.1 e]; exact PEq.refl _
        · rintro (e | e)
          · exact absurd e (WeierstrassCurve.Affine.Point.some_ne_zero h')
          · have := e.cross; simp at this; rw [this]; ring

/-! ### Degree three -/

theorem step3 (h2 : (2 : K) ≠ 0) (hA : A ^ 2 ≠ 4) {P : (W A).Point} (h0 : 3 • P = 0) (h1 : P ≠ 0) :
    ∃ x, xr P = ⟨x, 1⟩ ∧ ((A * x - 6 * x ^ 2 + 6) * x) ^ 2 ≠ 4 ∧ x ≠ 0 ∧
      3 * x ^ 4 + 4 * A * x ^ 3 + 6 * x ^ 2 - 1 = 0 ∧
      ∃ hf : XHom A ((A * x - 6 * x ^ 2 + 6) * x) (f3 x), hf.ker h2 = AddSubgroup.zmultiples P := by
  cases P with
  | zero => exact absurd rfl h1
  | some x y h =>
    have hq := torsion3_x h2 h0
    obtain ⟨hx, hx1, hc⟩ := torsion3_ne h2 hA hq
    refine ⟨x, rfl, hc, hx, hq, XHom.three h2 hx hx1 hq, ?_⟩
    ext R
    rw [zmultiples_three h0]
    show (f3 x (xr R)).Z = 0 ↔ _
    cases R with
    | zero => exact ⟨fun _ => Or.inl rfl, fun _ => by simp [f3, xr]⟩
    | some x' y' h' =>
      rw [eq_or_neg_some]
      simp only [f3, xr_some, one_mul]
      constructor
      · intro e
        right; rw [sub_eq_zero.1 (pow_eq_zero_iff (by norm_num) |>.1 e)]; exact PEq.refl _
      · rintro (e | e)
        · exact absurd e (WeierstrassCurve.Affine.Point.some_ne_zero h')
        · have := e.cross; simp at this; rw [this]; ring

/-! ### Degree four -/

theorem step4 (h2 : (2 : K) ≠ 0) {P : (W A).Point} (h0 : 4 • P = 0) (h1 : 2 • P ≠ 0)
    (hx : (xr (2 • P)).X ≠ 0) :
    ∃ x, xr P = ⟨x, 1⟩ ∧ (4 * x ^ 4 - 2) ^ 2 ≠ 4 ∧ x ≠ 0 ∧ x ^ 2 ≠ -1 ∧
      x ^ 4 + 6 * x ^ 2 + 1 + 2 * A * x * (x ^ 2 + 1) = 0 ∧
      PEq (xr (2 • P)) ⟨x ^ 2 + 1, 2 * x⟩ ∧
      ∃ hf : XHom A (4 * x ^ 4 - 2) (f4 x), hf.ker h2 = AddSubgroup.zmultiples P := by
  cases P with
  | zero => exact absurd (smul_zero 2) h1
  | some x y h =>
    obtain ⟨hq, hx0, hx1, hxi, hc⟩ := torsion4_x h2 h0 h1 hx
    have hd : PEq (xr (2 • (.some x y h : (W A).Point))) ⟨x ^ 2 + 1, 2 * x⟩ := by
      have hd := xDBL_rep h2 (is24_std A) (rep_xr (.some x y h : (W A).Point))
      refine PEq.trans hd (peq_of_cross hd.nz (Or.inr (mul_ne_zero h2 hx0)) ?_)
      simp only [xDBL, xr_some]
      linear_combination (-8 * x) * hq
    refine ⟨x, rfl, hc, hx0, hxi, hq, hd, XHom.four h2 hx0 hx1 hxi hq, ?_⟩
    ext R
    rw [zmultiples_four h0]
    show (f4 x (xr R)).Z = 0 ↔ _
    cases R with
    | zero => exact ⟨fun _ => Or.inl rfl, fun _ => by simp [f4, xr]⟩
    | some x' y' h' =>
      have hn : -((2 : ℕ) • (.some x y h : (W A).Point)) = (2 : ℕ) • .some x y h := by
        rw [neg_eq_iff_add_eq_zero, ← add_nsmul]; exact h0
      have e2 : (.some x' y' h' : (W A).Point) = (2 : ℕ) • .some x y h ↔ PEq ⟨x', 1⟩ ⟨x ^ 2 + 1, 2 * x⟩ := by
        constructor
        · intro e
          have : PEq (xr (.some x' y' h' : (W A).Point)) (xr (2 • (.some x y h : (W A).Point))) := by
            rw [e]; exact PEq.refl _
          exact this.trans hd
        · intro e
          have := eq_or_neg_of_xr (P := .some x' y' h') (e.trans hd.symm)
          rwa [hn, or_self] at this
      rw [← or_assoc (a := _ = _) (b := _ = -_), eq_or_neg_some, e2]
      simp only [f4, xr_some, one_mul]
      constructor
      · intro e
        rcases mul_eq_zero.1 e with e | e
        · right; left; rw [sub_eq_zero.1 (pow_eq_zero_iff (by norm_num) |>.1 e)]; exact PEq.refl _
        · refine Or.inr (Or.inr (peq_of_cross (Or.inr one_ne_zero) (Or.inr (mul_ne_zero h2 hx0)) ?_))
          simp only; linear_combination -e
      · rintro (e | e | e)
        · exact absurd e (WeierstrassCurve.Affine.Point.some_ne_zero h')
        · have := e.cross; simp at this; rw [this]; ring
        · have := e.cross; simp only at this
          rw [show x ^ 2 + 1 - 2 * x * x' = 0 by linear_combination -this]; ring

/-! ### Generators of 2-power order not above `(0, 0)` -/

/-- `P` has order exactly `2^k` and the point of order two below it is not `(0, 0)`. -/
def Good2 (k : ℕ) (P : (W A).Point) : Prop :=
  2 ^ k • P = 0 ∧ (0 < k → 2 ^ (k - 1) • P ≠ 0 ∧ (xr (2 ^ (k - 1) • P)).X ≠ 0)

/-- The point of order two lying below. -/
theorem Good2.step2 (h2 : (2 : K) ≠ 0) (hA : A ^ 2 ≠ 4) {k : ℕ} {P : (W A).Point} (hP : Good2 (k + 1) P) :
    ∃ x, xr (2 ^ k • P) = ⟨x, 1⟩ ∧ (2 - 4 * x ^ 2) ^ 2 ≠ 4 ∧
      ∃ hf : XHom A (2 - 4 * x ^ 2) (f2 x), hf.ker h2 = AddSubgroup.zmultiples (2 ^ k • P) ∧
        ∃ P' : (W (2 - 4 * x ^ 2)).Point, Rep (f2 x (xr P)) P' ∧ Good2 k P' := by
  obtain ⟨h0, h1⟩ := hP
  obtain ⟨h1, hx⟩ := h1 (Nat.succ_pos _)
  rw [Nat.add_sub_cancel] at h1 hx
  have hk2 : 2 • (2 ^ k • P) = 0 := by rw [← mul_nsmul, ← pow_succ]; exact h0
  obtain ⟨x, e, hc, hf, hker⟩ := Curve.step2 h2 hA hk2 h1 hx
  obtain ⟨P', hP'⟩ := exists_rep h2 hc (hf.nz _ (xr_nz P))
  refine ⟨x, e, hc, hf, hker, P', hP', ?_, ?_⟩
  · have := hf.nsmul h2 (rep_xr P) hP' (2 ^ k) (rep_xr _)
    refine (hf.mem_ker h2 (rep_xr (2 ^ k • P)) this).1 ?_
    rw [hker]; exact AddSubgroup.mem_zmultiples _
  · intro hk
    obtain ⟨m, rfl⟩ : ∃ m, k = m + 1 := ⟨k - 1, by omega⟩
    rw [Nat.add_sub_cancel]
    have hm := hf.nsmul h2 (rep_xr P) hP' (2 ^ m) (rep_xr _)
    have hQ2 : 2 • (2 ^ m • P) = 2 ^ (m + 1) • P := by rw [← mul_nsmul, ← pow_succ]
    have hQ : 2 • (2 ^ m • P) ≠ 0 := by rw [hQ2]; exact h1
    constructor
    · intro hz
      have := (hf.mem_ker h2 (rep_xr (2 ^ m • P)) hm).2 hz
      rw [hker, zmultiples_two hk2] at this
      rcases this with h | h
      · exact hQ (by rw [h, smul_zero])
      · exact hQ (by rw [h]; exact hk2)
    · intro hz
      have hz' : (f2 x (xr (2 ^ m • P))).X = 0 := hm.X_iff.2 hz
      have hx0 : x ≠ 0 := by rw [e] at hx; exact hx
      cases hPm : 2 ^ m • P with
      | zero => exact hQ (by rw [hPm]; exact smul_zero _)
      | some x' y' h' =>
        rw [hPm] at hz' hQ
        apply hQ
        have hd := xDBL_rep h2 (is24_std A) (rep_xr (.some x' y' h' : (W A).Point))
        refine hd.Z_iff.1 ?_
        have hq : x ^ 2 + A * x + 1 = 0 := by
          cases hPk : 2 ^ (m + 1) • P with
          | zero => rw [hPk] at h1; exact absurd rfl h1
          | some x'' y'' h'' =>
            rw [hPk] at e hk2
            have : x'' = x := by simpa [xr] using e
            subst this
            exact torsion2_x h2 hk2 hx0
        simp only [f2, xr_some, mul_eq_zero] at hz'
        simp only [xDBL, xr_some]
        rcases hz' with h | h
        · rw [h]; ring
        · have e' : x' * x = 1 := by linear_combination h
          have : x' ^ 2 + A * x' + 1 = 0 := by linear_combination x' ^ 2 * hq - (x' * x + 1 + A * x') * e'
          linear_combination 16 * x' * this

/-- One 4-isogeny step. -/
theorem Good2.step4 (h2 : (2 : K) ≠ 0) {k : ℕ} {P : (W A).Point} (hP : Good2 (k + 2) P) :
    ∃ x, xr (2 ^ k • P) = ⟨x, 1⟩ ∧ (4 * x ^ 4 - 2) ^ 2 ≠ 4 ∧
      ∃ hf : XHom A (4 * x ^ 4 - 2) (f4 x), hf.ker h2 = AddSubgroup.zmultiples (2 ^ k • P) ∧
        ∃ P' : (W (4 * x ^ 4 - 2)).Point, Rep (f4 x (xr P)) P' ∧ Good2 k P' := by
  obtain ⟨h0, h1⟩ := hP
  obtain ⟨h1, hx⟩ := h1 (Nat.succ_pos _)
  rw [show k + 2 - 1 = k + 1 from rfl] at h1 hx
  have ek : 2 • (2 ^ k • P) = 2 ^ (k + 1) • P := by rw [← mul_nsmul, ← pow_succ]
  have hk4 : 4 • (2 ^ k • P) = 0 := by
    rw [← mul_nsmul, show 2 ^ k * 4 = 2 ^ (k + 2) by ring]; exact h0
  have hk2 : 2 • (2 ^ k • P) ≠ 0 := by rw [ek]; exact h1
  have hxk : (xr (2 • (2 ^ k • P))).X ≠ 0 := by rw [ek]; exact hx
  obtain ⟨x, e, hc, hx0, hxi, hq, hd, hf, hker⟩ := Curve.step4 h2 hk4 hk2 hxk
  obtain ⟨P', hP'⟩ := exists_rep h2 hc (hf.nz _ (xr_nz P))
  refine ⟨x, e, hc, hf, hker, P', hP', ?_, ?_⟩
  · have := hf.nsmul h2 (rep_xr P) hP' (2 ^ k) (rep_xr _)
    refine (hf.mem_ker h2 (rep_xr (2 ^ k • P)) this).1 ?_
    rw [hker]; exact AddSubgroup.mem_zmultiples _
  · intro hk
    obtain ⟨m, rfl⟩ : ∃ m, k = m + 1 := ⟨k - 1, by omega⟩
    rw [Nat.add_sub_cancel]
    have hm := hf.nsmul h2 (rep_xr P) hP' (2 ^ m) (rep_xr _)
    have hQ2 : 2 • (2 ^ m • P) = 2 ^ (m + 1) • P := by rw [← mul_nsmul, ← pow_succ]
    have hQ4 : 4 • (2 ^ m • P) ≠ 0 := by
      rw [show 4 = 2 * 2 from rfl, mul_nsmul, hQ2]; exact hk2
    constructor
    · intro hz
      have := (hf.mem_ker h2 (rep_xr (2 ^ m • P)) hm).2 hz
      rw [hker, zmultiples_four hk4] at this
      rcases this with h | h | h | h
      · exact hQ4 (by rw [h, smul_zero])
      · exact hQ4 (by rw [h]; exact hk4)
      · exact hQ4 (by rw [h, smul_neg, hk4, neg_zero])
      · exact hQ4 (by rw [h, ← mul_nsmul, mul_comm, mul_nsmul, hk4, smul_zero])
    · intro hz
      have hz' : (f4 x (xr (2 ^ m • P))).X = 0 := hm.X_iff.2 hz
      cases hPm : 2 ^ m • P with
      | zero => exact hQ4 (by rw [hPm]; exact smul_zero _)
      | some x' y' h' =>
        rw [hPm] at hz' hQ4 hQ2
        have hd' := xDBL_rep h2 (is24_std A) (rep_xr (.some x' y' h' : (W A).Point))
        simp only [f4, xr_some, mul_eq_zero, pow_eq_zero_iff (two_ne_zero : (2 : ℕ) ≠ 0)] at hz'
        have hne : 2 • (.some x' y' h' : (W A).Point) ≠ 0 := by
          intro h; apply hQ4; rw [show 4 = 2 * 2 from rfl, mul_nsmul, h, smul_zero]
        rcases hz' with (h | h) | h
        · apply hne
          refine hd'.Z_iff.1 ?_
          simp only [xDBL, xr_some, h]; ring
        · -- `x' = 1/x` doubles to the same point as `x`
          have e' : x' * x = 1 := by linear_combination h
          have hdx := xDBL_rep h2 (is24_std A) (rep_xr (2 ^ (m + 1) • P))
          rw [e] at hdx
          have hsame : PEq (xDBL ⟨x, 1⟩ (A + 2) 4) (xDBL ⟨x', 1⟩ (A + 2) 4) := by
            refine ⟨x' ^ 4, pow_ne_zero _ (left_ne_zero_of_mul_eq_one e'), ?_, ?_⟩
            · simp only [xDBL]
              have : x' ^ 2 * (x ^ 2 - 1) ^ 2 * x' ^ 2  = (x' ^ 2 - 1) ^ 2 := by
                have e2 : x' ^ 2 * x ^ 2 = 1 := by rw [← mul_pow, e', one_pow]
                linear_combination (x' ^ 2 * x ^ 2 + 1 - 2 * x' ^ 2) * e2
              linear_combination -4 * this
            · simp only [xDBL]
              linear_combination (-16) * (x' ^ 3 + A * x' ^ 2 * (x * x' + 1) + x' * (1 + x * x' + x ^ 2 * x' ^ 2)) * e'
          have h3 : Rep (xDBL ⟨x', 1⟩ (A + 2) 4) (2 • (2 ^ (m + 1) • P)) := hdx.peq hsame
          have h4 := hd'.eq_or_neg h3
          rw [hQ2] at h4
          rcases h4 with h4 | h4
          · apply hk2
            have : 2 ^ (m + 1) • P = 0 := by
              rw [two_nsmul] at h4
              simpa using h4
            rw [this, smul_zero]
          · apply hk2
            have h5 : 3 • (2 ^ (m + 1) • P) = 0 := by
              rw [show 3 = 2 + 1 from rfl, add_nsmul, one_nsmul]
              nth_rewrite 2 [h4]
              exact add_neg_cancel _
            have h6 : 2 ^ (m + 1) • P = 0 := by
              have := hk4
              rwa [show 4 = 3 + 1 from rfl, add_nsmul, h5, zero_add, one_nsmul] at this
            rw [h6, smul_zero]
        · apply hne
          refine hd'.Z_iff.1 ?_
          have he : x ^ 2 + 1 ≠ 0 := fun h => hxi (by linear_combination h)
          have e' : x' * (x ^ 2 + 1) = 2 * x := by linear_combination h
          have hx' : x' = 2 * x / (x ^ 2 + 1) := by rw [eq_div_iff he]; exact e'
          have hA' : A = -(x ^ 4 + 6 * x ^ 2 + 1) / (2 * x * (x ^ 2 + 1)) := by
            rw [eq_div_iff (mul_ne_zero (mul_ne_zero h2 hx0) he)]; linear_combination hq
          simp only [xDBL, xr_some]
          rw [hx', hA']
          field_simp
          ring

end Secuer.Curve
