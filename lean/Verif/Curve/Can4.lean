import Verif.Curve.Can3
import Verif.Curve.Manin

/-!
# `Check_Curve` can always return

For curves of the right order this is `checkCurve_can`. Here are the others: if the curve is nonsingular, there is a point that
is not killed by `p + 1` (by Hasse's bound, and as there are at most `(p + 1)²` points that are); if it is singular, the formulas compute in
a multiplicative group, and the number 2 is an element of it that is not killed by `p + 1`.
-/

namespace Secuer.Curve

open Secuer.Mont

section
variable {F K : Type} [Field F] [DecidableEq F] [Field K] [DecidableEq K] [IsAlgClosed K] {φ : F →+* K}

theorem card_kerMul (h2 : (2 : K) ≠ 0) (h3 : (3 : K) ≠ 0) {A : K} (hA : A ^ 2 ≠ 4) (a b : ℕ) :
    Nat.card (kerMul (W A).Point (2 ^ a * 3 ^ b)) = (2 ^ a * 3 ^ b) ^ 2 := by
  rw [card_kerMul_mul _ _ (by
      induction b with
      | zero => exact fun x => ⟨x, by simp⟩
      | succ b ih =>
        intro x
        obtain ⟨y, hy⟩ := ih x
        obtain ⟨z, hz⟩ := three_surj h2 hA y
        exact ⟨z, by rw [pow_succ', mul_nsmul, hz, hy]⟩),
    card_kerMul_pow 2 (two_surj h2 hA), card_kerMul_pow 3 (three_surj h2 hA), card_two h2 hA, card_three h2 h3 hA]
  rw [mul_pow, ← pow_mul, ← pow_mul, mul_comm a, mul_comm b, pow_mul, pow_mul]
  norm_num

/-- If all points of the curve over `F` are killed by `p + 1`, there are `(p + 1)²` of them. -/
theorem card_of_killed [Fintype F] (φ : F →+* K) (h2F : (2 : F) ≠ 0) (h3F : (3 : F) ≠ 0) {A : F} (hA : A ^ 2 ≠ 4) {p a b : ℕ}
    (hp : Fintype.card F = p ^ 2) (hp5 : 6 ≤ p) (hp1 : p + 1 = 2 ^ a * 3 ^ b) (hk : ∀ X : (W A).Point, (p + 1) • X = 0) :
    Nat.card (W A).Point = (p + 1) ^ 2 := by
  have h3 : (3 : K) ≠ 0 := by
    have := (map_ne_zero φ).2 h3F
    simpa [map_ofNat] using this
  obtain ⟨ι, hinj, -⟩ := exists_pointMap φ A
  let f : (W A).Point →+ kerMul (W (φ A)).Point (p + 1) :=
    { toFun := fun X => ⟨ι X, by rw [mem_kerMul, ← map_nsmul, hk, map_zero]⟩
      map_zero' := Subtype.ext (map_zero ι)
      map_add' := fun X Y => Subtype.ext (map_add ι X Y) }
  have hf : Function.Injective f := fun X Y h => hinj (congrArg Subtype.val h)
  have hdvd := AddSubgroup.card_dvd_of_injective f hf
  rw [hp1, card_kerMul (two_map φ h2F) h3 (sq_ne_four_map φ hA), ← hp1] at hdvd
  obtain ⟨hlo, hhi⟩ := Manin.hasse h2F hA hp
  obtain ⟨d, hd⟩ := hdvd
  rw [hd]
  rcases Nat.lt_or_ge d 2 with h | h
  · have h0 : d ≠ 0 := by
      rintro rfl
      have : 0 < (p + 1) ^ 2 := by positivity
      omega
    rw [show d = 1 by omega, mul_one]
  · exfalso
    have h1 : Nat.card (W A).Point * 2 ≤ (p + 1) ^ 2 := hd ▸ Nat.mul_le_mul_left _ h
    obtain ⟨q, rfl⟩ : ∃ q, p = q + 1 := ⟨p - 1, by omega⟩
    rw [Nat.add_sub_cancel] at hlo
    nlinarith
end

variable {F K : Type} [Field F] [DecidableEq F] [Field K] [DecidableEq K] [IsAlgClosed K]
variable {φ : F →+* K} {σ : K →+* K} {p : ℕ} {env : Env F}

/-- `Check_Curve` can reject a nonsingular curve with a point that is not killed by `2^e2·3^e3`. -/
theorem checkCurve_can_reject (hs : SqrtOK env) (h2F : (2 : F) ≠ 0) (po : ProvesOrder) (junk : ℕ → Pt F × Pt F) {A : F}
    {X : (W A).Point} (hX : (2 ^ env.e2 * 3 ^ env.e3) • X ≠ 0) : Can (checkCurve env po junk ⟨A, 1⟩) (fun b => b = false) := by
  have hX0 : X ≠ 0 := by rintro rfl; exact hX (nsmul_zero _)
  obtain ⟨h24, hpm⟩ := acToAac24_is24 (⟨A, 1⟩ : Crv F) one_ne_zero
  simp only [div_one] at h24 hpm
  unfold checkCurve
  simp only
  revert h24 hpm
  generalize acToAac24 (⟨A, 1⟩ : Crv F) = r
  obtain ⟨a, am, c⟩ := r
  intro h24 hpm
  simp only at h24 hpm ⊢
  rw [show (9999 : ℕ) = 9998 + 1 from rfl, checkCurveLoop]
  refine Can.bind (randomPoint_can hs hX0) (fun P hP => ?_)
  simp only
  have hQ := xTPLe_rep h2F hpm env.e3 hP
  rcases hv2 : valLoop (fun Q => xDBL Q a c) env.e2 0 (junk 9998).1 (xTPLe P am a env.e3) with ⟨h2, T2, Q2⟩
  obtain ⟨d, hd, e1, e2, e3, e4, e5, e6⟩ := valLoop_spec (ℓ := 2)
    (fun q X hq => xDBL_rep h2F h24 hq) _ _ _ _ _ _ _ _ hQ hv2
  have hd' : d = env.e2 := by
    by_contra hne
    have h0 := e6 (by omega)
    apply hX
    rw [mul_nsmul', show env.e2 = (env.e2 - d) + d by omega, pow_add, mul_nsmul', h0, nsmul_zero]
  have hz : Q2.Z ≠ 0 := by
    intro h
    have := e2.Z_iff.1 h
    rw [hd', ← mul_nsmul'] at this
    exact hX this
  simp only [ne_eq, hz, not_false_eq_true, if_true]
  exact Can.pure rfl

/-! ### Singular curves -/

/-- The point with parameter `w` of the multiplicative group, on the curve with coefficient `2ε`. -/
def MulRep (ε w : F) (P : Pt F) : Prop := ∃ c : F, c ≠ 0 ∧ P.X = -ε * c * (w + 1) ^ 2 ∧ P.Z = c * (w - 1) ^ 2

theorem MulRep.dbl {ε w : F} (h2F : (2 : F) ≠ 0) (hε : ε ^ 2 = 1) (hw : w ≠ 0) {P : Pt F} (h : MulRep ε w P) :
    MulRep ε (w ^ 2) (xDBL P (2 * ε + 2) 4) := by
  obtain ⟨c, hc, hX, hZ⟩ := h
  have hε0 : ε ≠ 0 := by rintro rfl; simp at hε
  refine ⟨-ε * 2 ^ 8 * c ^ 4 * w ^ 2, by simp [h2F, hc, hw, hε0], ?_, ?_⟩
  · rcases sq_eq_one_iff.1 hε with rfl | rfl
    · simp only [xDBL, hX, hZ]; ring
    · simp only [xDBL, hX, hZ]; ring
  · rcases sq_eq_one_iff.1 hε with rfl | rfl
    · simp only [xDBL, hX, hZ]; ring
    · simp only [xDBL, hX, hZ]; ring

theorem MulRep.tpl {ε w : F} (h2F : (2 : F) ≠ 0) (hε : ε ^ 2 = 1) (hw : w ≠ 0) {P : Pt F} (h : MulRep ε w P) :
    MulRep ε (w ^ 3) (xTPL P (2 * ε - 2) (2 * ε + 2)) := by
  obtain ⟨c, hc, hX, hZ⟩ := h
  refine ⟨2 ^ 21 * c ^ 9 * w ^ 6, by simp [h2F, hc, hw], ?_, ?_⟩
  · rcases sq_eq_one_iff.1 hε with rfl | rfl
    · simp only [xTPL, hX, hZ]; ring
    · simp only [xTPL, hX, hZ]; ring
  · rcases sq_eq_one_iff.1 hε with rfl | rfl
    · simp only [xTPL, hX, hZ]; ring
    · simp only [xTPL, hX, hZ]; ring

theorem MulRep.Z_iff {ε w : F} {P : Pt F} (h : MulRep ε w P) : P.Z = 0 ↔ w = 1 := by
  obtain ⟨c, hc, _, hZ⟩ := h
  rw [hZ]
  simp [hc, sub_eq_zero]

theorem MulRep.tple {ε : F} (h2F : (2 : F) ≠ 0) (hε : ε ^ 2 = 1) : ∀ (n : ℕ) {w : F} {P : Pt F}, w ≠ 0 → MulRep ε w P →
    MulRep ε (w ^ 3 ^ n) (xTPLe P (2 * ε - 2) (2 * ε + 2) n)
  | 0, w, P, _, h => by simpa [xTPLe] using h
  | n + 1, w, P, hw, h => by
    unfold xTPLe
    have := MulRep.tple h2F hε n (pow_ne_zero 3 hw) (h.tpl h2F hε hw)
    rwa [← pow_mul, ← pow_succ'] at this

theorem MulRep.val {ε : F} (h2F : (2 : F) ≠ 0) (hε : ε ^ 2 = 1) : ∀ (n h : ℕ) {w : F} {T Q : Pt F}, w ≠ 0 → MulRep ε w Q →
    (valLoop (fun Q => xDBL Q (2 * ε + 2) 4) n h T Q).2.2.Z = 0 → w ^ 2 ^ n = 1
  | 0, _, w, T, Q, _, h, h0 => by simpa using h.Z_iff.1 h0
  | n + 1, k, w, T, Q, hw, h, h0 => by
    unfold valLoop at h0
    by_cases hz : Q.Z = 0
    · rw [h.Z_iff.1 hz, one_pow]
    · rw [if_neg hz] at h0
      have := MulRep.val h2F hε n _ (pow_ne_zero 2 hw) (h.dbl h2F hε hw) h0
      rwa [← pow_mul, ← pow_succ'] at this

/-- `Check_Curve` can reject a singular curve. -/
theorem checkCurve_can_singular (hs : SqrtOK env) (h2F : (2 : F) ≠ 0) (hi : IsSquare (-1 : F))
    (h4 : (2 : F) ^ (2 ^ env.e2 * 3 ^ env.e3) ≠ 1) (po : ProvesOrder) (junk : ℕ → Pt F × Pt F) {A : F} (hA : A ^ 2 = 4) :
    Can (checkCurve env po junk ⟨A, 1⟩) (fun b => b = false) := by
  obtain ⟨ε, hε, rfl⟩ : ∃ ε : F, ε ^ 2 = 1 ∧ A = 2 * ε := by
    refine ⟨A / 2, ?_, by field_simp⟩
    rw [div_pow, hA]
    have : (2 : F) ^ 2 = 4 := by norm_num
    rw [← this, div_self (pow_ne_zero 2 h2F)]
  have hr : MulRep ε 2 ⟨-9 * ε, 1⟩ := ⟨1, one_ne_zero, by ring, by norm_num⟩
  have hsq : IsSquare (rhsOf (2 * ε) (-9 * ε)) := by
    obtain ⟨i, hi⟩ := hi
    rcases sq_eq_one_iff.1 hε with rfl | rfl
    · exact ⟨24 * i, by simp only [rhsOf]; linear_combination 576 * hi⟩
    · exact ⟨24, by simp only [rhsOf]; ring⟩
  unfold checkCurve
  simp only [acToAac24]
  rw [show (1 : F) + 1 = 2 by norm_num, show (2 : F) + 2 = 4 by norm_num, show 2 * ε + 2 - 4 = 2 * ε - 2 by ring,
    show (9999 : ℕ) = 9998 + 1 from rfl, checkCurveLoop]
  have hd : Can (randomPoint env (2 * ε)) (fun P => P = ⟨-9 * ε, 1⟩) := by
    refine ⟨⟨[-9 * ε], [], []⟩, _, rfl, fun t => ?_⟩
    simp only [randomPoint, Tape.app, List.cons_append, List.nil_append, randomPointAux]
    rw [if_pos (hs _ hsq)]
  refine hd.bind ?_
  rintro _ rfl
  have hq := MulRep.tple h2F hε env.e3 h2F hr
  rcases hv2 : valLoop (fun Q => xDBL Q (2 * ε + 2) 4) env.e2 0 (junk 9998).1
    (xTPLe ⟨-9 * ε, 1⟩ (2 * ε - 2) (2 * ε + 2) env.e3) with ⟨h2, T2, Q2⟩
  have hz : Q2.Z ≠ 0 := by
    intro h0
    have := MulRep.val h2F hε env.e2 0 (pow_ne_zero _ h2F) hq (T := (junk 9998).1) (by rw [hv2]; exact h0)
    rw [← pow_mul, mul_comm] at this
    exact h4 this
  simp only [hv2, ne_eq, hz, not_false_eq_true, if_true]
  exact Can.pure rfl

/-- `Check_Curve` can return. -/
theorem checkCurve_total [Fintype F] (hS : Setting φ σ p env) (h3F : (3 : F) ≠ 0) (h4 : (2 : F) ^ (p + 1) ≠ 1)
    (hp : Fintype.card F = p ^ 2) (hp6 : 6 ≤ p) (po : ProvesOrder) (junk : ℕ → Pt F × Pt F)
    (hpo : po (2 * env.e2) env.e3 = true) (hpo0 : po 0 0 = false) (A : F)
    (hsuper : A ^ 2 ≠ 4 → Nat.card (W A).Point = (p + 1) ^ 2 → Super φ σ p A) :
    Can (checkCurve env po junk ⟨A, 1⟩) (fun _ => True) := by
  by_cases hA : A ^ 2 = 4
  · exact (checkCurve_can_singular hS.sqrt hS.two hS.neg (by rwa [← hS.order]) po junk hA).mono fun _ _ => trivial
  · by_cases hk : ∀ X : (W A).Point, (p + 1) • X = 0
    · have hs := hsuper hA (card_of_killed φ hS.two h3F hA hp hp6 hS.order hk)
      exact (checkCurve_can hS h3F po junk (expo_pos hS.good (ℓ := 2) (Or.inl rfl))
        (expo_pos hS.good (ℓ := 3) (Or.inr rfl)) hpo hpo0 hs).mono fun _ _ => trivial
    · push Not at hk
      obtain ⟨X, hX⟩ := hk
      rw [hS.order] at hX
      exact (checkCurve_can_reject hS.sqrt hS.two po junk hX).mono fun _ _ => trivial

end Secuer.Curve
